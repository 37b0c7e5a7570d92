import Verif.Props.Demo
import Verif.Proof.IFuzz
import Verif.Props.ISet

/-!
# C60: the crate's randomised tests and fuzz targets cannot fail (inclusive)
-/
set_option linter.unusedSectionVars false

namespace Verif.Props.Inclusive
open RangeInclusiveMap Spec
variable {K : Type} [LE K] [LT K] [DecidableLE K] [DecidableLT K]
  [Std.IsLinearPreorder K] [Std.LawfulOrderLT K] {V : Type} [BEq V] [PartialEquivBEq V]
  {S : StepFns K}

/-- **C60** The fuzz target `rangemap_inclusive_coalesce` passes on every input (the generator for
`RangeInclusive` yields ordered bounds), and its own `- 1` does not overflow. -/
theorem C60_fuzz_coalesce (hS : LawfulSteps S) (ops : List (FuzzOp (RangeInclusive K) V))
    (hv : ∀ op ∈ ops, op.range.start ≤ op.range.stop) : fuzzCoalesce S ops = .ok () := by
  obtain ⟨m, h1, h2⟩ := fuzzRun_ok hS ops hv (m := (new : RangeInclusiveMap K V)) ⟨[], rfl⟩
  simp only [fuzzCoalesce, h1, bind, Except.bind]
  exact fuzzPeek_ok hS (h2.sc hS).sep (h2.sc hS).coal

example := Inclusive.C60_fuzz_coalesce (K := UIntW 8) (V := Char) (S := Demo.u8) Demo.u8_lawful
    [.insert (Demo.by8 2 22) 'q', .remove (Demo.by8 4 5)] (by decide)

/-- **C60** The fuzz target `rangemap_inclusive_gaps` passes on every input, and its own `+ 1` does
not overflow. -/
theorem C60_fuzz_gaps (hS : LawfulSteps S) (ops : List (FuzzOp (RangeInclusive K) V))
    (hv : ∀ op ∈ ops, op.range.start ≤ op.range.stop) (outer : RangeInclusive K)
    (hx : outer.exhausted = false) :
    ∃ n, ∀ fuel, n ≤ fuel → fuzzGaps S fuel ops outer = .ok () := by
  obtain ⟨m, h1, hm⟩ := fuzzRun_ok hS ops hv (m := (new : RangeInclusiveMap K V)) ⟨[], rfl⟩
  by_cases ho : outer.start ≤ outer.stop
  · obtain ⟨o, os, g, gs, ps, h2, h3, h4, h5, h6, h7⟩ := C45_tiling hS hm outer ho
    refine ⟨os.length + gs.length + 1, fun fuel hf => ?_⟩
    simp only [fuzzGaps, h1, h2, h4, Yields.drain h3 (show _ ≤ fuel by omega),
      YieldsE.drain h5 (show _ ≤ fuel by omega), bind, Except.bind]
    -- the pieces of `C45_tiling`, and those of the fuzz target beside them
    let L : List (RangeInclusive K × RangeInclusive K) := os.map (fun e =>
      (.mk' (rmax outer.start e.1.start) (rmin outer.stop e.1.stop),
        .mk' (rmax e.1.start outer.start) (rmin e.1.stop outer.stop))) ++ gs.map fun r => (r, r)
    obtain ⟨P, hP, hps⟩ := perm_lift (fun x : RangeInclusive K × RangeInclusive K => x.1) h6
      (L := L) (by simp [L, List.map_append, List.map_map, Function.comp_def])
    have hsame : ∀ x ∈ P, keq x.1.start x.2.start = true ∧ keq x.1.stop x.2.stop = true := by
      intro x hx
      have hx := hP.mem_iff.1 hx
      simp only [L, List.mem_append, List.mem_map] at hx
      rcases hx with ⟨e, _, rfl⟩ | ⟨r, _, rfl⟩
      · simp only [RangeInclusive.mk', keq_iff, rmax_le, le_rmax, rmin_le, le_rmin]
        grind
      · simp only [keq_iff]
        grind
    rw [← hps] at h7
    have ht := ITiles.replace h7 hsame (G := fun k => keq outer.start k = true) fun k k' hk h => by
      rw [keq_iff] at *
      grind
    have hperm := hP.map (fun x : RangeInclusive K × RangeInclusive K => x.2)
    have hL : L.map (fun x : RangeInclusive K × RangeInclusive K => x.2) = os.map (fun e =>
        RangeInclusive.mk' (rmax e.1.start outer.start) (rmin e.1.stop outer.stop)) ++ gs := by
      simp [L, List.map_append, List.map_map, Function.comp_def]
    rw [hL] at hperm
    rw [List.filter_eq_self.2, mergeSort_eq (key := fun r : RangeInclusive K => r.start) hperm
      (ITiles.sorted ht).2]
    · exact ITiles.fuzz hS ht ho hx
    · intro r hr
      have h8 := (ITiles.sorted ht).1 r (hperm.mem_iff.2 (by simp [hr]))
      obtain ⟨e, _, rfl⟩ := List.mem_map.1 hr
      simp only [RangeInclusive.mk'] at h8
      simp [RangeInclusive.isEmpty, RangeInclusive.mk', h8]
  · obtain ⟨g, h2, h3⟩ := C31_inverted_outer hS hm outer (by grind)
    obtain ⟨o, h4, h5⟩ := C32_overlapping_exact hS hm outer
    refine ⟨m.len + 1, fun fuel hf => ?_⟩
    have hlen := List.length_filter_le (fun e : RangeInclusive K × V =>
      decide (outer.start ≤ e.1.stop) && decide (e.1.start ≤ outer.stop)) m.iter
    have hm' : m.iter.length = m.len := rfl
    simp only [fuzzGaps, h1, h2, h4, YieldsE.drain h3 (show [].length + 1 ≤ fuel by simp; omega),
      Yields.drain h5 (show _ ≤ fuel by omega), bind, Except.bind]
    rw [List.filter_eq_nil_iff.2]
    · simp [fuzzTiles, RangeInclusive.isEmpty, ho]
    · intro r hr
      obtain ⟨e, _, rfl⟩ := List.mem_map.1 hr
      simp only [RangeInclusive.isEmpty, RangeInclusive.mk', Bool.false_or, Bool.not_not,
        decide_eq_true_eq, le_rmin, rmax_le]
      grind

example := Inclusive.C60_fuzz_gaps (K := UIntW 8) (V := Char) (S := Demo.u8) Demo.u8_lawful
    [.insert (Demo.by8 2 22) 'q', .remove (Demo.by8 4 5)] (by decide) (Demo.by8 2 22) (by decide)

/-- **C60** `test_first` and `test_last`: `first_range_value` is the entry with the least start and
`last_range_value` the entry with the greatest end. -/
theorem C60_first_last (hS : LawfulSteps S) {m : RangeInclusiveMap K V} (hm : ReachableAny S m) :
    m.firstRangeValue = minByKey (fun e => e.1.start) m.iter ∧
    m.lastRangeValue = maxByKey (fun e => e.1.stop) m.iter := by
  have hs := (hm.sc hS).sep
  have hp : m.iter.Pairwise fun x y => x.1.start < y.1.start ∧ x.1.stop < y.1.stop := by
    refine List.Pairwise.imp_of_mem ?_ hs.pw
    intro a b ha hb h
    have := hs.ne a ha
    have := hs.ne b hb
    grind [Before]
  exact ⟨(minByKey_sorted (hp.imp fun h => h.1)).symm, (maxByKey_sorted (hp.imp fun h => h.2)).symm⟩

example := Inclusive.C60_first_last (K := UIntW 8) (V := Char) (S := Demo.u8) Demo.u8_lawful
    (m := Demo.imap) Demo.imap_reachable.any

theorem overlapsTest_ok (hS : LawfulSteps S) {l : List (RangeInclusive K)}
    (hne : ∀ r ∈ l, r.start ≤ r.stop ∧ r.exhausted = false)
    (hp : l.Pairwise fun r r' => r.stop < r'.start) {s : RangeInclusiveSet K}
    (hs : RangeInclusiveSet.Reachable S s)
    (hlt : ∀ k, s.contains k = .ok true → ∀ r ∈ l, k < r.start) :
    s.overlapsTest S l = .ok () := by
  induction l generalizing s with
  | nil => rfl
  | cons r t ih =>
    have hr := hne r (by simp)
    obtain ⟨hpr, hpt⟩ := List.pairwise_cons.1 hp
    obtain ⟨o, h1, h2, _⟩ := C48_overlapping hS hs.any r [.front]
    have hnil : (s.iter.filter fun x => decide (r.start ≤ x.stop) && decide (x.start ≤ r.stop)) =
        [] := by
      rw [List.filter_eq_nil_iff]
      intro x hx hc
      simp only [Bool.and_eq_true, decide_eq_true_eq] at hc
      have hxne : x.start ≤ x.stop := (((RangeInclusiveSet.reachable_iff hS s).1 hs).1 x hx).1
      have hcont : ∀ k, x.start ≤ k → k ≤ x.stop → s.contains k = .ok true := by
        intro k h3 h4
        obtain ⟨o, _, g2, g3⟩ := C36_get hS hs k
        rw [g2, (g3 x).2 ⟨hx, h3, h4⟩]
        rfl
      have h3 := hlt x.start (hcont _ (by grind) hxne) r (by simp)
      have h4 := hlt r.start (hcont _ (by grind) hc.1) r (by simp)
      grind
    obtain ⟨s', h3, h4, h5⟩ := C36_insert hS hs hr.1 hr.2
    have hnone : o.next.1.isNone = true := by
      rw [hnil] at h2
      simp only [script, dequeScript, List.head?_nil, List.cons.injEq] at h2
      rw [h2.1]; rfl
    simp only [RangeInclusiveSet.overlapsTest, h1, h3, hnone, check_true, bind, Except.bind]
    refine ih (fun x hx => hne x (by simp [hx])) hpt h4 fun k hk x hx => ?_
    obtain ⟨b, g1, g2⟩ := h5 k
    rw [hk] at g2
    simp only [Except.ok.injEq] at g2
    by_cases hkr : r.start ≤ k ∧ k ≤ r.stop
    · have := hpr x hx
      grind
    · simp only [hkr, decide_false, Bool.false_or] at g2
      subst g2
      exact hlt k g1 x (by simp [hx])

theorem new_lt (hS : LawfulSteps S) (l : List (RangeInclusive K)) : ∀ k,
    (RangeInclusiveSet.new : RangeInclusiveSet K).contains k = .ok true → ∀ r ∈ l, k < r.start := by
  intro k hk
  exfalso
  have := C36_refinement hS ([] : List (SetOp (RangeInclusive K))) (by simp) k
  rw [show RangeInclusiveSet.run S ([] : List (SetOp (RangeInclusive K))) =
    RangeInclusiveSet.new from rfl, hk] at this
  simp [member] at this

/-- **C60** `test_union_overlaps_u8` passes: the ranges yielded by `union` do not overlap. -/
theorem C60_union_overlaps (hS : LawfulSteps S) {a b : RangeInclusiveSet K}
    (ha : RangeInclusiveSet.Reachable S a) (hb : RangeInclusiveSet.Reachable S b) :
    ∃ l, Yields Union.next (a.union b) l ∧ RangeInclusiveSet.new.overlapsTest S l = .ok () := by
  obtain ⟨l, h1, h2, h3, _⟩ := C37_union hS ha hb
  exact ⟨l, h1, overlapsTest_ok hS h2 h3 ⟨[], by simp, rfl⟩ (new_lt hS l)⟩

example := Inclusive.C60_union_overlaps (K := UIntW 8) (S := Demo.u8) Demo.u8_lawful
    (a := Demo.iset) (b := Demo.iset') Demo.iset_reachable Demo.iset'_reachable

/-- **C60** `test_intersection_overlaps_u8` passes. -/
theorem C60_intersection_overlaps (hS : LawfulSteps S) {a b : RangeInclusiveSet K}
    (ha : RangeInclusiveSet.Reachable S a) (hb : RangeInclusiveSet.Reachable S b) :
    ∃ l, Yields Intersection.next (a.intersection b) l ∧
      RangeInclusiveSet.new.overlapsTest S l = .ok () := by
  obtain ⟨l, h1, h2, h3, _⟩ := C38_intersection hS ha hb
  exact ⟨l, h1, overlapsTest_ok hS h2 (h3.imp fun h => h.1) ⟨[], by simp, rfl⟩ (new_lt hS l)⟩

-- each assertion can fail on other data, including the arithmetic of the fuzz targets themselves
example : (fuzzPeek Demo.u8 [(Demo.by8 1 3, 'a'), (Demo.by8 4 5, 'a')]).toOption = none := by rfl
example : (fuzzPeek Demo.u8 [(Demo.by8 1 3, 'a'), (Demo.by8 0 5, 'b')]).toOption = none := by rfl
example : (fuzzTiles Demo.u8 (Demo.by8 1 5) [Demo.by8 1 2, Demo.by8 4 5]).toOption = none := by rfl
example : (fuzzTiles Demo.u8 (Demo.by8 1 5) [Demo.by8 1 255, Demo.by8 0 5]).toOption = none := by rfl
example : (fuzzTiles Demo.u8 (Demo.by8 5 1) [Demo.by8 1 2]).toOption = none := by rfl
example : ((RangeInclusiveSet.new : RangeInclusiveSet (UIntW 8)).overlapsTest Demo.u8
    [Demo.by8 1 3, Demo.by8 3 4]).toOption = none := by rfl
-- and can pass
example : (fuzzTiles Demo.u8 (Demo.by8 1 255) [Demo.by8 1 2, Demo.by8 3 3, Demo.by8 4 255]).toOption =
    some () := by rfl
example : LawfulSteps Demo.u8 ∧ Reachable Demo.u8 Demo.imap ∧ 2 ≤ Demo.imap.iter.length :=
  ⟨Demo.u8_lawful, Demo.imap_reachable, by decide⟩

end Verif.Props.Inclusive

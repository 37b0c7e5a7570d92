import Verif.Props.Demo
import Verif.Proof.Fuzz
import Verif.Props.Set

/-!
# C60: the crate's randomised tests and fuzz targets cannot fail (half-open)
-/
set_option linter.unusedSectionVars false

namespace Verif.Props
open RangeMap Spec
variable {K : Type} [LE K] [LT K] [DecidableLE K] [DecidableLT K]
  [Std.IsLinearPreorder K] [Std.LawfulOrderLT K] {V : Type} [BEq V] [PartialEquivBEq V]

/-- **C60** The fuzz target `rangemap_coalesce` passes on every input. -/
theorem C60_fuzz_coalesce (ops : List (FuzzOp (Range K) V)) : fuzzCoalesce ops = .ok () := by
  obtain ⟨m, h1, h2⟩ := fuzzRun_ok ops (m := (new : RangeMap K V)) ⟨[], rfl⟩
  simp only [fuzzCoalesce, h1, bind, Except.bind]
  refine fuzzPeek_ok fun a ha b hb hk => ?_
  exact h2.wf.coal a ha b hb (keq_iff.1 hk).1 (keq_iff.1 hk).2

example := C60_fuzz_coalesce (K := Nat) (V := Char) [.insert ⟨2, 22⟩ 'q', .remove ⟨4, 5⟩]

/-- **C60** The fuzz target `rangemap_gaps` passes on every input. -/
theorem C60_fuzz_gaps (ops : List (FuzzOp (Range K) V)) (outer : Range K) :
    ∃ n, ∀ fuel, n ≤ fuel → fuzzGaps fuel ops outer = .ok () := by
  obtain ⟨m, h1, hm⟩ := fuzzRun_ok ops (m := (new : RangeMap K V)) ⟨[], rfl⟩
  by_cases ho : outer.start < outer.stop
  · obtain ⟨o, os, g, gs, ps, h2, h3, h4, h5, h6, h7⟩ := C12_tiling hm outer ho
    refine ⟨os.length + gs.length + 1, fun fuel hf => ?_⟩
    simp only [fuzzGaps, h1, h2, h4, Yields.drain h3 (show _ ≤ fuel by omega),
      Yields.drain h5 (show _ ≤ fuel by omega), bind, Except.bind]
    -- the pieces of `C12_tiling`, and those of the fuzz target beside them
    let L : List (Range K × Range K) := os.map (fun e =>
      (⟨rmax outer.start e.1.start, rmin outer.stop e.1.stop⟩,
        ⟨rmax e.1.start outer.start, rmin e.1.stop outer.stop⟩)) ++ gs.map fun r => (r, r)
    obtain ⟨P, hP, hps⟩ := perm_lift (fun x : Range K × Range K => x.1) h6 (L := L) (by
      simp [L, List.map_append, List.map_map, Function.comp_def])
    have hsame : ∀ x ∈ P, keq x.1.start x.2.start = true ∧ keq x.1.stop x.2.stop = true := by
      intro x hx
      have hx := hP.mem_iff.1 hx
      simp only [L, List.mem_append, List.mem_map] at hx
      rcases hx with ⟨e, _, rfl⟩ | ⟨r, _, rfl⟩
      · simp only [keq_iff, rmax_le, le_rmax, rmin_le, le_rmin]
        grind
      · simp only [keq_iff]
        grind
    rw [← hps] at h7
    have ht := Tiles.replace h7 hsame
    have hne : ∀ p ∈ P.map (·.2), p.start < p.stop := by
      have : ∀ (ps : List (Range K)) (a : K), Tiles a ps outer.stop → ∀ p ∈ ps, p.start < p.stop := by
        intro ps
        induction ps with
        | nil => simp
        | cons p ps ih =>
          intro a h q hq
          rcases List.mem_cons.1 hq with rfl | hq
          · exact h.2.1
          · exact ih _ h.2.2 q hq
      exact this _ _ ht
    have hperm := hP.map (fun x : Range K × Range K => x.2)
    have hL : L.map (fun x : Range K × Range K => x.2) = os.map (fun e =>
        (⟨rmax e.1.start outer.start, rmin e.1.stop outer.stop⟩ : Range K)) ++ gs := by
      simp [L, List.map_append, List.map_map, Function.comp_def]
    rw [hL] at hperm
    rw [List.filter_eq_self.2, mergeSort_eq (key := fun r : Range K => r.start) hperm
      (Tiles.sorted ht).2]
    · exact Tiles.fuzz ht ho
    · intro r hr
      have := hne r (hperm.mem_iff.2 (by simp [hr]))
      simp [Range.isEmpty, this]
  · obtain ⟨g, h2, h3⟩ := C11_empty_outer hm outer (by grind)
    obtain ⟨o, h4, h5⟩ := C13_overlapping_exact hm outer
    refine ⟨m.len + 1, fun fuel hf => ?_⟩
    have hlen := List.length_filter_le (fun e : Range K × V =>
      decide (outer.start < e.1.stop) && decide (e.1.start < outer.stop)) m.iter
    have hm' : m.iter.length = m.len := rfl
    simp only [fuzzGaps, h1, h2, h4, Yields.drain h3 (show [].length + 1 ≤ fuel by simp; omega),
      Yields.drain h5 (show _ ≤ fuel by omega), bind, Except.bind]
    rw [List.filter_eq_nil_iff.2]
    · simp [fuzzTiles, Range.isEmpty, ho]
    · intro r hr
      obtain ⟨e, _, rfl⟩ := List.mem_map.1 hr
      simp only [Range.isEmpty, Bool.not_not, decide_eq_true_eq, lt_rmin, rmax_lt]
      grind

example := C60_fuzz_gaps (K := Nat) (V := Char) [.insert ⟨2, 22⟩ 'q', .remove ⟨4, 5⟩] ⟨2, 22⟩

/-- **C60** `test_first` and `test_last`: `first_range_value` is the entry with the least start and
`last_range_value` the entry with the greatest end. -/
theorem C60_first_last {m : RangeMap K V} (hm : Reachable m) :
    m.firstRangeValue = minByKey (fun e => e.1.start) m.iter ∧
    m.lastRangeValue = maxByKey (fun e => e.1.stop) m.iter := by
  have hs := hm.wf.sep
  have hp : m.iter.Pairwise fun x y => x.1.start < y.1.start ∧ x.1.stop < y.1.stop := by
    refine List.Pairwise.imp_of_mem ?_ hs.pw
    intro a b ha hb h
    have := hs.ne a ha
    have := hs.ne b hb
    grind [Before]
  exact ⟨(minByKey_sorted (hp.imp fun h => h.1)).symm, (maxByKey_sorted (hp.imp fun h => h.2)).symm⟩

example := C60_first_last (K := Nat) (V := Char) (m := Demo.map) Demo.map_reachable

theorem overlapsTest_ok {l : List (Range K)} (hne : ∀ r ∈ l, r.start < r.stop)
    (hp : l.Pairwise fun r r' => r.stop ≤ r'.start) {s : RangeSet K} (hs : RangeSet.Reachable s)
    (hlt : ∀ k, s.contains k = .ok true → ∀ r ∈ l, k < r.start) :
    s.overlapsTest l = .ok () := by
  induction l generalizing s with
  | nil => rfl
  | cons r t ih =>
    have hr := hne r (by simp)
    obtain ⟨hpr, hpt⟩ := List.pairwise_cons.1 hp
    obtain ⟨o, h1, h2, _⟩ := C48_overlapping hs r [.front]
    have hnil : (s.iter.filter fun x => decide (r.start < x.stop) && decide (x.start < r.stop)) =
        [] := by
      rw [List.filter_eq_nil_iff]
      intro x hx hc
      simp only [Bool.and_eq_true, decide_eq_true_eq] at hc
      have hxne : x.start < x.stop := ((RangeSet.reachable_iff s).1 hs).1 x hx
      have hcont : ∀ k, x.start ≤ k → k < x.stop → s.contains k = .ok true := by
        intro k h3 h4
        obtain ⟨o, _, g2, g3⟩ := C35_get hs k
        rw [g2, (g3 x).2 ⟨hx, h3, h4⟩]
        rfl
      have h3 := hlt x.start (hcont _ (by grind) hxne) r (by simp)
      have h4 := hlt r.start (hcont _ (by grind) hc.1) r (by simp)
      grind
    obtain ⟨s', h3, h4, h5⟩ := C35_insert hs hr
    have hnone : o.next.1.isNone = true := by
      rw [hnil] at h2
      simp only [script, dequeScript, List.head?_nil, List.cons.injEq] at h2
      rw [h2.1]; rfl
    simp only [RangeSet.overlapsTest, h1, h3, hnone, check_true, bind, Except.bind]
    refine ih (fun x hx => hne x (by simp [hx])) hpt h4 fun k hk x hx => ?_
    obtain ⟨b, g1, g2⟩ := h5 k
    rw [hk] at g2
    simp only [Except.ok.injEq] at g2
    by_cases hkr : r.start ≤ k ∧ k < r.stop
    · have := hpr x hx
      grind
    · simp only [hkr, decide_false, Bool.false_or] at g2
      subst g2
      exact hlt k g1 x (by simp [hx])

theorem new_lt (l : List (Range K)) :
    ∀ k, (RangeSet.new : RangeSet K).contains k = .ok true → ∀ r ∈ l, k < r.start := by
  intro k hk
  exfalso
  have := C35_refinement ([] : List (SetOp (Range K))) k
  rw [show RangeSet.run ([] : List (SetOp (Range K))) = RangeSet.new from rfl, hk] at this
  simp [member] at this

/-- **C60** `test_union_overlaps_u8` passes: the ranges yielded by `union` do not overlap. -/
theorem C60_union_overlaps {a b : RangeSet K} (ha : RangeSet.Reachable a)
    (hb : RangeSet.Reachable b) :
    ∃ l, Yields Union.next (a.union b) l ∧ RangeSet.new.overlapsTest l = .ok () := by
  obtain ⟨l, h1, h2, h3, _⟩ := C37_union ha hb
  exact ⟨l, h1, overlapsTest_ok h2 (h3.imp fun h => by grind) ⟨[], rfl⟩ (new_lt l)⟩

example := C60_union_overlaps (K := Nat) (a := Demo.set) (b := Demo.set') Demo.set_reachable
    Demo.set'_reachable

/-- **C60** `test_intersection_overlaps_u8` passes. -/
theorem C60_intersection_overlaps {a b : RangeSet K} (ha : RangeSet.Reachable a)
    (hb : RangeSet.Reachable b) :
    ∃ l, Yields Intersection.next (a.intersection b) l ∧
      RangeSet.new.overlapsTest l = .ok () := by
  obtain ⟨l, h1, h2, h3, _⟩ := C38_intersection ha hb
  exact ⟨l, h1, overlapsTest_ok h2 (h3.imp fun h => by grind) ⟨[], rfl⟩ (new_lt l)⟩

-- the programs do test something: each assertion can fail on other data
example : (fuzzPeek [((⟨1, 3⟩ : Range Nat), 'a'), (⟨3, 5⟩, 'a')]).toOption = none := by rfl
example : (fuzzTiles (⟨1, 5⟩ : Range Nat) [⟨1, 3⟩, ⟨4, 5⟩]).toOption = none := by rfl
example : (fuzzTiles (⟨1, 5⟩ : Range Nat) [⟨1, 3⟩, ⟨3, 4⟩]).toOption = none := by rfl
example : (fuzzTiles (⟨1, 1⟩ : Range Nat) [⟨1, 3⟩]).toOption = none := by rfl
example : ((RangeSet.new : RangeSet Nat).overlapsTest [⟨1, 3⟩, ⟨2, 4⟩]).toOption = none := by rfl
-- and can pass
example : (fuzzTiles (⟨2, 30⟩ : Range Nat) [⟨2, 3⟩, ⟨3, 5⟩, ⟨5, 15⟩, ⟨15, 20⟩, ⟨20, 30⟩]).toOption =
    some () := by rfl
example : ((RangeSet.new : RangeSet Nat).overlapsTest [⟨1, 3⟩, ⟨3, 4⟩]).toOption = some () := by rfl
example : Reachable Demo.map ∧ Demo.map.iter.length = 4 := ⟨Demo.map_reachable, by decide⟩

end Verif.Props

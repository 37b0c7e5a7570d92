import Verif.Proof.IWeak
import Verif.Props.Iter
import Verif.Props.IIter
import Verif.Props.Demo

/-!
# Values whose `==` obeys no laws: C64

`==` is any deterministic function here, neither reflexive nor symmetric nor transitive, and `!=` is
its negation.
-/
set_option linter.unusedSectionVars false
namespace Verif.Props
open Spec RangeMap

/-- A value type for the examples: `a == b` when `b` is the successor of `a`. -/
structure Step1 where
  n : Nat
  deriving DecidableEq, Repr

instance : BEq Step1 := ⟨fun a b => decide (a.n + 1 = b.n)⟩

-- neither reflexive nor symmetric nor transitive
example : ((⟨0⟩ : Step1) == ⟨0⟩) = false ∧ ((⟨0⟩ : Step1) == ⟨1⟩) = true ∧
    ((⟨1⟩ : Step1) == ⟨0⟩) = false ∧ ((⟨1⟩ : Step1) == ⟨2⟩) = true ∧
    ((⟨0⟩ : Step1) == ⟨2⟩) = false := by decide

section
variable {K : Type} [LE K] [LT K] [DecidableLE K] [DecidableLT K]
  [Std.IsLinearPreorder K] [Std.LawfulOrderLT K] {V : Type} [BEq V]

/-- **C64** `insert` and `remove` panic exactly on an empty or inverted range, with the assertion,
and then leave the map alone. -/
theorem C64_panics {m : RangeMap K V} (hm : Reachable m) (r : Range K) (v : V) :
    ((∃ p, m.insert r v = .error p) ↔ r.stop ≤ r.start) ∧
    (∀ p, m.insert r v = .error p → p = .assertFailed ∧ (m.apply (.insert r v)).1 = m) ∧
    ((∃ p, m.remove r = .error p) ↔ r.stop ≤ r.start) ∧
    (∀ p, m.remove r = .error p → p = .assertFailed ∧ (m.apply (.remove r)).1 = m) := by
  by_cases hr : r.start < r.stop
  · obtain ⟨m', h1, _⟩ := Weak.insert_ok (Weak.reachable_sep hm) v hr
    obtain ⟨m'', h2, _⟩ := Weak.remove_ok (Weak.reachable_sep hm) hr
    simp [h1, h2]
    grind
  · simp [insert_invalid hr, remove_invalid hr, RangeMap.apply]
    grind

example := C64_panics (K := Nat) (V := Char) (m := Demo.map) Demo.map_reachable ⟨2, 22⟩ 'q'

/-- **C64** The loop of `insert` runs at most `len + 1` times. -/
theorem C64_terminates {m : RangeMap K V} (hm : Reachable m) (r : Range K) (v : V)
    (fuel : Nat) (hf : m.len + 2 ≤ fuel) :
    insertFuel fuel m r v = m.insert r v ∧ m.insert r v ≠ .error .diverge := by
  refine ⟨?_, fun h => ?_⟩
  · by_cases hr : r.start < r.stop
    · obtain ⟨m', h1, _⟩ := Weak.insert_spec (Weak.reachable_sep hm) v hr
      rw [h1 fuel hf, RangeMap.insert, h1 _ (Nat.le_refl _)]
    · rw [insert_invalid hr]
      simp [insertFuel, hr, bind, Except.bind, throw, throwThe, MonadExceptOf.throw]
  · have := (C64_panics hm r v).2.1 _ h
    simp at this

example := C64_terminates (K := Nat) (V := Char) (m := Demo.map) Demo.map_reachable ⟨2, 22⟩ 'q' 9
    (by decide)

/-- **C64** Entries are non-empty, increasing and disjoint. -/
theorem C64_sorted_disjoint {m : RangeMap K V} (hm : Reachable m) :
    (∀ e ∈ m.iter, e.1.start < e.1.stop) ∧
    m.iter.Pairwise (fun a b => a.1.stop ≤ b.1.start) :=
  ⟨(Weak.reachable_sep hm).ne, (Weak.reachable_sep hm).pw.imp fun h => h.2⟩

example := C64_sorted_disjoint (K := Nat) (V := Char) (m := Demo.map) Demo.map_reachable

/-- **C64** What a successful `insert` does to `get`: the new value inside the range; outside, a
value `w` may have become `v` only if `w == v`. -/
theorem C64_insert {m m' : RangeMap K V} (hm : Reachable m) {r : Range K} {v : V}
    (h : m.insert r v = .ok m') (k : K) :
    (r.start ≤ k → k < r.stop → m'.get k = .ok (some v)) ∧
    (¬ (r.start ≤ k ∧ k < r.stop) → m'.get k = m.get k ∨
      ∃ w, m.get k = .ok (some w) ∧ (w == v) = true ∧ m'.get k = .ok (some v)) := by
  have hr : r.start < r.stop := by
    apply Decidable.byContradiction
    intro hr
    simp [insert_invalid hr] at h
  have hs := Weak.reachable_sep hm
  have hs' := Weak.reachable_sep (hm.insert h)
  rw [get_look hs', get_look hs]
  have hl := Weak.insert_look hs hr h k
  refine ⟨fun h1 h2 => by rw [hl.1 h1 h2], fun hk => ?_⟩
  rcases hl.2 hk with h | ⟨w, h1, h2, h3⟩
  · left; rw [h]
  · right; exact ⟨w, by rw [h1], h2, by rw [h3]⟩

example := C64_insert (K := Nat) (V := Char) (m := Demo.map) Demo.map_reachable (r := ⟨2, 22⟩)
    (v := 'q') rfl 7

/-- **C64** After any history, `get k` yields a value exactly if the last operation touching `k` wrote
one, and the two are connected by a chain of `==`. -/
theorem C64_refinement (ops : List (Op (Range K) V)) (k : K) :
    ∃ o, (run ops).get k = .ok o ∧ Chained (lastWrite covers valid ops.reverse k) o :=
  ⟨_, get_look (Weak.reachable_sep ⟨ops, rfl⟩) k, Weak.run_look ops k⟩

example := C64_refinement (K := Nat) (V := Char) Demo.ops 7

/-- **C64** `contains_key` does not depend on `==` at all. -/
theorem C64_contains_key (ops : List (Op (Range K) V)) (k : K) :
    (run ops).containsKey k = .ok (lastWrite covers valid ops.reverse k).isSome := by
  obtain ⟨o, h1, h2⟩ := C64_refinement ops k
  simp only [containsKey, h1, bind, Except.bind, pure, Except.pure]
  generalize lastWrite covers valid ops.reverse k = p at h2
  cases o <;> cases p <;> simp_all [Chained]

example := C64_contains_key (K := Nat) (V := Char) Demo.ops 7

/-- **C64** For a symmetric and transitive `==` a chain is one step. -/
theorem C64_chain [PartialEquivBEq V] (a b : V) : Chain a b ↔ a = b ∨ (a == b) = true := by
  constructor
  · intro h
    induction h with
    | refl => exact Or.inl rfl
    | step _ h2 ih =>
      rcases ih with rfl | ih
      · exact Or.inr h2
      · exact Or.inr (PartialEquivBEq.trans ih h2)
  · rintro (rfl | h)
    · exact .refl
    · exact .step .refl h

example := C64_chain (V := Char) 'q' 'q'

/-- **C64** A map obtained with this `==` could have been obtained with the (symmetric and transitive)
`==` that is never true: what has been proved of the queries of obtainable maps holds of it. -/
theorem C64_obtainable {m : RangeMap K V} (hm : Reachable m) :
    ∃ inst : BEq V, (∀ a b, inst.beq a b = false) ∧ @PartialEquivBEq V inst ∧
      @Reachable K _ _ _ _ V inst m :=
  ⟨Weak.never V, fun _ _ => rfl, Weak.never_per V, Weak.reachable_never hm⟩

example := C64_obtainable (K := Nat) (V := Char) (m := Demo.map) Demo.map_reachable

/-- **C64** For instance, `overlapping` and `gaps` together tile the outer range. -/
theorem C64_tiling {m : RangeMap K V} (hm : Reachable m) (outer : Range K)
    (h : outer.start < outer.stop) :
    ∃ o os g gs ps, m.overlapping outer = .ok o ∧ Yields Overlapping.next o os ∧
      m.gaps outer = .ok g ∧ Yields Gaps.next g gs ∧
      ps.Perm (os.map (fun e => (⟨rmax outer.start e.1.start, rmin outer.stop e.1.stop⟩ : Range K))
        ++ gs) ∧
      Tiles outer.start ps outer.stop :=
  @C12_tiling K _ _ _ _ _ _ V (Weak.never V) (Weak.never_per V) m (Weak.reachable_never hm) outer h

example := C64_tiling (K := Nat) (V := Char) (m := Demo.map) Demo.map_reachable ⟨2, 22⟩ (by decide)

/-- **C64** ... and `overlapping` yields exactly the overlapping entries, `gaps` exactly the free
keys. -/
theorem C64_queries {m : RangeMap K V} (hm : Reachable m) (q : Range K) :
    (∃ o, m.overlapping q = .ok o ∧ Yields Overlapping.next o
      (m.iter.filter fun e => decide (q.start < e.1.stop) && decide (e.1.start < q.stop))) ∧
    ∃ g l, m.gaps q = .ok g ∧ Yields Gaps.next g l ∧
      ∀ k, (∃ r ∈ l, r.start ≤ k ∧ k < r.stop) ↔
        q.start ≤ k ∧ k < q.stop ∧ m.get k = .ok none :=
  ⟨@C13_overlapping_exact K _ _ _ _ _ _ V (Weak.never V) (Weak.never_per V) m
      (Weak.reachable_never hm) q,
    @C10_gaps_exact K _ _ _ _ _ _ V (Weak.never V) (Weak.never_per V) m
      (Weak.reachable_never hm) q⟩

end

-- 0 is written to 0..3, then 1 to 3..6 and 2 to 6..9, each taking over what precedes it
example : (run [.insert ⟨0, 3⟩ ⟨0⟩, .insert ⟨3, 6⟩ ⟨1⟩, .insert ⟨6, 9⟩ ⟨2⟩] : RangeMap Nat Step1).btm =
    [(⟨0, 9⟩, ⟨2⟩)] := by rfl
example : Chain (⟨0⟩ : Step1) ⟨2⟩ := .step (.step .refl (by decide)) (by decide : ((⟨1⟩ : Step1) == _) = true)
-- in another order, ranges that touch stay separate although one value `==` the next
example : (run [.insert ⟨3, 6⟩ ⟨1⟩, .insert ⟨0, 3⟩ ⟨0⟩, .remove ⟨4, 5⟩] : RangeMap Nat Step1).btm =
    [(⟨0, 3⟩, ⟨0⟩), (⟨3, 4⟩, ⟨1⟩), (⟨5, 6⟩, ⟨1⟩)] := by rfl

namespace Inclusive
open RangeInclusiveMap
variable {K : Type} [LE K] [LT K] [DecidableLE K] [DecidableLT K]
  [Std.IsLinearPreorder K] [Std.LawfulOrderLT K] {V : Type} [BEq V] {S : StepFns K}

/-- **C64** Inclusive map: `insert` and `remove` panic exactly on an inverted range. -/
theorem C64_panics (hS : LawfulSteps S) {m : RangeInclusiveMap K V} (hm : ReachableAny S m)
    (r : RangeInclusive K) (v : V) :
    ((∃ p, m.insert S r v = .error p) ↔ r.stop < r.start) ∧
    (∀ p, m.insert S r v = .error p → p = .assertFailed ∧ (m.apply S (.insert r v)).1 = m) ∧
    ((∃ p, m.remove S r = .error p) ↔ r.stop < r.start) ∧
    (∀ p, m.remove S r = .error p → p = .assertFailed ∧ (m.apply S (.remove r)).1 = m) := by
  by_cases hr : r.start ≤ r.stop
  · obtain ⟨m', h1, _⟩ := RangeInclusiveMap.Weak.insert_ok hS (RangeInclusiveMap.Weak.reachableAny_sep hS hm) v hr
    obtain ⟨m'', h2, _⟩ := RangeInclusiveMap.Weak.remove_ok hS (RangeInclusiveMap.Weak.reachableAny_sep hS hm) hr
    simp [h1, h2]
    grind
  · simp [RangeInclusiveMap.insert_invalid hr, RangeInclusiveMap.remove_invalid hr,
      RangeInclusiveMap.apply]
    grind

example := Inclusive.C64_panics (K := UIntW 8) (V := Char) (S := Demo.u8) Demo.u8_lawful
    (m := Demo.imap) Demo.imap_reachable.any (Demo.by8 2 22) 'q'

/-- **C64** The loop of `insert` runs at most `len + 1` times. -/
theorem C64_terminates (hS : LawfulSteps S) {m : RangeInclusiveMap K V} (hm : ReachableAny S m)
    (r : RangeInclusive K) (v : V) (fuel : Nat) (hf : m.len + 2 ≤ fuel) :
    RangeInclusiveMap.insertFuel S fuel m r v = m.insert S r v ∧
      m.insert S r v ≠ .error .diverge := by
  refine ⟨?_, fun h => ?_⟩
  · by_cases hr : r.start ≤ r.stop
    · obtain ⟨m', h1, _⟩ := RangeInclusiveMap.Weak.insert_spec hS (RangeInclusiveMap.Weak.reachableAny_sep hS hm) v hr
      rw [h1 fuel hf, RangeInclusiveMap.insert, h1 _ (Nat.le_refl _)]
    · rw [RangeInclusiveMap.insert_invalid hr]
      simp [RangeInclusiveMap.insertFuel, hr, bind, Except.bind, throw, throwThe,
        MonadExceptOf.throw]
  · have := (C64_panics hS hm r v).2.1 _ h
    simp at this

example := Inclusive.C64_terminates (K := UIntW 8) (V := Char) (S := Demo.u8) Demo.u8_lawful
    (m := Demo.imap) Demo.imap_reachable.any (Demo.by8 2 22) 'q' 9 (by decide)

/-- **C64** Entries are increasing and disjoint. -/
theorem C64_sorted_disjoint (hS : LawfulSteps S) {m : RangeInclusiveMap K V}
    (hm : ReachableAny S m) :
    (∀ e ∈ m.iter, e.1.start ≤ e.1.stop) ∧
    m.iter.Pairwise (fun a b => a.1.stop < b.1.start) :=
  ⟨(RangeInclusiveMap.Weak.reachableAny_sep hS hm).ne, (RangeInclusiveMap.Weak.reachableAny_sep hS hm).pw.imp fun h => h.2⟩

example := Inclusive.C64_sorted_disjoint (K := UIntW 8) (V := Char) (S := Demo.u8)
    Demo.u8_lawful (m := Demo.imap) Demo.imap_reachable.any

/-- **C64** What a successful `insert` does to `get`. -/
theorem C64_insert (hS : LawfulSteps S) {m m' : RangeInclusiveMap K V} (hm : Reachable S m)
    {r : RangeInclusive K} {v : V} (hx : r.exhausted = false) (h : m.insert S r v = .ok m') (k : K) :
    (r.start ≤ k → k ≤ r.stop → m'.get k = .ok (some v)) ∧
    (¬ (r.start ≤ k ∧ k ≤ r.stop) → m'.get k = m.get k ∨
      ∃ w, m.get k = .ok (some w) ∧ (w == v) = true ∧ m'.get k = .ok (some v)) := by
  have hr : r.start ≤ r.stop := by
    apply Decidable.byContradiction
    intro hr
    simp [RangeInclusiveMap.insert_invalid hr] at h
  have hs := RangeInclusiveMap.Weak.reachable_sep hS hm
  have hs' := RangeInclusiveMap.Weak.reachable_sep hS (hm.insert hx h)
  rw [RangeInclusiveMap.Weak.get_look hs'.1 hs'.2, RangeInclusiveMap.Weak.get_look hs.1 hs.2]
  have hl := RangeInclusiveMap.Weak.insert_look hS hs.1 hs.2 hx hr h k
  refine ⟨fun h1 h2 => by rw [hl.1 h1 h2], fun hk => ?_⟩
  rcases hl.2 hk with h | ⟨w, h1, h2, h3⟩
  · left; rw [h]
  · right; exact ⟨w, by rw [h1], h2, by rw [h3]⟩

example := Inclusive.C64_insert (K := UIntW 8) (V := Char) (S := Demo.u8) Demo.u8_lawful
    (m := Demo.imap) Demo.imap_reachable (r := Demo.by8 2 22) (v := 'q') (by decide) rfl ⟨7⟩

/-- **C64** After any history, `get k` yields a value exactly if the last operation touching `k` wrote
one, and the two are connected by a chain of `==`. -/
theorem C64_refinement (hS : LawfulSteps S) (ops : List (Op (RangeInclusive K) V))
    (hx : ∀ op ∈ ops, ∀ r ∈ op.inserted, r.exhausted = false) (k : K) :
    ∃ o, (RangeInclusiveMap.run S ops).get k = .ok o ∧
      Chained (lastWrite icovers ivalid ops.reverse k) o :=
  ⟨_, RangeInclusiveMap.Weak.get_look (RangeInclusiveMap.Weak.run_sep hS ops).1 ((RangeInclusiveMap.Weak.run_sep hS ops).2 hx) k, RangeInclusiveMap.Weak.run_look hS ops hx k⟩

example := Inclusive.C64_refinement (K := UIntW 8) (V := Char) (S := Demo.u8) Demo.u8_lawful
    Demo.iops (by decide) ⟨7⟩

/-- **C64** `contains_key` does not depend on `==` at all. -/
theorem C64_contains_key (hS : LawfulSteps S) (ops : List (Op (RangeInclusive K) V))
    (hx : ∀ op ∈ ops, ∀ r ∈ op.inserted, r.exhausted = false) (k : K) :
    (RangeInclusiveMap.run S ops).containsKey k =
      .ok (lastWrite icovers ivalid ops.reverse k).isSome := by
  obtain ⟨o, h1, h2⟩ := C64_refinement hS ops hx k
  simp only [RangeInclusiveMap.containsKey, h1, bind, Except.bind, pure, Except.pure]
  generalize lastWrite icovers ivalid ops.reverse k = p at h2
  cases o <;> cases p <;> simp_all [Chained]

example := Inclusive.C64_contains_key (K := UIntW 8) (V := Char) (S := Demo.u8) Demo.u8_lawful
    Demo.iops (by decide) ⟨7⟩

/-- **C64** A map obtained with this `==` could have been obtained with the `==` that is never true. -/
theorem C64_obtainable (hS : LawfulSteps S) {m : RangeInclusiveMap K V} (hm : Reachable S m) :
    ∃ inst : BEq V, (∀ a b, inst.beq a b = false) ∧ @PartialEquivBEq V inst ∧
      @RangeInclusiveMap.Reachable K _ _ _ _ V inst S m :=
  ⟨RangeMap.Weak.never V, fun _ _ => rfl, RangeMap.Weak.never_per V,
    RangeInclusiveMap.Weak.reachable_never hS hm⟩

example := Inclusive.C64_obtainable (K := UIntW 8) (V := Char) (S := Demo.u8) Demo.u8_lawful
    (m := Demo.imap) Demo.imap_reachable

/-- **C64** ... the same if exhausted ranges were inserted. -/
theorem C64_obtainable_any (hS : LawfulSteps S) {m : RangeInclusiveMap K V}
    (hm : ReachableAny S m) :
    ∃ inst : BEq V, (∀ a b, inst.beq a b = false) ∧ @PartialEquivBEq V inst ∧
      @RangeInclusiveMap.ReachableAny K _ _ _ _ V inst S m :=
  ⟨RangeMap.Weak.never V, fun _ _ => rfl, RangeMap.Weak.never_per V,
    RangeInclusiveMap.Weak.reachableAny_never hS hm⟩

example := Inclusive.C64_obtainable_any (K := UIntW 8) (V := Char) (S := Demo.u8) Demo.u8_lawful
    (m := Demo.imap) Demo.imap_reachable.any

/-- **C64** For instance, `overlapping` and `gaps` together tile the outer range. -/
theorem C64_tiling (hS : LawfulSteps S) {m : RangeInclusiveMap K V} (hm : ReachableAny S m)
    (outer : RangeInclusive K) (h : outer.start ≤ outer.stop) :
    ∃ o os g gs ps, m.overlapping outer = .ok o ∧
      Yields RangeInclusiveMap.Overlapping.next o os ∧
      m.gaps outer = .ok g ∧ YieldsE (RangeInclusiveMap.Gaps.next S) g gs ∧
      ps.Perm (os.map (fun e => RangeInclusive.mk' (rmax outer.start e.1.start)
        (rmin outer.stop e.1.stop)) ++ gs) ∧
      ITiles outer.stop (fun k => keq outer.start k = true) ps :=
  @C45_tiling K _ _ _ _ _ _ V (RangeMap.Weak.never V) (RangeMap.Weak.never_per V) S hS m
    (RangeInclusiveMap.Weak.reachableAny_never hS hm) outer h

example := Inclusive.C64_tiling (K := UIntW 8) (V := Char) (S := Demo.u8) Demo.u8_lawful
    (m := Demo.imap) Demo.imap_reachable.any (Demo.by8 2 22) (by decide)

/-- **C64** ... and `overlapping` yields exactly the overlapping entries, `gaps` exactly the free
keys. -/
theorem C64_queries (hS : LawfulSteps S) {m : RangeInclusiveMap K V} (hm : Reachable S m)
    (q : RangeInclusive K) :
    (∃ o, m.overlapping q = .ok o ∧ Yields RangeInclusiveMap.Overlapping.next o
      (m.iter.filter fun e => decide (q.start ≤ e.1.stop) && decide (e.1.start ≤ q.stop))) ∧
    ∃ g l, m.gaps q = .ok g ∧ YieldsE (RangeInclusiveMap.Gaps.next S) g l ∧
      ∀ k, (∃ r ∈ l, r.start ≤ k ∧ k ≤ r.stop) ↔
        q.start ≤ k ∧ k ≤ q.stop ∧ m.get k = .ok none :=
  ⟨@C32_overlapping_exact K _ _ _ _ _ _ V (RangeMap.Weak.never V) (RangeMap.Weak.never_per V) S hS m
      (RangeInclusiveMap.Weak.reachableAny_never hS hm.any) q,
    @C31_gaps_exact K _ _ _ _ _ _ V (RangeMap.Weak.never V) (RangeMap.Weak.never_per V) S hS m
      (RangeInclusiveMap.Weak.reachable_never hS hm) q⟩

example : (RangeInclusiveMap.run Demo.u8 [.insert (Demo.by8 0 2) ⟨0⟩, .insert (Demo.by8 3 5) ⟨1⟩,
    .insert (Demo.by8 6 255) ⟨2⟩] : RangeInclusiveMap _ Step1).btm = [(Demo.by8 0 255, ⟨2⟩)] := by rfl
example : ReachableAny Demo.u8 (RangeInclusiveMap.run Demo.u8 [.insert (Demo.by8 3 5) ⟨1⟩,
    .insert (Demo.by8 0 2) ⟨0⟩] : RangeInclusiveMap _ Step1) ∧
    (RangeInclusiveMap.run Demo.u8 [.insert (Demo.by8 3 5) ⟨1⟩,
      .insert (Demo.by8 0 2) ⟨0⟩] : RangeInclusiveMap _ Step1).len = 2 := ⟨⟨_, rfl⟩, by rfl⟩

end Inclusive
end Verif.Props

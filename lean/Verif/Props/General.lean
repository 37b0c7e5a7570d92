import Verif.Props.Demo
import Verif.Model.Float
import Verif.Props.Map
import Verif.Props.IMap
import Verif.Props.Step

/-!
# C40: the guarantees need no more of the key and value types than the trait bounds say

`K: Ord` is a total preorder (distinct keys may compare `Equal`), `V: PartialEq` is symmetric and
transitive (but `v == v` may fail).
-/
set_option linter.unusedSectionVars false

namespace Verif

instance {eb mb : Nat} : PartialEquivBEq (Ieee eb mb) where
  symm {a b} h := by
    simp only [BEq.beq, Bool.and_eq_true, Bool.not_eq_true', decide_eq_true_eq] at h ⊢
    exact ⟨⟨h.1.2, h.1.1⟩, h.2.symm⟩
  trans {a b c} h h' := by
    simp only [BEq.beq, Bool.and_eq_true, Bool.not_eq_true', decide_eq_true_eq] at h h' ⊢
    exact ⟨⟨h.1.1, h'.1.2⟩, h.2.trans h'.2⟩

end Verif

namespace Verif.Props
open Spec
variable {K : Type} [LE K] [LT K] [DecidableLE K] [DecidableLT K]
  [Std.IsLinearPreorder K] [Std.LawfulOrderLT K] {V : Type} [BEq V] [PartialEquivBEq V]

/-- **C40** For every total preorder on keys and every symmetric transitive `==` on values, after
any history on a `RangeMap`: ranges are non-empty, sorted and disjoint; touching ranges have values
that are not `==`; and `get` agrees with what was last written. -/
theorem C40_range_map (ops : List (Op (Range K) V)) :
    (∀ e ∈ (RangeMap.run ops).iter, e.1.start < e.1.stop) ∧
    (RangeMap.run ops).iter.Pairwise (fun a b => a.1.stop ≤ b.1.start) ∧
    (∀ a ∈ (RangeMap.run ops).iter, ∀ b ∈ (RangeMap.run ops).iter,
      keq a.1.stop b.1.start = true → (a.2 == b.2) = false) ∧
    ∀ k, ∃ o, (RangeMap.run ops).get k = .ok o ∧
      Agree o (lastWrite covers valid ops.reverse k) := by
  have hm : RangeMap.Reachable (RangeMap.run ops) := ⟨ops, rfl⟩
  exact ⟨(C04_sorted_disjoint hm).1, (C04_sorted_disjoint hm).2, C05_coalesced hm,
    C03_refinement ops⟩

example := C40_range_map (K := Nat) (V := Char) Demo.ops

/-- **C40** The same for a `RangeInclusiveMap`, given lawful step functions. -/
theorem C40_range_inclusive_map {S : StepFns K} (hS : LawfulSteps S)
    (ops : List (Op (RangeInclusive K) V))
    (hx : ∀ op ∈ ops, ∀ r ∈ op.inserted, r.exhausted = false) :
    (∀ e ∈ (RangeInclusiveMap.run S ops).iter, e.1.start ≤ e.1.stop) ∧
    (RangeInclusiveMap.run S ops).iter.Pairwise (fun a b => a.1.stop < b.1.start) ∧
    (∀ a ∈ (RangeInclusiveMap.run S ops).iter, ∀ b ∈ (RangeInclusiveMap.run S ops).iter,
      Next a.1.stop b.1.start → (a.2 == b.2) = false) ∧
    ∀ k, ∃ o, (RangeInclusiveMap.run S ops).get k = .ok o ∧
      Agree o (lastWrite icovers ivalid ops.reverse k) := by
  have hm : RangeInclusiveMap.ReachableAny S (RangeInclusiveMap.run S ops) := ⟨ops, rfl⟩
  exact ⟨(C26_sorted_disjoint hS hm).1, (C26_sorted_disjoint hS hm).2, C26_coalesced hS hm,
    C25_refinement hS ops hx⟩

example := C40_range_inclusive_map (K := UIntW 8) (V := Char) (S := Demo.u8) Demo.u8_lawful
    Demo.iops (by decide)

/-- **C40** IEEE `==` on values: symmetric and transitive, not reflexive on NaN, and equal on the
two zeroes. -/
theorem C40_ieee {eb mb : Nat} (a b : Ieee eb mb) :
    ((a == a) = true ↔ a.isNan = false) ∧ (a.isNan = true → (a == b) = false ∧ (b == a) = false) ∧
    ((a == b) = (b == a)) := by
  refine ⟨?_, ?_, ?_⟩
  · simp [BEq.beq, Ieee.isNan]
  · intro h
    simp only [Ieee.isNan] at h
    simp [BEq.beq, h]
  · cases hab : a == b <;> cases hba : b == a <;> try rfl
    · rw [BEq.symm hba] at hab; cases hab
    · rw [BEq.symm hab] at hba; cases hba

example := C40_ieee (eb := 8) (mb := 23) ⟨0x3f800000⟩ ⟨0x7fc00000⟩

/-- **C40** `RangeMap<NotNan<f64>, f64>` (any IEEE format): keys with two equal zeroes, values with
NaN.  Touching ranges are kept apart exactly where IEEE `==` says so, and lookups agree with what
was last written. -/
theorem C40_float_range_map {eb mb : Nat}
    (ops : List (Op (Range (NotNan eb mb)) (Ieee eb mb))) :
    (RangeMap.run ops).iter.Pairwise (fun a b => a.1.stop ≤ b.1.start) ∧
    (∀ a ∈ (RangeMap.run ops).iter, ∀ b ∈ (RangeMap.run ops).iter,
      keq a.1.stop b.1.start = true → a.2.isNan = true ∨ b.2.isNan = true ∨
        fVal a.2.bits ≠ fVal b.2.bits) ∧
    ∀ k, ∃ o, (RangeMap.run ops).get k = .ok o ∧
      Agree o (lastWrite covers valid ops.reverse k) := by
  obtain ⟨_, h1, h2, h3⟩ := C40_range_map ops
  refine ⟨h1, fun a ha b hb h => ?_, h3⟩
  have := h2 a ha b hb h
  simp only [BEq.beq, Bool.and_eq_false_iff, Bool.not_eq_false', decide_eq_false_iff_not] at this
  simp only [Ieee.isNan]
  grind

example := C40_float_range_map (eb := 8) (mb := 23)
    [.insert ⟨⟨0x3f800000, by decide⟩, ⟨0x7f800000, by decide⟩⟩ ⟨0x7fc00000⟩]

/-- **C40** `RangeInclusiveMap<NotNan<f64>, f64>` with the crate's own step functions. -/
theorem C40_float_range_inclusive_map {eb mb : Nat} (heb : 1 ≤ eb) (debug : Bool)
    (ops : List (Op (RangeInclusive (NotNan eb mb)) (Ieee eb mb)))
    (hx : ∀ op ∈ ops, ∀ r ∈ op.inserted, r.exhausted = false) :
    (RangeInclusiveMap.run (NotNan.steps eb mb debug) ops).iter.Pairwise
      (fun a b => a.1.stop < b.1.start) ∧
    (∀ a ∈ (RangeInclusiveMap.run (NotNan.steps eb mb debug) ops).iter,
      ∀ b ∈ (RangeInclusiveMap.run (NotNan.steps eb mb debug) ops).iter,
      Next a.1.stop b.1.start → a.2.isNan = true ∨ b.2.isNan = true ∨
        fVal a.2.bits ≠ fVal b.2.bits) ∧
    ∀ k, ∃ o, (RangeInclusiveMap.run (NotNan.steps eb mb debug) ops).get k = .ok o ∧
      Agree o (lastWrite icovers ivalid ops.reverse k) := by
  obtain ⟨_, h1, h2, h3⟩ := C40_range_inclusive_map (C34_lawful eb mb heb debug) ops hx
  refine ⟨h1, fun a ha b hb h => ?_, h3⟩
  have := h2 a ha b hb h
  simp only [BEq.beq, Bool.and_eq_false_iff, Bool.not_eq_false', decide_eq_false_iff_not] at this
  simp only [Ieee.isNan]
  grind

example := C40_float_range_inclusive_map (eb := 8) (mb := 23) (by decide) true
    [.insert (.mk' ⟨0x3f800000, by decide⟩ ⟨0x7f800000, by decide⟩) ⟨0x7fc00000⟩] (by decide)

/-- **C40** What is lost: a map is `==` to itself exactly when it holds no value with `v != v`. -/
theorem C40_eq_self (m : RangeMap K V) :
    m.eq m = true ↔ ∀ e ∈ m.iter, (e.2 == e.2) = true := by
  show iterEq RangeMap.entryEq m.iter m.iter = true ↔ _
  have hk : ∀ k : K, keq k k = true := fun k => keq_iff.2 ⟨by grind, by grind⟩
  generalize m.iter = l
  induction l with
  | nil => simp [iterEq]
  | cons e t ih => simp [iterEq, RangeMap.entryEq, hk, ih]

-- f32 keys -0.0 and 0.0 are interchangeable; two touching NaN ranges stay separate; 1.0 coalesces
example : (RangeMap.run (K := NotNan 8 23) (V := Ieee 8 23)
    [.insert ⟨⟨0xbf800000, by decide⟩, ⟨0x80000000, by decide⟩⟩ ⟨0x7fc00000⟩,
     .insert ⟨⟨0, by decide⟩, ⟨0x3f800000, by decide⟩⟩ ⟨0x7fc00000⟩,
     .insert ⟨⟨0x3f800000, by decide⟩, ⟨0x40000000, by decide⟩⟩ ⟨0x3f800000⟩,
     .insert ⟨⟨0x40000000, by decide⟩, ⟨0x40400000, by decide⟩⟩ ⟨0x3f800000⟩]).iter.map
      (fun e => (e.1.start.bits, e.1.stop.bits, e.2.bits)) =
    [(0xbf800000, 0x80000000, 0x7fc00000), (0, 0x3f800000, 0x7fc00000),
     (0x3f800000, 0x40400000, 0x3f800000)] := by decide +kernel

end Verif.Props

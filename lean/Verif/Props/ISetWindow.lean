import Verif.Props.IWindow
import Verif.Props.ISetShards
import Verif.Props.SetWindow

/-!
# C126 for inclusive sets
-/
set_option linter.unusedSectionVars false

namespace Verif.Props.Inclusive
open Spec RangeInclusiveSet Cut
section
variable {K : Type} [LE K] [LT K] [DecidableLE K] [DecidableLT K]
  [Std.IsLinearPreorder K] [Std.LawfulOrderLT K] {S : StepFns K}

/-- **C126** For sets: make of every call only the part inside the range `q`.  The set that is left
answers for the keys inside `q` as the whole set does, and has nothing outside. -/
theorem C126_set_contains (hS : LawfulSteps S) (ops : List (SetOp (RangeInclusive K)))
    (hx : ∀ op ∈ ops, ∀ r ∈ op.inserted, r.exhausted = false) (q : RangeInclusive K) (k : K) :
    (run S (ops.flatMap (SetOp.cut ivalid (iinside q)))).contains k =
      if q.start ≤ k ∧ k ≤ q.stop then (run S ops).contains k else .ok false := by
  unfold contains RangeInclusiveMap.containsKey
  simp only [run_rm, setOps_cut]
  rw [C126_get hS (ops.map setOpToOp) (setOps_fresh ops hx) q k]
  split <;> rfl

/-- **C126** For sets: its ranges are what `overlapping(q)` of the whole yields, cut to `q`. -/
theorem C126_set_overlapping (hS : LawfulSteps S) (hk : ∀ a b : K, a ≤ b → b ≤ a → a = b)
    (ops : List (SetOp (RangeInclusive K)))
    (hx : ∀ op ∈ ops, ∀ r ∈ op.inserted, r.exhausted = false)
    (q : RangeInclusive K) (hq : q.start ≤ q.stop) :
    ∃ o l, (run S ops).overlapping q = .ok o ∧ Yields Overlapping.next o l ∧
      (run S (ops.flatMap (SetOp.cut ivalid (iinside q)))).iter = l.map (icap q) := by
  obtain ⟨o, l, h1, h2, h3⟩ :=
    C126_overlapping hS hk (ops.map setOpToOp) (setOps_fresh ops hx) q hq
  refine ⟨⟨o⟩, l.map (·.1), ?_, yields_image (g := Overlapping.mk) (fun _ => rfl) h2, ?_⟩
  · unfold overlapping
    rw [run_rm, h1]
    rfl
  · unfold iter
    simp only [run_rm, setOps_cut]
    rw [h3, List.map_map, List.map_map]
    rfl

/-- **C126** For sets: it never has more ranges than the whole. -/
theorem C126_set_len (hS : LawfulSteps S) (hk : ∀ a b : K, a ≤ b → b ≤ a → a = b)
    (ops : List (SetOp (RangeInclusive K)))
    (hx : ∀ op ∈ ops, ∀ r ∈ op.inserted, r.exhausted = false) (q : RangeInclusive K) :
    (run S (ops.flatMap (SetOp.cut ivalid (iinside q)))).len ≤ (run S ops).len := by
  unfold len
  simp only [run_rm, setOps_cut]
  exact C126_len hS hk (ops.map setOpToOp) (setOps_fresh ops hx) q

end

/-! ### Examples -/

example : (run Demo.u8 (setShardOps.flatMap (SetOp.cut ivalid (iinside (Demo.by8 10 60))))).iter =
    [Demo.by8 10 19, Demo.by8 30 35, Demo.by8 45 55] := by decide +kernel
example := C126_set_contains (S := Demo.u8) Demo.u8_lawful setShardOps setShardOps_fresh
  (Demo.by8 10 60) ⟨47⟩
example := C126_set_overlapping (S := Demo.u8) Demo.u8_lawful Demo.u8_antisymm setShardOps
  setShardOps_fresh (Demo.by8 10 60) (by decide)
example := C126_set_len (S := Demo.u8) Demo.u8_lawful Demo.u8_antisymm setShardOps
  setShardOps_fresh (Demo.by8 10 60)

end Verif.Props.Inclusive

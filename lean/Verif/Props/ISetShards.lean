import Verif.Props.IShards
import Verif.Props.SetShards
import Verif.Proof.ISet

/-!
# C123 for inclusive sets
-/
set_option linter.unusedSectionVars false

namespace Verif.Props.Inclusive
open Spec RangeInclusiveSet Cut
section
variable {K : Type} [LE K] [LT K] [DecidableLE K] [DecidableLT K]
  [Std.IsLinearPreorder K] [Std.LawfulOrderLT K] {S : StepFns K}

theorem setOps_fresh {R : Type} {p : R → Prop} (ops : List (SetOp R))
    (hx : ∀ op ∈ ops, ∀ r ∈ op.inserted, p r) : ∀ op ∈ ops.map setOpToOp, ∀ r ∈ op.inserted, p r :=
      by
  intro op h r hr
  obtain ⟨o, ho, rfl⟩ := List.mem_map.1 h
  exact hx o ho r (by rwa [setOpToOp_inserted] at hr)

/-- **C123** For sets: the one holds the keys of the whole up to `a`, the other those from `b` on.
  -/
theorem C123_set_contains (hS : LawfulSteps S) (ops : List (SetOp (RangeInclusive K)))
    (hx : ∀ op ∈ ops, ∀ r ∈ op.inserted, r.exhausted = false) (a b k : K) :
    (run S (ops.flatMap (SetOp.cut ivalid (ibelow a)))).contains k =
      (if k ≤ a then (run S ops).contains k else .ok false) ∧
    (run S (ops.flatMap (SetOp.cut ivalid (iabove b)))).contains k =
      (if b ≤ k then (run S ops).contains k else .ok false) := by
  unfold contains RangeInclusiveMap.containsKey
  simp only [run_rm, setOps_cut]
  obtain ⟨h1, h2⟩ := C123_get hS (ops.map setOpToOp) (setOps_fresh ops hx) a b k
  rw [h1, h2]
  constructor <;> split <;> rfl

/-- **C123** For sets: the ranges of the two are the ranges of the whole, cut at `a` and `b`. -/
theorem C123_set_iter (hS : LawfulSteps S) (hk : ∀ a b : K, a ≤ b → b ≤ a → a = b)
    (ops : List (SetOp (RangeInclusive K)))
    (hx : ∀ op ∈ ops, ∀ r ∈ op.inserted, r.exhausted = false) (a b : K) :
    (run S (ops.flatMap (SetOp.cut ivalid (ibelow a)))).iter = (run S ops).iter.filterMap
      (ibelow a) ∧
    (run S (ops.flatMap (SetOp.cut ivalid (iabove b)))).iter = (run S ops).iter.filterMap
      (iabove b) := by
  unfold iter
  simp only [run_rm, setOps_cut]
  obtain ⟨h1, h2⟩ := C123_iter hS hk (ops.map setOpToOp) (setOps_fresh ops hx) a b
  rw [h1, h2, map_cut_fst, map_cut_fst]
  exact ⟨rfl, rfl⟩

/-- **C123** For sets, if `b` follows `a`: together they store as many ranges as the whole, or one
  more. -/
theorem C123_set_len (hS : LawfulSteps S) (hk : ∀ a b : K, a ≤ b → b ≤ a → a = b)
    (ops : List (SetOp (RangeInclusive K)))
    (hx : ∀ op ∈ ops, ∀ r ∈ op.inserted, r.exhausted = false) {a b : K}
    (hab : Next a b) :
    (run S ops).len ≤ (run S (ops.flatMap (SetOp.cut ivalid (ibelow a)))).len +
      (run S (ops.flatMap (SetOp.cut ivalid (iabove b)))).len ∧
    (run S (ops.flatMap (SetOp.cut ivalid (ibelow a)))).len +
      (run S (ops.flatMap (SetOp.cut ivalid (iabove b)))).len ≤ (run S ops).len + 1 := by
  unfold len
  simp only [run_rm, setOps_cut]
  exact C123_len hS hk (ops.map setOpToOp) (setOps_fresh ops hx) hab

/-- **C123** For sets, if `b` follows `a`: collecting what the two yield gives the whole again. -/
theorem C123_set_join (hS : LawfulSteps S) (hk : ∀ a b : K, a ≤ b → b ≤ a → a = b)
    (ops : List (SetOp (RangeInclusive K)))
    (hx : ∀ op ∈ ops, ∀ r ∈ op.inserted, r.exhausted = false) {a b : K}
    (hab : Next a b) :
    fromIter S ((run S (ops.flatMap (SetOp.cut ivalid (ibelow a)))).iter ++
      (run S (ops.flatMap (SetOp.cut ivalid (iabove b)))).iter) = .ok (run S ops) := by
  have h := C123_join hS hk (ops.map setOpToOp) (setOps_fresh ops hx) hab
  unfold fromIter
  rw [extend_rm]
  unfold iter
  simp only [run_rm, setOps_cut, List.map_append, map_fst_unit]
  simp only [RangeInclusiveMap.fromIter] at h
  revert h
  rw [show (new : RangeInclusiveSet K).rm = RangeInclusiveMap.new from rfl]
  generalize RangeInclusiveMap.extend S (RangeInclusiveMap.new : RangeInclusiveMap K Unit) _ = x
  intro h
  obtain ⟨m, o⟩ := x
  cases o with
  | error p => cases h
  | ok u =>
    cases h
    exact congrArg (fun m => Except.ok (RangeInclusiveSet.mk m)) (run_rm ops).symm

end

/-! ### Examples -/

/-- A history with a call that panics and an `extend` that stops in the middle. -/
def setShardOps : List (SetOp (RangeInclusive (UIntW 8))) :=
  [.insert (Demo.by8 0 255), .remove (Demo.by8 20 60), .insert (Demo.by8 20 19),
    .extend [Demo.by8 45 55, Demo.by8 9 8, Demo.by8 0 50], .insert (Demo.by8 30 35)]

theorem setShardOps_fresh : ∀ op ∈ setShardOps, ∀ r ∈ op.inserted, r.exhausted = false := by decide

example : (run Demo.u8 (setShardOps.flatMap (SetOp.cut ivalid (ibelow ⟨49⟩)))).iter =
    [Demo.by8 0 19, Demo.by8 30 35, Demo.by8 45 49] := by decide +kernel
example : (run Demo.u8 (setShardOps.flatMap (SetOp.cut ivalid (iabove ⟨50⟩)))).iter =
    [Demo.by8 50 55, Demo.by8 61 255] := by decide +kernel
example := C123_set_contains (S := Demo.u8) Demo.u8_lawful setShardOps setShardOps_fresh ⟨49⟩ ⟨50⟩
  ⟨47⟩
example := C123_set_iter (S := Demo.u8) Demo.u8_lawful Demo.u8_antisymm setShardOps
  setShardOps_fresh ⟨49⟩ ⟨50⟩
example := C123_set_len (S := Demo.u8) Demo.u8_lawful Demo.u8_antisymm setShardOps
  setShardOps_fresh next_49_50
example := C123_set_join (S := Demo.u8) Demo.u8_lawful Demo.u8_antisymm setShardOps
  setShardOps_fresh next_49_50

end Verif.Props.Inclusive

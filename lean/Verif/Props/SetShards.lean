import Verif.Props.Shards
import Verif.Proof.Set

/-!
# C123 for sets
-/
set_option linter.unusedSectionVars false

namespace Verif.Spec
variable {R : Type}

/-- The part of a call that concerns the keys for which `cut` is made.  (`extend` stops where it
panics.) -/
def SetOp.cut (valid : R → Bool) (cut : R → Option R) : SetOp R → List (SetOp R)
  | .insert r => (cut r).toList.map .insert
  | .remove r => (cut r).toList.map .remove
  | .clear => [.clear]
  | .extend items => [.extend ((items.takeWhile valid).filterMap cut)]

end Verif.Spec

namespace Verif.Cut
open Spec

theorem setOps_cut {R : Type} (valid : R → Bool) (cut : R → Option R) (ops : List (SetOp R)) :
    (ops.flatMap (SetOp.cut valid cut)).map setOpToOp =
      (ops.map setOpToOp).flatMap (Op.cut valid cut) := by
  rw [List.map_flatMap, List.flatMap_map]
  refine congrArg (ops.flatMap ·) (funext fun op => ?_)
  cases op with
  | insert r => cases h : cut r <;> simp [SetOp.cut, Op.cut, setOpToOp, h]
  | remove r => cases h : cut r <;> simp [SetOp.cut, Op.cut, setOpToOp, h]
  | clear => rfl
  | extend items =>
    simp [SetOp.cut, Op.cut, setOpToOp, List.takeWhile_map, List.filterMap_map, List.map_filterMap,
      Function.comp_def]

theorem setOps_cut_inserted {R : Type} {valid : R → Bool} {cut : R → Option R} {p : R → Prop}
    (ops : List (SetOp R)) (hp : ∀ r r', cut r = some r' → p r') :
    ∀ op ∈ ops.flatMap (SetOp.cut valid cut), ∀ r ∈ op.inserted, p r := by
  intro o ho r hr
  refine cut_inserted (valid := valid) (ops.map setOpToOp) hp (setOpToOp o) ?_ r ?_
  · rw [← setOps_cut]
    exact List.mem_map.2 ⟨o, ho, rfl⟩
  · rwa [setOpToOp_inserted]

theorem map_cut_fst {R : Type} (cut : R → Option R) (l : List (R × Unit)) :
    (l.filterMap fun e => (cut e.1).map (·, e.2)).map (·.1) = (l.map (·.1)).filterMap cut := by
  simp [List.map_filterMap, List.filterMap_map, Function.comp_def]

theorem map_fst_unit {R : Type} (l : List (R × Unit)) :
    (l.map (·.1)).map (fun r => (r, ())) = l := by
  rw [List.map_map]
  exact List.map_id l

end Verif.Cut

namespace Verif.Props
open Spec RangeSet Cut
section
variable {K : Type} [LE K] [LT K] [DecidableLE K] [DecidableLT K]
  [Std.IsLinearPreorder K] [Std.LawfulOrderLT K]

/-- **C123** For sets: the one holds the keys of the whole below `c`, the other the rest. -/
theorem C123_set_contains (ops : List (SetOp (Range K))) (c k : K) :
    (run (ops.flatMap (SetOp.cut valid (below c)))).contains k =
      (if k < c then (run ops).contains k else .ok false) ∧
    (run (ops.flatMap (SetOp.cut valid (above c)))).contains k =
      (if c ≤ k then (run ops).contains k else .ok false) := by
  unfold contains RangeMap.containsKey
  simp only [run_rm, setOps_cut]
  obtain ⟨h1, h2⟩ := C123_get (ops.map setOpToOp) c k
  rw [h1, h2]
  constructor <;> split <;> rfl

/-- **C123** For sets: the ranges of the two are the ranges of the whole, cut at `c`. -/
theorem C123_set_iter (hk : ∀ a b : K, a ≤ b → b ≤ a → a = b) (ops : List (SetOp (Range K)))
    (c : K) :
    (run (ops.flatMap (SetOp.cut valid (below c)))).iter = (run ops).iter.filterMap (below c) ∧
    (run (ops.flatMap (SetOp.cut valid (above c)))).iter = (run ops).iter.filterMap (above c) := by
  unfold iter
  simp only [run_rm, setOps_cut]
  obtain ⟨h1, h2⟩ := C123_iter hk (ops.map setOpToOp) c
  rw [h1, h2, map_cut_fst, map_cut_fst]
  exact ⟨rfl, rfl⟩

/-- **C123** For sets: together they store as many ranges as the whole, or one more. -/
theorem C123_set_len (hk : ∀ a b : K, a ≤ b → b ≤ a → a = b) (ops : List (SetOp (Range K)))
    (c : K) :
    (run ops).len ≤ (run (ops.flatMap (SetOp.cut valid (below c)))).len +
      (run (ops.flatMap (SetOp.cut valid (above c)))).len ∧
    (run (ops.flatMap (SetOp.cut valid (below c)))).len +
      (run (ops.flatMap (SetOp.cut valid (above c)))).len ≤ (run ops).len + 1 := by
  unfold len
  simp only [run_rm, setOps_cut]
  exact C123_len hk (ops.map setOpToOp) c

/-- **C123** For sets: collecting what the two yield gives the whole again. -/
theorem C123_set_join (hk : ∀ a b : K, a ≤ b → b ≤ a → a = b) (ops : List (SetOp (Range K)))
    (c : K) :
    fromIter ((run (ops.flatMap (SetOp.cut valid (below c)))).iter ++
      (run (ops.flatMap (SetOp.cut valid (above c)))).iter) = .ok (run ops) := by
  have h := C123_join hk (ops.map setOpToOp) c
  unfold fromIter
  rw [extend_rm]
  unfold iter
  simp only [run_rm, setOps_cut, List.map_append, map_fst_unit]
  simp only [RangeMap.fromIter] at h
  revert h
  rw [show (new : RangeSet K).rm = RangeMap.new from rfl]
  generalize RangeMap.extend (RangeMap.new : RangeMap K Unit) _ = x
  intro h
  obtain ⟨m, o⟩ := x
  cases o with
  | error p => cases h
  | ok u =>
    cases h
    exact congrArg (fun m => Except.ok (RangeSet.mk m)) (run_rm ops).symm

end

/-! ### Examples -/

/-- A history with a call that panics and an `extend` that stops in the middle. -/
def setShardOps : List (SetOp (Range Nat)) :=
  [.insert ⟨0, 100⟩, .remove ⟨20, 60⟩, .insert ⟨20, 20⟩,
    .extend [⟨45, 55⟩, ⟨9, 9⟩, ⟨0, 50⟩], .insert ⟨30, 35⟩]

example : (run (setShardOps.flatMap (SetOp.cut valid (below 50)))).iter =
    [⟨0, 20⟩, ⟨30, 35⟩, ⟨45, 50⟩] := by decide +kernel
example : (run (setShardOps.flatMap (SetOp.cut valid (above 50)))).iter =
    [⟨50, 55⟩, ⟨60, 100⟩] := by decide +kernel
example := C123_set_contains setShardOps 50 47
example := C123_set_iter (fun _ _ => Nat.le_antisymm) setShardOps 50
example := C123_set_len (fun _ _ => Nat.le_antisymm) setShardOps 50
example := C123_set_join (fun _ _ => Nat.le_antisymm) setShardOps 50

end Verif.Props

import Verif.Props.Window
import Verif.Props.SetShards

/-!
# C126 for sets
-/
set_option linter.unusedSectionVars false

namespace Verif.Cut
open Spec

/-- An iterator that shows a part of what another one yields. -/
theorem yields_image {S S' α β : Type} {next : S → Option α × S} {next' : S' → Option β × S'}
    {g : S → S'} {f : α → β} (h : ∀ s, next' (g s) = ((next s).1.map f, g (next s).2)) {s : S}
    {l : List α} (hs : Yields next s l) : Yields next' (g s) (l.map f) := by
  have key : ∀ n s, calls next' n (g s) = (calls next n s).map (Option.map f) := by
    intro n
    induction n with
    | zero => intro s; rfl
    | succ n ih =>
      intro s
      simp only [calls, h, List.map_cons, ih]
  intro n
  rw [key, hs n, List.map_take, List.map_append, List.map_replicate, List.map_map, List.map_map]
  rfl

end Verif.Cut

namespace Verif.Props
open Spec RangeSet Cut
section
variable {K : Type} [LE K] [LT K] [DecidableLE K] [DecidableLT K]
  [Std.IsLinearPreorder K] [Std.LawfulOrderLT K]

/-- **C126** For sets: make of every call only the part inside the range `q`.  The set that is left
answers for the keys inside `q` as the whole set does, and has nothing outside. -/
theorem C126_set_contains (ops : List (SetOp (Range K))) (q : Range K) (k : K) :
    (run (ops.flatMap (SetOp.cut valid (inside q)))).contains k =
      if q.start ≤ k ∧ k < q.stop then (run ops).contains k else .ok false := by
  unfold contains RangeMap.containsKey
  simp only [run_rm, setOps_cut]
  rw [C126_get (ops.map setOpToOp) q k]
  split <;> rfl

/-- **C126** For sets: its ranges are what `overlapping(q)` of the whole yields, cut to `q`. -/
theorem C126_set_overlapping (hk : ∀ a b : K, a ≤ b → b ≤ a → a = b) (ops : List (SetOp (Range K)))
    (q : Range K) (hq : q.start < q.stop) :
    ∃ o l, (run ops).overlapping q = .ok o ∧ Yields Overlapping.next o l ∧
      (run (ops.flatMap (SetOp.cut valid (inside q)))).iter = l.map (cap q) := by
  obtain ⟨o, l, h1, h2, h3⟩ := C126_overlapping hk (ops.map setOpToOp) q hq
  refine ⟨⟨o⟩, l.map (·.1), ?_, yields_image (g := Overlapping.mk) (fun _ => rfl) h2, ?_⟩
  · unfold overlapping
    rw [run_rm, h1]
    rfl
  · unfold iter
    simp only [run_rm, setOps_cut]
    rw [h3, List.map_map, List.map_map]
    rfl

/-- **C126** For sets: it never has more ranges than the whole. -/
theorem C126_set_len (hk : ∀ a b : K, a ≤ b → b ≤ a → a = b) (ops : List (SetOp (Range K)))
    (q : Range K) : (run (ops.flatMap (SetOp.cut valid (inside q)))).len ≤ (run ops).len := by
  unfold len
  simp only [run_rm, setOps_cut]
  exact C126_len hk (ops.map setOpToOp) q

end

/-! ### Examples -/

example : (run (setShardOps.flatMap (SetOp.cut valid (inside ⟨10, 60⟩)))).iter =
    [⟨10, 20⟩, ⟨30, 35⟩, ⟨45, 55⟩] := by decide +kernel
example := C126_set_contains setShardOps ⟨10, 60⟩ 47
example := C126_set_overlapping (fun _ _ => Nat.le_antisymm) setShardOps ⟨10, 60⟩ (by decide)
example := C126_set_len (fun _ _ => Nat.le_antisymm) setShardOps ⟨10, 60⟩

end Verif.Props

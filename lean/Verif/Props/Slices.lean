import Verif.Props.Turns
import Verif.Props.TurnSets
import Verif.Props.Transform
import Verif.Proof.Slices

/-!
# C122: a map is a family of sets, one for each value
-/
set_option linter.unusedSectionVars false

namespace Verif.Props
open Spec RangeMap Slices
section
variable {K : Type} [LE K] [LT K] [DecidableLE K] [DecidableLT K]
  [Std.IsLinearPreorder K] [Std.LawfulOrderLT K] {V : Type} [BEq V]

/-- Sets that hold the same are the same. -/
theorem set_ext (hk : ∀ a b : K, a ≤ b → b ≤ a → a = b) {s s' : RangeSet K}
    (hs : RangeSet.Reachable s) (hs' : RangeSet.Reachable s')
    (h : ∀ k, s.contains k = s'.contains k) : s = s' :=
  congrFun (SetAgreeAt.eq hk (sets := fun _ => s) (sets' := fun _ => s') (fun _ => h)
    (fun _ => hs) fun _ => hs') 0

/-- **C122** Keep a set beside the map: insert a range into it where the map gets it with the value
`v`, and remove it where the map gets it with another value or loses it.  Then the ranges of the set
are the ranges that the map stores with the value `v`. -/
theorem C122_slice [LawfulBEq V] (hk : ∀ a b : K, a ≤ b → b ≤ a → a = b)
    (ops : List (Op (Range K) V)) (v : V) :
    (RangeSet.run (ops.flatMap (slice valid v))).iter =
      ((run ops).iter.filter fun e => e.2 == v).map (·.1) := by
  obtain ⟨s, -, h2, h3, h4⟩ := C100_keys_of (m := run ops) ⟨ops, rfl⟩ v
  rw [← h3, set_ext hk ⟨_, rfl⟩ h2 fun k => ?_]
  obtain ⟨o, h5, h6⟩ := h4 k
  rw [C03_refinement_exact] at h5
  cases h5
  rw [h6, C35_refinement, List.reverse_flatMap]
  exact congrArg _ (member_slice v k ops.reverse)

/-- **C122** So a key has the value `v` exactly if it is in the set for `v`. -/
theorem C122_get [LawfulBEq V] (ops : List (Op (Range K) V)) (v : V) (k : K) :
    (run ops).get k = .ok (some v) ↔
      (RangeSet.run (ops.flatMap (slice valid v))).contains k = .ok true := by
  rw [C03_refinement_exact, C35_refinement, List.reverse_flatMap]
  have := member_slice (covers := covers) (valid := valid) v k ops.reverse
  rw [show member covers valid (ops.reverse.flatMap (List.reverse ∘ slice valid v)) k = _ from this,
    Except.ok.injEq, Except.ok.injEq]
  cases lastWrite covers valid ops.reverse k <;> simp

/-- **C122** The map has as many ranges as the sets for its values have together. -/
theorem C122_len [LawfulBEq V] (hk : ∀ a b : K, a ≤ b → b ≤ a → a = b)
    (ops : List (Op (Range K) V)) {vs : List V} (hn : vs.Nodup)
    (hv : ∀ e ∈ (run ops).iter, e.2 ∈ vs) :
    (run ops).len = (vs.map fun v => (RangeSet.run (ops.flatMap (slice valid v))).len).sum := by
  have h := length_split hn (run ops).iter hv
  refine h.trans (congrArg _ (List.map_congr_left fun v _ => ?_))
  have := congrArg List.length (C122_slice hk ops v)
  rw [List.length_map] at this
  rw [← this]
  simp [RangeSet.iter, RangeSet.len, RangeMap.iter, RangeMap.len]

/-- **C122** Two histories leave the same map exactly if they leave the same set for every value. -/
theorem C122_same [LawfulBEq V] (hk : ∀ a b : K, a ≤ b → b ≤ a → a = b)
    (ops ops' : List (Op (Range K) V)) :
    run ops = run ops' ↔ ∀ v, RangeSet.run (ops.flatMap (slice valid v)) =
      RangeSet.run (ops'.flatMap (slice valid v)) := by
  constructor
  · intro h v
    refine set_ext hk ⟨_, rfl⟩ ⟨_, rfl⟩ fun k => ?_
    have h1 := C122_get ops v k
    have h2 := C122_get ops' v k
    rw [h] at h1
    rw [C35_refinement] at h1 h2
    rw [C35_refinement, C35_refinement]
    rw [h1] at h2
    rw [Except.ok.injEq, Except.ok.injEq] at h2
    rw [Bool.eq_iff_iff.2 h2]
  · intro h
    refine congrFun (AgreeAt.eq hk (maps := fun _ => run ops) (maps' := fun _ => run ops')
      (fun _ k => ?_) (fun _ => ⟨_, rfl⟩) fun _ => ⟨_, rfl⟩) 0
    have h3 : ∀ v, (run ops).get k = .ok (some v) ↔ (run ops').get k = .ok (some v) :=
      fun v => by rw [C122_get, C122_get, h]
    rw [C03_refinement_exact, C03_refinement_exact] at *
    cases e : lastWrite covers valid ops.reverse k with
    | some v => exact ((h3 v).1 (by rw [e])).symm
    | none =>
      cases e' : lastWrite covers valid ops'.reverse k with
      | none => rfl
      | some v =>
        have := (h3 v).2 (by rw [e'])
        rw [e] at this
        cases this

variable [PartialEquivBEq V]

/-- **C122** And the set that gets all the ranges that the map gets, whatever the value, is the set
of the keys that have a value: `contains` is `contains_key`, and `gaps` yields the same gaps. -/
theorem C122_covered (hk : ∀ a b : K, a ≤ b → b ≤ a → a = b) (ops : List (Op (Range K) V)) :
    (∀ k, (RangeSet.run (ops.map forget)).contains k = (run ops).containsKey k) ∧
    ∀ outer, ∃ g g' l, (run ops).gaps outer = .ok g ∧ Yields Gaps.next g l ∧
      (RangeSet.run (ops.map forget)).gaps outer = .ok g' ∧ Yields RangeSet.Gaps.next g' l := by
  have h : ∀ k, (RangeSet.run (ops.map forget)).contains k = (run ops).containsKey k := by
    intro k
    obtain ⟨o, h1, h2⟩ := C03_refinement ops k
    rw [C35_refinement, ← List.map_reverse, member_forget, RangeMap.containsKey, h1]
    cases e : lastWrite covers valid ops.reverse k <;> rw [e] at h2 <;> cases o <;>
      first | rfl | exact h2.elim
  refine ⟨h, fun outer => ?_⟩
  obtain ⟨s, h1, h2, -, h3, -⟩ := C100_keys (m := run ops) ⟨ops, rfl⟩
  rw [set_ext hk ⟨_, rfl⟩ h2 fun k => by
    obtain ⟨x, h4, h5⟩ := h3 k
    rw [h, h4, h5]]
  exact C100_keys_gaps hk ⟨ops, rfl⟩ h1 outer

end

/-! ### Examples -/

/-- A history with a call that panics and an `extend` that stops in the middle. -/
def slicing : List (Op (Range Nat) Char) :=
  [.insert ⟨0, 10⟩ 'a', .insert ⟨4, 6⟩ 'b', .insert ⟨20, 20⟩ 'a',
    .extend [(⟨10, 12⟩, 'a'), (⟨30, 40⟩, 'b'), (⟨9, 9⟩, 'a'), (⟨0, 50⟩, 'a')], .remove ⟨35, 36⟩]

example : (run slicing).iter = [(⟨0, 4⟩, 'a'), (⟨4, 6⟩, 'b'), (⟨6, 12⟩, 'a'), (⟨30, 35⟩, 'b'),
    (⟨36, 40⟩, 'b')] := by decide +kernel
example : (RangeSet.run (slicing.flatMap (slice valid 'a'))).iter = [⟨0, 4⟩, ⟨6, 12⟩] := by
  decide +kernel
example : (RangeSet.run (slicing.map forget)).iter = [⟨0, 12⟩, ⟨30, 35⟩, ⟨36, 40⟩] := by
  decide +kernel
example := C122_slice (fun _ _ => Nat.le_antisymm) slicing 'a'
example := C122_get slicing 'b' 38
example := C122_len (fun _ _ => Nat.le_antisymm) slicing (vs := ['a', 'b']) (by decide)
    (by decide +kernel)
example := C122_same (fun _ _ => Nat.le_antisymm) slicing [.insert ⟨36, 40⟩ 'b',
    .insert ⟨0, 12⟩ 'a', .insert ⟨4, 6⟩ 'b', .insert ⟨30, 35⟩ 'b']
example := C122_covered (fun _ _ => Nat.le_antisymm) slicing

end Verif.Props

import Verif.Props.ITurns
import Verif.Props.ITurnSets
import Verif.Props.ITransform
import Verif.Proof.Slices

/-!
# C122 for inclusive maps
-/
set_option linter.unusedSectionVars false

namespace Verif.Props.Inclusive
open Spec RangeInclusiveMap Slices
section
variable {K : Type} [LE K] [LT K] [DecidableLE K] [DecidableLT K]
  [Std.IsLinearPreorder K] [Std.LawfulOrderLT K] {V : Type} [BEq V] {S : StepFns K}

/-- Sets that hold the same are the same. -/
theorem set_ext (hS : LawfulSteps S) (hk : ∀ a b : K, a ≤ b → b ≤ a → a = b)
    {s s' : RangeInclusiveSet K}
    (hs : RangeInclusiveSet.Reachable S s) (hs' : RangeInclusiveSet.Reachable S s')
    (h : ∀ k, s.contains k = s'.contains k) : s = s' :=
  congrFun (SetAgreeAt.eq hS hk (sets := fun _ => s) (sets' := fun _ => s') (fun _ => h)
    (fun _ => hs) fun _ => hs') 0

/-- **C122** Keep a set beside the map: insert a range into it where the map gets it with the value
`v`, and remove it where the map gets it with another value or loses it.  Then the ranges of the set
are the ranges that the map stores with the value `v`. -/
theorem C122_slice [LawfulBEq V] (hS : LawfulSteps S) (hk : ∀ a b : K, a ≤ b → b ≤ a → a = b)
    (ops : List (Op (RangeInclusive K) V))
    (hx : ∀ op ∈ ops, ∀ r ∈ op.inserted, r.exhausted = false) (v : V) :
    (RangeInclusiveSet.run S (ops.flatMap (slice ivalid v))).iter =
      ((run S ops).iter.filter fun e => e.2 == v).map (·.1) := by
  obtain ⟨s, -, h2, h3, h4⟩ := C100_keys_of hS (m := run S ops) ⟨ops, hx, rfl⟩ v
  rw [← h3, set_ext hS hk ⟨_, slice_inserted v ops hx, rfl⟩ h2 fun k => ?_]
  obtain ⟨o, h5, h6⟩ := h4 k
  rw [C25_refinement_exact hS ops hx] at h5
  cases h5
  rw [h6, C36_refinement hS _ (slice_inserted v ops hx), List.reverse_flatMap]
  exact congrArg _ (member_slice v k ops.reverse)

/-- **C122** So a key has the value `v` exactly if it is in the set for `v`. -/
theorem C122_get [LawfulBEq V] (hS : LawfulSteps S) (ops : List (Op (RangeInclusive K) V))
    (hx : ∀ op ∈ ops, ∀ r ∈ op.inserted, r.exhausted = false) (v : V) (k : K) :
    (run S ops).get k = .ok (some v) ↔
      (RangeInclusiveSet.run S (ops.flatMap (slice ivalid v))).contains k = .ok true := by
  rw [C25_refinement_exact hS ops hx, C36_refinement hS _ (slice_inserted v ops hx),
    List.reverse_flatMap]
  have := member_slice (covers := icovers) (valid := ivalid) v k ops.reverse
  rw [show member icovers ivalid (ops.reverse.flatMap (List.reverse ∘ slice ivalid v)) k = _ from
    this,
    Except.ok.injEq, Except.ok.injEq]
  cases lastWrite icovers ivalid ops.reverse k <;> simp

/-- **C122** The map has as many ranges as the sets for its values have together. -/
theorem C122_len [LawfulBEq V] (hS : LawfulSteps S) (hk : ∀ a b : K, a ≤ b → b ≤ a → a = b)
    (ops : List (Op (RangeInclusive K) V))
    (hx : ∀ op ∈ ops, ∀ r ∈ op.inserted, r.exhausted = false) {vs : List V} (hn : vs.Nodup)
    (hv : ∀ e ∈ (run S ops).iter, e.2 ∈ vs) :
    (run S ops).len = (vs.map fun v =>
      (RangeInclusiveSet.run S (ops.flatMap (slice ivalid v))).len).sum := by
  have h := length_split hn (run S ops).iter hv
  refine h.trans (congrArg _ (List.map_congr_left fun v _ => ?_))
  have := congrArg List.length (C122_slice hS hk ops hx v)
  rw [List.length_map] at this
  rw [← this]
  simp [RangeInclusiveSet.iter, RangeInclusiveSet.len, RangeInclusiveMap.iter,
    RangeInclusiveMap.len]

/-- **C122** Two histories leave the same map exactly if they leave the same set for every value. -/
theorem C122_same [LawfulBEq V] (hS : LawfulSteps S) (hk : ∀ a b : K, a ≤ b → b ≤ a → a = b)
    (ops ops' : List (Op (RangeInclusive K) V))
    (hx : ∀ op ∈ ops, ∀ r ∈ op.inserted, r.exhausted = false)
    (hx' : ∀ op ∈ ops', ∀ r ∈ op.inserted, r.exhausted = false) :
    run S ops = run S ops' ↔ ∀ v, RangeInclusiveSet.run S (ops.flatMap (slice ivalid v)) =
      RangeInclusiveSet.run S (ops'.flatMap (slice ivalid v)) := by
  constructor
  · intro h v
    refine set_ext hS hk ⟨_, slice_inserted v ops hx, rfl⟩ ⟨_, slice_inserted v ops' hx', rfl⟩ fun
      k => ?_
    have h1 := C122_get hS ops hx v k
    have h2 := C122_get hS ops' hx' v k
    rw [h] at h1
    rw [C36_refinement hS _ (slice_inserted v ops hx)] at h1
    rw [C36_refinement hS _ (slice_inserted v ops' hx')] at h2
    rw [C36_refinement hS _ (slice_inserted v ops hx), C36_refinement hS _
      (slice_inserted v ops' hx')]
    rw [h1] at h2
    rw [Except.ok.injEq, Except.ok.injEq] at h2
    rw [Bool.eq_iff_iff.2 h2]
  · intro h
    refine congrFun (AgreeAt.eq hS hk (maps := fun _ => run S ops) (maps' := fun _ => run S ops')
      (fun _ k => ?_) (fun _ => ⟨_, hx, rfl⟩) fun _ => ⟨_, hx', rfl⟩) 0
    have h3 : ∀ v, (run S ops).get k = .ok (some v) ↔ (run S ops').get k = .ok (some v) :=
      fun v => by rw [C122_get hS ops hx, C122_get hS ops' hx', h]
    rw [C25_refinement_exact hS ops hx, C25_refinement_exact hS ops' hx'] at *
    cases e : lastWrite icovers ivalid ops.reverse k with
    | some v => exact ((h3 v).1 (by rw [e])).symm
    | none =>
      cases e' : lastWrite icovers ivalid ops'.reverse k with
      | none => rfl
      | some v =>
        have := (h3 v).2 (by rw [e'])
        rw [e] at this
        cases this

variable [PartialEquivBEq V]

/-- **C122** And the set that gets all the ranges that the map gets, whatever the value, is the set
of the keys that have a value: `contains` is `contains_key`, and `gaps` yields the same gaps. -/
theorem C122_covered (hS : LawfulSteps S) (hk : ∀ a b : K, a ≤ b → b ≤ a → a = b)
    (ops : List (Op (RangeInclusive K) V))
    (hx : ∀ op ∈ ops, ∀ r ∈ op.inserted, r.exhausted = false) :
    (∀ k, (RangeInclusiveSet.run S (ops.map forget)).contains k = (run S ops).containsKey k) ∧
    ∀ outer, ∃ g g' l, (run S ops).gaps outer = .ok g ∧ YieldsE (Gaps.next S) g l ∧
      (RangeInclusiveSet.run S (ops.map forget)).gaps outer = .ok g' ∧ YieldsE
        (RangeInclusiveSet.Gaps.next S) g' l := by
  have h : ∀ k, (RangeInclusiveSet.run S (ops.map forget)).contains k = (run S ops).containsKey k
      := by
    intro k
    obtain ⟨o, h1, h2⟩ := C25_refinement hS ops hx k
    rw [C36_refinement hS _ (forget_inserted ops hx), ← List.map_reverse, member_forget,
      RangeInclusiveMap.containsKey, h1]
    cases e : lastWrite icovers ivalid ops.reverse k <;> rw [e] at h2 <;> cases o <;>
      first | rfl | exact h2.elim
  refine ⟨h, fun outer => ?_⟩
  obtain ⟨s, h1, h2, -, h3, -⟩ := C100_keys hS (m := run S ops) ⟨ops, hx, rfl⟩
  rw [set_ext hS hk ⟨_, forget_inserted ops hx, rfl⟩ h2 fun k => by
    obtain ⟨x, h4, h5⟩ := h3 k
    rw [h, h4, h5]]
  exact C100_keys_gaps hS hk ⟨ops, hx, rfl⟩ h1 outer

end

/-! ### Examples -/

/-- A history with a call that panics and an `extend` that stops in the middle. -/
def slicing : List (Op (RangeInclusive (UIntW 8)) Char) :=
  [.insert (Demo.by8 0 9) 'a', .insert (Demo.by8 4 5) 'b', .insert (Demo.by8 20 19) 'a',
    .extend [(Demo.by8 10 11, 'a'), (Demo.by8 30 255, 'b'), (Demo.by8 9 8, 'a'),
      (Demo.by8 0 50, 'a')], .remove (Demo.by8 35 35)]

theorem slicing_fresh : ∀ op ∈ slicing, ∀ r ∈ op.inserted, r.exhausted = false := by decide

example : (run Demo.u8 slicing).iter = [(Demo.by8 0 3, 'a'), (Demo.by8 4 5, 'b'),
    (Demo.by8 6 11, 'a'), (Demo.by8 30 34, 'b'), (Demo.by8 36 255, 'b')] := by decide +kernel
example : (RangeInclusiveSet.run Demo.u8 (slicing.flatMap (slice ivalid 'a'))).iter =
    [Demo.by8 0 3, Demo.by8 6 11] := by decide +kernel
example : (RangeInclusiveSet.run Demo.u8 (slicing.map forget)).iter =
    [Demo.by8 0 11, Demo.by8 30 34, Demo.by8 36 255] := by decide +kernel
example := C122_slice Demo.u8_lawful Demo.u8_antisymm slicing slicing_fresh 'a'
example := C122_get Demo.u8_lawful slicing slicing_fresh 'b' ⟨38⟩
example := C122_len Demo.u8_lawful Demo.u8_antisymm slicing slicing_fresh (vs := ['a', 'b'])
    (by decide) (by decide +kernel)
example := C122_same Demo.u8_lawful Demo.u8_antisymm slicing [.insert (Demo.by8 36 255) 'b',
    .insert (Demo.by8 0 11) 'a'] slicing_fresh (by decide)
example := C122_covered Demo.u8_lawful Demo.u8_antisymm slicing slicing_fresh

end Verif.Props.Inclusive

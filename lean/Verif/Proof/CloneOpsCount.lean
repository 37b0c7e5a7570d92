import Verif.Proof.CloneCount
import Verif.Model.Operations

/-!
# Counting clones: `Union`, `Intersection`, `Gaps`, and the lookups
-/
set_option linter.unusedSectionVars false
namespace Verif
open Cl
variable {K V : Type} [LE K] [LT K] [DecidableLE K] [DecidableLT K]

theorem Range.mergeL_eval (a b : Range K) :
    (Range.mergeL a b : Cl K V (Option (Range K))).eval = .ok (RangeMerge.merge a b) := by
  show _ = Except.ok (Range.merge a b)
  unfold Range.mergeL Range.merge
  cases a.contains b.start <;> by_cases h2 : a.stop < b.stop <;> simp only [h2, if_true, if_false] <;> rfl

theorem RangeInclusive.mergeL_eval (a b : RangeInclusive K) :
    (RangeInclusive.mergeL a b : Cl K V (Option (RangeInclusive K))).eval
      = .ok (RangeMerge.merge a b) := by
  show _ = Except.ok (RangeInclusive.merge a b)
  unfold RangeInclusive.mergeL RangeInclusive.merge
  cases a.contains b.start <;> by_cases h2 : a.stop < b.stop <;> simp only [h2, if_true, if_false] <;> rfl

theorem Range.intersectL_eval (a b : Range K) :
    (Range.intersectL a b : Cl K V (Option (Range K))).eval = .ok (RangeIntersect.intersect a b) := by
  show _ = Except.ok (Range.intersect a b)
  unfold Range.intersectL Range.intersect
  simp only
  split <;> rfl

theorem RangeInclusive.intersectL_eval (a b : RangeInclusive K) :
    (RangeInclusive.intersectL a b : Cl K V (Option (RangeInclusive K))).eval
      = .ok (RangeIntersect.intersect a b) := by
  show _ = Except.ok (RangeInclusive.intersect a b)
  unfold RangeInclusive.intersectL RangeInclusive.intersect
  simp only
  split <;> rfl

theorem Range.mergeL_clones (a b : Range K) :
    (Range.mergeL a b : Cl K V (Option (Range K))).keys ≤
      (if (RangeMerge.merge a b).isSome then 1 else 0) ∧
    (Range.mergeL a b : Cl K V (Option (Range K))).vals = 0 := by
  show _ ≤ (if (Range.merge a b).isSome then 1 else 0) ∧ _
  unfold Range.mergeL Range.merge
  cases a.contains b.start <;> by_cases h2 : a.stop < b.stop <;> simp only [h2, if_true, if_false] <;>
    exact ⟨Nat.le_of_ble_eq_true rfl, rfl⟩

theorem RangeInclusive.mergeL_clones (a b : RangeInclusive K) :
    (RangeInclusive.mergeL a b : Cl K V (Option (RangeInclusive K))).keys ≤
      (if (RangeMerge.merge a b).isSome then 2 else 0) ∧
    (RangeInclusive.mergeL a b : Cl K V (Option (RangeInclusive K))).vals = 0 := by
  show _ ≤ (if (RangeInclusive.merge a b).isSome then 2 else 0) ∧ _
  unfold RangeInclusive.mergeL RangeInclusive.merge
  cases a.contains b.start <;> by_cases h2 : a.stop < b.stop <;> simp only [h2, if_true, if_false] <;>
    exact ⟨Nat.le_of_ble_eq_true rfl, rfl⟩

theorem Range.intersectL_clones (a b : Range K) :
    (Range.intersectL a b : Cl K V (Option (Range K))).keys =
      (if (RangeIntersect.intersect a b).isSome then 2 else 0) ∧
    (Range.intersectL a b : Cl K V (Option (Range K))).vals = 0 := by
  show _ = (if (Range.intersect a b).isSome then 2 else 0) ∧ _
  unfold Range.intersectL Range.intersect
  simp only
  split <;> exact ⟨rfl, rfl⟩

theorem RangeInclusive.intersectL_clones (a b : RangeInclusive K) :
    (RangeInclusive.intersectL a b : Cl K V (Option (RangeInclusive K))).keys =
      (if (RangeIntersect.intersect a b).isSome then 2 else 0) ∧
    (RangeInclusive.intersectL a b : Cl K V (Option (RangeInclusive K))).vals = 0 := by
  show _ = (if (RangeInclusive.intersect a b).isSome then 2 else 0) ∧ _
  unfold RangeInclusive.intersectL RangeInclusive.intersect
  simp only
  split <;> exact ⟨rfl, rfl⟩

section
variable {R : Type} [RangeOrder R]

namespace Union
variable [RangeMerge R] {clone : R → Cl K V R} {merge : R → R → Cl K V (Option R)}

theorem joinL_eval (hm : ∀ a b, (merge a b).eval = .ok (RangeMerge.merge a b)) (a : R) (l : List R) :
    (joinL merge a l).eval = .ok (join a l) := by
  cases l with
  | nil => rfl
  | cons b t =>
    unfold joinL join
    rw [eval_bind, hm]
    rfl

theorem joinL_clones {w : Nat} (hm : ∀ a b, (merge a b).eval = .ok (RangeMerge.merge a b))
    (hc : ∀ a b, (merge a b).keys ≤ (if (RangeMerge.merge a b : Option R).isSome then w else 0) ∧
      (merge a b).vals = 0) (a : R) (l : List R) :
    (joinL merge a l).keys ≤ (if (join a l).isSome then w else 0) ∧ (joinL merge a l).vals = 0 := by
  cases l with
  | nil => exact ⟨Nat.zero_le _, rfl⟩
  | cons b t =>
    unfold joinL join
    rw [keys_bind_ok (hm a b), vals_bind_ok (hm a b)]
    have := hc a b
    simpa using this

theorem mergeLoop_unfold (a : R) (l r : List R) :
    mergeLoop a l r = match join a l with
      | some p => mergeLoop p.1 p.2 r
      | none => match join a r with
        | some p => mergeLoop p.1 l p.2
        | none => (a, ⟨l, r⟩) := by
  conv => lhs; unfold mergeLoop
  split
  · next h => rw [h]
  · next h =>
    rw [h]
    split
    · next h' => rw [h']
    · next h' => rw [h']

theorem mergeLoopL_eval (hm : ∀ a b, (merge a b).eval = .ok (RangeMerge.merge a b)) :
    ∀ (fuel : Nat) (a : R) (l r : List R), l.length + r.length < fuel →
    (mergeLoopL merge fuel a l r).eval = .ok (mergeLoop a l r) := by
  intro fuel
  induction fuel with
  | zero => intro a l r h; omega
  | succ f ih =>
    intro a l r h
    unfold mergeLoopL
    rw [eval_bind, joinL_eval hm, mergeLoop_unfold]
    show (match join a l with | some p => _ | none => _ : Cl K V (R × Union R)).eval = _
    cases hj : join a l with
    | some p => exact ih _ _ _ (by have := join_length hj; omega)
    | none =>
      simp only
      rw [eval_bind, joinL_eval hm]
      show (match join a r with | some p => _ | none => _ : Cl K V (R × Union R)).eval = _
      cases hj' : join a r with
      | some p => exact ih _ _ _ (by have := join_length hj'; omega)
      | none => rfl

theorem mergeLoopL_clones {w : Nat} (hm : ∀ a b, (merge a b).eval = .ok (RangeMerge.merge a b))
    (hc : ∀ a b, (merge a b).keys ≤ (if (RangeMerge.merge a b : Option R).isSome then w else 0) ∧
      (merge a b).vals = 0) :
    ∀ (fuel : Nat) (a : R) (l r : List R), l.length + r.length < fuel →
    (mergeLoopL merge fuel a l r).keys +
        w * ((mergeLoop a l r).2.left.length + (mergeLoop a l r).2.right.length) ≤
      w * (l.length + r.length) ∧ (mergeLoopL merge fuel a l r).vals = 0 := by
  intro fuel
  induction fuel with
  | zero => intro a l r h; omega
  | succ f ih =>
    intro a l r h
    unfold mergeLoopL
    rw [keys_bind_ok (joinL_eval hm a l), vals_bind_ok (joinL_eval hm a l), mergeLoop_unfold]
    have h1 := joinL_clones hm hc a l
    cases hj : join a l with
    | some p =>
      rw [hj] at h1
      have hl := join_length hj
      obtain ⟨h2, h3⟩ := ih p.1 p.2 r (by omega)
      have h4 : w * (l.length + r.length) = w * (p.2.length + r.length) + w := by
        rw [hl, Nat.add_right_comm, Nat.mul_succ]
      simp only [Option.isSome_some, if_true] at h1
      simp only
      omega
    | none =>
      rw [hj] at h1
      simp only [Option.isSome_none, Bool.false_eq_true, if_false] at h1
      simp only
      rw [keys_bind_ok (joinL_eval hm a r), vals_bind_ok (joinL_eval hm a r)]
      have h1' := joinL_clones hm hc a r
      cases hj' : join a r with
      | some p =>
        rw [hj'] at h1'
        have hl := join_length hj'
        obtain ⟨h2, h3⟩ := ih p.1 l p.2 (by omega)
        have h4 : w * (l.length + r.length) = w * (l.length + p.2.length) + w := by
          rw [hl, ← Nat.add_assoc, Nat.mul_succ]
        simp only [Option.isSome_some, if_true] at h1'
        simp only
        omega
      | none =>
        rw [hj'] at h1'
        simp only [Option.isSome_none, Bool.false_eq_true, if_false] at h1'
        simp only [keys_pure, vals_pure]
        omega

theorem nextL_eval (hcl : ∀ a, (clone a).eval = .ok a)
    (hm : ∀ a b, (merge a b).eval = .ok (RangeMerge.merge a b)) (u : Union R) :
    (u.nextL clone merge).eval = .ok u.next := by
  unfold nextL next
  cases u.first with
  | none => rfl
  | some p =>
    simp only
    rw [eval_bind, hcl]
    show (mergeLoopL _ _ _ _ _ >>= _ : Cl K V _).eval = _
    rw [eval_bind, mergeLoopL_eval hm _ _ _ _ (by omega)]
    rfl

theorem first_length {u : Union R} {p : R × Union R} (h : u.first = some p) :
    u.left.length + u.right.length = p.2.left.length + p.2.right.length + 1 := by
  obtain ⟨l, r⟩ := u
  unfold first at h
  match l, r, h with
  | l :: left, [], h => cases h; simp
  | [], r :: right, h => cases h; simp
  | l :: left, r :: right, h =>
    simp only at h
    split at h <;> cases h <;> simp only [List.length_cons] <;> omega

theorem nextL_clones {w : Nat} (hcl : ∀ a, (clone a).eval = .ok a)
    (hc2 : ∀ a, (clone a).keys = 2 ∧ (clone a).vals = 0)
    (hm : ∀ a b, (merge a b).eval = .ok (RangeMerge.merge a b))
    (hc : ∀ a b, (merge a b).keys ≤ (if (RangeMerge.merge a b : Option R).isSome then w else 0) ∧
      (merge a b).vals = 0) (u : Union R) :
    (if u.next.1.isSome then
      (u.nextL clone merge).keys + w * (u.next.2.left.length + u.next.2.right.length + 1) ≤
        2 + w * (u.left.length + u.right.length)
    else (u.nextL clone merge).keys = 0) ∧ (u.nextL clone merge).vals = 0 := by
  unfold nextL next
  cases hf : u.first with
  | none => exact ⟨rfl, rfl⟩
  | some p =>
    simp only [Option.isSome_some, if_true]
    rw [keys_bind_ok (hcl _), vals_bind_ok (hcl _), keys_bind_ok (mergeLoopL_eval hm _ _ _ _ (by omega)),
      vals_bind_ok (mergeLoopL_eval hm _ _ _ _ (by omega))]
    have h1 := hc2 p.1
    obtain ⟨h2, h3⟩ := mergeLoopL_clones hm hc (p.2.left.length + p.2.right.length + 1) p.1 p.2.left
      p.2.right (by omega)
    rw [first_length hf, Nat.mul_succ, Nat.mul_succ]
    simp only [keys_pure, vals_pure]
    omega

end Union

namespace Intersection
variable [RangeIntersect R] {inter : R → R → Cl K V (Option R)}

theorem nextLoop_unfold (l r : R) (left right : List R) :
    nextLoop (l :: left) (r :: right) = match (RangeIntersect.intersect l r : Option R) with
      | some i => (some i, if (RangeOrder.orderEnd l r).isLT then (⟨left, r :: right⟩ : Intersection R)
          else ⟨l :: left, right⟩)
      | none => nextLoop
          (if (RangeOrder.orderEnd l r).isLT then (⟨left, r :: right⟩ : Intersection R)
            else ⟨l :: left, right⟩).left
          (if (RangeOrder.orderEnd l r).isLT then (⟨left, r :: right⟩ : Intersection R)
            else ⟨l :: left, right⟩).right := by
  conv => lhs; unfold nextLoop
  split <;> cases (RangeIntersect.intersect l r : Option R) <;> rfl

theorem nextLoopL_eval (hm : ∀ a b, (inter a b).eval = .ok (RangeIntersect.intersect a b)) :
    ∀ (fuel : Nat) (l r : List R), l.length + r.length < fuel →
    (nextLoopL inter fuel l r).eval = .ok (nextLoop l r) := by
  intro fuel
  induction fuel with
  | zero => intro l r h; omega
  | succ f ih =>
    intro l r h
    match l, r, h with
    | [], r, h => simp only [nextLoopL, nextLoop]; rfl
    | _ :: _, [], h => simp only [nextLoopL, nextLoop]; rfl
    | a :: l, b :: r, h =>
      simp only [nextLoopL]
      rw [eval_bind, hm, nextLoop_unfold]
      cases (RangeIntersect.intersect a b : Option R) with
      | some i => rfl
      | none =>
        refine ih _ _ ?_
        simp only [List.length_cons] at h
        split <;> simp only [List.length_cons] <;> omega

theorem nextLoopL_clones (hm : ∀ a b, (inter a b).eval = .ok (RangeIntersect.intersect a b))
    (hc : ∀ a b, (inter a b).keys = (if (RangeIntersect.intersect a b : Option R).isSome then 2 else 0) ∧
      (inter a b).vals = 0) :
    ∀ (fuel : Nat) (l r : List R), l.length + r.length < fuel →
    (nextLoopL inter fuel l r).keys = (if (nextLoop l r).1.isSome then 2 else 0) ∧
    (nextLoopL inter fuel l r).vals = 0 := by
  intro fuel
  induction fuel with
  | zero => intro l r h; omega
  | succ f ih =>
    intro l r h
    match l, r, h with
    | [], r, h => simp only [nextLoopL, nextLoop]; exact ⟨rfl, rfl⟩
    | _ :: _, [], h => simp only [nextLoopL, nextLoop]; exact ⟨rfl, rfl⟩
    | a :: l, b :: r, h =>
      simp only [nextLoopL]
      rw [keys_bind_ok (hm a b), vals_bind_ok (hm a b), nextLoop_unfold]
      have h1 := hc a b
      cases hi : (RangeIntersect.intersect a b : Option R) with
      | some i =>
        rw [hi] at h1
        simpa using h1
      | none =>
        rw [hi] at h1
        simp only [Option.isSome_none, Bool.false_eq_true, if_false] at h1
        have h2 := ih (if (RangeOrder.orderEnd a b).isLT then (⟨l, b :: r⟩ : Intersection R)
            else ⟨a :: l, r⟩).left (if (RangeOrder.orderEnd a b).isLT then (⟨l, b :: r⟩ : Intersection R)
            else ⟨a :: l, r⟩).right (by
          simp only [List.length_cons] at h
          split <;> simp only [List.length_cons] <;> omega)
        simp only [h1.1, h1.2, Nat.zero_add]
        exact h2

end Intersection
end

namespace RangeMap

theorem Gaps.nextL_clones (g : Gaps K V) :
    g.nextL.keys = (if g.next.1.isSome then 2 else 0) ∧ g.nextL.vals = 0 := by
  have tail : ∀ (a b : K) (l : List (Range K × V)),
      (nextTailL a b l).keys = (if (nextTail a b l).1.isSome then 2 else 0) ∧
      (nextTailL a b l).vals = 0 := by
    intro a b l
    unfold nextTailL nextTail
    split <;> exact ⟨rfl, rfl⟩
  obtain ⟨a, b, l⟩ := g
  simp only [nextL, next]
  induction l generalizing a with
  | nil => exact tail a b []
  | cons x t ih =>
    unfold nextLoopL nextLoop
    split
    · exact tail a b t
    · split
      · exact ⟨rfl, rfl⟩
      · exact ih _

theorem cloneL_clones (l : List (Range K × V)) :
    (cloneL l).keys = 2 * l.length ∧ (cloneL l).vals = l.length := by
  induction l with
  | nil => exact ⟨rfl, rfl⟩
  | cons e t ih =>
    unfold cloneL
    simp only [keys_cloneRange_bind, vals_cloneRange_bind, keys_cloneVal_bind, vals_cloneVal_bind,
      keys_bind_ok (cloneL_eval t), vals_bind_ok (cloneL_eval t), keys_pure, vals_pure, List.length_cons]
    omega

theorem getKeyValueL_clones (m : RangeMap K V) (k : K) :
    (m.getKeyValueL k).keys = 2 ∧ (m.getKeyValueL k).vals = 0 := by
  unfold getKeyValueL
  simp only [keys_cloneKey_bind, vals_cloneKey_bind, keys_bind, vals_bind, keys_lib, vals_lib, eval_lib]
  cases BTreeMap.range Range.start .unbounded (.included k) m.btm <;> exact ⟨rfl, rfl⟩

theorem overlappingL_clones (m : RangeMap K V) (r : Range K) :
    (m.overlappingL r).keys = 2 ∧ (m.overlappingL r).vals = 0 := by
  unfold overlappingL
  simp only [keys_bind, vals_bind, keys_lib, vals_lib, eval_lib]
  cases BTreeMap.range Range.stop (.excluded r.start) .unbounded m.btm <;> exact ⟨rfl, rfl⟩

theorem gapsL_clones (m : RangeMap K V) (r : Range K) :
    (m.gapsL r).keys = 2 ∧ (m.gapsL r).vals = 0 := by
  unfold gapsL
  have := overlappingL_clones m r
  rw [keys_bind, vals_bind]
  cases (m.overlappingL r).eval <;> simpa using this

end RangeMap

namespace RangeInclusiveMap
variable {S : StepFns K}

theorem Gaps.nextL_clones (g : Gaps K V) : (g.nextL S).keys ≤ 2 ∧ (g.nextL S).vals = 0 := by
  have tail : ∀ (p : Bool) (a b : K) (l : List (RangeInclusive K × V)),
      (nextTailL S p a b l).keys ≤ (if p then 1 else 2) ∧ (nextTailL S p a b l).vals = 0 := by
    intro p a b l
    unfold nextTailL
    cases p with
    | true =>
      by_cases h : a < b
      · simp only [h, if_true, keys_bind, vals_bind, keys_lib, vals_lib, eval_lib]
        cases S.addOne a <;> exact ⟨Nat.le_of_ble_eq_true rfl, rfl⟩
      · simp only [h, if_true, if_false]
        exact ⟨Nat.zero_le _, rfl⟩
    | false =>
      by_cases h : a ≤ b
      · simp only [h, if_true]
        exact ⟨Nat.le_of_ble_eq_true rfl, rfl⟩
      · simp only [h, if_false]
        exact ⟨Nat.zero_le _, rfl⟩
  suffices h : ∀ (l : List (RangeInclusive K × V)) (p : Bool) (a b : K),
      (nextLoopL S p a b l).keys ≤ (if p then 1 else 2) ∧ (nextLoopL S p a b l).vals = 0 by
    obtain ⟨p, a, b, l⟩ := g
    have := h l p a b
    refine ⟨Nat.le_trans this.1 ?_, this.2⟩
    cases p <;> decide
  intro l
  induction l with
  | nil => intro p a b; exact tail p a b []
  | cons x t ih =>
    intro p a b
    unfold nextLoopL
    split
    · exact tail p a b t
    · have hcur : (curCandidateStartL S p a : Cl K V K).keys = (if p then 0 else 1) ∧
          (curCandidateStartL S p a : Cl K V K).vals = 0 := by
        unfold curCandidateStartL
        cases p with
        | true => exact ⟨keys_lib _, vals_lib _⟩
        | false => exact ⟨rfl, rfl⟩
      rw [keys_bind, vals_bind, hcur.1, hcur.2]
      cases (curCandidateStartL S p a : Cl K V K).eval with
      | error e => cases p <;> exact ⟨Nat.le_of_ble_eq_true rfl, rfl⟩
      | ok c =>
        simp only
        by_cases h : c < x.1.start
        · simp only [h, if_true, keys_bind, vals_bind, keys_lib, vals_lib, eval_lib]
          cases S.subOne x.1.start <;> cases p <;> exact ⟨Nat.le_of_ble_eq_true rfl, rfl⟩
        · simp only [h, if_false]
          have := ih true x.1.stop b
          simp only [if_true] at this
          cases p <;> simp only [Bool.false_eq_true, if_true, if_false] <;> omega

theorem cloneL_clones (l : List (RangeInclusive K × V)) :
    (cloneL l).keys = 2 * l.length ∧ (cloneL l).vals = l.length := by
  induction l with
  | nil => exact ⟨rfl, rfl⟩
  | cons e t ih =>
    unfold cloneL
    simp only [keys_cloneIRange_bind, vals_cloneIRange_bind, keys_cloneVal_bind, vals_cloneVal_bind,
      keys_bind_ok (cloneL_eval t), vals_bind_ok (cloneL_eval t), keys_pure, vals_pure, List.length_cons]
    omega

theorem getKeyValueL_clones (m : RangeInclusiveMap K V) (k : K) :
    (m.getKeyValueL k).keys = 2 ∧ (m.getKeyValueL k).vals = 0 := by
  unfold getKeyValueL
  simp only [keys_bind, vals_bind, keys_lib, vals_lib, eval_lib]
  cases BTreeMap.range RangeInclusive.start .unbounded (.included k) m.btm <;> exact ⟨rfl, rfl⟩

theorem overlappingL_clones (m : RangeInclusiveMap K V) (r : RangeInclusive K) :
    (m.overlappingL r).keys = 2 ∧ (m.overlappingL r).vals = 0 := by
  unfold overlappingL
  simp only [keys_bind, vals_bind, keys_lib, vals_lib, eval_lib]
  cases BTreeMap.range RangeInclusive.stop (.included r.start) .unbounded m.btm <;> exact ⟨rfl, rfl⟩

theorem gapsL_clones (m : RangeInclusiveMap K V) (r : RangeInclusive K) :
    (m.gapsL r).keys = 2 ∧ (m.gapsL r).vals = 0 := by
  unfold gapsL
  have := overlappingL_clones m r
  rw [keys_bind, vals_bind]
  cases (m.overlappingL r).eval <;> simpa using this

end RangeInclusiveMap
end Verif

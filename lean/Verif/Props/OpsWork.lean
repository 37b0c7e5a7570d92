import Verif.Model.OpsWork
import Verif.Props.QueryWork
import Verif.Props.Set
import Verif.Props.ISet
import Verif.Props.Demo

/-!
# C74: union and intersection do work proportional to the number of ranges
-/
set_option linter.unusedSectionVars false

namespace Verif.Props
open Spec

section
variable {R : Type} [RangeOrder R] [RangeMerge R] [RangeIntersect R] [MergeCost R]

theorem mergeLoopW_fst (range : R) (left right : List R) :
    (Union.mergeLoopW range left right).1 = Union.mergeLoop range left right := by
  fun_induction Union.mergeLoopW range left right with
  | case1 range left right range' left' h r ih =>
    rw [Union.mergeLoop]
    split
    · rename_i h2
      obtain ⟨rfl, rfl⟩ := Prod.mk.inj (Option.some.inj (h.symm.trans h2))
      exact ih
    · simp_all
  | case2 range left right h range' right' h' r ih =>
    rw [Union.mergeLoop]
    split
    · simp_all
    · split
      · rename_i h2
        obtain ⟨rfl, rfl⟩ := Prod.mk.inj (Option.some.inj (h'.symm.trans h2))
        exact ih
      · simp_all
  | case3 range left right h h' =>
    rw [Union.mergeLoop]
    split
    · simp_all
    · split <;> simp_all

theorem nextLoopW_fst (left right : List R) :
    (Intersection.nextLoopW left right).1 = Intersection.nextLoop left right := by
  fun_induction Intersection.nextLoopW left right with
  | case1 l left r right h i hi => rw [Intersection.nextLoop, if_pos h, hi]
  | case2 l left r right h hi q ih => rw [Intersection.nextLoop, if_pos h, hi]; exact ih
  | case3 l left r right h i hi => rw [Intersection.nextLoop, if_neg h, hi]
  | case4 l left r right h hi q ih => rw [Intersection.nextLoop, if_neg h, hi]; exact ih
  | case5 left right h =>
    cases left with
    | nil => rw [Intersection.nextLoop]; simp
    | cons l left =>
      cases right with
      | nil => rw [Intersection.nextLoop]; simp
      | cons r right => exact (h _ _ _ _ rfl rfl).elim

/-- **C74** The counted iterators are the iterators. -/
theorem C74_counted_is_real (u : Union R) (i : Intersection R) :
    u.nextW.1 = u.next ∧ i.nextW.1 = i.next := by
  refine ⟨?_, nextLoopW_fst _ _⟩
  unfold Union.nextW Union.next
  cases u.first with
  | none => rfl
  | some p => simp only [mergeLoopW_fst]

/-- What is left to be taken pays for the loop. -/
theorem mergeLoopW_cost (hc : ∀ r s : R, MergeCost.mergeCost r s ≤ 3) (range : R)
    (left right : List R) :
    (Union.mergeLoopW range left right).1.2.left.length + (Union.mergeLoopW range left right).1.2.right.length + (Union.mergeLoopW range left right).2.taken = left.length + right.length ∧
    (Union.mergeLoopW range left right).2.compared ≤ 6 * (Union.mergeLoopW range left right).2.taken + 6 ∧ (Union.mergeLoopW range left right).2.stepped = 0 := by
  have hj : ∀ (r : R) l, Union.joinCost r l ≤ 3 := by
    intro r l
    cases l with
    | nil => exact Nat.zero_le _
    | cons a t => exact hc r a
  fun_induction Union.mergeLoopW range left right with
  | case1 range left right range' left' h r ih =>
    have h1 := Union.join_length h
    have h2 := hj range left
    subst r
    simp only [Work.add_taken, Work.add_compared, Work.add_stepped] at *
    omega
  | case2 range left right h range' right' h' r ih =>
    have h1 := Union.join_length h'
    have h2 := hj range left
    have h3 := hj range right
    subst r
    simp only [Work.add_taken, Work.add_compared, Work.add_stepped] at *
    omega
  | case3 range left right h h' =>
    have h2 := hj range left
    have h3 := hj range right
    exact ⟨rfl, by simp only; omega, rfl⟩

/-- One call of `Union::next`: every range taken is one less to take, and seven comparisons are
enough for each. -/
theorem unionW_step (hc : ∀ r s : R, MergeCost.mergeCost r s ≤ 3) (u : Union R) :
    u.nextW.1.2.left.length + u.nextW.1.2.right.length + u.nextW.2.taken =
      u.left.length + u.right.length ∧
    u.nextW.2.compared ≤ 7 * u.nextW.2.taken ∧ u.nextW.2.stepped = 0 ∧
    (u.nextW.1.1 = none → u.left.length + u.right.length = 0) := by
  obtain ⟨left, right⟩ := u
  have key := mergeLoopW_cost hc
  rcases left with _ | ⟨l, left⟩ <;> rcases right with _ | ⟨r, right⟩
  · simp [Union.nextW, Union.first, Union.firstCost, Work.zero_def]
  · have := key r [] right
    simp only [Union.nextW, Union.first, Union.firstCost, Work.add_taken, Work.add_compared,
      Work.add_stepped, List.length_cons, List.length_nil] at *
    exact ⟨by omega, by omega, by omega, nofun⟩
  · have := key l left []
    simp only [Union.nextW, Union.first, Union.firstCost, Work.add_taken, Work.add_compared,
      Work.add_stepped, List.length_cons, List.length_nil] at *
    exact ⟨by omega, by omega, by omega, nofun⟩
  · have h1 := key l left (r :: right)
    have h2 := key r (l :: left) right
    simp only [Union.nextW, Union.first, Union.firstCost]
    split
    · rename_i h
      split at h <;> cases h
    · rename_i h
      split at h <;> (
        obtain rfl := congrArg Prod.fst (Option.some.inj h)
        obtain rfl := congrArg Prod.snd (Option.some.inj h)
        simp only [Work.add_taken, Work.add_compared,
          Work.add_stepped, List.length_cons, List.length_nil] at *
        exact ⟨by omega, by omega, by omega, nofun⟩)

/-- One call of `Intersection::next`. -/
theorem intersectionW_step (left right : List R) :
    (Intersection.nextLoopW left right).1.2.left.length + (Intersection.nextLoopW left right).1.2.right.length + (Intersection.nextLoopW left right).2.taken = left.length + right.length ∧
    (Intersection.nextLoopW left right).2.compared = 4 * (Intersection.nextLoopW left right).2.taken ∧ (Intersection.nextLoopW left right).2.stepped = 0 ∧
    ((Intersection.nextLoopW left right).1.1 = none → (Intersection.nextLoopW left right).1.2.left = [] ∨ (Intersection.nextLoopW left right).1.2.right = []) := by
  fun_induction Intersection.nextLoopW left right with
  | case1 l left r right h i hi =>
    exact ⟨by simp only [List.length_cons]; omega, rfl, rfl, nofun⟩
  | case2 l left r right h hi q ih =>
    subst q
    simp only [Work.add_taken, Work.add_compared, Work.add_stepped, List.length_cons] at *
    exact ⟨by omega, by omega, by omega, ih.2.2.2⟩
  | case3 l left r right h i hi =>
    exact ⟨by simp only [List.length_cons]; omega, rfl, rfl, nofun⟩
  | case4 l left r right h hi q ih =>
    subst q
    simp only [Work.add_taken, Work.add_compared, Work.add_stepped, List.length_cons] at *
    exact ⟨by omega, by omega, by omega, ih.2.2.2⟩
  | case5 left right h =>
    refine ⟨rfl, rfl, rfl, fun _ => ?_⟩
    cases left with
    | nil => exact .inl rfl
    | cons l left =>
      cases right with
      | nil => exact .inr rfl
      | cons r right => exact (h _ _ _ _ rfl rfl).elim

/-- Any number of calls of `Union::next`. -/
theorem unionW_total (hc : ∀ r s : R, MergeCost.mergeCost r s ≤ 3) (n : Nat) :
    ∀ u : Union R, totalWork Union.nextW n u ≤
      ⟨u.left.length + u.right.length, 7 * (u.left.length + u.right.length), 0⟩ := by
  induction n with
  | zero => intro u; simp [totalWork, Work.le_def, Work.zero_def]
  | succ n ih =>
    intro u
    have h1 := unionW_step hc u
    have h2 := ih u.nextW.1.2
    simp only [totalWork, Work.le_def, Work.add_taken, Work.add_compared, Work.add_stepped] at *
    omega

/-- Any number of calls of `Intersection::next`. -/
theorem intersectionW_total (n : Nat) : ∀ i : Intersection R, totalWork Intersection.nextW n i ≤
      ⟨i.left.length + i.right.length, 4 * (i.left.length + i.right.length), 0⟩ := by
  induction n with
  | zero => intro u; simp [totalWork, Work.le_def, Work.zero_def]
  | succ n ih =>
    intro i
    have h1 := intersectionW_step i.left i.right
    have h2 := ih i.nextW.1.2
    simp only [totalWork, Intersection.nextW, Work.le_def, Work.add_taken, Work.add_compared,
      Work.add_stepped] at *
    omega

/-- A union that has run out has taken every range, and does nothing any more. -/
theorem unionW_done (hc : ∀ r s : R, MergeCost.mergeCost r s ≤ 3) (u : Union R)
    (h : u.next.1 = none) : u.nextW = ((none, u), 0) := by
  rw [← (C74_counted_is_real u ⟨[], []⟩).1] at h
  have := (unionW_step hc u).2.2.2 h
  obtain ⟨left, right⟩ := u
  rcases left with _ | ⟨l, left⟩ <;> rcases right with _ | ⟨r, right⟩ <;> simp at this
  simp [Union.nextW, Union.first, Union.firstCost]

/-- An intersection that has run out does nothing any more. -/
theorem intersectionW_done (i : Intersection R) (h : i.next.1 = none) :
    i.next.2.nextW = ((none, i.next.2), 0) := by
  have h1 := (intersectionW_step i.left i.right).2.2.2
  rw [nextLoopW_fst] at h1
  have h2 := h1 h
  unfold Intersection.nextW
  rcases h2 with h2 | h2 <;>
    · rw [show i.next.2 = (Intersection.nextLoop i.left i.right).2 from rfl, Intersection.nextLoopW]
      · simp [h2]

end

section
variable {K : Type} [LE K] [LT K] [DecidableLE K] [DecidableLT K]

theorem range_mergeCost (r s : Range K) : MergeCost.mergeCost r s ≤ 3 := by
  simp only [MergeCost.mergeCost]
  repeat' split
  all_goals omega

theorem rangeInclusive_mergeCost (r s : RangeInclusive K) : MergeCost.mergeCost r s ≤ 3 := by
  simp only [MergeCost.mergeCost]
  repeat' split
  all_goals omega

/-- **C74** However often `next` is called, `a.union(&b)` takes each range of the two sets at most
once and makes at most seven comparisons of keys for each. -/
theorem C74_union (a b : RangeSet K) (n : Nat) :
    totalWork Union.nextW n (a.union b) ≤ ⟨a.len + b.len, 7 * (a.len + b.len), 0⟩ := by
  have := unionW_total range_mergeCost n (a.union b)
  simpa [RangeSet.union, RangeSet.iter, RangeSet.len, RangeMap.iter, RangeMap.len] using this

example := C74_union (K := Nat) Demo.set Demo.set' 5

/-- **C74** Likewise `a.intersection(&b)`, with four comparisons for each. -/
theorem C74_intersection (a b : RangeSet K) (n : Nat) :
    totalWork Intersection.nextW n (a.intersection b) ≤
      ⟨a.len + b.len, 4 * (a.len + b.len), 0⟩ := by
  have := intersectionW_total n (a.intersection b)
  simpa [RangeSet.intersection, RangeSet.iter, RangeSet.len, RangeMap.iter, RangeMap.len] using this

example := C74_intersection (K := Nat) Demo.set Demo.set' 5

/-- **C74** Once they have returned `None`, further calls do nothing. -/
theorem C74_done (u : Union (Range K)) (i : Intersection (Range K)) :
    (u.next.1 = none → u.next.2.nextW = ((none, u.next.2), 0)) ∧
    (i.next.1 = none → i.next.2.nextW = ((none, i.next.2), 0)) := by
  refine ⟨fun h => ?_, intersectionW_done i⟩
  have h1 := unionW_done range_mergeCost u h
  have h2 := (C74_counted_is_real u ⟨[], []⟩).1
  rw [h1] at h2
  rw [← h2]
  exact h1

/-- Three and four ranges: the union takes all seven, with 27 comparisons. -/
example : totalWork Union.nextW 6 (Demo.set.union Demo.set') = ⟨7, 27, 0⟩ := by
  decide +kernel

/-- The intersection takes six of them, with 24 comparisons. -/
example : totalWork Intersection.nextW 6 (Demo.set.intersection Demo.set') = ⟨6, 24, 0⟩ := by
  decide +kernel

end
end Verif.Props

namespace Verif.Props.Inclusive
open Spec
variable {K : Type} [LE K] [LT K] [DecidableLE K] [DecidableLT K]

/-- **C74** However often `next` is called, `a.union(&b)` takes each range of the two sets at most
once and makes at most seven comparisons of keys for each. -/
theorem C74_union (a b : RangeInclusiveSet K) (n : Nat) :
    totalWork Union.nextW n (a.union b) ≤ ⟨a.len + b.len, 7 * (a.len + b.len), 0⟩ := by
  have := unionW_total rangeInclusive_mergeCost n (a.union b)
  simpa [RangeInclusiveSet.union, RangeInclusiveSet.iter, RangeInclusiveSet.len,
    RangeInclusiveMap.iter, RangeInclusiveMap.len] using this

example := Inclusive.C74_union (K := UIntW 8) Demo.iset Demo.iset' 5

/-- **C74** Likewise `a.intersection(&b)`, with four comparisons for each. -/
theorem C74_intersection (a b : RangeInclusiveSet K) (n : Nat) :
    totalWork Intersection.nextW n (a.intersection b) ≤
      ⟨a.len + b.len, 4 * (a.len + b.len), 0⟩ := by
  have := intersectionW_total n (a.intersection b)
  simpa [RangeInclusiveSet.intersection, RangeInclusiveSet.iter, RangeInclusiveSet.len,
    RangeInclusiveMap.iter, RangeInclusiveMap.len] using this

example := Inclusive.C74_intersection (K := UIntW 8) Demo.iset Demo.iset' 5

/-- **C74** Once they have returned `None`, further calls do nothing. -/
theorem C74_done (u : Union (RangeInclusive K)) (i : Intersection (RangeInclusive K)) :
    (u.next.1 = none → u.next.2.nextW = ((none, u.next.2), 0)) ∧
    (i.next.1 = none → i.next.2.nextW = ((none, i.next.2), 0)) := by
  refine ⟨fun h => ?_, intersectionW_done i⟩
  have h1 := unionW_done rangeInclusive_mergeCost u h
  have h2 := (C74_counted_is_real u ⟨[], []⟩).1
  rw [h1] at h2
  rw [← h2]
  exact h1

/-- Three and four ranges: the union takes all seven, with 27 comparisons. -/
example : totalWork Union.nextW 6 (Demo.iset.union Demo.iset') = ⟨7, 27, 0⟩ := by
  decide +kernel

/-- The intersection takes six of them, with 24 comparisons. -/
example : totalWork Intersection.nextW 6 (Demo.iset.intersection Demo.iset') = ⟨6, 24, 0⟩ := by
  decide +kernel


example := C74_counted_is_real (Demo.iset.union Demo.iset') (Demo.iset.intersection Demo.iset')

end Verif.Props.Inclusive

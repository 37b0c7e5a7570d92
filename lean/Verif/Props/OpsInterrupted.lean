import Verif.Props.OpsCrash
import Verif.Props.OpsWork

/-!
# C73: exactly when a call of `Union::next` or `Intersection::next` is interrupted
-/
set_option linter.unusedSectionVars false

namespace Verif.Props
open Spec

/-- A step of a computation that calls user code with numbers from `n` up to `N`: it is interrupted by
the first of these calls that panics, and ends with `ok` if none does. -/
def Interrupts {α β : Type} (panics : Nat → Bool) (n N : Nat) (calls : β → Nat)
    (res : Option α × β) (ok : α × β) : Prop :=
  n ≤ N ∧
  ((∀ i, n ≤ i → i < N → panics i = false) → res = (some ok.1, ok.2) ∧ calls ok.2 = N) ∧
  ∀ i, n ≤ i → i < N → panics i = true → (∀ j, n ≤ j → j < i → panics j = false) →
    res.1 = none ∧ calls res.2 = i + 1

section
variable {α β : Type} {panics : Nat → Bool} {calls : β → Nat} {res : Option α × β} {ok : α × β}

/-- No user code is called. -/
theorem Interrupts.nil {n : Nat} (h : res = (some ok.1, ok.2)) (h' : calls ok.2 = n) :
    Interrupts panics n n calls res ok :=
  ⟨Nat.le_refl _, fun _ => ⟨h, h'⟩, fun i h1 h2 => by omega⟩

/-- One call of user code before the rest. -/
theorem Interrupts.call {n N : Nat} {p : Option α × β} {rest : Option α × β} (hp : p.1 = none)
    (hp' : calls p.2 = n + 1) (h : Interrupts panics (n + 1) N calls rest ok) :
    Interrupts panics n N calls (if panics n then p else rest) ok := by
  obtain ⟨h0, h1, h2⟩ := h
  refine ⟨by omega, fun hn => ?_, fun i hi hi' hpi hj => ?_⟩
  · rw [if_neg (by rw [hn n (Nat.le_refl _) (by omega)]; exact Bool.false_ne_true)]
    exact h1 fun i hi => hn i (by omega)
  · by_cases hin : i = n
    · subst hin
      rw [if_pos hpi]
      exact ⟨hp, hp'⟩
    · rw [if_neg (by rw [hj n (Nat.le_refl _) (by omega)]; exact Bool.false_ne_true)]
      exact h2 i (by omega) hi' hpi fun j hj' => hj j (by omega)

theorem Interrupts.to {n N M : Nat} (h : Interrupts panics n N calls res ok) (hM : N = M) :
    Interrupts panics n M calls res ok := hM ▸ h

end

section
variable {R : Type} [RangeOrder R] [RangeMerge R] [RangeIntersect R]

/-- Each `merge` counts as one call. -/
def oneEach : MergeCost R := ⟨fun _ _ => 1⟩

/-- The calls of user code of the loop of `Union::next`: how often `merge` is called. -/
def loopCalls (range : R) (left right : List R) : Nat :=
  (@Union.mergeLoopW R _ oneEach range left right).2.compared

theorem loopCalls_nil (range : R) : loopCalls range [] [] = 0 := by
  rw [loopCalls, @Union.mergeLoopW.eq_def R _ oneEach]; rfl

theorem loopCalls_left {range range' l : R} {left right : List R}
    (h : RangeMerge.merge range l = some range') :
    loopCalls range (l :: left) right = 1 + loopCalls range' left right := by
  have hj : Union.join range (l :: left) = some (range', left) := by simp [Union.join, h]
  rw [loopCalls, @Union.mergeLoopW.eq_def R _ oneEach]
  split
  · rename_i h2
    obtain ⟨rfl, rfl⟩ := Prod.mk.inj (Option.some.inj (hj.symm.trans h2))
    rfl
  · simp_all

theorem loopCalls_right {range range' r : R} {left right : List R}
    (h' : Union.join range left = none) (h : RangeMerge.merge range r = some range') :
    loopCalls range left (r :: right) =
      (if left = [] then 1 else 2) + loopCalls range' left right := by
  have hj : Union.join range (r :: right) = some (range', right) := by simp [Union.join, h]
  rw [loopCalls, @Union.mergeLoopW.eq_def R _ oneEach]
  split
  · simp_all
  · split
    · rename_i h2
      obtain ⟨rfl, rfl⟩ := Prod.mk.inj (Option.some.inj (hj.symm.trans h2))
      cases left <;> rfl
    · simp_all

theorem loopCalls_done {range : R} {left right : List R}
    (h : Union.join range left = none) (h' : Union.join range right = none) :
    loopCalls range left right = (if left = [] then 0 else 1) + (if right = [] then 0 else 1) := by
  rw [loopCalls, @Union.mergeLoopW.eq_def R _ oneEach]
  split
  · simp_all
  · split
    · simp_all
    · cases left <;> cases right <;> rfl

theorem mergeLoop_left {range range' l : R} {left right : List R}
    (h : RangeMerge.merge range l = some range') :
    Union.mergeLoop range (l :: left) right = Union.mergeLoop range' left right := by
  have hj : Union.join range (l :: left) = some (range', left) := by simp [Union.join, h]
  rw [Union.mergeLoop]
  split
  · rename_i h2
    obtain ⟨rfl, rfl⟩ := Prod.mk.inj (Option.some.inj (hj.symm.trans h2))
    rfl
  · simp_all

theorem mergeLoop_right {range range' r : R} {left right : List R}
    (h' : Union.join range left = none) (h : RangeMerge.merge range r = some range') :
    Union.mergeLoop range left (r :: right) = Union.mergeLoop range' left right := by
  have hj : Union.join range (r :: right) = some (range', right) := by simp [Union.join, h]
  rw [Union.mergeLoop]
  split
  · simp_all
  · split
    · rename_i h2
      obtain ⟨rfl, rfl⟩ := Prod.mk.inj (Option.some.inj (hj.symm.trans h2))
      rfl
    · simp_all

theorem mergeLoop_done {range : R} {left right : List R}
    (h : Union.join range left = none) (h' : Union.join range right = none) :
    Union.mergeLoop range left right = (range, ⟨left, right⟩) := by
  rw [Union.mergeLoop]
  split
  · simp_all
  · split
    · simp_all
    · rfl

theorem join_cons_none {range r : R} {l : List R} (h : RangeMerge.merge range r = none) :
    Union.join range (r :: l) = none := by simp [Union.join, h]

theorem mergeLoop_interrupts (panics : Nat → Bool) (n : Nat) (range : R) (left right : List R) :
    Interrupts panics n (n + loopCalls range left right) UnionP.calls
      (UnionP.mergeLoop panics n range left right)
      (some (Union.mergeLoop range left right).1,
        ⟨n + loopCalls range left right, (Union.mergeLoop range left right).2⟩) := by
  match left, right with
  | l :: left', right =>
    rw [UnionP.mergeLoop.eq_def]
    refine Interrupts.call rfl rfl ?_
    cases h : RangeMerge.merge range l with
    | some range' =>
      rw [loopCalls_left h, mergeLoop_left h, ← Nat.add_assoc]
      exact mergeLoop_interrupts panics (n + 1) range' left' right
    | none =>
      have hj := join_cons_none (l := left') h
      match right with
      | [] =>
        rw [loopCalls_done hj rfl, mergeLoop_done hj rfl]
        exact .nil rfl rfl
      | r :: right' =>
        refine Interrupts.call rfl rfl ?_
        cases h' : RangeMerge.merge range r with
        | some range' =>
          rw [loopCalls_right hj h', mergeLoop_right hj h', ← Nat.add_assoc]
          exact mergeLoop_interrupts panics (n + 2) range' (l :: left') right'
        | none =>
          have hj' := join_cons_none (l := right') h'
          rw [loopCalls_done hj hj', mergeLoop_done hj hj']
          exact .nil rfl rfl
  | [], r :: right' =>
    rw [UnionP.mergeLoop]
    refine Interrupts.call rfl rfl ?_
    cases h : RangeMerge.merge range r with
    | some range' =>
      rw [loopCalls_right rfl h, mergeLoop_right rfl h, ← Nat.add_assoc]
      exact mergeLoop_interrupts panics (n + 1) range' [] right'
    | none =>
      have hj := join_cons_none (l := right') h
      rw [loopCalls_done rfl hj, mergeLoop_done rfl hj]
      exact .nil rfl rfl
  | [], [] =>
    rw [UnionP.mergeLoop, loopCalls_nil, mergeLoop_done rfl rfl]
    exact .nil rfl rfl
termination_by left.length + right.length

/-- How often a call of `Union::next` calls user code: to compare the starts if there is a range on
either side, to clone the first range, and to merge. -/
def unionCalls (u : Union R) : Nat :=
  (@Union.nextW R _ _ oneEach u).2.compared + if u.left = [] ∧ u.right = [] then 0 else 1

/-- **C73** A call of `Union::next` is interrupted exactly if one of the calls of user code it would
make panics, and then by the first that does; otherwise it does what it would do if none ever
panicked.  The calls are the comparison of the starts (if there is a range on either side), the clone
of the first range, and one for each attempt to merge. -/
theorem C73_union_interrupted (panics : Nat → Bool) (u : UnionP R) :
    Interrupts panics u.calls (u.calls + unionCalls u.it) UnionP.calls (u.next panics)
      (u.it.next.1, ⟨u.calls + unionCalls u.it, u.it.next.2⟩) := by
  obtain ⟨n, left, right⟩ := u
  have start : ∀ (n N : Nat) (range : R) (left right : List R),
      N = n + 1 + loopCalls range left right →
      Interrupts panics n N UnionP.calls (UnionP.start panics n range left right)
        (some (Union.mergeLoop range left right).1, ⟨N, (Union.mergeLoop range left right).2⟩) := by
    intro n N range left right hN
    subst hN
    exact Interrupts.call rfl rfl (mergeLoop_interrupts panics (n + 1) range left right)
  match left, right with
  | l :: left, [] => exact start n _ l left [] (by simp [unionCalls, Union.nextW, Union.first, Union.firstCost, loopCalls, Work.add_compared]; omega)
  | [], r :: right => exact start n _ r [] right (by simp [unionCalls, Union.nextW, Union.first, Union.firstCost, loopCalls, Work.add_compared]; omega)
  | [], [] => exact .nil rfl rfl
  | l :: left, r :: right =>
    show Interrupts panics n _ UnionP.calls (if panics n then _ else _) _
    refine Interrupts.call rfl rfl ?_
    unfold Union.next unionCalls Union.nextW Union.first Union.firstCost
    by_cases h : (RangeOrder.orderStart l r).isLT = true
    · simp only [h, if_true]
      exact start (n + 1) _ l left (r :: right) (by simp [loopCalls, Work.add_compared]; omega)
    · simp only [h]
      exact start (n + 1) _ r (l :: left) right (by simp [loopCalls, Work.add_compared]; omega)

/-- **C73** A call of `Intersection::next` is interrupted exactly if one of the calls of user code it
would make panics, and then by the first that does; otherwise it does what it would do if none ever
panicked.  There are two calls (`intersect` and `order_end`) for each range taken. -/
theorem C73_intersection_interrupted (panics : Nat → Bool) (i : IntersectionP R) :
    Interrupts panics i.calls (i.calls + 2 * i.it.nextW.2.taken) IntersectionP.calls (i.next panics)
      (i.it.next.1, ⟨i.calls + 2 * i.it.nextW.2.taken, i.it.next.2⟩) := by
  obtain ⟨n, left, right⟩ := i
  show Interrupts panics n (n + 2 * (Intersection.nextLoopW left right).2.taken) IntersectionP.calls
    (IntersectionP.nextLoop panics n left right) ((Intersection.nextLoop left right).1,
      ⟨n + 2 * (Intersection.nextLoopW left right).2.taken, (Intersection.nextLoop left right).2⟩)
  letI : MergeCost R := oneEach
  rw [← nextLoopW_fst]
  fun_induction Intersection.nextLoopW left right generalizing n with
  | case1 l left r right h i hi =>
    rw [IntersectionP.nextLoop, if_pos h, hi]
    exact Interrupts.call rfl rfl (Interrupts.call rfl rfl (.nil rfl rfl))
  | case2 l left r right h hi q ih =>
    rw [IntersectionP.nextLoop, if_pos h, hi]
    refine Interrupts.call rfl rfl (Interrupts.call rfl rfl ?_)
    have := ih (n + 2)
    have e : n + 2 + 2 * q.2.taken = n + 2 * (⟨1, 4, 0⟩ + q.2 : Work).taken := by
      show _ = n + 2 * (1 + q.2.taken); omega
    rw [← e]
    exact this
  | case3 l left r right h i hi =>
    rw [IntersectionP.nextLoop, if_neg h, hi]
    exact Interrupts.call rfl rfl (Interrupts.call rfl rfl (.nil rfl rfl))
  | case4 l left r right h hi q ih =>
    rw [IntersectionP.nextLoop, if_neg h, hi]
    refine Interrupts.call rfl rfl (Interrupts.call rfl rfl ?_)
    have := ih (n + 2)
    have e : n + 2 + 2 * q.2.taken = n + 2 * (⟨1, 4, 0⟩ + q.2 : Work).taken := by
      show _ = n + 2 * (1 + q.2.taken); omega
    rw [← e]
    exact this
  | case5 left right h =>
    cases left with
    | nil => rw [IntersectionP.nextLoop]; exact .nil rfl rfl; simp
    | cons l left =>
      cases right with
      | nil => rw [IntersectionP.nextLoop]; exact .nil rfl rfl; simp
      | cons r right => exact (h _ _ _ _ rfl rfl).elim

end

/-- The first call of `next` of this union calls user code six times: it compares the starts, clones a
range and tries to merge four times.  The fifth of these calls panicking interrupts it. -/
example : unionCalls (Demo.set.union Demo.set') = 6 ∧
    (UnionP.next (fun i => i == 4) ⟨0, Demo.set.union Demo.set'⟩).1 = none ∧
    (UnionP.next (fun i => i == 4) ⟨0, Demo.set.union Demo.set'⟩).2.calls = 5 := by
  have h : unionCalls (Demo.set.union Demo.set') = 6 := by decide +kernel
  refine ⟨h, (C73_union_interrupted _ _).2.2 4 (Nat.zero_le _) ?_ rfl ?_⟩
  · show 4 < 0 + _
    rw [h]
    decide
  · intro j _ hj
    simp only [beq_eq_false_iff_ne]
    omega

example : (Demo.set.intersection Demo.set').nextW.2.taken = 1 ∧
    IntersectionP.next (fun i => i == 2) ⟨0, Demo.set.intersection Demo.set'⟩ =
      (some (Demo.set.intersection Demo.set').next.1,
        ⟨2, (Demo.set.intersection Demo.set').next.2⟩) := by
  have h : (Demo.set.intersection Demo.set').nextW.2.taken = 1 := by decide +kernel
  have := (C73_intersection_interrupted (fun i => i == 2) ⟨0, Demo.set.intersection Demo.set'⟩).2.1
  rw [h] at this
  exact ⟨h, (this fun i _ (hi : i < 2) => by simp only [beq_eq_false_iff_ne]; omega).1⟩

end Verif.Props

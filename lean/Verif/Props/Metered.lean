import Verif.Model.Metered
import Verif.Props.OpsWork

/-!
# C70, C74: the counts are the readings of a meter

The counted iterators of `Model/QueryWork.lean` and `Model/OpsWork.lean` return what the programs of
`Model/Metered.lean` return, and their counts are exactly what those programs add to the meter.
-/
set_option linter.unusedSectionVars false

namespace Verif.Props
open Spec

theorem work_add_zero (w : Work) : w + 0 = w := rfl

theorem work_add_assoc (a b c : Work) : a + b + c = a + (b + c) := by
  rw [Work.mk.injEq]
  exact ⟨Nat.add_assoc _ _ _, Nat.add_assoc _ _ _, Nat.add_assoc _ _ _⟩

theorem work_mk_add (a b c a' b' c' : Nat) :
    (⟨a, b, c⟩ : Work) + ⟨a', b', c'⟩ = ⟨a + a', b + b', c + c'⟩ := rfl

theorem work_mk_add_add (a b c a' b' c' : Nat) (w : Work) :
    (⟨a, b, c⟩ : Work) + (⟨a', b', c'⟩ + w) = ⟨a + a', b + b', c + c'⟩ + w := by
  rw [← work_add_assoc]; rfl

namespace Meter
variable {K α β : Type} [LE K] [LT K] [DecidableLE K] [DecidableLT K]

theorem bind_run (m : Metered α) (f : α → Metered β) (w : Work) :
    (m >>= f) w = (m w >>= fun p => f p.1 p.2) := rfl

theorem pure_run (a : α) (w : Work) : (pure a : Metered α) w = .ok (a, w) := rfl

theorem tick_run (v w : Work) : Metered.tick v w = .ok ((), w + v) := rfl

theorem lt_run (a b : K) (w : Work) :
    Metered.lt a b w = .ok (decide (a < b), w + ⟨0, 1, 0⟩) := rfl

theorem le_run (a b : K) (w : Work) :
    Metered.le a b w = .ok (decide (a ≤ b), w + ⟨0, 1, 0⟩) := rfl

theorem cmp_run (a b : K) (w : Work) :
    Metered.cmp a b w = .ok (kcmp a b, w + ⟨0, 1, 0⟩) := rfl

theorem max_run (a b : K) (w : Work) :
    Metered.max a b w = .ok (rmax a b, w + ⟨0, 1, 0⟩) := rfl

theorem min_run (a b : K) (w : Work) :
    Metered.min a b w = .ok (rmin a b, w + ⟨0, 1, 0⟩) := rfl

theorem addOne_run (S : StepFns K) (a : K) (w : Work) :
    Metered.addOne S a w = (S.addOne a).map fun b => (b, w + ⟨0, 0, 1⟩) := rfl

theorem subOne_run (S : StepFns K) (a : K) (w : Work) :
    Metered.subOne S a w = (S.subOne a).map fun b => (b, w + ⟨0, 0, 1⟩) := rfl

theorem pop_nil (w : Work) : Metered.pop ([] : List α) w = .ok (none, w) := rfl

theorem pop_cons (a : α) (l : List α) (w : Work) :
    Metered.pop (a :: l) w = .ok (some (a, l), w + ⟨1, 0, 0⟩) := rfl

theorem ok_bind {ε γ δ : Type} (a : γ) (f : γ → Except ε δ) : (Except.ok a >>= f) = f a := rfl

end Meter

open Meter

section
variable {K V : Type} [LE K] [LT K] [DecidableLE K] [DecidableLT K]

/-- **C74** What the metered operations on a kind of range return, and what they add to the meter. -/
structure MeterLaws (R : Type) [RangeOrder R] [RangeMerge R] [RangeIntersect R] [MergeCost R]
    [MeteredRange R] : Prop where
  orderStart : ∀ (a b : R) (w : Work), MeteredRange.orderStart a b w =
    .ok (RangeOrder.orderStart a b, w + ⟨0, 1, 0⟩)
  orderEnd : ∀ (a b : R) (w : Work), MeteredRange.orderEnd a b w =
    .ok (RangeOrder.orderEnd a b, w + ⟨0, 1, 0⟩)
  merge : ∀ (a b : R) (w : Work), MeteredRange.merge a b w =
    .ok (RangeMerge.merge a b, w + ⟨0, MergeCost.mergeCost a b, 0⟩)
  intersect : ∀ (a b : R) (w : Work), MeteredRange.intersect a b w =
    .ok (RangeIntersect.intersect a b, w + ⟨0, 3, 0⟩)

theorem rangeContains_run (r : Range K) (k : K) (w : Work) :
    Metered.rangeContains r k w =
      .ok (r.contains k, w + ⟨0, if r.start ≤ k then 2 else 1, 0⟩) := by
  unfold Metered.rangeContains Range.contains
  rw [bind_run, le_run, ok_bind]
  by_cases h : r.start ≤ k
  · simp only [h, decide_true, if_true, Bool.true_and, lt_run, work_add_assoc]; rfl
  · simp [h, pure_run]

theorem range_meterLaws : MeterLaws (Range K) where
  orderStart _ _ _ := rfl
  orderEnd _ _ _ := rfl
  merge a b w := by
    show (Metered.rangeContains a b.start >>= _) w = _
    rw [bind_run, rangeContains_run, ok_bind]
    show _ = Except.ok (Range.merge a b, _)
    unfold Range.merge MergeCost.mergeCost instMergeCostRange
    simp only [Range.contains]
    by_cases h1 : a.start ≤ b.start
    · by_cases h2 : b.start < a.stop
      · by_cases h3 : a.stop < b.stop <;>
          simp [h1, h2, h3, bind_run, lt_run, pure_run, ok_bind, work_add_assoc, work_mk_add]
      · simp [h1, h2, pure_run]
    · simp [h1, pure_run]
  intersect a b w := by
    show (Metered.max a.start b.start >>= _) w = _
    show _ = Except.ok (Range.intersect a b, _)
    unfold Range.intersect
    by_cases h : rmin a.stop b.stop ≤ rmax a.start b.start <;>
    simp [h, bind_run, max_run, min_run, le_run, pure_run, ok_bind, work_add_assoc, work_mk_add]

theorem inclusiveContains_run (r : RangeInclusive K) (k : K) (w : Work) :
    Metered.inclusiveContains r k w =
      .ok (r.contains k, w + ⟨0, if r.start ≤ k then 2 else 1, 0⟩) := by
  unfold Metered.inclusiveContains RangeInclusive.contains
  rw [bind_run, le_run, ok_bind]
  by_cases h : r.start ≤ k
  · cases he : r.exhausted <;>
      simp [h, lt_run, le_run, work_add_assoc, work_mk_add]
  · simp [h, pure_run]

theorem rangeInclusive_meterLaws : MeterLaws (RangeInclusive K) where
  orderStart _ _ _ := rfl
  orderEnd _ _ _ := rfl
  merge a b w := by
    show (Metered.inclusiveContains a b.start >>= _) w = _
    rw [bind_run, inclusiveContains_run, ok_bind]
    show _ = Except.ok (RangeInclusive.merge a b, _)
    unfold RangeInclusive.merge MergeCost.mergeCost instMergeCostRangeInclusive
    by_cases h1 : a.start ≤ b.start
    · by_cases h2 : a.contains b.start = true
      · by_cases h3 : a.stop < b.stop <;>
          simp [h1, h2, h3, bind_run, lt_run, pure_run, ok_bind, work_add_assoc, work_mk_add]
      · simp [h1, h2, pure_run]
    · have h2 : a.contains b.start = false := by simp [RangeInclusive.contains, h1]
      simp [h1, h2, pure_run]
  intersect a b w := by
    show (Metered.max a.start b.start >>= _) w = _
    show _ = Except.ok (RangeInclusive.intersect a b, _)
    unfold RangeInclusive.intersect
    by_cases h : rmin a.stop b.stop < rmax a.start b.start <;>
    simp [h, bind_run, max_run, min_run, lt_run, pure_run, ok_bind, work_add_assoc, work_mk_add]

end

section
variable {R : Type} [RangeOrder R] [RangeMerge R] [RangeIntersect R] [MergeCost R] [MeteredRange R]

theorem joinM_run (hR : MeterLaws R) (range : R) (l : List R) (w : Work) :
    Union.joinM range l w = .ok (Union.join range l,
      w + ⟨if (Union.join range l).isSome then 1 else 0, Union.joinCost range l, 0⟩) := by
  cases l with
  | nil => rfl
  | cons next rest =>
    unfold Union.joinM Union.join Union.joinCost
    simp only [bind_run, hR.merge, ok_bind]
    obtain h | ⟨range', h⟩ : RangeMerge.merge range next = none ∨
        ∃ r, RangeMerge.merge range next = some r := by
      cases RangeMerge.merge range next <;> simp
    · simp [h, pure_run]
    · simp [h, bind_run, pop_cons, ok_bind, pure_run, work_add_assoc, work_mk_add]

theorem mergeLoopM_run (hR : MeterLaws R) (range : R) (left right : List R) :
    ∀ (fuel : Nat) (w : Work), left.length + right.length < fuel →
    Union.mergeLoopM fuel range left right w =
      .ok ((Union.mergeLoopW range left right).1, w + (Union.mergeLoopW range left right).2) := by
  fun_induction Union.mergeLoopW range left right with
  | case1 range left right range' left' h r ih =>
    intro fuel w hf
    obtain ⟨fuel, rfl⟩ : ∃ n, fuel = n + 1 := ⟨fuel - 1, by omega⟩
    have hl := Union.join_length h
    simp only [Union.mergeLoopM, bind_run, joinM_run hR, ok_bind, h]
    rw [ih fuel _ (by simp at hl; omega)]
    simp [work_add_assoc, r]
  | case2 range left right h range' right' h' r ih =>
    intro fuel w hf
    obtain ⟨fuel, rfl⟩ : ∃ n, fuel = n + 1 := ⟨fuel - 1, by omega⟩
    have hl := Union.join_length h'
    simp only [Union.mergeLoopM, bind_run, joinM_run hR, ok_bind, h, h']
    rw [ih fuel _ (by simp at hl; omega)]
    simp [work_add_assoc, work_mk_add_add, r]
  | case3 range left right h h' =>
    intro fuel w hf
    obtain ⟨fuel, rfl⟩ : ∃ n, fuel = n + 1 := ⟨fuel - 1, by omega⟩
    simp only [Union.mergeLoopM, bind_run, joinM_run hR, ok_bind, h, h', pure_run]
    simp [work_add_assoc, work_mk_add]

/-- The range to start from. -/
theorem firstM_run (hR : MeterLaws R) (u : Union R) (w : Work) :
    u.firstM w = .ok (u.first, w + u.firstCost) := by
  obtain ⟨left, right⟩ := u
  cases left with
  | nil => cases right <;> rfl
  | cons l left =>
    cases right with
    | nil => rfl
    | cons r right =>
      unfold Union.firstM Union.first Union.firstCost
      simp only [bind_run, hR.orderStart, ok_bind]
      by_cases h : (RangeOrder.orderStart l r).isLT = true <;>
        simp [h, bind_run, pop_cons, ok_bind, pure_run, work_add_assoc, work_mk_add]

/-- **C74** The counts of `Union::next` are what the comparisons and takings themselves add up to. -/
theorem unionM_run (hR : MeterLaws R) (u : Union R) (fuel : Nat) (w : Work)
    (hf : u.left.length + u.right.length ≤ fuel) :
    u.nextM fuel w = .ok (u.nextW.1, w + u.nextW.2) := by
  unfold Union.nextM Union.nextW
  rw [bind_run, firstM_run hR, ok_bind]
  cases h : u.first with
  | none => rfl
  | some p =>
    obtain ⟨range, rest⟩ := p
    have hl : rest.left.length + rest.right.length < fuel := by
      obtain ⟨left, right⟩ := u
      cases left <;> cases right <;> simp [Union.first] at h hf
      · obtain ⟨-, rfl⟩ := h; simp; omega
      · obtain ⟨-, rfl⟩ := h; simp; omega
      · split at h <;> · obtain ⟨-, rfl⟩ := Prod.mk.inj (Option.some.inj h); simp; omega
    simp only [bind_run, mergeLoopM_run hR _ _ _ fuel _ hl, ok_bind, pure_run, work_add_assoc]

/-- **C74** Likewise `Intersection::next`. -/
theorem intersectionM_run (hR : MeterLaws R) (left right : List R) :
    ∀ (fuel : Nat) (w : Work), left.length + right.length ≤ fuel →
    Intersection.nextLoopM fuel left right w =
      .ok ((Intersection.nextLoopW left right).1, w + (Intersection.nextLoopW left right).2) := by
  have step : ∀ (l : R) (left : List R) (r : R) (right : List R) fuel w,
      Intersection.nextLoopM (fuel + 1) (l :: left) (r :: right) w =
      (if (RangeOrder.orderEnd l r).isLT then
        (match RangeIntersect.intersect l r with
          | some i => (return (some i, ⟨left, r :: right⟩) : Metered (Option R × Intersection R))
          | none => Intersection.nextLoopM fuel left (r :: right)) (w + (⟨1, 4, 0⟩ : Work))
       else
        (match RangeIntersect.intersect l r with
          | some i => (return (some i, ⟨l :: left, right⟩) : Metered (Option R × Intersection R))
          | none => Intersection.nextLoopM fuel (l :: left) right) (w + (⟨1, 4, 0⟩ : Work))) := by
    intro l left r right fuel w
    by_cases h : (RangeOrder.orderEnd l r).isLT = true <;>
      simp only [Intersection.nextLoopM, bind_run, hR.intersect, hR.orderEnd, ok_bind, h, pop_cons,
        pure_run, work_add_assoc, work_mk_add, if_true, if_false, Bool.false_eq_true,
        Option.elim_some] <;> cases RangeIntersect.intersect l r <;> rfl
  fun_induction Intersection.nextLoopW left right with
  | case1 l left r right h i hi =>
    intro fuel w hf
    obtain ⟨fuel, rfl⟩ : ∃ n, fuel = n + 1 := ⟨fuel - 1, by simp at hf; omega⟩
    rw [step, if_pos h, hi]; rfl
  | case2 l left r right h hi q ih =>
    intro fuel w hf
    obtain ⟨fuel, rfl⟩ : ∃ n, fuel = n + 1 := ⟨fuel - 1, by simp at hf; omega⟩
    rw [step, if_pos h, hi]
    simp only
    rw [ih fuel _ (by simp at hf ⊢; omega), work_add_assoc]
  | case3 l left r right h i hi =>
    intro fuel w hf
    obtain ⟨fuel, rfl⟩ : ∃ n, fuel = n + 1 := ⟨fuel - 1, by simp at hf; omega⟩
    rw [step, if_neg h, hi]; rfl
  | case4 l left r right h hi q ih =>
    intro fuel w hf
    obtain ⟨fuel, rfl⟩ : ∃ n, fuel = n + 1 := ⟨fuel - 1, by simp at hf; omega⟩
    rw [step, if_neg h, hi]
    simp only
    rw [ih fuel _ (by simp at hf ⊢; omega), work_add_assoc]
  | case5 left right h =>
    intro fuel w hf
    cases left with
    | nil => cases fuel <;> simp [Intersection.nextLoopM, pure_run, work_add_zero]
    | cons l left =>
      cases right with
      | nil => cases fuel <;> simp [Intersection.nextLoopM, pure_run, work_add_zero]
      | cons r right => exact (h _ _ _ _ rfl rfl).elim

end

section
variable {K V : Type} [LE K] [LT K] [DecidableLE K] [DecidableLT K]

/-- **C74** The counts of the unions and intersections of sets of half-open ranges are the readings of
the meter: one for each comparison written in operations.rs or made by `contains`, `max` and `min`,
and one for each range taken. -/
theorem C74_counts_exact (u : Union (Range K)) (i : Intersection (Range K)) (fuel : Nat) (w : Work) :
    (u.left.length + u.right.length ≤ fuel →
      u.nextM fuel w = .ok (u.next, w + u.nextW.2)) ∧
    (i.left.length + i.right.length ≤ fuel →
      Intersection.nextLoopM fuel i.left i.right w = .ok (i.next, w + i.nextW.2)) := by
  rw [← (C74_counted_is_real u i).1, ← (C74_counted_is_real u i).2]
  exact ⟨unionM_run range_meterLaws u fuel w, intersectionM_run range_meterLaws _ _ fuel w⟩

example : (Demo.set.union Demo.set').nextM 7 0 =
      .ok ((Demo.set.union Demo.set').next, 0 + (Demo.set.union Demo.set').nextW.2) ∧
    (Demo.set.union Demo.set').nextW.2 ≠ 0 :=
  ⟨(C74_counts_exact (Demo.set.union Demo.set') (Demo.set.intersection Demo.set') 7 0).1
    (by decide +kernel), by decide +kernel⟩

namespace RM
open RangeMap

theorem overlappingM_run (o : Overlapping K V) (w : Work) :
    o.nextM w = .ok (o.nextW.1, w + o.nextW.2) := by
  obtain ⟨q, l⟩ := o
  cases l with
  | nil => rfl
  | cons e l =>
    unfold Overlapping.nextM Overlapping.nextW
    by_cases h : e.1.start < q.stop <;>
      simp [h, Deque.next, bind_run, pop_cons, lt_run, ok_bind, pure_run, work_add_assoc,
        work_mk_add]

theorem nextBackM_run (q : Range K) (l : List (Range K × V)) (w : Work) :
    Overlapping.nextBackM q l w =
      .ok (((Overlapping.nextBackW ⟨q, l.reverse⟩).1.1,
          (Overlapping.nextBackW ⟨q, l.reverse⟩).1.2.btmRangeIter.reverse),
        w + (Overlapping.nextBackW ⟨q, l.reverse⟩).2) := by
  induction l generalizing w with
  | nil =>
    rw [Overlapping.nextBackW]
    split
    · simp_all
    · rfl
  | cons e l ih =>
    rw [Overlapping.nextBackW]
    split
    · rename_i e' h'
      simp at h'
      subst h'
      simp only [List.reverse_cons, List.dropLast_concat]
      by_cases h : e.1.start < q.stop
      · simp [h, Overlapping.nextBackM, bind_run, tick_run, lt_run, ok_bind, pure_run,
          work_add_assoc, work_mk_add]
      · simp [h, Overlapping.nextBackM, bind_run, tick_run, lt_run, ok_bind, ih, work_add_assoc,
          work_mk_add_add]
    · simp_all

theorem gaps_nextTailM_run (c qe : K) (l : List (Range K × V)) (w : Work) :
    Gaps.nextTailM c qe l w = .ok ((Gaps.nextTailW c qe l).1, w + (Gaps.nextTailW c qe l).2) := by
  unfold Gaps.nextTailM Gaps.nextTailW
  by_cases h : c < qe <;> simp [h, bind_run, lt_run, ok_bind, pure_run]

theorem gaps_nextLoopM_run (qe : K) : ∀ (l : List (Range K × V)) (c : K) (w : Work),
    Gaps.nextLoopM c qe l w = .ok ((Gaps.nextLoopW c qe l).1, w + (Gaps.nextLoopW c qe l).2) := by
  intro l
  induction l with
  | nil => intro c w; exact gaps_nextTailM_run c qe [] w
  | cons e l ih =>
    intro c w
    unfold Gaps.nextLoopM Gaps.nextLoopW
    by_cases h : qe ≤ e.1.start
    · simp [h, bind_run, tick_run, le_run, ok_bind, gaps_nextTailM_run, work_add_assoc,
        work_mk_add_add]
    · by_cases h' : c < e.1.start
      · simp [h, h', bind_run, tick_run, le_run, lt_run, ok_bind, pure_run, work_add_assoc,
          work_mk_add]
      · simp [h, h', bind_run, tick_run, le_run, lt_run, ok_bind, ih, work_add_assoc,
          work_mk_add_add]

end RM

/-- **C70** The counts of the query iterators are the readings of the meter: one for each comparison
written in `Overlapping::next`, `next_back` and `Gaps::next` and one for each entry taken. -/
theorem C70_counts_exact [Std.IsLinearPreorder K] [Std.LawfulOrderLT K] (o : RangeMap.Overlapping K V) (g : RangeMap.Gaps K V) (w : Work) :
    o.nextM w = .ok (o.next, w + o.nextW.2) ∧
    RangeMap.Overlapping.nextBackM o.queryRange o.btmRangeIter.reverse w =
      .ok ((o.nextBack.1, o.nextBack.2.btmRangeIter.reverse), w + o.nextBackW.2) ∧
    RangeMap.Gaps.nextLoopM g.candidateStart g.queryEnd g.btmRangeIter w =
      .ok (g.next, w + g.nextW.2) := by
  obtain ⟨h1, h2, h3⟩ := C70_counted_is_real o g
  rw [← h1, ← h2, ← h3]
  refine ⟨RM.overlappingM_run o w, ?_, RM.gaps_nextLoopM_run _ _ _ _⟩
  have := RM.nextBackM_run o.queryRange o.btmRangeIter.reverse w
  rwa [List.reverse_reverse] at this

example : RangeMap.Gaps.nextLoopM 0 30 Demo.map.btm ⟨0, 0, 0⟩ =
      .ok ((⟨0, 30, Demo.map.btm⟩ : RangeMap.Gaps _ _).next,
        ⟨0, 0, 0⟩ + (⟨0, 30, Demo.map.btm⟩ : RangeMap.Gaps _ _).nextW.2) ∧
    (⟨0, 30, Demo.map.btm⟩ : RangeMap.Gaps _ _).nextW.2 ≠ 0 :=
  ⟨(C70_counts_exact ⟨⟨0, 30⟩, Demo.map.btm⟩ ⟨0, 30, Demo.map.btm⟩ ⟨0, 0, 0⟩).2.2,
    by decide +kernel⟩

end

namespace Inclusive
section
variable {K V : Type} [LE K] [LT K] [DecidableLE K] [DecidableLT K]

/-- **C74** The counts of the unions and intersections of sets of inclusive ranges are the readings of
the meter. -/
theorem C74_counts_exact (u : Union (RangeInclusive K)) (i : Intersection (RangeInclusive K))
    (fuel : Nat) (w : Work) :
    (u.left.length + u.right.length ≤ fuel →
      u.nextM fuel w = .ok (u.next, w + u.nextW.2)) ∧
    (i.left.length + i.right.length ≤ fuel →
      Intersection.nextLoopM fuel i.left i.right w = .ok (i.next, w + i.nextW.2)) := by
  rw [← (C74_counted_is_real u i).1, ← (C74_counted_is_real u i).2]
  exact ⟨unionM_run rangeInclusive_meterLaws u fuel w,
    intersectionM_run rangeInclusive_meterLaws _ _ fuel w⟩

example : (Demo.iset.union Demo.iset').nextM 7 0 =
      .ok ((Demo.iset.union Demo.iset').next, 0 + (Demo.iset.union Demo.iset').nextW.2) ∧
    (Demo.iset.union Demo.iset').nextW.2 ≠ 0 :=
  ⟨(C74_counts_exact (Demo.iset.union Demo.iset') (Demo.iset.intersection Demo.iset') 7 0).1
    (by decide +kernel), by decide +kernel⟩

namespace RM
open RangeInclusiveMap

theorem overlappingM_run (o : Overlapping K V) (w : Work) :
    o.nextM w = .ok (o.nextW.1, w + o.nextW.2) := by
  obtain ⟨q, l⟩ := o
  cases l with
  | nil => rfl
  | cons e l =>
    unfold Overlapping.nextM Overlapping.nextW
    by_cases h : e.1.start ≤ q.stop <;>
      simp [h, Deque.next, bind_run, pop_cons, le_run, ok_bind, pure_run, work_add_assoc,
        work_mk_add]

theorem nextBackM_run (q : RangeInclusive K) (l : List (RangeInclusive K × V)) (w : Work) :
    Overlapping.nextBackM q l w =
      .ok (((Overlapping.nextBackW ⟨q, l.reverse⟩).1.1,
          (Overlapping.nextBackW ⟨q, l.reverse⟩).1.2.btmRangeIter.reverse),
        w + (Overlapping.nextBackW ⟨q, l.reverse⟩).2) := by
  induction l generalizing w with
  | nil =>
    rw [Overlapping.nextBackW]
    split
    · simp_all
    · rfl
  | cons e l ih =>
    rw [Overlapping.nextBackW]
    split
    · rename_i e' h'
      simp at h'
      subst h'
      simp only [List.reverse_cons, List.dropLast_concat]
      by_cases h : e.1.start ≤ q.stop
      · simp [h, Overlapping.nextBackM, bind_run, tick_run, le_run, ok_bind, pure_run,
          work_add_assoc, work_mk_add]
      · simp [h, Overlapping.nextBackM, bind_run, tick_run, le_run, ok_bind, ih, work_add_assoc,
          work_mk_add_add]
    · simp_all

theorem gaps_nextTailM_run (S : StepFns K) (f : Bool) (c qe : K) (l : List (RangeInclusive K × V))
    (w : Work) :
    Gaps.nextTailM S f c qe l w = (Gaps.nextTailW S f c qe l).map fun p => (p.1, w + p.2) := by
  unfold Gaps.nextTailM Gaps.nextTailW
  cases f
  · by_cases h : c ≤ qe <;> simp [h, bind_run, le_run, ok_bind, pure_run] <;> rfl
  · by_cases h : c < qe
    · cases h2 : S.addOne c with
      | error p =>
        simp only [h, bind_run, lt_run, addOne_run, ok_bind, h2, decide_true, if_true]; rfl
      | ok a =>
        simp only [h, bind_run, lt_run, addOne_run, ok_bind, h2, Except.map, pure_run,
          decide_true, if_true, work_add_assoc, work_mk_add]
        rfl
    · simp [h, bind_run, lt_run, ok_bind, pure_run]; rfl

theorem gaps_nextLoopM_run (S : StepFns K) (qe : K) :
    ∀ (l : List (RangeInclusive K × V)) (f : Bool) (c : K) (w : Work),
    Gaps.nextLoopM S f c qe l w = (Gaps.nextLoopW S f c qe l).map fun p => (p.1, w + p.2) := by
  intro l
  induction l with
  | nil => intro f c w; exact gaps_nextTailM_run S f c qe [] w
  | cons e l ih =>
    intro f c w
    unfold Gaps.nextLoopM Gaps.nextLoopW
    by_cases h : qe < e.1.start
    · simp only [h, bind_run, tick_run, lt_run, ok_bind, gaps_nextTailM_run, decide_true, if_true]
      cases Gaps.nextTailW S f c qe l with
      | error p => rfl
      | ok r => simp [Except.map, ok_bind, work_add_assoc, work_mk_add_add]; rfl
    · simp only [h, bind_run, tick_run, lt_run, ok_bind, decide_false, if_false,
        Bool.false_eq_true, Gaps.curCandidateStart]
      have tail : ∀ (cur : K) (steps : Nat) (w' : Work), w' = w + ⟨1, 1, steps⟩ →
          (if decide (cur < e.1.start) then
            (do
              let x ← Metered.subOne S e.1.start
              return (some (RangeInclusive.mk' cur x), ⟨true, e.1.stop, qe, l⟩) :
                Metered (Option (RangeInclusive K) × Gaps K V))
           else Gaps.nextLoopM S true e.1.stop qe l) (w' + (⟨0, 1, 0⟩ : Work)) =
          ((if cur < e.1.start then do
              let x ← S.subOne e.1.start
              return ((some (RangeInclusive.mk' cur x), ⟨true, e.1.stop, qe, l⟩),
                ⟨1, 2, steps + 1⟩)
            else do
              let r ← Gaps.nextLoopW S true e.1.stop qe l
              return (r.1, ⟨1, 2, steps⟩ + r.2) :
                Except Panic ((Option (RangeInclusive K) × Gaps K V) × Work))).map
            fun p => (p.1, w + p.2) := by
        intro cur steps w' hw
        subst hw
        by_cases h' : cur < e.1.start
        · cases h2 : S.subOne e.1.start with
          | error p =>
            simp only [h', bind_run, subOne_run, h2, Except.map, decide_true, if_true]; rfl
          | ok a =>
            simp only [h', bind_run, subOne_run, h2, Except.map, ok_bind, pure_run, decide_true,
              if_true, work_add_assoc, work_mk_add]
            simp; rfl
        · simp only [h', ih, decide_false, if_false, Bool.false_eq_true]
          cases Gaps.nextLoopW S true e.1.stop qe l with
          | error p => rfl
          | ok r => simp [Except.map, ok_bind, work_add_assoc, work_mk_add_add]; rfl
      cases f
      · simp only [Bool.false_eq_true, if_false, pure_run, ok_bind]
        exact tail c 0 _ (by rw [work_add_assoc]; rfl)
      · simp only [if_true, bind_run, addOne_run]
        cases S.addOne c with
        | error p => rfl
        | ok a => exact tail a 1 _ (by rw [work_add_assoc, work_add_assoc]; rfl)

end RM

/-- **C70** The counts of the query iterators over inclusive ranges are the readings of the meter. -/
theorem C70_counts_exact [Std.IsLinearPreorder K] [Std.LawfulOrderLT K] (S : StepFns K) (o : RangeInclusiveMap.Overlapping K V)
    (g : RangeInclusiveMap.Gaps K V) (w : Work) :
    o.nextM w = .ok (o.next, w + o.nextW.2) ∧
    RangeInclusiveMap.Overlapping.nextBackM o.queryRange o.btmRangeIter.reverse w =
      .ok ((o.nextBack.1, o.nextBack.2.btmRangeIter.reverse), w + o.nextBackW.2) ∧
    RangeInclusiveMap.Gaps.nextLoopM S g.candidateNeedsPlusOne g.candidateStart g.queryEnd
      g.btmRangeIter w = (g.nextW S).map fun p => (p.1, w + p.2) := by
  obtain ⟨h1, h2, -⟩ := C70_counted_is_real S o g
  rw [← h1, ← h2]
  refine ⟨RM.overlappingM_run o w, ?_, RM.gaps_nextLoopM_run _ _ _ _ _ _⟩
  have := RM.nextBackM_run o.queryRange o.btmRangeIter.reverse w
  rwa [List.reverse_reverse] at this

end

example := C70_counts_exact Demo.u8 (V := Char) ⟨Demo.by8 2 22, Demo.imap.iter⟩
  ⟨true, ⟨2⟩, ⟨255⟩, Demo.imap.iter⟩ ⟨0, 0, 0⟩

end Inclusive
end Verif.Props

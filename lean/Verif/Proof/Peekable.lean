import Verif.Model.Peekable
import Verif.Proof.IIter
import Verif.Proof.Operations

/-!
# The `Peekable` iterators of `Union` and `Intersection` behave as the lists of ranges left in them
-/
set_option linter.unusedSectionVars false
namespace Verif
open Spec
variable {I R : Type} {inext : I → Option R × I}

theorem Spec.Yields.next {S α : Type} {next : S → Option α × S} {s : S} {l : List α}
    (h : Yields next s l) : (next s).1 = l.head? ∧ Yields next (next s).2 l.tail := by
  constructor
  · have := h 1
    cases l <;> simpa [calls] using this
  · intro n
    have := h (n + 1)
    cases l with
    | nil =>
      simp only [calls, List.map_nil, List.nil_append, List.replicate_succ,
        List.take_succ_cons, List.cons.injEq] at this
      simpa using this.2
    | cons a t =>
      simp only [calls, List.map_cons, List.cons_append, List.take_succ_cons, List.cons.injEq] at this
      rw [this.2, take_replicate_succ]
      rfl

namespace Peekable

/-- The peekable iterator has still to yield `l`. -/
def Rep (inext : I → Option R × I) (p : Peekable I R) (l : List R) : Prop :=
  match p.peeked with
  | none => Yields inext p.iter l
  | some o => o = l.head? ∧ Yields inext p.iter l.tail

theorem Rep.new {i : I} {l : List R} (h : Yields inext i l) : Rep inext (.new i) l := h

theorem Rep.next {p : Peekable I R} {l : List R} (h : Rep inext p l) :
    (p.next inext).1 = l.head? ∧ Rep inext (p.next inext).2 l.tail := by
  obtain ⟨i, o⟩ := p
  cases o with
  | none =>
    have h : Yields inext i l := h
    exact ⟨h.next.1, h.next.2⟩
  | some o =>
    have h : o = l.head? ∧ Yields inext i l.tail := h
    exact h

theorem Rep.peek {p : Peekable I R} {l : List R} (h : Rep inext p l) :
    (p.peek inext).1 = l.head? ∧ Rep inext (p.peek inext).2 l := by
  obtain ⟨i, o⟩ := p
  cases o with
  | none =>
    have h : Yields inext i l := h
    exact ⟨h.next.1, h.next.1, h.next.2⟩
  | some o =>
    have h' : o = l.head? ∧ Yields inext i l.tail := h
    exact ⟨h'.1, h⟩

end Peekable

open Peekable (Rep)

namespace PUnion

/-- Both iterators have still to yield what is in the lists. -/
def Rep (inext : I → Option R × I) (u : PUnion I R) (U : Union R) : Prop :=
  Peekable.Rep inext u.left U.left ∧ Peekable.Rep inext u.right U.right

theorem first_rep [RangeOrder R] {u : PUnion I R} {U : Union R} (h : u.Rep inext U) :
    match U.first with
    | none => ∃ u', u.first inext = .ok (none, u') ∧ u'.Rep inext U
    | some (r, U') => ∃ u', u.first inext = .ok (some r, u') ∧ u'.Rep inext U' := by
  obtain ⟨p, q⟩ := u
  obtain ⟨l, r⟩ := U
  obtain ⟨hp, hq⟩ := h
  have p1 := hp.peek
  have q1 := hq.peek
  generalize hpp : p.peek inext = pp at p1
  generalize hqq : q.peek inext = qq at q1
  obtain ⟨po, p'⟩ := pp
  obtain ⟨qo, q'⟩ := qq
  obtain ⟨rfl, p1⟩ := p1
  obtain ⟨rfl, q1⟩ := q1
  have p2 := p1.next
  have q2 := q1.next
  generalize hpn : p'.next inext = pn at p2
  generalize hqn : q'.next inext = qn at q2
  obtain ⟨pno, p''⟩ := pn
  obtain ⟨qno, q''⟩ := qn
  obtain ⟨rfl, p2⟩ := p2
  obtain ⟨rfl, q2⟩ := q2
  cases l with
  | nil =>
    cases r with
    | nil => exact ⟨⟨p', q'⟩, by simp [first, hpp, hqq]; rfl, p1, q1⟩
    | cons b r => exact ⟨⟨p', q''⟩, by simp [first, hpp, hqq, hqn, unwrap]; rfl, p1, q2⟩
  | cons a l =>
    cases r with
    | nil => exact ⟨⟨p'', q'⟩, by simp [first, hpp, hqq, hpn, unwrap]; rfl, p2, q1⟩
    | cons b r =>
      simp only [Union.first]
      by_cases hc : (RangeOrder.orderStart a b).isLT
      · simp only [hc, if_true]
        exact ⟨⟨p'', q'⟩, by simp [first, hpp, hqq, hpn, unwrap, hc]; rfl, p2, q1⟩
      · simp only [hc]
        exact ⟨⟨p', q''⟩, by simp [first, hpp, hqq, hqn, unwrap, hc]; rfl, p1, q2⟩

theorem join_rep [RangeMerge R] {p : Peekable I R} {l : List R} (h : Peekable.Rep inext p l)
    (range : R) :
    match Union.join range l with
    | none => ∃ p', join inext range p = .ok (none, p') ∧ Peekable.Rep inext p' l
    | some (range', l') =>
      ∃ p', join inext range p = .ok (some range', p') ∧ Peekable.Rep inext p' l' := by
  have p1 := h.peek
  generalize hpp : p.peek inext = pp at p1
  obtain ⟨po, p'⟩ := pp
  obtain ⟨rfl, p1⟩ := p1
  have p2 := p1.next
  generalize hpn : p'.next inext = pn at p2
  obtain ⟨pno, p''⟩ := pn
  obtain ⟨rfl, p2⟩ := p2
  cases l with
  | nil => exact ⟨p', by simp [join, hpp]; rfl, p1⟩
  | cons a l =>
    simp only [Union.join]
    cases hm : RangeMerge.merge range a with
    | none => exact ⟨p', by simp [join, hpp, hm]; rfl, p1⟩
    | some range' =>
      exact ⟨p'', by simp [join, hpp, hm, hpn, unwrap]; rfl, p2⟩

theorem mergeLoop_rep [RangeMerge R] (fuel : Nat) : ∀ (range : R) {u : PUnion I R} {l r : List R},
    u.Rep inext ⟨l, r⟩ → l.length + r.length < fuel →
    ∃ u', mergeLoop inext fuel range u = .ok ((Union.mergeLoop range l r).1, u') ∧
      u'.Rep inext (Union.mergeLoop range l r).2 ∧
      (Union.mergeLoop range l r).2.left.length + (Union.mergeLoop range l r).2.right.length ≤
        l.length + r.length := by
  induction fuel with
  | zero => intro _ _ _ _ _ h; omega
  | succ fuel ih =>
    intro range u l r h hf
    have h1 := join_rep h.1 range
    have h2 := join_rep h.2 range
    rw [Union.mergeLoop]
    split
    · rename_i range' l' hj
      simp only [hj] at h1
      obtain ⟨p', e, hp⟩ := h1
      have := Union.join_length hj
      obtain ⟨u', e', hu, hlen⟩ := ih range' (u := ⟨p', u.right⟩) (l := l') (r := r) ⟨hp, h.2⟩
        (by simp only at this; omega)
      refine ⟨u', ?_, hu, by simp only at this; omega⟩
      rw [mergeLoop, e]
      exact e'
    · rename_i hj
      simp only [hj] at h1
      obtain ⟨p', e, hp⟩ := h1
      split
      · rename_i range' r' hj'
        simp only [hj'] at h2
        obtain ⟨q', e2, hq⟩ := h2
        have := Union.join_length hj'
        obtain ⟨u', e', hu, hlen⟩ := ih range' (u := ⟨p', q'⟩) (l := l) (r := r') ⟨hp, hq⟩
          (by simp only at this; omega)
        refine ⟨u', ?_, hu, by simp only at this; omega⟩
        rw [mergeLoop, e]
        simp only [bind, Except.bind, e2]
        exact e'
      · rename_i hj'
        simp only [hj'] at h2
        obtain ⟨q', e2, hq⟩ := h2
        refine ⟨⟨p', q'⟩, ?_, ⟨hp, hq⟩, Nat.le_refl _⟩
        rw [mergeLoop, e]
        simp only [bind, Except.bind, e2]
        rfl

theorem next_rep [RangeOrder R] [RangeMerge R] {fuel : Nat} {u : PUnion I R} {U : Union R}
    (h : u.Rep inext U) (hf : U.left.length + U.right.length < fuel) :
    ∃ u', u.next inext fuel = .ok (U.next.1, u') ∧ u'.Rep inext U.next.2 ∧
      U.next.2.left.length + U.next.2.right.length < fuel := by
  have h1 := first_rep h
  cases hU : U.first with
  | none =>
    rw [hU] at h1
    obtain ⟨u', e, hu⟩ := h1
    refine ⟨u', ?_, ?_, ?_⟩
    · simp [next, e, Union.next, hU, bind, Except.bind, pure, Except.pure]
    · simpa [Union.next, hU] using hu
    · simpa [Union.next, hU] using hf
  | some x =>
    obtain ⟨r, U'⟩ := x
    rw [hU] at h1
    obtain ⟨u', e, hu⟩ := h1
    have hlen : U'.left.length + U'.right.length < fuel := by
      obtain ⟨l, r⟩ := U
      cases l <;> cases r <;> simp [Union.first] at hU
      · obtain ⟨rfl, rfl⟩ := hU; simp at hf ⊢; omega
      · obtain ⟨rfl, rfl⟩ := hU; simp at hf ⊢; omega
      · split at hU <;> simp at hU <;> obtain ⟨rfl, rfl⟩ := hU <;> simp at hf ⊢ <;> omega
    obtain ⟨u'', e', hu', hl⟩ := mergeLoop_rep fuel r hu hlen
    refine ⟨u'', ?_, ?_, ?_⟩
    · simp [next, e, Union.next, hU, bind, Except.bind, pure, Except.pure, e']
    · simpa [Union.next, hU] using hu'
    · simp only [Union.next, hU]
      omega

theorem calls_rep [RangeOrder R] [RangeMerge R] {fuel : Nat} (n : Nat) :
    ∀ {u : PUnion I R} {U : Union R}, u.Rep inext U → U.left.length + U.right.length < fuel →
    callsE (next inext fuel) n u = .ok (calls Union.next n U) := by
  induction n with
  | zero => intros; rfl
  | succ n ih =>
    intro u U h hf
    obtain ⟨u', e, h', hf'⟩ := next_rep h hf
    simp only [callsE, calls, e, ih h' hf']
    rfl

end PUnion

namespace PIntersection

/-- Both iterators have still to yield what is in the lists. -/
def Rep (inext : I → Option R × I) (i : PIntersection I R) (l r : List R) : Prop :=
  Peekable.Rep inext i.left l ∧ Peekable.Rep inext i.right r

theorem next_rep [RangeOrder R] [RangeIntersect R] (fuel : Nat) :
    ∀ {i : PIntersection I R} {l r : List R}, i.Rep inext l r → l.length + r.length < fuel →
    ∃ i', i.next inext fuel = .ok ((Intersection.nextLoop l r).1, i') ∧
      i'.Rep inext (Intersection.nextLoop l r).2.left (Intersection.nextLoop l r).2.right ∧
      (Intersection.nextLoop l r).2.left.length + (Intersection.nextLoop l r).2.right.length ≤
        l.length + r.length := by
  induction fuel with
  | zero => intro _ _ _ _ h; omega
  | succ fuel ih =>
    intro i l r h hf
    obtain ⟨p, q⟩ := i
    obtain ⟨hp, hq⟩ := h
    have p1 := hp.peek
    have q1 := hq.peek
    simp only at p1 q1
    generalize hpp : p.peek inext = pp at p1
    generalize hqq : q.peek inext = qq at q1
    obtain ⟨po, p'⟩ := pp
    obtain ⟨qo, q'⟩ := qq
    obtain ⟨rfl, p1⟩ := p1
    obtain ⟨rfl, q1⟩ := q1
    have p2 := p1.next.2
    have q2 := q1.next.2
    match l, r with
    | [], r =>
      refine ⟨⟨p', q'⟩, ?_, ?_, ?_⟩
      · simp [next, hpp, hqq, Intersection.nextLoop]
      · simpa [Intersection.nextLoop] using ⟨p1, q1⟩
      · simp [Intersection.nextLoop]
    | a :: l, [] =>
      refine ⟨⟨p', q'⟩, ?_, ?_, ?_⟩
      · simp [next, hpp, hqq, Intersection.nextLoop]
      · simpa [Intersection.nextLoop] using ⟨p1, q1⟩
      · simp [Intersection.nextLoop]
    | a :: l, b :: r =>
      rw [Intersection.nextLoop]
      simp only [next, hpp, hqq, List.head?_cons]
      simp only [List.length_cons] at hf ⊢
      by_cases hc : (RangeOrder.orderEnd a b).isLT
      · simp only [hc, if_true]
        cases hi : RangeIntersect.intersect a b with
        | some i =>
          exact ⟨_, rfl, ⟨p2, q1⟩, show l.length + (b :: r).length ≤ _ by
            simp only [List.length_cons]; omega⟩
        | none =>
          obtain ⟨i', e, h', hl⟩ := ih (i := ⟨(p'.next inext).2, q'⟩) (l := l) (r := b :: r) ⟨p2, q1⟩
            (by simp only [List.length_cons]; omega)
          exact ⟨i', e, h', Nat.le_trans hl (by simp only [List.length_cons]; omega)⟩
      · simp only [hc, Bool.false_eq_true, if_false]
        cases hi : RangeIntersect.intersect a b with
        | some i =>
          exact ⟨_, rfl, ⟨p1, q2⟩, show (a :: l).length + r.length ≤ _ by
            simp only [List.length_cons]; omega⟩
        | none =>
          obtain ⟨i', e, h', hl⟩ := ih (i := ⟨p', (q'.next inext).2⟩) (l := a :: l) (r := r) ⟨p1, q2⟩
            (by simp only [List.length_cons]; omega)
          exact ⟨i', e, h', Nat.le_trans hl (by simp only [List.length_cons]; omega)⟩

theorem calls_rep [RangeOrder R] [RangeIntersect R] {fuel : Nat} (n : Nat) :
    ∀ {i : PIntersection I R} {l r : List R}, i.Rep inext l r → l.length + r.length < fuel →
    callsE (next inext fuel) n i = .ok (calls Intersection.next n ⟨l, r⟩) := by
  induction n with
  | zero => intros; rfl
  | succ n ih =>
    intro i l r h hf
    obtain ⟨i', e, h', hl⟩ := next_rep fuel h hf
    have ih := ih h' (by omega)
    simp only [callsE, calls, e, Intersection.next]
    rw [ih]
    rfl

end PIntersection
end Verif

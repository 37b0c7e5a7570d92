import Verif.Props.Demo
import Verif.Proof.Peekable
import Verif.Props.Set
import Verif.Props.ISet

/-!
# `Union::new` and `Intersection::new` on iterators in any state: C63
-/
set_option linter.unusedSectionVars false
namespace Verif
open Spec

/-! ### std `unwrap` -/

theorem Peekable.next_peek {I R : Type} (inext : I → Option R × I) (p : Peekable I R) :
    ((p.peek inext).2.next inext).1 = (p.peek inext).1 := by
  obtain ⟨i, o⟩ := p
  cases o <;> rfl

theorem dequeRest_sublist {α : Type} (cs : List End) : ∀ l : List α, (dequeRest cs l).Sublist l := by
  induction cs with
  | nil => exact fun l => .refl l
  | cons c cs ih =>
    intro l
    cases c with
    | front => exact (ih _).trans (List.tail_sublist l)
    | back => exact (ih _).trans (List.dropLast_sublist l)

namespace RangeSet
variable {K : Type} [LE K] [LT K] [DecidableLE K] [DecidableLT K]

theorem iterator_rest (cs : List End) : ∀ s : RangeSet K,
    ∃ s' : RangeSet K, stateAfter Iter.next Iter.nextBack cs s.iterator = s'.iterator ∧
      s'.iter = dequeRest cs s.iter := by
  induction cs with
  | nil => exact fun s => ⟨s, rfl, rfl⟩
  | cons c cs ih =>
    intro s
    obtain ⟨⟨l⟩⟩ := s
    cases c with
    | front =>
      obtain ⟨s', h1, h2⟩ := ih ⟨⟨l.tail⟩⟩
      refine ⟨s', ?_, ?_⟩
      · rw [← h1]; cases l <;> rfl
      · rw [h2]; simp [dequeRest, iter, RangeMap.iter, List.map_tail]
    | back =>
      obtain ⟨s', h1, h2⟩ := ih ⟨⟨l.dropLast⟩⟩
      refine ⟨s', ?_, ?_⟩
      · rw [← h1]; rfl
      · rw [h2]; simp [dequeRest, iter, RangeMap.iter, List.map_dropLast]

theorem iterator_yields (s : RangeSet K) : Yields Iter.next s.iterator s.iter := by
  obtain ⟨⟨l⟩⟩ := s
  induction l with
  | nil =>
    refine Yields.nil (fun i => i = (⟨⟨[]⟩⟩ : RangeSet.Iter K)) ?_ rfl
    rintro _ rfl
    exact ⟨rfl, rfl⟩
  | cons e t ih => exact Yields.cons rfl ih

end RangeSet

namespace RangeInclusiveSet
variable {K : Type} [LE K] [LT K] [DecidableLE K] [DecidableLT K]

theorem iterator_rest (cs : List End) : ∀ s : RangeInclusiveSet K,
    ∃ s' : RangeInclusiveSet K, stateAfter Iter.next Iter.nextBack cs s.iterator = s'.iterator ∧
      s'.iter = dequeRest cs s.iter := by
  induction cs with
  | nil => exact fun s => ⟨s, rfl, rfl⟩
  | cons c cs ih =>
    intro s
    obtain ⟨⟨l⟩⟩ := s
    cases c with
    | front =>
      obtain ⟨s', h1, h2⟩ := ih ⟨⟨l.tail⟩⟩
      refine ⟨s', ?_, ?_⟩
      · rw [← h1]; cases l <;> rfl
      · rw [h2]; simp [dequeRest, iter, RangeInclusiveMap.iter, List.map_tail]
    | back =>
      obtain ⟨s', h1, h2⟩ := ih ⟨⟨l.dropLast⟩⟩
      refine ⟨s', ?_, ?_⟩
      · rw [← h1]; rfl
      · rw [h2]; simp [dequeRest, iter, RangeInclusiveMap.iter, List.map_dropLast]

theorem iterator_yields (s : RangeInclusiveSet K) : Yields Iter.next s.iterator s.iter := by
  obtain ⟨⟨l⟩⟩ := s
  induction l with
  | nil =>
    refine Yields.nil (fun i => i = (⟨⟨[]⟩⟩ : RangeInclusiveSet.Iter K)) ?_ rfl
    rintro _ rfl
    exact ⟨rfl, rfl⟩
  | cons e t ih => exact Yields.cons rfl ih

end RangeInclusiveSet

namespace Props
variable {K : Type} [LE K] [LT K] [DecidableLE K] [DecidableLT K]
  [Std.IsLinearPreorder K] [Std.LawfulOrderLT K]

section
open PUnion

/-- **C63** None of the `unwrap`s in `Union::next` can fail, whatever the two iterators do: they may
be infinite, and may yield items again after `None`. -/
theorem C63_unwrap {I R : Type} [RangeOrder R] [RangeMerge R] (inext : I → Option R × I) (fuel : Nat)
    (u : PUnion I R) : u.next inext fuel ≠ .error .expectFailed := by
  have hfirst : ∀ u : PUnion I R, ∃ x, u.first inext = .ok x := by
    intro u
    have h1 := Peekable.next_peek inext u.left
    have h2 := Peekable.next_peek inext u.right
    unfold first
    cases hl : u.left.peek inext with
    | mk l left =>
      cases hr : u.right.peek inext with
      | mk r right =>
        rw [hl] at h1
        rw [hr] at h2
        cases hl' : left.next inext with
        | mk l' left' =>
          cases hr' : right.next inext with
          | mk r' right' =>
            simp only [hl', hr'] at h1 h2
            subst h1 h2
            cases l' <;> cases r' <;> simp only [hl', hr']
            · exact ⟨_, rfl⟩
            · exact ⟨_, rfl⟩
            · exact ⟨_, rfl⟩
            · split <;> exact ⟨_, rfl⟩
  have hjoin : ∀ (range : R) (p : Peekable I R), ∃ x, join inext range p = .ok x := by
    intro range p
    have h1 := Peekable.next_peek inext p
    unfold join
    cases hl : p.peek inext with
    | mk l left =>
      rw [hl] at h1
      cases hl' : left.next inext with
      | mk l' left' =>
        simp only [hl'] at h1
        subst h1
        cases l' <;> simp only [hl']
        · exact ⟨_, rfl⟩
        · split <;> exact ⟨_, rfl⟩
  have hloop : ∀ (fuel : Nat) (range : R) (u : PUnion I R),
      mergeLoop inext fuel range u ≠ .error .expectFailed := by
    intro fuel
    induction fuel with
    | zero => intro range u h; cases h
    | succ fuel ih =>
      intro range u
      obtain ⟨⟨o, p⟩, e⟩ := hjoin range u.left
      rw [mergeLoop, e]
      cases o with
      | some range' => exact ih _ _
      | none =>
        obtain ⟨⟨o', q⟩, e'⟩ := hjoin range u.right
        simp only [bind, Except.bind, e']
        cases o' with
        | some range' => exact ih _ _
        | none => intro h; cases h
  obtain ⟨⟨o, u'⟩, e⟩ := hfirst u
  rw [next, e]
  cases o with
  | none => intro h; cases h
  | some range =>
    intro h
    have := hloop fuel range u'
    simp only [bind, Except.bind] at h
    cases hm : mergeLoop inext fuel range u' with
    | error p =>
      rw [hm] at h this
      simp only [Except.error.injEq] at h
      exact this (by rw [h])
    | ok x => rw [hm] at h; cases h

end

section
open RangeSet

/-- **C63** `Union::new(i, j)` of iterators over two sets that have been advanced from either end any
number of times: it yields non-empty ranges in increasing order, without overlaps, covering exactly the
keys in the ranges left in `i` or `j`, and then `None` forever; it does not panic, and its loop ends
after at most as many rounds as there are ranges left. -/
theorem C63_union {a b : RangeSet K} (ha : Reachable a) (hb : Reachable b) (cs ds : List End) :
    ∃ l, (∀ fuel, (dequeRest cs a.iter).length + (dequeRest ds b.iter).length < fuel →
        YieldsE (PUnion.next RangeSet.Iter.next fuel)
          (.new (stateAfter RangeSet.Iter.next RangeSet.Iter.nextBack cs a.iterator)
            (stateAfter RangeSet.Iter.next RangeSet.Iter.nextBack ds b.iterator)) l) ∧
      (∀ r ∈ l, r.start < r.stop) ∧ l.Pairwise (fun r r' => r.stop ≤ r'.start) ∧
      ∀ k, (∃ r ∈ l, r.start ≤ k ∧ k < r.stop) ↔
        (∃ r ∈ dequeRest cs a.iter, r.start ≤ k ∧ k < r.stop) ∨
        ∃ r ∈ dequeRest ds b.iter, r.start ≤ k ∧ k < r.stop := by
  obtain ⟨a', a1, a2⟩ := iterator_rest cs a
  obtain ⟨b', b1, b2⟩ := iterator_rest ds b
  have sub : ∀ {s s' : RangeSet K} {cs}, Reachable s → s'.iter = dequeRest cs s.iter →
      RangeMap.WF s'.rm.btm := by
    intro s s' cs hs h
    have := (wf_iff s).1 hs.wf
    rw [wf_iff, h]
    have hsub := dequeRest_sublist cs s.iter
    exact ⟨fun r hr => this.1 r (hsub.subset hr), this.2.sublist hsub⟩
  obtain ⟨l, l1, _, l3, l4, l5⟩ := union_spec (sub ha a2) (sub hb b2)
  refine ⟨l, fun fuel hf n => ?_, l3, l4, fun k => ?_⟩
  · rw [a1, b1, ← l1 n]
    refine PUnion.calls_rep n (U := a'.union b') ⟨iterator_yields a', iterator_yields b'⟩ ?_
    rw [← a2, ← b2] at hf
    exact hf
  · have := l5 k
    rw [Bool.eq_iff_iff, Bool.or_eq_true] at this
    simpa [has, covers, a2, b2] using this

example := C63_union (K := Nat) (a := Demo.set) (b := Demo.set') Demo.set_reachable
    Demo.set'_reachable [.back, .front, .front] [.back, .front, .front]

/-- **C63** The same for `Intersection::new`: it covers exactly the keys that are in a range left in
`i` and in a range left in `j`; the ranges it yields do not even touch. -/
theorem C63_intersection {a b : RangeSet K} (ha : Reachable a) (hb : Reachable b) (cs ds : List End) :
    ∃ l, (∀ fuel, (dequeRest cs a.iter).length + (dequeRest ds b.iter).length < fuel →
        YieldsE (PIntersection.next RangeSet.Iter.next fuel)
          (.new (stateAfter RangeSet.Iter.next RangeSet.Iter.nextBack cs a.iterator)
            (stateAfter RangeSet.Iter.next RangeSet.Iter.nextBack ds b.iterator)) l) ∧
      (∀ r ∈ l, r.start < r.stop) ∧ l.Pairwise (fun r r' => r.stop < r'.start) ∧
      ∀ k, (∃ r ∈ l, r.start ≤ k ∧ k < r.stop) ↔
        (∃ r ∈ dequeRest cs a.iter, r.start ≤ k ∧ k < r.stop) ∧
        ∃ r ∈ dequeRest ds b.iter, r.start ≤ k ∧ k < r.stop := by
  obtain ⟨a', a1, a2⟩ := iterator_rest cs a
  obtain ⟨b', b1, b2⟩ := iterator_rest ds b
  have sub : ∀ {s s' : RangeSet K} {cs}, Reachable s → s'.iter = dequeRest cs s.iter →
      RangeMap.WF s'.rm.btm := by
    intro s s' cs hs h
    have := (wf_iff s).1 hs.wf
    rw [wf_iff, h]
    have hsub := dequeRest_sublist cs s.iter
    exact ⟨fun r hr => this.1 r (hsub.subset hr), this.2.sublist hsub⟩
  obtain ⟨l, l1, _, l3, l4, l5⟩ := intersection_spec (sub ha a2) (sub hb b2)
  refine ⟨l, fun fuel hf n => ?_, l3, l4, fun k => ?_⟩
  · rw [a1, b1, ← l1 n]
    refine PIntersection.calls_rep n ⟨iterator_yields a', iterator_yields b'⟩ ?_
    rw [← a2, ← b2] at hf
    exact hf
  · have := l5 k
    rw [Bool.eq_iff_iff, Bool.and_eq_true] at this
    simpa [has, covers, a2, b2] using this

example := C63_intersection (K := Nat) (a := Demo.set) (b := Demo.set') Demo.set_reachable
    Demo.set'_reachable [.back, .front, .front] [.back, .front, .front]

/-- **C63** On fresh iterators, i.e. for `a.union(&b)` and `a.intersection(&b)`, this is what C37, C38
and C39 say about the list model. -/
theorem C63_lists (a b : RangeSet K) {fuel : Nat} (hf : a.len + b.len < fuel) (n : Nat) :
    callsE (PUnion.next RangeSet.Iter.next fuel) n (.new a.iterator b.iterator) =
      .ok (calls Union.next n (a.union b)) ∧
    callsE (PIntersection.next RangeSet.Iter.next fuel) n (.new a.iterator b.iterator) =
      .ok (calls Intersection.next n (a.intersection b)) := by
  have hf' : a.iter.length + b.iter.length < fuel := by
    simpa [RangeSet.iter, RangeMap.iter, RangeSet.len, RangeMap.len] using hf
  exact ⟨PUnion.calls_rep n (U := a.union b) ⟨iterator_yields a, iterator_yields b⟩ hf',
    PIntersection.calls_rep n ⟨iterator_yields a, iterator_yields b⟩ hf'⟩

-- the set `{0..3, 5..15, 20..40}` without its first, and `{1..4, 15..20, 22..24, 39..50}` without its
-- last range
example : dequeRest [.front] Demo.set.iter = [⟨5, 15⟩, ⟨20, 40⟩] ∧
    dequeRest [.back] Demo.set'.iter = [⟨1, 4⟩, ⟨15, 20⟩, ⟨22, 24⟩] := by decide
example : (callsE (PUnion.next RangeSet.Iter.next 6) 6
    (.new (stateAfter RangeSet.Iter.next RangeSet.Iter.nextBack [.front] Demo.set.iterator)
      (stateAfter RangeSet.Iter.next RangeSet.Iter.nextBack [.back] Demo.set'.iterator))).toOption =
    some [some ⟨1, 4⟩, some ⟨5, 15⟩, some ⟨15, 20⟩, some ⟨20, 40⟩, none, none] := by rfl
example : (callsE (PIntersection.next RangeSet.Iter.next 8) 4
    (.new Demo.set.iterator Demo.set'.iterator)).toOption =
    some [some ⟨1, 3⟩, some ⟨22, 24⟩, some ⟨39, 40⟩, none] := by rfl
-- an iterator that is not fused: it yields after every `None`
example : ((PUnion.next (fun n : Nat => (if n % 2 = 0 then none else some (⟨n, n + 1⟩ : Range Nat), n + 1))
    5 (.new 0 1)).toOption.map (·.1)) = some (some ⟨1, 2⟩) := by rfl

end

namespace Inclusive
open RangeInclusiveSet
variable {S : StepFns K}

/-- **C63** `Union::new(i, j)` of iterators over two inclusive sets that have been advanced from either
end any number of times. -/
theorem C63_union (hS : LawfulSteps S) {a b : RangeInclusiveSet K} (ha : Reachable S a)
    (hb : Reachable S b) (cs ds : List End) :
    ∃ l, (∀ fuel, (dequeRest cs a.iter).length + (dequeRest ds b.iter).length < fuel →
        YieldsE (PUnion.next RangeInclusiveSet.Iter.next fuel)
          (.new (stateAfter RangeInclusiveSet.Iter.next RangeInclusiveSet.Iter.nextBack cs a.iterator)
            (stateAfter RangeInclusiveSet.Iter.next RangeInclusiveSet.Iter.nextBack ds b.iterator))
          l) ∧
      (∀ r ∈ l, r.start ≤ r.stop ∧ r.exhausted = false) ∧
      l.Pairwise (fun r r' => r.stop < r'.start) ∧
      ∀ k, (∃ r ∈ l, r.start ≤ k ∧ k ≤ r.stop) ↔
        (∃ r ∈ dequeRest cs a.iter, r.start ≤ k ∧ k ≤ r.stop) ∨
        ∃ r ∈ dequeRest ds b.iter, r.start ≤ k ∧ k ≤ r.stop := by
  obtain ⟨a', a1, a2⟩ := iterator_rest cs a
  obtain ⟨b', b1, b2⟩ := iterator_rest ds b
  have sub : ∀ {s s' : RangeInclusiveSet K} {cs}, Reachable S s → s'.iter = dequeRest cs s.iter →
      RangeInclusiveMap.WF s'.rm.btm := by
    intro s s' cs hs h
    have := (wf_iff s).1 (hs.wf hS)
    rw [wf_iff, h]
    have hsub := dequeRest_sublist cs s.iter
    exact ⟨fun r hr => this.1 r (hsub.subset hr), this.2.sublist hsub⟩
  obtain ⟨l, l1, _, l3, l4, l5⟩ := union_spec (sub ha a2) (sub hb b2)
  refine ⟨l, fun fuel hf n => ?_, l3, l4, fun k => ?_⟩
  · rw [a1, b1, ← l1 n]
    refine PUnion.calls_rep n (U := a'.union b') ⟨iterator_yields a', iterator_yields b'⟩ ?_
    rw [← a2, ← b2] at hf
    exact hf
  · have := l5 k
    rw [Bool.eq_iff_iff, Bool.or_eq_true] at this
    simpa [has, icovers, a2, b2] using this

example := Inclusive.C63_union (K := UIntW 8) (S := Demo.u8) Demo.u8_lawful (a := Demo.iset)
    (b := Demo.iset') Demo.iset_reachable Demo.iset'_reachable [.back, .front, .front]
    [.back, .front, .front]

/-- **C63** The same for `Intersection::new` of iterators over inclusive sets. -/
theorem C63_intersection (hS : LawfulSteps S) {a b : RangeInclusiveSet K} (ha : Reachable S a)
    (hb : Reachable S b) (cs ds : List End) :
    ∃ l, (∀ fuel, (dequeRest cs a.iter).length + (dequeRest ds b.iter).length < fuel →
        YieldsE (PIntersection.next RangeInclusiveSet.Iter.next fuel)
          (.new (stateAfter RangeInclusiveSet.Iter.next RangeInclusiveSet.Iter.nextBack cs a.iterator)
            (stateAfter RangeInclusiveSet.Iter.next RangeInclusiveSet.Iter.nextBack ds b.iterator))
          l) ∧
      (∀ r ∈ l, r.start ≤ r.stop ∧ r.exhausted = false) ∧
      l.Pairwise (fun r r' => r.stop < r'.start ∧ ¬ Next r.stop r'.start) ∧
      ∀ k, (∃ r ∈ l, r.start ≤ k ∧ k ≤ r.stop) ↔
        (∃ r ∈ dequeRest cs a.iter, r.start ≤ k ∧ k ≤ r.stop) ∧
        ∃ r ∈ dequeRest ds b.iter, r.start ≤ k ∧ k ≤ r.stop := by
  obtain ⟨a', a1, a2⟩ := iterator_rest cs a
  obtain ⟨b', b1, b2⟩ := iterator_rest ds b
  have sub : ∀ {s s' : RangeInclusiveSet K} {cs}, Reachable S s → s'.iter = dequeRest cs s.iter →
      RangeInclusiveMap.WF s'.rm.btm := by
    intro s s' cs hs h
    have := (wf_iff s).1 (hs.wf hS)
    rw [wf_iff, h]
    have hsub := dequeRest_sublist cs s.iter
    exact ⟨fun r hr => this.1 r (hsub.subset hr), this.2.sublist hsub⟩
  obtain ⟨l, l1, _, l3, l4, l5⟩ := intersection_spec (sub ha a2) (sub hb b2)
  refine ⟨l, fun fuel hf n => ?_, l3, l4, fun k => ?_⟩
  · rw [a1, b1, ← l1 n]
    refine PIntersection.calls_rep n ⟨iterator_yields a', iterator_yields b'⟩ ?_
    rw [← a2, ← b2] at hf
    exact hf
  · have := l5 k
    rw [Bool.eq_iff_iff, Bool.and_eq_true] at this
    simpa [has, icovers, a2, b2] using this

example := Inclusive.C63_intersection (K := UIntW 8) (S := Demo.u8) Demo.u8_lawful
    (a := Demo.iset) (b := Demo.iset') Demo.iset_reachable Demo.iset'_reachable
    [.back, .front, .front] [.back, .front, .front]

/-- **C63** On fresh iterators this is what the list model says. -/
theorem C63_lists (a b : RangeInclusiveSet K) {fuel : Nat} (hf : a.len + b.len < fuel) (n : Nat) :
    callsE (PUnion.next RangeInclusiveSet.Iter.next fuel) n (.new a.iterator b.iterator) =
      .ok (calls Union.next n (a.union b)) ∧
    callsE (PIntersection.next RangeInclusiveSet.Iter.next fuel) n (.new a.iterator b.iterator) =
      .ok (calls Intersection.next n (a.intersection b)) := by
  have hf' : a.iter.length + b.iter.length < fuel := by
    simpa [RangeInclusiveSet.iter, RangeInclusiveMap.iter, RangeInclusiveSet.len,
      RangeInclusiveMap.len] using hf
  exact ⟨PUnion.calls_rep n (U := a.union b) ⟨iterator_yields a, iterator_yields b⟩ hf',
    PIntersection.calls_rep n ⟨iterator_yields a, iterator_yields b⟩ hf'⟩

-- `{0..=2, 5..=14, 20..=255}` without its last, and `{1..=3, 15..=19, 22..=23, 39..=49}` without its
-- first range
example : (callsE (PUnion.next RangeInclusiveSet.Iter.next 6) 6
    (.new (stateAfter RangeInclusiveSet.Iter.next RangeInclusiveSet.Iter.nextBack [.back]
        Demo.iset.iterator)
      (stateAfter RangeInclusiveSet.Iter.next RangeInclusiveSet.Iter.nextBack [.front]
        Demo.iset'.iterator))).toOption =
    some [some (Demo.by8 0 2), some (Demo.by8 5 14), some (Demo.by8 15 19), some (Demo.by8 22 23),
      some (Demo.by8 39 49), none] := by rfl
example : (callsE (PIntersection.next RangeInclusiveSet.Iter.next 8) 4
    (.new Demo.iset.iterator Demo.iset'.iterator)).toOption =
    some [some (Demo.by8 1 2), some (Demo.by8 22 23), some (Demo.by8 39 49), none] := by rfl

end Inclusive

example := C63_unwrap Deque.next 9 (PUnion.new Demo.set.iter Demo.set'.iter)

end Props
end Verif

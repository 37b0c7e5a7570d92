import Verif.Proof.LawlessOps
import Verif.Props.Demo

/-!
# C92: `Union` and `Intersection` when comparisons keep to no law

The comparisons of keys answer whatever they like, differently every time.  The two iterators still
come to an end, never fail at an `unwrap`, and make no ranges up.
-/
set_option linter.unusedSectionVars false
set_option linter.unusedVariables false
namespace Verif.Props
open Verif.Spec

/-- All questions get the same answer (for the examples below; `none` for anything but comparisons).
-/
def _root_.Verif.Wild.always {K R V α : Type} (b : Bool) : Wild K R V α → Option α
  | .ret a => some a
  | .ask _ next => always b (next b)
  | _ => none

section
variable {K R V : Type}

/-- **C92** Whatever the comparisons answer (and if none of them panics), `n` calls of `Union::next`
over iterators that have the ranges `l` and `r` to yield come to an end without a panic. They yield
ranges `ys` and then `None`s. The ranges of `l` and `r` are used up in order, each in exactly one of
the groups `gs`, which correspond to the ranges yielded: a range yielded is the first one of its
group, or starts where that starts and ends where another one of the group ends. There is no `None`
before everything is used up. -/
theorem C92_union (l r : List (Range K)) {fuel : Nat} (hf : l.length + r.length ≤ fuel) (n : Nat) :
    Wild.Always (Wild.calls (PUnion.nextW Range.startLtW Range.mergeW Deque.next fuel) n
        (PUnion.new l r) : Wild K R V _) fun out =>
      ∃ (ys : List (Range K)) (gs : List (List (Range K))) (l' r' : List (Range K)),
        out = ys.map some ++ List.replicate (n - ys.length) none ∧ ys.length ≤ n ∧
        Takes l r gs.flatten l' r' ∧ gs.length = ys.length ∧
        (∀ p ∈ gs.zip ys, ∃ x g, p.1 = x :: g ∧
          (p.2 = x ∨ ∃ z ∈ g, p.2 = ⟨x.start, z.stop⟩)) ∧
        (ys.length < n → l' = [] ∧ r' = []) :=
  PUnion.calls_always Range.startLtW_always Range.mergeW_always (fun _ _ _ => rfl) fuel n
    (PUnion.new l r) ⟨nofun, nofun⟩ hf

/-- **C92** Hence it yields no more ranges than it was given, and at least one if it was given any.
-/
theorem C92_union_length (l r : List (Range K)) {fuel : Nat} (hf : l.length + r.length ≤ fuel)
    (n : Nat) :
    Wild.Always (Wild.calls (PUnion.nextW Range.startLtW Range.mergeW Deque.next fuel) n
        (PUnion.new l r) : Wild K R V _) fun out =>
      out.length = n ∧ (out.filterMap id).length ≤ l.length + r.length ∧
        (0 < n → out.filterMap id = [] → l = [] ∧ r = []) := by
  refine (C92_union l r hf n).weaken ?_
  rintro out ⟨ys, gs, l', r', rfl, h1, h2, h3, h4, h5⟩
  have hflat : gs.length ≤ gs.flatten.length := by
    have hne : ∀ g ∈ gs, 0 < g.length := by
      intro g hg
      obtain ⟨i, hi, rfl⟩ := List.mem_iff_getElem.1 hg
      obtain ⟨x, g', hx, -⟩ := h4 (gs[i], ys[i]'(h3 ▸ hi)) (List.mem_iff_getElem.2
        ⟨i, by simp [h3] at hi ⊢; omega, by simp⟩)
      simp only at hx
      simp [hx]
    clear h2 h3 h4
    induction gs with
    | nil => simp
    | cons g gs ih =>
      have := ih fun g hg => hne g (.tail _ hg)
      have := hne g (.head _)
      simp only [List.flatten_cons, List.length_append, List.length_cons]
      omega
  have hlen := h2.length
  have hout : (ys.map some ++ List.replicate (n - ys.length) none).filterMap id = ys := by
    simp [List.filterMap_append]
  rw [hout]
  refine ⟨by simp; omega, by omega, ?_⟩
  rintro hn rfl
  obtain ⟨rfl, rfl⟩ := h5 hn
  have : gs = [] := List.length_eq_zero_iff.1 h3
  subst this
  cases h2
  exact ⟨rfl, rfl⟩

/-- **C92** Whatever the comparisons answer (and if none of them panics), `n` calls of
`Intersection::next` over iterators that have the ranges `l` and `r` to yield come to an end without
a panic. They yield ranges `ys` and then `None`s. Every range yielded comes from a pair of its own
of ranges met on the way through `l` and `r`, it starts where one of the two starts and ends where
one of the two ends. There is no `None` before one of the lists is used up. -/
theorem C92_intersection (l r : List (Range K)) {fuel : Nat} (hf : l.length + r.length < fuel)
    (n : Nat) :
    Wild.Always (Wild.calls (PIntersection.nextW Range.endLtW Range.intersectW Deque.next fuel) n
        (PIntersection.new l r) : Wild K R V _) fun out =>
      ∃ (ys : List (Range K)) (ps qs : List (Range K × Range K)) (l' r' : List (Range K)),
        out = ys.map some ++ List.replicate (n - ys.length) none ∧ ys.length ≤ n ∧
        Stairs l r ps l' r' ∧ qs.Sublist ps ∧ qs.length = ys.length ∧
        (∀ p ∈ qs.zip ys, (p.2.start = p.1.1.start ∨ p.2.start = p.1.2.start) ∧
          (p.2.stop = p.1.1.stop ∨ p.2.stop = p.1.2.stop)) ∧
        (ys.length < n → l' = [] ∨ r' = []) :=
  PIntersection.calls_always (Cut := fun a b y => (y.start = a.start ∨ y.start = b.start) ∧
      (y.stop = a.stop ∨ y.stop = b.stop)) Range.endLtW_always Range.intersectW_always fuel n
    (PIntersection.new l r) ⟨nofun, nofun⟩ hf

/-- **C92** Hence it yields fewer ranges than it was given, if it was given any. -/
theorem C92_intersection_length (l r : List (Range K)) {fuel : Nat}
    (hf : l.length + r.length < fuel) (n : Nat) :
    Wild.Always (Wild.calls (PIntersection.nextW Range.endLtW Range.intersectW Deque.next fuel) n
        (PIntersection.new l r) : Wild K R V _) fun out =>
      out.length = n ∧ (out.filterMap id).length ≤ l.length + r.length - 1 := by
  refine (C92_intersection l r hf n).weaken ?_
  rintro out ⟨ys, ps, qs, l', r', rfl, h1, h2, h3, h4, h5, h6⟩
  have hlen := h2.length
  have hsub := h3.length_le
  have hps : ps = [] ∨ l' ≠ [] ∨ r' ≠ [] := by
    clear hlen hsub h3 h4 h5 h6 h1 hf
    induction h2 with
    | nil => exact .inl rfl
    | @left a b l r s l' r' h ih =>
      rcases ih with rfl | h'
      · cases h
        exact .inr (.inr nofun)
      · exact .inr h'
    | @right a b l r s l' r' h ih =>
      rcases ih with rfl | h'
      · cases h
        exact .inr (.inl nofun)
      · exact .inr h'
  have hout : (ys.map some ++ List.replicate (n - ys.length) none).filterMap id = ys := by
    simp [List.filterMap_append]
  rw [hout]
  refine ⟨by simp; omega, ?_⟩
  rcases hps with rfl | h | h
  · rw [List.length_nil] at hsub
    omega
  · have := List.length_pos_iff.2 h
    omega
  · have := List.length_pos_iff.2 h
    omega

end

section
variable {K : Type} [LE K] [LT K] [DecidableLE K] [DecidableLT K] {R V : Type} [BEq V] {I : Type}

/-- **C92** Honest answers are among those considered: with them, and over any underlying iterator,
`Union` yields what it yields in the model with `Peekable` (C63). -/
theorem C92_union_honest (start : R → K) (S : StepFns K) (inext : I → Option (Range K) × I)
    (u : PUnion I (Range K)) (fuel n : Nat) (t : List (R × V)) :
    ∃ w, Wild.honest start S
      (Wild.calls (PUnion.nextW Range.startLtW Range.mergeW inext fuel) n u) t ⟨0, 0, 0⟩ =
        ((callsE (PUnion.next inext fuel) n u, t), w) := by
  rw [← firsts_eq]
  exact Wild.Answers.calls (PUnion.nextW_answers Range.startLtW_answers Range.mergeW_answers inext
    fuel) n u ⟨0, 0, 0⟩

/-- **C92** The same for `Intersection`. -/
theorem C92_intersection_honest (start : R → K) (S : StepFns K) (inext : I → Option (Range K) × I)
    (u : PIntersection I (Range K)) (fuel n : Nat) (t : List (R × V)) :
    ∃ w, Wild.honest start S
      (Wild.calls (PIntersection.nextW Range.endLtW Range.intersectW inext fuel) n u) t ⟨0, 0, 0⟩ =
        ((callsE (PIntersection.next inext fuel) n u, t), w) := by
  rw [← firsts_eq]
  exact Wild.Answers.calls
    (PIntersection.nextW_answers Range.endLtW_answers Range.intersectW_answers
    inext fuel) n u ⟨0, 0, 0⟩

end

/-- Honest answers: the union of `{[0,3), [5,7)}` and `{[2,5), [9,10)}`. -/
example : (callsE (PUnion.next Deque.next 10) 4
    (PUnion.new [(⟨0, 3⟩ : Range Nat), (⟨5, 7⟩ : Range Nat)]
    [(⟨2, 5⟩ : Range Nat), (⟨9, 10⟩ : Range Nat)])).toOption =
      some [some (⟨0, 5⟩ : Range Nat), some ⟨5, 7⟩, some ⟨9, 10⟩, none] := by decide

/-- All comparisons answer "no": every range comes by itself, those of the right side first. -/
example : (Wild.always false (Wild.calls (PUnion.nextW Range.startLtW Range.mergeW Deque.next 10) 6
    (PUnion.new [(⟨0, 3⟩ : Range Nat), (⟨5, 7⟩ : Range Nat)]
    [(⟨2, 5⟩ : Range Nat), (⟨9, 10⟩ : Range Nat)]) : Wild Nat Unit Unit _)) =
      some [some ⟨2, 5⟩, some ⟨9, 10⟩, some ⟨0, 3⟩, some ⟨5, 7⟩, none, none] := by
  decide

/-- All comparisons answer "yes": one range, that ends where the last one of the right side ends. -/
example : (Wild.always true (Wild.calls (PUnion.nextW Range.startLtW Range.mergeW Deque.next 10) 2
    (PUnion.new [(⟨0, 3⟩ : Range Nat), (⟨5, 7⟩ : Range Nat)]
    [(⟨2, 5⟩ : Range Nat), (⟨9, 10⟩ : Range Nat)]) : Wild Nat Unit Unit _)) =
      some [some ⟨0, 10⟩, none] := by decide

/-- All comparisons answer "no": the intersections are "from the second start to the first end". -/
example : (Wild.always false (Wild.calls
    (PIntersection.nextW Range.endLtW Range.intersectW Deque.next 10) 3
    (PIntersection.new [(⟨0, 3⟩ : Range Nat), (⟨5, 7⟩ : Range Nat)]
    [(⟨2, 5⟩ : Range Nat), (⟨9, 10⟩ : Range Nat)]) : Wild Nat Unit Unit _)) =
      some [some ⟨2, 3⟩, some ⟨9, 3⟩, none] := by decide

/-- The hypotheses of the theorems can be met. -/
example := C92_union (R := Unit) (V := Unit) [(⟨0, 3⟩ : Range Nat), (⟨5, 7⟩ : Range Nat)]
    [(⟨2, 5⟩ : Range Nat), (⟨9, 10⟩ : Range Nat)]
  (fuel := 4) (by decide) 5
example := C92_union_length (R := Unit) (V := Unit) [(⟨0, 3⟩ : Range Nat), (⟨5, 7⟩ : Range Nat)]
    [(⟨2, 5⟩ : Range Nat), (⟨9, 10⟩ : Range Nat)]
  (fuel := 4) (by decide) 5
example := C92_intersection (R := Unit) (V := Unit) [(⟨0, 3⟩ : Range Nat), (⟨5, 7⟩ : Range Nat)]
  [(⟨2, 5⟩ : Range Nat), (⟨9, 10⟩ : Range Nat)] (fuel := 5) (by decide) 5
example := C92_intersection_length (R := Unit) (V := Unit)
    [(⟨0, 3⟩ : Range Nat), (⟨5, 7⟩ : Range Nat)]
  [(⟨2, 5⟩ : Range Nat), (⟨9, 10⟩ : Range Nat)] (fuel := 5) (by decide) 5

example := C92_union_honest (R := Range Nat) (V := Char) Range.start ⟨.ok, .ok⟩ Deque.next
  (PUnion.new [(⟨0, 3⟩ : Range Nat), (⟨5, 7⟩ : Range Nat)]
    [(⟨2, 5⟩ : Range Nat), (⟨9, 10⟩ : Range Nat)]) 4 5 []

namespace Inclusive

section
variable {K R V : Type}

/-- **C92** Whatever the comparisons answer (and if none of them panics), `n` calls of `Union::next`
over iterators that have the ranges `l` and `r` to yield come to an end without a panic. They yield
ranges `ys` and then `None`s. The ranges of `l` and `r` are used up in order, each in exactly one of
the groups `gs`, which correspond to the ranges yielded: a range yielded is the first one of its
group, or starts where that starts and ends where another one of the group ends. There is no `None`
before everything is used up. -/
theorem C92_union (l r : List (RangeInclusive K)) {fuel : Nat} (hf : l.length + r.length ≤ fuel)
    (n : Nat) :
    Wild.Always
      (Wild.calls (PUnion.nextW RangeInclusive.startLtW RangeInclusive.mergeW Deque.next fuel) n
        (PUnion.new l r) : Wild K R V _) fun out =>
      ∃ (ys : List (RangeInclusive K)) (gs : List (List (RangeInclusive K)))
        (l' r' : List (RangeInclusive K)),
        out = ys.map some ++ List.replicate (n - ys.length) none ∧ ys.length ≤ n ∧
        Takes l r gs.flatten l' r' ∧ gs.length = ys.length ∧
        (∀ p ∈ gs.zip ys, ∃ x g, p.1 = x :: g ∧
          (p.2 = x ∨ ∃ z ∈ g, p.2 = RangeInclusive.mk' x.start z.stop)) ∧
        (ys.length < n → l' = [] ∧ r' = []) :=
  PUnion.calls_always RangeInclusive.startLtW_always RangeInclusive.mergeW_always
    (fun _ _ _ => rfl) fuel n
    (PUnion.new l r) ⟨nofun, nofun⟩ hf

/-- **C92** Hence it yields no more ranges than it was given, and at least one if it was given any.
-/
theorem C92_union_length (l r : List (RangeInclusive K)) {fuel : Nat}
    (hf : l.length + r.length ≤ fuel)
    (n : Nat) :
    Wild.Always
      (Wild.calls (PUnion.nextW RangeInclusive.startLtW RangeInclusive.mergeW Deque.next fuel) n
        (PUnion.new l r) : Wild K R V _) fun out =>
      out.length = n ∧ (out.filterMap id).length ≤ l.length + r.length ∧
        (0 < n → out.filterMap id = [] → l = [] ∧ r = []) := by
  refine (C92_union l r hf n).weaken ?_
  rintro out ⟨ys, gs, l', r', rfl, h1, h2, h3, h4, h5⟩
  have hflat : gs.length ≤ gs.flatten.length := by
    have hne : ∀ g ∈ gs, 0 < g.length := by
      intro g hg
      obtain ⟨i, hi, rfl⟩ := List.mem_iff_getElem.1 hg
      obtain ⟨x, g', hx, -⟩ := h4 (gs[i], ys[i]'(h3 ▸ hi)) (List.mem_iff_getElem.2
        ⟨i, by simp [h3] at hi ⊢; omega, by simp⟩)
      simp only at hx
      simp [hx]
    clear h2 h3 h4
    induction gs with
    | nil => simp
    | cons g gs ih =>
      have := ih fun g hg => hne g (.tail _ hg)
      have := hne g (.head _)
      simp only [List.flatten_cons, List.length_append, List.length_cons]
      omega
  have hlen := h2.length
  have hout : (ys.map some ++ List.replicate (n - ys.length) none).filterMap id = ys := by
    simp [List.filterMap_append]
  rw [hout]
  refine ⟨by simp; omega, by omega, ?_⟩
  rintro hn rfl
  obtain ⟨rfl, rfl⟩ := h5 hn
  have : gs = [] := List.length_eq_zero_iff.1 h3
  subst this
  cases h2
  exact ⟨rfl, rfl⟩

/-- **C92** Whatever the comparisons answer (and if none of them panics), `n` calls of
`Intersection::next` over iterators that have the ranges `l` and `r` to yield come to an end without
a panic. They yield ranges `ys` and then `None`s. Every range yielded comes from a pair of its own
of ranges met on the way through `l` and `r`, it starts where one of the two starts and ends where
one of the two ends. There is no `None` before one of the lists is used up. -/
theorem C92_intersection (l r : List (RangeInclusive K)) {fuel : Nat}
    (hf : l.length + r.length < fuel)
    (n : Nat) :
    Wild.Always
      (Wild.calls
        (PIntersection.nextW RangeInclusive.endLtW RangeInclusive.intersectW Deque.next fuel) n
        (PIntersection.new l r) : Wild K R V _) fun out =>
      ∃ (ys : List (RangeInclusive K)) (ps qs : List (RangeInclusive K × RangeInclusive K))
        (l' r' : List (RangeInclusive K)),
        out = ys.map some ++ List.replicate (n - ys.length) none ∧ ys.length ≤ n ∧
        Stairs l r ps l' r' ∧ qs.Sublist ps ∧ qs.length = ys.length ∧
        (∀ p ∈ qs.zip ys, (p.2.start = p.1.1.start ∨ p.2.start = p.1.2.start) ∧
          (p.2.stop = p.1.1.stop ∨ p.2.stop = p.1.2.stop) ∧ p.2.exhausted = false) ∧
        (ys.length < n → l' = [] ∨ r' = []) :=
  PIntersection.calls_always (Cut := fun a b y => (y.start = a.start ∨ y.start = b.start) ∧
      (y.stop = a.stop ∨ y.stop = b.stop) ∧ y.exhausted = false) RangeInclusive.endLtW_always
        RangeInclusive.intersectW_always fuel n
    (PIntersection.new l r) ⟨nofun, nofun⟩ hf

/-- **C92** Hence it yields fewer ranges than it was given, if it was given any. -/
theorem C92_intersection_length (l r : List (RangeInclusive K)) {fuel : Nat}
    (hf : l.length + r.length < fuel) (n : Nat) :
    Wild.Always
      (Wild.calls
        (PIntersection.nextW RangeInclusive.endLtW RangeInclusive.intersectW Deque.next fuel) n
        (PIntersection.new l r) : Wild K R V _) fun out =>
      out.length = n ∧ (out.filterMap id).length ≤ l.length + r.length - 1 := by
  refine (C92_intersection l r hf n).weaken ?_
  rintro out ⟨ys, ps, qs, l', r', rfl, h1, h2, h3, h4, h5, h6⟩
  have hlen := h2.length
  have hsub := h3.length_le
  have hps : ps = [] ∨ l' ≠ [] ∨ r' ≠ [] := by
    clear hlen hsub h3 h4 h5 h6 h1 hf
    induction h2 with
    | nil => exact .inl rfl
    | @left a b l r s l' r' h ih =>
      rcases ih with rfl | h'
      · cases h
        exact .inr (.inr nofun)
      · exact .inr h'
    | @right a b l r s l' r' h ih =>
      rcases ih with rfl | h'
      · cases h
        exact .inr (.inl nofun)
      · exact .inr h'
  have hout : (ys.map some ++ List.replicate (n - ys.length) none).filterMap id = ys := by
    simp [List.filterMap_append]
  rw [hout]
  refine ⟨by simp; omega, ?_⟩
  rcases hps with rfl | h | h
  · rw [List.length_nil] at hsub
    omega
  · have := List.length_pos_iff.2 h
    omega
  · have := List.length_pos_iff.2 h
    omega

end

section
variable {K : Type} [LE K] [LT K] [DecidableLE K] [DecidableLT K] {R V : Type} [BEq V] {I : Type}

/-- **C92** Honest answers are among those considered: with them, and over any underlying iterator,
`Union` yields what it yields in the model with `Peekable` (C63). -/
theorem C92_union_honest (start : R → K) (S : StepFns K) (inext : I → Option (RangeInclusive K) × I)
    (u : PUnion I (RangeInclusive K)) (fuel n : Nat) (t : List (R × V)) :
    ∃ w, Wild.honest start S
      (Wild.calls (PUnion.nextW RangeInclusive.startLtW RangeInclusive.mergeW inext fuel) n u) t
        ⟨0, 0, 0⟩ =
        ((callsE (PUnion.next inext fuel) n u, t), w) := by
  rw [← firsts_eq]
  exact Wild.Answers.calls
    (PUnion.nextW_answers RangeInclusive.startLtW_answers RangeInclusive.mergeW_answers inext
    fuel) n u ⟨0, 0, 0⟩

/-- **C92** The same for `Intersection`. -/
theorem C92_intersection_honest (start : R → K) (S : StepFns K)
    (inext : I → Option (RangeInclusive K) × I)
    (u : PIntersection I (RangeInclusive K)) (fuel n : Nat) (t : List (R × V)) :
    ∃ w, Wild.honest start S
      (Wild.calls (PIntersection.nextW RangeInclusive.endLtW RangeInclusive.intersectW inext fuel)
        n u) t ⟨0, 0, 0⟩ =
        ((callsE (PIntersection.next inext fuel) n u, t), w) := by
  rw [← firsts_eq]
  exact Wild.Answers.calls
    (PIntersection.nextW_answers RangeInclusive.endLtW_answers RangeInclusive.intersectW_answers
    inext fuel) n u ⟨0, 0, 0⟩

end

/-- Honest answers: the union of `{[0,3], [5,7]}` and `{[2,5], [9,10]}`. -/
example : (callsE (PUnion.next Deque.next 10) 4
    (PUnion.new [(RangeInclusive.mk' 0 3 : RangeInclusive Nat), RangeInclusive.mk' 5 7]
    [(RangeInclusive.mk' 2 5 : RangeInclusive Nat), RangeInclusive.mk' 9 10])).toOption =
      some [some (RangeInclusive.mk' 0 7), some (RangeInclusive.mk' 9 10), none, none] := by decide

/-- All comparisons answer "no": every range comes by itself, those of the right side first. -/
example :
    (Wild.always false
    (Wild.calls (PUnion.nextW RangeInclusive.startLtW RangeInclusive.mergeW Deque.next 10) 6
    (PUnion.new [(RangeInclusive.mk' 0 3 : RangeInclusive Nat), RangeInclusive.mk' 5 7]
    [(RangeInclusive.mk' 2 5 : RangeInclusive Nat), RangeInclusive.mk' 9 10]) : Wild Nat Unit Unit
      _)) =
      some [some (RangeInclusive.mk' 2 5), some (RangeInclusive.mk' 9 10), some
        (RangeInclusive.mk' 0 3), some (RangeInclusive.mk' 5 7), none, none] := by
  decide

/-- All comparisons answer "yes": one range, that ends where the last one of the right side ends. -/
example :
    (Wild.always true
    (Wild.calls (PUnion.nextW RangeInclusive.startLtW RangeInclusive.mergeW Deque.next 10) 2
    (PUnion.new [(RangeInclusive.mk' 0 3 : RangeInclusive Nat), RangeInclusive.mk' 5 7]
    [(RangeInclusive.mk' 2 5 : RangeInclusive Nat), RangeInclusive.mk' 9 10]) : Wild Nat Unit Unit
      _)) =
      some [some (RangeInclusive.mk' 0 10), none] := by decide

/-- All comparisons answer "no": the intersections are "from the second start to the first end". -/
example : (Wild.always false (Wild.calls
    (PIntersection.nextW RangeInclusive.endLtW RangeInclusive.intersectW Deque.next 10) 3
    (PIntersection.new [(RangeInclusive.mk' 0 3 : RangeInclusive Nat), RangeInclusive.mk' 5 7]
    [(RangeInclusive.mk' 2 5 : RangeInclusive Nat), RangeInclusive.mk' 9 10]) : Wild Nat Unit Unit
      _)) =
      some [some (RangeInclusive.mk' 2 3), some (RangeInclusive.mk' 9 3), none] := by decide

/-- The hypotheses of the theorems can be met. -/
example := C92_union (R := Unit) (V := Unit)
    [(RangeInclusive.mk' 0 3 : RangeInclusive Nat), RangeInclusive.mk' 5 7]
      [(RangeInclusive.mk' 2 5 : RangeInclusive Nat), RangeInclusive.mk' 9 10]
  (fuel := 4) (by decide) 5
example := C92_union_length (R := Unit) (V := Unit)
    [(RangeInclusive.mk' 0 3 : RangeInclusive Nat), RangeInclusive.mk' 5 7]
      [(RangeInclusive.mk' 2 5 : RangeInclusive Nat), RangeInclusive.mk' 9 10]
  (fuel := 4) (by decide) 5
example := C92_intersection (R := Unit) (V := Unit)
    [(RangeInclusive.mk' 0 3 : RangeInclusive Nat), RangeInclusive.mk' 5 7]
  [(RangeInclusive.mk' 2 5 : RangeInclusive Nat), RangeInclusive.mk' 9 10] (fuel := 5) (by decide) 5
example := C92_intersection_length (R := Unit) (V := Unit)
    [(RangeInclusive.mk' 0 3 : RangeInclusive Nat), RangeInclusive.mk' 5 7]
  [(RangeInclusive.mk' 2 5 : RangeInclusive Nat), RangeInclusive.mk' 9 10] (fuel := 5) (by decide) 5

example := C92_union_honest (R := RangeInclusive (UIntW 8)) (V := Char) RangeInclusive.start Demo.u8
  Deque.next (PUnion.new [Demo.by8 0 3, Demo.by8 5 7] [Demo.by8 2 5, Demo.by8 9 10]) 4 5 []

end Inclusive
end Verif.Props

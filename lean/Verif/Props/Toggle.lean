import Verif.Props.Demo
import Verif.Props.SetPrograms
import Verif.Props.ISetPrograms

/-!
# C108: toggling ranges, and reserving them first come, first served

Two programs on sets.  Toggling a range takes the keys of it that are in the set out and puts the
others in (`gaps`, `remove`, `extend`); done for a list of ranges it is the even-odd rule.
Reserving a range inserts it unless it `overlaps` with what has been reserved before.
-/
set_option linter.unusedSectionVars false

namespace Verif.Spec
section Halfopen
variable {K : Type} [LE K] [LT K] [DecidableLE K] [DecidableLT K]

/-- The calls that toggle `q`. -/
def Toggle (s : RangeSet K) (q : Range K) (s' : RangeSet K) : Prop :=
  ∃ g l s1, s.gaps q = .ok g ∧ Yields RangeSet.Gaps.next g l ∧ s.remove q = .ok s1 ∧
    s1.extend l = (s', .ok ())

/-- Toggling each range of a list in order leads from one set to another. -/
inductive Toggled : RangeSet K → List (Range K) → RangeSet K → Prop
  | nil (s : RangeSet K) : Toggled s [] s
  | cons {s s' s'' : RangeSet K} {q : Range K} {l : List (Range K)} :
      Toggle s q s' → Toggled s' l s'' → Toggled s (q :: l) s''

/-- Reserving each range of a list in order: the set before, the requests, those that were granted,
and the set after. -/
inductive Reserved : RangeSet K → List (Range K) → List (Range K) → RangeSet K → Prop
  | nil (s : RangeSet K) : Reserved s [] [] s
  | granted {s s' s'' : RangeSet K} {q : Range K} {l a : List (Range K)} :
      s.overlaps q = .ok false → s.insert q = .ok s' → Reserved s' l a s'' →
      Reserved s (q :: l) (q :: a) s''
  | refused {s s'' : RangeSet K} {q : Range K} {l a : List (Range K)} :
      s.overlaps q = .ok true → Reserved s l a s'' → Reserved s (q :: l) a s''

/-- First come, first served: the requests that share no key with one granted before (`a`). -/
def serve (a : List (Range K)) : List (Range K) → List (Range K)
  | [] => []
  | q :: l =>
    if a.any fun r => decide (q.start < r.stop ∧ r.start < q.stop) then serve a l
    else q :: serve (q :: a) l

end Halfopen

section Inclusive
variable {K : Type} [LE K] [LT K] [DecidableLE K] [DecidableLT K]

/-- `Toggle` for inclusive sets. -/
def IToggle (S : StepFns K) (s : RangeInclusiveSet K) (q : RangeInclusive K)
    (s' : RangeInclusiveSet K) : Prop :=
  ∃ g l s1, s.gaps q = .ok g ∧ YieldsE (RangeInclusiveSet.Gaps.next S) g l ∧
    s.remove S q = .ok s1 ∧ s1.extend S l = (s', .ok ())

/-- `Toggled` for inclusive sets. -/
inductive IToggled (S : StepFns K) :
    RangeInclusiveSet K → List (RangeInclusive K) → RangeInclusiveSet K → Prop
  | nil (s : RangeInclusiveSet K) : IToggled S s [] s
  | cons {s s' s'' : RangeInclusiveSet K} {q : RangeInclusive K} {l : List (RangeInclusive K)} :
      IToggle S s q s' → IToggled S s' l s'' → IToggled S s (q :: l) s''

/-- `Reserved` for inclusive sets. -/
inductive IReserved (S : StepFns K) : RangeInclusiveSet K → List (RangeInclusive K) →
    List (RangeInclusive K) → RangeInclusiveSet K → Prop
  | nil (s : RangeInclusiveSet K) : IReserved S s [] [] s
  | granted {s s' s'' : RangeInclusiveSet K} {q : RangeInclusive K}
      {l a : List (RangeInclusive K)} :
      s.overlaps q = .ok false → s.insert S q = .ok s' → IReserved S s' l a s'' →
      IReserved S s (q :: l) (q :: a) s''
  | refused {s s'' : RangeInclusiveSet K} {q : RangeInclusive K} {l a : List (RangeInclusive K)} :
      s.overlaps q = .ok true → IReserved S s l a s'' → IReserved S s (q :: l) a s''

/-- `serve` for inclusive ranges. -/
def iserve (a : List (RangeInclusive K)) : List (RangeInclusive K) → List (RangeInclusive K)
  | [] => []
  | q :: l =>
    if a.any fun r => decide (q.start ≤ r.stop ∧ r.start ≤ q.stop) then iserve a l
    else q :: iserve (q :: a) l

end Inclusive
end Verif.Spec

namespace Verif.Props
open Spec RangeSet
variable {K : Type} [LE K] [LT K] [DecidableLE K] [DecidableLT K]
  [Std.IsLinearPreorder K] [Std.LawfulOrderLT K]

/-- **C108** Toggling a non-empty range never panics, and then contains exactly the keys of the
range that were not in the set and the keys outside the range that were. -/
theorem C108_toggle {s : RangeSet K} (hs : Reachable s) {q : Range K} (hq : q.start < q.stop) :
    ∃ s', Toggle s q s' ∧ Reachable s' ∧ ∀ k, ∃ x, s.contains k = .ok x ∧
      s'.contains k = .ok (x != decide (q.start ≤ k ∧ k < q.stop)) := by
  obtain ⟨g, l, h1, h2, h3, -, h5⟩ := C48_gaps hs q
  obtain ⟨s1, i1⟩ := remove_ok hs.wf hq
  have r1 := hs.remove i1
  obtain ⟨h6, h7, h8⟩ := extend_has l r1.wf fun r hr => (h3 r hr).1
  generalize he : s1.extend l = e at h6 h7 h8
  obtain ⟨s', x⟩ := e
  subst h6
  have r' : Reachable s' := .of_wf h7
  refine ⟨s', ⟨g, l, s1, h1, h2, i1, he⟩, r', fun k => ⟨_, contains_eq hs.wf k, ?_⟩⟩
  rw [contains_eq r'.wf, show s'.has k = _ from h8 k, (remove_has hs.wf i1 k).2.2]
  have := h5 k
  rw [contains_eq hs.wf, Except.ok.injEq] at this
  have h9 : l.any (covers · k) = (decide (q.start ≤ k ∧ k < q.stop) && !s.has k) := by
    rw [Bool.eq_iff_iff, Bool.and_eq_true, List.any_eq_true, decide_eq_true_eq]
    simp only [covers, decide_eq_true_eq, this]
    simp [and_assoc]
  rw [h9]
  show Except.ok (_ || (!decide (q.start ≤ k ∧ k < q.stop) && _)) = _
  cases decide (q.start ≤ k ∧ k < q.stop) <;> cases s.has k <;> rfl

example := C108_toggle (K := Nat) (s := Demo.set) Demo.set_reachable (q := ⟨2, 22⟩) (by decide)

/-- The calls that toggle a range determine the set they end with. -/
theorem toggle_unique {s s1 s2 : RangeSet K} {q : Range K} (h1 : Toggle s q s1)
    (h2 : Toggle s q s2) : s1 = s2 := by
  obtain ⟨g, l, t, a1, a2, a3, a4⟩ := h1
  obtain ⟨g', l', t', b1, b2, b3, b4⟩ := h2
  rw [a1] at b1; cases b1
  rw [a3] at b3; cases b3
  cases Yields.unique a2 b2
  rw [a4] at b4
  cases b4
  rfl

/-- **C108** The even-odd rule: whatever non-empty ranges are toggled, every call succeeds. -/
theorem C108_total (l : List (Range K)) (hl : ∀ q ∈ l, q.start < q.stop) {s : RangeSet K}
    (hs : Reachable s) : ∃ s', Toggled s l s' ∧ Reachable s' := by
  induction l generalizing s with
  | nil => exact ⟨s, .nil s, hs⟩
  | cons q l ih =>
    obtain ⟨s', h1, h2, -⟩ := C108_toggle hs (hl q (.head _))
    obtain ⟨s'', h3, h4⟩ := ih (fun x hx => hl x (.tail _ hx)) h2
    exact ⟨s'', .cons h1 h3, h4⟩

example := C108_total (K := Nat) [⟨2, 9⟩, ⟨5, 12⟩, ⟨2, 30⟩] (by decide) Demo.set_reachable

/-- **C108** Afterwards a key is in the set iff its being there before and the number of ranges that
cover it say so: an even number leaves it as it was, an odd number does not. -/
theorem C108_even_odd {s s' : RangeSet K} (hs : Reachable s) {l : List (Range K)}
    (hl : ∀ q ∈ l, q.start < q.stop) (h : Toggled s l s') :
    Reachable s' ∧ ∀ k, ∃ x, s.contains k = .ok x ∧ s'.contains k =
      .ok (x != decide ((l.countP fun q => decide (q.start ≤ k ∧ k < q.stop)) % 2 = 1)) := by
  induction h with
  | nil s => exact ⟨hs, fun k => ⟨_, contains_eq hs.wf k, by rw [contains_eq hs.wf]; simp⟩⟩
  | @cons s s1 s2 q l h1 h2 ih =>
    obtain ⟨s1', i1, i2, i3⟩ := C108_toggle hs (hl q (.head _))
    cases toggle_unique h1 i1
    obtain ⟨j1, j2⟩ := ih i2 fun x hx => hl x (.tail _ hx)
    refine ⟨j1, fun k => ?_⟩
    obtain ⟨x, k1, k2⟩ := i3 k
    obtain ⟨y, k3, k4⟩ := j2 k
    rw [k2] at k3
    cases k3
    refine ⟨x, k1, ?_⟩
    rw [k4, List.countP_cons]
    congr 1
    by_cases hc : q.start ≤ k ∧ k < q.stop
    · simp only [hc, and_self, decide_true, if_true]
      generalize l.countP _ = n
      rcases Nat.mod_two_eq_zero_or_one n with h | h
      · rw [show (n + 1) % 2 = 1 by omega, h]; cases x <;> rfl
      · rw [show (n + 1) % 2 = 0 by omega, h]; cases x <;> rfl
    · simp [hc]

example : ∃ s : RangeSet Nat, Toggled RangeSet.new [⟨2, 9⟩, ⟨5, 12⟩] s ∧
    s.contains 3 = .ok true ∧ s.contains 7 = .ok false ∧ s.contains 9 = .ok true := by
  obtain ⟨s, h, -⟩ := C108_total (K := Nat) [⟨2, 9⟩, ⟨5, 12⟩] (by decide) (s := RangeSet.new)
    ⟨[], rfl⟩
  have := (C108_even_odd (K := Nat) ⟨[], rfl⟩ (by decide) h).2
  obtain ⟨_, a, b⟩ := this 3
  obtain ⟨_, c, d⟩ := this 7
  obtain ⟨_, e, f⟩ := this 9
  cases a; cases c; cases e
  exact ⟨s, h, b, d, f⟩

/-- **C108** The order of the ranges does not matter. -/
theorem C108_order {s s1 s2 : RangeSet K} (hs : Reachable s) {l l' : List (Range K)}
    (hl : ∀ q ∈ l, q.start < q.stop) (hp : l.Perm l') (h1 : Toggled s l s1)
    (h2 : Toggled s l' s2) : s1.eq s2 = true := by
  obtain ⟨i1, i2⟩ := C108_even_odd hs hl h1
  obtain ⟨j1, j2⟩ := C108_even_odd hs (fun q hq => hl q (hp.mem_iff.2 hq)) h2
  refine (C35_eq_iff i1 j1).2 fun k => ?_
  obtain ⟨x, a, b⟩ := i2 k
  obtain ⟨y, c, d⟩ := j2 k
  rw [a] at c
  cases c
  rw [b, d, hp.countP_eq]

example : ∃ s1 s2 : RangeSet Nat, Toggled Demo.set [⟨2, 9⟩, ⟨5, 12⟩] s1 ∧
    Toggled Demo.set [⟨5, 12⟩, ⟨2, 9⟩] s2 ∧ s1.eq s2 = true := by
  obtain ⟨s, h, -⟩ := C108_total (K := Nat) [⟨2, 9⟩, ⟨5, 12⟩] (by decide) Demo.set_reachable
  obtain ⟨s', h', -⟩ := C108_total (K := Nat) [⟨5, 12⟩, ⟨2, 9⟩] (by decide) Demo.set_reachable
  exact ⟨s, s', h, h', C108_order Demo.set_reachable (by decide) (.swap _ _ _) h h'⟩

/-- **C108** Toggling a range twice gives a set `==` to the one before. -/
theorem C108_twice {s s' : RangeSet K} (hs : Reachable s) {q : Range K} (hq : q.start < q.stop)
    (h : Toggled s [q, q] s') : s'.eq s = true := by
  obtain ⟨i1, i2⟩ := C108_even_odd hs (by simpa using hq) h
  refine (C35_eq_iff i1 hs).2 fun k => ?_
  obtain ⟨x, a, b⟩ := i2 k
  rw [b, a]
  by_cases hc : q.start ≤ k ∧ k < q.stop <;> simp [List.countP_cons, hc]

example : ∃ s : RangeSet Nat, Toggled Demo.set [⟨2, 9⟩, ⟨2, 9⟩] s ∧ s.eq Demo.set = true := by
  obtain ⟨s, h, -⟩ := C108_total (K := Nat) [⟨2, 9⟩, ⟨2, 9⟩] (by decide) Demo.set_reachable
  exact ⟨s, h, C108_twice Demo.set_reachable (by decide) h⟩

/-- **C108** Toggling the ranges of a set `b` one after another gives the symmetric difference with
`b`. -/
theorem C108_symmetric_difference {a b s : RangeSet K} (ha : Reachable a) (hb : Reachable b)
    (h : Toggled a b.iter s) : Reachable s ∧ ∀ k, ∃ x y, a.contains k = .ok x ∧
      b.contains k = .ok y ∧ s.contains k = .ok (x != y) := by
  obtain ⟨b1, b2⟩ := (reachable_iff b).1 hb
  obtain ⟨i1, i2⟩ := C108_even_odd ha b1 h
  refine ⟨i1, fun k => ?_⟩
  obtain ⟨x, j1, j2⟩ := i2 k
  refine ⟨x, _, j1, contains_eq hb.wf k, ?_⟩
  rw [j2]
  congr 2
  have hc : ∀ l : List (Range K), l.Pairwise (fun a b => a.stop < b.start) →
      (∀ r ∈ l, r.start < r.stop) →
      (l.countP fun q => decide (q.start ≤ k ∧ k < q.stop)) =
        if l.any (covers · k) then 1 else 0 := by
    intro l
    induction l with
    | nil => intro _ _; rfl
    | cons r l ih =>
      intro hp hv
      obtain ⟨p1, p2⟩ := List.pairwise_cons.1 hp
      rw [List.countP_cons, ih p2 fun x hx => hv x (.tail _ hx), List.any_cons]
      by_cases hr : r.start ≤ k ∧ k < r.stop
      · have : l.any (covers · k) = false := by
          rw [List.any_eq_false]
          intro x hx
          have := p1 x hx
          simp only [covers, decide_eq_true_eq]
          grind
        rw [this, show covers r k = true from decide_eq_true hr]
        simp [hr]
      · rw [show covers r k = false from decide_eq_false hr]
        simp [hr]
  rw [hc b.iter b2 b1, has]
  cases b.iter.any (covers · k) <;> rfl

example : ∃ s : RangeSet Nat, Toggled Demo.set Demo.set'.iter s ∧ Reachable s := by
  obtain ⟨s, h, -⟩ := C108_total (K := Nat) Demo.set'.iter (by decide) Demo.set_reachable
  exact ⟨s, h, (C108_symmetric_difference Demo.set_reachable Demo.set'_reachable h).1⟩

/-- `overlaps` in terms of any list of ranges that cover the same keys. -/
theorem overlaps_of {s : RangeSet K} (hs : Reachable s) {a : List (Range K)}
    (ha : ∀ r ∈ a, r.start < r.stop) (hk : ∀ k, s.has k = a.any (covers · k)) {q : Range K}
    (hq : q.start < q.stop) :
    s.overlaps q = .ok (a.any fun r => decide (q.start < r.stop ∧ r.start < q.stop)) := by
  obtain ⟨-, -, -, b, h1, h2⟩ := C48_overlapping hs q []
  rw [h1]
  congr 1
  obtain ⟨b1, -⟩ := (reachable_iff s).1 hs
  have key : ∀ r : Range K, r.start < r.stop → ((q.start < r.stop ∧ r.start < q.stop) ↔
      ∃ k, (q.start ≤ k ∧ k < q.stop) ∧ r.start ≤ k ∧ k < r.stop) := by
    intro r hr
    constructor
    · rintro ⟨i1, i2⟩
      by_cases hc : q.start ≤ r.start
      · exact ⟨r.start, ⟨hc, i2⟩, Std.le_refl _, hr⟩
      · exact ⟨q.start, ⟨Std.le_refl _, hq⟩, by grind, i1⟩
    · rintro ⟨k, i1, i2⟩
      grind
  rw [Bool.eq_iff_iff, h2, List.any_eq_true]
  simp only [decide_eq_true_eq]
  have hk' : ∀ k, (∃ r ∈ s.iter, r.start ≤ k ∧ k < r.stop) ↔
      ∃ r ∈ a, r.start ≤ k ∧ k < r.stop := by
    intro k
    rw [← has_iff, hk, List.any_eq_true]
    simp [covers]
  constructor
  · rintro ⟨r, hr, h⟩
    obtain ⟨k, i1, i2⟩ := (key r (b1 r hr)).1 h
    obtain ⟨r', hr', h'⟩ := (hk' k).1 ⟨r, hr, i2⟩
    exact ⟨r', hr', (key r' (ha r' hr')).2 ⟨k, i1, h'⟩⟩
  · rintro ⟨r, hr, h⟩
    obtain ⟨k, i1, i2⟩ := (key r (ha r hr)).1 h
    obtain ⟨r', hr', h'⟩ := (hk' k).2 ⟨r, hr, i2⟩
    exact ⟨r', hr', (key r' (b1 r' hr')).2 ⟨k, i1, h'⟩⟩

theorem reserve_from (l : List (Range K)) (hl : ∀ q ∈ l, q.start < q.stop) :
    ∀ (a : List (Range K)) (s : RangeSet K), Reachable s → (∀ r ∈ a, r.start < r.stop) →
      (∀ k, s.has k = a.any (covers · k)) →
      ∃ s', Reserved s l (serve a l) s' ∧ Reachable s' ∧
        ∀ k, s'.has k = ((serve a l).any (covers · k) || a.any (covers · k)) := by
  induction l with
  | nil => intro a s hs ha hk; exact ⟨s, .nil s, hs, fun k => by simp [serve, hk]⟩
  | cons q l ih =>
    intro a s hs ha hk
    have hq := hl q (.head _)
    have ho := overlaps_of hs ha hk hq
    have hl' := fun x hx => hl x (.tail _ hx)
    by_cases hc : (a.any fun r => decide (q.start < r.stop ∧ r.start < q.stop)) = true
    · rw [hc] at ho
      rw [serve, if_pos hc]
      obtain ⟨s', h1, h2, h3⟩ := ih hl' a s hs ha hk
      exact ⟨s', .refused ho h1, h2, h3⟩
    · rw [Bool.eq_false_iff.2 hc] at ho
      rw [serve, if_neg hc]
      obtain ⟨s1, i1⟩ := insert_ok hs.wf hq
      obtain ⟨s', h1, h2, h3⟩ := ih hl' (q :: a) s1 (hs.insert i1) (by
        intro r hr
        rcases List.mem_cons.1 hr with rfl | hr
        · exact hq
        · exact ha r hr) (fun k => by rw [(insert_has hs.wf i1 k).2.2, hk]; rfl)
      refine ⟨s', .granted ho i1 h1, h2, fun k => ?_⟩
      rw [h3, List.any_cons, List.any_cons]
      cases covers q k <;> simp

theorem serve_spec (l : List (Range K)) : ∀ a : List (Range K),
    (∀ r ∈ serve a l, r ∈ l ∧ ∀ x ∈ a, r.stop ≤ x.start ∨ x.stop ≤ r.start) ∧
    (serve a l).Pairwise (fun r x => r.stop ≤ x.start ∨ x.stop ≤ r.start) ∧
    ∀ q ∈ l, q ∈ serve a l ∨ ∃ r ∈ serve a l ++ a, q.start < r.stop ∧ r.start < q.stop := by
  induction l with
  | nil => intro a; exact ⟨by simp [serve], .nil, by simp⟩
  | cons q l ih =>
    intro a
    by_cases hc : (a.any fun r => decide (q.start < r.stop ∧ r.start < q.stop)) = true
    · rw [serve, if_pos hc]
      obtain ⟨h1, h2, h3⟩ := ih a
      refine ⟨fun r hr => ⟨.tail _ (h1 r hr).1, (h1 r hr).2⟩, h2, fun x hx => ?_⟩
      rcases List.mem_cons.1 hx with rfl | hx
      · obtain ⟨r, hr, h⟩ := List.any_eq_true.1 hc
        exact .inr ⟨r, List.mem_append_right _ hr, by simpa using h⟩
      · exact h3 x hx
    · rw [serve, if_neg hc]
      obtain ⟨h1, h2, h3⟩ := ih (q :: a)
      refine ⟨fun r hr => ?_, List.pairwise_cons.2 ⟨fun r hr => ?_, h2⟩, fun x hx => ?_⟩
      · rcases List.mem_cons.1 hr with rfl | hr
        · refine ⟨.head _, fun x hx => ?_⟩
          have := fun h => hc (List.any_eq_true.2 ⟨x, hx, h⟩)
          simp only [decide_eq_true_eq] at this
          grind
        · exact ⟨.tail _ (h1 r hr).1, fun x hx => (h1 r hr).2 x (.tail _ hx)⟩
      · exact ((h1 r hr).2 q (.head _)).symm
      · rcases List.mem_cons.1 hx with rfl | hx
        · exact .inl (.head _)
        · rcases h3 x hx with h | ⟨r, hr, h⟩
          · exact .inl (.tail _ h)
          · refine .inr ⟨r, ?_, h⟩
            simp only [List.mem_append, List.mem_cons] at hr ⊢
            rcases hr with hr | hr | hr
            · exact .inl (.inr hr)
            · exact .inl (.inl hr)
            · exact .inr hr

/-- **C108** Reserving any non-empty ranges one after another, starting with nothing reserved, never
panics; granted are exactly the requests that share no key with one granted before, and the set
contains exactly their keys.  So no two of those granted have a key in common, and every request
that is not among them shares a key with one that is. -/
theorem C108_reserve (l : List (Range K)) (hl : ∀ q ∈ l, q.start < q.stop) :
    ∃ s, Reserved RangeSet.new l (serve [] l) s ∧ Reachable s ∧
      (∀ k, s.contains k =
        .ok ((serve [] l).any fun r => decide (r.start ≤ k ∧ k < r.stop))) ∧
      (serve [] l).Pairwise (fun r x => r.stop ≤ x.start ∨ x.stop ≤ r.start) ∧
      ∀ q ∈ l, q ∈ serve [] l ∨ ∃ r ∈ serve [] l, q.start < r.stop ∧ r.start < q.stop := by
  obtain ⟨s, h1, h2, h3⟩ := reserve_from l hl [] RangeSet.new ⟨[], rfl⟩ (by simp) (fun k => rfl)
  obtain ⟨-, i2, i3⟩ := serve_spec l []
  refine ⟨s, h1, h2, fun k => ?_, i2, by simpa using i3⟩
  rw [contains_eq h2.wf, h3]
  simp [covers]

example := C108_reserve (K := Nat) [⟨2, 9⟩, ⟨5, 12⟩, ⟨9, 10⟩, ⟨0, 3⟩, ⟨0, 2⟩] (by decide)
example : serve [] [⟨2, 9⟩, ⟨5, 12⟩, ⟨9, 10⟩, ⟨0, 3⟩, (⟨0, 2⟩ : Range Nat)] =
    [⟨2, 9⟩, ⟨9, 10⟩, ⟨0, 2⟩] := by decide

/-- **C108** The calls determine what is granted and the set. -/
theorem C108_reserve_unique {s s1 s2 : RangeSet K} {l a1 a2 : List (Range K)}
    (h1 : Reserved s l a1 s1) (h2 : Reserved s l a2 s2) : a1 = a2 ∧ s1 = s2 := by
  induction h1 generalizing a2 with
  | nil s => cases h2; exact ⟨rfl, rfl⟩
  | granted i1 i2 i3 ih =>
    cases h2 with
    | granted j1 j2 j3 =>
      rw [i2] at j2
      cases j2
      obtain ⟨rfl, rfl⟩ := ih j3
      exact ⟨rfl, rfl⟩
    | refused j1 j2 => rw [i1] at j1; cases j1
  | refused i1 i2 ih =>
    cases h2 with
    | granted j1 j2 j3 => rw [i1] at j1; cases j1
    | refused j1 j2 => exact ih j2

example : ∃ (a : List (Range Nat)) (s : RangeSet Nat),
    Reserved RangeSet.new [⟨2, 9⟩, ⟨5, 12⟩, ⟨9, 10⟩] a s ∧
    ∀ a' s', Reserved RangeSet.new [⟨2, 9⟩, ⟨5, 12⟩, ⟨9, 10⟩] a' s' → a' = a ∧ s' = s := by
  obtain ⟨s, h, -⟩ := C108_reserve (K := Nat) [⟨2, 9⟩, ⟨5, 12⟩, ⟨9, 10⟩] (by decide)
  exact ⟨_, s, h, fun a' s' h' => C108_reserve_unique h' h⟩

end Verif.Props

namespace Verif.Props.Inclusive
open Spec RangeInclusiveSet
variable {K : Type} [LE K] [LT K] [DecidableLE K] [DecidableLT K]
  [Std.IsLinearPreorder K] [Std.LawfulOrderLT K] {S : StepFns K}

/-- **C108** Toggling a non-empty range never panics, and then contains exactly the keys of the
range that were not in the set and the keys outside the range that were. -/
theorem C108_toggle (hS : LawfulSteps S) {s : RangeInclusiveSet K} (hs : Reachable S s)
    {q : RangeInclusive K} (hq : q.start ≤ q.stop) :
    ∃ s', IToggle S s q s' ∧ Reachable S s' ∧ ∀ k, ∃ x, s.contains k = .ok x ∧
      s'.contains k = .ok (x != decide (q.start ≤ k ∧ k ≤ q.stop)) := by
  obtain ⟨g, l, h1, h2, h3, -, h5⟩ := C48_gaps hS hs q
  obtain ⟨s1, i1⟩ := remove_ok hS (hs.wf hS).sc hq
  have r1 := hs.remove hS i1
  obtain ⟨h6, h7, h8⟩ := extend_has hS l (r1.wf hS) fun r hr =>
    ⟨(h3 r hr).1, (h3 r hr).2.1⟩
  generalize he : s1.extend S l = e at h6 h7 h8
  obtain ⟨s', x⟩ := e
  subst h6
  have r' : Reachable S s' := .of_wf hS h7
  refine ⟨s', ⟨g, l, s1, h1, h2, i1, he⟩, r', fun k => ⟨_, contains_eq (hs.wf hS) k, ?_⟩⟩
  rw [contains_eq (r'.wf hS), show s'.has k = _ from h8 k, (remove_has hS (hs.wf hS) i1 k).2.2]
  have := h5 k
  rw [contains_eq (hs.wf hS), Except.ok.injEq] at this
  have h9 : l.any (icovers · k) = (decide (q.start ≤ k ∧ k ≤ q.stop) && !s.has k) := by
    rw [Bool.eq_iff_iff, Bool.and_eq_true, List.any_eq_true, decide_eq_true_eq]
    simp only [icovers, decide_eq_true_eq, this]
    simp [and_assoc]
  rw [h9]
  show Except.ok (_ || (!decide (q.start ≤ k ∧ k ≤ q.stop) && _)) = _
  cases decide (q.start ≤ k ∧ k ≤ q.stop) <;> cases s.has k <;> rfl

example := Inclusive.C108_toggle (K := UIntW 8) (S := Demo.u8) Demo.u8_lawful (s := Demo.iset)
    Demo.iset_reachable (q := Demo.by8 2 22) (by decide)

/-- The calls that toggle a range determine the set they end with. -/
theorem toggle_unique {s s1 s2 : RangeInclusiveSet K} {q : RangeInclusive K} (h1 : IToggle S s q s1)
    (h2 : IToggle S s q s2) : s1 = s2 := by
  obtain ⟨g, l, t, a1, a2, a3, a4⟩ := h1
  obtain ⟨g', l', t', b1, b2, b3, b4⟩ := h2
  rw [a1] at b1; cases b1
  rw [a3] at b3; cases b3
  cases YieldsE.unique a2 b2
  rw [a4] at b4
  cases b4
  rfl

/-- **C108** The even-odd rule: whatever non-empty ranges are toggled, every call succeeds. -/
theorem C108_total (hS : LawfulSteps S) (l : List (RangeInclusive K))
    (hl : ∀ q ∈ l, q.start ≤ q.stop) {s : RangeInclusiveSet K}
    (hs : Reachable S s) : ∃ s', IToggled S s l s' ∧ Reachable S s' := by
  induction l generalizing s with
  | nil => exact ⟨s, .nil s, hs⟩
  | cons q l ih =>
    obtain ⟨s', h1, h2, -⟩ := C108_toggle hS hs (hl q (.head _))
    obtain ⟨s'', h3, h4⟩ := ih (fun x hx => hl x (.tail _ hx)) h2
    exact ⟨s'', .cons h1 h3, h4⟩

example := Inclusive.C108_total (K := UIntW 8) (S := Demo.u8) Demo.u8_lawful
    [Demo.by8 2 9, Demo.by8 5 12, Demo.by8 2 255] (by decide) Demo.iset_reachable

/-- **C108** Afterwards a key is in the set iff its being there before and the number of ranges that
cover it say so: an even number leaves it as it was, an odd number does not. -/
theorem C108_even_odd (hS : LawfulSteps S) {s s' : RangeInclusiveSet K} (hs : Reachable S s)
    {l : List (RangeInclusive K)}
    (hl : ∀ q ∈ l, q.start ≤ q.stop) (h : IToggled S s l s') :
    Reachable S s' ∧ ∀ k, ∃ x, s.contains k = .ok x ∧ s'.contains k =
      .ok (x != decide ((l.countP fun q => decide (q.start ≤ k ∧ k ≤ q.stop)) % 2 = 1)) := by
  induction h with
  | nil s => exact ⟨hs, fun k =>
      ⟨_, contains_eq (hs.wf hS) k, by rw [contains_eq (hs.wf hS)]; simp⟩⟩
  | @cons s s1 s2 q l h1 h2 ih =>
    obtain ⟨s1', i1, i2, i3⟩ := C108_toggle hS hs (hl q (.head _))
    cases toggle_unique h1 i1
    obtain ⟨j1, j2⟩ := ih i2 fun x hx => hl x (.tail _ hx)
    refine ⟨j1, fun k => ?_⟩
    obtain ⟨x, k1, k2⟩ := i3 k
    obtain ⟨y, k3, k4⟩ := j2 k
    rw [k2] at k3
    cases k3
    refine ⟨x, k1, ?_⟩
    rw [k4, List.countP_cons]
    congr 1
    by_cases hc : q.start ≤ k ∧ k ≤ q.stop
    · simp only [hc, and_self, decide_true, if_true]
      generalize l.countP _ = n
      rcases Nat.mod_two_eq_zero_or_one n with h | h
      · rw [show (n + 1) % 2 = 1 by omega, h]; cases x <;> rfl
      · rw [show (n + 1) % 2 = 0 by omega, h]; cases x <;> rfl
    · simp [hc]

example : ∃ s : RangeInclusiveSet (UIntW 8),
    IToggled Demo.u8 RangeInclusiveSet.new [Demo.by8 2 9, Demo.by8 5 255] s ∧
    s.contains ⟨3⟩ = .ok true ∧ s.contains ⟨7⟩ = .ok false ∧ s.contains ⟨255⟩ = .ok true := by
  obtain ⟨s, h, -⟩ := Inclusive.C108_total (K := UIntW 8) Demo.u8_lawful
    [Demo.by8 2 9, Demo.by8 5 255] (by decide) (s := RangeInclusiveSet.new) ⟨[], by simp, rfl⟩
  have := (Inclusive.C108_even_odd (K := UIntW 8) Demo.u8_lawful ⟨[], by simp, rfl⟩ (by decide) h).2
  obtain ⟨_, a, b⟩ := this ⟨3⟩
  obtain ⟨_, c, d⟩ := this ⟨7⟩
  obtain ⟨_, e, f⟩ := this ⟨255⟩
  cases a; cases c; cases e
  exact ⟨s, h, b, d, f⟩

/-- **C108** The order of the ranges does not matter. -/
theorem C108_order (hS : LawfulSteps S) {s s1 s2 : RangeInclusiveSet K} (hs : Reachable S s)
    {l l' : List (RangeInclusive K)}
    (hl : ∀ q ∈ l, q.start ≤ q.stop) (hp : l.Perm l') (h1 : IToggled S s l s1)
    (h2 : IToggled S s l' s2) : s1.eq s2 = true := by
  obtain ⟨i1, i2⟩ := C108_even_odd hS hs hl h1
  obtain ⟨j1, j2⟩ := C108_even_odd hS hs (fun q hq => hl q (hp.mem_iff.2 hq)) h2
  refine (C36_eq_iff hS i1 j1).2 fun k => ?_
  obtain ⟨x, a, b⟩ := i2 k
  obtain ⟨y, c, d⟩ := j2 k
  rw [a] at c
  cases c
  rw [b, d, hp.countP_eq]

example : ∃ s1 s2 : RangeInclusiveSet (UIntW 8),
    IToggled Demo.u8 Demo.iset [Demo.by8 2 9, Demo.by8 5 255] s1 ∧
    IToggled Demo.u8 Demo.iset [Demo.by8 5 255, Demo.by8 2 9] s2 ∧ s1.eq s2 = true := by
  obtain ⟨s, h, -⟩ := Inclusive.C108_total (K := UIntW 8) Demo.u8_lawful
    [Demo.by8 2 9, Demo.by8 5 255] (by decide) Demo.iset_reachable
  obtain ⟨s', h', -⟩ := Inclusive.C108_total (K := UIntW 8) Demo.u8_lawful
    [Demo.by8 5 255, Demo.by8 2 9] (by decide) Demo.iset_reachable
  exact ⟨s, s', h, h', Inclusive.C108_order Demo.u8_lawful Demo.iset_reachable (by decide)
    (.swap _ _ _) h h'⟩

/-- **C108** Toggling a range twice gives a set `==` to the one before. -/
theorem C108_twice (hS : LawfulSteps S) {s s' : RangeInclusiveSet K} (hs : Reachable S s)
    {q : RangeInclusive K} (hq : q.start ≤ q.stop)
    (h : IToggled S s [q, q] s') : s'.eq s = true := by
  obtain ⟨i1, i2⟩ := C108_even_odd hS hs (by simpa using hq) h
  refine (C36_eq_iff hS i1 hs).2 fun k => ?_
  obtain ⟨x, a, b⟩ := i2 k
  rw [b, a]
  by_cases hc : q.start ≤ k ∧ k ≤ q.stop <;> simp [List.countP_cons, hc]

example : ∃ s : RangeInclusiveSet (UIntW 8),
    IToggled Demo.u8 Demo.iset [Demo.by8 2 9, Demo.by8 2 9] s ∧ s.eq Demo.iset = true := by
  obtain ⟨s, h, -⟩ := Inclusive.C108_total (K := UIntW 8) Demo.u8_lawful
    [Demo.by8 2 9, Demo.by8 2 9] (by decide) Demo.iset_reachable
  exact ⟨s, h, Inclusive.C108_twice Demo.u8_lawful Demo.iset_reachable (by decide) h⟩

/-- **C108** Toggling the ranges of a set `b` one after another gives the symmetric difference with
`b`. -/
theorem C108_symmetric_difference (hS : LawfulSteps S) {a b s : RangeInclusiveSet K}
    (ha : Reachable S a) (hb : Reachable S b)
    (h : IToggled S a b.iter s) : Reachable S s ∧ ∀ k, ∃ x y, a.contains k = .ok x ∧
      b.contains k = .ok y ∧ s.contains k = .ok (x != y) := by
  obtain ⟨b1, b2⟩ := (reachable_iff hS b).1 hb
  obtain ⟨i1, i2⟩ := C108_even_odd hS ha (fun r hr => (b1 r hr).1) h
  refine ⟨i1, fun k => ?_⟩
  obtain ⟨x, j1, j2⟩ := i2 k
  refine ⟨x, _, j1, contains_eq (hb.wf hS) k, ?_⟩
  rw [j2]
  congr 2
  have hc : ∀ l : List (RangeInclusive K), 
      l.Pairwise (fun a b => a.stop < b.start ∧ ¬ Next a.stop b.start) →
      (∀ r ∈ l, r.start ≤ r.stop) →
      (l.countP fun q => decide (q.start ≤ k ∧ k ≤ q.stop)) =
        if l.any (icovers · k) then 1 else 0 := by
    intro l
    induction l with
    | nil => intro _ _; rfl
    | cons r l ih =>
      intro hp hv
      obtain ⟨p1, p2⟩ := List.pairwise_cons.1 hp
      rw [List.countP_cons, ih p2 fun x hx => hv x (.tail _ hx), List.any_cons]
      by_cases hr : r.start ≤ k ∧ k ≤ r.stop
      · have : l.any (icovers · k) = false := by
          rw [List.any_eq_false]
          intro x hx
          have := (p1 x hx).1
          simp only [icovers, decide_eq_true_eq]
          grind
        rw [this, show icovers r k = true from decide_eq_true hr]
        simp [hr]
      · rw [show icovers r k = false from decide_eq_false hr]
        simp [hr]
  rw [hc b.iter b2 fun r hr => (b1 r hr).1, has]
  cases b.iter.any (icovers · k) <;> rfl

example : ∃ s : RangeInclusiveSet (UIntW 8),
    IToggled Demo.u8 Demo.iset Demo.iset'.iter s ∧ Reachable Demo.u8 s := by
  obtain ⟨s, h, -⟩ := Inclusive.C108_total (K := UIntW 8) Demo.u8_lawful Demo.iset'.iter (by decide)
    Demo.iset_reachable
  exact ⟨s, h, (Inclusive.C108_symmetric_difference Demo.u8_lawful Demo.iset_reachable
    Demo.iset'_reachable h).1⟩

/-- `overlaps` in terms of any list of ranges that cover the same keys. -/
theorem overlaps_of (hS : LawfulSteps S)
    {s : RangeInclusiveSet K} (hs : Reachable S s) {a : List (RangeInclusive K)}
    (ha : ∀ r ∈ a, r.start ≤ r.stop) (hk : ∀ k, s.has k = a.any (icovers · k))
    {q : RangeInclusive K} (hq : q.start ≤ q.stop) :
    s.overlaps q = .ok (a.any fun r => decide (q.start ≤ r.stop ∧ r.start ≤ q.stop)) := by
  obtain ⟨-, -, -, b, h1, h2⟩ := C48_overlapping hS hs.any q []
  rw [h1]
  congr 1
  obtain ⟨b1, -⟩ := (reachable_iff hS s).1 hs
  have key : ∀ r : RangeInclusive K, r.start ≤ r.stop → ((q.start ≤ r.stop ∧ r.start ≤ q.stop) ↔
      ∃ k, (q.start ≤ k ∧ k ≤ q.stop) ∧ r.start ≤ k ∧ k ≤ r.stop) := by
    intro r hr
    constructor
    · rintro ⟨i1, i2⟩
      by_cases hc : q.start ≤ r.start
      · exact ⟨r.start, ⟨hc, i2⟩, Std.le_refl _, hr⟩
      · exact ⟨q.start, ⟨Std.le_refl _, hq⟩, by grind, i1⟩
    · rintro ⟨k, i1, i2⟩
      grind
  rw [Bool.eq_iff_iff, h2, List.any_eq_true]
  simp only [decide_eq_true_eq]
  have hk' : ∀ k, (∃ r ∈ s.iter, r.start ≤ k ∧ k ≤ r.stop) ↔
      ∃ r ∈ a, r.start ≤ k ∧ k ≤ r.stop := by
    intro k
    rw [← has_iff, hk, List.any_eq_true]
    simp [icovers]
  constructor
  · rintro ⟨r, hr, h⟩
    obtain ⟨k, i1, i2⟩ := (key r (b1 r hr).1).1 h
    obtain ⟨r', hr', h'⟩ := (hk' k).1 ⟨r, hr, i2⟩
    exact ⟨r', hr', (key r' (ha r' hr')).2 ⟨k, i1, h'⟩⟩
  · rintro ⟨r, hr, h⟩
    obtain ⟨k, i1, i2⟩ := (key r (ha r hr)).1 h
    obtain ⟨r', hr', h'⟩ := (hk' k).2 ⟨r, hr, i2⟩
    exact ⟨r', hr', (key r' (b1 r' hr').1).2 ⟨k, i1, h'⟩⟩

theorem reserve_from (hS : LawfulSteps S) (l : List (RangeInclusive K))
    (hl : ∀ q ∈ l, q.start ≤ q.stop) (hx : ∀ q ∈ l, q.exhausted = false) :
    ∀ (a : List (RangeInclusive K)) (s : RangeInclusiveSet K), Reachable S s →
      (∀ r ∈ a, r.start ≤ r.stop) →
      (∀ k, s.has k = a.any (icovers · k)) →
      ∃ s', IReserved S s l (iserve a l) s' ∧ Reachable S s' ∧
        ∀ k, s'.has k = ((iserve a l).any (icovers · k) || a.any (icovers · k)) := by
  induction l with
  | nil => intro a s hs ha hk; exact ⟨s, .nil s, hs, fun k => by simp [iserve, hk]⟩
  | cons q l ih =>
    intro a s hs ha hk
    have hq := hl q (.head _)
    have ho := overlaps_of hS hs ha hk hq
    have hl' := fun x hx => hl x (.tail _ hx)
    have hx0 := hx q (.head _)
    have hx' := fun x h => hx x (.tail _ h)
    by_cases hc : (a.any fun r => decide (q.start ≤ r.stop ∧ r.start ≤ q.stop)) = true
    · rw [hc] at ho
      rw [iserve, if_pos hc]
      obtain ⟨s', h1, h2, h3⟩ := ih hl' hx' a s hs ha hk
      exact ⟨s', .refused ho h1, h2, h3⟩
    · rw [Bool.eq_false_iff.2 hc] at ho
      rw [iserve, if_neg hc]
      obtain ⟨s1, i1⟩ := insert_ok hS (hs.wf hS).sc hq
      obtain ⟨s', h1, h2, h3⟩ := ih hl' hx' (q :: a) s1 (hs.insert hS hx0 i1) (by
        intro r hr
        rcases List.mem_cons.1 hr with rfl | hr
        · exact hq
        · exact ha r hr) (fun k => by rw [(insert_has hS (hs.wf hS) hx0 i1 k).2.2, hk]; rfl)
      refine ⟨s', .granted ho i1 h1, h2, fun k => ?_⟩
      rw [h3, List.any_cons, List.any_cons]
      cases icovers q k <;> simp

theorem iserve_spec (l : List (RangeInclusive K)) : ∀ a : List (RangeInclusive K),
    (∀ r ∈ iserve a l, r ∈ l ∧ ∀ x ∈ a, r.stop < x.start ∨ x.stop < r.start) ∧
    (iserve a l).Pairwise (fun r x => r.stop < x.start ∨ x.stop < r.start) ∧
    ∀ q ∈ l, q ∈ iserve a l ∨ ∃ r ∈ iserve a l ++ a, q.start ≤ r.stop ∧ r.start ≤ q.stop := by
  induction l with
  | nil => intro a; exact ⟨by simp [iserve], .nil, by simp⟩
  | cons q l ih =>
    intro a
    by_cases hc : (a.any fun r => decide (q.start ≤ r.stop ∧ r.start ≤ q.stop)) = true
    · rw [iserve, if_pos hc]
      obtain ⟨h1, h2, h3⟩ := ih a
      refine ⟨fun r hr => ⟨.tail _ (h1 r hr).1, (h1 r hr).2⟩, h2, fun x hx => ?_⟩
      rcases List.mem_cons.1 hx with rfl | hx
      · obtain ⟨r, hr, h⟩ := List.any_eq_true.1 hc
        exact .inr ⟨r, List.mem_append_right _ hr, by simpa using h⟩
      · exact h3 x hx
    · rw [iserve, if_neg hc]
      obtain ⟨h1, h2, h3⟩ := ih (q :: a)
      refine ⟨fun r hr => ?_, List.pairwise_cons.2 ⟨fun r hr => ?_, h2⟩, fun x hx => ?_⟩
      · rcases List.mem_cons.1 hr with rfl | hr
        · refine ⟨.head _, fun x hx => ?_⟩
          have := fun h => hc (List.any_eq_true.2 ⟨x, hx, h⟩)
          simp only [decide_eq_true_eq] at this
          grind
        · exact ⟨.tail _ (h1 r hr).1, fun x hx => (h1 r hr).2 x (.tail _ hx)⟩
      · exact ((h1 r hr).2 q (.head _)).symm
      · rcases List.mem_cons.1 hx with rfl | hx
        · exact .inl (.head _)
        · rcases h3 x hx with h | ⟨r, hr, h⟩
          · exact .inl (.tail _ h)
          · refine .inr ⟨r, ?_, h⟩
            simp only [List.mem_append, List.mem_cons] at hr ⊢
            rcases hr with hr | hr | hr
            · exact .inl (.inr hr)
            · exact .inl (.inl hr)
            · exact .inr hr

/-- **C108** Reserving any non-empty ranges one after another, starting with nothing reserved, never
panics; granted are exactly the requests that share no key with one granted before, and the set
contains exactly their keys.  So no two of those granted have a key in common, and every request
that is not among them shares a key with one that is. -/
theorem C108_reserve (hS : LawfulSteps S) (l : List (RangeInclusive K))
    (hl : ∀ q ∈ l, q.start ≤ q.stop) (hx : ∀ q ∈ l, q.exhausted = false) :
    ∃ s, IReserved S RangeInclusiveSet.new l (iserve [] l) s ∧ Reachable S s ∧
      (∀ k, s.contains k =
        .ok ((iserve [] l).any fun r => decide (r.start ≤ k ∧ k ≤ r.stop))) ∧
      (iserve [] l).Pairwise (fun r x => r.stop < x.start ∨ x.stop < r.start) ∧
      ∀ q ∈ l, q ∈ iserve [] l ∨ ∃ r ∈ iserve [] l, q.start ≤ r.stop ∧ r.start ≤ q.stop := by
  obtain ⟨s, h1, h2, h3⟩ := reserve_from hS l hl hx [] RangeInclusiveSet.new ⟨[], by simp, rfl⟩
    (by simp) (fun k => rfl)
  obtain ⟨-, i2, i3⟩ := iserve_spec l []
  refine ⟨s, h1, h2, fun k => ?_, i2, by simpa using i3⟩
  rw [contains_eq (h2.wf hS), h3]
  simp [icovers]

example := Inclusive.C108_reserve (K := UIntW 8) (S := Demo.u8) Demo.u8_lawful
    [Demo.by8 2 9, Demo.by8 5 12, Demo.by8 10 255, Demo.by8 0 2, Demo.by8 0 1] (by decide)
    (by decide)
example : iserve [] [Demo.by8 2 9, Demo.by8 5 12, Demo.by8 10 255, Demo.by8 0 2, Demo.by8 0 1] =
    [Demo.by8 2 9, Demo.by8 10 255, Demo.by8 0 1] := by decide

/-- **C108** The calls determine what is granted and the set. -/
theorem C108_reserve_unique {s s1 s2 : RangeInclusiveSet K} {l a1 a2 : List (RangeInclusive K)}
    (h1 : IReserved S s l a1 s1) (h2 : IReserved S s l a2 s2) : a1 = a2 ∧ s1 = s2 := by
  induction h1 generalizing a2 with
  | nil s => cases h2; exact ⟨rfl, rfl⟩
  | granted i1 i2 i3 ih =>
    cases h2 with
    | granted j1 j2 j3 =>
      rw [i2] at j2
      cases j2
      obtain ⟨rfl, rfl⟩ := ih j3
      exact ⟨rfl, rfl⟩
    | refused j1 j2 => rw [i1] at j1; cases j1
  | refused i1 i2 ih =>
    cases h2 with
    | granted j1 j2 j3 => rw [i1] at j1; cases j1
    | refused j1 j2 => exact ih j2

example : ∃ (a : List (RangeInclusive (UIntW 8))) (s : RangeInclusiveSet (UIntW 8)),
    IReserved Demo.u8 RangeInclusiveSet.new [Demo.by8 2 9, Demo.by8 5 12] a s ∧
    ∀ a' s', IReserved Demo.u8 RangeInclusiveSet.new [Demo.by8 2 9, Demo.by8 5 12] a' s' →
      a' = a ∧ s' = s := by
  obtain ⟨s, h, -⟩ := Inclusive.C108_reserve (K := UIntW 8) (S := Demo.u8) Demo.u8_lawful
    [Demo.by8 2 9, Demo.by8 5 12] (by decide) (by decide)
  exact ⟨_, s, h, fun a' s' h' => C108_reserve_unique h' h⟩

end Verif.Props.Inclusive

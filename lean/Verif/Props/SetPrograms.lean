import Verif.Props.Demo
import Verif.Props.Complement

/-!
# C83: programs for sets

What users of the crate write because there is no method for it: difference, symmetric difference,
subset test, test for a common key, filling the gaps of a range.
-/
set_option linter.unusedSectionVars false

namespace Verif.Spec
variable {K : Type} [LE K] [LT K] [DecidableLE K] [DecidableLT K]

/-- `for r in b.iter() { a.remove(r.clone()); }` -/
def subtract (a b : RangeSet K) : Except Panic (RangeSet K) :=
  b.iter.foldlM (fun t r => t.remove r) a

/-- `b.iter().all(|r| a.gaps(r).next().is_none())` -/
def within (b a : RangeSet K) : Except Panic Bool :=
  b.iter.allM fun r => do return (← a.gaps r).next.1.isNone

/-- `b.iter().any(|r| a.overlaps(r))` -/
def meets (b a : RangeSet K) : Except Panic Bool := b.iter.anyM fun r => a.overlaps r

end Verif.Spec

namespace Verif.Props
open Spec RangeSet
variable {K : Type} [LE K] [LT K] [DecidableLE K] [DecidableLT K]
  [Std.IsLinearPreorder K] [Std.LawfulOrderLT K]

theorem removes_has : ∀ (l : List (Range K)) (t : RangeSet K), Reachable t →
    (∀ r ∈ l, r.start < r.stop) →
    ∃ d, l.foldlM (fun t r => t.remove r) t = .ok d ∧ Reachable d ∧
      ∀ k, d.has k = (t.has k && !l.any (covers · k)) := by
  intro l
  induction l with
  | nil => intro t ht _; exact ⟨t, rfl, ht, fun k => by simp⟩
  | cons r l ih =>
    intro t ht hv
    obtain ⟨t', h1⟩ := remove_ok ht.wf (hv r (by simp))
    obtain ⟨d, h2, h3, h4⟩ := ih t' (ht.remove h1) fun x hx => hv x (by simp [hx])
    refine ⟨d, by rw [List.foldlM_cons, h1]; exact h2, h3, fun k => ?_⟩
    rw [h4, (remove_has ht.wf h1 k).2.2, List.any_cons]
    cases covers r k <;> cases t.has k <;> simp

theorem iter_valid {s : RangeSet K} (hs : Reachable s) : ∀ r ∈ s.iter, r.start < r.stop :=
  ((reachable_iff s).1 hs).1

theorem subtract_has {a b : RangeSet K} (ha : Reachable a) (hb : Reachable b) :
    ∃ d, subtract a b = .ok d ∧ Reachable d ∧ ∀ k, d.has k = (a.has k && !b.has k) :=
  removes_has b.iter a ha (iter_valid hb)

/-- **C83** Removing every range of `b` from `a` never panics and gives the difference. -/
theorem C83_difference {a b : RangeSet K} (ha : Reachable a) (hb : Reachable b) :
    ∃ d, subtract a b = .ok d ∧ Reachable d ∧ ∀ k, ∃ x y, a.contains k = .ok x ∧
      b.contains k = .ok y ∧ d.contains k = .ok (x && !y) := by
  obtain ⟨d, h1, h2, h3⟩ := subtract_has ha hb
  refine ⟨d, h1, h2, fun k => ⟨_, _, contains_eq ha.wf k, contains_eq hb.wf k, ?_⟩⟩
  rw [contains_eq h2.wf, h3]

example := C83_difference (K := Nat) (a := Demo.set) (b := Demo.set') Demo.set_reachable
    Demo.set'_reachable

/-- **C83** `a | b` less `a & b` is the symmetric difference, and so are the two differences
together. -/
theorem C83_symmetric_difference {a b : RangeSet K} (ha : Reachable a) (hb : Reachable b) :
    ∃ u i d x y e, a.bitOr b = .ok u ∧ a.bitAnd b = .ok i ∧ subtract u i = .ok d ∧
      subtract a b = .ok x ∧ subtract b a = .ok y ∧ x.bitOr y = .ok e ∧ Reachable d ∧
      (∀ k, ∃ p q, a.contains k = .ok p ∧ b.contains k = .ok q ∧
        d.contains k = .ok (p != q)) ∧ d.eq e = true := by
  obtain ⟨u, h1, -⟩ := C39_bitor ha hb
  obtain ⟨i, h2, -⟩ := C39_bitand ha hb
  obtain ⟨r1, e1⟩ := or_has ha hb h1
  obtain ⟨r2, e2⟩ := and_has ha hb h2
  obtain ⟨d, h3, r3, e3⟩ := subtract_has r1 r2
  obtain ⟨x, h4, r4, e4⟩ := subtract_has ha hb
  obtain ⟨y, h5, r5, e5⟩ := subtract_has hb ha
  obtain ⟨e, h6, -⟩ := C39_bitor r4 r5
  obtain ⟨r6, e6⟩ := or_has r4 r5 h6
  refine ⟨u, i, d, x, y, e, h1, h2, h3, h4, h5, h6, r3,
    fun k => ⟨_, _, contains_eq ha.wf k, contains_eq hb.wf k, ?_⟩,
    (eq_iff_has r3.wf r6.wf).2 fun k => ?_⟩
  · rw [contains_eq r3.wf, e3, e1, e2]
    cases a.has k <;> cases b.has k <;> rfl
  · rw [e3, e1, e2, e6, e4, e5]
    cases a.has k <;> cases b.has k <;> rfl

example := C83_symmetric_difference (K := Nat) (a := Demo.set) (b := Demo.set') Demo.set_reachable
    Demo.set'_reachable

theorem next_of_yields {S α : Type} {next : S → Option α × S} {s : S} {l : List α}
    (h : Yields next s l) : (next s).1 = l.head? := by
  have := h 1
  cases l <;> simpa [calls] using this

theorem allM_ok {α : Type} (f : α → Except Panic Bool) (p : α → Bool) : ∀ l : List α,
    (∀ x ∈ l, f x = .ok (p x)) → l.allM f = .ok (l.all p)
  | [], _ => rfl
  | x :: l, h => by
    rw [List.allM, h x (by simp), List.all_cons]
    cases hp : p x
    · rfl
    · exact allM_ok f p l fun y hy => h y (by simp [hy])

theorem anyM_ok {α : Type} (f : α → Except Panic Bool) (p : α → Bool) : ∀ l : List α,
    (∀ x ∈ l, f x = .ok (p x)) → l.anyM f = .ok (l.any p)
  | [], _ => rfl
  | x :: l, h => by
    rw [List.anyM, h x (by simp), List.any_cons]
    cases hp : p x
    · exact anyM_ok f p l fun y hy => h y (by simp [hy])
    · rfl

theorem gap_test {s : RangeSet K} (hs : Reachable s) (r : Range K) :
    ∃ g, s.gaps r = .ok g ∧
      (g.next.1.isNone = true ↔ ∀ k, r.start ≤ k → k < r.stop → s.has k = true) := by
  obtain ⟨g, l, h1, h2, h3, -, h4⟩ := C48_gaps hs r
  refine ⟨g, h1, ?_⟩
  rw [next_of_yields h2]
  cases l with
  | nil =>
    simp only [List.head?_nil, Option.isNone_none, true_iff]
    intro k k1 k2
    have := h4 k
    rw [contains_eq hs.wf] at this
    cases hk : s.has k
    · obtain ⟨r, hr, -⟩ := this.2 ⟨k1, k2, by rw [hk]⟩
      cases hr
    · rfl
  | cons x l =>
    simp only [List.head?_cons, Option.isNone_some, Bool.false_eq_true, false_iff]
    intro h
    have hx := (h3 x (by simp)).1
    obtain ⟨k1, k2, k3⟩ := (h4 x.start).1 ⟨x, by simp, Std.le_refl _, hx⟩
    rw [contains_eq hs.wf, h _ k1 k2] at k3
    cases k3

/-- **C83** Asking for each range of `b` whether `gaps` of `a` yields anything in it decides whether
`b` is a subset of `a`. -/
theorem C83_subset {a b : RangeSet K} (ha : Reachable a) (hb : Reachable b) :
    ∃ x, within b a = .ok x ∧
      (x = true ↔ ∀ k, b.contains k = .ok true → a.contains k = .ok true) := by
  have h : ∀ r ∈ b.iter, (do return (← a.gaps r).next.1.isNone : Except Panic Bool) =
      .ok ((a.gaps r).toOption.any fun g => g.next.1.isNone) := by
    intro r _
    obtain ⟨g, h1, -⟩ := gap_test ha r
    rw [h1]
    rfl
  refine ⟨_, allM_ok _ _ b.iter h, ?_⟩
  rw [List.all_eq_true]
  constructor
  · intro h k hk
    rw [contains_eq hb.wf, Except.ok.injEq, has_iff] at hk
    obtain ⟨r, hr, k1, k2⟩ := hk
    obtain ⟨g, h1, h2⟩ := gap_test ha r
    have h3 := h r hr
    rw [h1] at h3
    rw [contains_eq ha.wf, h2.1 h3 k k1 k2]
  · intro h r hr
    obtain ⟨g, h1, h2⟩ := gap_test ha r
    rw [h1]
    refine h2.2 fun k k1 k2 => ?_
    have := h k (by rw [contains_eq hb.wf, (has_iff b k).2 ⟨r, hr, k1, k2⟩])
    rw [contains_eq ha.wf] at this
    exact Except.ok.inj this

example := C83_subset (K := Nat) (a := Demo.set) (b := Demo.set') Demo.set_reachable
    Demo.set'_reachable

/-- **C83** `b` is a subset of `a` exactly when `a | b == a`, and exactly when `a & b == b`. -/
theorem C83_subset_ops {a b u i : RangeSet K} (ha : Reachable a) (hb : Reachable b)
    (hu : a.bitOr b = .ok u) (hi : a.bitAnd b = .ok i) :
    (within b a = .ok true ↔ u.eq a = true) ∧ (within b a = .ok true ↔ i.eq b = true) := by
  obtain ⟨x, h1, h2⟩ := C83_subset ha hb
  obtain ⟨r1, e1⟩ := or_has ha hb hu
  obtain ⟨r2, e2⟩ := and_has ha hb hi
  rw [h1, Except.ok.injEq, h2, eq_iff_has r1.wf ha.wf, eq_iff_has r2.wf hb.wf]
  simp only [contains_eq ha.wf, contains_eq hb.wf, Except.ok.injEq, e1, e2]
  constructor <;> refine forall_congr' fun k => ?_ <;> cases a.has k <;> cases b.has k <;> simp

example := C83_subset_ops (K := Nat) (a := Demo.set) (b := Demo.set') Demo.set_reachable
    Demo.set'_reachable (C39_bitor Demo.set_reachable Demo.set'_reachable).choose_spec.1
    (C39_bitand Demo.set_reachable Demo.set'_reachable).choose_spec.1

/-- **C83** Subsets both ways are `==`. -/
theorem C83_subset_antisymm {a b : RangeSet K} (ha : Reachable a) (hb : Reachable b) :
    (within b a = .ok true ∧ within a b = .ok true) ↔ a.eq b = true := by
  obtain ⟨x, h1, h2⟩ := C83_subset ha hb
  obtain ⟨y, h3, h4⟩ := C83_subset hb ha
  rw [h1, h3, Except.ok.injEq, Except.ok.injEq, h2, h4, eq_iff_has ha.wf hb.wf]
  simp only [contains_eq ha.wf, contains_eq hb.wf, Except.ok.injEq]
  constructor
  · intro h k
    have := h.1 k
    have := h.2 k
    cases ha' : a.has k <;> cases hb' : b.has k <;> simp_all
  · intro h
    exact ⟨fun k => by rw [h k]; exact id, fun k => by rw [h k]; exact id⟩

example := C83_subset_antisymm (K := Nat) (a := Demo.set) (b := Demo.set') Demo.set_reachable
    Demo.set'_reachable

/-- **C83** Three tests for a common key: some range of `b` for which `a.overlaps` is true, a first
range of `intersection`, and `a & b` not empty. -/
theorem C83_common_key {a b : RangeSet K} (ha : Reachable a) (hb : Reachable b) :
    ∃ x i, meets b a = .ok x ∧ a.bitAnd b = .ok i ∧
      (x = true ↔ ∃ k, a.contains k = .ok true ∧ b.contains k = .ok true) ∧
      (a.intersection b).next.1.isSome = x ∧ i.isEmpty = !x := by
  have h : ∀ r ∈ b.iter, a.overlaps r = .ok ((a.overlaps r).toOption.any id) := by
    intro r _
    obtain ⟨o, -, -, y, h1, -⟩ := C48_overlapping ha r []
    rw [h1]
    rfl
  obtain ⟨i, h1, h2, h3, h4⟩ := C39_bitand ha hb
  refine ⟨_, i, anyM_ok _ _ b.iter h, h1, ?_⟩
  have key : b.iter.any (fun r => (a.overlaps r).toOption.any id) = true ↔
      ∃ k, a.contains k = .ok true ∧ b.contains k = .ok true := by
    rw [List.any_eq_true]
    constructor
    · rintro ⟨r, hr, h5⟩
      obtain ⟨o, -, -, y, h6, h7⟩ := C48_overlapping ha r []
      rw [h6] at h5
      obtain ⟨r', hr', h8, h9⟩ := h7.1 h5
      have v := iter_valid hb r hr
      have v' := iter_valid ha r' hr'
      refine ⟨rmax r.start r'.start, ?_, ?_⟩
      · rw [contains_eq ha.wf, (has_iff a _).2 ⟨r', hr', ?_⟩]
        rw [rmax_lt]
        exact ⟨(rmax_le.1 (Std.le_refl _)).2, h8, v'⟩
      · rw [contains_eq hb.wf, (has_iff b _).2 ⟨r, hr, ?_⟩]
        rw [rmax_lt]
        exact ⟨(rmax_le.1 (Std.le_refl _)).1, v, h9⟩
    · rintro ⟨k, h5, h6⟩
      rw [contains_eq ha.wf, Except.ok.injEq, has_iff] at h5
      rw [contains_eq hb.wf, Except.ok.injEq, has_iff] at h6
      obtain ⟨r', hr', h7, h8⟩ := h5
      obtain ⟨r, hr, h9, h10⟩ := h6
      refine ⟨r, hr, ?_⟩
      obtain ⟨o, -, -, y, i1, i2⟩ := C48_overlapping ha r []
      rw [i1]
      exact i2.2 ⟨r', hr', by grind, by grind⟩
  have hemp : i.isEmpty = true ↔ i.iter = [] := (C48_iter i []).2.2.2.1
  have hne : i.iter ≠ [] ↔ ∃ k, a.contains k = .ok true ∧ b.contains k = .ok true := by
    constructor
    · intro hn
      obtain ⟨r, t, ht⟩ := List.exists_cons_of_ne_nil hn
      have hr : r ∈ i.iter := by rw [ht]; simp
      have := iter_valid h2 r hr
      obtain ⟨p, q, i1, i2, i3⟩ := h4 r.start
      rw [contains_eq h2.wf, (has_iff i r.start).2 ⟨r, hr, Std.le_refl _, this⟩] at i3
      have := Except.ok.inj i3
      simp only [Bool.true_eq, Bool.and_eq_true] at this
      exact ⟨r.start, by rw [i1, this.1], by rw [i2, this.2]⟩
    · rintro ⟨k, h5, h6⟩ hn
      obtain ⟨p, q, i1, i2, i3⟩ := h4 k
      rw [h5] at i1
      rw [h6] at i2
      cases i1; cases i2
      rw [contains_eq h2.wf, Except.ok.injEq, Bool.and_self, has_iff, hn] at i3
      obtain ⟨r, hr, -⟩ := i3
      cases hr
  refine ⟨key, ?_, ?_⟩
  · rw [next_of_yields h3, Bool.eq_iff_iff, key, ← hne]
    cases i.iter <;> simp
  · rw [Bool.eq_iff_iff, hemp, Bool.not_eq_true', Bool.eq_false_iff, Ne, key, ← hne, ne_eq,
      Decidable.not_not]

example := C83_common_key (K := Nat) (a := Demo.set) (b := Demo.set') Demo.set_reachable
    Demo.set'_reachable

/-- **C83** Inserting what `gaps(outer)` yields never panics and adds exactly `outer`; from then on
there is no gap in `outer`. -/
theorem C83_fill_gaps {s : RangeSet K} (hs : Reachable s) (outer : Range K) :
    ∃ g l s', s.gaps outer = .ok g ∧ Yields RangeSet.Gaps.next g l ∧ s.extend l = (s', .ok ()) ∧
      Reachable s' ∧
      (∀ k, ∃ x, s.contains k = .ok x ∧
        s'.contains k = .ok (decide (outer.start ≤ k ∧ k < outer.stop) || x)) ∧
      ∃ g', s'.gaps outer = .ok g' ∧ Yields RangeSet.Gaps.next g' [] := by
  obtain ⟨g, l, h1, h2, h3, h4, h5⟩ := C48_gaps hs outer
  obtain ⟨h6, h7, h8⟩ := extend_has l hs.wf fun r hr => (h3 r hr).1
  generalize he : s.extend l = e at h6 h7 h8
  obtain ⟨s', x⟩ := e
  subst h6
  have r' : Reachable s' := .of_wf h7
  have hk : ∀ k, s'.has k = (decide (outer.start ≤ k ∧ k < outer.stop) || s.has k) := by
    intro k
    rw [show s'.has k = _ from h8 k]
    have := h5 k
    rw [contains_eq hs.wf, Except.ok.injEq] at this
    rw [Bool.eq_iff_iff, Bool.or_eq_true, Bool.or_eq_true, List.any_eq_true, decide_eq_true_eq]
    simp only [covers, decide_eq_true_eq, this]
    cases s.has k <;> simp
  refine ⟨g, l, s', h1, h2, he, r', fun k => ⟨_, contains_eq hs.wf k, ?_⟩, ?_⟩
  · rw [contains_eq r'.wf, hk]
  · obtain ⟨g', l', i1, i2, i3, -, i5⟩ := C48_gaps r' outer
    have : l' = [] := by
      rw [List.eq_nil_iff_forall_not_mem]
      intro x hx
      obtain ⟨k1, k2, k3⟩ := (i5 x.start).1 ⟨x, hx, Std.le_refl _, (i3 x hx).1⟩
      rw [contains_eq r'.wf, hk] at k3
      simp [k1, k2] at k3
    exact ⟨g', i1, this ▸ i2⟩

-- `Demo.set` is 0..3, 5..15, 20..40
example : Reachable Demo.set ∧ Reachable Demo.set' := ⟨Demo.set_reachable, Demo.set'_reachable⟩
example : Demo.set.iter = [⟨0, 3⟩, ⟨5, 15⟩, ⟨20, 40⟩] := by rfl
example : (subtract Demo.set ⟨⟨[(⟨2, 7⟩, ()), (⟨10, 12⟩, ()), (⟨14, 25⟩, ())]⟩⟩).toOption.map
    (·.iter) =
    some [⟨0, 2⟩, ⟨7, 10⟩, ⟨12, 14⟩, ⟨25, 40⟩] := by rfl
example : (within ⟨⟨[(⟨1, 3⟩, ()), (⟨5, 6⟩, ())]⟩⟩ Demo.set).toOption = some true ∧
    (within ⟨⟨[(⟨1, 3⟩, ()), (⟨14, 16⟩, ())]⟩⟩ Demo.set).toOption = some false ∧
    (meets ⟨⟨[(⟨3, 5⟩, ()), (⟨15, 20⟩, ())]⟩⟩ Demo.set).toOption = some false ∧
    (meets ⟨⟨[(⟨3, 5⟩, ()), (⟨15, 21⟩, ())]⟩⟩ Demo.set).toOption = some true :=
  ⟨by rfl, by rfl, by rfl, by rfl⟩

end Verif.Props

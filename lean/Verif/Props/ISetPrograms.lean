import Verif.Props.Demo
import Verif.Props.SetPrograms

/-!
# C83 for inclusive sets
-/
set_option linter.unusedSectionVars false

namespace Verif.Spec
variable {K : Type} [LE K] [LT K] [DecidableLE K] [DecidableLT K]

/-- `for r in b.iter() { a.remove(r.clone()); }` -/
def iSubtract (S : StepFns K) (a b : RangeInclusiveSet K) : Except Panic (RangeInclusiveSet K) :=
  b.iter.foldlM (fun t r => t.remove S r) a

/-- `b.iter().all(|r| a.gaps(r).next().is_none())` -/
def iWithin (S : StepFns K) (b a : RangeInclusiveSet K) : Except Panic Bool :=
  b.iter.allM fun r => do return (← (← a.gaps r).next S).1.isNone

/-- `b.iter().any(|r| a.overlaps(r))` -/
def iMeets (b a : RangeInclusiveSet K) : Except Panic Bool := b.iter.anyM fun r => a.overlaps r

end Verif.Spec

namespace Verif.Props.Inclusive
open Spec RangeInclusiveSet
variable {K : Type} [LE K] [LT K] [DecidableLE K] [DecidableLT K]
  [Std.IsLinearPreorder K] [Std.LawfulOrderLT K]
  {S : StepFns K}

theorem removes_has (hS : LawfulSteps S) : ∀ (l : List (RangeInclusive K))
    (t : RangeInclusiveSet K), Reachable S t →
    (∀ r ∈ l, r.start ≤ r.stop) →
    ∃ d, l.foldlM (fun t r => t.remove S r) t = .ok d ∧ Reachable S d ∧
      ∀ k, d.has k = (t.has k && !l.any (icovers · k)) := by
  intro l
  induction l with
  | nil => intro t ht _; exact ⟨t, rfl, ht, fun k => by simp⟩
  | cons r l ih =>
    intro t ht hv
    obtain ⟨t', h1⟩ := remove_ok hS (ht.wf hS).sc (hv r (by simp))
    obtain ⟨d, h2, h3, h4⟩ := ih t' (ht.remove hS h1) fun x hx => hv x (by simp [hx])
    refine ⟨d, by rw [List.foldlM_cons, h1]; exact h2, h3, fun k => ?_⟩
    rw [h4, (remove_has hS (ht.wf hS) h1 k).2.2, List.any_cons]
    cases icovers r k <;> cases t.has k <;> simp

theorem iter_valid (hS : LawfulSteps S) {s : RangeInclusiveSet K} (hs : Reachable S s) : ∀ r ∈
    s.iter, r.start ≤ r.stop :=
  fun r hr => (((reachable_iff hS s).1 hs).1 r hr).1

theorem subtract_has (hS : LawfulSteps S) {a b : RangeInclusiveSet K} (ha : Reachable S a)
    (hb : Reachable S b) :
    ∃ d, iSubtract S a b = .ok d ∧ Reachable S d ∧ ∀ k, d.has k = (a.has k && !b.has k) :=
  removes_has hS b.iter a ha (iter_valid hS hb)

/-- **C83** Removing every range of `b` from `a` never panics and gives the difference. -/
theorem C83_difference (hS : LawfulSteps S) {a b : RangeInclusiveSet K} (ha : Reachable S a)
    (hb : Reachable S b) :
    ∃ d, iSubtract S a b = .ok d ∧ Reachable S d ∧ ∀ k, ∃ x y, a.contains k = .ok x ∧
      b.contains k = .ok y ∧ d.contains k = .ok (x && !y) := by
  obtain ⟨d, h1, h2, h3⟩ := subtract_has hS ha hb
  refine ⟨d, h1, h2, fun k => ⟨_, _, contains_eq (ha.wf hS) k, contains_eq (hb.wf hS) k, ?_⟩⟩
  rw [contains_eq (h2.wf hS), h3]

example := Inclusive.C83_difference (K := UIntW 8) (S := Demo.u8) Demo.u8_lawful
    (a := Demo.iset) (b := Demo.iset') Demo.iset_reachable Demo.iset'_reachable

/-- **C83** `a | b` less `a & b` is the symmetric difference, and so are the two differences
together. -/
theorem C83_symmetric_difference (hS : LawfulSteps S) {a b : RangeInclusiveSet K}
    (ha : Reachable S a) (hb : Reachable S b) :
    ∃ u i d x y e, a.bitOr S b = .ok u ∧ a.bitAnd S b = .ok i ∧ iSubtract S u i = .ok d ∧
      iSubtract S a b = .ok x ∧ iSubtract S b a = .ok y ∧ x.bitOr S y = .ok e ∧ Reachable S d ∧
      (∀ k, ∃ p q, a.contains k = .ok p ∧ b.contains k = .ok q ∧
        d.contains k = .ok (p != q)) ∧ d.eq e = true := by
  obtain ⟨u, h1, -⟩ := C39_bitor hS ha hb
  obtain ⟨i, h2, -⟩ := C39_bitand hS ha hb
  obtain ⟨r1, e1⟩ := or_has hS ha hb h1
  obtain ⟨r2, e2⟩ := and_has hS ha hb h2
  obtain ⟨d, h3, r3, e3⟩ := subtract_has hS r1 r2
  obtain ⟨x, h4, r4, e4⟩ := subtract_has hS ha hb
  obtain ⟨y, h5, r5, e5⟩ := subtract_has hS hb ha
  obtain ⟨e, h6, -⟩ := C39_bitor hS r4 r5
  obtain ⟨r6, e6⟩ := or_has hS r4 r5 h6
  refine ⟨u, i, d, x, y, e, h1, h2, h3, h4, h5, h6, r3,
    fun k => ⟨_, _, contains_eq (ha.wf hS) k, contains_eq (hb.wf hS) k, ?_⟩,
    (eq_iff_has hS (r3.wf hS) (r6.wf hS)).2 fun k => ?_⟩
  · rw [contains_eq (r3.wf hS), e3, e1, e2]
    cases a.has k <;> cases b.has k <;> rfl
  · rw [e3, e1, e2, e6, e4, e5]
    cases a.has k <;> cases b.has k <;> rfl

example := Inclusive.C83_symmetric_difference (K := UIntW 8) (S := Demo.u8) Demo.u8_lawful
    (a := Demo.iset) (b := Demo.iset') Demo.iset_reachable Demo.iset'_reachable

theorem next_of_yieldsE {S α : Type} {next : S → Except Panic (Option α × S)} {s : S} {l : List α}
    (h : YieldsE next s l) : ∃ s', next s = .ok (l.head?, s') := by
  have := h 1
  rw [callsE] at this
  cases h1 : next s with
  | error p => rw [h1] at this; cases this
  | ok x =>
    obtain ⟨a, s'⟩ := x
    rw [h1] at this
    refine ⟨s', ?_⟩
    cases l <;> simp [callsE, Except.map] at this <;> rw [this] <;> rfl

theorem gap_test (hS : LawfulSteps S) {s : RangeInclusiveSet K} (hs : Reachable S s)
    (r : RangeInclusive K) :
    ∃ x, (do return (← (← s.gaps r).next S).1.isNone : Except Panic Bool) = .ok x ∧
      (x = true ↔ ∀ k, r.start ≤ k → k ≤ r.stop → s.has k = true) := by
  obtain ⟨g, l, h1, h2, h3, -, h4⟩ := C48_gaps hS hs r
  obtain ⟨g', h5⟩ := next_of_yieldsE h2
  refine ⟨l.head?.isNone, by rw [h1]; simp only [bind, Except.bind, h5]; rfl, ?_⟩
  cases l with
  | nil =>
    simp only [List.head?_nil, Option.isNone_none, true_iff]
    intro k k1 k2
    have := h4 k
    rw [contains_eq (hs.wf hS)] at this
    cases hk : s.has k
    · obtain ⟨r, hr, -⟩ := this.2 ⟨k1, k2, by rw [hk]⟩
      cases hr
    · rfl
  | cons x l =>
    simp only [List.head?_cons, Option.isNone_some, Bool.false_eq_true, false_iff]
    intro h
    have hx := (h3 x (by simp)).1
    obtain ⟨k1, k2, k3⟩ := (h4 x.start).1 ⟨x, by simp, Std.le_refl _, hx⟩
    rw [contains_eq (hs.wf hS), h _ k1 k2] at k3
    cases k3

/-- **C83** Asking for each range of `b` whether `gaps` of `a` yields anything in it decides whether
`b` is a subset of `a`. -/
theorem C83_subset (hS : LawfulSteps S) {a b : RangeInclusiveSet K} (ha : Reachable S a)
    (hb : Reachable S b) :
    ∃ x, iWithin S b a = .ok x ∧
      (x = true ↔ ∀ k, b.contains k = .ok true → a.contains k = .ok true) := by
  have h : ∀ r ∈ b.iter,
      (do return (← (← a.gaps r).next S).1.isNone : Except Panic Bool) =
      .ok ((do return (← (← a.gaps r).next S).1.isNone : Except Panic Bool).toOption.any id) := by
    intro r _
    obtain ⟨g, h1, -⟩ := gap_test hS ha r
    rw [h1]
    rfl
  refine ⟨_, allM_ok _ _ b.iter h, ?_⟩
  rw [List.all_eq_true]
  constructor
  · intro h k hk
    rw [contains_eq (hb.wf hS), Except.ok.injEq, has_iff] at hk
    obtain ⟨r, hr, k1, k2⟩ := hk
    obtain ⟨g, h1, h2⟩ := gap_test hS ha r
    have h3 := h r hr
    rw [h1] at h3
    rw [contains_eq (ha.wf hS), h2.1 h3 k k1 k2]
  · intro h r hr
    obtain ⟨g, h1, h2⟩ := gap_test hS ha r
    rw [h1]
    refine h2.2 fun k k1 k2 => ?_
    have := h k (by rw [contains_eq (hb.wf hS), (has_iff b k).2 ⟨r, hr, k1, k2⟩])
    rw [contains_eq (ha.wf hS)] at this
    exact Except.ok.inj this

example := Inclusive.C83_subset (K := UIntW 8) (S := Demo.u8) Demo.u8_lawful (a := Demo.iset)
    (b := Demo.iset') Demo.iset_reachable Demo.iset'_reachable

/-- **C83** `b` is a subset of `a` exactly when `a | b == a`, and exactly when `a & b == b`. -/
theorem C83_subset_ops (hS : LawfulSteps S) {a b u i : RangeInclusiveSet K} (ha : Reachable S a)
    (hb : Reachable S b)
    (hu : a.bitOr S b = .ok u) (hi : a.bitAnd S b = .ok i) :
    (iWithin S b a = .ok true ↔ u.eq a = true) ∧ (iWithin S b a = .ok true ↔ i.eq b = true) := by
  obtain ⟨x, h1, h2⟩ := C83_subset hS ha hb
  obtain ⟨r1, e1⟩ := or_has hS ha hb hu
  obtain ⟨r2, e2⟩ := and_has hS ha hb hi
  rw [h1, Except.ok.injEq, h2, eq_iff_has hS (r1.wf hS) (ha.wf hS), eq_iff_has hS (r2.wf hS)
    (hb.wf hS)]
  simp only [contains_eq (ha.wf hS), contains_eq (hb.wf hS), Except.ok.injEq, e1, e2]
  constructor <;> refine forall_congr' fun k => ?_ <;> cases a.has k <;> cases b.has k <;> simp

example := Inclusive.C83_subset_ops (K := UIntW 8) (S := Demo.u8) Demo.u8_lawful
    (a := Demo.iset) (b := Demo.iset') Demo.iset_reachable Demo.iset'_reachable
    (Inclusive.C39_bitor Demo.u8_lawful Demo.iset_reachable Demo.iset'_reachable).choose_spec.1
    (Inclusive.C39_bitand Demo.u8_lawful Demo.iset_reachable Demo.iset'_reachable).choose_spec.1

/-- **C83** Subsets both ways are `==`. -/
theorem C83_subset_antisymm (hS : LawfulSteps S) {a b : RangeInclusiveSet K} (ha : Reachable S a)
    (hb : Reachable S b) :
    (iWithin S b a = .ok true ∧ iWithin S a b = .ok true) ↔ a.eq b = true := by
  obtain ⟨x, h1, h2⟩ := C83_subset hS ha hb
  obtain ⟨y, h3, h4⟩ := C83_subset hS hb ha
  rw [h1, h3, Except.ok.injEq, Except.ok.injEq, h2, h4, eq_iff_has hS (ha.wf hS) (hb.wf hS)]
  simp only [contains_eq (ha.wf hS), contains_eq (hb.wf hS), Except.ok.injEq]
  constructor
  · intro h k
    have := h.1 k
    have := h.2 k
    cases ha' : a.has k <;> cases hb' : b.has k <;> simp_all
  · intro h
    exact ⟨fun k => by rw [h k]; exact id, fun k => by rw [h k]; exact id⟩

example := Inclusive.C83_subset_antisymm (K := UIntW 8) (S := Demo.u8) Demo.u8_lawful
    (a := Demo.iset) (b := Demo.iset') Demo.iset_reachable Demo.iset'_reachable

/-- **C83** Three tests for a common key: some range of `b` for which `a.overlaps` is true, a first
range of `intersection`, and `a & b` not empty. -/
theorem C83_common_key (hS : LawfulSteps S) {a b : RangeInclusiveSet K} (ha : Reachable S a)
    (hb : Reachable S b) :
    ∃ x i, iMeets b a = .ok x ∧ a.bitAnd S b = .ok i ∧
      (x = true ↔ ∃ k, a.contains k = .ok true ∧ b.contains k = .ok true) ∧
      (a.intersection b).next.1.isSome = x ∧ i.isEmpty = !x := by
  have h : ∀ r ∈ b.iter, a.overlaps r = .ok ((a.overlaps r).toOption.any id) := by
    intro r _
    obtain ⟨o, -, -, y, h1, -⟩ := C48_overlapping hS ha.any r []
    rw [h1]
    rfl
  obtain ⟨i, h1, h2, h3, h4⟩ := C39_bitand hS ha hb
  refine ⟨_, i, anyM_ok _ _ b.iter h, h1, ?_⟩
  have key : b.iter.any (fun r => (a.overlaps r).toOption.any id) = true ↔
      ∃ k, a.contains k = .ok true ∧ b.contains k = .ok true := by
    rw [List.any_eq_true]
    constructor
    · rintro ⟨r, hr, h5⟩
      obtain ⟨o, -, -, y, h6, h7⟩ := C48_overlapping hS ha.any r []
      rw [h6] at h5
      obtain ⟨r', hr', h8, h9⟩ := h7.1 h5
      have v := iter_valid hS hb r hr
      have v' := iter_valid hS ha r' hr'
      refine ⟨rmax r.start r'.start, ?_, ?_⟩
      · rw [contains_eq (ha.wf hS), (has_iff a _).2 ⟨r', hr', ?_⟩]
        rw [rmax_le]
        exact ⟨(rmax_le.1 (Std.le_refl _)).2, h8, v'⟩
      · rw [contains_eq (hb.wf hS), (has_iff b _).2 ⟨r, hr, ?_⟩]
        rw [rmax_le]
        exact ⟨(rmax_le.1 (Std.le_refl _)).1, v, h9⟩
    · rintro ⟨k, h5, h6⟩
      rw [contains_eq (ha.wf hS), Except.ok.injEq, has_iff] at h5
      rw [contains_eq (hb.wf hS), Except.ok.injEq, has_iff] at h6
      obtain ⟨r', hr', h7, h8⟩ := h5
      obtain ⟨r, hr, h9, h10⟩ := h6
      refine ⟨r, hr, ?_⟩
      obtain ⟨o, -, -, y, i1, i2⟩ := C48_overlapping hS ha.any r []
      rw [i1]
      exact i2.2 ⟨r', hr', by grind, by grind⟩
  have hemp : i.isEmpty = true ↔ i.iter = [] := (C48_iter i []).2.2.2.1
  have hne : i.iter ≠ [] ↔ ∃ k, a.contains k = .ok true ∧ b.contains k = .ok true := by
    constructor
    · intro hn
      obtain ⟨r, t, ht⟩ := List.exists_cons_of_ne_nil hn
      have hr : r ∈ i.iter := by rw [ht]; simp
      have := iter_valid hS h2 r hr
      obtain ⟨p, q, i1, i2, i3⟩ := h4 r.start
      rw [contains_eq (h2.wf hS), (has_iff i r.start).2 ⟨r, hr, Std.le_refl _, this⟩] at i3
      have := Except.ok.inj i3
      simp only [Bool.true_eq, Bool.and_eq_true] at this
      exact ⟨r.start, by rw [i1, this.1], by rw [i2, this.2]⟩
    · rintro ⟨k, h5, h6⟩ hn
      obtain ⟨p, q, i1, i2, i3⟩ := h4 k
      rw [h5] at i1
      rw [h6] at i2
      cases i1; cases i2
      rw [contains_eq (h2.wf hS), Except.ok.injEq, Bool.and_self, has_iff, hn] at i3
      obtain ⟨r, hr, -⟩ := i3
      cases hr
  refine ⟨key, ?_, ?_⟩
  · rw [next_of_yields h3, Bool.eq_iff_iff, key, ← hne]
    cases i.iter <;> simp
  · rw [Bool.eq_iff_iff, hemp, Bool.not_eq_true', Bool.eq_false_iff, Ne, key, ← hne, ne_eq,
      Decidable.not_not]

example := Inclusive.C83_common_key (K := UIntW 8) (S := Demo.u8) Demo.u8_lawful
    (a := Demo.iset) (b := Demo.iset') Demo.iset_reachable Demo.iset'_reachable

/-- **C83** Inserting what `gaps(outer)` yields never panics and adds exactly `outer`; from then on
there is no gap in `outer`. -/
theorem C83_fill_gaps (hS : LawfulSteps S) {s : RangeInclusiveSet K} (hs : Reachable S s)
    (outer : RangeInclusive K) :
    ∃ g l s', s.gaps outer = .ok g ∧ YieldsE (RangeInclusiveSet.Gaps.next S) g l ∧ s.extend S l =
      (s', .ok ()) ∧
      Reachable S s' ∧
      (∀ k, ∃ x, s.contains k = .ok x ∧
        s'.contains k = .ok (decide (outer.start ≤ k ∧ k ≤ outer.stop) || x)) ∧
      ∃ g', s'.gaps outer = .ok g' ∧ YieldsE (RangeInclusiveSet.Gaps.next S) g' [] := by
  obtain ⟨g, l, h1, h2, h3, h4, h5⟩ := C48_gaps hS hs outer
  obtain ⟨h6, h7, h8⟩ := extend_has hS l (hs.wf hS) fun r hr => ⟨(h3 r hr).1, (h3 r hr).2.1⟩
  generalize he : s.extend S l = e at h6 h7 h8
  obtain ⟨s', x⟩ := e
  subst h6
  have r' : Reachable S s' := .of_wf hS h7
  have hk : ∀ k, s'.has k = (decide (outer.start ≤ k ∧ k ≤ outer.stop) || s.has k) := by
    intro k
    rw [show s'.has k = _ from h8 k]
    have := h5 k
    rw [contains_eq (hs.wf hS), Except.ok.injEq] at this
    rw [Bool.eq_iff_iff, Bool.or_eq_true, Bool.or_eq_true, List.any_eq_true, decide_eq_true_eq]
    simp only [icovers, decide_eq_true_eq, this]
    cases s.has k <;> simp
  refine ⟨g, l, s', h1, h2, he, r', fun k => ⟨_, contains_eq (hs.wf hS) k, ?_⟩, ?_⟩
  · rw [contains_eq (r'.wf hS), hk]
  · obtain ⟨g', l', i1, i2, i3, -, i5⟩ := C48_gaps hS r' outer
    have : l' = [] := by
      rw [List.eq_nil_iff_forall_not_mem]
      intro x hx
      obtain ⟨k1, k2, k3⟩ := (i5 x.start).1 ⟨x, hx, Std.le_refl _, (i3 x hx).1⟩
      rw [contains_eq (r'.wf hS), hk] at k3
      simp [k1, k2] at k3
    exact ⟨g', i1, this ▸ i2⟩

-- `Demo.iset` is 0..=2, 5..=14, 20..=255
example : Reachable Demo.u8 Demo.iset ∧ Reachable Demo.u8 Demo.iset' :=
  ⟨Demo.iset_reachable, Demo.iset'_reachable⟩
example : Demo.iset.iter = [Demo.by8 0 2, Demo.by8 5 14, Demo.by8 20 255] := by rfl
example : (iSubtract Demo.u8 Demo.iset ⟨⟨[(Demo.by8 2 7, ()), (Demo.by8 10 11, ()),
    (Demo.by8 250 255, ())]⟩⟩).toOption.map (·.iter) =
    some [Demo.by8 0 1, Demo.by8 8 9, Demo.by8 12 14, Demo.by8 20 249] := by rfl
example :
    (iWithin Demo.u8 ⟨⟨[(Demo.by8 1 2, ()), (Demo.by8 250 255, ())]⟩⟩ Demo.iset).toOption =
      some true ∧
    (iWithin Demo.u8 ⟨⟨[(Demo.by8 1 3, ())]⟩⟩ Demo.iset).toOption = some false ∧
    (iMeets ⟨⟨[(Demo.by8 3 4, ()), (Demo.by8 15 19, ())]⟩⟩ Demo.iset).toOption = some false ∧
    (iMeets ⟨⟨[(Demo.by8 3 4, ()), (Demo.by8 15 20, ())]⟩⟩ Demo.iset).toOption = some true :=
  ⟨by rfl, by rfl, by rfl, by rfl⟩

end Verif.Props.Inclusive

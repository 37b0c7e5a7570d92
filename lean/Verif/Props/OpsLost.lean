import Verif.Props.OpsCrash
import Verif.Props.OpsExact
import Verif.Proof.Peekable

/-!
# C103: what a `Union` loses when it is interrupted

If user code panics inside `Union::next`, the range under construction is lost (C73).  Here: that is
all.  Every interruption costs at most one of the ranges that the uninterrupted iterator yields; all
others are returned just as they are, and whatever else is returned lies within those lost.
-/
set_option linter.unusedSectionVars false

namespace Verif.Props
open Spec

namespace UnionCrash
variable {R K : Type} [LE K] [LT K] [Std.IsLinearPreorder K]
  [Std.LawfulOrderLT K] [RangeOrder R] [RangeMerge R] [RangeIntersect R] {L : OpsLaws R K}

/-- Two copies of the same range cannot be stored one behind the other. -/
theorem sorted_disjoint {a b : List R} (h : L.Sorted (a ++ b)) {x : R} (ha : x ∈ a) : x ∉ b :=
  fun hb => (List.pairwise_append.1 h.sorted).2.2 x ha x hb (h.valid x (List.mem_append_left _ ha))

theorem sorted_prefix {a b : List R} (h : L.Sorted (a ++ b)) : L.Sorted a :=
  ⟨fun r hr => h.good r (List.mem_append_left _ hr),
    fun r hr => h.valid r (List.mem_append_left _ hr), (List.pairwise_append.1 h.sorted).1⟩

/-- A range is not merged with one that starts behind an enclosing range. -/
theorem join_behind {r range : R} {l : List R} (hg : L.good range) (hi : L.Inside range r)
    (hl : ∀ x ∈ l, L.good x ∧ ¬ L.bel r (L.start x)) : Union.join range l = none := by
  cases l with
  | nil => rfl
  | cons x t =>
    cases hm : RangeMerge.merge range x with
    | none => simp [Union.join, hm]
    | some y =>
      have := L.merge_some hg (hl x (by simp)).1 hm
      exact absurd (hi.2 _ this.2.2.1) (hl x (by simp)).2

theorem merge_inside {r range x y : R} (hg : L.good range) (hi : L.Inside range r) (hx : L.good x)
    (hxi : L.Inside x r) (hm : RangeMerge.merge range x = some y) : L.good y ∧ L.Inside y r := by
  obtain ⟨m1, m2, m3, m4⟩ := L.merge_some hg hx hm
  refine ⟨m1, by rw [m2]; exact hi.1, fun k hk => ?_⟩
  rcases (m4 k).1 hk with h | h
  · exact hi.2 k h
  · exact hxi.2 k h

/-- The loop, started within `r`, stays within `r`. -/
theorem mergeLoop_inside {r : R} {lf rf : List R}
    (hlf : ∀ x ∈ lf, L.good x ∧ ¬ L.bel r (L.start x))
    (hrf : ∀ x ∈ rf, L.good x ∧ ¬ L.bel r (L.start x)) :
    ∀ (n : Nat) (range : R) (a b : List R), a.length + b.length ≤ n → L.good range →
      L.Inside range r → (∀ x ∈ a, L.good x ∧ L.Inside x r) → (∀ x ∈ b, L.good x ∧ L.Inside x r) →
      ∃ range' a' b', Union.mergeLoop range (a ++ lf) (b ++ rf) = (range', ⟨a' ++ lf, b' ++ rf⟩) ∧
        a' <:+ a ∧ b' <:+ b ∧ L.Inside range' r := by
  intro n
  induction n with
  | zero =>
    intro range a b hn hg hi _ _
    obtain ⟨rfl, rfl⟩ : a = [] ∧ b = [] := by
      constructor <;> apply List.eq_nil_of_length_eq_zero <;> omega
    exact ⟨range, [], [], merge_none (join_behind hg hi hlf) (join_behind hg hi hrf),
      List.suffix_rfl, List.suffix_rfl, hi⟩
  | succ n ih =>
    intro range a b hn hg hi ha hb
    have left : ∀ {x t y}, a = x :: t → RangeMerge.merge range x = some y →
        ∃ range' a' b', Union.mergeLoop range (a ++ lf) (b ++ rf)
          = (range', ⟨a' ++ lf, b' ++ rf⟩) ∧ a' <:+ a ∧ b' <:+ b ∧ L.Inside range' r := by
      rintro x t y rfl hm
      obtain ⟨m1, m2⟩ := merge_inside hg hi (ha x (by simp)).1 (ha x (by simp)).2 hm
      obtain ⟨r', a', b', h1, h2, h3, h4⟩ := ih y t b (by simp only [List.length_cons] at hn; omega)
        m1 m2 (fun z hz => ha z (by simp [hz])) hb
      exact ⟨r', a', b', by rw [List.cons_append, merge_left hm]; exact h1,
        h2.trans (List.suffix_cons _ _), h3, h4⟩
    have right : Union.join range (a ++ lf) = none → ∃ range' a' b',
        Union.mergeLoop range (a ++ lf) (b ++ rf)
          = (range', ⟨a' ++ lf, b' ++ rf⟩) ∧ a' <:+ a ∧ b' <:+ b ∧ L.Inside range' r := by
      intro hj
      cases b with
      | nil =>
        exact ⟨range, a, [], merge_none hj (join_behind hg hi hrf), List.suffix_rfl,
          List.suffix_rfl, hi⟩
      | cons x t =>
        cases hm : RangeMerge.merge range x with
        | none =>
          exact ⟨range, a, x :: t, merge_none hj (by simp [Union.join, hm]), List.suffix_rfl,
            List.suffix_rfl, hi⟩
        | some y =>
          obtain ⟨m1, m2⟩ := merge_inside hg hi (hb x (by simp)).1 (hb x (by simp)).2 hm
          obtain ⟨r', a', b', h1, h2, h3, h4⟩ := ih y a t
            (by simp only [List.length_cons] at hn; omega) m1 m2 ha
            (fun z hz => hb z (by simp [hz]))
          exact ⟨r', a', b', by rw [List.cons_append, merge_right hj hm]; exact h1, h2,
            h3.trans (List.suffix_cons _ _), h4⟩
    cases a with
    | nil => exact right (join_behind hg hi hlf)
    | cons x t =>
      cases hm : RangeMerge.merge range x with
      | some y => exact left rfl hm
      | none => exact right (by simp [Union.join, hm])

/-- Ranges within `r` in front of the rest: the iterator first yields ranges within `r` and then
what it yields without them. -/
theorem leftovers {r : R} {lf rf rest : List R} (hrest : Yields Union.next (⟨lf, rf⟩ : Union R) rest)
    (hlf : ∀ x ∈ lf, ¬ L.bel r (L.start x)) (hrf : ∀ x ∈ rf, ¬ L.bel r (L.start x)) :
    ∀ (n : Nat) (a b : List R), a.length + b.length ≤ n → L.Sorted (a ++ lf) → L.Sorted (b ++ rf) →
      (∀ x ∈ a, L.Inside x r) → (∀ x ∈ b, L.Inside x r) →
      ∃ pre, Yields Union.next (⟨a ++ lf, b ++ rf⟩ : Union R) (pre ++ rest) ∧
        ∀ p ∈ pre, L.Inside p r := by
  intro n
  induction n with
  | zero =>
    intro a b hn _ _ _ _
    obtain ⟨rfl, rfl⟩ : a = [] ∧ b = [] := by
      constructor <;> apply List.eq_nil_of_length_eq_zero <;> omega
    exact ⟨[], hrest, by simp⟩
  | succ n ih =>
    intro a b hn hsa hsb ha hb
    have step : ∀ (range : R) (a' b' : List R), a' <:+ a → b' <:+ b →
        a'.length + b'.length < a.length + b.length → L.good range → L.Inside range r →
        (⟨a ++ lf, b ++ rf⟩ : Union R).first = some (range, ⟨a' ++ lf, b' ++ rf⟩) →
        ∃ pre, Yields Union.next (⟨a ++ lf, b ++ rf⟩ : Union R) (pre ++ rest) ∧
          ∀ p ∈ pre, L.Inside p r := by
      intro range a' b' h1 h2 hlt hg hi hf
      have hsa' : L.Sorted (a' ++ lf) := sorted_suffix hsa (List.suffix_append_self_iff.2 h1)
      have hsb' : L.Sorted (b' ++ rf) := sorted_suffix hsb (List.suffix_append_self_iff.2 h2)
      obtain ⟨range', a2, b2, m1, m2, m3, m4⟩ := mergeLoop_inside (L := L) (r := r) (lf := lf) (rf := rf)
        (fun x hx => ⟨hsa.good x (by simp [hx]), hlf x hx⟩)
        (fun x hx => ⟨hsb.good x (by simp [hx]), hrf x hx⟩) _ range a' b' (Nat.le_refl _) hg hi
        (fun x hx => ⟨hsa'.good x (by simp [hx]), ha x (h1.subset hx)⟩)
        (fun x hx => ⟨hsb'.good x (by simp [hx]), hb x (h2.subset hx)⟩)
      have l1 := m2.length_le
      have l2 := m3.length_le
      obtain ⟨pre, p1, p2⟩ := ih a2 b2 (by omega)
        (sorted_suffix hsa' (List.suffix_append_self_iff.2 m2))
        (sorted_suffix hsb' (List.suffix_append_self_iff.2 m3))
        (fun x hx => ha x (h1.subset (m2.subset hx))) (fun x hx => hb x (h2.subset (m3.subset hx)))
      refine ⟨range' :: pre, Yields.cons ?_ p1, fun p hp => ?_⟩
      · simp [Union.next, hf, m1]
      · rcases List.mem_cons.1 hp with rfl | hp
        · exact m4
        · exact p2 p hp
    have hlt : ∀ {x y : R}, L.bel x (L.start x) → L.Inside x r → ¬ L.bel r (L.start y) →
        L.start x < L.start y := by
      intro x y h1 h2 h3
      apply Classical.byContradiction
      intro h
      exact h3 (L.bel_mono (h2.2 _ h1) (by grind))
    cases a with
    | nil =>
      cases b with
      | nil => exact ⟨[], hrest, by simp⟩
      | cons y t =>
        refine step y [] t (List.suffix_rfl) (List.suffix_cons _ _) (by simp) (hsb.good y (by simp))
          (hb y (by simp)) ?_
        cases lf with
        | nil => rfl
        | cons z u =>
          have : ¬ (RangeOrder.orderStart z y).isLT = true := fun h => by
            have h1 := (L.order_start z y).1 h
            have h2 := hlt (hsb.valid y (by simp)) (hb y (by simp)) (hlf z (by simp))
            grind
          simp [Union.first, this]
    | cons x s =>
      cases b with
      | nil =>
        refine step x s [] (List.suffix_cons _ _) (List.suffix_rfl) (by simp) (hsa.good x (by simp))
          (ha x (by simp)) ?_
        cases rf with
        | nil => simp [Union.first]
        | cons z u =>
          have : (RangeOrder.orderStart x z).isLT = true := (L.order_start x z).2
            (hlt (hsa.valid x (by simp)) (ha x (by simp)) (hrf z (by simp)))
          simp [Union.first, this]
      | cons y t =>
        by_cases h : (RangeOrder.orderStart x y).isLT = true
        · exact step x s (y :: t) (List.suffix_cons _ _) List.suffix_rfl (by simp)
            (hsa.good x (by simp)) (ha x (by simp)) (by simp [Union.first, h])
        · exact step y (x :: s) t List.suffix_rfl (List.suffix_cons _ _) (by simp)
            (hsb.good y (by simp)) (hb y (by simp)) (by simp [Union.first, h])

omit [RangeOrder R] [RangeIntersect R] in
theorem mergeLoop_suffix (range : R) (left right : List R) :
    (Union.mergeLoop range left right).2.left <:+ left ∧
    (Union.mergeLoop range left right).2.right <:+ right := by
  fun_induction Union.mergeLoop range left right with
  | case1 range left right range' left' h ih =>
    cases left with
    | nil => cases h
    | cons a left =>
      simp only [Union.join, Option.map_eq_some_iff, Prod.mk.injEq] at h
      obtain ⟨_, hm, rfl, rfl⟩ := h
      exact ⟨ih.1.trans (List.suffix_cons _ _), ih.2⟩
  | case2 range left right h0 range' right' h ih =>
    cases right with
    | nil => cases h
    | cons a right =>
      simp only [Union.join, Option.map_eq_some_iff, Prod.mk.injEq] at h
      obtain ⟨_, hm, rfl, rfl⟩ := h
      exact ⟨ih.1, ih.2.trans (List.suffix_cons _ _)⟩
  | case3 range left right h h' => exact ⟨List.suffix_rfl, List.suffix_rfl⟩

omit [RangeOrder R] [RangeIntersect R] in
/-- An interrupted loop has come some way. -/
theorem mergeLoop_midway (panics : Nat → Bool) (n : Nat) (range : R) (left right : List R)
    (h : (UnionP.mergeLoop panics n range left right).1 = none) :
    ∃ range', Union.mergeLoop range' (UnionP.mergeLoop panics n range left right).2.it.left
      (UnionP.mergeLoop panics n range left right).2.it.right
        = Union.mergeLoop range left right ∧
      (UnionP.mergeLoop panics n range left right).2.it.left <:+ left ∧
      (UnionP.mergeLoop panics n range left right).2.it.right <:+ right := by
  fun_induction UnionP.mergeLoop panics n range left right with
  | case1 => exact ⟨_, rfl, List.suffix_rfl, List.suffix_rfl⟩
  | case2 n range l left right _ range' hm ih =>
    obtain ⟨r, h1, h2, h3⟩ := ih h
    exact ⟨r, by rw [merge_left hm]; exact h1, h2.trans (List.suffix_cons _ _), h3⟩
  | case3 => cases h
  | case4 => exact ⟨_, rfl, List.suffix_rfl, List.suffix_rfl⟩
  | case5 n range l left _ hm r right _ range' hm' ih =>
    obtain ⟨r, h1, h2, h3⟩ := ih h
    exact ⟨r, by rw [merge_right (by simp [Union.join, hm]) hm']; exact h1, h2,
      h3.trans (List.suffix_cons _ _)⟩
  | case6 => cases h
  | case7 => exact ⟨_, rfl, List.suffix_rfl, List.suffix_rfl⟩
  | case8 n range r right _ range' hm' ih =>
    obtain ⟨r, h1, h2, h3⟩ := ih h
    exact ⟨r, by rw [merge_right rfl hm']; exact h1, h2, h3.trans (List.suffix_cons _ _)⟩
  | case9 => cases h
  | case10 => cases h

/-- A call that is interrupted has changed nothing, or has come some way. -/
theorem next_midway (panics : Nat → Bool) (u : UnionP R) (h : (u.next panics).1 = none) :
    (u.next panics).2.it = u.it ∨
    ∃ range left right range', u.it.first = some (range, ⟨left, right⟩) ∧
      Union.mergeLoop range' (u.next panics).2.it.left (u.next panics).2.it.right
        = Union.mergeLoop range left right ∧
      (u.next panics).2.it.left <:+ left ∧ (u.next panics).2.it.right <:+ right := by
  have hstart : ∀ n (range : R) left right, (UnionP.start panics n range left right).1 = none →
      ∃ range', Union.mergeLoop range' (UnionP.start panics n range left right).2.it.left
        (UnionP.start panics n range left right).2.it.right = Union.mergeLoop range left right ∧
        (UnionP.start panics n range left right).2.it.left <:+ left ∧
        (UnionP.start panics n range left right).2.it.right <:+ right := by
    intro n range left right h
    unfold UnionP.start at h ⊢
    split
    · exact ⟨range, rfl, List.suffix_rfl, List.suffix_rfl⟩
    · rename_i hp
      rw [if_neg hp] at h
      exact mergeLoop_midway panics (n + 1) range left right h
  obtain ⟨n, left, right⟩ := u
  match left, right with
  | [], [] => exact Or.inl rfl
  | l :: left, [] =>
    obtain ⟨r', h1, h2⟩ := hstart n l left [] h
    exact Or.inr ⟨l, left, [], r', rfl, h1, h2⟩
  | [], r :: right =>
    obtain ⟨r', h1, h2⟩ := hstart n r [] right h
    exact Or.inr ⟨r, [], right, r', rfl, h1, h2⟩
  | l :: left, r :: right =>
    simp only [UnionP.next] at h ⊢
    by_cases hp : panics n = true
    · simp only [hp, if_true]
      exact Or.inl trivial
    · simp only [hp, Bool.false_eq_true, if_false] at h ⊢
      by_cases hlt : (RangeOrder.orderStart l r).isLT = true
      · simp only [hlt, if_true] at h ⊢
        obtain ⟨r', h1, h2⟩ := hstart (n + 1) l left (r :: right) h
        exact Or.inr ⟨l, left, r :: right, r', by simp [Union.first, hlt], h1, h2⟩
      · simp only [hlt, Bool.false_eq_true, if_false] at h ⊢
        obtain ⟨r', h1, h2⟩ := hstart (n + 1) r (l :: left) right h
        exact Or.inr ⟨r, l :: left, right, r', by simp [Union.first, hlt], h1, h2⟩

/-- One interruption: instead of its first range, the iterator yields some ranges within it. -/
theorem interrupted {panics : Nat → Bool} {u : UnionP R} (hl : L.Sorted u.it.left)
    (hr : L.Sorted u.it.right) (h : (u.next panics).1 = none) {l : List R}
    (hy : Yields Union.next u.it l) :
    (u.it.left = [] ∧ u.it.right = [] ∧ (u.next panics).2.it = u.it) ∨
    ∃ r rest pre, l = r :: rest ∧ Yields Union.next (u.next panics).2.it (pre ++ rest) ∧
      ∀ p ∈ pre, L.Inside p r := by
  obtain ⟨l', y1, -⟩ := OpsLaws.union_spec (L := L) _ u.it.left u.it.right (Nat.le_refl _) hl hr
  rcases OpsLaws.first_spec hl hr with ⟨e1, e2, e3⟩ | ⟨range, left', right', f1, f2, f3, f4,
    f5, f6, f7, f8, f9, f10, f11, f12⟩
  · refine Or.inl ⟨e1, e2, ?_⟩
    obtain ⟨n, left, right⟩ := u
    simp only at e1 e2
    subst e1 e2
    rfl
  · right
    obtain ⟨r1, l1, l2, g1, g2, g3, g4, g5, g6, g7, g8, g9, g10, g11⟩ :=
      OpsLaws.mergeLoop_spec _ range left' right' rfl f4 f5 f2 f3 f10 f11
    have hn : u.it.next = (some r1, ⟨l1, l2⟩) := by
      rw [Union.next]
      rw [f1]
      simp only [g1]
    obtain ⟨n1, n2⟩ := Spec.Yields.next hy
    rw [hn] at n1 n2
    obtain ⟨rest, rfl⟩ : ∃ rest, l = r1 :: rest := by
      cases l with
      | nil => cases n1
      | cons a t => cases n1; exact ⟨t, rfl⟩
    have n2 : Yields Union.next (⟨l1, l2⟩ : Union R) rest := n2
    rcases next_midway panics u h with h | ⟨rg, lt, rt, rg', k1, k2, k3, k4⟩
    · refine ⟨r1, rest, [r1], rfl, by rw [h]; exact hy, ?_⟩
      intro p hp
      rw [List.mem_singleton.1 hp]
      exact .refl _
    · rw [show u.it.first = some (range, ⟨left', right'⟩) from f1] at k1
      cases k1
      have hx := OpsLaws.mergeLoop_exact (L := L) (l := range :: (left' ++ right')) range left' right'
        f4 f2.good f3.good f10 f11 (.self (by simp)) (fun x hx => by simp [hx])
        (fun x hx => by simp [hx])
      rw [g1] at hx
      obtain ⟨-, x2, x3, x4⟩ := hx
      generalize (u.next panics).2.it = w at *
      obtain ⟨wl, wr⟩ := w
      simp only at k2 k3 k4
      obtain ⟨s1, s2⟩ := mergeLoop_suffix rg' wl wr
      rw [k2, g1] at s1 s2
      obtain ⟨a, rfl⟩ := s1
      obtain ⟨b, rfl⟩ := s2
      have ha := sorted_suffix f2 k3
      have hb := sorted_suffix f3 k4
      obtain ⟨pre, p1, p2⟩ := leftovers (L := L) (r := r1) n2 g9 g10 _ a b (Nat.le_refl _) ha hb
        (fun x hx => (x3 x (k3.subset (by simp [hx]))).resolve_right (sorted_disjoint ha hx))
        (fun x hx => (x4 x (k4.subset (by simp [hx]))).resolve_right (sorted_disjoint hb hx))
      exact ⟨r1, rest, pre, rfl, p1, p2⟩

/-- Any number of interruptions. -/
theorem lost (panics : Nat → Bool) (n : Nat) : ∀ (u : UnionP R) (l : List R),
    L.Sorted u.it.left → L.Sorted u.it.right → Yields Union.next u.it l →
    ∃ lost, List.Sublist lost l ∧
      lost.length ≤ (calls (UnionP.next panics) n u).countP Option.isNone ∧
      (∀ x ∈ got (calls (UnionP.next panics) n u), x ∈ l ∨ ∃ y ∈ lost, L.Inside x y) ∧
      (some none ∈ calls (UnionP.next panics) n u → ∀ r ∈ l, r ∉ lost →
        r ∈ got (calls (UnionP.next panics) n u)) := by
  induction n with
  | zero =>
    intro u l _ _ _
    exact ⟨[], List.nil_sublist _, by simp, by simp [calls, got], by simp [calls]⟩
  | succ n ih =>
    intro u l hl hr hy
    rw [calls, got_cons]
    rcases next_cases panics u with ⟨h1, h2, h3⟩ | ⟨r, h1, h2⟩
    · rw [h1]
      have hl' := sorted_suffix hl h2
      have hr' := sorted_suffix hr h3
      simp only [item, List.nil_append, List.countP_cons, Option.isNone_none, if_true,
        List.mem_cons, reduceCtorEq, false_or]
      rcases interrupted hl hr h1 hy with ⟨-, -, e⟩ | ⟨r, rest, pre, rfl, p1, p2⟩
      · obtain ⟨ls, i1, i2, i3, i4⟩ := ih (u.next panics).2 l hl' hr' (by rw [e]; exact hy)
        exact ⟨ls, i1, by omega, i3, i4⟩
      · obtain ⟨ls, i1, i2, i3, i4⟩ := ih (u.next panics).2 (pre ++ rest) hl' hr' p1
        obtain ⟨lp, lr, rfl, j1, j2⟩ := List.sublist_append_iff.1 i1
        obtain ⟨l', q1, q2, -⟩ := OpsLaws.union_spec (L := L) _ _ _ (Nat.le_refl _) hl' hr'
        obtain rfl := Yields.unique q1 p1
        refine ⟨r :: lr, .cons_cons _ j2, ?_, fun x hx => ?_, fun he x hx hxl => ?_⟩
        · simp only [List.length_append] at i2
          simp only [List.length_cons]
          omega
        · rcases i3 x hx with h | ⟨y, hy, h⟩
          · rcases List.mem_append.1 h with h | h
            · exact Or.inr ⟨r, by simp, p2 x h⟩
            · exact Or.inl (by simp [h])
          · rcases List.mem_append.1 hy with hy | hy
            · exact Or.inr ⟨r, by simp, h.trans (p2 y (j1.subset hy))⟩
            · exact Or.inr ⟨y, by simp [hy], h⟩
        · simp only [List.mem_cons, not_or] at hxl hx
          have hxr := hx.resolve_left hxl.1
          refine i4 he x (by simp [hxr]) fun hm => ?_
          rcases List.mem_append.1 hm with hm | hm
          · exact sorted_disjoint q2 (j1.subset hm) hxr
          · exact hxl.2 hm
    · rw [h1]
      have hc : (some r : Called R) ≠ none := by simp
      obtain ⟨n1, n2⟩ := Spec.Yields.next hy
      rw [h2] at n1 n2
      simp only at n1 n2
      have hs : L.Sorted (u.next panics).2.it.left ∧ L.Sorted (u.next panics).2.it.right := by
        rcases OpsLaws.first_spec hl hr with ⟨e1, e2, e3⟩ | ⟨range, left', right', f1, f2, f3, f4,
          f5, f6, f7, f8, f9, f10, f11, f12⟩
        · have : u.it.next = (none, u.it) := by
            rw [Union.next]
            rw [e3]
          rw [this] at h2
          rw [← (Prod.mk.inj h2).2]
          exact ⟨hl, hr⟩
        · obtain ⟨r1, l1, l2, g1, g2, g3, g4, g5, -⟩ :=
            OpsLaws.mergeLoop_spec _ range left' right' rfl f4 f5 f2 f3 f10 f11
          have hn : u.it.next = (some r1, ⟨l1, l2⟩) := by
            rw [Union.next]
            rw [f1]
            simp only [g1]
          rw [hn] at h2
          rw [← (Prod.mk.inj h2).2]
          exact ⟨g4, g5⟩
      obtain ⟨ls, i1, i2, i3, i4⟩ := ih (u.next panics).2 l.tail hs.1 hs.2 n2
      refine ⟨ls, i1.trans (List.tail_sublist l), ?_, fun x hx => ?_, fun he x hx hxl => ?_⟩
      · simp only [List.countP_cons, Option.isNone_some]
        exact i2
      · cases r with
        | none => exact (i3 x hx).imp (fun h => List.mem_of_mem_tail h) id
        | some r =>
          cases l with
          | nil => cases n1
          | cons a t =>
            cases n1
            simp only [item, List.singleton_append, List.mem_cons] at hx ⊢
            rcases hx with rfl | hx
            · exact Or.inl (Or.inl rfl)
            · exact (i3 x hx).imp Or.inr id
      · cases r with
        | none =>
          cases l with
          | nil => cases hx
          | cons a t => cases n1
        | some r =>
          cases l with
          | nil => cases n1
          | cons a t =>
            cases n1
            simp only [item, List.singleton_append, List.mem_cons] at hx ⊢
            rcases hx with rfl | hx
            · exact Or.inl rfl
            · exact Or.inr (i4 (by simpa using he) x hx hxl)

end UnionCrash

section
open RangeSet
variable {K : Type} [LE K] [LT K] [DecidableLE K] [DecidableLT K]
  [Std.IsLinearPreorder K] [Std.LawfulOrderLT K]

/-- **C103** Whatever panics interrupt a `Union` iterator, there are at most as many ranges `lost`
among those the uninterrupted iterator yields as calls were interrupted, such that every range
returned is one of the uninterrupted iterator or a part of one that is lost; and once a call has
returned `None`, all that are not lost have been returned. -/
theorem C103_union_lost {a b : RangeSet K} (ha : Reachable a) (hb : Reachable b) :
    ∃ l, Yields Union.next (a.union b) l ∧ ∀ (panics : Nat → Bool) (n : Nat),
      let rs := calls (UnionP.next panics) n ⟨0, a.union b⟩
      ∃ lost, List.Sublist lost l ∧ lost.length ≤ rs.countP Option.isNone ∧
        (∀ x ∈ got rs, x ∈ l ∨ ∃ y ∈ lost, y.start ≤ x.start ∧ x.stop ≤ y.stop) ∧
        (some none ∈ rs → ∀ r ∈ l, r ∉ lost → r ∈ got rs) := by
  have sorted : ∀ {s : RangeSet K}, Reachable s → Range.laws.Sorted s.iter := by
    intro s hs
    have := (wf_iff s).1 hs.wf
    exact ⟨fun _ _ => trivial, this.1,
      this.2.imp fun {a b} h (hb : b.start < a.stop) => by grind⟩
  obtain ⟨l, h1, -⟩ := C37_union ha hb
  refine ⟨l, h1, fun panics n => ?_⟩
  obtain ⟨ls, i1, i2, i3, i4⟩ := UnionCrash.lost (L := Range.laws) panics n ⟨0, a.union b⟩ l
    (sorted ha) (sorted hb) h1
  refine ⟨ls, i1, i2, fun x hx => (i3 x hx).imp id fun ⟨y, hy, h⟩ => ⟨y, hy, h.1, ?_⟩, i4⟩
  have h : ∀ k, k < x.stop → k < y.stop := h.2
  have := h y.stop
  grind

example := C103_union_lost (K := Nat) (a := Demo.set) (b := Demo.set') Demo.set_reachable
    Demo.set'_reachable

/-- Interrupted at the second call of user code, a part of the first range `0..4` is left. -/
example : got (calls (UnionP.next (· == 1)) 6 ⟨0, Demo.set.union Demo.set'⟩)
    = [⟨1, 4⟩, ⟨5, 15⟩, ⟨15, 20⟩, ⟨20, 50⟩] := by decide +kernel

/-- Interrupted at the fifth, nothing of it is left. -/
example : got (calls (UnionP.next (· == 4)) 6 ⟨0, Demo.set.union Demo.set'⟩)
    = [⟨5, 15⟩, ⟨15, 20⟩, ⟨20, 50⟩] := by decide +kernel
end

namespace Inclusive
open RangeInclusiveSet
variable {K : Type} [LE K] [LT K] [DecidableLE K] [DecidableLT K]
  [Std.IsLinearPreorder K] [Std.LawfulOrderLT K] {S : StepFns K}

/-- **C103** The same for inclusive sets. -/
theorem C103_union_lost (hS : LawfulSteps S) {a b : RangeInclusiveSet K} (ha : Reachable S a)
    (hb : Reachable S b) :
    ∃ l, Yields Union.next (a.union b) l ∧ ∀ (panics : Nat → Bool) (n : Nat),
      let rs := calls (UnionP.next panics) n ⟨0, a.union b⟩
      ∃ lost, List.Sublist lost l ∧ lost.length ≤ rs.countP Option.isNone ∧
        (∀ x ∈ got rs, x ∈ l ∨ ∃ y ∈ lost, y.start ≤ x.start ∧ x.stop ≤ y.stop) ∧
        (some none ∈ rs → ∀ r ∈ l, r ∉ lost → r ∈ got rs) := by
  have sorted : ∀ {s : RangeInclusiveSet K}, Reachable S s → RangeInclusive.laws.Sorted s.iter := by
    intro s hs
    have := (wf_iff s).1 (hs.wf hS)
    exact ⟨fun r hr => (this.1 r hr).2, fun r hr => (this.1 r hr).1,
      this.2.imp fun {a b} h (hb : b.start ≤ a.stop) => by grind⟩
  obtain ⟨l, h1, -⟩ := C37_union hS ha hb
  refine ⟨l, h1, fun panics n => ?_⟩
  obtain ⟨ls, i1, i2, i3, i4⟩ := UnionCrash.lost (L := RangeInclusive.laws) panics n
    ⟨0, a.union b⟩ l (sorted ha) (sorted hb) h1
  refine ⟨ls, i1, i2, fun x hx => (i3 x hx).imp id fun ⟨y, hy, h⟩ => ⟨y, hy, h.1, ?_⟩, i4⟩
  have h : ∀ k, k ≤ x.stop → k ≤ y.stop := h.2
  exact h x.stop (by grind)

example := Inclusive.C103_union_lost (K := UIntW 8) (S := Demo.u8) Demo.u8_lawful
    (a := Demo.iset) (b := Demo.iset') Demo.iset_reachable Demo.iset'_reachable
end Inclusive

end Verif.Props

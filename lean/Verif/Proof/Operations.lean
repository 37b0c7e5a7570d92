import Verif.Model.Operations
import Verif.Proof.Iter

/-!
# `Union` and `Intersection`, for any range type that obeys `OpsLaws`
-/
set_option linter.unusedSectionVars false

namespace Verif
open Spec

/-- What the two iterators rely on.  `bel r k`: `k` lies before the end of `r`. -/
structure OpsLaws (R K : Type) [LE K] [LT K] [RangeOrder R] [RangeMerge R] [RangeIntersect R] where
  start : R → K
  stop : R → K
  bel : R → K → Prop
  good : R → Prop
  /-- there is room between the two -/
  Apart : R → R → Prop
  bel_mono : ∀ {r j k}, bel r k → j ≤ k → bel r j
  bel_stop : ∀ {r s k}, stop r ≤ stop s → bel r k → bel s k
  order_start : ∀ r s, (RangeOrder.orderStart r s).isLT = true ↔ start r < start s
  order_end : ∀ r s, (RangeOrder.orderEnd r s).isLT = true ↔ stop r < stop s
  merge_some : ∀ {r s t}, good r → good s → RangeMerge.merge r s = some t →
    good t ∧ start t = start r ∧ bel r (start s) ∧ ∀ k, bel t k ↔ bel r k ∨ bel s k
  merge_none : ∀ {r s}, good r → good s → RangeMerge.merge r s = none → start r ≤ start s →
    ¬ bel r (start s)
  inter_some : ∀ {r s t}, RangeIntersect.intersect r s = some t →
    good t ∧ bel t (start t) ∧ start r ≤ start t ∧ start s ≤ start t ∧ stop t ≤ stop r ∧
    stop t ≤ stop s ∧
    ∀ k, (start t ≤ k ∧ bel t k) ↔ (start r ≤ k ∧ bel r k) ∧ (start s ≤ k ∧ bel s k)
  inter_none : ∀ {r s}, RangeIntersect.intersect r s = none →
    ∀ k, ¬ ((start r ≤ k ∧ bel r k) ∧ (start s ≤ k ∧ bel s k))
  apart_mono : ∀ {r r' s s'}, Apart r s → stop r' ≤ stop r → start s ≤ start s' → Apart r' s'
  apart_not_bel : ∀ {r s}, Apart r s → ¬ bel r (start s)

namespace OpsLaws
variable {R K : Type} [LE K] [LT K] [Std.IsLinearPreorder K]
  [Std.LawfulOrderLT K] [RangeOrder R] [RangeMerge R] [RangeIntersect R] (L : OpsLaws R K)

/-- `k` is in `r`. -/
def mem (r : R) (k : K) : Prop := L.start r ≤ k ∧ L.bel r k

/-- Non-empty ranges in order, without overlaps. -/
structure Sorted (l : List R) : Prop where
  good : ∀ r ∈ l, L.good r
  valid : ∀ r ∈ l, L.bel r (L.start r)
  sorted : l.Pairwise fun r s => ¬ L.bel r (L.start s)

variable {L}

theorem Sorted.tail {a : R} {l : List R} (h : L.Sorted (a :: l)) : L.Sorted l :=
  ⟨fun r hr => h.good r (by simp [hr]), fun r hr => h.valid r (by simp [hr]),
    (List.pairwise_cons.1 h.sorted).2⟩

theorem Sorted.nil : L.Sorted [] := ⟨by simp, by simp, .nil⟩

theorem Sorted.head {a : R} {l : List R} (h : L.Sorted (a :: l)) :
    L.good a ∧ L.bel a (L.start a) ∧ (∀ x ∈ l, ¬ L.bel a (L.start x)) ∧
    ∀ x ∈ l, L.start a ≤ L.start x := by
  have h1 := h.valid a (by simp)
  refine ⟨h.good a (by simp), h1, (List.pairwise_cons.1 h.sorted).1, fun x hx => ?_⟩
  apply Classical.byContradiction
  intro hlt
  exact (List.pairwise_cons.1 h.sorted).1 x hx (L.bel_mono h1 (by grind))

theorem join_spec {range : R} {l : List R} (hr : L.good range) (h : L.Sorted l)
    (hs : ∀ x ∈ l, L.start range ≤ L.start x) :
    (Union.join range l = none ∧ ∀ x ∈ l, ¬ L.bel range (L.start x)) ∨
    ∃ x t range', l = x :: t ∧ Union.join range l = some (range', t) ∧ L.good range' ∧
      L.start range' = L.start range ∧ (∀ k, L.bel range k → L.bel range' k) ∧
      ∀ k, L.mem range' k ↔ L.mem range k ∨ L.mem x k := by
  cases l with
  | nil => exact Or.inl ⟨rfl, by simp⟩
  | cons x t =>
    have hx := h.head
    cases hm : RangeMerge.merge range x with
    | none =>
      left
      refine ⟨by simp [Union.join, hm], fun y hy hb => ?_⟩
      have := L.merge_none hr hx.1 hm (hs x (by simp))
      rcases List.mem_cons.1 hy with rfl | hy
      · exact this hb
      · exact this (L.bel_mono hb (hx.2.2.2 y hy))
    | some range' =>
      right
      obtain ⟨m1, m2, m3, m4⟩ := L.merge_some hr hx.1 hm
      refine ⟨x, t, range', rfl, by simp [Union.join, hm], m1, m2,
        fun k hk => (m4 k).2 (Or.inl hk), fun k => ?_⟩
      unfold mem
      rw [m2, m4]
      have hsx := hs x (by simp)
      constructor
      · rintro ⟨h1, h2⟩
        by_cases hk : L.start x ≤ k
        · rcases h2 with h2 | h2
          · exact Or.inl ⟨h1, h2⟩
          · exact Or.inr ⟨hk, h2⟩
        · exact Or.inl ⟨h1, L.bel_mono m3 (by grind)⟩
      · rintro (⟨h1, h2⟩ | ⟨h1, h2⟩)
        · exact ⟨h1, Or.inl h2⟩
        · exact ⟨by grind, Or.inr h2⟩

/-- The loop of `Union::next`. -/
theorem mergeLoop_spec : ∀ (n : Nat) (range : R) (left right : List R),
    left.length + right.length = n → L.good range → L.bel range (L.start range) →
    L.Sorted left → L.Sorted right → (∀ x ∈ left, L.start range ≤ L.start x) →
    (∀ x ∈ right, L.start range ≤ L.start x) →
    ∃ range' left' right', Union.mergeLoop range left right = (range', ⟨left', right'⟩) ∧
      left' <:+ left ∧ right' <:+ right ∧ L.Sorted left' ∧ L.Sorted right' ∧
      L.good range' ∧ L.bel range' (L.start range') ∧ L.start range' = L.start range ∧
      (∀ x ∈ left', ¬ L.bel range' (L.start x)) ∧ (∀ x ∈ right', ¬ L.bel range' (L.start x)) ∧
      ∀ k, (L.mem range' k ∨ (∃ x ∈ left', L.mem x k) ∨ ∃ x ∈ right', L.mem x k) ↔
        (L.mem range k ∨ (∃ x ∈ left, L.mem x k) ∨ ∃ x ∈ right, L.mem x k) := by
  intro n
  induction n with
  | zero =>
    intro range left right hn hg hv _ _ _ _
    obtain ⟨rfl, rfl⟩ : left = [] ∧ right = [] := by
      constructor <;> apply List.eq_nil_of_length_eq_zero <;> omega
    refine ⟨range, [], [], ?_, List.suffix_rfl, List.suffix_rfl, .nil, .nil, hg, hv, rfl, by simp,
      by simp, by simp⟩
    simp [Union.mergeLoop, Union.join]
  | succ n ih =>
    intro range left right hn hg hv hl hr hsl hsr
    rw [Union.mergeLoop]
    rcases join_spec hg hl hsl with ⟨h1, h2⟩ | ⟨x, t, range', rfl, h2, h3, h4, h5, h6⟩
    · rcases join_spec hg hr hsr with ⟨h3, h4⟩ | ⟨x, t, range', rfl, h2', h3, h4, h5, h6⟩
      · refine ⟨range, left, right, ?_, List.suffix_rfl, List.suffix_rfl, hl, hr, hg, hv, rfl, h2,
          h4, fun k => Iff.rfl⟩
        split
        · simp_all
        · split <;> simp_all
      · obtain ⟨r1, l1, l2, g1, g2, g3, g4, g5, g6, g7, g8, g9, g10, g11⟩ :=
          ih range' left t (by simp only [List.length_cons] at hn; omega) h3
            (by rw [h4]; exact h5 _ hv) hl hr.tail (by rw [h4]; exact hsl)
            (by rw [h4]; exact fun y hy => hsr y (by simp [hy]))
        refine ⟨r1, l1, l2, ?_, g2, g3.trans (List.suffix_cons _ _), g4, g5, g6, g7, g8.trans h4,
          g9, g10, fun k => ?_⟩
        · split
          · simp_all
          · split <;> simp_all
        · rw [g11, h6]
          simp only [List.mem_cons, exists_eq_or_imp]
          grind
    · obtain ⟨r1, l1, l2, g1, g2, g3, g4, g5, g6, g7, g8, g9, g10, g11⟩ :=
        ih range' t right (by simp only [List.length_cons] at hn; omega) h3
          (by rw [h4]; exact h5 _ hv) hl.tail hr
          (by rw [h4]; exact fun y hy => hsl y (by simp [hy])) (by rw [h4]; exact hsr)
      refine ⟨r1, l1, l2, ?_, g2.trans (List.suffix_cons _ _), g3, g4, g5, g6, g7, g8.trans h4,
        g9, g10, fun k => ?_⟩
      · split <;> simp_all
      · rw [g11, h6]
        simp only [List.mem_cons, exists_eq_or_imp]
        grind

theorem first_spec {left right : List R} (hl : L.Sorted left) (hr : L.Sorted right) :
    (left = [] ∧ right = [] ∧ (⟨left, right⟩ : Union R).first = none) ∨
    ∃ range left' right', (⟨left, right⟩ : Union R).first = some (range, ⟨left', right'⟩) ∧
      L.Sorted left' ∧ L.Sorted right' ∧ L.good range ∧ L.bel range (L.start range) ∧
      left'.length + right'.length + 1 = left.length + right.length ∧
      (∃ x ∈ left ++ right, x = range) ∧ (∀ x ∈ left', x ∈ left) ∧ (∀ x ∈ right', x ∈ right) ∧
      (∀ x ∈ left', L.start range ≤ L.start x) ∧ (∀ x ∈ right', L.start range ≤ L.start x) ∧
      ∀ k, (L.mem range k ∨ (∃ x ∈ left', L.mem x k) ∨ ∃ x ∈ right', L.mem x k) ↔
        ((∃ x ∈ left, L.mem x k) ∨ ∃ x ∈ right, L.mem x k) := by
  match left, right with
  | [], [] => exact Or.inl ⟨rfl, rfl, rfl⟩
  | l :: left, [] =>
    right
    exact ⟨l, left, [], rfl, hl.tail, .nil, hl.head.1, hl.head.2.1, by simp, ⟨l, by simp, rfl⟩,
      by simp +contextual, by simp, hl.head.2.2.2, by simp, by simp⟩
  | [], r :: right =>
    right
    exact ⟨r, [], right, rfl, .nil, hr.tail, hr.head.1, hr.head.2.1, by simp, ⟨r, by simp, rfl⟩,
      by simp, by simp +contextual, by simp, hr.head.2.2.2, by simp⟩
  | l :: left, r :: right =>
    right
    have ho := L.order_start l r
    by_cases hlt : L.start l < L.start r
    · refine ⟨l, left, r :: right, by simp [Union.first, ho.2 hlt], hl.tail, hr, hl.head.1,
        hl.head.2.1, by simp; omega, ⟨l, by simp, rfl⟩, by simp +contextual, by simp,
        hl.head.2.2.2, ?_, ?_⟩
      · intro x hx
        rcases List.mem_cons.1 hx with rfl | hx
        · grind
        · have := hr.head.2.2.2 x hx
          grind
      · intro k
        simp only [List.mem_cons, exists_eq_or_imp]
        grind
    · refine ⟨r, l :: left, right, ?_, hl, hr.tail, hr.head.1,
        hr.head.2.1, by simp; omega, ⟨r, by simp, rfl⟩, by simp, by simp +contextual, ?_,
        hr.head.2.2.2, ?_⟩
      · have : ¬ (RangeOrder.orderStart l r).isLT = true := fun h => hlt (ho.1 h)
        simp [Union.first, this]
      · intro x hx
        rcases List.mem_cons.1 hx with rfl | hx
        · grind
        · have := hl.head.2.2.2 x hx
          grind
      · intro k
        simp only [List.mem_cons, exists_eq_or_imp]
        grind

/-- The whole `Union` iterator. -/
theorem union_spec : ∀ (n : Nat) (left right : List R), left.length + right.length ≤ n →
    L.Sorted left → L.Sorted right →
    ∃ l, Yields Union.next (⟨left, right⟩ : Union R) l ∧ L.Sorted l ∧
      l.length ≤ left.length + right.length ∧
      (∀ r ∈ l, ∃ x ∈ left ++ right, L.start r = L.start x) ∧
      ∀ k, (∃ r ∈ l, L.mem r k) ↔ (∃ x ∈ left, L.mem x k) ∨ ∃ x ∈ right, L.mem x k := by
  intro n
  induction n with
  | zero =>
    intro left right hn _ _
    obtain ⟨rfl, rfl⟩ : left = [] ∧ right = [] := by
      constructor <;> apply List.eq_nil_of_length_eq_zero <;> omega
    refine ⟨[], Yields.nil (fun s => s = (⟨[], []⟩ : Union R)) ?_ rfl, .nil, by simp, by simp,
      by simp⟩
    rintro s rfl
    exact ⟨rfl, rfl⟩
  | succ n ih =>
    intro left right hn hl hr
    rcases first_spec hl hr with ⟨rfl, rfl, _⟩ | ⟨range, left', right', f1, f2, f3, f4, f5, f6, f7,
        f8, f9, f10, f11, f12⟩
    · exact ih [] [] (by simp) .nil .nil
    · obtain ⟨r1, l1, l2, g1, g2, g3, g4, g5, g6, g7, g8, g9, g10, g11⟩ :=
        mergeLoop_spec _ range left' right' rfl f4 f5 f2 f3 f10 f11
      have hlen1 := g2.length_le
      have hlen2 := g3.length_le
      obtain ⟨l, i1, i2, i3, i4, i5⟩ := ih l1 l2 (by omega) g4 g5
      refine ⟨r1 :: l, Yields.cons ?_ i1, ⟨?_, ?_, ?_⟩, ?_, ?_, ?_⟩
      · simp [Union.next, f1, g1]
      · intro r hr'
        rcases List.mem_cons.1 hr' with rfl | hr'
        · exact g6
        · exact i2.good r hr'
      · intro r hr'
        rcases List.mem_cons.1 hr' with rfl | hr'
        · exact g7
        · exact i2.valid r hr'
      · refine List.pairwise_cons.2 ⟨fun s hs => ?_, i2.sorted⟩
        obtain ⟨x, hx, he⟩ := i4 s hs
        rw [he]
        rcases List.mem_append.1 hx with hx | hx
        · exact g9 x hx
        · exact g10 x hx
      · simp only [List.length_cons]
        omega
      · intro r hr'
        rcases List.mem_cons.1 hr' with rfl | hr'
        · obtain ⟨x, hx, rfl⟩ := f7
          exact ⟨x, hx, g8⟩
        · obtain ⟨x, hx, he⟩ := i4 r hr'
          refine ⟨x, ?_, he⟩
          rcases List.mem_append.1 hx with hx | hx
          · exact List.mem_append_left _ (f8 x (g2.subset hx))
          · exact List.mem_append_right _ (f9 x (g3.subset hx))
      · intro k
        rw [← f12, ← g11, ← i5]
        simp only [List.mem_cons, exists_eq_or_imp]

/-! ### Intersection -/

variable (L) in
/-- Non-empty ranges in order, with room between them. -/
structure Spaced (l : List R) : Prop where
  valid : ∀ r ∈ l, L.bel r (L.start r)
  apart : l.Pairwise L.Apart

theorem Spaced.tail {a : R} {l : List R} (h : L.Spaced (a :: l)) : L.Spaced l :=
  ⟨fun r hr => h.valid r (by simp [hr]), (List.pairwise_cons.1 h.apart).2⟩

theorem Spaced.nil : L.Spaced [] := ⟨by simp, .nil⟩

/-- The whole `Intersection` iterator. -/
theorem intersection_spec : ∀ (n : Nat) (left right : List R), left.length + right.length ≤ n →
    L.Spaced left → L.Spaced right →
    ∃ l, Yields Intersection.next (⟨left, right⟩ : Intersection R) l ∧ L.Spaced l ∧
      (∀ r ∈ l, L.good r) ∧
      l.length ≤ left.length + right.length ∧
      (∀ r ∈ l, (∃ x ∈ left, L.start x ≤ L.start r) ∧ ∃ x ∈ right, L.start x ≤ L.start r) ∧
      ∀ k, (∃ r ∈ l, L.mem r k) ↔ (∃ x ∈ left, L.mem x k) ∧ ∃ x ∈ right, L.mem x k := by
  intro n
  induction n with
  | zero =>
    intro left right hn _ _
    obtain ⟨rfl, rfl⟩ : left = [] ∧ right = [] := by
      constructor <;> apply List.eq_nil_of_length_eq_zero <;> omega
    refine ⟨[], Yields.nil (fun s => s = (⟨[], []⟩ : Intersection R)) ?_ rfl, .nil, by simp,
      by simp, by simp, by simp⟩
    rintro s rfl
    simp [Intersection.next, Intersection.nextLoop]
  | succ n ih =>
    intro left right hn hl hr
    match left, right with
    | [], right =>
      refine ⟨[], Yields.nil (fun s => s = (⟨[], right⟩ : Intersection R)) ?_ rfl, .nil, by simp,
        by simp, by simp, by simp⟩
      rintro s rfl
      simp [Intersection.next, Intersection.nextLoop]
    | l :: left, [] =>
      refine ⟨[], Yields.nil (fun s => s = (⟨l :: left, []⟩ : Intersection R)) ?_ rfl, .nil,
        by simp, by simp, by simp, by simp⟩
      rintro s rfl
      simp [Intersection.next, Intersection.nextLoop]
    | a :: left, b :: right =>
      have ha := List.pairwise_cons.1 hl.apart
      have hb := List.pairwise_cons.1 hr.apart
      have ho := L.order_end a b
      by_cases hlt : L.stop a < L.stop b
      · obtain ⟨l, i1, i2, i3, i4, i5, i6⟩ :=
          ih left (b :: right) (by simp only [List.length_cons] at hn ⊢; omega) hl.tail hr
        -- nothing after `b` meets `a`
        have hdis : ∀ k, L.mem a k → ∀ x ∈ right, ¬ L.mem x k := by
          intro k hk x hx hk'
          exact L.apart_not_bel (hb.1 x hx)
            (L.bel_mono (L.bel_stop (by grind) hk.2) hk'.1)
        cases hi : RangeIntersect.intersect a b with
        | none =>
          have hn := L.inter_none hi
          refine ⟨l, ?_, i2, i3, by simp only [List.length_cons] at i4 ⊢; omega, ?_, ?_⟩
          · intro m
            rw [← i1 m]
            cases m with
            | zero => rfl
            | succ m =>
              have : Intersection.next (⟨a :: left, b :: right⟩ : Intersection R) =
                  Intersection.next ⟨left, b :: right⟩ := by
                simp only [Intersection.next]
                rw [Intersection.nextLoop]
                simp [ho.2 hlt, hi]
              simp [calls, this]
          · intro r hr'
            obtain ⟨⟨x, hx, hx'⟩, hy⟩ := i5 r hr'
            exact ⟨⟨x, by simp [hx], hx'⟩, hy⟩
          · intro k
            rw [i6]
            have h1 := hn k
            have h2 := hdis k
            simp only [List.mem_cons, exists_eq_or_imp]
            unfold mem at *
            grind
        | some c =>
          obtain ⟨c1, c2, c3, c4, c5, c6, c7⟩ := L.inter_some hi
          refine ⟨c :: l, Yields.cons ?_ i1, ⟨?_, ?_⟩, ?_, ?_, ?_, ?_⟩
          · simp only [Intersection.next]
            rw [Intersection.nextLoop]
            simp [ho.2 hlt, hi]
          · intro r hr'
            rcases List.mem_cons.1 hr' with rfl | hr'
            · exact c2
            · exact i2.valid r hr'
          · refine List.pairwise_cons.2 ⟨fun s hs => ?_, i2.apart⟩
            obtain ⟨⟨x, hx, hx'⟩, _⟩ := i5 s hs
            exact L.apart_mono (ha.1 x hx) c5 hx'
          · intro r hr'
            rcases List.mem_cons.1 hr' with rfl | hr'
            · exact c1
            · exact i3 r hr'
          · simp only [List.length_cons] at i4 ⊢; omega
          · intro r hr'
            rcases List.mem_cons.1 hr' with rfl | hr'
            · exact ⟨⟨a, by simp, c3⟩, ⟨b, by simp, c4⟩⟩
            · obtain ⟨⟨x, hx, hx'⟩, hy⟩ := i5 r hr'
              exact ⟨⟨x, by simp [hx], hx'⟩, hy⟩
          · intro k
            have h1 := c7 k
            have h2 := hdis k
            have h3 := i6 k
            simp only [List.mem_cons, exists_eq_or_imp] at h3 ⊢
            unfold mem at *
            rw [h1, h3]
            grind
      · have hge : L.stop b ≤ L.stop a := by grind
        have ho' : (RangeOrder.orderEnd a b).isLT = false := by
          exact Bool.eq_false_iff.2 fun h => hlt (ho.1 h)
        obtain ⟨l, i1, i2, i3, i4, i5, i6⟩ :=
          ih (a :: left) right (by simp only [List.length_cons] at hn ⊢; omega) hl hr.tail
        have hdis : ∀ k, L.mem b k → ∀ x ∈ left, ¬ L.mem x k := by
          intro k hk x hx hk'
          exact L.apart_not_bel (ha.1 x hx)
            (L.bel_mono (L.bel_stop hge hk.2) hk'.1)
        cases hi : RangeIntersect.intersect a b with
        | none =>
          have hn := L.inter_none hi
          refine ⟨l, ?_, i2, i3, by simp only [List.length_cons] at i4 ⊢; omega, ?_, ?_⟩
          · intro m
            rw [← i1 m]
            cases m with
            | zero => rfl
            | succ m =>
              have : Intersection.next (⟨a :: left, b :: right⟩ : Intersection R) =
                  Intersection.next ⟨a :: left, right⟩ := by
                simp only [Intersection.next]
                rw [Intersection.nextLoop]
                simp [ho', hi]
              simp [calls, this]
          · intro r hr'
            obtain ⟨hy, ⟨x, hx, hx'⟩⟩ := i5 r hr'
            exact ⟨hy, ⟨x, by simp [hx], hx'⟩⟩
          · intro k
            rw [i6]
            have h1 := hn k
            have h2 := hdis k
            simp only [List.mem_cons, exists_eq_or_imp]
            unfold mem at *
            grind
        | some c =>
          obtain ⟨c1, c2, c3, c4, c5, c6, c7⟩ := L.inter_some hi
          refine ⟨c :: l, Yields.cons ?_ i1, ⟨?_, ?_⟩, ?_, ?_, ?_, ?_⟩
          · simp only [Intersection.next]
            rw [Intersection.nextLoop]
            simp [ho', hi]
          · intro r hr'
            rcases List.mem_cons.1 hr' with rfl | hr'
            · exact c2
            · exact i2.valid r hr'
          · refine List.pairwise_cons.2 ⟨fun s hs => ?_, i2.apart⟩
            obtain ⟨_, ⟨x, hx, hx'⟩⟩ := i5 s hs
            exact L.apart_mono (hb.1 x hx) c6 hx'
          · intro r hr'
            rcases List.mem_cons.1 hr' with rfl | hr'
            · exact c1
            · exact i3 r hr'
          · simp only [List.length_cons] at i4 ⊢; omega
          · intro r hr'
            rcases List.mem_cons.1 hr' with rfl | hr'
            · exact ⟨⟨a, by simp, c3⟩, ⟨b, by simp, c4⟩⟩
            · obtain ⟨hy, ⟨x, hx, hx'⟩⟩ := i5 r hr'
              exact ⟨hy, ⟨x, by simp [hx], hx'⟩⟩
          · intro k
            have h1 := c7 k
            have h2 := hdis k
            have h3 := i6 k
            simp only [List.mem_cons, exists_eq_or_imp] at h3 ⊢
            unfold mem at *
            rw [h1, h3]
            grind

end OpsLaws

/-! ### The two range types -/

section
variable {K : Type} [LE K] [LT K] [DecidableLE K] [DecidableLT K]
  [Std.IsLinearPreorder K] [Std.LawfulOrderLT K]

theorem kcmp_isLT (a b : K) : (kcmp a b).isLT = true ↔ a < b := by
  unfold kcmp
  split
  · simpa [Ordering.isLT]
  · split <;> simpa [Ordering.isLT]

/-- Half-open ranges. -/
def Range.laws : OpsLaws (Range K) K where
  start := Range.start
  stop := Range.stop
  bel r k := k < r.stop
  good _ := True
  Apart r s := r.stop < s.start
  bel_mono := by grind
  bel_stop := by grind
  order_start r s := kcmp_isLT _ _
  order_end r s := kcmp_isLT _ _
  merge_some {r s t} _ _ h := by
    simp only [RangeMerge.merge, Range.merge, Range.contains] at h
    grind
  merge_none {r s} _ _ h := by
    simp only [RangeMerge.merge, Range.merge, Range.contains] at h
    grind
  inter_some {r s t} h := by
    simp only [RangeIntersect.intersect, Range.intersect] at h
    split at h
    · cases h
    · cases h
      simp only [rmax, rmin] at *
      grind
  inter_none {r s} h := by
    simp only [RangeIntersect.intersect, Range.intersect] at h
    split at h
    · simp only [rmax, rmin] at *
      grind
    · cases h
  apart_mono := by grind
  apart_not_bel := by grind

/-- Inclusive ranges, not exhausted. -/
def RangeInclusive.laws : OpsLaws (RangeInclusive K) K where
  start := RangeInclusive.start
  stop := RangeInclusive.stop
  bel r k := k ≤ r.stop
  good r := r.exhausted = false
  Apart r s := r.stop < s.start ∧ ¬ Next r.stop s.start
  bel_mono := by grind
  bel_stop := by grind
  order_start r s := kcmp_isLT _ _
  order_end r s := kcmp_isLT _ _
  merge_some {r s t} hr _ h := by
    simp only [RangeMerge.merge, RangeInclusive.merge, RangeInclusive.contains, hr,
      Bool.false_eq_true, if_false] at h
    split at h
    · cases h
    · split at h
      · cases h
        simp only [RangeInclusive.mk'_start, RangeInclusive.mk'_stop,
          RangeInclusive.mk'_exhausted]
        grind
      · cases h
        grind
  merge_none {r s} hr _ h := by
    simp only [RangeMerge.merge, RangeInclusive.merge, RangeInclusive.contains, hr] at h
    grind
  inter_some {r s t} h := by
    simp only [RangeIntersect.intersect, RangeInclusive.intersect] at h
    split at h
    · cases h
    · cases h
      simp only [RangeInclusive.mk'_start, RangeInclusive.mk'_stop,
        RangeInclusive.mk'_exhausted, rmax, rmin] at *
      grind
  inter_none {r s} h := by
    simp only [RangeIntersect.intersect, RangeInclusive.intersect] at h
    split at h
    · simp only [rmax, rmin] at *
      grind
    · cases h
  apart_mono {r r' s s'} h h1 h2 := by
    refine ⟨by grind, fun hn => h.2 ⟨h.1, fun d hd => ?_⟩⟩
    have := hn.2 d (by grind)
    grind
  apart_not_bel := by grind

end
end Verif

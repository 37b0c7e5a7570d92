import Verif.Proof.OpsExact

/-!
# How many ranges `Union` and `Intersection` yield

The ranges of two sequences and the pairs of them that share a key make up a graph without
cycles.  `Intersection` yields its edges, `Union` its components.
-/
set_option linter.unusedSectionVars false

namespace Verif
open Spec

namespace Spec

/-- the number of pairs of a member of `xs` and a member of `ys` with `p` -/
def pairs {A B : Type} (p : A → B → Bool) (xs : List A) (ys : List B) : Nat :=
  (xs.map fun x => ys.countP (p x)).sum

end Spec

section
variable {A B : Type} {p : A → B → Bool}

theorem pairs_nil (ys : List B) : pairs p [] ys = 0 := rfl

theorem pairs_cons (x : A) (xs : List A) (ys : List B) :
    pairs p (x :: xs) ys = ys.countP (p x) + pairs p xs ys := by
  simp [pairs]

theorem pairs_nil_right (xs : List A) : pairs p xs [] = 0 := by
  induction xs with
  | nil => rfl
  | cons x xs ih => rw [pairs_cons, ih]; rfl

theorem pairs_append (xs xs' : List A) (ys : List B) :
    pairs p (xs ++ xs') ys = pairs p xs ys + pairs p xs' ys := by
  simp [pairs, List.map_append, List.sum_append]

theorem pairs_append_right (xs : List A) (ys ys' : List B) :
    pairs p xs (ys ++ ys') = pairs p xs ys + pairs p xs ys' := by
  induction xs with
  | nil => rfl
  | cons x xs ih => simp only [pairs_cons, ih, List.countP_append]; omega

theorem pairs_cons_right (xs : List A) (y : B) (ys : List B) :
    pairs p xs (y :: ys) = xs.countP (fun x => p x y) + pairs p xs ys := by
  induction xs with
  | nil => rfl
  | cons x xs ih => simp only [pairs_cons, ih, List.countP_cons]; omega

theorem pairs_zero {xs : List A} {ys : List B} (h : ∀ x ∈ xs, ∀ y ∈ ys, p x y = false) :
    pairs p xs ys = 0 := by
  induction xs with
  | nil => rfl
  | cons x xs ih =>
    rw [pairs_cons, ih fun x' hx' => h x' (by simp [hx']), Nat.add_zero, List.countP_eq_zero]
    intro y hy
    simp [h x (by simp) y hy]

theorem pairs_congr {q : A → B → Bool} {xs : List A} {ys : List B}
    (h : ∀ x ∈ xs, ∀ y ∈ ys, p x y = q x y) : pairs p xs ys = pairs q xs ys := by
  induction xs with
  | nil => rfl
  | cons x xs ih =>
    rw [pairs_cons, pairs_cons, ih fun x' hx' => h x' (by simp [hx'])]
    congr 1
    apply List.countP_congr
    intro y hy
    rw [h x (by simp) y hy]

/-- exactly one member passes -/
theorem countP_one {q : A → Bool} : ∀ {l : List A} {a : A}, a ∈ l → q a = true →
    l.Pairwise (fun x y => ¬ (q x = true ∧ q y = true)) → l.countP q = 1 := by
  intro l
  induction l with
  | nil => intro a h; cases h
  | cons x l ih =>
    intro a ha hq hp
    have hp := List.pairwise_cons.1 hp
    rw [List.countP_cons]
    by_cases hx : q x = true
    · rw [if_pos hx, List.countP_eq_zero.2 fun y hy h => hp.1 y hy ⟨hx, h⟩]
    · rw [if_neg hx, Nat.add_zero]
      rcases List.mem_cons.1 ha with rfl | ha
      · exact absurd hq hx
      · exact ih ha hq hp.2

/-- if no two members of a list share a partner, there are at least as many partners -/
theorem length_le_of_partners {rel : A → B → Prop} : ∀ {l : List A} {l' : List B},
    l.Pairwise (fun a a' => ∀ b, ¬ (rel a b ∧ rel a' b)) → (∀ a ∈ l, ∃ b ∈ l', rel a b) →
    l.length ≤ l'.length := by
  intro l
  induction l with
  | nil => intros; simp
  | cons a l ih =>
    intro l' hp h
    have hp := List.pairwise_cons.1 hp
    obtain ⟨b, hb, hab⟩ := h a (by simp)
    obtain ⟨s, t, rfl⟩ := List.append_of_mem hb
    have := ih (l' := s ++ t) hp.2 fun a' ha' => by
      obtain ⟨b', hb', h'⟩ := h a' (by simp [ha'])
      refine ⟨b', ?_, h'⟩
      have hne : b' ≠ b := by
        rintro rfl
        exact hp.1 a' ha' b' ⟨hab, h'⟩
      simp only [List.mem_append, List.mem_cons] at hb' ⊢
      grind
    simp only [List.length_append, List.length_cons] at this ⊢
    omega

/-- if nobody has two partners, counting pairs is counting those who have one -/
theorem pairs_eq_countP {xs : List A} {ys : List B}
    (h : ∀ x ∈ xs, ys.Pairwise fun y y' => ¬ (p x y = true ∧ p x y' = true)) :
    pairs p xs ys = xs.countP fun x => ys.any (p x) := by
  induction xs with
  | nil => rfl
  | cons x xs ih =>
    rw [pairs_cons, ih fun x' hx' => h x' (by simp [hx']), List.countP_cons, Nat.add_comm]
    congr 1
    split
    · rename_i ha
      obtain ⟨y, hy, hq⟩ := List.any_eq_true.1 ha
      exact countP_one hy hq (h x (by simp))
    · rename_i ha
      refine List.countP_eq_zero.2 fun y hy hq => ha (List.any_eq_true.2 ⟨y, hy, hq⟩)

theorem pairs_or {q q' : A → B → Bool} {xs : List A} {ys : List B}
    (h : ∀ x ∈ xs, ∀ y ∈ ys, p x y = (q x y || q' x y) ∧ ¬ (q x y = true ∧ q' x y = true)) :
    pairs p xs ys = pairs q xs ys + pairs q' xs ys := by
  induction xs with
  | nil => rfl
  | cons x xs ih =>
    have hx := h x (by simp)
    have : ys.countP (p x) = ys.countP (q x) + ys.countP (q' x) := by
      clear ih h
      induction ys with
      | nil => rfl
      | cons y ys ih =>
        have h1 := hx y (by simp)
        have h2 := ih fun y hy => hx y (by simp [hy])
        simp only [List.countP_cons, h2, h1.1]
        cases h3 : q x y <;> cases h4 : q' x y <;> simp_all <;> omega
    rw [pairs_cons, pairs_cons, pairs_cons, ih fun x' hx' => h x' (by simp [hx']), this]
    omega

theorem pairs_swap (xs : List A) (ys : List B) :
    pairs p xs ys = pairs (fun y x => p x y) ys xs := by
  induction xs with
  | nil => rw [pairs_nil, pairs_nil_right]
  | cons x xs ih => rw [pairs_cons, pairs_cons_right, ih]

end

/-! ### Two sequences and the components they make up -/

section
variable {R K : Type} [LE K] [LT K] [Std.IsLinearPreorder K] [Std.LawfulOrderLT K]
  {start : R → K} {bel : R → K → Prop}

/-- ranges in order, none of which reaches the next -/
structure InOrder (start : R → K) (bel : R → K → Prop) (l : List R) : Prop where
  mono : ∀ r j k, bel r k → j ≤ k → bel r j
  valid : ∀ r ∈ l, bel r (start r)
  sorted : l.Pairwise fun r s => ¬ bel r (start s)

theorem InOrder.lt {l : List R}
    (h : InOrder start bel l) : l.Pairwise fun r s => start r < start s :=
  h.sorted.imp_of_mem fun {r s} hr _ hn => by
    apply Classical.byContradiction
    intro hlt
    exact hn (h.mono _ _ _ (h.valid r hr) (by grind))

/-- a range that reaches the start of another comes after it or is it -/
theorem InOrder.reaches {l : List R} (h : InOrder start bel l) {r s : R} (hr : r ∈ l) (hs : s ∈ l)
    (hb : bel r (start s)) :
    s = r ∨ start s < start r := by
  have h1 := h.sorted
  have h2 := h.lt
  rw [List.pairwise_iff_getElem] at h1 h2
  obtain ⟨i, hi, rfl⟩ := List.mem_iff_getElem.1 hr
  obtain ⟨j, hj, rfl⟩ := List.mem_iff_getElem.1 hs
  rcases Nat.lt_trichotomy i j with hij | rfl | hij
  · exact absurd hb (h1 i j hi hj hij)
  · exact Or.inl rfl
  · exact Or.inr (h2 j i hj hi hij)

/-- The ranges `xs` and `ys` and the pairs of them that meet make up a graph without cycles: if
`us` are its components, there are as many of them as there are ranges, less the pairs. -/
theorem components_count {meets : R → R → Bool}
    {xs ys us : List R} (hx : InOrder start bel xs) (hy : InOrder start bel ys)
    (hu : InOrder start bel us)
    (hm : ∀ x ∈ xs, ∀ y ∈ ys, meets x y = true ↔ (start x ≤ start y ∧ bel x (start y)) ∨
      (start y ≤ start x ∧ bel y (start x)))
    (inside : ∀ x ∈ xs ++ ys, ∃ u ∈ us, start u ≤ start x ∧ ∀ k, bel x k → bel u k)
    (begins : ∀ u ∈ us, ∃ x ∈ xs ++ ys, start x ≤ start u ∧ start u ≤ start x)
    (linked : ∀ x ∈ xs ++ ys, ∀ u ∈ us, start u < start x → bel u (start x) →
      ∃ w ∈ xs ++ ys, start w < start x ∧ bel w (start x)) :
    us.length + pairs meets xs ys = xs.length + ys.length := by
  classical
  have mono : ∀ {r j k}, bel r k → j ≤ k → bel r j := @hx.mono
  let p : R → R → Bool := fun x y => decide (start y ≤ start x ∧ bel y (start x))
  let q : R → R → Bool := fun x y => decide (start x < start y ∧ bel x (start y))
  have e0 : pairs meets xs ys = pairs p xs ys + pairs q xs ys := by
    refine pairs_or fun x hx' y hy' => ?_
    have h1 := hm x hx' y hy'
    have h2 := hx.valid x hx'
    have h3 := hy.valid y hy'
    have h4 := @mono x (start y) (start x)
    have h5 := @mono y (start x) (start y)
    rw [Bool.eq_iff_iff]
    simp only [p, q, Bool.or_eq_true, decide_eq_true_eq, h1]
    grind
  have e1 : pairs p xs ys = xs.countP fun x => ys.any (p x) := by
    refine pairs_eq_countP fun x _ => hy.sorted.imp fun {y y'} hn hc => hn ?_
    simp only [p, decide_eq_true_eq] at hc
    exact mono hc.1.2 hc.2.1
  have e2 : pairs q xs ys = ys.countP fun y => xs.any fun x => q x y := by
    rw [pairs_swap]
    refine pairs_eq_countP fun y _ => hx.sorted.imp fun {x x'} hn hc => hn ?_
    simp only [q, decide_eq_true_eq] at hc
    exact mono hc.1.2 (by grind)
  -- the first range of each component
  let heads := (xs.filter fun x => !ys.any (p x)) ++ ys.filter fun y => !xs.any fun x => q x y
  have e3 : heads.length + pairs meets xs ys = xs.length + ys.length := by
    have c1 := List.length_eq_countP_add_countP (l := xs) (fun x => ys.any (p x))
    have c2 := List.length_eq_countP_add_countP (l := ys) (fun y => xs.any fun x => q x y)
    simp only [heads, List.length_append, ← List.countP_eq_length_filter, e0, e1, e2]
    have d1 : (xs.countP fun x => !ys.any (p x)) =
        xs.countP fun x => decide ¬ (ys.any (p x)) = true := by
      congr 1; funext x; cases ys.any (p x) <;> rfl
    have d2 : (ys.countP fun y => !xs.any fun x => q x y) =
        ys.countP fun y => decide ¬ (xs.any fun x => q x y) = true := by
      congr 1; funext y; cases xs.any (fun x => q x y) <;> rfl
    omega
  have mem_heads : ∀ z, z ∈ heads ↔
      (z ∈ xs ∧ ∀ y ∈ ys, ¬ (start y ≤ start z ∧ bel y (start z))) ∨
      (z ∈ ys ∧ ∀ x ∈ xs, ¬ (start x < start z ∧ bel x (start z))) := by
    intro z
    simp only [heads, p, q, List.mem_append, List.mem_filter, Bool.not_eq_true',
      List.any_eq_false, decide_eq_true_eq]
  -- nothing before a component reaches it
  have first : ∀ u ∈ us, ∀ w ∈ xs ++ ys, start w ≤ start u → bel w (start u) →
      start u ≤ start w := by
    intro u hu' w hw h1 h2
    obtain ⟨u', hu'', i1, i2⟩ := inside w hw
    rcases hu.reaches hu'' hu' (i2 _ h2) with rfl | h3
    · exact i1
    · grind
  have le1 : us.length ≤ heads.length := by
    refine length_le_of_partners (rel := fun u z => start z ≤ start u ∧ start u ≤ start z)
      ((hu.lt).imp fun {u u'} h z hc => by grind) fun u hu' => ?_
    have right : ∀ y ∈ ys, start y ≤ start u → start u ≤ start y → y ∈ heads := by
      intro y hy' h1 h2
      refine (mem_heads y).2 (Or.inr ⟨hy', fun x hx' hc => ?_⟩)
      have := first u hu' x (by simp [hx']) (by grind) (mono hc.2 h2)
      grind
    obtain ⟨z, hz, h1, h2⟩ := begins u hu'
    rcases List.mem_append.1 hz with hz | hz
    · by_cases hh : ∀ y ∈ ys, ¬ (start y ≤ start z ∧ bel y (start z))
      · exact ⟨z, (mem_heads z).2 (Or.inl ⟨hz, hh⟩), h1, h2⟩
      · simp only [Classical.not_forall, Classical.not_not] at hh
        obtain ⟨y, hy', h3, h4⟩ := hh
        have h5 := first u hu' y (by simp [hy']) (by grind) (mono h4 h2)
        exact ⟨y, right y hy' (by grind) h5, by grind, h5⟩
    · exact ⟨z, right z hz h1 h2, h1, h2⟩
  have le2 : heads.length ≤ us.length := by
    refine length_le_of_partners (rel := fun z u => start z ≤ start u ∧ start u ≤ start z)
      (List.pairwise_append.2 ⟨?_, ?_, ?_⟩) fun z hz => ?_
    · exact ((hx.lt).filter _).imp fun {x x'} h u hc => by grind
    · exact ((hy.lt).filter _).imp fun {x x'} h u hc => by grind
    · intro x hx' y hy' u hc
      simp only [p, List.mem_filter, Bool.not_eq_true', List.any_eq_false,
        decide_eq_true_eq] at hx' hy'
      exact hx'.2 y hy'.1 ⟨by grind, mono (hy.valid y hy'.1) (by grind)⟩
    · have hz' : z ∈ xs ++ ys := by
        rcases (mem_heads z).1 hz with h | h <;> simp [h.1]
      obtain ⟨u, hu', i1, i2⟩ := inside z hz'
      refine ⟨u, hu', ?_, i1⟩
      apply Classical.byContradiction
      intro hlt
      have hv : bel z (start z) := by
        rcases List.mem_append.1 hz' with h | h
        · exact hx.valid z h
        · exact hy.valid z h
      obtain ⟨w, hw, w1, w2⟩ := linked z hz' u hu' (by grind) (i2 _ hv)
      rcases List.mem_append.1 hw with hw | hw <;> rcases (mem_heads z).1 hz with h | h
      · rcases hx.reaches hw h.1 w2 with rfl | h' <;> grind
      · exact h.2 w hw ⟨w1, w2⟩
      · exact h.2 w hw ⟨by grind, w2⟩
      · rcases hy.reaches hw h.1 w2 with rfl | h' <;> grind
  omega

end

namespace OpsLaws
variable {R K : Type} [LE K] [LT K] [Std.IsLinearPreorder K]
  [Std.LawfulOrderLT K] [RangeOrder R] [RangeMerge R] [RangeIntersect R] {L : OpsLaws R K}

/-- the two have a non-empty intersection -/
def meet (x y : R) : Bool := (RangeIntersect.intersect x y).isSome

theorem meet_iff {x y : R} (hx : L.bel x (L.start x)) (hy : L.bel y (L.start y)) :
    meet x y = true ↔ (L.start x ≤ L.start y ∧ L.bel x (L.start y)) ∨
      (L.start y ≤ L.start x ∧ L.bel y (L.start x)) := by
  unfold meet
  cases h : RangeIntersect.intersect x y with
  | none =>
    have := L.inter_none h
    have h1 := this (L.start x)
    have h2 := this (L.start y)
    simp only [Option.isSome_none, Bool.false_eq_true, false_iff]
    grind
  | some t =>
    obtain ⟨-, c2, c3, c4, -, -, c7⟩ := L.inter_some h
    simp only [Option.isSome_some, true_iff]
    obtain ⟨⟨d1, d2⟩, d3, d4⟩ := (c7 (L.start t)).1 ⟨by grind, c2⟩
    by_cases hle : L.start x ≤ L.start y
    · exact Or.inl ⟨hle, L.bel_mono d2 c4⟩
    · exact Or.inr ⟨by grind, L.bel_mono d4 c3⟩

theorem Sorted.inOrder {l : List R} (h : L.Sorted l) : InOrder L.start L.bel l :=
  ⟨fun _ _ _ => L.bel_mono, h.valid, h.sorted⟩

/-- `Union` yields as many ranges as there are in the two sequences, less one for every pair of
them that share a key. -/
theorem union_count {left right : List R} (hl : L.Sorted left) (hr : L.Sorted right) :
    ∃ l, Yields Union.next (⟨left, right⟩ : Union R) l ∧
      l.length + pairs meet left right = left.length + right.length := by
  obtain ⟨l, l1, l2, -, l4, -⟩ := union_spec _ left right (Nat.le_refl _) hl hr
  obtain ⟨l', m1, m2, m3⟩ := union_exact _ left right (Nat.le_refl _) hl hr
  obtain rfl := Yields.unique l1 m1
  refine ⟨l, l1, components_count hl.inOrder hr.inOrder l2.inOrder
    (fun x hx y hy => meet_iff (hl.valid x hx) (hr.valid y hy)) m3 (fun u hu => ?_)
    fun x hx u hu h1 h2 => m2 u hu _ h1 h2⟩
  obtain ⟨x, hx, e⟩ := l4 u hu
  exact ⟨x, hx, by grind, by grind⟩

/-- `Intersection` yields one range for every pair of ranges that share a key. -/
theorem intersection_count : ∀ (n : Nat) (left right : List R), left.length + right.length ≤ n →
    L.Spaced left → L.Spaced right →
    ∃ l, Yields Intersection.next (⟨left, right⟩ : Intersection R) l ∧
      l.length = pairs meet left right := by
  intro n
  induction n with
  | zero =>
    intro left right hn _ _
    obtain ⟨rfl, rfl⟩ : left = [] ∧ right = [] := by
      constructor <;> apply List.eq_nil_of_length_eq_zero <;> omega
    refine ⟨[], Yields.nil (fun s => s = (⟨[], []⟩ : Intersection R)) ?_ rfl, rfl⟩
    rintro s rfl
    simp [Intersection.next, Intersection.nextLoop]
  | succ n ih =>
    intro left right hn hl hr
    match left, right with
    | [], right =>
      refine ⟨[], Yields.nil (fun s => s = (⟨[], right⟩ : Intersection R)) ?_ rfl, rfl⟩
      rintro s rfl
      simp [Intersection.next, Intersection.nextLoop]
    | l :: left, [] =>
      refine ⟨[], Yields.nil (fun s => s = (⟨l :: left, []⟩ : Intersection R)) ?_ rfl,
        (pairs_nil_right _).symm⟩
      rintro s rfl
      simp [Intersection.next, Intersection.nextLoop]
    | a :: left, b :: right =>
      have ha := List.pairwise_cons.1 hl.apart
      have hb := List.pairwise_cons.1 hr.apart
      have ho := L.order_end a b
      by_cases hlt : L.stop a < L.stop b
      · obtain ⟨l, i1, i2⟩ :=
          ih left (b :: right) (by simp only [List.length_cons] at hn ⊢; omega) hl.tail hr
        -- nothing after `b` meets `a`
        have hdis : right.countP (meet a) = 0 := by
          refine List.countP_eq_zero.2 fun y hy hmt => ?_
          obtain ⟨r, h⟩ := Option.isSome_iff_exists.1 hmt
          obtain ⟨-, c2, -, c4, c5, -, -⟩ := L.inter_some h
          exact L.apart_not_bel (hb.1 y hy)
            (L.bel_mono (L.bel_stop (by grind) (L.bel_stop c5 c2)) c4)
        cases hi : RangeIntersect.intersect a b with
        | none =>
          refine ⟨l, ?_, ?_⟩
          · intro m
            rw [← i1 m]
            cases m with
            | zero => rfl
            | succ m =>
              have : Intersection.next (⟨a :: left, b :: right⟩ : Intersection R) =
                  Intersection.next ⟨left, b :: right⟩ := by
                simp only [Intersection.next]
                rw [Intersection.nextLoop]
                simp [ho.2 hlt, hi]
              simp [calls, this]
          · rw [pairs_cons, List.countP_cons, hdis, i2]
            simp [meet, hi]
        | some c =>
          refine ⟨c :: l, Yields.cons ?_ i1, ?_⟩
          · simp only [Intersection.next]
            rw [Intersection.nextLoop]
            simp [ho.2 hlt, hi]
          · rw [pairs_cons, List.countP_cons, hdis, List.length_cons, i2]
            simp [meet, hi]
            omega
      · have hge : L.stop b ≤ L.stop a := by grind
        have ho' : (RangeOrder.orderEnd a b).isLT = false := by
          exact Bool.eq_false_iff.2 fun h => hlt (ho.1 h)
        obtain ⟨l, i1, i2⟩ :=
          ih (a :: left) right (by simp only [List.length_cons] at hn ⊢; omega) hl hr.tail
        have hdis : left.countP (fun x => meet x b) = 0 := by
          refine List.countP_eq_zero.2 fun x hx hmt => ?_
          obtain ⟨r, h⟩ := Option.isSome_iff_exists.1 hmt
          obtain ⟨-, c2, c3, -, -, c6, -⟩ := L.inter_some h
          exact L.apart_not_bel (ha.1 x hx)
            (L.bel_mono (L.bel_stop hge (L.bel_stop c6 c2)) c3)
        cases hi : RangeIntersect.intersect a b with
        | none =>
          refine ⟨l, ?_, ?_⟩
          · intro m
            rw [← i1 m]
            cases m with
            | zero => rfl
            | succ m =>
              have : Intersection.next (⟨a :: left, b :: right⟩ : Intersection R) =
                  Intersection.next ⟨a :: left, right⟩ := by
                simp only [Intersection.next]
                rw [Intersection.nextLoop]
                simp [ho', hi]
              simp [calls, this]
          · rw [pairs_cons_right, List.countP_cons, hdis, i2]
            simp [meet, hi]
        | some c =>
          refine ⟨c :: l, Yields.cons ?_ i1, ?_⟩
          · simp only [Intersection.next]
            rw [Intersection.nextLoop]
            simp [ho', hi]
          · rw [pairs_cons_right, List.countP_cons, hdis, List.length_cons, i2]
            simp [meet, hi]
            omega

end OpsLaws
end Verif

import Verif.Model.TreeCmp
import Verif.Proof.Tree
import Verif.Proof.Cost

/-!
# Counting the comparisons of a search
-/
set_option linter.unusedSectionVars false
set_option linter.unusedVariables false
set_option linter.unusedSimpArgs false
namespace Verif

namespace Tree
variable {E : Type}

/-- The keys on the longest path. -/
def depth : Tree E → Nat
  | nil => 0
  | node l _ r => max l.depth r.depth + 1

theorem Spine.bounds {P : Tree E → Prop} {d s : Nat}
    (hP : ∀ t, P t → t.depth ≤ d ∧ s ≤ t.size + 1) :
    ∀ (n : Nat) (t : Tree E), Spine P n t → t.depth ≤ n + d ∧ (n + 1) * s ≤ t.size + 1
  | 0, t, h => by have := hP t h; omega
  | n + 1, nil, h => h.elim
  | n + 1, node l e r, h => by
    have h1 := hP l h.1
    have h2 := Spine.bounds hP n r h.2
    simp only [depth, size]
    rw [Nat.add_mul (n + 1) 1 s]
    omega

theorem IsNode.bounds : ∀ (h : Nat) (t : Tree E), IsNode h t → t.depth ≤ 11 * h ∧ 6 ^ h ≤ t.size + 1
  | 0, t, ht => by cases (show t = nil from ht); simp [depth, size]
  | h + 1, t, ht => by
    obtain ⟨n, h1, h2, h3⟩ := ht
    obtain ⟨h4, h5⟩ := Spine.bounds (IsNode.bounds h) n t h3
    refine ⟨by omega, ?_⟩
    have : 6 * 6 ^ h ≤ (n + 1) * 6 ^ h := Nat.mul_le_mul_right _ (by omega)
    rw [Nat.pow_succ]
    omega

/-- A B-tree of fewer than `2 * 6 ^ h - 1` entries has at most `11 * h` keys on a path. -/
theorem IsBTree.depth_le {t : Tree E} (ht : t.IsBTree) {h : Nat} (hs : t.size + 1 < 2 * 6 ^ h) :
    t.depth ≤ 11 * h := by
  rcases ht with rfl | ⟨g, n, h1, h2, h3⟩
  · simp [depth]
  · obtain ⟨h4, h5⟩ := Spine.bounds (IsNode.bounds g) n t h3
    have h6 : 2 * 6 ^ g ≤ (n + 1) * 6 ^ g := Nat.mul_le_mul_right _ (by omega)
    have h7 : 6 ^ g < 6 ^ h := by omega
    have h8 : g < h := (Nat.pow_lt_pow_iff_right (by omega)).1 h7
    omega

/-! ### Every list is the list of entries of some B-tree -/

theorem Spine.exists {P : Tree E → Prop} {a b : Nat} (hab : a ≤ b)
    (hP : ∀ l : List E, a ≤ l.length + 1 → l.length + 1 ≤ b → ∃ t, P t ∧ t.toList = l) :
    ∀ (n : Nat) (l : List E), (n + 1) * a ≤ l.length + 1 → l.length + 1 ≤ (n + 1) * b → 1 ≤ a →
      ∃ t, Spine P n t ∧ t.toList = l
  | 0, l, h1, h2, _ => by
    obtain ⟨t, h3, h4⟩ := hP l (by omega) (by omega)
    exact ⟨t, h3, h4⟩
  | n + 1, l, h1, h2, ha => by
    rw [Nat.add_mul (n + 1) 1] at h1 h2
    have h3 : (n + 1) * a ≤ (n + 1) * b := Nat.mul_le_mul_left _ hab
    have h4 : 1 * 1 ≤ (n + 1) * a := Nat.mul_le_mul (by omega) ha
    -- the first child has `x` entries
    obtain ⟨x, hx1, hx2, hx3, hx4, hx5⟩ : ∃ x, a ≤ x + 1 ∧ x + 1 ≤ b ∧ x < l.length ∧
        (n + 1) * a ≤ l.length - x ∧ l.length - x ≤ (n + 1) * b := by
      refine ⟨max (a - 1) (l.length - (n + 1) * b), ?_⟩
      omega
    obtain ⟨t1, h5, h6⟩ := hP (l.take x) (by simp; omega) (by simp; omega)
    obtain ⟨t2, h7, h8⟩ := Spine.exists hab hP n (l.drop (x + 1)) (by simp; omega)
      (by simp; omega) ha
    refine ⟨node t1 l[x] t2, ⟨h5, h7⟩, ?_⟩
    rw [toList, h6, h8, List.getElem_cons_drop, List.take_append_drop]

theorem arity_exists {A B M lo : Nat} (h : (A = 1 ∧ B = 1) ∨ 2 * A ≤ B) (hlo : 2 ≤ lo)
    (h1 : lo * A ≤ M) (h2 : M ≤ 12 * B) (h3 : lo ≤ 12) :
    ∃ n, lo ≤ n + 1 ∧ n ≤ 11 ∧ (n + 1) * A ≤ M ∧ M ≤ (n + 1) * B := by
  suffices ∀ j, ∀ lo, 2 ≤ lo → lo * A ≤ M → lo + j = 12 →
      ∃ n, lo ≤ n + 1 ∧ n ≤ 11 ∧ (n + 1) * A ≤ M ∧ M ≤ (n + 1) * B from
    this (12 - lo) lo hlo h1 (by omega)
  intro j
  induction j with
  | zero => intro lo _ h1 h3; cases (show lo = 12 by omega); exact ⟨11, by omega, by omega, h1, h2⟩
  | succ j ih =>
    intro lo hlo h1 h3
    by_cases h4 : M ≤ lo * B
    · exact ⟨lo - 1, by omega, by omega, by rw [Nat.sub_add_cancel (by omega)]; exact h1,
        by rw [Nat.sub_add_cancel (by omega)]; exact h4⟩
    · have h5 : (lo + 1) * A ≤ M := by
        rcases h with ⟨rfl, rfl⟩ | h
        · omega
        · have h6 : lo * (2 * A) ≤ lo * B := Nat.mul_le_mul_left _ h
          have h7 : (lo + 1) * A ≤ (lo * 2) * A := Nat.mul_le_mul_right _ (by omega)
          rw [← Nat.mul_assoc] at h6
          omega
      obtain ⟨n, h6, h7⟩ := ih (lo + 1) (by omega) h5 (by omega)
      exact ⟨n, by omega, h7⟩

theorem pow_gap (h : Nat) : (6 ^ h = 1 ∧ 12 ^ h = 1) ∨ 2 * 6 ^ h ≤ 12 ^ h := by
  cases h with
  | zero => exact .inl ⟨rfl, rfl⟩
  | succ h =>
    right
    have := Nat.pow_le_pow_left (show 6 ≤ 12 by omega) h
    rw [Nat.pow_succ, Nat.pow_succ]
    omega

theorem IsNode.exists : ∀ (h : Nat) (l : List E), 6 ^ h ≤ l.length + 1 → l.length + 1 ≤ 12 ^ h →
    ∃ t, IsNode h t ∧ t.toList = l
  | 0, l, _, h2 => by
    have : l = [] := by simpa using h2
    exact ⟨nil, rfl, this ▸ rfl⟩
  | h + 1, l, h1, h2 => by
    rw [Nat.pow_succ] at h1 h2
    obtain ⟨n, h3, h4, h5, h6⟩ := arity_exists (lo := 6) (pow_gap h) (by omega)
      (show 6 * 6 ^ h ≤ l.length + 1 by omega) (show l.length + 1 ≤ 12 * 12 ^ h by omega) (by omega)
    obtain ⟨t, h7, h8⟩ := Spine.exists (Nat.pow_le_pow_left (by omega) h) (IsNode.exists h) n l h5
      h6
      (Nat.pow_pos (by omega))
    exact ⟨t, ⟨n, by omega, h4, h7⟩, h8⟩

/-- Every list is the list of entries of a B-tree. -/
theorem IsBTree.exists (l : List E) : ∃ t, IsBTree t ∧ t.toList = l := by
  by_cases hl : l = []
  · exact ⟨nil, .inl rfl, hl ▸ rfl⟩
  have hl : 2 ≤ l.length + 1 := by have := List.length_pos_iff.2 hl; omega
  -- the greatest `h` for which the root can have two children
  have key : ∀ g, l.length + 1 < 2 * 6 ^ g →
      ∃ h, 2 * 6 ^ h ≤ l.length + 1 ∧ l.length + 1 < 2 * 6 ^ (h + 1) := by
    intro g
    induction g with
    | zero => intro h; simp at h; omega
    | succ g ih =>
      intro h
      by_cases h1 : l.length + 1 < 2 * 6 ^ g
      · exact ih h1
      · exact ⟨g, by omega, h⟩
  obtain ⟨h, h1, h2⟩ := key (l.length + 1) (by
    have := Nat.lt_pow_self (n := l.length + 1) (show 1 < 6 by omega)
    omega)
  have h3 : l.length + 1 ≤ 12 * 12 ^ h := by
    have := Nat.pow_le_pow_left (show 6 ≤ 12 by omega) h
    rw [Nat.pow_succ] at h2
    omega
  obtain ⟨n, h4, h5, h6, h7⟩ := arity_exists (lo := 2) (pow_gap h) (by omega) h1 h3 (by omega)
  obtain ⟨t, h8, h9⟩ := Spine.exists (Nat.pow_le_pow_left (by omega) h) (IsNode.exists h) n l h6 h7
    (Nat.pow_pos (by omega))
  exact ⟨t, .inr ⟨h, n, by omega, h5, h8⟩, h9⟩

/-- A way of keeping every tree a B-tree. -/
theorem Shapes.balanced_exists : ∃ shapes : Shapes E, ∀ i t, (shapes.reshape i t).IsBTree :=
  ⟨⟨fun _ t => (IsBTree.exists t.toList).choose, fun _ t =>
    (IsBTree.exists t.toList).choose_spec.2⟩,
    fun _ t => (IsBTree.exists t.toList).choose_spec.1⟩

/-! ### The searches -/
section
variable {K : Type} [LE K] [LT K] [DecidableLE K] [DecidableLT K] {R V : Type}

theorem fromLowerC_eq (key : R → K) : ∀ (t : Tree (R × V)) (b : SearchBound K),
    (fromLowerC key b t).1 = fromLower key b t ∧ (fromLowerC key b t).2 ≤ t.depth
  | nil, b => ⟨rfl, Nat.le_refl _⟩
  | node l e r, b => by
    have hb : b.cmps ≤ 1 := by cases b <;> simp [SearchBound.cmps]
    unfold fromLowerC fromLower
    generalize b.lower (key e.1) = p
    obtain ⟨c, b'⟩ := p
    have h1 := fromLowerC_eq key l b'
    have h2 := fromLowerC_eq key r b'
    cases c <;> simp only [depth] <;> refine ⟨by simp [h1.1, h2.1], ?_⟩ <;> omega

theorem toUpperC_eq (key : R → K) : ∀ (t : Tree (R × V)) (b : SearchBound K),
    (toUpperC key b t).1 = toUpper key b t ∧ (toUpperC key b t).2 ≤ t.depth
  | nil, b => ⟨rfl, Nat.le_refl _⟩
  | node l e r, b => by
    have hb : b.cmps ≤ 1 := by cases b <;> simp [SearchBound.cmps]
    unfold toUpperC toUpper
    generalize b.upper (key e.1) = p
    obtain ⟨c, b'⟩ := p
    have h1 := toUpperC_eq key l b'
    have h2 := toUpperC_eq key r b'
    cases c <;> simp only [depth] <;> refine ⟨by simp [h1.1, h2.1], ?_⟩ <;> omega

theorem fromLowerC_all (key : R → K) : ∀ t : Tree (R × V), (fromLowerC key .allIncluded t).2 = 0
  | nil => rfl
  | node l e r => by
    simpa [fromLowerC, SearchBound.lower, SearchBound.cmps] using fromLowerC_all key l

theorem toUpperC_all (key : R → K) : ∀ t : Tree (R × V), (toUpperC key .allIncluded t).2 = 0
  | nil => rfl
  | node l e r => by simpa [toUpperC, SearchBound.upper, SearchBound.cmps] using toUpperC_all key r

theorem betweenC_eq (key : R → K) : ∀ (t : Tree (R × V)) (lo hi : SearchBound K),
    (betweenC key lo hi t).1 = between key lo hi t ∧ (betweenC key lo hi t).2 ≤ 2 * t.depth
  | nil, lo, hi => ⟨rfl, Nat.le_refl _⟩
  | node l e r, lo, hi => by
    have hl : lo.cmps ≤ 1 := by cases lo <;> simp [SearchBound.cmps]
    have hh : hi.cmps ≤ 1 := by cases hi <;> simp [SearchBound.cmps]
    unfold betweenC between
    generalize lo.lower (key e.1) = p
    obtain ⟨c, lo'⟩ := p
    cases c with
    | true =>
      have h2 := betweenC_eq key r lo' hi
      simp only [depth]
      exact ⟨h2.1, by omega⟩
    | false =>
      simp only
      generalize hi.upper (key e.1) = p
      obtain ⟨c, hi'⟩ := p
      cases c with
      | true =>
        have h1 := fromLowerC_eq key l lo'
        have h2 := toUpperC_eq key r hi'
        simp only [depth]
        exact ⟨by rw [h1.1, h2.1], by omega⟩
      | false =>
        have h1 := betweenC_eq key l lo' hi'
        simp only [depth]
        exact ⟨h1.1, by omega⟩

/-- With one bound missing only one of the two searches compares. -/
theorem betweenC_unbounded (key : R → K) : ∀ (t : Tree (R × V)) (b : SearchBound K),
    (betweenC key .allIncluded b t).2 ≤ t.depth ∧ (betweenC key b .allIncluded t).2 ≤ t.depth
  | nil, b => ⟨Nat.le_refl _, Nat.le_refl _⟩
  | node l e r, b => by
    have hb : b.cmps ≤ 1 := by cases b <;> simp [SearchBound.cmps]
    constructor
    · unfold betweenC
      have h0 : (SearchBound.allIncluded : SearchBound K).cmps = 0 := rfl
      simp only [SearchBound.lower, h0]
      generalize b.upper (key e.1) = p
      obtain ⟨c, b'⟩ := p
      have h1 := betweenC_unbounded key l b'
      have h2 := toUpperC_eq key r b'
      have h3 := fromLowerC_all key l
      cases c <;> simp only [depth] <;> omega
    · unfold betweenC
      have h0 : (SearchBound.allIncluded : SearchBound K).cmps = 0 := rfl
      simp only [SearchBound.upper, h0]
      generalize b.lower (key e.1) = p
      obtain ⟨c, b'⟩ := p
      have h1 := betweenC_unbounded key r b'
      have h2 := fromLowerC_eq key l b'
      have h3 := toUpperC_all key r
      cases c <;> simp only [depth] <;> omega

theorem rangeC_eq (key : R → K) (lo hi : Bound K) (t : Tree (R × V)) :
    (rangeC key lo hi t).1 = range key lo hi t ∧ (rangeC key lo hi t).2 ≤ 2 * t.depth + 2 := by
  have hb : boundCmps lo hi ≤ 2 := by cases lo <;> cases hi <;> simp [boundCmps]; split <;> omega
  have h := betweenC_eq key t (.ofBound lo) (.ofBound hi)
  unfold rangeC range
  split
  · exact ⟨rfl, by simp only; omega⟩
  · exact ⟨by simp only [h.1], by simp only; omega⟩

theorem rangeC_unbounded (key : R → K) (b : Bound K) (t : Tree (R × V)) :
    (rangeC key .unbounded b t).2 ≤ t.depth ∧ (rangeC key b .unbounded t).2 ≤ t.depth := by
  have h := betweenC_unbounded key t (.ofBound b)
  have h1 : boundCmps b .unbounded = 0 := by cases b <;> rfl
  unfold rangeC
  refine ⟨?_, ?_⟩
  · split
    · simp [boundCmps]
    · simpa [boundCmps, SearchBound.ofBound] using h.1
  · split
    · simp [h1]
    · simpa [h1, SearchBound.ofBound] using h.2

theorem containsC_eq (key : R → K) (k : K) : ∀ t : Tree (R × V),
    (containsC key k t).1 = contains key k t ∧ (containsC key k t).2 ≤ t.depth
  | nil => ⟨rfl, Nat.le_refl _⟩
  | node l e r => by
    have h1 := containsC_eq key k l
    have h2 := containsC_eq key k r
    unfold containsC contains
    simp only [depth]
    split
    · exact ⟨h1.1, by simp only; omega⟩
    · split
      · exact ⟨h2.1, by simp only; omega⟩
      · exact ⟨rfl, by simp only; omega⟩

end

end Tree

theorem BTreeMap.length_insert_le {K : Type} [LE K] [LT K] [DecidableLE K] [DecidableLT K]
    {R V : Type}
    (key : R → K) (r : R) (v : V) (l : List (R × V)) :
    (BTreeMap.insert key r v l).length ≤ l.length + 1 := by
  induction l with
  | nil => simp [BTreeMap.insert]
  | cons e t ih =>
    unfold BTreeMap.insert
    split
    · simp
    · split <;> simp <;> omega

theorem Cr.cmps_le {K : Type} [LE K] [LT K] [DecidableLE K] [DecidableLT K]
    [Std.IsLinearPreorder K] [Std.LawfulOrderLT K] {R V α : Type} (key : R → K)
    (shapes : Tree.Shapes (R × V)) (hs : ∀ i t, (shapes.reshape i t).IsBTree) (h : Nat)
    (c : Cr K R V α) : ∀ (i : Nat) (t : Tree (R × V)), Laid key t.toList → t.IsBTree →
    t.toList.length + (c.cost key t.toList).puts + 1 < 2 * 6 ^ h →
    c.cmps key shapes i t ≤ (22 * h + 2) * (c.cost key t.toList).searches +
      11 * h * ((c.cost key t.toList).puts + (c.cost key t.toList).deletes) := by
  induction c with
  | ret a => intro i t _ _ _; exact Nat.zero_le _
  | panic p => intro i t _ _ _; exact Nat.zero_le _
  | call next ih => intro i t hl hb hc; exact ih i t hl hb hc
  | size next ih =>
    intro i t hl hb hc
    simp only [Cr.cmps, Cr.cost, Tree.size_eq] at hc ⊢
    exact ih _ i t hl hb hc
  | search lo hi next ih =>
    intro i t hl hb hc
    have hd := hb.depth_le (h := h) (by rw [Tree.size_eq]; omega)
    have h1 := Tree.rangeC_eq key lo hi t
    simp only [Cr.cmps, Cr.cost, Cost.add_searches, Cost.add_puts, Cost.add_deletes] at hc ⊢
    generalize t.rangeC key lo hi = p at h1
    obtain ⟨o, n⟩ := p
    simp only [Tree.range_eq hl] at h1
    obtain ⟨h1, h2⟩ := h1
    rw [← h1] at hc ⊢
    rw [Nat.mul_add, Nat.mul_one]
    cases o with
    | error p => simp only [Cost.zero_searches, Cost.zero_puts, Cost.zero_deletes]; omega
    | ok l =>
      have := ih l i t hl hb (by simp only at hc; omega)
      simp only [Nat.zero_add]
      omega
  | put r v next ih =>
    intro i t hl hb hc
    have hd := hb.depth_le (h := h) (by rw [Tree.size_eq]; omega)
    have h1 := Tree.containsC_eq key (key r) t
    have e : (shapes.reshape i (t.insert key r v)).toList = BTreeMap.insert key r v t.toList := by
      rw [shapes.keeps, Tree.insert_toList key r v t hl]
    have hlen := BTreeMap.length_insert_le key r v t.toList
    simp only [Cr.cmps, Cr.cost, Cost.add_searches, Cost.add_puts, Cost.add_deletes] at hc ⊢
    rw [Tree.contains_eq key _ t hl] at h1
    have := ih (t.containsC key (key r)).1 (i + 1) (shapes.reshape i (t.insert key r v))
      (by rw [e]; exact hl.insert r v) (hs _ _) (by rw [e, h1.1]; omega)
    rw [e, h1.1] at this
    rw [h1.1]
    rw [Nat.zero_add, Nat.zero_add, Nat.add_assoc, Nat.mul_add (11 * h) 1, Nat.mul_one]
    omega
  | delete k next ih =>
    intro i t hl hb hc
    have hd := hb.depth_le (h := h) (by rw [Tree.size_eq]; omega)
    have h1 := Tree.containsC_eq key k t
    have e : (shapes.reshape i (t.remove key k)).toList = BTreeMap.remove key k t.toList := by
      rw [shapes.keeps, Tree.remove_toList key k t hl]
    have hlen := (BTreeMap.sublist_remove (key := key) (k := k) (m := t.toList)).length_le
    simp only [Cr.cmps, Cr.cost, Cost.add_searches, Cost.add_puts, Cost.add_deletes] at hc ⊢
    have := ih (i + 1) (shapes.reshape i (t.remove key k))
      (by rw [e]; exact hl.remove k) (hs _ _) (by rw [e]; omega)
    rw [e] at this
    rw [Nat.zero_add, Nat.zero_add, Nat.add_left_comm, Nat.mul_add (11 * h) 1, Nat.mul_one]
    omega

/-- All calls together. -/
theorem Cr.cmps_le_total {K : Type} [LE K] [LT K] [DecidableLE K] [DecidableLT K]
    [Std.IsLinearPreorder K] [Std.LawfulOrderLT K] {R V α : Type} (key : R → K)
    (shapes : Tree.Shapes (R × V)) (hs : ∀ i t, (shapes.reshape i t).IsBTree) (h : Nat)
    (c : Cr K R V α) (i : Nat) (t : Tree (R × V)) (hl : Laid key t.toList) (hb : t.IsBTree)
    (hc : t.toList.length + (c.cost key t.toList).puts + 1 < 2 * 6 ^ h) :
    c.cmps key shapes i t ≤ (22 * h + 2) * (c.cost key t.toList).total := by
  have h1 := Cr.cmps_le key shapes hs h c i t hl hb hc
  have h2 : 11 * h * ((c.cost key t.toList).puts + (c.cost key t.toList).deletes) ≤
      (22 * h + 2) * ((c.cost key t.toList).puts + (c.cost key t.toList).deletes) :=
    Nat.mul_le_mul_right _ (by omega)
  unfold Cost.total
  rw [Nat.add_assoc, Nat.mul_add]
  omega

/-- The tree stays a B-tree. -/
theorem Cr.runTree_isBTree {K : Type} [LE K] [LT K] [DecidableLE K] [DecidableLT K] {R V α : Type}
    (key : R → K) (shapes : Tree.Shapes (R × V)) (hs : ∀ i t, (shapes.reshape i t).IsBTree)
    (o : Nat → Bool) (c : Cr K R V α) : ∀ s : TreeState (R × V), s.tree.IsBTree →
      (c.runTree key shapes o s).2.tree.IsBTree := by
  induction c with
  | ret a => exact fun s h => h
  | panic p => exact fun s h => h
  | call next ih =>
    intro s h
    simp only [runTree]
    split
    · exact h
    · exact ih _ h
  | size next ih => intro s h; exact ih _ s h
  | search lo hi next ih =>
    intro s h
    simp only [runTree]
    cases s.tree.range key lo hi with
    | error p => exact h
    | ok l => exact ih l s h
  | put r v next ih => intro s h; exact ih _ _ (hs _ _)
  | delete k next ih => intro s h; exact ih _ (hs _ _)

end Verif

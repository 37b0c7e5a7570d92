import Verif.Model.Tree
import Verif.Proof.BTree

/-!
# Searching a tree finds what filtering the list of its entries finds
-/
set_option linter.unusedSectionVars false
set_option linter.unusedVariables false

namespace Verif
variable {K : Type} [LE K] [LT K] [DecidableLE K] [DecidableLT K]
  [Std.IsLinearPreorder K] [Std.LawfulOrderLT K] {R V : Type}

/-- The entries are laid out in the strict order of `key`. -/
def Laid (key : R → K) (l : List (R × V)) : Prop := l.Pairwise fun a b => key a.1 < key b.1

namespace SearchBound

/-- Is `k` admitted by this bound used as a lower bound? -/
def admitsAsLower : SearchBound K → K → Bool
  | .included b, k => decide (b ≤ k)
  | .excluded b, k => decide (b < k)
  | .allIncluded, _ => true
  | .allExcluded, _ => false

/-- Is `k` admitted by this bound used as an upper bound? -/
def admitsAsUpper : SearchBound K → K → Bool
  | .included b, k => decide (k ≤ b)
  | .excluded b, k => decide (k < b)
  | .allIncluded, _ => true
  | .allExcluded, _ => false

theorem lower_right {b b' : SearchBound K} {k : K} (h : b.lower k = (true, b')) :
    b.admitsAsLower k = false ∧ (∀ j, j < k → b.admitsAsLower j = false) ∧
    (∀ j, k < j → b'.admitsAsLower j = b.admitsAsLower j) := by
  cases b <;> simp only [lower] at h <;> grind [admitsAsLower]

theorem lower_left {b b' : SearchBound K} {k : K} (h : b.lower k = (false, b')) :
    b.admitsAsLower k = true ∧ (∀ j, k < j → b.admitsAsLower j = true) ∧
    (∀ j, j < k → b'.admitsAsLower j = b.admitsAsLower j) := by
  cases b <;> simp only [lower] at h <;> grind [admitsAsLower]

theorem upper_right {b b' : SearchBound K} {k : K} (h : b.upper k = (true, b')) :
    b.admitsAsUpper k = true ∧ (∀ j, j < k → b.admitsAsUpper j = true) ∧
    (∀ j, k < j → b'.admitsAsUpper j = b.admitsAsUpper j) := by
  cases b <;> simp only [upper] at h <;> grind [admitsAsUpper]

theorem upper_left {b b' : SearchBound K} {k : K} (h : b.upper k = (false, b')) :
    b.admitsAsUpper k = false ∧ (∀ j, k < j → b.admitsAsUpper j = false) ∧
    (∀ j, j < k → b'.admitsAsUpper j = b.admitsAsUpper j) := by
  cases b <;> simp only [upper] at h <;> grind [admitsAsUpper]

theorem ofBound_lower (b : Bound K) (k : K) : (ofBound b).admitsAsLower k = b.admitsAsLower k := by
  cases b <;> rfl

theorem ofBound_upper (b : Bound K) (k : K) : (ofBound b).admitsAsUpper k = b.admitsAsUpper k := by
  cases b <;> rfl

end SearchBound

namespace Tree

theorem size_eq {E : Type} (t : Tree E) : t.size = t.toList.length := by
  induction t with
  | nil => rfl
  | node l e r ihl ihr => simp [size, toList, ihl, ihr]; omega

theorem laid_node {key : R → K} {l r : Tree (R × V)} {e : R × V}
    (h : Laid key (node l e r).toList) :
    Laid key l.toList ∧ Laid key r.toList ∧ (∀ a ∈ l.toList, key a.1 < key e.1) ∧
    (∀ a ∈ r.toList, key e.1 < key a.1) ∧ (∀ a ∈ l.toList, ∀ b ∈ r.toList, key a.1 < key b.1) := by
  unfold Laid at *
  simp only [toList, List.pairwise_append, List.pairwise_cons, List.mem_cons] at h
  grind

theorem filter_none {α : Type} {p : α → Bool} {l : List α} (h : ∀ a ∈ l, p a = false) :
    l.filter p = [] := by
  rw [List.filter_eq_nil_iff]; intro a ha; simp [h a ha]

theorem filter_all {α : Type} {p : α → Bool} {l : List α} (h : ∀ a ∈ l, p a = true) :
    l.filter p = l := by
  rw [List.filter_eq_self]; exact h

theorem fromLower_eq (key : R → K) : ∀ (t : Tree (R × V)) (b : SearchBound K), Laid key t.toList →
    t.fromLower key b = t.toList.filter fun e => b.admitsAsLower (key e.1) := by
  intro t
  induction t with
  | nil => intro b _; rfl
  | node l e r ihl ihr =>
    intro b h
    obtain ⟨h1, h2, h3, h4, -⟩ := laid_node h
    simp only [fromLower, toList, List.filter_append]
    split
    next b' hb =>
      obtain ⟨k1, k2, k3⟩ := SearchBound.lower_right hb
      rw [ihr _ h2, filter_none (l := l.toList) (fun a ha => k2 _ (h3 a ha)),
        List.filter_cons_of_neg (by simp [k1]), List.nil_append]
      exact List.filter_congr fun a ha => k3 _ (h4 a ha)
    next b' hb =>
      obtain ⟨k1, k2, k3⟩ := SearchBound.lower_left hb
      rw [ihl _ h1, List.filter_cons_of_pos (by simp [k1]),
        filter_all (l := r.toList) (fun a ha => k2 _ (h4 a ha))]
      exact congrArg (· ++ _) (List.filter_congr fun a ha => k3 _ (h3 a ha))

theorem toUpper_eq (key : R → K) : ∀ (t : Tree (R × V)) (b : SearchBound K), Laid key t.toList →
    t.toUpper key b = t.toList.filter fun e => b.admitsAsUpper (key e.1) := by
  intro t
  induction t with
  | nil => intro b _; rfl
  | node l e r ihl ihr =>
    intro b h
    obtain ⟨h1, h2, h3, h4, -⟩ := laid_node h
    simp only [toUpper, toList, List.filter_append]
    split
    next b' hb =>
      obtain ⟨k1, k2, k3⟩ := SearchBound.upper_right hb
      rw [ihr _ h2, filter_all (l := l.toList) (fun a ha => k2 _ (h3 a ha)),
        List.filter_cons_of_pos (by simp [k1])]
      exact congrArg (fun x => _ ++ e :: x) (List.filter_congr fun a ha => k3 _ (h4 a ha))
    next b' hb =>
      obtain ⟨k1, k2, k3⟩ := SearchBound.upper_left hb
      rw [ihl _ h1, List.filter_cons_of_neg (by simp [k1]),
        filter_none (l := r.toList) (fun a ha => k2 _ (h4 a ha)), List.append_nil]
      exact List.filter_congr fun a ha => k3 _ (h3 a ha)

theorem between_eq (key : R → K) : ∀ (t : Tree (R × V)) (lo hi : SearchBound K),
    Laid key t.toList → t.between key lo hi =
      t.toList.filter fun e => lo.admitsAsLower (key e.1) && hi.admitsAsUpper (key e.1) := by
  intro t
  induction t with
  | nil => intro lo hi _; rfl
  | node l e r ihl ihr =>
    intro lo hi h
    obtain ⟨h1, h2, h3, h4, -⟩ := laid_node h
    simp only [between, toList, List.filter_append]
    split
    next lo' hb =>
      obtain ⟨k1, k2, k3⟩ := SearchBound.lower_right hb
      rw [ihr _ _ h2, filter_none (l := l.toList) (fun a ha => by simp [k2 _ (h3 a ha)]),
        List.filter_cons_of_neg (by simp [k1]), List.nil_append]
      exact List.filter_congr fun a ha => by simp [k3 _ (h4 a ha)]
    next lo' hb =>
      obtain ⟨k1, k2, k3⟩ := SearchBound.lower_left hb
      split
      next hi' hb' =>
        obtain ⟨j1, j2, j3⟩ := SearchBound.upper_right hb'
        rw [fromLower_eq key _ _ h1, toUpper_eq key _ _ h2, List.filter_cons_of_pos (by simp [k1, j1])]
        congr 1
        · exact List.filter_congr fun a ha => by simp [k3 _ (h3 a ha), j2 _ (h3 a ha)]
        · exact congrArg (e :: ·)
            (List.filter_congr fun a ha => by simp [k2 _ (h4 a ha), j3 _ (h4 a ha)])
      next hi' hb' =>
        obtain ⟨j1, j2, j3⟩ := SearchBound.upper_left hb'
        rw [ihl _ _ h1, List.filter_cons_of_neg (by simp [j1]),
          filter_none (l := r.toList) (fun a ha => by simp [j2 _ (h4 a ha)]), List.append_nil]
        exact List.filter_congr fun a ha => by simp [k3 _ (h3 a ha), j3 _ (h3 a ha)]

/-- Searching a tree laid out in the order searched by gives what the list model of `BTreeMap` says. -/
theorem range_eq {key : R → K} {t : Tree (R × V)} (h : Laid key t.toList) (lo hi : Bound K) :
    t.range key lo hi = BTreeMap.range key lo hi t.toList := by
  unfold range BTreeMap.range
  split
  · rfl
  · rw [between_eq key _ _ _ h]
    simp only [SearchBound.ofBound_lower, SearchBound.ofBound_upper]

theorem contains_eq (key : R → K) (k : K) : ∀ (t : Tree (R × V)), Laid key t.toList →
    t.contains key k = t.toList.any fun e => keq (key e.1) k := by
  intro t
  induction t with
  | nil => intro _; rfl
  | node l e r ihl ihr =>
    intro h
    obtain ⟨h1, h2, h3, h4, -⟩ := laid_node h
    have ihl := ihl h1
    have ihr := ihr h2
    have any_false : ∀ {l : List (R × V)}, (∀ a ∈ l, keq (key a.1) k = false) →
        (l.any fun e => keq (key e.1) k) = false := by
      intro l hl; rw [List.any_eq_false]; intro a ha; simp [hl a ha]
    simp only [contains, toList, List.any_append, List.any_cons]
    by_cases c1 : k < key e.1
    · rw [if_pos c1, ihl, any_false (l := r.toList) (fun a ha => by
        have := h4 a ha; simp [keq]; intro _; grind)]
      have : keq (key e.1) k = false := by simp [keq]; intro _; grind
      simp [this]
    · rw [if_neg c1]
      by_cases c2 : key e.1 < k
      · rw [if_pos c2, ihr, any_false (l := l.toList) (fun a ha => by
          have := h3 a ha; simp [keq]; intro _; grind)]
        have : keq (key e.1) k = false := by simp [keq]; intro _; grind
        simp [this]
      · rw [if_neg c2]
        have : keq (key e.1) k = true := by simp [keq]; grind
        simp [this]

theorem insert_left {key : R → K} {r : R} {v : V} {e : R × V} {t : List (R × V)}
    (h : key r < key e.1) : ∀ l : List (R × V),
    BTreeMap.insert key r v (l ++ e :: t) = BTreeMap.insert key r v l ++ e :: t := by
  intro l
  induction l with
  | nil => simp [BTreeMap.insert, h]
  | cons a l ih => simp only [List.cons_append, BTreeMap.insert, ih]; split <;> (try split) <;> rfl

theorem insert_right {key : R → K} {r : R} {v : V} {t : List (R × V)} : ∀ l : List (R × V),
    (∀ a ∈ l, key a.1 < key r) →
    BTreeMap.insert key r v (l ++ t) = l ++ BTreeMap.insert key r v t := by
  intro l h
  induction l with
  | nil => rfl
  | cons a l ih =>
    have h1 := h a (by simp)
    have h2 : ¬ key r < key a.1 := by grind
    simp only [List.cons_append, BTreeMap.insert, if_neg h2, if_pos h1,
      ih fun b hb => h b (by simp [hb])]

theorem insert_toList (key : R → K) (r : R) (v : V) : ∀ t : Tree (R × V), Laid key t.toList →
    (t.insert key r v).toList = BTreeMap.insert key r v t.toList := by
  intro t
  induction t with
  | nil => intro _; rfl
  | node l e t ihl ihr =>
    intro h
    obtain ⟨h1, h2, h3, h4, -⟩ := laid_node h
    simp only [insert]
    split
    next c => simp only [toList, insert_left c, ihl h1]
    next c =>
      split
      next c' =>
        simp only [toList]
        rw [insert_right _ fun a ha => by have := h3 a ha; grind, ihr h2]
        simp only [BTreeMap.insert, if_neg c, if_pos c']
      next c' =>
        simp only [toList]
        rw [insert_right _ fun a ha => by have := h3 a ha; grind]
        simp only [BTreeMap.insert, if_neg c, if_neg c']

theorem join_toList {E : Type} (l r : Tree E) : (join l r).toList = l.toList ++ r.toList := by
  induction l with
  | nil => rfl
  | node l e r ihl ihr => simp [join, toList, ihr]

theorem remove_left {key : R → K} {k : K} {t : List (R × V)}
    (h : ∀ a ∈ t, k < key a.1) : ∀ l : List (R × V),
    BTreeMap.remove key k (l ++ t) = BTreeMap.remove key k l ++ t := by
  intro l
  induction l with
  | nil =>
    cases t with
    | nil => rfl
    | cons e t =>
      have hn : ∀ t : List (R × V), (∀ a ∈ t, k < key a.1) → BTreeMap.remove key k t = t := by
        intro t
        induction t with
        | nil => intro _; rfl
        | cons a t ih =>
          intro h
          have : ¬ keq (key a.1) k = true := by have := h a (by simp); simp [keq]; intro _; grind
          simp only [BTreeMap.remove, if_neg this, ih fun b hb => h b (by simp [hb])]
      exact hn _ h
  | cons a l ih => simp only [List.cons_append, BTreeMap.remove, ih]; split <;> rfl

theorem remove_right {key : R → K} {k : K} {t : List (R × V)} : ∀ l : List (R × V),
    (∀ a ∈ l, key a.1 < k) →
    BTreeMap.remove key k (l ++ t) = l ++ BTreeMap.remove key k t := by
  intro l h
  induction l with
  | nil => rfl
  | cons a l ih =>
    have : ¬ keq (key a.1) k = true := by have := h a (by simp); simp [keq]; grind
    simp only [List.cons_append, BTreeMap.remove, if_neg this, ih fun b hb => h b (by simp [hb])]

theorem remove_toList (key : R → K) (k : K) : ∀ t : Tree (R × V), Laid key t.toList →
    (t.remove key k).toList = BTreeMap.remove key k t.toList := by
  intro t
  induction t with
  | nil => intro _; rfl
  | node l e t ihl ihr =>
    intro h
    obtain ⟨h1, h2, h3, h4, -⟩ := laid_node h
    simp only [remove]
    split
    next c =>
      simp only [toList]
      rw [remove_left (t := e :: t.toList), ihl h1]
      intro a ha
      rcases List.mem_cons.1 ha with rfl | ha
      · exact c
      · have := h4 a ha; grind
    next c =>
      split
      next c' =>
        simp only [toList]
        rw [remove_right _ fun a ha => by have := h3 a ha; grind, ihr h2]
        have : ¬ keq (key e.1) k = true := by simp [keq]; grind
        simp only [BTreeMap.remove, if_neg this]
      next c' =>
        rw [join_toList]
        simp only [toList]
        rw [remove_right _ fun a ha => by have := h3 a ha; grind]
        have : keq (key e.1) k = true := by simp [keq]; grind
        simp only [BTreeMap.remove, if_pos this]

end Tree

/-! ### Programs -/

theorem Laid.insert {key : R → K} {l : List (R × V)} (h : Laid key l) (r : R) (v : V) :
    Laid key (BTreeMap.insert key r v l) := by
  have hm : ∀ (l : List (R × V)) (a : R × V), a ∈ BTreeMap.insert key r v l →
      key a.1 = key r ∨ ∃ b ∈ l, key a.1 = key b.1 := by
    intro l
    induction l with
    | nil => intro a ha; simp [BTreeMap.insert] at ha; exact Or.inl (by rw [ha])
    | cons e t ih =>
      intro a ha
      simp only [BTreeMap.insert] at ha
      grind
  induction l with
  | nil => exact List.pairwise_singleton _ _
  | cons e t ih =>
    unfold Laid at *
    rw [List.pairwise_cons] at h
    simp only [BTreeMap.insert]
    split
    next c =>
      rw [List.pairwise_cons, List.pairwise_cons]
      refine ⟨?_, h⟩
      intro a ha
      rcases List.mem_cons.1 ha with rfl | ha
      · exact c
      · have := h.1 a ha; grind
    next c =>
      split
      next c' =>
        rw [List.pairwise_cons]
        refine ⟨?_, ih h.2⟩
        intro a ha
        rcases hm t a ha with h1 | ⟨b, hb, h1⟩
        · rw [h1]; exact c'
        · rw [h1]; exact h.1 b hb
      next c' =>
        rw [List.pairwise_cons]
        exact ⟨fun a ha => h.1 a ha, h.2⟩

theorem Laid.remove {key : R → K} {l : List (R × V)} (h : Laid key l) (k : K) :
    Laid key (BTreeMap.remove key k l) := List.Pairwise.sublist BTreeMap.sublist_remove h

/-- A program does the same on a tree as on the list of its entries, whatever the shape of the tree
and however it is reshaped on the way. -/
theorem Cr.runTree_eq {α : Type} (key : R → K) (shapes : Tree.Shapes (R × V)) (o : Nat → Bool)
    (c : Cr K R V α) : ∀ (n i : Nat) (t : Tree (R × V)), Laid key t.toList →
    ∃ n' i' t', c.runTree key shapes o ⟨n, i, t⟩ = ((c.run key o ⟨n, t.toList⟩).1, ⟨n', i', t'⟩) ∧
      c.run key o ⟨n, t.toList⟩ = ((c.run key o ⟨n, t.toList⟩).1, ⟨n', t'.toList⟩) ∧
      Laid key t'.toList := by
  induction c with
  | ret a => intro n i t h; exact ⟨n, i, t, rfl, rfl, h⟩
  | panic p => intro n i t h; exact ⟨n, i, t, rfl, rfl, h⟩
  | call next ih =>
    intro n i t h
    simp only [runTree, run]
    cases o n with
    | true => exact ⟨n + 1, i, t, rfl, rfl, h⟩
    | false => exact ih (n + 1) i t h
  | size next ih =>
    intro n i t h
    simp only [runTree, run, Tree.size_eq]
    exact ih _ n i t h
  | search lo hi next ih =>
    intro n i t h
    simp only [runTree, run, Tree.range_eq h]
    cases BTreeMap.range key lo hi t.toList with
    | error p => exact ⟨n, i, t, rfl, rfl, h⟩
    | ok l => exact ih l n i t h
  | put r v next ih =>
    intro n i t h
    simp only [runTree, run, Tree.contains_eq key _ t h]
    have e : (shapes.reshape i (t.insert key r v)).toList = BTreeMap.insert key r v t.toList := by
      rw [shapes.keeps, Tree.insert_toList key r v t h]
    have := ih (t.toList.any fun e => keq (key e.1) (key r)) n (i + 1)
      (shapes.reshape i (t.insert key r v)) (by rw [e]; exact h.insert r v)
    rw [e] at this
    exact this
  | delete k next ih =>
    intro n i t h
    simp only [runTree, run]
    have e : (shapes.reshape i (t.remove key k)).toList = BTreeMap.remove key k t.toList := by
      rw [shapes.keeps, Tree.remove_toList key k t h]
    have := ih n (i + 1) (shapes.reshape i (t.remove key k)) (by rw [e]; exact h.remove k)
    rw [e] at this
    exact this

end Verif

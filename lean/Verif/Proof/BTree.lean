import Verif.Model.Std

/-!
# Lemmas about the list model of `BTreeMap`
-/
set_option linter.unusedSectionVars false
set_option linter.unusedVariables false

namespace Verif

section Ord
variable {K : Type} [LE K] [LT K] [DecidableLE K] [DecidableLT K]
  [Std.IsLinearPreorder K] [Std.LawfulOrderLT K]

theorem keq_iff {a b : K} : keq a b = true ↔ a ≤ b ∧ b ≤ a := by simp [keq]

theorem not_le_iff {a b : K} : ¬ a ≤ b ↔ b < a := by grind
theorem not_lt_iff {a b : K} : ¬ a < b ↔ b ≤ a := by grind

theorem lt_rmin {a b c : K} : c < rmin a b ↔ c < a ∧ c < b := by grind [rmin]
theorem le_rmin {a b c : K} : c ≤ rmin a b ↔ c ≤ a ∧ c ≤ b := by grind [rmin]
theorem rmin_le {a b c : K} : rmin a b ≤ c ↔ a ≤ c ∨ b ≤ c := by grind [rmin]
theorem rmin_lt {a b c : K} : rmin a b < c ↔ a < c ∨ b < c := by grind [rmin]
theorem rmax_lt {a b c : K} : rmax a b < c ↔ a < c ∧ b < c := by grind [rmax]
theorem rmax_le {a b c : K} : rmax a b ≤ c ↔ a ≤ c ∧ b ≤ c := by grind [rmax]
theorem le_rmax {a b c : K} : c ≤ rmax a b ↔ c ≤ a ∨ c ≤ b := by grind [rmax]
theorem lt_rmax {a b c : K} : c < rmax a b ↔ c < a ∨ c < b := by grind [rmax]

end Ord

namespace BTreeMap
variable {K : Type} [LE K] [LT K] [DecidableLE K] [DecidableLT K]
  [Std.IsLinearPreorder K] [Std.LawfulOrderLT K] {R V : Type}

theorem mem_insert_of_fresh {key : R → K} {r : R} {v : V} {m : List (R × V)}
    (hf : ∀ e ∈ m, ¬ (key e.1 ≤ key r ∧ key r ≤ key e.1)) (x : R × V) :
    x ∈ insert key r v m ↔ x = (r, v) ∨ x ∈ m := by
  induction m with
  | nil => simp [insert]
  | cons e t ih =>
    have := hf e (by simp)
    have ih := ih (fun e he => hf e (by simp [he]))
    unfold insert
    split
    · simp
    · split
      · simp only [List.mem_cons, ih]; grind
      · grind

theorem length_insert_of_fresh {key : R → K} {r : R} {v : V} {m : List (R × V)}
    (hf : ∀ e ∈ m, ¬ (key e.1 ≤ key r ∧ key r ≤ key e.1)) :
    (insert key r v m).length = m.length + 1 := by
  induction m with
  | nil => simp [insert]
  | cons e t ih =>
    have := hf e (by simp)
    have ih := ih (fun e he => hf e (by simp [he]))
    unfold insert
    grind

theorem pairwise_insert {key : R → K} {Rel : R × V → R × V → Prop} {r : R} {v : V}
    {m : List (R × V)} (hk : ∀ a b, Rel a b → key a.1 < key b.1) (hp : m.Pairwise Rel)
    (hx : ∀ e ∈ m, Rel e (r, v) ∨ Rel (r, v) e) : (insert key r v m).Pairwise Rel := by
  induction m with
  | nil => simp [insert]
  | cons e t ih =>
    have hf : ∀ e' ∈ t, ¬ (key e'.1 ≤ key r ∧ key r ≤ key e'.1) := by
      intro e' he'
      have := hx e' (by simp [he'])
      grind
    have ih := ih (by grind) (fun e he => hx e (by simp [he]))
    have hxe := hx e (by simp)
    rw [List.pairwise_cons] at hp
    unfold insert
    split
    · rw [List.pairwise_cons, List.pairwise_cons]
      refine ⟨?_, hp⟩
      intro e' he'
      have h1 := hx e' he'
      have h2 := hk e e'
      have h3 := hk e' (r, v)
      have h4 := hk e (r, v)
      grind
    · split
      · rw [List.pairwise_cons]
        refine ⟨?_, ih⟩
        intro e' he'
        rw [mem_insert_of_fresh hf] at he'
        have h4 := hk (r, v) e
        grind
      · have h4 := hk (r, v) e
        have h3 := hk e (r, v)
        grind

theorem sublist_remove {key : R → K} {k : K} {m : List (R × V)} :
    (remove key k m).Sublist m := by
  induction m with
  | nil => simp [remove]
  | cons e t ih =>
    unfold remove
    split
    · exact List.sublist_cons_self e t
    · exact ih.cons_cons e

theorem mem_remove {key : R → K} {Rel : R × V → R × V → Prop} {k : K} {m : List (R × V)}
    (hk : ∀ a b, Rel a b → key a.1 < key b.1) (hp : m.Pairwise Rel) (x : R × V) :
    x ∈ remove key k m ↔ x ∈ m ∧ ¬ (key x.1 ≤ k ∧ k ≤ key x.1) := by
  induction m with
  | nil => simp [remove]
  | cons e t ih =>
    rw [List.pairwise_cons] at hp
    have ih := ih hp.2
    unfold remove
    split
    · rename_i h
      rw [keq_iff] at h
      have := hp.1 x
      have := hk e x
      grind
    · rename_i h
      rw [keq_iff] at h
      grind

theorem length_remove {key : R → K} {k : K} {m : List (R × V)}
    (h : ∃ e ∈ m, key e.1 ≤ k ∧ k ≤ key e.1) :
    (remove key k m).length + 1 = m.length := by
  induction m with
  | nil => simp at h
  | cons e t ih =>
    unfold remove
    split
    · simp
    · rename_i h'
      rw [keq_iff] at h'
      simp only [List.length_cons, Nat.add_right_cancel_iff]
      grind

theorem range_ok {key : R → K} {lo hi : Bound K} {m : List (R × V)}
    (h : Bound.invalid lo hi = false) :
    range key lo hi m =
      .ok (m.filter fun e => lo.admitsAsLower (key e.1) && hi.admitsAsUpper (key e.1)) := by
  simp [range, h]

/-- The first entry within bounds: it satisfies the predicate and precedes all others that do. -/
theorem head?_filter_eq_some {Rel : R × V → R × V → Prop} {p : R × V → Bool} {m : List (R × V)}
    (hp : m.Pairwise Rel) {x : R × V} (h : (m.filter p).head? = some x) :
    x ∈ m ∧ p x = true ∧ ∀ y ∈ m, p y = true → y = x ∨ Rel x y := by
  have hp' := hp.filter p
  rw [List.head?_eq_some_iff] at h
  obtain ⟨ys, h⟩ := h
  have hm : ∀ y, y ∈ m ∧ p y = true ↔ y = x ∨ y ∈ ys := by
    intro y; rw [← List.mem_filter, h, List.mem_cons]
  rw [h, List.pairwise_cons] at hp'
  grind

theorem head?_filter_eq_none {p : R × V → Bool} {m : List (R × V)} :
    (m.filter p).head? = none ↔ ∀ y ∈ m, p y = false := by
  simp

theorem getLast?_filter_eq_some {Rel : R × V → R × V → Prop} {p : R × V → Bool}
    {m : List (R × V)} (hp : m.Pairwise Rel) {x : R × V}
    (h : (m.filter p).getLast? = some x) :
    x ∈ m ∧ p x = true ∧ ∀ y ∈ m, p y = true → y = x ∨ Rel y x := by
  have hp' := hp.filter p
  rw [List.getLast?_eq_some_iff] at h
  obtain ⟨ys, h⟩ := h
  have hm : ∀ y, y ∈ m ∧ p y = true ↔ y ∈ ys ∨ y = x := by
    intro y; rw [← List.mem_filter, h]; simp
  rw [h, List.pairwise_append] at hp'
  grind

theorem getLast?_filter_eq_none {p : R × V → Bool} {m : List (R × V)} :
    (m.filter p).getLast? = none ↔ ∀ y ∈ m, p y = false := by
  simp

end BTreeMap
end Verif

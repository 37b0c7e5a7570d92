import Verif.Spec

/-!
# The part of a history that concerns some of the keys (for C123)
-/

namespace Verif.Spec
variable {K R V : Type}

/-- The part of a call that concerns the keys for which `cut` is made: `cut r` is the part of the
range `r` that lies among them, if there is any.  (`extend` stops where it panics.) -/
def Op.cut (valid : R → Bool) (cut : R → Option R) : Op R V → List (Op R V)
  | .insert r v => (cut r).toList.map fun r => .insert r v
  | .remove r => (cut r).toList.map .remove
  | .clear => [.clear]
  | .extend items =>
    [.extend ((items.takeWhile fun e => valid e.1).filterMap fun e => (cut e.1).map (·, e.2))]

end Verif.Spec

namespace Verif.Cut
open Spec
variable {K R V : Type} {covers : R → K → Bool} {valid : R → Bool}

/-- `cut r` is the part of the range `r` that lies in `P`. -/
structure Cuts (covers : R → K → Bool) (valid : R → Bool) (P : K → Bool) (cut : R → Option R) :
    Prop where
  sound : ∀ r r', cut r = some r' → valid r' = true
  keys : ∀ r k, (valid r && covers r k && P k) = (cut r).any fun r' => covers r' k

theorem takeWhile_all {α : Type} {p : α → Bool} : ∀ {l : List α}, (∀ e ∈ l, p e = true) →
    l.takeWhile p = l
  | [], _ => rfl
  | e :: l, h => by
    rw [List.takeWhile_cons_of_pos (h e List.mem_cons_self),
      takeWhile_all fun x hx => h x (List.mem_cons_of_mem _ hx)]

theorem find_cut {P : K → Bool} {cut : R → Option R} (hc : Cuts covers valid P cut) (k : K) :
    ∀ l : List (R × V), (∀ e ∈ l, valid e.1 = true) →
      ((l.filterMap fun e => (cut e.1).map (·, e.2)).find? fun e => covers e.1 k).map (·.2) =
        if P k then (l.find? fun e => covers e.1 k).map (·.2) else none
  | [], _ => by cases P k <;> rfl
  | e :: l, h => by
    have ih := find_cut hc k l fun x hx => h x (List.mem_cons_of_mem _ hx)
    have hv := h e List.mem_cons_self
    have hk := hc.keys e.1 k
    rw [hv, Bool.true_and] at hk
    rw [List.filterMap_cons, List.find?_cons]
    generalize (l.filterMap fun e => (cut e.1).map (·, e.2)) = rest at ih ⊢
    cases e1 : cut e.1 with
    | none =>
      rw [e1] at hk
      simp only [Option.map_none, Option.any_none, Bool.and_eq_false_iff] at hk ⊢
      rw [ih]
      rcases hk with hk | hk <;> simp [hk]
    | some r' =>
      rw [e1] at hk
      simp only [Option.map_some, Option.any_some, List.find?_cons] at hk ⊢
      rw [← hk]
      cases hP : P k <;> cases hcov : covers e.1 k <;> simp [hP, ih]

theorem lastWrite_cut {P : K → Bool} {cut : R → Option R} (hc : Cuts covers valid P cut) (k : K) :
    ∀ ops : List (Op R V),
      lastWrite covers valid (ops.flatMap fun op => (op.cut valid cut).reverse) k =
        if P k then lastWrite covers valid ops k else none
  | [] => by cases P k <;> rfl
  | .insert r v :: ops => by
    have ih := lastWrite_cut hc k ops
    rw [List.flatMap_cons]
    generalize (ops.flatMap fun op => (op.cut valid cut).reverse) = rest at ih ⊢
    have hk := hc.keys r k
    cases e1 : cut r with
    | none =>
      rw [e1] at hk
      cases hP : P k <;> simp_all [Op.cut, lastWrite]
    | some r' =>
      have hv := hc.sound r r' e1
      rw [e1] at hk
      cases hP : P k <;> simp_all [Op.cut, lastWrite]
  | .remove r :: ops => by
    have ih := lastWrite_cut hc k ops
    rw [List.flatMap_cons]
    generalize (ops.flatMap fun op => (op.cut valid cut).reverse) = rest at ih ⊢
    have hk := hc.keys r k
    cases e1 : cut r with
    | none =>
      rw [e1] at hk
      cases hP : P k <;> simp_all [Op.cut, lastWrite]
    | some r' =>
      have hv := hc.sound r r' e1
      rw [e1] at hk
      cases hP : P k <;> simp_all [Op.cut, lastWrite]
  | .clear :: ops => by cases h : P k <;> simp [Op.cut, lastWrite]
  | .extend items :: ops => by
    have ih := lastWrite_cut hc k ops
    rw [List.flatMap_cons]
    generalize (ops.flatMap fun op => (op.cut valid cut).reverse) = rest at ih ⊢
    simp only [Op.cut, List.reverse_singleton, List.singleton_append, lastWrite]
    rw [takeWhile_all (p := fun e : R × V => valid e.1), ← List.filterMap_reverse]
    · have hl : ∀ e ∈ (items.takeWhile fun e => valid e.1).reverse, valid e.1 = true := by
        intro e he
        exact List.all_eq_true.1 (List.all_takeWhile (p := fun e : R × V => valid e.1)) e
          (List.mem_reverse.1 he)
      have := find_cut hc k _ hl
      generalize (items.takeWhile fun e => valid e.1).reverse = l at this ⊢
      cases h1 : (l.filterMap fun e => (cut e.1).map (·, e.2)).find? fun e => covers e.1 k <;>
        cases h2 : l.find? fun e => covers e.1 k <;> rw [h1, h2] at this <;>
        cases hP : P k <;> simp_all
    · intro e he
      obtain ⟨x, h1, h2⟩ := List.mem_filterMap.1 he
      obtain ⟨r', h3, rfl⟩ := Option.map_eq_some_iff.1 h2
      exact hc.sound _ _ h3

theorem cut_inserted {cut : R → Option R} (ops : List (Op R V)) {p : R → Prop}
    (hp : ∀ r r', cut r = some r' → p r') :
    ∀ op ∈ ops.flatMap (Op.cut valid cut), ∀ r ∈ op.inserted, p r := by
  intro o ho r hr
  obtain ⟨op, h1, h2⟩ := List.mem_flatMap.1 ho
  cases op with
  | insert r' w =>
    obtain ⟨x, h3, rfl⟩ := List.mem_map.1 h2
    simp only [Op.inserted, List.mem_singleton] at hr
    subst hr
    exact hp r' _ (by simpa using h3)
  | remove r' =>
    obtain ⟨x, h3, rfl⟩ := List.mem_map.1 h2
    simp [Op.inserted] at hr
  | clear =>
    simp only [Op.cut, List.mem_singleton] at h2
    subst h2
    simp [Op.inserted] at hr
  | extend items =>
    simp only [Op.cut, List.mem_singleton] at h2
    subst h2
    simp only [Op.inserted, List.mem_map, List.mem_filterMap] at hr
    obtain ⟨e, ⟨x, h3, h4⟩, rfl⟩ := hr
    obtain ⟨r', h5, rfl⟩ := Option.map_eq_some_iff.1 h4
    exact hp _ _ h5

end Verif.Cut

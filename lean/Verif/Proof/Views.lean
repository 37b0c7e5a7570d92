import Verif.Spec

/-!
# A history of a map, as a history of a view of it (for C124)
-/

namespace Verif.Spec
variable {R V W : Type}

/-- What to do to the view where `e` is inserted into the map. -/
def viewOne (g : V → Option W) (e : R × V) : Op R W :=
  match g e.2 with
  | some w => .insert e.1 w
  | none => .remove e.1

/-- What to do to the view for a call on the map.  (`extend` stops where it panics.) -/
def Op.view (valid : R → Bool) (g : V → Option W) : Op R V → List (Op R W)
  | .insert r v => [viewOne g (r, v)]
  | .remove r => [.remove r]
  | .clear => [.clear]
  | .extend items => (items.takeWhile fun e => valid e.1).map (viewOne g)

end Verif.Spec

namespace Verif.Views
open Spec
variable {K R V W : Type} {covers : R → K → Bool} {valid : R → Bool}

theorem lastWrite_items (g : V → Option W) (k : K) (earlier : List (Op R W)) :
    ∀ l : List (R × V), (∀ e ∈ l, valid e.1 = true) →
      lastWrite covers valid (l.map (viewOne g) ++ earlier) k =
        match l.find? fun e => covers e.1 k with
        | some e => g e.2
        | none => lastWrite covers valid earlier k
  | [], _ => rfl
  | e :: l, h => by
    have ih := lastWrite_items g k earlier l fun x hx => h x (List.mem_cons_of_mem _ hx)
    have hv := h e List.mem_cons_self
    rw [List.map_cons, List.cons_append, List.find?_cons]
    cases hc : covers e.1 k <;> cases he : g e.2 <;>
      simp [viewOne, he, lastWrite, hv, hc, ih]

theorem lastWrite_view (g : V → Option W) (k : K) : ∀ ops : List (Op R V),
    lastWrite covers valid (ops.flatMap fun op => (op.view valid g).reverse) k =
      (lastWrite covers valid ops k).bind g
  | [] => rfl
  | .insert r v :: ops => by
    have ih := lastWrite_view g k ops
    rw [List.flatMap_cons]
    generalize (ops.flatMap fun op => (op.view valid g).reverse) = rest at ih ⊢
    cases hc : valid r && covers r k <;> cases he : g v <;>
      simp [Op.view, viewOne, he, hc, ih, lastWrite]
  | .remove r :: ops => by
    have ih := lastWrite_view g k ops
    rw [List.flatMap_cons]
    generalize (ops.flatMap fun op => (op.view valid g).reverse) = rest at ih ⊢
    cases hc : valid r && covers r k <;> simp [Op.view, hc, ih, lastWrite]
  | .clear :: ops => rfl
  | .extend items :: ops => by
    have ih := lastWrite_view g k ops
    rw [List.flatMap_cons, Op.view, ← List.map_reverse, lastWrite_items, ih, lastWrite]
    · cases h : (items.takeWhile fun e => valid e.1).reverse.find? fun e => covers e.1 k <;> rfl
    · intro e he
      have := List.mem_reverse.1 he
      exact List.all_eq_true.1 (List.all_takeWhile (p := fun e : R × V => valid e.1)) e this

theorem viewOne_inserted (g : V → Option W) {e : R × V} {r : R}
    (h : r ∈ (viewOne g e).inserted) : r = e.1 := by
  unfold viewOne at h
  split at h
  · exact List.mem_singleton.1 h
  · cases h

theorem view_inserted (g : V → Option W) (ops : List (Op R V)) {p : R → Prop}
    (h : ∀ op ∈ ops, ∀ r ∈ op.inserted, p r) :
    ∀ op ∈ ops.flatMap (Op.view valid g), ∀ r ∈ op.inserted, p r := by
  intro o ho r hr
  obtain ⟨op, h1, h2⟩ := List.mem_flatMap.1 ho
  have h3 := h op h1
  cases op with
  | insert r' w =>
    simp only [Op.view, List.mem_singleton] at h2
    subst h2
    rw [viewOne_inserted g hr]
    exact h3 _ (by simp [Op.inserted])
  | remove r' =>
    simp only [Op.view, List.mem_singleton] at h2
    subst h2
    simp [Op.inserted] at hr
  | clear =>
    simp only [Op.view, List.mem_singleton] at h2
    subst h2
    simp [Op.inserted] at hr
  | extend items =>
    obtain ⟨e, h4, rfl⟩ := List.mem_map.1 h2
    rw [viewOne_inserted g hr]
    have := (List.takeWhile_sublist _).mem h4
    exact h3 _ (by simp only [Op.inserted]; exact List.mem_map_of_mem this)

end Verif.Views

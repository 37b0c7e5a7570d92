import Verif.Spec

/-!
# A history of a map, as a history of the set of the keys with one value (for C122)
-/

namespace Verif.Spec
variable {K R V : Type}

/-- What to do to the set of the keys with value `v` where `e` is inserted into the map. -/
def sliceOne [BEq V] (v : V) (e : R × V) : SetOp R := if e.2 == v then .insert e.1 else .remove e.1

/-- What to do to the set of the keys with value `v` for a call on the map.  (`extend` stops where it
panics.) -/
def slice [BEq V] (valid : R → Bool) (v : V) : Op R V → List (SetOp R)
  | .insert r w => [sliceOne v (r, w)]
  | .remove r => [.remove r]
  | .clear => [.clear]
  | .extend items => (items.takeWhile fun e => valid e.1).map (sliceOne v)

/-- What to do to the set of all keys that have a value. -/
def forget : Op R V → SetOp R
  | .insert r _ => .insert r
  | .remove r => .remove r
  | .clear => .clear
  | .extend items => .extend (items.map (·.1))

end Verif.Spec

namespace Verif.Slices
open Spec
variable {K R V : Type} {covers : R → K → Bool} {valid : R → Bool}

theorem member_items [BEq V] (v : V) (k : K) (earlier : List (SetOp R)) :
    ∀ l : List (R × V), (∀ e ∈ l, valid e.1 = true) →
      member covers valid (l.map (sliceOne v) ++ earlier) k =
        match l.find? fun e => covers e.1 k with
        | some e => e.2 == v
        | none => member covers valid earlier k
  | [], _ => rfl
  | e :: l, h => by
    have ih := member_items v k earlier l fun x hx => h x (List.mem_cons_of_mem _ hx)
    have hv := h e List.mem_cons_self
    rw [List.map_cons, List.cons_append, List.find?_cons]
    cases hc : covers e.1 k <;> cases he : e.2 == v <;>
      simp [sliceOne, he, member, hv, hc, ih]

theorem member_slice [BEq V] (v : V) (k : K) : ∀ ops : List (Op R V),
    member covers valid (ops.flatMap fun op => (slice valid v op).reverse) k =
      (lastWrite covers valid ops k).any (· == v)
  | [] => rfl
  | .insert r w :: ops => by
    have ih := member_slice v k ops
    rw [List.flatMap_cons]
    generalize (ops.flatMap fun op => (slice valid v op).reverse) = rest at ih ⊢
    cases hc : valid r && covers r k <;> cases he : w == v <;>
      simp [slice, sliceOne, he, member, hc, ih, lastWrite]
  | .remove r :: ops => by
    have ih := member_slice v k ops
    rw [List.flatMap_cons]
    generalize (ops.flatMap fun op => (slice valid v op).reverse) = rest at ih ⊢
    cases hc : valid r && covers r k <;> simp [slice, member, hc, ih, lastWrite]
  | .clear :: ops => rfl
  | .extend items :: ops => by
    have ih := member_slice v k ops
    rw [List.flatMap_cons, slice, ← List.map_reverse, member_items, ih, lastWrite]
    · cases h : (items.takeWhile fun e => valid e.1).reverse.find? fun e => covers e.1 k <;> rfl
    · intro e he
      have := List.mem_reverse.1 he
      exact List.all_eq_true.1 (List.all_takeWhile (p := fun e : R × V => valid e.1)) e this

theorem takeWhile_map_fst (items : List (R × V)) :
    (items.map (·.1)).takeWhile valid = (items.takeWhile fun e => valid e.1).map (·.1) :=
  List.takeWhile_map

theorem member_forget (k : K) : ∀ ops : List (Op R V),
    member covers valid (ops.map forget) k = (lastWrite covers valid ops k).isSome
  | [] => rfl
  | .insert r w :: ops => by
    have ih := member_forget k ops
    cases hc : valid r && covers r k <;> simp [forget, member, hc, ih, lastWrite]
  | .remove r :: ops => by
    have ih := member_forget k ops
    cases hc : valid r && covers r k <;> simp [forget, member, hc, ih, lastWrite]
  | .clear :: ops => rfl
  | .extend items :: ops => by
    have ih := member_forget k ops
    rw [List.map_cons, forget, member, ih, lastWrite, takeWhile_map_fst, List.any_map]
    rw [← List.any_reverse]
    generalize (items.takeWhile fun e => valid e.1).reverse = l
    cases h : l.find? fun e => covers e.1 k with
    | none =>
      have : l.any ((covers · k) ∘ fun x => x.1) = false := by
        simpa [List.any_eq_false] using List.find?_eq_none.1 h
      rw [this]; rfl
    | some e =>
      have : l.any ((covers · k) ∘ fun x => x.1) = true :=
        List.any_eq_true.2 ⟨e, List.mem_of_find?_eq_some h, List.find?_some h⟩
      rw [this]; rfl

theorem slice_inserted [BEq V] (v : V) (ops : List (Op R V)) {p : R → Prop}
    (h : ∀ op ∈ ops, ∀ r ∈ op.inserted, p r) :
    ∀ op ∈ ops.flatMap (slice valid v), ∀ r ∈ op.inserted, p r := by
  intro o ho r hr
  obtain ⟨op, h1, h2⟩ := List.mem_flatMap.1 ho
  have h3 := h op h1
  cases op with
  | insert r' w =>
    simp only [slice, List.mem_singleton, sliceOne] at h2
    subst h2
    split at hr <;> simp only [SetOp.inserted, List.mem_singleton, List.not_mem_nil] at hr
    subst hr
    exact h3 _ (by simp [Op.inserted])
  | remove r' =>
    simp only [slice, List.mem_singleton] at h2
    subst h2
    simp [SetOp.inserted] at hr
  | clear =>
    simp only [slice, List.mem_singleton] at h2
    subst h2
    simp [SetOp.inserted] at hr
  | extend items =>
    obtain ⟨e, h4, rfl⟩ := List.mem_map.1 h2
    simp only [sliceOne] at hr
    split at hr <;> simp only [SetOp.inserted, List.mem_singleton, List.not_mem_nil] at hr
    subst hr
    have := (List.takeWhile_sublist _).mem h4
    exact h3 _ (by simp only [Op.inserted]; exact List.mem_map_of_mem this)

theorem forget_inserted (ops : List (Op R V)) {p : R → Prop}
    (h : ∀ op ∈ ops, ∀ r ∈ op.inserted, p r) : ∀ op ∈ ops.map forget, ∀ r ∈ op.inserted, p r := by
  intro o ho r hr
  obtain ⟨op, h1, rfl⟩ := List.mem_map.1 ho
  have h3 := h op h1
  cases op <;> exact h3 r hr

/-- A list falls apart into the elements with each value. -/
theorem length_split [BEq V] [LawfulBEq V] {vs : List V} (hn : vs.Nodup) :
    ∀ l : List (R × V), (∀ e ∈ l, e.2 ∈ vs) →
      l.length = (vs.map fun v => (l.filter fun e => e.2 == v).length).sum
  | [], _ => by
    induction vs with
    | nil => rfl
    | cons v vs ih => simpa using ih (List.nodup_cons.1 hn).2
  | e :: l, h => by
    have ih := length_split hn l fun x hx => h x (List.mem_cons_of_mem _ hx)
    have he := h e List.mem_cons_self
    have key : ∀ ws : List V, ws.Nodup →
        (ws.map fun v => ((e :: l).filter fun e => e.2 == v).length).sum =
          (if e.2 ∈ ws then 1 else 0) +
            (ws.map fun v => (l.filter fun e => e.2 == v).length).sum := by
      intro ws
      induction ws with
      | nil => intro _; rfl
      | cons w ws ihw =>
        intro hw
        rw [List.nodup_cons] at hw
        rw [List.map_cons, List.sum_cons, ihw hw.2, List.map_cons, List.sum_cons]
        by_cases hew : e.2 = w
        · subst hew
          simp [hw.1]
          omega
        · have : (e.2 == w) = false := by simpa using hew
          rw [List.filter_cons_of_neg (by simpa using hew)]
          by_cases hm : e.2 ∈ ws
          · simp [hm]; omega
          · simp [hm, hew]
    rw [List.length_cons, key vs hn, if_pos he, ← ih]
    omega

end Verif.Slices

import Verif.SpecClone

/-!
# Comparing a program that clones with one that does not
-/
set_option linter.unusedSectionVars false
namespace Verif
open Spec

theorem Spec.Same.rfl' {V : Type} [BEq V] {v : V} : Same v v := fun _ => ⟨rfl, rfl⟩

theorem Spec.Same.trans {V : Type} [BEq V] {u v w : V} (h : Same u v) (h' : Same v w) : Same u w :=
  fun x => ⟨(h x).1.trans (h' x).1, (h x).2.trans (h' x).2⟩

theorem Spec.Same.beq {V : Type} [BEq V] {u v u' v' : V} (h : Same u u') (h' : Same v v') :
    (u == v) = (u' == v') := ((h v).1).trans (h' u').2

section
variable {K V : Type} [LE K] [LT K] [DecidableLE K] [DecidableLT K]
  [Std.IsLinearPreorder K] [Std.LawfulOrderLT K] [BEq V]

theorem keq_self (k : K) : keq k k = true := by grind [keq]

theorem keq.trans {a b c : K} (h : keq a b = true) (h' : keq b c = true) : keq a c = true := by
  grind [keq]

theorem keq.symm {a b : K} (h : keq a b = true) : keq b a = true := by grind [keq]

theorem keq.le {a a' b b' : K} (h : keq a a' = true) (h' : keq b b' = true) :
    (a ≤ b) = (a' ≤ b') := by
  apply propext
  grind [keq]

theorem keq.lt {a a' b b' : K} (h : keq a a' = true) (h' : keq b b' = true) :
    (a < b) = (a' < b') := by
  apply propext
  grind [keq]

theorem keq.eq {a a' b b' : K} (h : keq a a' = true) (h' : keq b b' = true) :
    keq a b = keq a' b' := by
  grind [keq]

theorem keq.rmax {a a' b b' : K} (h : keq a a' = true) (h' : keq b b' = true) :
    keq (Verif.rmax a b) (Verif.rmax a' b') = true := by
  have := keq.lt h' h
  unfold Verif.rmax
  split <;> split <;> simp_all

theorem keq.rmin {a a' b b' : K} (h : keq a a' = true) (h' : keq b b' = true) :
    keq (Verif.rmin a b) (Verif.rmin a' b') = true := by
  have := keq.lt h' h
  unfold Verif.rmin
  split <;> split <;> simp_all

namespace Cl
variable {α β γ δ : Type}

/-- Whatever equal keys and indistinguishable values cloning yields, `x` ends as `y` does, with
related results. -/
def Sim : Cl K V α → Except Panic β → (α → β → Prop) → Prop
  | .ret a, y, R => ∃ b, y = .ok b ∧ R a b
  | .panic p, y, _ => y = .error p
  | .key k next, y, R => ∀ k', keq k' k = true → Sim (next k') y R
  | .val v next, y, R => ∀ v', Same v' v → Sim (next v') y R

theorem Sim.run {C : Clones K V} (hC : LawfulClones C) {x : Cl K V α} {y : Except Panic β}
    {R : α → β → Prop} (h : Sim x y R) (i : Nat) : SameOutcome R (x.run C i) y := by
  induction x generalizing i with
  | ret a =>
    obtain ⟨b, rfl, hb⟩ := h
    exact hb
  | panic p =>
    obtain rfl : y = .error p := h
    exact rfl
  | key k next ih => exact ih _ (h _ (hC.key i k)) _
  | val v next ih => exact ih _ (h _ (hC.val i v)) _

theorem Sim.bind {x : Cl K V α} {y : Except Panic β} {R : α → β → Prop} (h : Sim x y R)
    {f : α → Cl K V γ} {g : β → Except Panic δ} {R' : γ → δ → Prop}
    (hf : ∀ a b, R a b → Sim (f a) (g b) R') : Sim (x >>= f) (y >>= g) R' := by
  show Sim (x.bind f) _ R'
  induction x with
  | ret a =>
    obtain ⟨b, rfl, hb⟩ := h
    exact hf a b hb
  | panic p =>
    obtain rfl : y = .error p := h
    exact rfl
  | key k next ih => exact fun k' hk => ih _ (h _ hk)
  | val v next ih => exact fun k' hk => ih _ (h _ hk)

theorem Sim.ret {a : α} {b : β} {R : α → β → Prop} (h : R a b) :
    Sim (pure a : Cl K V α) (pure b) R := ⟨b, rfl, h⟩

theorem Sim.mono {x : Cl K V α} {y : Except Panic β} {R R' : α → β → Prop} (h : Sim x y R)
    (hR : ∀ a b, R a b → R' a b) : Sim x y R' := by
  induction x with
  | ret a =>
    obtain ⟨b, rfl, hb⟩ := h
    exact ⟨b, rfl, hR _ _ hb⟩
  | panic p => exact h
  | key k next ih => exact fun k' hk => ih _ (h _ hk)
  | val v next ih => exact fun k' hk => ih _ (h _ hk)

theorem Sim.error {x : Cl K V α} {p : Panic} {R R' : α → β → Prop} (h : Sim x (.error p) R) :
    Sim x (.error p) R' := by
  induction x with
  | ret a =>
    obtain ⟨b, hb, _⟩ := h
    cases hb
  | panic p => exact h
  | key k next ih => exact fun k' hk => ih _ (h _ hk)
  | val v next ih => exact fun k' hk => ih _ (h _ hk)

theorem Sim.ok {x : Cl K V α} {b : β} {R R' : α → β → Prop} (h : Sim x (pure b) R)
    (hR : ∀ a, R a b → R' a b) : Sim x (pure b) R' := by
  induction x with
  | ret a =>
    obtain ⟨b', hb', hb⟩ := h
    cases hb'
    exact ⟨b, rfl, hR _ hb⟩
  | panic p => exact h
  | key k next ih => exact fun k' hk => ih _ (h _ hk)
  | val v next ih => exact fun k' hk => ih _ (h _ hk)

theorem Sim.key {k k₀ : K} (hk : keq k k₀ = true) {f : K → Cl K V α} {y : Except Panic β}
    {R : α → β → Prop} (h : ∀ k', keq k' k₀ = true → Sim (f k') y R) :
    Sim (cloneKey k >>= f) y R :=
  fun k' hk' => h k' (keq.trans hk' hk)

theorem Sim.val {v v₀ : V} (hv : Same v v₀) {f : V → Cl K V α} {y : Except Panic β}
    {R : α → β → Prop} (h : ∀ v', Same v' v₀ → Sim (f v') y R) :
    Sim (cloneVal v >>= f) y R :=
  fun v' hv' => h v' (hv'.trans hv)

theorem Sim.range {r r₀ : Range K} (hr : SameRange r r₀) {f : Range K → Cl K V α}
    {y : Except Panic β} {R : α → β → Prop} (h : ∀ r', SameRange r' r₀ → Sim (f r') y R) :
    Sim (cloneRange r >>= f) y R :=
  fun a ha b hb => h ⟨a, b⟩ ⟨keq.trans ha hr.1, keq.trans hb hr.2⟩

theorem Sim.irange {r r₀ : RangeInclusive K} (hr : SameIRange r r₀) {f : RangeInclusive K → Cl K V α}
    {y : Except Panic β} {R : α → β → Prop} (h : ∀ r', SameIRange r' r₀ → Sim (f r') y R) :
    Sim (cloneIRange r >>= f) y R :=
  fun a ha b hb => h ⟨a, b, r.exhausted⟩ ⟨keq.trans ha hr.1, keq.trans hb hr.2.1, hr.2.2⟩

theorem Sim.lib {x : Except Panic α} {y : Except Panic β} {R : α → β → Prop}
    (h : SameOutcome R x y) : Sim (lib x : Cl K V α) y R := by
  cases x <;> cases y <;> simp_all [SameOutcome, Cl.lib, Sim]

theorem Sim.ite {p q : Prop} [Decidable p] [Decidable q] (hpq : p = q) {x x' : Cl K V α}
    {y y' : Except Panic β} {R : α → β → Prop} (h : p → q → Sim x y R)
    (h' : ¬ p → ¬ q → Sim x' y' R) : Sim (if p then x else x') (if q then y else y') R := by
  subst hpq
  by_cases hp : p
  · rw [if_pos hp, if_pos hp]
    exact h hp hp
  · rw [if_neg hp, if_neg hp]
    exact h' hp hp

end Cl

/-! ### Lists -/

namespace Spec.Pointwise
variable {α β : Type} {R : α → β → Prop} {s : List α} {t : List β}

theorem length (h : Pointwise R s t) : s.length = t.length := by
  induction h with
  | nil => rfl
  | cons _ _ ih => simp [ih]

theorem append {s' : List α} {t' : List β} (h : Pointwise R s t) (h' : Pointwise R s' t') :
    Pointwise R (s ++ s') (t ++ t') := by
  induction h with
  | nil => exact h'
  | cons h _ ih => exact .cons h ih

theorem reverse (h : Pointwise R s t) : Pointwise R s.reverse t.reverse := by
  induction h with
  | nil => exact .nil
  | cons h _ ih =>
    rw [List.reverse_cons, List.reverse_cons]
    exact ih.append (.cons h .nil)

theorem concat_cases (h : Pointwise R s t) : (s = [] ∧ t = []) ∨
    ∃ u a w b, s = u ++ [a] ∧ t = w ++ [b] ∧ Pointwise R u w ∧ R a b := by
  have hr := h.reverse
  generalize hs : s.reverse = s' at hr
  generalize ht : t.reverse = t' at hr
  cases hr with
  | nil => exact .inl ⟨by simpa using hs, by simpa using ht⟩
  | cons hab hr =>
    refine .inr ⟨_, _, _, _, ?_, ?_, hr.reverse, hab⟩
    · rw [← s.reverse_reverse, hs, List.reverse_cons]
    · rw [← t.reverse_reverse, ht, List.reverse_cons]

theorem take (h : Pointwise R s t) (n : Nat) : Pointwise R (s.take n) (t.take n) := by
  induction h generalizing n with
  | nil => simpa using .nil
  | cons h _ ih =>
    cases n with
    | zero => exact .nil
    | succ n => exact .cons h (ih n)

theorem filter {p : α → Bool} {q : β → Bool} (hpq : ∀ a b, R a b → p a = q b)
    (h : Pointwise R s t) : Pointwise R (s.filter p) (t.filter q) := by
  induction h with
  | nil => exact .nil
  | cons h _ ih =>
    rw [List.filter_cons, List.filter_cons, hpq _ _ h]
    split
    · exact .cons h ih
    · exact ih

theorem head? (h : Pointwise R s t) : SameOpt R s.head? t.head? := by
  cases h with
  | nil => trivial
  | cons h _ => exact h

theorem getLast? (h : Pointwise R s t) : SameOpt R s.getLast? t.getLast? := by
  rw [← List.head?_reverse, ← List.head?_reverse]
  exact h.reverse.head?

theorem dropLast (h : Pointwise R s t) : Pointwise R s.dropLast t.dropLast := by
  rw [List.dropLast_eq_take, List.dropLast_eq_take, h.length]
  exact h.take _

theorem tail (h : Pointwise R s t) : Pointwise R s.tail t.tail := by
  cases h with
  | nil => exact .nil
  | cons _ h => exact h

end Spec.Pointwise

theorem Spec.SameOpt.filter {α β : Type} {R : α → β → Prop} {p : α → Bool} {q : β → Bool}
    (hpq : ∀ a b, R a b → p a = q b) {a : Option α} {b : Option β} (h : SameOpt R a b) :
    SameOpt R (a.filter p) (b.filter q) := by
  cases a <;> cases b <;> simp_all [SameOpt, Option.filter]
  rw [hpq _ _ h]
  split <;> simp_all [SameOpt]

theorem Spec.SameOpt.map {α β γ δ : Type} {R : α → β → Prop} {R' : γ → δ → Prop} {f : α → γ}
    {g : β → δ} (hf : ∀ a b, R a b → R' (f a) (g b)) {a : Option α} {b : Option β}
    (h : SameOpt R a b) : SameOpt R' (a.map f) (b.map g) := by
  cases a <;> cases b <;> simp_all [SameOpt]

/-! ### The B-tree -/

namespace BTreeMap
variable {A : Type} {SR : A → A → Prop} {key : A → K}

/-- Bounds of the same kind at keys that compare equal. -/
def SameBound : Bound K → Bound K → Prop
  | .unbounded, .unbounded => True
  | .included a, .included b => keq a b = true
  | .excluded a, .excluded b => keq a b = true
  | _, _ => False

theorem insert_same (hk : ∀ r s, SR r s → keq (key r) (key s) = true) {r s : A} {v w : V}
    (h : SR r s) (hv : Same v w) {l l' : List (A × V)} (hl : Pointwise (SameEntry SR) l l') :
    Pointwise (SameEntry SR) (insert key r v l) (insert key s w l') := by
  induction hl with
  | nil => exact .cons ⟨h, hv⟩ .nil
  | @cons a b t t' hab ht ih =>
    unfold insert
    have h1 := keq.lt (hk _ _ h) (hk _ _ hab.1)
    have h2 := keq.lt (hk _ _ hab.1) (hk _ _ h)
    simp only [h1, h2]
    split
    · exact .cons ⟨h, hv⟩ (.cons hab ht)
    · split
      · exact .cons hab ih
      · exact .cons ⟨hab.1, hv⟩ ht

theorem remove_same (hk : ∀ r s, SR r s → keq (key r) (key s) = true) {k k' : K}
    (h : keq k k' = true) {l l' : List (A × V)} (hl : Pointwise (SameEntry SR) l l') :
    Pointwise (SameEntry SR) (remove key k l) (remove key k' l') := by
  induction hl with
  | nil => exact .nil
  | @cons a b t t' hab ht ih =>
    unfold remove
    rw [keq.eq (hk _ _ hab.1) h]
    split
    · exact ht
    · exact .cons hab ih

theorem range_same (hk : ∀ r s, SR r s → keq (key r) (key s) = true) {lo lo' hi hi' : Bound K}
    (hlo : SameBound lo lo') (hhi : SameBound hi hi') {l l' : List (A × V)}
    (hl : Pointwise (SameEntry SR) l l') :
    SameOutcome (Pointwise (SameEntry SR)) (range key lo hi l) (range key lo' hi' l') := by
  have h1 : Bound.invalid lo hi = Bound.invalid lo' hi' := by
    cases lo <;> cases lo' <;> simp only [SameBound] at hlo <;>
      cases hi <;> cases hi' <;> simp only [SameBound] at hhi <;>
      simp only [Bound.invalid] <;>
      simp only [keq.lt hhi hlo, keq.le hhi hlo]
  unfold range
  rw [h1]
  split
  · exact rfl
  · refine hl.filter fun a b hab => ?_
    have hab := hk _ _ hab.1
    congr 1
    · cases lo <;> cases lo' <;> simp only [SameBound] at hlo <;> simp only [Bound.admitsAsLower]
      · simp only [keq.le hlo hab]
      · simp only [keq.lt hlo hab]
    · cases hi <;> cases hi' <;> simp only [SameBound] at hhi <;> simp only [Bound.admitsAsUpper]
      · simp only [keq.le hab hhi]
      · simp only [keq.lt hab hhi]

end BTreeMap
end
end Verif

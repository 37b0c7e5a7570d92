import Verif.Model.Crash

/-!
# Reasoning about interrupted programs
-/
set_option linter.unusedSectionVars false
set_option linter.unusedVariables false
namespace Verif
variable {K : Type} [LE K] [LT K] [DecidableLE K] [DecidableLT K] {R V α β : Type}

theorem Cr.run_bind (key : R → K) (o : Nat → Bool) (f : α → Cr K R V β) :
    ∀ (c : Cr K R V α) (s : CrState (R × V)), (c >>= f).run key o s =
      match c.run key o s with
      | (.ok a, s) => (f a).run key o s
      | (.error e, s) => (.error e, s) := by
  intro c
  have hb : (c >>= f) = c.bind f := rfl
  rw [hb]
  induction c with
  | ret a => intro s; rfl
  | panic p => intro s; rfl
  | call next ih =>
    intro s
    simp only [Cr.bind, Cr.run]
    split
    · rfl
    · exact ih rfl _
  | size next ih => intro s; simp only [Cr.bind, Cr.run]; exact ih _ rfl _
  | search lo hi next ih =>
    intro s
    simp only [Cr.bind, Cr.run]
    split
    · exact ih _ rfl _
    · rfl
  | put r v next ih => intro s; simp only [Cr.bind, Cr.run]; exact ih _ rfl _
  | delete k next ih => intro s; simp only [Cr.bind, Cr.run]; exact ih rfl _

/-- Started on the B-tree `m`, `c` returns `a` leaving `m'`; or user code panics, leaving a B-tree
that satisfies `P`. -/
def Sim (key : R → K) (P : List (R × V) → Prop) (c : Cr K R V α) (m : List (R × V)) (a : α)
    (m' : List (R × V)) : Prop :=
  ∀ o n, (∃ n', c.run key o ⟨n, m⟩ = (.ok a, ⟨n', m'⟩)) ∨
    ∃ n' m'', c.run key o ⟨n, m⟩ = (.error .user, ⟨n', m''⟩) ∧ P m'' ∧ ∃ i, o i = true

namespace Sim
variable {P : List (R × V) → Prop} {key : R → K}

theorem pure (a : α) (m : List (R × V)) : Sim key P (Pure.pure a) m a m := fun o n => Or.inl ⟨n, rfl⟩

theorem bind {c : Cr K R V α} {f : α → Cr K R V β} {m m1 m2 : List (R × V)} {a : α} {b : β}
    (h1 : Sim key P c m a m1) (h2 : Sim key P (f a) m1 b m2) : Sim key P (c >>= f) m b m2 := by
  intro o n
  rw [Cr.run_bind]
  rcases h1 o n with ⟨n1, h⟩ | ⟨n1, m'', h, hp⟩
  · rw [h]
    exact h2 o n1
  · rw [h]
    exact Or.inr ⟨n1, m'', rfl, hp⟩

theorem call {c : Cr K R V α} {m m' : List (R × V)} {a : α} (h : P m) (hc : Sim key P c m a m') :
    Sim key P (.call c) m a m' := by
  intro o n
  simp only [Cr.run]
  cases ho : o n with
  | true => exact Or.inr ⟨n + 1, m, by simp, h, n, ho⟩
  | false => exact hc o (n + 1)

theorem user {m : List (R × V)} (h : P m) : Sim key P Cr.user m () m := call h (pure () m)

theorem len (m : List (R × V)) : Sim key P Cr.len m m.length m := fun o n => Or.inl ⟨n, rfl⟩

theorem lib {x : Except Panic α} {a : α} (h : x = .ok a) (m : List (R × V)) :
    Sim key P (Cr.lib x) m a m := by
  subst h
  exact fun o n => Or.inl ⟨n, rfl⟩

/-- `user` followed by more. -/
theorem user_bind {f : Unit → Cr K R V β} {m m2 : List (R × V)} {b : β}
    (h : P m) (h2 : Sim key P (f ()) m b m2) : Sim key P (Cr.user >>= f) m b m2 := (user h).bind h2

theorem mono {Q : List (R × V) → Prop} {c : Cr K R V α} {m m' : List (R × V)} {a : α}
    (h : Sim key P c m a m') (hpq : ∀ m, P m → Q m) : Sim key Q c m a m' := by
  intro o n
  rcases h o n with h | ⟨n', m'', h1, h2, h3⟩
  · exact Or.inl h
  · exact Or.inr ⟨n', m'', h1, hpq _ h2, h3⟩

variable {m : List (R × V)}

theorem range {lo hi : Bound K} {l : List (R × V)} (h : P m)
    (hl : BTreeMap.range key lo hi m = .ok l) : Sim key P (Cr.range lo hi) m l m := by
  refine call h fun o n => Or.inl ⟨n, ?_⟩
  simp only [Cr.run, hl]

theorem remove {k : K} (h : P m) (h' : P (BTreeMap.remove key k m)) :
    Sim key P (Cr.remove k) m () (BTreeMap.remove key k m) := by
  refine call h fun o n => ?_
  exact call h' (pure () _) o n

theorem insert {r : R} {v : V} (h : P m)
    (hf : ∀ e ∈ m, ¬ (key e.1 ≤ key r ∧ key r ≤ key e.1)) :
    Sim key P (Cr.insert r v) m () (BTreeMap.insert key r v m) := by
  refine call h fun o n => Or.inl ⟨n, ?_⟩
  have : (m.any fun e => keq (key e.1) (key r)) = false := by
    rw [Bool.eq_false_iff]
    intro hc
    rw [List.any_eq_true] at hc
    obtain ⟨e, he, hk⟩ := hc
    simp only [keq, Bool.and_eq_true, decide_eq_true_eq] at hk
    exact hf e he hk
  simp [Cr.run, this]

end Sim
end Verif

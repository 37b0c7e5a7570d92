import Verif.Model.Std

/-!
# Many programs that use the same containers in turns (for C121)
-/

namespace Verif.Spec

/-- One turn of the program `t`, if it is not done: the answer goes to its own list (the last answer
first), the containers change.  `perform` makes one call. -/
def turn {A C σ : Type} (perform : σ → C → A × σ) (progs : Nat → List A → Option C)
    (s : (Nat → List A) × σ) (t : Nat) : (Nat → List A) × σ :=
  match progs t (s.1 t) with
  | none => s
  | some c => (fun i => if i = t then (perform s.2 c).1 :: s.1 t else s.1 i, (perform s.2 c).2)

/-- Programs `0, 1, …` that use the same containers, one call at a time; `turns` says whose turn it
is. -/
def concert {A C σ : Type} (perform : σ → C → A × σ) (progs : Nat → List A → Option C)
    (turns : List Nat) (s : (Nat → List A) × σ) : (Nat → List A) × σ :=
  turns.foldl (turn perform progs) s

end Verif.Spec

namespace Verif.Concert
open Spec
variable {A C σ : Type} {perform : σ → C → A × σ} {progs : Nat → List A → Option C}

/-- The calls may be made in either order. -/
def Commute (perform : σ → C → A × σ) (s : σ) (c d : C) : Prop :=
  (perform (perform s c).2 d).1 = (perform s d).1 ∧
  (perform (perform s d).2 c).1 = (perform s c).1 ∧
  (perform (perform s c).2 d).2 = (perform (perform s d).2 c).2

/-- All calls of different programs commute. -/
def Free (I : σ → Prop) (perform : σ → C → A × σ) (progs : Nat → List A → Option C) : Prop :=
  ∀ i j, i ≠ j → ∀ as bs c d, progs i as = some c → progs j bs = some d → ∀ s, I s →
    Commute perform s c d

theorem turn_keeps {I : σ → Prop} (hI : ∀ s c, I s → I (perform s c).2) (s : (Nat → List A) × σ)
    (t : Nat) (h : I s.2) : I (turn perform progs s t).2 := by
  unfold turn
  split
  · exact h
  · exact hI _ _ h

theorem turn_swap {I : σ → Prop} (hf : Free I perform progs) (s : (Nat → List A) × σ) (h : I s.2)
    (i j : Nat) : turn perform progs (turn perform progs s i) j =
      turn perform progs (turn perform progs s j) i := by
  by_cases hij : i = j
  · rw [hij]
  obtain ⟨as, m⟩ := s
  have hji : j ≠ i := fun e => hij e.symm
  cases ei : progs i (as i) with
  | none =>
    cases ej : progs j (as j) with
    | none => simp only [turn, ei, ej]
    | some d => simp only [turn, ei, ej, if_neg hij]
  | some c =>
    cases ej : progs j (as j) with
    | none => simp only [turn, ei, ej, if_neg hji]
    | some d =>
      obtain ⟨h1, h2, h3⟩ := hf i j hij _ _ c d ei ej m h
      simp only [turn, ei, ej, if_neg hji, if_neg hij, h1, h2, h3, Prod.mk.injEq, and_true]
      funext k
      by_cases hk : k = i
      · subst hk; simp [hij]
      · simp [hk]

theorem concert_perm {I : σ → Prop} (hI : ∀ s c, I s → I (perform s c).2)
    (hf : Free I perform progs) {turns turns' : List Nat} (hp : turns.Perm turns') :
    ∀ s : (Nat → List A) × σ, I s.2 →
      concert perform progs turns s = concert perform progs turns' s := by
  induction hp with
  | nil => exact fun _ _ => rfl
  | cons t _ ih => exact fun s h => ih _ (turn_keeps hI s t h)
  | swap i j l =>
    intro s h
    simp only [concert, List.foldl_cons]
    rw [turn_swap hf s h j i]
  | trans _ _ ih1 ih2 => exact fun s h => (ih1 s h).trans (ih2 s h)

theorem concert_append (l l' : List Nat) (s : (Nat → List A) × σ) :
    concert perform progs (l ++ l') s = concert perform progs l' (concert perform progs l s) :=
  List.foldl_append

/-- Turns of others add nothing to what one hears. -/
theorem concert_others (t : Nat) (l : List Nat) (hl : t ∉ l) :
    ∀ s : (Nat → List A) × σ, (concert perform progs l s).1 t = s.1 t := by
  induction l with
  | nil => exact fun _ => rfl
  | cons i l ih =>
    intro s
    rw [List.mem_cons, not_or] at hl
    show (concert perform progs l (turn perform progs s i)).1 t = _
    rw [ih hl.2]
    unfold turn
    split
    · rfl
    · exact if_neg hl.1

/-- What a program hears in at most `n` calls. -/
def alone (perform : σ → C → A × σ) (p : List A → Option C) : Nat → List A → σ → List A
  | 0, as, _ => as
  | n + 1, as, s =>
    match p as with
    | none => as
    | some c => alone perform p n ((perform s c).1 :: as) (perform s c).2

theorem concert_alone (t : Nat) (n : Nat) : ∀ s : (Nat → List A) × σ,
    (concert perform progs (List.replicate n t) s).1 t = alone perform (progs t) n (s.1 t) s.2 := by
  induction n with
  | zero => exact fun _ => rfl
  | succ n ih =>
    intro s
    rw [List.replicate_succ]
    show (concert perform progs (List.replicate n t) (turn perform progs s t)).1 t = _
    rw [ih]
    cases e : progs t (s.1 t) with
    | none =>
      cases n with
      | zero => simp only [turn, alone, e]
      | succ n => simp only [turn, alone, e]
    | some c => simp only [turn, e, if_pos, alone]

theorem count_perm (t : Nat) (l : List Nat) :
    l.Perm (List.replicate (l.count t) t ++ l.filter fun i => decide (i ≠ t)) := by
  induction l with
  | nil => exact .refl _
  | cons i l ih =>
    by_cases h : i = t
    · subst h
      rw [List.count_cons_self, List.replicate_succ, List.filter_cons_of_neg (by simp)]
      exact ih.cons i
    · rw [List.count_cons_of_ne h, List.filter_cons_of_pos (by simpa using h)]
      exact (ih.cons i).trans List.perm_middle.symm

/-- Each hears what it hears alone. -/
theorem concert_hears {I : σ → Prop} (hI : ∀ s c, I s → I (perform s c).2)
    (hf : Free I perform progs) (turns : List Nat) (t : Nat) (s : (Nat → List A) × σ) (h : I s.2) :
    (concert perform progs turns s).1 t =
      alone perform (progs t) (turns.count t) (s.1 t) s.2 := by
  rw [concert_perm hI hf (count_perm t turns) s h, concert_append,
    concert_others t _ (by simp), concert_alone]

end Verif.Concert

import Verif.Props.ApartSets
import Verif.Proof.Concert

/-!
# C121 for sets
-/
set_option linter.unusedSectionVars false
set_option linter.unnecessarySimpa false

namespace Verif.Spec
variable {K : Type} [LE K] [LT K] [DecidableLE K] [DecidableLT K]

/-- The program `t` asks about keys in `A t` only and changes keys in `B t` only, which are among
them; nobody else changes keys that it asks about. -/
structure SetSplit (A B : Nat → Nat → K → Prop) (progs : Nat → SetProgram (Range K) K) : Prop where
  asks : ∀ t, SetAlways (SetAsks (A t)) (progs t)
  changes : ∀ t, SetAlways (SetChanges (B t)) (progs t)
  own : ∀ t i k, B t i k → A t i k
  apart : ∀ t u, t ≠ u → ∀ i k, A t i k → ¬ B u i k

end Verif.Spec

namespace Verif.Props
open Spec RangeSet Concert
section
variable {K : Type} [LE K] [LT K] [DecidableLE K] [DecidableLT K]
  [Std.IsLinearPreorder K] [Std.LawfulOrderLT K]

/-- Sets that hold the same are the same. -/
theorem SetAgreeAt.eq (hk : ∀ a b : K, a ≤ b → b ≤ a → a = b) {sets sets' : Nat → RangeSet K}
    (h : ∀ i k, (sets i).contains k = (sets' i).contains k) (h1 : ∀ i, Reachable (sets i))
    (h2 : ∀ i, Reachable (sets' i)) : sets = sets' := by
  funext i
  have e1 := iterEq_eq_of_lawful hk ((C35_eq_iff (h1 i) (h2 i)).2 (h i))
  cases e : sets i with
  | mk m => cases e' : sets' i with
    | mk m' =>
      rw [e, e'] at e1
      exact congrArg RangeSet.mk (congrArg RangeMap.mk e1)

theorem SetAgreeAt.symm {P : Nat → K → Prop} {a b : Nat → RangeSet K} (h : SetAgreeAt P a b) :
    SetAgreeAt P b a := ⟨h.2.1, h.1, fun i k hk => (h.2.2 i k hk).symm⟩

/-- **C121** Two calls, neither of which asks about keys that the other changes, may be made in
either order: the answers are the same, and the sets afterwards are the same, entry for entry. -/
theorem C121_set_swap (hk : ∀ a b : K, a ≤ b → b ≤ a → a = b) {A A' B B' : Nat → K → Prop}
    {c d : SetCall K} (hc : SetAsks A c) (hc' : SetChanges B c) (hd : SetAsks A' d)
      (hd' : SetChanges B' d)
    (own : ∀ i k, B i k → A i k) (own' : ∀ i k, B' i k → A' i k)
    (apart : ∀ i k, A i k → ¬ B' i k) (apart' : ∀ i k, A' i k → ¬ B i k)
    {sets : Nat → RangeSet K} (h : ∀ i, Reachable (sets i)) :
    (perform (perform sets c).2 d).1 = (perform sets d).1 ∧
    (perform (perform sets d).2 c).1 = (perform sets c).1 ∧
    (perform (perform sets c).2 d).2 = (perform (perform sets d).2 c).2 := by
  have c1 : SetAgreeAt A' (perform sets c).2 sets := C120_set_frame apart' h hc'
  have d1 : SetAgreeAt A (perform sets d).2 sets := C120_set_frame apart h hd'
  obtain ⟨h1, h2⟩ := C120_set_call hk c1 hd
  obtain ⟨h3, h4⟩ := C120_set_call hk d1 hc
  have h5 : SetAgreeAt A (perform (perform sets c).2 d).2 (perform sets c).2 :=
    C120_set_frame apart c1.1 hd'
  have h6 : SetAgreeAt A' (perform (perform sets d).2 c).2 (perform sets d).2 :=
    C120_set_frame apart' d1.1 hc'
  refine ⟨h1, h3, SetAgreeAt.eq hk (fun i k => ?_) h5.1 h6.1⟩
  by_cases ha : A i k
  · exact (h5.trans h4.symm).2.2 i k ha
  by_cases ha' : A' i k
  · exact (h2.trans h6.symm).2.2 i k ha'
  have hb : ¬ B i k := fun hb => ha (own i k hb)
  have hb' : ¬ B' i k := fun hb => ha' (own' i k hb)
  have e1 := (C120_set_frame (P := fun i k => ¬ B i k) (fun _ _ h => h) h hc').2.2 i k hb
  have e2 := (C120_set_frame (P := fun i k => ¬ B' i k) (fun _ _ h => h) c1.1 hd').2.2 i k hb'
  have e3 := (C120_set_frame (P := fun i k => ¬ B' i k) (fun _ _ h => h) h hd').2.2 i k hb'
  have e4 := (C120_set_frame (P := fun i k => ¬ B i k) (fun _ _ h => h) d1.1 hc').2.2 i k hb
  rw [e2, e1, e4, e3]

theorem set_perform_keeps {sets : Nat → RangeSet K} (h : ∀ i, Reachable (sets i))
    (c : SetCall K) : ∀ i, Reachable ((perform sets c).2 i) := by
  obtain ⟨f, g, h1, -, -⟩ := SetAgreeAt.mirrors (P := fun _ _ => True) ⟨h, h, fun _ _ _ => rfl⟩
  exact fun i => ((C112_call h1 c).2 i).1

theorem SetSplit.free (hk : ∀ a b : K, a ≤ b → b ≤ a → a = b) {A B : Nat → Nat → K → Prop}
    {progs : Nat → SetProgram (Range K) K} (hp : SetSplit A B progs) :
    Free (fun sets : Nat → RangeSet K => ∀ i, Reachable (sets i)) perform progs :=
  fun t u htu _ _ _ _ hc hd _ h => C121_set_swap hk (hp.asks t _ _ hc) (hp.changes t _ _ hc)
    (hp.asks u _ _ hd) (hp.changes u _ _ hd) (hp.own t) (hp.own u) (hp.apart t u htu)
    (hp.apart u t fun e => htu e.symm) h

/-- **C121** Programs that do not change what the others ask about: in whatever order they take the
same turns, all of them hear the same, and the sets at the end are the same, entry for entry. -/
theorem C121_set_order (hk : ∀ a b : K, a ≤ b → b ≤ a → a = b) {A B : Nat → Nat → K → Prop}
    {progs : Nat → SetProgram (Range K) K} (hp : SetSplit A B progs) {turns turns' : List Nat}
    (ht : turns.Perm turns') {sets : Nat → RangeSet K} (h : ∀ i, Reachable (sets i)) :
    concert perform progs turns (fun _ => [], sets) =
      concert perform progs turns' (fun _ => [], sets) :=
  concert_perm (fun _ c h => set_perform_keeps h c) (SetSplit.free hk hp) ht _ h

theorem set_dialogue_alone (p : SetProgram (Range K) K) (n : Nat) : ∀ as (sets : Nat → RangeSet K),
    dialogue p n as sets = alone perform p n as sets := by
  induction n with
  | zero => exact fun _ _ => rfl
  | succ n ih =>
    intro as sets
    unfold dialogue alone
    cases p as with
    | none => rfl
    | some c => exact ih _ _

/-- **C121** Each of the programs hears what it hears when it runs alone. -/
theorem C121_set_alone (hk : ∀ a b : K, a ≤ b → b ≤ a → a = b) {A B : Nat → Nat → K → Prop}
    {progs : Nat → SetProgram (Range K) K} (hp : SetSplit A B progs) (turns : List Nat) (t : Nat)
    {sets : Nat → RangeSet K} (h : ∀ i, Reachable (sets i)) :
    (concert perform progs turns (fun _ => [], sets)).1 t =
      dialogue (progs t) (turns.count t) [] sets := by
  rw [set_dialogue_alone]
  exact concert_hears (fun _ c h => set_perform_keeps h c) (SetSplit.free hk hp) turns t _ h

end

/-! ### Examples -/

/-- A writer of the set 0 below 100 and of the set 1, one of the set 0 from 100 on, and readers of
  the set 2. -/
def setBand : Nat → SetProgram (Range Nat) Nat
  | 0 => lowSet
  | 1 => highSet
  | _ + 2 => fun
    | [] => some (.gaps 2 ⟨0, 500⟩ 2)
    | [_] => some (.len 2)
    | _ => none

/-- What they ask about; the readers ask about the same keys. -/
def setBandAsks : Nat → Nat → Nat → Prop
  | 0, i, k => i = 1 ∨ i = 0 ∧ k < 100
  | 1, i, k => i = 0 ∧ 100 ≤ k
  | _ + 2, i, _ => i = 2

/-- What they change. -/
def setBandChanges : Nat → Nat → Nat → Prop
  | 0, i, k => i = 1 ∨ i = 0 ∧ k < 100
  | 1, i, k => i = 0 ∧ 100 ≤ k
  | _ + 2, _, _ => False

theorem setBand_split : SetSplit setBandAsks setBandChanges setBand where
  asks t := match t with
    | 0 => fun as c h => by
      simp only [setBand] at h
      unfold lowSet at h
      split at h <;> simp only [Option.some.injEq, reduceCtorEq] at h <;> subst h <;>
        simp only [SetAsks, setBandAsks, Within] <;> grind
    | 1 => fun as c h => by
      simp only [setBand] at h
      unfold highSet at h
      split at h <;> simp only [Option.some.injEq, reduceCtorEq] at h <;> subst h <;>
        simp only [SetAsks, setBandAsks] <;> grind
    | t + 2 => fun as c h => by
      simp only [setBand] at h
      split at h <;> simp only [Option.some.injEq, reduceCtorEq] at h <;> subst h <;>
        simp only [SetAsks, setBandAsks, Within] <;> grind
  changes t := match t with
    | 0 => fun as c h => by
      simp only [setBand] at h
      unfold lowSet at h
      split at h <;> simp only [Option.some.injEq, reduceCtorEq] at h <;> subst h <;>
        simp only [SetChanges, setBandChanges, Within] <;> grind
    | 1 => fun as c h => by
      simp only [setBand] at h
      unfold highSet at h
      split at h <;> simp only [Option.some.injEq, reduceCtorEq] at h <;> subst h <;>
        simp only [SetChanges, setBandChanges, Within] <;> grind
    | t + 2 => fun as c h => by
      simp only [setBand] at h
      split at h <;> simp only [Option.some.injEq, reduceCtorEq] at h <;> subst h <;>
        simp only [SetChanges]
  own t i k h := by
    match t, h with
    | 0, h => exact h
    | 1, h => exact h
  apart t u htu i k h h' := by
    match t, u, h, h' with
    | 0, 0, _, _ => exact htu rfl
    | 1, 1, _, _ => exact htu rfl
    | 0, 1, h, h' => simp only [setBandAsks, setBandChanges] at h h'; omega
    | 1, 0, h, h' => simp only [setBandAsks, setBandChanges] at h h'; omega
    | t + 2, 0, h, h' => simp only [setBandAsks, setBandChanges] at h h'; omega
    | t + 2, 1, h, h' => simp only [setBandAsks, setBandChanges] at h h'; omega

example := C121_set_order (fun _ _ => Nat.le_antisymm) setBand_split
    (turns := [0, 0, 1, 2, 1, 0, 3]) (turns' := [3, 2, 1, 1, 0, 0, 0]) (by decide)
    (sets := fun _ => Demo.set) (fun _ => Demo.set_reachable)
-- the ranges of the two writers are joined to one, and split again
example : ((concert perform setBand [0, 0, 1, 2, 1, 1, 0, 3] (fun _ => [],
      fun _ => Demo.set)).2 0).iter = [⟨0, 150⟩, ⟨160, 300⟩] := by decide +kernel
example := C121_set_alone (fun _ _ => Nat.le_antisymm) setBand_split [0, 0, 1, 2, 1, 0, 3] 1
    (sets := fun _ => Demo.set) (fun _ => Demo.set_reachable)
example := C121_set_swap (K := Nat) (fun _ _ => Nat.le_antisymm)
    (A := fun _ k => k < 5) (B := fun _ k => k < 5) (A' := fun _ k => 5 ≤ k)
    (B' := fun _ k => 5 ≤ k) (c := .insert 0 ⟨2, 5⟩) (d := .insert 0 ⟨5, 8⟩)
    trivial (by simp only [SetChanges, Within]; grind) trivial
    (by simp only [SetChanges, Within]; grind) (fun _ _ h => h) (fun _ _ h => h) (by grind)
    (by grind) (sets := fun _ => Demo.set) (fun _ => Demo.set_reachable)

end Verif.Props

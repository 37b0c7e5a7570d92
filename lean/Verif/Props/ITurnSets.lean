import Verif.Props.IApartSets
import Verif.Proof.Concert

/-!
# C121 for inclusive sets
-/
set_option linter.unusedSectionVars false
set_option linter.unnecessarySimpa false

namespace Verif.Spec
variable {K : Type} [LE K] [LT K] [DecidableLE K] [DecidableLT K]

/-- The program `t` asks about keys in `A t` only and changes keys in `B t` only, which are among
them; nobody else changes keys that it asks about. -/
structure ISetSplit (A B : Nat → Nat → K → Prop) (progs : Nat → SetProgram (RangeInclusive K) K)
  : Prop where
  asks : ∀ t, SetAlways (ISetAsks (A t)) (progs t)
  changes : ∀ t, SetAlways (ISetChanges (B t)) (progs t)
  own : ∀ t i k, B t i k → A t i k
  apart : ∀ t u, t ≠ u → ∀ i k, A t i k → ¬ B u i k

end Verif.Spec

namespace Verif.Props.Inclusive
open Spec RangeInclusiveSet Concert
section
variable {K : Type} [LE K] [LT K] [DecidableLE K] [DecidableLT K]
  [Std.IsLinearPreorder K] [Std.LawfulOrderLT K] {S : StepFns K}

/-- Sets that hold the same are the same. -/
theorem SetAgreeAt.eq (hS : LawfulSteps S) (hk : ∀ a b : K, a ≤ b → b ≤ a → a = b)
    {sets sets' : Nat → RangeInclusiveSet K}
    (h : ∀ i k, (sets i).contains k = (sets' i).contains k) (h1 : ∀ i, Reachable S (sets i))
    (h2 : ∀ i, Reachable S (sets' i)) : sets = sets' := by
  funext i
  have e1 := iterEq_eq_of_lawful_inclusive hk ((C36_eq_iff hS (h1 i) (h2 i)).2 (h i))
  cases e : sets i with
  | mk m => cases e' : sets' i with
    | mk m' =>
      rw [e, e'] at e1
      exact congrArg RangeInclusiveSet.mk (congrArg RangeInclusiveMap.mk e1)

theorem SetAgreeAt.symm {P : Nat → K → Prop} {a b : Nat → RangeInclusiveSet K}
    (h : SetAgreeAt S P a b) :
    SetAgreeAt S P b a := ⟨h.2.1, h.1, fun i k hk => (h.2.2 i k hk).symm⟩

/-- **C121** Two calls, neither of which asks about keys that the other changes, may be made in
either order: the answers are the same, and the sets afterwards are the same, entry for entry. -/
theorem C121_set_swap (hS : LawfulSteps S) (hk : ∀ a b : K, a ≤ b → b ≤ a → a = b)
    {A A' B B' : Nat → K → Prop}
    {c d : SetCall K} (hc : ISetAsks A c) (hc' : ISetChanges B c) (hd : ISetAsks A' d)
      (hd' : ISetChanges B' d)
    (own : ∀ i k, B i k → A i k) (own' : ∀ i k, B' i k → A' i k)
    (apart : ∀ i k, A i k → ¬ B' i k) (apart' : ∀ i k, A' i k → ¬ B i k)
    {sets : Nat → RangeInclusiveSet K} (h : ∀ i, Reachable S (sets i)) :
    (perform S (perform S sets c).2 d).1 = (perform S sets d).1 ∧
    (perform S (perform S sets d).2 c).1 = (perform S sets c).1 ∧
    (perform S (perform S sets c).2 d).2 = (perform S (perform S sets d).2 c).2 := by
  have c1 : SetAgreeAt S A' (perform S sets c).2 sets := C120_set_frame hS apart' h hc'
  have d1 : SetAgreeAt S A (perform S sets d).2 sets := C120_set_frame hS apart h hd'
  obtain ⟨h1, h2⟩ := C120_set_call hS hk c1 hd
  obtain ⟨h3, h4⟩ := C120_set_call hS hk d1 hc
  have h5 : SetAgreeAt S A (perform S (perform S sets c).2 d).2 (perform S sets c).2 :=
    C120_set_frame hS apart c1.1 hd'
  have h6 : SetAgreeAt S A' (perform S (perform S sets d).2 c).2 (perform S sets d).2 :=
    C120_set_frame hS apart' d1.1 hc'
  refine ⟨h1, h3, SetAgreeAt.eq hS hk (fun i k => ?_) h5.1 h6.1⟩
  by_cases ha : A i k
  · exact (h5.trans h4.symm).2.2 i k ha
  by_cases ha' : A' i k
  · exact (h2.trans h6.symm).2.2 i k ha'
  have hb : ¬ B i k := fun hb => ha (own i k hb)
  have hb' : ¬ B' i k := fun hb => ha' (own' i k hb)
  have e1 := (C120_set_frame hS (P := fun i k => ¬ B i k) (fun _ _ h => h) h hc').2.2 i k hb
  have e2 := (C120_set_frame hS (P := fun i k => ¬ B' i k) (fun _ _ h => h) c1.1 hd').2.2 i k hb'
  have e3 := (C120_set_frame hS (P := fun i k => ¬ B' i k) (fun _ _ h => h) h hd').2.2 i k hb'
  have e4 := (C120_set_frame hS (P := fun i k => ¬ B i k) (fun _ _ h => h) d1.1 hc').2.2 i k hb
  rw [e2, e1, e4, e3]

theorem set_perform_keeps (hS : LawfulSteps S) {sets : Nat → RangeInclusiveSet K}
    (h : ∀ i, Reachable S (sets i))
    (c : SetCall K) : ∀ i, Reachable S ((perform S sets c).2 i) := by
  obtain ⟨f, g, h1, -, -⟩ := SetAgreeAt.mirrors hS (P := fun _ _ => True) ⟨h, h, fun _ _ _ => rfl⟩
  exact fun i => ((C112_call hS h1 c).2 i).1

theorem ISetSplit.free (hS : LawfulSteps S) (hk : ∀ a b : K, a ≤ b → b ≤ a → a = b)
    {A B : Nat → Nat → K → Prop}
    {progs : Nat → SetProgram (RangeInclusive K) K} (hp : ISetSplit A B progs) :
    Free (fun sets : Nat → RangeInclusiveSet K => ∀ i, Reachable S (sets i)) (perform S) progs :=
  fun t u htu _ _ _ _ hc hd _ h => C121_set_swap hS hk (hp.asks t _ _ hc) (hp.changes t _ _ hc)
    (hp.asks u _ _ hd) (hp.changes u _ _ hd) (hp.own t) (hp.own u) (hp.apart t u htu)
    (hp.apart u t fun e => htu e.symm) h

/-- **C121** Programs that do not change what the others ask about: in whatever order they take the
same turns, all of them hear the same, and the sets at the end are the same, entry for entry. -/
theorem C121_set_order (hS : LawfulSteps S) (hk : ∀ a b : K, a ≤ b → b ≤ a → a = b)
    {A B : Nat → Nat → K → Prop}
    {progs : Nat → SetProgram (RangeInclusive K) K} (hp : ISetSplit A B progs)
      {turns turns' : List Nat}
    (ht : turns.Perm turns') {sets : Nat → RangeInclusiveSet K} (h : ∀ i, Reachable S (sets i)) :
    concert (perform S) progs turns (fun _ => [], sets) =
      concert (perform S) progs turns' (fun _ => [], sets) :=
  concert_perm (fun _ c h => set_perform_keeps hS h c) (ISetSplit.free hS hk hp) ht _ h

theorem set_dialogue_alone (p : SetProgram (RangeInclusive K) K) (n : Nat) : ∀ as
    (sets : Nat → RangeInclusiveSet K),
    dialogue S p n as sets = alone (perform S) p n as sets := by
  induction n with
  | zero => exact fun _ _ => rfl
  | succ n ih =>
    intro as sets
    unfold dialogue alone
    cases p as with
    | none => rfl
    | some c => exact ih _ _

/-- **C121** Each of the programs hears what it hears when it runs alone. -/
theorem C121_set_alone (hS : LawfulSteps S) (hk : ∀ a b : K, a ≤ b → b ≤ a → a = b)
    {A B : Nat → Nat → K → Prop}
    {progs : Nat → SetProgram (RangeInclusive K) K} (hp : ISetSplit A B progs) (turns : List Nat)
      (t : Nat)
    {sets : Nat → RangeInclusiveSet K} (h : ∀ i, Reachable S (sets i)) :
    (concert (perform S) progs turns (fun _ => [], sets)).1 t =
      dialogue S (progs t) (turns.count t) [] sets := by
  rw [set_dialogue_alone]
  exact concert_hears (fun _ c h => set_perform_keeps hS h c) (ISetSplit.free hS hk hp) turns t
    _ h

end

/-! ### Examples -/

/-- Two writers of the set 0, one below 100 and one from 100 on, and readers of the set 1. -/
def setBand : Nat → SetProgram (RangeInclusive (UIntW 8)) (UIntW 8)
  | 0 => lowSet
  | 1 => highSet
  | _ + 2 => fun
    | [] => some (.gaps 1 ⟨⟨0⟩, ⟨250⟩⟩ 2)
    | [_] => some (.len 1)
    | _ => none

/-- What they ask about; the readers ask about the same keys. -/
def setBandAsks : Nat → Nat → UIntW 8 → Prop
  | 0, i, k => i = 0 ∧ Low i k
  | 1, i, k => i = 0 ∧ High i k
  | _ + 2, i, _ => i = 1

/-- What they change. -/
def setBandChanges : Nat → Nat → UIntW 8 → Prop
  | 0, i, k => i = 0 ∧ Low i k
  | 1, i, k => i = 0 ∧ High i k
  | _ + 2, _, _ => False

theorem setBand_split : ISetSplit setBandAsks setBandChanges setBand where
  asks t := match t with
    | 0 => fun as c h => by
      have hl := (lowSet_low as c h).1
      simp only [setBand] at h
      unfold lowSet at h
      split at h <;> simp only [Option.some.injEq, reduceCtorEq] at h <;> subst h <;>
        simpa only [ISetAsks, setBandAsks, IWithin, true_and] using hl
    | 1 => fun as c h => by
      have hl := (highSet_high as c h).1
      simp only [setBand] at h
      unfold highSet at h
      split at h <;> simp only [Option.some.injEq, reduceCtorEq] at h <;> subst h <;>
        simpa only [ISetAsks, setBandAsks, IWithin, true_and] using hl
    | t + 2 => fun as c h => by
      simp only [setBand] at h
      split at h <;> simp only [Option.some.injEq, reduceCtorEq] at h <;> subst h <;>
        simp [ISetAsks, setBandAsks, IWithin]
  changes t := match t with
    | 0 => fun as c h => by
      have hl := (lowSet_low as c h).2
      simp only [setBand] at h
      unfold lowSet at h
      split at h <;> simp only [Option.some.injEq, reduceCtorEq] at h <;> subst h <;>
        simpa only [ISetChanges, setBandChanges, IWithin, true_and] using hl
    | 1 => fun as c h => by
      have hl := (highSet_high as c h).2
      simp only [setBand] at h
      unfold highSet at h
      split at h <;> simp only [Option.some.injEq, reduceCtorEq] at h <;> subst h <;>
        simpa only [ISetChanges, setBandChanges, IWithin, true_and] using hl
    | t + 2 => fun as c h => by
      simp only [setBand] at h
      split at h <;> simp only [Option.some.injEq, reduceCtorEq] at h <;> subst h <;>
        simp only [ISetChanges]
  own t i k h := by
    match t, h with
    | 0, h => exact h
    | 1, h => exact h
  apart t u htu i k h h' := by
    match t, u, h, h' with
    | 0, 0, _, _ => exact htu rfl
    | 1, 1, _, _ => exact htu rfl
    | 0, 1, h, h' => exact low_high i k h.2 h'.2
    | 1, 0, h, h' => exact low_high i k h'.2 h.2
    | t + 2, 0, h, h' => exact absurd (h.symm.trans h'.1) (by decide)
    | t + 2, 1, h, h' => exact absurd (h.symm.trans h'.1) (by decide)

example := C121_set_order Demo.u8_lawful Demo.u8_antisymm setBand_split
    (turns := [0, 0, 1, 2, 1, 0, 3]) (turns' := [3, 2, 1, 1, 0, 0, 0]) (by decide)
    (sets := fun _ => lowHigh) lowHigh_reachable
-- the ranges of the two writers are joined to one, and split again
example : ((concert (perform Demo.u8) setBand [0, 0, 1, 2, 1, 1, 0, 3] (fun _ => [],
      fun _ => lowHigh)).2 0).iter = [.mk' ⟨2⟩ ⟨149⟩, .mk' ⟨161⟩ ⟨255⟩] := by decide +kernel
example := C121_set_alone Demo.u8_lawful Demo.u8_antisymm setBand_split [0, 0, 1, 2, 1, 0, 3] 1
    (sets := fun _ => lowHigh) lowHigh_reachable
example := C121_set_swap Demo.u8_lawful Demo.u8_antisymm (A := Low) (B := Low) (A' := High)
    (B' := High) (c := .insert 0 ⟨⟨2⟩, ⟨99⟩⟩) (d := .insert 0 ⟨⟨100⟩, ⟨180⟩⟩)
    trivial (fun _ _ h => h) trivial (fun _ h _ => h) (fun _ _ h => h) (fun _ _ h => h) low_high
    (fun i k h h' => low_high i k h' h) (sets := fun _ => lowHigh) lowHigh_reachable

end Verif.Props.Inclusive

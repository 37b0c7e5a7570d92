import Verif.Props.IApart
import Verif.Proof.Concert

/-!
# C121 for inclusive maps
-/
set_option linter.unusedSectionVars false
set_option linter.unnecessarySimpa false

namespace Verif.Spec
variable {K V : Type} [LE K] [LT K] [DecidableLE K] [DecidableLT K]

/-- The program `t` asks about keys in `A t` only and changes keys in `B t` only, which are among
them; nobody else changes keys that it asks about. -/
structure ISplit (A B : Nat → Nat → K → Prop) (progs : Nat → Program (RangeInclusive K) K V) : Prop
  where
  asks : ∀ t, Always (IAsks (A t)) (progs t)
  changes : ∀ t, Always (IChanges (B t)) (progs t)
  own : ∀ t i k, B t i k → A t i k
  apart : ∀ t u, t ≠ u → ∀ i k, A t i k → ¬ B u i k

end Verif.Spec

namespace Verif.Props.Inclusive
open Spec RangeInclusiveMap Concert
section
variable {K : Type} [LE K] [LT K] [DecidableLE K] [DecidableLT K]
  [Std.IsLinearPreorder K] [Std.LawfulOrderLT K] {V : Type} [BEq V] [LawfulBEq V] {S : StepFns K}

/-- Maps that hold the same are the same. -/
theorem AgreeAt.eq (hS : LawfulSteps S) (hk : ∀ a b : K, a ≤ b → b ≤ a → a = b)
    {maps maps' : Nat → RangeInclusiveMap K V}
    (h : ∀ i k, (maps i).get k = (maps' i).get k) (h1 : ∀ i, Reachable S (maps i))
    (h2 : ∀ i, Reachable S (maps' i)) : maps = maps' := by
  funext i
  have := iterEq_eq_of_lawful_inclusive hk ((C27_canonical hS (h1 i) (h2 i)).2 fun k =>
    ⟨_, _, get_look ((h1 i).wf hS) k, by rw [← h, get_look ((h1 i).wf hS) k],
    RangeMap.Agree.refl _⟩)
  cases e : maps i
  cases e' : maps' i
  rw [e, e'] at this
  exact congrArg RangeInclusiveMap.mk this

theorem AgreeAt.symm {P : Nat → K → Prop} {a b : Nat → RangeInclusiveMap K V} (h : AgreeAt S P a b)
    :
    AgreeAt S P b a := ⟨h.2.1, h.1, fun i k hk => (h.2.2 i k hk).symm⟩

/-- **C121** Two calls, neither of which asks about keys that the other changes, may be made in
either order: the answers are the same, and the maps afterwards are the same, entry for entry. -/
theorem C121_swap (hS : LawfulSteps S) (hk : ∀ a b : K, a ≤ b → b ≤ a → a = b)
    {A A' B B' : Nat → K → Prop}
    {c d : Call K V} (hc : IAsks A c) (hc' : IChanges B c) (hd : IAsks A' d) (hd' : IChanges B' d)
    (own : ∀ i k, B i k → A i k) (own' : ∀ i k, B' i k → A' i k)
    (apart : ∀ i k, A i k → ¬ B' i k) (apart' : ∀ i k, A' i k → ¬ B i k)
    {maps : Nat → RangeInclusiveMap K V} (h : ∀ i, Reachable S (maps i)) :
    (perform S (perform S maps c).2 d).1 = (perform S maps d).1 ∧
    (perform S (perform S maps d).2 c).1 = (perform S maps c).1 ∧
    (perform S (perform S maps c).2 d).2 = (perform S (perform S maps d).2 c).2 := by
  have c1 : AgreeAt S A' (perform S maps c).2 maps := C120_frame hS apart' h hc'
  have d1 : AgreeAt S A (perform S maps d).2 maps := C120_frame hS apart h hd'
  obtain ⟨h1, h2⟩ := C120_call hS hk c1 hd
  obtain ⟨h3, h4⟩ := C120_call hS hk d1 hc
  have h5 : AgreeAt S A (perform S (perform S maps c).2 d).2 (perform S maps c).2 :=
    C120_frame hS apart c1.1 hd'
  have h6 : AgreeAt S A' (perform S (perform S maps d).2 c).2 (perform S maps d).2 :=
    C120_frame hS apart' d1.1 hc'
  refine ⟨h1, h3, AgreeAt.eq hS hk (fun i k => ?_) h5.1 h6.1⟩
  by_cases ha : A i k
  · exact (h5.trans h4.symm).2.2 i k ha
  by_cases ha' : A' i k
  · exact (h2.trans h6.symm).2.2 i k ha'
  have hb : ¬ B i k := fun hb => ha (own i k hb)
  have hb' : ¬ B' i k := fun hb => ha' (own' i k hb)
  have e1 := (C120_frame hS (P := fun i k => ¬ B i k) (fun _ _ h => h) h hc').2.2 i k hb
  have e2 := (C120_frame hS (P := fun i k => ¬ B' i k) (fun _ _ h => h) c1.1 hd').2.2 i k hb'
  have e3 := (C120_frame hS (P := fun i k => ¬ B' i k) (fun _ _ h => h) h hd').2.2 i k hb'
  have e4 := (C120_frame hS (P := fun i k => ¬ B i k) (fun _ _ h => h) d1.1 hc').2.2 i k hb
  rw [e2, e1, e4, e3]

theorem perform_keeps (hS : LawfulSteps S) {maps : Nat → RangeInclusiveMap K V}
    (h : ∀ i, Reachable S (maps i))
    (c : Call K V) : ∀ i, Reachable S ((perform S maps c).2 i) := by
  obtain ⟨f, g, h1, -, -⟩ := AgreeAt.mirrors hS (P := fun _ _ => True) ⟨h, h, fun _ _ _ => rfl⟩
  exact fun i => ((C111_call hS h1 c).2 i).1

theorem ISplit.free (hS : LawfulSteps S) (hk : ∀ a b : K, a ≤ b → b ≤ a → a = b)
    {A B : Nat → Nat → K → Prop}
    {progs : Nat → Program (RangeInclusive K) K V} (hp : ISplit A B progs) :
    Free (fun maps : Nat → RangeInclusiveMap K V => ∀ i, Reachable S (maps i)) (perform S) progs :=
  fun t u htu _ _ _ _ hc hd _ h => C121_swap hS hk (hp.asks t _ _ hc) (hp.changes t _ _ hc)
    (hp.asks u _ _ hd) (hp.changes u _ _ hd) (hp.own t) (hp.own u) (hp.apart t u htu)
    (hp.apart u t fun e => htu e.symm) h

/-- **C121** Programs that do not change what the others ask about: in whatever order they take the
same turns, all of them hear the same, and the maps at the end are the same, entry for entry. -/
theorem C121_order (hS : LawfulSteps S) (hk : ∀ a b : K, a ≤ b → b ≤ a → a = b)
    {A B : Nat → Nat → K → Prop}
    {progs : Nat → Program (RangeInclusive K) K V} (hp : ISplit A B progs) {turns turns' : List Nat}
    (ht : turns.Perm turns') {maps : Nat → RangeInclusiveMap K V} (h : ∀ i, Reachable S (maps i)) :
    concert (perform S) progs turns (fun _ => [], maps) =
      concert (perform S) progs turns' (fun _ => [], maps) :=
  concert_perm (fun _ c h => perform_keeps hS h c) (ISplit.free hS hk hp) ht _ h

theorem dialogue_alone (p : Program (RangeInclusive K) K V) (n : Nat) : ∀ as
    (maps : Nat → RangeInclusiveMap K V),
    dialogue S p n as maps = alone (perform S) p n as maps := by
  induction n with
  | zero => exact fun _ _ => rfl
  | succ n ih =>
    intro as maps
    unfold dialogue alone
    cases p as with
    | none => rfl
    | some c => exact ih _ _

/-- **C121** Each of the programs hears what it hears when it runs alone. -/
theorem C121_alone (hS : LawfulSteps S) (hk : ∀ a b : K, a ≤ b → b ≤ a → a = b)
    {A B : Nat → Nat → K → Prop}
    {progs : Nat → Program (RangeInclusive K) K V} (hp : ISplit A B progs) (turns : List Nat)
      (t : Nat)
    {maps : Nat → RangeInclusiveMap K V} (h : ∀ i, Reachable S (maps i)) :
    (concert (perform S) progs turns (fun _ => [], maps)).1 t =
      dialogue S (progs t) (turns.count t) [] maps := by
  rw [dialogue_alone]
  exact concert_hears (fun _ c h => perform_keeps hS h c) (ISplit.free hS hk hp) turns t _ h

end

/-! ### Examples -/

/-- Two writers of the map 0, one below 100 and one from 100 on, and readers of the map 1. -/
def band : Nat → Program (RangeInclusive (UIntW 8)) (UIntW 8) Char
  | 0 => lowPart
  | 1 => highPart
  | _ + 2 => fun
    | [] => some (.gaps 1 ⟨⟨0⟩, ⟨250⟩⟩ 2)
    | [_] => some (.len 1)
    | _ => none

/-- What they ask about; the readers ask about the same keys. -/
def bandAsks : Nat → Nat → UIntW 8 → Prop
  | 0, i, k => i = 0 ∧ Low i k
  | 1, i, k => i = 0 ∧ High i k
  | _ + 2, i, _ => i = 1

/-- What they change. -/
def bandChanges : Nat → Nat → UIntW 8 → Prop
  | 0, i, k => i = 0 ∧ Low i k
  | 1, i, k => i = 0 ∧ High i k
  | _ + 2, _, _ => False

theorem band_split : ISplit bandAsks bandChanges band where
  asks t := match t with
    | 0 => fun as c h => by
      have hl := (lowPart_low as c h).1
      simp only [band] at h
      unfold lowPart at h
      split at h <;> simp only [Option.some.injEq, reduceCtorEq] at h <;> subst h <;>
        simpa only [IAsks, bandAsks, IWithin, true_and] using hl
    | 1 => fun as c h => by
      have hl := (highPart_high as c h).1
      simp only [band] at h
      unfold highPart at h
      split at h <;> simp only [Option.some.injEq, reduceCtorEq] at h <;> subst h <;>
        simpa only [IAsks, bandAsks, IWithin, true_and] using hl
    | t + 2 => fun as c h => by
      simp only [band] at h
      split at h <;> simp only [Option.some.injEq, reduceCtorEq] at h <;> subst h <;>
        simp [IAsks, bandAsks, IWithin]
  changes t := match t with
    | 0 => fun as c h => by
      have hl := (lowPart_low as c h).2
      simp only [band] at h
      unfold lowPart at h
      split at h <;> simp only [Option.some.injEq, reduceCtorEq] at h <;> subst h <;>
        simpa only [IChanges, bandChanges, IWithin, true_and] using hl
    | 1 => fun as c h => by
      have hl := (highPart_high as c h).2
      simp only [band] at h
      unfold highPart at h
      split at h <;> simp only [Option.some.injEq, reduceCtorEq] at h <;> subst h <;>
        simpa only [IChanges, bandChanges, IWithin, true_and] using hl
    | t + 2 => fun as c h => by
      simp only [band] at h
      split at h <;> simp only [Option.some.injEq, reduceCtorEq] at h <;> subst h <;>
        simp only [IChanges]
  own t i k h := by
    match t, h with
    | 0, h => exact h
    | 1, h => exact h
  apart t u htu i k h h' := by
    match t, u, h, h' with
    | 0, 0, _, _ => exact htu rfl
    | 1, 1, _, _ => exact htu rfl
    | 0, 1, h, h' => exact low_high i k h.2 h'.2
    | 1, 0, h, h' => exact low_high i k h'.2 h.2
    | t + 2, 0, h, h' => exact absurd (h.symm.trans h'.1) (by decide)
    | t + 2, 1, h, h' => exact absurd (h.symm.trans h'.1) (by decide)

example := C121_order Demo.u8_lawful Demo.u8_antisymm band_split
    (turns := [0, 0, 1, 2, 1, 0, 3]) (turns' := [3, 2, 1, 1, 0, 0, 0]) (by decide)
    (maps := fun _ => Demo.imap) (fun _ => Demo.imap_reachable)
-- the ranges of the two writers have the same value and are joined to one, and split again
example : ((concert (perform Demo.u8) band [0, 0, 1, 2, 1, 1, 0, 3] (fun _ => [],
      fun _ => Demo.imap)).2 0).iter = 
    [(.mk' ⟨0⟩ ⟨2⟩, 'a'), (.mk' ⟨3⟩ ⟨149⟩, 'l'), (.mk' ⟨161⟩ ⟨255⟩, 'l')] := by decide +kernel
example := C121_alone Demo.u8_lawful Demo.u8_antisymm band_split [0, 0, 1, 2, 1, 0, 3] 1
    (maps := fun _ => Demo.imap) (fun _ => Demo.imap_reachable)
example := C121_swap Demo.u8_lawful Demo.u8_antisymm (A := Low) (B := Low) (A' := High)
    (B' := High) (c := .insert 0 ⟨⟨2⟩, ⟨99⟩⟩ 'x') (d := .insert 0 ⟨⟨100⟩, ⟨180⟩⟩ 'x')
    trivial (fun _ _ h => h) trivial (fun _ h _ => h) (fun _ _ h => h) (fun _ _ h => h) low_high
    (fun i k h h' => low_high i k h' h) (maps := fun _ => Demo.imap) (fun _ => Demo.imap_reachable)

end Verif.Props.Inclusive

import Verif.Props.Apart
import Verif.Proof.Concert

/-!
# C121: in which order parts of a program take their turns does not matter

Any number of programs use the same maps.  Each may ask about keys that others ask about too, but
not about keys that another one changes.
-/
set_option linter.unusedSectionVars false

namespace Verif.Spec
variable {K V : Type} [LE K] [LT K] [DecidableLE K] [DecidableLT K]

/-- The program `t` asks about keys in `A t` only and changes keys in `B t` only, which are among
them; nobody else changes keys that it asks about. -/
structure Split (A B : Nat → Nat → K → Prop) (progs : Nat → Program (Range K) K V) : Prop where
  asks : ∀ t, Always (Asks (A t)) (progs t)
  changes : ∀ t, Always (Changes (B t)) (progs t)
  own : ∀ t i k, B t i k → A t i k
  apart : ∀ t u, t ≠ u → ∀ i k, A t i k → ¬ B u i k

end Verif.Spec

namespace Verif.Props
open Spec RangeMap Concert
section
variable {K : Type} [LE K] [LT K] [DecidableLE K] [DecidableLT K]
  [Std.IsLinearPreorder K] [Std.LawfulOrderLT K] {V : Type} [BEq V] [LawfulBEq V]

/-- Maps that hold the same are the same. -/
theorem AgreeAt.eq (hk : ∀ a b : K, a ≤ b → b ≤ a → a = b) {maps maps' : Nat → RangeMap K V}
    (h : ∀ i k, (maps i).get k = (maps' i).get k) (h1 : ∀ i, Reachable (maps i))
    (h2 : ∀ i, Reachable (maps' i)) : maps = maps' := by
  funext i
  have := iterEq_eq_of_lawful hk ((C06_canonical (h1 i) (h2 i)).2 fun k =>
    ⟨_, _, get_look (h1 i).wf.sep k, by rw [← h, get_look (h1 i).wf.sep k], Agree.refl _⟩)
  cases e : maps i
  cases e' : maps' i
  rw [e, e'] at this
  exact congrArg RangeMap.mk this

theorem AgreeAt.symm {P : Nat → K → Prop} {a b : Nat → RangeMap K V} (h : AgreeAt P a b) :
    AgreeAt P b a := ⟨h.2.1, h.1, fun i k hk => (h.2.2 i k hk).symm⟩

/-- **C121** Two calls, neither of which asks about keys that the other changes, may be made in
either order: the answers are the same, and the maps afterwards are the same, entry for entry. -/
theorem C121_swap (hk : ∀ a b : K, a ≤ b → b ≤ a → a = b) {A A' B B' : Nat → K → Prop}
    {c d : Call K V} (hc : Asks A c) (hc' : Changes B c) (hd : Asks A' d) (hd' : Changes B' d)
    (own : ∀ i k, B i k → A i k) (own' : ∀ i k, B' i k → A' i k)
    (apart : ∀ i k, A i k → ¬ B' i k) (apart' : ∀ i k, A' i k → ¬ B i k)
    {maps : Nat → RangeMap K V} (h : ∀ i, Reachable (maps i)) :
    (perform (perform maps c).2 d).1 = (perform maps d).1 ∧
    (perform (perform maps d).2 c).1 = (perform maps c).1 ∧
    (perform (perform maps c).2 d).2 = (perform (perform maps d).2 c).2 := by
  have c1 : AgreeAt A' (perform maps c).2 maps := C120_frame apart' h hc'
  have d1 : AgreeAt A (perform maps d).2 maps := C120_frame apart h hd'
  obtain ⟨h1, h2⟩ := C120_call hk c1 hd
  obtain ⟨h3, h4⟩ := C120_call hk d1 hc
  have h5 : AgreeAt A (perform (perform maps c).2 d).2 (perform maps c).2 :=
    C120_frame apart c1.1 hd'
  have h6 : AgreeAt A' (perform (perform maps d).2 c).2 (perform maps d).2 :=
    C120_frame apart' d1.1 hc'
  refine ⟨h1, h3, AgreeAt.eq hk (fun i k => ?_) h5.1 h6.1⟩
  by_cases ha : A i k
  · exact (h5.trans h4.symm).2.2 i k ha
  by_cases ha' : A' i k
  · exact (h2.trans h6.symm).2.2 i k ha'
  have hb : ¬ B i k := fun hb => ha (own i k hb)
  have hb' : ¬ B' i k := fun hb => ha' (own' i k hb)
  have e1 := (C120_frame (P := fun i k => ¬ B i k) (fun _ _ h => h) h hc').2.2 i k hb
  have e2 := (C120_frame (P := fun i k => ¬ B' i k) (fun _ _ h => h) c1.1 hd').2.2 i k hb'
  have e3 := (C120_frame (P := fun i k => ¬ B' i k) (fun _ _ h => h) h hd').2.2 i k hb'
  have e4 := (C120_frame (P := fun i k => ¬ B i k) (fun _ _ h => h) d1.1 hc').2.2 i k hb
  rw [e2, e1, e4, e3]

theorem perform_keeps {maps : Nat → RangeMap K V} (h : ∀ i, Reachable (maps i))
    (c : Call K V) : ∀ i, Reachable ((perform maps c).2 i) := by
  obtain ⟨f, g, h1, -, -⟩ := AgreeAt.mirrors (P := fun _ _ => True) ⟨h, h, fun _ _ _ => rfl⟩
  exact fun i => ((C111_call h1 c).2 i).1

theorem Split.free (hk : ∀ a b : K, a ≤ b → b ≤ a → a = b) {A B : Nat → Nat → K → Prop}
    {progs : Nat → Program (Range K) K V} (hp : Split A B progs) :
    Free (fun maps : Nat → RangeMap K V => ∀ i, Reachable (maps i)) perform progs :=
  fun t u htu _ _ _ _ hc hd _ h => C121_swap hk (hp.asks t _ _ hc) (hp.changes t _ _ hc)
    (hp.asks u _ _ hd) (hp.changes u _ _ hd) (hp.own t) (hp.own u) (hp.apart t u htu)
    (hp.apart u t fun e => htu e.symm) h

/-- **C121** Programs that do not change what the others ask about: in whatever order they take the
same turns, all of them hear the same, and the maps at the end are the same, entry for entry. -/
theorem C121_order (hk : ∀ a b : K, a ≤ b → b ≤ a → a = b) {A B : Nat → Nat → K → Prop}
    {progs : Nat → Program (Range K) K V} (hp : Split A B progs) {turns turns' : List Nat}
    (ht : turns.Perm turns') {maps : Nat → RangeMap K V} (h : ∀ i, Reachable (maps i)) :
    concert perform progs turns (fun _ => [], maps) =
      concert perform progs turns' (fun _ => [], maps) :=
  concert_perm (fun _ c h => perform_keeps h c) (Split.free hk hp) ht _ h

theorem dialogue_alone (p : Program (Range K) K V) (n : Nat) : ∀ as (maps : Nat → RangeMap K V),
    dialogue p n as maps = alone perform p n as maps := by
  induction n with
  | zero => exact fun _ _ => rfl
  | succ n ih =>
    intro as maps
    unfold dialogue alone
    cases p as with
    | none => rfl
    | some c => exact ih _ _

/-- **C121** Each of the programs hears what it hears when it runs alone. -/
theorem C121_alone (hk : ∀ a b : K, a ≤ b → b ≤ a → a = b) {A B : Nat → Nat → K → Prop}
    {progs : Nat → Program (Range K) K V} (hp : Split A B progs) (turns : List Nat) (t : Nat)
    {maps : Nat → RangeMap K V} (h : ∀ i, Reachable (maps i)) :
    (concert perform progs turns (fun _ => [], maps)).1 t =
      dialogue (progs t) (turns.count t) [] maps := by
  rw [dialogue_alone]
  exact concert_hears (fun _ c h => perform_keeps h c) (Split.free hk hp) turns t _ h

end

/-! ### Examples -/

/-- Two writers, one below 100 and one from 100 on, and readers of keys from 400 on. -/
def band : Nat → Program (Range Nat) Nat Char
  | 0 => lowPart
  | 1 => highPart
  | t + 2 => fun
    | [] => some (.gaps 0 ⟨400, 500⟩ 2)
    | [_] => some (.get 0 (400 + t))
    | _ => none

/-- What they ask about; the readers ask about the same keys. -/
def bandAsks : Nat → Nat → Nat → Prop
  | 0, _, k => k < 100
  | 1, _, k => 100 ≤ k ∧ k < 300
  | _ + 2, _, k => 400 ≤ k

/-- What they change. -/
def bandChanges : Nat → Nat → Nat → Prop
  | 0, _, k => k < 100
  | 1, _, k => 100 ≤ k ∧ k < 300
  | _ + 2, _, _ => False

theorem band_split : Split bandAsks bandChanges band where
  asks t := match t with
    | 0 => fun as c h => (lowPart_low as c h).1
    | 1 => fun as c h => by
      simp only [band] at h
      unfold highPart at h
      split at h <;> simp only [Option.some.injEq, reduceCtorEq] at h <;> subst h <;>
        simp only [Asks, bandAsks] <;> grind
    | t + 2 => fun as c h => by
      simp only [band] at h
      split at h <;> simp only [Option.some.injEq, reduceCtorEq] at h <;> subst h <;>
        simp only [Asks, bandAsks, Within] <;> grind
  changes t := match t with
    | 0 => fun as c h => (lowPart_low as c h).2
    | 1 => fun as c h => by
      simp only [band] at h
      unfold highPart at h
      split at h <;> simp only [Option.some.injEq, reduceCtorEq] at h <;> subst h <;>
        simp only [Changes, bandChanges, Within] <;> grind
    | t + 2 => fun as c h => by
      simp only [band] at h
      split at h <;> simp only [Option.some.injEq, reduceCtorEq] at h <;> subst h <;>
        simp only [Changes]
  own t i k h := by
    match t, h with
    | 0, h => exact h
    | 1, h => exact h
  apart t u htu i k h h' := by
    match t, u, h, h' with
    | 0, 0, _, _ => exact htu rfl
    | 1, 1, _, _ => exact htu rfl
    | 0, 1, h, h' => simp only [bandAsks, bandChanges] at h h'; omega
    | 1, 0, h, h' => simp only [bandAsks, bandChanges] at h h'; omega
    | t + 2, 0, h, h' => simp only [bandAsks, bandChanges] at h h'; omega
    | t + 2, 1, h, h' => simp only [bandAsks, bandChanges] at h h'; omega

example := C121_order (fun _ _ => Nat.le_antisymm) band_split
    (turns := [0, 0, 1, 2, 1, 0, 3]) (turns' := [3, 2, 1, 1, 0, 0, 0]) (by decide)
    (maps := fun _ => Demo.map) (fun _ => Demo.map_reachable)
-- the ranges of the two writers are joined to one entry and split again
example : ((concert perform band [0, 0, 1, 2, 1, 0, 3] (fun _ => [],
      fun _ => RangeMap.run [.insert ⟨0, 300⟩ 'l', .insert ⟨450, 460⟩ 'x'])).2 0).iter =
    [(⟨0, 100⟩, 'l'), (⟨100, 300⟩, 'h'), (⟨450, 460⟩, 'x')] := by decide +kernel
example : (concert perform band [0, 0, 1, 2, 1, 0, 3] (fun _ => [],
      fun _ => RangeMap.run [.insert ⟨0, 300⟩ 'l', .insert ⟨450, 460⟩ 'x'])).1 2 =
    [.ranges [some ⟨400, 450⟩, some ⟨460, 500⟩]] := by rfl
example := C121_alone (fun _ _ => Nat.le_antisymm) band_split [0, 0, 1, 2, 1, 0, 3] 1
    (maps := fun _ => Demo.map) (fun _ => Demo.map_reachable)
example := C121_swap (K := Nat) (V := Char) (fun _ _ => Nat.le_antisymm)
    (A := fun _ k => k < 5) (B := fun _ k => k < 5) (A' := fun _ k => 5 ≤ k)
    (B' := fun _ k => 5 ≤ k) (c := .insert 0 ⟨2, 5⟩ 'x') (d := .insert 0 ⟨5, 8⟩ 'x')
    trivial (by simp only [Changes, Within]; grind) trivial (by simp only [Changes, Within]; grind)
    (fun _ _ h => h) (fun _ _ h => h) (by grind) (by grind)
    (maps := fun _ => Demo.map) (fun _ => Demo.map_reachable)

end Verif.Props

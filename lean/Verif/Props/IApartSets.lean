import Verif.Props.ISetDialogue
import Verif.Props.ApartSets
import Verif.Props.IApart

/-!
# C120 for inclusive sets
-/
set_option linter.unusedSectionVars false

namespace Verif.Spec
section
variable {K R : Type} [LE K] [LT K] [DecidableLE K] [DecidableLT K]

/-- The call asks about keys in `P` only (`P i k`: the key `k` of the set `i`). -/
def ISetAsks (P : Nat → K → Prop) : SetCall K → Prop
  | .contains i k => P i k
  | .overlaps i q => q.start ≤ q.stop ∧ IWithin (P i) q
  | .gaps i q _ => IWithin (P i) q
  | .copy i j => ∀ k, P i k → P j k
  | .append i j => ∀ k, P i k → P j k
  | .or i j l => ∀ k, P i k → P j k ∧ P l k
  | .and i j l => ∀ k, P i k → P j k ∧ P l k
  | .get i _ => ∀ k, P i k
  | .len i => ∀ k, P i k
  | .isEmpty i => ∀ k, P i k
  | .first i => ∀ k, P i k
  | .last i => ∀ k, P i k
  | .iter i _ => ∀ k, P i k
  | .overlapping i _ _ => ∀ k, P i k
  | .union i j _ => ∀ k, P i k ∧ P j k
  | .intersection i j _ => ∀ k, P i k ∧ P j k
  | .eq i j => ∀ k, P i k ∧ P j k
  | _ => True

/-- The call changes keys in `P` only. -/
def ISetChanges (P : Nat → K → Prop) : SetCall K → Prop
  | .insert i r => IWithin (P i) r
  | .remove i r => IWithin (P i) r
  | .extend i items => ∀ r ∈ items, IWithin (P i) r
  | .clear i => ∀ k, P i k
  | .collect i _ => ∀ k, P i k
  | .copy i _ => ∀ k, P i k
  | .append i _ => ∀ k, P i k
  | .or i _ _ => ∀ k, P i k
  | .and i _ _ => ∀ k, P i k
  | _ => True

end
end Verif.Spec

namespace Verif.RangeInclusiveSet
variable {K : Type} [LE K] [LT K] [DecidableLE K] [DecidableLT K]

/-- Two programs that use the same sets, one call at a time, the first one's turn if `true`: what
each of them hears (the last answer first), and the sets at the end.  (Not in /repo: it is what two
parts of a user's program may do.) -/
def together (S : StepFns K) (p q : SetProgram (RangeInclusive K) K) : List Bool → List
    (SetAnswer (RangeInclusive K)) →
    List (SetAnswer (RangeInclusive K)) → (Nat → RangeInclusiveSet K) →
    List (SetAnswer (RangeInclusive K)) × List (SetAnswer (RangeInclusive K)) ×
      (Nat → RangeInclusiveSet K)
  | [], as, bs, sets => (as, bs, sets)
  | true :: turns, as, bs, sets =>
    match p as with
    | none => together S p q turns as bs sets
    | some c => together S p q turns ((perform S sets c).1 :: as) bs (perform S sets c).2
  | false :: turns, as, bs, sets =>
    match q bs with
    | none => together S p q turns as bs sets
    | some c => together S p q turns as ((perform S sets c).1 :: bs) (perform S sets c).2

/-- The sets after at most `n` calls of a program. -/
def outcome (S : StepFns K) (p : SetProgram (RangeInclusive K) K) : Nat → List
    (SetAnswer (RangeInclusive K)) →
    (Nat → RangeInclusiveSet K) → (Nat → RangeInclusiveSet K)
  | 0, _, sets => sets
  | n + 1, as, sets =>
    match p as with
    | none => sets
    | some c => outcome S p n ((perform S sets c).1 :: as) (perform S sets c).2

end Verif.RangeInclusiveSet

namespace Verif.Props.Inclusive
open Spec RangeInclusiveSet
section
variable {K : Type} [LE K] [LT K] [DecidableLE K] [DecidableLT K]
  [Std.IsLinearPreorder K] [Std.LawfulOrderLT K] {S : StepFns K}

theorem iaddAll_same {P : K → Prop} (items : List (Range K)) : ∀ {f g : K → Bool},
    (∀ k, P k → f k = g k) → ∀ k, P k → iaddAll f items k = iaddAll g items k := by
  induction items with
  | nil => exact fun h => h
  | cons r t ih =>
    intro f g h
    unfold iaddAll
    split
    · exact ih fun k hk => by rw [h k hk]
    · exact h

theorem isetEffect_same {P : Nat → K → Prop} {f g : Nat → K → Bool} (h : SameAt P f g)
    {c : SetCall K} (hc : ISetAsks P c) : SameAt P (isetEffect f c) (isetEffect g c) := by
  cases c <;> simp only [isetEffect]
  case insert i r =>
    split
    · exact h.store i fun k hk => by rw [h i k hk]
    · exact h
  case remove i r =>
    split
    · exact h.store i fun k hk => by rw [h i k hk]
    · exact h
  case clear i => exact h.store i fun _ _ => rfl
  case extend i items => exact h.store i (iaddAll_same items (h i))
  case collect i items =>
    split
    · exact h.store i fun _ _ => rfl
    · exact h
  case copy i j => exact h.store i fun k hk => h j k (hc k hk)
  case append i j => exact h.store i fun k hk => by rw [h i k hk, h j k (hc k hk)]
  case or i j l => exact h.store i fun k hk => by rw [h j k (hc k hk).1, h l k (hc k hk).2]
  case and i j l => exact h.store i fun k hk => by rw [h j k (hc k hk).1, h l k (hc k hk).2]
  all_goals exact h

theorem add_outside {P : K → Prop} {r : Range K} (h : IWithin P r) (f : K → Bool) (k : K)
    (hk : ¬ P k) : (decide (r.start ≤ k ∧ k ≤ r.stop) || f k) = f k ∧
      (!decide (r.start ≤ k ∧ k ≤ r.stop) && f k) = f k := by
  rw [decide_eq_false fun hc => hk (h k hc.1 hc.2)]
  exact ⟨rfl, rfl⟩

theorem iaddAll_outside {P : K → Prop} (items : List (Range K)) :
    ∀ (f : K → Bool), (∀ r ∈ items, IWithin P r) → ∀ k, ¬ P k → iaddAll f items k = f k := by
  induction items with
  | nil => exact fun _ _ _ _ => rfl
  | cons r t ih =>
    intro f h k hk
    unfold iaddAll
    split
    · rw [ih _ (fun e he => h e (List.mem_cons_of_mem _ he)) k hk]
      exact (add_outside (h _ (List.mem_cons_self ..)) f k hk).1
    · rfl

theorem isetEffect_outside {P Q : Nat → K → Prop} (hd : ∀ i k, P i k → ¬ Q i k)
    (f : Nat → K → Bool) {c : SetCall K} (hc : ISetChanges Q c) : SameAt P (isetEffect f c) f := by
  have st : ∀ i {a : K → Bool}, (∀ k, ¬ Q i k → a k = f i k) → SameAt P (store f i a) f := by
    intro i a ha j k hk
    unfold Verif.store
    split
    · subst j; exact ha k (hd i k hk)
    · rfl
  have r : SameAt P f f := fun _ _ _ => rfl
  cases c <;> simp only [isetEffect] <;> simp only [ISetChanges] at hc
  case insert i r' =>
    split
    · exact st i fun k hk => (add_outside hc _ k hk).1
    · exact r
  case remove i r' =>
    split
    · exact st i fun k hk => (add_outside hc _ k hk).2
    · exact r
  case extend i items => exact st i (iaddAll_outside items _ hc)
  case collect i items =>
    split
    · exact st i fun k hk => absurd (hc k) hk
    · exact r
  case clear i => exact st i fun k hk => absurd (hc k) hk
  case copy i j => exact st i fun k hk => absurd (hc k) hk
  case append i j => exact st i fun k hk => absurd (hc k) hk
  case or i j l => exact st i fun k hk => absurd (hc k) hk
  case and i j l => exact st i fun k hk => absurd (hc k) hk
  all_goals exact r

theorem set_overlaps_keys {f : K → Bool} {l : List (RangeInclusive K)}
    (hl : IStretches (fun k => f k) l) {q : Range K} (hq : q.start ≤ q.stop) :
    (∃ r ∈ l, q.start ≤ r.stop ∧ r.start ≤ q.stop) ↔
      ∃ k, q.start ≤ k ∧ k ≤ q.stop ∧ f k = true := by
  constructor
  · rintro ⟨r, hr, h1, h2⟩
    have hn := (hl.nonempty r hr).1
    by_cases h : q.start ≤ r.start
    · exact ⟨r.start, h, h2, (hl.exact r.start).1 ⟨r, hr, by grind, hn⟩⟩
    · exact ⟨q.start, by grind, hq, (hl.exact q.start).1 ⟨r, hr, by grind, h1⟩⟩
  · rintro ⟨k, h1, h2, h3⟩
    obtain ⟨r, hr, h4, h5⟩ := (hl.exact k).2 h3
    exact ⟨r, hr, by grind, by grind⟩

/-- What a call may answer depends on the keys only that it asks about. -/
theorem setSays_same (hS : LawfulSteps S) (hk : ∀ a b : K, a ≤ b → b ≤ a → a = b)
    {P : Nat → K → Prop}
    {f g : Nat → K → Bool} (h : SameAt P f g) {c : SetCall K} (hc : ISetAsks P c)
    {a b : SetAnswer (RangeInclusive K)} (ha : ISetSays f c a) (hb : ISetSays g c b) : a = b := by
  have all : ∀ i, (∀ k, P i k) → f i = g i := fun i hi => funext fun k => h i k (hi k)
  refine C112_one_answer hS hk (plain := g) (c := c) ?_ hb
  cases c <;> simp only [ISetSays] at ha ⊢ <;> simp only [ISetAsks] at hc
  case contains i k => rw [ha, h i k hc]
  case overlaps i q =>
    obtain ⟨l, x, h1, rfl, h3⟩ := ha
    obtain ⟨l', y, h1', rfl, h3'⟩ := hb
    refine ⟨l', x, h1', rfl, ?_⟩
    rw [h3, set_overlaps_keys h1 hc.1, set_overlaps_keys h1' hc.1]
    constructor
    · rintro ⟨k, h4, h5, h6⟩; exact ⟨k, h4, h5, by rw [← h i k (hc.2 k h4 h5)]; exact h6⟩
    · rintro ⟨k, h4, h5, h6⟩; exact ⟨k, h4, h5, by rw [h i k (hc.2 k h4 h5)]; exact h6⟩
  case gaps i q n =>
    obtain ⟨l, h1, h2⟩ := ha
    refine ⟨l, ⟨h1.nonempty, h1.ordered, fun k => (h1.exact k).trans ?_⟩, h2⟩
    constructor
    · rintro ⟨h3, h4, h5⟩; exact ⟨h3, h4, by rw [← h i k (hc k h3 h4)]; exact h5⟩
    · rintro ⟨h3, h4, h5⟩; exact ⟨h3, h4, by rw [h i k (hc k h3 h4)]; exact h5⟩
  case eq i j => rwa [all i fun k => (hc k).1, all j fun k => (hc k).2] at ha
  case union i j n => rwa [all i fun k => (hc k).1, all j fun k => (hc k).2] at ha
  case intersection i j n => rwa [all i fun k => (hc k).1, all j fun k => (hc k).2] at ha
  case get i k => rwa [all i hc] at ha
  case len i => rwa [all i hc] at ha
  case isEmpty i => rwa [all i hc] at ha
  case first i => rwa [all i hc] at ha
  case last i => rwa [all i hc] at ha
  case iter i cs => rwa [all i hc] at ha
  case overlapping i q cs => rwa [all i hc] at ha
  all_goals exact ha

/-- Sets that come from calls and hold the same of the keys in `P`. -/
def SetAgreeAt (S : StepFns K) (P : Nat → K → Prop) (sets sets' : Nat → RangeInclusiveSet K) : Prop
    :=
  (∀ i, Reachable S (sets i)) ∧ (∀ i, Reachable S (sets' i)) ∧
    ∀ i k, P i k → (sets i).contains k = (sets' i).contains k

theorem SetAgreeAt.mirrors (hS : LawfulSteps S) {P : Nat → K → Prop}
    {sets sets' : Nat → RangeInclusiveSet K}
    (h : SetAgreeAt S P sets sets') :
    ∃ f g, SetMirrors S sets f ∧ SetMirrors S sets' g ∧ SameAt P f g := by
  refine ⟨fun i => (sets i).has, fun i => (sets' i).has,
    fun i => ⟨h.1 i, contains_eq ((h.1 i).wf hS)⟩, fun i =>
      ⟨h.2.1 i, contains_eq ((h.2.1 i).wf hS)⟩,
    fun i k hk => ?_⟩
  have := h.2.2 i k hk
  rw [contains_eq ((h.1 i).wf hS), contains_eq ((h.2.1 i).wf hS)] at this
  exact Except.ok.inj this

theorem SetAgreeAt.of_mirrors {P : Nat → K → Prop} {sets sets' : Nat → RangeInclusiveSet K}
    {f g : Nat → K → Bool} (hf : SetMirrors S sets f) (hg : SetMirrors S sets' g)
    (h : SameAt P f g) : SetAgreeAt S P sets sets' :=
  ⟨fun i => (hf i).1, fun i => (hg i).1, fun i k hk => by rw [(hf i).2, (hg i).2, h i k hk]⟩

/-- **C120** One call that asks about keys in `P` only: the same answer from sets that hold the same
there, and afterwards they still do. -/
theorem C120_set_call (hS : LawfulSteps S) (hk : ∀ a b : K, a ≤ b → b ≤ a → a = b)
    {P : Nat → K → Prop}
    {sets sets' : Nat → RangeInclusiveSet K} (h : SetAgreeAt S P sets sets') {c : SetCall K}
    (hc : ISetAsks P c) : (perform S sets c).1 = (perform S sets' c).1 ∧
      SetAgreeAt S P (perform S sets c).2 (perform S sets' c).2 := by
  obtain ⟨f, g, h1, h2, h3⟩ := h.mirrors hS
  exact ⟨setSays_same hS hk h3 hc (C112_call hS h1 c).1 (C112_call hS h2 c).1,
    .of_mirrors (C112_call hS h1 c).2 (C112_call hS h2 c).2 (isetEffect_same h3 hc)⟩

/-- **C120** A call that changes keys in `Q` only leaves the others as they are. -/
theorem C120_set_frame (hS : LawfulSteps S) {P Q : Nat → K → Prop} (hd : ∀ i k, P i k → ¬ Q i k)
    {sets : Nat → RangeInclusiveSet K} (h : ∀ i, Reachable S (sets i)) {c : SetCall K}
    (hc : ISetChanges Q c) : SetAgreeAt S P (perform S sets c).2 sets := by
  obtain ⟨f, g, h1, -, -⟩ := SetAgreeAt.mirrors hS (P := P) ⟨h, h, fun _ _ _ => rfl⟩
  exact .of_mirrors (C112_call hS h1 c).2 h1 (isetEffect_outside hd f hc)

/-- **C120** A program that asks about keys in `P` only learns nothing about the others. -/
theorem C120_set_blind (hS : LawfulSteps S) (hk : ∀ a b : K, a ≤ b → b ≤ a → a = b)
    {P : Nat → K → Prop}
    {p : SetProgram (RangeInclusive K) K} (hp : SetAlways (ISetAsks P) p)
      {sets sets' : Nat → RangeInclusiveSet K}
    (h : SetAgreeAt S P sets sets') (n : Nat) :
    dialogue S p n [] sets = dialogue S p n [] sets' := by
  suffices H : ∀ (n : Nat) (as : List (SetAnswer (RangeInclusive K)))
    (sets sets' : Nat → RangeInclusiveSet K),
      SetAgreeAt S P sets sets' → dialogue S p n as sets = dialogue S p n as sets' from H n [] _ _ h
  intro n
  induction n with
  | zero => exact fun _ _ _ _ => rfl
  | succ n ih =>
    intro as sets sets' h
    unfold dialogue
    cases e : p as with
    | none => rfl
    | some c =>
      obtain ⟨h1, h2⟩ := C120_set_call hS hk h (hp as c e)
      simp only [h1]
      exact ih _ _ _ h2

theorem SetAgreeAt.trans {P : Nat → K → Prop} {a b c : Nat → RangeInclusiveSet K}
    (h : SetAgreeAt S P a b)
    (h' : SetAgreeAt S P b c) : SetAgreeAt S P a c :=
  ⟨h.1, h'.2.1, fun i k hk => (h.2.2 i k hk).trans (h'.2.2 i k hk)⟩

/-- **C120** Two programs take turns on the same sets.  If one asks about keys in `P` only and the
other changes keys in `Q` only, and `P` and `Q` have no key in common, then the one hears what it
hears alone, whatever the other asks and whatever it makes of the answers, and leaves the keys in
`P` as it leaves them alone. -/
theorem C120_set_apart (hS : LawfulSteps S) (hk : ∀ a b : K, a ≤ b → b ≤ a → a = b)
    {P Q : Nat → K → Prop}
    (hd : ∀ i k, P i k → ¬ Q i k) {p q : SetProgram (RangeInclusive K) K}
      (hp : SetAlways (ISetAsks P) p)
    (hq : SetAlways (ISetChanges Q) q) {sets : Nat → RangeInclusiveSet K}
      (h : ∀ i, Reachable S (sets i))
    (turns : List Bool) :
    (together S p q turns [] [] sets).1 = dialogue S p (turns.count true) [] sets ∧
    SetAgreeAt S P (together S p q turns [] [] sets).2.2 (outcome S p (turns.count true) [] sets)
      := by
  suffices H : ∀ (turns : List Bool) (as bs : List (SetAnswer (RangeInclusive K)))
      (sets sets' : Nat → RangeInclusiveSet K), SetAgreeAt S P sets sets' →
      (together S p q turns as bs sets).1 = dialogue S p (turns.count true) as sets' ∧
      SetAgreeAt S P (together S p q turns as bs sets).2.2
        (outcome S p (turns.count true) as sets') from
    H turns [] [] _ _ ⟨h, h, fun _ _ _ => rfl⟩
  intro turns
  induction turns with
  | nil => exact fun _ _ _ _ h => ⟨rfl, h⟩
  | cons t turns ih =>
    intro as bs sets sets' h
    cases t with
    | true =>
      rw [List.count_cons_self]
      unfold together dialogue outcome
      cases e : p as with
      | none =>
        have := ih as bs sets sets' h
        have stop : ∀ n, dialogue S p n as sets' = as ∧ outcome S p n as sets' = sets' := by
          intro n
          cases n with
          | zero => exact ⟨rfl, rfl⟩
          | succ n => unfold dialogue outcome; rw [e]; exact ⟨rfl, rfl⟩
        rwa [(stop _).1, (stop _).2] at this
      | some c =>
        obtain ⟨h1, h2⟩ := C120_set_call hS hk h (hp as c e)
        simp only [← h1]
        exact ih _ bs _ _ h2
    | false =>
      rw [List.count_cons_of_ne (by decide)]
      unfold together
      cases e : q bs with
      | none => exact ih as bs sets sets' h
      | some c => exact ih as _ _ _ ((C120_set_frame hS hd h.1 (hq bs c e)).trans h)

theorem set_together_swap (p q : SetProgram (RangeInclusive K) K) (turns : List Bool) :
    ∀ as bs (sets : Nat → RangeInclusiveSet K), (together S p q turns as bs sets).2.1 =
      (together S q p (turns.map not) bs as sets).1 := by
  induction turns with
  | nil => exact fun _ _ _ => rfl
  | cons t turns ih =>
    intro as bs sets
    cases t with
    | true =>
      simp only [List.map_cons, Bool.not_true]
      unfold together
      cases p as <;> exact ih ..
    | false =>
      simp only [List.map_cons, Bool.not_false]
      unfold together
      cases q bs <;> exact ih ..

/-- **C120** So two programs that keep to keys of their own hear, taking turns on the same sets in
any order, what each of them hears alone. -/
theorem C120_set_both (hS : LawfulSteps S) (hk : ∀ a b : K, a ≤ b → b ≤ a → a = b)
    {P Q : Nat → K → Prop}
    (hd : ∀ i k, P i k → ¬ Q i k) {p q : SetProgram (RangeInclusive K) K}
    (hp : SetAlways (fun c => ISetAsks P c ∧ ISetChanges P c) p)
    (hq : SetAlways (fun c => ISetAsks Q c ∧ ISetChanges Q c) q) {sets : Nat → RangeInclusiveSet K}
    (h : ∀ i, Reachable S (sets i)) (turns : List Bool) :
    (together S p q turns [] [] sets).1 = dialogue S p (turns.count true) [] sets ∧
    (together S p q turns [] [] sets).2.1 = dialogue S q (turns.count false) [] sets := by
  refine ⟨(C120_set_apart hS hk hd (fun as c e => (hp as c e).1) (fun as c e => (hq as c e).2) h
    turns).1, ?_⟩
  rw [set_together_swap, (C120_set_apart hS hk (fun i k hk' hk'' => hd i k hk'' hk')
    (fun as c e => (hq as c e).1) (fun as c e => (hp as c e).2) h (turns.map not)).1]
  congr 1
  induction turns with
  | nil => rfl
  | cons t turns ih => cases t <;> simp [ih]

end

/-! ### Examples -/

/-- Works below 100, and asks for the gap there. -/
def lowSet : SetProgram (RangeInclusive (UIntW 8)) (UIntW 8)
  | [] => some (.gaps 0 ⟨⟨0⟩, ⟨99⟩⟩ 1)
  | [_] => some (.insert 0 ⟨⟨3⟩, ⟨99⟩⟩)
  | [_, _] => some (.overlaps 0 ⟨⟨60⟩, ⟨99⟩⟩)
  | [_, _, _] => some (.contains 0 ⟨40⟩)
  | _ => none

/-- Works from 100 on; its last call depends on what it heard. -/
def highSet : SetProgram (RangeInclusive (UIntW 8)) (UIntW 8)
  | [] => some (.insert 0 ⟨⟨100⟩, ⟨255⟩⟩)
  | [_] => some (.contains 0 ⟨200⟩)
  | [.flag true, _] => some (.remove 0 ⟨⟨150⟩, ⟨160⟩⟩)
  | _ => none

theorem lowSet_low : SetAlways (fun c => ISetAsks Low c ∧ ISetChanges Low c) lowSet := by
  intro as c h
  unfold lowSet at h
  split at h <;> simp only [Option.some.injEq, reduceCtorEq] at h <;> subst h <;>
    simp only [ISetAsks, ISetChanges, IWithin, Low, and_true, true_and]
  · exact fun k _ h => h
  · exact fun k _ h => h
  · exact ⟨by decide, fun k _ h => h⟩
  · decide

theorem highSet_high : SetAlways (fun c => ISetAsks High c ∧ ISetChanges High c) highSet := by
  intro as c h
  unfold highSet at h
  split at h <;> simp only [Option.some.injEq, reduceCtorEq] at h <;> subst h <;>
    simp only [ISetAsks, ISetChanges, IWithin, High, and_true, true_and]
  · exact fun k h _ => h
  · decide
  · exact fun k h _ => Std.le_trans (by decide) h

/-- Three ranges, one of them on both sides of 100. -/
def lowHigh : RangeInclusiveSet (UIntW 8) :=
  RangeInclusiveSet.run Demo.u8 [.insert (.mk' ⟨2⟩ ⟨4⟩), .insert (.mk' ⟨90⟩ ⟨120⟩),
    .insert (.mk' ⟨250⟩ ⟨255⟩)]

theorem lowHigh_reachable : ∀ _ : Nat, Reachable Demo.u8 lowHigh := fun _ => ⟨_, by decide, rfl⟩

-- the ranges of the two parts touch, so the set joins them
example : (together Demo.u8 lowSet highSet [false, true, false, true, true, false, true] [] []
      fun _ => RangeInclusiveSet.new).1 =
    [.flag true, .flag true, .done, .ranges [some (.mk' ⟨0⟩ ⟨99⟩)]] := by rfl
example := C120_set_both Demo.u8_lawful Demo.u8_antisymm low_high lowSet_low highSet_high
    lowHigh_reachable [false, true, false, true, true, false, true]
example := C120_set_apart Demo.u8_lawful Demo.u8_antisymm low_high
    (fun as c e => (lowSet_low as c e).1) (fun as c e => (highSet_high as c e).2)
    lowHigh_reachable [true, false]
example := C120_set_frame Demo.u8_lawful low_high lowHigh_reachable
    (c := .remove 0 ⟨⟨107⟩, ⟨222⟩⟩) (fun _ h _ => Std.le_trans (by decide) h)

/-- Two sets that differ from 100 on only. -/
theorem set_agree_low : SetAgreeAt Demo.u8 Low
    (perform Demo.u8 (fun _ => lowHigh) (.remove 0 ⟨⟨107⟩, ⟨222⟩⟩)).2 (fun _ => lowHigh) :=
  C120_set_frame Demo.u8_lawful low_high lowHigh_reachable
    (fun _ h _ => Std.le_trans (by decide) h)

example := C120_set_call Demo.u8_lawful Demo.u8_antisymm set_agree_low
    (c := .gaps 0 ⟨⟨1⟩, ⟨50⟩⟩ 2) (fun _ _ h => Std.le_trans h (by decide))
example := C120_set_blind Demo.u8_lawful Demo.u8_antisymm (fun as c e => (lowSet_low as c e).1)
    set_agree_low 9

end Verif.Props.Inclusive

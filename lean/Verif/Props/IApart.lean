import Verif.Props.IDialogue
import Verif.Props.Apart

/-!
# C120 for inclusive maps
-/
set_option linter.unusedSectionVars false

namespace Verif.Spec
section
variable {K V R : Type} [LE K] [LT K] [DecidableLE K] [DecidableLT K]

/-- All keys of `r`, both ends among them, are in `P`. -/
def IWithin (P : K → Prop) (r : Range K) : Prop := ∀ k, r.start ≤ k → k ≤ r.stop → P k

/-- The call asks about keys in `P` only (`P i k`: the key `k` of the map `i`).  `len`, `iter` and
the like ask about all keys of a map, and so do the calls that tell the ends of stored ranges. -/
def IAsks (P : Nat → K → Prop) : Call K V → Prop
  | .get i k => P i k
  | .containsKey i k => P i k
  | .overlaps i q => q.start ≤ q.stop ∧ IWithin (P i) q
  | .gaps i q _ => IWithin (P i) q
  | .copy i j => ∀ k, P i k → P j k
  | .append i j => ∀ k, P i k → P j k
  | .getKeyValue i _ => ∀ k, P i k
  | .len i => ∀ k, P i k
  | .isEmpty i => ∀ k, P i k
  | .first i => ∀ k, P i k
  | .last i => ∀ k, P i k
  | .iter i _ => ∀ k, P i k
  | .overlapping i _ _ => ∀ k, P i k
  | .eq i j => ∀ k, P i k ∧ P j k
  | _ => True

/-- The call changes keys in `P` only. -/
def IChanges (P : Nat → K → Prop) : Call K V → Prop
  | .insert i r _ => IWithin (P i) r
  | .remove i r => IWithin (P i) r
  | .extend i items => ∀ e ∈ items, IWithin (P i) e.1
  | .clear i => ∀ k, P i k
  | .collect i _ => ∀ k, P i k
  | .copy i _ => ∀ k, P i k
  | .append i _ => ∀ k, P i k
  | _ => True

end
end Verif.Spec

namespace Verif.RangeInclusiveMap
variable {K : Type} [LE K] [LT K] [DecidableLE K] [DecidableLT K] {V : Type} [BEq V]

/-- Two programs that use the same maps, one call at a time, the first one's turn if `true`: what
each of them hears (the last answer first), and the maps at the end.  (Not in /repo: it is what two
parts of a user's program may do.) -/
def together (S : StepFns K) (p q : Program (RangeInclusive K) K V) : List Bool → List
    (Answer (RangeInclusive K) V) →
    List (Answer (RangeInclusive K) V) → (Nat → RangeInclusiveMap K V) →
    List (Answer (RangeInclusive K) V) × List (Answer (RangeInclusive K) V) ×
      (Nat → RangeInclusiveMap K V)
  | [], as, bs, maps => (as, bs, maps)
  | true :: turns, as, bs, maps =>
    match p as with
    | none => together S p q turns as bs maps
    | some c => together S p q turns ((perform S maps c).1 :: as) bs (perform S maps c).2
  | false :: turns, as, bs, maps =>
    match q bs with
    | none => together S p q turns as bs maps
    | some c => together S p q turns as ((perform S maps c).1 :: bs) (perform S maps c).2

/-- The maps after at most `n` calls of a program. -/
def outcome (S : StepFns K) (p : Program (RangeInclusive K) K V) : Nat → List
    (Answer (RangeInclusive K) V) →
    (Nat → RangeInclusiveMap K V) → (Nat → RangeInclusiveMap K V)
  | 0, _, maps => maps
  | n + 1, as, maps =>
    match p as with
    | none => maps
    | some c => outcome S p n ((perform S maps c).1 :: as) (perform S maps c).2

end Verif.RangeInclusiveMap

namespace Verif.Props.Inclusive
open Spec RangeInclusiveMap
section
variable {K : Type} [LE K] [LT K] [DecidableLE K] [DecidableLT K]
  [Std.IsLinearPreorder K] [Std.LawfulOrderLT K] {V : Type} {S : StepFns K}

theorem iassign_same {P : K → Prop} {f g : K → Option V} (h : ∀ k, P k → f k = g k) (r : Range K)
    (o : Option V) (k : K) (hk : P k) : iassign f r o k = iassign g r o k := by
  unfold iassign
  split
  · rfl
  · exact h k hk

theorem iassignAll_same {P : K → Prop} (items : List (Range K × V)) : ∀ {f g : K → Option V},
    (∀ k, P k → f k = g k) → ∀ k, P k → iassignAll f items k = iassignAll g items k := by
  induction items with
  | nil => exact fun h => h
  | cons e t ih =>
    obtain ⟨r, v⟩ := e
    intro f g h
    unfold iassignAll
    split
    · exact ih (iassign_same h r _)
    · exact h

/-- What a call does at the keys in `P` depends on these only, if what it asks about does. -/
theorem ieffect_same {P : Nat → K → Prop} {f g : Nat → K → Option V} (h : SameAt P f g)
    {c : Call K V} (hc : IAsks P c) : SameAt P (ieffect f c) (ieffect g c) := by
  cases c <;> simp only [ieffect]
  case insert i r v =>
    split
    · exact h.store i (iassign_same (h i) r _)
    · exact h
  case remove i r =>
    split
    · exact h.store i (iassign_same (h i) r _)
    · exact h
  case clear i => exact h.store i fun _ _ => rfl
  case extend i items => exact h.store i (iassignAll_same items (h i))
  case collect i items =>
    split
    · exact h.store i fun _ _ => rfl
    · exact h
  case copy i j => exact h.store i fun k hk => h j k (hc k hk)
  case append i j => exact h.store i fun k hk => by rw [h i k hk, h j k (hc k hk)]
  all_goals exact h

theorem iassign_outside {P : K → Prop} {r : Range K} (h : IWithin P r) (f : K → Option V)
    (o : Option V) (k : K) (hk : ¬ P k) : iassign f r o k = f k :=
  if_neg fun hc => hk (h k hc.1 hc.2)

theorem iassignAll_outside {P : K → Prop} (items : List (Range K × V)) :
    ∀ (f : K → Option V), (∀ e ∈ items, IWithin P e.1) →
    ∀ k, ¬ P k → iassignAll f items k = f k := by
  induction items with
  | nil => exact fun _ _ _ _ => rfl
  | cons e t ih =>
    obtain ⟨r, v⟩ := e
    intro f h k hk
    unfold iassignAll
    split
    · rw [ih _ (fun e he => h e (List.mem_cons_of_mem _ he)) k hk,
        iassign_outside (h _ (List.mem_cons_self ..)) f _ k hk]
    · rfl

/-- A call leaves alone what it does not change. -/
theorem ieffect_outside {P Q : Nat → K → Prop} (hd : ∀ i k, P i k → ¬ Q i k)
    (f : Nat → K → Option V) {c : Call K V} (hc : IChanges Q c) : SameAt P (ieffect f c) f := by
  have st : ∀ i {a : K → Option V}, (∀ k, ¬ Q i k → a k = f i k) → SameAt P (store f i a) f := by
    intro i a ha j k hk
    unfold Verif.store
    split
    · subst j; exact ha k (hd i k hk)
    · rfl
  have r : SameAt P f f := fun _ _ _ => rfl
  cases c <;> simp only [ieffect] <;> simp only [IChanges] at hc
  case insert i r' v =>
    split
    · exact st i (iassign_outside hc _ _)
    · exact r
  case remove i r' =>
    split
    · exact st i (iassign_outside hc _ _)
    · exact r
  case clear i => exact st i fun k hk => absurd (hc k) hk
  case extend i items => exact st i (iassignAll_outside items _ hc)
  case collect i items =>
    split
    · exact st i fun k hk => absurd (hc k) hk
    · exact r
  case copy i j => exact st i fun k hk => absurd (hc k) hk
  case append i j => exact st i fun k hk => absurd (hc k) hk
  all_goals exact r

theorem holes_same {P : K → Prop} {f g : K → Option V} (h : ∀ k, P k → f k = g k) {q : Range K}
    (hq : IWithin P q) {l : List (RangeInclusive K)} (hl : IHoles f q l) : IHoles g q l where
  nonempty := hl.nonempty
  ordered := hl.ordered
  exact k := by
    rw [hl.exact]
    constructor
    · rintro ⟨h1, h2, h3⟩; exact ⟨h1, h2, by rw [← h k (hq k h1 h2)]; exact h3⟩
    · rintro ⟨h1, h2, h3⟩; exact ⟨h1, h2, by rw [h k (hq k h1 h2)]; exact h3⟩

theorem overlaps_keys {f : K → Option V} {l : List (RangeInclusive K × V)} (hl : IRuns f l)
    {q : Range K} (hq : q.start ≤ q.stop) :
    (∃ e ∈ l, q.start ≤ e.1.stop ∧ e.1.start ≤ q.stop) ↔
      ∃ k, q.start ≤ k ∧ k ≤ q.stop ∧ f k ≠ none := by
  constructor
  · rintro ⟨e, he, h1, h2⟩
    have hn := (hl.nonempty e he).1
    by_cases h : q.start ≤ e.1.start
    · refine ⟨e.1.start, h, h2, ?_⟩
      rw [(hl.exact e.1.start e.2).2 ⟨e, he, by grind, hn, rfl⟩]
      exact nofun
    · refine ⟨q.start, by grind, hq, ?_⟩
      rw [(hl.exact q.start e.2).2 ⟨e, he, by grind, h1, rfl⟩]
      exact nofun
  · rintro ⟨k, h1, h2, h3⟩
    cases hv : f k with
    | none => exact absurd hv h3
    | some v =>
      obtain ⟨e, he, h4, h5, -⟩ := (hl.exact k v).1 hv
      exact ⟨e, he, by grind, by grind⟩

/-- What a call may answer depends on the keys only that it asks about. -/
theorem says_same [BEq V] [LawfulBEq V] (hS : LawfulSteps S) (hk : ∀ a b : K, a ≤ b → b ≤ a → a = b)
    {P : Nat → K → Prop} {f g : Nat → K → Option V} (h : SameAt P f g) {c : Call K V}
    (hc : IAsks P c) {a b : Answer (RangeInclusive K) V} (ha : ISays f c a) (hb : ISays g c b) : a
      = b := by
  have all : ∀ i, (∀ k, P i k) → f i = g i := fun i hi => funext fun k => h i k (hi k)
  refine C111_one_answer hS hk (plain := g) (c := c) ?_ hb
  cases c
  case get i k => simp only [ISays] at ha ⊢; rw [ha, h i k hc]
  case containsKey i k => simp only [ISays] at ha ⊢; rw [ha, h i k hc]
  case overlaps i q =>
    obtain ⟨l, x, h1, rfl, h3⟩ := ha
    obtain ⟨l', y, h1', rfl, h3'⟩ := hb
    refine ⟨l', x, h1', rfl, ?_⟩
    rw [h3, overlaps_keys h1 hc.1, overlaps_keys h1' hc.1]
    constructor
    · rintro ⟨k, h4, h5, h6⟩; exact ⟨k, h4, h5, by rw [← h i k (hc.2 k h4 h5)]; exact h6⟩
    · rintro ⟨k, h4, h5, h6⟩; exact ⟨k, h4, h5, by rw [h i k (hc.2 k h4 h5)]; exact h6⟩
  case gaps i q n =>
    obtain ⟨l, h1, h2⟩ := ha
    exact ⟨l, holes_same (h i) hc h1, h2⟩
  case eq i j =>
    obtain ⟨b, h1, h2⟩ := ha
    exact ⟨b, h1, by rw [h2, all i fun k => (hc k).1, all j fun k => (hc k).2]⟩
  case getKeyValue i k => obtain ⟨l, h1, h2⟩ := ha; exact ⟨l, all i hc ▸ h1, h2⟩
  case len i => obtain ⟨l, h1, h2⟩ := ha; exact ⟨l, all i hc ▸ h1, h2⟩
  case isEmpty i => obtain ⟨l, h1, h2⟩ := ha; exact ⟨l, h1, all i hc ▸ h2⟩
  case first i => obtain ⟨l, h1, h2⟩ := ha; exact ⟨l, all i hc ▸ h1, h2⟩
  case last i => obtain ⟨l, h1, h2⟩ := ha; exact ⟨l, all i hc ▸ h1, h2⟩
  case iter i cs => obtain ⟨l, h1, h2⟩ := ha; exact ⟨l, all i hc ▸ h1, h2⟩
  case overlapping i q cs => obtain ⟨l, h1, h2⟩ := ha; exact ⟨l, all i hc ▸ h1, h2⟩
  all_goals exact ha

variable [BEq V] [LawfulBEq V]

/-- Maps that come from calls and hold the same at the keys in `P`. -/
def AgreeAt (S : StepFns K) (P : Nat → K → Prop) (maps maps' : Nat → RangeInclusiveMap K V) : Prop
    :=
  (∀ i, RangeInclusiveMap.Reachable S (maps i)) ∧ (∀ i, RangeInclusiveMap.Reachable S (maps' i)) ∧
    ∀ i k, P i k → (maps i).get k = (maps' i).get k

theorem AgreeAt.mirrors (hS : LawfulSteps S) {P : Nat → K → Prop}
    {maps maps' : Nat → RangeInclusiveMap K V}
    (h : AgreeAt S P maps maps') : ∃ f g, Mirrors S maps f ∧ Mirrors S maps' g ∧ SameAt P f g := by
  refine ⟨fun i => (maps i).look, fun i => (maps' i).look,
    fun i => ⟨h.1 i, get_look ((h.1 i).wf hS)⟩, fun i => ⟨h.2.1 i, get_look ((h.2.1 i).wf hS)⟩,
    fun i k hk => ?_⟩
  have := h.2.2 i k hk
  rw [get_look ((h.1 i).wf hS), get_look ((h.2.1 i).wf hS)] at this
  exact Except.ok.inj this

theorem AgreeAt.of_mirrors {P : Nat → K → Prop} {maps maps' : Nat → RangeInclusiveMap K V}
    {f g : Nat → K → Option V} (hf : Mirrors S maps f) (hg : Mirrors S maps' g) (h : SameAt P f g) :
    AgreeAt S P maps maps' :=
  ⟨fun i => (hf i).1, fun i => (hg i).1, fun i k hk => by rw [(hf i).2, (hg i).2, h i k hk]⟩

/-- **C120** One call that asks about keys in `P` only: the same answer from maps that hold the same
there, and afterwards they still do. -/
theorem C120_call (hS : LawfulSteps S) (hk : ∀ a b : K, a ≤ b → b ≤ a → a = b) {P : Nat → K → Prop}
    {maps maps' : Nat → RangeInclusiveMap K V} (h : AgreeAt S P maps maps') {c : Call K V}
      (hc : IAsks P c) :
    (perform S maps c).1 = (perform S maps' c).1 ∧
    AgreeAt S P (perform S maps c).2 (perform S maps' c).2 := by
  obtain ⟨f, g, h1, h2, h3⟩ := h.mirrors hS
  exact ⟨says_same hS hk h3 hc (C111_call hS h1 c).1 (C111_call hS h2 c).1,
    .of_mirrors (C111_call hS h1 c).2 (C111_call hS h2 c).2 (ieffect_same h3 hc)⟩

/-- **C120** A call that changes keys in `Q` only leaves the others as they are. -/
theorem C120_frame (hS : LawfulSteps S) {P Q : Nat → K → Prop} (hd : ∀ i k, P i k → ¬ Q i k)
    {maps : Nat → RangeInclusiveMap K V} (h : ∀ i, RangeInclusiveMap.Reachable S (maps i))
      {c : Call K V} (hc : IChanges Q c) :
    AgreeAt S P (perform S maps c).2 maps := by
  obtain ⟨f, g, h1, -, -⟩ := AgreeAt.mirrors hS (P := P) ⟨h, h, fun _ _ _ => rfl⟩
  exact .of_mirrors (C111_call hS h1 c).2 h1 (ieffect_outside hd f hc)

/-- **C120** A program that asks about keys in `P` only learns nothing about the others. -/
theorem C120_blind (hS : LawfulSteps S) (hk : ∀ a b : K, a ≤ b → b ≤ a → a = b) {P : Nat → K → Prop}
    {p : Program (RangeInclusive K) K V} (hp : Always (IAsks P) p)
      {maps maps' : Nat → RangeInclusiveMap K V}
    (h : AgreeAt S P maps maps') (n : Nat) :
    dialogue S p n [] maps = dialogue S p n [] maps' := by
  suffices H : ∀ (n : Nat) (as : List (Answer (RangeInclusive K) V))
    (maps maps' : Nat → RangeInclusiveMap K V),
      AgreeAt S P maps maps' → dialogue S p n as maps = dialogue S p n as maps' from H n [] _ _ h
  intro n
  induction n with
  | zero => exact fun _ _ _ _ => rfl
  | succ n ih =>
    intro as maps maps' h
    unfold dialogue
    cases e : p as with
    | none => rfl
    | some c =>
      obtain ⟨h1, h2⟩ := C120_call hS hk h (hp as c e)
      simp only [h1]
      exact ih _ _ _ h2

theorem AgreeAt.trans {P : Nat → K → Prop} {a b c : Nat → RangeInclusiveMap K V}
    (h : AgreeAt S P a b)
    (h' : AgreeAt S P b c) : AgreeAt S P a c :=
  ⟨h.1, h'.2.1, fun i k hk => (h.2.2 i k hk).trans (h'.2.2 i k hk)⟩

/-- **C120** Two programs take turns on the same maps.  If one asks about keys in `P` only and the
other changes keys in `Q` only, and `P` and `Q` have no key in common, then the one hears what it
hears alone, whatever the other asks and whatever it makes of the answers, and leaves the keys in
`P` as it leaves them alone. -/
theorem C120_apart (hS : LawfulSteps S) (hk : ∀ a b : K, a ≤ b → b ≤ a → a = b)
    {P Q : Nat → K → Prop}
    (hd : ∀ i k, P i k → ¬ Q i k) {p q : Program (RangeInclusive K) K V} (hp : Always (IAsks P) p)
    (hq : Always (IChanges Q) q) {maps : Nat → RangeInclusiveMap K V}
      (h : ∀ i, RangeInclusiveMap.Reachable S (maps i))
    (turns : List Bool) :
    (together S p q turns [] [] maps).1 = dialogue S p (turns.count true) [] maps ∧
    AgreeAt S P (together S p q turns [] [] maps).2.2 (outcome S p (turns.count true) [] maps) := by
  suffices H : ∀ (turns : List Bool) (as bs : List (Answer (RangeInclusive K) V))
      (maps maps' : Nat → RangeInclusiveMap K V), AgreeAt S P maps maps' →
      (together S p q turns as bs maps).1 = dialogue S p (turns.count true) as maps' ∧
      AgreeAt S P (together S p q turns as bs maps).2.2 (outcome S p (turns.count true) as maps')
        from
    H turns [] [] _ _ ⟨h, h, fun _ _ _ => rfl⟩
  intro turns
  induction turns with
  | nil => exact fun _ _ _ _ h => ⟨rfl, h⟩
  | cons t turns ih =>
    intro as bs maps maps' h
    cases t with
    | true =>
      rw [List.count_cons_self]
      unfold together dialogue outcome
      cases e : p as with
      | none =>
        have := ih as bs maps maps' h
        have stop : ∀ n, dialogue S p n as maps' = as ∧ outcome S p n as maps' = maps' := by
          intro n
          cases n with
          | zero => exact ⟨rfl, rfl⟩
          | succ n => unfold dialogue outcome; rw [e]; exact ⟨rfl, rfl⟩
        rwa [(stop _).1, (stop _).2] at this
      | some c =>
        obtain ⟨h1, h2⟩ := C120_call hS hk h (hp as c e)
        simp only [← h1]
        exact ih _ bs _ _ h2
    | false =>
      rw [List.count_cons_of_ne (by decide)]
      unfold together
      cases e : q bs with
      | none => exact ih as bs maps maps' h
      | some c => exact ih as _ _ _ ((C120_frame hS hd h.1 (hq bs c e)).trans h)

theorem together_swap (p q : Program (RangeInclusive K) K V) (turns : List Bool) :
    ∀ as bs (maps : Nat → RangeInclusiveMap K V), (together S p q turns as bs maps).2.1 =
      (together S q p (turns.map not) bs as maps).1 := by
  induction turns with
  | nil => exact fun _ _ _ => rfl
  | cons t turns ih =>
    intro as bs maps
    cases t with
    | true =>
      simp only [List.map_cons, Bool.not_true]
      unfold together
      cases p as <;> exact ih ..
    | false =>
      simp only [List.map_cons, Bool.not_false]
      unfold together
      cases q bs <;> exact ih ..

/-- **C120** So two programs that keep to keys of their own hear, taking turns on the same maps in
any order, what each of them hears alone. -/
theorem C120_both (hS : LawfulSteps S) (hk : ∀ a b : K, a ≤ b → b ≤ a → a = b)
    {P Q : Nat → K → Prop}
    (hd : ∀ i k, P i k → ¬ Q i k) {p q : Program (RangeInclusive K) K V}
    (hp : Always (fun c => IAsks P c ∧ IChanges P c) p)
    (hq : Always (fun c => IAsks Q c ∧ IChanges Q c) q) {maps : Nat → RangeInclusiveMap K V}
    (h : ∀ i, RangeInclusiveMap.Reachable S (maps i)) (turns : List Bool) :
    (together S p q turns [] [] maps).1 = dialogue S p (turns.count true) [] maps ∧
    (together S p q turns [] [] maps).2.1 = dialogue S q (turns.count false) [] maps := by
  refine ⟨(C120_apart hS hk hd (fun as c e => (hp as c e).1) (fun as c e => (hq as c e).2) h
    turns).1,
    ?_⟩
  rw [together_swap, (C120_apart hS hk (fun i k hk' hk'' => hd i k hk'' hk')
    (fun as c e => (hq as c e).1) (fun as c e => (hp as c e).2) h (turns.map not)).1]
  congr 1
  induction turns with
  | nil => rfl
  | cons t turns ih => cases t <;> simp [ih]

end

/-! ### Examples -/

/-- Works below 100, and asks for the gap there. -/
def lowPart : Program (RangeInclusive (UIntW 8)) (UIntW 8) Char
  | [] => some (.gaps 0 ⟨⟨0⟩, ⟨99⟩⟩ 1)
  | [_] => some (.insert 0 ⟨⟨3⟩, ⟨99⟩⟩ 'l')
  | [_, _] => some (.overlaps 0 ⟨⟨60⟩, ⟨99⟩⟩)
  | [_, _, _] => some (.get 0 ⟨40⟩)
  | _ => none

/-- Works from 100 on, with the same value; its last call depends on what it heard. -/
def highPart : Program (RangeInclusive (UIntW 8)) (UIntW 8) Char
  | [] => some (.insert 0 ⟨⟨100⟩, ⟨255⟩⟩ 'l')
  | [_] => some (.containsKey 0 ⟨200⟩)
  | [.flag true, _] => some (.remove 0 ⟨⟨150⟩, ⟨160⟩⟩)
  | _ => none

/-- The keys below 100. -/
def Low (_ : Nat) (k : UIntW 8) : Prop := k ≤ ⟨99⟩

/-- The keys from 100 on. -/
def High (_ : Nat) (k : UIntW 8) : Prop := (⟨100⟩ : UIntW 8) ≤ k

theorem low_high (i : Nat) (k : UIntW 8) (h : Low i k) : ¬ High i k := by
  intro h'
  have := Std.le_trans h' h
  exact absurd this (by decide)

theorem lowPart_low : Always (fun c => IAsks Low c ∧ IChanges Low c) lowPart := by
  intro as c h
  unfold lowPart at h
  split at h <;> simp only [Option.some.injEq, reduceCtorEq] at h <;> subst h <;>
    simp only [IAsks, IChanges, IWithin, Low, and_true, true_and]
  · exact fun k _ h => h
  · exact fun k _ h => h
  · exact ⟨by decide, fun k _ h => h⟩
  · decide

theorem highPart_high : Always (fun c => IAsks High c ∧ IChanges High c) highPart := by
  intro as c h
  unfold highPart at h
  split at h <;> simp only [Option.some.injEq, reduceCtorEq] at h <;> subst h <;>
    simp only [IAsks, IChanges, IWithin, High, and_true, true_and]
  · exact fun k h _ => h
  · decide
  · exact fun k h _ => Std.le_trans (by decide) h

-- the ranges of the two parts touch and have the same value, so the map joins them
example : (together Demo.u8 lowPart highPart [false, true, false, true, true, false, true] [] []
      fun _ => RangeInclusiveMap.new).1 =
    [.value (some 'l'), .flag true, .done, .ranges [some (.mk' ⟨0⟩ ⟨99⟩)]] := by rfl
example := C120_both (V := Char) Demo.u8_lawful Demo.u8_antisymm low_high lowPart_low
    highPart_high (maps := fun _ => Demo.imap) (fun _ => Demo.imap_reachable)
    [false, true, false, true, true, false, true]
example := C120_apart (V := Char) Demo.u8_lawful Demo.u8_antisymm low_high
    (fun as c e => (lowPart_low as c e).1) (fun as c e => (highPart_high as c e).2)
    (maps := fun _ => Demo.imap) (fun _ => Demo.imap_reachable) [true, false]
example := C120_frame (V := Char) Demo.u8_lawful low_high (maps := fun _ => Demo.imap)
    (fun _ => Demo.imap_reachable) (c := .remove 0 ⟨⟨107⟩, ⟨222⟩⟩)
    (fun _ h _ => Std.le_trans (by decide) h)

/-- Two maps that differ from 100 on only. -/
theorem agree_low : AgreeAt Demo.u8 Low (fun _ => Demo.imap)
    (perform Demo.u8 (fun _ => Demo.imap) (.insert 0 ⟨⟨120⟩, ⟨222⟩⟩ 'z')).2 := by
  have := C120_frame (V := Char) Demo.u8_lawful low_high (maps := fun _ => Demo.imap)
    (fun _ => Demo.imap_reachable) (c := .insert 0 ⟨⟨120⟩, ⟨222⟩⟩ 'z')
    (fun _ h _ => Std.le_trans (by decide) h)
  exact ⟨this.2.1, this.1, fun i k hk => (this.2.2 i k hk).symm⟩

example := C120_call Demo.u8_lawful Demo.u8_antisymm agree_low (c := .gaps 0 ⟨⟨1⟩, ⟨50⟩⟩ 2)
    (fun _ _ h => Std.le_trans h (by decide))
example := C120_blind Demo.u8_lawful Demo.u8_antisymm (fun as c e => (lowPart_low as c e).1)
    agree_low 9

end Verif.Props.Inclusive

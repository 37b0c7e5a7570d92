import Verif.Props.Dialogue

/-!
# C120: parts of a program that use different keys of one map do not disturb each other
-/
set_option linter.unusedSectionVars false

namespace Verif.Spec
section
variable {K V R : Type} [LE K] [LT K] [DecidableLE K] [DecidableLT K]

/-- All keys of `r` are in `P`. -/
def Within (P : K → Prop) (r : Range K) : Prop := ∀ k, r.start ≤ k → k < r.stop → P k

/-- The call asks about keys in `P` only (`P i k`: the key `k` of the map `i`).  `len`, `iter` and
the like ask about all keys of a map, and so do the calls that tell the ends of stored ranges. -/
def Asks (P : Nat → K → Prop) : Call K V → Prop
  | .get i k => P i k
  | .containsKey i k => P i k
  | .overlaps i q => q.start < q.stop ∧ Within (P i) q
  | .gaps i q _ => Within (P i) q
  | .copy i j => ∀ k, P i k → P j k
  | .append i j => ∀ k, P i k → P j k
  | .getKeyValue i _ => ∀ k, P i k
  | .len i => ∀ k, P i k
  | .isEmpty i => ∀ k, P i k
  | .first i => ∀ k, P i k
  | .last i => ∀ k, P i k
  | .iter i _ => ∀ k, P i k
  | .overlapping i _ _ => ∀ k, P i k
  | .eq i j => ∀ k, P i k ∧ P j k
  | _ => True

/-- The call changes keys in `P` only. -/
def Changes (P : Nat → K → Prop) : Call K V → Prop
  | .insert i r _ => Within (P i) r
  | .remove i r => Within (P i) r
  | .extend i items => ∀ e ∈ items, Within (P i) e.1
  | .clear i => ∀ k, P i k
  | .collect i _ => ∀ k, P i k
  | .copy i _ => ∀ k, P i k
  | .append i _ => ∀ k, P i k
  | _ => True

/-- Every call that the program may make is in `Q`. -/
def Always (Q : Call K V → Prop) (p : Program R K V) : Prop := ∀ as c, p as = some c → Q c

/-- The plain maps (or sets) are the same at the keys in `P`. -/
def SameAt {α : Type} (P : Nat → K → Prop) (f g : Nat → K → α) : Prop :=
  ∀ i k, P i k → f i k = g i k

end
end Verif.Spec

namespace Verif.RangeMap
variable {K : Type} [LE K] [LT K] [DecidableLE K] [DecidableLT K] {V : Type} [BEq V]

/-- Two programs that use the same maps, one call at a time, the first one's turn if `true`: what
each of them hears (the last answer first), and the maps at the end.  (Not in /repo: it is what two
parts of a user's program may do.) -/
def together (p q : Program (Range K) K V) : List Bool → List (Answer (Range K) V) →
    List (Answer (Range K) V) → (Nat → RangeMap K V) →
    List (Answer (Range K) V) × List (Answer (Range K) V) × (Nat → RangeMap K V)
  | [], as, bs, maps => (as, bs, maps)
  | true :: turns, as, bs, maps =>
    match p as with
    | none => together p q turns as bs maps
    | some c => together p q turns ((perform maps c).1 :: as) bs (perform maps c).2
  | false :: turns, as, bs, maps =>
    match q bs with
    | none => together p q turns as bs maps
    | some c => together p q turns as ((perform maps c).1 :: bs) (perform maps c).2

/-- The maps after at most `n` calls of a program. -/
def outcome (p : Program (Range K) K V) : Nat → List (Answer (Range K) V) →
    (Nat → RangeMap K V) → (Nat → RangeMap K V)
  | 0, _, maps => maps
  | n + 1, as, maps =>
    match p as with
    | none => maps
    | some c => outcome p n ((perform maps c).1 :: as) (perform maps c).2

end Verif.RangeMap

namespace Verif.Props
open Spec RangeMap
section
variable {K : Type} [LE K] [LT K] [DecidableLE K] [DecidableLT K]
  [Std.IsLinearPreorder K] [Std.LawfulOrderLT K] {V : Type}

theorem _root_.Verif.Spec.SameAt.store {α : Type} {P : Nat → K → Prop} {f g : Nat → K → α}
    (h : SameAt P f g) (i : Nat) {a b : K → α} (hab : ∀ k, P i k → a k = b k) :
    SameAt P (store f i a) (store g i b) := by
  intro j k hk
  unfold Verif.store
  split
  · subst j; exact hab k hk
  · exact h j k hk

theorem assign_same {P : K → Prop} {f g : K → Option V} (h : ∀ k, P k → f k = g k) (r : Range K)
    (o : Option V) (k : K) (hk : P k) : assign f r o k = assign g r o k := by
  unfold assign
  split
  · rfl
  · exact h k hk

theorem assignAll_same {P : K → Prop} (items : List (Range K × V)) : ∀ {f g : K → Option V},
    (∀ k, P k → f k = g k) → ∀ k, P k → assignAll f items k = assignAll g items k := by
  induction items with
  | nil => exact fun h => h
  | cons e t ih =>
    obtain ⟨r, v⟩ := e
    intro f g h
    unfold assignAll
    split
    · exact ih (assign_same h r _)
    · exact h

/-- What a call does at the keys in `P` depends on these only, if what it asks about does. -/
theorem effect_same {P : Nat → K → Prop} {f g : Nat → K → Option V} (h : SameAt P f g)
    {c : Call K V} (hc : Asks P c) : SameAt P (effect f c) (effect g c) := by
  cases c <;> simp only [effect]
  case insert i r v =>
    split
    · exact h.store i (assign_same (h i) r _)
    · exact h
  case remove i r =>
    split
    · exact h.store i (assign_same (h i) r _)
    · exact h
  case clear i => exact h.store i fun _ _ => rfl
  case extend i items => exact h.store i (assignAll_same items (h i))
  case collect i items =>
    split
    · exact h.store i fun _ _ => rfl
    · exact h
  case copy i j => exact h.store i fun k hk => h j k (hc k hk)
  case append i j => exact h.store i fun k hk => by rw [h i k hk, h j k (hc k hk)]
  all_goals exact h

theorem assign_outside {P : K → Prop} {r : Range K} (h : Within P r) (f : K → Option V)
    (o : Option V) (k : K) (hk : ¬ P k) : assign f r o k = f k :=
  if_neg fun hc => hk (h k hc.1 hc.2)

theorem assignAll_outside {P : K → Prop} (items : List (Range K × V)) :
    ∀ (f : K → Option V), (∀ e ∈ items, Within P e.1) →
    ∀ k, ¬ P k → assignAll f items k = f k := by
  induction items with
  | nil => exact fun _ _ _ _ => rfl
  | cons e t ih =>
    obtain ⟨r, v⟩ := e
    intro f h k hk
    unfold assignAll
    split
    · rw [ih _ (fun e he => h e (List.mem_cons_of_mem _ he)) k hk,
        assign_outside (h _ (List.mem_cons_self ..)) f _ k hk]
    · rfl

/-- A call leaves alone what it does not change. -/
theorem effect_outside {P Q : Nat → K → Prop} (hd : ∀ i k, P i k → ¬ Q i k)
    (f : Nat → K → Option V) {c : Call K V} (hc : Changes Q c) : SameAt P (effect f c) f := by
  have st : ∀ i {a : K → Option V}, (∀ k, ¬ Q i k → a k = f i k) → SameAt P (store f i a) f := by
    intro i a ha j k hk
    unfold Verif.store
    split
    · subst j; exact ha k (hd i k hk)
    · rfl
  have r : SameAt P f f := fun _ _ _ => rfl
  cases c <;> simp only [effect] <;> simp only [Changes] at hc
  case insert i r' v =>
    split
    · exact st i (assign_outside hc _ _)
    · exact r
  case remove i r' =>
    split
    · exact st i (assign_outside hc _ _)
    · exact r
  case clear i => exact st i fun k hk => absurd (hc k) hk
  case extend i items => exact st i (assignAll_outside items _ hc)
  case collect i items =>
    split
    · exact st i fun k hk => absurd (hc k) hk
    · exact r
  case copy i j => exact st i fun k hk => absurd (hc k) hk
  case append i j => exact st i fun k hk => absurd (hc k) hk
  all_goals exact r

theorem holes_same {P : K → Prop} {f g : K → Option V} (h : ∀ k, P k → f k = g k) {q : Range K}
    (hq : Within P q) {l : List (Range K)} (hl : Holes f q l) : Holes g q l where
  nonempty := hl.nonempty
  ordered := hl.ordered
  exact k := by
    rw [hl.exact]
    constructor
    · rintro ⟨h1, h2, h3⟩; exact ⟨h1, h2, by rw [← h k (hq k h1 h2)]; exact h3⟩
    · rintro ⟨h1, h2, h3⟩; exact ⟨h1, h2, by rw [h k (hq k h1 h2)]; exact h3⟩

theorem overlaps_keys {f : K → Option V} {l : List (Range K × V)} (hl : Runs f l) {q : Range K}
    (hq : q.start < q.stop) : (∃ e ∈ l, q.start < e.1.stop ∧ e.1.start < q.stop) ↔
      ∃ k, q.start ≤ k ∧ k < q.stop ∧ f k ≠ none := by
  constructor
  · rintro ⟨e, he, h1, h2⟩
    have hn := hl.nonempty e he
    by_cases h : q.start ≤ e.1.start
    · refine ⟨e.1.start, h, h2, ?_⟩
      rw [(hl.exact e.1.start e.2).2 ⟨e, he, by grind, hn, rfl⟩]
      exact nofun
    · refine ⟨q.start, by grind, hq, ?_⟩
      rw [(hl.exact q.start e.2).2 ⟨e, he, by grind, h1, rfl⟩]
      exact nofun
  · rintro ⟨k, h1, h2, h3⟩
    cases hv : f k with
    | none => exact absurd hv h3
    | some v =>
      obtain ⟨e, he, h4, h5, -⟩ := (hl.exact k v).1 hv
      exact ⟨e, he, by grind, by grind⟩

/-- What a call may answer depends on the keys only that it asks about. -/
theorem says_same [BEq V] [LawfulBEq V] (hk : ∀ a b : K, a ≤ b → b ≤ a → a = b)
    {P : Nat → K → Prop} {f g : Nat → K → Option V} (h : SameAt P f g) {c : Call K V}
    (hc : Asks P c) {a b : Answer (Range K) V} (ha : Says f c a) (hb : Says g c b) : a = b := by
  have all : ∀ i, (∀ k, P i k) → f i = g i := fun i hi => funext fun k => h i k (hi k)
  refine C111_one_answer hk (plain := g) (c := c) ?_ hb
  cases c
  case get i k => simp only [Says] at ha ⊢; rw [ha, h i k hc]
  case containsKey i k => simp only [Says] at ha ⊢; rw [ha, h i k hc]
  case overlaps i q =>
    obtain ⟨l, x, h1, rfl, h3⟩ := ha
    obtain ⟨l', y, h1', rfl, h3'⟩ := hb
    refine ⟨l', x, h1', rfl, ?_⟩
    rw [h3, overlaps_keys h1 hc.1, overlaps_keys h1' hc.1]
    constructor
    · rintro ⟨k, h4, h5, h6⟩; exact ⟨k, h4, h5, by rw [← h i k (hc.2 k h4 h5)]; exact h6⟩
    · rintro ⟨k, h4, h5, h6⟩; exact ⟨k, h4, h5, by rw [h i k (hc.2 k h4 h5)]; exact h6⟩
  case gaps i q n =>
    obtain ⟨l, h1, h2⟩ := ha
    exact ⟨l, holes_same (h i) hc h1, h2⟩
  case eq i j =>
    obtain ⟨b, h1, h2⟩ := ha
    exact ⟨b, h1, by rw [h2, all i fun k => (hc k).1, all j fun k => (hc k).2]⟩
  case getKeyValue i k => obtain ⟨l, h1, h2⟩ := ha; exact ⟨l, all i hc ▸ h1, h2⟩
  case len i => obtain ⟨l, h1, h2⟩ := ha; exact ⟨l, all i hc ▸ h1, h2⟩
  case isEmpty i => obtain ⟨l, h1, h2⟩ := ha; exact ⟨l, h1, all i hc ▸ h2⟩
  case first i => obtain ⟨l, h1, h2⟩ := ha; exact ⟨l, all i hc ▸ h1, h2⟩
  case last i => obtain ⟨l, h1, h2⟩ := ha; exact ⟨l, all i hc ▸ h1, h2⟩
  case iter i cs => obtain ⟨l, h1, h2⟩ := ha; exact ⟨l, all i hc ▸ h1, h2⟩
  case overlapping i q cs => obtain ⟨l, h1, h2⟩ := ha; exact ⟨l, all i hc ▸ h1, h2⟩
  all_goals exact ha

variable [BEq V] [LawfulBEq V]

/-- Maps that come from calls and hold the same at the keys in `P`. -/
def AgreeAt (P : Nat → K → Prop) (maps maps' : Nat → RangeMap K V) : Prop :=
  (∀ i, Reachable (maps i)) ∧ (∀ i, Reachable (maps' i)) ∧
    ∀ i k, P i k → (maps i).get k = (maps' i).get k

theorem AgreeAt.mirrors {P : Nat → K → Prop} {maps maps' : Nat → RangeMap K V}
    (h : AgreeAt P maps maps') : ∃ f g, Mirrors maps f ∧ Mirrors maps' g ∧ SameAt P f g := by
  refine ⟨fun i => (maps i).look, fun i => (maps' i).look,
    fun i => ⟨h.1 i, get_look (h.1 i).wf.sep⟩, fun i => ⟨h.2.1 i, get_look (h.2.1 i).wf.sep⟩,
    fun i k hk => ?_⟩
  have := h.2.2 i k hk
  rw [get_look (h.1 i).wf.sep, get_look (h.2.1 i).wf.sep] at this
  exact Except.ok.inj this

theorem AgreeAt.of_mirrors {P : Nat → K → Prop} {maps maps' : Nat → RangeMap K V}
    {f g : Nat → K → Option V} (hf : Mirrors maps f) (hg : Mirrors maps' g) (h : SameAt P f g) :
    AgreeAt P maps maps' :=
  ⟨fun i => (hf i).1, fun i => (hg i).1, fun i k hk => by rw [(hf i).2, (hg i).2, h i k hk]⟩

/-- **C120** One call that asks about keys in `P` only: the same answer from maps that hold the same
there, and afterwards they still do. -/
theorem C120_call (hk : ∀ a b : K, a ≤ b → b ≤ a → a = b) {P : Nat → K → Prop}
    {maps maps' : Nat → RangeMap K V} (h : AgreeAt P maps maps') {c : Call K V} (hc : Asks P c) :
    (perform maps c).1 = (perform maps' c).1 ∧
    AgreeAt P (perform maps c).2 (perform maps' c).2 := by
  obtain ⟨f, g, h1, h2, h3⟩ := h.mirrors
  exact ⟨says_same hk h3 hc (C111_call h1 c).1 (C111_call h2 c).1,
    .of_mirrors (C111_call h1 c).2 (C111_call h2 c).2 (effect_same h3 hc)⟩

/-- **C120** A call that changes keys in `Q` only leaves the others as they are. -/
theorem C120_frame {P Q : Nat → K → Prop} (hd : ∀ i k, P i k → ¬ Q i k)
    {maps : Nat → RangeMap K V} (h : ∀ i, Reachable (maps i)) {c : Call K V} (hc : Changes Q c) :
    AgreeAt P (perform maps c).2 maps := by
  obtain ⟨f, g, h1, -, -⟩ := AgreeAt.mirrors (P := P) ⟨h, h, fun _ _ _ => rfl⟩
  exact .of_mirrors (C111_call h1 c).2 h1 (effect_outside hd f hc)

/-- **C120** A program that asks about keys in `P` only learns nothing about the others. -/
theorem C120_blind (hk : ∀ a b : K, a ≤ b → b ≤ a → a = b) {P : Nat → K → Prop}
    {p : Program (Range K) K V} (hp : Always (Asks P) p) {maps maps' : Nat → RangeMap K V}
    (h : AgreeAt P maps maps') (n : Nat) :
    dialogue p n [] maps = dialogue p n [] maps' := by
  suffices H : ∀ (n : Nat) (as : List (Answer (Range K) V)) (maps maps' : Nat → RangeMap K V),
      AgreeAt P maps maps' → dialogue p n as maps = dialogue p n as maps' from H n [] _ _ h
  intro n
  induction n with
  | zero => exact fun _ _ _ _ => rfl
  | succ n ih =>
    intro as maps maps' h
    unfold dialogue
    cases e : p as with
    | none => rfl
    | some c =>
      obtain ⟨h1, h2⟩ := C120_call hk h (hp as c e)
      simp only [h1]
      exact ih _ _ _ h2

theorem AgreeAt.trans {P : Nat → K → Prop} {a b c : Nat → RangeMap K V} (h : AgreeAt P a b)
    (h' : AgreeAt P b c) : AgreeAt P a c :=
  ⟨h.1, h'.2.1, fun i k hk => (h.2.2 i k hk).trans (h'.2.2 i k hk)⟩

/-- **C120** Two programs take turns on the same maps.  If one asks about keys in `P` only and the
other changes keys in `Q` only, and `P` and `Q` have no key in common, then the one hears what it
hears alone, whatever the other asks and whatever it makes of the answers, and leaves the keys in
`P` as it leaves them alone. -/
theorem C120_apart (hk : ∀ a b : K, a ≤ b → b ≤ a → a = b) {P Q : Nat → K → Prop}
    (hd : ∀ i k, P i k → ¬ Q i k) {p q : Program (Range K) K V} (hp : Always (Asks P) p)
    (hq : Always (Changes Q) q) {maps : Nat → RangeMap K V} (h : ∀ i, Reachable (maps i))
    (turns : List Bool) :
    (together p q turns [] [] maps).1 = dialogue p (turns.count true) [] maps ∧
    AgreeAt P (together p q turns [] [] maps).2.2 (outcome p (turns.count true) [] maps) := by
  suffices H : ∀ (turns : List Bool) (as bs : List (Answer (Range K) V))
      (maps maps' : Nat → RangeMap K V), AgreeAt P maps maps' →
      (together p q turns as bs maps).1 = dialogue p (turns.count true) as maps' ∧
      AgreeAt P (together p q turns as bs maps).2.2 (outcome p (turns.count true) as maps') from
    H turns [] [] _ _ ⟨h, h, fun _ _ _ => rfl⟩
  intro turns
  induction turns with
  | nil => exact fun _ _ _ _ h => ⟨rfl, h⟩
  | cons t turns ih =>
    intro as bs maps maps' h
    cases t with
    | true =>
      rw [List.count_cons_self]
      unfold together dialogue outcome
      cases e : p as with
      | none =>
        have := ih as bs maps maps' h
        have stop : ∀ n, dialogue p n as maps' = as ∧ outcome p n as maps' = maps' := by
          intro n
          cases n with
          | zero => exact ⟨rfl, rfl⟩
          | succ n => unfold dialogue outcome; rw [e]; exact ⟨rfl, rfl⟩
        rwa [(stop _).1, (stop _).2] at this
      | some c =>
        obtain ⟨h1, h2⟩ := C120_call hk h (hp as c e)
        simp only [← h1]
        exact ih _ bs _ _ h2
    | false =>
      rw [List.count_cons_of_ne (by decide)]
      unfold together
      cases e : q bs with
      | none => exact ih as bs maps maps' h
      | some c => exact ih as _ _ _ ((C120_frame hd h.1 (hq bs c e)).trans h)

theorem together_swap (p q : Program (Range K) K V) (turns : List Bool) :
    ∀ as bs (maps : Nat → RangeMap K V), (together p q turns as bs maps).2.1 =
      (together q p (turns.map not) bs as maps).1 := by
  induction turns with
  | nil => exact fun _ _ _ => rfl
  | cons t turns ih =>
    intro as bs maps
    cases t with
    | true =>
      simp only [List.map_cons, Bool.not_true]
      unfold together
      cases p as <;> exact ih ..
    | false =>
      simp only [List.map_cons, Bool.not_false]
      unfold together
      cases q bs <;> exact ih ..

/-- **C120** So two programs that keep to keys of their own hear, taking turns on the same maps in
any order, what each of them hears alone. -/
theorem C120_both (hk : ∀ a b : K, a ≤ b → b ≤ a → a = b) {P Q : Nat → K → Prop}
    (hd : ∀ i k, P i k → ¬ Q i k) {p q : Program (Range K) K V}
    (hp : Always (fun c => Asks P c ∧ Changes P c) p)
    (hq : Always (fun c => Asks Q c ∧ Changes Q c) q) {maps : Nat → RangeMap K V}
    (h : ∀ i, Reachable (maps i)) (turns : List Bool) :
    (together p q turns [] [] maps).1 = dialogue p (turns.count true) [] maps ∧
    (together p q turns [] [] maps).2.1 = dialogue q (turns.count false) [] maps := by
  refine ⟨(C120_apart hk hd (fun as c e => (hp as c e).1) (fun as c e => (hq as c e).2) h turns).1,
    ?_⟩
  rw [together_swap, (C120_apart hk (fun i k hk' hk'' => hd i k hk'' hk')
    (fun as c e => (hq as c e).1) (fun as c e => (hp as c e).2) h (turns.map not)).1]
  congr 1
  induction turns with
  | nil => rfl
  | cons t turns ih => cases t <;> simp [ih]

end

/-! ### Examples -/

/-- Allocates below 100: takes the first gap and fills it. -/
def lowPart : Program (Range Nat) Nat Char
  | [] => some (.gaps 0 ⟨0, 100⟩ 1)
  | [_] => some (.insert 0 ⟨3, 50⟩ 'l')
  | [_, _] => some (.overlaps 0 ⟨60, 100⟩)
  | [_, _, _] => some (.get 0 40)
  | _ => none

/-- Works from 100 on; its last call depends on what it heard. -/
def highPart : Program (Range Nat) Nat Char
  | [] => some (.insert 0 ⟨100, 300⟩ 'h')
  | [_] => some (.containsKey 0 200)
  | [.flag true, _] => some (.remove 0 ⟨150, 160⟩)
  | _ => none

theorem lowPart_low : Always (fun c => Asks (fun _ k => k < 100) c ∧
    Changes (fun _ k => k < 100) c) lowPart := by
  intro as c h
  unfold lowPart at h
  split at h <;> simp only [Option.some.injEq, reduceCtorEq] at h <;> subst h <;>
    simp only [Asks, Changes, Within] <;> grind

theorem highPart_high : Always (fun c => Asks (fun _ k => 100 ≤ k) c ∧
    Changes (fun _ k => 100 ≤ k) c) highPart := by
  intro as c h
  unfold highPart at h
  split at h <;> simp only [Option.some.injEq, reduceCtorEq] at h <;> subst h <;>
    simp only [Asks, Changes, Within] <;> grind

example : (together lowPart highPart [false, true, false, true, true, false, true] [] []
      fun _ => RangeMap.new).1 =
    [.value (some 'l'), .flag false, .done, .ranges [some ⟨0, 100⟩]] := by rfl
example := C120_both (K := Nat) (V := Char) (fun _ _ => Nat.le_antisymm)
    (P := fun _ k => k < 100) (Q := fun _ k => 100 ≤ k) (fun _ _ => by grind) lowPart_low
    highPart_high (maps := fun _ => Demo.map) (fun _ => Demo.map_reachable)
    [false, true, false, true, true, false, true]
example := C120_apart (K := Nat) (V := Char) (fun _ _ => Nat.le_antisymm)
    (P := fun _ k => k < 100) (Q := fun _ k => 100 ≤ k) (fun _ _ => by grind)
    (fun as c e => (lowPart_low as c e).1) (fun as c e => (highPart_high as c e).2)
    (maps := fun _ => Demo.map) (fun _ => Demo.map_reachable) [true, false]

/-- Two maps that differ from 5 on only. -/
theorem agree_below : AgreeAt (K := Nat) (fun _ k => k < 5) (fun _ => Demo.map)
    (fun _ => RangeMap.run [.insert ⟨0, 3⟩ 'a', .insert ⟨7, 9⟩ 'z']) := by
  refine ⟨fun _ => Demo.map_reachable, fun _ => ⟨_, rfl⟩, fun _ k hk => ?_⟩
  match k, hk with
  | 0, _ | 1, _ | 2, _ | 3, _ | 4, _ => rfl

example := C120_call (fun _ _ => Nat.le_antisymm) agree_below (c := .gaps 0 ⟨1, 5⟩ 2)
    (fun _ _ h => h)

/-- Asks about keys below 5 only, and changes others, too. -/
def lowEyes : Program (Range Nat) Nat Char
  | [] => some (.gaps 0 ⟨1, 5⟩ 2)
  | [_] => some (.insert 0 ⟨4, 8⟩ 'c')
  | [_, _] => some (.get 0 4)
  | _ => none

theorem lowEyes_low : Always (Asks fun _ k => k < 5) lowEyes := by
  intro as c h
  unfold lowEyes at h
  split at h <;> simp only [Option.some.injEq, reduceCtorEq] at h <;> subst h <;>
    simp only [Asks, Within] <;> grind

example := C120_blind (fun _ _ => Nat.le_antisymm) lowEyes_low agree_below 9
example := C120_frame (K := Nat) (P := fun _ k => k < 5) (Q := fun _ k => 5 ≤ k)
    (fun _ _ => by grind) (maps := fun _ => Demo.map) (fun _ => Demo.map_reachable)
    (c := .remove 0 ⟨7, 22⟩) (fun k h _ => by grind)

end Verif.Props

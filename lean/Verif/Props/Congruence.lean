import Verif.Props.Clone
import Verif.Props.CloneCount

/-!
# `==` is a congruence: C97

Two containers that are `==` cannot be told apart by anything the API offers, except by looking at
    the
parts of keys and values that their own comparisons ignore.  The maps here are any two maps, not
    only
reachable ones, and the arguments of the calls need only compare equal as well.
-/
set_option linter.unusedSectionVars false

namespace Verif.Spec
variable {K R V : Type} [LE K] [LT K] [DecidableLE K] [DecidableLT K] [BEq V]

/-- Ranges that compare equal, with values that do. -/
def EqualEntry (same : R → R → Prop) (x y : R × V) : Prop := same x.1 y.1 ∧ (x.2 == y.2) = true

/-- The same method, with arguments that compare equal. -/
inductive EqualOp (same : R → R → Prop) : Op R V → Op R V → Prop
  | insert {r r' v v'} : same r r' → (v == v') = true → EqualOp same (.insert r v) (.insert r' v')
  | remove {r r'} : same r r' → EqualOp same (.remove r) (.remove r')
  | clear : EqualOp same .clear .clear
  | extend {l l'} : Pointwise (EqualEntry same) l l' → EqualOp same (.extend l) (.extend l')

theorem Same.of_beq [PartialEquivBEq V] {v w : V} (h : (v == w) = true) : Same v w := by
  intro u
  have h' := BEq.symm h
  constructor
  · rw [Bool.eq_iff_iff]; exact ⟨fun hu => BEq.trans h' hu, fun hu => BEq.trans h hu⟩
  · rw [Bool.eq_iff_iff]; exact ⟨fun hu => BEq.trans hu h, fun hu => BEq.trans hu h'⟩

theorem Same.to_beq [ReflBEq V] {v w : V} (h : Same v w) : (v == w) = true := by
  rw [(h w).1]; exact BEq.rfl

theorem Pointwise.mono {α β : Type} {P Q : α → β → Prop} (hPQ : ∀ a b, P a b → Q a b) {s : List α}
    {t : List β} (h : Pointwise P s t) : Pointwise Q s t := by
  induction h with
  | nil => exact .nil
  | cons h _ ih => exact .cons (hPQ _ _ h) ih

theorem SameOpt.mono {α β : Type} {P Q : α → β → Prop} (hPQ : ∀ a b, P a b → Q a b) {s : Option α}
    {t : Option β} (h : SameOpt P s t) : SameOpt Q s t := by
  cases s <;> cases t <;> first | exact hPQ _ _ h | exact h

theorem SameOutcome.mono {α β : Type} {P Q : α → β → Prop} (hPQ : ∀ a b, P a b → Q a b)
    {s : Except Panic α} {t : Except Panic β} (h : SameOutcome P s t) : SameOutcome Q s t := by
  cases s <;> cases t <;> first | exact hPQ _ _ h | exact h

theorem SameOutcome.map {α β γ δ : Type} {P : α → β → Prop} {Q : γ → δ → Prop} {f : α → γ}
    {g : β → δ}
    (hPQ : ∀ a b, P a b → Q (f a) (g b)) {s : Except Panic α} {t : Except Panic β}
    (h : SameOutcome P s t) : SameOutcome Q (f <$> s) (g <$> t) := by
  cases s <;> cases t <;> first | exact hPQ _ _ h | exact h

theorem SameOutcome.bind {α β γ δ : Type} {P : α → β → Prop} {Q : γ → δ → Prop}
    {f : α → Except Panic γ} {g : β → Except Panic δ}
    (hPQ : ∀ a b, P a b → SameOutcome Q (f a) (g b)) {s : Except Panic α} {t : Except Panic β}
    (h : SameOutcome P s t) : SameOutcome Q (s >>= f) (t >>= g) := by
  cases s <;> cases t <;> first | exact hPQ _ _ h | exact h | exact absurd h id

theorem SameOutcome.eq {α : Type} {s t : Except Panic α} (h : SameOutcome (· = ·) s t) : s = t := by
  cases s <;> cases t <;> first | exact congrArg _ h | exact absurd h id

theorem SameEntry.equal [ReflBEq V] {same : R → R → Prop} {x y : R × V} (h : SameEntry same x y) :
    EqualEntry same x y := ⟨h.1, h.2.to_beq⟩

theorem EqualEntry.same [PartialEquivBEq V] {same : R → R → Prop} {x y : R × V}
    (h : EqualEntry same x y) : SameEntry same x y := ⟨h.1, .of_beq h.2⟩

end Verif.Spec

namespace Verif
open Spec

theorem lawful_identical {K V : Type} [LE K] [DecidableLE K] [LT K] [DecidableLT K]
    [Std.IsLinearPreorder K] [Std.LawfulOrderLT K] [BEq V] :
    LawfulClones (identical : Clones K V) := ⟨fun _ _ => keq_self _, fun _ _ => .rfl'⟩

theorem callsL_eval {K V σ α : Type} [LE K] [LT K] [DecidableLE K] [DecidableLT K]
    {nextL : σ → Cl K V (Option α × σ)} {next : σ → Option α × σ}
    (h : ∀ s, (nextL s).eval = .ok (next s)) (n : Nat) (s : σ) :
    (callsL nextL n s).eval = .ok (calls next n s) := by
  induction n generalizing s with
  | zero => rfl
  | succ n ih =>
    unfold callsL calls
    rw [Cl.eval_bind, h]
    show Cl.eval _ = _
    rw [Cl.eval_bind, ih]
    rfl

theorem callsL_evalE {K V σ α : Type} [LE K] [LT K] [DecidableLE K] [DecidableLT K]
    {nextL : σ → Cl K V (Option α × σ)}
    {next : σ → Except Panic (Option α × σ)} (h : ∀ s, (nextL s).eval = next s) (n : Nat) (s : σ) :
    (callsL nextL n s).eval = callsE next n s := by
  induction n generalizing s with
  | zero => rfl
  | succ n ih =>
    unfold callsL callsE
    rw [Cl.eval_bind, h]
    cases next s with
    | error p => rfl
    | ok p =>
      show Cl.eval _ = _
      rw [Cl.eval_bind, ih]
      show _ = (callsE next n p.2).map (p.1 :: ·)
      cases callsE next n p.2 <;> rfl

end Verif

namespace Verif.Props
open Spec Cl

/-! ### Two maps and two sets that are equal, but not the same -/

/-- Two entries. -/
def twin : RangeMap Demo.TagKey Counted :=
  .run [.insert ⟨⟨0, true⟩, ⟨9, true⟩⟩ ⟨1, 0⟩, .insert ⟨⟨3, true⟩, ⟨4, true⟩⟩ ⟨2, 0⟩]

/-- The same with other tags and counts. -/
def twin' : RangeMap Demo.TagKey Counted :=
  .run [.insert ⟨⟨0, false⟩, ⟨9, false⟩⟩ ⟨1, 5⟩, .insert ⟨⟨3, false⟩, ⟨4, false⟩⟩ ⟨2, 6⟩]

/-- Three ranges. -/
def twins : RangeSet Demo.TagKey :=
  ⟨.run [.insert ⟨⟨0, true⟩, ⟨2, true⟩⟩ (), .insert ⟨⟨3, true⟩, ⟨4, true⟩⟩ (),
    .insert ⟨⟨6, true⟩, ⟨9, true⟩⟩ ()]⟩

/-- The same with other tags. -/
def twins' : RangeSet Demo.TagKey :=
  ⟨.run [.insert ⟨⟨0, false⟩, ⟨2, false⟩⟩ (), .insert ⟨⟨3, false⟩, ⟨4, true⟩⟩ (),
    .insert ⟨⟨6, true⟩, ⟨9, false⟩⟩ ()]⟩

theorem twin_eq : twin.eq twin' = true := by decide +kernel
theorem twins_eq : twins.eq twins' = true := by decide +kernel
example : twin.iter ≠ twin'.iter ∧ twins.iter ≠ twins'.iter := by decide +kernel
example : twin.iter.length = 3 := by decide +kernel

section
variable {K : Type} [LE K] [LT K] [DecidableLE K] [DecidableLT K]
  [Std.IsLinearPreorder K] [Std.LawfulOrderLT K] {V : Type} [BEq V]

theorem map_pointwise_of_eq [PartialEquivBEq V] {m m' : RangeMap K V} (h : m.eq m' = true) :
    Pointwise (SameEntry SameRange) m.iter m'.iter := by
  unfold RangeMap.eq at h
  generalize m.iter = l at h ⊢
  generalize m'.iter = l' at h ⊢
  induction l generalizing l' with
  | nil => cases l' with
    | nil => exact .nil
    | cons => cases h
  | cons a l ih => cases l' with
    | nil => cases h
    | cons b l' =>
      simp only [iterEq, RangeMap.entryEq, Bool.and_eq_true] at h
      exact .cons ⟨h.1.1, .of_beq h.1.2⟩ (ih _ h.2)

variable [EquivBEq V]

/-- **C97** `==` of maps says that the entries are equal one by one. -/
theorem C97_eq_iff (m m' : RangeMap K V) :
    m.eq m' = true ↔ Pointwise (EqualEntry SameRange) m.iter m'.iter :=
  ⟨fun h => (map_pointwise_of_eq h).mono fun _ _ h => h.equal,
   fun h => RangeMap.eq_of_same (h.mono fun _ _ h => h.same)⟩

example := (C97_eq_iff twin twin').1 twin_eq

/-- **C97** `insert` of equal values at equal ranges into equal maps: the same panic, or equal
    maps. -/
theorem C97_insert {m m' : RangeMap K V} (h : m.eq m' = true) {r r' : Range K} (hr : SameRange r r')
    {v v' : V} (hv : (v == v') = true) :
    SameOutcome (fun x y => x.eq y = true) (m.insert r v) (m'.insert r' v') := by
  have := C65_insert (map_pointwise_of_eq h) hr (.of_beq hv) lawful_identical 0
  rw [run_identical, RangeMap.insertL_eval] at this
  exact this.mono fun _ _ h => RangeMap.eq_of_same h

example := C97_insert twin_eq (r := ⟨⟨2, true⟩, ⟨6, true⟩⟩) (r' := ⟨⟨2, false⟩, ⟨6, true⟩⟩)
    ⟨rfl, rfl⟩
    (v := ⟨1, 7⟩) (v' := ⟨1, 8⟩) rfl
-- an empty range: the same panic
example := C97_insert twin_eq (r := ⟨⟨2, true⟩, ⟨2, true⟩⟩) (r' := ⟨⟨2, false⟩, ⟨2, true⟩⟩)
    ⟨rfl, rfl⟩
    (v := ⟨1, 7⟩) (v' := ⟨1, 8⟩) rfl

/-- **C97** `remove`. -/
theorem C97_remove {m m' : RangeMap K V} (h : m.eq m' = true) {r r' : Range K}
    (hr : SameRange r r') :
    SameOutcome (fun x y => x.eq y = true) (m.remove r) (m'.remove r') := by
  have := C65_remove (map_pointwise_of_eq h) hr lawful_identical 0
  rw [run_identical, RangeMap.removeL_eval] at this
  exact this.mono fun _ _ h => RangeMap.eq_of_same h

example := C97_remove twin_eq (r := ⟨⟨2, true⟩, ⟨6, true⟩⟩) (r' := ⟨⟨2, false⟩, ⟨6, true⟩⟩)
    ⟨rfl, rfl⟩

theorem map_extend_equal {m m' : RangeMap K V} (h : m.eq m' = true) {l l' : List (Range K × V)}
    (hl : Pointwise (EqualEntry SameRange) l l') :
    (m.extend l).1.eq (m'.extend l').1 = true ∧ (m.extend l).2 = (m'.extend l').2 := by
  induction hl generalizing m m' with
  | nil => exact ⟨h, by trivial⟩
  | @cons a b s t hab _ ih =>
    unfold RangeMap.extend
    rcases (C97_insert h hab.1 hab.2).cases with ⟨x, y, h1, h2, h3⟩ | ⟨p, h1, h2⟩
    · simp only [h1, h2]; exact ih h3
    · simp only [h1, h2]; exact ⟨h, by trivial⟩

/-- **C97** Any modifying call (`insert`, `remove`, `clear`, `extend`) with equal arguments: the
    maps
left behind are equal, and the calls panic both or neither. -/
theorem C97_apply {m m' : RangeMap K V} (h : m.eq m' = true) {op op' : Op (Range K) V}
    (ho : EqualOp SameRange op op') :
    (m.apply op).1.eq (m'.apply op').1 = true ∧ (m.apply op).2 = (m'.apply op').2 := by
  cases ho with
  | insert hr hv =>
    unfold RangeMap.apply
    rcases (C97_insert h hr hv).cases with ⟨x, y, h1, h2, h3⟩ | ⟨p, h1, h2⟩
    · simp only [h1, h2]; exact ⟨h3, by trivial⟩
    · simp only [h1, h2]; exact ⟨h, by trivial⟩
  | remove hr =>
    unfold RangeMap.apply
    rcases (C97_remove h hr).cases with ⟨x, y, h1, h2, h3⟩ | ⟨p, h1, h2⟩
    · simp only [h1, h2]; exact ⟨h3, by trivial⟩
    · simp only [h1, h2]; exact ⟨h, by trivial⟩
  | clear => exact ⟨rfl, rfl⟩
  | extend hl => exact map_extend_equal h hl

example := C97_apply twin_eq (op := .extend [(⟨⟨2, true⟩, ⟨6, true⟩⟩, ⟨1, 7⟩)])
    (op' := .extend [(⟨⟨2, false⟩, ⟨6, true⟩⟩, ⟨1, 8⟩)]) (.extend (.cons ⟨⟨rfl, rfl⟩, rfl⟩ .nil))

/-- **C97** Any two histories of equal calls, panics caught, lead from equal maps to equal maps. -/
theorem C97_history {m m' : RangeMap K V} (h : m.eq m' = true) {ops ops' : List (Op (Range K) V)}
    (ho : Pointwise (EqualOp SameRange) ops ops') :
    (ops.foldl (fun m op => (m.apply op).1) m).eq (ops'.foldl (fun m op => (m.apply op).1) m')
      = true := by
  induction ho generalizing m m' with
  | nil => exact h
  | cons h1 _ ih => exact ih (C97_apply h h1).1

example := C97_history twin_eq
    (ops := [.remove ⟨⟨2, true⟩, ⟨6, true⟩⟩, .insert ⟨⟨1, true⟩, ⟨7, true⟩⟩ ⟨1, 7⟩])
    (ops' := [.remove ⟨⟨2, false⟩, ⟨6, true⟩⟩, .insert ⟨⟨1, false⟩, ⟨7, true⟩⟩ ⟨1, 8⟩])
    (.cons (.remove ⟨rfl, rfl⟩) (.cons (.insert ⟨rfl, rfl⟩ rfl) .nil))

/-- **C97** Lookups of equal keys find nothing in both or equal entries. -/
theorem C97_lookup {m m' : RangeMap K V} (h : m.eq m' = true) {k k' : K} (hk : keq k k' = true) :
    SameOutcome (SameOpt (EqualEntry SameRange)) (m.getKeyValue k) (m'.getKeyValue k') ∧
    SameOutcome (SameOpt fun v v' => (v == v') = true) (m.get k) (m'.get k') ∧
    m.containsKey k = m'.containsKey k' := by
  have h1 : SameOutcome (SameOpt (EqualEntry SameRange)) (m.getKeyValue k) (m'.getKeyValue k') := by
    have := C65_get (map_pointwise_of_eq h) hk lawful_identical 0
    rw [run_identical, RangeMap.getKeyValueL_eval] at this
    exact this.mono fun _ _ h => h.mono fun _ _ h => h.equal
  have h2 : SameOutcome (SameOpt fun v v' => (v == v') = true) (m.get k) (m'.get k') :=
    h1.bind fun _ _ h => h.map fun _ _ h => h.2
  refine ⟨h1, h2, ?_⟩
  have h3 : SameOutcome (· = ·) (m.containsKey k) (m'.containsKey k') :=
    h2.bind fun a b h => by cases a <;> cases b <;> first | rfl | exact absurd h id
  exact h3.eq

example := C97_lookup twin_eq (k := ⟨5, true⟩) (k' := ⟨5, false⟩) rfl

/-- **C97** The number of ranges and the first and last of them. -/
theorem C97_ends {m m' : RangeMap K V} (h : m.eq m' = true) :
    m.len = m'.len ∧ m.isEmpty = m'.isEmpty ∧
    SameOpt (EqualEntry SameRange) m.firstRangeValue m'.firstRangeValue ∧
    SameOpt (EqualEntry SameRange) m.lastRangeValue m'.lastRangeValue := by
  have hp := (C97_eq_iff m m').1 h
  refine ⟨hp.length, ?_, hp.head?, hp.getLast?⟩
  show m.iter.isEmpty = m'.iter.isEmpty
  generalize m.iter = a at hp
  generalize m'.iter = a' at hp
  cases hp <;> rfl

example := C97_ends twin_eq

/-- **C97** `overlapping` of equal ranges, for any sequence of `next` and `next_back` calls. -/
theorem C97_overlapping {m m' : RangeMap K V} (h : m.eq m' = true) {q q' : Range K}
    (hq : SameRange q q') :
    SameOutcome (fun o o' => ∀ cs, Pointwise (SameOpt (EqualEntry SameRange))
        (script RangeMap.Overlapping.next RangeMap.Overlapping.nextBack cs o)
        (script RangeMap.Overlapping.next RangeMap.Overlapping.nextBack cs o'))
      (m.overlapping q) (m'.overlapping q') ∧
    m.overlaps q = m'.overlaps q' := by
  have h1 : SameOutcome (fun o o' => ∀ cs, Pointwise (SameOpt (EqualEntry SameRange))
        (script RangeMap.Overlapping.next RangeMap.Overlapping.nextBack cs o)
        (script RangeMap.Overlapping.next RangeMap.Overlapping.nextBack cs o'))
      (m.overlapping q) (m'.overlapping q') := by
    have := C65_overlapping (map_pointwise_of_eq h) hq lawful_identical 0
    rw [run_identical, RangeMap.overlappingL_eval] at this
    exact this.mono fun _ _ h cs => (h cs).mono fun _ _ h => h.mono fun _ _ h => h.equal
  refine ⟨h1, ?_⟩
  have h3 : SameOutcome (· = ·) (m.overlaps q) (m'.overlaps q') := by
    unfold RangeMap.overlaps
    refine h1.bind fun a b h => ?_
    cases h [.front] with
    | cons h _ =>
      show a.next.1.isSome = b.next.1.isSome
      revert h
      show SameOpt _ a.next.1 b.next.1 → _
      cases a.next.1 <;> cases b.next.1 <;> intro h <;> first | rfl | exact absurd h id
  exact h3.eq

example := C97_overlapping twin_eq (q := ⟨⟨2, true⟩, ⟨6, true⟩⟩) (q' := ⟨⟨2, false⟩, ⟨6, true⟩⟩)
    ⟨rfl, rfl⟩

/-- **C97** `gaps` within equal ranges, for any number of `next` calls. -/
theorem C97_gaps {m m' : RangeMap K V} (h : m.eq m' = true) {q q' : Range K}
    (hq : SameRange q q') (n : Nat) :
    SameOutcome (Pointwise (SameOpt SameRange)) ((m.gaps q).map (calls RangeMap.Gaps.next n))
      ((m'.gaps q').map (calls RangeMap.Gaps.next n)) := by
  have := C65_gaps (map_pointwise_of_eq h) hq n lawful_identical 0
  rw [run_identical, eval_bind, RangeMap.gapsL_eval] at this
  simp only [callsL_eval RangeMap.Gaps.nextL_eval] at this
  revert this
  cases m.gaps q <;> exact id

example := C97_gaps twin_eq (q := ⟨⟨2, true⟩, ⟨16, true⟩⟩) (q' := ⟨⟨2, false⟩, ⟨16, true⟩⟩)
    ⟨rfl, rfl⟩ 2

/-- **C97** Comparing with equal maps gives equal answers. -/
theorem C97_compare {m m' x x' : RangeMap K V} (h : m.eq m' = true) (hx : x.eq x' = true) :
    m.eq x = m'.eq x' ∧
    ∀ vcmp : V → V → Ordering, (∀ a a' b b', (a == a') = true → (b == b') = true →
      vcmp a b = vcmp a' b') → m.cmp vcmp x = m'.cmp vcmp x' := by
  have hp := (C97_eq_iff m m').1 h
  have hp' := (C97_eq_iff x x').1 hx
  unfold RangeMap.eq RangeMap.cmp RangeMap.expandedIter
  show _ ∧ ∀ vcmp : V → V → Ordering, _ → iterCmp _ (m.iter.map _) (x.iter.map _)
    = iterCmp _ (m'.iter.map _) (x'.iter.map _)
  generalize m.iter = a at hp ⊢
  generalize m'.iter = a' at hp ⊢
  generalize x.iter = b at hp' ⊢
  generalize x'.iter = b' at hp' ⊢
  induction hp generalizing b b' with
  | nil => cases hp' <;> exact ⟨rfl, fun _ _ => rfl⟩
  | cons h1 _ ih => cases hp' with
    | nil => exact ⟨rfl, fun _ _ => rfl⟩
    | cons h2 h3 =>
      obtain ⟨i1, i2⟩ := ih _ _ h3
      refine ⟨?_, fun vcmp hv => ?_⟩
      · simp only [iterEq, i1, RangeMap.entryEq, keq.eq h1.1.1 h2.1.1, keq.eq h1.1.2 h2.1.2,
          Same.beq (.of_beq h1.2) (.of_beq h2.2)]
      · simp only [List.map_cons, iterCmp, i2 vcmp hv, tripleCmp, hv _ _ _ _ h1.2 h2.2,
          kcmp_same h1.1.1 h2.1.1, kcmp_same h1.1.2 h2.1.2]

example := C97_compare twin_eq (x := twin) (x' := twin') twin_eq

end

/-! ### `RangeSet` -/
section
variable {K : Type} [LE K] [LT K] [DecidableLE K] [DecidableLT K]
  [Std.IsLinearPreorder K] [Std.LawfulOrderLT K]

/-- **C97** `==` of sets says that the ranges are equal one by one. -/
theorem C97_set_eq_iff (s s' : RangeSet K) :
    s.eq s' = true ↔ Pointwise SameRange s.iter s'.iter := by
  refine (C97_eq_iff s.rm s'.rm).trans ?_
  show _ ↔ Pointwise SameRange (s.rm.iter.map (·.1)) (s'.rm.iter.map (·.1))
  generalize s.rm.iter = a
  generalize s'.rm.iter = a'
  constructor
  · intro h
    induction h with
    | nil => exact .nil
    | cons h _ ih => exact .cons h.1 ih
  · intro h
    induction a generalizing a' with
    | nil => cases a' with
      | nil => exact .nil
      | cons => cases h
    | cons x a ih => cases a' with
      | nil => cases h
      | cons y a' => cases h with
        | cons h h' => exact .cons ⟨h, rfl⟩ (ih _ h')

example := (C97_set_eq_iff twins twins').1 twins_eq

/-- **C97** `insert` and `remove` of equal ranges. -/
theorem C97_set_update {s s' : RangeSet K} (h : s.eq s' = true) {r r' : Range K}
    (hr : SameRange r r') :
    SameOutcome (fun x y => x.eq y = true) (s.insert r) (s'.insert r') ∧
    SameOutcome (fun x y => x.eq y = true) (s.remove r) (s'.remove r') :=
  ⟨(C97_insert (V := Unit) h hr rfl).bind fun _ _ h => h,
   (C97_remove (V := Unit) h hr).bind fun _ _ h => h⟩

example := C97_set_update twins_eq (r := ⟨⟨2, true⟩, ⟨7, true⟩⟩) (r' := ⟨⟨2, false⟩, ⟨7, true⟩⟩)
    ⟨rfl, rfl⟩

theorem set_extend_equal {s s' : RangeSet K} (h : s.eq s' = true) {l l' : List (Range K)}
    (hl : Pointwise SameRange l l') :
    (s.extend l).1.eq (s'.extend l').1 = true ∧ (s.extend l).2 = (s'.extend l').2 := by
  induction hl generalizing s s' with
  | nil => exact ⟨h, by trivial⟩
  | @cons a b _ _ hab _ ih =>
    unfold RangeSet.extend
    rcases (C97_set_update h hab).1.cases with ⟨x, y, h1, h2, h3⟩ | ⟨p, h1, h2⟩
    · simp only [h1, h2]; exact ih h3
    · simp only [h1, h2]; exact ⟨h, by trivial⟩

/-- **C97** Lookups of equal keys. -/
theorem C97_set_lookup {s s' : RangeSet K} (h : s.eq s' = true) {k k' : K} (hk : keq k k' = true) :
    SameOutcome (SameOpt SameRange) (s.get k) (s'.get k') ∧ s.contains k = s'.contains k' :=
  ⟨(C97_lookup (V := Unit) h hk).1.bind fun _ _ h => h.map fun _ _ h => h.1,
   (C97_lookup (V := Unit) h hk).2.2⟩

example := C97_set_lookup twins_eq (k := ⟨1, true⟩) (k' := ⟨1, false⟩) rfl

/-- **C97** `union` and `intersection` of equal sets, for any number of `next` calls. -/
theorem C97_set_operations {s s' o o' : RangeSet K} (h : s.eq s' = true) (ho : o.eq o' = true)
    (n : Nat) :
    Pointwise (SameOpt SameRange) (calls Union.next n (s.union o))
      (calls Union.next n (s'.union o')) ∧
    Pointwise (SameOpt SameRange) (calls Intersection.next n (s.intersection o))
      (calls Intersection.next n (s'.intersection o')) := by
  have h := (C97_set_eq_iff _ _).1 h
  have ho := (C97_set_eq_iff _ _).1 ho
  have hu := C65_union (V := Unit) h ho n lawful_identical 0
  have hi := C65_intersection (V := Unit) h ho n lawful_identical 0
  rw [run_identical, callsL_eval (fun u => (by
    have := (C65_identical_operations (V := Unit) u ⟨[], []⟩ 0).1
    rwa [run_identical] at this))] at hu
  rw [run_identical, callsL_eval (fun x => (by
    have := (C65_identical_operations (V := Unit) ⟨[], []⟩ x 0).2
    rwa [run_identical] at this))] at hi
  exact ⟨hu, hi⟩

example := C97_set_operations twins_eq (o := twins) (o' := twins') twins_eq 4

theorem drain_of_calls {σ σ' α β : Type} {next : σ → Option α × σ} {next' : σ' → Option β × σ'}
    {R : α → β → Prop} (n : Nat) (s : σ) (s' : σ')
    (h : Pointwise (SameOpt R) (calls next n s) (calls next' n s')) :
    SameOutcome (Pointwise R) (drain next n s) (drain next' n s') := by
  induction n generalizing s s' with
  | zero => rfl
  | succ n ih =>
    unfold calls at h
    unfold drain
    rcases e : next s with ⟨a, t⟩
    rcases e' : next' s' with ⟨b, t'⟩
    rw [e, e'] at h
    cases h with
    | cons h1 h2 =>
      cases a <;> cases b
      · exact Pointwise.nil
      · exact absurd h1 id
      · exact absurd h1 id
      · exact (ih t t' h2).map fun _ _ h => .cons h1 h

/-- **C97** so `|` and `&` of equal sets are equal. -/
theorem C97_set_operators {s s' o o' : RangeSet K} (h : s.eq s' = true) (ho : o.eq o' = true) :
    SameOutcome (fun x y => x.eq y = true) (s.bitOr o) (s'.bitOr o') ∧
    SameOutcome (fun x y => x.eq y = true) (s.bitAnd o) (s'.bitAnd o') := by
  have hl : s.len = s'.len := (C97_ends (V := Unit) h).1
  have hl' : o.len = o'.len := (C97_ends (V := Unit) ho).1
  have hf : ∀ l l' : List (Range K), Pointwise SameRange l l' →
      SameOutcome (fun x y => x.eq y = true) (RangeSet.fromIter l) (RangeSet.fromIter l') := by
    intro l l' hl
    have := set_extend_equal (s := (RangeSet.new : RangeSet K)) (s' := RangeSet.new) rfl hl
    unfold RangeSet.fromIter
    revert this
    rcases RangeSet.extend RangeSet.new l with ⟨x, a⟩
    rcases RangeSet.extend RangeSet.new l' with ⟨y, b⟩
    rintro ⟨h1, h2⟩
    subst h2
    cases a
    · exact rfl
    · exact h1
  unfold RangeSet.bitOr RangeSet.bitAnd
  rw [hl, hl']
  exact ⟨(drain_of_calls _ _ _ (C97_set_operations h ho _).1).bind hf,
    (drain_of_calls _ _ _ (C97_set_operations h ho _).2).bind hf⟩

example := C97_set_operators twins_eq (o := twins) (o' := twins') twins_eq

end
end Verif.Props

import Verif.Props.Congruence

/-!
# `==` is a congruence: C97 for inclusive ranges

Step functions need only treat equal keys alike; those of every lawful key type do.
-/
set_option linter.unusedSectionVars false

namespace Verif.Props.Inclusive
open Spec Cl

/-! ### Two maps and two sets that are equal, but not the same -/

/-- Two entries. -/
def twin : RangeInclusiveMap Demo.TagKey Counted :=
  .run Demo.tagSteps
    [.insert (.mk' ⟨0, true⟩ ⟨9, true⟩) ⟨1, 0⟩, .insert (.mk' ⟨3, true⟩ ⟨4, true⟩) ⟨2, 0⟩]

/-- The same with other tags and counts. -/
def twin' : RangeInclusiveMap Demo.TagKey Counted :=
  .run Demo.tagSteps
    [.insert (.mk' ⟨0, false⟩ ⟨9, false⟩) ⟨1, 5⟩, .insert (.mk' ⟨3, false⟩ ⟨4, false⟩) ⟨2, 6⟩]

/-- Three ranges. -/
def twins : RangeInclusiveSet Demo.TagKey :=
  ⟨.run Demo.tagSteps [.insert (.mk' ⟨0, true⟩ ⟨2, true⟩) (), .insert (.mk' ⟨3, true⟩ ⟨4, true⟩) (),
    .insert (.mk' ⟨6, true⟩ ⟨9, true⟩) ()]⟩

/-- The same with other tags. -/
def twins' : RangeInclusiveSet Demo.TagKey :=
  ⟨.run Demo.tagSteps
    [.insert (.mk' ⟨0, false⟩ ⟨2, false⟩) (), .insert (.mk' ⟨3, false⟩ ⟨4, true⟩) (),
    .insert (.mk' ⟨6, true⟩ ⟨9, false⟩) ()]⟩

theorem twin_eq : twin.eq twin' = true := by decide +kernel
theorem twins_eq : twins.eq twins' = true := by decide +kernel
example : twin.iter ≠ twin'.iter ∧ twins.iter ≠ twins'.iter := by decide +kernel
example : twin.iter.length = 3 := by decide +kernel

section
variable {K : Type} [LE K] [LT K] [DecidableLE K] [DecidableLT K]
  [Std.IsLinearPreorder K] [Std.LawfulOrderLT K] {S : StepFns K} {V : Type} [BEq V]

theorem map_pointwise_of_eq [PartialEquivBEq V] {m m' : RangeInclusiveMap K V}
    (h : m.eq m' = true) :
    Pointwise (SameEntry SameIRange) m.iter m'.iter := by
  unfold RangeInclusiveMap.eq at h
  generalize m.iter = l at h ⊢
  generalize m'.iter = l' at h ⊢
  induction l generalizing l' with
  | nil => cases l' with
    | nil => exact .nil
    | cons => cases h
  | cons a l ih => cases l' with
    | nil => cases h
    | cons b l' =>
      simp only [iterEq, RangeInclusiveMap.entryEq, Bool.and_eq_true] at h
      exact .cons ⟨⟨h.1.1.1.1, h.1.1.1.2, eq_of_beq h.1.1.2⟩, .of_beq h.1.2⟩ (ih _ h.2)

variable [EquivBEq V]

/-- **C97** `==` of maps says that the entries are equal one by one. -/
theorem C97_eq_iff (m m' : RangeInclusiveMap K V) :
    m.eq m' = true ↔ Pointwise (EqualEntry SameIRange) m.iter m'.iter :=
  ⟨fun h => (map_pointwise_of_eq h).mono fun _ _ h => h.equal,
   fun h => RangeInclusiveMap.eq_of_same (h.mono fun _ _ h => h.same)⟩

example := (C97_eq_iff twin twin').1 twin_eq

/-- **C97** `insert` of equal values at equal ranges into equal maps: the same panic, or equal
    maps. -/
theorem C97_insert (hS : StepsRespect S) {m m' : RangeInclusiveMap K V} (h : m.eq m' = true)
    {r r' : RangeInclusive K} (hr : SameIRange r r')
    {v v' : V} (hv : (v == v') = true) :
    SameOutcome (fun x y => x.eq y = true) (m.insert S r v) (m'.insert S r' v') := by
  have := C65_insert hS (map_pointwise_of_eq h) hr (.of_beq hv) lawful_identical 0
  rw [run_identical, RangeInclusiveMap.insertL_eval] at this
  exact this.mono fun _ _ h => RangeInclusiveMap.eq_of_same h

example := C97_insert Demo.tagSteps_lawful.respect twin_eq (r := (.mk' ⟨2, true⟩ ⟨6, true⟩))
    (r' := (.mk' ⟨2, false⟩ ⟨6, true⟩)) ⟨rfl, rfl, rfl⟩
    (v := ⟨1, 7⟩) (v' := ⟨1, 8⟩) rfl
-- a range that ends before it starts: the same panic
example := C97_insert Demo.tagSteps_lawful.respect twin_eq (r := (.mk' ⟨2, true⟩ ⟨1, true⟩))
    (r' := (.mk' ⟨2, false⟩ ⟨1, false⟩)) ⟨rfl, rfl, rfl⟩
    (v := ⟨1, 7⟩) (v' := ⟨1, 8⟩) rfl

/-- **C97** `remove`. -/
theorem C97_remove (hS : StepsRespect S) {m m' : RangeInclusiveMap K V} (h : m.eq m' = true)
    {r r' : RangeInclusive K}
    (hr : SameIRange r r') :
    SameOutcome (fun x y => x.eq y = true) (m.remove S r) (m'.remove S r') := by
  have := C65_remove hS (map_pointwise_of_eq h) hr lawful_identical 0
  rw [run_identical, RangeInclusiveMap.removeL_eval] at this
  exact this.mono fun _ _ h => RangeInclusiveMap.eq_of_same h

example := C97_remove Demo.tagSteps_lawful.respect twin_eq (r := (.mk' ⟨2, true⟩ ⟨6, true⟩))
    (r' := (.mk' ⟨2, false⟩ ⟨6, true⟩)) ⟨rfl, rfl, rfl⟩

theorem map_extend_equal (hS : StepsRespect S) {m m' : RangeInclusiveMap K V}
    (h : m.eq m' = true) {l l' : List (RangeInclusive K × V)}
    (hl : Pointwise (EqualEntry SameIRange) l l') :
    (m.extend S l).1.eq (m'.extend S l').1 = true ∧ (m.extend S l).2 = (m'.extend S l').2 := by
  induction hl generalizing m m' with
  | nil => exact ⟨h, by trivial⟩
  | @cons a b s t hab _ ih =>
    unfold RangeInclusiveMap.extend
    rcases (C97_insert hS h hab.1 hab.2).cases with ⟨x, y, h1, h2, h3⟩ | ⟨p, h1, h2⟩
    · simp only [h1, h2]; exact ih h3
    · simp only [h1, h2]; exact ⟨h, by trivial⟩

/-- **C97** Any modifying call (`insert`, `remove`, `clear`, `extend`) with equal arguments: the
    maps
left behind are equal, and the calls panic both or neither. -/
theorem C97_apply (hS : StepsRespect S) {m m' : RangeInclusiveMap K V} (h : m.eq m' = true)
    {op op' : Op (RangeInclusive K) V}
    (ho : EqualOp SameIRange op op') :
    (m.apply S op).1.eq (m'.apply S op').1 = true ∧ (m.apply S op).2 = (m'.apply S op').2 := by
  cases ho with
  | insert hr hv =>
    unfold RangeInclusiveMap.apply
    rcases (C97_insert hS h hr hv).cases with ⟨x, y, h1, h2, h3⟩ | ⟨p, h1, h2⟩
    · simp only [h1, h2]; exact ⟨h3, by trivial⟩
    · simp only [h1, h2]; exact ⟨h, by trivial⟩
  | remove hr =>
    unfold RangeInclusiveMap.apply
    rcases (C97_remove hS h hr).cases with ⟨x, y, h1, h2, h3⟩ | ⟨p, h1, h2⟩
    · simp only [h1, h2]; exact ⟨h3, by trivial⟩
    · simp only [h1, h2]; exact ⟨h, by trivial⟩
  | clear => exact ⟨rfl, rfl⟩
  | extend hl => exact map_extend_equal hS h hl

example := C97_apply Demo.tagSteps_lawful.respect twin_eq
    (op := .extend [((.mk' ⟨2, true⟩ ⟨6, true⟩), ⟨1, 7⟩)])
    (op' := .extend [((.mk' ⟨2, false⟩ ⟨6, true⟩), ⟨1, 8⟩)])
    (.extend (.cons ⟨⟨rfl, rfl, rfl⟩, rfl⟩ .nil))

/-- **C97** Any two histories of equal calls, panics caught, lead from equal maps to equal maps. -/
theorem C97_history (hS : StepsRespect S) {m m' : RangeInclusiveMap K V} (h : m.eq m' = true)
    {ops ops' : List (Op (RangeInclusive K) V)}
    (ho : Pointwise (EqualOp SameIRange) ops ops') :
    (ops.foldl (fun m op => (m.apply S op).1) m).eq (ops'.foldl (fun m op => (m.apply S op).1) m')
      = true := by
  induction ho generalizing m m' with
  | nil => exact h
  | cons h1 _ ih => exact ih (C97_apply hS h h1).1

example := C97_history Demo.tagSteps_lawful.respect twin_eq
    (ops := [.remove (.mk' ⟨2, true⟩ ⟨6, true⟩), .insert (.mk' ⟨1, true⟩ ⟨7, true⟩) ⟨1, 7⟩])
    (ops' := [.remove (.mk' ⟨2, false⟩ ⟨6, true⟩), .insert (.mk' ⟨1, false⟩ ⟨7, true⟩) ⟨1, 8⟩])
    (.cons (.remove ⟨rfl, rfl, rfl⟩) (.cons (.insert ⟨rfl, rfl, rfl⟩ rfl) .nil))

/-- **C97** Lookups of equal keys find nothing in both or equal entries. -/
theorem C97_lookup {m m' : RangeInclusiveMap K V} (h : m.eq m' = true) {k k' : K}
    (hk : keq k k' = true) :
    SameOutcome (SameOpt (EqualEntry SameIRange)) (m.getKeyValue k) (m'.getKeyValue k') ∧
    SameOutcome (SameOpt fun v v' => (v == v') = true) (m.get k) (m'.get k') ∧
    m.containsKey k = m'.containsKey k' := by
  have h1 : SameOutcome (SameOpt (EqualEntry SameIRange)) (m.getKeyValue k) (m'.getKeyValue k') :=
    by
    have := C65_get (map_pointwise_of_eq h) hk lawful_identical 0
    rw [run_identical, RangeInclusiveMap.getKeyValueL_eval] at this
    exact this.mono fun _ _ h => h.mono fun _ _ h => h.equal
  have h2 : SameOutcome (SameOpt fun v v' => (v == v') = true) (m.get k) (m'.get k') :=
    h1.bind fun _ _ h => h.map fun _ _ h => h.2
  refine ⟨h1, h2, ?_⟩
  have h3 : SameOutcome (· = ·) (m.containsKey k) (m'.containsKey k') :=
    h2.bind fun a b h => by cases a <;> cases b <;> first | rfl | exact absurd h id
  exact h3.eq

example := C97_lookup twin_eq (k := ⟨5, true⟩) (k' := ⟨5, false⟩) rfl

/-- **C97** The number of ranges and the first and last of them. -/
theorem C97_ends {m m' : RangeInclusiveMap K V} (h : m.eq m' = true) :
    m.len = m'.len ∧ m.isEmpty = m'.isEmpty ∧
    SameOpt (EqualEntry SameIRange) m.firstRangeValue m'.firstRangeValue ∧
    SameOpt (EqualEntry SameIRange) m.lastRangeValue m'.lastRangeValue := by
  have hp := (C97_eq_iff m m').1 h
  refine ⟨hp.length, ?_, hp.head?, hp.getLast?⟩
  show m.iter.isEmpty = m'.iter.isEmpty
  generalize m.iter = a at hp
  generalize m'.iter = a' at hp
  cases hp <;> rfl

example := C97_ends twin_eq

/-- **C97** `overlapping` of equal ranges, for any sequence of `next` and `next_back` calls. -/
theorem C97_overlapping {m m' : RangeInclusiveMap K V} (h : m.eq m' = true)
    {q q' : RangeInclusive K}
    (hq : SameIRange q q') :
    SameOutcome (fun o o' => ∀ cs, Pointwise (SameOpt (EqualEntry SameIRange))
        (script RangeInclusiveMap.Overlapping.next RangeInclusiveMap.Overlapping.nextBack cs o)
        (script RangeInclusiveMap.Overlapping.next RangeInclusiveMap.Overlapping.nextBack cs o'))
      (m.overlapping q) (m'.overlapping q') ∧
    m.overlaps q = m'.overlaps q' := by
  have h1 : SameOutcome (fun o o' => ∀ cs, Pointwise (SameOpt (EqualEntry SameIRange))
        (script RangeInclusiveMap.Overlapping.next RangeInclusiveMap.Overlapping.nextBack cs o)
        (script RangeInclusiveMap.Overlapping.next RangeInclusiveMap.Overlapping.nextBack cs o'))
      (m.overlapping q) (m'.overlapping q') := by
    have := C65_overlapping (map_pointwise_of_eq h) hq lawful_identical 0
    rw [run_identical, RangeInclusiveMap.overlappingL_eval] at this
    exact this.mono fun _ _ h cs => (h cs).mono fun _ _ h => h.mono fun _ _ h => h.equal
  refine ⟨h1, ?_⟩
  have h3 : SameOutcome (· = ·) (m.overlaps q) (m'.overlaps q') := by
    unfold RangeInclusiveMap.overlaps
    refine h1.bind fun a b h => ?_
    cases h [.front] with
    | cons h _ =>
      show a.next.1.isSome = b.next.1.isSome
      revert h
      show SameOpt _ a.next.1 b.next.1 → _
      cases a.next.1 <;> cases b.next.1 <;> intro h <;> first | rfl | exact absurd h id
  exact h3.eq

example := C97_overlapping twin_eq (q := (.mk' ⟨2, true⟩ ⟨6, true⟩))
    (q' := (.mk' ⟨2, false⟩ ⟨6, true⟩)) ⟨rfl, rfl, rfl⟩

/-- **C97** `gaps` within equal ranges, for any number of `next` calls. -/
theorem C97_gaps (hS : LawfulSteps S) {m m' : RangeInclusiveMap K V}
    (hm : RangeInclusiveMap.ReachableAny S m') (h : m.eq m' = true) {q q' : RangeInclusive K}
    (hq : SameIRange q q') (n : Nat) :
    SameOutcome (Pointwise (SameOpt SameIRange))
      (m.gaps q >>= callsE (RangeInclusiveMap.Gaps.next S) n)
      (m'.gaps q' >>= callsE (RangeInclusiveMap.Gaps.next S) n) := by
  have := C65_gaps hS hm (map_pointwise_of_eq h) hq n lawful_identical 0
  rw [run_identical, eval_bind, RangeInclusiveMap.gapsL_eval] at this
  simp only [callsL_evalE RangeInclusiveMap.Gaps.nextL_eval] at this
  exact this

example := C97_gaps Demo.tagSteps_lawful ⟨_, rfl⟩ twin_eq (q := .mk' ⟨2, true⟩ ⟨16, true⟩)
    (q' := .mk' ⟨2, false⟩ ⟨16, true⟩) ⟨rfl, rfl, rfl⟩ 2

/-- **C97** Comparing with equal maps gives equal answers. -/
theorem C97_compare {m m' x x' : RangeInclusiveMap K V} (h : m.eq m' = true) (hx : x.eq x' = true) :
    m.eq x = m'.eq x' ∧
    ∀ vcmp : V → V → Ordering, (∀ a a' b b', (a == a') = true → (b == b') = true →
      vcmp a b = vcmp a' b') → m.cmp vcmp x = m'.cmp vcmp x' := by
  have hp := (C97_eq_iff m m').1 h
  have hp' := (C97_eq_iff x x').1 hx
  unfold RangeInclusiveMap.eq RangeInclusiveMap.cmp RangeInclusiveMap.expandedIter
  show _ ∧ ∀ vcmp : V → V → Ordering, _ → iterCmp _ (m.iter.map _) (x.iter.map _)
    = iterCmp _ (m'.iter.map _) (x'.iter.map _)
  generalize m.iter = a at hp ⊢
  generalize m'.iter = a' at hp ⊢
  generalize x.iter = b at hp' ⊢
  generalize x'.iter = b' at hp' ⊢
  induction hp generalizing b b' with
  | nil => cases hp' <;> exact ⟨rfl, fun _ _ => rfl⟩
  | cons h1 _ ih => cases hp' with
    | nil => exact ⟨rfl, fun _ _ => rfl⟩
    | cons h2 h3 =>
      obtain ⟨i1, i2⟩ := ih _ _ h3
      refine ⟨?_, fun vcmp hv => ?_⟩
      · simp only
        [iterEq, i1, RangeInclusiveMap.entryEq, keq.eq h1.1.1 h2.1.1, keq.eq h1.1.2.1 h2.1.2.1,
          h1.1.2.2, h2.1.2.2,
          Same.beq (.of_beq h1.2) (.of_beq h2.2)]
      · simp only [List.map_cons, iterCmp, i2 vcmp hv, tripleCmp, hv _ _ _ _ h1.2 h2.2,
          kcmp_same h1.1.1 h2.1.1, kcmp_same h1.1.2.1 h2.1.2.1]

example := C97_compare twin_eq (x := twin) (x' := twin') twin_eq

end

/-! ### `RangeInclusiveSet` -/
section
variable {K : Type} [LE K] [LT K] [DecidableLE K] [DecidableLT K]
  [Std.IsLinearPreorder K] [Std.LawfulOrderLT K] {S : StepFns K}

/-- **C97** `==` of sets says that the ranges are equal one by one. -/
theorem C97_set_eq_iff (s s' : RangeInclusiveSet K) :
    s.eq s' = true ↔ Pointwise SameIRange s.iter s'.iter := by
  refine (C97_eq_iff s.rm s'.rm).trans ?_
  show _ ↔ Pointwise SameIRange (s.rm.iter.map (·.1)) (s'.rm.iter.map (·.1))
  generalize s.rm.iter = a
  generalize s'.rm.iter = a'
  constructor
  · intro h
    induction h with
    | nil => exact .nil
    | cons h _ ih => exact .cons h.1 ih
  · intro h
    induction a generalizing a' with
    | nil => cases a' with
      | nil => exact .nil
      | cons => cases h
    | cons x a ih => cases a' with
      | nil => cases h
      | cons y a' => cases h with
        | cons h h' => exact .cons ⟨h, rfl⟩ (ih _ h')

example := (C97_set_eq_iff twins twins').1 twins_eq

/-- **C97** `insert` and `remove` of equal ranges. -/
theorem C97_set_update (hS : StepsRespect S) {s s' : RangeInclusiveSet K} (h : s.eq s' = true)
    {r r' : RangeInclusive K}
    (hr : SameIRange r r') :
    SameOutcome (fun x y => x.eq y = true) (s.insert S r) (s'.insert S r') ∧
    SameOutcome (fun x y => x.eq y = true) (s.remove S r) (s'.remove S r') :=
  ⟨(C97_insert (V := Unit) hS h hr rfl).bind fun _ _ h => h,
   (C97_remove (V := Unit) hS h hr).bind fun _ _ h => h⟩

example := C97_set_update Demo.tagSteps_lawful.respect twins_eq (r := (.mk' ⟨2, true⟩ ⟨7, true⟩))
    (r' := (.mk' ⟨2, false⟩ ⟨7, true⟩)) ⟨rfl, rfl, rfl⟩

theorem set_extend_equal (hS : StepsRespect S) {s s' : RangeInclusiveSet K}
    (h : s.eq s' = true) {l l' : List (RangeInclusive K)}
    (hl : Pointwise SameIRange l l') :
    (s.extend S l).1.eq (s'.extend S l').1 = true ∧ (s.extend S l).2 = (s'.extend S l').2 := by
  induction hl generalizing s s' with
  | nil => exact ⟨h, by trivial⟩
  | @cons a b _ _ hab _ ih =>
    unfold RangeInclusiveSet.extend
    rcases (C97_set_update hS h hab).1.cases with ⟨x, y, h1, h2, h3⟩ | ⟨p, h1, h2⟩
    · simp only [h1, h2]; exact ih h3
    · simp only [h1, h2]; exact ⟨h, by trivial⟩

/-- **C97** Lookups of equal keys. -/
theorem C97_set_lookup {s s' : RangeInclusiveSet K} (h : s.eq s' = true) {k k' : K}
    (hk : keq k k' = true) :
    SameOutcome (SameOpt SameIRange) (s.get k) (s'.get k') ∧ s.contains k = s'.contains k' :=
  ⟨(C97_lookup (V := Unit) h hk).1.bind fun _ _ h => h.map fun _ _ h => h.1,
   (C97_lookup (V := Unit) h hk).2.2⟩

example := C97_set_lookup twins_eq (k := ⟨1, true⟩) (k' := ⟨1, false⟩) rfl

/-- **C97** `union` and `intersection` of equal sets, for any number of `next` calls. -/
theorem C97_set_operations {s s' o o' : RangeInclusiveSet K} (h : s.eq s' = true)
    (ho : o.eq o' = true)
    (n : Nat) :
    Pointwise (SameOpt SameIRange) (calls Union.next n (s.union o))
      (calls Union.next n (s'.union o')) ∧
    Pointwise (SameOpt SameIRange) (calls Intersection.next n (s.intersection o))
      (calls Intersection.next n (s'.intersection o')) := by
  have h := (C97_set_eq_iff _ _).1 h
  have ho := (C97_set_eq_iff _ _).1 ho
  have hu := C65_union (V := Unit) h ho n lawful_identical 0
  have hi := C65_intersection (V := Unit) h ho n lawful_identical 0
  rw [run_identical, callsL_eval (fun u => (by
    have := (C65_identical_operations (V := Unit) u ⟨[], []⟩ 0).1
    rwa [run_identical] at this))] at hu
  rw [run_identical, callsL_eval (fun x => (by
    have := (C65_identical_operations (V := Unit) ⟨[], []⟩ x 0).2
    rwa [run_identical] at this))] at hi
  exact ⟨hu, hi⟩

example := C97_set_operations twins_eq (o := twins) (o' := twins') twins_eq 4

/-- **C97** so `|` and `&` of equal sets are equal. -/
theorem C97_set_operators (hS : StepsRespect S) {s s' o o' : RangeInclusiveSet K}
    (h : s.eq s' = true) (ho : o.eq o' = true) :
    SameOutcome (fun x y => x.eq y = true) (s.bitOr S o) (s'.bitOr S o') ∧
    SameOutcome (fun x y => x.eq y = true) (s.bitAnd S o) (s'.bitAnd S o') := by
  have hl : s.len = s'.len := (C97_ends (V := Unit) h).1
  have hl' : o.len = o'.len := (C97_ends (V := Unit) ho).1
  have hf : ∀ l l' : List (RangeInclusive K), Pointwise SameIRange l l' →
      SameOutcome (fun x y => x.eq y = true) (RangeInclusiveSet.fromIter S l)
        (RangeInclusiveSet.fromIter S l') := by
    intro l l' hl
    have := set_extend_equal hS (s := (RangeInclusiveSet.new : RangeInclusiveSet K))
      (s' := RangeInclusiveSet.new) rfl hl
    unfold RangeInclusiveSet.fromIter
    revert this
    rcases RangeInclusiveSet.extend S RangeInclusiveSet.new l with ⟨x, a⟩
    rcases RangeInclusiveSet.extend S RangeInclusiveSet.new l' with ⟨y, b⟩
    rintro ⟨h1, h2⟩
    subst h2
    cases a
    · exact rfl
    · exact h1
  unfold RangeInclusiveSet.bitOr RangeInclusiveSet.bitAnd
  rw [hl, hl']
  exact ⟨(drain_of_calls _ _ _ (C97_set_operations h ho _).1).bind hf,
    (drain_of_calls _ _ _ (C97_set_operations h ho _).2).bind hf⟩

example := C97_set_operators Demo.tagSteps_lawful.respect twins_eq (o := twins) (o' := twins')
    twins_eq

end
end Verif.Props.Inclusive

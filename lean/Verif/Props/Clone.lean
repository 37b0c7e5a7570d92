import Verif.Proof.CloneOps
import Verif.Proof.CloneId
import Verif.Proof.ICanon
import Verif.Props.Demo

/-!
# Clones that are not what was cloned, but compare equal to it: C65

In the model of C01 to C64 the clone of a key or value is that key or value.  Here it is anything that
compares equal to it, and perhaps something else at every call.
-/
set_option linter.unusedSectionVars false
namespace Verif.Props
open Spec Cl

/-! ### Clones for the examples -/

/-- Clones of tagged keys: the tag comes from the number of the call. -/
def tagClones {V : Type} : Clones Demo.TagKey V :=
  ⟨fun i k => ⟨k.n, decide (i % 3 = 0)⟩, fun _ v => v⟩

theorem tagClones_lawful {V : Type} [BEq V] : LawfulClones (tagClones (V := V)) where
  key i k := by simp [tagClones, keq, show ∀ a b : Demo.TagKey, a ≤ b ↔ a.n ≤ b.n from fun _ _ => .rfl]
  val _ _ _ := ⟨rfl, rfl⟩

/-- A value with a part that `==` ignores. -/
structure Counted where
  val : Nat
  copies : Nat
  deriving DecidableEq, Repr

instance : BEq Counted := ⟨fun a b => a.val == b.val⟩
instance : EquivBEq Counted where
  rfl {a} := by show (a.val == a.val) = true; simp
  symm {a b} (h : (a.val == b.val) = true) := by show (b.val == a.val) = true; simp_all
  trans {a b c} (h : (a.val == b.val) = true) (h' : (b.val == c.val) = true) := by
    show (a.val == c.val) = true
    simp_all

/-- Clones that record how often a value has been cloned. -/
def countClones : Clones Demo.TagKey Counted :=
  ⟨fun i k => ⟨k.n, decide (i % 2 = 0)⟩, fun _ v => ⟨v.val, v.copies + 1⟩⟩

theorem countClones_lawful : LawfulClones countClones where
  key i k := by simp [countClones, keq, show ∀ a b : Demo.TagKey, a ≤ b ↔ a.n ≤ b.n from fun _ _ => .rfl]
  val _ _ _ := ⟨rfl, rfl⟩

/-- A history on a map with tagged keys: the second and third call split stored ranges. -/
def cloneOps : List (Op (Range Demo.TagKey) Counted) :=
  [.insert ⟨⟨0, true⟩, ⟨9, true⟩⟩ ⟨1, 0⟩, .insert ⟨⟨3, true⟩, ⟨4, true⟩⟩ ⟨2, 0⟩,
   .remove ⟨⟨6, true⟩, ⟨7, true⟩⟩, .insert ⟨⟨5, false⟩, ⟨4, true⟩⟩ ⟨3, 0⟩]


-- cloning has changed bounds and values in ways that comparisons do not see
example : (RangeMap.runL (cloneOps.map fun op => (fun _ => countClones, op))).iter
    = [(⟨⟨0, true⟩, ⟨3, false⟩⟩, ⟨1, 2⟩), (⟨⟨3, true⟩, ⟨4, true⟩⟩, ⟨2, 0⟩),
       (⟨⟨4, true⟩, ⟨6, false⟩⟩, ⟨1, 3⟩), (⟨⟨7, false⟩, ⟨9, false⟩⟩, ⟨1, 2⟩)] := by rfl

example : (RangeMap.run cloneOps).iter
    = [(⟨⟨0, true⟩, ⟨3, true⟩⟩, ⟨1, 0⟩), (⟨⟨3, true⟩, ⟨4, true⟩⟩, ⟨2, 0⟩),
       (⟨⟨4, true⟩, ⟨6, true⟩⟩, ⟨1, 0⟩), (⟨⟨7, true⟩, ⟨9, true⟩⟩, ⟨1, 0⟩)] := by rfl

/-! ### `RangeMap` -/
section
variable {K : Type} [LE K] [LT K] [DecidableLE K] [DecidableLT K]
  [Std.IsLinearPreorder K] [Std.LawfulOrderLT K] {V : Type} [BEq V]

/-- **C65** With clones that are what was cloned, this is the model of the other properties. -/
theorem C65_identical (m : RangeMap K V) (r : Range K) (v : V) (k : K) (g : RangeMap.Gaps K V)
    (ops : List (Op (Range K) V)) (i : Nat) :
    (m.insertL r v).run identical i = m.insert r v ∧
    (m.removeL r).run identical i = m.remove r ∧
    RangeMap.runL (ops.map fun op => (fun _ => identical, op)) = RangeMap.run ops ∧
    (m.getKeyValueL k).run identical i = m.getKeyValue k ∧
    (m.overlappingL r).run identical i = m.overlapping r ∧
    (m.gapsL r).run identical i = m.gaps r ∧
    g.nextL.run identical i = .ok g.next ∧
    (RangeMap.cloneL m.btm).run identical i = .ok m.btm := by
  simp only [run_identical, RangeMap.insertL_eval, RangeMap.removeL_eval, RangeMap.runL_identical,
    RangeMap.getKeyValueL_eval, RangeMap.overlappingL_eval, RangeMap.gapsL_eval,
    RangeMap.Gaps.nextL_eval, RangeMap.cloneL_eval, pure, Except.pure, and_self]

example := C65_identical (K := Nat) (V := Char) Demo.map ⟨2, 22⟩ 'q' 7
    (RangeMap.Gaps.mk 2 22 Demo.map.iter) Demo.ops 5

/-- **C65** `insert`, on maps and arguments that compare equal: whatever cloning does, the same panic,
or results that compare equal entry by entry. -/
theorem C65_insert {m m' : RangeMap K V}
    (h : Pointwise (SameEntry SameRange) m.iter m'.iter) {r r' : Range K} {v v' : V}
    (hr : SameRange r r') (hv : Same v v') {C : Clones K V} (hC : LawfulClones C) (i : Nat) :
    SameOutcome (fun x y => Pointwise (SameEntry SameRange) x.iter y.iter)
      ((m.insertL r v).run C i) (m'.insert r' v') :=
  (RangeMap.insertL_sim h hr hv).run hC i

/-- **C65** The same for `remove`. -/
theorem C65_remove {m m' : RangeMap K V}
    (h : Pointwise (SameEntry SameRange) m.iter m'.iter) {r r' : Range K} (hr : SameRange r r')
    {C : Clones K V} (hC : LawfulClones C) (i : Nat) :
    SameOutcome (fun x y => Pointwise (SameEntry SameRange) x.iter y.iter)
      ((m.removeL r).run C i) (m'.remove r') :=
  (RangeMap.removeL_sim h hr).run hC i

/-- **C65** Any history (`insert`, `remove`, `clear`, `extend`, panics caught), each call with its own
way of cloning, ends with the same entries as without, up to comparison; and the next call ends in the
same way, too. -/
theorem C65_history (ops : List ((Nat → Clones K V) × Op (Range K) V))
    (hops : ∀ op ∈ ops, ∀ i, LawfulClones (op.1 i)) {C : Nat → Clones K V}
    (hC : ∀ i, LawfulClones (C i)) (op : Op (Range K) V) :
    Pointwise (SameEntry SameRange) (RangeMap.runL ops).iter (RangeMap.run (ops.map (·.2))).iter ∧
    ((RangeMap.runL ops).applyL C op).2 = ((RangeMap.run (ops.map (·.2))).apply op).2 :=
  ⟨RangeMap.runL_same ops hops, (RangeMap.applyL_same (RangeMap.runL_same ops hops) hC op).2⟩

/-- **C65** With an equivalence relation for `==` the two maps are `==`. -/
theorem C65_history_eq [EquivBEq V] (ops : List ((Nat → Clones K V) × Op (Range K) V))
    (hops : ∀ op ∈ ops, ∀ i, LawfulClones (op.1 i)) :
    (RangeMap.runL ops).eq (RangeMap.run (ops.map (·.2))) = true :=
  RangeMap.eq_of_same (RangeMap.runL_same ops hops)

/-- **C65** When keys that compare equal are equal and values that are `==` are equal, they are the
same map. -/
theorem C65_history_exact [LawfulBEq V] (hK : ∀ a b : K, a ≤ b → b ≤ a → a = b)
    (ops : List ((Nat → Clones K V) × Op (Range K) V))
    (hops : ∀ op ∈ ops, ∀ i, LawfulClones (op.1 i)) :
    RangeMap.runL ops = RangeMap.run (ops.map (·.2)) :=
  RangeMap.eq_of_same_exact hK (RangeMap.runL_same ops hops)

/-- **C65** `get_key_value` (hence `get` and `contains_key`). -/
theorem C65_get {m m' : RangeMap K V} (h : Pointwise (SameEntry SameRange) m.iter m'.iter) {k k' : K}
    (hk : keq k k' = true) {C : Clones K V} (hC : LawfulClones C) (i : Nat) :
    SameOutcome (SameOpt (SameEntry SameRange)) ((m.getKeyValueL k).run C i) (m'.getKeyValue k') :=
  (RangeMap.getKeyValueL_sim h hk).run hC i

/-- **C65** `overlapping`, for any sequence of `next` and `next_back` calls. -/
theorem C65_overlapping {m m' : RangeMap K V} (h : Pointwise (SameEntry SameRange) m.iter m'.iter)
    {q q' : Range K} (hq : SameRange q q') {C : Clones K V} (hC : LawfulClones C) (i : Nat) :
    SameOutcome (fun o o' => ∀ cs, Pointwise (SameOpt (SameEntry SameRange))
        (script RangeMap.Overlapping.next RangeMap.Overlapping.nextBack cs o)
        (script RangeMap.Overlapping.next RangeMap.Overlapping.nextBack cs o'))
      ((m.overlappingL q).run C i) (m'.overlapping q') :=
  ((RangeMap.overlappingL_sim h hq).mono fun _ _ ho cs =>
    script_same (fun _ _ => RangeMap.Overlapping.next_same)
      (fun _ _ => RangeMap.Overlapping.nextBack_same) cs ho).run hC i

/-- **C65** `gaps` and any number of `next` calls. -/
theorem C65_gaps {m m' : RangeMap K V} (h : Pointwise (SameEntry SameRange) m.iter m'.iter)
    {q q' : Range K} (hq : SameRange q q') (n : Nat) {C : Clones K V} (hC : LawfulClones C)
    (i : Nat) :
    SameOutcome (Pointwise (SameOpt SameRange))
      ((m.gapsL q >>= callsL RangeMap.Gaps.nextL n).run C i)
      ((m'.gaps q').map (calls RangeMap.Gaps.next n)) :=
  (Sim.map_right (RangeMap.gapsL_sim h hq) fun _ _ ho =>
    callsL_sim (fun _ _ => RangeMap.Gaps.nextL_sim) n ho).run hC i

/-- **C65** `Clone` of the map itself: never a panic, and the same entries up to comparison. -/
theorem C65_clone (m : RangeMap K V) {C : Clones K V} (hC : LawfulClones C) (i : Nat) :
    ∃ l, (RangeMap.cloneL m.btm).run C i = .ok l ∧ Pointwise (SameEntry SameRange) l m.iter := by
  have := (RangeMap.cloneL_sim (l := m.btm) (l' := m.btm) (Pointwise.refl (fun _ =>
    ⟨⟨keq_self _, keq_self _⟩, Same.rfl'⟩) m.btm)).run hC i
  revert this
  cases (RangeMap.cloneL m.btm).run C i with
  | error p => exact fun h => absurd h id
  | ok l => exact fun h => ⟨l, rfl, h⟩

/-- **C65** so with an equivalence relation for `==`, a map is `==` to its clone. -/
theorem C65_clone_eq [EquivBEq V] (m : RangeMap K V) {C : Clones K V} (hC : LawfulClones C)
    (i : Nat) :
    ∃ l, (RangeMap.cloneL m.btm).run C i = .ok l ∧ (⟨l⟩ : RangeMap K V).eq m = true := by
  obtain ⟨l, h1, h2⟩ := C65_clone m hC i
  exact ⟨l, h1, RangeMap.eq_of_same h2⟩

/-- **C65** `Union` of two ascending iterators, any number of `next` calls. -/
theorem C65_union {a a' b b' : List (Range K)} (ha : Pointwise SameRange a a')
    (hb : Pointwise SameRange b b') (n : Nat) {C : Clones K V} (hC : LawfulClones C) (i : Nat) :
    SameOutcome (Pointwise (SameOpt SameRange))
      ((callsL (Union.nextL Cl.cloneRange Range.mergeL) n ⟨a, b⟩).run C i)
      (.ok (calls Union.next n ⟨a', b'⟩)) :=
  (callsL_sim (R := Union.SameIter SameRange) (fun _ _ => Union.nextL_sim
    (fun _ _ _ _ h h' => kcmp_same h.1 h'.1)
    (fun _ _ _ _ h h' => Range.mergeL_sim h h') (fun _ _ h => Range.cloneRange_sim h)) n
    ⟨ha, hb⟩).run hC i

example := C65_union (K := Demo.TagKey) (V := Counted)
    (a := [⟨⟨1, true⟩, ⟨5, true⟩⟩, ⟨⟨8, true⟩, ⟨9, true⟩⟩])
    (a' := [⟨⟨1, false⟩, ⟨5, true⟩⟩, ⟨⟨8, true⟩, ⟨9, false⟩⟩])
    (b := [⟨⟨1, true⟩, ⟨5, true⟩⟩, ⟨⟨8, true⟩, ⟨9, true⟩⟩])
    (b' := [⟨⟨1, false⟩, ⟨5, true⟩⟩, ⟨⟨8, true⟩, ⟨9, false⟩⟩])
    (.cons ⟨rfl, rfl⟩ (.cons ⟨rfl, rfl⟩ .nil)) (.cons ⟨rfl, rfl⟩ (.cons ⟨rfl, rfl⟩ .nil)) 5
    (C := countClones) countClones_lawful 5

/-- **C65** `Intersection` of two ascending iterators, any number of `next` calls. -/
theorem C65_intersection {a a' b b' : List (Range K)} (ha : Pointwise SameRange a a')
    (hb : Pointwise SameRange b b') (n : Nat) {C : Clones K V} (hC : LawfulClones C) (i : Nat) :
    SameOutcome (Pointwise (SameOpt SameRange))
      ((callsL (Intersection.nextL Range.intersectL) n ⟨a, b⟩).run C i)
      (.ok (calls Intersection.next n ⟨a', b'⟩)) :=
  (callsL_sim (R := Intersection.SameIter SameRange) (fun _ _ => Intersection.nextL_sim
    (fun _ _ _ _ h h' => kcmp_same h.2 h'.2)
    (fun _ _ _ _ h h' => Range.intersectL_sim h h')) n ⟨ha, hb⟩).run hC i

example := C65_intersection (K := Demo.TagKey) (V := Counted)
    (a := [⟨⟨1, true⟩, ⟨5, true⟩⟩, ⟨⟨8, true⟩, ⟨9, true⟩⟩])
    (a' := [⟨⟨1, false⟩, ⟨5, true⟩⟩, ⟨⟨8, true⟩, ⟨9, false⟩⟩])
    (b := [⟨⟨1, true⟩, ⟨5, true⟩⟩, ⟨⟨8, true⟩, ⟨9, true⟩⟩])
    (b' := [⟨⟨1, false⟩, ⟨5, true⟩⟩, ⟨⟨8, true⟩, ⟨9, false⟩⟩])
    (.cons ⟨rfl, rfl⟩ (.cons ⟨rfl, rfl⟩ .nil)) (.cons ⟨rfl, rfl⟩ (.cons ⟨rfl, rfl⟩ .nil)) 5
    (C := countClones) countClones_lawful 5

end

/-- The map of the example. -/
def cloned : RangeMap Demo.TagKey Counted :=
  RangeMap.runL (cloneOps.map fun op => (fun _ => countClones, op))

theorem cloned_ops : ∀ op ∈ cloneOps.map (fun op => ((fun _ => countClones : Nat → _), op)),
    ∀ i, LawfulClones (op.1 i) := by
  intro op hop i
  obtain ⟨_, _, rfl⟩ := List.mem_map.1 hop
  exact countClones_lawful

-- the hypotheses are met by the example, and the conclusions say something about it
example : cloned.eq (RangeMap.run cloneOps) = true := by
  have := C65_history_eq _ cloned_ops
  rwa [List.map_map, show ((·.2) ∘ fun op => ((fun _ => countClones : Nat → _), op))
    = (id : Op (Range Demo.TagKey) Counted → _) from rfl, List.map_id] at this

example : (cloned.applyL (fun _ => tagClones) (.insert ⟨⟨2, true⟩, ⟨2, false⟩⟩ ⟨5, 0⟩)).2
    = .error .assertFailed := by rfl

example : ((cloned.getKeyValueL ⟨5, true⟩).run tagClones 0).toOption
    = some (some (⟨⟨4, true⟩, ⟨6, false⟩⟩, ⟨1, 3⟩)) := by rfl

example : ((cloned.gapsL ⟨⟨1, true⟩, ⟨20, true⟩⟩ >>= callsL RangeMap.Gaps.nextL 3).run
      countClones 0).toOption
    = some [some ⟨⟨6, true⟩, ⟨7, false⟩⟩, some ⟨⟨9, true⟩, ⟨20, false⟩⟩, none] := by rfl

example : ((RangeMap.cloneL cloned.btm).run countClones 0).toOption
    = some [(⟨⟨0, true⟩, ⟨3, false⟩⟩, ⟨1, 3⟩), (⟨⟨3, false⟩, ⟨4, true⟩⟩, ⟨2, 1⟩),
       (⟨⟨4, true⟩, ⟨6, false⟩⟩, ⟨1, 4⟩), (⟨⟨7, false⟩, ⟨9, true⟩⟩, ⟨1, 3⟩)] := by rfl

example : ((callsL (Union.nextL Cl.cloneRange Range.mergeL) 2
      ⟨[⟨⟨1, true⟩, ⟨5, true⟩⟩], [⟨⟨1, false⟩, ⟨3, true⟩⟩, ⟨⟨4, false⟩, ⟨6, true⟩⟩]⟩
      : Cl Demo.TagKey Counted _).run countClones 0).toOption
    = some [some ⟨⟨1, true⟩, ⟨6, false⟩⟩, none] := by rfl

/-! ### `RangeInclusiveMap` -/
namespace Inclusive
section
variable {K : Type} [LE K] [LT K] [DecidableLE K] [DecidableLT K]
  [Std.IsLinearPreorder K] [Std.LawfulOrderLT K] {V : Type} [BEq V]
  {S : StepFns K}

/-- **C65** With clones that are what was cloned, this is the model of the other properties. -/
theorem C65_identical (m : RangeInclusiveMap K V) (r : RangeInclusive K) (v : V) (k : K) (g : RangeInclusiveMap.Gaps K V)
    (ops : List (Op (RangeInclusive K) V)) (i : Nat) :
    (m.insertL S r v).run identical i = m.insert S r v ∧
    (m.removeL S r).run identical i = m.remove S r ∧
    RangeInclusiveMap.runL S (ops.map fun op => (fun _ => identical, op)) = RangeInclusiveMap.run S ops ∧
    (m.getKeyValueL k).run identical i = m.getKeyValue k ∧
    (m.overlappingL r).run identical i = m.overlapping r ∧
    (m.gapsL r).run identical i = m.gaps r ∧
    (g.nextL S).run identical i = g.next S ∧
    (RangeInclusiveMap.cloneL m.btm).run identical i = .ok m.btm := by
  simp only [run_identical, RangeInclusiveMap.insertL_eval, RangeInclusiveMap.removeL_eval, RangeInclusiveMap.runL_identical,
    RangeInclusiveMap.getKeyValueL_eval, RangeInclusiveMap.overlappingL_eval, RangeInclusiveMap.gapsL_eval,
    RangeInclusiveMap.Gaps.nextL_eval, RangeInclusiveMap.cloneL_eval, pure, Except.pure, and_self]

example := Inclusive.C65_identical (K := UIntW 8) (V := Char) (S := Demo.u8) Demo.imap
    (Demo.by8 2 22) 'q' ⟨7⟩ ⟨true, ⟨2⟩, ⟨22⟩, Demo.imap.iter⟩ Demo.iops 5

/-- **C65** `insert`, on maps and arguments that compare equal: whatever cloning does, the same panic,
or results that compare equal entry by entry. -/
theorem C65_insert (hS : StepsRespect S) {m m' : RangeInclusiveMap K V}
    (h : Pointwise (SameEntry SameIRange) m.iter m'.iter) {r r' : RangeInclusive K} {v v' : V}
    (hr : SameIRange r r') (hv : Same v v') {C : Clones K V} (hC : LawfulClones C) (i : Nat) :
    SameOutcome (fun x y => Pointwise (SameEntry SameIRange) x.iter y.iter)
      ((m.insertL S r v).run C i) (m'.insert S r' v') :=
  (RangeInclusiveMap.insertL_sim hS h hr hv).run hC i

/-- **C65** The same for `remove`. -/
theorem C65_remove (hS : StepsRespect S) {m m' : RangeInclusiveMap K V}
    (h : Pointwise (SameEntry SameIRange) m.iter m'.iter) {r r' : RangeInclusive K} (hr : SameIRange r r')
    {C : Clones K V} (hC : LawfulClones C) (i : Nat) :
    SameOutcome (fun x y => Pointwise (SameEntry SameIRange) x.iter y.iter)
      ((m.removeL S r).run C i) (m'.remove S r') :=
  (RangeInclusiveMap.removeL_sim hS h hr).run hC i

/-- **C65** Any history (`insert`, `remove`, `clear`, `extend`, panics caught), each call with its own
way of cloning, ends with the same entries as without, up to comparison; and the next call ends in the
same way, too. -/
theorem C65_history (hS : StepsRespect S)
    (ops : List ((Nat → Clones K V) × Op (RangeInclusive K) V))
    (hops : ∀ op ∈ ops, ∀ i, LawfulClones (op.1 i)) {C : Nat → Clones K V}
    (hC : ∀ i, LawfulClones (C i)) (op : Op (RangeInclusive K) V) :
    Pointwise (SameEntry SameIRange) (RangeInclusiveMap.runL S ops).iter (RangeInclusiveMap.run S (ops.map (·.2))).iter ∧
    ((RangeInclusiveMap.runL S ops).applyL S C op).2 = ((RangeInclusiveMap.run S (ops.map (·.2))).apply S op).2 :=
  ⟨RangeInclusiveMap.runL_same hS ops hops, (RangeInclusiveMap.applyL_same hS (RangeInclusiveMap.runL_same hS ops hops) hC op).2⟩

/-- **C65** With an equivalence relation for `==` the two maps are `==`. -/
theorem C65_history_eq [EquivBEq V] (hS : StepsRespect S)
    (ops : List ((Nat → Clones K V) × Op (RangeInclusive K) V))
    (hops : ∀ op ∈ ops, ∀ i, LawfulClones (op.1 i)) :
    (RangeInclusiveMap.runL S ops).eq (RangeInclusiveMap.run S (ops.map (·.2))) = true :=
  RangeInclusiveMap.eq_of_same (RangeInclusiveMap.runL_same hS ops hops)

/-- **C65** When keys that compare equal are equal and values that are `==` are equal, they are the
same map. -/
theorem C65_history_exact [LawfulBEq V] (hS : StepsRespect S)
    (hK : ∀ a b : K, a ≤ b → b ≤ a → a = b)
    (ops : List ((Nat → Clones K V) × Op (RangeInclusive K) V))
    (hops : ∀ op ∈ ops, ∀ i, LawfulClones (op.1 i)) :
    RangeInclusiveMap.runL S ops = RangeInclusiveMap.run S (ops.map (·.2)) :=
  RangeInclusiveMap.eq_of_same_exact hK (RangeInclusiveMap.runL_same hS ops hops)

/-- **C65** `get_key_value` (hence `get` and `contains_key`). -/
theorem C65_get {m m' : RangeInclusiveMap K V} (h : Pointwise (SameEntry SameIRange) m.iter m'.iter) {k k' : K}
    (hk : keq k k' = true) {C : Clones K V} (hC : LawfulClones C) (i : Nat) :
    SameOutcome (SameOpt (SameEntry SameIRange)) ((m.getKeyValueL k).run C i) (m'.getKeyValue k') :=
  (RangeInclusiveMap.getKeyValueL_sim h hk).run hC i

/-- **C65** `overlapping`, for any sequence of `next` and `next_back` calls. -/
theorem C65_overlapping {m m' : RangeInclusiveMap K V} (h : Pointwise (SameEntry SameIRange) m.iter m'.iter)
    {q q' : RangeInclusive K} (hq : SameIRange q q') {C : Clones K V} (hC : LawfulClones C) (i : Nat) :
    SameOutcome (fun o o' => ∀ cs, Pointwise (SameOpt (SameEntry SameIRange))
        (script RangeInclusiveMap.Overlapping.next RangeInclusiveMap.Overlapping.nextBack cs o)
        (script RangeInclusiveMap.Overlapping.next RangeInclusiveMap.Overlapping.nextBack cs o'))
      ((m.overlappingL q).run C i) (m'.overlapping q') :=
  ((RangeInclusiveMap.overlappingL_sim h hq).mono fun _ _ ho cs =>
    script_same (fun _ _ => RangeInclusiveMap.Overlapping.next_same)
      (fun _ _ => RangeInclusiveMap.Overlapping.nextBack_same) cs ho).run hC i

/-- **C65** `gaps` and any number of `next` calls. -/
theorem C65_gaps [PartialEquivBEq V] (hS : LawfulSteps S) {m m' : RangeInclusiveMap K V}
    (hm : RangeInclusiveMap.ReachableAny S m')
    (h : Pointwise (SameEntry SameIRange) m.iter m'.iter)
    {q q' : RangeInclusive K} (hq : SameIRange q q') (n : Nat) {C : Clones K V} (hC : LawfulClones C)
    (i : Nat) :
    SameOutcome (Pointwise (SameOpt SameIRange))
      ((m.gapsL q >>= callsL (RangeInclusiveMap.Gaps.nextL S) n).run C i)
      (m'.gaps q' >>= callsE (RangeInclusiveMap.Gaps.next S) n) :=
  (Sim.bind' (RangeInclusiveMap.gapsL_sim h hq) fun _ _ ho hg =>
    RangeInclusiveMap.Gaps.callsL_sim hS.respect n ho
      (RangeInclusiveMap.gaps_guard (hm.sc hS).sep hg)).run hC i

/-- **C65** `Clone` of the map itself: never a panic, and the same entries up to comparison. -/
theorem C65_clone (m : RangeInclusiveMap K V) {C : Clones K V} (hC : LawfulClones C) (i : Nat) :
    ∃ l, (RangeInclusiveMap.cloneL m.btm).run C i = .ok l ∧ Pointwise (SameEntry SameIRange) l m.iter := by
  have := (RangeInclusiveMap.cloneL_sim (l := m.btm) (l' := m.btm) (Pointwise.refl (fun _ =>
    ⟨⟨keq_self _, keq_self _, rfl⟩, Same.rfl'⟩) m.btm)).run hC i
  revert this
  cases (RangeInclusiveMap.cloneL m.btm).run C i with
  | error p => exact fun h => absurd h id
  | ok l => exact fun h => ⟨l, rfl, h⟩

/-- **C65** so with an equivalence relation for `==`, a map is `==` to its clone. -/
theorem C65_clone_eq [EquivBEq V] (m : RangeInclusiveMap K V) {C : Clones K V} (hC : LawfulClones C)
    (i : Nat) :
    ∃ l, (RangeInclusiveMap.cloneL m.btm).run C i = .ok l ∧ (⟨l⟩ : RangeInclusiveMap K V).eq m = true := by
  obtain ⟨l, h1, h2⟩ := C65_clone m hC i
  exact ⟨l, h1, RangeInclusiveMap.eq_of_same h2⟩

/-- **C65** `Union` of two ascending iterators, any number of `next` calls. -/
theorem C65_union {a a' b b' : List (RangeInclusive K)} (ha : Pointwise SameIRange a a')
    (hb : Pointwise SameIRange b b') (n : Nat) {C : Clones K V} (hC : LawfulClones C) (i : Nat) :
    SameOutcome (Pointwise (SameOpt SameIRange))
      ((callsL (Union.nextL Cl.cloneIRange RangeInclusive.mergeL) n ⟨a, b⟩).run C i)
      (.ok (calls Union.next n ⟨a', b'⟩)) :=
  (callsL_sim (R := Union.SameIter SameIRange) (fun _ _ => Union.nextL_sim
    (fun _ _ _ _ h h' => kcmp_same h.1 h'.1)
    (fun _ _ _ _ h h' => RangeInclusive.mergeL_sim h h') (fun _ _ h => RangeInclusive.cloneIRange_sim h)) n
    ⟨ha, hb⟩).run hC i

example := Inclusive.C65_union (K := Demo.TagKey) (V := Counted)
    (a := [(.mk' ⟨1, true⟩ ⟨5, true⟩), (.mk' ⟨8, true⟩ ⟨9, true⟩)])
    (a' := [(.mk' ⟨1, false⟩ ⟨5, true⟩), (.mk' ⟨8, true⟩ ⟨9, false⟩)])
    (b := [(.mk' ⟨1, true⟩ ⟨5, true⟩), (.mk' ⟨8, true⟩ ⟨9, true⟩)])
    (b' := [(.mk' ⟨1, false⟩ ⟨5, true⟩), (.mk' ⟨8, true⟩ ⟨9, false⟩)])
    (.cons ⟨rfl, rfl, rfl⟩ (.cons ⟨rfl, rfl, rfl⟩ .nil))
    (.cons ⟨rfl, rfl, rfl⟩ (.cons ⟨rfl, rfl, rfl⟩ .nil)) 5 (C := countClones) countClones_lawful 5

/-- **C65** `Intersection` of two ascending iterators, any number of `next` calls. -/
theorem C65_intersection {a a' b b' : List (RangeInclusive K)} (ha : Pointwise SameIRange a a')
    (hb : Pointwise SameIRange b b') (n : Nat) {C : Clones K V} (hC : LawfulClones C) (i : Nat) :
    SameOutcome (Pointwise (SameOpt SameIRange))
      ((callsL (Intersection.nextL RangeInclusive.intersectL) n ⟨a, b⟩).run C i)
      (.ok (calls Intersection.next n ⟨a', b'⟩)) :=
  (callsL_sim (R := Intersection.SameIter SameIRange) (fun _ _ => Intersection.nextL_sim
    (fun _ _ _ _ h h' => kcmp_same h.2.1 h'.2.1)
    (fun _ _ _ _ h h' => RangeInclusive.intersectL_sim h h')) n ⟨ha, hb⟩).run hC i

example := Inclusive.C65_intersection (K := Demo.TagKey) (V := Counted)
    (a := [(.mk' ⟨1, true⟩ ⟨5, true⟩), (.mk' ⟨8, true⟩ ⟨9, true⟩)])
    (a' := [(.mk' ⟨1, false⟩ ⟨5, true⟩), (.mk' ⟨8, true⟩ ⟨9, false⟩)])
    (b := [(.mk' ⟨1, true⟩ ⟨5, true⟩), (.mk' ⟨8, true⟩ ⟨9, true⟩)])
    (b' := [(.mk' ⟨1, false⟩ ⟨5, true⟩), (.mk' ⟨8, true⟩ ⟨9, false⟩)])
    (.cons ⟨rfl, rfl, rfl⟩ (.cons ⟨rfl, rfl, rfl⟩ .nil))
    (.cons ⟨rfl, rfl, rfl⟩ (.cons ⟨rfl, rfl, rfl⟩ .nil)) 5 (C := countClones) countClones_lawful 5

end

/-- A history that splits stored ranges. -/
def cloneOps : List (Op (RangeInclusive Demo.TagKey) Counted) :=
  [.insert (.mk' ⟨0, true⟩ ⟨9, true⟩) ⟨1, 0⟩, .insert (.mk' ⟨3, true⟩ ⟨4, true⟩) ⟨2, 0⟩,
   .remove (.mk' ⟨6, true⟩ ⟨7, true⟩), .insert (.mk' ⟨5, false⟩ ⟨4, true⟩) ⟨3, 0⟩]

/-- The map of the example. -/
def cloned : RangeInclusiveMap Demo.TagKey Counted :=
  RangeInclusiveMap.runL Demo.tagSteps (cloneOps.map fun op => (fun _ => countClones, op))

theorem cloned_ops : ∀ op ∈ cloneOps.map (fun op => ((fun _ => countClones : Nat → _), op)),
    ∀ i, LawfulClones (op.1 i) := by
  intro op hop i
  obtain ⟨_, _, rfl⟩ := List.mem_map.1 hop
  exact countClones_lawful

-- cloning has changed bounds and values in ways that comparisons do not see
example : cloned.iter
    = [(.mk' ⟨0, true⟩ ⟨2, true⟩, ⟨1, 2⟩), (.mk' ⟨3, true⟩ ⟨4, true⟩, ⟨2, 0⟩),
       (.mk' ⟨5, false⟩ ⟨5, true⟩, ⟨1, 3⟩), (.mk' ⟨8, false⟩ ⟨9, false⟩, ⟨1, 2⟩)] := by rfl

example : (RangeInclusiveMap.run Demo.tagSteps cloneOps).iter
    = [(.mk' ⟨0, true⟩ ⟨2, true⟩, ⟨1, 0⟩), (.mk' ⟨3, true⟩ ⟨4, true⟩, ⟨2, 0⟩),
       (.mk' ⟨5, false⟩ ⟨5, true⟩, ⟨1, 0⟩), (.mk' ⟨8, false⟩ ⟨9, true⟩, ⟨1, 0⟩)] := by rfl

example : cloned.eq (RangeInclusiveMap.run Demo.tagSteps cloneOps) = true := by
  have := C65_history_eq Demo.tagSteps_lawful.respect _ cloned_ops
  rwa [List.map_map, show ((·.2) ∘ fun op => ((fun _ => countClones : Nat → _), op))
    = (id : Op (RangeInclusive Demo.TagKey) Counted → _) from rfl, List.map_id] at this

-- step functions that panic everywhere, or return nonsense, treat equal keys alike, too
example : StepsRespect (K := Demo.TagKey) ⟨fun _ => .error .stepOverflow, fun k => .ok ⟨7, k.tag⟩⟩ :=
  ⟨fun _ _ _ _ _ => rfl, fun _ _ _ _ _ => rfl⟩

end Inclusive

/-! ### Cases that meet the hypotheses -/

/-- The map with clones and the map without. -/
theorem cloned_same :
    Pointwise (SameEntry SameRange) cloned.iter (RangeMap.run cloneOps).iter :=
  (C65_history _ cloned_ops (fun _ => countClones_lawful) (.remove ⟨⟨1, true⟩, ⟨2, true⟩⟩)).1

/-- The map with clones and the map without. -/
theorem Inclusive.cloned_same : Pointwise (SameEntry SameIRange) Inclusive.cloned.iter
    (RangeInclusiveMap.run Demo.tagSteps Inclusive.cloneOps).iter :=
  (C65_history Demo.tagSteps_lawful.respect _ cloned_ops (fun _ => countClones_lawful)
    (.remove (.mk' ⟨1, true⟩ ⟨2, true⟩))).1

example := C65_insert (K := Demo.TagKey) (V := Counted) (m := cloned)
    (m' := (RangeMap.run cloneOps)) cloned_same (r := ⟨⟨1, true⟩, ⟨20, true⟩⟩)
    (r' := ⟨⟨1, false⟩, ⟨20, false⟩⟩) (v := ⟨5, 0⟩) (v' := ⟨5, 3⟩) ⟨rfl, rfl⟩
    (fun _ => ⟨rfl, rfl⟩) (C := countClones) countClones_lawful 5

example := C65_remove (K := Demo.TagKey) (V := Counted) (m := cloned)
    (m' := (RangeMap.run cloneOps)) cloned_same (r := ⟨⟨1, true⟩, ⟨20, true⟩⟩)
    (r' := ⟨⟨1, false⟩, ⟨20, false⟩⟩) ⟨rfl, rfl⟩ (C := countClones) countClones_lawful 5

example := C65_history (K := Demo.TagKey) (V := Counted) _ cloned_ops (C := fun _ => countClones)
    (fun _ => countClones_lawful) (.insert ⟨⟨1, true⟩, ⟨20, true⟩⟩ ⟨5, 0⟩)

example := C65_get (K := Demo.TagKey) (V := Counted) (m := cloned) (m' := (RangeMap.run cloneOps))
    cloned_same (k := ⟨5, true⟩) (k' := ⟨5, false⟩) rfl (C := countClones) countClones_lawful 5

example := C65_overlapping (K := Demo.TagKey) (V := Counted) (m := cloned)
    (m' := (RangeMap.run cloneOps)) cloned_same (q := ⟨⟨1, true⟩, ⟨20, true⟩⟩)
    (q' := ⟨⟨1, false⟩, ⟨20, false⟩⟩) ⟨rfl, rfl⟩ (C := countClones) countClones_lawful 5

example := C65_gaps (K := Demo.TagKey) (V := Counted) (m := cloned)
    (m' := (RangeMap.run cloneOps)) cloned_same (q := ⟨⟨1, true⟩, ⟨20, true⟩⟩)
    (q' := ⟨⟨1, false⟩, ⟨20, false⟩⟩) ⟨rfl, rfl⟩ 5 (C := countClones) countClones_lawful 5

example := C65_clone (K := Demo.TagKey) (V := Counted) cloned (C := countClones)
    countClones_lawful 5

example := C65_clone_eq (K := Demo.TagKey) (V := Counted) cloned (C := countClones)
    countClones_lawful 5

example := Inclusive.C65_insert (K := Demo.TagKey) (V := Counted) (S := Demo.tagSteps)
    Demo.tagSteps_lawful.respect (m := Inclusive.cloned)
    (m' := (RangeInclusiveMap.run Demo.tagSteps Inclusive.cloneOps)) Inclusive.cloned_same
    (r := (RangeInclusive.mk' ⟨1, true⟩ ⟨20, true⟩))
    (r' := (RangeInclusive.mk' ⟨1, false⟩ ⟨20, false⟩)) (v := ⟨5, 0⟩) (v' := ⟨5, 3⟩)
    ⟨rfl, rfl, rfl⟩ (fun _ => ⟨rfl, rfl⟩) (C := countClones) countClones_lawful 5

example := Inclusive.C65_remove (K := Demo.TagKey) (V := Counted) (S := Demo.tagSteps)
    Demo.tagSteps_lawful.respect (m := Inclusive.cloned)
    (m' := (RangeInclusiveMap.run Demo.tagSteps Inclusive.cloneOps)) Inclusive.cloned_same
    (r := (RangeInclusive.mk' ⟨1, true⟩ ⟨20, true⟩))
    (r' := (RangeInclusive.mk' ⟨1, false⟩ ⟨20, false⟩)) ⟨rfl, rfl, rfl⟩ (C := countClones)
    countClones_lawful 5

example := Inclusive.C65_history (K := Demo.TagKey) (V := Counted) (S := Demo.tagSteps)
    Demo.tagSteps_lawful.respect _ Inclusive.cloned_ops (C := fun _ => countClones)
    (fun _ => countClones_lawful) (.insert (RangeInclusive.mk' ⟨1, true⟩ ⟨20, true⟩) ⟨5, 0⟩)

example := Inclusive.C65_get (K := Demo.TagKey) (V := Counted) (m := Inclusive.cloned)
    (m' := (RangeInclusiveMap.run Demo.tagSteps Inclusive.cloneOps)) Inclusive.cloned_same
    (k := ⟨5, true⟩) (k' := ⟨5, false⟩) rfl (C := countClones) countClones_lawful 5

example := Inclusive.C65_overlapping (K := Demo.TagKey) (V := Counted) (m := Inclusive.cloned)
    (m' := (RangeInclusiveMap.run Demo.tagSteps Inclusive.cloneOps)) Inclusive.cloned_same
    (q := (RangeInclusive.mk' ⟨1, true⟩ ⟨20, true⟩))
    (q' := (RangeInclusive.mk' ⟨1, false⟩ ⟨20, false⟩)) ⟨rfl, rfl, rfl⟩ (C := countClones)
    countClones_lawful 5

example := Inclusive.C65_gaps (K := Demo.TagKey) (V := Counted) (S := Demo.tagSteps)
    Demo.tagSteps_lawful (m := Inclusive.cloned)
    (m' := (RangeInclusiveMap.run Demo.tagSteps Inclusive.cloneOps)) ⟨_, rfl⟩
    Inclusive.cloned_same (q := (RangeInclusive.mk' ⟨1, true⟩ ⟨20, true⟩))
    (q' := (RangeInclusive.mk' ⟨1, false⟩ ⟨20, false⟩)) ⟨rfl, rfl, rfl⟩ 5 (C := countClones)
    countClones_lawful 5

example := Inclusive.C65_clone (K := Demo.TagKey) (V := Counted) Inclusive.cloned
    (C := countClones) countClones_lawful 5

example := Inclusive.C65_clone_eq (K := Demo.TagKey) (V := Counted) Inclusive.cloned
    (C := countClones) countClones_lawful 5


/-- Clones that are what was cloned. -/
theorem trueClones_lawful {K V : Type} [LE K] [LT K] [DecidableLE K] [DecidableLT K]
    [Std.IsLinearPreorder K] [BEq V] :
    LawfulClones (⟨fun _ k => k, fun _ v => v⟩ : Clones K V) where
  key i k := by simp [keq, Std.le_refl]
  val i v := fun _ => ⟨rfl, rfl⟩
example := C65_history_exact (K := Nat) (V := Char) (fun _ _ => Nat.le_antisymm)
  (Demo.ops.map fun op => (fun _ => ⟨fun _ k => k, fun _ v => v⟩, op))
  (by
    simp only [List.mem_map, forall_exists_index, and_imp]
    rintro _ _ _ rfl _
    exact trueClones_lawful)
example := Inclusive.C65_history_exact (K := UIntW 8) (V := Char) (S := Demo.u8)
  Demo.u8_lawful.respect Demo.u8_antisymm
  (Demo.iops.map fun op => (fun _ => ⟨fun _ k => k, fun _ v => v⟩, op))
  (by
    simp only [List.mem_map, forall_exists_index, and_imp]
    rintro _ _ _ rfl _
    exact trueClones_lawful)

end Verif.Props

import Verif.Proof.Lex
import Verif.Proof.ICmp
import Verif.Props.Demo

/-!
# C53: what order the containers are in
-/
set_option linter.unusedSectionVars false

namespace Verif.Props
open Spec
variable {K : Type} [LE K] [LT K] [DecidableLE K] [DecidableLT K]
  [Std.IsLinearPreorder K] [Std.LawfulOrderLT K] {V : Type}

/-- The entries a map yields, as triples. -/
def triples (m : RangeMap K V) : List (K × K × V) := m.iter.map fun e => (e.1.start, e.1.stop, e.2)

/-- **C53** `partial_cmp` compares the entries one after the other, by start, then end, then value; a
map whose entries run out first is the lesser; the first pair of values that cannot be compared
makes the maps incomparable. -/
theorem C53_partial_cmp (vcmp : V → V → Option Ordering) (m m' : RangeMap K V) :
    (m.partialCmp vcmp m' = some .eq ↔ m.len = m'.len ∧
      SameUpTo (SameTriple fun a b => vcmp a b = some .eq) (triples m) (triples m') m.len) ∧
    (m.partialCmp vcmp m' = some .lt ↔
      LexLess (SameTriple fun a b => vcmp a b = some .eq)
        (LessTriple fun a b => vcmp a b = some .lt) (triples m) (triples m')) ∧
    (m.partialCmp vcmp m' = some .gt ↔
      LexLess (SameTriple fun b a => vcmp a b = some .eq)
        (LessTriple fun b a => vcmp a b = some .gt) (triples m') (triples m)) ∧
    (m.partialCmp vcmp m' = none ↔
      ∃ i, SameUpTo (SameTriple fun a b => vcmp a b = some .eq) (triples m) (triples m') i ∧
        ∃ a b, (triples m)[i]? = some a ∧ (triples m')[i]? = some b ∧
          SameTriple (fun a b => vcmp a b = none) a b) := by
  have h := iterPartialCmp_triple vcmp (triples m) (triples m')
  have h1 : m.len = (triples m).length := by simp [triples, RangeMap.len, RangeMap.iter]
  have h2 : m'.len = (triples m').length := by simp [triples, RangeMap.len, RangeMap.iter]
  rw [h1, h2]
  exact h

example := C53_partial_cmp (K := Nat) (V := Char) (fun a b => some (compare a b)) Demo.map
    Demo.map'

/-- **C53** `cmp` compares the entries one after the other, by start, then end, then value; a map whose
entries run out first is the lesser. -/
theorem C53_cmp (vcmp : V → V → Ordering) (m m' : RangeMap K V) :
    (m.cmp vcmp m' = .lt ↔
      LexLess (SameTriple fun a b => vcmp a b = .eq) (LessTriple fun a b => vcmp a b = .lt)
        (triples m) (triples m')) ∧
    (m.cmp vcmp m' = .gt ↔
      LexLess (SameTriple fun b a => vcmp a b = .eq) (LessTriple fun b a => vcmp a b = .gt)
        (triples m') (triples m)) := by
  have h := C53_partial_cmp (fun a b => some (vcmp a b)) m m'
  have : BEq V := ⟨fun _ _ => true⟩
  rw [RangeMap.partialCmp_some vcmp m m'] at h
  simp only [Option.some.injEq] at h
  exact ⟨h.2.1, h.2.2.1⟩

/-- **C53** Sets are compared range by range, by start and then by end; a set whose ranges run out first
is the lesser. -/
theorem C53_set_cmp (s s' : RangeSet K) :
    (s.cmp s' = .lt ↔ LexLess
      (fun a b => (a.start ≤ b.start ∧ b.start ≤ a.start) ∧ (a.stop ≤ b.stop ∧ b.stop ≤ a.stop))
      (fun a b => a.start < b.start ∨ (a.start ≤ b.start ∧ b.start ≤ a.start) ∧ a.stop < b.stop)
      s.iter s'.iter) ∧
    (s.cmp s' = .gt ↔ s'.cmp s = .lt) := by
  constructor
  · refine Iff.trans (C53_cmp (fun _ _ => .eq) s.rm s'.rm).1 ?_
    have h1 : s.iter = s.rm.btm.map (·.1) := rfl
    have h2 : s'.iter = s'.rm.btm.map (·.1) := rfl
    have h3 : ∀ m : RangeMap K Unit, triples m = m.btm.map fun e => (e.1.start, e.1.stop, e.2) :=
      fun _ => rfl
    rw [h1, h2]
    simp only [LexLess, SameUpTo, SameTriple, LessTriple, h3, List.length_map, List.getElem?_map,
      Option.map_eq_some_iff, reduceCtorEq, and_false, or_false, and_true]
    refine exists_congr fun i => ?_
    refine and_congr (forall_congr' fun j => forall_congr' fun _ => ?_) (or_congr_right ?_) <;> grind
  · have h := (totalCmp_triple (K := K) (V := Unit) (vcmp := fun _ _ => .eq)
      ⟨fun _ _ => rfl, fun _ _ _ _ _ => by simp⟩).iterCmp.swap (triples s.rm) (triples s'.rm)
    have h1 : s.cmp s' = iterCmp (tripleCmp fun _ _ => .eq) (triples s.rm) (triples s'.rm) := rfl
    have h2 : s'.cmp s = iterCmp (tripleCmp fun _ _ => .eq) (triples s'.rm) (triples s.rm) := rfl
    rw [h1, h2, h]
    cases iterCmp (tripleCmp fun _ _ => .eq) (triples s.rm) (triples s'.rm) <;> simp

/-- the third entries decide: same start, lesser end -/
example : Demo.map.cmp compare ⟨[(⟨0, 3⟩, 'a'), (⟨5, 15⟩, 'a'), (⟨20, 26⟩, 'a')]⟩ = .lt ∧
    LexLess (SameTriple fun a b => compare a b = .eq) (LessTriple fun a b => compare a b = .lt)
      (triples Demo.map) (triples ⟨[(⟨0, 3⟩, 'a'), (⟨5, 15⟩, 'a'), (⟨20, 26⟩, 'a')]⟩) := by
  have h : Demo.map.cmp compare ⟨[(⟨0, 3⟩, 'a'), (⟨5, 15⟩, 'a'), (⟨20, 26⟩, 'a')]⟩ = .lt := by decide
  exact ⟨h, (C53_cmp compare _ _).1.1 h⟩

/-- `f64`-like values: NaN makes maps incomparable, unless an earlier difference decides -/
def floCmp : Demo.Flo → Demo.Flo → Option Ordering
  | .num a, .num b => some (compare a b)
  | _, _ => none
example : Demo.oddMap.partialCmp floCmp Demo.oddMap = none ∧
    Demo.oddMap.partialCmp floCmp ⟨[(⟨⟨0, false⟩, ⟨6, false⟩⟩, .nan)]⟩ = some .lt ∧
    Demo.oddMap.partialCmp floCmp ⟨[]⟩ = some .gt := by decide

/-- a larger set can be the lesser one -/
example : Demo.set.cmp Demo.set' = .lt ∧ (⟨⟨[(⟨0, 40⟩, ())]⟩⟩ : RangeSet Nat).cmp Demo.set = .gt ∧
    (⟨⟨[(⟨0, 3⟩, ())]⟩⟩ : RangeSet Nat).cmp Demo.set = .lt := by decide

namespace Inclusive

/-- The entries a map yields, as triples. -/
def triples (m : RangeInclusiveMap K V) : List (K × K × V) :=
  m.iter.map fun e => (e.1.start, e.1.stop, e.2)

/-- **C53** `partial_cmp` compares the entries one after the other, by start, then end, then value; a
map whose entries run out first is the lesser; the first pair of values that cannot be compared
makes the maps incomparable. -/
theorem C53_partial_cmp (vcmp : V → V → Option Ordering) (m m' : RangeInclusiveMap K V) :
    (m.partialCmp vcmp m' = some .eq ↔ m.len = m'.len ∧
      SameUpTo (SameTriple fun a b => vcmp a b = some .eq) (triples m) (triples m') m.len) ∧
    (m.partialCmp vcmp m' = some .lt ↔
      LexLess (SameTriple fun a b => vcmp a b = some .eq)
        (LessTriple fun a b => vcmp a b = some .lt) (triples m) (triples m')) ∧
    (m.partialCmp vcmp m' = some .gt ↔
      LexLess (SameTriple fun b a => vcmp a b = some .eq)
        (LessTriple fun b a => vcmp a b = some .gt) (triples m') (triples m)) ∧
    (m.partialCmp vcmp m' = none ↔
      ∃ i, SameUpTo (SameTriple fun a b => vcmp a b = some .eq) (triples m) (triples m') i ∧
        ∃ a b, (triples m)[i]? = some a ∧ (triples m')[i]? = some b ∧
          SameTriple (fun a b => vcmp a b = none) a b) := by
  have h := iterPartialCmp_triple vcmp (triples m) (triples m')
  have h1 : m.len = (triples m).length := by simp [triples, RangeInclusiveMap.len, RangeInclusiveMap.iter]
  have h2 : m'.len = (triples m').length := by simp [triples, RangeInclusiveMap.len, RangeInclusiveMap.iter]
  rw [h1, h2]
  exact h

example := Inclusive.C53_partial_cmp (K := UIntW 8) (V := Char) (fun a b => some (compare a b))
    Demo.imap Demo.imap'

/-- **C53** `cmp` compares the entries one after the other, by start, then end, then value; a map whose
entries run out first is the lesser. -/
theorem C53_cmp (vcmp : V → V → Ordering) (m m' : RangeInclusiveMap K V) :
    (m.cmp vcmp m' = .lt ↔
      LexLess (SameTriple fun a b => vcmp a b = .eq) (LessTriple fun a b => vcmp a b = .lt)
        (triples m) (triples m')) ∧
    (m.cmp vcmp m' = .gt ↔
      LexLess (SameTriple fun b a => vcmp a b = .eq) (LessTriple fun b a => vcmp a b = .gt)
        (triples m') (triples m)) := by
  have h := C53_partial_cmp (fun a b => some (vcmp a b)) m m'
  have : BEq V := ⟨fun _ _ => true⟩
  rw [RangeInclusiveMap.partialCmp_some vcmp m m'] at h
  simp only [Option.some.injEq] at h
  exact ⟨h.2.1, h.2.2.1⟩

example := Inclusive.C53_cmp (K := UIntW 8) (V := Char) compare Demo.imap Demo.imap'

/-- **C53** Sets are compared range by range, by start and then by end; a set whose ranges run out first
is the lesser. -/
theorem C53_set_cmp (s s' : RangeInclusiveSet K) :
    (s.cmp s' = .lt ↔ LexLess
      (fun a b => (a.start ≤ b.start ∧ b.start ≤ a.start) ∧ (a.stop ≤ b.stop ∧ b.stop ≤ a.stop))
      (fun a b => a.start < b.start ∨ (a.start ≤ b.start ∧ b.start ≤ a.start) ∧ a.stop < b.stop)
      s.iter s'.iter) ∧
    (s.cmp s' = .gt ↔ s'.cmp s = .lt) := by
  constructor
  · refine Iff.trans (C53_cmp (fun _ _ => .eq) s.rm s'.rm).1 ?_
    have h1 : s.iter = s.rm.btm.map (·.1) := rfl
    have h2 : s'.iter = s'.rm.btm.map (·.1) := rfl
    have h3 : ∀ m : RangeInclusiveMap K Unit, triples m = m.btm.map fun e => (e.1.start, e.1.stop, e.2) :=
      fun _ => rfl
    rw [h1, h2]
    simp only [LexLess, SameUpTo, SameTriple, LessTriple, h3, List.length_map, List.getElem?_map,
      Option.map_eq_some_iff, reduceCtorEq, and_false, or_false, and_true]
    refine exists_congr fun i => ?_
    refine and_congr (forall_congr' fun j => forall_congr' fun _ => ?_) (or_congr_right ?_) <;> grind
  · have h := (totalCmp_triple (K := K) (V := Unit) (vcmp := fun _ _ => .eq)
      ⟨fun _ _ => rfl, fun _ _ _ _ _ => by simp⟩).iterCmp.swap (triples s.rm) (triples s'.rm)
    have h1 : s.cmp s' = iterCmp (tripleCmp fun _ _ => .eq) (triples s.rm) (triples s'.rm) := rfl
    have h2 : s'.cmp s = iterCmp (tripleCmp fun _ _ => .eq) (triples s'.rm) (triples s.rm) := rfl
    rw [h1, h2, h]
    cases iterCmp (tripleCmp fun _ _ => .eq) (triples s.rm) (triples s'.rm) <;> simp

example : Demo.imap.cmp compare ⟨[(Demo.by8 0 2, 'a'), (Demo.by8 5 15, 'b')]⟩ = .lt ∧
    Demo.imap.cmp compare ⟨[(Demo.by8 0 2, 'a'), (Demo.by8 5 15, 'a')]⟩ = .gt := by decide
example : Demo.iset.cmp Demo.iset' = .lt := by decide

end Inclusive
end Verif.Props

import Verif.Model.Iter
import Verif.Model.IIter

/-!
# How much work the query iterators do

The functions of `Verif/Model/Iter.lean` and `Verif/Model/IIter.lean` with a count of the entries
taken from the underlying `BTreeMap` iterator, of the comparisons of keys made by the crate itself
(not those inside `BTreeMap::range`), and of the calls of `StepFns`.
-/
namespace Verif

/-- What an iterator has done. -/
structure Work where
  /-- entries taken from the `btree_map::Range` iterator -/
  taken : Nat
  /-- comparisons of keys -/
  compared : Nat
  /-- calls of `add_one` and `sub_one` -/
  stepped : Nat
  deriving DecidableEq, Repr

namespace Work

instance : Zero Work := ⟨⟨0, 0, 0⟩⟩
instance : Add Work := ⟨fun a b => ⟨a.taken + b.taken, a.compared + b.compared, a.stepped + b.stepped⟩⟩

end Work

/-- The work done by `n` successive calls of `next`. -/
def totalWork {S α : Type} (next : S → (α × S) × Work) : Nat → S → Work
  | 0, _ => 0
  | n + 1, s => (next s).2 + totalWork next n (next s).1.2

/-- The work done by `n` successive calls of a `next` that may panic. -/
def totalWorkE {S α : Type} (next : S → Except Panic ((α × S) × Work)) :
    Nat → S → Except Panic Work
  | 0, _ => .ok 0
  | n + 1, s => do
    let r ← next s
    let w ← totalWorkE next n r.1.2
    return r.2 + w

variable {K V : Type} [LE K] [LT K] [DecidableLE K] [DecidableLT K]

namespace RangeMap

/-- /repo/src/map.rs:790-804 `Overlapping::next`. -/
def Overlapping.nextW (o : Overlapping K V) : (Option (Range K × V) × Overlapping K V) × Work :=
  match Deque.next o.btmRangeIter with
  | (some e, rest) =>
    if e.1.start < o.queryRange.stop then ((some e, { o with btmRangeIter := rest }), ⟨1, 1, 0⟩)
    else ((none, { o with btmRangeIter := rest }), ⟨1, 1, 0⟩)
  | (none, rest) => ((none, { o with btmRangeIter := rest }), 0)

/-- /repo/src/map.rs:811-819 `Overlapping::next_back`. -/
def Overlapping.nextBackW (o : Overlapping K V) :
    (Option (Range K × V) × Overlapping K V) × Work :=
  match _h : o.btmRangeIter.getLast? with
  | some e =>
    if e.1.start < o.queryRange.stop then
      ((some e, { o with btmRangeIter := o.btmRangeIter.dropLast }), ⟨1, 1, 0⟩)
    else
      let r := nextBackW { o with btmRangeIter := o.btmRangeIter.dropLast }
      (r.1, ⟨1, 1, 0⟩ + r.2)
  | none => ((none, o), 0)
termination_by o.btmRangeIter.length
decreasing_by
  have : o.btmRangeIter ≠ [] := by intro h'; simp [h'] at _h
  have := List.length_pos_iff.2 this
  simp; omega

/-- /repo/src/map.rs:754-761, after the `for` loop of `Gaps::next`. -/
def Gaps.nextTailW (candidateStart queryEnd : K) (rest : List (Range K × V)) :
    (Option (Range K) × Gaps K V) × Work :=
  if candidateStart < queryEnd then
    ((some ⟨candidateStart, queryEnd⟩, ⟨queryEnd, queryEnd, rest⟩), ⟨0, 1, 0⟩)
  else ((none, ⟨candidateStart, queryEnd, rest⟩), ⟨0, 1, 0⟩)

/-- /repo/src/map.rs:730-752, the `for` loop of `Gaps::next`. -/
def Gaps.nextLoopW (candidateStart queryEnd : K) :
    List (Range K × V) → (Option (Range K) × Gaps K V) × Work
  | [] => nextTailW candidateStart queryEnd []
  | overlap :: rest =>
    if queryEnd ≤ overlap.1.start then
      let r := nextTailW candidateStart queryEnd rest
      (r.1, ⟨1, 1, 0⟩ + r.2)
    else if candidateStart < overlap.1.start then
      ((some ⟨candidateStart, overlap.1.start⟩, ⟨overlap.1.stop, queryEnd, rest⟩), ⟨1, 2, 0⟩)
    else
      let r := nextLoopW overlap.1.stop queryEnd rest
      (r.1, ⟨1, 2, 0⟩ + r.2)

/-- /repo/src/map.rs:728-761 `Gaps::next`. -/
def Gaps.nextW (g : Gaps K V) : (Option (Range K) × Gaps K V) × Work :=
  nextLoopW g.candidateStart g.queryEnd g.btmRangeIter

/-- /repo/src/map.rs:220-224 `overlaps`. -/
def overlapsW (m : RangeMap K V) (range : Range K) : Except Panic (Bool × Work) := do
  let r := (← m.overlapping range).nextW
  return (r.1.1.isSome, r.2)

end RangeMap

namespace RangeInclusiveMap

/-- /repo/src/inclusive_map.rs:906-921 `Overlapping::next`. -/
def Overlapping.nextW (o : Overlapping K V) :
    (Option (RangeInclusive K × V) × Overlapping K V) × Work :=
  match Deque.next o.btmRangeIter with
  | (some e, rest) =>
    if e.1.start ≤ o.queryRange.stop then ((some e, { o with btmRangeIter := rest }), ⟨1, 1, 0⟩)
    else ((none, { o with btmRangeIter := rest }), ⟨1, 1, 0⟩)
  | (none, rest) => ((none, { o with btmRangeIter := rest }), 0)

/-- /repo/src/inclusive_map.rs:927-936 `Overlapping::next_back`. -/
def Overlapping.nextBackW (o : Overlapping K V) :
    (Option (RangeInclusive K × V) × Overlapping K V) × Work :=
  match _h : o.btmRangeIter.getLast? with
  | some e =>
    if e.1.start ≤ o.queryRange.stop then
      ((some e, { o with btmRangeIter := o.btmRangeIter.dropLast }), ⟨1, 1, 0⟩)
    else
      let r := nextBackW { o with btmRangeIter := o.btmRangeIter.dropLast }
      (r.1, ⟨1, 1, 0⟩ + r.2)
  | none => ((none, o), 0)
termination_by o.btmRangeIter.length
decreasing_by
  have : o.btmRangeIter ≠ [] := by intro h'; simp [h'] at _h
  have := List.length_pos_iff.2 this
  simp; omega

/-- /repo/src/inclusive_map.rs:862-876, after the `for` loop of `Gaps::next`. -/
def Gaps.nextTailW (S : StepFns K) (needsPlusOne : Bool) (candidateStart queryEnd : K)
    (rest : List (RangeInclusive K × V)) :
    Except Panic ((Option (RangeInclusive K) × Gaps K V) × Work) :=
  if needsPlusOne then
    if candidateStart < queryEnd then do
      let a ← S.addOne candidateStart
      return ((some (.mk' a queryEnd), ⟨true, queryEnd, queryEnd, rest⟩), ⟨0, 1, 1⟩)
    else return ((none, ⟨true, queryEnd, queryEnd, rest⟩), ⟨0, 1, 0⟩)
  else if candidateStart ≤ queryEnd then
    return ((some (.mk' candidateStart queryEnd), ⟨true, queryEnd, queryEnd, rest⟩), ⟨0, 1, 0⟩)
  else return ((none, ⟨true, queryEnd, queryEnd, rest⟩), ⟨0, 1, 0⟩)

/-- /repo/src/inclusive_map.rs:836-860, the `for` loop of `Gaps::next`. -/
def Gaps.nextLoopW (S : StepFns K) (needsPlusOne : Bool) (candidateStart queryEnd : K) :
    List (RangeInclusive K × V) → Except Panic ((Option (RangeInclusive K) × Gaps K V) × Work)
  | [] => nextTailW S needsPlusOne candidateStart queryEnd []
  | overlap :: rest =>
    if queryEnd < overlap.1.start then do
      let r ← nextTailW S needsPlusOne candidateStart queryEnd rest
      return (r.1, ⟨1, 1, 0⟩ + r.2)
    else do
      let cur ← curCandidateStart S needsPlusOne candidateStart
      let steps := if needsPlusOne then 1 else 0
      if cur < overlap.1.start then
        let e ← S.subOne overlap.1.start
        return ((some (.mk' cur e), ⟨true, overlap.1.stop, queryEnd, rest⟩), ⟨1, 2, steps + 1⟩)
      else
        let r ← nextLoopW S true overlap.1.stop queryEnd rest
        return (r.1, ⟨1, 2, steps⟩ + r.2)

/-- /repo/src/inclusive_map.rs:835-877 `Gaps::next`. -/
def Gaps.nextW (S : StepFns K) (g : Gaps K V) :
    Except Panic ((Option (RangeInclusive K) × Gaps K V) × Work) :=
  nextLoopW S g.candidateNeedsPlusOne g.candidateStart g.queryEnd g.btmRangeIter

/-- /repo/src/inclusive_map.rs:587-591 `overlaps`. -/
def overlapsW (m : RangeInclusiveMap K V) (range : RangeInclusive K) :
    Except Panic (Bool × Work) := do
  let r := (← m.overlapping range).nextW
  return (r.1.1.isSome, r.2)

end RangeInclusiveMap
end Verif

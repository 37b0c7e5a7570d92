import Verif.Model.ICollect
import Verif.Model.Iter

/-!
# The iterators of `RangeInclusiveMap`, as state machines

As in `Verif/Model/Iter.lean`.  `Gaps::next` calls the step functions, which may panic.
-/
namespace Verif

/-- Calling a `next` that may panic until it returns `None`, with at most `fuel` calls. -/
def drainE {S α : Type} (next : S → Except Panic (Option α × S)) :
    Nat → S → Except Panic (List α)
  | 0, _ => .error .diverge
  | fuel + 1, s => do
    match ← next s with
    | (none, _) => return []
    | (some a, s') => return a :: (← drainE next fuel s')

namespace RangeInclusiveMap
variable {K : Type} [LE K] [LT K] [DecidableLE K] [DecidableLT K] {V : Type}

/-! ### `iter`, `into_iter` -/

/-- /repo/src/inclusive_map.rs:618-620 `struct Iter`, 658-660 `struct IntoIter` (and the set
versions, /repo/src/inclusive_set.rs:220-290, which drop the unit value). -/
structure Iter (K V : Type) where
  inner : List (RangeInclusive K × V)

/-- /repo/src/inclusive_map.rs:122-130 `iter`, 662-670 `into_iter`. -/
def iterator (m : RangeInclusiveMap K V) : Iter K V := ⟨m.btm⟩

namespace Iter

/-- /repo/src/inclusive_map.rs:629-631 and 674-678 `next`. -/
def next (i : Iter K V) : Option (RangeInclusive K × V) × Iter K V :=
  let (e, inner) := Deque.next i.inner
  (e, ⟨inner⟩)

/-- /repo/src/inclusive_map.rs:643-647 and 685-689 `next_back`. -/
def nextBack (i : Iter K V) : Option (RangeInclusive K × V) × Iter K V :=
  let (e, inner) := Deque.nextBack i.inner
  (e, ⟨inner⟩)

/-- /repo/src/inclusive_map.rs:633-635 and 679-681 `size_hint`. -/
def sizeHint (i : Iter K V) : Nat × Option Nat := (i.inner.length, some i.inner.length)

end Iter

/-! ### `overlapping` -/

/-- /repo/src/inclusive_map.rs:889-892 `struct Overlapping`. -/
structure Overlapping (K V : Type) where
  queryRange : RangeInclusive K
  btmRangeIter : List (RangeInclusive K × V)

/-- /repo/src/inclusive_map.rs:565-585 `overlapping`.  The stored ranges are looked up by their
*end*. -/
def overlapping (m : RangeInclusiveMap K V) (range : RangeInclusive K) :
    Except Panic (Overlapping K V) := do
  let btmRangeIter ← BTreeMap.range RangeInclusive.stop (.included range.start) .unbounded m.btm
  return ⟨range, btmRangeIter⟩

namespace Overlapping

/-- /repo/src/inclusive_map.rs:906-921 `next`. -/
def next (o : Overlapping K V) : Option (RangeInclusive K × V) × Overlapping K V :=
  match Deque.next o.btmRangeIter with
  | (some e, rest) =>
    if e.1.start ≤ o.queryRange.stop then (some e, { o with btmRangeIter := rest })
    else (none, { o with btmRangeIter := rest })
  | (none, rest) => (none, { o with btmRangeIter := rest })

/-- /repo/src/inclusive_map.rs:927-936 `next_back`: pops from the back until an entry starts at or
before the end of the query range. -/
def nextBack (o : Overlapping K V) : Option (RangeInclusive K × V) × Overlapping K V :=
  match _h : o.btmRangeIter.getLast? with
  | some e =>
    if e.1.start ≤ o.queryRange.stop then
      (some e, { o with btmRangeIter := o.btmRangeIter.dropLast })
    else nextBack { o with btmRangeIter := o.btmRangeIter.dropLast }
  | none => (none, o)
termination_by o.btmRangeIter.length
decreasing_by
  have : o.btmRangeIter ≠ [] := by intro h'; simp [h'] at _h
  have := List.length_pos_iff.2 this
  simp; omega

end Overlapping

/-- /repo/src/inclusive_map.rs:587-591 `overlaps`. -/
def overlaps (m : RangeInclusiveMap K V) (range : RangeInclusive K) : Except Panic Bool := do
  return (← m.overlapping range).next.1.isSome

/-! ### `gaps` -/

/-- /repo/src/inclusive_map.rs:808-818 `struct Gaps`. -/
structure Gaps (K V : Type) where
  candidateNeedsPlusOne : Bool
  candidateStart : K
  queryEnd : K
  btmRangeIter : List (RangeInclusive K × V)

/-- /repo/src/inclusive_map.rs:546-563 `gaps`. -/
def gaps (m : RangeInclusiveMap K V) (outerRange : RangeInclusive K) :
    Except Panic (Gaps K V) := do
  let overlapIter ← m.overlapping outerRange
  return ⟨false, outerRange.start, outerRange.stop, overlapIter.btmRangeIter⟩

namespace Gaps

/-- /repo/src/inclusive_map.rs:862-876, after the `for` loop of `next`. -/
def nextTail (S : StepFns K) (needsPlusOne : Bool) (candidateStart queryEnd : K)
    (rest : List (RangeInclusive K × V)) :
    Except Panic (Option (RangeInclusive K) × Gaps K V) :=
  if needsPlusOne then
    if candidateStart < queryEnd then do
      let a ← S.addOne candidateStart
      return (some (.mk' a queryEnd), ⟨true, queryEnd, queryEnd, rest⟩)
    else return (none, ⟨true, queryEnd, queryEnd, rest⟩)
  else if candidateStart ≤ queryEnd then
    return (some (.mk' candidateStart queryEnd), ⟨true, queryEnd, queryEnd, rest⟩)
  else return (none, ⟨true, queryEnd, queryEnd, rest⟩)

/-- /repo/src/inclusive_map.rs:850-854: where the gap before the next stored range begins. -/
def curCandidateStart (S : StepFns K) (needsPlusOne : Bool) (candidateStart : K) :
    Except Panic K :=
  if needsPlusOne then S.addOne candidateStart else return candidateStart

/-- /repo/src/inclusive_map.rs:836-860, the `for` loop of `next` over the remaining entries (the
entry that makes the loop `break` has been consumed, too). -/
def nextLoop (S : StepFns K) (needsPlusOne : Bool) (candidateStart queryEnd : K) :
    List (RangeInclusive K × V) → Except Panic (Option (RangeInclusive K) × Gaps K V)
  | [] => nextTail S needsPlusOne candidateStart queryEnd []
  | overlap :: rest =>
    if queryEnd < overlap.1.start then nextTail S needsPlusOne candidateStart queryEnd rest
    else do
      let cur ← curCandidateStart S needsPlusOne candidateStart
      if cur < overlap.1.start then
        let e ← S.subOne overlap.1.start
        return (some (.mk' cur e), ⟨true, overlap.1.stop, queryEnd, rest⟩)
      else nextLoop S true overlap.1.stop queryEnd rest

/-- /repo/src/inclusive_map.rs:835-877 `next`. -/
def next (S : StepFns K) (g : Gaps K V) : Except Panic (Option (RangeInclusive K) × Gaps K V) :=
  nextLoop S g.candidateNeedsPlusOne g.candidateStart g.queryEnd g.btmRangeIter

end Gaps

end RangeInclusiveMap
end Verif

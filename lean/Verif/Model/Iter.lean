import Verif.Model.Collect

/-!
# The iterators of `RangeMap`, as state machines

`next`/`nextBack` take the iterator's state and return the item and the new state.  std's
`btree_map::{Iter, IntoIter, Range}` are double ended queues of the entries they still have to
yield (`deque`): part of the trusted base.
-/
namespace Verif

/-- std `btree_map::{Iter, IntoIter, Range}`: `next`. -/
def Deque.next {α : Type} : List α → Option α × List α
  | [] => (none, [])
  | a :: t => (some a, t)

/-- std `btree_map::{Iter, IntoIter, Range}`: `next_back`. -/
def Deque.nextBack {α : Type} (l : List α) : Option α × List α := (l.getLast?, l.dropLast)

/-- Calling `next` until it returns `None` (`for`, `collect`, ...), with at most `fuel` calls. -/
def drain {S α : Type} (next : S → Option α × S) : Nat → S → Except Panic (List α)
  | 0, _ => .error .diverge
  | fuel + 1, s =>
    match next s with
    | (none, _) => .ok []
    | (some a, s') => (drain next fuel s').map (a :: ·)

namespace RangeMap
variable {K : Type} [LE K] [LT K] [DecidableLE K] [DecidableLT K] {V : Type}

/-! ### `iter`, `into_iter` -/

/-- /repo/src/map.rs:525-527 `struct Iter`, 567-569 `struct IntoIter` (and the set versions,
/repo/src/set.rs:194-264, which drop the unit value). -/
structure Iter (K V : Type) where
  inner : List (Range K × V)

/-- /repo/src/map.rs:118-126 `iter`, 571-579 `into_iter`. -/
def iterator (m : RangeMap K V) : Iter K V := ⟨m.btm⟩

namespace Iter

/-- /repo/src/map.rs:536-540 and 583-587 `next`. -/
def next (i : Iter K V) : Option (Range K × V) × Iter K V :=
  let (e, inner) := Deque.next i.inner
  (e, ⟨inner⟩)

/-- /repo/src/map.rs:551-556 and 594-598 `next_back`. -/
def nextBack (i : Iter K V) : Option (Range K × V) × Iter K V :=
  let (e, inner) := Deque.nextBack i.inner
  (e, ⟨inner⟩)

/-- /repo/src/map.rs:542-544 and 588-590 `size_hint` (std: `btree_map::Iter` is an
`ExactSizeIterator`). -/
def sizeHint (i : Iter K V) : Nat × Option Nat := (i.inner.length, some i.inner.length)

end Iter

/-! ### `overlapping` -/

/-- /repo/src/map.rs:773-776 `struct Overlapping`. -/
structure Overlapping (K V : Type) where
  queryRange : Range K
  btmRangeIter : List (Range K × V)

/-- /repo/src/map.rs:201-218 `overlapping`. The stored ranges are looked up by their *end*. -/
def overlapping (m : RangeMap K V) (range : Range K) : Except Panic (Overlapping K V) := do
  let btmRangeIter ← BTreeMap.range Range.stop (.excluded range.start) .unbounded m.btm
  return ⟨range, btmRangeIter⟩

namespace Overlapping

/-- /repo/src/map.rs:790-804 `next`. -/
def next (o : Overlapping K V) : Option (Range K × V) × Overlapping K V :=
  match Deque.next o.btmRangeIter with
  | (some e, rest) =>
    if e.1.start < o.queryRange.stop then (some e, { o with btmRangeIter := rest })
    else (none, { o with btmRangeIter := rest })
  | (none, rest) => (none, { o with btmRangeIter := rest })

/-- /repo/src/map.rs:811-819 `next_back`: pops from the back until an entry starts before the end of
the query range. -/
def nextBack (o : Overlapping K V) : Option (Range K × V) × Overlapping K V :=
  match _h : o.btmRangeIter.getLast? with
  | some e =>
    if e.1.start < o.queryRange.stop then
      (some e, { o with btmRangeIter := o.btmRangeIter.dropLast })
    else nextBack { o with btmRangeIter := o.btmRangeIter.dropLast }
  | none => (none, o)
termination_by o.btmRangeIter.length
decreasing_by
  have : o.btmRangeIter ≠ [] := by intro h'; simp [h'] at _h
  have := List.length_pos_iff.2 this
  simp; omega

end Overlapping

/-- /repo/src/map.rs:220-224 `overlaps`. -/
def overlaps (m : RangeMap K V) (range : Range K) : Except Panic Bool := do
  return (← m.overlapping range).next.1.isSome

/-! ### `gaps` -/

/-- /repo/src/map.rs:713-717 `struct Gaps`. -/
structure Gaps (K V : Type) where
  candidateStart : K
  queryEnd : K
  btmRangeIter : List (Range K × V)

/-- /repo/src/map.rs:183-199 `gaps`. -/
def gaps (m : RangeMap K V) (outerRange : Range K) : Except Panic (Gaps K V) := do
  let overlapIter ← m.overlapping outerRange
  return ⟨outerRange.start, outerRange.stop, overlapIter.btmRangeIter⟩

namespace Gaps

/-- /repo/src/map.rs:754-761, after the `for` loop of `next`. -/
def nextTail (candidateStart queryEnd : K) (rest : List (Range K × V)) :
    Option (Range K) × Gaps K V :=
  if candidateStart < queryEnd then
    (some ⟨candidateStart, queryEnd⟩, ⟨queryEnd, queryEnd, rest⟩)
  else (none, ⟨candidateStart, queryEnd, rest⟩)

/-- /repo/src/map.rs:730-752, the `for` loop of `next` over the remaining entries (the entry that
makes the loop `break` has been consumed, too). -/
def nextLoop (candidateStart queryEnd : K) : List (Range K × V) → Option (Range K) × Gaps K V
  | [] => nextTail candidateStart queryEnd []
  | overlap :: rest =>
    if queryEnd ≤ overlap.1.start then nextTail candidateStart queryEnd rest
    else if candidateStart < overlap.1.start then
      (some ⟨candidateStart, overlap.1.start⟩, ⟨overlap.1.stop, queryEnd, rest⟩)
    else nextLoop overlap.1.stop queryEnd rest

/-- /repo/src/map.rs:728-761 `next`. -/
def next (g : Gaps K V) : Option (Range K) × Gaps K V :=
  nextLoop g.candidateStart g.queryEnd g.btmRangeIter

end Gaps

end RangeMap
end Verif

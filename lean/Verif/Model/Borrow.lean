import Verif.Model.Iter
import Verif.Model.IIter

/-!
# `overlapping` with any implementation of `Borrow`

`overlapping` takes any `R: Borrow<Range<K>>` and calls `borrow()` anew whenever it needs an end of
the query.  A safe implementation of `Borrow` may return another range each time (by means of a
`Cell`, say): here it is the sequence of the ranges it returns.
-/
namespace Verif
variable {K V : Type} [LE K] [LT K] [DecidableLE K] [DecidableLT K]

namespace RangeMap

/-- /repo/src/map.rs:773-776 `struct Overlapping`; `queryRange n` is what the `n`-th call of
`borrow()` returns, `used` the number of calls so far. -/
structure OverlappingB (K V : Type) where
  queryRange : Nat → Range K
  used : Nat
  btmRangeIter : List (Range K × V)

/-- /repo/src/map.rs:201-218 `overlapping`: `borrow()` is called twice; the search looks at the second
end of the sliver only (/repo/src/range_wrapper.rs:119-126, `Ord for RangeEndWrapper`). -/
def overlappingB (m : RangeMap K V) (range : Nat → Range K) : Except Panic (OverlappingB K V) := do
  let startSliver : Range K := ⟨(range 0).start, (range 1).start⟩
  let btmRangeIter ← BTreeMap.range Range.stop (.excluded startSliver.stop) .unbounded m.btm
  return ⟨range, 2, btmRangeIter⟩

/-- /repo/src/map.rs:790-804 `next`. -/
def OverlappingB.next (o : OverlappingB K V) : Option (Range K × V) × OverlappingB K V :=
  match Deque.next o.btmRangeIter with
  | (some e, rest) =>
    if e.1.start < (o.queryRange o.used).stop then
      (some e, { o with used := o.used + 1, btmRangeIter := rest })
    else (none, { o with used := o.used + 1, btmRangeIter := rest })
  | (none, rest) => (none, { o with btmRangeIter := rest })

/-- /repo/src/map.rs:811-819 `next_back`. -/
def OverlappingB.nextBack (o : OverlappingB K V) : Option (Range K × V) × OverlappingB K V :=
  match _h : o.btmRangeIter.getLast? with
  | some e =>
    if e.1.start < (o.queryRange o.used).stop then
      (some e, { o with used := o.used + 1, btmRangeIter := o.btmRangeIter.dropLast })
    else nextBack { o with used := o.used + 1, btmRangeIter := o.btmRangeIter.dropLast }
  | none => (none, o)
termination_by o.btmRangeIter.length
decreasing_by
  have : o.btmRangeIter ≠ [] := by intro h'; simp [h'] at _h
  have := List.length_pos_iff.2 this
  simp; omega

end RangeMap

namespace RangeInclusiveMap

/-- /repo/src/inclusive_map.rs:889-892 `struct Overlapping`; `queryRange n` is what the `n`-th call of
`borrow()` returns, `used` the number of calls so far. -/
structure OverlappingB (K V : Type) where
  queryRange : Nat → RangeInclusive K
  used : Nat
  btmRangeIter : List (RangeInclusive K × V)

/-- /repo/src/inclusive_map.rs:565-585 `overlapping`: `borrow()` is called twice; the search looks at
the second end of the sliver only (/repo/src/range_wrapper.rs:231-238, `Ord for RangeInclusiveEndWrapper`). -/
def overlappingB (m : RangeInclusiveMap K V) (range : Nat → RangeInclusive K) :
    Except Panic (OverlappingB K V) := do
  let startSliver : RangeInclusive K := .mk' (range 0).start (range 1).start
  let btmRangeIter ← BTreeMap.range RangeInclusive.stop (.included startSliver.stop) .unbounded m.btm
  return ⟨range, 2, btmRangeIter⟩

/-- /repo/src/inclusive_map.rs:906-921 `next`. -/
def OverlappingB.next (o : OverlappingB K V) : Option (RangeInclusive K × V) × OverlappingB K V :=
  match Deque.next o.btmRangeIter with
  | (some e, rest) =>
    if e.1.start ≤ (o.queryRange o.used).stop then
      (some e, { o with used := o.used + 1, btmRangeIter := rest })
    else (none, { o with used := o.used + 1, btmRangeIter := rest })
  | (none, rest) => (none, { o with btmRangeIter := rest })

/-- /repo/src/inclusive_map.rs:927-936 `next_back`. -/
def OverlappingB.nextBack (o : OverlappingB K V) :
    Option (RangeInclusive K × V) × OverlappingB K V :=
  match _h : o.btmRangeIter.getLast? with
  | some e =>
    if e.1.start ≤ (o.queryRange o.used).stop then
      (some e, { o with used := o.used + 1, btmRangeIter := o.btmRangeIter.dropLast })
    else nextBack { o with used := o.used + 1, btmRangeIter := o.btmRangeIter.dropLast }
  | none => (none, o)
termination_by o.btmRangeIter.length
decreasing_by
  have : o.btmRangeIter ≠ [] := by intro h'; simp [h'] at _h
  have := List.length_pos_iff.2 this
  simp; omega

end RangeInclusiveMap
end Verif

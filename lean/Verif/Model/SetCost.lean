import Verif.Model.Set
import Verif.Model.ISet
import Verif.Model.Cost
import Verif.Model.Calls
import Verif.Model.TreeCmp
import Verif.Model.OpsWork

/-!
# How much work the methods of the sets do

The sets hand their work to the maps; the counts are those of the maps.  `collect` calls `next` until
it returns `None`, that is once more than there are ranges.
-/
namespace Verif

namespace RangeSet
variable {K : Type} [LE K] [LT K] [DecidableLE K] [DecidableLT K]

/-- Calls of the B-tree's methods made by `s.insert(range)`, /repo/src/set.rs:117-128. -/
def insertCost (s : RangeSet K) (range : Range K) : Cost := s.rm.insertCost range ()

/-- Calls of the B-tree's methods made by `s.remove(range)`, /repo/src/set.rs:130-141. -/
def removeCost (s : RangeSet K) (range : Range K) : Cost := s.rm.removeCost range

/-- Calls of the B-tree's methods made by /repo/src/set.rs:277-286 `Extend::extend`: those of its
insertions, up to the first one that panics. -/
def extendCost (s : RangeSet K) : List (Range K) → Cost
  | [] => 0
  | r :: items =>
    s.insertCost r + match s.insert r with
      | .ok s' => s'.extendCost items
      | .error _ => 0

/-- Calls of the B-tree's methods made by /repo/src/set.rs:266-275 `FromIterator::from_iter`. -/
def fromIterCost (items : List (Range K)) : Cost := (new : RangeSet K).extendCost items

/-- Calls of the B-tree's methods made by /repo/src/set.rs:417-423 `BitAnd::bitand`. -/
def bitAndCost (s other : RangeSet K) : Except Panic Cost := do
  return fromIterCost (← drain Intersection.next (s.len + other.len + 1) (s.intersection other))

/-- Calls of the B-tree's methods made by /repo/src/set.rs:425-431 `BitOr::bitor`. -/
def bitOrCost (s other : RangeSet K) : Except Panic Cost := do
  return fromIterCost (← drain Union.next (s.len + other.len + 1) (s.union other))

/-- What /repo/src/set.rs:266-275 `FromIterator::from_iter` does outside the B-tree: comparisons of
keys and values, calls of step functions (none, for half-open ranges). -/
def fromIterCalls (items : List (Range K)) : Calls :=
  ((RangeMap.new : RangeMap K Unit).extendN (items.map fun r => (r, ())) ⟨0, 0, 0⟩).2

/-- Comparisons of keys made by /repo/src/set.rs:266-275 `FromIterator::from_iter`: outside the
B-tree and inside it. -/
def fromIterCmps (shapes : Tree.Shapes (Range K × Unit)) (items : List (Range K)) : Nat :=
  (fromIterCalls items).cmps +
    (RangeMap.extendCmps shapes .nil (items.map fun r => (r, ()))).1

/-- Comparisons of keys made by /repo/src/set.rs:417-423 `BitAnd::bitand`: by `Intersection::next`
and by collecting what it yields. -/
def bitAndCmps (shapes : Tree.Shapes (Range K × Unit)) (s other : RangeSet K) :
    Except Panic Nat := do
  let l ← drain Intersection.next (s.len + other.len + 1) (s.intersection other)
  return (totalWork Intersection.nextW (l.length + 1) (s.intersection other)).compared +
    fromIterCmps shapes l

/-- Comparisons of keys made by /repo/src/set.rs:425-431 `BitOr::bitor`: by `Union::next` and by
collecting what it yields. -/
def bitOrCmps (shapes : Tree.Shapes (Range K × Unit)) (s other : RangeSet K) :
    Except Panic Nat := do
  let l ← drain Union.next (s.len + other.len + 1) (s.union other)
  return (totalWork Union.nextW (l.length + 1) (s.union other)).compared + fromIterCmps shapes l

end RangeSet

namespace RangeInclusiveSet
variable {K : Type} [LE K] [LT K] [DecidableLE K] [DecidableLT K]

/-- Calls of the B-tree's methods made by `s.insert(range)`, /repo/src/inclusive_set.rs:137-148. -/
def insertCost (S : StepFns K) (s : RangeInclusiveSet K) (range : RangeInclusive K) : Cost :=
  s.rm.insertCost S range ()

/-- Calls of the B-tree's methods made by `s.remove(range)`, /repo/src/inclusive_set.rs:150-161. -/
def removeCost (S : StepFns K) (s : RangeInclusiveSet K) (range : RangeInclusive K) : Cost :=
  s.rm.removeCost S range

/-- Calls of the B-tree's methods made by /repo/src/inclusive_set.rs:303-312 `Extend::extend`: those
of its insertions, up to the first one that panics. -/
def extendCost (S : StepFns K) (s : RangeInclusiveSet K) : List (RangeInclusive K) → Cost
  | [] => 0
  | r :: items =>
    s.insertCost S r + match s.insert S r with
      | .ok s' => s'.extendCost S items
      | .error _ => 0

/-- Calls of the B-tree's methods made by /repo/src/inclusive_set.rs:292-301
`FromIterator::from_iter`. -/
def fromIterCost (S : StepFns K) (items : List (RangeInclusive K)) : Cost :=
  (new : RangeInclusiveSet K).extendCost S items

/-- Calls of the B-tree's methods made by /repo/src/inclusive_set.rs:476-482 `BitAnd::bitand`. -/
def bitAndCost (S : StepFns K) (s other : RangeInclusiveSet K) : Except Panic Cost := do
  return fromIterCost S
    (← drain Intersection.next (s.len + other.len + 1) (s.intersection other))

/-- Calls of the B-tree's methods made by /repo/src/inclusive_set.rs:484-490 `BitOr::bitor`. -/
def bitOrCost (S : StepFns K) (s other : RangeInclusiveSet K) : Except Panic Cost := do
  return fromIterCost S (← drain Union.next (s.len + other.len + 1) (s.union other))

/-- What /repo/src/inclusive_set.rs:292-301 `FromIterator::from_iter` does outside the B-tree:
comparisons of keys and values, calls of the step functions. -/
def fromIterCalls (S : StepFns K) (items : List (RangeInclusive K)) : Calls :=
  ((RangeInclusiveMap.new : RangeInclusiveMap K Unit).extendN S (items.map fun r => (r, ()))
    ⟨0, 0, 0⟩).2

/-- Comparisons of keys made by /repo/src/inclusive_set.rs:292-301 `FromIterator::from_iter`:
outside the B-tree and inside it. -/
def fromIterCmps (S : StepFns K) (shapes : Tree.Shapes (RangeInclusive K × Unit))
    (items : List (RangeInclusive K)) : Nat :=
  (fromIterCalls S items).cmps +
    (RangeInclusiveMap.extendCmps S shapes .nil (items.map fun r => (r, ()))).1

/-- Comparisons of keys made by /repo/src/inclusive_set.rs:476-482 `BitAnd::bitand`: by
`Intersection::next` and by collecting what it yields. -/
def bitAndCmps (S : StepFns K) (shapes : Tree.Shapes (RangeInclusive K × Unit))
    (s other : RangeInclusiveSet K) : Except Panic Nat := do
  let l ← drain Intersection.next (s.len + other.len + 1) (s.intersection other)
  return (totalWork Intersection.nextW (l.length + 1) (s.intersection other)).compared +
    fromIterCmps S shapes l

/-- Comparisons of keys made by /repo/src/inclusive_set.rs:484-490 `BitOr::bitor`: by `Union::next`
and by collecting what it yields. -/
def bitOrCmps (S : StepFns K) (shapes : Tree.Shapes (RangeInclusive K × Unit))
    (s other : RangeInclusiveSet K) : Except Panic Nat := do
  let l ← drain Union.next (s.len + other.len + 1) (s.union other)
  return (totalWork Union.nextW (l.length + 1) (s.union other)).compared + fromIterCmps S shapes l

/-- Calls of step functions made by /repo/src/inclusive_set.rs:476-482 `BitAnd::bitand`.
(`Intersection::next` calls none.) -/
def bitAndSteps (S : StepFns K) (s other : RangeInclusiveSet K) : Except Panic Nat := do
  let l ← drain Intersection.next (s.len + other.len + 1) (s.intersection other)
  return (totalWork Intersection.nextW (l.length + 1) (s.intersection other)).stepped +
    (fromIterCalls S l).steps

/-- Calls of step functions made by /repo/src/inclusive_set.rs:484-490 `BitOr::bitor`. -/
def bitOrSteps (S : StepFns K) (s other : RangeInclusiveSet K) : Except Panic Nat := do
  let l ← drain Union.next (s.len + other.len + 1) (s.union other)
  return (totalWork Union.nextW (l.length + 1) (s.union other)).stepped +
    (fromIterCalls S l).steps

end RangeInclusiveSet
end Verif

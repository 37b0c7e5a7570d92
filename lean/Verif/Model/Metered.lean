import Verif.Model.OpsWork

/-!
# The iterators with the counting done by the operations themselves

`Verif/Model/QueryWork.lean` and `Verif/Model/OpsWork.lean` write the counts down by hand beside each
branch.  Here the same Rust functions are transcribed as programs whose only way to compare two keys,
to take an entry from an underlying iterator or to step a key is an operation that moves the meter;
`Verif/Props/Metered.lean` proves that the counts written by hand are the readings of the meter.
-/
namespace Verif

/-- A computation with a meter, that may panic. -/
abbrev Metered := StateT Work (Except Panic)

namespace Metered
variable {K α : Type} [LE K] [LT K] [DecidableLE K] [DecidableLT K]

/-- Moves the meter. -/
def tick (w : Work) : Metered Unit := fun r => .ok ((), r + w)

/-- `a < b` (and `b > a`). -/
def lt (a b : K) : Metered Bool := do
  tick ⟨0, 1, 0⟩
  return decide (a < b)

/-- `a <= b` (and `b >= a`). -/
def le (a b : K) : Metered Bool := do
  tick ⟨0, 1, 0⟩
  return decide (a ≤ b)

/-- `Ord::cmp`. -/
def cmp (a b : K) : Metered Ordering := do
  tick ⟨0, 1, 0⟩
  return kcmp a b

/-- std's `Ord::max`: `if other < self { self } else { other }`, one comparison. -/
def max (a b : K) : Metered K := do
  tick ⟨0, 1, 0⟩
  return rmax a b

/-- std's `Ord::min`, one comparison. -/
def min (a b : K) : Metered K := do
  tick ⟨0, 1, 0⟩
  return rmin a b

/-- `StepFns::add_one`. -/
def addOne (S : StepFns K) (a : K) : Metered K := do
  tick ⟨0, 0, 1⟩
  S.addOne a

/-- `StepFns::sub_one`. -/
def subOne (S : StepFns K) (a : K) : Metered K := do
  tick ⟨0, 0, 1⟩
  S.subOne a

/-- `next` of an iterator over the entries of a `BTreeMap`: moves the meter if there is an entry. -/
def pop : List α → Metered (Option (α × List α))
  | [] => return none
  | a :: l => do
    tick ⟨1, 0, 0⟩
    return some (a, l)

/-- std's `Range::contains`: `start <= item && item < end`. -/
def rangeContains (r : Range K) (k : K) : Metered Bool := do
  if ← le r.start k then lt k r.stop else return false

/-- std's `RangeInclusive::contains`: the end bound is excluded if the range is exhausted. -/
def inclusiveContains (r : RangeInclusive K) (k : K) : Metered Bool := do
  if ← le r.start k then
    if r.exhausted then lt k r.stop else le k r.stop
  else return false

end Metered

/-- What `operations.rs` asks of a kind of range, metered. -/
class MeteredRange (R : Type) where
  orderStart : R → R → Metered Ordering
  orderEnd : R → R → Metered Ordering
  merge : R → R → Metered (Option R)
  intersect : R → R → Metered (Option R)

section
variable {K V : Type} [LE K] [LT K] [DecidableLE K] [DecidableLT K]

/-- /repo/src/operations.rs:14-22, 40-52, 74-85. -/
instance : MeteredRange (Range K) where
  orderStart a b := Metered.cmp a.start b.start
  orderEnd a b := Metered.cmp a.stop b.stop
  merge self other := do
    if !(← Metered.rangeContains self other.start) then return none
    if ← Metered.lt self.stop other.stop then return some { self with stop := other.stop }
    return some self
  intersect self other := do
    let start ← Metered.max self.start other.start
    let stop ← Metered.min self.stop other.stop
    if ← Metered.le stop start then return none
    return some ⟨start, stop⟩

/-- /repo/src/operations.rs:24-32, 54-66, 87-98. -/
instance : MeteredRange (RangeInclusive K) where
  orderStart a b := Metered.cmp a.start b.start
  orderEnd a b := Metered.cmp a.stop b.stop
  merge self other := do
    if !(← Metered.inclusiveContains self other.start) then return none
    if ← Metered.lt self.stop other.stop then return some (.mk' self.start other.stop)
    return some self
  intersect self other := do
    let start ← Metered.max self.start other.start
    let stop ← Metered.min self.stop other.stop
    if ← Metered.lt stop start then return none
    return some (.mk' start stop)

end

namespace Union
variable {R : Type} [MeteredRange R]

/-- /repo/src/operations.rs:161-170, the closure `join`. -/
def joinM (range : R) (l : List R) : Metered (Option (R × List R)) := do
  match l with
  | [] => return none
  | next :: _ =>
    match ← MeteredRange.merge range next with
    | none => return none
    | some range' =>
      match ← Metered.pop l with
      | some (_, rest) => return some (range', rest)
      | none => return none

/-- /repo/src/operations.rs:172-177, the loop; the fuel stands for "as long as we can". -/
def mergeLoopM : Nat → R → List R → List R → Metered (R × Union R)
  | 0, range, left, right => return (range, ⟨left, right⟩)
  | fuel + 1, range, left, right => do
    match ← joinM range left with
    | some (range', left') => mergeLoopM fuel range' left' right
    | none =>
      match ← joinM range right with
      | some (range', right') => mergeLoopM fuel range' left right'
      | none => return (range, ⟨left, right⟩)

/-- /repo/src/operations.rs:143-159, the range to start from. -/
def firstM (u : Union R) : Metered (Option (R × Union R)) := do
  match u.left, u.right with
  | _ :: _, [] => return (← Metered.pop u.left).map fun p => (p.1, { u with left := p.2 })
  | [], _ :: _ => return (← Metered.pop u.right).map fun p => (p.1, { u with right := p.2 })
  | l :: _, r :: _ =>
    if (← MeteredRange.orderStart l r).isLT then
      return (← Metered.pop u.left).map fun p => (p.1, { u with left := p.2 })
    else
      return (← Metered.pop u.right).map fun p => (p.1, { u with right := p.2 })
  | [], [] => return none

/-- /repo/src/operations.rs:142-180 `next`. -/
def nextM (fuel : Nat) (u : Union R) : Metered (Option R × Union R) := do
  match ← u.firstM with
  | none => return (none, u)
  | some (range, rest) =>
    let (range', rest') ← mergeLoopM fuel range rest.left rest.right
    return (some range', rest')

end Union

namespace Intersection
variable {R : Type} [MeteredRange R]

/-- /repo/src/operations.rs:225-245 `next`; the fuel stands for `loop`. -/
def nextLoopM : Nat → (left right : List R) → Metered (Option R × Intersection R)
  | fuel + 1, l :: left, r :: right => do
    let intersection ← MeteredRange.intersect l r
    let (left', right') ←
      if (← MeteredRange.orderEnd l r).isLT then
        pure (((← Metered.pop (l :: left)).elim [] (·.2)), r :: right)
      else
        pure (l :: left, ((← Metered.pop (r :: right)).elim [] (·.2)))
    match intersection with
    | some i => return (some i, ⟨left', right'⟩)
    | none => nextLoopM fuel left' right'
  | _, left, right => return (none, ⟨left, right⟩)

end Intersection

namespace RangeMap
variable {K V : Type} [LE K] [LT K] [DecidableLE K] [DecidableLT K]

/-- /repo/src/map.rs:790-804 `Overlapping::next`. -/
def Overlapping.nextM (o : Overlapping K V) : Metered (Option (Range K × V) × Overlapping K V) := do
  match ← Metered.pop o.btmRangeIter with
  | some (e, rest) =>
    if ← Metered.lt e.1.start o.queryRange.stop then
      return (some e, { o with btmRangeIter := rest })
    else return (none, { o with btmRangeIter := rest })
  | none => return (none, o)

/-- /repo/src/map.rs:811-819 `Overlapping::next_back`; the argument holds the entries left, last
first. -/
def Overlapping.nextBackM (q : Range K) :
    List (Range K × V) → Metered (Option (Range K × V) × List (Range K × V))
  | [] => return (none, [])
  | e :: rest => do
    Metered.tick ⟨1, 0, 0⟩
    if ← Metered.lt e.1.start q.stop then return (some e, rest)
    else nextBackM q rest

/-- /repo/src/map.rs:754-761, after the `for` loop of `Gaps::next`. -/
def Gaps.nextTailM (candidateStart queryEnd : K) (rest : List (Range K × V)) :
    Metered (Option (Range K) × Gaps K V) := do
  if ← Metered.lt candidateStart queryEnd then
    return (some ⟨candidateStart, queryEnd⟩, ⟨queryEnd, queryEnd, rest⟩)
  else return (none, ⟨candidateStart, queryEnd, rest⟩)

/-- /repo/src/map.rs:730-752, the `for` loop of `Gaps::next`. -/
def Gaps.nextLoopM (candidateStart queryEnd : K) :
    List (Range K × V) → Metered (Option (Range K) × Gaps K V)
  | [] => nextTailM candidateStart queryEnd []
  | overlap :: rest => do
    Metered.tick ⟨1, 0, 0⟩
    if ← Metered.le queryEnd overlap.1.start then nextTailM candidateStart queryEnd rest
    else if ← Metered.lt candidateStart overlap.1.start then
      return (some ⟨candidateStart, overlap.1.start⟩, ⟨overlap.1.stop, queryEnd, rest⟩)
    else nextLoopM overlap.1.stop queryEnd rest

end RangeMap

namespace RangeInclusiveMap
variable {K V : Type} [LE K] [LT K] [DecidableLE K] [DecidableLT K]

/-- /repo/src/inclusive_map.rs:906-921 `Overlapping::next`. -/
def Overlapping.nextM (o : Overlapping K V) :
    Metered (Option (RangeInclusive K × V) × Overlapping K V) := do
  match ← Metered.pop o.btmRangeIter with
  | some (e, rest) =>
    if ← Metered.le e.1.start o.queryRange.stop then
      return (some e, { o with btmRangeIter := rest })
    else return (none, { o with btmRangeIter := rest })
  | none => return (none, o)

/-- /repo/src/inclusive_map.rs:927-936 `Overlapping::next_back`; the argument holds the entries left,
last first. -/
def Overlapping.nextBackM (q : RangeInclusive K) :
    List (RangeInclusive K × V) →
      Metered (Option (RangeInclusive K × V) × List (RangeInclusive K × V))
  | [] => return (none, [])
  | e :: rest => do
    Metered.tick ⟨1, 0, 0⟩
    if ← Metered.le e.1.start q.stop then return (some e, rest)
    else nextBackM q rest

/-- /repo/src/inclusive_map.rs:862-876, after the `for` loop of `Gaps::next`. -/
def Gaps.nextTailM (S : StepFns K) (needsPlusOne : Bool) (candidateStart queryEnd : K)
    (rest : List (RangeInclusive K × V)) :
    Metered (Option (RangeInclusive K) × Gaps K V) := do
  if needsPlusOne then
    if ← Metered.lt candidateStart queryEnd then
      let a ← Metered.addOne S candidateStart
      return (some (.mk' a queryEnd), ⟨true, queryEnd, queryEnd, rest⟩)
    else return (none, ⟨true, queryEnd, queryEnd, rest⟩)
  else if ← Metered.le candidateStart queryEnd then
    return (some (.mk' candidateStart queryEnd), ⟨true, queryEnd, queryEnd, rest⟩)
  else return (none, ⟨true, queryEnd, queryEnd, rest⟩)

/-- /repo/src/inclusive_map.rs:836-860, the `for` loop of `Gaps::next`. -/
def Gaps.nextLoopM (S : StepFns K) (needsPlusOne : Bool) (candidateStart queryEnd : K) :
    List (RangeInclusive K × V) → Metered (Option (RangeInclusive K) × Gaps K V)
  | [] => nextTailM S needsPlusOne candidateStart queryEnd []
  | overlap :: rest => do
    Metered.tick ⟨1, 0, 0⟩
    if ← Metered.lt queryEnd overlap.1.start then
      nextTailM S needsPlusOne candidateStart queryEnd rest
    else
      let cur ← if needsPlusOne then Metered.addOne S candidateStart else pure candidateStart
      if ← Metered.lt cur overlap.1.start then
        let e ← Metered.subOne S overlap.1.start
        return (some (.mk' cur e), ⟨true, overlap.1.stop, queryEnd, rest⟩)
      else nextLoopM S true overlap.1.stop queryEnd rest

end RangeInclusiveMap
end Verif

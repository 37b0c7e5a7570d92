import Verif.Model.IRange

/-!
# Model of `/repo/src/inclusive_map.rs` (`RangeInclusiveMap`)

The step functions, in Rust the type parameter `StepFnsT`, are an explicit argument `S`.
-/
namespace Verif

/-- /repo/src/inclusive_map.rs:37-43 `struct RangeInclusiveMap`. -/
structure RangeInclusiveMap (K V : Type) where
  btm : List (RangeInclusive K × V)

/-- std `Iterator::filter` with a predicate that may panic; all elements are visited in order. -/
def filterE {α : Type} (p : α → Except Panic Bool) : List α → Except Panic (List α)
  | [] => .ok []
  | a :: t => do
    let b ← p a
    let t ← filterE p t
    return if b then a :: t else t

namespace RangeInclusiveMap
variable {K : Type} [LE K] [LT K] [DecidableLE K] [DecidableLT K] {V : Type}

/-- /repo/src/inclusive_map.rs:45-52, 138-154, 176-190 `default`, `new`, `new_with_step_fns`. -/
def new : RangeInclusiveMap K V := ⟨[]⟩

/-- /repo/src/inclusive_map.rs:221-224 `clear`. -/
def clear (_m : RangeInclusiveMap K V) : RangeInclusiveMap K V := ⟨[]⟩

/-- /repo/src/inclusive_map.rs:226-229 `len`. -/
def len (m : RangeInclusiveMap K V) : Nat := m.btm.length

/-- /repo/src/inclusive_map.rs:231-234 `is_empty`. -/
def isEmpty (m : RangeInclusiveMap K V) : Bool := m.btm.isEmpty

/-- /repo/src/inclusive_map.rs:122-130 `iter`, collected. -/
def iter (m : RangeInclusiveMap K V) : List (RangeInclusive K × V) := m.btm

/-- /repo/src/inclusive_map.rs:197-214 `get_key_value`. -/
def getKeyValue (m : RangeInclusiveMap K V) (key : K) :
    Except Panic (Option (RangeInclusive K × V)) := do
  let r ← BTreeMap.range RangeInclusive.start .unbounded (.included key) m.btm
  return r.getLast?.filter fun e => e.1.contains key

/-- /repo/src/inclusive_map.rs:191-195 `get`. -/
def get (m : RangeInclusiveMap K V) (key : K) : Except Panic (Option V) := do
  return (← m.getKeyValue key).map (·.2)

/-- /repo/src/inclusive_map.rs:216-219 `contains_key`. -/
def containsKey (m : RangeInclusiveMap K V) (key : K) : Except Panic Bool := do
  return (← m.get key).isSome

/-- /repo/src/inclusive_map.rs:593-599 `first_range_value`. -/
def firstRangeValue (m : RangeInclusiveMap K V) : Option (RangeInclusive K × V) := m.btm.head?

/-- /repo/src/inclusive_map.rs:601-607 `last_range_value`. -/
def lastRangeValue (m : RangeInclusiveMap K V) : Option (RangeInclusive K × V) := m.btm.getLast?

/-- /repo/src/inclusive_map.rs:489-498 resp. 526-534: add back the piece of the stored range left of
`cut`, if there is one. -/
def insertLeft (S : StepFns K) (btm : List (RangeInclusive K × V)) (stored : RangeInclusive K)
    (storedValue : V) (cut : RangeInclusive K) : Except Panic (List (RangeInclusive K × V)) :=
  if stored.start < cut.start then do
    let p ← S.subOne cut.start
    return BTreeMap.insert RangeInclusive.start (.mk' stored.start p) storedValue btm
  else return btm

/-- /repo/src/inclusive_map.rs:499-508 resp. 535-543: add back the piece of the stored range right of
`cut`, if there is one. -/
def insertRight (S : StepFns K) (btm : List (RangeInclusive K × V)) (stored : RangeInclusive K)
    (storedValue : V) (cut : RangeInclusive K) : Except Panic (List (RangeInclusive K × V)) :=
  if cut.stop < stored.stop then do
    let s ← S.addOne cut.stop
    return BTreeMap.insert RangeInclusive.start (.mk' s stored.stop) storedValue btm
  else return btm

/-- /repo/src/inclusive_map.rs:462-514 `adjust_touching_ranges_for_insert`.  Returns the new B-tree
and the new value of `*new_range`. -/
def adjustTouchingRangesForInsert [BEq V] (S : StepFns K) (btm : List (RangeInclusive K × V))
    (stored : RangeInclusive K) (storedValue : V) (newRange : RangeInclusive K) (newValue : V) :
    Except Panic (List (RangeInclusive K × V) × RangeInclusive K) :=
  if storedValue == newValue then
    return (BTreeMap.remove RangeInclusive.start stored.start btm,
      .mk' (rmin newRange.start stored.start) (rmax newRange.stop stored.stop))
  else if newRange.overlaps stored then do
    let btm := BTreeMap.remove RangeInclusive.start stored.start btm
    let btm ← insertLeft S btm stored storedValue newRange
    let btm ← insertRight S btm stored storedValue newRange
    return (btm, newRange)
  else return (btm, newRange)

/-- /repo/src/inclusive_map.rs:335-359: does the loop of `insert` `break` at the stored entry `x`? -/
def breakCond [BEq V] (S : StepFns K) (hi : K) (newValue : V) (x : RangeInclusive K × V) :
    Except Panic Bool :=
  if hi < x.1.start then do
    let latestPossibleStart ← S.addOne hi
    if latestPossibleStart < x.1.start then return true
    else return keq x.1.start latestPossibleStart && !(x.2 == newValue)
  else return false

/-- /repo/src/inclusive_map.rs:321-370, the `while let` loop of `insert`.  `hi` is
`second_last_possible_start` (317-320), computed once before the loop. -/
def insertLoop [BEq V] (S : StepFns K) (hi : K) (newValue : V) :
    Nat → List (RangeInclusive K × V) → RangeInclusive K →
      Except Panic (List (RangeInclusive K × V) × RangeInclusive K)
  | 0, _, _ => .error .diverge
  | fuel + 1, btm, newRange => do
    match (← BTreeMap.range RangeInclusive.start (.included newRange.start) .unbounded btm).head?
      with
    | none => return (btm, newRange)
    | some x =>
      if ← breakCond S hi newValue x then return (btm, newRange)
      else
        let (btm, newRange) ← adjustTouchingRangesForInsert S btm x.1 x.2 newRange newValue
        insertLoop S hi newValue fuel btm newRange

/-- /repo/src/inclusive_map.rs:275-304, the first half of `insert`: look at the last two stored
ranges that start at or before the new range, keep those that touch it, and adjust the earlier of
them.  (In Rust the filter is lazy, but the two calls of `candidates.next()` visit both ranges
unless the first call already ends the iterator, i.e. visits them both, too.) -/
def insertPrefix [BEq V] (S : StepFns K) (btm : List (RangeInclusive K × V))
    (newRange : RangeInclusive K) (newValue : V) :
    Except Panic (List (RangeInclusive K × V) × RangeInclusive K) := do
  let r ← BTreeMap.range RangeInclusive.start .unbounded (.included newRange.start) btm
  let candidates ← filterE (fun e => e.1.touches S newRange) (r.reverse.take 2)
  match candidates with
  | [] => return (btm, newRange)
  | [c] => adjustTouchingRangesForInsert S btm c.1 c.2 newRange newValue
  | _ :: c :: _ => adjustTouchingRangesForInsert S btm c.1 c.2 newRange newValue

/-- /repo/src/inclusive_map.rs:249-374 `insert`, with the number of loop iterations bounded by
`fuel`. -/
def insertFuel [BEq V] (S : StepFns K) (fuel : Nat) (m : RangeInclusiveMap K V)
    (range : RangeInclusive K) (value : V) : Except Panic (RangeInclusiveMap K V) := do
  if ¬ range.start ≤ range.stop then throw .assertFailed
  let (btm, newRange) ← insertPrefix S m.btm range value
  let (btm, newRange) ← insertLoop S newRange.stop value fuel btm newRange
  return ⟨BTreeMap.insert RangeInclusive.start newRange value btm⟩

/-- /repo/src/inclusive_map.rs:249-374 `insert`.  The loop is given `len + 2` iterations; that this
is always enough is property C29. -/
def insert [BEq V] (S : StepFns K) (m : RangeInclusiveMap K V) (range : RangeInclusive K)
    (value : V) : Except Panic (RangeInclusiveMap K V) := insertFuel S (m.len + 2) m range value

/-- /repo/src/inclusive_map.rs:516-544 `adjust_overlapping_ranges_for_remove`. -/
def adjustOverlappingRangesForRemove (S : StepFns K) (btm : List (RangeInclusive K × V))
    (stored : RangeInclusive K) (storedValue : V) (rangeToRemove : RangeInclusive K) :
    Except Panic (List (RangeInclusive K × V)) := do
  let btm := BTreeMap.remove RangeInclusive.start stored.start btm
  let btm ← insertLeft S btm stored storedValue rangeToRemove
  insertRight S btm stored storedValue rangeToRemove

/-- /repo/src/inclusive_map.rs:440-459, the `while let` loop of `remove`. -/
def removeLoop (S : StepFns K) (range : RangeInclusive K) :
    Nat → List (RangeInclusive K × V) → Except Panic (List (RangeInclusive K × V))
  | 0, _ => .error .diverge
  | fuel + 1, btm => do
    match (← BTreeMap.range RangeInclusive.start (.excluded range.start) (.included range.stop)
      btm).head? with
    | none => return btm
    | some (stored, storedValue) =>
      let btm ← adjustOverlappingRangesForRemove S btm stored storedValue range
      removeLoop S range fuel btm

/-- /repo/src/inclusive_map.rs:407-428, the first half of `remove`. -/
def removePrefix (S : StepFns K) (btm : List (RangeInclusive K × V)) (range : RangeInclusive K) :
    Except Panic (List (RangeInclusive K × V)) := do
  let r ← BTreeMap.range RangeInclusive.start .unbounded (.included range.start) btm
  match r.getLast?.filter fun e => e.1.overlaps range with
  | none => return btm
  | some (stored, storedValue) =>
    adjustOverlappingRangesForRemove S btm stored storedValue range

/-- /repo/src/inclusive_map.rs:386-460 `remove`, with the number of loop iterations bounded by
`fuel`. -/
def removeFuel (S : StepFns K) (fuel : Nat) (m : RangeInclusiveMap K V)
    (range : RangeInclusive K) : Except Panic (RangeInclusiveMap K V) := do
  if ¬ range.start ≤ range.stop then throw .assertFailed
  let btm ← removePrefix S m.btm range
  return ⟨← removeLoop S range fuel btm⟩

/-- /repo/src/inclusive_map.rs:386-460 `remove` (`len + 2` iterations; see C29). -/
def remove (S : StepFns K) (m : RangeInclusiveMap K V) (range : RangeInclusive K) :
    Except Panic (RangeInclusiveMap K V) := removeFuel S (m.len + 2) m range

end RangeInclusiveMap
end Verif

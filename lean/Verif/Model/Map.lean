import Verif.Model.Range

/-!
# Model of `/repo/src/map.rs` (`RangeMap`)
-/
namespace Verif

/-- /repo/src/map.rs:26-31 `struct RangeMap`. -/
structure RangeMap (K V : Type) where
  btm : List (Range K × V)

namespace RangeMap
variable {K : Type} [LE K] [LT K] [DecidableLE K] [DecidableLT K] {V : Type}

/-- /repo/src/map.rs:33-39 and 101-116 `Default::default`, `new`. -/
def new : RangeMap K V := ⟨[]⟩

/-- /repo/src/map.rs:128-131 `clear`. -/
def clear (_m : RangeMap K V) : RangeMap K V := ⟨[]⟩

/-- /repo/src/map.rs:133-136 `len`. -/
def len (m : RangeMap K V) : Nat := m.btm.length

/-- /repo/src/map.rs:138-141 `is_empty`. -/
def isEmpty (m : RangeMap K V) : Bool := m.btm.isEmpty

/-- /repo/src/map.rs:118-126 `iter` followed by collecting it (525-557). The iterator itself, with
`next` and `next_back`, is modelled in `Verif/Model/Iter.lean`. -/
def iter (m : RangeMap K V) : List (Range K × V) := m.btm

/-- /repo/src/map.rs:161-176 `get_key_value`. -/
def getKeyValue (m : RangeMap K V) (key : K) : Except Panic (Option (Range K × V)) := do
  let r ← BTreeMap.range Range.start .unbounded (.included key) m.btm
  return r.getLast?.filter fun e => e.1.contains key

/-- /repo/src/map.rs:155-159 `get`. -/
def get (m : RangeMap K V) (key : K) : Except Panic (Option V) := do
  return (← m.getKeyValue key).map (·.2)

/-- /repo/src/map.rs:178-181 `contains_key`. -/
def containsKey (m : RangeMap K V) (key : K) : Except Panic Bool := do
  return (← m.get key).isSome

/-- /repo/src/map.rs:226-232 `first_range_value`. -/
def firstRangeValue (m : RangeMap K V) : Option (Range K × V) := m.btm.head?

/-- /repo/src/map.rs:234-240 `last_range_value`. -/
def lastRangeValue (m : RangeMap K V) : Option (Range K × V) := m.btm.getLast?

/-- /repo/src/map.rs:439-488 `adjust_touching_ranges_for_insert`.  Returns the new B-tree and the
new value of `*new_range`. -/
def adjustTouchingRangesForInsert [BEq V] (btm : List (Range K × V)) (stored : Range K)
    (storedValue : V) (newRange : Range K) (newValue : V) : List (Range K × V) × Range K :=
  if storedValue == newValue then
    (BTreeMap.remove Range.start stored.start btm,
      ⟨rmin newRange.start stored.start, rmax newRange.stop stored.stop⟩)
  else if newRange.overlaps stored then
    let btm := BTreeMap.remove Range.start stored.start btm
    let btm := if stored.start < newRange.start then
        BTreeMap.insert Range.start ⟨stored.start, newRange.start⟩ storedValue btm else btm
    let btm := if newRange.stop < stored.stop then
        BTreeMap.insert Range.start ⟨newRange.stop, stored.stop⟩ storedValue btm else btm
    (btm, newRange)
  else (btm, newRange)

/-- /repo/src/map.rs:326-359, the `while let` loop of `insert`.  `hi` is
`new_range_end_as_start` (322-325), which is computed once before the loop.  The loop is given
`fuel` iterations; running out of fuel is reported as `diverge`. -/
def insertLoop [BEq V] (hi : K) (newValue : V) :
    Nat → List (Range K × V) → Range K → Except Panic (List (Range K × V) × Range K)
  | 0, _, _ => .error .diverge
  | fuel + 1, btm, newRange => do
    match (← BTreeMap.range Range.start (.included newRange.start) (.included hi) btm).head? with
    | none => return (btm, newRange)
    | some (stored, storedValue) =>
      if keq stored.start newRange.stop && !(storedValue == newValue) then
        return (btm, newRange)
      else
        let (btm, newRange) :=
          adjustTouchingRangesForInsert btm stored storedValue newRange newValue
        insertLoop hi newValue fuel btm newRange

/-- /repo/src/map.rs:278-308, the first half of `insert`: look at the last two stored ranges that
start at or before the new range, keep those that touch it, and adjust the earlier of them. -/
def insertPrefix [BEq V] (btm : List (Range K × V)) (newRange : Range K) (newValue : V) :
    Except Panic (List (Range K × V) × Range K) := do
  let r ← BTreeMap.range Range.start .unbounded (.included newRange.start) btm
  let candidates := (r.reverse.take 2).filter fun e => e.1.touches newRange
  match candidates with
  | [] => return (btm, newRange)
  | [c] => return adjustTouchingRangesForInsert btm c.1 c.2 newRange newValue
  | _ :: c :: _ => return adjustTouchingRangesForInsert btm c.1 c.2 newRange newValue

/-- /repo/src/map.rs:261-363 `insert`, with the number of loop iterations bounded by `fuel`. -/
def insertFuel [BEq V] (fuel : Nat) (m : RangeMap K V) (range : Range K) (value : V) :
    Except Panic (RangeMap K V) := do
  if ¬ range.start < range.stop then throw .assertFailed
  let (btm, newRange) ← insertPrefix m.btm range value
  let (btm, newRange) ← insertLoop newRange.stop value fuel btm newRange
  return ⟨BTreeMap.insert Range.start newRange value btm⟩

/-- /repo/src/map.rs:261-363 `insert`.  The loop is given `len + 2` iterations; that this is always
enough, i.e. that the result is that of the unbounded Rust loop, is property C08. -/
def insert [BEq V] (m : RangeMap K V) (range : Range K) (value : V) :
    Except Panic (RangeMap K V) := insertFuel (m.len + 2) m range value

/-- /repo/src/map.rs:490-514 `adjust_overlapping_ranges_for_remove`. -/
def adjustOverlappingRangesForRemove (btm : List (Range K × V)) (stored : Range K)
    (storedValue : V) (rangeToRemove : Range K) : List (Range K × V) :=
  let btm := BTreeMap.remove Range.start stored.start btm
  let btm := if stored.start < rangeToRemove.start then
      BTreeMap.insert Range.start ⟨stored.start, rangeToRemove.start⟩ storedValue btm else btm
  if rangeToRemove.stop < stored.stop then
    BTreeMap.insert Range.start ⟨rangeToRemove.stop, stored.stop⟩ storedValue btm else btm

/-- /repo/src/map.rs:420-436, the `while let` loop of `remove`. -/
def removeLoop (range : Range K) : Nat → List (Range K × V) → Except Panic (List (Range K × V))
  | 0, _ => .error .diverge
  | fuel + 1, btm => do
    match (← BTreeMap.range Range.start (.excluded range.start) (.excluded range.stop) btm).head?
      with
    | none => return btm
    | some (stored, storedValue) =>
      removeLoop range fuel (adjustOverlappingRangesForRemove btm stored storedValue range)

/-- /repo/src/map.rs:388-409, the first half of `remove`. -/
def removePrefix (btm : List (Range K × V)) (range : Range K) :
    Except Panic (List (Range K × V)) := do
  let r ← BTreeMap.range Range.start .unbounded (.included range.start) btm
  match r.getLast?.filter fun e => e.1.overlaps range with
  | none => return btm
  | some (stored, storedValue) =>
    return adjustOverlappingRangesForRemove btm stored storedValue range

/-- /repo/src/map.rs:375-437 `remove`, with the number of loop iterations bounded by `fuel`. -/
def removeFuel (fuel : Nat) (m : RangeMap K V) (range : Range K) :
    Except Panic (RangeMap K V) := do
  if ¬ range.start < range.stop then throw .assertFailed
  let btm ← removePrefix m.btm range
  return ⟨← removeLoop range fuel btm⟩

/-- /repo/src/map.rs:375-437 `remove` (`len + 2` iterations; see C08). -/
def remove (m : RangeMap K V) (range : Range K) : Except Panic (RangeMap K V) :=
  removeFuel (m.len + 2) m range

end RangeMap
end Verif

import Verif.Model.Collect
import Verif.Model.ICollect

/-!
# The crate with an independent `==` on the keys

`Ord` asks that `a == b` hold exactly if `a.cmp(&b)` is `Equal`, but a type may define `eq` as it
    likes.
When it changes a map the crate asks `==` of keys in one place per map, the loop of `insert`
(map.rs:338-339, inclusive_map.rs:351).  (The B-tree and the range wrappers it calls use `cmp`.)
`Model/Map.lean` takes `==` to be equality in the order (`keq`); here it is any function `E`.
-/
namespace Verif

namespace RangeMap
variable {K : Type} [LE K] [LT K] [DecidableLE K] [DecidableLT K] {V : Type} [BEq V]

/-- /repo/src/map.rs:326-359, the `while let` loop of `insert`, with the `==` of lines 338-339. -/
def insertLoopE (E : K → K → Bool) (hi : K) (newValue : V) :
    Nat → List (Range K × V) → Range K → Except Panic (List (Range K × V) × Range K)
  | 0, _, _ => .error .diverge
  | fuel + 1, btm, newRange => do
    match (← BTreeMap.range Range.start (.included newRange.start) (.included hi) btm).head? with
    | none => return (btm, newRange)
    | some (stored, storedValue) =>
      if E stored.start newRange.stop && !(storedValue == newValue) then
        return (btm, newRange)
      else
        let (btm, newRange) :=
          adjustTouchingRangesForInsert btm stored storedValue newRange newValue
        insertLoopE E hi newValue fuel btm newRange

/-- /repo/src/map.rs:261-363 `insert`, with the number of loop iterations bounded by `fuel`. -/
def insertFuelE (E : K → K → Bool) (fuel : Nat) (m : RangeMap K V) (range : Range K) (value : V) :
    Except Panic (RangeMap K V) := do
  if ¬ range.start < range.stop then throw .assertFailed
  let (btm, newRange) ← insertPrefix m.btm range value
  let (btm, newRange) ← insertLoopE E newRange.stop value fuel btm newRange
  return ⟨BTreeMap.insert Range.start newRange value btm⟩

end RangeMap

namespace RangeInclusiveMap
variable {K : Type} [LE K] [LT K] [DecidableLE K] [DecidableLT K] {V : Type} [BEq V]

/-- /repo/src/inclusive_map.rs:335-359: does the loop of `insert` `break` at the stored entry `x`?
With the `==` of line 351. -/
def breakCondE (E : K → K → Bool) (S : StepFns K) (hi : K) (newValue : V)
    (x : RangeInclusive K × V) : Except Panic Bool :=
  if hi < x.1.start then do
    let latestPossibleStart ← S.addOne hi
    if latestPossibleStart < x.1.start then return true
    else return E x.1.start latestPossibleStart && !(x.2 == newValue)
  else return false

/-- /repo/src/inclusive_map.rs:321-370, the `while let` loop of `insert`. -/
def insertLoopE (E : K → K → Bool) (S : StepFns K) (hi : K) (newValue : V) :
    Nat → List (RangeInclusive K × V) → RangeInclusive K →
      Except Panic (List (RangeInclusive K × V) × RangeInclusive K)
  | 0, _, _ => .error .diverge
  | fuel + 1, btm, newRange => do
    match (← BTreeMap.range RangeInclusive.start (.included newRange.start) .unbounded btm).head?
      with
    | none => return (btm, newRange)
    | some x =>
      if ← breakCondE E S hi newValue x then return (btm, newRange)
      else
        let (btm, newRange) ← adjustTouchingRangesForInsert S btm x.1 x.2 newRange newValue
        insertLoopE E S hi newValue fuel btm newRange

/-- /repo/src/inclusive_map.rs:249-374 `insert`, with the number of loop iterations bounded by
`fuel`. -/
def insertFuelE (E : K → K → Bool) (S : StepFns K) (fuel : Nat) (m : RangeInclusiveMap K V)
    (range : RangeInclusive K) (value : V) : Except Panic (RangeInclusiveMap K V) := do
  if ¬ range.start ≤ range.stop then throw .assertFailed
  let (btm, newRange) ← insertPrefix S m.btm range value
  let (btm, newRange) ← insertLoopE E S newRange.stop value fuel btm newRange
  return ⟨BTreeMap.insert RangeInclusive.start newRange value btm⟩

end RangeInclusiveMap
end Verif

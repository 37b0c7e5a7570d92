import Verif.Model.Collect
import Verif.Model.ICollect
import Verif.SpecAnswers

/-!
# The crate with `==` and `!=` that may answer differently every time

`PartialEq::eq` and `ne` are code of the user and may read a clock or a counter.  The crate compares
values in two places per map: `*stored_value != new_value` in the loop of `insert` (map.rs:340,
inclusive_map.rs:351) and `stored_value == *new_value` in `adjust_touching_ranges_for_insert`
(map.rs:448, inclusive_map.rs:471).  Here every comparison made is numbered, and the answer may
    depend on
the number.  (The comparison of whole maps, `PartialEq for RangeMap`, is not part of this model.)
-/
namespace Verif
open Spec (Answers)

namespace RangeMap
variable {K : Type} [LE K] [LT K] [DecidableLE K] [DecidableLT K] {V : Type}

/-- /repo/src/map.rs:439-488 `adjust_touching_ranges_for_insert`, as
`adjustTouchingRangesForInsert`; the comparison of line 448 is the `i`th. -/
def adjustTouchingRangesForInsertU (A : Answers V) (i : Nat) (btm : List (Range K × V))
    (stored : Range K) (storedValue : V) (newRange : Range K) (newValue : V) :
    Nat × List (Range K × V) × Range K :=
  if A.eq i storedValue newValue then
    (i + 1, BTreeMap.remove Range.start stored.start btm,
      ⟨rmin newRange.start stored.start, rmax newRange.stop stored.stop⟩)
  else if newRange.overlaps stored then
    let btm := BTreeMap.remove Range.start stored.start btm
    let btm := if stored.start < newRange.start then
        BTreeMap.insert Range.start ⟨stored.start, newRange.start⟩ storedValue btm else btm
    let btm := if newRange.stop < stored.stop then
        BTreeMap.insert Range.start ⟨newRange.stop, stored.stop⟩ storedValue btm else btm
    (i + 1, btm, newRange)
  else (i + 1, btm, newRange)

/-- /repo/src/map.rs:326-359, the `while let` loop of `insert`. The `!=` of line 340 is asked only
if the stored range starts where the new one ends. -/
def insertLoopU (A : Answers V) (hi : K) (newValue : V) :
    Nat → Nat → List (Range K × V) → Range K → Except Panic (Nat × List (Range K × V) × Range K)
  | 0, _, _, _ => .error .diverge
  | fuel + 1, i, btm, newRange => do
    match (← BTreeMap.range Range.start (.included newRange.start) (.included hi) btm).head? with
    | none => return (i, btm, newRange)
    | some (stored, storedValue) =>
      if keq stored.start newRange.stop then
        if A.ne i storedValue newValue then
          return (i + 1, btm, newRange)
        else
          let (i, btm, newRange) :=
            adjustTouchingRangesForInsertU A (i + 1) btm stored storedValue newRange newValue
          insertLoopU A hi newValue fuel i btm newRange
      else
        let (i, btm, newRange) :=
          adjustTouchingRangesForInsertU A i btm stored storedValue newRange newValue
        insertLoopU A hi newValue fuel i btm newRange

/-- /repo/src/map.rs:278-308, the first half of `insert`, as `insertPrefix`. -/
def insertPrefixU (A : Answers V) (i : Nat) (btm : List (Range K × V)) (newRange : Range K)
    (newValue : V) : Except Panic (Nat × List (Range K × V) × Range K) := do
  let r ← BTreeMap.range Range.start .unbounded (.included newRange.start) btm
  let candidates := (r.reverse.take 2).filter fun e => e.1.touches newRange
  match candidates with
  | [] => return (i, btm, newRange)
  | [c] => return adjustTouchingRangesForInsertU A i btm c.1 c.2 newRange newValue
  | _ :: c :: _ => return adjustTouchingRangesForInsertU A i btm c.1 c.2 newRange newValue

/-- /repo/src/map.rs:261-363 `insert`, with the number of loop iterations bounded by `fuel`.  `i` is
the number of the first comparison; the result says what the number of the next one will be. -/
def insertFuelU (A : Answers V) (fuel i : Nat) (m : RangeMap K V) (range : Range K) (value : V) :
    Except Panic (Nat × RangeMap K V) := do
  if ¬ range.start < range.stop then throw .assertFailed
  let (i, btm, newRange) ← insertPrefixU A i m.btm range value
  let (i, btm, newRange) ← insertLoopU A newRange.stop value fuel i btm newRange
  return (i, ⟨BTreeMap.insert Range.start newRange value btm⟩)

/-- /repo/src/map.rs:622-632 `Extend::extend`, as `extend`. -/
def extendFuelU (A : Answers V) (fuel : Nat) :
    Nat → RangeMap K V → List (Range K × V) → Nat × RangeMap K V × Except Panic Unit
  | i, m, [] => (i, m, .ok ())
  | i, m, (r, v) :: items =>
    match m.insertFuelU A fuel i r v with
    | .ok (i', m') => extendFuelU A fuel i' m' items
    | .error p => (i, m, .error p)

/-- One mutating call, with a panic caught by the caller, as `apply`.  (An `insert` panics before it
compares any values.) -/
def applyFuelU (A : Answers V) (fuel i : Nat) (m : RangeMap K V) :
    Spec.Op (Range K) V → Nat × RangeMap K V × Except Panic Unit
  | .insert r v =>
    match m.insertFuelU A fuel i r v with
    | .ok (i', m') => (i', m', .ok ())
    | .error p => (i, m, .error p)
  | .remove r =>
    match m.remove r with
    | .ok m' => (i, m', .ok ())
    | .error p => (i, m, .error p)
  | .clear => (i, m.clear, .ok ())
  | .extend items => extendFuelU A fuel i m items

/-- `Runs A ops i m`: the calls `ops` (earliest first), every one of which comes to an end by
returning or by panicking, can bring an empty map to `m`, and the number of the next comparison is
`i`. Other comparisons of values may happen between the calls. -/
inductive Runs (A : Answers V) : List (Spec.Op (Range K) V) → Nat → RangeMap K V → Prop
  | new : Runs A [] 0 new
  | other {ops i m} (j : Nat) : Runs A ops i m → i ≤ j → Runs A ops j m
  | call {ops i m} (op : Spec.Op (Range K) V) (fuel : Nat) : Runs A ops i m →
      (m.applyFuelU A fuel i op).2.2 ≠ .error .diverge →
      Runs A (ops ++ [op]) (m.applyFuelU A fuel i op).1 (m.applyFuelU A fuel i op).2.1

end RangeMap

namespace RangeInclusiveMap
variable {K : Type} [LE K] [LT K] [DecidableLE K] [DecidableLT K] {V : Type}

/-- /repo/src/inclusive_map.rs:462-514 `adjust_touching_ranges_for_insert`, as
`adjustTouchingRangesForInsert`; the comparison of line 471 is the `i`th. -/
def adjustTouchingRangesForInsertU (A : Answers V) (S : StepFns K) (i : Nat)
    (btm : List (RangeInclusive K × V)) (stored : RangeInclusive K) (storedValue : V)
    (newRange : RangeInclusive K) (newValue : V) :
    Except Panic (Nat × List (RangeInclusive K × V) × RangeInclusive K) :=
  if A.eq i storedValue newValue then
    return (i + 1, BTreeMap.remove RangeInclusive.start stored.start btm,
      .mk' (rmin newRange.start stored.start) (rmax newRange.stop stored.stop))
  else if newRange.overlaps stored then do
    let btm := BTreeMap.remove RangeInclusive.start stored.start btm
    let btm ← insertLeft S btm stored storedValue newRange
    let btm ← insertRight S btm stored storedValue newRange
    return (i + 1, btm, newRange)
  else return (i + 1, btm, newRange)

/-- /repo/src/inclusive_map.rs:335-359: does the loop of `insert` `break` at the stored entry `x`?
The `!=` of line 351 is asked only if `x` starts at the key after `hi`. -/
def breakCondU (A : Answers V) (S : StepFns K) (hi : K) (newValue : V) (i : Nat)
    (x : RangeInclusive K × V) : Except Panic (Nat × Bool) :=
  if hi < x.1.start then do
    let latestPossibleStart ← S.addOne hi
    if latestPossibleStart < x.1.start then return (i, true)
    else if keq x.1.start latestPossibleStart then return (i + 1, A.ne i x.2 newValue)
    else return (i, false)
  else return (i, false)

/-- /repo/src/inclusive_map.rs:321-370, the `while let` loop of `insert`. -/
def insertLoopU (A : Answers V) (S : StepFns K) (hi : K) (newValue : V) :
    Nat → Nat → List (RangeInclusive K × V) → RangeInclusive K →
      Except Panic (Nat × List (RangeInclusive K × V) × RangeInclusive K)
  | 0, _, _, _ => .error .diverge
  | fuel + 1, i, btm, newRange => do
    match (← BTreeMap.range RangeInclusive.start (.included newRange.start) .unbounded btm).head?
      with
    | none => return (i, btm, newRange)
    | some x =>
      let (i, stop) ← breakCondU A S hi newValue i x
      if stop then return (i, btm, newRange)
      else
        let (i, btm, newRange) ←
          adjustTouchingRangesForInsertU A S i btm x.1 x.2 newRange newValue
        insertLoopU A S hi newValue fuel i btm newRange

/-- /repo/src/inclusive_map.rs:275-304, the first half of `insert`, as `insertPrefix`. -/
def insertPrefixU (A : Answers V) (S : StepFns K) (i : Nat) (btm : List (RangeInclusive K × V))
    (newRange : RangeInclusive K) (newValue : V) :
    Except Panic (Nat × List (RangeInclusive K × V) × RangeInclusive K) := do
  let r ← BTreeMap.range RangeInclusive.start .unbounded (.included newRange.start) btm
  let candidates ← filterE (fun e => e.1.touches S newRange) (r.reverse.take 2)
  match candidates with
  | [] => return (i, btm, newRange)
  | [c] => adjustTouchingRangesForInsertU A S i btm c.1 c.2 newRange newValue
  | _ :: c :: _ => adjustTouchingRangesForInsertU A S i btm c.1 c.2 newRange newValue

/-- /repo/src/inclusive_map.rs:249-374 `insert`, with the number of loop iterations bounded by
`fuel`. -/
def insertFuelU (A : Answers V) (S : StepFns K) (fuel i : Nat) (m : RangeInclusiveMap K V)
    (range : RangeInclusive K) (value : V) : Except Panic (Nat × RangeInclusiveMap K V) := do
  if ¬ range.start ≤ range.stop then throw .assertFailed
  let (i, btm, newRange) ← insertPrefixU A S i m.btm range value
  let (i, btm, newRange) ← insertLoopU A S newRange.stop value fuel i btm newRange
  return (i, ⟨BTreeMap.insert RangeInclusive.start newRange value btm⟩)

/-- /repo/src/inclusive_map.rs:717-727 `Extend::extend`, as `extend`. -/
def extendFuelU (A : Answers V) (S : StepFns K) (fuel : Nat) :
    Nat → RangeInclusiveMap K V → List (RangeInclusive K × V) →
      Nat × RangeInclusiveMap K V × Except Panic Unit
  | i, m, [] => (i, m, .ok ())
  | i, m, (r, v) :: items =>
    match m.insertFuelU A S fuel i r v with
    | .ok (i', m') => extendFuelU A S fuel i' m' items
    | .error p => (i, m, .error p)

/-- One mutating call, with a panic caught by the caller, as `apply`. (With lawful step functions an
`insert` panics only before it compares any values.) -/
def applyFuelU (A : Answers V) (S : StepFns K) (fuel i : Nat) (m : RangeInclusiveMap K V) :
    Spec.Op (RangeInclusive K) V → Nat × RangeInclusiveMap K V × Except Panic Unit
  | .insert r v =>
    match m.insertFuelU A S fuel i r v with
    | .ok (i', m') => (i', m', .ok ())
    | .error p => (i, m, .error p)
  | .remove r =>
    match m.remove S r with
    | .ok m' => (i, m', .ok ())
    | .error p => (i, m, .error p)
  | .clear => (i, m.clear, .ok ())
  | .extend items => extendFuelU A S fuel i m items

/-- As `RangeMap.Runs`. -/
inductive Runs (A : Answers V) (S : StepFns K) :
    List (Spec.Op (RangeInclusive K) V) → Nat → RangeInclusiveMap K V → Prop
  | new : Runs A S [] 0 new
  | other {ops i m} (j : Nat) : Runs A S ops i m → i ≤ j → Runs A S ops j m
  | call {ops i m} (op : Spec.Op (RangeInclusive K) V) (fuel : Nat) : Runs A S ops i m →
      (m.applyFuelU A S fuel i op).2.2 ≠ .error .diverge →
      Runs A S (ops ++ [op]) (m.applyFuelU A S fuel i op).1 (m.applyFuelU A S fuel i op).2.1

end RangeInclusiveMap
end Verif

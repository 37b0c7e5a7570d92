import Verif.Model.Collect
import Verif.Model.ICollect

/-!
# How often `insert` and `remove` call the user's comparisons and step functions

`insert` and `remove` once more, transcribed into a monad in which every comparison of keys, every
comparison of values and every call of a step function moves a meter.  Only the calls made by the
crate itself are metered here; those made inside `BTreeMap`'s methods are the subject of
`Model/TreeCmp.lean`, those of `clone` of `Model/CloneCount.lean`.  As there, the meter goes on when
the crate panics.
-/
namespace Verif

/-- Numbers of calls. -/
structure Calls where
  /-- of `<`, `<=`, `==`, `cmp`, `min` and `max` on keys -/
  cmps : Nat
  /-- of `==` and `!=` on values -/
  eqs : Nat
  /-- of `StepFns::add_one` and `StepFns::sub_one` -/
  steps : Nat
  deriving DecidableEq, Repr

instance : Add Calls := ⟨fun a b => ⟨a.cmps + b.cmps, a.eqs + b.eqs, a.steps + b.steps⟩⟩

/-- A computation with a meter, that may panic. -/
def Counted (α : Type) : Type := Calls → Except Panic α × Calls

namespace Counted
variable {α β : Type}

protected def pure (a : α) : Counted α := fun w => (.ok a, w)

protected def bind (x : Counted α) (f : α → Counted β) : Counted β := fun w =>
  match x w with
  | (.ok a, w') => f a w'
  | (.error p, w') => (.error p, w')

instance : Monad Counted where
  pure := Counted.pure
  bind := Counted.bind

/-- Something that calls no user code, and may panic. -/
def lib (x : Except Panic α) : Counted α := fun w => (x, w)

/-- Moves the meter. -/
def tick (c : Calls) : Counted Unit := fun w => (.ok (), w + c)

variable {K V : Type} [LE K] [LT K] [DecidableLE K] [DecidableLT K]

/-- `a < b` (and `b > a`). -/
def lt (a b : K) : Counted Bool := do tick ⟨1, 0, 0⟩; return decide (a < b)

/-- `a <= b`. -/
def le (a b : K) : Counted Bool := do tick ⟨1, 0, 0⟩; return decide (a ≤ b)

/-- `a == b` on keys. -/
def keyEq (a b : K) : Counted Bool := do tick ⟨1, 0, 0⟩; return keq a b

/-- `core::cmp::max`. -/
def max (a b : K) : Counted K := do tick ⟨1, 0, 0⟩; return rmax a b

/-- `core::cmp::min`. -/
def min (a b : K) : Counted K := do tick ⟨1, 0, 0⟩; return rmin a b

/-- `a == b` on values. -/
def valEq [BEq V] (a b : V) : Counted Bool := do tick ⟨0, 1, 0⟩; return a == b

/-- `StepFns::add_one`. -/
def addOne (S : StepFns K) (k : K) : Counted K := do tick ⟨0, 0, 1⟩; lib (S.addOne k)

/-- `StepFns::sub_one`. -/
def subOne (S : StepFns K) (k : K) : Counted K := do tick ⟨0, 0, 1⟩; lib (S.subOne k)

/-- `&&`: the right operand is evaluated only if the left one is true. -/
def and (a b : Counted Bool) : Counted Bool := do if ← a then b else return false

/-- std `Iterator::filter`, all elements visited in order. -/
def filter (p : α → Counted Bool) : List α → Counted (List α)
  | [] => return []
  | a :: t => do
    let b ← p a
    let t ← filter p t
    return if b then a :: t else t

end Counted

open Counted

/-- /repo/src/std_ext.rs:12-16 `overlaps`. -/
def Range.overlapsN {K : Type} [LE K] [LT K] [DecidableLE K] [DecidableLT K] (r o : Range K) :
    Counted Bool := do
  lt (← max r.start o.start) (← min r.stop o.stop)

/-- /repo/src/std_ext.rs:18-24 `touches`. -/
def Range.touchesN {K : Type} [LE K] [LT K] [DecidableLE K] [DecidableLT K] (r o : Range K) :
    Counted Bool := do
  le (← max r.start o.start) (← min r.stop o.stop)

/-- /repo/src/std_ext.rs:38-42 `overlaps`. -/
def RangeInclusive.overlapsN {K : Type} [LE K] [LT K] [DecidableLE K] [DecidableLT K]
    (r o : RangeInclusive K) : Counted Bool := do
  le (← max r.start o.start) (← min r.stop o.stop)

/-- /repo/src/std_ext.rs:44-67 `touches`. -/
def RangeInclusive.touchesN {K : Type} [LE K] [LT K] [DecidableLE K] [DecidableLT K]
    (S : StepFns K) (r o : RangeInclusive K) : Counted Bool := do
  let maxStart ← max r.start o.start
  let minRangeEnd ← min r.stop o.stop
  let minRangeEndExtended ← if ← lt minRangeEnd maxStart then addOne S minRangeEnd
    else pure minRangeEnd
  le maxStart minRangeEndExtended

namespace RangeMap
variable {K : Type} [LE K] [LT K] [DecidableLE K] [DecidableLT K] {V : Type}

/-- /repo/src/map.rs:465-482 resp. 500-513: add back the pieces left and right of `cut`. -/
def insertPiecesN (btm : List (Range K × V)) (stored : Range K) (storedValue : V) (cut : Range K) :
    Counted (List (Range K × V)) := do
  let btm ← if ← lt stored.start cut.start then
      pure (BTreeMap.insert Range.start ⟨stored.start, cut.start⟩ storedValue btm)
    else pure btm
  if ← lt cut.stop stored.stop then
    return BTreeMap.insert Range.start ⟨cut.stop, stored.stop⟩ storedValue btm
  else return btm

/-- /repo/src/map.rs:439-488 `adjust_touching_ranges_for_insert`. -/
def adjustTouchingRangesForInsertN [BEq V] (btm : List (Range K × V)) (stored : Range K)
    (storedValue : V) (newRange : Range K) (newValue : V) :
    Counted (List (Range K × V) × Range K) := do
  if ← valEq storedValue newValue then do
    let start ← min newRange.start stored.start
    let stop ← max newRange.stop stored.stop
    return (BTreeMap.remove Range.start stored.start btm, ⟨start, stop⟩)
  else if ← newRange.overlapsN stored then do
    let btm ← insertPiecesN (BTreeMap.remove Range.start stored.start btm) stored storedValue
      newRange
    return (btm, newRange)
  else return (btm, newRange)

/-- /repo/src/map.rs:326-359, the `while let` loop of `insert`. -/
def insertLoopN [BEq V] (hi : K) (newValue : V) :
    Nat → List (Range K × V) → Range K → Counted (List (Range K × V) × Range K)
  | 0, _, _ => lib (.error .diverge)
  | fuel + 1, btm, newRange => do
    let l ← lib (BTreeMap.range Range.start (.included newRange.start) (.included hi) btm)
    match l.head? with
    | none => return (btm, newRange)
    | some x =>
      -- `!=` is the negation of `==`
      if ← and (keyEq x.1.start newRange.stop) (do return !(← valEq x.2 newValue)) then
        return (btm, newRange)
      else do
        let (btm, newRange) ← adjustTouchingRangesForInsertN btm x.1 x.2 newRange newValue
        insertLoopN hi newValue fuel btm newRange

/-- /repo/src/map.rs:278-308, the first half of `insert`. -/
def insertPrefixN [BEq V] (btm : List (Range K × V)) (newRange : Range K) (newValue : V) :
    Counted (List (Range K × V) × Range K) := do
  let l ← lib (BTreeMap.range Range.start .unbounded (.included newRange.start) btm)
  let candidates ← filter (fun e => e.1.touchesN newRange) (l.reverse.take 2)
  match candidates with
  | [] => return (btm, newRange)
  | [c] => adjustTouchingRangesForInsertN btm c.1 c.2 newRange newValue
  | _ :: c :: _ => adjustTouchingRangesForInsertN btm c.1 c.2 newRange newValue

/-- /repo/src/map.rs:261-363 `insert`. -/
def insertN [BEq V] (m : RangeMap K V) (range : Range K) (value : V) : Counted (RangeMap K V) := do
  if ← lt range.start range.stop then do
    let (btm, newRange) ← insertPrefixN m.btm range value
    let (btm, newRange) ← insertLoopN newRange.stop value (m.len + 2) btm newRange
    return ⟨BTreeMap.insert Range.start newRange value btm⟩
  else lib (.error .assertFailed)

/-- /repo/src/map.rs:490-514 `adjust_overlapping_ranges_for_remove`. -/
def adjustOverlappingRangesForRemoveN (btm : List (Range K × V)) (stored : Range K)
    (storedValue : V) (rangeToRemove : Range K) : Counted (List (Range K × V)) :=
  insertPiecesN (BTreeMap.remove Range.start stored.start btm) stored storedValue rangeToRemove

/-- /repo/src/map.rs:420-436, the `while let` loop of `remove`. -/
def removeLoopN (range : Range K) : Nat → List (Range K × V) → Counted (List (Range K × V))
  | 0, _ => lib (.error .diverge)
  | fuel + 1, btm => do
    let l ← lib (BTreeMap.range Range.start (.excluded range.start) (.excluded range.stop) btm)
    match l.head? with
    | none => return btm
    | some x => do
      let btm ← adjustOverlappingRangesForRemoveN btm x.1 x.2 range
      removeLoopN range fuel btm

/-- /repo/src/map.rs:388-409, the first half of `remove`. -/
def removePrefixN (btm : List (Range K × V)) (range : Range K) : Counted (List (Range K × V)) := do
  let l ← lib (BTreeMap.range Range.start .unbounded (.included range.start) btm)
  match l.getLast? with
  | none => return btm
  | some x =>
    if ← x.1.overlapsN range then adjustOverlappingRangesForRemoveN btm x.1 x.2 range
    else return btm

/-- /repo/src/map.rs:375-437 `remove`. -/
def removeN (m : RangeMap K V) (range : Range K) : Counted (RangeMap K V) := do
  if ← lt range.start range.stop then do
    let btm ← removePrefixN m.btm range
    return ⟨← removeLoopN range (m.len + 2) btm⟩
  else lib (.error .assertFailed)

/-- /repo/src/map.rs:622-632 `Extend::extend`: insert the items in turn; a panic ends the call and
leaves the map and the meter where they are. -/
def extendN [BEq V] (m : RangeMap K V) :
    List (Range K × V) → Calls → (RangeMap K V × Except Panic Unit) × Calls
  | [], w => ((m, .ok ()), w)
  | (r, v) :: items, w =>
    match m.insertN r v w with
    | (.ok m', w) => m'.extendN items w
    | (.error p, w) => ((m, .error p), w)

/-- A mutating method, as in `apply`. -/
def applyN [BEq V] (m : RangeMap K V) (w : Calls) :
    Spec.Op (Range K) V → (RangeMap K V × Except Panic Unit) × Calls
  | .insert r v =>
    match m.insertN r v w with
    | (.ok m', w) => ((m', .ok ()), w)
    | (.error p, w) => ((m, .error p), w)
  | .remove r =>
    match m.removeN r w with
    | (.ok m', w) => ((m', .ok ()), w)
    | (.error p, w) => ((m, .error p), w)
  | .clear => ((m.clear, .ok ()), w)
  | .extend items => m.extendN items w

/-- A history of method calls (earliest first): the map and the meter after it. -/
def historyN [BEq V] (m : RangeMap K V) (w : Calls) : List (Spec.Op (Range K) V) → RangeMap K V ×
    Calls
  | [] => (m, w)
  | op :: ops => (m.applyN w op).1.1.historyN (m.applyN w op).2 ops

end RangeMap

namespace RangeInclusiveMap
variable {K : Type} [LE K] [LT K] [DecidableLE K] [DecidableLT K] {V : Type}

/-- /repo/src/inclusive_map.rs:489-508 resp. 526-543: add back the pieces left and right of `cut`.
-/
def insertPiecesN (S : StepFns K) (btm : List (RangeInclusive K × V)) (stored : RangeInclusive K)
    (storedValue : V) (cut : RangeInclusive K) : Counted (List (RangeInclusive K × V)) := do
  let btm ← if ← lt stored.start cut.start then do
      let p ← subOne S cut.start
      pure (BTreeMap.insert RangeInclusive.start (.mk' stored.start p) storedValue btm)
    else pure btm
  if ← lt cut.stop stored.stop then do
    let s ← addOne S cut.stop
    return BTreeMap.insert RangeInclusive.start (.mk' s stored.stop) storedValue btm
  else return btm

/-- /repo/src/inclusive_map.rs:462-514 `adjust_touching_ranges_for_insert`. -/
def adjustTouchingRangesForInsertN [BEq V] (S : StepFns K) (btm : List (RangeInclusive K × V))
    (stored : RangeInclusive K) (storedValue : V) (newRange : RangeInclusive K) (newValue : V) :
    Counted (List (RangeInclusive K × V) × RangeInclusive K) := do
  if ← valEq storedValue newValue then do
    let start ← min newRange.start stored.start
    let stop ← max newRange.stop stored.stop
    return (BTreeMap.remove RangeInclusive.start stored.start btm, .mk' start stop)
  else if ← newRange.overlapsN stored then do
    let btm ← insertPiecesN S (BTreeMap.remove RangeInclusive.start stored.start btm) stored
      storedValue newRange
    return (btm, newRange)
  else return (btm, newRange)

/-- /repo/src/inclusive_map.rs:335-359: does the loop of `insert` `break` at the stored entry `x`?
-/
def breakCondN [BEq V] (S : StepFns K) (hi : K) (newValue : V) (x : RangeInclusive K × V) :
    Counted Bool := do
  if ← lt hi x.1.start then do
    let latestPossibleStart ← addOne S hi
    if ← lt latestPossibleStart x.1.start then return true
    else and (keyEq x.1.start latestPossibleStart) (do return !(← valEq x.2 newValue))
  else return false

/-- /repo/src/inclusive_map.rs:321-370, the `while let` loop of `insert`. -/
def insertLoopN [BEq V] (S : StepFns K) (hi : K) (newValue : V) :
    Nat → List (RangeInclusive K × V) → RangeInclusive K →
      Counted (List (RangeInclusive K × V) × RangeInclusive K)
  | 0, _, _ => lib (.error .diverge)
  | fuel + 1, btm, newRange => do
    let l ← lib (BTreeMap.range RangeInclusive.start (.included newRange.start) .unbounded btm)
    match l.head? with
    | none => return (btm, newRange)
    | some x =>
      if ← breakCondN S hi newValue x then return (btm, newRange)
      else do
        let (btm, newRange) ← adjustTouchingRangesForInsertN S btm x.1 x.2 newRange newValue
        insertLoopN S hi newValue fuel btm newRange

/-- /repo/src/inclusive_map.rs:275-304, the first half of `insert`. -/
def insertPrefixN [BEq V] (S : StepFns K) (btm : List (RangeInclusive K × V))
    (newRange : RangeInclusive K) (newValue : V) :
    Counted (List (RangeInclusive K × V) × RangeInclusive K) := do
  let l ← lib (BTreeMap.range RangeInclusive.start .unbounded (.included newRange.start) btm)
  let candidates ← filter (fun e => e.1.touchesN S newRange) (l.reverse.take 2)
  match candidates with
  | [] => return (btm, newRange)
  | [c] => adjustTouchingRangesForInsertN S btm c.1 c.2 newRange newValue
  | _ :: c :: _ => adjustTouchingRangesForInsertN S btm c.1 c.2 newRange newValue

/-- /repo/src/inclusive_map.rs:249-374 `insert`. -/
def insertN [BEq V] (S : StepFns K) (m : RangeInclusiveMap K V) (range : RangeInclusive K)
    (value : V) : Counted (RangeInclusiveMap K V) := do
  if ← le range.start range.stop then do
    let (btm, newRange) ← insertPrefixN S m.btm range value
    let (btm, newRange) ← insertLoopN S newRange.stop value (m.len + 2) btm newRange
    return ⟨BTreeMap.insert RangeInclusive.start newRange value btm⟩
  else lib (.error .assertFailed)

/-- /repo/src/inclusive_map.rs:516-544 `adjust_overlapping_ranges_for_remove`. -/
def adjustOverlappingRangesForRemoveN (S : StepFns K) (btm : List (RangeInclusive K × V))
    (stored : RangeInclusive K) (storedValue : V) (rangeToRemove : RangeInclusive K) :
    Counted (List (RangeInclusive K × V)) :=
  insertPiecesN S (BTreeMap.remove RangeInclusive.start stored.start btm) stored storedValue
    rangeToRemove

/-- /repo/src/inclusive_map.rs:440-459, the `while let` loop of `remove`. -/
def removeLoopN (S : StepFns K) (range : RangeInclusive K) :
    Nat → List (RangeInclusive K × V) → Counted (List (RangeInclusive K × V))
  | 0, _ => lib (.error .diverge)
  | fuel + 1, btm => do
    let l ← lib (BTreeMap.range RangeInclusive.start (.excluded range.start) (.included range.stop)
      btm)
    match l.head? with
    | none => return btm
    | some x => do
      let btm ← adjustOverlappingRangesForRemoveN S btm x.1 x.2 range
      removeLoopN S range fuel btm

/-- /repo/src/inclusive_map.rs:407-428, the first half of `remove`. -/
def removePrefixN (S : StepFns K) (btm : List (RangeInclusive K × V)) (range : RangeInclusive K) :
    Counted (List (RangeInclusive K × V)) := do
  let l ← lib (BTreeMap.range RangeInclusive.start .unbounded (.included range.start) btm)
  match l.getLast? with
  | none => return btm
  | some x =>
    if ← x.1.overlapsN range then adjustOverlappingRangesForRemoveN S btm x.1 x.2 range
    else return btm

/-- /repo/src/inclusive_map.rs:386-460 `remove`. -/
def removeN (S : StepFns K) (m : RangeInclusiveMap K V) (range : RangeInclusive K) :
    Counted (RangeInclusiveMap K V) := do
  if ← le range.start range.stop then do
    let btm ← removePrefixN S m.btm range
    return ⟨← removeLoopN S range (m.len + 2) btm⟩
  else lib (.error .assertFailed)

/-- /repo/src/inclusive_map.rs:717-727 `Extend::extend`: insert the items in turn; a panic ends the
call and leaves the map and the meter where they are. -/
def extendN [BEq V] (S : StepFns K) (m : RangeInclusiveMap K V) :
    List (RangeInclusive K × V) → Calls → (RangeInclusiveMap K V × Except Panic Unit) × Calls
  | [], w => ((m, .ok ()), w)
  | (r, v) :: items, w =>
    match m.insertN S r v w with
    | (.ok m', w) => m'.extendN S items w
    | (.error p, w) => ((m, .error p), w)

/-- A mutating method, as in `apply`. -/
def applyN [BEq V] (S : StepFns K) (m : RangeInclusiveMap K V) (w : Calls) :
    Spec.Op (RangeInclusive K) V → (RangeInclusiveMap K V × Except Panic Unit) × Calls
  | .insert r v =>
    match m.insertN S r v w with
    | (.ok m', w) => ((m', .ok ()), w)
    | (.error p, w) => ((m, .error p), w)
  | .remove r =>
    match m.removeN S r w with
    | (.ok m', w) => ((m', .ok ()), w)
    | (.error p, w) => ((m, .error p), w)
  | .clear => ((m.clear, .ok ()), w)
  | .extend items => m.extendN S items w

/-- A history of method calls (earliest first): the map and the meter after it. -/
def historyN [BEq V] (S : StepFns K) (m : RangeInclusiveMap K V) (w : Calls) : List
    (Spec.Op (RangeInclusive K) V) → RangeInclusiveMap K V × Calls
  | [] => (m, w)
  | op :: ops => (m.applyN S w op).1.1.historyN S (m.applyN S w op).2 ops

end RangeInclusiveMap
end Verif

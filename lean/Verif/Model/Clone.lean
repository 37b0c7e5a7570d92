import Verif.Model.ICollect
import Verif.Model.Iter
import Verif.Model.IIter
import Verif.Model.Operations

/-!
# The calls of `Clone::clone`

In the main model a clone *is* what was cloned.  Rust only expects of `Clone` that a clone compares
equal to the original, and keys that compare equal need not be the same.  Here the functions of the
crate that clone keys or values are written again with every call of `clone` in its place: what a call
returns is up to the key resp. value type, and may be something else every time.
-/
namespace Verif

/-- A program that clones keys and values. -/
inductive Cl (K V : Type) (α : Type) : Type where
  /-- returns -/
  | ret (a : α)
  /-- panics -/
  | panic (p : Panic)
  /-- clones a key -/
  | key (k : K) (next : K → Cl K V α)
  /-- clones a value -/
  | val (v : V) (next : V → Cl K V α)

/-- What `clone` returns: at the `i`-th clone made in a call of the API, a function of the original. -/
structure Clones (K V : Type) where
  key : Nat → K → K
  val : Nat → V → V

namespace Cl
variable {K V α β : Type}

protected def bind : Cl K V α → (α → Cl K V β) → Cl K V β
  | .ret a, f => f a
  | .panic p, _ => .panic p
  | .key k next, f => .key k fun k' => (next k').bind f
  | .val v next, f => .val v fun v' => (next v').bind f

instance : Monad (Cl K V) where
  pure := Cl.ret
  bind := Cl.bind

/-- `K::clone`. -/
def cloneKey (k : K) : Cl K V K := .key k .ret

/-- `V::clone`. -/
def cloneVal (v : V) : Cl K V V := .val v .ret

/-- `Range::clone`. -/
def cloneRange (r : Range K) : Cl K V (Range K) := do
  let a ← cloneKey r.start
  let b ← cloneKey r.stop
  return ⟨a, b⟩

/-- `RangeInclusive::clone`. -/
def cloneIRange (r : RangeInclusive K) : Cl K V (RangeInclusive K) := do
  let a ← cloneKey r.start
  let b ← cloneKey r.stop
  return ⟨a, b, r.exhausted⟩

/-- Something that clones nothing. -/
def lib : Except Panic α → Cl K V α
  | .ok a => .ret a
  | .error p => .panic p

/-- Runs a program; `i` clones have been made so far. -/
def run (C : Clones K V) : Cl K V α → Nat → Except Panic α
  | .ret a, _ => .ok a
  | .panic p, _ => .error p
  | .key k next, i => run C (next (C.key i k)) (i + 1)
  | .val v next, i => run C (next (C.val i v)) (i + 1)

end Cl

namespace RangeMap
variable {K : Type} [LE K] [LT K] [DecidableLE K] [DecidableLT K] {V : Type}

/-- /repo/src/map.rs:26 `#[derive(Clone)]`: the entries are cloned one by one. -/
def cloneL : List (Range K × V) → Cl K V (List (Range K × V))
  | [] => return []
  | e :: t => do
    let r ← Cl.cloneRange e.1
    let v ← Cl.cloneVal e.2
    let t ← cloneL t
    return (r, v) :: t

/-- /repo/src/map.rs:465-473 resp. 500-506: add back the piece of the stored range left of `cut`. -/
def insertLeftL (btm : List (Range K × V)) (stored : Range K) (storedValue : V) (cut : Range K) :
    Cl K V (List (Range K × V)) :=
  if stored.start < cut.start then do
    let e ← Cl.cloneKey cut.start
    let v ← Cl.cloneVal storedValue
    return BTreeMap.insert Range.start ⟨stored.start, e⟩ v btm
  else return btm

/-- /repo/src/map.rs:474-482 resp. 507-513: add back the piece of the stored range right of `cut`. -/
def insertRightL (btm : List (Range K × V)) (stored : Range K) (storedValue : V) (cut : Range K) :
    Cl K V (List (Range K × V)) :=
  if cut.stop < stored.stop then do
    let s ← Cl.cloneKey cut.stop
    return BTreeMap.insert Range.start ⟨s, stored.stop⟩ storedValue btm
  else return btm

/-- /repo/src/map.rs:439-488 `adjust_touching_ranges_for_insert`. -/
def adjustTouchingRangesForInsertL [BEq V] (btm : List (Range K × V)) (stored : Range K)
    (storedValue : V) (newRange : Range K) (newValue : V) :
    Cl K V (List (Range K × V) × Range K) :=
  if storedValue == newValue then do
    let a ← Cl.cloneKey (rmin newRange.start stored.start)
    let b ← Cl.cloneKey (rmax newRange.stop stored.stop)
    return (BTreeMap.remove Range.start stored.start btm, ⟨a, b⟩)
  else if newRange.overlaps stored then do
    let btm := BTreeMap.remove Range.start stored.start btm
    let btm ← insertLeftL btm stored storedValue newRange
    let btm ← insertRightL btm stored storedValue newRange
    return (btm, newRange)
  else return (btm, newRange)

/-- /repo/src/map.rs:326-359, the `while let` loop of `insert`. -/
def insertLoopL [BEq V] (hi : K) (newValue : V) :
    Nat → List (Range K × V) → Range K → Cl K V (List (Range K × V) × Range K)
  | 0, _, _ => .panic .diverge
  | fuel + 1, btm, newRange => do
    let l ← Cl.lib (BTreeMap.range Range.start (.included newRange.start) (.included hi) btm)
    match l.head? with
    | none => return (btm, newRange)
    | some x =>
      if keq x.1.start newRange.stop && !(x.2 == newValue) then return (btm, newRange)
      else do
        let stored ← Cl.cloneRange x.1
        let storedValue ← Cl.cloneVal x.2
        let p ← adjustTouchingRangesForInsertL btm stored storedValue newRange newValue
        insertLoopL hi newValue fuel p.1 p.2

/-- /repo/src/map.rs:278-308, the first half of `insert`. -/
def insertPrefixL [BEq V] (btm : List (Range K × V)) (newRange : Range K) (newValue : V) :
    Cl K V (List (Range K × V) × Range K) := do
  let l ← Cl.lib (BTreeMap.range Range.start .unbounded (.included newRange.start) btm)
  match (l.reverse.take 2).filter fun e => e.1.touches newRange with
  | [] => return (btm, newRange)
  | [c] => do
    let stored ← Cl.cloneRange c.1
    let storedValue ← Cl.cloneVal c.2
    adjustTouchingRangesForInsertL btm stored storedValue newRange newValue
  | _ :: c :: _ => do
    let stored ← Cl.cloneRange c.1
    let storedValue ← Cl.cloneVal c.2
    adjustTouchingRangesForInsertL btm stored storedValue newRange newValue

/-- /repo/src/map.rs:261-363 `insert`. -/
def insertL [BEq V] (m : RangeMap K V) (range : Range K) (value : V) : Cl K V (RangeMap K V) :=
  if range.start < range.stop then do
    let p ← insertPrefixL m.btm range value
    let hi ← Cl.cloneKey p.2.stop
    let _ ← Cl.cloneKey p.2.stop
    let p ← insertLoopL hi value (m.len + 2) p.1 p.2
    return ⟨BTreeMap.insert Range.start p.2 value p.1⟩
  else .panic .assertFailed

/-- /repo/src/map.rs:490-514 `adjust_overlapping_ranges_for_remove`. -/
def adjustOverlappingRangesForRemoveL (btm : List (Range K × V)) (stored : Range K)
    (storedValue : V) (rangeToRemove : Range K) : Cl K V (List (Range K × V)) := do
  let btm := BTreeMap.remove Range.start stored.start btm
  let btm ← insertLeftL btm stored storedValue rangeToRemove
  insertRightL btm stored storedValue rangeToRemove

/-- /repo/src/map.rs:420-436, the `while let` loop of `remove`; `hi` is `new_range_end_as_start`. -/
def removeLoopL (range : Range K) (hi : K) :
    Nat → List (Range K × V) → Cl K V (List (Range K × V))
  | 0, _ => .panic .diverge
  | fuel + 1, btm => do
    let l ← Cl.lib (BTreeMap.range Range.start (.excluded range.start) (.excluded hi) btm)
    match l.head? with
    | none => return btm
    | some x => do
      let stored ← Cl.cloneRange x.1
      let storedValue ← Cl.cloneVal x.2
      let btm ← adjustOverlappingRangesForRemoveL btm stored storedValue range
      removeLoopL range hi fuel btm

/-- /repo/src/map.rs:388-409, the first half of `remove`. -/
def removePrefixL (btm : List (Range K × V)) (range : Range K) : Cl K V (List (Range K × V)) := do
  let l ← Cl.lib (BTreeMap.range Range.start .unbounded (.included range.start) btm)
  match l.getLast?.filter fun e => e.1.overlaps range with
  | none => return btm
  | some x => do
    let stored ← Cl.cloneRange x.1
    let storedValue ← Cl.cloneVal x.2
    adjustOverlappingRangesForRemoveL btm stored storedValue range

/-- /repo/src/map.rs:375-437 `remove`. -/
def removeL (m : RangeMap K V) (range : Range K) : Cl K V (RangeMap K V) :=
  if range.start < range.stop then do
    let btm ← removePrefixL m.btm range
    let hi ← Cl.cloneKey range.stop
    let _ ← Cl.cloneKey range.stop
    let btm ← removeLoopL range hi (m.len + 2) btm
    return ⟨btm⟩
  else .panic .assertFailed

/-- /repo/src/map.rs:622-632 `Extend::extend`; `C i` makes the clones for the `i`-th item. -/
def extendL [BEq V] (m : RangeMap K V) (C : Nat → Clones K V) :
    List (Range K × V) → RangeMap K V × Except Panic Unit
  | [] => (m, .ok ())
  | (r, v) :: items =>
    match (m.insertL r v).run (C 0) 0 with
    | .ok m' => m'.extendL (fun i => C (i + 1)) items
    | .error p => (m, .error p)

/-- One mutating call, with a panic caught by the caller (as `RangeMap.apply`). -/
def applyL [BEq V] (m : RangeMap K V) (C : Nat → Clones K V) :
    Spec.Op (Range K) V → RangeMap K V × Except Panic Unit
  | .insert r v =>
    match (m.insertL r v).run (C 0) 0 with
    | .ok m' => (m', .ok ())
    | .error p => (m, .error p)
  | .remove r =>
    match (m.removeL r).run (C 0) 0 with
    | .ok m' => (m', .ok ())
    | .error p => (m, .error p)
  | .clear => (m.clear, .ok ())
  | .extend items => m.extendL C items

/-- The map after a history of calls (earliest call first) on an empty map, each with the clones made
in it. -/
def runL [BEq V] (ops : List ((Nat → Clones K V) × Spec.Op (Range K) V)) : RangeMap K V :=
  ops.foldl (fun m op => (m.applyL op.1 op.2).1) new

/-- /repo/src/map.rs:161-176 `get_key_value`. -/
def getKeyValueL (m : RangeMap K V) (key : K) : Cl K V (Option (Range K × V)) := do
  let start ← Cl.cloneKey key
  let _ ← Cl.cloneKey key
  let l ← Cl.lib (BTreeMap.range Range.start .unbounded (.included start) m.btm)
  return l.getLast?.filter fun e => e.1.contains key

/-- /repo/src/map.rs:201-218 `overlapping`. -/
def overlappingL (m : RangeMap K V) (range : Range K) : Cl K V (Overlapping K V) := do
  let _ ← Cl.cloneKey range.start
  let stop ← Cl.cloneKey range.start
  let l ← Cl.lib (BTreeMap.range Range.stop (.excluded stop) .unbounded m.btm)
  return ⟨range, l⟩

/-- /repo/src/map.rs:183-199 `gaps`. -/
def gapsL (m : RangeMap K V) (outerRange : Range K) : Cl K V (Gaps K V) := do
  let o ← overlappingL m outerRange
  return ⟨outerRange.start, outerRange.stop, o.btmRangeIter⟩

namespace Gaps

/-- /repo/src/map.rs:754-761, after the `for` loop of `next`. -/
def nextTailL (candidateStart queryEnd : K) (rest : List (Range K × V)) :
    Cl K V (Option (Range K) × Gaps K V) :=
  if candidateStart < queryEnd then do
    let a ← Cl.cloneKey candidateStart
    let b ← Cl.cloneKey queryEnd
    return (some ⟨a, b⟩, ⟨queryEnd, queryEnd, rest⟩)
  else return (none, ⟨candidateStart, queryEnd, rest⟩)

/-- /repo/src/map.rs:730-752, the `for` loop of `next` over the remaining entries. -/
def nextLoopL (candidateStart queryEnd : K) :
    List (Range K × V) → Cl K V (Option (Range K) × Gaps K V)
  | [] => nextTailL candidateStart queryEnd []
  | overlap :: rest =>
    if queryEnd ≤ overlap.1.start then nextTailL candidateStart queryEnd rest
    else if candidateStart < overlap.1.start then do
      let a ← Cl.cloneKey candidateStart
      let b ← Cl.cloneKey overlap.1.start
      return (some ⟨a, b⟩, ⟨overlap.1.stop, queryEnd, rest⟩)
    else nextLoopL overlap.1.stop queryEnd rest

/-- /repo/src/map.rs:728-761 `next`. -/
def nextL (g : Gaps K V) : Cl K V (Option (Range K) × Gaps K V) :=
  nextLoopL g.candidateStart g.queryEnd g.btmRangeIter

end Gaps
end RangeMap

namespace RangeInclusiveMap
variable {K : Type} [LE K] [LT K] [DecidableLE K] [DecidableLT K] {V : Type}

/-- /repo/src/inclusive_map.rs:37 `#[derive(Clone)]`: the entries are cloned one by one. -/
def cloneL : List (RangeInclusive K × V) → Cl K V (List (RangeInclusive K × V))
  | [] => return []
  | e :: t => do
    let r ← Cl.cloneIRange e.1
    let v ← Cl.cloneVal e.2
    let t ← cloneL t
    return (r, v) :: t

/-- /repo/src/std_ext.rs:44-67 `touches`. -/
def touchesL (S : StepFns K) (r o : RangeInclusive K) : Cl K V Bool := do
  let maxStart := rmax r.start o.start
  let minRangeEnd := rmin r.stop o.stop
  let minRangeEndExtended ←
    if minRangeEnd < maxStart then Cl.lib (S.addOne minRangeEnd) else Cl.cloneKey minRangeEnd
  return decide (maxStart ≤ minRangeEndExtended)

/-- `Iterator::filter` with a closure that clones. -/
def filterL {α : Type} (p : α → Cl K V Bool) : List α → Cl K V (List α)
  | [] => return []
  | a :: t => do
    let b ← p a
    let t ← filterL p t
    return if b then a :: t else t

/-- /repo/src/inclusive_map.rs:489-498 resp. 526-534: add back the piece of the stored range left of
`cut`. -/
def insertLeftL (S : StepFns K) (btm : List (RangeInclusive K × V)) (stored : RangeInclusive K)
    (storedValue : V) (cut : RangeInclusive K) : Cl K V (List (RangeInclusive K × V)) :=
  if stored.start < cut.start then do
    let s ← Cl.cloneKey stored.start
    let e ← Cl.lib (S.subOne cut.start)
    let v ← Cl.cloneVal storedValue
    return BTreeMap.insert RangeInclusive.start (.mk' s e) v btm
  else return btm

/-- /repo/src/inclusive_map.rs:499-508 resp. 535-543: add back the piece of the stored range right of
`cut`. -/
def insertRightL (S : StepFns K) (btm : List (RangeInclusive K × V)) (stored : RangeInclusive K)
    (storedValue : V) (cut : RangeInclusive K) : Cl K V (List (RangeInclusive K × V)) :=
  if cut.stop < stored.stop then do
    let s ← Cl.lib (S.addOne cut.stop)
    let e ← Cl.cloneKey stored.stop
    return BTreeMap.insert RangeInclusive.start (.mk' s e) storedValue btm
  else return btm

/-- /repo/src/inclusive_map.rs:462-514 `adjust_touching_ranges_for_insert`. -/
def adjustTouchingRangesForInsertL [BEq V] (S : StepFns K) (btm : List (RangeInclusive K × V))
    (stored : RangeInclusive K) (storedValue : V) (newRange : RangeInclusive K) (newValue : V) :
    Cl K V (List (RangeInclusive K × V) × RangeInclusive K) :=
  if storedValue == newValue then do
    let a ← Cl.cloneKey (rmin newRange.start stored.start)
    let b ← Cl.cloneKey (rmax newRange.stop stored.stop)
    return (BTreeMap.remove RangeInclusive.start stored.start btm, .mk' a b)
  else if newRange.overlaps stored then do
    let btm := BTreeMap.remove RangeInclusive.start stored.start btm
    let btm ← insertLeftL S btm stored storedValue newRange
    let btm ← insertRightL S btm stored storedValue newRange
    return (btm, newRange)
  else return (btm, newRange)

/-- /repo/src/inclusive_map.rs:321-370, the `while let` loop of `insert` (the check whether to `break`,
335-359, clones nothing). -/
def insertLoopL [BEq V] (S : StepFns K) (hi : K) (newValue : V) :
    Nat → List (RangeInclusive K × V) → RangeInclusive K →
      Cl K V (List (RangeInclusive K × V) × RangeInclusive K)
  | 0, _, _ => .panic .diverge
  | fuel + 1, btm, newRange => do
    let l ← Cl.lib (BTreeMap.range RangeInclusive.start (.included newRange.start) .unbounded btm)
    match l.head? with
    | none => return (btm, newRange)
    | some x => do
      let b ← Cl.lib (breakCond S hi newValue x)
      if b then return (btm, newRange)
      else do
        let stored ← Cl.cloneIRange x.1
        let storedValue ← Cl.cloneVal x.2
        let p ← adjustTouchingRangesForInsertL S btm stored storedValue newRange newValue
        insertLoopL S hi newValue fuel p.1 p.2

/-- /repo/src/inclusive_map.rs:275-304, the first half of `insert`. -/
def insertPrefixL [BEq V] (S : StepFns K) (btm : List (RangeInclusive K × V))
    (newRange : RangeInclusive K) (newValue : V) :
    Cl K V (List (RangeInclusive K × V) × RangeInclusive K) := do
  let l ← Cl.lib (BTreeMap.range RangeInclusive.start .unbounded (.included newRange.start) btm)
  let candidates ← filterL (fun e => touchesL S e.1 newRange) (l.reverse.take 2)
  match candidates with
  | [] => return (btm, newRange)
  | [c] => do
    let stored ← Cl.cloneIRange c.1
    let storedValue ← Cl.cloneVal c.2
    adjustTouchingRangesForInsertL S btm stored storedValue newRange newValue
  | _ :: c :: _ => do
    let stored ← Cl.cloneIRange c.1
    let storedValue ← Cl.cloneVal c.2
    adjustTouchingRangesForInsertL S btm stored storedValue newRange newValue

/-- /repo/src/inclusive_map.rs:249-374 `insert`. -/
def insertL [BEq V] (S : StepFns K) (m : RangeInclusiveMap K V) (range : RangeInclusive K)
    (value : V) : Cl K V (RangeInclusiveMap K V) :=
  if range.start ≤ range.stop then do
    let p ← insertPrefixL S m.btm range value
    let hi ← Cl.cloneKey p.2.stop
    let hi ← Cl.cloneKey hi
    let p ← insertLoopL S hi value (m.len + 2) p.1 p.2
    return ⟨BTreeMap.insert RangeInclusive.start p.2 value p.1⟩
  else .panic .assertFailed

/-- /repo/src/inclusive_map.rs:516-544 `adjust_overlapping_ranges_for_remove`. -/
def adjustOverlappingRangesForRemoveL (S : StepFns K) (btm : List (RangeInclusive K × V))
    (stored : RangeInclusive K) (storedValue : V) (rangeToRemove : RangeInclusive K) :
    Cl K V (List (RangeInclusive K × V)) := do
  let btm := BTreeMap.remove RangeInclusive.start stored.start btm
  let btm ← insertLeftL S btm stored storedValue rangeToRemove
  insertRightL S btm stored storedValue rangeToRemove

/-- /repo/src/inclusive_map.rs:440-459, the `while let` loop of `remove`; `hi` is
`new_range_end_as_start` (438-439). -/
def removeLoopL (S : StepFns K) (range : RangeInclusive K) (hi : K) :
    Nat → List (RangeInclusive K × V) → Cl K V (List (RangeInclusive K × V))
  | 0, _ => .panic .diverge
  | fuel + 1, btm => do
    let l ← Cl.lib (BTreeMap.range RangeInclusive.start (.excluded range.start) (.included hi) btm)
    match l.head? with
    | none => return btm
    | some x => do
      let stored ← Cl.cloneIRange x.1
      let storedValue ← Cl.cloneVal x.2
      let btm ← adjustOverlappingRangesForRemoveL S btm stored storedValue range
      removeLoopL S range hi fuel btm

/-- /repo/src/inclusive_map.rs:407-428, the first half of `remove`. -/
def removePrefixL (S : StepFns K) (btm : List (RangeInclusive K × V)) (range : RangeInclusive K) :
    Cl K V (List (RangeInclusive K × V)) := do
  let l ← Cl.lib (BTreeMap.range RangeInclusive.start .unbounded (.included range.start) btm)
  match l.getLast?.filter fun e => e.1.overlaps range with
  | none => return btm
  | some x => do
    let stored ← Cl.cloneIRange x.1
    let storedValue ← Cl.cloneVal x.2
    adjustOverlappingRangesForRemoveL S btm stored storedValue range

/-- /repo/src/inclusive_map.rs:386-460 `remove`. -/
def removeL (S : StepFns K) (m : RangeInclusiveMap K V) (range : RangeInclusive K) :
    Cl K V (RangeInclusiveMap K V) :=
  if range.start ≤ range.stop then do
    let btm ← removePrefixL S m.btm range
    let hi ← Cl.cloneKey range.stop
    let _ ← Cl.cloneKey range.stop
    let btm ← removeLoopL S range hi (m.len + 2) btm
    return ⟨btm⟩
  else .panic .assertFailed

/-- /repo/src/inclusive_map.rs:717-727 `Extend::extend`; `C i` makes the clones for the `i`-th item. -/
def extendL [BEq V] (S : StepFns K) (m : RangeInclusiveMap K V) (C : Nat → Clones K V) :
    List (RangeInclusive K × V) → RangeInclusiveMap K V × Except Panic Unit
  | [] => (m, .ok ())
  | (r, v) :: items =>
    match (m.insertL S r v).run (C 0) 0 with
    | .ok m' => m'.extendL S (fun i => C (i + 1)) items
    | .error p => (m, .error p)

/-- One mutating call, with a panic caught by the caller (as `RangeInclusiveMap.apply`). -/
def applyL [BEq V] (S : StepFns K) (m : RangeInclusiveMap K V) (C : Nat → Clones K V) :
    Spec.Op (RangeInclusive K) V → RangeInclusiveMap K V × Except Panic Unit
  | .insert r v =>
    match (m.insertL S r v).run (C 0) 0 with
    | .ok m' => (m', .ok ())
    | .error p => (m, .error p)
  | .remove r =>
    match (m.removeL S r).run (C 0) 0 with
    | .ok m' => (m', .ok ())
    | .error p => (m, .error p)
  | .clear => (m.clear, .ok ())
  | .extend items => m.extendL S C items

/-- The map after a history of calls (earliest call first) on an empty map, each with the clones made
in it. -/
def runL [BEq V] (S : StepFns K)
    (ops : List ((Nat → Clones K V) × Spec.Op (RangeInclusive K) V)) : RangeInclusiveMap K V :=
  ops.foldl (fun m op => (m.applyL S op.1 op.2).1) new

/-- /repo/src/inclusive_map.rs:197-214 `get_key_value`. -/
def getKeyValueL (m : RangeInclusiveMap K V) (key : K) : Cl K V (Option (RangeInclusive K × V)) := do
  let start ← Cl.cloneKey key
  let _ ← Cl.cloneKey key
  let l ← Cl.lib (BTreeMap.range RangeInclusive.start .unbounded (.included start) m.btm)
  return l.getLast?.filter fun e => e.1.contains key

/-- /repo/src/inclusive_map.rs:565-585 `overlapping`. -/
def overlappingL (m : RangeInclusiveMap K V) (range : RangeInclusive K) : Cl K V (Overlapping K V) := do
  let _ ← Cl.cloneKey range.start
  let stop ← Cl.cloneKey range.start
  let l ← Cl.lib (BTreeMap.range RangeInclusive.stop (.included stop) .unbounded m.btm)
  return ⟨range, l⟩

/-- /repo/src/inclusive_map.rs:546-563 `gaps`. -/
def gapsL (m : RangeInclusiveMap K V) (outerRange : RangeInclusive K) : Cl K V (Gaps K V) := do
  let o ← overlappingL m outerRange
  return ⟨false, outerRange.start, outerRange.stop, o.btmRangeIter⟩

namespace Gaps

/-- /repo/src/inclusive_map.rs:862-876, after the `for` loop of `next`. -/
def nextTailL (S : StepFns K) (needsPlusOne : Bool) (candidateStart queryEnd : K)
    (rest : List (RangeInclusive K × V)) :
    Cl K V (Option (RangeInclusive K) × Gaps K V) :=
  if needsPlusOne then
    if candidateStart < queryEnd then do
      let a ← Cl.lib (S.addOne candidateStart)
      let b ← Cl.cloneKey queryEnd
      return (some (.mk' a b), ⟨true, queryEnd, queryEnd, rest⟩)
    else return (none, ⟨true, queryEnd, queryEnd, rest⟩)
  else if candidateStart ≤ queryEnd then do
    let a ← Cl.cloneKey candidateStart
    let b ← Cl.cloneKey queryEnd
    return (some (.mk' a b), ⟨true, queryEnd, queryEnd, rest⟩)
  else return (none, ⟨true, queryEnd, queryEnd, rest⟩)

/-- /repo/src/inclusive_map.rs:850-854: where the gap before the next stored range begins. -/
def curCandidateStartL (S : StepFns K) (needsPlusOne : Bool) (candidateStart : K) : Cl K V K :=
  if needsPlusOne then Cl.lib (S.addOne candidateStart) else Cl.cloneKey candidateStart

/-- /repo/src/inclusive_map.rs:836-860, the `for` loop of `next` over the remaining entries. -/
def nextLoopL (S : StepFns K) (needsPlusOne : Bool) (candidateStart queryEnd : K) :
    List (RangeInclusive K × V) → Cl K V (Option (RangeInclusive K) × Gaps K V)
  | [] => nextTailL S needsPlusOne candidateStart queryEnd []
  | overlap :: rest =>
    if queryEnd < overlap.1.start then nextTailL S needsPlusOne candidateStart queryEnd rest
    else do
      let cur ← curCandidateStartL S needsPlusOne candidateStart
      if cur < overlap.1.start then do
        let e ← Cl.lib (S.subOne overlap.1.start)
        return (some (.mk' cur e), ⟨true, overlap.1.stop, queryEnd, rest⟩)
      else nextLoopL S true overlap.1.stop queryEnd rest

/-- /repo/src/inclusive_map.rs:835-877 `next`. -/
def nextL (S : StepFns K) (g : Gaps K V) : Cl K V (Option (RangeInclusive K) × Gaps K V) :=
  nextLoopL S g.candidateNeedsPlusOne g.candidateStart g.queryEnd g.btmRangeIter

end Gaps
end RangeInclusiveMap

/-! ### `Union` and `Intersection` -/

namespace Range
variable {K : Type} [LE K] [LT K] [DecidableLE K] [DecidableLT K] {V : Type}

/-- /repo/src/operations.rs:40-52 `impl RangeMerge for Range<T>`. -/
def mergeL (self other : Range K) : Cl K V (Option (Range K)) :=
  if !self.contains other.start then return none
  else if self.stop < other.stop then do
    let b ← Cl.cloneKey other.stop
    return some { self with stop := b }
  else return some self

/-- /repo/src/operations.rs:74-85 `impl RangeIntersect for Range<T>`. -/
def intersectL (self other : Range K) : Cl K V (Option (Range K)) :=
  let start := rmax self.start other.start
  let stop := rmin self.stop other.stop
  if stop ≤ start then return none
  else do
    let a ← Cl.cloneKey start
    let b ← Cl.cloneKey stop
    return some ⟨a, b⟩

end Range

namespace RangeInclusive
variable {K : Type} [LE K] [LT K] [DecidableLE K] [DecidableLT K] {V : Type}

/-- /repo/src/operations.rs:54-66 `impl RangeMerge for RangeInclusive<T>`. -/
def mergeL (self other : RangeInclusive K) : Cl K V (Option (RangeInclusive K)) :=
  if !self.contains other.start then return none
  else if self.stop < other.stop then do
    let a ← Cl.cloneKey self.start
    let b ← Cl.cloneKey other.stop
    return some (.mk' a b)
  else return some self

/-- /repo/src/operations.rs:87-98 `impl RangeIntersect for RangeInclusive<T>`. -/
def intersectL (self other : RangeInclusive K) : Cl K V (Option (RangeInclusive K)) :=
  let start := rmax self.start other.start
  let stop := rmin self.stop other.stop
  if stop < start then return none
  else do
    let a ← Cl.cloneKey start
    let b ← Cl.cloneKey stop
    return some (.mk' a b)

end RangeInclusive

namespace Union
variable {K V R : Type}

/-- /repo/src/operations.rs:161-170, the closure `join`; `none` is `false`. -/
def joinL (merge : R → R → Cl K V (Option R)) (range : R) : List R → Cl K V (Option (R × List R))
  | [] => return none
  | next :: rest => do
    let r ← merge range next
    return r.map fun range' => (range', rest)

/-- /repo/src/operations.rs:172-177, the loop, with `fuel` iterations. -/
def mergeLoopL (merge : R → R → Cl K V (Option R)) :
    Nat → R → List R → List R → Cl K V (R × Union R)
  | 0, _, _, _ => .panic .diverge
  | fuel + 1, range, left, right => do
    let j ← joinL merge range left
    match j with
    | some p => mergeLoopL merge fuel p.1 p.2 right
    | none => do
      let j ← joinL merge range right
      match j with
      | some p => mergeLoopL merge fuel p.1 left p.2
      | none => return (range, ⟨left, right⟩)

/-- /repo/src/operations.rs:142-180 `next`. -/
def nextL [RangeOrder R] (clone : R → Cl K V R) (merge : R → R → Cl K V (Option R)) (u : Union R) :
    Cl K V (Option R × Union R) :=
  match u.first with
  | none => return (none, u)
  | some p => do
    let range ← clone p.1
    let q ← mergeLoopL merge (p.2.left.length + p.2.right.length + 1) range p.2.left p.2.right
    return (some q.1, q.2)

end Union

namespace Intersection
variable {K V R : Type}

/-- /repo/src/operations.rs:226-244, the loop of `next`, with `fuel` iterations. -/
def nextLoopL [RangeOrder R] (intersect : R → R → Cl K V (Option R)) :
    Nat → List R → List R → Cl K V (Option R × Intersection R)
  | 0, _, _ => .panic .diverge
  | fuel + 1, l :: left, r :: right => do
    let i ← intersect l r
    let rest : Intersection R :=
      if (RangeOrder.orderEnd l r).isLT then ⟨left, r :: right⟩ else ⟨l :: left, right⟩
    match i with
    | some i => return (some i, rest)
    | none => nextLoopL intersect fuel rest.left rest.right
  | _ + 1, left, right => return (none, ⟨left, right⟩)

/-- /repo/src/operations.rs:225-245 `next`. -/
def nextL [RangeOrder R] (intersect : R → R → Cl K V (Option R)) (i : Intersection R) :
    Cl K V (Option R × Intersection R) :=
  nextLoopL intersect (i.left.length + i.right.length + 1) i.left i.right

end Intersection
end Verif

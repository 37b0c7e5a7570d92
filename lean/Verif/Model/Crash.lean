import Verif.Model.Map
import Verif.Model.IMap

/-!
# `insert` and `remove` as sequences of steps that can be interrupted

The main model (`Verif/Model/Map.lean`, `Verif/Model/IMap.lean`) returns the map a call produces; it
does not say what is left in the map when code supplied by the user of the crate panics half way.
Here the same functions are written as programs over a mutable B-tree, statement by statement in the
order of the Rust code.  `user` stands for a stretch of user supplied code: calls of `Ord::cmp`,
`PartialEq::eq`, `Clone::clone`, `Drop::drop`, `StepFns::add_one` or `StepFns::sub_one` with no change
of the B-tree in between.  Any of them may panic: `panics i` says whether the `i`-th `user` of a call
does.  A panic ends the call and leaves the B-tree as it is at that point.

About std this assumes: `BTreeMap`'s methods search first and then change the tree without calling
user code in between, and drop what they took out of the tree only afterwards.  A second panic while
the first one unwinds aborts the process and needs no modelling.  Comparison, `==`, `clone` and the
step functions, when they do return, return what they always return.
-/
namespace Verif

/-- How a call ended other than by returning. -/
inductive Crash where
  /-- user supplied code panicked -/
  | user
  /-- the crate or std panicked -/
  | lib (p : Panic)
  deriving DecidableEq, Repr

/-- A program over a B-tree whose keys `R` are ordered by a `K`, with entries `R × V`: what it does
next, and how it goes on with the answer. -/
inductive Cr (K R V : Type) (α : Type) : Type where
  /-- returns -/
  | ret (a : α)
  /-- the crate or std panics -/
  | panic (p : Panic)
  /-- user supplied code runs, and may panic -/
  | call (next : Cr K R V α)
  /-- `BTreeMap::len` -/
  | size (next : Nat → Cr K R V α)
  /-- the search in the B-tree and iteration of `BTreeMap::range` -/
  | search (lo hi : Bound K) (next : List (R × V) → Cr K R V α)
  /-- the change made by `BTreeMap::insert`; the answer says whether the key was there already -/
  | put (r : R) (v : V) (next : Bool → Cr K R V α)
  /-- the change made by `BTreeMap::remove` -/
  | delete (k : K) (next : Cr K R V α)

/-- The B-tree, and how often user code has run. -/
structure CrState (E : Type) where
  calls : Nat
  btm : List E

namespace Cr
variable {K R V α β : Type}

protected def bind : Cr K R V α → (α → Cr K R V β) → Cr K R V β
  | .ret a, f => f a
  | .panic p, _ => .panic p
  | .call next, f => .call (next.bind f)
  | .size next, f => .size fun n => (next n).bind f
  | .search lo hi next, f => .search lo hi fun l => (next l).bind f
  | .put r v next, f => .put r v fun b => (next b).bind f
  | .delete k next, f => .delete k (next.bind f)

instance : Monad (Cr K R V) where
  pure := Cr.ret
  bind := Cr.bind

/-- User supplied code runs, and may panic. -/
def user : Cr K R V Unit := .call (.ret ())

/-- `BTreeMap::len`. -/
def len : Cr K R V Nat := .size .ret

/-- A result or panic of the crate or of std. -/
def lib : Except Panic α → Cr K R V α
  | .ok a => .ret a
  | .error p => .panic p

/-- `BTreeMap::range`: compares keys. -/
def range (lo hi : Bound K) : Cr K R V (List (R × V)) := .call (.search lo hi .ret)

/-- `BTreeMap::remove`: compares keys, removes the entry, and its caller drops it. -/
def remove (k : K) : Cr K R V Unit := .call (.delete k (.call (.ret ())))

/-- `BTreeMap::insert`: compares keys and inserts the entry.  If the key is present already, the
previous value and the new key are dropped. -/
def insert (r : R) (v : V) : Cr K R V Unit :=
  .call (.put r v fun present => if present then .call (.ret ()) else .ret ())

variable [LE K] [LT K] [DecidableLE K] [DecidableLT K]

/-- Runs a program on the B-tree model of `Verif/Model/Std.lean`, with the keys ordered by `key`. -/
def run (key : R → K) (panics : Nat → Bool) :
    Cr K R V α → CrState (R × V) → Except Crash α × CrState (R × V)
  | .ret a, s => (.ok a, s)
  | .panic p, s => (.error (.lib p), s)
  | .call next, s =>
    if panics s.calls then (.error .user, { s with calls := s.calls + 1 })
    else run key panics next { s with calls := s.calls + 1 }
  | .size next, s => run key panics (next s.btm.length) s
  | .search lo hi next, s =>
    match BTreeMap.range key lo hi s.btm with
    | .ok l => run key panics (next l) s
    | .error p => (.error (.lib p), s)
  | .put r v next, s =>
    run key panics (next (s.btm.any fun e => keq (key e.1) (key r)))
      { s with btm := BTreeMap.insert key r v s.btm }
  | .delete k next, s => run key panics next { s with btm := BTreeMap.remove key k s.btm }

end Cr

namespace RangeMap
variable {K : Type} [LE K] [LT K] [DecidableLE K] [DecidableLT K] {V : Type}

/-- /repo/src/map.rs:465-473 resp. 500-506: add back the piece of the stored range left of `cut`. -/
def insertLeftC (stored : Range K) (storedValue : V) (cut : Range K) : Cr K (Range K) V Unit := do
  Cr.user  -- `<`
  if stored.start < cut.start then do
    Cr.user  -- `cut.start.clone()`, `stored_value.clone()`
    Cr.insert ⟨stored.start, cut.start⟩ storedValue
  else pure ()

/-- /repo/src/map.rs:474-482 resp. 507-513: add back the piece of the stored range right of `cut`. -/
def insertRightC (stored : Range K) (storedValue : V) (cut : Range K) : Cr K (Range K) V Unit := do
  Cr.user  -- `>`
  if cut.stop < stored.stop then do
    Cr.user  -- `cut.end.clone()`
    Cr.insert ⟨cut.stop, stored.stop⟩ storedValue
  else pure ()

/-- /repo/src/map.rs:439-488 `adjust_touching_ranges_for_insert`.  Returns the new value of
`*new_range`. -/
def adjustTouchingRangesForInsertC [BEq V] (stored : Range K) (storedValue : V)
    (newRange : Range K) (newValue : V) : Cr K (Range K) V (Range K) := do
  Cr.user  -- `==`
  if storedValue == newValue then do
    Cr.user  -- `min`, `max`, `clone`, dropping the previous bounds
    Cr.remove stored.start
    Cr.user  -- dropping the arguments
    return ⟨rmin newRange.start stored.start, rmax newRange.stop stored.stop⟩
  else do
    Cr.user  -- `overlaps`
    if newRange.overlaps stored then do
      Cr.remove stored.start
      insertLeftC stored storedValue newRange
      insertRightC stored storedValue newRange
      Cr.user  -- dropping the arguments
      return newRange
    else do
      Cr.user  -- dropping the arguments
      return newRange

/-- /repo/src/map.rs:326-359, the `while let` loop of `insert`. -/
def insertLoopC [BEq V] (hi : K) (newValue : V) : Nat → Range K → Cr K (Range K) V (Range K)
  | 0, _ => Cr.lib (.error .diverge)
  | fuel + 1, newRange => do
    let l ← Cr.range (.included newRange.start) (.included hi)
    match l.head? with
    | none => return newRange
    | some x => do
      Cr.user  -- `==`, `!=`
      if keq x.1.start newRange.stop && !(x.2 == newValue) then return newRange
      else do
        Cr.user  -- `clone`
        let newRange ← adjustTouchingRangesForInsertC x.1 x.2 newRange newValue
        insertLoopC hi newValue fuel newRange

/-- /repo/src/map.rs:278-308, the first half of `insert`. -/
def insertPrefixC [BEq V] (newRange : Range K) (newValue : V) : Cr K (Range K) V (Range K) := do
  let l ← Cr.range .unbounded (.included newRange.start)
  Cr.user  -- `touches`
  match (l.reverse.take 2).filter fun e => e.1.touches newRange with
  | [] => return newRange
  | [c] => do
    Cr.user  -- `clone`
    adjustTouchingRangesForInsertC c.1 c.2 newRange newValue
  | _ :: c :: _ => do
    Cr.user  -- `clone`
    adjustTouchingRangesForInsertC c.1 c.2 newRange newValue

/-- /repo/src/map.rs:261-363 `insert`. -/
def insertProgram [BEq V] (range : Range K) (value : V) : Cr K (Range K) V Unit := do
  Cr.user  -- the comparison in `assert!`
  if range.start < range.stop then do
    let n ← Cr.len
    let newRange ← insertPrefixC range value
    Cr.user  -- `clone` of the end
    let newRange ← insertLoopC newRange.stop value (n + 2) newRange
    Cr.insert newRange value
    Cr.user  -- dropping the local variables
  else Cr.lib (.error .assertFailed)

/-- /repo/src/map.rs:490-514 `adjust_overlapping_ranges_for_remove`. -/
def adjustOverlappingRangesForRemoveC (stored : Range K) (storedValue : V)
    (rangeToRemove : Range K) : Cr K (Range K) V Unit := do
  Cr.remove stored.start
  insertLeftC stored storedValue rangeToRemove
  insertRightC stored storedValue rangeToRemove
  Cr.user  -- dropping the arguments

/-- /repo/src/map.rs:420-436, the `while let` loop of `remove`. -/
def removeLoopC (range : Range K) : Nat → Cr K (Range K) V Unit
  | 0 => Cr.lib (.error .diverge)
  | fuel + 1 => do
    let l ← Cr.range (.excluded range.start) (.excluded range.stop)
    match l.head? with
    | none => pure ()
    | some x => do
      Cr.user  -- `clone`
      adjustOverlappingRangesForRemoveC x.1 x.2 range
      removeLoopC range fuel

/-- /repo/src/map.rs:388-409, the first half of `remove`. -/
def removePrefixC (range : Range K) : Cr K (Range K) V Unit := do
  let l ← Cr.range .unbounded (.included range.start)
  Cr.user  -- `overlaps`
  match l.getLast?.filter fun e => e.1.overlaps range with
  | none => pure ()
  | some x => do
    Cr.user  -- `clone`
    adjustOverlappingRangesForRemoveC x.1 x.2 range

/-- /repo/src/map.rs:375-437 `remove`. -/
def removeProgram (range : Range K) : Cr K (Range K) V Unit := do
  Cr.user  -- the comparison in `assert!`
  if range.start < range.stop then do
    let n ← Cr.len
    removePrefixC range
    Cr.user  -- `clone` of the end
    removeLoopC range (n + 2)
    Cr.user  -- dropping the local variables
  else Cr.lib (.error .assertFailed)

/-- Calls `insert`; if user code panics on the way the panic is caught by the caller.  Returns how
the call ended, and the map left behind. -/
def insertCrash [BEq V] (panics : Nat → Bool) (m : RangeMap K V) (range : Range K) (value : V) :
    Except Crash Unit × RangeMap K V :=
  let (outcome, s) := (insertProgram range value).run Range.start panics ⟨0, m.btm⟩
  (outcome, ⟨s.btm⟩)

/-- Calls `remove`; if user code panics on the way the panic is caught by the caller. -/
def removeCrash (panics : Nat → Bool) (m : RangeMap K V) (range : Range K) :
    Except Crash Unit × RangeMap K V :=
  let (outcome, s) := (removeProgram range).run Range.start panics ⟨0, m.btm⟩
  (outcome, ⟨s.btm⟩)

end RangeMap

namespace RangeInclusiveMap
variable {K : Type} [LE K] [LT K] [DecidableLE K] [DecidableLT K] {V : Type}

/-- /repo/src/inclusive_map.rs:489-498 resp. 526-534: add back the piece of the stored range left of
`cut`. -/
def insertLeftC (S : StepFns K) (stored : RangeInclusive K) (storedValue : V)
    (cut : RangeInclusive K) : Cr K (RangeInclusive K) V Unit := do
  Cr.user  -- `<`
  if stored.start < cut.start then do
    Cr.user  -- `clone`, `sub_one`
    let p ← Cr.lib (S.subOne cut.start)
    Cr.user  -- `stored_value.clone()`
    Cr.insert (.mk' stored.start p) storedValue
  else pure ()

/-- /repo/src/inclusive_map.rs:499-508 resp. 535-543: add back the piece of the stored range right of
`cut`. -/
def insertRightC (S : StepFns K) (stored : RangeInclusive K) (storedValue : V)
    (cut : RangeInclusive K) : Cr K (RangeInclusive K) V Unit := do
  Cr.user  -- `>`
  if cut.stop < stored.stop then do
    Cr.user  -- `add_one`
    let s ← Cr.lib (S.addOne cut.stop)
    Cr.user  -- `clone`
    Cr.insert (.mk' s stored.stop) storedValue
  else pure ()

/-- /repo/src/inclusive_map.rs:462-514 `adjust_touching_ranges_for_insert`.  Returns the new value of
`*new_range`. -/
def adjustTouchingRangesForInsertC [BEq V] (S : StepFns K) (stored : RangeInclusive K)
    (storedValue : V) (newRange : RangeInclusive K) (newValue : V) :
    Cr K (RangeInclusive K) V (RangeInclusive K) := do
  Cr.user  -- `==`
  if storedValue == newValue then do
    Cr.user  -- `min`, `max`, `clone`, dropping the previous range
    Cr.remove stored.start
    Cr.user  -- dropping the arguments
    return .mk' (rmin newRange.start stored.start) (rmax newRange.stop stored.stop)
  else do
    Cr.user  -- `overlaps`
    if newRange.overlaps stored then do
      Cr.remove stored.start
      insertLeftC S stored storedValue newRange
      insertRightC S stored storedValue newRange
      Cr.user  -- dropping the arguments
      return newRange
    else do
      Cr.user  -- dropping the arguments
      return newRange

/-- /repo/src/inclusive_map.rs:335-359: does the loop of `insert` `break` at the stored entry `x`? -/
def breakCondC [BEq V] (S : StepFns K) (hi : K) (newValue : V) (x : RangeInclusive K × V) :
    Cr K (RangeInclusive K) V Bool := do
  Cr.user  -- `>`
  if hi < x.1.start then do
    Cr.user  -- `add_one`
    let latestPossibleStart ← Cr.lib (S.addOne hi)
    Cr.user  -- `>`, `==`, `!=`
    if latestPossibleStart < x.1.start then return true
    else return keq x.1.start latestPossibleStart && !(x.2 == newValue)
  else return false

/-- /repo/src/inclusive_map.rs:321-370, the `while let` loop of `insert`. -/
def insertLoopC [BEq V] (S : StepFns K) (hi : K) (newValue : V) :
    Nat → RangeInclusive K → Cr K (RangeInclusive K) V (RangeInclusive K)
  | 0, _ => Cr.lib (.error .diverge)
  | fuel + 1, newRange => do
    let l ← Cr.range (.included newRange.start) .unbounded
    match l.head? with
    | none => return newRange
    | some x => do
      let b ← breakCondC S hi newValue x
      if b then return newRange
      else do
        Cr.user  -- `clone`
        let newRange ← adjustTouchingRangesForInsertC S x.1 x.2 newRange newValue
        insertLoopC S hi newValue fuel newRange

/-- /repo/src/inclusive_map.rs:275-304, the first half of `insert`. -/
def insertPrefixC [BEq V] (S : StepFns K) (newRange : RangeInclusive K) (newValue : V) :
    Cr K (RangeInclusive K) V (RangeInclusive K) := do
  let l ← Cr.range .unbounded (.included newRange.start)
  Cr.user  -- `touches`, which calls `add_one`
  let candidates ← Cr.lib (filterE (fun e => e.1.touches S newRange) (l.reverse.take 2))
  match candidates with
  | [] => return newRange
  | [c] => do
    Cr.user  -- `clone`
    adjustTouchingRangesForInsertC S c.1 c.2 newRange newValue
  | _ :: c :: _ => do
    Cr.user  -- `clone`
    adjustTouchingRangesForInsertC S c.1 c.2 newRange newValue

/-- /repo/src/inclusive_map.rs:249-374 `insert`. -/
def insertProgram [BEq V] (S : StepFns K) (range : RangeInclusive K) (value : V) :
    Cr K (RangeInclusive K) V Unit := do
  Cr.user  -- the comparison in `assert!`
  if range.start ≤ range.stop then do
    let n ← Cr.len
    let newRange ← insertPrefixC S range value
    Cr.user  -- `clone` of the end
    let newRange ← insertLoopC S newRange.stop value (n + 2) newRange
    Cr.insert newRange value
    Cr.user  -- dropping the local variables
  else Cr.lib (.error .assertFailed)

/-- /repo/src/inclusive_map.rs:516-544 `adjust_overlapping_ranges_for_remove`. -/
def adjustOverlappingRangesForRemoveC (S : StepFns K) (stored : RangeInclusive K) (storedValue : V)
    (rangeToRemove : RangeInclusive K) : Cr K (RangeInclusive K) V Unit := do
  Cr.remove stored.start
  insertLeftC S stored storedValue rangeToRemove
  insertRightC S stored storedValue rangeToRemove
  Cr.user  -- dropping the arguments

/-- /repo/src/inclusive_map.rs:440-459, the `while let` loop of `remove`. -/
def removeLoopC (S : StepFns K) (range : RangeInclusive K) :
    Nat → Cr K (RangeInclusive K) V Unit
  | 0 => Cr.lib (.error .diverge)
  | fuel + 1 => do
    let l ← Cr.range (.excluded range.start) (.included range.stop)
    match l.head? with
    | none => pure ()
    | some x => do
      Cr.user  -- `clone`
      adjustOverlappingRangesForRemoveC S x.1 x.2 range
      removeLoopC S range fuel

/-- /repo/src/inclusive_map.rs:407-428, the first half of `remove`. -/
def removePrefixC (S : StepFns K) (range : RangeInclusive K) :
    Cr K (RangeInclusive K) V Unit := do
  let l ← Cr.range .unbounded (.included range.start)
  Cr.user  -- `overlaps`
  match l.getLast?.filter fun e => e.1.overlaps range with
  | none => pure ()
  | some x => do
    Cr.user  -- `clone`
    adjustOverlappingRangesForRemoveC S x.1 x.2 range

/-- /repo/src/inclusive_map.rs:386-460 `remove`. -/
def removeProgram (S : StepFns K) (range : RangeInclusive K) : Cr K (RangeInclusive K) V Unit := do
  Cr.user  -- the comparison in `assert!`
  if range.start ≤ range.stop then do
    let n ← Cr.len
    removePrefixC S range
    Cr.user  -- `clone` of the end
    removeLoopC S range (n + 2)
    Cr.user  -- dropping the local variables
  else Cr.lib (.error .assertFailed)

/-- Calls `insert`; if user code panics on the way the panic is caught by the caller.  Returns how
the call ended, and the map left behind. -/
def insertCrash [BEq V] (S : StepFns K) (panics : Nat → Bool) (m : RangeInclusiveMap K V)
    (range : RangeInclusive K) (value : V) : Except Crash Unit × RangeInclusiveMap K V :=
  let (outcome, s) := (insertProgram S range value).run RangeInclusive.start panics ⟨0, m.btm⟩
  (outcome, ⟨s.btm⟩)

/-- Calls `remove`; if user code panics on the way the panic is caught by the caller. -/
def removeCrash (S : StepFns K) (panics : Nat → Bool) (m : RangeInclusiveMap K V)
    (range : RangeInclusive K) : Except Crash Unit × RangeInclusiveMap K V :=
  let (outcome, s) := (removeProgram S range).run RangeInclusive.start panics ⟨0, m.btm⟩
  (outcome, ⟨s.btm⟩)

end RangeInclusiveMap
end Verif

import Verif.Model.Quickcheck
import Verif.Model.Iter
import Verif.Model.IIter

/-!
# The crate's randomised tests and fuzz targets, as programs on the model

The bodies of the `#[proptest]` functions of `/repo/src` and of the fuzz targets of
`/repo/fuzz/fuzz_targets`, with the random input as an argument.  `collect()` of an iterator is
`drain` with some `fuel`; it fails with `diverge` if the iterator has not ended by then.
-/
namespace Verif

/-- `assert!(b)` in a test. -/
def check (b : Bool) : Except Panic Unit := if b then .ok () else .error .assertFailed

/-- std `Iterator::min_by_key`: the first of the items with the least key. -/
def minByKey {α K : Type} [LT K] [DecidableLT K] (key : α → K) : List α → Option α
  | [] => none
  | a :: t => some (t.foldl (fun x y => if key y < key x then y else x) a)

/-- std `Iterator::max_by_key`: the last of the items with the greatest key. -/
def maxByKey {α K : Type} [LT K] [DecidableLT K] (key : α → K) : List α → Option α
  | [] => none
  | a :: t => some (t.foldl (fun x y => if key y < key x then x else y) a)

/-- fuzz/fuzz_targets/rangemap_coalesce.rs:8-12 `Op` (the same in the other targets). -/
inductive FuzzOp (R V : Type) where
  | insert (r : R) (v : V)
  | remove (r : R)

/-- The range an operation was given. -/
def FuzzOp.range {R V : Type} : FuzzOp R V → R
  | .insert r _ => r
  | .remove r => r

variable {K : Type} [LE K] [LT K] [DecidableLE K] [DecidableLT K] {V : Type} [BEq V]

namespace RangeMap

/-- fuzz/fuzz_targets/rangemap_coalesce.rs:14-22, rangemap_gaps.rs:15-23 `Op::apply`. -/
def fuzzApply (m : RangeMap K V) : FuzzOp (Range K) V → Except Panic (RangeMap K V)
  | .insert r v => if r.start < r.stop then m.insert r v else .ok m
  | .remove r => if r.start < r.stop then m.remove r else .ok m

/-- fuzz/fuzz_targets/rangemap_coalesce.rs:31-38, the loop over the peekable iterator. -/
def fuzzPeek : List (Range K × V) → Except Panic Unit
  | [] => .ok ()
  | [_] => .ok ()
  | e :: e' :: t =>
    if keq e.1.stop e'.1.start && e.2 == e'.2 then .error .assertFailed else fuzzPeek (e' :: t)

/-- fuzz/fuzz_targets/rangemap_coalesce.rs:24-39. -/
def fuzzCoalesce (ops : List (FuzzOp (Range K) V)) : Except Panic Unit := do
  fuzzPeek (← ops.foldlM fuzzApply new).iter

/-- fuzz/fuzz_targets/rangemap_gaps.rs:83-86, the loop over the windows. -/
def fuzzWindows : List (Range K) → Except Panic Unit
  | [] => .ok ()
  | [_] => .ok ()
  | a :: b :: t => do
    check (keq a.stop b.start)
    fuzzWindows (b :: t)

/-- fuzz/fuzz_targets/rangemap_gaps.rs:72-86, after the keys have been sorted. -/
def fuzzTiles (outer : Range K) (keys : List (Range K)) : Except Panic Unit := do
  if outer.isEmpty then check keys.isEmpty
  else
    match keys.head?, keys.getLast? with
    | some a, some b => do
      check (keq a.start outer.start)
      check (keq b.stop outer.stop)
      fuzzWindows keys
    | _, _ => .error .expectFailed

/-- fuzz/fuzz_targets/rangemap_gaps.rs:46-87. -/
def fuzzGaps (fuel : Nat) (ops : List (FuzzOp (Range K) V)) (outer : Range K) :
    Except Panic Unit := do
  let map ← ops.foldlM fuzzApply new
  let gaps ← drain Gaps.next fuel (← map.gaps outer)
  let overlapping ← drain Overlapping.next fuel (← map.overlapping outer)
  let keys := (overlapping.map fun e =>
      (⟨rmax e.1.start outer.start, rmin e.1.stop outer.stop⟩ : Range K)).filter
    fun range => !range.isEmpty
  let keys := (keys ++ gaps).mergeSort fun a b => decide (a.start ≤ b.start)
  fuzzTiles outer keys

end RangeMap

namespace RangeInclusiveMap

/-- fuzz/fuzz_targets/rangemap_inclusive_coalesce.rs:14-21, rangemap_inclusive_gaps.rs:15-22
`Op::apply`. -/
def fuzzApply (S : StepFns K) (m : RangeInclusiveMap K V) :
    FuzzOp (RangeInclusive K) V → Except Panic (RangeInclusiveMap K V)
  | .insert r v => m.insert S r v
  | .remove r => m.remove S r

/-- fuzz/fuzz_targets/rangemap_inclusive_coalesce.rs:30-37, the loop over the peekable iterator.
`nextrange.start() - 1` is checked for overflow. -/
def fuzzPeek (S : StepFns K) : List (RangeInclusive K × V) → Except Panic Unit
  | [] => .ok ()
  | [_] => .ok ()
  | e :: e' :: t => do
    if keq e.1.stop (← S.subOne e'.1.start) && e.2 == e'.2 then .error .assertFailed
    else fuzzPeek S (e' :: t)

/-- fuzz/fuzz_targets/rangemap_inclusive_coalesce.rs:23-38. -/
def fuzzCoalesce (S : StepFns K) (ops : List (FuzzOp (RangeInclusive K) V)) :
    Except Panic Unit := do
  fuzzPeek S (← ops.foldlM (fuzzApply S) new).iter

/-- fuzz/fuzz_targets/rangemap_inclusive_gaps.rs:82-85, the loop over the windows.
`*a.end() + 1` is checked for overflow. -/
def fuzzWindows (S : StepFns K) : List (RangeInclusive K) → Except Panic Unit
  | [] => .ok ()
  | [_] => .ok ()
  | a :: b :: t => do
    check (keq (← S.addOne a.stop) b.start)
    fuzzWindows S (b :: t)

/-- fuzz/fuzz_targets/rangemap_inclusive_gaps.rs:71-85, after the keys have been sorted. -/
def fuzzTiles (S : StepFns K) (outer : RangeInclusive K) (keys : List (RangeInclusive K)) :
    Except Panic Unit := do
  if outer.isEmpty then check keys.isEmpty
  else
    match keys.head?, keys.getLast? with
    | some a, some b => do
      check (keq a.start outer.start)
      check (keq b.stop outer.stop)
      fuzzWindows S keys
    | _, _ => .error .expectFailed

/-- fuzz/fuzz_targets/rangemap_inclusive_gaps.rs:45-86. -/
def fuzzGaps (S : StepFns K) (fuel : Nat) (ops : List (FuzzOp (RangeInclusive K) V))
    (outer : RangeInclusive K) : Except Panic Unit := do
  let map ← ops.foldlM (fuzzApply S) new
  let gaps ← drainE (Gaps.next S) fuel (← map.gaps outer)
  let overlapping ← drain Overlapping.next fuel (← map.overlapping outer)
  let keys := (overlapping.map fun e =>
      RangeInclusive.mk' (rmax e.1.start outer.start) (rmin e.1.stop outer.stop)).filter
    fun range => !range.isEmpty
  let keys := (keys ++ gaps).mergeSort fun a b => decide (a.start ≤ b.start)
  fuzzTiles S outer keys

end RangeInclusiveMap

/-- /repo/src/set.rs:612-620 `test_union_overlaps_u8` and 648-657 `test_intersection_overlaps_u8`,
the loop over the ranges yielded by `union` or `intersection`. -/
def RangeSet.overlapsTest (set : RangeSet K) : List (Range K) → Except Panic Unit
  | [] => .ok ()
  | range :: t => do
    check (← set.overlapping range).next.1.isNone
    overlapsTest (← set.insert range) t

/-- The same in /repo/src/inclusive_set.rs:643-651 and 679-688. -/
def RangeInclusiveSet.overlapsTest (S : StepFns K) (set : RangeInclusiveSet K) :
    List (RangeInclusive K) → Except Panic Unit
  | [] => .ok ()
  | range :: t => do
    check (← set.overlapping range).next.1.isNone
    overlapsTest S (← set.insert S range) t

end Verif

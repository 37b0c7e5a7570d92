import Verif.Model.Fuzz
import Verif.Model.Cmp
import Verif.Model.Set
import Verif.Model.ISet
import Verif.Model.Step

/-!
# The crate's property tests, as programs on the model

The bodies of the `#[proptest]` functions of `/repo/src` that are not in `Model/Fuzz.lean`, with the
random input as an argument, and the strategies that make the random maps and sets.  A failed
`assert!` or `assert_eq!` is a panic.  `collect()`/`count()` of an iterator is `drain` with some
`fuel`; `rev()` calls `next_back`.  The tests over `0..u8::MAX` take the keys as a list.
-/
namespace Verif

/-- proptest's strategy for `Range<A>`: two random values, put in order. -/
def Range.strategy {K : Type} [LT K] [DecidableLT K] (p : K × K) : Range K :=
  if p.2 < p.1 then ⟨p.2, p.1⟩ else ⟨p.1, p.2⟩

/-- proptest's strategy for `RangeInclusive<A>`: two random values, put in order. -/
def RangeInclusive.strategy {K : Type} [LT K] [DecidableLT K] (p : K × K) : RangeInclusive K :=
  if p.2 < p.1 then .mk' p.2 p.1 else .mk' p.1 p.2

namespace PropTest

/-- `test_iter_reversible`, `test_into_iter_reversible`, `test_overlapping_reversible`:
/repo/src/map.rs:903-925, set.rs:506-528, inclusive_map.rs:1019-1044 and 2011-2033,
inclusive_set.rs:535-557 and 880-902.  `eq` is the `==` of the items. -/
def reversible {S α : Type} (eq : α → α → Bool) (next nextBack : S → Option α × S) (fuel : Nat)
    (s : S) : Except Panic Unit := do
  let forward ← drain next fuel s
  let backward ← drain nextBack fuel s
  check (iterEq eq forward backward.reverse)

/-- `test_hash`: /repo/src/map.rs:952-976, set.rs:554-579, inclusive_map.rs:1071-1096 and
2038-2063, inclusive_set.rs:585-610.  `eq` is `left == right`, `hl` and `hr` are the hashes. -/
def hash {F : Type} [DecidableEq F] (eq : Bool) (hl hr : F) : Except Panic Unit := do
  if eq then check (decide (hl = hr))
  if hl ≠ hr then check (!eq)

/-- `test_ord`: /repo/src/map.rs:979-990, set.rs:581-593, inclusive_map.rs:1098-1110 and
2065-2077, inclusive_set.rs:612-624. -/
def ord (eq : Bool) (cmp : Ordering) (partialCmp : Option Ordering) : Except Panic Unit := do
  check (eq == cmp.isEq)
  match partialCmp with
  | some o => check (decide (cmp = o))
  | none => .error .expectFailed

/-- The loop over the keys of `test_arbitrary_*_u8`, `test_union_contains_u8` and
`test_intersection_contains_u8`: `assert_eq!` of what the container says and what is expected. -/
def forKeys {K α : Type} [BEq α] (values : List K) (got expected : K → Except Panic α) :
    Except Panic Unit :=
  values.forM fun value => do
    check ((← got value) == (← expected value))

end PropTest

variable {K : Type} [LE K] [LT K] [DecidableLE K] [DecidableLT K] {V : Type} [BEq V]

namespace RangeMap

/-- /repo/src/map.rs:869-873 `arbitrary_with`: collects the random entries. -/
def strategy (items : List ((K × K) × V)) : Except Panic (RangeMap K V) :=
  fromIter (items.map fun e => (Range.strategy e.1, e.2))

/-- /repo/src/map.rs:884-893 `test_len`. -/
def testLen (fuel : Nat) (map : RangeMap K V) : Except Panic Unit := do
  check (map.len == (← drain Iter.next fuel map.iterator).length)
  check (map.isEmpty == (map.len == 0))
  let map := map.clear
  check (map.len == 0)
  check map.isEmpty
  check ((← drain Iter.next fuel map.iterator).length == 0)

/-- /repo/src/map.rs:903-909 and 911-917. -/
def testIterReversible (fuel : Nat) (map : RangeMap K V) : Except Panic Unit :=
  PropTest.reversible entryEq Iter.next Iter.nextBack fuel map.iterator

/-- /repo/src/map.rs:919-925. -/
def testOverlappingReversible (fuel : Nat) (map : RangeMap K V) (range : Range K) :
    Except Panic Unit := do
  PropTest.reversible entryEq Overlapping.next Overlapping.nextBack fuel (← map.overlapping range)

/-- /repo/src/map.rs:927-950 `test_arbitrary_map_u8`. -/
def testArbitrary (ranges : List (Range K × V)) (values : List K) : Except Panic Unit := do
  let ranges := ranges.filter fun e => !keq e.1.start e.1.stop
  let set ← ranges.foldlM (fun set e => set.insert e.1 e.2) (new : RangeMap K V)
  PropTest.forKeys values set.get fun value =>
    .ok ((ranges.reverse.find? fun e => e.1.contains value).map (·.2))

/-- /repo/src/map.rs:952-976 `test_hash`. `finish` is what the hasher makes of the writes. -/
def testHash {H F : Type} [DecidableEq F] (hk : K → List H) (hv : V → List H)
    (finish : List (HashToken H) → F) (left right : RangeMap K V) : Except Panic Unit :=
  PropTest.hash (left.eq right) (finish (left.hash hk hv)) (finish (right.hash hk hv))

/-- /repo/src/map.rs:979-990 `test_ord`. -/
def testOrd (vcmp : V → V → Ordering) (left right : RangeMap K V) : Except Panic Unit :=
  PropTest.ord (left.eq right) (left.cmp vcmp right)
    (left.partialCmp (fun a b => some (vcmp a b)) right)

end RangeMap

namespace RangeSet

/-- std: derived `PartialEq` of `Range`. -/
def rangeEq (a b : Range K) : Bool := keq a.start b.start && keq a.stop b.stop

/-- /repo/src/set.rs:473-482 `arbitrary_with`: collects the random ranges that are not empty. -/
def strategy (items : List (K × K)) : Except Panic (RangeSet K) :=
  fromIter ((items.map Range.strategy).filter fun r => !keq r.start r.stop)

/-- /repo/src/set.rs:490-499 `test_len`. -/
def testLen (fuel : Nat) (map : RangeSet K) : Except Panic Unit := do
  check (map.len == (← drain Iter.next fuel map.iterator).length)
  check (map.isEmpty == (map.len == 0))
  let map := map.clear
  check (map.len == 0)
  check map.isEmpty
  check ((← drain Iter.next fuel map.iterator).length == 0)

/-- /repo/src/set.rs:506-512 and 514-520. -/
def testIterReversible (fuel : Nat) (set : RangeSet K) : Except Panic Unit :=
  PropTest.reversible rangeEq Iter.next Iter.nextBack fuel set.iterator

/-- /repo/src/set.rs:522-528. -/
def testOverlappingReversible (fuel : Nat) (set : RangeSet K) (range : Range K) :
    Except Panic Unit := do
  PropTest.reversible rangeEq Overlapping.next Overlapping.nextBack fuel (← set.overlapping range)

/-- /repo/src/set.rs:530-552 `filter_ranges` and `test_arbitrary_set_u8`. -/
def testArbitrary (ranges : List (Range K)) (values : List K) : Except Panic Unit := do
  let ranges := ranges.filter fun r => !keq r.start r.stop
  let set ← ranges.foldlM (fun set r => set.insert r) (new : RangeSet K)
  PropTest.forKeys values set.contains fun value => .ok (ranges.any fun r => r.contains value)

/-- /repo/src/set.rs:554-579 `test_hash`. -/
def testHash {H F : Type} [DecidableEq F] (hk : K → List H) (finish : List (HashToken H) → F)
    (left right : RangeSet K) : Except Panic Unit :=
  PropTest.hash (left.eq right) (finish (left.hash hk)) (finish (right.hash hk))

/-- /repo/src/set.rs:581-593 `test_ord`. -/
def testOrd (left right : RangeSet K) : Except Panic Unit :=
  PropTest.ord (left.eq right) (left.cmp right) (left.partialCmp right)

/-- /repo/src/set.rs:622-633 `test_union_contains_u8`. -/
def testUnionContains (left right : RangeSet K) (values : List K) : Except Panic Unit := do
  let union ← left.bitOr right
  PropTest.forKeys values union.contains fun value => do
    if ← left.contains value then return true else right.contains value

/-- /repo/src/set.rs:635-646 `test_intersection_contains_u8`. -/
def testIntersectionContains (left right : RangeSet K) (values : List K) :
    Except Panic Unit := do
  let intersection ← left.bitAnd right
  PropTest.forKeys values intersection.contains fun value => do
    if ← left.contains value then right.contains value else return false

/-- /repo/src/set.rs:485-488 `test_first` and 501-504 `test_last`. -/
def testFirstLast (fuel : Nat) (set : RangeSet K) : Except Panic Unit := do
  let ranges ← drain Iter.next fuel set.iterator
  match set.first, minByKey (fun r : Range K => r.start) ranges with
  | none, none => pure ()
  | some a, some b => check (rangeEq a b)
  | _, _ => .error .assertFailed
  match set.last, maxByKey (fun r : Range K => r.stop) ranges with
  | none, none => pure ()
  | some a, some b => check (rangeEq a b)
  | _, _ => .error .assertFailed

end RangeSet

namespace RangeInclusiveMap

/-- /repo/src/inclusive_map.rs:985-989 `arbitrary_with`: collects the random entries. -/
def strategy (S : StepFns K) (items : List ((K × K) × V)) :
    Except Panic (RangeInclusiveMap K V) :=
  fromIter S (items.map fun e => (RangeInclusive.strategy e.1, e.2))

/-- /repo/src/inclusive_map.rs:992-1001 and 1984-1993 `test_len`. -/
def testLen (fuel : Nat) (map : RangeInclusiveMap K V) : Except Panic Unit := do
  check (map.len == (← drain Iter.next fuel map.iterator).length)
  check (map.isEmpty == (map.len == 0))
  let map := map.clear
  check (map.len == 0)
  check map.isEmpty
  check ((← drain Iter.next fuel map.iterator).length == 0)

/-- /repo/src/inclusive_map.rs:1019-1025, 1027-1033, 2011-2017 and 2019-2025. -/
def testIterReversible (fuel : Nat) (map : RangeInclusiveMap K V) : Except Panic Unit :=
  PropTest.reversible entryEq Iter.next Iter.nextBack fuel map.iterator

/-- /repo/src/inclusive_map.rs:1035-1044 and 2027-2036. -/
def testOverlappingReversible (fuel : Nat) (map : RangeInclusiveMap K V)
    (range : RangeInclusive K) : Except Panic Unit := do
  PropTest.reversible entryEq Overlapping.next Overlapping.nextBack fuel (← map.overlapping range)

/-- /repo/src/inclusive_map.rs:1046-1069 `test_arbitrary_map_u8`. -/
def testArbitrary (S : StepFns K) (ranges : List (RangeInclusive K × V)) (values : List K) :
    Except Panic Unit := do
  let ranges := ranges.filter fun e => !keq e.1.start e.1.stop
  let set ← ranges.foldlM (fun set e => set.insert S e.1 e.2) (new : RangeInclusiveMap K V)
  PropTest.forKeys values set.get fun value =>
    .ok ((ranges.reverse.find? fun e => e.1.contains value).map (·.2))

/-- /repo/src/inclusive_map.rs:1071-1096 and 2038-2063 `test_hash`. -/
def testHash {H F : Type} [DecidableEq F] (hk : K → List H) (hv : V → List H)
    (finish : List (HashToken H) → F) (left right : RangeInclusiveMap K V) : Except Panic Unit :=
  PropTest.hash (left.eq right) (finish (left.hash hk hv)) (finish (right.hash hk hv))

/-- /repo/src/inclusive_map.rs:1098-1110 and 2065-2077 `test_ord`. -/
def testOrd (vcmp : V → V → Ordering) (left right : RangeInclusiveMap K V) : Except Panic Unit :=
  PropTest.ord (left.eq right) (left.cmp vcmp right)
    (left.partialCmp (fun a b => some (vcmp a b)) right)

end RangeInclusiveMap

namespace RangeInclusiveSet

/-- std: derived `PartialEq` of `RangeInclusive`. -/
def rangeEq (a b : RangeInclusive K) : Bool :=
  keq a.start b.start && keq a.stop b.stop && a.exhausted == b.exhausted

/-- /repo/src/inclusive_set.rs:507-511 `arbitrary_with`: collects the random ranges. -/
def strategy (S : StepFns K) (items : List (K × K)) : Except Panic (RangeInclusiveSet K) :=
  fromIter S (items.map RangeInclusive.strategy)

/-- /repo/src/inclusive_set.rs:519-528 and 864-873 `test_len`. -/
def testLen (fuel : Nat) (map : RangeInclusiveSet K) : Except Panic Unit := do
  check (map.len == (← drain Iter.next fuel map.iterator).length)
  check (map.isEmpty == (map.len == 0))
  let map := map.clear
  check (map.len == 0)
  check map.isEmpty
  check ((← drain Iter.next fuel map.iterator).length == 0)

/-- /repo/src/inclusive_set.rs:535-541, 543-549, 880-886 and 888-894. -/
def testIterReversible (fuel : Nat) (set : RangeInclusiveSet K) : Except Panic Unit :=
  PropTest.reversible rangeEq Iter.next Iter.nextBack fuel set.iterator

/-- /repo/src/inclusive_set.rs:551-557 and 896-902. -/
def testOverlappingReversible (fuel : Nat) (set : RangeInclusiveSet K)
    (range : RangeInclusive K) : Except Panic Unit := do
  PropTest.reversible rangeEq Overlapping.next Overlapping.nextBack fuel (← set.overlapping range)

/-- /repo/src/inclusive_set.rs:559-583 `filter_ranges` and `test_arbitrary_set_u8`. -/
def testArbitrary (S : StepFns K) (ranges : List (RangeInclusive K)) (values : List K) :
    Except Panic Unit := do
  let ranges := ranges.filter fun r => !keq r.start r.stop
  let set ← ranges.foldlM (fun set r => set.insert S r) (new : RangeInclusiveSet K)
  PropTest.forKeys values set.contains fun value => .ok (ranges.any fun r => r.contains value)

/-- /repo/src/inclusive_set.rs:585-610 `test_hash`. -/
def testHash {H F : Type} [DecidableEq F] (hk : K → List H) (finish : List (HashToken H) → F)
    (left right : RangeInclusiveSet K) : Except Panic Unit :=
  PropTest.hash (left.eq right) (finish (left.hash hk)) (finish (right.hash hk))

/-- /repo/src/inclusive_set.rs:612-624 `test_ord`. -/
def testOrd (left right : RangeInclusiveSet K) : Except Panic Unit :=
  PropTest.ord (left.eq right) (left.cmp right) (left.partialCmp right)

/-- /repo/src/inclusive_set.rs:653-664 `test_union_contains_u8`. -/
def testUnionContains (S : StepFns K) (left right : RangeInclusiveSet K) (values : List K) :
    Except Panic Unit := do
  let union ← left.bitOr S right
  PropTest.forKeys values union.contains fun value => do
    if ← left.contains value then return true else right.contains value

/-- /repo/src/inclusive_set.rs:666-677 `test_intersection_contains_u8`. -/
def testIntersectionContains (S : StepFns K) (left right : RangeInclusiveSet K)
    (values : List K) : Except Panic Unit := do
  let intersection ← left.bitAnd S right
  PropTest.forKeys values intersection.contains fun value => do
    if ← left.contains value then right.contains value else return false

/-- /repo/src/inclusive_set.rs:514-517, 859-862 `test_first` and 530-533, 875-878 `test_last`. -/
def testFirstLast (fuel : Nat) (set : RangeInclusiveSet K) : Except Panic Unit := do
  let ranges ← drain Iter.next fuel set.iterator
  match set.first, minByKey (fun r : RangeInclusive K => r.start) ranges with
  | none, none => pure ()
  | some a, some b => check (rangeEq a b)
  | _, _ => .error .assertFailed
  match set.last, maxByKey (fun r : RangeInclusive K => r.stop) ranges with
  | none, none => pure ()
  | some a, some b => check (rangeEq a b)
  | _, _ => .error .assertFailed

end RangeInclusiveSet

namespace NotNan
variable {eb mb : Nat}

/-- std `is_finite`. -/
def isFinite (x : NotNan eb mb) : Bool :=
  match x.val with
  | .fin _ => true
  | _ => false

/-- /repo/src/std_ext.rs:340-346 `steps_are_reversible` (an input the `prop_assume!` rejects counts
as passed). -/
def testReversible (debug : Bool) (x : NotNan eb mb) : Except Panic Unit := do
  if x.isFinite then
    check (keq (← subOne debug (← addOne debug x)) x)
    check (keq (← addOne debug (← subOne debug x)) x)

/-- /repo/src/std_ext.rs:348-353 `steps_move_in_the_right_direction`. -/
def testDirection (debug : Bool) (x : NotNan eb mb) : Except Panic Unit := do
  if x.isFinite then
    check (decide (x < (← addOne debug x)))
    check (decide ((← subOne debug x) < x))

end NotNan
end Verif

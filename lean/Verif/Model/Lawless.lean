import Verif.Model.Calls
import Verif.Model.IIter
import Verif.Model.Iter

/-!
# Comparisons and step functions that answer whatever they like

`insert`, `remove`, `get_key_value` and `gaps` once more, as programs in which every single call of
user supplied code is a node of its own that carries the arguments of the call and goes on with the
answer: the comparisons of keys (`ask`), `==` of values (`ask`), the step functions (`up`, `down`),
and the three methods of `BTreeMap` (`search`, `put`, `delete`), which call `Ord::cmp` as well.

The programs are given two meanings.

* `Wild.honest`: the comparisons answer by `<`, `≤` and `==`, the step functions are `S`, the B-tree
  is that of `Model/Std.lean`, and a meter counts the calls (`Model/Calls.lean`).
* `Wild.Ends`: nothing is known about the answers.  A comparison may say anything, and something else
  when asked again; a step function may return anything that `up` resp. `down` allow; any call may
  panic.  Of `BTreeMap` it is only assumed what is left of its contract when `Ord` is implemented
  wrongly (std: "the behavior resulting from such a logic error is not specified, but will be
  encapsulated to the `BTreeMap` [...] and not result in undefined behavior"): an iterator yields
  entries that are in the map, each at most once; `insert` adds the entry, or gives the value to an
  entry that is there, and may lose entries; `remove` may lose entries.

The crate calls `min` and `max` on references to keys only, and `Ord for &A` has the default `min` and
`max` of std, so an `Ord` implementation that overrides them makes no difference.  Not modelled:
`clone` (C65).
-/
namespace Verif

/-- A question to a comparison of keys or values. -/
inductive Ask (K V : Type) where
  /-- `a < b` (and `b > a`) -/
  | lt (a b : K)
  /-- `a <= b` -/
  | le (a b : K)
  /-- `a == b` on keys -/
  | keyEq (a b : K)
  /-- `a == b` on values -/
  | valEq (a b : V)

/-- A program over a B-tree with entries `R × V`: what it does next, and how it goes on with the
answer. -/
inductive Wild (K R V : Type) (α : Type) : Type where
  /-- returns -/
  | ret (a : α)
  /-- the crate panics -/
  | panic (p : Panic)
  /-- a comparison -/
  | ask (q : Ask K V) (next : Bool → Wild K R V α)
  /-- `StepFns::add_one` -/
  | up (k : K) (next : K → Wild K R V α)
  /-- `StepFns::sub_one` -/
  | down (k : K) (next : K → Wild K R V α)
  /-- `BTreeMap::range`, with the entries ordered by `key` -/
  | search (key : R → K) (lo hi : Bound K) (next : List (R × V) → Wild K R V α)
  /-- `BTreeMap::insert` -/
  | put (r : R) (v : V) (next : Wild K R V α)
  /-- `BTreeMap::remove` -/
  | delete (k : K) (next : Wild K R V α)

namespace Wild
variable {K R V α β : Type}

protected def bind : Wild K R V α → (α → Wild K R V β) → Wild K R V β
  | .ret a, f => f a
  | .panic p, _ => .panic p
  | .ask q next, f => .ask q fun b => (next b).bind f
  | .up k next, f => .up k fun k => (next k).bind f
  | .down k next, f => .down k fun k => (next k).bind f
  | .search key lo hi next, f => .search key lo hi fun l => (next l).bind f
  | .put r v next, f => .put r v (next.bind f)
  | .delete k next, f => .delete k (next.bind f)

instance : Monad (Wild K R V) where
  pure := Wild.ret
  bind := Wild.bind

/-- `a < b` (and `b > a`). -/
def lt (a b : K) : Wild K R V Bool := .ask (.lt a b) .ret

/-- `a <= b`. -/
def le (a b : K) : Wild K R V Bool := .ask (.le a b) .ret

/-- `a == b` on keys. -/
def keyEq (a b : K) : Wild K R V Bool := .ask (.keyEq a b) .ret

/-- `a == b` on values. -/
def valEq (a b : V) : Wild K R V Bool := .ask (.valEq a b) .ret

/-- `core::cmp::max`: one comparison decides which argument is returned. -/
def max (a b : K) : Wild K R V K := .ask (.lt b a) fun x => .ret (if x then a else b)

/-- `core::cmp::min`. -/
def min (a b : K) : Wild K R V K := .ask (.lt b a) fun x => .ret (if x then b else a)

/-- `StepFns::add_one`. -/
def addOne (k : K) : Wild K R V K := .up k .ret

/-- `StepFns::sub_one`. -/
def subOne (k : K) : Wild K R V K := .down k .ret

/-- `BTreeMap::range`. -/
def range (key : R → K) (lo hi : Bound K) : Wild K R V (List (R × V)) := .search key lo hi .ret

/-- `BTreeMap::insert`. -/
def insert (r : R) (v : V) : Wild K R V Unit := .put r v (.ret ())

/-- `BTreeMap::remove`. -/
def remove (k : K) : Wild K R V Unit := .delete k (.ret ())

/-- `&&`: the right operand is evaluated only if the left one is true. -/
def and (a b : Wild K R V Bool) : Wild K R V Bool := do if ← a then b else return false

/-- std `Iterator::filter`, all elements visited in order. -/
def filter {γ : Type} (p : γ → Wild K R V Bool) : List γ → Wild K R V (List γ)
  | [] => return []
  | a :: t => do
    let b ← p a
    let t ← filter p t
    return if b then a :: t else t

/-- `n` calls of `next` of an iterator. -/
def calls {γ σ : Type} (next : σ → Wild K R V (Option γ × σ)) :
    Nat → σ → Wild K R V (List (Option γ))
  | 0, _ => return []
  | n + 1, s => do
    let (x, s) ← next s
    return x :: (← calls next n s)

/-- The meaning of a program when everybody keeps to the rules: how it ends, the B-tree it leaves,
and the meter. -/
def honest [LE K] [LT K] [DecidableLE K] [DecidableLT K] [BEq V] (start : R → K) (S : StepFns K) :
    Wild K R V α → List (R × V) → Calls → (Except Panic α × List (R × V)) × Calls
  | .ret a, t, w => ((.ok a, t), w)
  | .panic p, t, w => ((.error p, t), w)
  | .ask (.lt a b) next, t, w => honest start S (next (decide (a < b))) t (w + ⟨1, 0, 0⟩)
  | .ask (.le a b) next, t, w => honest start S (next (decide (a ≤ b))) t (w + ⟨1, 0, 0⟩)
  | .ask (.keyEq a b) next, t, w => honest start S (next (keq a b)) t (w + ⟨1, 0, 0⟩)
  | .ask (.valEq a b) next, t, w => honest start S (next (a == b)) t (w + ⟨0, 1, 0⟩)
  | .up k next, t, w =>
    match S.addOne k with
    | .ok k => honest start S (next k) t (w + ⟨0, 0, 1⟩)
    | .error p => ((.error p, t), w + ⟨0, 0, 1⟩)
  | .down k next, t, w =>
    match S.subOne k with
    | .ok k => honest start S (next k) t (w + ⟨0, 0, 1⟩)
    | .error p => ((.error p, t), w + ⟨0, 0, 1⟩)
  | .search key lo hi next, t, w =>
    match BTreeMap.range key lo hi t with
    | .ok l => honest start S (next l) t w
    | .error p => ((.error p, t), w)
  | .put r v next, t, w => honest start S next (BTreeMap.insert start r v t) w
  | .delete k next, t, w => honest start S next (BTreeMap.remove start k t) w

/-- What `BTreeMap::insert` may do when `Ord` is implemented wrongly. -/
def PutAny (r : R) (v : V) (t t' : List (R × V)) : Prop :=
  ∀ e ∈ t', e ∈ t ∨ e = (r, v) ∨ (e.2 = v ∧ ∃ v', (e.1, v') ∈ t)

/-- The meaning of a program when nobody keeps to any rules: the program can end, on the B-tree `t`,
by returning `some` value or by a panic (`none`), and leave the B-tree `t'`.  `up` and `down` say
what the step functions may return. -/
inductive Ends (up down : K → K → Prop) :
    Wild K R V α → List (R × V) → Option α → List (R × V) → Prop where
  | ret (a : α) (t) : Ends up down (.ret a) t (some a) t
  /-- any program can be ended at any step by a panic of user code, of std or of the crate -/
  | panic (p : Wild K R V α) (t) : Ends up down p t none t
  | ask {q} {next : Bool → Wild K R V α} {t o t'} (b : Bool) (h : Ends up down (next b) t o t') :
    Ends up down (.ask q next) t o t'
  | up {k} {next : K → Wild K R V α} {t o t'} (k' : K) (hk : up k k')
    (h : Ends up down (next k') t o t') : Ends up down (.up k next) t o t'
  | down {k} {next : K → Wild K R V α} {t o t'} (k' : K) (hk : down k k')
    (h : Ends up down (next k') t o t') : Ends up down (.down k next) t o t'
  | search {key lo hi} {next : List (R × V) → Wild K R V α} {t o t'} (l : List (R × V))
    (hl : l.Sublist t) (h : Ends up down (next l) t o t') :
    Ends up down (.search key lo hi next) t o t'
  | put {r v} {next : Wild K R V α} {t o t'} (t1 : List (R × V)) (ht : PutAny r v t t1)
    (h : Ends up down next t1 o t') : Ends up down (.put r v next) t o t'
  | delete {k} {next : Wild K R V α} {t o t'} (t1 : List (R × V)) (ht : ∀ e ∈ t1, e ∈ t)
    (h : Ends up down next t1 o t') : Ends up down (.delete k next) t o t'

end Wild

/-- /repo/src/std_ext.rs:12-16 `overlaps`. -/
def Range.overlapsW {K R V : Type} (r o : Range K) : Wild K R V Bool := do
  Wild.lt (← Wild.max r.start o.start) (← Wild.min r.stop o.stop)

/-- /repo/src/std_ext.rs:18-24 `touches`. -/
def Range.touchesW {K R V : Type} (r o : Range K) : Wild K R V Bool := do
  Wild.le (← Wild.max r.start o.start) (← Wild.min r.stop o.stop)

/-- std `Range::contains`. -/
def Range.containsW {K R V : Type} (r : Range K) (k : K) : Wild K R V Bool :=
  Wild.and (Wild.le r.start k) (Wild.lt k r.stop)

/-- /repo/src/std_ext.rs:38-42 `overlaps`. -/
def RangeInclusive.overlapsW {K R V : Type} (r o : RangeInclusive K) : Wild K R V Bool := do
  Wild.le (← Wild.max r.start o.start) (← Wild.min r.stop o.stop)

/-- /repo/src/std_ext.rs:44-67 `touches`. -/
def RangeInclusive.touchesW {K R V : Type} (r o : RangeInclusive K) : Wild K R V Bool := do
  let maxStart ← Wild.max r.start o.start
  let minRangeEnd ← Wild.min r.stop o.stop
  let minRangeEndExtended ← if ← Wild.lt minRangeEnd maxStart then Wild.addOne minRangeEnd
    else pure minRangeEnd
  Wild.le maxStart minRangeEndExtended

/-- std `RangeInclusive::contains`. -/
def RangeInclusive.containsW {K R V : Type} (r : RangeInclusive K) (k : K) : Wild K R V Bool :=
  Wild.and (Wild.le r.start k) (if r.exhausted then Wild.lt k r.stop else Wild.le k r.stop)

namespace RangeMap
variable {K V : Type}

/-- /repo/src/map.rs:465-482 resp. 500-513: add back the pieces left and right of `cut`. -/
def insertPiecesW (stored : Range K) (storedValue : V) (cut : Range K) :
    Wild K (Range K) V Unit := do
  if ← Wild.lt stored.start cut.start then Wild.insert ⟨stored.start, cut.start⟩ storedValue
  if ← Wild.lt cut.stop stored.stop then Wild.insert ⟨cut.stop, stored.stop⟩ storedValue

/-- /repo/src/map.rs:439-488 `adjust_touching_ranges_for_insert`.  Returns the new value of
`*new_range`. -/
def adjustTouchingRangesForInsertW (stored : Range K) (storedValue : V) (newRange : Range K)
    (newValue : V) : Wild K (Range K) V (Range K) := do
  if ← Wild.valEq storedValue newValue then do
    let start ← Wild.min newRange.start stored.start
    let stop ← Wild.max newRange.stop stored.stop
    Wild.remove stored.start
    return ⟨start, stop⟩
  else if ← newRange.overlapsW stored then do
    Wild.remove stored.start
    insertPiecesW stored storedValue newRange
    return newRange
  else return newRange

/-- /repo/src/map.rs:326-359, the `while let` loop of `insert`. -/
def insertLoopW (hi : K) (newValue : V) : Nat → Range K → Wild K (Range K) V (Range K)
  | 0, _ => .panic .diverge
  | fuel + 1, newRange => do
    let l ← Wild.range Range.start (.included newRange.start) (.included hi)
    match l.head? with
    | none => return newRange
    | some x =>
      if ← Wild.and (Wild.keyEq x.1.start newRange.stop)
          (do return !(← Wild.valEq x.2 newValue)) then
        return newRange
      else do
        let newRange ← adjustTouchingRangesForInsertW x.1 x.2 newRange newValue
        insertLoopW hi newValue fuel newRange

/-- /repo/src/map.rs:278-308, the first half of `insert`. -/
def insertPrefixW (newRange : Range K) (newValue : V) : Wild K (Range K) V (Range K) := do
  let l ← Wild.range Range.start .unbounded (.included newRange.start)
  let candidates ← Wild.filter (fun e => e.1.touchesW newRange) (l.reverse.take 2)
  match candidates with
  | [] => return newRange
  | [c] => adjustTouchingRangesForInsertW c.1 c.2 newRange newValue
  | _ :: c :: _ => adjustTouchingRangesForInsertW c.1 c.2 newRange newValue

/-- /repo/src/map.rs:261-363 `insert`, with at most `fuel` iterations of its loop. -/
def insertW (fuel : Nat) (range : Range K) (value : V) : Wild K (Range K) V Unit := do
  if ← Wild.lt range.start range.stop then do
    let newRange ← insertPrefixW range value
    let newRange ← insertLoopW newRange.stop value fuel newRange
    Wild.insert newRange value
  else .panic .assertFailed

/-- /repo/src/map.rs:627-631 `extend`. -/
def extendW (fuel : Nat) : List (Range K × V) → Wild K (Range K) V Unit
  | [] => return ()
  | e :: items => do
    insertW fuel e.1 e.2
    extendW fuel items

/-- /repo/src/map.rs:490-514 `adjust_overlapping_ranges_for_remove`. -/
def adjustOverlappingRangesForRemoveW (stored : Range K) (storedValue : V)
    (rangeToRemove : Range K) : Wild K (Range K) V Unit := do
  Wild.remove stored.start
  insertPiecesW stored storedValue rangeToRemove

/-- /repo/src/map.rs:420-436, the `while let` loop of `remove`. -/
def removeLoopW (range : Range K) : Nat → Wild K (Range K) V Unit
  | 0 => .panic .diverge
  | fuel + 1 => do
    let l ← Wild.range Range.start (.excluded range.start) (.excluded range.stop)
    match l.head? with
    | none => return ()
    | some x => do
      adjustOverlappingRangesForRemoveW x.1 x.2 range
      removeLoopW range fuel

/-- /repo/src/map.rs:388-409, the first half of `remove`. -/
def removePrefixW (range : Range K) : Wild K (Range K) V Unit := do
  let l ← Wild.range Range.start .unbounded (.included range.start)
  match l.getLast? with
  | none => return ()
  | some x =>
    if ← x.1.overlapsW range then adjustOverlappingRangesForRemoveW x.1 x.2 range
    else return ()

/-- /repo/src/map.rs:375-437 `remove`, with at most `fuel` iterations of its loop. -/
def removeW (fuel : Nat) (range : Range K) : Wild K (Range K) V Unit := do
  if ← Wild.lt range.start range.stop then do
    removePrefixW range
    removeLoopW range fuel
  else .panic .assertFailed

/-- /repo/src/map.rs:161-176 `get_key_value`. -/
def getKeyValueW (key : K) : Wild K (Range K) V (Option (Range K × V)) := do
  let l ← Wild.range Range.start .unbounded (.included key)
  match l.getLast? with
  | none => return none
  | some x => if ← x.1.containsW key then return some x else return none

/-- /repo/src/map.rs:790-804 `Overlapping::next`. -/
def overlappingNextW (o : Overlapping K V) :
    Wild K (Range K) V (Option (Range K × V) × Overlapping K V) :=
  match o.btmRangeIter with
  | [] => return (none, ⟨o.queryRange, []⟩)
  | e :: rest => do
    if ← Wild.lt e.1.start o.queryRange.stop then return (some e, ⟨o.queryRange, rest⟩)
    else return (none, ⟨o.queryRange, rest⟩)

/-- /repo/src/map.rs:201-218 `overlapping`, and `n` calls of `next` (790-804). -/
def overlappingW (n : Nat) (query : Range K) :
    Wild K (Range K) V (List (Option (Range K × V))) := do
  let l ← Wild.range Range.stop (.excluded query.start) .unbounded
  Wild.calls overlappingNextW n (⟨query, l⟩ : Overlapping K V)

/-- /repo/src/map.rs:754-761, after the `for` loop of `Gaps::next`. -/
def gapsTailW (candidateStart queryEnd : K) (rest : List (Range K × V)) :
    Wild K (Range K) V (Option (Range K) × Gaps K V) := do
  if ← Wild.lt candidateStart queryEnd then
    return (some ⟨candidateStart, queryEnd⟩, ⟨queryEnd, queryEnd, rest⟩)
  else return (none, ⟨candidateStart, queryEnd, rest⟩)

/-- /repo/src/map.rs:730-752, the `for` loop of `Gaps::next`. -/
def gapsLoopW (candidateStart queryEnd : K) :
    List (Range K × V) → Wild K (Range K) V (Option (Range K) × Gaps K V)
  | [] => gapsTailW candidateStart queryEnd []
  | overlap :: rest => do
    if ← Wild.le queryEnd overlap.1.start then gapsTailW candidateStart queryEnd rest
    else if ← Wild.lt candidateStart overlap.1.start then
      return (some ⟨candidateStart, overlap.1.start⟩, ⟨overlap.1.stop, queryEnd, rest⟩)
    else gapsLoopW overlap.1.stop queryEnd rest

/-- /repo/src/map.rs:183-199 `gaps`, and `n` calls of `next` (728-761). -/
def gapsW (n : Nat) (outer : Range K) : Wild K (Range K) V (List (Option (Range K))) := do
  let l ← Wild.range Range.stop (.excluded outer.start) .unbounded
  Wild.calls (fun g => gapsLoopW g.candidateStart g.queryEnd g.btmRangeIter) n
    (⟨outer.start, outer.stop, l⟩ : Gaps K V)

end RangeMap

namespace RangeInclusiveMap
variable {K V : Type}

/-- /repo/src/inclusive_map.rs:489-508 resp. 526-543: add back the pieces left and right of `cut`. -/
def insertPiecesW (stored : RangeInclusive K) (storedValue : V) (cut : RangeInclusive K) :
    Wild K (RangeInclusive K) V Unit := do
  if ← Wild.lt stored.start cut.start then
    let p ← Wild.subOne cut.start
    Wild.insert (.mk' stored.start p) storedValue
  if ← Wild.lt cut.stop stored.stop then
    let s ← Wild.addOne cut.stop
    Wild.insert (.mk' s stored.stop) storedValue

/-- /repo/src/inclusive_map.rs:462-514 `adjust_touching_ranges_for_insert`. -/
def adjustTouchingRangesForInsertW (stored : RangeInclusive K) (storedValue : V)
    (newRange : RangeInclusive K) (newValue : V) :
    Wild K (RangeInclusive K) V (RangeInclusive K) := do
  if ← Wild.valEq storedValue newValue then do
    let start ← Wild.min newRange.start stored.start
    let stop ← Wild.max newRange.stop stored.stop
    Wild.remove stored.start
    return .mk' start stop
  else if ← newRange.overlapsW stored then do
    Wild.remove stored.start
    insertPiecesW stored storedValue newRange
    return newRange
  else return newRange

/-- /repo/src/inclusive_map.rs:335-359: does the loop of `insert` `break` at the stored entry `x`? -/
def breakCondW (hi : K) (newValue : V) (x : RangeInclusive K × V) :
    Wild K (RangeInclusive K) V Bool := do
  if ← Wild.lt hi x.1.start then do
    let latestPossibleStart ← Wild.addOne hi
    if ← Wild.lt latestPossibleStart x.1.start then return true
    else Wild.and (Wild.keyEq x.1.start latestPossibleStart)
          (do return !(← Wild.valEq x.2 newValue))
  else return false

/-- /repo/src/inclusive_map.rs:321-370, the `while let` loop of `insert`. -/
def insertLoopW (hi : K) (newValue : V) :
    Nat → RangeInclusive K → Wild K (RangeInclusive K) V (RangeInclusive K)
  | 0, _ => .panic .diverge
  | fuel + 1, newRange => do
    let l ← Wild.range RangeInclusive.start (.included newRange.start) .unbounded
    match l.head? with
    | none => return newRange
    | some x =>
      if ← breakCondW hi newValue x then return newRange
      else do
        let newRange ← adjustTouchingRangesForInsertW x.1 x.2 newRange newValue
        insertLoopW hi newValue fuel newRange

/-- /repo/src/inclusive_map.rs:275-304, the first half of `insert`. -/
def insertPrefixW (newRange : RangeInclusive K) (newValue : V) :
    Wild K (RangeInclusive K) V (RangeInclusive K) := do
  let l ← Wild.range RangeInclusive.start .unbounded (.included newRange.start)
  let candidates ← Wild.filter (fun e => e.1.touchesW newRange) (l.reverse.take 2)
  match candidates with
  | [] => return newRange
  | [c] => adjustTouchingRangesForInsertW c.1 c.2 newRange newValue
  | _ :: c :: _ => adjustTouchingRangesForInsertW c.1 c.2 newRange newValue

/-- /repo/src/inclusive_map.rs:249-374 `insert`, with at most `fuel` iterations of its loop. -/
def insertW (fuel : Nat) (range : RangeInclusive K) (value : V) :
    Wild K (RangeInclusive K) V Unit := do
  if ← Wild.le range.start range.stop then do
    let newRange ← insertPrefixW range value
    let newRange ← insertLoopW newRange.stop value fuel newRange
    Wild.insert newRange value
  else .panic .assertFailed

/-- /repo/src/inclusive_map.rs:722-726 `extend`. -/
def extendW (fuel : Nat) : List (RangeInclusive K × V) → Wild K (RangeInclusive K) V Unit
  | [] => return ()
  | e :: items => do
    insertW fuel e.1 e.2
    extendW fuel items

/-- /repo/src/inclusive_map.rs:516-544 `adjust_overlapping_ranges_for_remove`. -/
def adjustOverlappingRangesForRemoveW (stored : RangeInclusive K) (storedValue : V)
    (rangeToRemove : RangeInclusive K) : Wild K (RangeInclusive K) V Unit := do
  Wild.remove stored.start
  insertPiecesW stored storedValue rangeToRemove

/-- /repo/src/inclusive_map.rs:440-459, the `while let` loop of `remove`. -/
def removeLoopW (range : RangeInclusive K) : Nat → Wild K (RangeInclusive K) V Unit
  | 0 => .panic .diverge
  | fuel + 1 => do
    let l ← Wild.range RangeInclusive.start (.excluded range.start) (.included range.stop)
    match l.head? with
    | none => return ()
    | some x => do
      adjustOverlappingRangesForRemoveW x.1 x.2 range
      removeLoopW range fuel

/-- /repo/src/inclusive_map.rs:407-428, the first half of `remove`. -/
def removePrefixW (range : RangeInclusive K) : Wild K (RangeInclusive K) V Unit := do
  let l ← Wild.range RangeInclusive.start .unbounded (.included range.start)
  match l.getLast? with
  | none => return ()
  | some x =>
    if ← x.1.overlapsW range then adjustOverlappingRangesForRemoveW x.1 x.2 range
    else return ()

/-- /repo/src/inclusive_map.rs:386-460 `remove`, with at most `fuel` iterations of its loop. -/
def removeW (fuel : Nat) (range : RangeInclusive K) : Wild K (RangeInclusive K) V Unit := do
  if ← Wild.le range.start range.stop then do
    removePrefixW range
    removeLoopW range fuel
  else .panic .assertFailed

/-- /repo/src/inclusive_map.rs:197-214 `get_key_value`. -/
def getKeyValueW (key : K) :
    Wild K (RangeInclusive K) V (Option (RangeInclusive K × V)) := do
  let l ← Wild.range RangeInclusive.start .unbounded (.included key)
  match l.getLast? with
  | none => return none
  | some x => if ← x.1.containsW key then return some x else return none

/-- /repo/src/inclusive_map.rs:906-921 `Overlapping::next`. -/
def overlappingNextW (o : Overlapping K V) :
    Wild K (RangeInclusive K) V (Option (RangeInclusive K × V) × Overlapping K V) :=
  match o.btmRangeIter with
  | [] => return (none, ⟨o.queryRange, []⟩)
  | e :: rest => do
    if ← Wild.le e.1.start o.queryRange.stop then return (some e, ⟨o.queryRange, rest⟩)
    else return (none, ⟨o.queryRange, rest⟩)

/-- /repo/src/inclusive_map.rs:565-585 `overlapping`, and `n` calls of `next` (906-921). -/
def overlappingW (n : Nat) (query : RangeInclusive K) :
    Wild K (RangeInclusive K) V (List (Option (RangeInclusive K × V))) := do
  let l ← Wild.range RangeInclusive.stop (.included query.start) .unbounded
  Wild.calls overlappingNextW n (⟨query, l⟩ : Overlapping K V)

/-- /repo/src/inclusive_map.rs:862-876, after the `for` loop of `Gaps::next`. -/
def gapsTailW (needsPlusOne : Bool) (candidateStart queryEnd : K)
    (rest : List (RangeInclusive K × V)) :
    Wild K (RangeInclusive K) V (Option (RangeInclusive K) × Gaps K V) := do
  if needsPlusOne then
    if ← Wild.lt candidateStart queryEnd then
      let a ← Wild.addOne candidateStart
      return (some (.mk' a queryEnd), ⟨true, queryEnd, queryEnd, rest⟩)
    else return (none, ⟨true, queryEnd, queryEnd, rest⟩)
  else if ← Wild.le candidateStart queryEnd then
    return (some (.mk' candidateStart queryEnd), ⟨true, queryEnd, queryEnd, rest⟩)
  else return (none, ⟨true, queryEnd, queryEnd, rest⟩)

/-- /repo/src/inclusive_map.rs:836-860, the `for` loop of `Gaps::next`. -/
def gapsLoopW (needsPlusOne : Bool) (candidateStart queryEnd : K) :
    List (RangeInclusive K × V) →
      Wild K (RangeInclusive K) V (Option (RangeInclusive K) × Gaps K V)
  | [] => gapsTailW needsPlusOne candidateStart queryEnd []
  | overlap :: rest => do
    if ← Wild.lt queryEnd overlap.1.start then gapsTailW needsPlusOne candidateStart queryEnd rest
    else
      let cur ← if needsPlusOne then Wild.addOne candidateStart else pure candidateStart
      if ← Wild.lt cur overlap.1.start then
        let e ← Wild.subOne overlap.1.start
        return (some (.mk' cur e), ⟨true, overlap.1.stop, queryEnd, rest⟩)
      else gapsLoopW true overlap.1.stop queryEnd rest

/-- /repo/src/inclusive_map.rs:546-563 `gaps`, and `n` calls of `next` (835-877). -/
def gapsW (n : Nat) (outer : RangeInclusive K) :
    Wild K (RangeInclusive K) V (List (Option (RangeInclusive K))) := do
  let l ← Wild.range RangeInclusive.stop (.included outer.start) .unbounded
  Wild.calls (fun g => gapsLoopW g.candidateNeedsPlusOne g.candidateStart g.queryEnd g.btmRangeIter)
    n (⟨false, outer.start, outer.stop, l⟩ : Gaps K V)

end RangeInclusiveMap
end Verif

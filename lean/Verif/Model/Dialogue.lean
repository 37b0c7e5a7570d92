import Verif.Model.Map
import Verif.Model.IMap
import Verif.Model.Iter
import Verif.Model.IIter
import Verif.Model.Collect
import Verif.Model.ICollect
import Verif.Model.Cmp
import Verif.Spec

/-!
# Programs that hold several maps

A program holds any number of maps, numbered by `Nat` and all empty at first, and makes one call
after another.  Which call comes next may depend on every answer so far, so that a program is a
function from the answers to the next call (`none`: it ends).  A panic is caught: the call answers
`panicked`, and the program may go on with the maps as the panic left them.

A borrowed iterator cannot outlive the next call that changes its map, so each is created, asked
and dropped within one call: `iter`, `overlapping` and `gaps` come with the `next` and `next_back`
calls made on the iterator.
-/
namespace Verif

/-- One call of a program.  Ranges are given by their two ends, to be read as `start..stop` for a
`RangeMap` and as `start..=stop` for a `RangeInclusiveMap`. -/
inductive Call (K V : Type) where
  /-- `maps[i].insert(r, v)` -/
  | insert (i : Nat) (r : Range K) (v : V)
  /-- `maps[i].remove(r)` -/
  | remove (i : Nat) (r : Range K)
  /-- `maps[i].clear()` -/
  | clear (i : Nat)
  /-- `maps[i].extend(items)` -/
  | extend (i : Nat) (items : List (Range K × V))
  /-- `maps[i] = items.collect()` -/
  | collect (i : Nat) (items : List (Range K × V))
  /-- `maps[i] = maps[j].clone()` -/
  | copy (i j : Nat)
  /-- `maps[i].extend(maps[j].clone())` -/
  | append (i j : Nat)
  /-- `maps[i].get(&k)` -/
  | get (i : Nat) (k : K)
  /-- `maps[i].get_key_value(&k)` -/
  | getKeyValue (i : Nat) (k : K)
  /-- `maps[i].contains_key(&k)` -/
  | containsKey (i : Nat) (k : K)
  /-- `maps[i].len()` -/
  | len (i : Nat)
  /-- `maps[i].is_empty()` -/
  | isEmpty (i : Nat)
  /-- `maps[i].first_range_value()` -/
  | first (i : Nat)
  /-- `maps[i].last_range_value()` -/
  | last (i : Nat)
  /-- `maps[i].iter()`, with calls at both ends -/
  | iter (i : Nat) (cs : List Spec.End)
  /-- `maps[i].overlapping(q)`, with calls at both ends -/
  | overlapping (i : Nat) (q : Range K) (cs : List Spec.End)
  /-- `maps[i].overlaps(q)` -/
  | overlaps (i : Nat) (q : Range K)
  /-- `maps[i].gaps(q)`, with `n` calls of `next` -/
  | gaps (i : Nat) (q : Range K) (n : Nat)
  /-- `maps[i] == maps[j]` -/
  | eq (i j : Nat)

/-- What a call answers; `R` is the type of the ranges. -/
inductive Answer (R V : Type) where
  | done
  | panicked
  | value (v : Option V)
  | entry (e : Option (R × V))
  | flag (b : Bool)
  | number (n : Nat)
  | entries (l : List (Option (R × V)))
  | ranges (l : List (Option R))

/-- The answer of a call that may panic. -/
def Answer.of {R V α : Type} (f : α → Answer R V) : Except Panic α → Answer R V
  | .ok a => f a
  | .error _ => .panicked

/-- A program: from the answers so far (the last one first) to the next call. -/
abbrev Program (R K V : Type) := List (Answer R V) → Option (Call K V)

/-- `maps` with another map at `i`. -/
def store {M : Type} (maps : Nat → M) (i : Nat) (m : M) : Nat → M :=
  fun j => if j = i then m else maps j

namespace RangeMap
variable {K : Type} [LE K] [LT K] [DecidableLE K] [DecidableLT K] {V : Type} [BEq V]

/-- One call: the answer, and the maps afterwards.  `insert`, `remove` (/repo/src/map.rs:261-264,
375-378) and `from_iter` (610-619) that panic leave the map as it was; `extend` (622-632) keeps what
it has inserted before the panic. -/
def perform (maps : Nat → RangeMap K V) : Call K V → Answer (Range K) V × (Nat → RangeMap K V)
  | .insert i r v =>
    match (maps i).insert r v with
    | .ok m => (.done, store maps i m)
    | .error _ => (.panicked, maps)
  | .remove i r =>
    match (maps i).remove r with
    | .ok m => (.done, store maps i m)
    | .error _ => (.panicked, maps)
  | .clear i => (.done, store maps i (maps i).clear)
  | .extend i items =>
    (.of (fun _ => .done) ((maps i).extend items).2, store maps i ((maps i).extend items).1)
  | .collect i items =>
    match fromIter items with
    | .ok m => (.done, store maps i m)
    | .error _ => (.panicked, maps)
  | .copy i j => (.done, store maps i (maps j))
  | .append i j =>
    (.of (fun _ => .done) ((maps i).extend (maps j).iter).2,
      store maps i ((maps i).extend (maps j).iter).1)
  | .get i k => (.of .value ((maps i).get k), maps)
  | .getKeyValue i k => (.of .entry ((maps i).getKeyValue k), maps)
  | .containsKey i k => (.of .flag ((maps i).containsKey k), maps)
  | .len i => (.number (maps i).len, maps)
  | .isEmpty i => (.flag (maps i).isEmpty, maps)
  | .first i => (.entry (maps i).firstRangeValue, maps)
  | .last i => (.entry (maps i).lastRangeValue, maps)
  | .iter i cs => (.entries (Spec.script Iter.next Iter.nextBack cs (maps i).iterator), maps)
  | .overlapping i q cs =>
    (.of (fun o => .entries (Spec.script Overlapping.next Overlapping.nextBack cs o))
      ((maps i).overlapping q), maps)
  | .overlaps i q => (.of .flag ((maps i).overlaps q), maps)
  | .gaps i q n => (.of (fun g => .ranges (Spec.calls Gaps.next n g)) ((maps i).gaps q), maps)
  | .eq i j => (.flag ((maps i).eq (maps j)), maps)

/-- At most `n` calls of a program: all the answers, the last one first. -/
def dialogue (program : Program (Range K) K V) : Nat → List (Answer (Range K) V) →
    (Nat → RangeMap K V) → List (Answer (Range K) V)
  | 0, answers, _ => answers
  | n + 1, answers, maps =>
    match program answers with
    | none => answers
    | some c => dialogue program n ((perform maps c).1 :: answers) (perform maps c).2

end RangeMap

/-- `start..=stop` -/
def Range.closed {K : Type} (r : Range K) : RangeInclusive K := .mk' r.start r.stop

namespace RangeInclusiveMap
variable {K : Type} [LE K] [LT K] [DecidableLE K] [DecidableLT K] {V : Type} [BEq V]

/-- One call: the answer, and the maps afterwards.  `insert`, `remove`
(/repo/src/inclusive_map.rs:249-258, 386-395) and `from_iter` (705-715) that panic leave the map as
it was; `extend` (717-727) keeps what it has inserted before the panic. -/
def perform (S : StepFns K) (maps : Nat → RangeInclusiveMap K V) : Call K V →
    Answer (RangeInclusive K) V × (Nat → RangeInclusiveMap K V)
  | .insert i r v =>
    match (maps i).insert S r.closed v with
    | .ok m => (.done, store maps i m)
    | .error _ => (.panicked, maps)
  | .remove i r =>
    match (maps i).remove S r.closed with
    | .ok m => (.done, store maps i m)
    | .error _ => (.panicked, maps)
  | .clear i => (.done, store maps i (maps i).clear)
  | .extend i items =>
    let r := (maps i).extend S (items.map fun e => (e.1.closed, e.2))
    (.of (fun _ => .done) r.2, store maps i r.1)
  | .collect i items =>
    match fromIter S (items.map fun e => (e.1.closed, e.2)) with
    | .ok m => (.done, store maps i m)
    | .error _ => (.panicked, maps)
  | .copy i j => (.done, store maps i (maps j))
  | .append i j =>
    (.of (fun _ => .done) ((maps i).extend S (maps j).iter).2,
      store maps i ((maps i).extend S (maps j).iter).1)
  | .get i k => (.of .value ((maps i).get k), maps)
  | .getKeyValue i k => (.of .entry ((maps i).getKeyValue k), maps)
  | .containsKey i k => (.of .flag ((maps i).containsKey k), maps)
  | .len i => (.number (maps i).len, maps)
  | .isEmpty i => (.flag (maps i).isEmpty, maps)
  | .first i => (.entry (maps i).firstRangeValue, maps)
  | .last i => (.entry (maps i).lastRangeValue, maps)
  | .iter i cs => (.entries (Spec.script Iter.next Iter.nextBack cs (maps i).iterator), maps)
  | .overlapping i q cs =>
    (.of (fun o => .entries (Spec.script Overlapping.next Overlapping.nextBack cs o))
      ((maps i).overlapping q.closed), maps)
  | .overlaps i q => (.of .flag ((maps i).overlaps q.closed), maps)
  | .gaps i q n => (.of .ranges ((maps i).gaps q.closed >>= Spec.callsE (Gaps.next S) n), maps)
  | .eq i j => (.flag ((maps i).eq (maps j)), maps)

/-- At most `n` calls of a program: all the answers, the last one first. -/
def dialogue (S : StepFns K) (program : Program (RangeInclusive K) K V) :
    Nat → List (Answer (RangeInclusive K) V) → (Nat → RangeInclusiveMap K V) →
    List (Answer (RangeInclusive K) V)
  | 0, answers, _ => answers
  | n + 1, answers, maps =>
    match program answers with
    | none => answers
    | some c => dialogue S program n ((perform S maps c).1 :: answers) (perform S maps c).2

end RangeInclusiveMap
end Verif

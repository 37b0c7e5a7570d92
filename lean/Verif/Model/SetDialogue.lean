import Verif.Model.Dialogue
import Verif.Model.Set
import Verif.Model.ISet

/-!
# Programs that hold several sets

As in `Verif.Model.Dialogue`: sets numbered by `Nat`, all empty at first, calls that may depend on
every answer so far, panics caught, and iterators that are created, asked and dropped within one
call.
-/
namespace Verif

/-- One call of a program.  Ranges are given by their two ends, to be read as `start..stop` for a
`RangeSet` and as `start..=stop` for a `RangeInclusiveSet`. -/
inductive SetCall (K : Type) where
  /-- `sets[i].insert(r)` -/
  | insert (i : Nat) (r : Range K)
  /-- `sets[i].remove(r)` -/
  | remove (i : Nat) (r : Range K)
  /-- `sets[i].clear()` -/
  | clear (i : Nat)
  /-- `sets[i].extend(items)` -/
  | extend (i : Nat) (items : List (Range K))
  /-- `sets[i] = items.collect()` -/
  | collect (i : Nat) (items : List (Range K))
  /-- `sets[i] = sets[j].clone()` -/
  | copy (i j : Nat)
  /-- `sets[i].extend(sets[j].clone())` -/
  | append (i j : Nat)
  /-- `sets[i] = &sets[j] | &sets[l]` -/
  | or (i j l : Nat)
  /-- `sets[i] = &sets[j] & &sets[l]` -/
  | and (i j l : Nat)
  /-- `sets[i].contains(&k)` -/
  | contains (i : Nat) (k : K)
  /-- `sets[i].get(&k)` -/
  | get (i : Nat) (k : K)
  /-- `sets[i].len()` -/
  | len (i : Nat)
  /-- `sets[i].is_empty()` -/
  | isEmpty (i : Nat)
  /-- `sets[i].first()` -/
  | first (i : Nat)
  /-- `sets[i].last()` -/
  | last (i : Nat)
  /-- `sets[i].iter()`, with calls at both ends -/
  | iter (i : Nat) (cs : List Spec.End)
  /-- `sets[i].overlapping(q)`, with calls at both ends -/
  | overlapping (i : Nat) (q : Range K) (cs : List Spec.End)
  /-- `sets[i].overlaps(q)` -/
  | overlaps (i : Nat) (q : Range K)
  /-- `sets[i].gaps(q)`, with `n` calls of `next` -/
  | gaps (i : Nat) (q : Range K) (n : Nat)
  /-- `sets[i].union(&sets[j])`, with `n` calls of `next` -/
  | union (i j n : Nat)
  /-- `sets[i].intersection(&sets[j])`, with `n` calls of `next` -/
  | intersection (i j n : Nat)
  /-- `sets[i] == sets[j]` -/
  | eq (i j : Nat)

/-- What a call answers; `R` is the type of the ranges. -/
inductive SetAnswer (R : Type) where
  | done
  | panicked
  | range (r : Option R)
  | flag (b : Bool)
  | number (n : Nat)
  | ranges (l : List (Option R))
  deriving DecidableEq

/-- The answer of a call that may panic. -/
def SetAnswer.of {R α : Type} (f : α → SetAnswer R) : Except Panic α → SetAnswer R
  | .ok a => f a
  | .error _ => .panicked

/-- A program: from the answers so far (the last one first) to the next call. -/
abbrev SetProgram (R K : Type) := List (SetAnswer R) → Option (SetCall K)

/-- A call that makes a new set for `i`, unless it panics. -/
def renew {R M : Type} (sets : Nat → M) (i : Nat) :
    Except Panic M → SetAnswer R × (Nat → M)
  | .ok s => (.done, store sets i s)
  | .error _ => (.panicked, sets)

namespace RangeSet
variable {K : Type} [LE K] [LT K] [DecidableLE K] [DecidableLT K]

/-- One call: the answer, and the sets afterwards.  `insert` and `remove` that panic leave the set
as it was (/repo/src/set.rs:126-128, 139-141 and the assertions of the map), and so do `from_iter`
(266-275), `bitor` and `bitand` (417-431); `extend` (277-286) keeps what it has inserted before the
panic. -/
def perform (sets : Nat → RangeSet K) : SetCall K → SetAnswer (Range K) × (Nat → RangeSet K)
  | .insert i r => renew sets i ((sets i).insert r)
  | .remove i r => renew sets i ((sets i).remove r)
  | .clear i => (.done, store sets i (sets i).clear)
  | .extend i items =>
    (.of (fun _ => .done) ((sets i).extend items).2, store sets i ((sets i).extend items).1)
  | .collect i items => renew sets i (fromIter items)
  | .copy i j => (.done, store sets i (sets j))
  | .append i j =>
    (.of (fun _ => .done) ((sets i).extend (sets j).iter).2,
      store sets i ((sets i).extend (sets j).iter).1)
  | .or i j l => renew sets i ((sets j).bitOr (sets l))
  | .and i j l => renew sets i ((sets j).bitAnd (sets l))
  | .contains i k => (.of .flag ((sets i).contains k), sets)
  | .get i k => (.of .range ((sets i).get k), sets)
  | .len i => (.number (sets i).len, sets)
  | .isEmpty i => (.flag (sets i).isEmpty, sets)
  | .first i => (.range (sets i).first, sets)
  | .last i => (.range (sets i).last, sets)
  | .iter i cs => (.ranges (Spec.script Iter.next Iter.nextBack cs (sets i).iterator), sets)
  | .overlapping i q cs =>
    (.of (fun o => .ranges (Spec.script Overlapping.next Overlapping.nextBack cs o))
      ((sets i).overlapping q), sets)
  | .overlaps i q => (.of .flag ((sets i).overlaps q), sets)
  | .gaps i q n => (.of (fun g => .ranges (Spec.calls Gaps.next n g)) ((sets i).gaps q), sets)
  | .union i j n => (.ranges (Spec.calls Union.next n ((sets i).union (sets j))), sets)
  | .intersection i j n =>
    (.ranges (Spec.calls Intersection.next n ((sets i).intersection (sets j))), sets)
  | .eq i j => (.flag ((sets i).eq (sets j)), sets)

/-- At most `n` calls of a program: all the answers, the last one first. -/
def dialogue (program : SetProgram (Range K) K) : Nat → List (SetAnswer (Range K)) →
    (Nat → RangeSet K) → List (SetAnswer (Range K))
  | 0, answers, _ => answers
  | n + 1, answers, sets =>
    match program answers with
    | none => answers
    | some c => dialogue program n ((perform sets c).1 :: answers) (perform sets c).2

end RangeSet

namespace RangeInclusiveSet
variable {K : Type} [LE K] [LT K] [DecidableLE K] [DecidableLT K]

/-- One call: the answer, and the sets afterwards.  `insert` and `remove` that panic leave the set
as it was (/repo/src/inclusive_set.rs:146-148, 159-161 and the assertions of the map), and so do
`from_iter` (292-301), `bitand` (476-482) and `bitor` (484-490); `extend` (303-312) keeps what it
has inserted before the panic. -/
def perform (S : StepFns K) (sets : Nat → RangeInclusiveSet K) :
    SetCall K → SetAnswer (RangeInclusive K) × (Nat → RangeInclusiveSet K)
  | .insert i r => renew sets i ((sets i).insert S r.closed)
  | .remove i r => renew sets i ((sets i).remove S r.closed)
  | .clear i => (.done, store sets i (sets i).clear)
  | .extend i items =>
    (.of (fun _ => .done) ((sets i).extend S (items.map Range.closed)).2,
      store sets i ((sets i).extend S (items.map Range.closed)).1)
  | .collect i items => renew sets i (fromIter S (items.map Range.closed))
  | .copy i j => (.done, store sets i (sets j))
  | .append i j =>
    (.of (fun _ => .done) ((sets i).extend S (sets j).iter).2,
      store sets i ((sets i).extend S (sets j).iter).1)
  | .or i j l => renew sets i ((sets j).bitOr S (sets l))
  | .and i j l => renew sets i ((sets j).bitAnd S (sets l))
  | .contains i k => (.of .flag ((sets i).contains k), sets)
  | .get i k => (.of .range ((sets i).get k), sets)
  | .len i => (.number (sets i).len, sets)
  | .isEmpty i => (.flag (sets i).isEmpty, sets)
  | .first i => (.range (sets i).first, sets)
  | .last i => (.range (sets i).last, sets)
  | .iter i cs => (.ranges (Spec.script Iter.next Iter.nextBack cs (sets i).iterator), sets)
  | .overlapping i q cs =>
    (.of (fun o => .ranges (Spec.script Overlapping.next Overlapping.nextBack cs o))
      ((sets i).overlapping q.closed), sets)
  | .overlaps i q => (.of .flag ((sets i).overlaps q.closed), sets)
  | .gaps i q n => (.of .ranges ((sets i).gaps q.closed >>= Spec.callsE (Gaps.next S) n), sets)
  | .union i j n => (.ranges (Spec.calls Union.next n ((sets i).union (sets j))), sets)
  | .intersection i j n =>
    (.ranges (Spec.calls Intersection.next n ((sets i).intersection (sets j))), sets)
  | .eq i j => (.flag ((sets i).eq (sets j)), sets)

/-- At most `n` calls of a program: all the answers, the last one first. -/
def dialogue (S : StepFns K) (program : SetProgram (RangeInclusive K) K) :
    Nat → List (SetAnswer (RangeInclusive K)) → (Nat → RangeInclusiveSet K) →
    List (SetAnswer (RangeInclusive K))
  | 0, answers, _ => answers
  | n + 1, answers, sets =>
    match program answers with
    | none => answers
    | some c => dialogue S program n ((perform S sets c).1 :: answers) (perform S sets c).2

end RangeInclusiveSet
end Verif

import Verif.Model.Dialogue

/-!
# Programs that keep iterators open

The programs of `Model/Dialogue.lean` make, ask and drop an iterator within one call.  Here a
program keeps any number of iterators, numbered by `Nat`, and asks them between other calls.  In
Rust a borrowed iterator forbids changing its map while it is in use, so not all programs here are
Rust programs, but all Rust programs are among them.
-/
namespace Verif

/-- One call of a program that keeps iterators. -/
inductive OpenCall (K V : Type) where
  /-- A call that makes or changes no kept iterator -/
  | plain (c : Call K V)
  /-- `walks[h] = maps[i].iter()` -/
  | walk (h i : Nat)
  /-- `walks[h] = maps[i].overlapping(q)` -/
  | walkOver (h i : Nat) (q : Range K)
  /-- `walks[h] = mem::take(&mut maps[i]).into_iter()` -/
  | take (h i : Nat)
  /-- `walks[h].next()` -/
  | next (h : Nat)
  /-- `walks[h].next_back()` -/
  | nextBack (h : Nat)
  /-- `holes[g] = maps[i].gaps(q)` -/
  | holes (g i : Nat) (q : Range K)
  /-- `holes[g].next()` -/
  | nextHole (g : Nat)

/-- A program: from the answers so far (the last one first) to the next call. -/
abbrev OpenProgram (R K V : Type) := List (Answer R V) → Option (OpenCall K V)

namespace RangeMap
variable {K : Type} [LE K] [LT K] [DecidableLE K] [DecidableLT K] {V : Type} [BEq V]

/-- An iterator over entries that a program keeps. -/
inductive Walk (K V : Type) where
  /-- /repo/src/map.rs:525-527 `Iter`, 567-569 `IntoIter` -/
  | iter (i : Iter K V)
  /-- /repo/src/map.rs:773-779 `Overlapping` -/
  | overlapping (o : Overlapping K V)

/-- `next` of either. -/
def Walk.next : Walk K V → Option (Range K × V) × Walk K V
  | .iter i => (i.next.1, .iter i.next.2)
  | .overlapping o => (o.next.1, .overlapping o.next.2)

/-- `next_back` of either. -/
def Walk.nextBack : Walk K V → Option (Range K × V) × Walk K V
  | .iter i => (i.nextBack.1, .iter i.nextBack.2)
  | .overlapping o => (o.nextBack.1, .overlapping o.nextBack.2)

/-- What a program holds.  Iterators it has not made yet yield nothing. -/
structure Desk (K V : Type) where
  maps : Nat → RangeMap K V := fun _ => RangeMap.new
  walks : Nat → Walk K V := fun _ => .iter RangeMap.new.iterator
  holes : Nat → Option (Gaps K V) := fun _ => none

/-- One call: the answer, and what the program holds afterwards. -/
def Desk.perform (d : Desk K V) : OpenCall K V → Answer (Range K) V × Desk K V
  | .plain c => ((RangeMap.perform d.maps c).1, { d with maps := (RangeMap.perform d.maps c).2 })
  | .walk h i => (.done, { d with walks := store d.walks h (.iter (d.maps i).iterator) })
  | .walkOver h i q =>
    match (d.maps i).overlapping q with
    | .ok o => (.done, { d with walks := store d.walks h (.overlapping o) })
    | .error _ => (.panicked, d)
  | .take h i =>
    (.done, { d with
      maps := store d.maps i RangeMap.new
      walks := store d.walks h (.iter (d.maps i).iterator) })
  | .next h =>
    (.entry (d.walks h).next.1, { d with walks := store d.walks h (d.walks h).next.2 })
  | .nextBack h =>
    (.entry (d.walks h).nextBack.1, { d with walks := store d.walks h (d.walks h).nextBack.2 })
  | .holes g i q =>
    match (d.maps i).gaps q with
    | .ok s => (.done, { d with holes := store d.holes g (some s) })
    | .error _ => (.panicked, d)
  | .nextHole g =>
    match d.holes g with
    | none => (.ranges [none], d)
    | some s => (.ranges [s.next.1], { d with holes := store d.holes g (some s.next.2) })

/-- At most `n` calls of a program: all the answers, the last one first. -/
def openDialogue (program : OpenProgram (Range K) K V) : Nat → List (Answer (Range K) V) →
    Desk K V → List (Answer (Range K) V)
  | 0, answers, _ => answers
  | n + 1, answers, d =>
    match program answers with
    | none => answers
    | some c => openDialogue program n ((d.perform c).1 :: answers) (d.perform c).2

end RangeMap

namespace RangeInclusiveMap
variable {K : Type} [LE K] [LT K] [DecidableLE K] [DecidableLT K] {V : Type} [BEq V]

/-- An iterator over entries that a program keeps. -/
inductive Walk (K V : Type) where
  /-- /repo/src/inclusive_map.rs:618-620 `Iter`, 658-660 `IntoIter` -/
  | iter (i : Iter K V)
  /-- /repo/src/inclusive_map.rs:889-895 `Overlapping` -/
  | overlapping (o : Overlapping K V)

/-- `next` of either. -/
def Walk.next : Walk K V → Option (RangeInclusive K × V) × Walk K V
  | .iter i => (i.next.1, .iter i.next.2)
  | .overlapping o => (o.next.1, .overlapping o.next.2)

/-- `next_back` of either. -/
def Walk.nextBack : Walk K V → Option (RangeInclusive K × V) × Walk K V
  | .iter i => (i.nextBack.1, .iter i.nextBack.2)
  | .overlapping o => (o.nextBack.1, .overlapping o.nextBack.2)

/-- What a program holds.  Iterators it has not made yet yield nothing. -/
structure Desk (K V : Type) where
  maps : Nat → RangeInclusiveMap K V := fun _ => RangeInclusiveMap.new
  walks : Nat → Walk K V := fun _ => .iter RangeInclusiveMap.new.iterator
  holes : Nat → Option (Gaps K V) := fun _ => none

/-- One call: the answer, and what the program holds afterwards. -/
def Desk.perform (S : StepFns K) (d : Desk K V) :
    OpenCall K V → Answer (RangeInclusive K) V × Desk K V
  | .plain c => ((RangeInclusiveMap.perform S d.maps c).1,
      { d with maps := (RangeInclusiveMap.perform S d.maps c).2 })
  | .walk h i => (.done, { d with walks := store d.walks h (.iter (d.maps i).iterator) })
  | .walkOver h i q =>
    match (d.maps i).overlapping q.closed with
    | .ok o => (.done, { d with walks := store d.walks h (.overlapping o) })
    | .error _ => (.panicked, d)
  | .take h i =>
    (.done, { d with
      maps := store d.maps i RangeInclusiveMap.new
      walks := store d.walks h (.iter (d.maps i).iterator) })
  | .next h =>
    (.entry (d.walks h).next.1, { d with walks := store d.walks h (d.walks h).next.2 })
  | .nextBack h =>
    (.entry (d.walks h).nextBack.1, { d with walks := store d.walks h (d.walks h).nextBack.2 })
  | .holes g i q =>
    match (d.maps i).gaps q.closed with
    | .ok s => (.done, { d with holes := store d.holes g (some s) })
    | .error _ => (.panicked, d)
  | .nextHole g =>
    match d.holes g with
    | none => (.ranges [none], d)
    | some s =>
      match s.next S with
      | .ok (r, s') => (.ranges [r], { d with holes := store d.holes g (some s') })
      | .error _ => (.panicked, d)

/-- At most `n` calls of a program: all the answers, the last one first. -/
def openDialogue (S : StepFns K) (program : OpenProgram (RangeInclusive K) K V) :
    Nat → List (Answer (RangeInclusive K) V) → Desk K V → List (Answer (RangeInclusive K) V)
  | 0, answers, _ => answers
  | n + 1, answers, d =>
    match program answers with
    | none => answers
    | some c => openDialogue S program n ((d.perform S c).1 :: answers) (d.perform S c).2

end RangeInclusiveMap
end Verif

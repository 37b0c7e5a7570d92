import Verif.Model.SetDialogue

/-!
# Programs that keep iterators over sets open

As `Model/OpenIters.lean`, for sets.
-/
namespace Verif

/-- One call of a program that keeps iterators. -/
inductive SetOpenCall (K : Type) where
  /-- A call that makes or changes no kept iterator -/
  | plain (c : SetCall K)
  /-- `walks[h] = sets[i].iter()` -/
  | walk (h i : Nat)
  /-- `walks[h] = sets[i].overlapping(q)` -/
  | walkOver (h i : Nat) (q : Range K)
  /-- `walks[h] = mem::take(&mut sets[i]).into_iter()` -/
  | take (h i : Nat)
  /-- `walks[h].next()` -/
  | next (h : Nat)
  /-- `walks[h].next_back()` -/
  | nextBack (h : Nat)
  /-- `flows[g] = sets[i].gaps(q)` -/
  | holes (g i : Nat) (q : Range K)
  /-- `flows[g] = sets[i].union(&sets[j])` -/
  | both (g i j : Nat)
  /-- `flows[g] = sets[i].intersection(&sets[j])` -/
  | common (g i j : Nat)
  /-- `flows[g].next()` -/
  | nextFlow (g : Nat)

/-- A program: from the answers so far (the last one first) to the next call. -/
abbrev SetOpenProgram (R K : Type) := List (SetAnswer R) → Option (SetOpenCall K)

namespace RangeSet
variable {K : Type} [LE K] [LT K] [DecidableLE K] [DecidableLT K]

/-- An iterator with two ends that a program keeps. -/
inductive Walk (K : Type) where
  /-- /repo/src/set.rs:193-195 `Iter`, 224-226 `IntoIter` -/
  | iter (i : Iter K)
  /-- /repo/src/set.rs:387-389 `Overlapping` -/
  | overlapping (o : Overlapping K)

/-- `next` of either. -/
def Walk.next : Walk K → Option (Range K) × Walk K
  | .iter i => (i.next.1, .iter i.next.2)
  | .overlapping o => (o.next.1, .overlapping o.next.2)

/-- `next_back` of either. -/
def Walk.nextBack : Walk K → Option (Range K) × Walk K
  | .iter i => (i.nextBack.1, .iter i.nextBack.2)
  | .overlapping o => (o.nextBack.1, .overlapping o.nextBack.2)

/-- An iterator with one end that a program keeps. -/
inductive Flow (K : Type) where
  /-- /repo/src/set.rs:362-364 `Gaps` -/
  | gaps (g : Gaps K)
  /-- /repo/src/set.rs:20-21 `Union` -/
  | union (u : Union (Range K))
  /-- /repo/src/set.rs:17-18 `Intersection` -/
  | intersection (i : Intersection (Range K))

/-- `next` of each. -/
def Flow.next : Flow K → Option (Range K) × Flow K
  | .gaps g => (g.next.1, .gaps g.next.2)
  | .union u => (u.next.1, .union u.next.2)
  | .intersection i => (i.next.1, .intersection i.next.2)

/-- What a program holds.  Iterators it has not made yet yield nothing. -/
structure Desk (K : Type) where
  sets : Nat → RangeSet K := fun _ => RangeSet.new
  walks : Nat → Walk K := fun _ => .iter RangeSet.new.iterator
  flows : Nat → Flow K := fun _ => .union ⟨[], []⟩

/-- One call: the answer, and what the program holds afterwards. -/
def Desk.perform (d : Desk K) : SetOpenCall K → SetAnswer (Range K) × Desk K
  | .plain c => ((RangeSet.perform d.sets c).1, { d with sets := (RangeSet.perform d.sets c).2 })
  | .walk h i => (.done, { d with walks := store d.walks h (.iter (d.sets i).iterator) })
  | .walkOver h i q =>
    match (d.sets i).overlapping q with
    | .ok o => (.done, { d with walks := store d.walks h (.overlapping o) })
    | .error _ => (.panicked, d)
  | .take h i =>
    (.done, { d with
      sets := store d.sets i RangeSet.new
      walks := store d.walks h (.iter (d.sets i).iterator) })
  | .next h =>
    (.range (d.walks h).next.1, { d with walks := store d.walks h (d.walks h).next.2 })
  | .nextBack h =>
    (.range (d.walks h).nextBack.1, { d with walks := store d.walks h (d.walks h).nextBack.2 })
  | .holes g i q =>
    match (d.sets i).gaps q with
    | .ok s => (.done, { d with flows := store d.flows g (.gaps s) })
    | .error _ => (.panicked, d)
  | .both g i j =>
    (.done, { d with flows := store d.flows g (.union ((d.sets i).union (d.sets j))) })
  | .common g i j =>
    (.done, { d with
      flows := store d.flows g (.intersection ((d.sets i).intersection (d.sets j))) })
  | .nextFlow g =>
    (.range (d.flows g).next.1, { d with flows := store d.flows g (d.flows g).next.2 })

/-- At most `n` calls of a program: all the answers, the last one first. -/
def openDialogue (program : SetOpenProgram (Range K) K) : Nat → List (SetAnswer (Range K)) →
    Desk K → List (SetAnswer (Range K))
  | 0, answers, _ => answers
  | n + 1, answers, d =>
    match program answers with
    | none => answers
    | some c => openDialogue program n ((d.perform c).1 :: answers) (d.perform c).2

end RangeSet

namespace RangeInclusiveSet
variable {K : Type} [LE K] [LT K] [DecidableLE K] [DecidableLT K]

/-- An iterator with two ends that a program keeps. -/
inductive Walk (K : Type) where
  /-- /repo/src/inclusive_set.rs:219-221 `Iter`, 250-252 `IntoIter` -/
  | iter (i : Iter K)
  /-- /repo/src/inclusive_set.rs:419-421 `Overlapping` -/
  | overlapping (o : Overlapping K)

/-- `next` of either. -/
def Walk.next : Walk K → Option (RangeInclusive K) × Walk K
  | .iter i => (i.next.1, .iter i.next.2)
  | .overlapping o => (o.next.1, .overlapping o.next.2)

/-- `next_back` of either. -/
def Walk.nextBack : Walk K → Option (RangeInclusive K) × Walk K
  | .iter i => (i.nextBack.1, .iter i.nextBack.2)
  | .overlapping o => (o.nextBack.1, .overlapping o.nextBack.2)

/-- An iterator with one end that a program keeps. -/
inductive Flow (K : Type) where
  /-- /repo/src/inclusive_set.rs:388-390 `Gaps` -/
  | gaps (g : Gaps K)
  /-- /repo/src/inclusive_set.rs:20-21 `Union` -/
  | union (u : Union (RangeInclusive K))
  /-- /repo/src/inclusive_set.rs:17-18 `Intersection` -/
  | intersection (i : Intersection (RangeInclusive K))

/-- `next` of each. -/
def Flow.next (S : StepFns K) : Flow K → Except Panic (Option (RangeInclusive K) × Flow K)
  | .gaps g =>
    match g.next S with
    | .ok (r, g') => .ok (r, .gaps g')
    | .error p => .error p
  | .union u => .ok (u.next.1, .union u.next.2)
  | .intersection i => .ok (i.next.1, .intersection i.next.2)

/-- What a program holds.  Iterators it has not made yet yield nothing. -/
structure Desk (K : Type) where
  sets : Nat → RangeInclusiveSet K := fun _ => RangeInclusiveSet.new
  walks : Nat → Walk K := fun _ => .iter RangeInclusiveSet.new.iterator
  flows : Nat → Flow K := fun _ => .union ⟨[], []⟩

/-- One call: the answer, and what the program holds afterwards. -/
def Desk.perform (S : StepFns K) (d : Desk K) :
    SetOpenCall K → SetAnswer (RangeInclusive K) × Desk K
  | .plain c => ((RangeInclusiveSet.perform S d.sets c).1,
      { d with sets := (RangeInclusiveSet.perform S d.sets c).2 })
  | .walk h i => (.done, { d with walks := store d.walks h (.iter (d.sets i).iterator) })
  | .walkOver h i q =>
    match (d.sets i).overlapping q.closed with
    | .ok o => (.done, { d with walks := store d.walks h (.overlapping o) })
    | .error _ => (.panicked, d)
  | .take h i =>
    (.done, { d with
      sets := store d.sets i RangeInclusiveSet.new
      walks := store d.walks h (.iter (d.sets i).iterator) })
  | .next h =>
    (.range (d.walks h).next.1, { d with walks := store d.walks h (d.walks h).next.2 })
  | .nextBack h =>
    (.range (d.walks h).nextBack.1, { d with walks := store d.walks h (d.walks h).nextBack.2 })
  | .holes g i q =>
    match (d.sets i).gaps q.closed with
    | .ok s => (.done, { d with flows := store d.flows g (.gaps s) })
    | .error _ => (.panicked, d)
  | .both g i j =>
    (.done, { d with flows := store d.flows g (.union ((d.sets i).union (d.sets j))) })
  | .common g i j =>
    (.done, { d with
      flows := store d.flows g (.intersection ((d.sets i).intersection (d.sets j))) })
  | .nextFlow g =>
    match (d.flows g).next S with
    | .ok (r, s) => (.range r, { d with flows := store d.flows g s })
    | .error _ => (.panicked, d)

/-- At most `n` calls of a program: all the answers, the last one first. -/
def openDialogue (S : StepFns K) (program : SetOpenProgram (RangeInclusive K) K) :
    Nat → List (SetAnswer (RangeInclusive K)) → Desk K → List (SetAnswer (RangeInclusive K))
  | 0, answers, _ => answers
  | n + 1, answers, d =>
    match program answers with
    | none => answers
    | some c => openDialogue S program n ((d.perform S c).1 :: answers) (d.perform S c).2

end RangeInclusiveSet
end Verif

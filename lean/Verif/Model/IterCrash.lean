import Verif.Model.Iter
import Verif.Model.IIter

/-!
# Query iterators whose `next` is interrupted by a panic of user code

The iterators of `Verif/Model/Iter.lean` and `Verif/Model/IIter.lean`, statement by statement: each
comparison, `clone` and call of a step function may panic.  The caller catches the panic and goes on
using the iterator, which is left as it is at that point.
-/
namespace Verif

/-- The kinds of user code that run during a query. -/
inductive UserCode where
  /-- `Ord::cmp` -/
  | cmp
  /-- `Clone::clone` -/
  | clone
  /-- `StepFns::add_one`, `StepFns::sub_one` -/
  | step
  deriving DecidableEq, Repr

/-- Whether the `n`-th piece of user code panics, given what it is. -/
abbrev Panics := UserCode → Nat → Bool

/-- The outcome of a call of `next`: `Option.none` if user code panicked, otherwise what it
returned. -/
abbrev Called (α : Type) := Option (Option α)

variable {K V : Type} [LE K] [LT K] [DecidableLE K] [DecidableLT K]

namespace RangeMap

/-- An iterator and how often user code has run. -/
structure OverlappingP (K V : Type) where
  calls : Nat
  it : Overlapping K V

/-- /repo/src/map.rs:790-804 `Overlapping::next`: the entry has been taken when it is compared. -/
def OverlappingP.next (panics : Panics) (o : OverlappingP K V) :
    Called (Range K × V) × OverlappingP K V :=
  match Deque.next o.it.btmRangeIter with
  | (some e, rest) =>
    let o' : OverlappingP K V := ⟨o.calls + 1, { o.it with btmRangeIter := rest }⟩
    if panics .cmp o.calls then (none, o')
    else if e.1.start < o.it.queryRange.stop then (some (some e), o')
    else (some none, o')
  | (none, rest) => (some none, ⟨o.calls, { o.it with btmRangeIter := rest }⟩)

/-- /repo/src/map.rs:811-819 `Overlapping::next_back`. -/
def OverlappingP.nextBack (panics : Panics) (o : OverlappingP K V) :
    Called (Range K × V) × OverlappingP K V :=
  match _h : o.it.btmRangeIter.getLast? with
  | some e =>
    let o' : OverlappingP K V := ⟨o.calls + 1, { o.it with btmRangeIter := o.it.btmRangeIter.dropLast }⟩
    if panics .cmp o.calls then (none, o')
    else if e.1.start < o.it.queryRange.stop then (some (some e), o')
    else nextBack panics ⟨o.calls + 1, { o.it with btmRangeIter := o.it.btmRangeIter.dropLast }⟩
  | none => (some none, o)
termination_by o.it.btmRangeIter.length
decreasing_by
  have : o.it.btmRangeIter ≠ [] := by intro h'; simp [h'] at _h
  have := List.length_pos_iff.2 this
  simp; omega

/-- An iterator and how often user code has run. -/
structure GapsP (K V : Type) where
  calls : Nat
  it : Gaps K V

namespace GapsP

/-- /repo/src/map.rs:754-761, after the `for` loop of `next`: `candidate_start` is changed only
after the two ends have been cloned. -/
def nextTail (panics : Panics) (n : Nat) (candidateStart queryEnd : K)
    (rest : List (Range K × V)) : Called (Range K) × GapsP K V :=
  if panics .cmp n then (none, ⟨n + 1, ⟨candidateStart, queryEnd, rest⟩⟩)
  else if candidateStart < queryEnd then
    if panics .clone (n + 1) then (none, ⟨n + 2, ⟨candidateStart, queryEnd, rest⟩⟩)
    else (some (some ⟨candidateStart, queryEnd⟩), ⟨n + 2, ⟨queryEnd, queryEnd, rest⟩⟩)
  else (some none, ⟨n + 1, ⟨candidateStart, queryEnd, rest⟩⟩)

/-- /repo/src/map.rs:730-752, the `for` loop of `next`: the entry has been taken when it is compared
with the end of the query (736), and `candidate_start` has been changed (740) when the gap is looked
for (743). -/
def nextLoop (panics : Panics) (n : Nat) (candidateStart queryEnd : K) :
    List (Range K × V) → Called (Range K) × GapsP K V
  | [] => nextTail panics n candidateStart queryEnd []
  | overlap :: rest =>
    if panics .cmp n then (none, ⟨n + 1, ⟨candidateStart, queryEnd, rest⟩⟩)
    else if queryEnd ≤ overlap.1.start then nextTail panics (n + 1) candidateStart queryEnd rest
    else if panics .cmp (n + 1) then (none, ⟨n + 2, ⟨overlap.1.stop, queryEnd, rest⟩⟩)
    else if candidateStart < overlap.1.start then
      if panics .clone (n + 2) then (none, ⟨n + 3, ⟨overlap.1.stop, queryEnd, rest⟩⟩)
      else (some (some ⟨candidateStart, overlap.1.start⟩), ⟨n + 3, ⟨overlap.1.stop, queryEnd, rest⟩⟩)
    else nextLoop panics (n + 2) overlap.1.stop queryEnd rest

/-- /repo/src/map.rs:728-761 `next`. -/
def next (panics : Panics) (g : GapsP K V) : Called (Range K) × GapsP K V :=
  nextLoop panics g.calls g.it.candidateStart g.it.queryEnd g.it.btmRangeIter

end GapsP
end RangeMap

namespace RangeInclusiveMap

/-- An iterator and how often user code has run. -/
structure OverlappingP (K V : Type) where
  calls : Nat
  it : Overlapping K V

/-- /repo/src/inclusive_map.rs:906-921 `Overlapping::next`: the entry has been taken when it is
compared. -/
def OverlappingP.next (panics : Panics) (o : OverlappingP K V) :
    Called (RangeInclusive K × V) × OverlappingP K V :=
  match Deque.next o.it.btmRangeIter with
  | (some e, rest) =>
    let o' : OverlappingP K V := ⟨o.calls + 1, { o.it with btmRangeIter := rest }⟩
    if panics .cmp o.calls then (none, o')
    else if e.1.start ≤ o.it.queryRange.stop then (some (some e), o')
    else (some none, o')
  | (none, rest) => (some none, ⟨o.calls, { o.it with btmRangeIter := rest }⟩)

/-- /repo/src/inclusive_map.rs:927-936 `Overlapping::next_back`. -/
def OverlappingP.nextBack (panics : Panics) (o : OverlappingP K V) :
    Called (RangeInclusive K × V) × OverlappingP K V :=
  match _h : o.it.btmRangeIter.getLast? with
  | some e =>
    let o' : OverlappingP K V := ⟨o.calls + 1, { o.it with btmRangeIter := o.it.btmRangeIter.dropLast }⟩
    if panics .cmp o.calls then (none, o')
    else if e.1.start ≤ o.it.queryRange.stop then (some (some e), o')
    else nextBack panics ⟨o.calls + 1, { o.it with btmRangeIter := o.it.btmRangeIter.dropLast }⟩
  | none => (some none, o)
termination_by o.it.btmRangeIter.length
decreasing_by
  have : o.it.btmRangeIter ≠ [] := by intro h'; simp [h'] at _h
  have := List.length_pos_iff.2 this
  simp; omega

/-- An iterator and how often user code has run. -/
structure GapsP (K V : Type) where
  calls : Nat
  it : Gaps K V

namespace GapsP

/-- /repo/src/inclusive_map.rs:862-876, after the `for` loop of `next`: flag and `candidate_start` are
changed (864, 866) before anything is compared, cloned or stepped.  (The step functions' own panics
are those of the ordinary model.) -/
def nextTail (S : StepFns K) (panics : Panics) (n : Nat) (needsPlusOne : Bool)
    (candidateStart queryEnd : K) (rest : List (RangeInclusive K × V)) :
    Except Panic (Called (RangeInclusive K) × GapsP K V) :=
  let g : Gaps K V := ⟨true, queryEnd, queryEnd, rest⟩
  if panics .cmp n then return (none, ⟨n + 1, g⟩)
  else if needsPlusOne then
    if candidateStart < queryEnd then
      if panics .step (n + 1) then return (none, ⟨n + 2, g⟩)
      else do
        let a ← S.addOne candidateStart
        if panics .clone (n + 2) then return (none, ⟨n + 3, g⟩)
        else return (some (some (.mk' a queryEnd)), ⟨n + 3, g⟩)
    else return (some none, ⟨n + 1, g⟩)
  else if candidateStart ≤ queryEnd then
    if panics .clone (n + 1) then return (none, ⟨n + 2, g⟩)
    else return (some (some (.mk' candidateStart queryEnd)), ⟨n + 2, g⟩)
  else return (some none, ⟨n + 1, g⟩)

/-- /repo/src/inclusive_map.rs:836-860, the `for` loop of `next`: the entry has been taken when it is
compared with the end of the query (841); flag and `candidate_start` have been changed (845-848)
when the gap is looked for (850-859). -/
def nextLoop (S : StepFns K) (panics : Panics) (n : Nat) (needsPlusOne : Bool)
    (candidateStart queryEnd : K) :
    List (RangeInclusive K × V) → Except Panic (Called (RangeInclusive K) × GapsP K V)
  | [] => nextTail S panics n needsPlusOne candidateStart queryEnd []
  | overlap :: rest =>
    let g : Gaps K V := ⟨true, overlap.1.stop, queryEnd, rest⟩
    if panics .cmp n then return (none, ⟨n + 1, ⟨needsPlusOne, candidateStart, queryEnd, rest⟩⟩)
    else if queryEnd < overlap.1.start then
      nextTail S panics (n + 1) needsPlusOne candidateStart queryEnd rest
    else if panics (if needsPlusOne then .step else .clone) (n + 1) then return (none, ⟨n + 2, g⟩)
    else do
      let cur ← Gaps.curCandidateStart S needsPlusOne candidateStart
      if panics .cmp (n + 2) then return (none, ⟨n + 3, g⟩)
      else if cur < overlap.1.start then
        if panics .step (n + 3) then return (none, ⟨n + 4, g⟩)
        else do
          let e ← S.subOne overlap.1.start
          return (some (some (.mk' cur e)), ⟨n + 4, g⟩)
      else nextLoop S panics (n + 3) true overlap.1.stop queryEnd rest

/-- /repo/src/inclusive_map.rs:835-877 `next`. -/
def next (S : StepFns K) (panics : Panics) (g : GapsP K V) :
    Except Panic (Called (RangeInclusive K) × GapsP K V) :=
  nextLoop S panics g.calls g.it.candidateNeedsPlusOne g.it.candidateStart g.it.queryEnd
    g.it.btmRangeIter

end GapsP
end RangeInclusiveMap
end Verif

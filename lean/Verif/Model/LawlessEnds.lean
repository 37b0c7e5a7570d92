import Verif.Model.LawlessOps
import Verif.Model.Set
import Verif.Model.ISet
import Verif.Spec

/-!
# More programs with comparisons that keep to no law

`Overlapping` used from both ends, and `|` and `&` of sets.  As `Verif/Model/Lawless.lean`: every
comparison is a question, and any answer may come back.
-/
namespace Verif

namespace Wild
variable {K R V : Type}

/-- A sequence of `next`/`next_back` calls. -/
def script {γ σ : Type} (next nextBack : σ → Wild K R V (Option γ × σ)) :
    List Spec.End → σ → Wild K R V (List (Option γ))
  | [], _ => return []
  | .front :: cs, s => do
    let (x, s) ← next s
    return x :: (← script next nextBack cs s)
  | .back :: cs, s => do
    let (x, s) ← nextBack s
    return x :: (← script next nextBack cs s)

/-- `collect` into a collection whose `from_iter` calls `insert` for one item after the other, with
at most `fuel` items. -/
def collect {γ σ : Type} (next : σ → Wild K R V (Option γ × σ)) (insert : γ → Wild K R V Unit) :
    Nat → σ → Wild K R V Unit
  | 0, _ => .panic .diverge
  | fuel + 1, s => do
    match ← next s with
    | (none, _) => return ()
    | (some x, s) => do
      insert x
      collect next insert fuel s

end Wild

namespace RangeMap
variable {K V : Type}

/-- /repo/src/map.rs:811-819 `Overlapping::next_back`. -/
def overlappingNextBackW (o : Overlapping K V) :
    Wild K (Range K) V (Option (Range K × V) × Overlapping K V) :=
  match _h : o.btmRangeIter.getLast? with
  | some e => do
    if ← Wild.lt e.1.start o.queryRange.stop then
      return (some e, { o with btmRangeIter := o.btmRangeIter.dropLast })
    else overlappingNextBackW { o with btmRangeIter := o.btmRangeIter.dropLast }
  | none => return (none, o)
termination_by o.btmRangeIter.length
decreasing_by
  have : o.btmRangeIter ≠ [] := by intro h'; simp [h'] at _h
  have := List.length_pos_iff.2 this
  simp; omega

/-- /repo/src/map.rs:201-218 `overlapping`, and a sequence of calls of `next` (790-804) and
`next_back` (811-819). -/
def overlappingBothW (cs : List Spec.End) (query : Range K) :
    Wild K (Range K) V (List (Option (Range K × V))) := do
  let l ← Wild.range Range.stop (.excluded query.start) .unbounded
  Wild.script overlappingNextW overlappingNextBackW cs (⟨query, l⟩ : Overlapping K V)

end RangeMap

namespace RangeInclusiveMap
variable {K V : Type}

/-- /repo/src/inclusive_map.rs:927-936 `Overlapping::next_back`. -/
def overlappingNextBackW (o : Overlapping K V) :
    Wild K (RangeInclusive K) V (Option (RangeInclusive K × V) × Overlapping K V) :=
  match _h : o.btmRangeIter.getLast? with
  | some e => do
    if ← Wild.le e.1.start o.queryRange.stop then
      return (some e, { o with btmRangeIter := o.btmRangeIter.dropLast })
    else overlappingNextBackW { o with btmRangeIter := o.btmRangeIter.dropLast }
  | none => return (none, o)
termination_by o.btmRangeIter.length
decreasing_by
  have : o.btmRangeIter ≠ [] := by intro h'; simp [h'] at _h
  have := List.length_pos_iff.2 this
  simp; omega

/-- /repo/src/inclusive_map.rs:565-585 `overlapping`, and a sequence of calls of `next` (906-921)
and `next_back` (927-936). -/
def overlappingBothW (cs : List Spec.End) (query : RangeInclusive K) :
    Wild K (RangeInclusive K) V (List (Option (RangeInclusive K × V))) := do
  let l ← Wild.range RangeInclusive.stop (.included query.start) .unbounded
  Wild.script overlappingNextW overlappingNextBackW cs (⟨query, l⟩ : Overlapping K V)

end RangeInclusiveMap

namespace RangeSet
variable {K : Type}

/-- /repo/src/set.rs:425-431 `BitOr::bitor` of sets that hold `l` and `r`, on the B-tree of the new
set (`from_iter` and `extend`: /repo/src/set.rs:266-287). Each `insert` makes at most `fuel`
iterations of its loop. -/
def bitOrW (fuel : Nat) (l r : List (Range K)) : Wild K (Range K) Unit Unit :=
  Wild.collect (PUnion.nextW Range.startLtW Range.mergeW Deque.next (l.length + r.length + 1))
    (fun x => RangeMap.insertW fuel x ()) (l.length + r.length + 1) (PUnion.new l r)

/-- /repo/src/set.rs:417-423 `BitAnd::bitand`, as `bitOrW`. -/
def bitAndW (fuel : Nat) (l r : List (Range K)) : Wild K (Range K) Unit Unit :=
  Wild.collect (PIntersection.nextW Range.endLtW Range.intersectW Deque.next
    (l.length + r.length + 1)) (fun x => RangeMap.insertW fuel x ()) (l.length + r.length + 1)
    (PIntersection.new l r)

end RangeSet

namespace RangeInclusiveSet
variable {K : Type}

/-- /repo/src/inclusive_set.rs:484-490 `BitOr::bitor` of sets that hold `l` and `r`, on the B-tree
of the new set (`from_iter` and `extend`: 292-313). Each `insert` makes at most `fuel` iterations of
its loop. -/
def bitOrW (fuel : Nat) (l r : List (RangeInclusive K)) : Wild K (RangeInclusive K) Unit Unit :=
  Wild.collect (PUnion.nextW RangeInclusive.startLtW RangeInclusive.mergeW Deque.next
    (l.length + r.length + 1)) (fun x => RangeInclusiveMap.insertW fuel x ())
    (l.length + r.length + 1) (PUnion.new l r)

/-- /repo/src/inclusive_set.rs:476-482 `BitAnd::bitand`, as `bitOrW`. -/
def bitAndW (fuel : Nat) (l r : List (RangeInclusive K)) : Wild K (RangeInclusive K) Unit Unit :=
  Wild.collect (PIntersection.nextW RangeInclusive.endLtW RangeInclusive.intersectW Deque.next
    (l.length + r.length + 1)) (fun x => RangeInclusiveMap.insertW fuel x ())
    (l.length + r.length + 1) (PIntersection.new l r)

end RangeInclusiveSet
end Verif

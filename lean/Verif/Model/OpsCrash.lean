import Verif.Model.Operations
import Verif.Model.Set
import Verif.Model.ISet
import Verif.Model.IterCrash

/-!
# `Union` and `Intersection` whose `next` is interrupted by a panic of user code

As `Verif/Model/IterCrash.lean`, for the iterators of `Verif/Model/Operations.lean`: user code are
the comparisons and clones of keys inside `order_start`, `order_end`, `merge` and `intersect`, and the
`clone` of a range; `panics n` says whether the `n`-th of these calls panics.  None of them changes
anything the caller can see before it panics (`merge` changes only the range under construction).
-/
namespace Verif
variable {R : Type}

/-- An iterator and how often user code has run. -/
structure UnionP (R : Type) where
  calls : Nat
  it : Union R

namespace UnionP

/-- /repo/src/operations.rs:161-177, the closure `join` and the loop: a range is taken from its
iterator (166) after it has been merged (165).  If user code panics, the range under construction is
dropped. -/
def mergeLoop [RangeMerge R] (panics : Nat → Bool) (n : Nat) (range : R) (left right : List R) :
    Called R × UnionP R :=
  match left, right with
  | l :: left', right =>
    if panics n then (none, ⟨n + 1, ⟨l :: left', right⟩⟩)
    else match RangeMerge.merge range l with
      | some range' => mergeLoop panics (n + 1) range' left' right
      | none =>
        match right with
        | [] => (some (some range), ⟨n + 1, ⟨l :: left', []⟩⟩)
        | r :: right' =>
          if panics (n + 1) then (none, ⟨n + 2, ⟨l :: left', r :: right'⟩⟩)
          else match RangeMerge.merge range r with
            | some range' => mergeLoop panics (n + 2) range' (l :: left') right'
            | none => (some (some range), ⟨n + 2, ⟨l :: left', r :: right'⟩⟩)
  | [], r :: right' =>
    if panics n then (none, ⟨n + 1, ⟨[], r :: right'⟩⟩)
    else match RangeMerge.merge range r with
      | some range' => mergeLoop panics (n + 1) range' [] right'
      | none => (some (some range), ⟨n + 1, ⟨[], r :: right'⟩⟩)
  | [], [] => (some (some range), ⟨n, ⟨[], []⟩⟩)
termination_by left.length + right.length

/-- /repo/src/operations.rs:160, the `clone`: the range has been taken from its iterator. -/
def start [RangeMerge R] (panics : Nat → Bool) (n : Nat) (range : R) (left right : List R) :
    Called R × UnionP R :=
  if panics n then (none, ⟨n + 1, ⟨left, right⟩⟩) else mergeLoop panics (n + 1) range left right

/-- /repo/src/operations.rs:142-180 `next`. -/
def next [RangeOrder R] [RangeMerge R] (panics : Nat → Bool) (u : UnionP R) : Called R × UnionP R :=
  match u.it.left, u.it.right with
  | l :: left, [] => start panics u.calls l left []
  | [], r :: right => start panics u.calls r [] right
  | l :: left, r :: right =>
    if panics u.calls then (none, ⟨u.calls + 1, ⟨l :: left, r :: right⟩⟩)
    else if (RangeOrder.orderStart l r).isLT then start panics (u.calls + 1) l left (r :: right)
    else start panics (u.calls + 1) r (l :: left) right
  | [], [] => (some none, u)

end UnionP

/-- An iterator and how often user code has run. -/
structure IntersectionP (R : Type) where
  calls : Nat
  it : Intersection R

namespace IntersectionP

/-- /repo/src/operations.rs:226-244, the loop of `next`: both calls of user code (232, 235) are made
before a range is taken from its iterator. -/
def nextLoop [RangeOrder R] [RangeIntersect R] (panics : Nat → Bool) (n : Nat) :
    (left right : List R) → Called R × IntersectionP R
  | l :: left, r :: right =>
    if panics n then (none, ⟨n + 1, ⟨l :: left, r :: right⟩⟩)
    else if panics (n + 1) then (none, ⟨n + 2, ⟨l :: left, r :: right⟩⟩)
    else if (RangeOrder.orderEnd l r).isLT then
      match RangeIntersect.intersect l r with
      | some i => (some (some i), ⟨n + 2, ⟨left, r :: right⟩⟩)
      | none => nextLoop panics (n + 2) left (r :: right)
    else
      match RangeIntersect.intersect l r with
      | some i => (some (some i), ⟨n + 2, ⟨l :: left, right⟩⟩)
      | none => nextLoop panics (n + 2) (l :: left) right
  | left, right => (some none, ⟨n, ⟨left, right⟩⟩)
termination_by left right => left.length + right.length

/-- /repo/src/operations.rs:225-245 `next`. -/
def next [RangeOrder R] [RangeIntersect R] (panics : Nat → Bool) (i : IntersectionP R) :
    Called R × IntersectionP R :=
  nextLoop panics i.calls i.it.left i.it.right

end IntersectionP
end Verif

import Verif.Model.Operations
import Verif.Model.Set
import Verif.Model.ISet
import Verif.Model.QueryWork

/-!
# How much work `Union` and `Intersection` do

The functions of `Verif/Model/Operations.lean` with a count of the ranges taken from the underlying
iterators and of the comparisons of keys.
-/
namespace Verif

/-- How many comparisons of keys `merge` makes. -/
class MergeCost (R : Type) where
  mergeCost : R → R → Nat

section
variable {K : Type} [LE K] [LT K] [DecidableLE K] [DecidableLT K]

/-- /repo/src/operations.rs:40-52 `merge`: `contains` compares with the start, then with the end (std:
short-circuiting); then the ends are compared. -/
instance : MergeCost (Range K) where
  mergeCost self other :=
    if self.start ≤ other.start then (if other.start < self.stop then 3 else 2) else 1

/-- /repo/src/operations.rs:54-66 `merge`, likewise. -/
instance : MergeCost (RangeInclusive K) where
  mergeCost self other :=
    if self.start ≤ other.start then (if self.contains other.start then 3 else 2) else 1

end

namespace Union
variable {R : Type} [RangeOrder R] [RangeMerge R] [MergeCost R]

/-- /repo/src/operations.rs:161-170, what a call of `join` costs besides taking the range. -/
def joinCost (range : R) : List R → Nat
  | [] => 0
  | next :: _ => MergeCost.mergeCost range next

/-- /repo/src/operations.rs:172-177, the loop. -/
def mergeLoopW (range : R) (left right : List R) : (R × Union R) × Work :=
  match _h : join range left with
  | some (range', left') =>
    let r := mergeLoopW range' left' right
    (r.1, ⟨1, joinCost range left, 0⟩ + r.2)
  | none =>
    match _h' : join range right with
    | some (range', right') =>
      let r := mergeLoopW range' left right'
      (r.1, ⟨1, joinCost range left + joinCost range right, 0⟩ + r.2)
    | none => ((range, ⟨left, right⟩), ⟨0, joinCost range left + joinCost range right, 0⟩)
termination_by left.length + right.length
decreasing_by
  · have := join_length _h; simp_all
  · have := join_length _h'; simp_all

/-- /repo/src/operations.rs:143-159: the starts are compared if there is a range on either side. -/
def firstCost (u : Union R) : Work :=
  match u.left, u.right with
  | _ :: _, [] => ⟨1, 0, 0⟩
  | [], _ :: _ => ⟨1, 0, 0⟩
  | _ :: _, _ :: _ => ⟨1, 1, 0⟩
  | [], [] => 0

/-- /repo/src/operations.rs:142-180 `next`. -/
def nextW (u : Union R) : (Option R × Union R) × Work :=
  match u.first with
  | none => ((none, u), u.firstCost)
  | some (range, rest) =>
    let r := mergeLoopW range rest.left rest.right
    ((some r.1.1, r.1.2), u.firstCost + r.2)

end Union

namespace Intersection
variable {R : Type} [RangeOrder R] [RangeIntersect R]

/-- /repo/src/operations.rs:226-244, the loop of `next`: `intersect` makes three comparisons (`max`,
`min`, and whether the result is empty), `order_end` one. -/
def nextLoopW : (left right : List R) → (Option R × Intersection R) × Work
  | l :: left, r :: right =>
    if (RangeOrder.orderEnd l r).isLT then
      match RangeIntersect.intersect l r with
      | some i => ((some i, ⟨left, r :: right⟩), ⟨1, 4, 0⟩)
      | none =>
        let r := nextLoopW left (r :: right)
        (r.1, ⟨1, 4, 0⟩ + r.2)
    else
      match RangeIntersect.intersect l r with
      | some i => ((some i, ⟨l :: left, right⟩), ⟨1, 4, 0⟩)
      | none =>
        let r := nextLoopW (l :: left) right
        (r.1, ⟨1, 4, 0⟩ + r.2)
  | left, right => ((none, ⟨left, right⟩), 0)
termination_by left right => left.length + right.length

/-- /repo/src/operations.rs:225-245 `next`. -/
def nextW (i : Intersection R) : (Option R × Intersection R) × Work := nextLoopW i.left i.right

end Intersection
end Verif

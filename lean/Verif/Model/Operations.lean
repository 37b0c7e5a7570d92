import Verif.Model.Iter
import Verif.Model.IRange
import Verif.Model.Cmp

/-!
# Model of `/repo/src/operations.rs`: the `Union` and `Intersection` iterators

`Peekable<set::Iter>` is modelled by the list of ranges it has still to yield: `peek` is its head,
`next` pops it (std's contract for `Peekable` over the fused B-tree iterator).
-/
namespace Verif

/-- /repo/src/operations.rs:5-12 `trait RangeOrder`. -/
class RangeOrder (R : Type) where
  orderStart : R → R → Ordering
  orderEnd : R → R → Ordering

/-- /repo/src/operations.rs:34-38 `trait RangeMerge`.  `some r` stands for returning `true` with
`*self` now `r`; `none` for returning `false`, in which case both implementations leave `*self`
alone. -/
class RangeMerge (R : Type) where
  merge : R → R → Option R

/-- /repo/src/operations.rs:68-72 `trait RangeIntersect`. -/
class RangeIntersect (R : Type) where
  intersect : R → R → Option R

section
variable {K : Type} [LE K] [LT K] [DecidableLE K] [DecidableLT K]

/-- /repo/src/operations.rs:14-22 `impl RangeOrder for Range<T>`. -/
instance : RangeOrder (Range K) where
  orderStart a b := kcmp a.start b.start
  orderEnd a b := kcmp a.stop b.stop

/-- /repo/src/operations.rs:24-32 `impl RangeOrder for RangeInclusive<T>`. -/
instance : RangeOrder (RangeInclusive K) where
  orderStart a b := kcmp a.start b.start
  orderEnd a b := kcmp a.stop b.stop

/-- /repo/src/operations.rs:40-52 `impl RangeMerge for Range<T>`. -/
def Range.merge (self other : Range K) : Option (Range K) :=
  if !self.contains other.start then none
  else if self.stop < other.stop then some { self with stop := other.stop }
  else some self

instance : RangeMerge (Range K) := ⟨Range.merge⟩

/-- /repo/src/operations.rs:54-66 `impl RangeMerge for RangeInclusive<T>`. -/
def RangeInclusive.merge (self other : RangeInclusive K) : Option (RangeInclusive K) :=
  if !self.contains other.start then none
  else if self.stop < other.stop then some (.mk' self.start other.stop)
  else some self

instance : RangeMerge (RangeInclusive K) := ⟨RangeInclusive.merge⟩

/-- /repo/src/operations.rs:74-85 `impl RangeIntersect for Range<T>`. -/
def Range.intersect (self other : Range K) : Option (Range K) :=
  let start := rmax self.start other.start
  let stop := rmin self.stop other.stop
  if stop ≤ start then none else some ⟨start, stop⟩

instance : RangeIntersect (Range K) := ⟨Range.intersect⟩

/-- /repo/src/operations.rs:87-98 `impl RangeIntersect for RangeInclusive<T>`. -/
def RangeInclusive.intersect (self other : RangeInclusive K) : Option (RangeInclusive K) :=
  let start := rmax self.start other.start
  let stop := rmin self.stop other.stop
  if stop < start then none else some (.mk' start stop)

instance : RangeIntersect (RangeInclusive K) := ⟨RangeInclusive.intersect⟩

end

/-- /repo/src/operations.rs:107-116 `struct Union`, 118-133 `new`. -/
structure Union (R : Type) where
  left : List R
  right : List R
  deriving DecidableEq, Repr

namespace Union
variable {R : Type}

/-- /repo/src/operations.rs:143-159: the range with the earlier start (from the right if they start
together) and what is left of the two iterators. -/
def first [RangeOrder R] (u : Union R) : Option (R × Union R) :=
  match u.left, u.right with
  | l :: left, [] => some (l, ⟨left, []⟩)
  | [], r :: right => some (r, ⟨[], right⟩)
  | l :: left, r :: right =>
    if (RangeOrder.orderStart l r).isLT then some (l, ⟨left, r :: right⟩)
    else some (r, ⟨l :: left, right⟩)
  | [], [] => none

/-- /repo/src/operations.rs:161-170, the closure `join`; `none` is `false`. -/
def join [RangeMerge R] (range : R) : List R → Option (R × List R)
  | [] => none
  | next :: rest => (RangeMerge.merge range next).map fun range' => (range', rest)

theorem join_length [RangeMerge R] {range : R} {l : List R} {p : R × List R}
    (h : join range l = some p) : l.length = p.2.length + 1 := by
  cases l with
  | nil => cases h
  | cons a t =>
    simp only [join, Option.map_eq_some_iff] at h
    obtain ⟨_, _, rfl⟩ := h
    rfl

/-- /repo/src/operations.rs:172-177, the loop.  (That it terminates is part of the definition.) -/
def mergeLoop [RangeMerge R] (range : R) (left right : List R) : R × Union R :=
  match _h : join range left with
  | some (range', left') => mergeLoop range' left' right
  | none =>
    match _h' : join range right with
    | some (range', right') => mergeLoop range' left right'
    | none => (range, ⟨left, right⟩)
termination_by left.length + right.length
decreasing_by
  · have := join_length _h; simp_all
  · have := join_length _h'; simp_all

/-- /repo/src/operations.rs:142-180 `next`. -/
def next [RangeOrder R] [RangeMerge R] (u : Union R) : Option R × Union R :=
  match u.first with
  | none => (none, u)
  | some (range, rest) =>
    let (range', rest') := mergeLoop range rest.left rest.right
    (some range', rest')

end Union

/-- /repo/src/operations.rs:190-199 `struct Intersection`, 201-216 `new`. -/
structure Intersection (R : Type) where
  left : List R
  right : List R
  deriving DecidableEq, Repr

namespace Intersection
variable {R : Type}

/-- /repo/src/operations.rs:226-244, the loop of `next`.  (That it terminates is part of the
definition.) -/
def nextLoop [RangeOrder R] [RangeIntersect R] : (left right : List R) → Option R × Intersection R
  | l :: left, r :: right =>
    if (RangeOrder.orderEnd l r).isLT then
      match RangeIntersect.intersect l r with
      | some i => (some i, ⟨left, r :: right⟩)
      | none => nextLoop left (r :: right)
    else
      match RangeIntersect.intersect l r with
      | some i => (some i, ⟨l :: left, right⟩)
      | none => nextLoop (l :: left) right
  | left, right => (none, ⟨left, right⟩)
termination_by left right => left.length + right.length

/-- /repo/src/operations.rs:225-245 `next`. -/
def next [RangeOrder R] [RangeIntersect R] (i : Intersection R) : Option R × Intersection R :=
  nextLoop i.left i.right

end Intersection
end Verif

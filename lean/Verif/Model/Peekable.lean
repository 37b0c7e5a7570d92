import Verif.Model.Operations

/-!
# `Union` and `Intersection` over `Peekable`

`Verif/Model/Operations.lean` models the two `Peekable` iterators a `Union` or `Intersection` holds by
the lists of ranges left in them.  Here `Peekable` is modelled as std implements it, over an arbitrary
underlying iterator, and `next` is written with its calls of `peek`, `next` and `unwrap`.

`I` is the state of the underlying iterator and `inext` its `next`.
-/
namespace Verif
variable {I R : Type}

/-- std `Option::unwrap`. -/
def unwrap {α : Type} : Option α → Except Panic α
  | some a => .ok a
  | none => .error .expectFailed

/-- std `Peekable`: `peeked` is the item (or the end) already taken from `iter`. -/
structure Peekable (I R : Type) where
  iter : I
  peeked : Option (Option R)

namespace Peekable

/-- std `Iterator::peekable`. -/
def new (iter : I) : Peekable I R := ⟨iter, none⟩

/-- std `Peekable::next`. -/
def next (inext : I → Option R × I) (p : Peekable I R) : Option R × Peekable I R :=
  match p.peeked with
  | some v => (v, ⟨p.iter, none⟩)
  | none =>
    let (v, iter) := inext p.iter
    (v, ⟨iter, none⟩)

/-- std `Peekable::peek`. -/
def peek (inext : I → Option R × I) (p : Peekable I R) : Option R × Peekable I R :=
  match p.peeked with
  | some v => (v, p)
  | none =>
    let (v, iter) := inext p.iter
    (v, ⟨iter, some v⟩)

end Peekable

/-- /repo/src/operations.rs:107-116 `struct Union`. -/
structure PUnion (I R : Type) where
  left : Peekable I R
  right : Peekable I R

namespace PUnion

/-- /repo/src/operations.rs:118-133 `new`. -/
def new (left right : I) : PUnion I R := ⟨.new left, .new right⟩

/-- /repo/src/operations.rs:143-159: the range to start with. -/
def first [RangeOrder R] (inext : I → Option R × I) (u : PUnion I R) :
    Except Panic (Option R × PUnion I R) := do
  let (l, left) := u.left.peek inext
  let (r, right) := u.right.peek inext
  match l, r with
  | some _, none =>
    let (o, left) := left.next inext
    return (some (← unwrap o), ⟨left, right⟩)
  | none, some _ =>
    let (o, right) := right.next inext
    return (some (← unwrap o), ⟨left, right⟩)
  | some l, some r =>
    if (RangeOrder.orderStart l r).isLT then
      let (o, left) := left.next inext
      return (some (← unwrap o), ⟨left, right⟩)
    else
      let (o, right) := right.next inext
      return (some (← unwrap o), ⟨left, right⟩)
  | none, none => return (none, ⟨left, right⟩)

/-- /repo/src/operations.rs:161-170, the closure `join`; `none` is `false`, `some` is `true` with the
new value of `range`. -/
def join [RangeMerge R] (inext : I → Option R × I) (range : R) (p : Peekable I R) :
    Except Panic (Option R × Peekable I R) := do
  let (o, p) := p.peek inext
  match o with
  | none => return (none, p)
  | some next =>
    match RangeMerge.merge range next with
    | none => return (none, p)
    | some range =>
      let (o, p) := p.next inext
      let _ ← unwrap o
      return (some range, p)

/-- /repo/src/operations.rs:172-177, the loop. -/
def mergeLoop [RangeMerge R] (inext : I → Option R × I) :
    Nat → R → PUnion I R → Except Panic (R × PUnion I R)
  | 0, _, _ => .error .diverge
  | fuel + 1, range, u => do
    match ← join inext range u.left with
    | (some range, left) => mergeLoop inext fuel range ⟨left, u.right⟩
    | (none, left) =>
      match ← join inext range u.right with
      | (some range, right) => mergeLoop inext fuel range ⟨left, right⟩
      | (none, right) => return (range, ⟨left, right⟩)

/-- /repo/src/operations.rs:142-180 `next`. -/
def next [RangeOrder R] [RangeMerge R] (inext : I → Option R × I) (fuel : Nat) (u : PUnion I R) :
    Except Panic (Option R × PUnion I R) := do
  match ← u.first inext with
  | (none, u) => return (none, u)
  | (some range, u) =>
    let (range, u) ← mergeLoop inext fuel range u
    return (some range, u)

end PUnion

/-- /repo/src/operations.rs:190-199 `struct Intersection`. -/
structure PIntersection (I R : Type) where
  left : Peekable I R
  right : Peekable I R

namespace PIntersection

/-- /repo/src/operations.rs:201-216 `new`. -/
def new (left right : I) : PIntersection I R := ⟨.new left, .new right⟩

/-- /repo/src/operations.rs:225-245 `next`. -/
def next [RangeOrder R] [RangeIntersect R] (inext : I → Option R × I) :
    Nat → PIntersection I R → Except Panic (Option R × PIntersection I R)
  | 0, _ => .error .diverge
  | fuel + 1, i =>
    let (l, left) := i.left.peek inext
    let (r, right) := i.right.peek inext
    match l, r with
    | some l, some r =>
      let i : PIntersection I R :=
        if (RangeOrder.orderEnd l r).isLT then ⟨(left.next inext).2, right⟩
        else ⟨left, (right.next inext).2⟩
      match RangeIntersect.intersect l r with
      | some range => .ok (some range, i)
      | none => next inext fuel i
    | _, _ => .ok (none, ⟨left, right⟩)

end PIntersection
end Verif

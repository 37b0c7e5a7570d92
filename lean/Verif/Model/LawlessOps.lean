import Verif.Model.Lawless
import Verif.Model.Peekable

/-!
# `Union` and `Intersection` with comparisons that keep to no law

As `Verif/Model/Lawless.lean`: every comparison is a question, and any answer may come back.
`Peekable`, and the B-tree iterators below it, call no code of the user.
-/
namespace Verif

namespace Wild
variable {K R V α : Type}

/-- std `Option::unwrap`. -/
def unwrap : Option α → Wild K R V α
  | some a => .ret a
  | none => .panic .expectFailed

/-- Whatever is answered to its questions, the program comes to an end, does not panic of itself,
changes no B-tree, and returns a value with `Q`. -/
def Always : Wild K R V α → (α → Prop) → Prop
  | .ret a, Q => Q a
  | .panic _, _ => False
  | .ask _ next, Q => ∀ b, Always (next b) Q
  | .up _ next, Q => ∀ k, Always (next k) Q
  | .down _ next, Q => ∀ k, Always (next k) Q
  | .search _ _ _ next, Q => ∀ l, Always (next l) Q
  | .put _ _ _, _ => False
  | .delete _ _, _ => False

end Wild

section
variable {K R V : Type}

/-- /repo/src/operations.rs:14-17 `order_start`, asked whether it is `Less`. -/
def Range.startLtW (a b : Range K) : Wild K R V Bool := Wild.lt a.start b.start

/-- /repo/src/operations.rs:19-21 `order_end`, asked whether it is `Less`. -/
def Range.endLtW (a b : Range K) : Wild K R V Bool := Wild.lt a.stop b.stop

/-- /repo/src/operations.rs:40-52 `merge`. -/
def Range.mergeW (self other : Range K) : Wild K R V (Option (Range K)) := do
  if ← self.containsW other.start then
    if ← Wild.lt self.stop other.stop then return some ⟨self.start, other.stop⟩
    else return some self
  else return none

/-- /repo/src/operations.rs:74-85 `intersect`. -/
def Range.intersectW (self other : Range K) : Wild K R V (Option (Range K)) := do
  let start ← Wild.max self.start other.start
  let stop ← Wild.min self.stop other.stop
  if ← Wild.le stop start then return none else return some ⟨start, stop⟩

/-- /repo/src/operations.rs:24-27 `order_start`, asked whether it is `Less`. -/
def RangeInclusive.startLtW (a b : RangeInclusive K) : Wild K R V Bool := Wild.lt a.start b.start

/-- /repo/src/operations.rs:29-31 `order_end`, asked whether it is `Less`. -/
def RangeInclusive.endLtW (a b : RangeInclusive K) : Wild K R V Bool := Wild.lt a.stop b.stop

/-- /repo/src/operations.rs:54-66 `merge`. -/
def RangeInclusive.mergeW (self other : RangeInclusive K) :
    Wild K R V (Option (RangeInclusive K)) := do
  if ← self.containsW other.start then
    if ← Wild.lt self.stop other.stop then return some (.mk' self.start other.stop)
    else return some self
  else return none

/-- /repo/src/operations.rs:87-98 `intersect`. -/
def RangeInclusive.intersectW (self other : RangeInclusive K) :
    Wild K R V (Option (RangeInclusive K)) := do
  let start ← Wild.max self.start other.start
  let stop ← Wild.min self.stop other.stop
  if ← Wild.lt stop start then return none else return some (.mk' start stop)

end

namespace PUnion
variable {K R V I T : Type}

/-- /repo/src/operations.rs:143-159: the range to start with. -/
def firstW (startLt : T → T → Wild K R V Bool) (inext : I → Option T × I) (u : PUnion I T) :
    Wild K R V (Option T × PUnion I T) :=
  match u.left.peek inext, u.right.peek inext with
  | (some _, left), (none, right) => do
    let (o, left) := left.next inext
    return (some (← Wild.unwrap o), ⟨left, right⟩)
  | (none, left), (some _, right) => do
    let (o, right) := right.next inext
    return (some (← Wild.unwrap o), ⟨left, right⟩)
  | (some l, left), (some r, right) => do
    if ← startLt l r then
      let (o, left) := left.next inext
      return (some (← Wild.unwrap o), ⟨left, right⟩)
    else
      let (o, right) := right.next inext
      return (some (← Wild.unwrap o), ⟨left, right⟩)
  | (none, left), (none, right) => return (none, ⟨left, right⟩)

/-- /repo/src/operations.rs:161-170, the closure `join`; `none` is `false`, `some` is `true` with the
new value of `range`. -/
def joinW (merge : T → T → Wild K R V (Option T)) (inext : I → Option T × I) (range : T)
    (p : Peekable I T) : Wild K R V (Option T × Peekable I T) :=
  match p.peek inext with
  | (none, p) => return (none, p)
  | (some next, p) => do
    match ← merge range next with
    | none => return (none, p)
    | some range =>
      let (o, p) := p.next inext
      let _ ← Wild.unwrap o
      return (some range, p)

/-- /repo/src/operations.rs:172-177, the loop. -/
def mergeLoopW (merge : T → T → Wild K R V (Option T)) (inext : I → Option T × I) :
    Nat → T → PUnion I T → Wild K R V (T × PUnion I T)
  | 0, _, _ => .panic .diverge
  | fuel + 1, range, u => do
    match ← joinW merge inext range u.left with
    | (some range, left) => mergeLoopW merge inext fuel range ⟨left, u.right⟩
    | (none, left) =>
      match ← joinW merge inext range u.right with
      | (some range, right) => mergeLoopW merge inext fuel range ⟨left, right⟩
      | (none, right) => return (range, ⟨left, right⟩)

/-- /repo/src/operations.rs:142-180 `next`. -/
def nextW (startLt : T → T → Wild K R V Bool) (merge : T → T → Wild K R V (Option T))
    (inext : I → Option T × I) (fuel : Nat) (u : PUnion I T) :
    Wild K R V (Option T × PUnion I T) := do
  match ← u.firstW startLt inext with
  | (none, u) => return (none, u)
  | (some range, u) =>
    let (range, u) ← mergeLoopW merge inext fuel range u
    return (some range, u)

end PUnion

namespace PIntersection
variable {K R V I T : Type}

/-- /repo/src/operations.rs:225-245 `next`.  The intersection is computed before the ends are
compared. -/
def nextW (endLt : T → T → Wild K R V Bool) (intersect : T → T → Wild K R V (Option T))
    (inext : I → Option T × I) :
    Nat → PIntersection I T → Wild K R V (Option T × PIntersection I T)
  | 0, _ => .panic .diverge
  | fuel + 1, i =>
    match i.left.peek inext, i.right.peek inext with
    | (some l, left), (some r, right) => do
      let o ← intersect l r
      let i : PIntersection I T ← if ← endLt l r then pure ⟨(left.next inext).2, right⟩
        else pure ⟨left, (right.next inext).2⟩
      match o with
      | some range => return (some range, i)
      | none => nextW endLt intersect inext fuel i
    | (_, left), (_, right) => return (none, ⟨left, right⟩)

end PIntersection
end Verif

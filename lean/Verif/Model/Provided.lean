import Verif.Model.Iter
import Verif.Model.IIter

/-!
# The provided methods of the crate's iterators

None of the crate's `impl Iterator` and `impl DoubleEndedIterator` blocks
(/repo/src/map.rs:529-555, 581-599, 722-762, 784-820; /repo/src/inclusive_map.rs:622-648, 672-690,
828-878, 900-937; /repo/src/set.rs:197-219, 238-252, 369-380, 397-415;
/repo/src/inclusive_set.rs:223-243, 264-278, 400-413, 429-448; /repo/src/operations.rs:135-181,
218-246) overrides any method but `next`, `next_back` and `size_hint`; the others are those std
provides, made of calls of `next` (or, through `rev`, of `next_back`).  They are modelled for a
`next` that may panic; loops get `fuel`.
-/
namespace Verif.Provided
variable {S α β : Type}

/-- A `next` that cannot panic. -/
def total (next : S → Option α × S) (s : S) : Except Panic (Option α × S) := .ok (next s)

/-- std `Iterator::fold`. -/
def fold (next : S → Except Panic (Option α × S)) (f : β → α → β) :
    Nat → S → β → Except Panic β
  | 0, _, _ => .error .diverge
  | fuel + 1, s, b => do
    match ← next s with
    | (some a, s') => fold next f fuel s' (f b a)
    | (none, _) => return b

/-- std `Iterator::count`. -/
def count (next : S → Except Panic (Option α × S)) (fuel : Nat) (s : S) : Except Panic Nat :=
  fold next (fun n _ => n + 1) fuel s 0

/-- std `Iterator::last`. -/
def last (next : S → Except Panic (Option α × S)) (fuel : Nat) (s : S) :
    Except Panic (Option α) :=
  fold next (fun _ a => some a) fuel s none

/-- std `Iterator::advance_by`: whether there were so many items, and the iterator. -/
def advanceBy (next : S → Except Panic (Option α × S)) : Nat → S → Except Panic (Bool × S)
  | 0, s => .ok (true, s)
  | n + 1, s => do
    match ← next s with
    | (some _, s') => advanceBy next n s'
    | (none, s') => return (false, s')

/-- std `Iterator::nth`, and the iterator afterwards. -/
def nth (next : S → Except Panic (Option α × S)) (n : Nat) (s : S) :
    Except Panic (Option α × S) := do
  match ← advanceBy next n s with
  | (true, s') => next s'
  | (false, s') => return (none, s')

/-- std `Iterator::find`, and the iterator afterwards. -/
def find (next : S → Except Panic (Option α × S)) (p : α → Bool) :
    Nat → S → Except Panic (Option α × S)
  | 0, _ => .error .diverge
  | fuel + 1, s => do
    match ← next s with
    | (some a, s') => if p a then return (some a, s') else find next p fuel s'
    | (none, s') => return (none, s')

/-- std `Iterator::any`. -/
def any (next : S → Except Panic (Option α × S)) (p : α → Bool) (fuel : Nat) (s : S) :
    Except Panic Bool := do
  return (← find next p fuel s).1.isSome

/-- std `Iterator::all`. -/
def all (next : S → Except Panic (Option α × S)) (p : α → Bool) (fuel : Nat) (s : S) :
    Except Panic Bool := do
  return !(← find next (fun a => !p a) fuel s).1.isSome

/-- std `Iterator::position`. -/
def position (next : S → Except Panic (Option α × S)) (p : α → Bool) :
    Nat → S → Nat → Except Panic (Option Nat)
  | 0, _, _ => .error .diverge
  | fuel + 1, s, i => do
    match ← next s with
    | (some a, s') => if p a then return some i else position next p fuel s' (i + 1)
    | (none, _) => return none

end Verif.Provided

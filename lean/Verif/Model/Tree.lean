import Verif.Model.Crash
import Verif.Model.Iter
import Verif.Model.IIter

/-!
# The B-tree itself

`Verif/Model/Std.lean` models a `BTreeMap` by the list of its entries, and a search in it by a filter
over the whole list.  The real search sees only the keys on one path from the root, and which keys
these are depends on how the entries happen to be laid out in nodes.  It finds what the filter finds
only if the order by which it searches is the order in which the entries are laid out.  The crate
relies on this in an unusual way: the tree is laid out by the *starts* of the ranges
(`RangeStartWrapper`), but `overlapping` and `gaps` search it by the *ends*, through a `Borrow`
implementation that "skirts the law" (/repo/src/range_wrapper.rs:11-22).

Here the search is modelled as std does it (alloc/src/collections/btree/search.rs, which is not part
of /repo), on trees of arbitrary shape.
-/
namespace Verif

/-- A search tree.  A node of a B-tree with the keys `e₁ … eₙ` and the children `c₀ … cₙ`, whose keys
std looks through from left to right, is `node c₀ e₁ (node c₁ e₂ (… (node cₙ₋₁ eₙ cₙ)))`; below the
leaves is `nil`.  So every B-tree (and every order of its nodes) is one of these trees. -/
inductive Tree (E : Type) where
  | nil
  | node (l : Tree E) (e : E) (r : Tree E)
  deriving Repr, DecidableEq

namespace Tree
variable {E : Type}

/-- The entries from left to right. -/
def toList : Tree E → List E
  | nil => []
  | node l e r => l.toList ++ e :: r.toList

/-- `BTreeMap::len`. -/
def size : Tree E → Nat
  | nil => 0
  | node l _ r => l.size + 1 + r.size

end Tree

/-- std `SearchBound`: what is left of a bound when the search has reached some subtree. -/
inductive SearchBound (K : Type) where
  | included (k : K)
  | excluded (k : K)
  | allIncluded
  | allExcluded

namespace SearchBound
variable {K : Type} [LE K] [LT K] [DecidableLE K] [DecidableLT K]

/-- std `SearchBound::from_range`. -/
def ofBound : Bound K → SearchBound K
  | .included k => .included k
  | .excluded k => .excluded k
  | .unbounded => .allIncluded

/-- std `find_lower_bound_index`, one key of the node at a time: does the search for the lower bound
go on to the right of the key `k`, and with which bound? -/
def lower : SearchBound K → K → Bool × SearchBound K
  | .included q, k =>
    if q < k then (false, .included q) else if k < q then (true, .included q)
    else (false, .allExcluded)
  | .excluded q, k =>
    if q < k then (false, .excluded q) else if k < q then (true, .excluded q)
    else (true, .allIncluded)
  | .allIncluded, _ => (false, .allIncluded)
  | .allExcluded, _ => (true, .allExcluded)

/-- std `find_upper_bound_index`, one key of the node at a time. -/
def upper : SearchBound K → K → Bool × SearchBound K
  | .included q, k =>
    if q < k then (false, .included q) else if k < q then (true, .included q)
    else (true, .allExcluded)
  | .excluded q, k =>
    if q < k then (false, .excluded q) else if k < q then (true, .excluded q)
    else (false, .allIncluded)
  | .allIncluded, _ => (true, .allIncluded)
  | .allExcluded, _ => (false, .allExcluded)

end SearchBound

namespace Tree
variable {K : Type} [LE K] [LT K] [DecidableLE K] [DecidableLT K] {R V : Type}

/-- The entries right of where the search for the lower bound `b` ends. -/
def fromLower (key : R → K) (b : SearchBound K) : Tree (R × V) → List (R × V)
  | nil => []
  | node l e r =>
    match b.lower (key e.1) with
    | (true, b') => fromLower key b' r
    | (false, b') => fromLower key b' l ++ e :: r.toList

/-- The entries left of where the search for the upper bound `b` ends. -/
def toUpper (key : R → K) (b : SearchBound K) : Tree (R × V) → List (R × V)
  | nil => []
  | node l e r =>
    match b.upper (key e.1) with
    | (true, b') => l.toList ++ e :: toUpper key b' r
    | (false, b') => toUpper key b' l

/-- std `search_tree_for_bifurcation` followed by the two searches below the node where the bounds
part.  Where the search for the lower bound goes to the right of a key, that for the upper bound
starts there, too (the `start_index` of `find_upper_bound_index`). -/
def between (key : R → K) (lo hi : SearchBound K) : Tree (R × V) → List (R × V)
  | nil => []
  | node l e r =>
    match lo.lower (key e.1) with
    | (true, lo') => between key lo' hi r
    | (false, lo') =>
      match hi.upper (key e.1) with
      | (true, hi') => fromLower key lo' l ++ e :: toUpper key hi' r
      | (false, hi') => between key lo' hi' l

/-- `BTreeMap::range`. -/
def range (key : R → K) (lo hi : Bound K) (t : Tree (R × V)) : Except Panic (List (R × V)) :=
  if Bound.invalid lo hi then .error .btreeRange
  else .ok (t.between key (.ofBound lo) (.ofBound hi))

/-- `BTreeMap::contains_key`: std `search_tree`. -/
def contains (key : R → K) (k : K) : Tree (R × V) → Bool
  | nil => false
  | node l e r =>
    if k < key e.1 then contains key k l else if key e.1 < k then contains key k r else true

/-- `BTreeMap::insert`: replaces the value where the search finds the key, and otherwise makes a new
entry where it ends.  (Splitting of nodes that are full: see `Shapes`.) -/
def insert (key : R → K) (r : R) (v : V) : Tree (R × V) → Tree (R × V)
  | nil => node nil (r, v) nil
  | node l e t =>
    if key r < key e.1 then node (insert key r v l) e t
    else if key e.1 < key r then node l e (insert key r v t)
    else node l (e.1, v) t

/-- Two subtrees side by side. -/
def join : Tree R → Tree R → Tree R
  | nil, t => t
  | node l e r, t => node l e (join r t)

/-- `BTreeMap::remove`: takes the entry out where the search finds the key. -/
def remove (key : R → K) (k : K) : Tree (R × V) → Tree (R × V)
  | nil => nil
  | node l e r =>
    if k < key e.1 then node (remove key k l) e r
    else if key e.1 < k then node l e (remove key k r)
    else join l r

/-- How the tree is split, merged and balanced: after the `i`-th change of the tree `t` it becomes
`reshape i t`.  Nothing is assumed about it but that it keeps the entries and their order. -/
structure Shapes (E : Type) where
  reshape : Nat → Tree E → Tree E
  keeps : ∀ i t, (reshape i t).toList = t.toList

end Tree

/-- The B-tree, how often user code has run and how often the tree has changed. -/
structure TreeState (E : Type) where
  calls : Nat
  changes : Nat
  tree : Tree E

/-- Runs a program on a tree. -/
def Cr.runTree {K : Type} [LE K] [LT K] [DecidableLE K] [DecidableLT K] {R V α : Type}
    (key : R → K) (shapes : Tree.Shapes (R × V)) (panics : Nat → Bool) :
    Cr K R V α → TreeState (R × V) → Except Crash α × TreeState (R × V)
  | .ret a, s => (.ok a, s)
  | .panic p, s => (.error (.lib p), s)
  | .call next, s =>
    if panics s.calls then (.error .user, { s with calls := s.calls + 1 })
    else runTree key shapes panics next { s with calls := s.calls + 1 }
  | .size next, s => runTree key shapes panics (next s.tree.size) s
  | .search lo hi next, s =>
    match s.tree.range key lo hi with
    | .ok l => runTree key shapes panics (next l) s
    | .error p => (.error (.lib p), s)
  | .put r v next, s =>
    runTree key shapes panics (next (s.tree.contains key (key r)))
      { s with changes := s.changes + 1,
               tree := shapes.reshape s.changes (s.tree.insert key r v) }
  | .delete k next, s =>
    runTree key shapes panics next
      { s with changes := s.changes + 1, tree := shapes.reshape s.changes (s.tree.remove key k) }

/-! ### `RangeMap` on trees -/

namespace RangeMap
variable {K : Type} [LE K] [LT K] [DecidableLE K] [DecidableLT K] {V : Type}

/-- /repo/src/map.rs:261-363 `insert`, on a tree. -/
def treeInsert [BEq V] (shapes : Tree.Shapes (Range K × V)) (panics : Nat → Bool)
    (t : Tree (Range K × V)) (range : Range K) (value : V) :
    Except Crash Unit × Tree (Range K × V) :=
  let (outcome, s) := (insertProgram range value).runTree Range.start shapes panics ⟨0, 0, t⟩
  (outcome, s.tree)

/-- /repo/src/map.rs:375-437 `remove`, on a tree. -/
def treeRemove (shapes : Tree.Shapes (Range K × V)) (panics : Nat → Bool)
    (t : Tree (Range K × V)) (range : Range K) : Except Crash Unit × Tree (Range K × V) :=
  let (outcome, s) := (removeProgram range).runTree Range.start shapes panics ⟨0, 0, t⟩
  (outcome, s.tree)

/-- /repo/src/map.rs:161-176 `get_key_value`, on a tree laid out by start and searched by start. -/
def treeGetKeyValue (t : Tree (Range K × V)) (k : K) : Except Panic (Option (Range K × V)) := do
  let l ← t.range Range.start .unbounded (.included k)
  return l.getLast?.filter fun e => e.1.contains k

/-- /repo/src/map.rs:201-218 `overlapping`, on a tree laid out by start and searched by *end*
(/repo/src/range_wrapper.rs:77-81, the `Borrow` implementation). -/
def treeOverlapping (t : Tree (Range K × V)) (range : Range K) : Except Panic (Overlapping K V) := do
  let l ← t.range Range.stop (.excluded range.start) .unbounded
  return ⟨range, l⟩

end RangeMap

namespace RangeInclusiveMap
variable {K : Type} [LE K] [LT K] [DecidableLE K] [DecidableLT K] {V : Type}

/-- /repo/src/inclusive_map.rs:249-374 `insert`, on a tree. -/
def treeInsert [BEq V] (S : StepFns K) (shapes : Tree.Shapes (RangeInclusive K × V))
    (panics : Nat → Bool) (t : Tree (RangeInclusive K × V)) (range : RangeInclusive K) (value : V) :
    Except Crash Unit × Tree (RangeInclusive K × V) :=
  let (outcome, s) :=
    (insertProgram S range value).runTree RangeInclusive.start shapes panics ⟨0, 0, t⟩
  (outcome, s.tree)

/-- /repo/src/inclusive_map.rs:386-460 `remove`, on a tree. -/
def treeRemove (S : StepFns K) (shapes : Tree.Shapes (RangeInclusive K × V)) (panics : Nat → Bool)
    (t : Tree (RangeInclusive K × V)) (range : RangeInclusive K) :
    Except Crash Unit × Tree (RangeInclusive K × V) :=
  let (outcome, s) := (removeProgram S range).runTree RangeInclusive.start shapes panics ⟨0, 0, t⟩
  (outcome, s.tree)

/-- /repo/src/inclusive_map.rs:197-214 `get_key_value`, on a tree laid out by start and searched by
start. -/
def treeGetKeyValue (t : Tree (RangeInclusive K × V)) (k : K) :
    Except Panic (Option (RangeInclusive K × V)) := do
  let l ← t.range RangeInclusive.start .unbounded (.included k)
  return l.getLast?.filter fun e => e.1.contains k

/-- /repo/src/inclusive_map.rs:565-585 `overlapping`, on a tree laid out by start and searched by
*end* (/repo/src/range_wrapper.rs:191-195, the `Borrow` implementation). -/
def treeOverlapping (t : Tree (RangeInclusive K × V)) (range : RangeInclusive K) :
    Except Panic (Overlapping K V) := do
  let l ← t.range RangeInclusive.stop (.included range.start) .unbounded
  return ⟨range, l⟩

end RangeInclusiveMap
end Verif

import Verif.Model.Tree
import Verif.Model.Cost

/-!
# How many keys the B-tree compares

`Model/Tree.lean` searches a tree of any shape.  Here the comparisons of keys made by these searches
are counted, and the shapes std's B-trees have are described
    (std, alloc/src/collections/btree/node.rs:
`B = 6`, so `MIN_LEN = 5` and `CAPACITY = 11`; not part of /repo).  std looks through the keys of
    a node
one after the other and calls `Ord::cmp` once for each.
-/
namespace Verif

namespace Tree

/-- A node of `n` keys, whose children satisfy `P`, written as `Tree` does: `n` keys down the right
spine, a child left of each and one at the end. -/
def Spine {E : Type} (P : Tree E → Prop) : Nat → Tree E → Prop
  | 0, t => P t
  | _ + 1, nil => False
  | n + 1, node l _ r => P l ∧ Spine P n r

/-- A node that is not the root, with `h` levels from itself down: 5 to 11 keys in each node, all
leaves on the same level. -/
def IsNode {E : Type} : Nat → Tree E → Prop
  | 0, t => t = nil
  | h + 1, t => ∃ n, 5 ≤ n ∧ n ≤ 11 ∧ Spine (IsNode h) n t

/-- A B-tree as std keeps it: the root may have fewer keys, and an empty tree has no root. -/
def IsBTree {E : Type} (t : Tree E) : Prop :=
  t = nil ∨ ∃ h n, 1 ≤ n ∧ n ≤ 11 ∧ Spine (IsNode h) n t

end Tree

namespace SearchBound
variable {K : Type}

/-- How often `cmp` is called to compare one key of a node with the bound. -/
def cmps : SearchBound K → Nat
  | .included _ => 1
  | .excluded _ => 1
  | .allIncluded => 0
  | .allExcluded => 0

end SearchBound

namespace Tree
variable {K : Type} [LE K] [LT K] [DecidableLE K] [DecidableLT K] {R V : Type}

/-- `fromLower` and the number of comparisons. -/
def fromLowerC (key : R → K) (b : SearchBound K) : Tree (R × V) → List (R × V) × Nat
  | nil => ([], 0)
  | node l e r =>
    match b.lower (key e.1) with
    | (true, b') =>
      let (x, n) := fromLowerC key b' r
      (x, b.cmps + n)
    | (false, b') =>
      let (x, n) := fromLowerC key b' l
      (x ++ e :: r.toList, b.cmps + n)

/-- `toUpper` and the number of comparisons. -/
def toUpperC (key : R → K) (b : SearchBound K) : Tree (R × V) → List (R × V) × Nat
  | nil => ([], 0)
  | node l e r =>
    match b.upper (key e.1) with
    | (true, b') =>
      let (x, n) := toUpperC key b' r
      (l.toList ++ e :: x, b.cmps + n)
    | (false, b') =>
      let (x, n) := toUpperC key b' l
      (x, b.cmps + n)

/-- `between` and the number of comparisons. -/
def betweenC (key : R → K) (lo hi : SearchBound K) : Tree (R × V) → List (R × V) × Nat
  | nil => ([], 0)
  | node l e r =>
    match lo.lower (key e.1) with
    | (true, lo') =>
      let (x, n) := betweenC key lo' hi r
      (x, lo.cmps + n)
    | (false, lo') =>
      match hi.upper (key e.1) with
      | (true, hi') =>
        let (x, n) := fromLowerC key lo' l
        let (y, k) := toUpperC key hi' r
        (x ++ e :: y, lo.cmps + hi.cmps + n + k)
      | (false, hi') =>
        let (x, n) := betweenC key lo' hi' l
        (x, lo.cmps + hi.cmps + n)

/-- std, `search_tree_for_bifurcation`: the comparisons of the bounds with each other that come
first (`==` if both are excluded, and `>`). -/
def boundCmps : Bound K → Bound K → Nat
  | .unbounded, _ => 0
  | _, .unbounded => 0
  | .excluded s, .excluded e => if keq s e then 1 else 2
  | _, _ => 1

/-- `BTreeMap::range` and the number of comparisons. -/
def rangeC (key : R → K) (lo hi : Bound K) (t : Tree (R × V)) :
    Except Panic (List (R × V)) × Nat :=
  if Bound.invalid lo hi then (.error .btreeRange, boundCmps lo hi)
  else
    let (x, n) := t.betweenC key (.ofBound lo) (.ofBound hi)
    (.ok x, boundCmps lo hi + n)

/-- `contains`, the search of `BTreeMap::insert` and `BTreeMap::remove`, and the number of
comparisons. -/
def containsC (key : R → K) (k : K) : Tree (R × V) → Bool × Nat
  | nil => (false, 0)
  | node l e r =>
    if k < key e.1 then
      let (x, n) := containsC key k l
      (x, 1 + n)
    else if key e.1 < k then
      let (x, n) := containsC key k r
      (x, 1 + n)
    else (true, 1)

end Tree

/-- The comparisons made inside `BTreeMap`'s methods by a program that is not interrupted, on the
tree `t` after `i` changes. -/
def Cr.cmps {K : Type} [LE K] [LT K] [DecidableLE K] [DecidableLT K] {R V α : Type}
    (key : R → K) (shapes : Tree.Shapes (R × V)) : Cr K R V α → Nat → Tree (R × V) → Nat
  | .ret _, _, _ => 0
  | .panic _, _, _ => 0
  | .call next, i, t => cmps key shapes next i t
  | .size next, i, t => cmps key shapes (next t.size) i t
  | .search lo hi next, i, t =>
    match t.rangeC key lo hi with
    | (.ok l, n) => n + cmps key shapes (next l) i t
    | (.error _, n) => n
  | .put r v next, i, t =>
    let (found, n) := t.containsC key (key r)
    n + cmps key shapes (next found) (i + 1) (shapes.reshape i (t.insert key r v))
  | .delete k next, i, t =>
    (t.containsC key k).2 + cmps key shapes next (i + 1) (shapes.reshape i (t.remove key k))

namespace RangeMap
variable {K : Type} [LE K] [LT K] [DecidableLE K] [DecidableLT K] {V : Type}

/-- Comparisons inside the B-tree made by /repo/src/map.rs:261-363 `insert`. -/
def insertCmps [BEq V] (shapes : Tree.Shapes (Range K × V)) (t : Tree (Range K × V))
    (range : Range K) (value : V) : Nat :=
  (insertProgram range value).cmps Range.start shapes 0 t

/-- Comparisons inside the B-tree made by /repo/src/map.rs:375-437 `remove`. -/
def removeCmps (shapes : Tree.Shapes (Range K × V)) (t : Tree (Range K × V)) (range : Range K) :
    Nat :=
  (removeProgram range : Cr K (Range K) V Unit).cmps Range.start shapes 0 t

/-- /repo/src/map.rs:161-176 `get_key_value`, with the comparisons: those of the search, and those
of `Range::contains` (`start <= key && key < end`) for the entry found. -/
def treeGetKeyValueC (t : Tree (Range K × V)) (k : K) :
    Except Panic (Option (Range K × V)) × Nat :=
  match t.rangeC Range.start .unbounded (.included k) with
  | (.error p, n) => (.error p, n)
  | (.ok l, n) =>
    match l.getLast? with
    | none => (.ok none, n)
    | some e => (.ok (if e.1.contains k then some e else none), n + if e.1.start ≤ k then 2 else 1)

/-- /repo/src/map.rs:201-218 `overlapping` (only the call itself, not the iteration), with the
comparisons. -/
def treeOverlappingC (t : Tree (Range K × V)) (range : Range K) :
    Except Panic (Overlapping K V) × Nat :=
  match t.rangeC Range.stop (.excluded range.start) .unbounded with
  | (.error p, n) => (.error p, n)
  | (.ok l, n) => (.ok ⟨range, l⟩, n)

/-- Comparisons inside the B-tree made by /repo/src/map.rs:622-632 `Extend::extend`, and the tree it
leaves. -/
def extendCmps [BEq V] (shapes : Tree.Shapes (Range K × V)) :
    Tree (Range K × V) → List (Range K × V) → Nat × Tree (Range K × V)
  | t, [] => (0, t)
  | t, (r, v) :: items =>
    let n := insertCmps shapes t r v
    match treeInsert shapes (fun _ => false) t r v with
    | (.ok _, t') =>
      let (k, t'') := extendCmps shapes t' items
      (n + k, t'')
    | (.error _, t') => (n, t')

/-- Comparisons inside the B-tree made by a mutating method, and the tree it leaves. -/
def opCmps [BEq V] (shapes : Tree.Shapes (Range K × V)) (t : Tree (Range K × V)) :
    Spec.Op (Range K) V → Nat × Tree (Range K × V)
  | .insert r v => (insertCmps shapes t r v, (treeInsert shapes (fun _ => false) t r v).2)
  | .remove r => (removeCmps shapes t r, (treeRemove shapes (fun _ => false) t r).2)
  | .clear => (0, .nil)
  | .extend items => extendCmps shapes t items

/-- Comparisons inside the B-tree made by a history of method calls (earliest first), each with its
own way of rebalancing the tree. -/
def historyCmps [BEq V] (t : Tree (Range K × V)) :
    List (Tree.Shapes (Range K × V) × Spec.Op (Range K) V) → Nat
  | [] => 0
  | (shapes, op) :: ops =>
    let (n, t') := opCmps shapes t op
    n + historyCmps t' ops

end RangeMap

namespace RangeInclusiveMap
variable {K : Type} [LE K] [LT K] [DecidableLE K] [DecidableLT K] {V : Type}

/-- Comparisons inside the B-tree made by /repo/src/inclusive_map.rs:249-374 `insert`. -/
def insertCmps [BEq V] (S : StepFns K) (shapes : Tree.Shapes (RangeInclusive K × V))
    (t : Tree (RangeInclusive K × V)) (range : RangeInclusive K) (value : V) : Nat :=
  (insertProgram S range value).cmps RangeInclusive.start shapes 0 t

/-- Comparisons inside the B-tree made by /repo/src/inclusive_map.rs:386-460 `remove`. -/
def removeCmps (S : StepFns K) (shapes : Tree.Shapes (RangeInclusive K × V))
    (t : Tree (RangeInclusive K × V)) (range : RangeInclusive K) : Nat :=
  (removeProgram S range : Cr K (RangeInclusive K) V Unit).cmps RangeInclusive.start shapes 0 t

/-- /repo/src/inclusive_map.rs:197-214 `get_key_value`, with the comparisons: those of the search,
and those of `RangeInclusive::contains` (`start <= key`, and then `key <= end`, or `key < end` if
the range is exhausted) for the entry found. -/
def treeGetKeyValueC (t : Tree (RangeInclusive K × V)) (k : K) :
    Except Panic (Option (RangeInclusive K × V)) × Nat :=
  match t.rangeC RangeInclusive.start .unbounded (.included k) with
  | (.error p, n) => (.error p, n)
  | (.ok l, n) =>
    match l.getLast? with
    | none => (.ok none, n)
    | some e => (.ok (if e.1.contains k then some e else none), n + if e.1.start ≤ k then 2 else 1)

/-- /repo/src/inclusive_map.rs:565-585 `overlapping` (only the call itself, not the iteration), with
the comparisons. -/
def treeOverlappingC (t : Tree (RangeInclusive K × V)) (range : RangeInclusive K) :
    Except Panic (Overlapping K V) × Nat :=
  match t.rangeC RangeInclusive.stop (.included range.start) .unbounded with
  | (.error p, n) => (.error p, n)
  | (.ok l, n) => (.ok ⟨range, l⟩, n)

/-- Comparisons inside the B-tree made by /repo/src/inclusive_map.rs:717-727 `Extend::extend`, and
the tree it leaves. -/
def extendCmps [BEq V] (S : StepFns K) (shapes : Tree.Shapes (RangeInclusive K × V)) :
    Tree (RangeInclusive K × V) → List (RangeInclusive K × V) → Nat × Tree (RangeInclusive K × V)
  | t, [] => (0, t)
  | t, (r, v) :: items =>
    let n := insertCmps S shapes t r v
    match treeInsert S shapes (fun _ => false) t r v with
    | (.ok _, t') =>
      let (k, t'') := extendCmps S shapes t' items
      (n + k, t'')
    | (.error _, t') => (n, t')

/-- Comparisons inside the B-tree made by a mutating method, and the tree it leaves. -/
def opCmps [BEq V] (S : StepFns K) (shapes : Tree.Shapes (RangeInclusive K × V))
    (t : Tree (RangeInclusive K × V)) :
    Spec.Op (RangeInclusive K) V → Nat × Tree (RangeInclusive K × V)
  | .insert r v => (insertCmps S shapes t r v, (treeInsert S shapes (fun _ => false) t r v).2)
  | .remove r => (removeCmps S shapes t r, (treeRemove S shapes (fun _ => false) t r).2)
  | .clear => (0, .nil)
  | .extend items => extendCmps S shapes t items

/-- Comparisons inside the B-tree made by a history of method calls (earliest first), each with its
own way of rebalancing the tree. -/
def historyCmps [BEq V] (S : StepFns K) (t : Tree (RangeInclusive K × V)) :
    List (Tree.Shapes (RangeInclusive K × V) × Spec.Op (RangeInclusive K) V) → Nat
  | [] => 0
  | (shapes, op) :: ops =>
    let (n, t') := opCmps S shapes t op
    n + historyCmps S t' ops

end RangeInclusiveMap
end Verif

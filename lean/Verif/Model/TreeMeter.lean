import Verif.Model.TreeCmp
import Verif.Model.Metered

/-!
# The searches in the B-tree with the counting done by the comparisons themselves

`Model/TreeCmp.lean` writes the number of comparisons down beside each branch.  Here the searches are
transcribed once more with `Metered.cmp`, which moves the meter, as the only way to compare two keys.
-/
namespace Verif

namespace SearchBound
variable {K : Type} [LE K] [LT K] [DecidableLE K] [DecidableLT K]

/-- std `find_lower_bound_index`, one key of the node at a time. -/
def lowerM : SearchBound K → K → Metered (Bool × SearchBound K)
  | .included q, k => do
    match ← Metered.cmp q k with
    | .lt => return (false, .included q)
    | .gt => return (true, .included q)
    | .eq => return (false, .allExcluded)
  | .excluded q, k => do
    match ← Metered.cmp q k with
    | .lt => return (false, .excluded q)
    | .gt => return (true, .excluded q)
    | .eq => return (true, .allIncluded)
  | .allIncluded, _ => return (false, .allIncluded)
  | .allExcluded, _ => return (true, .allExcluded)

/-- std `find_upper_bound_index`, one key of the node at a time. -/
def upperM : SearchBound K → K → Metered (Bool × SearchBound K)
  | .included q, k => do
    match ← Metered.cmp q k with
    | .lt => return (false, .included q)
    | .gt => return (true, .included q)
    | .eq => return (true, .allExcluded)
  | .excluded q, k => do
    match ← Metered.cmp q k with
    | .lt => return (false, .excluded q)
    | .gt => return (true, .excluded q)
    | .eq => return (false, .allIncluded)
  | .allIncluded, _ => return (true, .allIncluded)
  | .allExcluded, _ => return (false, .allExcluded)

end SearchBound

namespace Tree
variable {K : Type} [LE K] [LT K] [DecidableLE K] [DecidableLT K] {R V : Type}

/-- `fromLower`, metered. -/
def fromLowerM (key : R → K) (b : SearchBound K) : Tree (R × V) → Metered (List (R × V))
  | nil => return []
  | node l e r => do
    match ← b.lowerM (key e.1) with
    | (true, b') => fromLowerM key b' r
    | (false, b') => return (← fromLowerM key b' l) ++ e :: r.toList

/-- `toUpper`, metered. -/
def toUpperM (key : R → K) (b : SearchBound K) : Tree (R × V) → Metered (List (R × V))
  | nil => return []
  | node l e r => do
    match ← b.upperM (key e.1) with
    | (true, b') => return l.toList ++ e :: (← toUpperM key b' r)
    | (false, b') => toUpperM key b' l

/-- `between`, metered. -/
def betweenM (key : R → K) (lo hi : SearchBound K) : Tree (R × V) → Metered (List (R × V))
  | nil => return []
  | node l e r => do
    match ← lo.lowerM (key e.1) with
    | (true, lo') => betweenM key lo' hi r
    | (false, lo') => do
      match ← hi.upperM (key e.1) with
      | (true, hi') => do
        let x ← fromLowerM key lo' l
        let y ← toUpperM key hi' r
        return x ++ e :: y
      | (false, hi') => betweenM key lo' hi' l

/-- std, `search_tree_for_bifurcation`: the bounds must not be the wrong way round. -/
def checkM : Bound K → Bound K → Metered Unit
  | .unbounded, _ => return ()
  | _, .unbounded => return ()
  | .excluded s, .excluded e => do
    if (← Metered.cmp s e) = .eq then throw .btreeRange
    if ← Metered.lt e s then throw .btreeRange
  | .included s, .included e => do
    if ← Metered.lt e s then throw .btreeRange
  | .included s, .excluded e => do
    if ← Metered.lt e s then throw .btreeRange
  | .excluded s, .included e => do
    if ← Metered.lt e s then throw .btreeRange

/-- `BTreeMap::range`, metered. -/
def rangeM (key : R → K) (lo hi : Bound K) (t : Tree (R × V)) : Metered (List (R × V)) := do
  checkM lo hi
  t.betweenM key (.ofBound lo) (.ofBound hi)

/-- The search of `BTreeMap::insert` and `BTreeMap::remove`, metered. -/
def containsM (key : R → K) (k : K) : Tree (R × V) → Metered Bool
  | nil => return false
  | node l e r => do
    match ← Metered.cmp k (key e.1) with
    | .lt => containsM key k l
    | .gt => containsM key k r
    | .eq => return true

end Tree

/-- Runs a program that is not interrupted on the tree `t` after `i` changes, metered; returns the tree
it leaves, too. -/
def Cr.runM {K : Type} [LE K] [LT K] [DecidableLE K] [DecidableLT K] {R V α : Type}
    (key : R → K) (shapes : Tree.Shapes (R × V)) :
    Cr K R V α → Nat → Tree (R × V) → Metered (α × Tree (R × V))
  | .ret a, _, t => return (a, t)
  | .panic p, _, _ => throw p
  | .call next, i, t => runM key shapes next i t
  | .size next, i, t => runM key shapes (next t.size) i t
  | .search lo hi next, i, t => do
    let l ← t.rangeM key lo hi
    runM key shapes (next l) i t
  | .put r v next, i, t => do
    let found ← t.containsM key (key r)
    runM key shapes (next found) (i + 1) (shapes.reshape i (t.insert key r v))
  | .delete k next, i, t => do
    let _ ← t.containsM key k
    runM key shapes next (i + 1) (shapes.reshape i (t.remove key k))

namespace RangeMap
variable {K : Type} [LE K] [LT K] [DecidableLE K] [DecidableLT K] {V : Type}

/-- /repo/src/map.rs:161-176 `get_key_value`, metered. -/
def treeGetKeyValueM (t : Tree (Range K × V)) (k : K) : Metered (Option (Range K × V)) := do
  let l ← t.rangeM Range.start .unbounded (.included k)
  match l.getLast? with
  | none => return none
  | some e => return if ← Metered.rangeContains e.1 k then some e else none

/-- /repo/src/map.rs:201-218 `overlapping`, metered. -/
def treeOverlappingM (t : Tree (Range K × V)) (range : Range K) : Metered (Overlapping K V) := do
  return ⟨range, ← t.rangeM Range.stop (.excluded range.start) .unbounded⟩

/-- A mutating method, metered; returns the tree it leaves. -/
def opM [BEq V] (shapes : Tree.Shapes (Range K × V)) (t : Tree (Range K × V)) :
    Spec.Op (Range K) V → Metered (Tree (Range K × V))
  | .insert r v => do return (← (insertProgram r v).runM Range.start shapes 0 t).2
  | .remove r => do return (← (removeProgram r).runM Range.start shapes 0 t).2
  | .clear => return .nil
  | .extend items => items.foldlM (fun t e => do
      return (← (insertProgram e.1 e.2).runM Range.start shapes 0 t).2) t

/-- A history of method calls, none of which panics, metered. -/
def historyM [BEq V] (t : Tree (Range K × V)) :
    List (Tree.Shapes (Range K × V) × Spec.Op (Range K) V) → Metered (Tree (Range K × V))
  | [] => return t
  | (shapes, op) :: ops => do historyM (← opM shapes t op) ops

end RangeMap

namespace RangeInclusiveMap
variable {K : Type} [LE K] [LT K] [DecidableLE K] [DecidableLT K] {V : Type}

/-- /repo/src/inclusive_map.rs:197-214 `get_key_value`, metered. -/
def treeGetKeyValueM (t : Tree (RangeInclusive K × V)) (k : K) :
    Metered (Option (RangeInclusive K × V)) := do
  let l ← t.rangeM RangeInclusive.start .unbounded (.included k)
  match l.getLast? with
  | none => return none
  | some e => return if ← Metered.inclusiveContains e.1 k then some e else none

/-- /repo/src/inclusive_map.rs:565-585 `overlapping`, metered. -/
def treeOverlappingM (t : Tree (RangeInclusive K × V)) (range : RangeInclusive K) :
    Metered (Overlapping K V) := do
  return ⟨range, ← t.rangeM RangeInclusive.stop (.included range.start) .unbounded⟩

/-- A mutating method, metered; returns the tree it leaves. -/
def opM [BEq V] (S : StepFns K) (shapes : Tree.Shapes (RangeInclusive K × V)) (t : Tree (RangeInclusive K × V)) :
    Spec.Op (RangeInclusive K) V → Metered (Tree (RangeInclusive K × V))
  | .insert r v => do return (← (insertProgram S r v).runM RangeInclusive.start shapes 0 t).2
  | .remove r => do return (← (removeProgram S r).runM RangeInclusive.start shapes 0 t).2
  | .clear => return .nil
  | .extend items => items.foldlM (fun t e => do
      return (← (insertProgram S e.1 e.2).runM RangeInclusive.start shapes 0 t).2) t

/-- A history of method calls, none of which panics, metered. -/
def historyM [BEq V] (S : StepFns K) (t : Tree (RangeInclusive K × V)) :
    List (Tree.Shapes (RangeInclusive K × V) × Spec.Op (RangeInclusive K) V) → Metered (Tree (RangeInclusive K × V))
  | [] => return t
  | (shapes, op) :: ops => do historyM S (← opM S shapes t op) ops

end RangeInclusiveMap
end Verif

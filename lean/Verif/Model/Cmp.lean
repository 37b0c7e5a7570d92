import Verif.Model.Collect

/-!
# `PartialEq`, `Hash`, `PartialOrd` and `Ord` of `RangeMap`
-/
namespace Verif

/-! ### std: comparing iterators -/

/-- std `Iterator::eq`: element by element, and equally long. -/
def iterEq {α : Type} (eq : α → α → Bool) : List α → List α → Bool
  | [], [] => true
  | a :: s, b :: t => eq a b && iterEq eq s t
  | _, _ => false

/-- std `Iterator::cmp`: lexicographic. -/
def iterCmp {α : Type} (cmp : α → α → Ordering) : List α → List α → Ordering
  | [], [] => .eq
  | [], _ :: _ => .lt
  | _ :: _, [] => .gt
  | a :: s, b :: t => match cmp a b with
    | .eq => iterCmp cmp s t
    | o => o

/-- std `Iterator::partial_cmp`: lexicographic, stopping at the first pair that does not compare
`Some(Equal)`. -/
def iterPartialCmp {α : Type} (cmp : α → α → Option Ordering) :
    List α → List α → Option Ordering
  | [], [] => some .eq
  | [], _ :: _ => some .lt
  | _ :: _, [] => some .gt
  | a :: s, b :: t => match cmp a b with
    | some .eq => iterPartialCmp cmp s t
    | o => o

/-- `Ord::cmp` of a key type. -/
def kcmp {K : Type} [LT K] [DecidableLT K] (a b : K) : Ordering :=
  if a < b then .lt else if b < a then .gt else .eq

/-- std: `Ord::cmp` of the tuple `(&K, &K, &V)`. -/
def tripleCmp {K V : Type} [LT K] [DecidableLT K] (vcmp : V → V → Ordering)
    (a b : K × K × V) : Ordering :=
  match kcmp a.1 b.1 with
  | .eq => match kcmp a.2.1 b.2.1 with
    | .eq => vcmp a.2.2 b.2.2
    | o => o
  | o => o

/-- std: `PartialOrd::partial_cmp` of the tuple `(&K, &K, &V)`; for keys, `partial_cmp` is
`Some(cmp)` (contract of `Ord`). -/
def triplePartialCmp {K V : Type} [LT K] [DecidableLT K] (vcmp : V → V → Option Ordering)
    (a b : K × K × V) : Option Ordering :=
  match some (kcmp a.1 b.1) with
  | some .eq => match some (kcmp a.2.1 b.2.1) with
    | some .eq => vcmp a.2.2 b.2.2
    | o => o
  | o => o

/-- What is fed to a `Hasher`. -/
inductive HashToken (H : Type) where
  | writeUsize (n : Nat)
  | bool (b : Bool)
  | data (h : H)
  deriving DecidableEq, Repr

namespace RangeMap
variable {K : Type} [LE K] [LT K] [DecidableLE K] [DecidableLT K] {V : Type}

/-- std: `==` of the iterator items `(&Range<K>, &V)` (derived `PartialEq` of `Range`). -/
def entryEq [BEq V] (a b : Range K × V) : Bool :=
  (keq a.1.start b.1.start && keq a.1.stop b.1.stop) && a.2 == b.2

/-- /repo/src/map.rs:54-62 `PartialEq::eq`. -/
def eq [BEq V] (m m' : RangeMap K V) : Bool := iterEq entryEq m.iter m'.iter

/-- /repo/src/map.rs:143-148 `expanded_iter`. -/
def expandedIter (m : RangeMap K V) : List (K × K × V) :=
  m.btm.map fun e => (e.1.start, e.1.stop, e.2)

/-- /repo/src/map.rs:75-84 `Ord::cmp`. -/
def cmp (vcmp : V → V → Ordering) (m m' : RangeMap K V) : Ordering :=
  iterCmp (tripleCmp vcmp) m.expandedIter m'.expandedIter

/-- /repo/src/map.rs:64-73 `PartialOrd::partial_cmp`. -/
def partialCmp (vcmp : V → V → Option Ordering) (m m' : RangeMap K V) : Option Ordering :=
  iterPartialCmp (triplePartialCmp vcmp) m.expandedIter m'.expandedIter

/-- /repo/src/map.rs:41-52 `Hash::hash`: the sequence of writes to the hasher.  `hk`, `hv` are the
writes made by the key's and the value's own `Hash` (std: the item `(&Range<K>, &V)` hashes
`start`, `end`, `value` in this order). -/
def hash {H : Type} (hk : K → List H) (hv : V → List H) (m : RangeMap K V) : List (HashToken H) :=
  .writeUsize m.btm.length ::
    m.iter.flatMap fun e => (hk e.1.start ++ hk e.1.stop ++ hv e.2).map .data

end RangeMap
end Verif

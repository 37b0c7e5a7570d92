/-!
# Model of the parts of the Rust standard library the crate is built on

Nothing in this file models code of `/repo` itself; it models the std items that
`/repo/src` calls, as documented by std.  It is part of the trusted base
(see DESIGN.md, "Trusted base").

* `K: Ord` is modelled by a *total preorder* `≤` with a compatible `<`
  (`Std.IsLinearPreorder`, `Std.LawfulOrderLT`), which is exactly Rust's `Ord`
  contract: keys that compare `Equal` need not be the same value
  (e.g. `NotNan(-0.0)` and `NotNan(0.0)`).
* `V: PartialEq` is modelled by `BEq V`, with Rust's contract (symmetric and transitive,
  *not* necessarily reflexive) given by `PartialEquivBEq V` where a theorem needs it.
* A panic is an explicit error value.
-/

namespace Verif

/-- Why a call panicked (or did not return). -/
inductive Panic where
  /-- an `assert!` of the crate failed (start/end of the argument are the wrong way around) -/
  | assertFailed
  /-- `BTreeMap::range` was called with start > end, or start == end both excluded -/
  | btreeRange
  /-- a user supplied `add_one`/`sub_one` panicked (e.g. integer overflow in a debug build) -/
  | stepOverflow
  /-- an `expect` (of `NotNan::add_one`/`sub_one`) or `unwrap` (in `Union::next`) failed -/
  | expectFailed
  /-- the model's loop fuel ran out, i.e. the Rust loop would not have stopped yet -/
  | diverge
  deriving DecidableEq, Repr

section Ord
variable {K : Type} [LE K] [LT K] [DecidableLE K] [DecidableLT K]

/-- `a == b` for `K: Ord` (std: `PartialEq` must agree with `Ord::cmp == Equal`). -/
def keq (a b : K) : Bool := decide (a ≤ b) && decide (b ≤ a)

/-- `core::cmp::max` (std: returns the second argument if they compare equal). -/
def rmax (a b : K) : K := if b < a then a else b

/-- `core::cmp::min` (std: returns the first argument if they compare equal). -/
def rmin (a b : K) : K := if b < a then b else a

end Ord

/-- `core::ops::Bound`. -/
inductive Bound (K : Type) where
  | unbounded
  | included (k : K)
  | excluded (k : K)
  deriving Repr

namespace Bound
variable {K : Type} [LE K] [LT K] [DecidableLE K] [DecidableLT K]

/-- Is `k` admitted by this bound used as a lower bound? -/
def admitsAsLower : Bound K → K → Bool
  | unbounded, _ => true
  | included b, k => decide (b ≤ k)
  | excluded b, k => decide (b < k)

/-- Is `k` admitted by this bound used as an upper bound? -/
def admitsAsUpper : Bound K → K → Bool
  | unbounded, _ => true
  | included b, k => decide (k ≤ b)
  | excluded b, k => decide (k < b)

/-- The pairs of bounds on which std documents `BTreeMap::range` to panic:
"Panics if range `start > end`. Panics if range `start == end` and both bounds are `Excluded`." -/
def invalid : Bound K → Bound K → Bool
  | excluded a, excluded b => decide (b ≤ a)
  | included a, included b => decide (b < a)
  | included a, excluded b => decide (b < a)
  | excluded a, included b => decide (b < a)
  | _, _ => false

end Bound

/-!
### `BTreeMap`

A `BTreeMap<R, V>` is modelled by the list of its entries in iteration order.  `key : R → K` is
the projection by which the (wrapper) key type `R` is ordered.
-/
namespace BTreeMap
variable {K : Type} [LE K] [LT K] [DecidableLE K] [DecidableLT K] {R V : Type}

/-- `BTreeMap::insert`.  std: "If the map did have this key present, the value is updated [...].
The key is not updated, though". -/
def insert (key : R → K) (r : R) (v : V) : List (R × V) → List (R × V)
  | [] => [(r, v)]
  | e :: t =>
    if key r < key e.1 then (r, v) :: e :: t
    else if key e.1 < key r then e :: insert key r v t
    else (e.1, v) :: t

/-- `BTreeMap::remove`: removes the entry whose key compares equal, if there is one. -/
def remove (key : R → K) (k : K) : List (R × V) → List (R × V)
  | [] => []
  | e :: t => if keq (key e.1) k then t else e :: remove key k t

/-- `BTreeMap::range(lo, hi)`: the (double ended) iterator over the entries whose key lies within
the bounds; the key may be compared through a `Borrow`ed form, here the projection `key`.
The search inside the B-tree is only meaningful when the entries are ordered by `key`; that this
is so whenever the crate calls it is a theorem
(`Verif.Props.C04_starts_and_ends_strictly_increase`, property C04). -/
def range (key : R → K) (lo hi : Bound K) (m : List (R × V)) : Except Panic (List (R × V)) :=
  if Bound.invalid lo hi then .error .btreeRange
  else .ok (m.filter fun e => lo.admitsAsLower (key e.1) && hi.admitsAsUpper (key e.1))

end BTreeMap

end Verif

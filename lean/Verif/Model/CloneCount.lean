import Verif.Model.Clone

/-!
# How many clones are made

The programs of `Verif/Model/Clone.lean`, run with clones that are what was cloned, and the calls of
`clone` counted.
-/
namespace Verif.Cl
variable {K V α : Type}

/-- The number of calls of `K::clone`. -/
def keys : Cl K V α → Nat
  | .ret _ => 0
  | .panic _ => 0
  | .key k next => keys (next k) + 1
  | .val v next => keys (next v)

/-- The number of calls of `V::clone`. -/
def vals : Cl K V α → Nat
  | .ret _ => 0
  | .panic _ => 0
  | .key k next => vals (next k)
  | .val v next => vals (next v) + 1

end Verif.Cl

namespace Verif

/-- The clones counted by `c` that `m.extend(items)` makes, /repo/src/map.rs:622-632 `Extend::extend`:
those of its insertions, up to the first one that panics. -/
def RangeMap.extendClones {K V : Type} [LE K] [LT K] [DecidableLE K] [DecidableLT K] [BEq V]
    (c : Cl K V (RangeMap K V) → Nat) (m : RangeMap K V) : List (Range K × V) → Nat
  | [] => 0
  | (r, v) :: items =>
    c (m.insertL r v) + match m.insert r v with
      | .ok m' => m'.extendClones c items
      | .error _ => 0

/-- The clones counted by `c` that a mutating method makes. (`clear` makes none.) -/
def RangeMap.opClones {K V : Type} [LE K] [LT K] [DecidableLE K] [DecidableLT K] [BEq V]
    (c : Cl K V (RangeMap K V) → Nat) (m : RangeMap K V) : Spec.Op (Range K) V → Nat
  | .insert r v => c (m.insertL r v)
  | .remove r => c (m.removeL r)
  | .clear => 0
  | .extend items => m.extendClones c items

/-- The clones counted by `c` that a history of method calls (earliest first) makes, starting from
`m`. -/
def RangeMap.historyClones {K V : Type} [LE K] [LT K] [DecidableLE K] [DecidableLT K] [BEq V]
    (c : Cl K V (RangeMap K V) → Nat) (m : RangeMap K V) : List (Spec.Op (Range K) V) → Nat
  | [] => 0
  | op :: ops => m.opClones c op + (m.apply op).1.historyClones c ops

/-- The clones counted by `c` that `m.extend(items)` makes, /repo/src/inclusive_map.rs:717-727 `Extend::extend`:
those of its insertions, up to the first one that panics. -/
def RangeInclusiveMap.extendClones {K V : Type} [LE K] [LT K] [DecidableLE K] [DecidableLT K] [BEq V]
    (c : Cl K V (RangeInclusiveMap K V) → Nat) (S : StepFns K) (m : RangeInclusiveMap K V) : List (RangeInclusive K × V) → Nat
  | [] => 0
  | (r, v) :: items =>
    c (m.insertL S r v) + match m.insert S r v with
      | .ok m' => m'.extendClones c S items
      | .error _ => 0

/-- The clones counted by `c` that a mutating method makes. (`clear` makes none.) -/
def RangeInclusiveMap.opClones {K V : Type} [LE K] [LT K] [DecidableLE K] [DecidableLT K] [BEq V]
    (c : Cl K V (RangeInclusiveMap K V) → Nat) (S : StepFns K) (m : RangeInclusiveMap K V) : Spec.Op (RangeInclusive K) V → Nat
  | .insert r v => c (m.insertL S r v)
  | .remove r => c (m.removeL S r)
  | .clear => 0
  | .extend items => m.extendClones c S items

/-- The clones counted by `c` that a history of method calls (earliest first) makes, starting from
`m`. -/
def RangeInclusiveMap.historyClones {K V : Type} [LE K] [LT K] [DecidableLE K] [DecidableLT K] [BEq V]
    (c : Cl K V (RangeInclusiveMap K V) → Nat) (S : StepFns K) (m : RangeInclusiveMap K V) : List (Spec.Op (RangeInclusive K) V) → Nat
  | [] => 0
  | op :: ops => m.opClones c S op + (m.apply S op).1.historyClones c S ops

end Verif

import Verif.Model.Crash
import Verif.Model.Collect
import Verif.Model.ICollect

/-!
# How much work `insert` and `remove` do

The programs of `Verif/Model/Crash.lean`, run without a panic of user code, and the calls of
`BTreeMap`'s methods counted.  A `search` is a call of `range` (the crate takes at most two elements
from the iterator it returns); `BTreeMap::len` is called by the model only, for the fuel, and is not
counted.
-/
namespace Verif

/-- Numbers of calls of `BTreeMap::range`, `BTreeMap::insert` and `BTreeMap::remove`. -/
structure Cost where
  searches : Nat
  puts : Nat
  deletes : Nat
  deriving DecidableEq, Repr

namespace Cost

instance : Zero Cost := ⟨⟨0, 0, 0⟩⟩
instance : Add Cost :=
  ⟨fun a b => ⟨a.searches + b.searches, a.puts + b.puts, a.deletes + b.deletes⟩⟩

/-- Calls of any of the methods. -/
def total (c : Cost) : Nat := c.searches + c.puts + c.deletes

end Cost

/-- The calls a program makes on the B-tree `m`. -/
def Cr.cost {K R V α : Type} [LE K] [LT K] [DecidableLE K] [DecidableLT K] (key : R → K) :
    Cr K R V α → List (R × V) → Cost
  | .ret _, _ => 0
  | .panic _, _ => 0
  | .call next, m => cost key next m
  | .size next, m => cost key (next m.length) m
  | .search lo hi next, m =>
    ⟨1, 0, 0⟩ + match BTreeMap.range key lo hi m with
      | .ok l => cost key (next l) m
      | .error _ => 0
  | .put r v next, m =>
    ⟨0, 1, 0⟩ + cost key (next (m.any fun e => keq (key e.1) (key r))) (BTreeMap.insert key r v m)
  | .delete k next, m => ⟨0, 0, 1⟩ + cost key next (BTreeMap.remove key k m)

/-- The calls made by `m.insert(range, value)`, /repo/src/map.rs:261-363. -/
def RangeMap.insertCost {K V : Type} [LE K] [LT K] [DecidableLE K] [DecidableLT K] [BEq V]
    (m : RangeMap K V) (range : Range K) (value : V) : Cost :=
  (insertProgram range value).cost Range.start m.btm

/-- The calls made by `m.remove(range)`, /repo/src/map.rs:375-437. -/
def RangeMap.removeCost {K V : Type} [LE K] [LT K] [DecidableLE K] [DecidableLT K]
    (m : RangeMap K V) (range : Range K) : Cost :=
  (removeProgram range : Cr K (Range K) V Unit).cost Range.start m.btm

/-- The calls made by `m.insert(range, value)`, /repo/src/inclusive_map.rs:249-374. -/
def RangeInclusiveMap.insertCost {K V : Type} [LE K] [LT K] [DecidableLE K] [DecidableLT K] [BEq V]
    (S : StepFns K) (m : RangeInclusiveMap K V) (range : RangeInclusive K) (value : V) : Cost :=
  (insertProgram S range value).cost RangeInclusive.start m.btm

/-- The calls made by `m.remove(range)`, /repo/src/inclusive_map.rs:386-460. -/
def RangeInclusiveMap.removeCost {K V : Type} [LE K] [LT K] [DecidableLE K] [DecidableLT K]
    (S : StepFns K) (m : RangeInclusiveMap K V) (range : RangeInclusive K) : Cost :=
  (removeProgram S range : Cr K (RangeInclusive K) V Unit).cost RangeInclusive.start m.btm

/-- The calls made by `m.extend(items)`, /repo/src/map.rs:622-632 `Extend::extend`: those of its
insertions, up to the first one that panics. -/
def RangeMap.extendCost {K V : Type} [LE K] [LT K] [DecidableLE K] [DecidableLT K] [BEq V]
    (m : RangeMap K V) : List (Range K × V) → Cost
  | [] => 0
  | (r, v) :: items =>
    m.insertCost r v + match m.insert r v with
      | .ok m' => m'.extendCost items
      | .error _ => 0

/-- The calls made by a mutating method. (`clear` calls none of the counted methods.) -/
def RangeMap.opCost {K V : Type} [LE K] [LT K] [DecidableLE K] [DecidableLT K] [BEq V]
    (m : RangeMap K V) : Spec.Op (Range K) V → Cost
  | .insert r v => m.insertCost r v
  | .remove r => m.removeCost r
  | .clear => 0
  | .extend items => m.extendCost items

/-- The calls made by a history of method calls (earliest first), starting from `m`. -/
def RangeMap.historyCost {K V : Type} [LE K] [LT K] [DecidableLE K] [DecidableLT K] [BEq V]
    (m : RangeMap K V) : List (Spec.Op (Range K) V) → Cost
  | [] => 0
  | op :: ops => m.opCost op + (m.apply op).1.historyCost ops

/-- The calls made by `m.extend(items)`, /repo/src/inclusive_map.rs:717-727 `Extend::extend`: those of its
insertions, up to the first one that panics. -/
def RangeInclusiveMap.extendCost {K V : Type} [LE K] [LT K] [DecidableLE K] [DecidableLT K] [BEq V]
    (S : StepFns K)
    (m : RangeInclusiveMap K V) : List (RangeInclusive K × V) → Cost
  | [] => 0
  | (r, v) :: items =>
    m.insertCost S r v + match m.insert S r v with
      | .ok m' => m'.extendCost S items
      | .error _ => 0

/-- The calls made by a mutating method. (`clear` calls none of the counted methods.) -/
def RangeInclusiveMap.opCost {K V : Type} [LE K] [LT K] [DecidableLE K] [DecidableLT K] [BEq V]
    (S : StepFns K)
    (m : RangeInclusiveMap K V) : Spec.Op (RangeInclusive K) V → Cost
  | .insert r v => m.insertCost S r v
  | .remove r => m.removeCost S r
  | .clear => 0
  | .extend items => m.extendCost S items

/-- The calls made by a history of method calls (earliest first), starting from `m`. -/
def RangeInclusiveMap.historyCost {K V : Type} [LE K] [LT K] [DecidableLE K] [DecidableLT K] [BEq V]
    (S : StepFns K)
    (m : RangeInclusiveMap K V) : List (Spec.Op (RangeInclusive K) V) → Cost
  | [] => 0
  | op :: ops => m.opCost S op + (m.apply S op).1.historyCost S ops

end Verif

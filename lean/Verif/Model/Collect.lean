import Verif.Model.Map
import Verif.Spec

/-!
# Building `RangeMap`s from sequences, and histories of calls
-/
namespace Verif.RangeMap
variable {K : Type} [LE K] [LT K] [DecidableLE K] [DecidableLT K] {V : Type} [BEq V]

/-- /repo/src/map.rs:622-632 `Extend::extend`.  Returns the map as it is afterwards together with
the outcome: when an `insert` panics the items before it have been inserted, and the panicking
`insert` itself has changed nothing (see `insertCrash` in `Verif/Model/Crash.lean`). -/
def extend (m : RangeMap K V) : List (Range K × V) → RangeMap K V × Except Panic Unit
  | [] => (m, .ok ())
  | (r, v) :: items =>
    match m.insert r v with
    | .ok m' => m'.extend items
    | .error p => (m, .error p)

/-- /repo/src/map.rs:610-619 `FromIterator::from_iter`. -/
def fromIter (items : List (Range K × V)) : Except Panic (RangeMap K V) :=
  let (m, outcome) := (new : RangeMap K V).extend items
  outcome.map fun _ => m

/-- /repo/src/map.rs:822-832 `From<[(Range<K>, V); N]>::from`; also what the `range_map!` macro
(834-853) expands to. -/
def fromArray (items : List (Range K × V)) : Except Panic (RangeMap K V) :=
  items.foldlM (fun m e => m.insert e.1 e.2) new

/-- One mutating call, with a panic caught by the caller: the map afterwards, and the outcome. -/
def apply (m : RangeMap K V) : Spec.Op (Range K) V → RangeMap K V × Except Panic Unit
  | .insert r v =>
    match m.insert r v with
    | .ok m' => (m', .ok ())
    | .error p => (m, .error p)
  | .remove r =>
    match m.remove r with
    | .ok m' => (m', .ok ())
    | .error p => (m, .error p)
  | .clear => (m.clear, .ok ())
  | .extend items => m.extend items

/-- The map after a history of calls (earliest call first) on an empty map. -/
def run (ops : List (Spec.Op (Range K) V)) : RangeMap K V :=
  ops.foldl (fun m op => (m.apply op).1) new

/-- Maps that can be obtained through the API. -/
def Reachable (m : RangeMap K V) : Prop := ∃ ops, run ops = m

end Verif.RangeMap

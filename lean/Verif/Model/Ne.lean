import Verif.Model.Collect
import Verif.Model.ICollect

/-!
# The crate with an independent `!=`

Rust's `PartialEq` lets a type define `ne` by itself.  The crate uses it in one place per map, the
loop of `insert`: `*stored_value != new_value` (map.rs:340, inclusive_map.rs:351).  Everywhere else it
asks `==`.  `Model/Map.lean` takes `!=` to be the negation of `==`; here it is any function.
-/
namespace Verif

/-- std `PartialEq::ne`. -/
class HasNe (V : Type) where
  ne : V → V → Bool

/-- Values that are not `==` are `!=`.  (They may be both.) -/
class EqOrNe (V : Type) [BEq V] [HasNe V] : Prop where
  ne_of_not_eq {a b : V} : (a == b) = false → HasNe.ne a b = true

namespace RangeMap
variable {K : Type} [LE K] [LT K] [DecidableLE K] [DecidableLT K] {V : Type} [BEq V] [HasNe V]

/-- /repo/src/map.rs:326-359, the `while let` loop of `insert`, with the `!=` of line 340. -/
def insertLoopNe (hi : K) (newValue : V) :
    Nat → List (Range K × V) → Range K → Except Panic (List (Range K × V) × Range K)
  | 0, _, _ => .error .diverge
  | fuel + 1, btm, newRange => do
    match (← BTreeMap.range Range.start (.included newRange.start) (.included hi) btm).head? with
    | none => return (btm, newRange)
    | some (stored, storedValue) =>
      if keq stored.start newRange.stop && HasNe.ne storedValue newValue then
        return (btm, newRange)
      else
        let (btm, newRange) :=
          adjustTouchingRangesForInsert btm stored storedValue newRange newValue
        insertLoopNe hi newValue fuel btm newRange

/-- /repo/src/map.rs:261-363 `insert`, with the number of loop iterations bounded by `fuel`. -/
def insertFuelNe (fuel : Nat) (m : RangeMap K V) (range : Range K) (value : V) :
    Except Panic (RangeMap K V) := do
  if ¬ range.start < range.stop then throw .assertFailed
  let (btm, newRange) ← insertPrefix m.btm range value
  let (btm, newRange) ← insertLoopNe newRange.stop value fuel btm newRange
  return ⟨BTreeMap.insert Range.start newRange value btm⟩

/-- /repo/src/map.rs:261-363 `insert` (`len + 2` iterations; see C67). -/
def insertNe (m : RangeMap K V) (range : Range K) (value : V) :
    Except Panic (RangeMap K V) := insertFuelNe (m.len + 2) m range value

/-- /repo/src/map.rs:622-632 `Extend::extend`, as `extend`. -/
def extendNe (m : RangeMap K V) : List (Range K × V) → RangeMap K V × Except Panic Unit
  | [] => (m, .ok ())
  | (r, v) :: items =>
    match m.insertNe r v with
    | .ok m' => m'.extendNe items
    | .error p => (m, .error p)

/-- One mutating call, with a panic caught by the caller, as `apply`. -/
def applyNe (m : RangeMap K V) : Spec.Op (Range K) V → RangeMap K V × Except Panic Unit
  | .insert r v =>
    match m.insertNe r v with
    | .ok m' => (m', .ok ())
    | .error p => (m, .error p)
  | .remove r =>
    match m.remove r with
    | .ok m' => (m', .ok ())
    | .error p => (m, .error p)
  | .clear => (m.clear, .ok ())
  | .extend items => m.extendNe items

/-- The map after a history of calls (earliest call first) on an empty map. -/
def runNe (ops : List (Spec.Op (Range K) V)) : RangeMap K V :=
  ops.foldl (fun m op => (m.applyNe op).1) new

/-- Maps that can be obtained through the API. -/
def ReachableNe (m : RangeMap K V) : Prop := ∃ ops, runNe ops = m

end RangeMap

namespace RangeInclusiveMap
variable {K : Type} [LE K] [LT K] [DecidableLE K] [DecidableLT K] {V : Type} [BEq V] [HasNe V]

/-- /repo/src/inclusive_map.rs:335-359: does the loop of `insert` `break` at the stored entry `x`?
With the `!=` of line 351. -/
def breakCondNe (S : StepFns K) (hi : K) (newValue : V) (x : RangeInclusive K × V) :
    Except Panic Bool :=
  if hi < x.1.start then do
    let latestPossibleStart ← S.addOne hi
    if latestPossibleStart < x.1.start then return true
    else return keq x.1.start latestPossibleStart && HasNe.ne x.2 newValue
  else return false

/-- /repo/src/inclusive_map.rs:321-370, the `while let` loop of `insert`. -/
def insertLoopNe (S : StepFns K) (hi : K) (newValue : V) :
    Nat → List (RangeInclusive K × V) → RangeInclusive K →
      Except Panic (List (RangeInclusive K × V) × RangeInclusive K)
  | 0, _, _ => .error .diverge
  | fuel + 1, btm, newRange => do
    match (← BTreeMap.range RangeInclusive.start (.included newRange.start) .unbounded btm).head?
      with
    | none => return (btm, newRange)
    | some x =>
      if ← breakCondNe S hi newValue x then return (btm, newRange)
      else
        let (btm, newRange) ← adjustTouchingRangesForInsert S btm x.1 x.2 newRange newValue
        insertLoopNe S hi newValue fuel btm newRange

/-- /repo/src/inclusive_map.rs:249-374 `insert`, with the number of loop iterations bounded by
`fuel`. -/
def insertFuelNe (S : StepFns K) (fuel : Nat) (m : RangeInclusiveMap K V)
    (range : RangeInclusive K) (value : V) : Except Panic (RangeInclusiveMap K V) := do
  if ¬ range.start ≤ range.stop then throw .assertFailed
  let (btm, newRange) ← insertPrefix S m.btm range value
  let (btm, newRange) ← insertLoopNe S newRange.stop value fuel btm newRange
  return ⟨BTreeMap.insert RangeInclusive.start newRange value btm⟩

/-- /repo/src/inclusive_map.rs:249-374 `insert` (`len + 2` iterations; see C67). -/
def insertNe (S : StepFns K) (m : RangeInclusiveMap K V) (range : RangeInclusive K) (value : V) :
    Except Panic (RangeInclusiveMap K V) := insertFuelNe S (m.len + 2) m range value

/-- /repo/src/inclusive_map.rs:717-727 `Extend::extend`, as `extend`. -/
def extendNe (S : StepFns K) (m : RangeInclusiveMap K V) :
    List (RangeInclusive K × V) → RangeInclusiveMap K V × Except Panic Unit
  | [] => (m, .ok ())
  | (r, v) :: items =>
    match m.insertNe S r v with
    | .ok m' => m'.extendNe S items
    | .error p => (m, .error p)

/-- One mutating call, with a panic caught by the caller, as `apply`. -/
def applyNe (S : StepFns K) (m : RangeInclusiveMap K V) :
    Spec.Op (RangeInclusive K) V → RangeInclusiveMap K V × Except Panic Unit
  | .insert r v =>
    match m.insertNe S r v with
    | .ok m' => (m', .ok ())
    | .error p => (m, .error p)
  | .remove r =>
    match m.remove S r with
    | .ok m' => (m', .ok ())
    | .error p => (m, .error p)
  | .clear => (m.clear, .ok ())
  | .extend items => m.extendNe S items

/-- The map after a history of calls (earliest call first) on an empty map. -/
def runNe (S : StepFns K) (ops : List (Spec.Op (RangeInclusive K) V)) : RangeInclusiveMap K V :=
  ops.foldl (fun m op => (m.applyNe S op).1) new

/-- Maps that can be obtained through the API by histories that never insert an `exhausted`
range. -/
def ReachableNe (S : StepFns K) (m : RangeInclusiveMap K V) : Prop :=
  ∃ ops, (∀ op ∈ ops, ∀ r ∈ op.inserted, r.exhausted = false) ∧ runNe S ops = m

/-- Maps that can be obtained through the API at all. -/
def ReachableAnyNe (S : StepFns K) (m : RangeInclusiveMap K V) : Prop := ∃ ops, runNe S ops = m

end RangeInclusiveMap
end Verif

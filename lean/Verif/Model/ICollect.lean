import Verif.Model.IMap
import Verif.Model.Cmp
import Verif.Model.Serde
import Verif.Spec

/-!
# `RangeInclusiveMap`: building from sequences, histories, comparison traits, serde
-/
namespace Verif.RangeInclusiveMap
variable {K : Type} [LE K] [LT K] [DecidableLE K] [DecidableLT K] {V : Type}

section
variable [BEq V]

/-- /repo/src/inclusive_map.rs:717-727 `Extend::extend`.  Returns the map as it is afterwards
together with the outcome: when an `insert` fails its assertion the items before it have been
inserted, and that `insert` itself has changed nothing (see `Verif/Model/Crash.lean`). -/
def extend (S : StepFns K) (m : RangeInclusiveMap K V) :
    List (RangeInclusive K × V) → RangeInclusiveMap K V × Except Panic Unit
  | [] => (m, .ok ())
  | (r, v) :: items =>
    match m.insert S r v with
    | .ok m' => m'.extend S items
    | .error p => (m, .error p)

/-- /repo/src/inclusive_map.rs:705-715 `FromIterator::from_iter`. -/
def fromIter (S : StepFns K) (items : List (RangeInclusive K × V)) :
    Except Panic (RangeInclusiveMap K V) :=
  let (m, outcome) := (new : RangeInclusiveMap K V).extend S items
  outcome.map fun _ => m

/-- /repo/src/inclusive_map.rs:938-948 `From<[(RangeInclusive<K>, V); N]>::from`; also what the
`range_inclusive_map!` macro (950-967) expands to. -/
def fromArray (S : StepFns K) (items : List (RangeInclusive K × V)) :
    Except Panic (RangeInclusiveMap K V) :=
  items.foldlM (fun m e => m.insert S e.1 e.2) new

/-- One mutating call, with a panic caught by the caller: the map afterwards, and the outcome. -/
def apply (S : StepFns K) (m : RangeInclusiveMap K V) :
    Spec.Op (RangeInclusive K) V → RangeInclusiveMap K V × Except Panic Unit
  | .insert r v =>
    match m.insert S r v with
    | .ok m' => (m', .ok ())
    | .error p => (m, .error p)
  | .remove r =>
    match m.remove S r with
    | .ok m' => (m', .ok ())
    | .error p => (m, .error p)
  | .clear => (m.clear, .ok ())
  | .extend items => m.extend S items

/-- The map after a history of calls (earliest call first) on an empty map. -/
def run (S : StepFns K) (ops : List (Spec.Op (RangeInclusive K) V)) : RangeInclusiveMap K V :=
  ops.foldl (fun m op => (m.apply S op).1) new

/-- Maps that can be obtained through the API by histories that never insert an `exhausted`
range. -/
def Reachable (S : StepFns K) (m : RangeInclusiveMap K V) : Prop :=
  ∃ ops, (∀ op ∈ ops, ∀ r ∈ op.inserted, r.exhausted = false) ∧ run S ops = m

/-- Maps that can be obtained through the API at all. -/
def ReachableAny (S : StepFns K) (m : RangeInclusiveMap K V) : Prop := ∃ ops, run S ops = m

/-- std: `==` of the iterator items `(&RangeInclusive<K>, &V)` (derived `PartialEq` of
`RangeInclusive`, which includes `exhausted`). -/
def entryEq (a b : RangeInclusive K × V) : Bool :=
  (keq a.1.start b.1.start && keq a.1.stop b.1.stop && a.1.exhausted == b.1.exhausted) && a.2 == b.2

/-- /repo/src/inclusive_map.rs:67-75 `PartialEq::eq`. -/
def eq (m m' : RangeInclusiveMap K V) : Bool := iterEq entryEq m.iter m'.iter

/-- /repo/src/inclusive_map.rs:788-797 `visit_seq`: `access` is what successive `next_element`
calls return (the end of the list is `Ok(None)`). -/
def visitSeq {E : Type} (S : StepFns K) (m : RangeInclusiveMap K V) :
    List (Except E ((K × K) × V)) → Except (RangeMap.DeError E) (RangeInclusiveMap K V)
  | [] => .ok m
  | .error e :: _ => .error (.de e)
  | .ok ((a, b), v) :: access =>
    match m.insert S (.mk' a b) v with
    | .ok m' => visitSeq S m' access
    | .error p => .error (.panic p)

/-- /repo/src/inclusive_map.rs:748-760 `Deserialize::deserialize`. -/
def deserialize {E : Type} (S : StepFns K) (access : List (Except E ((K × K) × V))) :
    Except (RangeMap.DeError E) (RangeInclusiveMap K V) := visitSeq S new access

end

/-- /repo/src/inclusive_map.rs:729-746 `Serialize::serialize`: the length passed to
`serialize_seq`, and the elements. -/
def serialize (m : RangeInclusiveMap K V) : Option Nat × List ((K × K) × V) :=
  (some m.btm.length, m.iter.map fun e => ((e.1.start, e.1.stop), e.2))

/-- /repo/src/inclusive_map.rs:132-135 `expanded_iter`. -/
def expandedIter (m : RangeInclusiveMap K V) : List (K × K × V) :=
  m.btm.map fun e => (e.1.start, e.1.stop, e.2)

/-- /repo/src/inclusive_map.rs:95-104 `Ord::cmp`. -/
def cmp (vcmp : V → V → Ordering) (m m' : RangeInclusiveMap K V) : Ordering :=
  iterCmp (tripleCmp vcmp) m.expandedIter m'.expandedIter

/-- /repo/src/inclusive_map.rs:84-93 `PartialOrd::partial_cmp`. -/
def partialCmp (vcmp : V → V → Option Ordering) (m m' : RangeInclusiveMap K V) : Option Ordering :=
  iterPartialCmp (triplePartialCmp vcmp) m.expandedIter m'.expandedIter

/-- /repo/src/inclusive_map.rs:54-65 `Hash::hash`: the sequence of writes to the hasher (std: the
item `(&RangeInclusive<K>, &V)` hashes `start`, `end`, `exhausted`, `value` in this order). -/
def hash {H : Type} (hk : K → List H) (hv : V → List H) (m : RangeInclusiveMap K V) :
    List (HashToken H) :=
  .writeUsize m.btm.length ::
    m.iter.flatMap fun e => (hk e.1.start ++ hk e.1.stop).map .data ++
      [.bool e.1.exhausted] ++ (hv e.2).map .data

end Verif.RangeInclusiveMap

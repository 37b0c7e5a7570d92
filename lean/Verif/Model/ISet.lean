import Verif.Model.Operations
import Verif.Model.IIter

/-!
# Model of `/repo/src/inclusive_set.rs` (`RangeInclusiveSet`)
-/
namespace Verif

/-- /repo/src/inclusive_set.rs:23-32 `struct RangeInclusiveSet`. -/
structure RangeInclusiveSet (K : Type) where
  rm : RangeInclusiveMap K Unit

namespace RangeInclusiveSet
variable {K : Type} [LE K] [LT K] [DecidableLE K] [DecidableLT K]

/-- /repo/src/inclusive_set.rs:34-40, 54-69 and 76-102 `default`, `new`, `new_with_step_fns`. -/
def new : RangeInclusiveSet K := ⟨.new⟩

/-- /repo/src/inclusive_set.rs:104-107 `get`. -/
def get (s : RangeInclusiveSet K) (value : K) : Except Panic (Option (RangeInclusive K)) := do
  return (← s.rm.getKeyValue value).map (·.1)

/-- /repo/src/inclusive_set.rs:109-112 `contains`. -/
def contains (s : RangeInclusiveSet K) (value : K) : Except Panic Bool := s.rm.containsKey value

/-- /repo/src/inclusive_set.rs:114-120 `iter` (and 254-262 `into_iter`) followed by collecting it.
-/
def iter (s : RangeInclusiveSet K) : List (RangeInclusive K) := s.rm.iter.map (·.1)

/-- /repo/src/inclusive_set.rs:122-125 `clear`. -/
def clear (s : RangeInclusiveSet K) : RangeInclusiveSet K := ⟨s.rm.clear⟩

/-- /repo/src/inclusive_set.rs:127-130 `len`. -/
def len (s : RangeInclusiveSet K) : Nat := s.rm.len

/-- /repo/src/inclusive_set.rs:132-135 `is_empty`. -/
def isEmpty (s : RangeInclusiveSet K) : Bool := s.rm.isEmpty

/-- /repo/src/inclusive_set.rs:207-210 `intersection`. -/
def intersection (s other : RangeInclusiveSet K) :
    Intersection (RangeInclusive K) := ⟨s.iter, other.iter⟩

/-- /repo/src/inclusive_set.rs:202-205 `union`. -/
def union (s other : RangeInclusiveSet K) : Union (RangeInclusive K) := ⟨s.iter, other.iter⟩

/-- /repo/src/inclusive_set.rs:137-148 `insert`. -/
def insert (S : StepFns K) (s : RangeInclusiveSet K) (range : RangeInclusive K) :
    Except Panic (RangeInclusiveSet K) := do
  return ⟨← s.rm.insert S range ()⟩

/-- /repo/src/inclusive_set.rs:150-161 `remove`. -/
def remove (S : StepFns K) (s : RangeInclusiveSet K) (range : RangeInclusive K) :
    Except Panic (RangeInclusiveSet K) := do
  return ⟨← s.rm.remove S range⟩

/-- /repo/src/inclusive_set.rs:190-194 `first`. -/
def first (s : RangeInclusiveSet K) : Option (RangeInclusive K) := s.rm.firstRangeValue.map (·.1)

/-- /repo/src/inclusive_set.rs:196-200 `last`. -/
def last (s : RangeInclusiveSet K) : Option (RangeInclusive K) := s.rm.lastRangeValue.map (·.1)

/-! ### iterators -/

/-- /repo/src/inclusive_set.rs:219-221 `struct Iter`, 250-252 `struct IntoIter`. -/
structure Iter (K : Type) where
  inner : RangeInclusiveMap.Iter K Unit

/-- /repo/src/inclusive_set.rs:116-120 `iter`, 257-261 `into_iter`. -/
def iterator (s : RangeInclusiveSet K) : Iter K := ⟨s.rm.iterator⟩

/-- /repo/src/inclusive_set.rs:226-228 and 266-268 `next`. -/
def Iter.next (i : Iter K) : Option (RangeInclusive K) × Iter K :=
  let (e, inner) := i.inner.next
  (e.map (·.1), ⟨inner⟩)

/-- /repo/src/inclusive_set.rs:239-241 and 275-277 `next_back`. -/
def Iter.nextBack (i : Iter K) : Option (RangeInclusive K) × Iter K :=
  let (e, inner) := i.inner.nextBack
  (e.map (·.1), ⟨inner⟩)

/-- /repo/src/inclusive_set.rs:230-232 and 269-271 `size_hint`. -/
def Iter.sizeHint (i : Iter K) : Nat × Option Nat := i.inner.sizeHint

/-- /repo/src/inclusive_set.rs:388-390 `struct Gaps`. -/
structure Gaps (K : Type) where
  inner : RangeInclusiveMap.Gaps K Unit

/-- /repo/src/inclusive_set.rs:163-172 `gaps`. -/
def gaps (s : RangeInclusiveSet K) (outerRange : RangeInclusive K) : Except Panic (Gaps K) := do
  return ⟨← s.rm.gaps outerRange⟩

/-- /repo/src/inclusive_set.rs:407-409 `next`. -/
def Gaps.next (S : StepFns K) (g : Gaps K) :
    Except Panic (Option (RangeInclusive K) × Gaps K) := do
  let (r, inner) ← g.inner.next S
  return (r, ⟨inner⟩)

/-- /repo/src/inclusive_set.rs:419-421 `struct Overlapping`. -/
structure Overlapping (K : Type) where
  inner : RangeInclusiveMap.Overlapping K Unit

/-- /repo/src/inclusive_set.rs:174-182 `overlapping`. -/
def overlapping (s : RangeInclusiveSet K) (range : RangeInclusive K) :
    Except Panic (Overlapping K) := do
  return ⟨← s.rm.overlapping range⟩

/-- /repo/src/inclusive_set.rs:435-437 `next`. -/
def Overlapping.next (o : Overlapping K) : Option (RangeInclusive K) × Overlapping K :=
  let (e, inner) := o.inner.next
  (e.map (·.1), ⟨inner⟩)

/-- /repo/src/inclusive_set.rs:444-446 `next_back`. -/
def Overlapping.nextBack (o : Overlapping K) : Option (RangeInclusive K) × Overlapping K :=
  let (e, inner) := o.inner.nextBack
  (e.map (·.1), ⟨inner⟩)

/-- /repo/src/inclusive_set.rs:184-188 `overlaps`. -/
def overlaps (s : RangeInclusiveSet K) (range : RangeInclusive K) : Except Panic Bool := do
  return (← s.overlapping range).next.1.isSome

/-! ### construction -/

/-- /repo/src/inclusive_set.rs:303-312 `Extend::extend`, with the set as it is afterwards. -/
def extend (S : StepFns K) (s : RangeInclusiveSet K) :
    List (RangeInclusive K) → RangeInclusiveSet K × Except Panic Unit
  | [] => (s, .ok ())
  | r :: items =>
    match s.insert S r with
    | .ok s' => s'.extend S items
    | .error p => (s, .error p)

/-- /repo/src/inclusive_set.rs:292-301 `FromIterator::from_iter`. -/
def fromIter (S : StepFns K) (items : List (RangeInclusive K)) :
    Except Panic (RangeInclusiveSet K) :=
  let (s, outcome) := (new : RangeInclusiveSet K).extend S items
  outcome.map fun _ => s

/-- /repo/src/inclusive_set.rs:449-459 `From<[RangeInclusive<T>; N]>::from`; also what the
`range_inclusive_set!` macro
expands to. -/
def fromArray (S : StepFns K) (items : List (RangeInclusive K)) :
    Except Panic (RangeInclusiveSet K) :=
  items.foldlM (fun s r => s.insert S r) new

/-- /repo/src/inclusive_set.rs:476-482 `BitAnd::bitand`.  `collect` drains the iterator into
`from_iter`;
every call but the last pops a range, whence the fuel. -/
def bitAnd (S : StepFns K) (s other : RangeInclusiveSet K) :
    Except Panic (RangeInclusiveSet K) := do
  fromIter S (← drain Intersection.next (s.len + other.len + 1) (s.intersection other))

/-- /repo/src/inclusive_set.rs:484-490 `BitOr::bitor`. -/
def bitOr (S : StepFns K) (s other : RangeInclusiveSet K) : Except Panic (RangeInclusiveSet K) := do
  fromIter S (← drain Union.next (s.len + other.len + 1) (s.union other))

/-! ### derived traits (/repo/src/inclusive_set.rs:23) -/

/-- derived `PartialEq` -/
def eq (s s' : RangeInclusiveSet K) : Bool := s.rm.eq s'.rm

/-- derived `Ord` (`()` has one value) -/
def cmp (s s' : RangeInclusiveSet K) : Ordering := s.rm.cmp (fun _ _ => .eq) s'.rm

/-- derived `PartialOrd` -/
def partialCmp (s s' : RangeInclusiveSet K) : Option Ordering :=
  s.rm.partialCmp (fun _ _ => some .eq) s'.rm

/-- derived `Hash` (`()` writes nothing) -/
def hash {H : Type} (hk : K → List H) (s : RangeInclusiveSet K) : List (HashToken H) :=
  s.rm.hash hk (fun _ => [])

/-! ### serde -/

/-- /repo/src/inclusive_set.rs:314-330 `Serialize::serialize`. -/
def serialize (s : RangeInclusiveSet K) : Option Nat × List (K × K) :=
  (some s.rm.btm.length, s.iter.map fun r => (r.start, r.stop))

/-- /repo/src/inclusive_set.rs:370-379 `visit_seq`. -/
def visitSeq {E : Type} (S : StepFns K) (s : RangeInclusiveSet K) :
    List (Except E (K × K)) → Except (RangeMap.DeError E) (RangeInclusiveSet K)
  | [] => .ok s
  | .error e :: _ => .error (.de e)
  | .ok (a, b) :: access =>
    match s.insert S (.mk' a b) with
    | .ok s' => visitSeq S s' access
    | .error p => .error (.panic p)

/-- /repo/src/inclusive_set.rs:332-343 `Deserialize::deserialize`. -/
def deserialize {E : Type} (S : StepFns K) (access : List (Except E (K × K))) :
    Except (RangeMap.DeError E) (RangeInclusiveSet K) := visitSeq S new access

/-! ### histories -/

/-- One mutating call, with a panic caught by the caller: the set afterwards, and the outcome. -/
def apply (S : StepFns K) (s : RangeInclusiveSet K) :
    Spec.SetOp (RangeInclusive K) → RangeInclusiveSet K × Except Panic Unit
  | .insert r =>
    match s.insert S r with
    | .ok s' => (s', .ok ())
    | .error p => (s, .error p)
  | .remove r =>
    match s.remove S r with
    | .ok s' => (s', .ok ())
    | .error p => (s, .error p)
  | .clear => (s.clear, .ok ())
  | .extend items => s.extend S items

/-- The set after a history of calls (earliest call first) on an empty set. -/
def run (S : StepFns K) (ops : List (Spec.SetOp (RangeInclusive K))) : RangeInclusiveSet K :=
  ops.foldl (fun s op => (s.apply S op).1) new

/-- Sets that can be obtained through the API by histories that never insert an `exhausted`
range. -/
def Reachable (S : StepFns K) (s : RangeInclusiveSet K) : Prop :=
  ∃ ops, (∀ op ∈ ops, ∀ r ∈ op.inserted, r.exhausted = false) ∧ run S ops = s

/-- Sets that can be obtained through the API at all. -/
def ReachableAny (S : StepFns K) (s : RangeInclusiveSet K) : Prop := ∃ ops, run S ops = s

end RangeInclusiveSet
end Verif

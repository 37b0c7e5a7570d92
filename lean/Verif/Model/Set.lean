import Verif.Model.Operations
import Verif.Model.Serde

/-!
# Model of `/repo/src/set.rs` (`RangeSet`)
-/
namespace Verif

/-- /repo/src/set.rs:23-32 `struct RangeSet`. -/
structure RangeSet (K : Type) where
  rm : RangeMap K Unit

namespace RangeSet
variable {K : Type} [LE K] [LT K] [DecidableLE K] [DecidableLT K]

/-- /repo/src/set.rs:34-40 and 58-72 `default`, `new`. -/
def new : RangeSet K := ⟨.new⟩

/-- /repo/src/set.rs:74-77 `get`. -/
def get (s : RangeSet K) (value : K) : Except Panic (Option (Range K)) := do
  return (← s.rm.getKeyValue value).map (·.1)

/-- /repo/src/set.rs:79-82 `contains`. -/
def contains (s : RangeSet K) (value : K) : Except Panic Bool := s.rm.containsKey value

/-- /repo/src/set.rs:84-90 `iter` (and 228-236 `into_iter`) followed by collecting it. -/
def iter (s : RangeSet K) : List (Range K) := s.rm.iter.map (·.1)

/-- /repo/src/set.rs:92-95 `clear`. -/
def clear (s : RangeSet K) : RangeSet K := ⟨s.rm.clear⟩

/-- /repo/src/set.rs:97-100 `len`. -/
def len (s : RangeSet K) : Nat := s.rm.len

/-- /repo/src/set.rs:102-105 `is_empty`. -/
def isEmpty (s : RangeSet K) : Bool := s.rm.isEmpty

/-- /repo/src/set.rs:107-110 `intersection`. -/
def intersection (s other : RangeSet K) : Intersection (Range K) := ⟨s.iter, other.iter⟩

/-- /repo/src/set.rs:112-115 `union`. -/
def union (s other : RangeSet K) : Union (Range K) := ⟨s.iter, other.iter⟩

/-- /repo/src/set.rs:117-128 `insert`. -/
def insert (s : RangeSet K) (range : Range K) : Except Panic (RangeSet K) := do
  return ⟨← s.rm.insert range ()⟩

/-- /repo/src/set.rs:130-141 `remove`. -/
def remove (s : RangeSet K) (range : Range K) : Except Panic (RangeSet K) := do
  return ⟨← s.rm.remove range⟩

/-- /repo/src/set.rs:174-178 `first`. -/
def first (s : RangeSet K) : Option (Range K) := s.rm.firstRangeValue.map (·.1)

/-- /repo/src/set.rs:180-184 `last`. -/
def last (s : RangeSet K) : Option (Range K) := s.rm.lastRangeValue.map (·.1)

/-! ### iterators -/

/-- /repo/src/set.rs:193-195 `struct Iter`, 224-226 `struct IntoIter`. -/
structure Iter (K : Type) where
  inner : RangeMap.Iter K Unit

/-- /repo/src/set.rs:86-90 `iter`, 231-235 `into_iter`. -/
def iterator (s : RangeSet K) : Iter K := ⟨s.rm.iterator⟩

/-- /repo/src/set.rs:200-202 and 240-242 `next`. -/
def Iter.next (i : Iter K) : Option (Range K) × Iter K :=
  let (e, inner) := i.inner.next
  (e.map (·.1), ⟨inner⟩)

/-- /repo/src/set.rs:213-215 and 249-251 `next_back`. -/
def Iter.nextBack (i : Iter K) : Option (Range K) × Iter K :=
  let (e, inner) := i.inner.nextBack
  (e.map (·.1), ⟨inner⟩)

/-- /repo/src/set.rs:204-206 and 243-245 `size_hint`. -/
def Iter.sizeHint (i : Iter K) : Nat × Option Nat := i.inner.sizeHint

/-- /repo/src/set.rs:362-364 `struct Gaps`. -/
structure Gaps (K : Type) where
  inner : RangeMap.Gaps K Unit

/-- /repo/src/set.rs:143-156 `gaps`. -/
def gaps (s : RangeSet K) (outerRange : Range K) : Except Panic (Gaps K) := do
  return ⟨← s.rm.gaps outerRange⟩

/-- /repo/src/set.rs:375-377 `next`. -/
def Gaps.next (g : Gaps K) : Option (Range K) × Gaps K :=
  let (r, inner) := g.inner.next
  (r, ⟨inner⟩)

/-- /repo/src/set.rs:387-389 `struct Overlapping`. -/
structure Overlapping (K : Type) where
  inner : RangeMap.Overlapping K Unit

/-- /repo/src/set.rs:158-166 `overlapping`. -/
def overlapping (s : RangeSet K) (range : Range K) : Except Panic (Overlapping K) := do
  return ⟨← s.rm.overlapping range⟩

/-- /repo/src/set.rs:403-405 `next`. -/
def Overlapping.next (o : Overlapping K) : Option (Range K) × Overlapping K :=
  let (e, inner) := o.inner.next
  (e.map (·.1), ⟨inner⟩)

/-- /repo/src/set.rs:412-414 `next_back`. -/
def Overlapping.nextBack (o : Overlapping K) : Option (Range K) × Overlapping K :=
  let (e, inner) := o.inner.nextBack
  (e.map (·.1), ⟨inner⟩)

/-- /repo/src/set.rs:168-172 `overlaps`. -/
def overlaps (s : RangeSet K) (range : Range K) : Except Panic Bool := do
  return (← s.overlapping range).next.1.isSome

/-! ### construction -/

/-- /repo/src/set.rs:277-286 `Extend::extend`, with the set as it is afterwards. -/
def extend (s : RangeSet K) : List (Range K) → RangeSet K × Except Panic Unit
  | [] => (s, .ok ())
  | r :: items =>
    match s.insert r with
    | .ok s' => s'.extend items
    | .error p => (s, .error p)

/-- /repo/src/set.rs:266-275 `FromIterator::from_iter`. -/
def fromIter (items : List (Range K)) : Except Panic (RangeSet K) :=
  let (s, outcome) := (new : RangeSet K).extend items
  outcome.map fun _ => s

/-- /repo/src/set.rs:433-441 `From<[Range<T>; N]>::from`; also what the `range_set!` macro
expands to. -/
def fromArray (items : List (Range K)) : Except Panic (RangeSet K) :=
  items.foldlM (fun s r => s.insert r) new

/-- /repo/src/set.rs:417-423 `BitAnd::bitand`.  `collect` drains the iterator into `from_iter`;
every call but the last pops a range, whence the fuel. -/
def bitAnd (s other : RangeSet K) : Except Panic (RangeSet K) := do
  fromIter (← drain Intersection.next (s.len + other.len + 1) (s.intersection other))

/-- /repo/src/set.rs:425-431 `BitOr::bitor`. -/
def bitOr (s other : RangeSet K) : Except Panic (RangeSet K) := do
  fromIter (← drain Union.next (s.len + other.len + 1) (s.union other))

/-! ### derived traits (/repo/src/set.rs:23) -/

/-- derived `PartialEq` -/
def eq (s s' : RangeSet K) : Bool := s.rm.eq s'.rm

/-- derived `Ord` (`()` has one value) -/
def cmp (s s' : RangeSet K) : Ordering := s.rm.cmp (fun _ _ => .eq) s'.rm

/-- derived `PartialOrd` -/
def partialCmp (s s' : RangeSet K) : Option Ordering :=
  s.rm.partialCmp (fun _ _ => some .eq) s'.rm

/-- derived `Hash` (`()` writes nothing) -/
def hash {H : Type} (hk : K → List H) (s : RangeSet K) : List (HashToken H) :=
  s.rm.hash hk (fun _ => [])

/-! ### serde -/

/-- /repo/src/set.rs:288-304 `Serialize::serialize`. -/
def serialize (s : RangeSet K) : Option Nat × List (K × K) :=
  (some s.rm.btm.length, s.iter.map fun r => (r.start, r.stop))

/-- /repo/src/set.rs:344-353 `visit_seq`. -/
def visitSeq {E : Type} (s : RangeSet K) :
    List (Except E (K × K)) → Except (RangeMap.DeError E) (RangeSet K)
  | [] => .ok s
  | .error e :: _ => .error (.de e)
  | .ok (a, b) :: access =>
    match s.insert ⟨a, b⟩ with
    | .ok s' => visitSeq s' access
    | .error p => .error (.panic p)

/-- /repo/src/set.rs:306-317 `Deserialize::deserialize`. -/
def deserialize {E : Type} (access : List (Except E (K × K))) :
    Except (RangeMap.DeError E) (RangeSet K) := visitSeq new access

/-! ### histories -/

/-- One mutating call, with a panic caught by the caller: the set afterwards, and the outcome. -/
def apply (s : RangeSet K) : Spec.SetOp (Range K) → RangeSet K × Except Panic Unit
  | .insert r =>
    match s.insert r with
    | .ok s' => (s', .ok ())
    | .error p => (s, .error p)
  | .remove r =>
    match s.remove r with
    | .ok s' => (s', .ok ())
    | .error p => (s, .error p)
  | .clear => (s.clear, .ok ())
  | .extend items => s.extend items

/-- The set after a history of calls (earliest call first) on an empty set. -/
def run (ops : List (Spec.SetOp (Range K))) : RangeSet K :=
  ops.foldl (fun s op => (s.apply op).1) new

/-- Sets that can be obtained through the API. -/
def Reachable (s : RangeSet K) : Prop := ∃ ops, run ops = s

end RangeSet
end Verif

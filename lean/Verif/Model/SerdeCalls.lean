import Verif.Model.Serde
import Verif.Model.ICollect
import Verif.Model.Set
import Verif.Model.ISet

/-!
# serde support, call by call

In `Verif/Model/Serde.lean` the serialised form is a value.  Here the serialiser and the
deserialiser are the caller's: state machines that may fail at any call.
-/
namespace Verif

/-- What serde's traits `Serializer` and `SerializeSeq` offer to the crate: `serialize_seq`,
`serialize_element` (which changes the `SerializeSeq` in place) and `end`; each may return an
error. (`serialize_element` calls `K::serialize` and `V::serialize`; their errors are its own.) -/
structure Serializer (E Q X D : Type) where
  serializeSeq : Option Nat → Except E Q
  serializeElement : Q → X → Except E Q
  finish : Q → Except E D

/-- The loop `for … { seq.serialize_element(…)?; }`, /repo/src/map.rs:646-648,
/repo/src/inclusive_map.rs:741-743, /repo/src/set.rs:299-301, /repo/src/inclusive_set.rs:325-327. -/
def Serializer.elements {E Q X D : Type} (z : Serializer E Q X D) : Q → List X → Except E Q
  | seq, [] => return seq
  | seq, x :: rest => do
    let seq ← z.serializeElement seq x
    z.elements seq rest

/-- serde's `SeqAccess`: what `next_element` returns, and the state it leaves behind. -/
abbrev SeqAccess (E A X : Type) := A → Except E (Option X) × A

variable {K : Type} [LE K] [LT K] [DecidableLE K] [DecidableLT K] {V : Type}

namespace RangeMap

/-- /repo/src/map.rs:640-650 `Serialize::serialize`. -/
def serializeWith {E Q D : Type} (m : RangeMap K V) (z : Serializer E Q ((K × K) × V) D) :
    Except E D := do
  let seq ← z.serializeSeq (some m.btm.length)
  let seq ← z.elements seq (m.iter.map fun e => ((e.1.start, e.1.stop), e.2))
  z.finish seq

/-- /repo/src/map.rs:693-702 `visit_seq`, the `while let` loop, and the state the `SeqAccess` is left
in. The loop ends only when `next_element` says so; the model gives up after `fuel` rounds
(`Panic.diverge`). -/
def visitSeqWith [BEq V] {E A : Type} (next : SeqAccess E A ((K × K) × V)) :
    Nat → RangeMap K V → A → Except (DeError E) (RangeMap K V) × A
  | 0, _, a => (.error (.panic .diverge), a)
  | fuel + 1, m, a =>
    match next a with
    | (.error e, a') => (.error (.de e), a')
    | (.ok none, a') => (.ok m, a')
    | (.ok (some ((x, y), v)), a') =>
      match m.insert ⟨x, y⟩ v with
      | .ok m' => visitSeqWith next fuel m' a'
      | .error p => (.error (.panic p), a')

end RangeMap

namespace RangeInclusiveMap

/-- /repo/src/inclusive_map.rs:735-745 `Serialize::serialize`. -/
def serializeWith {E Q D : Type} (m : RangeInclusiveMap K V) (z : Serializer E Q ((K × K) × V) D) :
    Except E D := do
  let seq ← z.serializeSeq (some m.btm.length)
  let seq ← z.elements seq (m.iter.map fun e => ((e.1.start, e.1.stop), e.2))
  z.finish seq

/-- /repo/src/inclusive_map.rs:788-797 `visit_seq`, the `while let` loop, and the state the
`SeqAccess` is left in (fuel as for `RangeMap`). -/
def visitSeqWith [BEq V] {E A : Type} (S : StepFns K) (next : SeqAccess E A ((K × K) × V)) :
    Nat → RangeInclusiveMap K V → A → Except (RangeMap.DeError E) (RangeInclusiveMap K V) × A
  | 0, _, a => (.error (.panic .diverge), a)
  | fuel + 1, m, a =>
    match next a with
    | (.error e, a') => (.error (.de e), a')
    | (.ok none, a') => (.ok m, a')
    | (.ok (some ((x, y), v)), a') =>
      match m.insert S (.mk' x y) v with
      | .ok m' => visitSeqWith S next fuel m' a'
      | .error p => (.error (.panic p), a')

end RangeInclusiveMap

namespace RangeSet

/-- /repo/src/set.rs:293-303 `Serialize::serialize`. -/
def serializeWith {E Q D : Type} (s : RangeSet K) (z : Serializer E Q (K × K) D) : Except E D := do
  let seq ← z.serializeSeq (some s.rm.btm.length)
  let seq ← z.elements seq (s.iter.map fun r => (r.start, r.stop))
  z.finish seq

/-- /repo/src/set.rs:344-353 `visit_seq`, the `while let` loop, and the state the `SeqAccess` is left
in (fuel as for `RangeMap`). -/
def visitSeqWith {E A : Type} (next : SeqAccess E A (K × K)) :
    Nat → RangeSet K → A → Except (RangeMap.DeError E) (RangeSet K) × A
  | 0, _, a => (.error (.panic .diverge), a)
  | fuel + 1, s, a =>
    match next a with
    | (.error e, a') => (.error (.de e), a')
    | (.ok none, a') => (.ok s, a')
    | (.ok (some (x, y)), a') =>
      match s.insert ⟨x, y⟩ with
      | .ok s' => visitSeqWith next fuel s' a'
      | .error p => (.error (.panic p), a')

end RangeSet

namespace RangeInclusiveSet

/-- /repo/src/inclusive_set.rs:319-329 `Serialize::serialize`. -/
def serializeWith {E Q D : Type} (s : RangeInclusiveSet K) (z : Serializer E Q (K × K) D) :
    Except E D := do
  let seq ← z.serializeSeq (some s.rm.btm.length)
  let seq ← z.elements seq (s.iter.map fun r => (r.start, r.stop))
  z.finish seq

/-- /repo/src/inclusive_set.rs:370-379 `visit_seq`, the `while let` loop, and the state the
`SeqAccess` is left in (fuel as for `RangeMap`). -/
def visitSeqWith {E A : Type} (S : StepFns K) (next : SeqAccess E A (K × K)) :
    Nat → RangeInclusiveSet K → A → Except (RangeMap.DeError E) (RangeInclusiveSet K) × A
  | 0, _, a => (.error (.panic .diverge), a)
  | fuel + 1, s, a =>
    match next a with
    | (.error e, a') => (.error (.de e), a')
    | (.ok none, a') => (.ok s, a')
    | (.ok (some (x, y)), a') =>
      match s.insert S (.mk' x y) with
      | .ok s' => visitSeqWith S next fuel s' a'
      | .error p => (.error (.panic p), a')

end RangeInclusiveSet
end Verif

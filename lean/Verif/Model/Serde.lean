import Verif.Model.Collect

/-!
# serde support of `RangeMap` (feature `serde1`)

The serialised form is modelled at the level of serde's data model: a sequence with a declared
length, of elements `((start, end), value)`.
-/
namespace Verif.RangeMap
variable {K : Type} [LE K] [LT K] [DecidableLE K] [DecidableLT K] {V : Type}

/-- /repo/src/map.rs:634-651 `Serialize::serialize`: the length passed to `serialize_seq`, and the
elements. -/
def serialize (m : RangeMap K V) : Option Nat × List ((K × K) × V) :=
  (some m.btm.length, m.iter.map fun e => ((e.1.start, e.1.stop), e.2))

/-- How deserialising can fail: with the deserialiser's own error, or by a panic. -/
inductive DeError (E : Type) where
  | de (e : E)
  | panic (p : Panic)

/-- /repo/src/map.rs:693-702 `visit_seq`: `access` is what successive `next_element` calls return
(the end of the list is `Ok(None)`). -/
def visitSeq [BEq V] {E : Type} (m : RangeMap K V) :
    List (Except E ((K × K) × V)) → Except (DeError E) (RangeMap K V)
  | [] => .ok m
  | .error e :: _ => .error (.de e)
  | .ok ((a, b), v) :: access =>
    match m.insert ⟨a, b⟩ v with
    | .ok m' => visitSeq m' access
    | .error p => .error (.panic p)

/-- /repo/src/map.rs:653-665 `Deserialize::deserialize`. -/
def deserialize [BEq V] {E : Type} (access : List (Except E ((K × K) × V))) :
    Except (DeError E) (RangeMap K V) := visitSeq new access

end Verif.RangeMap

import Verif.Model.ICollect
import Verif.Model.Step

/-!
# Model of `/repo/src/dense.rs`: the crate's own reference implementation, used by its tests

The crate has `u32` keys; here the width `w` of the unsigned key type is a parameter.
-/
namespace Verif

section
variable {w : Nat}

/-- std `<RangeInclusive<uN> as Iterator>::next`: sets `exhausted` rather than step beyond the
end. -/
def RangeInclusive.next (r : RangeInclusive (UIntW w)) :
    Option (UIntW w) × RangeInclusive (UIntW w) :=
  if r.isEmpty then (none, r)
  else if r.start < r.stop then (some r.start, { r with start := ⟨r.start.bits + 1⟩ })
  else (some r.start, { r with exhausted := true })

/-- How many keys are left. -/
def RangeInclusive.remaining (r : RangeInclusive (UIntW w)) : Nat :=
  if r.exhausted then 0 else r.stop.bits.toNat + 1 - r.start.bits.toNat

theorem RangeInclusive.remaining_next {r r' : RangeInclusive (UIntW w)} {k : UIntW w}
    (h : r.next = (some k, r')) : r'.remaining < r.remaining := by
  unfold RangeInclusive.next RangeInclusive.isEmpty at h
  cases hx : r.exhausted with
  | true => simp [hx] at h
  | false =>
    by_cases hle : r.start ≤ r.stop
    · have hle' : r.start.bits.toNat ≤ r.stop.bits.toNat := Int.ofNat_le.1 hle
      by_cases hlt : r.start < r.stop
      · have hlt' : r.start.bits.toNat < r.stop.bits.toNat := Int.ofNat_lt.1 hlt
        simp only [hx, hle, hlt, decide_true, Bool.not_true, Bool.or_self, if_true,
          Bool.false_eq_true, if_false, Prod.mk.injEq] at h
        obtain ⟨_, rfl⟩ := h
        have := r.stop.bits.isLt
        have h1 : (r.start.bits + 1).toNat = r.start.bits.toNat + 1 := by
          rw [BitVec.toNat_add]
          have h1 : (1 : BitVec w).toNat = 1 := by
            rw [show (1 : BitVec w) = BitVec.ofNat w 1 from rfl, BitVec.toNat_ofNat]
            exact Nat.mod_eq_of_lt (by omega)
          rw [h1]
          exact Nat.mod_eq_of_lt (by omega)
        simp only [RangeInclusive.remaining, hx, h1]
        simp only [Bool.false_eq_true, if_false]
        omega
      · simp only [hx, hle, hlt, decide_true, Bool.not_true, Bool.or_self, if_false,
          Bool.false_eq_true, Prod.mk.injEq] at h
        obtain ⟨_, rfl⟩ := h
        simp only [RangeInclusive.remaining, hx, if_true]
        simp only [Bool.false_eq_true, if_false]
        omega
    · simp [hx, hle] at h

end

/-- /repo/src/dense.rs:17-21. -/
structure DenseMap (w : Nat) (V : Type) where
  btm : List (UIntW w × V)

namespace DenseMap
variable {w : Nat} {V : Type}

/-- /repo/src/dense.rs:27-31 `new`. -/
def new : DenseMap w V := ⟨[]⟩

/-- /repo/src/dense.rs:33-37 `insert`: `for k in range { self.btm.insert(k, value.clone()); }`. -/
def insert (m : DenseMap w V) (range : RangeInclusive (UIntW w)) (value : V) : DenseMap w V :=
  match _h : range.next with
  | (none, _) => m
  | (some k, rest) => insert ⟨BTreeMap.insert id k value m.btm⟩ rest value
termination_by range.remaining
decreasing_by exact RangeInclusive.remaining_next _h

/-- /repo/src/dense.rs:98-104 `Iter`. -/
structure Iter (w : Nat) (V : Type) where
  inner : List (UIntW w × V)
  current : Option (RangeInclusive (UIntW w) × V)

/-- /repo/src/dense.rs:39-44 `iter`. -/
def iter (m : DenseMap w V) : Iter w V := ⟨m.btm, none⟩

/-- /repo/src/dense.rs:113-140 `Iter::next`; the recursive calls of the crate are recursive calls
here.  `current.0.end() + 1` may overflow. -/
def Iter.nextAux [BEq V] (debug : Bool) :
    List (UIntW w × V) → Option (RangeInclusive (UIntW w) × V) →
    Except Panic (Option (RangeInclusive (UIntW w) × V) × Iter w V)
  | nextDense :: inner, some current => do
    let succ ← UIntW.add debug current.1.stop ⟨1⟩
    if keq succ nextDense.1 && current.2 == nextDense.2 then
      nextAux debug inner (some (.mk' current.1.start nextDense.1, current.2))
    else
      pure (some current, ⟨inner, some (.mk' nextDense.1 nextDense.1, nextDense.2)⟩)
  | nextDense :: inner, none =>
    nextAux debug inner (some (.mk' nextDense.1 nextDense.1, nextDense.2))
  | [], current => pure (current, ⟨[], none⟩)

/-- /repo/src/dense.rs:113-140 `Iter::next`. -/
def Iter.next [BEq V] (debug : Bool) (s : Iter w V) :
    Except Panic (Option (RangeInclusive (UIntW w) × V) × Iter w V) :=
  Iter.nextAux debug s.inner s.current

/-- /repo/src/dense.rs:153-157 `EndExclusiveIter::next` (the iterator consists of an `Iter`). -/
def EndExclusiveIter.next [BEq V] (debug : Bool) (s : Iter w V) :
    Except Panic (Option (Range (UIntW w) × V) × Iter w V) := do
  match ← s.next debug with
  | (none, s') => pure (none, s')
  | (some (range, value), s') => do
    let stop ← UIntW.add debug range.stop ⟨1⟩
    pure (some (⟨range.start, stop⟩, value), s')

/-- /repo/src/dense.rs:65-83 `From<RangeMap<u32, V>>`. -/
def fromRangeMap (debug : Bool) (m : RangeMap (UIntW w) V) : Except Panic (DenseMap w V) :=
  m.iter.foldlM (fun d e => do
    let stop ← UIntW.sub debug e.1.stop ⟨1⟩
    pure (d.insert (.mk' e.1.start stop) e.2)) new

/-- /repo/src/dense.rs:85-96 `From<RangeInclusiveMap<u32, V>>`. -/
def fromRangeInclusiveMap (m : RangeInclusiveMap (UIntW w) V) : DenseMap w V :=
  m.iter.foldl (fun d e => d.insert e.1 e.2) new

/-- /repo/src/dense.rs:16 derived `PartialEq`, i.e. that of `BTreeMap`: the same keys with `==`
values. -/
def eq [BEq V] (m m' : DenseMap w V) : Bool :=
  iterEq (fun a b => keq a.1 b.1 && a.2 == b.2) m.btm m'.btm

end DenseMap
end Verif

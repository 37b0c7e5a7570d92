import Verif.Model.IRange

/-!
# Model of the `StepLite` implementations of `/repo/src/std_ext.rs`

`debug` selects a build with overflow checks (debug) or without (release).
-/
namespace Verif

/-- Rust: the unsigned integer type with `w` bits (`u8 u16 u32 u64 u128 usize`). -/
structure UIntW (w : Nat) where
  bits : BitVec w
  deriving DecidableEq, Repr

/-- Rust: the signed integer type with `w` bits (`i8 i16 i32 i64 i128`), two's complement. -/
structure SIntW (w : Nat) where
  bits : BitVec w
  deriving DecidableEq, Repr

namespace UIntW
variable {w : Nat}

/-- The number an unsigned integer stands for. -/
def val (a : UIntW w) : Int := a.bits.toNat

instance : LE (UIntW w) := ⟨fun a b => a.val ≤ b.val⟩
instance : LT (UIntW w) := ⟨fun a b => a.val < b.val⟩
instance : DecidableLE (UIntW w) := fun a b => inferInstanceAs (Decidable (a.val ≤ b.val))
instance : DecidableLT (UIntW w) := fun a b => inferInstanceAs (Decidable (a.val < b.val))

/-- Rust `a + b`: panics on overflow in a debug build, wraps in a release build. -/
def add (debug : Bool) (a b : UIntW w) : Except Panic (UIntW w) :=
  if debug && decide (2 ^ w ≤ a.bits.toNat + b.bits.toNat) then .error .stepOverflow
  else .ok ⟨a.bits + b.bits⟩

/-- Rust `a - b`. -/
def sub (debug : Bool) (a b : UIntW w) : Except Panic (UIntW w) :=
  if debug && decide (a.bits.toNat < b.bits.toNat) then .error .stepOverflow
  else .ok ⟨a.bits - b.bits⟩

/-- /repo/src/std_ext.rs:106-122 `impl_step_lite!` for `usize u8 u16 u32 u64 u128`. -/
def steps (w : Nat) (debug : Bool) : StepFns (UIntW w) where
  addOne a := add debug a ⟨1⟩
  subOne a := sub debug a ⟨1⟩

end UIntW

namespace SIntW
variable {w : Nat}

/-- The number a two's complement integer stands for. -/
def val (a : SIntW w) : Int := a.bits.toInt

instance : LE (SIntW w) := ⟨fun a b => a.val ≤ b.val⟩
instance : LT (SIntW w) := ⟨fun a b => a.val < b.val⟩
instance : DecidableLE (SIntW w) := fun a b => inferInstanceAs (Decidable (a.val ≤ b.val))
instance : DecidableLT (SIntW w) := fun a b => inferInstanceAs (Decidable (a.val < b.val))

/-- Is a number outside the range of the type? -/
def overflows (w : Nat) (n : Int) : Bool := decide (n < -(2 ^ (w - 1)) ∨ 2 ^ (w - 1) ≤ n)

/-- Rust `a + b`: panics on overflow in a debug build, wraps in a release build. -/
def add (debug : Bool) (a b : SIntW w) : Except Panic (SIntW w) :=
  if debug && overflows w (a.val + b.val) then .error .stepOverflow else .ok ⟨a.bits + b.bits⟩

/-- Rust `a - b`. -/
def sub (debug : Bool) (a b : SIntW w) : Except Panic (SIntW w) :=
  if debug && overflows w (a.val - b.val) then .error .stepOverflow else .ok ⟨a.bits - b.bits⟩

/-- /repo/src/std_ext.rs:106-122 `impl_step_lite!` for `i8 i16 i32 i64 i128`. -/
def steps (w : Nat) (debug : Bool) : StepFns (SIntW w) where
  addOne a := add debug a ⟨1⟩
  subOne a := sub debug a ⟨1⟩

end SIntW

/-! ### `NotNan<f32>`, `NotNan<f64>`

IEEE 754 binary interchange format with `eb` exponent bits and `mb` stored significand bits; `f32` is
`eb = 8, mb = 23`, `f64` is `eb = 11, mb = 52`.  From the most significant bit: sign, exponent,
significand. -/

/-- The number a non-NaN float stands for.  Finite numbers are given in units of the least positive
subnormal number `2^(2 - 2^(eb-1) - mb)`, so as integers. -/
inductive FVal where
  | negInf
  | fin (n : Int)
  | posInf
  deriving DecidableEq, Repr

namespace FVal

/-- IEEE 754 `<=` on numbers. -/
def le : FVal → FVal → Bool
  | .negInf, _ => true
  | _, .posInf => true
  | .fin a, .fin b => decide (a ≤ b)
  | _, _ => false

/-- IEEE 754 `<` on numbers. -/
def lt : FVal → FVal → Bool
  | .negInf, .negInf => false
  | .negInf, _ => true
  | .posInf, .posInf => false
  | _, .posInf => true
  | .fin a, .fin b => decide (a < b)
  | _, _ => false

end FVal

section Float
variable {eb mb : Nat}

/-- Sign bit. -/
def fSign (bits : BitVec (eb + mb + 1)) : Bool := decide (2 ^ (eb + mb) ≤ bits.toNat)
/-- Biased exponent. -/
def fExp (bits : BitVec (eb + mb + 1)) : Nat := bits.toNat % 2 ^ (eb + mb) / 2 ^ mb
/-- Stored significand. -/
def fMant (bits : BitVec (eb + mb + 1)) : Nat := bits.toNat % 2 ^ mb

/-- std `f32::is_nan`, `f64::is_nan`: exponent all ones, significand not zero. -/
def fIsNan (bits : BitVec (eb + mb + 1)) : Bool :=
  decide (fExp bits = 2 ^ eb - 1 ∧ fMant bits ≠ 0)

/-- IEEE 754: magnitude, in units of the least subnormal, of a finite float with biased exponent `e`
and stored significand `m`: `m` if `e = 0` (subnormal), else `(2^mb + m) * 2^(e-1)`. -/
def fMag (mb e m : Nat) : Nat := if e = 0 then m else (2 ^ mb + m) * 2 ^ (e - 1)

/-- IEEE 754 decoding of a non-NaN bit pattern. -/
def fVal (bits : BitVec (eb + mb + 1)) : FVal :=
  if fExp bits = 2 ^ eb - 1 then if fSign bits then .negInf else .posInf
  else
    let n : Int := fMag mb (fExp bits) (fMant bits)
    .fin (if fSign bits then -n else n)

/-- `ordered_float::NotNan<f32>` (`eb = 8, mb = 23`) and `NotNan<f64>` (`eb = 11, mb = 52`). -/
structure NotNan (eb mb : Nat) where
  bits : BitVec (eb + mb + 1)
  notNan : fIsNan bits = false

namespace NotNan

/-- The number. -/
def val (a : NotNan eb mb) : FVal := fVal a.bits

/-- `NotNan`'s `Ord` is IEEE comparison; in particular `-0.0 == 0.0`. -/
instance : LE (NotNan eb mb) := ⟨fun a b => a.val.le b.val = true⟩
instance : LT (NotNan eb mb) := ⟨fun a b => a.val.lt b.val = true⟩
instance : DecidableLE (NotNan eb mb) := fun a b =>
  inferInstanceAs (Decidable (a.val.le b.val = true))
instance : DecidableLT (NotNan eb mb) := fun a b =>
  inferInstanceAs (Decidable (a.val.lt b.val = true))

/-- `NotNan::new(from_bits(bits)).expect(..)`. -/
def ofBits (bits : BitVec (eb + mb + 1)) : Except Panic (NotNan eb mb) :=
  if h : fIsNan bits = false then .ok ⟨bits, h⟩ else .error .expectFailed

/-- `<$t>::INFINITY.to_bits()`. -/
def infinity (eb mb : Nat) : BitVec (eb + mb + 1) := .ofNat _ ((2 ^ eb - 1) * 2 ^ mb)

/-- /repo/src/std_ext.rs:146 `SIGN_MASK`. -/
def signMask (eb mb : Nat) : BitVec (eb + mb + 1) := (1 : BitVec (eb + mb + 1)) <<< (eb + mb)

/-- `<$t>::NEG_INFINITY.to_bits()`. -/
def negInfinity (eb mb : Nat) : BitVec (eb + mb + 1) := signMask eb mb ||| infinity eb mb

/-- /repo/src/std_ext.rs:151-162 `next_bits` of `add_one`. -/
def nextUp (debug : Bool) (bits : BitVec (eb + mb + 1)) : Except Panic (BitVec (eb + mb + 1)) :=
  if bits = infinity eb mb then .ok bits
  else
    let abs := bits &&& ~~~ signMask eb mb
    if abs = 0 then .ok 1
    else if bits = abs then (UIntW.add debug ⟨bits⟩ ⟨1⟩).map (·.bits)
    else (UIntW.sub debug ⟨bits⟩ ⟨1⟩).map (·.bits)

/-- /repo/src/std_ext.rs:145-167 `NotNan::add_one`. -/
def addOne (debug : Bool) (a : NotNan eb mb) : Except Panic (NotNan eb mb) := do
  ofBits (← nextUp debug a.bits)

/-- /repo/src/std_ext.rs:176-187 `next_bits` of `sub_one`. -/
def nextDown (debug : Bool) (bits : BitVec (eb + mb + 1)) : Except Panic (BitVec (eb + mb + 1)) :=
  if bits = negInfinity eb mb then .ok bits
  else
    let abs := bits &&& ~~~ signMask eb mb
    if abs = 0 then .ok (signMask eb mb ||| 1)
    else if bits = abs then (UIntW.sub debug ⟨bits⟩ ⟨1⟩).map (·.bits)
    else (UIntW.add debug ⟨bits⟩ ⟨1⟩).map (·.bits)

/-- /repo/src/std_ext.rs:170-192 `NotNan::sub_one`. -/
def subOne (debug : Bool) (a : NotNan eb mb) : Except Panic (NotNan eb mb) := do
  ofBits (← nextDown debug a.bits)

/-- /repo/src/std_ext.rs:141-198 `impl_step_lite_not_nan!`. -/
def steps (eb mb : Nat) (debug : Bool) : StepFns (NotNan eb mb) where
  addOne := addOne debug
  subOne := subOne debug

end NotNan
end Float
end Verif

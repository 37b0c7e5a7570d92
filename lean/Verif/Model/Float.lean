import Verif.Model.Step

/-!
# `f32`/`f64` as a *value* type: IEEE 754 `==`
-/
namespace Verif

/-- std `f32` (`eb = 8, mb = 23`) and `f64` (`eb = 11, mb = 52`), NaNs included.  Only `Clone` and
`PartialEq` are needed of a value type. -/
structure Ieee (eb mb : Nat) where
  bits : BitVec (eb + mb + 1)
  deriving DecidableEq

namespace Ieee
variable {eb mb : Nat}

/-- IEEE 754 `==`: NaN is equal to nothing, `-0.0 == 0.0`. -/
instance : BEq (Ieee eb mb) where
  beq a b := !fIsNan a.bits && !fIsNan b.bits && decide (fVal a.bits = fVal b.bits)

/-- std `is_nan`. -/
def isNan (a : Ieee eb mb) : Bool := fIsNan a.bits

end Ieee
end Verif

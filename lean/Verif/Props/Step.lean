import Verif.Props.Demo
import Verif.Proof.Step
import Verif.Props.IMap

/-!
# Properties C33 and C34: the step functions of the crate

The widths of the integer types are arbitrary (at least 2 bits for signed ones), which covers
`u8 ... u128`, `usize` of any platform and `i8 ... i128`.  The float format is arbitrary, too
(`eb ≥ 1` exponent bits, `mb` significand bits), which covers `f32` (8, 23) and `f64` (11, 52).
-/
namespace Verif.Props
open Spec

/-! ## C33 -/

/-- **C33** The number after a step is one more, one less, whenever the type has it. -/
theorem C33_unsigned_value (w : Nat) (debug : Bool) (a : UIntW w) :
    (a.val + 1 < 2 ^ w → ∃ c, (UIntW.steps w debug).addOne a = .ok c ∧ c.val = a.val + 1) ∧
    (0 < a.val → ∃ c, (UIntW.steps w debug).subOne a = .ok c ∧ c.val = a.val - 1) := by
  simp only [UIntW.val]
  constructor
  · intro h
    obtain ⟨c, h1, h2⟩ := UIntW.add_one_ok debug a (by norm_cast at h)
    exact ⟨c, h1, by omega⟩
  · intro h
    obtain ⟨c, h1, h2⟩ := UIntW.sub_one_ok debug a (by omega)
    exact ⟨c, h1, by omega⟩

example := C33_unsigned_value 8 true ⟨41⟩

/-- **C33** Unsigned integers: `add_one` is the successor and `sub_one` the predecessor. -/
theorem C33_unsigned_lawful (w : Nat) (debug : Bool) : LawfulSteps (UIntW.steps w debug) :=
  UIntW.lawful w debug

example := C33_unsigned_lawful 8 true

/-- **C33** At the extremes a debug build panics and a release build wraps around. -/
theorem C33_unsigned_extremes (w : Nat) (hw : 1 ≤ w) (a : UIntW w) :
    (a.val = 2 ^ w - 1 → (UIntW.steps w true).addOne a = .error .stepOverflow ∧
      ∃ c, (UIntW.steps w false).addOne a = .ok c ∧ c.val = 0) ∧
    (a.val = 0 → (UIntW.steps w true).subOne a = .error .stepOverflow ∧
      ∃ c, (UIntW.steps w false).subOne a = .ok c ∧ c.val = 2 ^ w - 1) := by
  have h2 : 1 < 2 ^ w := Nat.one_lt_two_pow (by omega)
  have h1 : (1 : BitVec w).toNat = 1 := by simp [Nat.mod_eq_of_lt h2]
  have hlt := a.bits.isLt
  simp only [UIntW.val]
  constructor
  · intro h
    have h : a.bits.toNat = 2 ^ w - 1 := by
      have : ((2 ^ w : Nat) : Int) = 2 ^ w := by norm_cast
      omega
    refine ⟨?_, _, rfl, ?_⟩
    · show UIntW.add true a ⟨1⟩ = _
      unfold UIntW.add
      rw [if_pos]
      simp only [h1, Bool.true_and, decide_eq_true_eq]
      omega
    · simp only [BitVec.toNat_add, h1, h]
      rw [show 2 ^ w - 1 + 1 = 2 ^ w by omega]
      simp
  · intro h
    have h : a.bits.toNat = 0 := by omega
    refine ⟨?_, _, rfl, ?_⟩
    · show UIntW.sub true a ⟨1⟩ = _
      unfold UIntW.sub
      rw [if_pos]
      simp only [h1, Bool.true_and, decide_eq_true_eq]
      omega
    · simp only [BitVec.toNat_sub, h1, h]
      rw [Nat.mod_eq_of_lt (by omega)]
      have : ((2 ^ w : Nat) : Int) = 2 ^ w := by norm_cast
      omega

example := C33_unsigned_extremes 8 (by decide) ⟨41⟩

/-- **C33** Signed integers. -/
theorem C33_signed_value (w : Nat) (hw : 2 ≤ w) (debug : Bool) (a : SIntW w) :
    (a.val + 1 < 2 ^ (w - 1) → ∃ c, (SIntW.steps w debug).addOne a = .ok c ∧ c.val = a.val + 1) ∧
    (-2 ^ (w - 1) < a.val → ∃ c, (SIntW.steps w debug).subOne a = .ok c ∧ c.val = a.val - 1) :=
  ⟨SIntW.add_one_ok hw debug a, SIntW.sub_one_ok hw debug a⟩

example := C33_signed_value 8 (by decide) true ⟨-3⟩

/-- **C33** Signed integers: `add_one` is the successor and `sub_one` the predecessor. -/
theorem C33_signed_lawful (w : Nat) (hw : 2 ≤ w) (debug : Bool) :
    LawfulSteps (SIntW.steps w debug) := SIntW.lawful hw debug

example := C33_signed_lawful 8 (by decide) true

/-- **C33** At the extremes a debug build panics and a release build wraps around. -/
theorem C33_signed_extremes (w : Nat) (hw : 2 ≤ w) (a : SIntW w) :
    (a.val = 2 ^ (w - 1) - 1 → (SIntW.steps w true).addOne a = .error .stepOverflow ∧
      ∃ c, (SIntW.steps w false).addOne a = .ok c ∧ c.val = -2 ^ (w - 1)) ∧
    (a.val = -2 ^ (w - 1) → (SIntW.steps w true).subOne a = .error .stepOverflow ∧
      ∃ c, (SIntW.steps w false).subOne a = .ok c ∧ c.val = 2 ^ (w - 1) - 1) := by
  have h1 := SIntW.val_one hw
  have h2 := SIntW.two_pow hw
  have h3 := SIntW.one_lt hw
  have hc : ((2 ^ w : Nat) : Int) = 2 ^ w := by norm_cast
  constructor
  · intro h
    refine ⟨?_, _, rfl, ?_⟩
    · show SIntW.add true a ⟨1⟩ = _
      unfold SIntW.add
      rw [if_pos]
      simp only [h1, h, SIntW.overflows, Bool.true_and, decide_eq_true_eq]
      omega
    · have : (⟨a.bits + 1⟩ : SIntW w).val = (a.val + 1).bmod (2 ^ w) := by
        rw [← h1]; exact BitVec.toInt_add ..
      show (⟨a.bits + 1⟩ : SIntW w).val = _
      rw [this, h, Int.bmod_eq_iff (Nat.two_pow_pos w)]
      refine ⟨by omega, by omega, ⟨-1, by omega⟩⟩
  · intro h
    refine ⟨?_, _, rfl, ?_⟩
    · show SIntW.sub true a ⟨1⟩ = _
      unfold SIntW.sub
      rw [if_pos]
      simp only [h1, h, SIntW.overflows, Bool.true_and, decide_eq_true_eq]
      omega
    · have : (⟨a.bits - 1⟩ : SIntW w).val = (a.val - 1).bmod (2 ^ w) := by
        rw [← h1]; exact BitVec.toInt_sub ..
      show (⟨a.bits - 1⟩ : SIntW w).val = _
      rw [this, h, Int.bmod_eq_iff (Nat.two_pow_pos w)]
      refine ⟨by omega, by omega, ⟨1, by omega⟩⟩

example : (UIntW.steps 128 true).addOne ⟨41⟩ = .ok ⟨42⟩ ∧
    (UIntW.steps 8 true).addOne ⟨255⟩ = .error .stepOverflow ∧
    (UIntW.steps 8 false).addOne ⟨255⟩ = .ok ⟨0⟩ := ⟨by rfl, by rfl, by rfl⟩
example : (SIntW.steps 8 true).addOne ⟨-1⟩ = .ok ⟨0⟩ ∧
    (SIntW.steps 8 true).addOne ⟨127⟩ = .error .stepOverflow ∧
    (SIntW.steps 8 false).addOne ⟨127⟩ = .ok ⟨-128⟩ ∧
    (⟨-128⟩ : SIntW 8) < ⟨127⟩ := ⟨by rfl, by rfl, by rfl, by decide⟩

/-! ## C34 -/

/-- **C34** `add_one` is the next float up, `sub_one` the next float down, in `NotNan`'s order, for
every non-NaN float that is not already the greatest resp. least (the infinities). -/
theorem C34_lawful (eb mb : Nat) (heb : 1 ≤ eb) (debug : Bool) :
    LawfulSteps (NotNan.steps eb mb debug) := NotNan.lawful heb debug

example := C34_lawful 8 23 (by decide) true

/-- **C34** They never panic: the `expect` never fires (no NaN is produced) and, in a debug build,
no integer operation on the bits overflows. -/
theorem C34_never_panics (eb mb : Nat) (heb : 1 ≤ eb) (debug : Bool) (a : NotNan eb mb) :
    (∃ c, (NotNan.steps eb mb debug).addOne a = .ok c) ∧
    (∃ c, (NotNan.steps eb mb debug).subOne a = .ok c) := by
  have hb := NotNan.smag_bounds a
  have hm := NotNan.mag_le a
  constructor
  · by_cases h : NotNan.smag a.bits < NotNan.infN eb mb
    · obtain ⟨c, hc, _⟩ := NotNan.addOne_ok heb debug a h
      exact ⟨c, hc⟩
    · have : a.bits = NotNan.infinity eb mb := by
        rw [NotNan.smag_infinity heb _ hm]; omega
      obtain ⟨c, hc, _⟩ := NotNan.ofBits_ok hm
      refine ⟨c, ?_⟩
      simp [NotNan.steps, NotNan.addOne, NotNan.nextUp, ← this, hc, bind, Except.bind]
  · by_cases h : -(NotNan.infN eb mb : Int) < NotNan.smag a.bits
    · obtain ⟨c, hc, _⟩ := NotNan.subOne_ok heb debug a h
      exact ⟨c, hc⟩
    · have : a.bits = NotNan.negInfinity eb mb := by
        rw [NotNan.smag_negInfinity heb _ hm]; omega
      obtain ⟨c, hc, _⟩ := NotNan.ofBits_ok hm
      refine ⟨c, ?_⟩
      simp [NotNan.steps, NotNan.subOne, NotNan.nextDown, ← this, hc, bind, Except.bind]

example := C34_never_panics 8 23 (by decide) true ⟨0x3f800000, by decide⟩

/-- **C34** They saturate at the infinities. -/
theorem C34_saturates (eb mb : Nat) (heb : 1 ≤ eb) (debug : Bool) (a : NotNan eb mb) :
    (a.val = .posInf → (NotNan.steps eb mb debug).addOne a = .ok a) ∧
    (a.val = .negInf → (NotNan.steps eb mb debug).subOne a = .ok a) := by
  have hm := NotNan.mag_le a
  have hn := a.notNan
  constructor
  · intro h
    have : a.bits = NotNan.infinity eb mb := by
      rw [NotNan.smag_infinity heb _ hm]
      simp only [NotNan.val, fVal] at h
      split at h
      · rename_i he
        rw [NotNan.exp_inf_iff] at he
        split at h
        · simp at h
        · rename_i hs
          simp only [NotNan.smag, hs]
          simp only [Bool.false_eq_true, if_false]
          omega
      · simp at h
    simp only [NotNan.steps, NotNan.addOne, NotNan.nextUp, this, bind, Except.bind, if_true]
    rw [← this]
    simp [NotNan.ofBits, hn]
  · intro h
    have : a.bits = NotNan.negInfinity eb mb := by
      rw [NotNan.smag_negInfinity heb _ hm]
      simp only [NotNan.val, fVal] at h
      split at h
      · rename_i he
        rw [NotNan.exp_inf_iff] at he
        split at h
        · rename_i hs
          simp only [NotNan.smag, hs]
          simp only [if_true]
          omega
        · simp at h
      · simp at h
    simp only [NotNan.steps, NotNan.subOne, NotNan.nextDown, this, bind, Except.bind, if_true]
    rw [← this]
    simp [NotNan.ofBits, hn]

example := C34_saturates 8 23 (by decide) true ⟨0x7f800000, by decide⟩

/-- **C34** The infinities are the greatest and the least element. -/
theorem C34_extremes (eb mb : Nat) (a b : NotNan eb mb) :
    (a.val = .posInf → b ≤ a) ∧ (a.val = .negInf → a ≤ b) := by
  refine ⟨fun h => ?_, fun h => ?_⟩
  · show b.val.le a.val = true
    rw [h]
    cases b.val <;> rfl
  · show a.val.le b.val = true
    rw [h]
    rfl

example := C34_extremes 8 23 ⟨0x7f800000, by decide⟩ ⟨0xff800000, by decide⟩

/-- **C34** Stepping up and then down (or down and then up) returns to an equal float, unless the
first step started at an infinity and saturated. -/
theorem C34_inverse (eb mb : Nat) (heb : 1 ≤ eb) (debug : Bool) (a : NotNan eb mb) :
    (∀ b, a < b → ∃ c d, (NotNan.steps eb mb debug).addOne a = .ok c ∧
      (NotNan.steps eb mb debug).subOne c = .ok d ∧ keq d a = true) ∧
    (∀ b, b < a → ∃ c d, (NotNan.steps eb mb debug).subOne a = .ok c ∧
      (NotNan.steps eb mb debug).addOne c = .ok d ∧ keq d a = true) := by
  have hL := C34_lawful eb mb heb debug
  constructor
  · intro b hb
    obtain ⟨c, h1, h2⟩ := hL.addOne a b hb
    obtain ⟨d, h3, h4⟩ := hL.subOne c a h2.1
    refine ⟨c, d, h1, h3, ?_⟩
    have := h4.1
    have h5 := h2.2 d
    have h6 := h4.2 a
    have := h2.1
    rw [keq_iff]
    grind
  · intro b hb
    obtain ⟨c, h1, h2⟩ := hL.subOne a b hb
    obtain ⟨d, h3, h4⟩ := hL.addOne c a h2.1
    refine ⟨c, d, h1, h3, ?_⟩
    have := h4.1
    have h5 := h2.2 d
    have h6 := h4.2 a
    have := h2.1
    rw [keq_iff]
    grind

example := C34_inverse 8 23 (by decide) true ⟨0x3f800000, by decide⟩

/-- **C34** From either zero, `add_one` gives the least positive and `sub_one` the greatest negative
subnormal. -/
theorem C34_zero (eb mb : Nat) (debug : Bool) (a : NotNan eb mb)
    (h : a.val = .fin 0) (heb : 1 ≤ eb) :
    (∃ c, (NotNan.steps eb mb debug).addOne a = .ok c ∧ c.bits = 1) ∧
    (∃ c, (NotNan.steps eb mb debug).subOne a = .ok c ∧ c.bits = NotNan.signMask eb mb ||| 1) := by
  have hm := NotNan.mag_le a
  have hpos := NotNan.infN_pos (mb := mb) heb
  have h0 : NotNan.mag a.bits = 0 := by
    simp only [NotNan.val, fVal] at h
    split at h
    · split at h <;> simp at h
    · have hg : fMag mb (fExp a.bits) (fMant a.bits) = NotNan.g mb (NotNan.mag a.bits) := by
        rw [NotNan.mant_eq, NotNan.exp_eq]; rfl
      rw [hg] at h
      have h3 := NotNan.g_lt_iff (mb := mb) (n := 0) (k := NotNan.mag a.bits)
      rw [NotNan.g_zero] at h3
      simp only [FVal.fin.injEq] at h
      split at h <;> omega
  have hs : NotNan.smag a.bits = 0 := by simp [NotNan.smag, h0]
  constructor
  · obtain ⟨c, hc, hcb⟩ := NotNan.addOne_ok heb debug a (by omega)
    refine ⟨c, hc, ?_⟩
    have hup : NotNan.nextUp debug a.bits = .ok 1 := by
      unfold NotNan.nextUp
      rw [if_neg (by rw [NotNan.smag_infinity heb _ hm]; omega)]
      simp only [NotNan.abs_eq_zero, h0, if_true]
    simp only [NotNan.addOne, hup, bind, Except.bind, NotNan.ofBits] at hc
    split at hc
    · cases hc; rfl
    · simp at hc
  · obtain ⟨c, hc, hcb⟩ := NotNan.subOne_ok heb debug a (by omega)
    refine ⟨c, hc, ?_⟩
    have hup : NotNan.nextDown debug a.bits = .ok (NotNan.signMask eb mb ||| 1) := by
      unfold NotNan.nextDown
      rw [if_neg (by rw [NotNan.smag_negInfinity heb _ hm]; omega)]
      simp only [NotNan.abs_eq_zero, h0, if_true]
    simp only [NotNan.subOne, hup, bind, Except.bind, NotNan.ofBits] at hc
    split at hc
    · cases hc; rfl
    · simp at hc

example := C34_zero 8 23 true ⟨0x80000000, by decide⟩ (by decide) (by decide)

/-- **C34** So inclusive maps over `NotNan<f32>` and `NotNan<f64>` have the properties proved for
lawful step functions; for instance the refinement property C25. -/
theorem C34_map_refinement {V : Type} [BEq V] [LawfulBEq V] (debug : Bool)
    (ops : List (Op (RangeInclusive (NotNan 11 52)) V))
    (hx : ∀ op ∈ ops, ∀ r ∈ op.inserted, r.exhausted = false) (k : NotNan 11 52) :
    (RangeInclusiveMap.run (NotNan.steps 11 52 debug) ops).get k =
      .ok (lastWrite icovers ivalid ops.reverse k) :=
  C25_refinement_exact (C34_lawful 11 52 (by omega) debug) ops hx k

-- f64: 1.0, its successor; -0.0 steps up to the least subnormal, infinity stays; zeroes are equal
example : (NotNan.nextUp true 0x3ff0000000000000 : Except Panic (BitVec (11 + 52 + 1))) =
    .ok 0x3ff0000000000001 := by rfl
example : (NotNan.nextUp true 0x8000000000000000 : Except Panic (BitVec (11 + 52 + 1))) =
    .ok 1 := by rfl
example : (NotNan.nextDown true 0x3ff0000000000000 : Except Panic (BitVec (11 + 52 + 1))) =
    .ok 0x3fefffffffffffff := by rfl
example : (⟨0x80000000, by decide⟩ : NotNan 8 23) ≤ ⟨0, by decide⟩ ∧
    (⟨0, by decide⟩ : NotNan 8 23) ≤ ⟨0x80000000, by decide⟩ := by decide
example : (⟨0x7f800000, by decide⟩ : NotNan 8 23).val = .posInf ∧
    (⟨0xff800000, by decide⟩ : NotNan 8 23).val = .negInf ∧
    (⟨1, by decide⟩ : NotNan 8 23).val = .fin 1 ∧
    (⟨0x00800001, by decide⟩ : NotNan 8 23).val = .fin (2 ^ 23 + 1) := by decide
example : fIsNan (eb := 8) (mb := 23) 0x7fc00000 = true := by decide

end Verif.Props

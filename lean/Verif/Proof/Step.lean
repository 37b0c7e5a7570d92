import Verif.Model.Step
import Verif.Spec

/-!
# The step functions of the crate are lawful
-/
set_option linter.unusedVariables false

namespace Verif
open Spec

namespace UIntW
variable {w : Nat}

instance : Std.IsLinearPreorder (UIntW w) where
  le_refl a := Int.le_refl a.val
  le_trans a b c := Int.le_trans (a := a.val) (b := b.val) (c := c.val)
  le_total a b := Int.le_total a.val b.val
instance : Std.LawfulOrderLT (UIntW w) where
  lt_iff a b := by
    show a.val < b.val ↔ a.val ≤ b.val ∧ ¬ b.val ≤ a.val
    omega

theorem le_def {a b : UIntW w} : a ≤ b ↔ a.bits.toNat ≤ b.bits.toNat := Int.ofNat_le
theorem lt_def {a b : UIntW w} : a < b ↔ a.bits.toNat < b.bits.toNat := Int.ofNat_lt

theorem add_one_ok (debug : Bool) (a : UIntW w) (h : a.bits.toNat + 1 < 2 ^ w) :
    ∃ c, add debug a ⟨1⟩ = .ok c ∧ c.bits.toNat = a.bits.toNat + 1 := by
  have hw : w ≠ 0 := by
    rintro rfl
    simp at h
  have h1 : (1 : BitVec w).toNat = 1 := by
    simp [Nat.mod_eq_of_lt (Nat.one_lt_two_pow hw)]
  refine ⟨⟨a.bits + 1⟩, ?_, ?_⟩
  · unfold add
    rw [if_neg]
    simp only [h1, Bool.and_eq_true, decide_eq_true_eq]
    omega
  · rw [BitVec.toNat_add, h1, Nat.mod_eq_of_lt h]

theorem sub_one_ok (debug : Bool) (a : UIntW w) (h : 0 < a.bits.toNat) :
    ∃ c, sub debug a ⟨1⟩ = .ok c ∧ c.bits.toNat + 1 = a.bits.toNat := by
  have hlt := a.bits.isLt
  have hw : w ≠ 0 := by
    rintro rfl
    simp at hlt
    omega
  have h1 : (1 : BitVec w).toNat = 1 := by
    simp [Nat.mod_eq_of_lt (Nat.one_lt_two_pow hw)]
  refine ⟨⟨a.bits - 1⟩, ?_, ?_⟩
  · unfold sub
    rw [if_neg]
    simp only [h1, Bool.and_eq_true, decide_eq_true_eq]
    omega
  · rw [BitVec.toNat_sub, h1]
    have : 2 ^ w - 1 + a.bits.toNat = (a.bits.toNat - 1) + 2 ^ w := by omega
    rw [this, Nat.add_mod_right, Nat.mod_eq_of_lt (by omega)]
    omega

theorem lawful (w : Nat) (debug : Bool) : LawfulSteps (steps w debug) where
  addOne a b h := by
    rw [lt_def] at h
    have := b.bits.isLt
    obtain ⟨c, h1, h2⟩ := add_one_ok debug a (by omega)
    exact ⟨c, h1, by rw [lt_def]; omega, fun d hd => by rw [lt_def] at hd; rw [le_def]; omega⟩
  subOne a b h := by
    rw [lt_def] at h
    obtain ⟨c, h1, h2⟩ := sub_one_ok debug a (by omega)
    exact ⟨c, h1, by rw [lt_def]; omega, fun d hd => by rw [lt_def] at hd; rw [le_def]; omega⟩

end UIntW

namespace SIntW
variable {w : Nat}

instance : Std.IsLinearPreorder (SIntW w) where
  le_refl a := Int.le_refl a.val
  le_trans a b c := Int.le_trans (a := a.val) (b := b.val) (c := c.val)
  le_total a b := Int.le_total a.val b.val
instance : Std.LawfulOrderLT (SIntW w) where
  lt_iff a b := by
    show a.val < b.val ↔ a.val ≤ b.val ∧ ¬ b.val ≤ a.val
    omega

theorem le_def {a b : SIntW w} : a ≤ b ↔ a.val ≤ b.val := Iff.rfl
theorem lt_def {a b : SIntW w} : a < b ↔ a.val < b.val := Iff.rfl

theorem bounds (a : SIntW w) (hw : 2 ≤ w) : -(2 ^ (w - 1)) ≤ a.val ∧ a.val < 2 ^ (w - 1) :=
  ⟨BitVec.le_toInt a.bits, BitVec.toInt_lt⟩

theorem two_pow (hw : 2 ≤ w) : (2 : Int) ^ w = 2 ^ (w - 1) + 2 ^ (w - 1) := by
  obtain ⟨n, rfl⟩ : ∃ n, w = n + 1 := ⟨w - 1, by omega⟩
  simp only [Nat.add_sub_cancel, Int.pow_succ]
  omega

theorem one_lt (hw : 2 ≤ w) : (2 : Int) ≤ 2 ^ (w - 1) := by
  obtain ⟨n, rfl⟩ : ∃ n, w = n + 2 := ⟨w - 2, by omega⟩
  have : n + 2 - 1 = n + 1 := by omega
  rw [this, Int.pow_succ]
  have : (0 : Int) < 2 ^ n := Int.pow_pos (by omega)
  omega

theorem val_one (hw : 2 ≤ w) : (⟨1⟩ : SIntW w).val = 1 := by
  have := one_lt hw
  have h2 := two_pow hw
  show (BitVec.ofNat w 1).toInt = 1
  rw [BitVec.toInt_ofNat', Int.bmod_eq_of_le] <;> push_cast <;> omega

theorem val_add (hw : 2 ≤ w) (a b : SIntW w) (h : overflows w (a.val + b.val) = false) :
    (⟨a.bits + b.bits⟩ : SIntW w).val = a.val + b.val := by
  have h2 := two_pow hw
  simp only [overflows, decide_eq_false_iff_not] at h
  simp only [val] at *
  rw [BitVec.toInt_add, Int.bmod_eq_of_le] <;> push_cast <;> omega

theorem val_sub (hw : 2 ≤ w) (a b : SIntW w) (h : overflows w (a.val - b.val) = false) :
    (⟨a.bits - b.bits⟩ : SIntW w).val = a.val - b.val := by
  have h2 := two_pow hw
  simp only [overflows, decide_eq_false_iff_not] at h
  simp only [val] at *
  rw [BitVec.toInt_sub, Int.bmod_eq_of_le] <;> push_cast <;> omega

theorem add_one_ok (hw : 2 ≤ w) (debug : Bool) (a : SIntW w) (h : a.val + 1 < 2 ^ (w - 1)) :
    ∃ c, add debug a ⟨1⟩ = .ok c ∧ c.val = a.val + 1 := by
  have hb := bounds a hw
  have ho : overflows w (a.val + (⟨1⟩ : SIntW w).val) = false := by
    rw [val_one hw]
    simp only [overflows, decide_eq_false_iff_not]
    omega
  exact ⟨⟨a.bits + 1⟩, by unfold add; rw [ho]; simp, by have := val_add hw a ⟨1⟩ ho; rwa [val_one hw] at this⟩

theorem sub_one_ok (hw : 2 ≤ w) (debug : Bool) (a : SIntW w) (h : -(2 ^ (w - 1)) < a.val) :
    ∃ c, sub debug a ⟨1⟩ = .ok c ∧ c.val = a.val - 1 := by
  have hb := bounds a hw
  have ho : overflows w (a.val - (⟨1⟩ : SIntW w).val) = false := by
    rw [val_one hw]
    simp only [overflows, decide_eq_false_iff_not]
    omega
  exact ⟨⟨a.bits - 1⟩, by unfold sub; rw [ho]; simp, by have := val_sub hw a ⟨1⟩ ho; rwa [val_one hw] at this⟩

theorem lawful (hw : 2 ≤ w) (debug : Bool) : LawfulSteps (steps w debug) where
  addOne a b h := by
    rw [lt_def] at h
    have := bounds b hw
    obtain ⟨c, h1, h2⟩ := add_one_ok hw debug a (by omega)
    exact ⟨c, h1, by rw [lt_def]; omega, fun d hd => by rw [lt_def] at hd; rw [le_def]; omega⟩
  subOne a b h := by
    rw [lt_def] at h
    have := bounds b hw
    obtain ⟨c, h1, h2⟩ := sub_one_ok hw debug a (by omega)
    exact ⟨c, h1, by rw [lt_def]; omega, fun d hd => by rw [lt_def] at hd; rw [le_def]; omega⟩

end SIntW

/-! ### Floats -/

namespace FVal

theorem le_refl (a : FVal) : a.le a = true := by cases a <;> simp [le]
theorem le_trans (a b c : FVal) : a.le b = true → b.le c = true → a.le c = true := by
  cases a <;> cases b <;> cases c <;> simp [le]
  omega
theorem le_total (a b : FVal) : a.le b = true ∨ b.le a = true := by
  cases a <;> cases b <;> simp [le]
  omega
theorem lt_iff (a b : FVal) : a.lt b = true ↔ a.le b = true ∧ ¬ b.le a = true := by
  cases a <;> cases b <;> simp [le, lt]
  omega

end FVal

namespace NotNan
variable {eb mb : Nat}

instance : Std.IsLinearPreorder (NotNan eb mb) where
  le_refl a := FVal.le_refl a.val
  le_trans a b c := FVal.le_trans a.val b.val c.val
  le_total a b := FVal.le_total a.val b.val
instance : Std.LawfulOrderLT (NotNan eb mb) where
  lt_iff a b := FVal.lt_iff a.val b.val

/-- The bits without the sign. -/
def mag (b : BitVec (eb + mb + 1)) : Nat := b.toNat % 2 ^ (eb + mb)

/-- Magnitude of a float as a function of the bits without the sign. -/
def g (mb n : Nat) : Nat := fMag mb (n / 2 ^ mb) (n % 2 ^ mb)

theorem g_succ (mb n : Nat) : g mb n < g mb (n + 1) := by
  have hp : 0 < 2 ^ mb := Nat.two_pow_pos mb
  have h1 : n % 2 ^ mb < 2 ^ mb := Nat.mod_lt _ hp
  have h2 : n = 2 ^ mb * (n / 2 ^ mb) + n % 2 ^ mb := (Nat.div_add_mod _ _).symm
  unfold g
  generalize n / 2 ^ mb = e at *
  generalize n % 2 ^ mb = m at *
  by_cases hm : m + 1 < 2 ^ mb
  · have h3 : (n + 1) / 2 ^ mb = e := by
      rw [h2, Nat.add_assoc, Nat.mul_add_div hp, Nat.div_eq_of_lt hm, Nat.add_zero]
    have h4 : (n + 1) % 2 ^ mb = m + 1 := by
      rw [h2, Nat.add_assoc, Nat.mul_add_mod, Nat.mod_eq_of_lt hm]
    rw [h3, h4]
    unfold fMag
    split
    · omega
    · exact Nat.mul_lt_mul_of_pos_right (by omega) (Nat.two_pow_pos _)
  · have hm' : n + 1 = 2 ^ mb * (e + 1) := by rw [Nat.mul_add, Nat.mul_one]; omega
    have h3 : (n + 1) / 2 ^ mb = e + 1 := by rw [hm', Nat.mul_div_cancel_left _ hp]
    have h4 : (n + 1) % 2 ^ mb = 0 := by rw [hm', Nat.mul_mod_right]
    rw [h3, h4]
    unfold fMag
    rw [if_neg (c := e + 1 = 0) (by omega)]
    by_cases he : e = 0
    · subst he
      simp
      exact h1
    · rw [if_neg he]
      obtain ⟨e', rfl⟩ : ∃ e', e = e' + 1 := ⟨e - 1, by omega⟩
      simp only [Nat.add_sub_cancel, Nat.add_zero]
      have h5 : 2 ^ (e' + 1) = 2 * 2 ^ e' := by rw [Nat.pow_succ, Nat.mul_comm]
      rw [h5, ← Nat.mul_assoc]
      exact Nat.mul_lt_mul_of_pos_right (by omega) (Nat.two_pow_pos _)

theorem g_lt {n k : Nat} (h : n < k) : g mb n < g mb k := by
  induction h with
  | refl => exact g_succ mb n
  | step _ ih => exact Nat.lt_trans ih (g_succ mb _)

theorem g_lt_iff {n k : Nat} : g mb n < g mb k ↔ n < k := by
  refine ⟨fun h => ?_, g_lt⟩
  apply Decidable.byContradiction
  intro hn
  rcases Nat.lt_or_eq_of_le (Nat.le_of_not_lt hn) with h1 | h1
  · have := g_lt (mb := mb) h1
    omega
  · subst h1
    omega

theorem g_zero : g mb 0 = 0 := by simp [g, fMag]

/-- The bits of infinity. -/
def infN (eb mb : Nat) : Nat := (2 ^ eb - 1) * 2 ^ mb

theorem pow_split : 2 ^ (eb + mb) = (2 ^ eb - 1) * 2 ^ mb + 2 ^ mb := by
  have : 0 < 2 ^ eb := Nat.two_pow_pos eb
  rw [Nat.pow_add, ← Nat.succ_mul]
  congr 1
  omega

theorem infN_lt : infN eb mb < 2 ^ (eb + mb) := by
  have : 0 < 2 ^ mb := Nat.two_pow_pos mb
  rw [pow_split, infN]
  omega

theorem mant_eq (b : BitVec (eb + mb + 1)) : fMant b = mag b % 2 ^ mb := by
  unfold fMant mag
  rw [Nat.mod_mod_of_dvd]
  exact Nat.pow_dvd_pow 2 (by omega)

theorem exp_eq (b : BitVec (eb + mb + 1)) : fExp b = mag b / 2 ^ mb := rfl

theorem exp_inf_iff (b : BitVec (eb + mb + 1)) : fExp b = 2 ^ eb - 1 ↔ infN eb mb ≤ mag b := by
  have hp : 0 < 2 ^ mb := Nat.two_pow_pos mb
  have hm : mag b < 2 ^ (eb + mb) := Nat.mod_lt _ (Nat.two_pow_pos _)
  have h1 := Nat.div_add_mod (mag b) (2 ^ mb)
  have h2 : mag b % 2 ^ mb < 2 ^ mb := Nat.mod_lt _ hp
  rw [pow_split] at hm
  rw [exp_eq, infN, ← Nat.le_div_iff_mul_le hp]
  have h3 : mag b / 2 ^ mb < 2 ^ eb - 1 + 1 := by
    rw [Nat.div_lt_iff_lt_mul hp, Nat.succ_mul]
    exact hm
  omega

/-- A pattern is a NaN iff its magnitude bits exceed those of infinity. -/
theorem isNan_iff (b : BitVec (eb + mb + 1)) : fIsNan b = true ↔ infN eb mb < mag b := by
  have hp : 0 < 2 ^ mb := Nat.two_pow_pos mb
  have hm : mag b < 2 ^ (eb + mb) := Nat.mod_lt _ (Nat.two_pow_pos _)
  rw [pow_split] at hm
  simp only [fIsNan, decide_eq_true_eq]
  rw [exp_inf_iff, mant_eq]
  constructor
  · rintro ⟨h1, h2⟩
    rcases Nat.lt_or_eq_of_le h1 with h3 | h3
    · exact h3
    · rw [← h3, infN, Nat.mul_mod_left] at h2
      exact absurd rfl h2
  · intro h
    refine ⟨by omega, ?_⟩
    have : mag b = 2 ^ mb * (2 ^ eb - 1) + (mag b - infN eb mb) := by
      rw [Nat.mul_comm]
      show mag b = infN eb mb + _
      omega
    rw [this, Nat.mul_add_mod, Nat.mod_eq_of_lt]
    · omega
    · simp only [infN] at *
      omega

theorem mag_le (a : NotNan eb mb) : mag a.bits ≤ infN eb mb := by
  have := a.notNan
  have h := isNan_iff a.bits
  rw [this] at h
  simp at h
  exact h

/-- Signed magnitude. -/
def smag (b : BitVec (eb + mb + 1)) : Int := if fSign b then -(mag b : Int) else mag b

/-- The IEEE order is the order of the signed magnitudes. -/
theorem le_iff (heb : 1 ≤ eb) (a b : NotNan eb mb) : a ≤ b ↔ smag a.bits ≤ smag b.bits := by
  show (fVal a.bits).le (fVal b.bits) = true ↔ _
  have ha := mag_le a
  have hb := mag_le b
  have hpos : 0 < infN eb mb := by
    have : 2 ≤ 2 ^ eb := by
      have := Nat.pow_le_pow_right (n := 2) (by omega) heb
      omega
    exact Nat.mul_pos (by omega) (Nat.two_pow_pos _)
  have h1 := g_lt_iff (mb := mb) (n := mag a.bits) (k := mag b.bits)
  have h2 := g_lt_iff (mb := mb) (n := mag b.bits) (k := mag a.bits)
  have h3 := g_lt_iff (mb := mb) (n := 0) (k := mag a.bits)
  have h4 := g_lt_iff (mb := mb) (n := 0) (k := mag b.bits)
  rw [g_zero] at h3 h4
  have hga : fMag mb (fExp a.bits) (fMant a.bits) = g mb (mag a.bits) := by
    rw [mant_eq, exp_eq]; rfl
  have hgb : fMag mb (fExp b.bits) (fMant b.bits) = g mb (mag b.bits) := by
    rw [mant_eq, exp_eq]; rfl
  simp only [fVal, exp_inf_iff, hga, hgb, smag]
  generalize fSign a.bits = sa
  generalize fSign b.bits = sb
  by_cases ha' : infN eb mb ≤ mag a.bits <;> by_cases hb' : infN eb mb ≤ mag b.bits <;>
    cases sa <;> cases sb <;> simp [FVal.le, ha', hb'] <;> omega

theorem lt_iff (heb : 1 ≤ eb) (a b : NotNan eb mb) : a < b ↔ smag a.bits < smag b.bits := by
  have h1 := le_iff heb a b
  have h2 := le_iff heb b a
  have : a < b ↔ a ≤ b ∧ ¬ b ≤ a := Std.LawfulOrderLT.lt_iff a b
  rw [this, h1, h2]
  omega

theorem toNat_abs (b : BitVec (eb + mb + 1)) : (b &&& ~~~ signMask eb mb).toNat = mag b := by
  apply Nat.eq_of_testBit_eq
  intro i
  simp only [mag, signMask, Nat.testBit_mod_two_pow, BitVec.testBit_toNat, BitVec.getLsbD_and,
    BitVec.getLsbD_not, BitVec.getLsbD_shiftLeft]
  by_cases h1 : i < eb + mb
  · have : i < eb + mb + 1 := by omega
    simp [h1, this]
  · by_cases h2 : i = eb + mb
    · subst h2; simp
    · have h3 : ¬ i < eb + mb + 1 := by omega
      simp [h1, h3]

theorem toNat_eq (b : BitVec (eb + mb + 1)) :
    b.toNat = mag b + if fSign b then 2 ^ (eb + mb) else 0 := by
  have h := b.isLt
  have hp := Nat.two_pow_pos (eb + mb)
  simp only [fSign, mag, decide_eq_true_eq]
  rw [Nat.pow_succ] at h
  split
  · rename_i hs
    rw [Nat.mod_eq_sub_mod hs, Nat.mod_eq_of_lt (by omega)]
    omega
  · rename_i hs
    rw [Nat.mod_eq_of_lt (by omega)]
    omega

/-- Reading off sign and magnitude. -/
theorem of_toNat {b : BitVec (eb + mb + 1)} {n : Nat} {s : Bool}
    (h : b.toNat = n + if s then 2 ^ (eb + mb) else 0) (hn : n < 2 ^ (eb + mb)) :
    mag b = n ∧ fSign b = s := by
  simp only [mag, fSign]
  cases s
  · simp only [Bool.false_eq_true, if_false, Nat.add_zero] at h
    rw [h]
    exact ⟨Nat.mod_eq_of_lt hn, by simp; omega⟩
  · simp only [if_true] at h
    rw [h]
    exact ⟨by rw [Nat.add_mod_right, Nat.mod_eq_of_lt hn], by simp⟩

theorem toNat_signMask : (signMask eb mb).toNat = 2 ^ (eb + mb) := by
  have : 2 ^ (eb + mb) < 2 ^ (eb + mb + 1) := Nat.pow_lt_pow_right (by omega) (by omega)
  have h1 : (1 : Nat) < 2 ^ (eb + mb + 1) := Nat.one_lt_two_pow (by omega)
  simp only [signMask, BitVec.toNat_shiftLeft]
  show (1 % 2 ^ (eb + mb + 1)) <<< (eb + mb) % 2 ^ (eb + mb + 1) = _
  rw [Nat.mod_eq_of_lt h1, Nat.one_shiftLeft, Nat.mod_eq_of_lt this]

theorem toNat_infinity : (infinity eb mb).toNat = infN eb mb := by
  have := infN_lt (eb := eb) (mb := mb)
  have h : 2 ^ (eb + mb) < 2 ^ (eb + mb + 1) := Nat.pow_lt_pow_right (by omega) (by omega)
  simp only [infinity, BitVec.toNat_ofNat]
  exact Nat.mod_eq_of_lt (Nat.lt_trans this h)

theorem toNat_or_signMask (b : BitVec (eb + mb + 1)) (h : b.toNat < 2 ^ (eb + mb)) :
    (signMask eb mb ||| b).toNat = b.toNat + 2 ^ (eb + mb) := by
  rw [BitVec.toNat_or, toNat_signMask]
  have := Nat.two_pow_add_eq_or_of_lt h 1
  rw [Nat.mul_one] at this
  omega

theorem toNat_negInfinity : (negInfinity eb mb).toNat = infN eb mb + 2 ^ (eb + mb) := by
  rw [negInfinity, toNat_or_signMask, toNat_infinity]
  rw [toNat_infinity]
  exact infN_lt

theorem smag_infinity (heb : 1 ≤ eb) (b : BitVec (eb + mb + 1)) (hb : mag b ≤ infN eb mb) :
    b = infinity eb mb ↔ smag b = infN eb mb := by
  rw [← BitVec.toNat_inj, toNat_infinity, toNat_eq b, smag]
  have h := infN_lt (eb := eb) (mb := mb)
  have hpos : 0 < infN eb mb := by
    have : 2 ≤ 2 ^ eb := by
      have := Nat.pow_le_pow_right (n := 2) (by omega) heb
      omega
    exact Nat.mul_pos (by omega) (Nat.two_pow_pos _)
  cases fSign b <;> simp <;> omega

theorem smag_negInfinity (heb : 1 ≤ eb) (b : BitVec (eb + mb + 1)) (hb : mag b ≤ infN eb mb) :
    b = negInfinity eb mb ↔ smag b = -infN eb mb := by
  rw [← BitVec.toNat_inj, toNat_negInfinity, toNat_eq b, smag]
  have h := infN_lt (eb := eb) (mb := mb)
  have hpos : 0 < infN eb mb := by
    have : 2 ≤ 2 ^ eb := by
      have := Nat.pow_le_pow_right (n := 2) (by omega) heb
      omega
    exact Nat.mul_pos (by omega) (Nat.two_pow_pos _)
  cases fSign b <;> simp <;> omega

theorem infN_pos (heb : 1 ≤ eb) : 0 < infN eb mb := by
  have : 2 ≤ 2 ^ eb := by
    have := Nat.pow_le_pow_right (n := 2) (by omega) heb
    omega
  exact Nat.mul_pos (by omega) (Nat.two_pow_pos _)

theorem abs_eq_zero (b : BitVec (eb + mb + 1)) : b &&& ~~~ signMask eb mb = 0 ↔ mag b = 0 := by
  rw [← BitVec.toNat_inj, toNat_abs]
  simp

theorem eq_abs (b : BitVec (eb + mb + 1)) : b = b &&& ~~~ signMask eb mb ↔ fSign b = false := by
  rw [← BitVec.toNat_inj, toNat_abs, toNat_eq b]
  have := Nat.two_pow_pos (eb + mb)
  cases fSign b <;> simp

theorem ofBits_ok {b : BitVec (eb + mb + 1)} (h : mag b ≤ infN eb mb) :
    ∃ c : NotNan eb mb, ofBits b = .ok c ∧ c.bits = b := by
  have : fIsNan b = false := by
    have := isNan_iff b
    cases hb : fIsNan b
    · rfl
    · rw [hb] at this
      simp at this
      omega
  exact ⟨⟨b, this⟩, by simp [ofBits, this], rfl⟩

theorem toNat_one : (1 : BitVec (eb + mb + 1)).toNat = 1 := by
  have h1 : (1 : Nat) < 2 ^ (eb + mb + 1) := Nat.one_lt_two_pow (by omega)
  show 1 % 2 ^ (eb + mb + 1) = 1
  exact Nat.mod_eq_of_lt h1

theorem one_lt_pow (heb : 1 ≤ eb) : 1 < 2 ^ (eb + mb) := Nat.one_lt_two_pow (by omega)

theorem addOne_ok (heb : 1 ≤ eb) (debug : Bool) (a : NotNan eb mb)
    (h : smag a.bits < infN eb mb) :
    ∃ c, addOne debug a = .ok c ∧ smag c.bits = smag a.bits + 1 := by
  have hpos := infN_pos (mb := mb) heb
  have hlt := infN_lt (eb := eb) (mb := mb)
  have hm := mag_le a
  have hb := toNat_eq a.bits
  have hpow : 2 ^ (eb + mb + 1) = 2 ^ (eb + mb) * 2 := Nat.pow_succ ..
  have key : ∃ b, nextUp debug a.bits = .ok b ∧ mag b ≤ infN eb mb ∧
      smag b = smag a.bits + 1 := by
    unfold nextUp
    rw [if_neg (by rw [smag_infinity heb _ hm]; omega)]
    simp only [abs_eq_zero, eq_abs]
    by_cases h0 : mag a.bits = 0
    · obtain ⟨e1, e2⟩ := of_toNat (eb := eb) (mb := mb) (b := 1) (n := 1) (s := false)
        (by rw [toNat_one]; rfl) (one_lt_pow heb)
      refine ⟨1, by rw [if_pos h0], by omega, ?_⟩
      simp only [smag, e1, e2, h0]
      simp
    · rw [if_neg h0]
      cases hs : fSign a.bits
      · have hs' : smag a.bits = mag a.bits := by simp [smag, hs]
        simp only [hs, Bool.false_eq_true, if_false] at hb
        obtain ⟨c, hc, hn⟩ := UIntW.add_one_ok debug ⟨a.bits⟩ (by simp only; omega)
        obtain ⟨e1, e2⟩ := of_toNat (eb := eb) (mb := mb) (b := c.bits) (n := mag a.bits + 1)
          (s := false) (by simp only [Bool.false_eq_true, if_false]; simp only at hn; omega)
          (by omega)
        refine ⟨c.bits, by simp only [if_true, hc, Except.map], by omega, ?_⟩
        simp [smag, e1, e2, hs]
      · simp only [hs, if_true] at hb
        obtain ⟨c, hc, hn⟩ := UIntW.sub_one_ok debug ⟨a.bits⟩ (by simp only; omega)
        obtain ⟨e1, e2⟩ := of_toNat (eb := eb) (mb := mb) (b := c.bits) (n := mag a.bits - 1)
          (s := true) (by simp only [if_true]; simp only at hn; omega) (by omega)
        refine ⟨c.bits, by simp only [Bool.true_eq_false, if_false, hc, Except.map], by omega, ?_⟩
        simp only [smag, e1, e2, hs, if_true]
        omega
  obtain ⟨b, h1, h2, h3⟩ := key
  obtain ⟨c, hc, rfl⟩ := ofBits_ok h2
  exact ⟨c, by simp [addOne, h1, hc, bind, Except.bind], h3⟩

theorem subOne_ok (heb : 1 ≤ eb) (debug : Bool) (a : NotNan eb mb)
    (h : -(infN eb mb : Int) < smag a.bits) :
    ∃ c, subOne debug a = .ok c ∧ smag c.bits = smag a.bits - 1 := by
  have hpos := infN_pos (mb := mb) heb
  have hlt := infN_lt (eb := eb) (mb := mb)
  have hm := mag_le a
  have hb := toNat_eq a.bits
  have hpow : 2 ^ (eb + mb + 1) = 2 ^ (eb + mb) * 2 := Nat.pow_succ ..
  have key : ∃ b, nextDown debug a.bits = .ok b ∧ mag b ≤ infN eb mb ∧
      smag b = smag a.bits - 1 := by
    unfold nextDown
    rw [if_neg (by rw [smag_negInfinity heb _ hm]; omega)]
    simp only [abs_eq_zero, eq_abs]
    by_cases h0 : mag a.bits = 0
    · obtain ⟨e1, e2⟩ := of_toNat (eb := eb) (mb := mb) (b := signMask eb mb ||| 1) (n := 1)
        (s := true) (by
          rw [toNat_or_signMask, toNat_one]
          · simp
          · rw [toNat_one]; exact one_lt_pow heb) (one_lt_pow heb)
      refine ⟨signMask eb mb ||| 1, by rw [if_pos h0], by omega, ?_⟩
      simp only [smag, e1, e2, h0]
      simp
    · rw [if_neg h0]
      cases hs : fSign a.bits
      · have hs' : smag a.bits = mag a.bits := by simp [smag, hs]
        simp only [hs, Bool.false_eq_true, if_false] at hb
        obtain ⟨c, hc, hn⟩ := UIntW.sub_one_ok debug ⟨a.bits⟩ (by simp only; omega)
        obtain ⟨e1, e2⟩ := of_toNat (eb := eb) (mb := mb) (b := c.bits) (n := mag a.bits - 1)
          (s := false) (by simp only [Bool.false_eq_true, if_false]; simp only at hn; omega)
          (by omega)
        refine ⟨c.bits, by simp only [if_true, hc, Except.map], by omega, ?_⟩
        simp only [smag, e1, e2, hs, Bool.false_eq_true, if_false]
        omega
      · have hs' : smag a.bits = -(mag a.bits : Int) := by simp [smag, hs]
        simp only [hs, if_true] at hb
        obtain ⟨c, hc, hn⟩ := UIntW.add_one_ok debug ⟨a.bits⟩ (by simp only; omega)
        obtain ⟨e1, e2⟩ := of_toNat (eb := eb) (mb := mb) (b := c.bits) (n := mag a.bits + 1)
          (s := true) (by simp only [if_true]; simp only at hn; omega) (by omega)
        refine ⟨c.bits, by simp only [Bool.true_eq_false, if_false, hc, Except.map], by omega, ?_⟩
        simp only [smag, e1, e2, hs, if_true]
        omega
  obtain ⟨b, h1, h2, h3⟩ := key
  obtain ⟨c, hc, rfl⟩ := ofBits_ok h2
  exact ⟨c, by simp [subOne, h1, hc, bind, Except.bind], h3⟩

theorem smag_bounds (a : NotNan eb mb) :
    -(infN eb mb : Int) ≤ smag a.bits ∧ smag a.bits ≤ infN eb mb := by
  have := mag_le a
  unfold smag
  split <;> omega

theorem lawful (heb : 1 ≤ eb) (debug : Bool) : LawfulSteps (steps eb mb debug) where
  addOne a b h := by
    rw [lt_iff heb] at h
    have := smag_bounds b
    obtain ⟨c, h1, h2⟩ := addOne_ok heb debug a (by omega)
    exact ⟨c, h1, by rw [lt_iff heb]; omega,
      fun d hd => by rw [lt_iff heb] at hd; rw [le_iff heb]; omega⟩
  subOne a b h := by
    rw [lt_iff heb] at h
    have := smag_bounds b
    obtain ⟨c, h1, h2⟩ := subOne_ok heb debug a (by omega)
    exact ⟨c, h1, by rw [lt_iff heb]; omega,
      fun d hd => by rw [lt_iff heb] at hd; rw [le_iff heb]; omega⟩

end NotNan
end Verif

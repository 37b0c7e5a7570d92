import Verif.Proof.SetRename
import Verif.Proof.Reach
import Verif.Proof.IReach
import Verif.Proof.Step
import Verif.Props.Demo

/-!
# C61: only the order of the keys and the equality of the values matter

Renaming the keys by any order embedding and the values by any map that respects and reflects `==`
before a history of calls gives the same as renaming the results afterwards.  (Nothing is asked of the
order of the other keys of the second type, except that `<` agrees with `<=`.)  In particular nothing
depends on which integer type (or which other ordered type) the keys have.
-/
set_option linter.unusedSectionVars false

namespace Verif.Props
open Spec
variable {K K' : Type} [LE K] [LT K] [DecidableLE K] [DecidableLT K]
  [Std.IsLinearPreorder K] [Std.LawfulOrderLT K]
  [LE K'] [LT K'] [DecidableLE K'] [DecidableLT K']
  [Std.LawfulOrderLT K'] {V V' : Type} [BEq V] [BEq V']
  {f : K → K'} {g : V → V'}

/-- C61: the renamed history has the renamed entries, and every further call has the same outcome
(returns or panics with the same panic). -/
theorem C61_history (hf : Embeds f) (hg : ∀ a b, (g a == g b) = (a == b))
    (ops : List (Op (Range K) V)) (op : Op (Range K) V) :
    (RangeMap.run (ops.map (.map (mapRange f) g))).iter
      = (RangeMap.run ops).iter.map (Prod.map (mapRange f) g) ∧
    ((RangeMap.run (ops.map (.map (mapRange f) g))).apply (op.map (mapRange f) g)).2
      = ((RangeMap.run ops).apply op).2 := by
  rw [RangeMap.run_rename hf hg, RangeMap.apply_rename hf hg]
  exact ⟨rfl, rfl⟩

/-- C61: lookups. -/
theorem C61_lookup (hf : Embeds f) (hg : ∀ a b, (g a == g b) = (a == b))
    (ops : List (Op (Range K) V)) (k : K) :
    (RangeMap.run (ops.map (.map (mapRange f) g))).get (f k)
      = ((RangeMap.run ops).get k).map (Option.map g) ∧
    (RangeMap.run (ops.map (.map (mapRange f) g))).getKeyValue (f k)
      = ((RangeMap.run ops).getKeyValue k).map (Option.map (Prod.map (mapRange f) g)) := by
  rw [RangeMap.run_rename hf hg]
  exact ⟨RangeMap.get_rename hf _ k, RangeMap.getKeyValue_rename hf _ k⟩

/-- C61: `overlapping`, for any sequence of `next` and `next_back` calls. -/
theorem C61_overlapping (hf : Embeds f) (hg : ∀ a b, (g a == g b) = (a == b))
    (ops : List (Op (Range K) V)) (q : Range K) {o : RangeMap.Overlapping K V}
    (ho : (RangeMap.run ops).overlapping q = .ok o) :
    ∃ o', (RangeMap.run (ops.map (.map (mapRange f) g))).overlapping (mapRange f q) = .ok o' ∧
      ∀ cs, script RangeMap.Overlapping.next RangeMap.Overlapping.nextBack cs o'
        = (script RangeMap.Overlapping.next RangeMap.Overlapping.nextBack cs o).map
            (Option.map (Prod.map (mapRange f) g)) := by
  refine ⟨o.rename f g, ?_, fun cs => script_rename (RangeMap.Overlapping.next_rename hf)
    (RangeMap.Overlapping.nextBack_rename hf) cs o⟩
  rw [RangeMap.run_rename hf hg, RangeMap.overlapping_rename hf, ho]
  rfl

/-- C61: `gaps`, for any number of `next` calls. -/
theorem C61_gaps (hf : Embeds f) (hg : ∀ a b, (g a == g b) = (a == b))
    (ops : List (Op (Range K) V)) (q : Range K) {o : RangeMap.Gaps K V}
    (ho : (RangeMap.run ops).gaps q = .ok o) :
    ∃ o', (RangeMap.run (ops.map (.map (mapRange f) g))).gaps (mapRange f q) = .ok o' ∧
      ∀ n, calls RangeMap.Gaps.next n o'
        = (calls RangeMap.Gaps.next n o).map (Option.map (mapRange f)) := by
  refine ⟨o.rename f g, ?_, fun n => calls_rename (RangeMap.Gaps.next_rename hf) n o⟩
  rw [RangeMap.run_rename hf hg, RangeMap.gaps_rename hf, ho]
  rfl

/-- C61: comparisons of two maps. -/
theorem C61_compare (hf : Embeds f) (hg : ∀ a b, (g a == g b) = (a == b))
    {vcmp : V → V → Ordering} {vcmp' : V' → V' → Ordering}
    (hc : ∀ a b, vcmp' (g a) (g b) = vcmp a b) (ops ops' : List (Op (Range K) V)) :
    (RangeMap.run (ops.map (.map (mapRange f) g))).eq
        (RangeMap.run (ops'.map (.map (mapRange f) g)))
      = (RangeMap.run ops).eq (RangeMap.run ops') ∧
    (RangeMap.run (ops.map (.map (mapRange f) g))).cmp vcmp'
        (RangeMap.run (ops'.map (.map (mapRange f) g)))
      = (RangeMap.run ops).cmp vcmp (RangeMap.run ops') := by
  rw [RangeMap.run_rename hf hg, RangeMap.run_rename hf hg]
  exact ⟨RangeMap.eq_rename hf hg _ _, RangeMap.cmp_rename hf hc _ _⟩

/-- C61: sets: histories, and what `union`/`intersection` and `|`/`&` give. -/
theorem C61_sets (hf : Embeds f) (ops ops' : List (SetOp (Range K))) (op : SetOp (Range K)) :
    (RangeSet.run (ops.map (.map (mapRange f)))).iter
      = (RangeSet.run ops).iter.map (mapRange f) ∧
    ((RangeSet.run (ops.map (.map (mapRange f)))).apply (op.map (mapRange f))).2
      = ((RangeSet.run ops).apply op).2 ∧
    (∀ n, calls Union.next n ((RangeSet.run (ops.map (.map (mapRange f)))).union
          (RangeSet.run (ops'.map (.map (mapRange f)))))
      = (calls Union.next n ((RangeSet.run ops).union (RangeSet.run ops'))).map
          (Option.map (mapRange f))) ∧
    (∀ n, calls Intersection.next n ((RangeSet.run (ops.map (.map (mapRange f)))).intersection
          (RangeSet.run (ops'.map (.map (mapRange f)))))
      = (calls Intersection.next n ((RangeSet.run ops).intersection (RangeSet.run ops'))).map
          (Option.map (mapRange f))) ∧
    ((RangeSet.run (ops.map (.map (mapRange f)))).bitOr
        (RangeSet.run (ops'.map (.map (mapRange f))))).map RangeSet.iter
      = ((RangeSet.run ops).bitOr (RangeSet.run ops')).map (fun s => s.iter.map (mapRange f)) ∧
    ((RangeSet.run (ops.map (.map (mapRange f)))).bitAnd
        (RangeSet.run (ops'.map (.map (mapRange f))))).map RangeSet.iter
      = ((RangeSet.run ops).bitAnd (RangeSet.run ops')).map (fun s => s.iter.map (mapRange f)) := by
  rw [RangeSet.run_rename hf, RangeSet.run_rename hf, RangeSet.apply_rename hf,
    RangeSet.union_rename, RangeSet.intersection_rename, RangeSet.bitOr_rename hf,
    RangeSet.bitAnd_rename hf]
  refine ⟨RangeSet.iter_rename _, rfl, fun n => calls_rename (RangeSet.unionNext_rename hf) n _,
    fun n => calls_rename (RangeSet.intersectionNext_rename hf) n _, ?_, ?_⟩
  · cases (RangeSet.run ops).bitOr (RangeSet.run ops') with
    | error p => rfl
    | ok s => exact congrArg Except.ok (RangeSet.iter_rename s)
  · cases (RangeSet.run ops).bitAnd (RangeSet.run ops') with
    | error p => rfl
    | ok s => exact congrArg Except.ok (RangeSet.iter_rename s)

/-- An order embedding that is not onto: stretch and shift. -/
def stretch (n : Nat) : Nat := 10 * n + 3

theorem stretch_embeds : Embeds stretch := fun a b => by
  show 10 * a + 3 ≤ 10 * b + 3 ↔ a ≤ b
  omega

example :
    (RangeMap.run (Demo.ops.map (.map (mapRange stretch) Char.toNat))).iter
      = [(⟨3, 33⟩, 97), (⟨53, 153⟩, 97), (⟨203, 253⟩, 98), (⟨253, 403⟩, 99)] := by decide +kernel

example : Demo.map.iter.map (Prod.map (mapRange stretch) Char.toNat)
      = [(⟨3, 33⟩, 97), (⟨53, 153⟩, 97), (⟨203, 253⟩, 98), (⟨253, 403⟩, 99)] := by decide +kernel

namespace Inclusive
variable {S : StepFns K} {S' : StepFns K'}

/-- C61, inclusive maps.  The step functions have to correspond, too, but only where they are
specified. -/
theorem C61_history (hf : Embeds f) (hS : StepsMap f S S') (hg : ∀ a b, (g a == g b) = (a == b))
    (ops : List (Op (RangeInclusive K) V)) (op : Op (RangeInclusive K) V) :
    (RangeInclusiveMap.run S' (ops.map (.map (mapIRange f) g))).iter
      = (RangeInclusiveMap.run S ops).iter.map (Prod.map (mapIRange f) g) ∧
    ((RangeInclusiveMap.run S' (ops.map (.map (mapIRange f) g))).apply S'
        (op.map (mapIRange f) g)).2
      = ((RangeInclusiveMap.run S ops).apply S op).2 := by
  rw [RangeInclusiveMap.run_rename hf hS hg, RangeInclusiveMap.apply_rename hf hS hg]
  exact ⟨rfl, rfl⟩

/-- C61: lookups. -/
theorem C61_lookup (hf : Embeds f) (hS : StepsMap f S S') (hg : ∀ a b, (g a == g b) = (a == b))
    (ops : List (Op (RangeInclusive K) V)) (k : K) :
    (RangeInclusiveMap.run S' (ops.map (.map (mapIRange f) g))).get (f k)
      = ((RangeInclusiveMap.run S ops).get k).map (Option.map g) ∧
    (RangeInclusiveMap.run S' (ops.map (.map (mapIRange f) g))).getKeyValue (f k)
      = ((RangeInclusiveMap.run S ops).getKeyValue k).map
          (Option.map (Prod.map (mapIRange f) g)) := by
  rw [RangeInclusiveMap.run_rename hf hS hg]
  exact ⟨RangeInclusiveMap.get_rename hf _ k, RangeInclusiveMap.getKeyValue_rename hf _ k⟩

/-- C61: `overlapping`, for any sequence of `next` and `next_back` calls. -/
theorem C61_overlapping (hf : Embeds f) (hS : StepsMap f S S')
    (hg : ∀ a b, (g a == g b) = (a == b))
    (ops : List (Op (RangeInclusive K) V)) (q : RangeInclusive K)
    {o : RangeInclusiveMap.Overlapping K V}
    (ho : (RangeInclusiveMap.run S ops).overlapping q = .ok o) :
    ∃ o', (RangeInclusiveMap.run S' (ops.map (.map (mapIRange f) g))).overlapping (mapIRange f q)
        = .ok o' ∧
      ∀ cs, script RangeInclusiveMap.Overlapping.next RangeInclusiveMap.Overlapping.nextBack cs o'
        = (script RangeInclusiveMap.Overlapping.next RangeInclusiveMap.Overlapping.nextBack
            cs o).map (Option.map (Prod.map (mapIRange f) g)) := by
  refine ⟨o.rename f g, ?_, fun cs => script_rename (RangeInclusiveMap.Overlapping.next_rename hf)
    (RangeInclusiveMap.Overlapping.nextBack_rename hf) cs o⟩
  rw [RangeInclusiveMap.run_rename hf hS hg, RangeInclusiveMap.overlapping_rename hf, ho]
  rfl

/-- C61: `gaps`, for any number of `next` calls. -/
theorem C61_gaps [PartialEquivBEq V] (hL : LawfulSteps S) (hf : Embeds f) (hS : StepsMap f S S')
    (hg : ∀ a b, (g a == g b) = (a == b))
    (ops : List (Op (RangeInclusive K) V)) (q : RangeInclusive K) {o : RangeInclusiveMap.Gaps K V}
    (ho : (RangeInclusiveMap.run S ops).gaps q = .ok o) :
    ∃ o', (RangeInclusiveMap.run S' (ops.map (.map (mapIRange f) g))).gaps (mapIRange f q)
        = .ok o' ∧
      ∀ n, callsE (RangeInclusiveMap.Gaps.next S') n o'
        = (callsE (RangeInclusiveMap.Gaps.next S) n o).map
            (List.map (Option.map (mapIRange f))) := by
  have hr : RangeInclusiveMap.ReachableAny S (RangeInclusiveMap.run S ops) := ⟨ops, rfl⟩
  refine ⟨o.rename f g, ?_, fun n => RangeInclusiveMap.Gaps.calls_rename hf hS n o
    (RangeInclusiveMap.gaps_guard (hr.sc hL).sep ho)⟩
  rw [RangeInclusiveMap.run_rename hf hS hg, RangeInclusiveMap.gaps_rename hf, ho]
  rfl

/-- C61: comparisons of two maps. -/
theorem C61_compare (hf : Embeds f) (hS : StepsMap f S S') (hg : ∀ a b, (g a == g b) = (a == b))
    {vcmp : V → V → Ordering} {vcmp' : V' → V' → Ordering}
    (hc : ∀ a b, vcmp' (g a) (g b) = vcmp a b) (ops ops' : List (Op (RangeInclusive K) V)) :
    (RangeInclusiveMap.run S' (ops.map (.map (mapIRange f) g))).eq
        (RangeInclusiveMap.run S' (ops'.map (.map (mapIRange f) g)))
      = (RangeInclusiveMap.run S ops).eq (RangeInclusiveMap.run S ops') ∧
    (RangeInclusiveMap.run S' (ops.map (.map (mapIRange f) g))).cmp vcmp'
        (RangeInclusiveMap.run S' (ops'.map (.map (mapIRange f) g)))
      = (RangeInclusiveMap.run S ops).cmp vcmp (RangeInclusiveMap.run S ops') := by
  rw [RangeInclusiveMap.run_rename hf hS hg, RangeInclusiveMap.run_rename hf hS hg]
  exact ⟨RangeInclusiveMap.eq_rename hf hg _ _, RangeInclusiveMap.cmp_rename hf hc _ _⟩

/-- C61: sets: histories, and what `union`/`intersection` and `|`/`&` give. -/
theorem C61_sets (hf : Embeds f) (hS : StepsMap f S S')
    (ops ops' : List (SetOp (RangeInclusive K))) (op : SetOp (RangeInclusive K)) :
    (RangeInclusiveSet.run S' (ops.map (.map (mapIRange f)))).iter
      = (RangeInclusiveSet.run S ops).iter.map (mapIRange f) ∧
    ((RangeInclusiveSet.run S' (ops.map (.map (mapIRange f)))).apply S' (op.map (mapIRange f))).2
      = ((RangeInclusiveSet.run S ops).apply S op).2 ∧
    (∀ n, calls Union.next n ((RangeInclusiveSet.run S' (ops.map (.map (mapIRange f)))).union
          (RangeInclusiveSet.run S' (ops'.map (.map (mapIRange f)))))
      = (calls Union.next n
          ((RangeInclusiveSet.run S ops).union (RangeInclusiveSet.run S ops'))).map
          (Option.map (mapIRange f))) ∧
    (∀ n, calls Intersection.next n
          ((RangeInclusiveSet.run S' (ops.map (.map (mapIRange f)))).intersection
          (RangeInclusiveSet.run S' (ops'.map (.map (mapIRange f)))))
      = (calls Intersection.next n
          ((RangeInclusiveSet.run S ops).intersection (RangeInclusiveSet.run S ops'))).map
          (Option.map (mapIRange f))) ∧
    ((RangeInclusiveSet.run S' (ops.map (.map (mapIRange f)))).bitOr S'
        (RangeInclusiveSet.run S' (ops'.map (.map (mapIRange f))))).map RangeInclusiveSet.iter
      = ((RangeInclusiveSet.run S ops).bitOr S (RangeInclusiveSet.run S ops')).map
          (fun s => s.iter.map (mapIRange f)) ∧
    ((RangeInclusiveSet.run S' (ops.map (.map (mapIRange f)))).bitAnd S'
        (RangeInclusiveSet.run S' (ops'.map (.map (mapIRange f))))).map RangeInclusiveSet.iter
      = ((RangeInclusiveSet.run S ops).bitAnd S (RangeInclusiveSet.run S ops')).map
          (fun s => s.iter.map (mapIRange f)) := by
  rw [RangeInclusiveSet.run_rename hf hS, RangeInclusiveSet.run_rename hf hS,
    RangeInclusiveSet.apply_rename hf hS, RangeInclusiveSet.union_rename,
    RangeInclusiveSet.intersection_rename, RangeInclusiveSet.bitOr_rename hf hS,
    RangeInclusiveSet.bitAnd_rename hf hS]
  refine ⟨RangeInclusiveSet.iter_rename _, rfl,
    fun n => calls_rename (RangeInclusiveSet.unionNext_rename hf) n _,
    fun n => calls_rename (RangeInclusiveSet.intersectionNext_rename hf) n _, ?_, ?_⟩
  · cases (RangeInclusiveSet.run S ops).bitOr S (RangeInclusiveSet.run S ops') with
    | error p => rfl
    | ok s => exact congrArg Except.ok (RangeInclusiveSet.iter_rename s)
  · cases (RangeInclusiveSet.run S ops).bitAnd S (RangeInclusiveSet.run S ops') with
    | error p => rfl
    | ok s => exact congrArg Except.ok (RangeInclusiveSet.iter_rename s)

/-! ### An instance: widening an unsigned integer type -/

/-- Rust `a as uN` into a type that is at least as wide. -/
def widen {w : Nat} (w' : Nat) (a : UIntW w) : UIntW w' := ⟨a.bits.setWidth w'⟩

theorem widen_toNat {w w' : Nat} (h : w ≤ w') (a : UIntW w) :
    (widen w' a).bits.toNat = a.bits.toNat := by
  have := a.bits.isLt
  have := Nat.pow_le_pow_right (show 0 < 2 by omega) h
  simp only [widen, BitVec.toNat_setWidth]
  exact Nat.mod_eq_of_lt (by omega)

theorem UIntW.ext_toNat {w : Nat} {a b : UIntW w} (h : a.bits.toNat = b.bits.toNat) : a = b := by
  obtain ⟨a⟩ := a
  obtain ⟨b⟩ := b
  exact congrArg UIntW.mk (BitVec.eq_of_toNat_eq h)

/-- C61: a `RangeInclusiveMap` over a narrow unsigned type behaves as one over a wider type, in
debug and in release builds, although the step functions differ at the greatest key of the narrow
type. -/
theorem C61_widen {w w' : Nat} (h : w ≤ w') (debug debug' : Bool) :
    Embeds (widen (w := w) w') ∧
      StepsMap (widen w') (UIntW.steps w debug) (UIntW.steps w' debug') := by
  have hp := Nat.pow_le_pow_right (show 0 < 2 by omega) h
  refine ⟨fun a b => ?_, fun a b hab => ?_, fun a b hab => ?_⟩
  · rw [UIntW.le_def, UIntW.le_def, widen_toNat h, widen_toNat h]
  · have hab := UIntW.lt_def.1 hab
    have hb := b.bits.isLt
    obtain ⟨c, h1, h2⟩ := UIntW.add_one_ok debug a (by omega)
    obtain ⟨c', h1', h2'⟩ := UIntW.add_one_ok debug' (widen w' a)
      (by rw [widen_toNat h]; omega)
    simp only [UIntW.steps, h1, h1', Except.map]
    exact congrArg Except.ok (UIntW.ext_toNat (by rw [widen_toNat h, h2', h2, widen_toNat h]))
  · have hab := UIntW.lt_def.1 hab
    obtain ⟨c, h1, h2⟩ := UIntW.sub_one_ok debug a (by omega)
    obtain ⟨c', h1', h2'⟩ := UIntW.sub_one_ok debug' (widen w' a)
      (by rw [widen_toNat h]; omega)
    simp only [UIntW.steps, h1, h1', Except.map]
    refine congrArg Except.ok (UIntW.ext_toNat ?_)
    rw [widen_toNat h] at h2' ⊢
    omega

/-- The history of `Demo.imap`, which touches the key 255, replayed over `u16`. -/
example : (RangeInclusiveMap.run (UIntW.steps 16 true)
      (Demo.iops.map (.map (mapIRange (widen 16)) id))).iter
    = Demo.imap.iter.map (Prod.map (mapIRange (widen 16)) id) := by
  have := (C61_history (C61_widen (w := 8) (w' := 16) (by decide) true true).1
    (C61_widen (by decide) true true).2 (g := (id : Char → Char)) (fun _ _ => rfl)
    Demo.iops .clear).1
  rw [this]
  rfl

/-- The step functions do differ at the greatest key of the narrow type. -/
example : (UIntW.steps 8 true).addOne ⟨255⟩ = .error .stepOverflow ∧
    (UIntW.steps 16 true).addOne (widen 16 (⟨255⟩ : UIntW 8)) = .ok ⟨256⟩ := ⟨rfl, rfl⟩

end Inclusive

/-! ### Cases that meet the hypotheses -/

example := C61_history (K := Nat) (V := Char) (f := stretch) (g := Char.toNat) stretch_embeds
    Demo.toNat_same Demo.ops (.insert ⟨2, 22⟩ 'q')

example := C61_lookup (K := Nat) (V := Char) (f := stretch) (g := Char.toNat) stretch_embeds
    Demo.toNat_same Demo.ops 7

example := C61_overlapping (K := Nat) (V := Char) (f := stretch) (g := Char.toNat) stretch_embeds
    Demo.toNat_same Demo.ops ⟨2, 22⟩ rfl

example := C61_gaps (K := Nat) (V := Char) (f := stretch) (g := Char.toNat) stretch_embeds
    Demo.toNat_same Demo.ops ⟨2, 22⟩ rfl

example := C61_compare (K := Nat) (V := Nat) (f := stretch) (g := id) stretch_embeds
    (fun _ _ => rfl) (vcmp := compare) (vcmp' := compare) (fun _ _ => rfl)
    [.insert ⟨2, 9⟩ 1, .insert ⟨7, 12⟩ 2] [.insert ⟨2, 9⟩ 1, .insert ⟨7, 12⟩ 2]

example := C61_sets (K := Nat) (f := stretch) stretch_embeds Demo.sops Demo.sops (.insert ⟨4, 30⟩)

example := Inclusive.C61_lookup (K := UIntW 8) (V := Char) (f := Inclusive.widen 16)
    (g := Char.toNat) (S := Demo.u8) (S' := UIntW.steps 16 true)
    (Inclusive.C61_widen (by decide) true true).1 (Inclusive.C61_widen (by decide) true true).2
    Demo.toNat_same Demo.iops ⟨7⟩

example := Inclusive.C61_overlapping (K := UIntW 8) (V := Char) (f := Inclusive.widen 16)
    (g := Char.toNat) (S := Demo.u8) (S' := UIntW.steps 16 true)
    (Inclusive.C61_widen (by decide) true true).1 (Inclusive.C61_widen (by decide) true true).2
    Demo.toNat_same Demo.iops (Demo.by8 2 22) rfl

example := Inclusive.C61_gaps (K := UIntW 8) (V := Char) (f := Inclusive.widen 16)
    (g := Char.toNat) (S := Demo.u8) (S' := UIntW.steps 16 true) Demo.u8_lawful
    (Inclusive.C61_widen (by decide) true true).1 (Inclusive.C61_widen (by decide) true true).2
    Demo.toNat_same Demo.iops (Demo.by8 2 22) rfl

example := Inclusive.C61_compare (K := UIntW 8) (V := Nat) (f := Inclusive.widen 16) (g := id)
    (S := Demo.u8) (S' := UIntW.steps 16 true) (Inclusive.C61_widen (by decide) true true).1
    (Inclusive.C61_widen (by decide) true true).2 (fun _ _ => rfl) (vcmp := compare)
    (vcmp' := compare) (fun _ _ => rfl) [.insert (Demo.by8 2 9) 1, .insert (Demo.by8 7 12) 2]
    [.insert (Demo.by8 2 9) 1, .insert (Demo.by8 7 12) 2]

example := Inclusive.C61_sets (K := UIntW 8) (f := Inclusive.widen 16) (S := Demo.u8)
    (S' := UIntW.steps 16 true) (Inclusive.C61_widen (by decide) true true).1
    (Inclusive.C61_widen (by decide) true true).2 Demo.isops Demo.isops (.insert (Demo.by8 4 30))

end Verif.Props

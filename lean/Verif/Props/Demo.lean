import Verif.Model.Cmp
import Verif.Model.ICollect
import Verif.Proof.Step
import Verif.Model.Set
import Verif.Model.ISet
import Verif.Model.Tree

/-!
# Concrete types and maps used by the examples beside the property theorems
-/
namespace Verif.Demo

/-- A key type whose `Ord` identifies distinct keys (compares `n`, ignores `tag`), like
`NotNan(-0.0)` and `NotNan(0.0)`. -/
structure TagKey where
  n : Nat
  tag : Bool
  deriving DecidableEq, Repr

instance : LE TagKey := ⟨fun a b => a.n ≤ b.n⟩
instance : LT TagKey := ⟨fun a b => a.n < b.n⟩
instance : DecidableLE TagKey := fun a b => inferInstanceAs (Decidable (a.n ≤ b.n))
instance : DecidableLT TagKey := fun a b => inferInstanceAs (Decidable (a.n < b.n))
instance : Std.IsLinearPreorder TagKey where
  le_refl a := Nat.le_refl a.n
  le_trans a b c := Nat.le_trans (n := a.n) (m := b.n) (k := c.n)
  le_total a b := Nat.le_total a.n b.n
instance : Std.LawfulOrderLT TagKey where
  lt_iff a b := by
    show a.n < b.n ↔ a.n ≤ b.n ∧ ¬ b.n ≤ a.n
    omega

/-- A value type with a non-reflexive `==`, like `f64` with NaN. -/
inductive Flo where
  | nan
  | num (n : Nat)
  deriving DecidableEq, Repr

instance : BEq Flo where
  beq
    | .num a, .num b => a == b
    | _, _ => false
instance : PartialEquivBEq Flo where
  symm {a b} h := by
    cases a <;> cases b <;> simp_all [BEq.beq]
  trans {a b c} h h' := by
    cases a <;> cases b <;> cases c <;> simp_all [BEq.beq]

/-- A history on `RangeMap<u32, char>`-like types, with overlaps, coalescing, a removal, an
`extend`, and an invalid argument. -/
def ops : List (Spec.Op (Range Nat) Char) :=
  [.insert ⟨0, 10⟩ 'a', .insert ⟨20, 30⟩ 'b', .insert ⟨10, 15⟩ 'a', .remove ⟨3, 5⟩,
   .insert ⟨9, 4⟩ 'z', .extend [(⟨25, 40⟩, 'c'), (⟨1, 1⟩, 'z'), (⟨0, 99⟩, 'z')]]

/-- The map this history produces. -/
def map : RangeMap Nat Char :=
  ⟨[(⟨0, 3⟩, 'a'), (⟨5, 15⟩, 'a'), (⟨20, 25⟩, 'b'), (⟨25, 40⟩, 'c')]⟩

theorem map_reachable : RangeMap.Reachable map := ⟨ops, by rfl⟩

/-- A reachable map with tagged keys and NaN values. -/
def oddMap : RangeMap TagKey Flo :=
  RangeMap.run [.insert ⟨⟨0, true⟩, ⟨5, false⟩⟩ .nan, .insert ⟨⟨5, true⟩, ⟨9, true⟩⟩ .nan,
    .insert ⟨⟨9, false⟩, ⟨12, true⟩⟩ (.num 3)]

example : oddMap.btm = [(⟨⟨0, true⟩, ⟨5, false⟩⟩, .nan), (⟨⟨5, true⟩, ⟨9, true⟩⟩, .nan),
    (⟨⟨9, false⟩, ⟨12, true⟩⟩, .num 3)] := by rfl

theorem oddMap_reachable : RangeMap.Reachable oddMap := ⟨_, rfl⟩

/-! ### Inclusive maps -/

/-- `a..=b` over `u8`. -/
def by8 (a b : Nat) : RangeInclusive (UIntW 8) := .mk' ⟨.ofNat 8 a⟩ ⟨.ofNat 8 b⟩

/-- `u8` in a debug build: `add_one(255)` and `sub_one(0)` panic. -/
abbrev u8 : StepFns (UIntW 8) := UIntW.steps 8 true

theorem u8_lawful : Spec.LawfulSteps u8 := UIntW.lawful 8 true

/-- A history on `RangeInclusiveMap<u8, char>` that touches both ends of the key domain. -/
def iops : List (Spec.Op (RangeInclusive (UIntW 8)) Char) :=
  [.insert (by8 0 9) 'a', .insert (by8 20 255) 'b', .insert (by8 10 15) 'a', .remove (by8 3 4),
   .insert (by8 9 4) 'z', .extend [(by8 25 255, 'c'), (by8 2 1, 'z'), (by8 0 99, 'z')]]

/-- The map this history produces. -/
def imap : RangeInclusiveMap (UIntW 8) Char :=
  ⟨[(by8 0 2, 'a'), (by8 5 15, 'a'), (by8 20 24, 'b'), (by8 25 255, 'c')]⟩

theorem imap_reachable : RangeInclusiveMap.Reachable u8 imap := ⟨iops, by decide, by rfl⟩

/-- Step functions of `TagKey` (an infinite domain with a least element), choosing
representatives arbitrarily; `sub_one` panics at the least key. -/
def tagSteps : StepFns TagKey where
  addOne a := .ok ⟨a.n + 1, !a.tag⟩
  subOne a := if a.n = 0 then .error .stepOverflow else .ok ⟨a.n - 1, true⟩

theorem tagSteps_lawful : Spec.LawfulSteps tagSteps where
  addOne a b h := ⟨_, rfl, Nat.lt_succ_self a.n, fun d (hd : a.n < d.n) => hd⟩
  subOne a b h := by
    have h : b.n < a.n := h
    refine ⟨⟨a.n - 1, true⟩, ?_, ?_, fun d hd => ?_⟩
    · have : a.n ≠ 0 := by omega
      simp [tagSteps, this]
    · show a.n - 1 < a.n
      omega
    · have hd : a.n - 1 < d.n := hd
      show a.n ≤ d.n
      omega

/-- A reachable inclusive map with tagged keys and NaN values. -/
def ioddMap : RangeInclusiveMap TagKey Flo :=
  RangeInclusiveMap.run tagSteps [.insert (.mk' ⟨0, true⟩ ⟨4, false⟩) .nan,
    .insert (.mk' ⟨5, true⟩ ⟨8, true⟩) .nan, .insert (.mk' ⟨9, false⟩ ⟨11, true⟩) (.num 3)]

theorem ioddMap_reachable : RangeInclusiveMap.Reachable tagSteps ioddMap :=
  ⟨_, by decide, rfl⟩

/-! ### Sets -/

def sops : List (Spec.SetOp (Range Nat)) :=
  [.insert ⟨0, 10⟩, .insert ⟨20, 30⟩, .insert ⟨10, 15⟩, .remove ⟨3, 5⟩, .insert ⟨9, 4⟩,
   .extend [⟨29, 40⟩, ⟨1, 1⟩, ⟨0, 99⟩]]

/-- The set this history produces. -/
def set : RangeSet Nat := ⟨⟨[(⟨0, 3⟩, ()), (⟨5, 15⟩, ()), (⟨20, 40⟩, ())]⟩⟩

theorem set_reachable : RangeSet.Reachable set := ⟨sops, by rfl⟩

/-- Another one, overlapping, touching and nested in `set`. -/
def set' : RangeSet Nat := ⟨⟨[(⟨1, 4⟩, ()), (⟨15, 20⟩, ()), (⟨22, 24⟩, ()), (⟨39, 50⟩, ())]⟩⟩

theorem set'_reachable : RangeSet.Reachable set' :=
  ⟨[.extend [⟨39, 50⟩, ⟨22, 24⟩, ⟨1, 4⟩, ⟨15, 20⟩]], by rfl⟩

def isops : List (Spec.SetOp (RangeInclusive (UIntW 8))) :=
  [.insert (by8 0 9), .insert (by8 20 29), .insert (by8 10 14), .remove (by8 3 4),
   .insert (by8 9 4), .extend [by8 29 255, by8 2 1, by8 0 99]]

/-- The inclusive set this history produces. -/
def iset : RangeInclusiveSet (UIntW 8) := ⟨⟨[(by8 0 2, ()), (by8 5 14, ()), (by8 20 255, ())]⟩⟩

theorem iset_reachable : RangeInclusiveSet.Reachable u8 iset := ⟨isops, by decide, by rfl⟩

/-- Another one, overlapping, adjacent to and nested in `iset`. -/
def iset' : RangeInclusiveSet (UIntW 8) :=
  ⟨⟨[(by8 1 3, ()), (by8 15 19, ()), (by8 22 23, ()), (by8 39 49, ())]⟩⟩

theorem iset'_reachable : RangeInclusiveSet.Reachable u8 iset' :=
  ⟨[.extend [by8 39 49, by8 22 23, by8 1 3, by8 15 19]], by decide, by rfl⟩

/-! ### More of them -/

/-- The keys of `u8` are equal if they compare as equal. -/
theorem u8_antisymm (a b : UIntW 8) (h1 : a ≤ b) (h2 : b ≤ a) : a = b := by
  rw [UIntW.le_def] at h1 h2
  cases a; cases b
  exact congrArg UIntW.mk (BitVec.eq_of_toNat_eq (Nat.le_antisymm h1 h2))

/-- Another map. -/
def map' : RangeMap Nat Char := RangeMap.run [.insert ⟨2, 7⟩ 'x', .insert ⟨30, 50⟩ 'y']

theorem map'_reachable : RangeMap.Reachable map' := ⟨_, rfl⟩

/-- Another inclusive map. -/
def imap' : RangeInclusiveMap (UIntW 8) Char :=
  RangeInclusiveMap.run u8 [.insert (by8 2 7) 'x', .insert (by8 30 50) 'y']

theorem imap'_reachable : RangeInclusiveMap.Reachable u8 imap' := ⟨_, by decide, rfl⟩

/-- Items for `extend`. -/
def items : List (Range Nat × Char) := [(⟨8, 22⟩, 'x'), (⟨4, 9⟩, 'y'), (⟨50, 60⟩, 'z')]

/-- Items for `extend`. -/
def iitems : List (RangeInclusive (UIntW 8) × Char) :=
  [(by8 8 22, 'x'), (by8 4 9, 'y'), (by8 50 60, 'z')]

/-- The entries of `map` in a tree. -/
def tree : Tree (Range Nat × Char) :=
  .node (.node .nil (⟨0, 3⟩, 'a') .nil) (⟨5, 15⟩, 'a')
    (.node .nil (⟨20, 25⟩, 'b') (.node .nil (⟨25, 40⟩, 'c') .nil))

theorem tree_toList : tree.toList = map.iter := rfl

/-- The entries of `imap` in a tree. -/
def itree : Tree (RangeInclusive (UIntW 8) × Char) :=
  .node (.node .nil (by8 0 2, 'a') .nil) (by8 5 15, 'a')
    (.node .nil (by8 20 24, 'b') (.node .nil (by8 25 255, 'c') .nil))

theorem itree_toList : itree.toList = imap.iter := rfl

/-- A tree that is never rebalanced. -/
def still {E : Type} : Tree.Shapes E := ⟨fun _ t => t, fun _ _ => rfl⟩

/-- Every key of `u8`. -/
def keys8 : List (UIntW 8) := (List.range 256).map fun n => ⟨.ofNat 8 n⟩

theorem forall8 {P : UIntW 8 → Prop} (h : ∀ k ∈ keys8, P k) (k : UIntW 8) : P k :=
  h k (List.mem_map.2 ⟨k.bits.toNat, List.mem_range.2 k.bits.isLt, by simp⟩)

/-- A call that returns. -/
theorem returns {α : Type} {x : Except Panic α} (h : x.toOption.isSome = true) : ∃ y, x = .ok y := by
  cases x with
  | error => cases h
  | ok => exact ⟨_, rfl⟩

/-- A call that returns what it is seen to return. -/
theorem ok_of {α : Type} {x : Except Panic α} {y : α} (h : x.toOption = some y) : x = .ok y := by
  cases x with
  | error => cases h
  | ok => exact congrArg _ (Option.some.inj h)

/-- Characters with the same number are the same. -/
theorem toNat_same (a b : Char) : (a.toNat == b.toNat) = (a == b) := by
  rw [Bool.eq_iff_iff, beq_iff_eq, beq_iff_eq]
  exact ⟨fun h => Char.toNat_inj.1 h, congrArg _⟩

/-- The number of a tagged key tells what the key is up to comparisons. -/
theorem tag_prefixFree :
    Spec.PrefixFree (fun a b : TagKey => keq a b = true) (fun k => [k.n]) := by
  intro a b x y h
  obtain ⟨h1, h2⟩ := List.cons.inj h
  exact ⟨Bool.and_eq_true_iff.2 ⟨decide_eq_true (Nat.le_of_eq h1),
    decide_eq_true (Nat.le_of_eq h1.symm)⟩, h2⟩

/-- A number tells what it is. -/
theorem num_prefixFree : Spec.PrefixFree (fun a b : Nat => (a == b) = true) (fun v => [v]) := by
  intro a b x y h
  obtain ⟨h1, h2⟩ := List.cons.inj h
  exact ⟨beq_iff_eq.2 h1, h2⟩

end Verif.Demo

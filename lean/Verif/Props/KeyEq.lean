import Verif.Model.KeyEq
import Verif.Props.Map
import Verif.Props.IMap

/-!
# An independent `==` on the keys (C86)
-/
set_option linter.unusedSectionVars false
set_option linter.unusedSimpArgs false
namespace Verif.Props
open Spec RangeMap

section
variable {K : Type} [LE K] [LT K] [DecidableLE K] [DecidableLT K]
  [Std.IsLinearPreorder K] [Std.LawfulOrderLT K] {V : Type} [BEq V] {E : K → K → Bool}

/-- **C86** It is enough that, of two keys `a ≤ b` in the order, `a == b` exactly if also `b ≤ a`:
then `insert` does what it does in the other properties, on whatever map and with whatever value. -/
theorem C86_sufficient (hE : ∀ a b : K, a ≤ b → (E a b = true ↔ b ≤ a)) (fuel : Nat)
    (m : RangeMap K V) (r : Range K) (v : V) : m.insertFuelE E fuel r v = m.insertFuel fuel r v :=
    by
  have hloop : ∀ hi fuel (m : List (Range K × V)) n, hi ≤ n.stop →
      insertLoopE E hi v fuel m n = insertLoop hi v fuel m n := by
    intro hi fuel
    induction fuel with
    | zero => intro m n _; rfl
    | succ f ih =>
      intro m n hn
      unfold insertLoopE insertLoop
      by_cases hr : n.start ≤ hi
      · rw [BTreeMap.range_ok (by simp only [Bound.invalid]; grind)]
        simp only [bind, Except.bind, pure, Except.pure, Bound.admitsAsLower, Bound.admitsAsUpper]
        cases hx : (m.filter fun e =>
            decide (n.start ≤ e.1.start) && decide (e.1.start ≤ hi)).head? with
        | none => rfl
        | some x =>
          have hx := List.mem_of_head? hx
          simp only [List.mem_filter, Bool.and_eq_true, decide_eq_true_eq] at hx
          have he : E x.1.start n.stop = keq x.1.start n.stop := by
            have h1 := hE x.1.start n.stop (by grind)
            have h2 : keq x.1.start n.stop = true ↔ n.stop ≤ x.1.start := by rw [keq_iff]; grind
            rw [Bool.eq_iff_iff, h1, h2]
          simp only [he]
          have hst : hi ≤ (adjustTouchingRangesForInsert m x.1 x.2 n v).2.stop := by
            unfold adjustTouchingRangesForInsert
            split
            · rw [le_rmax]; exact .inl hn
            · split <;> exact hn
          rw [ih _ _ hst]
      · have : BTreeMap.range Range.start (.included n.start) (.included hi) m =
            .error .btreeRange := if_pos (by simp only [Bound.invalid, decide_eq_true_eq]; grind)
        rw [this]
        rfl
  unfold insertFuelE insertFuel
  by_cases hr : r.start < r.stop
  · simp only [hr, not_true, if_false, bind, Except.bind, pure, Except.pure]
    cases insertPrefix m.btm r v with
    | error p => rfl
    | ok p => simp only [hloop p.2.stop fuel p.1 p.2 (by grind)]
  · simp [hr, bind, Except.bind, throw, throwThe, MonadExceptOf.throw]

theorem insertE_into_empty {a b : K} (h : a < b) (v : V) (fuel : Nat) :
    (new : RangeMap K V).insertFuelE E (fuel + 1) ⟨a, b⟩ v = .ok ⟨[(⟨a, b⟩, v)]⟩ := by
  have h1 : ¬ b < a := by grind
  simp [insertFuelE, insertPrefix, insertLoopE, BTreeMap.range, new, BTreeMap.insert, h, h1, bind,
    Except.bind, pure, Except.pure, Bound.invalid]

theorem insertPrefix_before {x y w z : K} (hxy : x < y) (a b : V) :
    insertPrefix [((⟨y, z⟩ : Range K), a)] ⟨x, w⟩ b = .ok ([(⟨y, z⟩, a)], ⟨x, w⟩) := by
  have h1 : ¬ y ≤ x := by grind
  simp [insertPrefix, BTreeMap.range, Bound.invalid, bind, Except.bind, pure, Except.pure,
    Bound.admitsAsLower, Bound.admitsAsUpper, h1]

/-- **C86** If two keys that are equal in the order are not `==`, `insert` may never return: with
`a` stored at `y..z`, inserting `b` at `x..y'` runs forever. -/
theorem C86_hangs {x y y' z : K} (hxy : x < y) (hy : y ≤ y' ∧ y' ≤ y) (hyz : y < z) {a b : V}
    (heq : (a == b) = false) (hE : E y y' = false) :
    ∃ m : RangeMap K V, (new : RangeMap K V).insertFuelE E 1 ⟨y, z⟩ a = .ok m ∧
      ∀ fuel, m.insertFuelE E fuel ⟨x, y'⟩ b = .error .diverge := by
  refine ⟨_, insertE_into_empty hyz a 0, fun fuel => ?_⟩
  have hloop : ∀ fuel, insertLoopE E y' b fuel [((⟨y, z⟩ : Range K), a)] ⟨x, y'⟩ =
      .error .diverge := by
    intro fuel
    induction fuel with
    | zero => rfl
    | succ n ih =>
      have h1 : x ≤ y := by grind
      have h2 : ¬ y' < x := by grind
      have h4 : Range.overlaps (⟨x, y'⟩ : Range K) ⟨y, z⟩ = false := by
        simp only [Range.overlaps, decide_eq_false_iff_not, lt_rmin, rmax_lt]; grind
      unfold insertLoopE
      simp [BTreeMap.range, Bound.invalid, bind, Except.bind, pure, Except.pure,
        Bound.admitsAsLower, Bound.admitsAsUpper, h1, h2, hy.1, hE,
        adjustTouchingRangesForInsert, heq, h4, ih]
  have h1 : x < y' := by grind
  simp [insertFuelE, insertPrefix_before hxy, h1, hloop, bind, Except.bind]

/-- **C86** If a key is `==` to a greater one, `insert` may leave overlapping ranges: with `a`
stored at `y..z`, inserting `b` at `x..w` does not cut the old range, and the key `y` keeps its old
value. -/
theorem C86_corrupts {x y w z : K} (hxy : x < y) (hyw : y < w) (hyz : y < z) {a b : V}
    (heq : (a == b) = false) (hE : E y w = true) :
    ∃ m m' : RangeMap K V, (new : RangeMap K V).insertFuelE E 1 ⟨y, z⟩ a = .ok m ∧
      (∀ fuel, m.insertFuelE E (fuel + 1) ⟨x, w⟩ b = .ok m') ∧
      m'.iter = [(⟨x, w⟩, b), (⟨y, z⟩, a)] ∧ m'.get y = .ok (some a) := by
  refine ⟨_, ⟨[(⟨x, w⟩, b), (⟨y, z⟩, a)]⟩, insertE_into_empty hyz a 0, fun fuel => ?_, rfl, ?_⟩
  · have h1 : x ≤ y := by grind
    have h2 : ¬ w < x := by grind
    have h3 : y ≤ w := by grind
    have h4 : x < w := by grind
    have hloop : insertLoopE E w b (fuel + 1) [((⟨y, z⟩ : Range K), a)] ⟨x, w⟩ =
        .ok ([(⟨y, z⟩, a)], ⟨x, w⟩) := by
      unfold insertLoopE
      simp [BTreeMap.range, Bound.invalid, bind, Except.bind, pure, Except.pure,
        Bound.admitsAsLower, Bound.admitsAsUpper, h1, h2, h3, hE, heq]
    simp [insertFuelE, insertPrefix_before hxy, h4, hloop, bind, Except.bind, pure, Except.pure,
      BTreeMap.insert, hxy]
  · have h1 : x ≤ y := by grind
    have h2 : y ≤ y := by grind
    simp [RangeMap.get, getKeyValue, BTreeMap.range, Bound.invalid, Bound.admitsAsLower,
      Bound.admitsAsUpper,
      h1, h2, hyz, Range.contains, bind, Except.bind, pure, Except.pure]

/-- **C86** Where every key has a smaller and a greater one, and some two values are not `==`, the
condition is also necessary. -/
theorem C86_iff [PartialEquivBEq V] (hlo : ∀ y : K, ∃ x, x < y) (hhi : ∀ y : K, ∃ z, y < z)
    {a b : V}
    (heq : (a == b) = false) :
    (∀ k l : K, k ≤ l → (E k l = true ↔ l ≤ k)) ↔
      ∀ m : RangeMap K V, Reachable m → ∀ fuel r v, m.insertFuelE E fuel r v = m.insertFuel fuel r
        v := by
  refine ⟨fun h m _ fuel r v => C86_sufficient h fuel m r v, fun h k l hkl => ?_⟩
  obtain ⟨x, hx⟩ := hlo k
  obtain ⟨z, hz⟩ := hhi k
  have hone : ∀ m : RangeMap K V, (new : RangeMap K V).insertFuelE E 1 ⟨k, z⟩ a = .ok m →
    Reachable m := by
    intro m hm
    rw [insertE_into_empty hz a 0] at hm
    refine Reachable.insert (m := new) ⟨[], rfl⟩ (r := ⟨k, z⟩) (v := a) ?_
    rw [← hm, ← insertE_into_empty (E := E) hz a 1]
    exact (h new ⟨[], rfl⟩ 2 _ _).symm
  constructor
  · intro he
    refine Classical.byContradiction fun hlk => ?_
    have hlt : k < l := by grind
    obtain ⟨m, m', h1, h2, h3, h4⟩ := C86_corrupts hx hlt hz heq he
    have hm := hone m h1
    have h5 := h2 (m.len + 1)
    rw [h m hm] at h5
    have := (C04_sorted_disjoint (hm.insert h5)).2
    rw [h3] at this
    have := (List.pairwise_cons.1 this).1 (⟨k, z⟩, a) (by simp)
    simp only at this
    grind
  · intro hlk
    cases he : E k l with
    | true => rfl
    | false =>
      obtain ⟨m, h1, h2⟩ := C86_hangs hx ⟨hkl, hlk⟩ hz heq he
      have hm := hone m h1
      have h3 := h2 (m.len + 2)
      rw [h m hm] at h3
      exact absurd h3 (C08_insert_terminates hm _ _ _ (Nat.le_refl _)).2

end

/-! Examples. -/

-- `==` compares in the order: the other properties hold
example (fuel : Nat) (m : RangeMap Int String) (r : Range Int) (v : String) :
    m.insertFuelE (fun a b => a == b) fuel r v = m.insertFuel fuel r v :=
  C86_sufficient (fun a b h => by rw [beq_iff_eq]; omega) fuel m r v
-- ... or is nonsense, but only for keys the other way round
example (fuel : Nat) (m : RangeMap Int String) (r : Range Int) (v : String) :
    m.insertFuelE (fun a b => decide (b ≤ a)) fuel r v = m.insertFuel fuel r v :=
  C86_sufficient (fun a b h => by simp) fuel m r v
-- a float type ordered by `total_cmp` whose `==` is that of `f64`: a key that is not `==` to itself
example : ∃ m : RangeMap Nat Bool, (new : RangeMap Nat Bool).insertFuelE (fun _ _ => false) 1
    ⟨5, 9⟩ true =
    .ok m ∧ ∀ fuel, m.insertFuelE (fun _ _ => false) fuel ⟨0, 5⟩ false = .error .diverge :=
  C86_hangs (by decide) (by decide) (by decide) rfl rfl
-- ... and one where `-0.0 == 0.0` although `-0.0 < 0.0` (here 5 and 6)
example : ∃ m m' : RangeMap Nat Bool,
    (new : RangeMap Nat Bool).insertFuelE (fun a b => a == b || (a == 5 && b == 6)) 1 ⟨5, 9⟩ true =
      .ok m ∧
    (∀ fuel, m.insertFuelE (fun a b => a == b || (a == 5 && b == 6)) (fuel + 1) ⟨0, 6⟩ false =
      .ok m') ∧ m'.iter = [(⟨0, 6⟩, false), (⟨5, 9⟩, true)] ∧ m'.get 5 = .ok (some true) :=
  C86_corrupts (by decide) (by decide) (by decide) rfl rfl
-- the hypotheses of `C86_iff`
example (E : Int → Int → Bool) := C86_iff (E := E) (V := Bool) (a := true) (b := false)
  (fun y => ⟨y - 1, by omega⟩) (fun y => ⟨y + 1, by omega⟩) rfl

namespace Inclusive
open RangeInclusiveMap

section
variable {K : Type} [LE K] [LT K] [DecidableLE K] [DecidableLT K]
  [Std.IsLinearPreorder K] [Std.LawfulOrderLT K] {V : Type} [BEq V] {E : K → K → Bool}
    {S : StepFns K}

/-- **C86** It is enough that every key is `==` to what `add_one` makes of the one before it; what
`==` says of keys that differ in the order does not matter. -/
theorem C86_sufficient (hS : LawfulSteps S)
    (hE : ∀ w y c : K, Next w y → S.addOne w = .ok c → E y c = true) (fuel : Nat)
    (m : RangeInclusiveMap K V) (r : RangeInclusive K) (v : V) :
    m.insertFuelE E S fuel r v = m.insertFuel S fuel r v := by
  have hbr : ∀ hi x, breakCondE E S hi v x = breakCond S hi v x := by
    intro hi x
    unfold breakCondE breakCond
    by_cases h : hi < x.1.start
    · simp only [h, if_true, bind, Except.bind, pure, Except.pure]
      obtain ⟨c, hc, hn⟩ := hS.addOne _ _ h
      simp only [hc]
      by_cases h1 : c < x.1.start
      · simp [h1]
      · have h2 := hn.2 _ h
        have h3 : E x.1.start c = true :=
          hE hi _ c ⟨h, fun k hk => by have := hn.2 k hk; grind⟩ hc
        have h4 : keq x.1.start c = true := keq_iff.2 (by grind)
        simp only [h1, h3, h4]
    · simp [h]
  have hloop : ∀ hi fuel (m : List (RangeInclusive K × V)) n,
      RangeInclusiveMap.insertLoopE E S hi v fuel m n =
        RangeInclusiveMap.insertLoop S hi v fuel m n := by
    intro hi fuel
    induction fuel with
    | zero => intro m n; rfl
    | succ f ih =>
      intro m n
      unfold RangeInclusiveMap.insertLoopE RangeInclusiveMap.insertLoop
      simp only [hbr, ih]
      rfl
  simp only [RangeInclusiveMap.insertFuelE, RangeInclusiveMap.insertFuel, hloop]

theorem insertE_into_empty {y z : K} (h : y ≤ z) (v : V) (fuel : Nat) :
    (RangeInclusiveMap.new : RangeInclusiveMap K V).insertFuelE E S (fuel + 1) (.mk' y z) v =
      .ok ⟨[(.mk' y z, v)]⟩ := by
  simp [RangeInclusiveMap.insertFuelE, RangeInclusiveMap.insertPrefix,
    RangeInclusiveMap.insertLoopE,
    BTreeMap.range, RangeInclusiveMap.new, BTreeMap.insert, h, bind, filterE,
    Except.bind, pure, Except.pure, Bound.invalid]

/-- **C86** If a key `y` is not `==` to what `add_one` makes of the key `w` before it, `insert` may
never return: with `a` stored at `y..=z`, inserting `b` at `x..=w` runs forever. -/
theorem C86_hangs {x w y c z : K} (hxw : x ≤ w) (hwy : w < y) (hc : S.addOne w = .ok c)
    (hcy : y ≤ c) (hyz : y ≤ z) {a b : V} (heq : (a == b) = false) (hE : E y c = false) :
    ∃ m : RangeInclusiveMap K V,
      (RangeInclusiveMap.new : RangeInclusiveMap K V).insertFuelE E S 1 (.mk' y z) a = .ok m ∧
      ∀ fuel, m.insertFuelE E S fuel (.mk' x w) b = .error .diverge := by
  refine ⟨_, insertE_into_empty hyz a 0, fun fuel => ?_⟩
  have hloop : ∀ fuel, RangeInclusiveMap.insertLoopE E S w b fuel [(.mk' y z, a)] (.mk' x w) =
      .error .diverge := by
    intro fuel
    induction fuel with
    | zero => rfl
    | succ n ih =>
      have h1 : x ≤ y := by grind
      have h2 : ¬ c < y := by grind
      have h4 : (RangeInclusive.mk' x w).overlaps (.mk' y z) = false := by
        refine decide_eq_false ?_
        simp only [RangeInclusive.mk', le_rmin, rmax_le]; grind
      unfold RangeInclusiveMap.insertLoopE
      simp only [RangeInclusive.mk'] at h4 ih
      simp [BTreeMap.range, Bound.invalid, bind, Except.bind, pure, Except.pure, RangeInclusive.mk',
        Bound.admitsAsLower, Bound.admitsAsUpper, h1, h2, hc, hwy, breakCondE, hE,
        RangeInclusiveMap.adjustTouchingRangesForInsert, heq, h4, ih]
  have h1 : ¬ y ≤ x := by grind
  simp [RangeInclusiveMap.insertFuelE, RangeInclusiveMap.insertPrefix, BTreeMap.range,
    Bound.invalid,
    bind, Except.bind, pure, Except.pure, filterE, Bound.admitsAsLower, Bound.admitsAsUpper, h1,
      hxw,
    hloop]

/-- **C86** If some two values are not `==`, the condition is also necessary. -/
theorem C86_iff [PartialEquivBEq V] (hS : LawfulSteps S) {a b : V} (heq : (a == b) = false) :
    (∀ w y c : K, Next w y → S.addOne w = .ok c → E y c = true) ↔
      ∀ m : RangeInclusiveMap K V, RangeInclusiveMap.Reachable S m → ∀ fuel r v,
        m.insertFuelE E S fuel r v = m.insertFuel S fuel r v := by
  refine ⟨fun h m _ fuel r v => C86_sufficient hS h fuel m r v, fun h w y c hwy hc => ?_⟩
  cases he : E y c with
  | true => rfl
  | false =>
    obtain ⟨d, hd, hdn⟩ := hS.addOne _ _ hwy.1
    cases Except.ok.inj (hc.symm.trans hd)
    obtain ⟨m, h1, h2⟩ := C86_hangs (x := w) (z := y) (by grind) hwy.1 hc (hwy.2 c hdn.1) (by grind)
      heq he
    have hnew : RangeInclusiveMap.Reachable S (RangeInclusiveMap.new : RangeInclusiveMap K V) :=
      ⟨[], by simp, rfl⟩
    have hm : RangeInclusiveMap.Reachable S m := by
      rw [insertE_into_empty (by grind) a 0] at h1
      refine RangeInclusiveMap.Reachable.insert hnew (r := .mk' y y) (v := a) rfl ?_
      rw [← h1, ← insertE_into_empty (E := E) (S := S) (show y ≤ y by grind) a 1]
      exact (h _ hnew 2 _ _).symm
    have h3 := h2 (m.len + 2)
    rw [h m hm] at h3
    exact absurd h3 (C29_insert_terminates hS hm.any _ _ _ (Nat.le_refl _)).2

end

-- keys with a payload: `==` compares the payload too, and `add_one` makes a fresh one
example : ∃ m : RangeInclusiveMap (UIntW 8) Bool,
    (RangeInclusiveMap.new : RangeInclusiveMap (UIntW 8) Bool).insertFuelE (fun _ _ => false)
    Demo.u8 1
      (.mk' ⟨5⟩ ⟨9⟩) true = .ok m ∧
    ∀ fuel, m.insertFuelE (fun _ _ => false) Demo.u8 fuel (.mk' ⟨0⟩ ⟨4⟩) false = .error .diverge :=
  C86_hangs (c := ⟨5⟩) (by decide) (by decide) rfl (by decide) (by decide) rfl rfl
-- a `==` that always says yes does no harm here
example (fuel : Nat) (m : RangeInclusiveMap (UIntW 8) Bool) (r : RangeInclusive (UIntW 8))
    (v : Bool) :
    m.insertFuelE (fun _ _ => true) Demo.u8 fuel r v = m.insertFuel Demo.u8 fuel r v :=
  C86_sufficient Demo.u8_lawful (fun _ _ _ _ _ => rfl) fuel m r v
example (E : UIntW 8 → UIntW 8 → Bool) := C86_iff (E := E) (V := Bool) (a := true) (b := false)
  Demo.u8_lawful rfl

end Inclusive
end Verif.Props

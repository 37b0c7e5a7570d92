import Verif.Proof.NeIMap
import Verif.Props.Demo

/-!
# An independent `!=` (C67)

`PartialEq` asks that `a != b` be the negation of `a == b`, but a type may define `ne` as it likes.
The model of `Model/Ne.lean` has the `!=` of the crate where the crate has it.
-/
set_option linter.unusedSectionVars false
set_option linter.unusedSimpArgs false
namespace Verif.Props
open Spec RangeMap

section
variable {K : Type} [LE K] [LT K] [DecidableLE K] [DecidableLT K]
  [Std.IsLinearPreorder K] [Std.LawfulOrderLT K] {V : Type} [BEq V] [HasNe V]

/-- **C67** If `!=` is the negation of `==`, this is the map of the other properties. -/
theorem C67_negation (h : ∀ a b : V, HasNe.ne a b = !(a == b)) :
    (∀ fuel (m : RangeMap K V) r v, insertFuelNe fuel m r v = insertFuel fuel m r v) ∧
    ∀ ops : List (Op (Range K) V), runNe ops = run ops := by
  have h1 : ∀ hi fuel (v : V) (m : List (Range K × V)) n,
      insertLoopNe hi v fuel m n = insertLoop hi v fuel m n := by
    intro hi fuel v
    induction fuel with
    | zero => intro m n; rfl
    | succ f ih => intro m n; unfold insertLoopNe insertLoop; simp only [h, ih]; rfl
  have h2 : ∀ fuel (m : RangeMap K V) r v, insertFuelNe fuel m r v = insertFuel fuel m r v := by
    intro fuel m r v; simp only [insertFuelNe, insertFuel, h1]
  have h3 : ∀ (items : List (Range K × V)) (m : RangeMap K V), m.extendNe items = m.extend items := by
    intro items
    induction items with
    | nil => intro m; rfl
    | cons e t ih =>
      intro m
      simp only [extendNe, RangeMap.extend, insertNe, RangeMap.insert, h2, ih]; rfl
  have h4 : ∀ (m : RangeMap K V) op, m.applyNe op = m.apply op := by
    intro m op
    cases op <;> simp only [applyNe, RangeMap.apply, insertNe, RangeMap.insert, h2, h3] <;> rfl
  exact ⟨h2, fun ops => by simp only [runNe, run, h4]⟩

section
variable [EqOrNe V]

/-- **C67** `insert` panics exactly on an empty or inverted range, with the assertion, and then leaves
the map alone. -/
theorem C67_panics {m : RangeMap K V} (hm : ReachableNe m) (r : Range K) (v : V) :
    ((∃ p, m.insertNe r v = .error p) ↔ r.stop ≤ r.start) ∧
    (∀ p, m.insertNe r v = .error p → p = .assertFailed ∧ (m.applyNe (.insert r v)).1 = m) := by
  by_cases hr : r.start < r.stop
  · obtain ⟨m', h1, _⟩ := Ne.insert_ok (Ne.reachable_sep hm) v hr
    simp [h1]
    grind
  · simp [Ne.insertNe_invalid hr, applyNe]
    grind

/-- **C67** The loop of `insert` runs at most `len + 1` times. -/
theorem C67_terminates {m : RangeMap K V} (hm : ReachableNe m) (r : Range K) (v : V)
    (fuel : Nat) (hf : m.len + 2 ≤ fuel) :
    insertFuelNe fuel m r v = m.insertNe r v ∧ m.insertNe r v ≠ .error .diverge := by
  refine ⟨?_, fun h => ?_⟩
  · by_cases hr : r.start < r.stop
    · obtain ⟨m', h1, _⟩ := Ne.insert_spec (Ne.reachable_sep hm) v hr
      rw [h1 fuel hf, insertNe, h1 _ (Nat.le_refl _)]
    · rw [Ne.insertNe_invalid hr]
      simp [insertFuelNe, hr, bind, Except.bind, throw, throwThe, MonadExceptOf.throw]
  · have := (C67_panics hm r v).2 _ h
    simp at this

/-- **C67** Entries are non-empty, increasing and disjoint. -/
theorem C67_sorted_disjoint {m : RangeMap K V} (hm : ReachableNe m) :
    (∀ e ∈ m.iter, e.1.start < e.1.stop) ∧
    m.iter.Pairwise (fun a b => a.1.stop ≤ b.1.start) :=
  ⟨(Ne.reachable_sep hm).ne, (Ne.reachable_sep hm).pw.imp fun h => h.2⟩

/-- **C67** After any history, `get k` yields a value exactly if the last operation touching `k` wrote
one, and the two are connected by a chain of `==`. -/
theorem C67_refinement (ops : List (Op (Range K) V)) (k : K) :
    ∃ o, (runNe ops).get k = .ok o ∧ Chained (lastWrite covers valid ops.reverse k) o :=
  ⟨_, get_look (Ne.reachable_sep ⟨ops, rfl⟩) k, Ne.run_look ops k⟩

end

theorem insertNe_into_empty {a b : K} (h : a < b) (v : V) :
    runNe [.insert ⟨a, b⟩ v] = (⟨[(⟨a, b⟩, v)]⟩ : RangeMap K V) := by
  have h1 : ¬ b < a := by grind
  simp [runNe, applyNe, insertNe, insertFuelNe, insertPrefix, insertLoopNe,
    BTreeMap.range, new, BTreeMap.insert, h, h1, bind, Except.bind, pure, Except.pure,
    Bound.invalid, len]

theorem insertPrefix_left {x y z : K} (hxy : x < y) (a b : V) :
    insertPrefix [((⟨y, z⟩ : Range K), a)] ⟨x, y⟩ b = .ok ([(⟨y, z⟩, a)], ⟨x, y⟩) := by
  have h1 : ¬ y ≤ x := by grind
  simp [insertPrefix, BTreeMap.range, Bound.invalid, bind, Except.bind, pure, Except.pure,
    Bound.admitsAsLower, Bound.admitsAsUpper, h1]

/-- **C67** Values that are neither `==` nor `!=` make `insert` run forever: with `a` stored at `y..z`,
inserting `b` at `x..y` never returns. -/
theorem C67_neither_hangs {x y z : K} (hxy : x < y) (hyz : y < z) {a b : V} (heq : (a == b) = false)
    (hne : HasNe.ne a b = false) (fuel : Nat) :
    insertFuelNe fuel (runNe [.insert ⟨y, z⟩ a]) ⟨x, y⟩ b = .error .diverge := by
  rw [insertNe_into_empty hyz]
  have hloop : ∀ fuel, insertLoopNe y b fuel [((⟨y, z⟩ : Range K), a)] ⟨x, y⟩ = .error .diverge := by
    intro fuel
    induction fuel with
    | zero => rfl
    | succ n ih =>
      have h1 : x ≤ y := by grind
      have h2 : ¬ y < x := by grind
      have h3 : y ≤ y := by grind
      have h4 : Range.overlaps (⟨x, y⟩ : Range K) ⟨y, z⟩ = false := by
        simp only [Range.overlaps, decide_eq_false_iff_not, lt_rmin, rmax_lt]; grind
      unfold insertLoopNe
      simp [BTreeMap.range, Bound.invalid, bind, Except.bind, pure, Except.pure,
        Bound.admitsAsLower, Bound.admitsAsUpper, h1, h2, h3, hne, adjustTouchingRangesForInsert, heq, h4, ih]
  simp [insertFuelNe, insertPrefix_left hxy, hxy, hloop, bind, Except.bind]

/-- **C67** Given three keys, `insert` returns after every history exactly if any two values are `==`
or `!=`. -/
theorem C67_returns_iff {x y z : K} (hxy : x < y) (hyz : y < z) :
    EqOrNe V ↔ ∀ (ops : List (Op (Range K) V)) (r : Range K) (v : V),
      ∃ fuel, insertFuelNe fuel (runNe ops) r v ≠ .error .diverge := by
  constructor
  · intro h ops r v
    exact ⟨_, (C67_terminates ⟨ops, rfl⟩ r v _ (Nat.le_refl _)).2⟩
  · intro h
    refine ⟨fun {a b} heq => ?_⟩
    cases hne : HasNe.ne a b with
    | true => rfl
    | false =>
      obtain ⟨fuel, hf⟩ := h [.insert ⟨y, z⟩ a] ⟨x, y⟩ b
      exact absurd (C67_neither_hangs hxy hyz heq hne fuel) hf

/-- **C67** Values that are both `==` and `!=` are not coalesced when the stored one follows the new
one, so canonicality (C06) needs `!=` to be the negation. -/
theorem C67_both_stay_apart {x y z : K} (hxy : x < y) (hyz : y < z) {a b : V}
    (hne : HasNe.ne a b = true) :
    (runNe [.insert ⟨y, z⟩ a, .insert ⟨x, y⟩ b]).iter = [(⟨x, y⟩, b), ((⟨y, z⟩ : Range K), a)] := by
  have h1 : x ≤ y := by grind
  have h2 : ¬ y < x := by grind
  have h3 : y ≤ y := by grind
  have h4 : ¬ y ≤ x := by grind
  have hrun : runNe [.insert ⟨y, z⟩ a, .insert ⟨x, y⟩ b] =
      ((runNe [.insert ⟨y, z⟩ a] : RangeMap K V).applyNe (.insert ⟨x, y⟩ b)).1 := rfl
  have hloop : ∀ n, insertLoopNe y b (n + 1) [((⟨y, z⟩ : Range K), a)] ⟨x, y⟩ =
      .ok ([(⟨y, z⟩, a)], ⟨x, y⟩) := by
    intro n
    unfold insertLoopNe
    simp [BTreeMap.range, Bound.invalid, bind, Except.bind, pure, Except.pure,
      Bound.admitsAsLower, Bound.admitsAsUpper, h1, h2, h3, hne, keq]
  rw [hrun, insertNe_into_empty hyz]
  simp [applyNe, insertNe, insertFuelNe, insertPrefix_left hxy, hxy, hloop, bind, Except.bind, pure,
    Except.pure, BTreeMap.insert, iter, len]

end

/-! Examples: `==` is equality of the first components; `!=` is something else. -/

/-- `!=` is true whenever the pairs differ: `(0, 1)` and `(0, 2)` are both `==` and `!=`. -/
structure BothWays where
  n : Nat × Nat
  deriving DecidableEq, Repr
instance : BEq BothWays := ⟨fun a b => a.n.1 == b.n.1⟩
instance : HasNe BothWays := ⟨fun a b => decide (a.n ≠ b.n)⟩
instance : EqOrNe BothWays := ⟨fun {a b} h => by
  refine decide_eq_true fun h2 => ?_
  have : (a.n.1 == b.n.1) = false := h
  simp [h2] at this⟩

-- the theorems for `[EqOrNe V]` apply; coalescing to the left works, to the right it does not
example : (runNe [.insert ⟨5, 9⟩ ⟨0, 1⟩, .insert ⟨0, 5⟩ ⟨0, 2⟩, .insert ⟨9, 12⟩ ⟨0, 3⟩] :
    RangeMap Nat BothWays).btm = [(⟨0, 5⟩, ⟨0, 2⟩), (⟨5, 12⟩, ⟨0, 3⟩)] := by rfl
example : ((runNe [.insert ⟨5, 9⟩ ⟨0, 1⟩, .insert ⟨0, 5⟩ ⟨0, 2⟩, .insert ⟨9, 12⟩ ⟨0, 3⟩] :
    RangeMap Nat BothWays).insertNe ⟨3, 10⟩ ⟨1, 1⟩).toOption.map (·.btm) =
      some [(⟨0, 3⟩, ⟨0, 2⟩), (⟨3, 10⟩, ⟨1, 1⟩), (⟨10, 12⟩, ⟨0, 3⟩)] := by rfl

theorem bothRun : ReachableNe (runNe [.insert ⟨5, 9⟩ ⟨0, 1⟩, .insert ⟨0, 5⟩ ⟨0, 2⟩,
    .insert ⟨9, 12⟩ ⟨0, 3⟩] : RangeMap Nat BothWays) := ⟨_, rfl⟩
example := C67_panics bothRun ⟨3, 10⟩ ⟨1, 1⟩
example := C67_terminates bothRun ⟨3, 10⟩ ⟨1, 1⟩ 4 (by decide)
example := C67_sorted_disjoint bothRun
example := C67_refinement ([.insert ⟨5, 9⟩ ⟨0, 1⟩, .insert ⟨0, 5⟩ ⟨0, 2⟩] : List (Op (Range Nat) BothWays)) 7
example := C67_returns_iff (V := BothWays) (show 0 < 5 by decide) (show 5 < 9 by decide)
-- `(0, 1)` and `(0, 2)` are `==`, but as they are also `!=` they stay apart
example := C67_both_stay_apart (show 0 < 5 by decide) (show 5 < 9 by decide) (a := (⟨0, 1⟩ : BothWays))
  (b := ⟨0, 2⟩) rfl

/-- A `!=` that is the negation of `==`. -/
structure Plain where
  n : Nat
  deriving BEq
instance : HasNe Plain := ⟨fun a b => !(a == b)⟩
example := C67_negation (K := Nat) (V := Plain) (fun _ _ => rfl)

/-- Floats with a `!=` that is `<` or `>`: NaN is neither `==` nor `!=` to anything. -/
structure Float' where
  x : Option Nat
  deriving Repr
instance : BEq Float' := ⟨fun a b => match a.x, b.x with | some a, some b => a == b | _, _ => false⟩
instance : HasNe Float' := ⟨fun a b => match a.x, b.x with
  | some a, some b => decide (a < b) || decide (b < a) | _, _ => false⟩

-- inserting NaN before 1.0 hangs
example (fuel : Nat) : insertFuelNe fuel (runNe [.insert ⟨5, 9⟩ ⟨some 1⟩]) (⟨0, 5⟩ : Range Nat) (⟨none⟩ : Float')
    = .error .diverge :=
  C67_neither_hangs (by decide) (by decide) rfl rfl fuel

namespace Inclusive
open RangeInclusiveMap

section
variable {K : Type} [LE K] [LT K] [DecidableLE K] [DecidableLT K]
  [Std.IsLinearPreorder K] [Std.LawfulOrderLT K] {V : Type} [BEq V] [HasNe V] {S : StepFns K}

/-- **C67** If `!=` is the negation of `==`, this is the map of the other properties. -/
theorem C67_negation (h : ∀ a b : V, HasNe.ne a b = !(a == b)) :
    (∀ fuel (m : RangeInclusiveMap K V) r v,
      RangeInclusiveMap.insertFuelNe S fuel m r v = RangeInclusiveMap.insertFuel S fuel m r v) ∧
    ∀ ops : List (Op (RangeInclusive K) V), RangeInclusiveMap.runNe S ops = RangeInclusiveMap.run S ops := by
  have h0 : ∀ hi (v : V) x, breakCondNe S hi v x = breakCond S hi v x := by
    intro hi v x; simp only [breakCondNe, breakCond, h]
  have h1 : ∀ hi fuel (v : V) (m : List (RangeInclusive K × V)) n,
      RangeInclusiveMap.insertLoopNe S hi v fuel m n = RangeInclusiveMap.insertLoop S hi v fuel m n := by
    intro hi fuel v
    induction fuel with
    | zero => intro m n; rfl
    | succ f ih =>
      intro m n
      unfold RangeInclusiveMap.insertLoopNe RangeInclusiveMap.insertLoop
      simp only [h0, ih]
      rfl
  have h2 : ∀ fuel (m : RangeInclusiveMap K V) r v,
      RangeInclusiveMap.insertFuelNe S fuel m r v = RangeInclusiveMap.insertFuel S fuel m r v := by
    intro fuel m r v
    simp only [RangeInclusiveMap.insertFuelNe, RangeInclusiveMap.insertFuel, h1]
  have h3 : ∀ (items : List (RangeInclusive K × V)) (m : RangeInclusiveMap K V),
      m.extendNe S items = m.extend S items := by
    intro items
    induction items with
    | nil => intro m; rfl
    | cons e t ih =>
      intro m
      simp only [RangeInclusiveMap.extendNe, RangeInclusiveMap.extend, RangeInclusiveMap.insertNe,
        RangeInclusiveMap.insert, h2, ih]
      rfl
  have h4 : ∀ (m : RangeInclusiveMap K V) op, m.applyNe S op = m.apply S op := by
    intro m op
    cases op <;> simp only [RangeInclusiveMap.applyNe, RangeInclusiveMap.apply,
      RangeInclusiveMap.insertNe, RangeInclusiveMap.insert, h2, h3] <;> rfl
  exact ⟨h2, fun ops => by simp only [RangeInclusiveMap.runNe, RangeInclusiveMap.run, h4]⟩

section
variable [EqOrNe V]

/-- **C67** Inclusive map: `insert` panics exactly on an inverted range. -/
theorem C67_panics (hS : LawfulSteps S) {m : RangeInclusiveMap K V} (hm : ReachableAnyNe S m)
    (r : RangeInclusive K) (v : V) :
    ((∃ p, m.insertNe S r v = .error p) ↔ r.stop < r.start) ∧
    (∀ p, m.insertNe S r v = .error p → p = .assertFailed ∧ (m.applyNe S (.insert r v)).1 = m) := by
  by_cases hr : r.start ≤ r.stop
  · obtain ⟨m', h1, _⟩ := RangeInclusiveMap.Ne.insert_ok hS (RangeInclusiveMap.Ne.reachableAny_sep hS hm) v hr
    simp [h1]
    grind
  · simp [RangeInclusiveMap.Ne.insertNe_invalid hr, RangeInclusiveMap.applyNe]
    grind

/-- **C67** The loop of `insert` runs at most `len + 1` times. -/
theorem C67_terminates (hS : LawfulSteps S) {m : RangeInclusiveMap K V} (hm : ReachableAnyNe S m)
    (r : RangeInclusive K) (v : V) (fuel : Nat) (hf : m.len + 2 ≤ fuel) :
    RangeInclusiveMap.insertFuelNe S fuel m r v = m.insertNe S r v ∧
      m.insertNe S r v ≠ .error .diverge := by
  refine ⟨?_, fun h => ?_⟩
  · by_cases hr : r.start ≤ r.stop
    · obtain ⟨m', h1, _⟩ := RangeInclusiveMap.Ne.insert_spec hS (RangeInclusiveMap.Ne.reachableAny_sep hS hm) v hr
      rw [h1 fuel hf, RangeInclusiveMap.insertNe, h1 _ (Nat.le_refl _)]
    · rw [RangeInclusiveMap.Ne.insertNe_invalid hr]
      simp [RangeInclusiveMap.insertFuelNe, hr, bind, Except.bind, throw, throwThe,
        MonadExceptOf.throw]
  · have := (C67_panics hS hm r v).2 _ h
    simp at this

/-- **C67** Entries are increasing and disjoint. -/
theorem C67_sorted_disjoint (hS : LawfulSteps S) {m : RangeInclusiveMap K V}
    (hm : ReachableAnyNe S m) :
    (∀ e ∈ m.iter, e.1.start ≤ e.1.stop) ∧
    m.iter.Pairwise (fun a b => a.1.stop < b.1.start) :=
  ⟨(RangeInclusiveMap.Ne.reachableAny_sep hS hm).ne,
    (RangeInclusiveMap.Ne.reachableAny_sep hS hm).pw.imp fun h => h.2⟩

/-- **C67** After any history, `get k` yields a value exactly if the last operation touching `k` wrote
one, and the two are connected by a chain of `==`. -/
theorem C67_refinement (hS : LawfulSteps S) (ops : List (Op (RangeInclusive K) V))
    (hx : ∀ op ∈ ops, ∀ r ∈ op.inserted, r.exhausted = false) (k : K) :
    ∃ o, (RangeInclusiveMap.runNe S ops).get k = .ok o ∧
      Chained (lastWrite icovers ivalid ops.reverse k) o :=
  ⟨_, RangeInclusiveMap.Weak.get_look (RangeInclusiveMap.Ne.run_sep hS ops).1
      ((RangeInclusiveMap.Ne.run_sep hS ops).2 hx) k,
    RangeInclusiveMap.Ne.run_look hS ops hx k⟩

end

theorem insertNe_into_empty {a b : K} (h : a ≤ b) (v : V) :
    RangeInclusiveMap.runNe S [.insert (.mk' a b) v] = (⟨[(.mk' a b, v)]⟩ : RangeInclusiveMap K V) := by
  simp [RangeInclusiveMap.runNe, RangeInclusiveMap.applyNe, RangeInclusiveMap.insertNe,
    RangeInclusiveMap.insertFuelNe, RangeInclusiveMap.insertPrefix, RangeInclusiveMap.insertLoopNe,
    filterE, BTreeMap.range, RangeInclusiveMap.new, BTreeMap.insert, h, bind, Except.bind, pure,
    Except.pure, RangeInclusive.mk', Bound.invalid, RangeInclusiveMap.len]

/-- **C67** Values that are neither `==` nor `!=` make `insert` run forever: with `a` stored at `y..=z`,
inserting `b` at `x..=w` never returns if `y` follows `w`. -/
theorem C67_neither_hangs (hS : LawfulSteps S) {x w y z : K} (hxw : x ≤ w) (hwy : Next w y) (hyz : y ≤ z)
    {a b : V} (heq : (a == b) = false) (hne : HasNe.ne a b = false) (fuel : Nat) :
    RangeInclusiveMap.insertFuelNe S fuel (RangeInclusiveMap.runNe S [.insert (.mk' y z) a]) (.mk' x w) b
      = .error .diverge := by
  rw [insertNe_into_empty hyz]
  have hwy' := hwy.1
  obtain ⟨c, hc, hcn⟩ := hS.addOne _ _ hwy.1
  have hcy : c ≤ y ∧ y ≤ c := ⟨hcn.2 y hwy.1, hwy.2 c hcn.1⟩
  have hloop : ∀ fuel, RangeInclusiveMap.insertLoopNe S w b fuel [(.mk' y z, a)] (.mk' x w)
      = .error .diverge := by
    intro fuel
    induction fuel with
    | zero => rfl
    | succ n ih =>
      have h1 : x ≤ y := by grind
      have h2 : ¬ c < y := by grind
      have h4 : (RangeInclusive.mk' x w).overlaps (.mk' y z) = false := by
        refine decide_eq_false ?_
        simp only [RangeInclusive.mk', le_rmin, rmax_le]; grind
      unfold RangeInclusiveMap.insertLoopNe
      simp only [RangeInclusive.mk'] at h4 ih
      simp [BTreeMap.range, Bound.invalid, bind, Except.bind, pure, Except.pure, RangeInclusive.mk',
        Bound.admitsAsLower, Bound.admitsAsUpper, h1, h2, hc, hwy', breakCondNe, hne,
        RangeInclusiveMap.adjustTouchingRangesForInsert, heq, h4, ih]
  have h1 : ¬ y ≤ x := by grind
  have hp : RangeInclusiveMap.insertPrefix S [(.mk' y z, a)] (.mk' x w) b =
      .ok ([(.mk' y z, a)], .mk' x w) := by
    simp [RangeInclusiveMap.insertPrefix, BTreeMap.range, Bound.invalid, bind, Except.bind, pure,
      Except.pure, Bound.admitsAsLower, Bound.admitsAsUpper, RangeInclusive.mk', filterE, h1]
  have h2 := hloop fuel
  simp only [RangeInclusive.mk'] at hp h2
  simp [RangeInclusiveMap.insertFuelNe, hp, h2, hxw, bind, Except.bind, RangeInclusive.mk']

/-- **C67** Values that are both `==` and `!=` are not coalesced when the stored one follows the new
one. -/
theorem C67_both_stay_apart (hS : LawfulSteps S) {x w y z : K} (hxw : x ≤ w) (hwy : Next w y)
    (hyz : y ≤ z) {a b : V} (hne : HasNe.ne a b = true) :
    (RangeInclusiveMap.runNe S [.insert (.mk' y z) a, .insert (.mk' x w) b]).iter =
      [(.mk' x w, b), ((.mk' y z : RangeInclusive K), a)] := by
  have hwy' := hwy.1
  obtain ⟨c, hc, hcn⟩ := hS.addOne _ _ hwy.1
  have hcy : c ≤ y ∧ y ≤ c := ⟨hcn.2 y hwy.1, hwy.2 c hcn.1⟩
  have h1 : x ≤ y := by grind
  have h2 : ¬ c < y := by grind
  have h3 : ¬ y ≤ x := by grind
  have h5 : keq y c = true := keq_iff.2 (by grind)
  have hrun : RangeInclusiveMap.runNe S [.insert (.mk' y z) a, .insert (.mk' x w) b] =
      ((RangeInclusiveMap.runNe S [.insert (.mk' y z) a] : RangeInclusiveMap K V).applyNe S
        (.insert (.mk' x w) b)).1 := rfl
  have h4 : (RangeInclusive.mk' x w).overlaps (.mk' y z) = false := by
    refine decide_eq_false ?_
    simp only [RangeInclusive.mk', le_rmin, rmax_le]; grind
  have hloop : ∀ n, RangeInclusiveMap.insertLoopNe S w b (n + 1) [(.mk' y z, a)] (.mk' x w) =
      .ok ([(.mk' y z, a)], .mk' x w) := by
    intro n
    unfold RangeInclusiveMap.insertLoopNe
    simp only [RangeInclusive.mk'] at h4
    simp [BTreeMap.range, Bound.invalid, bind, Except.bind, pure, Except.pure, RangeInclusive.mk',
      Bound.admitsAsLower, Bound.admitsAsUpper, h1, h2, hc, hwy', breakCondNe, hne, h4, h5]
  have hp : RangeInclusiveMap.insertPrefix S [(.mk' y z, a)] (.mk' x w) b =
      .ok ([(.mk' y z, a)], .mk' x w) := by
    simp [RangeInclusiveMap.insertPrefix, BTreeMap.range, Bound.invalid, bind, Except.bind, pure,
      Except.pure, Bound.admitsAsLower, Bound.admitsAsUpper, RangeInclusive.mk', filterE, h3]
  rw [hrun, insertNe_into_empty hyz]
  simp only [RangeInclusive.mk'] at hp hloop
  have hxy : x < y := by grind
  simp [RangeInclusiveMap.applyNe, RangeInclusiveMap.insertNe, RangeInclusiveMap.insertFuelNe, hp,
    hloop, hxw, hxy, bind, Except.bind, pure, Except.pure, BTreeMap.insert, RangeInclusiveMap.iter,
    RangeInclusiveMap.len, RangeInclusive.mk']

/-- **C67** Given two neighbouring keys, `insert` returns after every history exactly if any two values
are `==` or `!=`. -/
theorem C67_returns_iff (hS : LawfulSteps S) {x y : K} (hxy : Next x y) :
    EqOrNe V ↔ ∀ (ops : List (Op (RangeInclusive K) V)) (r : RangeInclusive K) (v : V),
      ∃ fuel, RangeInclusiveMap.insertFuelNe S fuel (RangeInclusiveMap.runNe S ops) r v
        ≠ .error .diverge := by
  constructor
  · intro h ops r v
    exact ⟨_, (C67_terminates hS ⟨ops, rfl⟩ r v _ (Nat.le_refl _)).2⟩
  · intro h
    refine ⟨fun {a b} heq => ?_⟩
    cases hne : HasNe.ne a b with
    | true => rfl
    | false =>
      obtain ⟨fuel, hf⟩ := h [.insert (.mk' y y) a] (.mk' x x) b
      exact absurd (C67_neither_hangs hS (by grind : x ≤ x) hxy (by grind : y ≤ y) heq hne fuel) hf

end

example : (RangeInclusiveMap.runNe Demo.u8 [.insert (Demo.by8 5 8) ⟨0, 1⟩, .insert (Demo.by8 0 4) ⟨0, 2⟩,
    .insert (Demo.by8 9 255) ⟨0, 3⟩] : RangeInclusiveMap _ BothWays).btm =
      [(Demo.by8 0 4, ⟨0, 2⟩), (Demo.by8 5 255, ⟨0, 3⟩)] := by rfl
example (fuel : Nat) : RangeInclusiveMap.insertFuelNe Demo.u8 fuel
    (RangeInclusiveMap.runNe Demo.u8 [.insert (Demo.by8 5 255) ⟨some 1⟩]) (Demo.by8 0 4) (⟨none⟩ : Float')
    = .error .diverge := by
  refine C67_neither_hangs Demo.u8_lawful (by decide) ⟨by decide, fun d hd => ?_⟩ (by decide) rfl rfl fuel
  have : ∀ d : BitVec 8, (⟨.ofNat 8 4⟩ : UIntW 8) < ⟨d⟩ → (⟨.ofNat 8 5⟩ : UIntW 8) ≤ ⟨d⟩ := by decide
  exact this d.bits hd

theorem bothRun : ReachableAnyNe Demo.u8 (RangeInclusiveMap.runNe Demo.u8
    [.insert (Demo.by8 5 8) ⟨0, 1⟩, .insert (Demo.by8 0 4) ⟨0, 2⟩] :
      RangeInclusiveMap (UIntW 8) BothWays) := ⟨_, rfl⟩
theorem next_4_5 : Next (⟨.ofNat 8 4⟩ : UIntW 8) ⟨.ofNat 8 5⟩ :=
  ⟨by decide, Demo.forall8 (by decide +kernel)⟩
example := C67_negation (K := UIntW 8) (V := Plain) (S := Demo.u8) (fun _ _ => rfl)
example := C67_panics Demo.u8_lawful bothRun (Demo.by8 3 255) ⟨1, 1⟩
example := C67_terminates Demo.u8_lawful bothRun (Demo.by8 3 255) ⟨1, 1⟩ 4 (by decide)
example := C67_sorted_disjoint Demo.u8_lawful bothRun
example := C67_refinement Demo.u8_lawful ([.insert (Demo.by8 5 8) ⟨0, 1⟩,
  .insert (Demo.by8 0 4) ⟨0, 2⟩] : List (Op (RangeInclusive (UIntW 8)) BothWays)) (by decide) ⟨7⟩
example := C67_returns_iff (V := BothWays) Demo.u8_lawful next_4_5
example := C67_both_stay_apart Demo.u8_lawful (show (⟨.ofNat 8 0⟩ : UIntW 8) ≤ ⟨.ofNat 8 4⟩ by decide)
  next_4_5 (show _ ≤ (⟨.ofNat 8 8⟩ : UIntW 8) by decide) (a := (⟨0, 1⟩ : BothWays)) (b := ⟨0, 2⟩) rfl

end Inclusive
end Verif.Props

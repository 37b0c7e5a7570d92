import Verif.Proof.IUnstable
import Verif.Props.Ne

/-!
# Comparisons of values that may change their answer (C85)
-/
set_option linter.unusedSectionVars false
set_option linter.unusedSimpArgs false
namespace Verif.Props
open Spec RangeMap

section
variable {K : Type} [LE K] [LT K] [DecidableLE K] [DecidableLT K]
  [Std.IsLinearPreorder K] [Std.LawfulOrderLT K] {V : Type} {A : Answers V}

/-- **C85** If the answers do not change, `insert` is the one of C67 (and so, if `!=` is the
negation of `==`, the one of the other properties). -/
theorem C85_constant [BEq V] [HasNe V] (he : ∀ i a b, A.eq i a b = (a == b))
    (hn : ∀ i a b, A.ne i a b = HasNe.ne a b) (fuel i : Nat) (m : RangeMap K V) (r : Range K)
    (v : V) :
    (m.insertFuelU A fuel i r v).map (·.2) = m.insertFuelNe fuel r v := by
  have hadj : ∀ i (m : List (Range K × V)) s sv n, adjustTouchingRangesForInsertU A i m s sv n v =
      (i + 1, adjustTouchingRangesForInsert m s sv n v) := by
    intro i m s sv n
    exact RangeMap.Unstable.adjustU_eq A i _ m s sv n v (he i sv v).symm
  have hloop : ∀ hi fuel i (m : List (Range K × V)) n,
      (insertLoopU A hi v fuel i m n).map (·.2) = insertLoopNe hi v fuel m n := by
    intro hi fuel
    induction fuel with
    | zero => intro i m n; rfl
    | succ f ih =>
      intro i m n
      unfold insertLoopU insertLoopNe
      cases BTreeMap.range Range.start (.included n.start) (.included hi) m with
      | error p => rfl
      | ok l =>
        simp only [bind, Except.bind, pure, Except.pure, hn, hadj]
        cases l.head? with
        | none => rfl
        | some x =>
          by_cases h1 : keq x.1.start n.stop = true
          · by_cases h2 : HasNe.ne x.2 v = true
            · simp [h1, h2, Except.map]
            · simpa [h1, h2] using ih _ _ _
          · simpa [h1] using ih _ _ _
  have hpre : (insertPrefixU A i m.btm r v).map (·.2) = insertPrefix m.btm r v := by
    unfold insertPrefixU insertPrefix
    rw [BTreeMap.range_ok rfl]
    simp only [bind, Except.bind, pure, Except.pure, hadj]
    generalize List.filter (fun e : Range K × V => e.1.touches r) _ = l
    match l with
    | [] => rfl
    | [_] => rfl
    | _ :: _ :: _ => rfl
  unfold insertFuelU insertFuelNe
  by_cases hr : r.start < r.stop
  · rw [← hpre]
    cases insertPrefixU A i m.btm r v with
    | error p => simp [hr, bind, Except.bind, pure, Except.pure, Except.map]
    | ok p =>
      have := hloop p.2.2.stop fuel p.1 p.2.1 p.2.2
      simp only [hr, not_true, if_false, bind, Except.bind, pure, Except.pure, Except.map] at this ⊢
      rw [← this]
      cases insertLoopU A p.2.2.stop v fuel p.1 p.2.1 p.2.2 <;> rfl
  · simp [hr, bind, Except.bind, throw, throwThe, MonadExceptOf.throw, Except.map]

/-- **C85** The number of iterations allowed does not matter as long as `insert` comes to an end. -/
theorem C85_fuel (fuel fuel' i : Nat) (m : RangeMap K V) (r : Range K) (v : V) (hf : fuel ≤ fuel')
    (h : m.insertFuelU A fuel i r v ≠ .error .diverge) :
    m.insertFuelU A fuel' i r v = m.insertFuelU A fuel i r v :=
  RangeMap.Unstable.insertFuelU_mono A fuel i m r v fuel' hf h

/-- **C85** Whatever the comparisons answer, `insert` panics exactly on an empty or inverted range,
with the assertion, and then leaves the map alone. (Otherwise it returns or runs on.) -/
theorem C85_panics {ops : List (Op (Range K) V)} {i : Nat} {m : RangeMap K V} (hm : Runs A ops i m)
    (r : Range K) (v : V) (fuel : Nat) :
    ((∃ p, p ≠ .diverge ∧ m.insertFuelU A fuel i r v = .error p) ↔ r.stop ≤ r.start) ∧
    (∀ p, p ≠ .diverge → m.insertFuelU A fuel i r v = .error p →
      p = .assertFailed ∧ (m.applyFuelU A fuel i (.insert r v)).2.1 = m) := by
  by_cases hr : r.start < r.stop
  · rcases RangeMap.Unstable.insertFuelU_spec A fuel i (RangeMap.Unstable.runs_spec hm).1 v hr with
      h1 | ⟨i', m', h1, _⟩
    · simp [h1]
      grind
    · simp [h1]
      grind
  · simp [RangeMap.Unstable.insertFuelU_invalid A fuel i hr, applyFuelU]
    grind

/-- **C85** Entries are non-empty, increasing and disjoint. -/
theorem C85_sorted_disjoint {ops : List (Op (Range K) V)} {i : Nat} {m : RangeMap K V}
    (hm : Runs A ops i m) :
    (∀ e ∈ m.iter, e.1.start < e.1.stop) ∧
    m.iter.Pairwise (fun a b => a.1.stop ≤ b.1.start) :=
  ⟨(RangeMap.Unstable.runs_spec hm).1.ne, (RangeMap.Unstable.runs_spec hm).1.pw.imp fun h => h.2⟩

/-- **C85** After any history, `get k` yields a value exactly if the last operation touching `k`
wrote one, and the two are connected by pairs that were answered `==` at some time. -/
theorem C85_refinement {ops : List (Op (Range K) V)} {i : Nat} {m : RangeMap K V}
    (hm : Runs A ops i m) (k : K) :
    ∃ o, m.get k = .ok o ∧ Linked A.everEq (lastWrite covers valid ops.reverse k) o :=
  ⟨_, @get_look K _ _ _ _ _ _ V (Weak.never V) _ (RangeMap.Unstable.runs_spec hm).1 k,
    RangeMap.Unstable.linked_iff.2 ((RangeMap.Unstable.runs_spec hm).2 k)⟩

theorem linked_isSome {R : V → V → Prop} {a b : Option V} (h : Linked R a b) :
    b.isSome = a.isSome := by
  cases a <;> cases b <;> simp_all [Linked]

/-- **C85** In particular the set of keys does not depend on the comparisons. -/
theorem C85_contains_key {ops : List (Op (Range K) V)} {i : Nat} {m : RangeMap K V}
    (hm : Runs A ops i m) (k : K) :
    m.containsKey k = .ok (lastWrite covers valid ops.reverse k).isSome := by
  obtain ⟨o, h1, h2⟩ := C85_refinement hm k
  simp [containsKey, h1, bind, Except.bind, pure, Except.pure, linked_isSome h2]

/-- **C85** Such a map could also have been made with values that are never `==`. So everything
proved of queries, iterators, gaps and overlaps of maps with such values holds of it. -/
theorem C85_reachable {ops : List (Op (Range K) V)} {i : Nat} {m : RangeMap K V}
    (hm : Runs A ops i m) : @Reachable K _ _ _ _ V ⟨fun _ _ => false⟩ m :=
  @WF.reachable K _ _ _ _ _ _ V (Weak.never V) (Weak.never_per V) m
    (Weak.wf_never (RangeMap.Unstable.runs_spec hm).1)

/-- **C85** `insert` returns or panics if from some comparison on `!=` and the `==` asked next are
not both denied; `len + 3` iterations are enough, and one more for every comparison before that. -/
theorem C85_returns {N : Nat} (hA : A.SettledFrom N) {ops : List (Op (Range K) V)} {i : Nat}
    {m : RangeMap K V} (hm : Runs A ops i m) (r : Range K) (v : V) (fuel : Nat)
    (hf : m.len + (N - i) + 3 ≤ fuel) : m.insertFuelU A fuel i r v ≠ .error .diverge :=
  RangeMap.Unstable.insertFuelU_returns hA i (RangeMap.Unstable.runs_spec hm).1 r v fuel hf

theorem insertPrefixU_left {x y z : K} (hxy : x < y) (a b : V) (i : Nat) :
    insertPrefixU A i [((⟨y, z⟩ : Range K), a)] ⟨x, y⟩ b = .ok (i, [(⟨y, z⟩, a)], ⟨x, y⟩) := by
  have h1 : ¬ y ≤ x := by grind
  simp [insertPrefixU, BTreeMap.range, Bound.invalid, bind, Except.bind, pure, Except.pure,
    Bound.admitsAsLower, Bound.admitsAsUpper, h1]

theorem _root_.Verif.RangeMap.Runs.call' {ops : List (Op (Range K) V)} {i : Nat} {m : RangeMap K V}
    (h : Runs A ops i m) {op : Op (Range K) V} {fuel i' : Nat} {m' : RangeMap K V}
    {o : Except Panic Unit} (e : m.applyFuelU A fuel i op = (i', m', o))
    (ho : o ≠ .error .diverge) :
    Runs A (ops ++ [op]) i' m' := by
  have := h.call op fuel (by rw [e]; exact ho)
  rwa [e] at this

theorem runs_one {a b : K} (h : a < b) (v : V) :
    Runs A [.insert ⟨a, b⟩ v] 0 (⟨[(⟨a, b⟩, v)]⟩ : RangeMap K V) := by
  have h1 : ¬ b < a := by grind
  have h2 : (new : RangeMap K V).applyFuelU A 1 0 (.insert ⟨a, b⟩ v) =
      (0, ⟨[(⟨a, b⟩, v)]⟩, .ok ()) := by
    simp [applyFuelU, insertFuelU, insertPrefixU, insertLoopU,
      BTreeMap.range, new, BTreeMap.insert, h, h1, bind, Except.bind, pure, Except.pure,
      Bound.invalid]
  exact Runs.new.call' h2 (by simp)

/-- **C85** If they are both denied again and again, `insert` never returns: with `a` stored at
`y..z`, inserting `b` at `x..y` runs forever. -/
theorem C85_hangs {x y z : K} (hxy : x < y) (hyz : y < z) {a b : V} (i : Nat)
    (hne : ∀ j, A.ne (i + 2 * j) a b = false) (heq : ∀ j, A.eq (i + 2 * j + 1) a b = false) :
    ∃ m : RangeMap K V, Runs A [.insert ⟨y, z⟩ a] i m ∧
      ∀ fuel, m.insertFuelU A fuel i ⟨x, y⟩ b = .error .diverge := by
  refine ⟨_, .other i (runs_one hyz a) (Nat.zero_le _), fun fuel => ?_⟩
  have hloop : ∀ fuel j, insertLoopU A y b fuel (i + 2 * j) [((⟨y, z⟩ : Range K), a)] ⟨x, y⟩ =
      .error .diverge := by
    intro fuel
    induction fuel with
    | zero => intro j; rfl
    | succ n ih =>
      intro j
      have h1 : x ≤ y := by grind
      have h2 : ¬ y < x := by grind
      have h3 : y ≤ y := by grind
      have h4 : Range.overlaps (⟨x, y⟩ : Range K) ⟨y, z⟩ = false := by
        simp only [Range.overlaps, decide_eq_false_iff_not, lt_rmin, rmax_lt]; grind
      have h5 : keq y y = true := keq_iff.2 (by grind)
      unfold insertLoopU
      simp [BTreeMap.range, Bound.invalid, bind, Except.bind, pure, Except.pure,
        Bound.admitsAsLower, Bound.admitsAsUpper, h1, h2, h3, h5, hne, heq,
        adjustTouchingRangesForInsertU, h4]
      exact ih (j + 1)
  have := hloop fuel 0
  simp only [Nat.mul_zero, Nat.add_zero] at this
  simp [insertFuelU, insertPrefixU_left hxy, hxy, this, bind, Except.bind]

end

/-! Examples: a `==` that reads a counter. -/

/-- The first five comparisons answer by parity of their number, later ones properly. -/
def fickle : Answers Nat where
  eq i a b := if i < 5 then i % 2 == 0 else a == b
  ne i a b := if i < 5 then i % 2 == 1 else !(a == b)

theorem fickle_settled : fickle.SettledFrom 5 := by
  intro i hi a b h
  have h1 : ¬ i < 5 := by omega
  have h2 : ¬ i + 1 < 5 := by omega
  simp only [fickle, h1, h2, if_false] at h ⊢
  simpa using h

-- 7 and 8 are said to be equal at comparison 0; 9 and 8 different at comparison 1
theorem fickle_runs : Runs fickle [.insert ⟨1, 3⟩ 7, .insert ⟨3, 5⟩ 8, .insert ⟨5, 9⟩ 9] 2
    (⟨[(⟨1, 5⟩, 8), (⟨5, 9⟩, 9)]⟩ : RangeMap Nat Nat) := by
  have h1 := runs_one (A := fickle) (show 1 < 3 by decide) 7
  have h2 := h1.call' (op := .insert ⟨3, 5⟩ 8) (fuel := 3) rfl (by simp)
  exact h2.call' (op := .insert ⟨5, 9⟩ 9) (fuel := 3) rfl (by simp)

-- key 2 was written 7 and reads 8
example : ∃ o, (⟨[(⟨1, 5⟩, 8), (⟨5, 9⟩, 9)]⟩ : RangeMap Nat Nat).get 2 = .ok o ∧
    Linked fickle.everEq (some 7) o := C85_refinement fickle_runs 2
example : (⟨[(⟨1, 5⟩, 8), (⟨5, 9⟩, 9)]⟩ : RangeMap Nat Nat).get 2 = .ok (some 8) := by rfl
example (r : Range Nat) (v fuel : Nat) (h : 8 ≤ fuel) :
    insertFuelU fickle fuel 2 (⟨[(⟨1, 5⟩, 8), (⟨5, 9⟩, 9)]⟩ : RangeMap Nat Nat) r v ≠ .error
      .diverge :=
  C85_returns fickle_settled fickle_runs r v fuel h
-- without the hypothesis: everything is denied, so the new range waits forever
example : ∃ m : RangeMap Nat Nat, Runs ⟨fun _ _ _ => false, fun _ _ _ => false⟩ [.insert ⟨5, 9⟩ 1]
    0 m ∧
    ∀ fuel, m.insertFuelU ⟨fun _ _ _ => false, fun _ _ _ => false⟩ fuel 0 ⟨0, 5⟩ 1 = .error
      .diverge :=
  C85_hangs (by decide) (by decide) 0 (fun _ => rfl) (fun _ => rfl)
-- `C85_constant` for the types of C67
example (fuel i : Nat) (m : RangeMap Nat BothWays) (r : Range Nat) (v : BothWays) :
    (m.insertFuelU ⟨fun _ a b => a == b, fun _ a b => HasNe.ne a b⟩ fuel i r v).map (·.2) =
      m.insertFuelNe fuel r v := C85_constant (fun _ _ _ => rfl) (fun _ _ _ => rfl) fuel i m r v
example := C85_fuel 8 9 2 (⟨[(⟨1, 5⟩, 8), (⟨5, 9⟩, 9)]⟩ : RangeMap Nat Nat) ⟨0, 7⟩ 8 (by decide)
  (C85_returns fickle_settled fickle_runs ⟨0, 7⟩ 8 8 (by decide))
example := C85_panics fickle_runs ⟨7, 7⟩ 8 3
example := C85_sorted_disjoint fickle_runs
example := C85_contains_key fickle_runs 2
example := C85_reachable fickle_runs

namespace Inclusive
open RangeInclusiveMap

section
variable {K : Type} [LE K] [LT K] [DecidableLE K] [DecidableLT K]
  [Std.IsLinearPreorder K] [Std.LawfulOrderLT K] {V : Type} {A : Answers V} {S : StepFns K}

/-- **C85** If the answers do not change, `insert` is the one of C67. -/
theorem C85_constant [BEq V] [HasNe V] (he : ∀ i a b, A.eq i a b = (a == b))
    (hn : ∀ i a b, A.ne i a b = HasNe.ne a b) (fuel i : Nat) (m : RangeInclusiveMap K V)
    (r : RangeInclusive K) (v : V) :
    (m.insertFuelU A S fuel i r v).map (·.2) = m.insertFuelNe S fuel r v := by
  have hadj : ∀ i (m : List (RangeInclusive K × V)) s sv n,
      RangeInclusiveMap.adjustTouchingRangesForInsertU A S i m s sv n v =
      (RangeInclusiveMap.adjustTouchingRangesForInsert S m s sv n v).map fun p => (i + 1, p) := by
    intro i m s sv n
    exact RangeInclusiveMap.Unstable.adjustU_eq A S i _ m s sv n v (he i sv v).symm
  have hbr : ∀ hi i x, (breakCondU A S hi v i x).map (·.2) = breakCondNe S hi v x := by
    intro hi i x
    unfold breakCondU breakCondNe
    by_cases h : hi < x.1.start
    · simp only [h, if_true, bind, Except.bind, pure, Except.pure]
      cases S.addOne hi with
      | error p => rfl
      | ok c =>
        simp only
        by_cases h1 : c < x.1.start
        · simp [h1, Except.map]
        · by_cases h2 : keq x.1.start c = true <;> simp [h1, h2, hn, Except.map]
    · simp [h, pure, Except.pure, Except.map]
  have hloop : ∀ hi fuel i (m : List (RangeInclusive K × V)) n,
      (RangeInclusiveMap.insertLoopU A S hi v fuel i m n).map (·.2) =
        RangeInclusiveMap.insertLoopNe S hi v fuel m n := by
    intro hi fuel
    induction fuel with
    | zero => intro i m n; rfl
    | succ f ih =>
      intro i m n
      rw [RangeInclusiveMap.Unstable.insertLoopU_unfold, RangeInclusiveMap.Ne.insertLoop_unfold]
      cases (m.filter fun e => decide (n.start ≤ e.1.start)).head? with
      | none => rfl
      | some x =>
        have := hbr hi i x
        simp only [hadj]
        rw [← this]
        cases breakCondU A S hi v i x with
        | error p => rfl
        | ok q =>
          simp only [Except.bind, Except.map]
          by_cases h1 : q.2 = true
          · simp [h1]
          · simp only [h1, if_false, Bool.false_eq_true]
            cases RangeInclusiveMap.adjustTouchingRangesForInsert S m x.1 x.2 n v with
            | error p => rfl
            | ok p => exact ih _ _ _
  have hpre : (RangeInclusiveMap.insertPrefixU A S i m.btm r v).map (·.2) =
      RangeInclusiveMap.insertPrefix S m.btm r v := by
    unfold RangeInclusiveMap.insertPrefixU RangeInclusiveMap.insertPrefix
    rw [BTreeMap.range_ok rfl]
    simp only [bind, Except.bind, pure, Except.pure, hadj]
    generalize filterE (fun e : RangeInclusive K × V => e.1.touches S r) _ = o
    match o with
    | .error _ => rfl
    | .ok [] => rfl
    | .ok [c] =>
      simp only
      cases RangeInclusiveMap.adjustTouchingRangesForInsert S m.btm c.1 c.2 r v <;> rfl
    | .ok (_ :: c :: _) =>
      simp only
      cases RangeInclusiveMap.adjustTouchingRangesForInsert S m.btm c.1 c.2 r v <;> rfl
  unfold RangeInclusiveMap.insertFuelU RangeInclusiveMap.insertFuelNe
  by_cases hr : r.start ≤ r.stop
  · rw [← hpre]
    cases RangeInclusiveMap.insertPrefixU A S i m.btm r v with
    | error p => simp [hr, bind, Except.bind, pure, Except.pure, Except.map]
    | ok p =>
      have := hloop p.2.2.stop fuel p.1 p.2.1 p.2.2
      simp only [hr, not_true, if_false, bind, Except.bind, pure, Except.pure, Except.map] at this ⊢
      rw [← this]
      cases RangeInclusiveMap.insertLoopU A S p.2.2.stop v fuel p.1 p.2.1 p.2.2 <;> rfl
  · simp [hr, bind, Except.bind, throw, throwThe, MonadExceptOf.throw, Except.map]

/-- **C85** The number of iterations allowed does not matter as long as `insert` comes to an end. -/
theorem C85_fuel (fuel fuel' i : Nat) (m : RangeInclusiveMap K V) (r : RangeInclusive K) (v : V)
    (hf : fuel ≤ fuel') (h : m.insertFuelU A S fuel i r v ≠ .error .diverge) :
    m.insertFuelU A S fuel' i r v = m.insertFuelU A S fuel i r v :=
  RangeInclusiveMap.Unstable.insertFuelU_mono A S fuel i m r v fuel' hf h

/-- **C85** Whatever the comparisons answer, `insert` panics exactly on an inverted range, with the
assertion, and then leaves the map alone.  (Otherwise it returns or runs on.) -/
theorem C85_panics (hS : LawfulSteps S) {ops : List (Op (RangeInclusive K) V)} {i : Nat}
    {m : RangeInclusiveMap K V} (hm : RangeInclusiveMap.Runs A S ops i m)
    (r : RangeInclusive K) (v : V) (fuel : Nat) :
    ((∃ p, p ≠ .diverge ∧ m.insertFuelU A S fuel i r v = .error p) ↔ r.stop < r.start) ∧
    (∀ p, p ≠ .diverge → m.insertFuelU A S fuel i r v = .error p →
      p = .assertFailed ∧ (m.applyFuelU A S fuel i (.insert r v)).2.1 = m) := by
  by_cases hr : r.start ≤ r.stop
  · rcases RangeInclusiveMap.Unstable.insertFuelU_spec A hS fuel i
      (RangeInclusiveMap.Unstable.runs_spec hS hm).1 v hr with h1 | ⟨i', m', h1, _⟩
    · simp [h1]
      grind
    · simp [h1]
      grind
  · simp [RangeInclusiveMap.Unstable.insertFuelU_invalid A S fuel i hr,
    RangeInclusiveMap.applyFuelU]
    grind

/-- **C85** Entries are increasing and disjoint. -/
theorem C85_sorted_disjoint (hS : LawfulSteps S) {ops : List (Op (RangeInclusive K) V)} {i : Nat}
    {m : RangeInclusiveMap K V} (hm : RangeInclusiveMap.Runs A S ops i m) :
    (∀ e ∈ m.iter, e.1.start ≤ e.1.stop) ∧
    m.iter.Pairwise (fun a b => a.1.stop < b.1.start) :=
  ⟨(RangeInclusiveMap.Unstable.runs_spec hS hm).1.ne,
    (RangeInclusiveMap.Unstable.runs_spec hS hm).1.pw.imp fun h => h.2⟩

/-- **C85** After any history, `get k` yields a value exactly if the last operation touching `k`
wrote one, and the two are connected by pairs that were answered `==` at some time. -/
theorem C85_refinement (hS : LawfulSteps S) {ops : List (Op (RangeInclusive K) V)} {i : Nat}
    {m : RangeInclusiveMap K V} (hm : RangeInclusiveMap.Runs A S ops i m)
    (hx : ∀ op ∈ ops, ∀ r ∈ op.inserted, r.exhausted = false) (k : K) :
    ∃ o, m.get k = .ok o ∧ Linked A.everEq (lastWrite icovers ivalid ops.reverse k) o :=
  ⟨_, @RangeInclusiveMap.Weak.get_look K _ _ _ _ _ _ V (RangeMap.Weak.never V) _
      (RangeInclusiveMap.Unstable.runs_spec hS hm).1
      ((RangeInclusiveMap.Unstable.runs_spec hS hm).2 hx).1 k,
    RangeMap.Unstable.linked_iff.2 (((RangeInclusiveMap.Unstable.runs_spec hS hm).2 hx).2 k)⟩

/-- **C85** In particular the set of keys does not depend on the comparisons. -/
theorem C85_contains_key (hS : LawfulSteps S) {ops : List (Op (RangeInclusive K) V)} {i : Nat}
    {m : RangeInclusiveMap K V} (hm : RangeInclusiveMap.Runs A S ops i m)
    (hx : ∀ op ∈ ops, ∀ r ∈ op.inserted, r.exhausted = false) (k : K) :
    m.containsKey k = .ok (lastWrite icovers ivalid ops.reverse k).isSome := by
  obtain ⟨o, h1, h2⟩ := C85_refinement hS hm hx k
  simp [RangeInclusiveMap.containsKey, h1, bind, Except.bind, pure, Except.pure, linked_isSome h2]

/-- **C85** Such a map could also have been made with values that are never `==`. -/
theorem C85_reachable (hS : LawfulSteps S) {ops : List (Op (RangeInclusive K) V)} {i : Nat}
    {m : RangeInclusiveMap K V} (hm : RangeInclusiveMap.Runs A S ops i m)
    (hx : ∀ op ∈ ops, ∀ r ∈ op.inserted, r.exhausted = false) :
    @RangeInclusiveMap.Reachable K _ _ _ _ V ⟨fun _ _ => false⟩ S m :=
  @RangeInclusiveMap.WF.reachable K _ _ _ _ _ _ V (RangeMap.Weak.never V) S
    (RangeMap.Weak.never_per V) hS m
    (RangeInclusiveMap.Weak.wf_never (RangeInclusiveMap.Unstable.runs_spec hS hm).1
      ((RangeInclusiveMap.Unstable.runs_spec hS hm).2 hx).1)

/-- **C85** `insert` returns or panics if from some comparison on `!=` and the `==` asked next are
not both denied. -/
theorem C85_returns (hS : LawfulSteps S) {N : Nat} (hA : A.SettledFrom N)
    {ops : List (Op (RangeInclusive K) V)} {i : Nat}
    {m : RangeInclusiveMap K V} (hm : RangeInclusiveMap.Runs A S ops i m) (r : RangeInclusive K)
    (v : V)
    (fuel : Nat) (hf : m.len + (N - i) + 3 ≤ fuel) :
    m.insertFuelU A S fuel i r v ≠ .error .diverge :=
  RangeInclusiveMap.Unstable.insertFuelU_returns hS hA i
    (RangeInclusiveMap.Unstable.runs_spec hS hm).1 r v fuel hf

theorem _root_.Verif.RangeInclusiveMap.Runs.call' {ops : List (Op (RangeInclusive K) V)} {i : Nat}
    {m : RangeInclusiveMap K V} (h : RangeInclusiveMap.Runs A S ops i m)
    {op : Op (RangeInclusive K) V} {fuel i' : Nat} {m' : RangeInclusiveMap K V}
    {o : Except Panic Unit} (e : m.applyFuelU A S fuel i op = (i', m', o))
    (ho : o ≠ .error .diverge) : RangeInclusiveMap.Runs A S (ops ++ [op]) i' m' := by
  have := h.call op fuel (by rw [e]; exact ho)
  rwa [e] at this

theorem runs_one {a b : K} (h : a ≤ b) (v : V) :
    RangeInclusiveMap.Runs A S [.insert (.mk' a b) v] 0
      (⟨[(.mk' a b, v)]⟩ : RangeInclusiveMap K V) := by
  have h2 : (RangeInclusiveMap.new : RangeInclusiveMap K V).applyFuelU A S 1 0
    (.insert (.mk' a b) v) =
      (0, ⟨[(.mk' a b, v)]⟩, .ok ()) := by
    simp [RangeInclusiveMap.applyFuelU, RangeInclusiveMap.insertFuelU,
      RangeInclusiveMap.insertPrefixU,
      RangeInclusiveMap.insertLoopU, filterE,
      BTreeMap.range, RangeInclusiveMap.new, BTreeMap.insert, h, bind, Except.bind, pure,
        Except.pure,
      Bound.invalid, RangeInclusive.mk']
  exact RangeInclusiveMap.Runs.new.call' h2 (by simp)

/-- **C85** If they are both denied again and again, `insert` never returns: with `a` stored at
`y..=z`, inserting `b` at `x..=w` runs forever if `y` follows `w`. -/
theorem C85_hangs (hS : LawfulSteps S) {x w y z : K} (hxw : x ≤ w) (hwy : Next w y) (hyz : y ≤ z)
    {a b : V} (i : Nat)
    (hne : ∀ j, A.ne (i + 2 * j) a b = false) (heq : ∀ j, A.eq (i + 2 * j + 1) a b = false) :
    ∃ m : RangeInclusiveMap K V, RangeInclusiveMap.Runs A S [.insert (.mk' y z) a] i m ∧
      ∀ fuel, m.insertFuelU A S fuel i (.mk' x w) b = .error .diverge := by
  refine ⟨_, .other i (runs_one hyz a) (Nat.zero_le _), fun fuel => ?_⟩
  have hwy' := hwy.1
  obtain ⟨c, hc, hcn⟩ := hS.addOne _ _ hwy.1
  have hcy : c ≤ y ∧ y ≤ c := ⟨hcn.2 y hwy.1, hwy.2 c hcn.1⟩
  have hloop : ∀ fuel j, RangeInclusiveMap.insertLoopU A S w b fuel (i + 2 * j) [(.mk' y z, a)]
      (.mk' x w) = .error .diverge := by
    intro fuel
    induction fuel with
    | zero => intro j; rfl
    | succ n ih =>
      intro j
      have h1 : x ≤ y := by grind
      have h2 : ¬ c < y := by grind
      have h3 : keq y c = true := keq_iff.2 (by grind)
      have h4 : (RangeInclusive.mk' x w).overlaps (.mk' y z) = false := by
        refine decide_eq_false ?_
        simp only [RangeInclusive.mk', le_rmin, rmax_le]; grind
      rw [RangeInclusiveMap.Unstable.insertLoopU_unfold]
      simp [h1, h2, h3, h4, hc, hwy', hne, heq, breakCondU, Except.bind, bind, pure, Except.pure,
        RangeInclusiveMap.adjustTouchingRangesForInsertU]
      exact ih (j + 1)
  have := hloop fuel 0
  simp only [Nat.mul_zero, Nat.add_zero] at this
  have h1 : ¬ y ≤ x := by grind
  simp [RangeInclusiveMap.insertFuelU, RangeInclusiveMap.insertPrefixU, BTreeMap.range,
    Bound.invalid,
    bind, Except.bind, pure, Except.pure, filterE,
    Bound.admitsAsLower, Bound.admitsAsUpper, h1, hxw, this]

end

theorem fickle_runs : RangeInclusiveMap.Runs fickle Demo.u8
    [.insert (Demo.by8 1 3) 7, .insert (Demo.by8 4 5) 8, .insert (Demo.by8 6 9) 9] 2
    (⟨[(Demo.by8 1 5, 8), (Demo.by8 6 9, 9)]⟩ : RangeInclusiveMap (UIntW 8) Nat) := by
  have h1 := runs_one (A := fickle) (S := Demo.u8) (show (⟨1⟩ : UIntW 8) ≤ ⟨3⟩ by decide) 7
  have h2 := h1.call' (op := .insert (Demo.by8 4 5) 8) (fuel := 3) rfl (by simp)
  exact h2.call' (op := .insert (Demo.by8 6 9) 9) (fuel := 3) rfl (by simp)

example (k : UIntW 8) : ∃ o, (⟨[(Demo.by8 1 5, 8), (Demo.by8 6 9, 9)]⟩ :
    RangeInclusiveMap (UIntW 8) Nat).get k = .ok o ∧ Linked fickle.everEq
      (lastWrite icovers ivalid
        [.insert (Demo.by8 6 9) 9, .insert (Demo.by8 4 5) 8, .insert (Demo.by8 1 3) 7] k) o :=
  C85_refinement Demo.u8_lawful fickle_runs (by decide) k
example (r : RangeInclusive (UIntW 8)) (v : Nat) : ((⟨[(Demo.by8 1 5, 8), (Demo.by8 6 9, 9)]⟩ :
    RangeInclusiveMap (UIntW 8) Nat).insertFuelU fickle Demo.u8 8 2 r v) ≠ .error .diverge :=
  C85_returns Demo.u8_lawful fickle_settled fickle_runs r v 8 (by decide)
example (fuel i : Nat) (m : RangeInclusiveMap (UIntW 8) BothWays) (r : RangeInclusive (UIntW 8))
    (v : BothWays) :
    (m.insertFuelU ⟨fun _ a b => a == b, fun _ a b => HasNe.ne a b⟩ Demo.u8 fuel i r v).map (·.2) =
      m.insertFuelNe Demo.u8 fuel r v :=
  C85_constant (fun _ _ _ => rfl) (fun _ _ _ => rfl) fuel i m r v
example := C85_fuel 8 9 2 _ (Demo.by8 0 7) 8 (by decide)
  (C85_returns Demo.u8_lawful fickle_settled fickle_runs (Demo.by8 0 7) 8 8 (by decide))
example := C85_panics Demo.u8_lawful fickle_runs (Demo.by8 7 6) 8 3
example := C85_sorted_disjoint Demo.u8_lawful fickle_runs
example := C85_contains_key Demo.u8_lawful fickle_runs (by decide) ⟨2⟩
example := C85_reachable Demo.u8_lawful fickle_runs (by decide)
-- everything is denied
example := C85_hangs (A := (⟨fun _ _ _ => false, fun _ _ _ => false⟩ : Answers Nat)) Demo.u8_lawful
  (show (⟨.ofNat 8 0⟩ : UIntW 8) ≤ ⟨.ofNat 8 4⟩ by decide) next_4_5
  (show _ ≤ (⟨.ofNat 8 8⟩ : UIntW 8) by decide) (a := 1) (b := 1) 0 (fun _ => rfl) (fun _ => rfl)

end Inclusive
end Verif.Props

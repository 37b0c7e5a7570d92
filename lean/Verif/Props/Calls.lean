import Verif.Props.Demo
import Verif.Proof.Calls
import Verif.Props.TreeCmp

/-!
# C88: how often `insert` and `remove` compare keys and values and call step functions
-/
set_option linter.unusedSectionVars false
set_option linter.unusedVariables false
namespace Verif.Props
open Verif.Spec

variable {K : Type} [LE K] [LT K] [DecidableLE K] [DecidableLT K]
  [Std.IsLinearPreorder K] [Std.LawfulOrderLT K] {V : Type} [BEq V] [PartialEquivBEq V]

section
open RangeMap

/-- **C88** `insert` ends as it does without a meter, having compared keys at most six times for
each stored range touching the given one and eighteen times more, and values at most twice for each
of those ranges and four times more. -/
theorem C88_insert {m : RangeMap K V} (hm : Reachable m) (r : Range K) (v : V) (w : Calls) :
    ∃ c : Calls, m.insertN r v w = (m.insert r v, w + c) ∧
      c.cmps ≤ 6 * howMany (Touch r) m.iter + 18 ∧
      c.eqs ≤ 2 * howMany (Touch r) m.iter + 4 ∧
      c.steps = 0 := by
  obtain ⟨c, h1, h2, h3, h4⟩ := insertN_runs m r v
  have h5 := (C59_insert_cost hm r v).1
  exact ⟨c, h1 w, by omega, by omega, by omega⟩

/-- **C88** `remove` ends as it does without a meter, having compared keys at most twice for each
stored range having points in common with the given one and eight times more, and no values. -/
theorem C88_remove {m : RangeMap K V} (hm : Reachable m) (r : Range K) (w : Calls) :
    ∃ c : Calls, m.removeN r w = (m.remove r, w + c) ∧
      c.cmps ≤ 2 * howMany (Common covers r) m.iter + 8 ∧ c.eqs = 0 ∧
      c.steps = 0 := by
  obtain ⟨c, h1, h2, h3, h4⟩ := removeN_runs m r
  have h5 := (C59_remove_cost hm r).1
  exact ⟨c, h1 w, by omega, by omega, by omega⟩

example := C88_remove (K := Nat) (V := Char) (m := Demo.map) Demo.map_reachable ⟨2, 22⟩ ⟨0, 0, 0⟩

/-- **C88** Given a range that is no valid range, `insert` and `remove` panic after one comparison
of keys, having called nothing else. -/
theorem C88_invalid (m : RangeMap K V) {r : Range K} (hr : ¬ r.start < r.stop) (v : V) (w : Calls) :
    m.insertN r v w = (.error .assertFailed, w + ⟨1, 0, 0⟩) ∧
    m.removeN r w = (.error .assertFailed, w + ⟨1, 0, 0⟩) := by
  have h : decide (r.start < r.stop) = false := decide_eq_false hr
  constructor
  · show (match Counted.lt r.start r.stop w with
      | (.ok a, w') => (if a = true then _ else Counted.lib (.error .assertFailed)) w'
      | (.error p, w') => (.error p, w')) = _
    show (if decide (r.start < r.stop) = true then _ else Counted.lib (.error .assertFailed))
      (w + ⟨1, 0, 0⟩) = _
    rw [h]
    rfl
  · show (if decide (r.start < r.stop) = true then _ else Counted.lib (.error .assertFailed))
      (w + ⟨1, 0, 0⟩) = _
    rw [h]
    rfl

theorem extendN_eq (items : List (Range K × V)) : ∀ (m : RangeMap K V) (w : Calls),
    ∃ c : Calls, m.extendN items w = (m.extend items, w + c) ∧
      c.cmps ≤ 6 * (m.extendCost items).searches + 6 * items.length ∧
      c.eqs ≤ 2 * (m.extendCost items).searches ∧
      c.steps = 0 := by
  induction items with
  | nil =>
    intro m w
    exact ⟨⟨0, 0, 0⟩, rfl, Nat.zero_le _, Nat.zero_le _, rfl⟩
  | cons e items ih =>
    intro m w
    obtain ⟨r, v⟩ := e
    obtain ⟨c, h1, h2, h3, h4⟩ := insertN_runs m r v
    simp only [extendN, extend, extendCost, h1, List.length_cons, Cost.add_searches]
    cases m.insert r v with
    | error p => exact ⟨c, rfl, by simp only; omega, by simp only; omega, by omega⟩
    | ok m' =>
      obtain ⟨c', k1, k2, k3, k4⟩ := ih m' (w + c)
      refine ⟨c + c', by simp only [k1, Calls.add_assoc], ?_, ?_, ?_⟩ <;>
        simp only [Calls.add_cmps, Calls.add_eqs, Calls.add_steps] <;> omega

theorem applyN_eq (m : RangeMap K V) (w : Calls) (op : Op (Range K) V) :
    ∃ c : Calls, m.applyN w op = (m.apply op, w + c) ∧
      c.cmps ≤ 6 * (m.opCost op).searches + 6 * op.count ∧
      c.eqs ≤ 2 * (m.opCost op).searches ∧
      c.steps = 0 := by
  cases op with
  | insert r v =>
    obtain ⟨c, h1, h2, h3, h4⟩ := insertN_runs m r v
    simp only [applyN, apply, opCost, h1, Op.count]
    refine ⟨c, ?_, by omega, by omega, by omega⟩
    cases m.insert r v <;> rfl
  | remove r =>
    obtain ⟨c, h1, h2, h3, h4⟩ := removeN_runs m r
    simp only [applyN, apply, opCost, h1, Op.count]
    refine ⟨c, ?_, by omega, by omega, by omega⟩
    cases m.remove r <;> rfl
  | clear => exact ⟨⟨0, 0, 0⟩, rfl, Nat.zero_le _, Nat.zero_le _, rfl⟩
  | extend items => exact extendN_eq items m w

/-- **C88** A history of calls ends as it does without meters, having compared keys at most 72 times
for each range handed to `insert` or `remove` and 12 times for each range stored before, and values
at most 22 and 4 times — however many ranges the single calls touch. -/
theorem C88_history (ops : List (Op (Range K) V)) {m : RangeMap K V} (hm : Reachable m)
    (w : Calls) :
    ∃ c : Calls, m.historyN w ops = (ops.foldl (fun m op => (m.apply op).1) m, w + c) ∧
      c.cmps ≤ 72 * (ops.map Op.count).sum + 12 * m.len ∧
      c.eqs ≤ 22 * (ops.map Op.count).sum + 4 * m.len ∧
      c.steps = 0 := by
  have h0 := C59_history_cost ops hm
  unfold Cost.total at h0
  suffices ∀ (m : RangeMap K V) (w : Calls),
      ∃ c : Calls, m.historyN w ops = (ops.foldl (fun m op => (m.apply op).1) m, w + c) ∧
      c.cmps ≤ 6 * (m.historyCost ops).searches + 6 * (ops.map Op.count).sum ∧
      c.eqs ≤ 2 * (m.historyCost ops).searches ∧
      c.steps = 0 by
    obtain ⟨c, h1, h2, h3, h4⟩ := this m w
    exact ⟨c, h1, by omega, by omega, by omega⟩
  clear h0 hm m w
  induction ops with
  | nil =>
    intro m w
    exact ⟨⟨0, 0, 0⟩, rfl, Nat.zero_le _, Nat.zero_le _, rfl⟩
  | cons op ops ih =>
    intro m w
    obtain ⟨c, h1, h2, h3, h4⟩ := applyN_eq m w op
    obtain ⟨c', k1, k2, k3, k4⟩ := ih (m.apply op).1 (w + c)
    refine ⟨c + c', ?_, ?_, ?_, ?_⟩
    · simp only [historyN, h1, k1, List.foldl_cons, Calls.add_assoc]
    all_goals
      simp only [Calls.add_cmps, Calls.add_eqs, Calls.add_steps, historyCost, List.map_cons,
        List.sum_cons, Cost.add_searches]
      omega

example := C88_history (K := Nat) (V := Char) Demo.ops (m := Demo.map) Demo.map_reachable ⟨0, 0, 0⟩

/-- **C88** All comparisons of keys in an `insert` — its own and those made inside the B-tree,
whatever its layouts — are at most logarithmic in the size of the map, for each stored range
touching the given one. -/
theorem C88_insert_total {m : RangeMap K V} (hm : Reachable m) {t : Tree (Range K × V)}
    (ht : t.toList = m.iter) (hb : t.IsBTree) {shapes : Tree.Shapes (Range K × V)}
    (hs : ∀ i t, (shapes.reshape i t).IsBTree) {h : Nat} (hl : m.len + 4 < 2 * 6 ^ h)
    (r : Range K) (v : V) :
    ∃ c : Calls, m.insertN r v ⟨0, 0, 0⟩ = (m.insert r v, c) ∧
      c.cmps + insertCmps shapes t r v ≤
        (33 * h + 8) * (howMany (Touch r) m.iter + 3) := by
  obtain ⟨c, h1, h2, -⟩ := C88_insert hm r v ⟨0, 0, 0⟩
  refine ⟨_, h1, ?_⟩
  have h3 := C87_insert hm ht hb hs hl r v
  show 0 + c.cmps + _ ≤ _
  generalize howMany (Touch r) m.iter = n at h2 h3 ⊢
  generalize insertCmps shapes t r v = b at h3 ⊢
  have e1 : (22 * h + 2) * (n + 2) = 22 * (h * n) + 44 * h + 2 * n + 4 := by grind
  have e2 : 11 * h * (n + 3) = 11 * (h * n) + 33 * h := by grind
  have e3 : (33 * h + 8) * (n + 3) = 33 * (h * n) + 99 * h + 8 * n + 8 * 3 := by grind
  omega

example := C88_insert_total (K := Nat) (V := Char) (m := Demo.map) Demo.map_reachable
    (Tree.IsBTree.exists _).choose_spec.2 (Tree.IsBTree.exists Demo.map.iter).choose_spec.1
    Tree.Shapes.balanced_exists.choose_spec (h := 3) (by decide) ⟨2, 22⟩ 'q'

/-- **C88** The same for `remove`. -/
theorem C88_remove_total {m : RangeMap K V} (hm : Reachable m) {t : Tree (Range K × V)}
    (ht : t.toList = m.iter) (hb : t.IsBTree) {shapes : Tree.Shapes (Range K × V)}
    (hs : ∀ i t, (shapes.reshape i t).IsBTree) {h : Nat} (hl : m.len + 3 < 2 * 6 ^ h)
    (r : Range K) :
    ∃ c : Calls, m.removeN r ⟨0, 0, 0⟩ = (m.remove r, c) ∧
      c.cmps + removeCmps shapes t r ≤
        (33 * h + 6) * (howMany (Common covers r) m.iter + 2) := by
  obtain ⟨c, h1, h2, -⟩ := C88_remove hm r ⟨0, 0, 0⟩
  refine ⟨_, h1, ?_⟩
  have h3 := C87_remove hm ht hb hs hl r
  show 0 + c.cmps + _ ≤ _
  generalize howMany (Common covers r) m.iter = n at h2 h3 ⊢
  generalize removeCmps shapes t r = b at h3 ⊢
  have e1 : (22 * h + 2) * (n + 2) = 22 * (h * n) + 44 * h + 2 * n + 4 := by grind
  have e2 : 11 * h * (n + 2) = 11 * (h * n) + 22 * h := by grind
  have e3 : (33 * h + 6) * (n + 2) = 33 * (h * n) + 66 * h + 6 * n + 12 := by grind
  omega

-- nothing touches the given range: two candidates looked at, three calls each, and the assertion
example : (Demo.map.insertN ⟨50, 60⟩ 'x' ⟨0, 0, 0⟩).2 = ⟨7, 0, 0⟩ := by rfl
-- all four stored ranges touch it
example : (Demo.map.insertN ⟨1, 30⟩ 'x' ⟨0, 0, 0⟩).2 = ⟨28, 5, 0⟩ := by rfl
example : (Demo.map.removeN ⟨1, 30⟩ ⟨0, 0, 0⟩).2 = ⟨12, 0, 0⟩ := by rfl
example : ∃ c : Calls, Demo.map.insertN ⟨1, 30⟩ 'x' ⟨0, 0, 0⟩ =
    (Demo.map.insert ⟨1, 30⟩ 'x', ⟨0, 0, 0⟩ + c) ∧
    c.cmps ≤ 6 * howMany (Touch ⟨1, 30⟩) Demo.map.iter + 18 ∧
    c.eqs ≤ 2 * howMany (Touch ⟨1, 30⟩) Demo.map.iter + 4 ∧ c.steps = 0 :=
  C88_insert Demo.map_reachable _ _ _
example : Demo.map.insertN ⟨5, 5⟩ 'x' ⟨3, 1, 0⟩ = (.error .assertFailed, ⟨4, 1, 0⟩) :=
  (C88_invalid Demo.map (by decide) 'x' ⟨3, 1, 0⟩).1
-- a history of eight ranges
example : ((RangeMap.new : RangeMap Nat Char).historyN ⟨0, 0, 0⟩ Demo.ops).2 = ⟨31, 2, 0⟩ := by rfl

end

namespace Inclusive
open RangeInclusiveMap
variable {S : StepFns K}

/-- **C88** `insert` ends as it does without a meter, having compared keys at most eight times for
each stored range touching the given one and 22 times more, and values at most twice for each of
those ranges and four times more, and called step functions at most three times for each of them and
seven times more. -/
theorem C88_insert (hS : LawfulSteps S) {m : RangeInclusiveMap K V} (hm : ReachableAny S m)
    (r : RangeInclusive K) (v : V) (w : Calls) :
    ∃ c : Calls, m.insertN S r v w = (m.insert S r v, w + c) ∧
      c.cmps ≤ 8 * howMany (ITouch r) m.iter + 22 ∧
      c.eqs ≤ 2 * howMany (ITouch r) m.iter + 4 ∧
      c.steps ≤ 3 * howMany (ITouch r) m.iter + 7 := by
  obtain ⟨c, h1, h2, h3, h4⟩ := insertN_runs S m r v
  have h5 := (C59_insert_cost hS hm r v).1
  exact ⟨c, h1 w, by omega, by omega, by omega⟩

/-- **C88** `remove` ends as it does without a meter, having compared keys at most twice for each
stored range having points in common with the given one and eight times more, and no values, and
called step functions at most twice for each of those ranges and four times more. -/
theorem C88_remove (hS : LawfulSteps S) {m : RangeInclusiveMap K V} (hm : ReachableAny S m)
    (r : RangeInclusive K) (w : Calls) :
    ∃ c : Calls, m.removeN S r w = (m.remove S r, w + c) ∧
      c.cmps ≤ 2 * howMany (Common icovers r) m.iter + 8 ∧ c.eqs = 0 ∧
      c.steps ≤ 2 * howMany (Common icovers r) m.iter + 4 := by
  obtain ⟨c, h1, h2, h3, h4⟩ := removeN_runs S m r
  have h5 := (C59_remove_cost hS hm r).1
  exact ⟨c, h1 w, by omega, by omega, by omega⟩

example := Inclusive.C88_remove (K := UIntW 8) (V := Char) (S := Demo.u8) Demo.u8_lawful
    (m := Demo.imap) Demo.imap_reachable.any (Demo.by8 2 22) ⟨0, 0, 0⟩

/-- **C88** Given a range that is no valid range, `insert` and `remove` panic after one comparison
of keys, having called nothing else. -/
theorem C88_invalid (m : RangeInclusiveMap K V) {r : RangeInclusive K} (hr : ¬ r.start ≤ r.stop)
    (v : V) (w : Calls) :
    m.insertN S r v w = (.error .assertFailed, w + ⟨1, 0, 0⟩) ∧
    m.removeN S r w = (.error .assertFailed, w + ⟨1, 0, 0⟩) := by
  have h : decide (r.start ≤ r.stop) = false := decide_eq_false hr
  constructor
  · show (match Counted.le r.start r.stop w with
      | (.ok a, w') => (if a = true then _ else Counted.lib (.error .assertFailed)) w'
      | (.error p, w') => (.error p, w')) = _
    show (if decide (r.start ≤ r.stop) = true then _ else Counted.lib (.error .assertFailed))
      (w + ⟨1, 0, 0⟩) = _
    rw [h]
    rfl
  · show (if decide (r.start ≤ r.stop) = true then _ else Counted.lib (.error .assertFailed))
      (w + ⟨1, 0, 0⟩) = _
    rw [h]
    rfl

example := Inclusive.C88_invalid (K := UIntW 8) (V := Char) (S := Demo.u8) Demo.imap
    (r := Demo.by8 9 4) (by decide) 'q' ⟨0, 0, 0⟩

theorem extendN_eq (items : List (RangeInclusive K × V)) : ∀ (m : RangeInclusiveMap K V)
    (w : Calls),
    ∃ c : Calls, m.extendN S items w = (m.extend S items, w + c) ∧
      c.cmps ≤ 8 * (m.extendCost S items).searches + 6 * items.length ∧
      c.eqs ≤ 2 * (m.extendCost S items).searches ∧
      c.steps ≤ 3 * (m.extendCost S items).searches + items.length := by
  induction items with
  | nil =>
    intro m w
    exact ⟨⟨0, 0, 0⟩, rfl, Nat.zero_le _, Nat.zero_le _, Nat.zero_le _⟩
  | cons e items ih =>
    intro m w
    obtain ⟨r, v⟩ := e
    obtain ⟨c, h1, h2, h3, h4⟩ := insertN_runs S m r v
    simp only [extendN, extend, extendCost, h1, List.length_cons, Cost.add_searches]
    cases m.insert S r v with
    | error p => exact ⟨c, rfl, by simp only; omega, by simp only; omega, by omega⟩
    | ok m' =>
      obtain ⟨c', k1, k2, k3, k4⟩ := ih m' (w + c)
      refine ⟨c + c', by simp only [k1, Calls.add_assoc], ?_, ?_, ?_⟩ <;>
        simp only [Calls.add_cmps, Calls.add_eqs, Calls.add_steps] <;> omega

theorem applyN_eq (m : RangeInclusiveMap K V) (w : Calls) (op : Op (RangeInclusive K) V) :
    ∃ c : Calls, m.applyN S w op = (m.apply S op, w + c) ∧
      c.cmps ≤ 8 * (m.opCost S op).searches + 6 * op.count ∧
      c.eqs ≤ 2 * (m.opCost S op).searches ∧
      c.steps ≤ 3 * (m.opCost S op).searches + op.count := by
  cases op with
  | insert r v =>
    obtain ⟨c, h1, h2, h3, h4⟩ := insertN_runs S m r v
    simp only [applyN, apply, opCost, h1, Op.count]
    refine ⟨c, ?_, by omega, by omega, by omega⟩
    cases m.insert S r v <;> rfl
  | remove r =>
    obtain ⟨c, h1, h2, h3, h4⟩ := removeN_runs S m r
    simp only [applyN, apply, opCost, h1, Op.count]
    refine ⟨c, ?_, by omega, by omega, by omega⟩
    cases m.remove S r <;> rfl
  | clear => exact ⟨⟨0, 0, 0⟩, rfl, Nat.zero_le _, Nat.zero_le _, Nat.zero_le _⟩
  | extend items => exact extendN_eq (S := S) items m w

/-- **C88** A history of calls ends as it does without meters, having compared keys at most 94 times
for each range handed to `insert` or `remove` and 16 times for each range stored before, and values
at most 22 and 4 times, and called step functions at most 34 and 6 times — however many ranges the
single calls touch. -/
theorem C88_history (ops : List (Op (RangeInclusive K) V)) (hS : LawfulSteps S)
    {m : RangeInclusiveMap K V} (hm : ReachableAny S m)
    (w : Calls) :
    ∃ c : Calls, m.historyN S w ops = (ops.foldl (fun m op => (m.apply S op).1) m, w + c) ∧
      c.cmps ≤ 94 * (ops.map Op.count).sum + 16 * m.len ∧
      c.eqs ≤ 22 * (ops.map Op.count).sum + 4 * m.len ∧
      c.steps ≤ 34 * (ops.map Op.count).sum + 6 * m.len := by
  have h0 := C59_history_cost hS ops hm
  unfold Cost.total at h0
  suffices ∀ (m : RangeInclusiveMap K V) (w : Calls),
      ∃ c : Calls, m.historyN S w ops = (ops.foldl (fun m op => (m.apply S op).1) m, w + c) ∧
      c.cmps ≤ 8 * (m.historyCost S ops).searches + 6 * (ops.map Op.count).sum ∧
      c.eqs ≤ 2 * (m.historyCost S ops).searches ∧
      c.steps ≤ 3 * (m.historyCost S ops).searches + (ops.map Op.count).sum by
    obtain ⟨c, h1, h2, h3, h4⟩ := this m w
    exact ⟨c, h1, by omega, by omega, by omega⟩
  clear h0 hm m w
  induction ops with
  | nil =>
    intro m w
    exact ⟨⟨0, 0, 0⟩, rfl, Nat.zero_le _, Nat.zero_le _, Nat.zero_le _⟩
  | cons op ops ih =>
    intro m w
    obtain ⟨c, h1, h2, h3, h4⟩ := applyN_eq (S := S) m w op
    obtain ⟨c', k1, k2, k3, k4⟩ := ih (m.apply S op).1 (w + c)
    refine ⟨c + c', ?_, ?_, ?_, ?_⟩
    · simp only [historyN, h1, k1, List.foldl_cons, Calls.add_assoc]
    all_goals
      simp only [Calls.add_cmps, Calls.add_eqs, Calls.add_steps, historyCost, List.map_cons,
        List.sum_cons, Cost.add_searches]
      omega

example := Inclusive.C88_history (K := UIntW 8) (V := Char) (S := Demo.u8) Demo.iops
    Demo.u8_lawful (m := Demo.imap) Demo.imap_reachable.any ⟨0, 0, 0⟩

/-- **C88** All comparisons of keys in an `insert` — its own and those made inside the B-tree,
whatever its layouts — are at most logarithmic in the size of the map, for each stored range
touching the given one. -/
theorem C88_insert_total (hS : LawfulSteps S) {m : RangeInclusiveMap K V} (hm : ReachableAny S m)
    {t : Tree (RangeInclusive K × V)}
    (ht : t.toList = m.iter) (hb : t.IsBTree) {shapes : Tree.Shapes (RangeInclusive K × V)}
    (hs : ∀ i t, (shapes.reshape i t).IsBTree) {h : Nat} (hl : m.len + 4 < 2 * 6 ^ h)
    (r : RangeInclusive K) (v : V) :
    ∃ c : Calls, m.insertN S r v ⟨0, 0, 0⟩ = (m.insert S r v, c) ∧
      c.cmps + insertCmps S shapes t r v ≤
        (33 * h + 10) * (howMany (ITouch r) m.iter + 3) := by
  obtain ⟨c, h1, h2, -⟩ := C88_insert hS hm r v ⟨0, 0, 0⟩
  refine ⟨_, h1, ?_⟩
  have h3 := C87_insert hS hm ht hb hs hl r v
  show 0 + c.cmps + _ ≤ _
  generalize howMany (ITouch r) m.iter = n at h2 h3 ⊢
  generalize insertCmps S shapes t r v = b at h3 ⊢
  have e1 : (22 * h + 2) * (n + 2) = 22 * (h * n) + 44 * h + 2 * n + 4 := by grind
  have e2 : 11 * h * (n + 3) = 11 * (h * n) + 33 * h := by grind
  have e3 : (33 * h + 10) * (n + 3) = 33 * (h * n) + 99 * h + 10 * n + 10 * 3 := by grind
  omega

example := Inclusive.C88_insert_total (K := UIntW 8) (V := Char) (S := Demo.u8) Demo.u8_lawful
    (m := Demo.imap) Demo.imap_reachable.any (Tree.IsBTree.exists _).choose_spec.2
    (Tree.IsBTree.exists Demo.imap.iter).choose_spec.1 Tree.Shapes.balanced_exists.choose_spec
    (h := 3) (by decide) (Demo.by8 2 22) 'q'

/-- **C88** The same for `remove`. -/
theorem C88_remove_total (hS : LawfulSteps S) {m : RangeInclusiveMap K V} (hm : ReachableAny S m)
    {t : Tree (RangeInclusive K × V)}
    (ht : t.toList = m.iter) (hb : t.IsBTree) {shapes : Tree.Shapes (RangeInclusive K × V)}
    (hs : ∀ i t, (shapes.reshape i t).IsBTree) {h : Nat} (hl : m.len + 3 < 2 * 6 ^ h)
    (r : RangeInclusive K) :
    ∃ c : Calls, m.removeN S r ⟨0, 0, 0⟩ = (m.remove S r, c) ∧
      c.cmps + removeCmps S shapes t r ≤
        (33 * h + 6) * (howMany (Common icovers r) m.iter + 2) := by
  obtain ⟨c, h1, h2, -⟩ := C88_remove hS hm r ⟨0, 0, 0⟩
  refine ⟨_, h1, ?_⟩
  have h3 := C87_remove hS hm ht hb hs hl r
  show 0 + c.cmps + _ ≤ _
  generalize howMany (Common icovers r) m.iter = n at h2 h3 ⊢
  generalize removeCmps S shapes t r = b at h3 ⊢
  have e1 : (22 * h + 2) * (n + 2) = 22 * (h * n) + 44 * h + 2 * n + 4 := by grind
  have e2 : 11 * h * (n + 2) = 11 * (h * n) + 22 * h := by grind
  have e3 : (33 * h + 6) * (n + 2) = 33 * (h * n) + 66 * h + 6 * n + 12 := by grind
  omega

example : (Demo.imap.insertN Demo.u8 (Demo.by8 1 30) 'x' ⟨0, 0, 0⟩).2 = ⟨31, 5, 3⟩ := by
  decide +kernel
example : (Demo.imap.removeN Demo.u8 (Demo.by8 1 30) ⟨0, 0, 0⟩).2 = ⟨12, 0, 2⟩ := by decide +kernel
example : ∃ c : Calls, Demo.imap.insertN Demo.u8 (Demo.by8 50 60) 'x' ⟨0, 0, 0⟩ =
      (Demo.imap.insert Demo.u8 (Demo.by8 50 60) 'x', ⟨0, 0, 0⟩ + c) ∧
    c.cmps ≤ 8 * howMany (ITouch (Demo.by8 50 60)) Demo.imap.iter + 22 ∧
    c.eqs ≤ 2 * howMany (ITouch (Demo.by8 50 60)) Demo.imap.iter + 4 ∧
    c.steps ≤ 3 * howMany (ITouch (Demo.by8 50 60)) Demo.imap.iter + 7 :=
  C88_insert Demo.u8_lawful Demo.imap_reachable.any _ _ _

end Inclusive
end Verif.Props

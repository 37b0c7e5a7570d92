import Verif.Proof.ICost
import Verif.Proof.IAppend

/-!
# What inserting behind all stored ranges costs
-/
set_option linter.unusedSectionVars false
set_option linter.unusedVariables false

namespace Verif
variable {K : Type} [LE K] [LT K] [DecidableLE K] [DecidableLT K]
  [Std.IsLinearPreorder K] [Std.LawfulOrderLT K]

namespace RangeMap
variable {V : Type} [BEq V] [PartialEquivBEq V]

/-- The loop of `insert` searches once if nothing is stored from the new range on. -/
theorem insertLoop_end {m : List (Range K × V)} {n : Range K} {hi : K} (v : V) (f : Nat)
    (h : ∀ y ∈ m, y.1.start < n.start) (hh : n.start ≤ hi) :
    (insertLoopC hi v (f + 1) n).cost Range.start m = ⟨1, 0, 0⟩ := by
  have hrg : BTreeMap.range Range.start (.included n.start) (.included hi) m = .ok [] := by
    rw [BTreeMap.range_ok (by simp only [Bound.invalid]; grind)]
    rw [List.filter_eq_nil_iff.2]
    intro y hy
    have := h y hy
    simp only [Bound.admitsAsLower, Bool.and_eq_true, decide_eq_true_eq]
    grind
  unfold insertLoopC
  rw [Cr.cost_range_bind hrg]
  rfl

theorem insertPrefix_end {m : List (Range K × V)} {r : Range K} (v : V) (h : WF m)
    (hr : r.start < r.stop) (hl : ∀ x ∈ m, x.1.stop ≤ r.start) :
    ∃ m1 n1 d, insertPrefix m r v = .ok (m1, n1) ∧
      (insertPrefixC r v).cost Range.start m = ⟨1, 0, d⟩ ∧ (∀ y ∈ m1, y.1.start < n1.start) := by
  have hrg := BTreeMap.range_ok (key := Range.start) (lo := .unbounded) (hi := .included r.start)
    (m := m) rfl
  generalize hl' : m.filter _ = l at hrg
  have key : ∀ x ∈ (l.reverse.take 2).filter fun e => e.1.touches r,
      ∃ m1 n1 d, adjustTouchingRangesForInsert m x.1 x.2 r v = (m1, n1) ∧
        (adjustTouchingRangesForInsertC x.1 x.2 r v).cost Range.start m = ⟨0, 0, d⟩ ∧
        (∀ y ∈ m1, y.1.start < n1.start) := by
    intro x hx
    rw [List.mem_filter] at hx
    have hxm : x ∈ m := by
      have := List.mem_reverse.1 ((List.take_sublist _ _).subset hx.1)
      rw [← hl', List.mem_filter] at this
      exact this.1
    have ht := hx.2
    simp only [Range.touches, decide_eq_true_eq, le_rmin, rmax_le] at ht
    have hov : ¬ r.overlaps x.1 = true := by
      have := hl x hxm
      simp only [Range.overlaps, decide_eq_true_eq, lt_rmin, rmax_lt]
      grind
    rw [adjustInsert_cost]
    unfold adjustTouchingRangesForInsert
    by_cases hv : (x.2 == v) = true
    · simp only [if_pos hv]
      refine ⟨_, _, _, rfl, rfl, fun y hy => ?_⟩
      rw [BTreeMap.mem_remove (fun _ _ h => h.1) h.sep.pw] at hy
      have h1 := h.sep.tri x hxm y hy.1
      have h2 := hl y hy.1
      have h3 := hl x hxm
      have h4 := h.sep.ne y hy.1
      have h5 := h.sep.ne x hxm
      simp only [lt_rmin]
      grind [Before]
    · simp only [if_neg hv, if_neg hov]
      refine ⟨_, _, _, rfl, rfl, fun y hy => ?_⟩
      have h2 := hl y hy
      have h4 := h.sep.ne y hy
      grind
  unfold insertPrefix insertPrefixC
  rw [Cr.cost_range_bind hrg, Cr.cost_user_bind, hrg]
  simp only [bind, Except.bind, pure, Except.pure]
  generalize (l.reverse.take 2).filter (fun e => e.1.touches r) = cs at key
  match cs, key with
  | [], _ =>
    refine ⟨_, _, 0, rfl, rfl, fun y hy => ?_⟩
    have h2 := hl y hy
    have h4 := h.sep.ne y hy
    grind
  | [x], key =>
    obtain ⟨m1, n1, d, e1, e2, e3⟩ := key x (by simp)
    refine ⟨m1, n1, d, congrArg Except.ok e1, ?_, e3⟩
    refine (congrArg _ (Cr.cost_user_bind _ _ _)).trans ?_
    rw [e2]
    exact Cost.ext rfl rfl (Nat.zero_add _)
  | _ :: x :: _, key =>
    obtain ⟨m1, n1, d, e1, e2, e3⟩ := key x (by simp)
    refine ⟨m1, n1, d, congrArg Except.ok e1, ?_, e3⟩
    refine (congrArg _ (Cr.cost_user_bind _ _ _)).trans ?_
    rw [e2]
    exact Cost.ext rfl rfl (Nat.zero_add _)

/-- Inserting behind all stored ranges: two searches, one entry stored. -/
theorem insert_end {m : RangeMap K V} {r : Range K} (v : V) (h : WF m.btm)
    (hr : r.start < r.stop) (hl : ∀ x ∈ m.btm, x.1.stop ≤ r.start) :
    (m.insertCost r v).searches = 2 ∧ (m.insertCost r v).puts = 1 := by
  obtain ⟨m1, n1, d, hpre, hc1, hend⟩ := insertPrefix_end v h hr hl
  obtain ⟨k1, k2, k3⟩ := insertPrefix_sim h.sep h.coal hr hpre
  have hne := k1.ne
  have hns := k1.ns
  have hc2 := insertLoop_end v (m.len + 1) hend (hi := n1.stop) (by grind)
  obtain ⟨m1', n1', hpre', hi1, hl1, hlen1, hst1⟩ := insertPrefix_spec (v := v) hr h.sep h.coal
  rw [hpre] at hpre'
  cases hpre'
  obtain ⟨m2, n2, hloop, -⟩ :=
    insertLoop_spec (hi := n1.stop) hr (m.len + 1) m1 n1 hi1 hl1 ⟨by grind, by grind⟩ hi1.ne
      (Or.inl hlen1)
  have hlo := hloop (m.len + 2) (by omega)
  have k4 := insertLoop_sim h.sep h.coal hr _ _ _ _ _ k1 k2 (by grind) hlo
  have hcost : m.insertCost r v = (insertPrefixC r v).cost Range.start m.btm +
      ((insertLoopC n1.stop v (m.len + 2) n1).cost Range.start m1 + ⟨0, 1, 0⟩) := by
    unfold insertCost insertProgram
    refine (Cr.cost_user_bind _ _ _).trans ?_
    rw [if_pos hr]
    show Cr.cost Range.start (Cr.bind (insertPrefixC r v) _) m.btm = _
    refine (k3.cost_bind _).trans (congrArg _ ?_)
    refine (Cr.cost_user_bind _ _ _).trans ?_
    refine (k4.cost_bind _).trans (congrArg _ ?_)
    exact Cr.cost_insert_bind _ _ _ _ _
  rw [hcost, hc1, hc2]
  exact ⟨rfl, rfl⟩

end RangeMap

namespace RangeInclusiveMap
open Spec
variable {V : Type} [BEq V] [PartialEquivBEq V] {S : StepFns K}

/-- The loop of `insert` searches once if nothing is stored from the new range on. -/
theorem insertLoop_end (S : StepFns K) {m : List (RangeInclusive K × V)} {n : RangeInclusive K}
    {hi : K} (v : V) (f : Nat) (h : ∀ y ∈ m, y.1.start < n.start) :
    (insertLoopC S hi v (f + 1) n).cost RangeInclusive.start m = ⟨1, 0, 0⟩ := by
  have hrg : BTreeMap.range RangeInclusive.start (.included n.start) .unbounded m = .ok [] := by
    rw [BTreeMap.range_ok (by simp only [Bound.invalid])]
    rw [List.filter_eq_nil_iff.2]
    intro y hy
    have := h y hy
    simp only [Bound.admitsAsLower, Bool.and_eq_true, decide_eq_true_eq]
    grind
  unfold insertLoopC
  rw [Cr.cost_range_bind hrg]
  rfl

theorem insertPrefix_end (hS : LawfulSteps S) {m : List (RangeInclusive K × V)}
    {r : RangeInclusive K} (v : V) (h : SC m)
    (hr : r.start ≤ r.stop) (hl : ∀ x ∈ m, x.1.stop < r.start) :
    ∃ m1 n1 d, insertPrefix S m r v = .ok (m1, n1) ∧
      (insertPrefixC S r v).cost RangeInclusive.start m = ⟨1, 0, d⟩ ∧
      (∀ y ∈ m1, y.1.start < n1.start) := by
  have hrg := BTreeMap.range_ok (key := RangeInclusive.start) (lo := .unbounded)
    (hi := .included r.start) (m := m) rfl
  generalize hl' : m.filter _ = l at hrg
  have hlm : ∀ x ∈ l.reverse.take 2, x ∈ m := by
    intro x hx
    have := List.mem_reverse.1 ((List.take_sublist _ _).subset hx)
    rw [← hl', List.mem_filter] at this
    exact this.1
  have htouch : ∀ x ∈ m, ∃ b, x.1.touches S r = .ok b := by
    intro x hx
    have h1 := hl x hx
    have h2 := h.sep.ne x hx
    obtain ⟨b, hb, -⟩ := touches_spec hS (c := x.1) hr (by grind) h2
    exact ⟨b, hb⟩
  obtain ⟨cs, hcs, hcm⟩ := filterE_mem (p := fun e : RangeInclusive K × V => e.1.touches S r)
    (l := l.reverse.take 2) fun x hx => htouch x (hlm x hx)
  have key : ∀ x ∈ cs,
      ∃ m1 n1 d, adjustTouchingRangesForInsert S m x.1 x.2 r v = .ok (m1, n1) ∧
        (adjustTouchingRangesForInsertC S x.1 x.2 r v).cost RangeInclusive.start m = ⟨0, 0, d⟩ ∧
        (∀ y ∈ m1, y.1.start < n1.start) := by
    intro x hx
    have hx := hcm x hx
    have hxm := hlm x hx.1
    have h3 := hl x hxm
    have h5 := h.sep.ne x hxm
    obtain ⟨b, hb, hbt⟩ := touches_spec hS (c := x.1) hr (by grind) h5
    rw [hb] at hx
    have ht := hbt.1 (Except.ok.inj hx.2)
    have hov : ¬ r.overlaps x.1 = true := by
      simp only [RangeInclusive.overlaps, decide_eq_true_eq, le_rmin, rmax_le]
      grind
    unfold adjustTouchingRangesForInsert adjustTouchingRangesForInsertC
    rw [Cr.cost_user_bind]
    by_cases hv : (x.2 == v) = true
    · simp only [if_pos hv]
      refine ⟨_, _, _, rfl, rfl, fun y hy => ?_⟩
      rw [BTreeMap.mem_remove (fun _ _ h => h.1) h.sep.pw] at hy
      have h1 := h.sep.tri x hxm y hy.1
      have h2 := hl y hy.1
      have h4 := h.sep.ne y hy.1
      simp only [RangeInclusive.mk', lt_rmin]
      have : ¬ x.1.stop < y.1.start := by
        intro hc
        rcases ht with ht | ht
        · grind
        · have := ht.2 y.1.start hc
          grind
      grind [Before]
    · simp only [if_neg hv, if_neg hov]
      rw [Cr.cost_user_bind]
      refine ⟨_, _, _, rfl, rfl, fun y hy => ?_⟩
      have h2 := hl y hy
      have h4 := h.sep.ne y hy
      grind
  unfold insertPrefix insertPrefixC
  rw [Cr.cost_range_bind hrg, Cr.cost_user_bind, hrg]
  simp only [bind, Except.bind, pure, Except.pure, hcs]
  match cs, key with
  | [], _ =>
    refine ⟨_, _, 0, rfl, rfl, fun y hy => ?_⟩
    have h2 := hl y hy
    have h4 := h.sep.ne y hy
    grind
  | [x], key =>
    obtain ⟨m1, n1, d, e1, e2, e3⟩ := key x (by simp)
    refine ⟨m1, n1, d, e1, ?_, e3⟩
    refine (congrArg _ (Cr.cost_user_bind _ _ _)).trans ?_
    rw [e2]
    exact Cost.ext rfl rfl (Nat.zero_add _)
  | _ :: x :: _, key =>
    obtain ⟨m1, n1, d, e1, e2, e3⟩ := key x (by simp)
    refine ⟨m1, n1, d, e1, ?_, e3⟩
    refine (congrArg _ (Cr.cost_user_bind _ _ _)).trans ?_
    rw [e2]
    exact Cost.ext rfl rfl (Nat.zero_add _)

/-- Inserting behind all stored ranges: two searches, one entry stored. -/
theorem insert_end (hS : LawfulSteps S) {m : RangeInclusiveMap K V} {r : RangeInclusive K} (v : V)
    (h : SC m.btm) (hr : r.start ≤ r.stop) (hl : ∀ x ∈ m.btm, x.1.stop < r.start) :
    (m.insertCost S r v).searches = 2 ∧ (m.insertCost S r v).puts = 1 := by
  obtain ⟨m1, n1, d, hpre, hc1, hend⟩ := insertPrefix_end hS v h hr hl
  obtain ⟨k1, k2, k3⟩ := insertPrefix_sim hS h.sep h.coal hr hpre
  have hne := k1.ne
  have hns := k1.ns
  have hc2 := insertLoop_end S v (m.len + 1) hend (hi := n1.stop)
  obtain ⟨m1', n1', hpre', hi1, hl1, hlen1, hst1⟩ := insertPrefix_spec (v := v) hS hr h.sep h.coal
  rw [hpre] at hpre'
  cases hpre'
  obtain ⟨m2, n2, hloop, -⟩ :=
    insertLoop_spec (hi := n1.stop) hS hr (m.len + 1) m1 n1 hi1 hl1 ⟨by grind, by grind⟩ hi1.ne
      (Or.inl hlen1)
  have hlo := hloop (m.len + 2) (by omega)
  have k4 := insertLoop_sim hS h.sep h.coal hr _ _ _ _ _ k1 k2 (by grind) hlo
  have hcost : m.insertCost S r v = (insertPrefixC S r v).cost RangeInclusive.start m.btm +
      ((insertLoopC S n1.stop v (m.len + 2) n1).cost RangeInclusive.start m1 + ⟨0, 1, 0⟩) := by
    unfold insertCost insertProgram
    refine (Cr.cost_user_bind _ _ _).trans ?_
    rw [if_pos hr]
    show Cr.cost RangeInclusive.start (Cr.bind (insertPrefixC S r v) _) m.btm = _
    refine (k3.cost_bind _).trans (congrArg _ ?_)
    refine (Cr.cost_user_bind _ _ _).trans ?_
    refine (k4.cost_bind _).trans (congrArg _ ?_)
    exact Cr.cost_insert_bind _ _ _ _ _
  rw [hcost, hc1, hc2]
  exact ⟨rfl, rfl⟩

end RangeInclusiveMap
end Verif

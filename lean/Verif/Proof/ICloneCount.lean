import Verif.Proof.CloneCount
import Verif.Proof.ICost

/-!
# Counting clones: inclusive maps
-/
set_option linter.unusedSectionVars false
set_option linter.unusedVariables false
namespace Verif.RangeInclusiveMap
open Spec (Next LawfulSteps)
open Cl
variable {K V : Type} [LE K] [LT K] [DecidableLE K] [DecidableLT K]
  [Std.IsLinearPreorder K] [Std.LawfulOrderLT K] {S : StepFns K}

omit [Std.IsLinearPreorder K] [Std.LawfulOrderLT K] in
theorem insertLeftL_clones (m : List (RangeInclusive K × V)) (x : RangeInclusive K) (v : V)
    (n : RangeInclusive K) :
    (insertLeftL S m x v n).keys ≤ (if x.start < n.start then 1 else 0) ∧
    (insertLeftL S m x v n).vals ≤ if x.start < n.start then 1 else 0 := by
  unfold insertLeftL
  by_cases h : x.start < n.start
  · simp only [if_pos h, keys_bind, vals_bind, keys_lib,
      vals_lib, eval_lib]
    cases S.subOne n.start <;> exact ⟨Nat.le_of_ble_eq_true rfl, Nat.le_of_ble_eq_true rfl⟩
  · simp only [if_neg h]
    exact ⟨Nat.zero_le _, Nat.zero_le _⟩

omit [Std.IsLinearPreorder K] [Std.LawfulOrderLT K] in
theorem insertRightL_clones (m : List (RangeInclusive K × V)) (x : RangeInclusive K) (v : V)
    (n : RangeInclusive K) :
    (insertRightL S m x v n).keys ≤ (if n.stop < x.stop then 1 else 0) ∧
    (insertRightL S m x v n).vals = 0 := by
  unfold insertRightL
  by_cases h : n.stop < x.stop
  · simp only [if_pos h, keys_bind, vals_bind, keys_lib, vals_lib, eval_lib]
    cases S.addOne n.stop <;> exact ⟨Nat.le_of_ble_eq_true rfl, rfl⟩
  · simp only [if_neg h]
    exact ⟨Nat.zero_le _, rfl⟩

omit [Std.IsLinearPreorder K] [Std.LawfulOrderLT K] in
theorem keys_bind_le {α β : Type} (x : Cl K V α) (f : α → Cl K V β) (n : Nat)
    (h : ∀ a, (f a).keys ≤ n) : (x >>= f).keys ≤ x.keys + n := by
  rw [keys_bind]
  cases x.eval with
  | error p => simp
  | ok a => simpa using h a

omit [Std.IsLinearPreorder K] [Std.LawfulOrderLT K] in
theorem vals_bind_le {α β : Type} (x : Cl K V α) (f : α → Cl K V β) (n : Nat)
    (h : ∀ a, (f a).vals ≤ n) : (x >>= f).vals ≤ x.vals + n := by
  rw [vals_bind]
  cases x.eval with
  | error p => simp
  | ok a => simpa using h a

omit [Std.IsLinearPreorder K] [Std.LawfulOrderLT K] in
theorem cutL_clones (m : List (RangeInclusive K × V)) (x : RangeInclusive K) (v : V)
    (n : RangeInclusive K) :
    (adjustOverlappingRangesForRemoveL S m x v n).keys ≤
      (if x.start < n.start then 1 else 0) + (if n.stop < x.stop then 1 else 0) ∧
    (adjustOverlappingRangesForRemoveL S m x v n).vals ≤ if x.start < n.start then 1 else 0 := by
  unfold adjustOverlappingRangesForRemoveL
  constructor
  · refine Nat.le_trans (keys_bind_le _ _ _ fun a => (insertRightL_clones a x v n).1) ?_
    exact Nat.add_le_add_right (insertLeftL_clones _ x v n).1 _
  · refine Nat.le_trans (vals_bind_le _ _ 0 fun a =>
      Nat.le_of_eq (insertRightL_clones a x v n).2) ?_
    exact (insertLeftL_clones _ x v n).2

section
variable [BEq V]

omit [Std.IsLinearPreorder K] [Std.LawfulOrderLT K] in
theorem adjustInsertL_clones (m : List (RangeInclusive K × V)) (x : RangeInclusive K) (w : V)
    (n : RangeInclusive K) (v : V) :
    (adjustTouchingRangesForInsertL S m x w n v).keys ≤
      (if w == v then 2 else if n.overlaps x then
        (if x.start < n.start then 1 else 0) + (if n.stop < x.stop then 1 else 0) else 0) ∧
    (adjustTouchingRangesForInsertL S m x w n v).vals ≤
      (if w == v then 0 else if n.overlaps x then (if x.start < n.start then 1 else 0) else 0) := by
  unfold adjustTouchingRangesForInsertL
  by_cases hw : (w == v) = true
  · simp only [if_pos hw]
    exact ⟨Nat.le_refl 2, Nat.le_refl 0⟩
  · simp only [if_neg hw]
    by_cases ho : n.overlaps x = true
    · simp only [if_pos ho]
      constructor
      · refine Nat.le_trans (keys_bind_le _ _ _ fun a =>
          Nat.le_trans (keys_bind_le _ _ 0 fun _ => Nat.le_refl 0) (insertRightL_clones a x w n).1) ?_
        exact Nat.add_le_add_right (insertLeftL_clones _ x w n).1 _
      · refine Nat.le_trans (vals_bind_le _ _ 0 fun a =>
          Nat.le_trans (vals_bind_le _ _ 0 fun _ => Nat.le_refl 0)
            (Nat.le_of_eq (insertRightL_clones a x w n).2)) ?_
        exact (insertLeftL_clones _ x w n).2
    · simp only [if_neg ho]
      exact ⟨Nat.le_refl 0, Nat.le_refl 0⟩

variable [PartialEquivBEq V]

theorem insertLoopL_clones (hS : LawfulSteps S)
    {m0 : List (RangeInclusive K × V)} {r : RangeInclusive K} {v : V} {hi : K} (h0 : Sep m0)
    (c0 : Coal m0) (hr : r.start ≤ r.stop) : ∀ (fuel : Nat) (m : List (RangeInclusive K × V))
    (n : RangeInclusive K) (m' : List (RangeInclusive K × V)) (n' : RangeInclusive K) (c : Cost),
    IInv m0 r v m n → EInv S m0 r v m n →
    hi ≤ n.stop → insertLoop S hi v fuel m n = .ok (m', n') →
    (insertLoopC S hi v fuel n).cost RangeInclusive.start m = c →
    (insertLoopL S hi v fuel m n).keys ≤ 4 * c.deletes ∧
    (insertLoopL S hi v fuel m n).vals = c.deletes := by
  intro fuel
  induction fuel with
  | zero => intro m n m' n' c _ _ _ h; simp [insertLoop] at h
  | succ f ih =>
    intro m n m' n' c hiv he hh h hc
    have hl := he.left hS hr hiv
    unfold insertLoop at h
    unfold insertLoopC at hc
    unfold insertLoopL
    cases hrg : BTreeMap.range RangeInclusive.start (.included n.start) .unbounded m with
    | error p => simp [hrg, bind, Except.bind] at h
    | ok l =>
      simp only [hrg, bind, Except.bind] at h
      rw [Cr.cost_range_bind hrg] at hc
      rw [keys_lib_bind rfl, vals_lib_bind rfl]
      cases hd : l.head? with
      | none =>
        simp only [hd, pure, Except.pure, Except.ok.injEq, Prod.mk.injEq] at h hc
        subst hc
        exact ⟨Nat.zero_le _, rfl⟩
      | some x =>
        have hx : x ∈ m ∧ n.start ≤ x.1.start := by
          have h1 := List.mem_of_head? hd
          unfold BTreeMap.range at hrg
          split at hrg
          · simp at hrg
          · simp only [Except.ok.injEq] at hrg
            rw [← hrg, List.mem_filter] at h1
            simpa [Bound.admitsAsLower, Bound.admitsAsUpper] using h1
        have hxn := hiv.sep.ne x hx.1
        obtain ⟨b, hb, hbt⟩ := breakCond_spec hS hi v x
        simp only [hd, hb] at h hc ⊢
        rw [(breakCond_sim (P := fun _ => True) trivial hb).cost_bind, breakCond_cost] at hc
        rw [keys_lib_bind rfl, vals_lib_bind rfl]
        cases b with
        | true =>
          simp only [if_true, pure, Except.pure, Except.ok.injEq, Prod.mk.injEq] at h hc
          subst hc
          exact ⟨Nat.zero_le _, rfl⟩
        | false =>
          simp only [Bool.false_eq_true, if_false] at h hc ⊢
          rw [Cr.cost_user_bind] at hc
          have hns := hiv.ns
          have hne := hiv.ne
          have hnb : ¬ (hi < x.1.start ∧ (Next hi x.1.start → (x.2 == v) = false)) := by
            rw [← hbt]; simp
          have ht1 : (x.1.start ≤ n.stop ∨ Next n.stop x.1.start) ∧
              ((x.2 == v) = true ∨ x.1.start ≤ n.stop) := by
            by_cases hlt : x.1.start ≤ n.stop
            · exact ⟨Or.inl hlt, Or.inr hlt⟩
            · have h1 : hi < x.1.start := by grind
              have h2 : Next hi x.1.start ∧ (x.2 == v) = true :=
                Classical.byContradiction fun hc => hnb ⟨h1, fun h => by
                  cases hv : x.2 == v with
                  | true => exact absurd ⟨h, hv⟩ hc
                  | false => rfl⟩
              exact ⟨Or.inr ⟨by grind, fun d hd => h2.1.2 d (by grind)⟩, Or.inl h2.2⟩
          have ht2 : n.start ≤ x.1.stop ∨ Next x.1.stop n.start := Or.inl (by grind)
          obtain ⟨m1, n1, hadj, hi1, hsp⟩ := adjustInsert_spec hS hr hiv hx.1 ht1.1 ht2
          simp only [hadj] at h
          rw [(adjustInsert_sim hS h0 c0 hr hiv he hx.1 ht1.1 ht2 hadj).cost_bind] at hc
          obtain ⟨k1, k2, k3, k4⟩ :=
            adjustInsert_count hS h0 c0 hr hiv he hx.1 ht1.1 ht2 hadj _ rfl
          have k4 := k4 (ht1.2.imp id fun h => ⟨h, by grind⟩)
          obtain ⟨k5, k6⟩ := ih m1 n1 m' n' _ hi1
            (he.step hS h0 c0 hr hiv hx.1 ht1.1 ht2 hadj).2 (by
            rcases hsp with ⟨_, _, e2, _⟩ | ⟨_, _, _, e, _⟩ | ⟨_, _, e, _⟩
            · rw [e2, le_rmax]; exact Or.inl hh
            · rw [e]; exact hh
            · rw [e]; exact hh) h rfl
          obtain ⟨q1, q2⟩ := adjustInsertL_clones (S := S) m x.1 x.2 n v
          have hev : (adjustTouchingRangesForInsertL S m x.1 x.2 n v).eval = .ok (m1, n1) := by
            rw [adjustInsertL_eval, hadj]
          have hnl : ¬ x.1.start < n.start := by grind
          rw [if_neg hnl] at q1 q2
          subst hc
          simp only [keys_cloneIRange_bind, vals_cloneIRange_bind, keys_cloneVal_bind,
            vals_cloneVal_bind, keys_bind_ok hev, vals_bind_ok hev, Cost.add_deletes,
            Cost.zero_deletes]
          constructor
          · have : (adjustTouchingRangesForInsertL S m x.1 x.2 n v).keys ≤ 2 := by
              refine Nat.le_trans q1 ?_
              repeat' split
              all_goals omega
            omega
          · have : (adjustTouchingRangesForInsertL S m x.1 x.2 n v).vals ≤ 0 := by
              refine Nat.le_trans q2 ?_
              repeat' split
              all_goals omega
            omega

omit [BEq V] [PartialEquivBEq V] [Std.IsLinearPreorder K] [Std.LawfulOrderLT K] in
theorem touchesL_clones (r o : RangeInclusive K) :
    (touchesL S r o : Cl K V Bool).keys ≤ 1 ∧ (touchesL S r o : Cl K V Bool).vals = 0 := by
  unfold touchesL
  by_cases h : rmin r.stop o.stop < rmax r.start o.start
  · simp only [if_pos h, keys_bind, vals_bind, keys_lib, vals_lib, eval_lib]
    cases S.addOne (rmin r.stop o.stop) <;> exact ⟨Nat.le_of_ble_eq_true rfl, rfl⟩
  · simp only [if_neg h]
    exact ⟨Nat.le_refl 1, rfl⟩

omit [BEq V] [PartialEquivBEq V] [Std.IsLinearPreorder K] [Std.LawfulOrderLT K] in
theorem filterL_clones {α : Type} {p : α → Cl K V Bool}
    (h : ∀ a, (p a).keys ≤ 1 ∧ (p a).vals = 0) (l : List α) :
    (filterL p l).keys ≤ l.length ∧ (filterL p l).vals = 0 := by
  induction l with
  | nil => exact ⟨Nat.le_refl 0, rfl⟩
  | cons a t ih =>
    unfold filterL
    constructor
    · refine Nat.le_trans (keys_bind_le _ _ t.length fun b =>
        Nat.le_trans (keys_bind_le _ _ 0 fun _ => Nat.le_refl 0) ih.1) ?_
      have := (h a).1
      simp only [List.length_cons]
      omega
    · refine Nat.le_zero.1 (Nat.le_trans (vals_bind_le _ _ 0 fun b =>
        Nat.le_trans (vals_bind_le _ _ 0 fun _ => Nat.le_refl 0) (Nat.le_of_eq ih.2)) ?_)
      exact Nat.le_of_eq (h a).2

omit [PartialEquivBEq V] [Std.IsLinearPreorder K] [Std.LawfulOrderLT K] in
theorem insertPrefixL_eval (m : List (RangeInclusive K × V)) (r : RangeInclusive K) (v : V) :
    (insertPrefixL S m r v).eval = insertPrefix S m r v := by
  unfold insertPrefixL insertPrefix
  rw [eval_bind, eval_lib]
  congr 1
  funext t
  rw [eval_bind, filterL_eval fun a : RangeInclusive K × V => touchesL_eval (S := S) a.1 r]
  congr 1
  funext c
  rcases c with _ | ⟨a, _ | ⟨b, _⟩⟩ <;>
    simp only [eval_bind, eval_irange, eval_val, eval_pure, pure_bind, adjustInsertL_eval]

theorem insertPrefixL_clones (hS : LawfulSteps S)
    {m0 : List (RangeInclusive K × V)} {r : RangeInclusive K} {v : V} (h0 : Sep m0)
    (c0 : Coal m0) (hr : r.start ≤ r.stop) {m' : List (RangeInclusive K × V)}
    {n' : RangeInclusive K}
    (h : insertPrefix S m0 r v = .ok (m', n')) (c : Cost)
    (hc : (insertPrefixC S r v).cost RangeInclusive.start m0 = c) :
    (insertPrefixL S m0 r v).keys ≤ 4 * c.deletes + 4 ∧
    (insertPrefixL S m0 r v).vals ≤ c.deletes + 1 := by
  have hiv : IInv m0 r v m0 r := IInv.refl h0 c0
  have he : EInv S m0 r v m0 r := EInv.refl
  unfold insertPrefix at h
  unfold insertPrefixC at hc
  unfold insertPrefixL
  cases hrg : BTreeMap.range RangeInclusive.start .unbounded (.included r.start) m0 with
  | error p => simp [hrg, bind, Except.bind] at h
  | ok l =>
    simp only [hrg, bind, Except.bind] at h
    rw [keys_lib_bind rfl, vals_lib_bind rfl]
    cases hcs : filterE (fun e => e.1.touches S r) (l.reverse.take 2) with
    | error p => simp [hcs] at h
    | ok cs =>
    simp only [hcs] at h
    have key : ∀ x ∈ cs,
        adjustTouchingRangesForInsert S m0 x.1 x.2 r v = .ok (m', n') →
        ∀ c', (adjustTouchingRangesForInsertC S x.1 x.2 r v).cost RangeInclusive.start m0 = c' →
        c = ⟨1, 0, 0⟩ + c' →
        (adjustTouchingRangesForInsertL S m0 x.1 x.2 r v).keys + 2 ≤ 4 * c.deletes + 2 ∧
        (adjustTouchingRangesForInsertL S m0 x.1 x.2 r v).vals + 1 ≤ c.deletes + 1 := by
      intro x hx hadj c' hc' hcc
      have hx := filterE_ok hcs x hx
      have hcl : x ∈ l := List.mem_reverse.1 ((List.take_sublist _ _).subset hx.1)
      have hcm : x ∈ m0 ∧ x.1.start ≤ r.start := by
        unfold BTreeMap.range at hrg
        split at hrg
        · simp at hrg
        · simp only [Except.ok.injEq] at hrg
          rw [← hrg, List.mem_filter] at hcl
          simpa [Bound.admitsAsLower, Bound.admitsAsUpper] using hcl
      obtain ⟨b, hb, hbt⟩ := touches_spec hS hr hcm.2 (h0.ne x hcm.1)
      have hc2 := hx.2
      rw [hb] at hc2
      obtain rfl := Except.ok.inj hc2
      have ht1 : x.1.start ≤ r.stop ∨ Next r.stop x.1.start := Or.inl (by grind)
      have ht2 := hbt.1 rfl
      obtain ⟨k1, k2, k3, k4⟩ := adjustInsert_count hS h0 c0 hr hiv he hcm.1 ht1 ht2 hadj _ hc'
      obtain ⟨q1, q2⟩ := adjustInsertL_clones (S := S) m0 x.1 x.2 r v
      subst hcc
      simp only [Cost.add_deletes]
      by_cases hv : (x.2 == v) = true
      · rw [if_pos hv] at q1 q2
        have := k4 (Or.inl hv)
        omega
      · rw [if_neg hv] at q1 q2
        by_cases ho : r.overlaps x.1 = true
        · rw [if_pos ho] at q1 q2
          simp only [RangeInclusive.overlaps, decide_eq_true_eq, le_rmin, rmax_le] at ho
          have := k4 (Or.inr (by grind))
          constructor
          · have : (adjustTouchingRangesForInsertL S m0 x.1 x.2 r v).keys ≤ 2 := by
              refine Nat.le_trans q1 ?_
              repeat' split
              all_goals omega
            omega
          · have : (adjustTouchingRangesForInsertL S m0 x.1 x.2 r v).vals ≤ 1 := by
              refine Nat.le_trans q2 ?_
              repeat' split
              all_goals omega
            omega
        · rw [if_neg ho] at q1 q2
          omega
    rw [Cr.cost_range_bind hrg, Cr.cost_user_bind, hcs] at hc
    have hf := filterL_clones (fun e : RangeInclusive K × V => touchesL_clones (S := S) (V := V) e.1 r)
      (l.reverse.take 2)
    have hfl : (l.reverse.take 2).length ≤ 2 := List.length_take_le _ _
    have hfe : (filterL (fun e : RangeInclusive K × V => (touchesL S e.1 r : Cl K V Bool))
        (l.reverse.take 2)).eval = .ok cs := by
      rw [filterL_eval fun a : RangeInclusive K × V => touchesL_eval (S := S) a.1 r, hcs]
    rw [keys_bind_ok hfe, vals_bind_ok hfe]
    match cs, h, key, hc with
    | [], h, _, hc =>
      simp only [keys_pure, vals_pure]
      omega
    | [x], h, key, hc =>
      have := key x (by simp) h _ rfl hc.symm
      simp only [keys_cloneIRange_bind, vals_cloneIRange_bind, keys_cloneVal_bind, vals_cloneVal_bind]
      omega
    | c0' :: x :: t, h, key, hc =>
      have := key x (by simp) h _ rfl hc.symm
      simp only [keys_cloneIRange_bind, vals_cloneIRange_bind, keys_cloneVal_bind, vals_cloneVal_bind]
      omega

/-- The clones of a whole `insert`, by the entries it deletes. -/
theorem insertL_clones (hS : LawfulSteps S) {m : RangeInclusiveMap K V}
    (h : SC m.btm) {r : RangeInclusive K} (v : V) (hr : r.start ≤ r.stop) :
    (m.insertL S r v).keys ≤ 4 * (m.insertCost S r v).deletes + 6 ∧
    (m.insertL S r v).vals ≤ (m.insertCost S r v).deletes + 1 := by
  obtain ⟨m1, n1, hpre, hi1, hl1, hlen1, hst1⟩ := insertPrefix_spec (v := v) hS hr h.sep h.coal
  obtain ⟨m2, n2, hloop, hi2, hl2, hd2, hlen2, hst2⟩ :=
    insertLoop_spec (hi := n1.stop) hS hr (m.len + 1) m1 n1 hi1 hl1 ⟨by grind, by grind⟩ hi1.ne
      (Or.inl hlen1)
  have hlo := hloop (m.len + 2) (by omega)
  obtain ⟨k1, k2, k3⟩ := insertPrefix_sim hS h.sep h.coal hr hpre
  have k4 := insertLoop_sim hS h.sep h.coal hr _ _ _ _ _ k1 k2 (by grind) hlo
  obtain ⟨a1, a2⟩ := insertPrefixL_clones hS h.sep h.coal hr hpre _ rfl
  obtain ⟨b1, b2⟩ := insertLoopL_clones hS h.sep h.coal hr _ _ _ _ _ _ k1 k2 (by grind) hlo rfl
  have hcost : m.insertCost S r v = (insertPrefixC S r v).cost RangeInclusive.start m.btm +
      ((insertLoopC S n1.stop v (m.len + 2) n1).cost RangeInclusive.start m1 + ⟨0, 1, 0⟩) := by
    unfold insertCost insertProgram
    refine (Cr.cost_user_bind _ _ _).trans ?_
    rw [if_pos hr]
    show Cr.cost RangeInclusive.start (Cr.bind (insertPrefixC S r v) _) m.btm = _
    refine (k3.cost_bind _).trans (congrArg _ ?_)
    refine (Cr.cost_user_bind _ _ _).trans ?_
    refine (k4.cost_bind _).trans (congrArg _ ?_)
    exact Cr.cost_insert_bind _ _ _ _ _
  have e1 : (insertPrefixL S m.btm r v).eval = .ok (m1, n1) := by rw [insertPrefixL_eval, hpre]
  have e2 : (insertLoopL S n1.stop v (m.len + 2) m1 n1).eval = .ok (m2, n2) := by
    rw [insertLoopL_eval, hlo]
  unfold insertL
  rw [if_pos hr, keys_bind_ok e1, vals_bind_ok e1]
  simp only [keys_cloneKey_bind, vals_cloneKey_bind, keys_bind_ok e2, vals_bind_ok e2, keys_pure,
    vals_pure, hcost, Cost.add_deletes]
  omega

end

/-! ### remove -/
section
variable [BEq V]

theorem removeLoopL_clones (hS : LawfulSteps S)
    {m0 : List (RangeInclusive K × V)} {r : RangeInclusive K} (h0 : Sep m0)
    (hr : r.start ≤ r.stop) : ∀ (fuel : Nat) (m m' : List (RangeInclusive K × V)) (c : Cost),
    RInv m0 r m → REInv S m0 r m → removeLoop S r fuel m = .ok m' →
    (removeLoopC S r fuel : Cr K (RangeInclusive K) V Unit).cost RangeInclusive.start m = c →
    (removeLoopL S r r.stop fuel m).keys ≤ 3 * c.deletes ∧
    (removeLoopL S r r.stop fuel m).vals = c.deletes := by
  intro fuel
  induction fuel with
  | zero => intro m m' c _ _ h; simp [removeLoop] at h
  | succ f ih =>
    intro m m' c hiv he h hc
    unfold removeLoop at h
    unfold removeLoopC at hc
    unfold removeLoopL
    cases hrg : BTreeMap.range RangeInclusive.start (.excluded r.start) (.included r.stop) m with
    | error p => simp [hrg, bind, Except.bind] at h
    | ok l =>
      simp only [hrg, bind, Except.bind] at h
      rw [Cr.cost_range_bind hrg] at hc
      rw [keys_lib_bind rfl, vals_lib_bind rfl]
      cases hd : l.head? with
      | none =>
        simp only [hd, pure, Except.pure, Except.ok.injEq] at h hc
        subst hc
        exact ⟨Nat.zero_le _, rfl⟩
      | some x =>
        have hx : x ∈ m ∧ r.start < x.1.start ∧ x.1.start ≤ r.stop := by
          have h1 := List.mem_of_head? hd
          unfold BTreeMap.range at hrg
          split at hrg
          · simp at hrg
          · simp only [Except.ok.injEq] at hrg
            rw [← hrg, List.mem_filter] at h1
            simpa [Bound.admitsAsLower, Bound.admitsAsUpper] using h1
        have hxn := hiv.sep.ne x hx.1
        simp only [hd] at h hc ⊢
        cases hadj : adjustOverlappingRangesForRemove S m x.1 x.2 r with
        | error p => simp [hadj] at h
        | ok m1 =>
        simp only [hadj] at h
        rw [Cr.cost_user_bind] at hc
        obtain ⟨k1, k2, k3⟩ := adjustRemove_sim hS h0 hr hiv he hx.1 (by grind) (by grind) hadj
        rw [k3.cost_bind] at hc
        obtain ⟨a1, a2, a3, a4⟩ :=
          adjustRemove_count hS h0 hr hiv he hx.1 (by grind) (by grind) hadj _ rfl
        obtain ⟨b1, b2⟩ := ih _ _ _ k1 k2 h rfl
        obtain ⟨q1, q2⟩ := cutL_clones (S := S) m x.1 x.2 r
        have hev : (adjustOverlappingRangesForRemoveL S m x.1 x.2 r).eval = .ok m1 := by
          rw [adjustRemoveL_eval, hadj]
        have hnl : ¬ x.1.start < r.start := by grind
        rw [if_neg hnl] at q1 q2
        have q3 : (adjustOverlappingRangesForRemoveL S m x.1 x.2 r).keys ≤ 1 := by
          refine Nat.le_trans q1 ?_
          split <;> omega
        subst hc
        simp only [keys_cloneIRange_bind, vals_cloneIRange_bind, keys_cloneVal_bind,
          vals_cloneVal_bind, keys_bind_ok hev, vals_bind_ok hev, Cost.add_deletes]
        omega

omit [Std.IsLinearPreorder K] [Std.LawfulOrderLT K] [BEq V] in
theorem removePrefixL_eval (m : List (RangeInclusive K × V)) (r : RangeInclusive K) :
    (removePrefixL S m r).eval = removePrefix S m r := by
  unfold removePrefixL removePrefix
  rw [eval_bind, eval_lib]
  congr 1
  funext t
  generalize t.getLast?.filter _ = c
  rcases c with _ | a <;>
    simp only [eval_bind, eval_irange, eval_val, eval_pure, pure_bind, adjustRemoveL_eval]

theorem removePrefixL_clones (hS : LawfulSteps S)
    {m0 : List (RangeInclusive K × V)} {r : RangeInclusive K} (h0 : Sep m0) (c0 : Coal m0)
    (hr : r.start ≤ r.stop) {m' : List (RangeInclusive K × V)}
    (h : removePrefix S m0 r = .ok m') (c : Cost)
    (hc : (removePrefixC S r : Cr K (RangeInclusive K) V Unit).cost RangeInclusive.start m0 = c) :
    (removePrefixL S m0 r).keys ≤ 3 * c.deletes + 1 ∧
    (removePrefixL S m0 r).vals ≤ c.deletes + 1 := by
  have hiv : RInv m0 r m0 := RInv.refl h0 c0
  have he : REInv S m0 r m0 := ⟨fun y hy => Or.inl hy, fun x hx => Or.inl hx⟩
  unfold removePrefix at h
  unfold removePrefixC at hc
  unfold removePrefixL
  cases hrg : BTreeMap.range RangeInclusive.start .unbounded (.included r.start) m0 with
  | error p => simp [hrg, bind, Except.bind] at h
  | ok l =>
    simp only [hrg, bind, Except.bind] at h
    rw [keys_lib_bind rfl, vals_lib_bind rfl]
    rw [Cr.cost_range_bind hrg, Cr.cost_user_bind] at hc
    cases hd : l.getLast?.filter fun e => e.1.overlaps r with
    | none => exact ⟨Nat.zero_le _, Nat.zero_le _⟩
    | some x =>
      simp only [hd] at h hc
      rw [Cr.cost_user_bind] at hc
      have hx : x ∈ m0 ∧ x.1.overlaps r = true := by
        rw [Option.filter_eq_some_iff] at hd
        have h1 := List.mem_of_getLast? hd.1
        unfold BTreeMap.range at hrg
        split at hrg
        · simp at hrg
        · simp only [Except.ok.injEq] at hrg
          rw [← hrg, List.mem_filter] at h1
          exact ⟨h1.1, hd.2⟩
      have hov := hx.2
      simp only [RangeInclusive.overlaps, decide_eq_true_eq, le_rmin, rmax_le] at hov
      obtain ⟨a1, a2, a3, a4⟩ :=
        adjustRemove_count hS h0 hr hiv he hx.1 (by grind) (by grind) h _ rfl
      obtain ⟨q1, q2⟩ := cutL_clones (S := S) m0 x.1 x.2 r
      subst hc
      simp only [keys_cloneIRange_bind, vals_cloneIRange_bind, keys_cloneVal_bind,
        vals_cloneVal_bind, Cost.add_deletes, a4]
      constructor
      · have : (adjustOverlappingRangesForRemoveL S m0 x.1 x.2 r).keys ≤ 2 := by
          refine Nat.le_trans q1 ?_
          repeat' split
          all_goals omega
        omega
      · have : (adjustOverlappingRangesForRemoveL S m0 x.1 x.2 r).vals ≤ 1 := by
          refine Nat.le_trans q2 ?_
          repeat' split
          all_goals omega
        omega

/-- The clones of a whole `remove`, by the entries it deletes. -/
theorem removeL_clones (hS : LawfulSteps S) {m : RangeInclusiveMap K V} (h : SC m.btm)
    {r : RangeInclusive K} (hr : r.start ≤ r.stop) :
    (m.removeL S r).keys ≤ 3 * (m.removeCost S r).deletes + 3 ∧
    (m.removeL S r).vals ≤ (m.removeCost S r).deletes + 1 := by
  obtain ⟨m', hm, -⟩ := remove_spec hS h hr
  have hm : m.remove S r = .ok m' := hm _ (Nat.le_refl _)
  unfold remove removeFuel at hm
  simp only [hr, not_true_eq_false, if_false, bind, Except.bind, pure, Except.pure] at hm
  cases hpre : removePrefix S m.btm r with
  | error p => simp [hpre] at hm
  | ok m1 =>
    simp only [hpre] at hm
    cases hlo : removeLoop S r (m.len + 2) m1 with
    | error p => simp [hlo] at hm
    | ok m2 =>
      obtain ⟨k1, k2, k3⟩ := removePrefix_sim hS h.sep h.coal hr hpre
      obtain ⟨k4, k5, k6⟩ := removeLoop_sim hS h.sep hr _ _ _ k1 k2 hlo
      obtain ⟨a1, a2⟩ := removePrefixL_clones hS h.sep h.coal hr hpre _ rfl
      obtain ⟨b1, b2⟩ := removeLoopL_clones hS h.sep hr _ _ _ _ k1 k2 hlo rfl
      have hcost : m.removeCost S r =
          (removePrefixC S r : Cr K (RangeInclusive K) V Unit).cost RangeInclusive.start m.btm +
          ((removeLoopC S r (m.len + 2) : Cr K (RangeInclusive K) V Unit).cost RangeInclusive.start m1
            + 0) := by
        unfold removeCost removeProgram
        refine (Cr.cost_user_bind _ _ _).trans ?_
        rw [if_pos hr]
        show Cr.cost RangeInclusive.start (Cr.bind (removePrefixC S r) _) m.btm = _
        refine (k3.cost_bind _).trans (congrArg _ ?_)
        refine (Cr.cost_user_bind _ _ _).trans ?_
        exact k6.cost_bind _
      have e1 : (removePrefixL S m.btm r).eval = .ok m1 := by rw [removePrefixL_eval, hpre]
      have e2 : (removeLoopL S r r.stop (m.len + 2) m1).eval = .ok m2 := by
        rw [removeLoopL_eval, hlo]
      unfold removeL
      rw [if_pos hr, keys_bind_ok e1, vals_bind_ok e1]
      simp only [keys_cloneKey_bind, vals_cloneKey_bind, keys_bind_ok e2, vals_bind_ok e2, keys_pure,
        vals_pure, hcost, Cost.add_deletes, Cost.zero_deletes]
      omega

end
end Verif.RangeInclusiveMap

import Verif.Model.CloneCount
import Verif.Proof.CloneId
import Verif.Proof.Cost

/-!
# Counting clones
-/
set_option linter.unusedSectionVars false
set_option linter.unusedVariables false
namespace Verif
variable {K V : Type} [LE K] [LT K] [DecidableLE K] [DecidableLT K]

namespace Cl
variable {α β : Type}

theorem keys_bind (x : Cl K V α) (f : α → Cl K V β) :
    (x >>= f).keys = x.keys + match x.eval with
      | .ok a => (f a).keys
      | .error _ => 0 := by
  show (x.bind f).keys = _
  induction x with
  | ret a => simp [Cl.bind, keys, eval]
  | panic p => rfl
  | key k next ih => simp only [Cl.bind, keys, eval, ih]; omega
  | val v next ih => simp only [Cl.bind, keys, eval, ih]

theorem vals_bind (x : Cl K V α) (f : α → Cl K V β) :
    (x >>= f).vals = x.vals + match x.eval with
      | .ok a => (f a).vals
      | .error _ => 0 := by
  show (x.bind f).vals = _
  induction x with
  | ret a => simp [Cl.bind, vals, eval]
  | panic p => rfl
  | key k next ih => simp only [Cl.bind, vals, eval, ih]
  | val v next ih => simp only [Cl.bind, vals, eval, ih]; omega

theorem keys_bind_ok {x : Cl K V α} {a : α} (h : x.eval = .ok a) (f : α → Cl K V β) :
    (x >>= f).keys = x.keys + (f a).keys := by rw [keys_bind, h]

theorem vals_bind_ok {x : Cl K V α} {a : α} (h : x.eval = .ok a) (f : α → Cl K V β) :
    (x >>= f).vals = x.vals + (f a).vals := by rw [vals_bind, h]

@[simp] theorem keys_pure (a : α) : (pure a : Cl K V α).keys = 0 := rfl
@[simp] theorem vals_pure (a : α) : (pure a : Cl K V α).vals = 0 := rfl
@[simp] theorem keys_lib (x : Except Panic α) : (lib x : Cl K V α).keys = 0 := by cases x <;> rfl
@[simp] theorem vals_lib (x : Except Panic α) : (lib x : Cl K V α).vals = 0 := by cases x <;> rfl
@[simp] theorem keys_panic (p : Panic) : (Cl.panic p : Cl K V α).keys = 0 := rfl
@[simp] theorem vals_panic (p : Panic) : (Cl.panic p : Cl K V α).vals = 0 := rfl
@[simp] theorem keys_cloneKey_bind (k : K) (f : K → Cl K V β) :
    (cloneKey k >>= f).keys = (f k).keys + 1 := rfl
@[simp] theorem vals_cloneKey_bind (k : K) (f : K → Cl K V β) :
    (cloneKey k >>= f).vals = (f k).vals := rfl
@[simp] theorem keys_cloneVal_bind (v : V) (f : V → Cl K V β) :
    (cloneVal v >>= f).keys = (f v).keys := rfl
@[simp] theorem vals_cloneVal_bind (v : V) (f : V → Cl K V β) :
    (cloneVal v >>= f).vals = (f v).vals + 1 := rfl
@[simp] theorem keys_cloneRange_bind (r : Range K) (f : Range K → Cl K V β) :
    (cloneRange r >>= f).keys = (f r).keys + 2 := rfl
@[simp] theorem vals_cloneRange_bind (r : Range K) (f : Range K → Cl K V β) :
    (cloneRange r >>= f).vals = (f r).vals := rfl
@[simp] theorem keys_cloneIRange_bind (r : RangeInclusive K) (f : RangeInclusive K → Cl K V β) :
    (cloneIRange r >>= f).keys = (f r).keys + 2 := rfl
@[simp] theorem vals_cloneIRange_bind (r : RangeInclusive K) (f : RangeInclusive K → Cl K V β) :
    (cloneIRange r >>= f).vals = (f r).vals := rfl
theorem keys_ite (p : Prop) [Decidable p] (x y : Cl K V α) :
    (if p then x else y).keys = if p then x.keys else y.keys := by split <;> rfl
theorem vals_ite (p : Prop) [Decidable p] (x y : Cl K V α) :
    (if p then x else y).vals = if p then x.vals else y.vals := by split <;> rfl
theorem keys_lib_bind {x : Except Panic α} {a : α} (h : x = .ok a) (f : α → Cl K V β) :
    (lib x >>= f).keys = (f a).keys := by subst h; rfl
theorem vals_lib_bind {x : Except Panic α} {a : α} (h : x = .ok a) (f : α → Cl K V β) :
    (lib x >>= f).vals = (f a).vals := by subst h; rfl

end Cl

namespace RangeMap
open Cl
variable [Std.IsLinearPreorder K] [Std.LawfulOrderLT K]

omit [Std.IsLinearPreorder K] [Std.LawfulOrderLT K] in
theorem cutL_clones (m : List (Range K × V)) (x : Range K) (v : V) (n : Range K) :
    (adjustOverlappingRangesForRemoveL m x v n).keys =
      (if x.start < n.start then 1 else 0) + (if n.stop < x.stop then 1 else 0) ∧
    (adjustOverlappingRangesForRemoveL m x v n).vals = if x.start < n.start then 1 else 0 := by
  unfold adjustOverlappingRangesForRemoveL insertLeftL insertRightL
  by_cases h : x.start < n.start <;> by_cases h2 : n.stop < x.stop <;>
    simp only [h, h2, if_true, if_false, keys_bind, vals_bind] <;> exact ⟨rfl, rfl⟩

section
variable [BEq V]

omit [Std.IsLinearPreorder K] [Std.LawfulOrderLT K] in
theorem adjustInsertL_clones (m : List (Range K × V)) (x : Range K) (w : V) (n : Range K) (v : V) :
    (adjustTouchingRangesForInsertL m x w n v).keys =
      (if w == v then 2 else if n.overlaps x then
        (if x.start < n.start then 1 else 0) + (if n.stop < x.stop then 1 else 0) else 0) ∧
    (adjustTouchingRangesForInsertL m x w n v).vals =
      (if w == v then 0 else if n.overlaps x then (if x.start < n.start then 1 else 0) else 0) := by
  unfold adjustTouchingRangesForInsertL insertLeftL insertRightL
  cases hw : w == v <;> cases ho : n.overlaps x <;>
  by_cases h : x.start < n.start <;> by_cases h2 : n.stop < x.stop <;>
    simp only [h, h2, if_true, if_false, keys_bind, vals_bind] <;> exact ⟨rfl, rfl⟩

variable [PartialEquivBEq V]

theorem insertLoopL_clones {m0 : List (Range K × V)} {r : Range K} {v : V} {hi : K} (h0 : Sep m0)
    (c0 : Coal m0) (hr : r.start < r.stop) : ∀ (fuel : Nat) (m : List (Range K × V)) (n : Range K)
    (m' : List (Range K × V)) (n' : Range K) (c : Cost), IInv m0 r v m n → EInv m0 r v m n →
    hi ≤ n.stop → insertLoop hi v fuel m n = .ok (m', n') →
    (insertLoopC hi v fuel n).cost Range.start m = c →
    (insertLoopL hi v fuel m n).keys ≤ 4 * c.deletes ∧ (insertLoopL hi v fuel m n).vals = c.deletes := by
  intro fuel
  induction fuel with
  | zero => intro m n m' n' c _ _ _ h; simp [insertLoop] at h
  | succ f ih =>
    intro m n m' n' c hiv he hh h hc
    unfold insertLoop at h
    unfold insertLoopC at hc
    unfold insertLoopL
    cases hrg : BTreeMap.range Range.start (.included n.start) (.included hi) m with
    | error p => simp [hrg, bind, Except.bind] at h
    | ok l =>
      simp only [hrg, bind, Except.bind] at h
      rw [Cr.cost_range_bind hrg] at hc
      rw [keys_lib_bind rfl, vals_lib_bind rfl]
      cases hd : l.head? with
      | none =>
        simp only [hd, pure, Except.pure, Except.ok.injEq, Prod.mk.injEq] at h hc
        subst hc
        exact ⟨Nat.zero_le _, rfl⟩
      | some x =>
        have hx : x ∈ m ∧ n.start ≤ x.1.start ∧ x.1.start ≤ hi := by
          have h1 := List.mem_of_head? hd
          unfold BTreeMap.range at hrg
          split at hrg
          · simp at hrg
          · simp only [Except.ok.injEq] at hrg
            rw [← hrg, List.mem_filter] at h1
            simpa [Bound.admitsAsLower, Bound.admitsAsUpper] using h1
        have hxn := hiv.sep.ne x hx.1
        simp only [hd] at h hc ⊢
        rw [Cr.cost_user_bind] at hc
        by_cases hb : (keq x.1.start n.stop && !(x.2 == v)) = true
        · rw [if_pos hb] at h hc
          rw [if_pos hb]
          subst hc
          exact ⟨Nat.zero_le _, rfl⟩
        · rw [if_neg hb] at h hc
          rw [if_neg hb]
          rw [Cr.cost_user_bind] at hc
          generalize hadj : adjustTouchingRangesForInsert m x.1 x.2 n v = p at h
          obtain ⟨m1, n1⟩ := p
          have ht1 : x.1.start ≤ n.stop := by grind
          have ht2 : n.start ≤ x.1.stop := by grind
          have hsp := adjustInsert_spec hr hiv hx.1 ht1 ht2 hadj
          rw [(adjustInsert_sim h0 c0 hr hiv he hx.1 ht1 ht2 hadj).cost_bind] at hc
          have hdel : (x.2 == v) = true ∨ (x.1.start < n.stop ∧ n.start < x.1.stop) := by
            cases hv : x.2 == v with
            | true => exact Or.inl rfl
            | false =>
              simp [hv, keq] at hb
              right
              grind
          obtain ⟨k1, k2, k3, k4⟩ := adjustInsert_count h0 c0 hr hiv he hx.1 ht1 ht2 hadj _ rfl
          have k4 := k4 hdel
          obtain ⟨k5, k6⟩ := ih m1 n1 m' n' _ hsp.1 (he.step h0 c0 hr hiv hx.1 ht1 ht2 hadj) (by
            rcases hsp.2 with ⟨_, _, e2, _⟩ | ⟨_, _, _, e, _⟩ | ⟨_, _, e, _⟩
            · rw [e2, le_rmax]; exact Or.inl hh
            · rw [e]; exact hh
            · rw [e]; exact hh) h rfl
          obtain ⟨q1, q2⟩ := adjustInsertL_clones m x.1 x.2 n v
          have hev : (adjustTouchingRangesForInsertL m x.1 x.2 n v).eval = .ok (m1, n1) := by
            rw [adjustInsertL_eval, hadj]; rfl
          have hnl : ¬ x.1.start < n.start := by grind
          rw [if_neg hnl] at q1 q2
          subst hc
          simp only [keys_cloneRange_bind, vals_cloneRange_bind, keys_cloneVal_bind, vals_cloneVal_bind,
            keys_bind_ok hev, vals_bind_ok hev, Cost.add_deletes]
          constructor
          · have : (adjustTouchingRangesForInsertL m x.1 x.2 n v).keys ≤ 2 := by
              rw [q1]; repeat' split
              all_goals omega
            omega
          · have : (adjustTouchingRangesForInsertL m x.1 x.2 n v).vals = 0 := by
              rw [q2]; repeat' split
              all_goals rfl
            omega

theorem insertPrefixL_clones {m0 : List (Range K × V)} {r : Range K} {v : V} (h0 : Sep m0)
    (c0 : Coal m0) (hr : r.start < r.stop) {m' : List (Range K × V)} {n' : Range K}
    (h : insertPrefix m0 r v = .ok (m', n')) (c : Cost)
    (hc : (insertPrefixC r v).cost Range.start m0 = c) :
    (insertPrefixL m0 r v).keys ≤ 4 * c.deletes + 2 ∧ (insertPrefixL m0 r v).vals ≤ c.deletes + 1 := by
  have hiv : IInv m0 r v m0 r := IInv.refl h0 c0
  have he : EInv m0 r v m0 r := EInv.refl
  unfold insertPrefix at h
  unfold insertPrefixC at hc
  unfold insertPrefixL
  cases hrg : BTreeMap.range Range.start .unbounded (.included r.start) m0 with
  | error p => simp [hrg, bind, Except.bind] at h
  | ok l =>
    simp only [hrg, bind, Except.bind] at h
    rw [keys_lib_bind rfl, vals_lib_bind rfl]
    have key : ∀ x ∈ (l.reverse.take 2).filter fun e => e.1.touches r,
        adjustTouchingRangesForInsert m0 x.1 x.2 r v = (m', n') →
        ∀ c', (adjustTouchingRangesForInsertC x.1 x.2 r v).cost Range.start m0 = c' →
        c = ⟨1, 0, 0⟩ + c' →
        (adjustTouchingRangesForInsertL m0 x.1 x.2 r v).keys + 2 ≤ 4 * c.deletes + 2 ∧
        (adjustTouchingRangesForInsertL m0 x.1 x.2 r v).vals + 1 ≤ c.deletes + 1 := by
      intro x hx hadj c' hc' hcc
      obtain ⟨q1, q2⟩ := adjustInsertL_clones m0 x.1 x.2 r v
      rw [adjustInsert_cost] at hc'
      rw [q1, q2]
      subst hcc
      subst hc'
      simp only [Cost.add_deletes]
      constructor
      all_goals
        repeat' split
        all_goals simp
    rw [Cr.cost_range_bind hrg, Cr.cost_user_bind] at hc
    generalize hcs : (l.reverse.take 2).filter (fun e => e.1.touches r) = cs at h hc key ⊢
    match cs, h, key, hc with
    | [], h, _, hc => exact ⟨Nat.zero_le _, Nat.zero_le _⟩
    | [x], h, key, hc =>
      simp only [pure, Except.pure, Except.ok.injEq] at h
      exact key x (by simp) h _ rfl hc.symm
    | c0' :: x :: t, h, key, hc =>
      simp only [pure, Except.pure, Except.ok.injEq] at h
      exact key x (by simp) h _ rfl hc.symm

omit [Std.IsLinearPreorder K] [Std.LawfulOrderLT K] [PartialEquivBEq V] in
theorem insertPrefixL_eval (m : List (Range K × V)) (r : Range K) (v : V) :
    (insertPrefixL m r v).eval = insertPrefix m r v := by
  unfold insertPrefixL insertPrefix
  rw [eval_bind, eval_lib]
  congr 1
  funext t
  generalize (t.reverse.take 2).filter _ = c
  rcases c with _ | ⟨a, _ | ⟨b, _⟩⟩ <;>
    simp only [eval_bind, eval_range, eval_val, eval_pure, pure_bind, adjustInsertL_eval]

/-- The clones of a whole `insert`, by the entries it deletes. -/
theorem insertL_clones {m : RangeMap K V} (h : WF m.btm) {r : Range K} (v : V)
    (hr : r.start < r.stop) :
    (m.insertL r v).keys ≤ 4 * (m.insertCost r v).deletes + 4 ∧
    (m.insertL r v).vals ≤ (m.insertCost r v).deletes + 1 := by
  obtain ⟨m1, n1, hpre, hi1, hl1, hlen1, hst1⟩ := insertPrefix_spec (v := v) hr h.sep h.coal
  obtain ⟨m2, n2, hloop, hi2, hl2, hd2, hlen2, hst2⟩ :=
    insertLoop_spec (hi := n1.stop) hr (m.len + 1) m1 n1 hi1 hl1 ⟨by grind, by grind⟩ hi1.ne
      (Or.inl hlen1)
  have hlo := hloop (m.len + 2) (by omega)
  obtain ⟨k1, k2, k3⟩ := insertPrefix_sim h.sep h.coal hr hpre
  have k4 := insertLoop_sim h.sep h.coal hr _ _ _ _ _ k1 k2 (by grind) hlo
  obtain ⟨a1, a2⟩ := insertPrefixL_clones h.sep h.coal hr hpre _ rfl
  obtain ⟨b1, b2⟩ := insertLoopL_clones h.sep h.coal hr _ _ _ _ _ _ k1 k2 (by grind) hlo rfl
  have hcost : m.insertCost r v = (insertPrefixC r v).cost Range.start m.btm +
      ((insertLoopC n1.stop v (m.len + 2) n1).cost Range.start m1 + ⟨0, 1, 0⟩) := by
    unfold insertCost insertProgram
    refine (Cr.cost_user_bind _ _ _).trans ?_
    rw [if_pos hr]
    show Cr.cost Range.start (Cr.bind (insertPrefixC r v) _) m.btm = _
    refine (k3.cost_bind _).trans (congrArg _ ?_)
    refine (Cr.cost_user_bind _ _ _).trans ?_
    refine (k4.cost_bind _).trans (congrArg _ ?_)
    exact Cr.cost_insert_bind _ _ _ _ _
  have e1 : (insertPrefixL m.btm r v).eval = .ok (m1, n1) := by rw [insertPrefixL_eval, hpre]
  have e2 : (insertLoopL n1.stop v (m.len + 2) m1 n1).eval = .ok (m2, n2) := by
    rw [insertLoopL_eval, hlo]
  unfold insertL
  rw [if_pos hr, keys_bind_ok e1, vals_bind_ok e1]
  simp only [keys_cloneKey_bind, vals_cloneKey_bind, keys_bind_ok e2, vals_bind_ok e2, keys_pure,
    vals_pure, hcost, Cost.add_deletes]
  omega

end

/-! ### remove -/
section
variable [BEq V]

theorem removeLoopL_clones {m0 : List (Range K × V)} {r : Range K} (h0 : Sep m0)
    (hr : r.start < r.stop) : ∀ (fuel : Nat) (m m' : List (Range K × V)) (c : Cost),
    RInv m0 r m → REInv m0 r m → removeLoop r fuel m = .ok m' →
    (removeLoopC r fuel : Cr K (Range K) V Unit).cost Range.start m = c →
    (removeLoopL r r.stop fuel m).keys ≤ 3 * c.deletes ∧ (removeLoopL r r.stop fuel m).vals = c.deletes := by
  intro fuel
  induction fuel with
  | zero => intro m m' c _ _ h; simp [removeLoop] at h
  | succ f ih =>
    intro m m' c hiv he h hc
    unfold removeLoop at h
    unfold removeLoopC at hc
    unfold removeLoopL
    cases hrg : BTreeMap.range Range.start (.excluded r.start) (.excluded r.stop) m with
    | error p => simp [hrg, bind, Except.bind] at h
    | ok l =>
      simp only [hrg, bind, Except.bind] at h
      rw [Cr.cost_range_bind hrg] at hc
      rw [keys_lib_bind rfl, vals_lib_bind rfl]
      cases hd : l.head? with
      | none =>
        simp only [hd, pure, Except.pure, Except.ok.injEq] at h hc
        subst hc
        exact ⟨Nat.zero_le _, rfl⟩
      | some x =>
        have hx : x ∈ m ∧ r.start < x.1.start ∧ x.1.start < r.stop := by
          have h1 := List.mem_of_head? hd
          unfold BTreeMap.range at hrg
          split at hrg
          · simp at hrg
          · simp only [Except.ok.injEq] at hrg
            rw [← hrg, List.mem_filter] at h1
            simpa [Bound.admitsAsLower, Bound.admitsAsUpper] using h1
        have hxn := hiv.sep.ne x hx.1
        simp only [hd] at h hc ⊢
        rw [Cr.cost_user_bind] at hc
        obtain ⟨k1, k2, k3⟩ := adjustRemove_sim h0 hr hiv he hx.1 (by grind) (by grind)
        rw [k3.cost_bind] at hc
        obtain ⟨a1, a2, a3, a4⟩ := adjustRemove_count h0 hr hiv he hx.1 (by grind) (by grind) rfl _ rfl
        obtain ⟨b1, b2⟩ := ih _ _ _ k1 k2 h rfl
        obtain ⟨q1, q2⟩ := cutL_clones m x.1 x.2 r
        have hev : (adjustOverlappingRangesForRemoveL m x.1 x.2 r).eval =
            .ok (adjustOverlappingRangesForRemove m x.1 x.2 r) := by rw [adjustRemoveL_eval]; rfl
        have hnl : ¬ x.1.start < r.start := by grind
        rw [if_neg hnl] at q1 q2
        have q3 : (adjustOverlappingRangesForRemoveL m x.1 x.2 r).keys ≤ 1 := by
          rw [q1]; split <;> omega
        subst hc
        simp only [keys_cloneRange_bind, vals_cloneRange_bind, keys_cloneVal_bind, vals_cloneVal_bind,
          keys_bind_ok hev, vals_bind_ok hev, Cost.add_deletes]
        omega

theorem removePrefixL_clones {m0 : List (Range K × V)} {r : Range K} (h0 : Sep m0) (c0 : Coal m0)
    (hr : r.start < r.stop) {m' : List (Range K × V)} (h : removePrefix m0 r = .ok m') (c : Cost)
    (hc : (removePrefixC r : Cr K (Range K) V Unit).cost Range.start m0 = c) :
    (removePrefixL m0 r).keys ≤ 3 * c.deletes + 1 ∧ (removePrefixL m0 r).vals ≤ c.deletes + 1 := by
  have hiv : RInv m0 r m0 := RInv.refl h0 c0
  have he : REInv m0 r m0 := ⟨fun y hy => Or.inl hy, fun x hx => Or.inl hx⟩
  unfold removePrefix at h
  unfold removePrefixC at hc
  unfold removePrefixL
  cases hrg : BTreeMap.range Range.start .unbounded (.included r.start) m0 with
  | error p => simp [hrg, bind, Except.bind] at h
  | ok l =>
    simp only [hrg, bind, Except.bind] at h
    rw [keys_lib_bind rfl, vals_lib_bind rfl]
    rw [Cr.cost_range_bind hrg, Cr.cost_user_bind] at hc
    cases hd : l.getLast?.filter fun e => e.1.overlaps r with
    | none => exact ⟨Nat.zero_le _, Nat.zero_le _⟩
    | some x =>
      simp only [hd, pure, Except.pure, Except.ok.injEq] at h hc
      rw [Cr.cost_user_bind] at hc
      have hx : x ∈ m0 ∧ x.1.overlaps r = true := by
        rw [Option.filter_eq_some_iff] at hd
        have h1 := List.mem_of_getLast? hd.1
        unfold BTreeMap.range at hrg
        split at hrg
        · simp at hrg
        · simp only [Except.ok.injEq] at hrg
          rw [← hrg, List.mem_filter] at h1
          exact ⟨h1.1, hd.2⟩
      have hov := hx.2
      simp only [Range.overlaps, decide_eq_true_eq, lt_rmin, rmax_lt] at hov
      obtain ⟨a1, a2, a3, a4⟩ := adjustRemove_count h0 hr hiv he hx.1 (by grind) (by grind) h _ rfl
      obtain ⟨q1, q2⟩ := cutL_clones m0 x.1 x.2 r
      subst hc
      simp only [keys_cloneRange_bind, vals_cloneRange_bind, keys_cloneVal_bind, vals_cloneVal_bind,
        q1, q2, Cost.add_deletes, a4]
      constructor
      all_goals
        repeat' split
        all_goals omega

omit [Std.IsLinearPreorder K] [Std.LawfulOrderLT K] [BEq V] in
theorem removePrefixL_eval (m : List (Range K × V)) (r : Range K) :
    (removePrefixL m r).eval = removePrefix m r := by
  unfold removePrefixL removePrefix
  rw [eval_bind, eval_lib]
  congr 1
  funext t
  generalize t.getLast?.filter _ = c
  rcases c with _ | a <;>
    simp only [eval_bind, eval_range, eval_val, eval_pure, pure_bind, adjustRemoveL_eval]

/-- The clones of a whole `remove`, by the entries it deletes. -/
theorem removeL_clones {m : RangeMap K V} (h : WF m.btm) {r : Range K} (hr : r.start < r.stop) :
    (m.removeL r).keys ≤ 3 * (m.removeCost r).deletes + 3 ∧
    (m.removeL r).vals ≤ (m.removeCost r).deletes + 1 := by
  obtain ⟨m', hm, -⟩ := remove_spec h hr
  have hm : m.remove r = .ok m' := hm _ (Nat.le_refl _)
  unfold remove removeFuel at hm
  simp only [hr, not_true_eq_false, if_false, bind, Except.bind, pure, Except.pure] at hm
  cases hpre : removePrefix m.btm r with
  | error p => simp [hpre] at hm
  | ok m1 =>
    simp only [hpre] at hm
    cases hlo : removeLoop r (m.len + 2) m1 with
    | error p => simp [hlo] at hm
    | ok m2 =>
      obtain ⟨k1, k2, k3⟩ := removePrefix_sim h.sep h.coal hr hpre
      obtain ⟨k4, k5, k6⟩ := removeLoop_sim h.sep hr _ _ _ k1 k2 hlo
      obtain ⟨a1, a2⟩ := removePrefixL_clones h.sep h.coal hr hpre _ rfl
      obtain ⟨b1, b2⟩ := removeLoopL_clones h.sep hr _ _ _ _ k1 k2 hlo rfl
      have hcost : m.removeCost r = (removePrefixC r : Cr K (Range K) V Unit).cost Range.start m.btm +
          ((removeLoopC r (m.len + 2) : Cr K (Range K) V Unit).cost Range.start m1 + 0) := by
        unfold removeCost removeProgram
        refine (Cr.cost_user_bind _ _ _).trans ?_
        rw [if_pos hr]
        show Cr.cost Range.start (Cr.bind (removePrefixC r) _) m.btm = _
        refine (k3.cost_bind _).trans (congrArg _ ?_)
        refine (Cr.cost_user_bind _ _ _).trans ?_
        exact k6.cost_bind _
      have e1 : (removePrefixL m.btm r).eval = .ok m1 := by rw [removePrefixL_eval, hpre]
      have e2 : (removeLoopL r r.stop (m.len + 2) m1).eval = .ok m2 := by rw [removeLoopL_eval, hlo]
      unfold removeL
      rw [if_pos hr, keys_bind_ok e1, vals_bind_ok e1]
      simp only [keys_cloneKey_bind, vals_cloneKey_bind, keys_bind_ok e2, vals_bind_ok e2, keys_pure,
        vals_pure, hcost, Cost.add_deletes, Cost.zero_deletes]
      omega

end
end RangeMap
end Verif

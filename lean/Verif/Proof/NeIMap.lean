import Verif.Proof.IWeak
import Verif.Proof.NeMap

/-!
# `RangeInclusiveMap::insert` with an independent `!=`

The second half of `Proof/IWeak.lean` once more: there the loop asks `!(a == b)`, here `a != b`.
-/
set_option linter.unusedSectionVars false
set_option linter.unusedVariables false

namespace Verif.RangeInclusiveMap.Ne
open Spec
open RangeMap.Weak (never never_per Chained.refl Chained.trans)
variable {K : Type} [LE K] [LT K] [DecidableLE K] [DecidableLT K]
  [Std.IsLinearPreorder K] [Std.LawfulOrderLT K] {V : Type} [BEq V] [HasNe V]

theorem insertNe_invalid {S : StepFns K} {m : RangeInclusiveMap K V} {r : RangeInclusive K} {v : V}
    (hr : ¬ r.start ≤ r.stop) : m.insertNe S r v = .error .assertFailed := by
  simp [insertNe, insertFuelNe, hr, bind, Except.bind, throw, throwThe, MonadExceptOf.throw]

theorem runNe_append (S : StepFns K) (ops : List (Op (RangeInclusive K) V))
    (op : Op (RangeInclusive K) V) :
    runNe S (ops ++ [op]) = ((runNe S ops).applyNe S op).1 := by
  simp [runNe, List.foldl_append]

theorem breakCond_spec {S : StepFns K} (hS : LawfulSteps S) (hi : K) (v : V)
    (x : RangeInclusive K × V) : ∃ b, breakCondNe S hi v x = .ok b ∧
      (b = true ↔ hi < x.1.start ∧ (Next hi x.1.start → HasNe.ne x.2 v = true)) := by
  unfold breakCondNe
  by_cases h : hi < x.1.start
  · obtain ⟨c, hc, hn⟩ := hS.addOne _ _ h
    have hcx := hn.2 _ h
    by_cases hcl : c < x.1.start
    · refine ⟨true, by simp [h, hc, hcl, bind, Except.bind, pure, Except.pure], ?_⟩
      simp only [h, true_and, true_iff]
      intro hn'
      have := hn'.2 c hn.1
      grind
    · have hk : keq x.1.start c = true := by rw [keq_iff]; grind
      refine ⟨HasNe.ne x.2 v, by simp [h, hc, hcl, hk, bind, Except.bind, pure, Except.pure], ?_⟩
      have hnx : Next hi x.1.start := ⟨h, fun d hd => by have := hn.2 d hd; grind⟩
      simp [h, hnx]
  · exact ⟨false, by simp [h, pure, Except.pure], by simp [h]⟩

theorem insertLoop_unfold (S : StepFns K) (hi : K) (v : V) (f : Nat)
    (m : List (RangeInclusive K × V)) (n : RangeInclusive K) : insertLoopNe S hi v (f + 1) m n =
      match (m.filter fun e => decide (n.start ≤ e.1.start)).head? with
      | none => .ok (m, n)
      | some x =>
        (breakCondNe S hi v x).bind fun b =>
          if b then .ok (m, n)
          else (adjustTouchingRangesForInsert S m x.1 x.2 n v).bind fun p =>
            insertLoopNe S hi v f p.1 p.2 := by
  conv => lhs; unfold insertLoopNe
  rw [BTreeMap.range_ok rfl]
  simp only [Bound.admitsAsLower, Bound.admitsAsUpper, Bool.and_true]
  rfl

/-- Nothing left to do for the loop: the next stored range is beyond the new one. -/
def Done (hi : K) (v : V) (m : List (RangeInclusive K × V)) (n : RangeInclusive K) : Prop :=
  ∀ y ∈ m, n.start ≤ y.1.start → n.stop < y.1.start ∧
    (Next hi y.1.start → HasNe.ne y.2 v = true)

/-- Everything that starts after `hi` is beyond the new range. -/
def RightOk (hi : K) (v : V) (m : List (RangeInclusive K × V)) (n : RangeInclusive K) : Prop :=
  hi ≤ n.stop ∧ ∀ y ∈ m, hi < y.1.start → n.stop < y.1.start

/-- If there is nothing left to do the loop stops at once. -/
theorem insertLoop_done {S : StepFns K} (hS : LawfulSteps S) {hi : K} {v : V}
    {m : List (RangeInclusive K × V)} {n : RangeInclusive K} {f : Nat}
    (hh : hi ≤ n.stop) (hd : Done hi v m n) :
    insertLoopNe S hi v (f + 1) m n = .ok (m, n) := by
  rw [insertLoop_unfold S hi v f m n]
  split
  · rfl
  · rename_i x hx
    have hx := List.mem_of_head? hx
    rw [List.mem_filter] at hx
    have hdx := hd _ hx.1 (by simpa using hx.2)
    obtain ⟨b, hb, hbt⟩ := breakCond_spec hS hi v x
    have : b = true := by
      rw [hbt]
      exact ⟨by grind, hdx.2⟩
    simp [hb, this, Except.bind]

variable [EqOrNe V]

theorem insertLoop_spec {S : StepFns K} (hS : LawfulSteps S)
    {m0 : List (RangeInclusive K × V)} {r : RangeInclusive K} {v : V} {hi : K}
    (hr : r.start ≤ r.stop) (L : Nat) :
    ∀ (m : List (RangeInclusive K × V)) (n : RangeInclusive K), Weak.IInv m0 r v m n → Weak.LeftOk v m n →
      RightOk hi v m n → r.stop ≤ hi → (m.length ≤ L ∨ Done hi v m n) →
      ∃ m' n', (∀ fuel, L + 1 ≤ fuel → insertLoopNe S hi v fuel m n = .ok (m', n')) ∧
        Weak.IInv m0 r v m' n' ∧ Weak.LeftOk v m' n' ∧ Done hi v m' n' ∧ m'.length ≤ m.length := by
  induction L with
  | zero =>
    intro m n hinv hleft hright hhi hlen
    have hd : Done hi v m n := by
      rcases hlen with hlen | hlen
      · have : m = [] := List.eq_nil_of_length_eq_zero (by omega)
        simp [this, Done]
      · exact hlen
    refine ⟨m, n, ?_, hinv, hleft, hd, by omega⟩
    intro fuel hf
    obtain ⟨f, rfl⟩ : ∃ f, fuel = f + 1 := ⟨fuel - 1, by omega⟩
    exact insertLoop_done hS hright.1 hd
  | succ L ih =>
    intro m n hinv hleft hright hhi hlen
    have hns := hinv.ns
    have hne := hinv.ne
    rcases hlen with hlen | hd
    · have hn : n.start ≤ hi := by grind
      cases hh : (m.filter fun e => decide (n.start ≤ e.1.start)).head? with
      | none =>
        refine ⟨m, n, ?_, hinv, hleft, ?_, by omega⟩
        · intro fuel hf
          obtain ⟨f, rfl⟩ : ∃ f, fuel = f + 1 := ⟨fuel - 1, by omega⟩
          rw [insertLoop_unfold S hi v f m n, hh]
        · rw [BTreeMap.head?_filter_eq_none] at hh
          intro y hy hy'
          have := hh y hy
          grind
      | some x =>
        obtain ⟨hx, hp, hfirst⟩ := BTreeMap.head?_filter_eq_some hinv.sep.pw hh
        simp only [decide_eq_true_eq] at hp hfirst
        have hnx := hinv.sep.ne x hx
        have hen : (x.2 == v) = false → HasNe.ne x.2 v = true := EqOrNe.ne_of_not_eq
        have htri := hinv.sep.tri x hx
        obtain ⟨b, hb, hbt⟩ := breakCond_spec hS hi v x
        cases b with
        | true =>
          have hbt := hbt.1 rfl
          refine ⟨m, n, ?_, hinv, hleft, ?_, by omega⟩
          · intro fuel hf
            obtain ⟨f, rfl⟩ : ∃ f, fuel = f + 1 := ⟨fuel - 1, by omega⟩
            rw [insertLoop_unfold S hi v f m n, hh]
            simp [hb, Except.bind]
          · intro y hy hy'
            rcases hfirst y hy hy' with rfl | hxy
            · exact ⟨hright.2 y hy hbt.1, hbt.2⟩
            · have hlt : hi < y.1.start := by grind [Before]
              refine ⟨hright.2 y hy hlt, fun h => ?_⟩
              have := h.2 x.1.start hbt.1
              grind [Before]
        | false =>
          have hbt : hi < x.1.start → Next hi x.1.start ∧ (x.2 == v) = true := by
            intro h
            by_cases hnn : Next hi x.1.start
            · refine ⟨hnn, ?_⟩
              by_cases hxv : (x.2 == v) = true
              · exact hxv
              · simp_all
            · simp_all
          have hle : x.1.start ≤ n.stop ∨ Next n.stop x.1.start := by
            by_cases h : hi < x.1.start
            · have := (hbt h).1
              have h2 := hright.2 x hx h
              right
              refine ⟨h2, fun d hd => this.2 d (by have := hright.1; grind)⟩
            · left; have := hright.1; grind
          obtain ⟨m1, n1, hadj, hinv1, ha⟩ :=
            Weak.adjustInsert_spec hS hr hinv hx hle (by grind)
          have hstep : Weak.LeftOk v m1 n1 ∧ RightOk hi v m1 n1 ∧
              (m1.length ≤ L ∨ Done hi v m1 n1) ∧ m1.length ≤ m.length := by
            rcases ha with ⟨hv, e1, e2, hm, hl⟩ | ⟨hv, e1, e2, hn', p, s, hpp, hss, hm, hl, -⟩ |
              ⟨hv, e1, hn', hm⟩
            · refine ⟨?_, ?_, Or.inl (by omega), by omega⟩
              · intro y hy hlt
                rw [hm] at hy
                have := hleft y hy.1
                have hst : n1.start = n.start := by rw [e1]; unfold rmin; rw [if_neg (by grind)]
                rw [hst] at hlt ⊢
                exact this hlt
              · refine ⟨?_, ?_⟩
                · rw [e2, le_rmax]; exact Or.inl hright.1
                · intro y hy hlt
                  rw [hm] at hy
                  have h1 := hright.2 y hy.1 hlt
                  have h2 := hfirst y hy.1 (by grind)
                  rw [e2, rmax_lt]
                  grind [Before]
            · subst hn'
              have hxhi : ¬ hi < x.1.start := by
                intro h
                have := (hbt h).2
                simp_all
              rw [if_neg (by grind)] at hl
              refine ⟨?_, ?_, ?_, by grind⟩
              · intro y hy hlt
                have := hleft y
                rw [hm] at hy
                rcases hy with hy | ⟨hy, rfl⟩ | ⟨hy, rfl⟩
                · exact this hy.1 hlt
                · exfalso; grind
                · exfalso
                  have := (hss hy).1.1
                  simp only [RangeInclusive.mk'_start] at hlt
                  grind
              · refine ⟨hright.1, ?_⟩
                intro y hy hlt
                have := hright.2 y
                rw [hm] at hy
                rcases hy with hy | ⟨hy, rfl⟩ | ⟨hy, rfl⟩
                · exact this hy.1 hlt
                · exfalso; grind
                · exact (hss hy).1.1
              · by_cases hxr : n1.stop < x.1.stop
                · right
                  intro y hy hy'
                  have h1 := hfirst y
                  rw [hm] at hy
                  rcases hy with hy | ⟨hy, rfl⟩ | ⟨hy, rfl⟩
                  · have hb := (h1 hy.1 hy').resolve_left hy.2
                    have hlt := hb.2
                    refine ⟨by grind, fun hn => ?_⟩
                    have := hright.1
                    have := hn.2 x.1.stop (by grind)
                    grind
                  · exfalso; grind
                  · exact ⟨(hss hy).1.1, fun _ => hen hv⟩
                · left
                  rw [if_neg hxr] at hl
                  omega
            · exfalso
              have hxhi : ¬ hi < x.1.start := by
                intro h
                have := (hbt h).2
                simp_all
              have := hright.1
              grind
          obtain ⟨h2, h3, h4, h5⟩ := hstep
          obtain ⟨m', n', hm', hi', hl', hd', hlen'⟩ := ih m1 n1 hinv1 h2 h3 hhi h4
          refine ⟨m', n', ?_, hi', hl', hd', by omega⟩
          intro fuel hf
          obtain ⟨f, rfl⟩ : ∃ f, fuel = f + 1 := ⟨fuel - 1, by omega⟩
          rw [insertLoop_unfold S hi v f m n, hh]
          simp only [hb, hadj, Except.bind]
          exact hm' f (by omega)
    · refine ⟨m, n, ?_, hinv, hleft, hd, by omega⟩
      intro fuel hf
      obtain ⟨f, rfl⟩ : ∃ f, fuel = f + 1 := ⟨fuel - 1, by omega⟩
      exact insertLoop_done hS hright.1 hd

theorem insert_spec {S : StepFns K} (hS : LawfulSteps S)
    {m : RangeInclusiveMap K V} (h : Sep m.btm) {r : RangeInclusive K} (v : V)
    (hr : r.start ≤ r.stop) :
    ∃ m' : RangeInclusiveMap K V, (∀ fuel, m.len + 2 ≤ fuel → insertFuelNe S fuel m r v = .ok m') ∧
      Sep m'.btm ∧ (Fresh m.btm → r.exhausted = false → Fresh m'.btm) ∧ m'.len ≤ m.len + 2 ∧
      ∃ n : RangeInclusive K, n.start ≤ r.start ∧ r.stop ≤ n.stop ∧
        (∀ k, n.start ≤ k → k ≤ n.stop → ¬ (r.start ≤ k ∧ k ≤ r.stop) →
          ∃ w, Maps m.btm k w ∧ (w == v) = true) ∧
        (∀ k, n.start ≤ k → k ≤ n.stop → ∀ w, Maps m'.btm k w ↔ w = v) ∧
        (∀ k, ¬ (n.start ≤ k ∧ k ≤ n.stop) → ∀ w, Maps m'.btm k w ↔ Maps m.btm k w) := by
  obtain ⟨m1, n1, hp, hi1, hl1, hlen1⟩ := Weak.insertPrefix_spec (v := v) hS hr h
  obtain ⟨m2, n2, hloop, hi2, hl2, hd2, hlen2⟩ :=
    insertLoop_spec (hi := n1.stop) hS hr (m.len + 1) m1 n1 hi1 hl1 ⟨by grind, by grind⟩ hi1.ne
      (Or.inl hlen1)
  have hns := hi2.ns
  have hne := hi2.ne
  have hfit : Fits m2 n2 := by
    refine ⟨by grind, ?_⟩
    intro e he
    have := hl2 e he
    have := hd2 e he
    grind
  have em := hi2.sep.mem_insert hfit v
  refine ⟨⟨BTreeMap.insert RangeInclusive.start n2 v m2⟩, ?_, hi2.sep.insert hfit v, ?_, ?_, n2,
    hns, hne, hi2.ado, ?_, ?_⟩
  · intro fuel hf
    unfold insertFuelNe
    simp [hr, hp, hloop fuel (by omega), bind, Except.bind, pure, Except.pure]
  · intro hf he e hm
    rw [em] at hm
    rcases hm with rfl | hm
    · rcases hi2.ex with h | h
      · exact h
      · rw [h]; exact he
    · exact hi2.fresh hf e hm
  · simp only [len, hi2.sep.length_insert hfit v] at *
    omega
  · intro k hk1 hk2 w
    simp only [Maps]
    constructor
    · rintro ⟨e, he, h1, h2, h3⟩
      rw [em] at he
      rcases he with rfl | he
      · exact h3.symm
      · have := hfit.2 e he
        exfalso
        grind
    · rintro rfl
      exact ⟨(n2, w), by rw [em]; grind, hk1, hk2, rfl⟩
  · intro k hk w
    rw [← hi2.out k hk]
    simp only [Maps]
    constructor
    · rintro ⟨e, he, h1, h2, h3⟩
      rw [em] at he
      rcases he with rfl | he
      · exact absurd ⟨h1, h2⟩ hk
      · exact ⟨e, he, h1, h2, h3⟩
    · rintro ⟨e, he, h1, h2, h3⟩
      exact ⟨e, by rw [em]; grind, h1, h2, h3⟩

variable {S : StepFns K}

theorem insert_ok (hS : LawfulSteps S) {m : RangeInclusiveMap K V} (h : Sep m.btm)
    {r : RangeInclusive K} (v : V) (hr : r.start ≤ r.stop) :
    ∃ m', m.insertNe S r v = .ok m' ∧ Sep m'.btm ∧
      (Fresh m.btm → r.exhausted = false → Fresh m'.btm) := by
  obtain ⟨m', h1, h2, h3, _⟩ := insert_spec hS h v hr
  exact ⟨m', h1 _ (by omega), h2, h3⟩

/-- `insert` on the abstract contents. -/
theorem insert_look (hS : LawfulSteps S) {m m' : RangeInclusiveMap K V} (h : Sep m.btm)
    (hf : Fresh m.btm) {r : RangeInclusive K} {v : V} (hx : r.exhausted = false)
    (hr : r.start ≤ r.stop) (hi : m.insertNe S r v = .ok m') (k : K) :
    (r.start ≤ k → k ≤ r.stop → m'.look k = some v) ∧
    (¬ (r.start ≤ k ∧ k ≤ r.stop) → m'.look k = m.look k ∨
      ∃ w, m.look k = some w ∧ (w == v) = true ∧ m'.look k = some v) := by
  obtain ⟨m'', h1, h2, hf2, _, n, h3, h4, h5, h6, h7⟩ := insert_spec hS h v hr
  have : m'' = m' := by
    have := h1 _ (Nat.le_refl _)
    rw [RangeInclusiveMap.insertNe] at hi
    simpa [hi] using this.symm
  subst this
  have hf2 := hf2 hf hx
  constructor
  · intro hk1 hk2
    rw [Weak.look_eq_some h2 hf2, h6 k (by grind) (by grind)]
  · intro hk
    by_cases hkn : n.start ≤ k ∧ k ≤ n.stop
    · right
      obtain ⟨w, hw1, hw2⟩ := h5 k hkn.1 hkn.2 hk
      refine ⟨w, (Weak.look_eq_some h hf _ _).2 hw1, hw2, ?_⟩
      rw [Weak.look_eq_some h2 hf2, h6 k hkn.1 hkn.2]
    · left
      exact Weak.look_congr h hf h2 hf2 (h7 k hkn)

theorem extend_sep (hS : LawfulSteps S) {m : RangeInclusiveMap K V}
    (h : Sep m.btm) (items : List (RangeInclusive K × V)) :
    Sep (m.extendNe S items).1.btm ∧ (Fresh m.btm → (∀ e ∈ items, e.1.exhausted = false) →
      Fresh (m.extendNe S items).1.btm) := by
  induction items generalizing m with
  | nil => exact ⟨h, fun h _ => h⟩
  | cons e t ih =>
    unfold RangeInclusiveMap.extendNe
    by_cases he : e.1.start ≤ e.1.stop
    · obtain ⟨m', h1, h2, h3⟩ := insert_ok hS h e.2 he
      rw [h1]
      exact ⟨(ih h2).1, fun hf hi => (ih h2).2 (h3 hf (hi e (by simp)))
        (fun x hx => hi x (by simp [hx]))⟩
    · rw [insertNe_invalid he]
      exact ⟨h, fun h _ => h⟩

theorem apply_sep (hS : LawfulSteps S) {m : RangeInclusiveMap K V}
    (h : Sep m.btm) (op : Op (RangeInclusive K) V) :
    Sep (m.applyNe S op).1.btm ∧ (Fresh m.btm → (∀ r ∈ op.inserted, r.exhausted = false) →
      Fresh (m.applyNe S op).1.btm) := by
  cases op with
  | insert r v =>
    unfold RangeInclusiveMap.applyNe
    by_cases hr : r.start ≤ r.stop
    · obtain ⟨m', h1, h2, h3⟩ := insert_ok hS h v hr
      simp only [h1]
      exact ⟨h2, fun hf hi => h3 hf (hi r (by simp [Op.inserted]))⟩
    · simp only [insertNe_invalid hr]
      exact ⟨h, fun h _ => h⟩
  | remove r =>
    unfold RangeInclusiveMap.applyNe
    by_cases hr : r.start ≤ r.stop
    · obtain ⟨m', h1, h2, h3⟩ := Weak.remove_ok hS h hr
      simp only [h1]
      exact ⟨h2, fun hf _ => h3 hf⟩
    · simp only [remove_invalid hr]
      exact ⟨h, fun h _ => h⟩
  | clear => exact ⟨SC.nil.sep, fun _ _ => WF.nil.fresh⟩
  | extend items =>
    refine ⟨(extend_sep hS h items).1, fun hf hi => (extend_sep hS h items).2 hf fun e he => ?_⟩
    exact hi _ (by simp only [Op.inserted, List.mem_map]; exact ⟨e, he, rfl⟩)

theorem run_sep (hS : LawfulSteps S) (ops : List (Op (RangeInclusive K) V)) :
    Sep (runNe S ops).btm ∧ ((∀ op ∈ ops, ∀ r ∈ op.inserted, r.exhausted = false) →
      Fresh (runNe S ops).btm) := by
  unfold runNe
  suffices ∀ m : RangeInclusiveMap K V, Sep m.btm →
      Sep (ops.foldl (fun m op => (m.applyNe S op).1) m).btm ∧
      (Fresh m.btm → (∀ op ∈ ops, ∀ r ∈ op.inserted, r.exhausted = false) →
        Fresh (ops.foldl (fun m op => (m.applyNe S op).1) m).btm) from
    ⟨(this _ SC.nil.sep).1, (this _ SC.nil.sep).2 WF.nil.fresh⟩
  induction ops with
  | nil => intro m h; exact ⟨h, fun h _ => h⟩
  | cons op ops ih =>
    intro m h
    have h1 := apply_sep hS h op
    have h2 := ih _ h1.1
    exact ⟨h2.1, fun hf hi => h2.2 (h1.2 hf (hi op (by simp))) fun o ho => hi o (by simp [ho])⟩

theorem reachable_sep (hS : LawfulSteps S) {m : RangeInclusiveMap K V}
    (h : ReachableNe S m) : Sep m.btm ∧ Fresh m.btm := by
  obtain ⟨ops, ho, rfl⟩ := h
  exact ⟨(run_sep hS ops).1, (run_sep hS ops).2 ho⟩

theorem reachableAny_sep (hS : LawfulSteps S) {m : RangeInclusiveMap K V}
    (h : ReachableAnyNe S m) : Sep m.btm := by
  obtain ⟨ops, rfl⟩ := h
  exact (run_sep hS ops).1

theorem reachable_never (hS : LawfulSteps S) {m : RangeInclusiveMap K V} (h : ReachableNe S m) :
    @Reachable K _ _ _ _ V (never V) S m :=
  @WF.reachable K _ _ _ _ _ _ V (never V) S (never_per V) hS m
    (Weak.wf_never (reachable_sep hS h).1 (reachable_sep hS h).2)

theorem reachableAny_never (hS : LawfulSteps S) {m : RangeInclusiveMap K V}
    (h : ReachableAnyNe S m) : @ReachableAny K _ _ _ _ V (never V) S m :=
  (@reachableAny_iff K _ _ _ _ _ _ V (never V) S (never_per V) hS m).2
    (Weak.sc_never (reachableAny_sep hS h))

/-! ### Histories -/
theorem insert_look_chain (hS : LawfulSteps S) {m m' : RangeInclusiveMap K V} (h : Sep m.btm)
    (hf : Fresh m.btm) {r : RangeInclusive K} {v : V} (hx : r.exhausted = false)
    (hr : r.start ≤ r.stop) (hi : m.insertNe S r v = .ok m') (k : K) :
    Chained (if r.start ≤ k ∧ k ≤ r.stop then some v else m.look k) (m'.look k) := by
  have := insert_look hS h hf hx hr hi k
  split
  · rename_i hk
    rw [this.1 hk.1 hk.2]
    exact Chained.refl _
  · rename_i hk
    rcases this.2 hk with h | ⟨w, h1, h2, h3⟩
    · rw [h]; exact Chained.refl _
    · rw [h1, h3]
      exact .step .refl h2

theorem extend_look (hS : LawfulSteps S) {m : RangeInclusiveMap K V} (h : Sep m.btm) (hfr : Fresh m.btm)
    (items : List (RangeInclusive K × V)) (hx : ∀ e ∈ items, e.1.exhausted = false) (k : K) :
    Chained
      (match (items.takeWhile fun e => ivalid e.1).reverse.find? fun e => icovers e.1 k with
      | some e => some e.2
      | none => m.look k) ((m.extendNe S items).1.look k) := by
  induction items generalizing m with
  | nil => exact Chained.refl _
  | cons e t ih =>
    obtain ⟨r, v⟩ := e
    unfold RangeInclusiveMap.extendNe
    by_cases he : r.start ≤ r.stop
    · obtain ⟨m', h1, h2, h3⟩ := insert_ok hS h v he
      rw [h1]
      have := ih h2 (h3 hfr (hx (r, v) (by simp))) (fun e he => hx e (by simp [he]))
      simp only [List.takeWhile_cons, ivalid, he, decide_true, if_true, List.reverse_cons,
        List.find?_append]
      simp only [ivalid] at this
      cases hf : (t.takeWhile fun e => decide (e.1.start ≤ e.1.stop)).reverse.find?
          fun e => icovers e.1 k with
      | some e => simp only [hf] at this; simpa using this
      | none =>
        simp only [hf] at this
        refine Chained.trans ?_ this
        have hi := insert_look_chain hS h hfr (hx (r, v) (by simp)) he h1 k
        by_cases hk : r.start ≤ k ∧ k ≤ r.stop
        · simp only [hk, and_self, if_true] at hi
          simpa [icovers, hk] using hi
        · rw [if_neg hk] at hi
          simpa [icovers, hk] using hi
    · rw [insertNe_invalid he]
      simp [ivalid, he]
      exact Chained.refl _

theorem apply_look (hS : LawfulSteps S) {m : RangeInclusiveMap K V} (h : Sep m.btm) (hfr : Fresh m.btm)
    (op : Op (RangeInclusive K) V) (hx : ∀ r ∈ op.inserted, r.exhausted = false) (k : K)
    (ops : List (Op (RangeInclusive K) V))
    (hm : Chained (lastWrite icovers ivalid ops k) (m.look k)) :
    Chained (lastWrite icovers ivalid (op :: ops) k) ((m.applyNe S op).1.look k) := by
  cases op with
  | insert r v =>
    simp only [RangeInclusiveMap.applyNe, lastWrite, ivalid, icovers]
    by_cases hr : r.start ≤ r.stop
    · obtain ⟨m', h1, h2, h3⟩ := insert_ok hS h v hr
      simp only [h1]
      have := insert_look_chain hS h hfr (hx r (by simp [Op.inserted])) hr h1 k
      by_cases hk : r.start ≤ k ∧ k ≤ r.stop
      · simpa [hr, hk] using this
      · rw [if_neg hk] at this
        simpa [hk] using Chained.trans hm this
    · simpa [insertNe_invalid hr, hr] using hm
  | remove r =>
    simp only [RangeInclusiveMap.applyNe, lastWrite, ivalid, icovers]
    by_cases hr : r.start ≤ r.stop
    · obtain ⟨m', h1, h2, _⟩ := Weak.remove_ok hS h hr
      simp only [h1]
      have := Weak.remove_look hS h hfr hr h1 k
      by_cases hk : r.start ≤ k ∧ k ≤ r.stop
      · simp [hr, hk, this, Chained]
      · simpa [hk, this] using hm
    · simpa [remove_invalid hr, hr] using hm
  | clear =>
    simp only [RangeInclusiveMap.applyNe, lastWrite, RangeInclusiveMap.clear]
    have : (⟨[]⟩ : RangeInclusiveMap K V).look k = none := by
      rw [Weak.look_eq_none (m := ⟨[]⟩) (WF.nil (K := K) (V := V)).sep (WF.nil (K := K) (V := V)).fresh]
      rintro w ⟨x, hx, _⟩
      simp at hx
    rw [this]
    trivial
  | extend items =>
    simp only [RangeInclusiveMap.applyNe, lastWrite]
    have := extend_look hS h hfr items (fun e he => hx _ (by simp only [Op.inserted, List.mem_map]; exact ⟨e, he, rfl⟩)) k
    cases hf : (items.takeWhile fun e => ivalid e.1).reverse.find?
        fun e => icovers e.1 k with
    | some e => simpa only [hf] using this
    | none =>
      simp only [hf] at this ⊢
      exact Chained.trans hm this

theorem run_look (hS : LawfulSteps S) (ops : List (Op (RangeInclusive K) V))
    (hx : ∀ op ∈ ops, ∀ r ∈ op.inserted, r.exhausted = false) (k : K) :
    Chained (lastWrite icovers ivalid ops.reverse k) ((runNe S ops).look k) := by
  suffices ∀ rops : List (Op (RangeInclusive K) V),
      (∀ op ∈ rops, ∀ r ∈ op.inserted, r.exhausted = false) →
      Chained (lastWrite icovers ivalid rops k) ((runNe S rops.reverse).look k) by
    simpa using this ops.reverse (by simpa using hx)
  intro rops hx
  induction rops with
  | nil =>
    have : (runNe S [] : RangeInclusiveMap K V).look k = none := by
      rw [Weak.look_eq_none (m := runNe S []) (WF.nil (K := K) (V := V)).sep (WF.nil (K := K) (V := V)).fresh]
      rintro w ⟨x, hx, _⟩
      simp [runNe, RangeInclusiveMap.new] at hx
    simp [this, lastWrite, Chained]
  | cons op rops ih =>
    rw [List.reverse_cons, runNe_append]
    exact apply_look hS (run_sep hS rops.reverse).1 ((run_sep hS rops.reverse).2 (by grind)) op (hx op (by simp)) k rops
      (ih fun o ho => hx o (by simp [ho]))

end Verif.RangeInclusiveMap.Ne

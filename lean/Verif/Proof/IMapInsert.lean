import Verif.Proof.IMap

/-!
# Invariant proof for `RangeInclusiveMap::insert`
-/
set_option linter.unusedSectionVars false
set_option linter.unusedVariables false

namespace Verif.RangeInclusiveMap
open Spec (Next LawfulSteps)
variable {K : Type} [LE K] [LT K] [DecidableLE K] [DecidableLT K]
  [Std.IsLinearPreorder K] [Std.LawfulOrderLT K] {V : Type} [BEq V] [PartialEquivBEq V]

/-- Invariant of `insert` of `r ↦ v` into `m0`; `m` is the current tree and `n` the (grown) new
range. -/
structure IInv (m0 : List (RangeInclusive K × V)) (r : RangeInclusive K) (v : V)
    (m : List (RangeInclusive K × V)) (n : RangeInclusive K) : Prop where
  sep : Sep m
  coal : Coal m
  fresh : Fresh m0 → Fresh m
  ex : n.exhausted = false ∨ n = r
  ns : n.start ≤ r.start
  ne : r.stop ≤ n.stop
  out : ∀ k, ¬ (n.start ≤ k ∧ k ≤ n.stop) → ∀ w, Maps m k w ↔ Maps m0 k w
  ado : ∀ k, n.start ≤ k → k ≤ n.stop → ¬ (r.start ≤ k ∧ k ≤ r.stop) →
    ∃ w, Maps m0 k w ∧ (w == v) = true

/-- What `adjust_touching_ranges_for_insert` does to the entries, for an entry `x` that touches
the new range. -/
theorem adjustInsert_spec {S : StepFns K} (hS : LawfulSteps S)
    {m0 m : List (RangeInclusive K × V)} {r n : RangeInclusive K} {v : V}
    (hr : r.start ≤ r.stop) (h : IInv m0 r v m n) {x : RangeInclusive K × V} (hx : x ∈ m)
    (ht1 : x.1.start ≤ n.stop ∨ Next n.stop x.1.start)
    (ht2 : n.start ≤ x.1.stop ∨ Next x.1.stop n.start) :
    ∃ m' n', adjustTouchingRangesForInsert S m x.1 x.2 n v = .ok (m', n') ∧ IInv m0 r v m' n' ∧
    (((x.2 == v) = true ∧ n'.start = rmin n.start x.1.start ∧ n'.stop = rmax n.stop x.1.stop ∧
        (∀ y, y ∈ m' ↔ y ∈ m ∧ y ≠ x) ∧ m'.length + 1 = m.length) ∨
     ((x.2 == v) = false ∧ x.1.start ≤ n.stop ∧ n.start ≤ x.1.stop ∧ n' = n ∧ ∃ p s,
        (x.1.start < n.start → Next p n.start ∧ x.1.start ≤ p) ∧
        (n.stop < x.1.stop → Next n.stop s ∧ s ≤ x.1.stop) ∧
        (∀ y, y ∈ m' ↔ (y ∈ m ∧ y ≠ x) ∨
          (x.1.start < n.start ∧ y = (.mk' x.1.start p, x.2)) ∨
          (n.stop < x.1.stop ∧ y = (.mk' s x.1.stop, x.2))) ∧
        m'.length + 1 = m.length + (if x.1.start < n.start then 1 else 0) +
          (if n.stop < x.1.stop then 1 else 0) ∧
        (x.1.start < n.start → S.subOne n.start = .ok p) ∧
        (n.stop < x.1.stop → S.addOne n.stop = .ok s)) ∨
     ((x.2 == v) = false ∧ ¬ (x.1.start ≤ n.stop ∧ n.start ≤ x.1.stop) ∧ n' = n ∧ m' = m)) := by
  have htri := h.sep.tri x hx
  have hne := h.sep.ne x hx
  have hns := h.ns
  have hne' := h.ne
  have hnn : n.start ≤ n.stop := by grind
  unfold adjustTouchingRangesForInsert
  by_cases hv : (x.2 == v) = true
  · rw [if_pos hv]
    have em := h.sep.mem_remove hx
    refine ⟨_, _, rfl, ⟨h.sep.remove _, ?_, ?_, Or.inl rfl, ?_, ?_, ?_, ?_⟩,
      Or.inl ⟨hv, rfl, rfl, em, h.sep.length_remove hx⟩⟩
    · intro a ha b hb
      rw [em] at ha hb
      exact h.coal a ha.1 b hb.1
    · intro hf e he
      rw [em] at he
      exact h.fresh hf e he.1
    · simp only [RangeInclusive.mk'_start]; rw [rmin_le]; exact Or.inl hns
    · simp only [RangeInclusive.mk'_stop]; rw [le_rmax]; exact Or.inl hne'
    · intro k hk w
      simp only [RangeInclusive.mk'_start, RangeInclusive.mk'_stop, rmin_le, le_rmax] at hk
      rw [← h.out k (by grind) w]
      unfold Maps
      constructor
      · rintro ⟨e, he, h1, h2, h3⟩
        rw [em] at he
        exact ⟨e, he.1, h1, h2, h3⟩
      · rintro ⟨e, he, h1, h2, h3⟩
        refine ⟨e, ?_, h1, h2, h3⟩
        rw [em]
        grind
    · intro k hk1 hk2 hk3
      simp only [RangeInclusive.mk'_start, RangeInclusive.mk'_stop, rmin_le, le_rmax] at hk1 hk2
      by_cases hkn : n.start ≤ k ∧ k ≤ n.stop
      · exact h.ado k hkn.1 hkn.2 hk3
      · refine ⟨x.2, ?_, hv⟩
        rw [← h.out k hkn]
        refine ⟨x, hx, ?_, ?_, rfl⟩
        · rcases ht1 with ht | ht
          · grind
          · have := ht.2 k
            grind
        · rcases ht2 with ht | ht
          · grind
          · have := Next.iff ht k
            grind
  · have hv' : (x.2 == v) = false := by simpa using hv
    rw [if_neg hv]
    by_cases hov : n.overlaps x.1 = true
    · rw [if_pos hov]
      simp only [RangeInclusive.overlaps, decide_eq_true_eq, le_rmin, rmax_le] at hov
      obtain ⟨m2, m3, p, s, h2, h3, s3, hp, hs, e3, l3, hpq⟩ :=
        h.sep.cut hS hx hnn (by grind) (by grind)
      refine ⟨m3, n, ?_, ⟨s3, cut_coal h.sep h.coal hx hnn (by grind) (by grind) hp hs e3,
        fun hf => cut_fresh e3 (h.fresh hf), h.ex, hns, hne', ?_, h.ado⟩,
        Or.inr (Or.inl ⟨hv', by grind, by grind, rfl, p, s, hp, hs, e3, l3, hpq⟩)⟩
      · simp [h2, h3, bind, Except.bind, pure, Except.pure]
      · intro k hk w
        rw [← h.out k hk w]
        exact cut_maps hx hp hs (by grind) (by grind) e3 hk w
    · rw [if_neg hov]
      simp only [RangeInclusive.overlaps, decide_eq_true_eq, le_rmin, rmax_le] at hov
      exact ⟨m, n, rfl, h, Or.inr (Or.inr ⟨hv', by grind, rfl, rfl⟩)⟩

/-- `insert` works by adjusting, one after the other, stored entries that touch the new range. -/
inductive Steps (S : StepFns K) (v : V) : List (RangeInclusive K × V) → RangeInclusive K →
    List (RangeInclusive K × V) → RangeInclusive K → Prop
  | refl {m n} : Steps S v m n m n
  | step {m n m1 n1 m' n'} {x : RangeInclusive K × V} : x ∈ m →
      (x.1.start ≤ n.stop ∨ Next n.stop x.1.start) →
      (n.start ≤ x.1.stop ∨ Next x.1.stop n.start) →
      adjustTouchingRangesForInsert S m x.1 x.2 n v = .ok (m1, n1) →
      Steps S v m1 n1 m' n' → Steps S v m n m' n'

theorem Steps.trans {S : StepFns K} {v : V} {m m1 m2 : List (RangeInclusive K × V)}
    {n n1 n2 : RangeInclusive K}
    (h : Steps S v m n m1 n1) (h' : Steps S v m1 n1 m2 n2) : Steps S v m n m2 n2 := by
  induction h with
  | refl => exact h'
  | step h1 h2 h3 h4 _ ih => exact .step h1 h2 h3 h4 (ih h')

theorem IInv.refl {m : List (RangeInclusive K × V)} {r : RangeInclusive K} {v : V} (hs : Sep m)
    (hc : Coal m) : IInv m r v m r :=
  ⟨hs, hc, id, Or.inr rfl, by grind, by grind, fun _ _ _ => Iff.rfl, by grind⟩

/-- Everything that starts before the new range is settled. -/
def LeftOk (v : V) (m : List (RangeInclusive K × V)) (n : RangeInclusive K) : Prop :=
  ∀ y ∈ m, y.1.start < n.start →
    y.1.stop < n.start ∧ (Next y.1.stop n.start → (y.2 == v) = false)

/-- `touches` never panics on the candidates and says what it should. -/
theorem touches_spec {S : StepFns K} (hS : LawfulSteps S) {c r : RangeInclusive K}
    (hr : r.start ≤ r.stop) (hc : c.start ≤ r.start) (hcc : c.start ≤ c.stop) :
    ∃ b, c.touches S r = .ok b ∧ (b = true ↔ r.start ≤ c.stop ∨ Next c.stop r.start) := by
  unfold RangeInclusive.touches
  by_cases hlt : rmin c.stop r.stop < rmax c.start r.start
  · obtain ⟨d, hd, hdn⟩ := hS.addOne _ _ hlt
    refine ⟨_, by simp [hlt, hd, bind, Except.bind, pure, Except.pure]; rfl, ?_⟩
    simp only [rmin_lt, lt_rmax] at hlt
    have h1 : c.stop < r.start := by grind
    have hmin : rmin c.stop r.stop = c.stop := by unfold rmin; grind
    rw [hmin] at hdn
    rw [decide_eq_true_eq, rmax_le]
    have := hdn.2 r.start h1
    constructor
    · rintro ⟨_, h3⟩
      right
      refine ⟨h1, fun e he => ?_⟩
      have := hdn.2 e he
      grind
    · rintro (h3 | h3)
      · grind
      · have := h3.2 d hdn.1
        grind
  · refine ⟨true, ?_, ?_⟩
    · simp [hlt, bind, Except.bind, pure, Except.pure]; grind
    · simp only [true_iff]
      simp only [rmin_lt, lt_rmax] at hlt
      left; grind

/-- The candidates of `insert`: the last two entries starting at or before the new range. -/
theorem insertPrefix_spec {S : StepFns K} (hS : LawfulSteps S) {m : List (RangeInclusive K × V)}
    {r : RangeInclusive K} {v : V}
    (hr : r.start ≤ r.stop) (hs : Sep m) (hc : Coal m) :
    ∃ m' n', insertPrefix S m r v = .ok (m', n') ∧ IInv m r v m' n' ∧ LeftOk v m' n' ∧
      m'.length ≤ m.length + 1 ∧ Steps S v m r m' n' := by
  unfold insertPrefix
  rw [BTreeMap.range_ok rfl]
  simp only [Bound.admitsAsLower, Bound.admitsAsUpper, Bool.true_and, bind, Except.bind, pure,
    Except.pure]
  -- facts about the reversed list
  have hpw : ((m.filter fun e => decide (e.1.start ≤ r.start)).reverse).Pairwise
      (fun a b => Before b a) := by
    rw [List.pairwise_reverse]; exact hs.pw.filter _
  have hmem : ∀ y, y ∈ (m.filter fun e => decide (e.1.start ≤ r.start)).reverse ↔
      y ∈ m ∧ y.1.start ≤ r.start := by
    intro y; simp
  -- adjusting an entry `c` such that all earlier-starting entries precede it
  have key : ∀ c, c ∈ m → c.1.start ≤ r.start → (r.start ≤ c.1.stop ∨ Next c.1.stop r.start) →
      (∀ y ∈ m, y.1.start < r.start → y = c ∨
        (Before y c ∧ y.1.stop < r.start ∧ ¬ Next y.1.stop r.start)) →
      ∃ m' n', adjustTouchingRangesForInsert S m c.1 c.2 r v = .ok (m', n') ∧ IInv m r v m' n' ∧
        LeftOk v m' n' ∧ m'.length ≤ m.length + 1 ∧ Steps S v m r m' n' := by
    intro c hc' h1 h2 h3
    have hcn := hs.ne c hc'
    obtain ⟨m', n', hp, hinv, hadj⟩ :=
      adjustInsert_spec (v := v) hS hr (IInv.refl hs hc) hc' (by grind) h2
    refine ⟨m', n', hp, hinv, ?_, ?_, .step hc' (by grind) h2 hp .refl⟩
    · rcases hadj with ⟨hv, e1, e2, hm, hl⟩ | ⟨hv, e1, e2, hn, p, s, hp, hsu, hm, hl, -⟩ |
        ⟨hv, e1, hn, hm⟩
      · intro y hy hlt
        rw [hm] at hy
        rw [e1] at hlt ⊢
        have := hc y hy.1 c hc'
        have h3 := h3 y hy.1
        have hsymm : (y.2 == v) = true → (y.2 == c.2) = true := fun h =>
          PartialEquivBEq.trans h (PartialEquivBEq.symm hv)
        simp only [rmin, Before] at *
        by_cases hcr : c.1.start < r.start
        · simp only [hcr, if_true] at *
          grind
        · simp only [hcr, if_false] at *
          grind
      · intro y hy hlt
        rw [hn] at hlt ⊢
        rw [hm] at hy
        have h3 := h3 y
        rcases hy with hy | ⟨hy, rfl⟩ | ⟨hy, rfl⟩
        · grind
        · exact ⟨(hp hy).1.1, fun _ => hv⟩
        · exfalso
          have := (hsu hy).1.1
          simp only [RangeInclusive.mk'_start] at hlt
          grind
      · intro y hy hlt
        rw [hn] at hlt ⊢
        rw [hm] at hy
        have h3 := h3 y hy hlt
        rcases h3 with rfl | h3
        · exact ⟨by grind, fun _ => hv⟩
        · exact ⟨h3.2.1, fun h => absurd h h3.2.2⟩
    · grind
  generalize hl : (m.filter fun e => decide (e.1.start ≤ r.start)).reverse = l at hpw hmem ⊢
  match l, hpw, hmem with
  | [], hpw, hmem =>
    refine ⟨m, r, rfl, .refl hs hc, ?_, by omega, .refl⟩
    intro y hy hlt
    have := hmem y
    grind
  | [c1], hpw, hmem =>
    have hc1 := (hmem c1).1 (by simp)
    have hn1 := hs.ne c1 hc1.1
    have hlast : ∀ y ∈ m, y.1.start ≤ r.start → y = c1 := by
      intro y hy hlt
      have := hmem y
      grind
    obtain ⟨b, hb, hbt⟩ := touches_spec hS hr hc1.2 hn1
    simp only [List.take, filterE, hb, bind, Except.bind, pure, Except.pure]
    cases b with
    | true =>
      obtain ⟨m', n', h1, h2⟩ := key c1 hc1.1 hc1.2 (hbt.1 rfl) (by grind)
      exact ⟨m', n', by simp [h1], h2⟩
    | false =>
      refine ⟨m, r, rfl, .refl hs hc, ?_, by omega, .refl⟩
      intro y hy hlt
      have := hlast y hy
      grind
  | c1 :: c2 :: t, hpw, hmem =>
    have hc1 := (hmem c1).1 (by simp)
    have hc2 := (hmem c2).1 (by simp)
    have hn1 := hs.ne c1 hc1.1
    have hn2 := hs.ne c2 hc2.1
    rw [List.pairwise_cons, List.pairwise_cons] at hpw
    have hbef := hpw.1 c2 (by simp)
    have hlast : ∀ y ∈ m, y.1.start ≤ r.start → y = c1 ∨ y = c2 ∨ Before y c2 := by
      intro y hy hlt
      have := hmem y
      have := hpw.2.1 y
      grind
    -- what touches, when there is something in between
    have hfar : ∀ y z : RangeInclusive K × V, Before y z → z.1.start ≤ z.1.stop →
        z.1.stop < r.start → y.1.stop < r.start ∧ ¬ Next y.1.stop r.start := by
      intro y z hyz hzz hz
      refine ⟨by grind [Before], fun h => ?_⟩
      have := h.2 z.1.start hyz.2
      grind
    have hfar2 : ∀ y z : RangeInclusive K × V, Before y z →
        z.1.start < r.start → y.1.stop < r.start ∧ ¬ Next y.1.stop r.start := by
      intro y z hyz hz
      refine ⟨by grind [Before], fun h => ?_⟩
      have := h.2 z.1.start hyz.2
      grind
    obtain ⟨b1, hb1, hbt1⟩ := touches_spec hS hr hc1.2 hn1
    obtain ⟨b2, hb2, hbt2⟩ := touches_spec hS hr hc2.2 hn2
    simp only [List.take, filterE, hb1, hb2, bind, Except.bind, pure, Except.pure]
    have hc2lt : c2.1.start < r.start := by grind [Before]
    have hc2st : c2.1.stop < r.start := by grind [Before]
    cases b1 with
    | true =>
      cases b2 with
      | true =>
        have hc1ge : r.start ≤ c1.1.start := by
          have := hfar2 c2 c1 hbef
          grind
        obtain ⟨m', n', h1, h2⟩ := key c2 hc2.1 hc2.2 (hbt2.1 rfl) (by
          intro y hy hlt
          rcases hlast y hy (by grind) with rfl | rfl | h
          · exfalso; grind
          · exact Or.inl rfl
          · exact Or.inr ⟨h, hfar2 y c2 h hc2lt⟩)
        exact ⟨m', n', by simp [h1], h2⟩
      | false =>
        obtain ⟨m', n', h1, h2⟩ := key c1 hc1.1 hc1.2 (hbt1.1 rfl) (by
          intro y hy hlt
          rcases hlast y hy (by grind) with rfl | rfl | h
          · exact Or.inl rfl
          · exact Or.inr ⟨hbef, hc2st, by grind⟩
          · exact Or.inr ⟨by grind [Before], hfar2 y c2 h hc2lt⟩)
        exact ⟨m', n', by simp [h1], h2⟩
    | false =>
      have hst1 : c1.1.stop < r.start := by grind
      cases b2 with
      | true =>
        exfalso
        have := hfar c2 c1 hbef hn1 hst1
        grind
      | false =>
        refine ⟨m, r, rfl, .refl hs hc, ?_, by omega, .refl⟩
        intro y hy hlt
        rcases hlast y hy (by grind) with rfl | rfl | h
        · exact ⟨hst1, by grind⟩
        · exact ⟨hc2st, by grind⟩
        · have := hfar2 y c2 h hc2lt
          exact ⟨this.1, fun h => absurd h this.2⟩

/-- Nothing left to do for the loop: the next stored range is beyond the new one. -/
def Done (v : V) (m : List (RangeInclusive K × V)) (n : RangeInclusive K) : Prop :=
  ∀ y ∈ m, n.start ≤ y.1.start → n.stop < y.1.start ∧
    (Next n.stop y.1.start → (y.2 == v) = false)

/-- Everything that starts after `hi` is beyond the new range; and settled, except possibly the
entry adjacent to `hi`. -/
def RightOk (hi : K) (v : V) (m : List (RangeInclusive K × V)) (n : RangeInclusive K) : Prop :=
  hi ≤ n.stop ∧ ∀ y ∈ m, hi < y.1.start → n.stop < y.1.start ∧
    (¬ Next hi y.1.start → Next n.stop y.1.start → (y.2 == v) = false)

omit [PartialEquivBEq V] in
theorem breakCond_spec {S : StepFns K} (hS : LawfulSteps S) (hi : K) (v : V)
    (x : RangeInclusive K × V) : ∃ b, breakCond S hi v x = .ok b ∧
      (b = true ↔ hi < x.1.start ∧ (Next hi x.1.start → (x.2 == v) = false)) := by
  unfold breakCond
  by_cases h : hi < x.1.start
  · obtain ⟨c, hc, hn⟩ := hS.addOne _ _ h
    have hcx := hn.2 _ h
    by_cases hcl : c < x.1.start
    · refine ⟨true, by simp [h, hc, hcl, bind, Except.bind, pure, Except.pure], ?_⟩
      simp only [h, true_and, true_iff]
      intro hn'
      have := hn'.2 c hn.1
      grind
    · have hk : keq x.1.start c = true := by rw [keq_iff]; grind
      refine ⟨!(x.2 == v), by simp [h, hc, hcl, hk, bind, Except.bind, pure, Except.pure], ?_⟩
      have hnx : Next hi x.1.start := ⟨h, fun d hd => by have := hn.2 d hd; grind⟩
      simp [h, hnx]
  · exact ⟨false, by simp [h, pure, Except.pure], by simp [h]⟩

omit [PartialEquivBEq V] in
theorem insertLoop_unfold (S : StepFns K) (hi : K) (v : V) (f : Nat)
    (m : List (RangeInclusive K × V)) (n : RangeInclusive K) : insertLoop S hi v (f + 1) m n =
      match (m.filter fun e => decide (n.start ≤ e.1.start)).head? with
      | none => .ok (m, n)
      | some x =>
        (breakCond S hi v x).bind fun b =>
          if b then .ok (m, n)
          else (adjustTouchingRangesForInsert S m x.1 x.2 n v).bind fun p =>
            insertLoop S hi v f p.1 p.2 := by
  conv => lhs; unfold insertLoop
  rw [BTreeMap.range_ok rfl]
  simp only [Bound.admitsAsLower, Bound.admitsAsUpper, Bool.and_true]
  rfl

/-- If there is nothing left to do the loop stops at once. -/
theorem insertLoop_done {S : StepFns K} (hS : LawfulSteps S) {hi : K} {v : V}
    {m : List (RangeInclusive K × V)} {n : RangeInclusive K} {f : Nat}
    (hh : hi ≤ n.stop) (hd : Done v m n) :
    insertLoop S hi v (f + 1) m n = .ok (m, n) := by
  rw [insertLoop_unfold S hi v f m n]
  split
  · rfl
  · rename_i x hx
    have hx := List.mem_of_head? hx
    rw [List.mem_filter] at hx
    have hdx := hd _ hx.1 (by simpa using hx.2)
    obtain ⟨b, hb, hbt⟩ := breakCond_spec hS hi v x
    have : b = true := by
      rw [hbt]
      refine ⟨by grind, fun hn => hdx.2 ⟨hdx.1, fun d hd => hn.2 d (by grind)⟩⟩
    simp [hb, this, Except.bind]

theorem insertLoop_spec {S : StepFns K} (hS : LawfulSteps S)
    {m0 : List (RangeInclusive K × V)} {r : RangeInclusive K} {v : V} {hi : K}
    (hr : r.start ≤ r.stop) (L : Nat) :
    ∀ (m : List (RangeInclusive K × V)) (n : RangeInclusive K), IInv m0 r v m n → LeftOk v m n →
      RightOk hi v m n → r.stop ≤ hi → (m.length ≤ L ∨ Done v m n) →
      ∃ m' n', (∀ fuel, L + 1 ≤ fuel → insertLoop S hi v fuel m n = .ok (m', n')) ∧
        IInv m0 r v m' n' ∧ LeftOk v m' n' ∧ Done v m' n' ∧ m'.length ≤ m.length ∧
        Steps S v m n m' n' := by
  induction L with
  | zero =>
    intro m n hinv hleft hright hhi hlen
    have hd : Done v m n := by
      rcases hlen with hlen | hlen
      · have : m = [] := List.eq_nil_of_length_eq_zero (by omega)
        simp [this, Done]
      · exact hlen
    refine ⟨m, n, ?_, hinv, hleft, hd, by omega, .refl⟩
    intro fuel hf
    obtain ⟨f, rfl⟩ : ∃ f, fuel = f + 1 := ⟨fuel - 1, by omega⟩
    exact insertLoop_done hS hright.1 hd
  | succ L ih =>
    intro m n hinv hleft hright hhi hlen
    have hns := hinv.ns
    have hne := hinv.ne
    rcases hlen with hlen | hd
    · have hn : n.start ≤ hi := by grind
      cases hh : (m.filter fun e => decide (n.start ≤ e.1.start)).head? with
      | none =>
        refine ⟨m, n, ?_, hinv, hleft, ?_, by omega, .refl⟩
        · intro fuel hf
          obtain ⟨f, rfl⟩ : ∃ f, fuel = f + 1 := ⟨fuel - 1, by omega⟩
          rw [insertLoop_unfold S hi v f m n, hh]
        · rw [BTreeMap.head?_filter_eq_none] at hh
          intro y hy hy'
          have := hh y hy
          grind
      | some x =>
        obtain ⟨hx, hp, hfirst⟩ := BTreeMap.head?_filter_eq_some hinv.sep.pw hh
        simp only [decide_eq_true_eq] at hp hfirst
        have hnx := hinv.sep.ne x hx
        have htri := hinv.sep.tri x hx
        obtain ⟨b, hb, hbt⟩ := breakCond_spec hS hi v x
        cases b with
        | true =>
          have hbt := hbt.1 rfl
          refine ⟨m, n, ?_, hinv, hleft, ?_, by omega, .refl⟩
          · intro fuel hf
            obtain ⟨f, rfl⟩ : ∃ f, fuel = f + 1 := ⟨fuel - 1, by omega⟩
            rw [insertLoop_unfold S hi v f m n, hh]
            simp [hb, Except.bind]
          · intro y hy hy'
            rcases hfirst y hy hy' with rfl | hxy
            · have := hright.2 y hy hbt.1
              exact ⟨this.1, fun hn => (Classical.em (Next hi y.1.start)).elim hbt.2
                fun h => this.2 h hn⟩
            · have hlt : hi < y.1.start := by grind [Before]
              have := hright.2 y hy hlt
              refine ⟨this.1, this.2 fun h => ?_⟩
              have := h.2 x.1.start hbt.1
              grind [Before]
        | false =>
          have hbt : hi < x.1.start → Next hi x.1.start ∧ (x.2 == v) = true := by
            intro h
            by_cases hnn : Next hi x.1.start
            · refine ⟨hnn, ?_⟩
              by_cases hxv : (x.2 == v) = true
              · exact hxv
              · simp_all
            · simp_all
          have hle : x.1.start ≤ n.stop ∨ Next n.stop x.1.start := by
            by_cases h : hi < x.1.start
            · have := (hbt h).1
              have h2 := (hright.2 x hx h).1
              right
              refine ⟨h2, fun d hd => this.2 d (by have := hright.1; grind)⟩
            · left; have := hright.1; grind
          obtain ⟨m1, n1, hadj, hinv1, ha⟩ :=
            adjustInsert_spec hS hr hinv hx hle (by grind)
          have hstep : LeftOk v m1 n1 ∧ RightOk hi v m1 n1 ∧
              (m1.length ≤ L ∨ Done v m1 n1) ∧ m1.length ≤ m.length := by
            rcases ha with ⟨hv, e1, e2, hm, hl⟩ | ⟨hv, e1, e2, hn', p, s, hpp, hss, hm, hl, -⟩ |
              ⟨hv, e1, hn', hm⟩
            · refine ⟨?_, ?_, Or.inl (by omega), by omega⟩
              · intro y hy hlt
                rw [hm] at hy
                have := hleft y hy.1
                have hst : n1.start = n.start := by rw [e1]; unfold rmin; rw [if_neg (by grind)]
                rw [hst] at hlt ⊢
                exact this hlt
              · refine ⟨?_, ?_⟩
                · rw [e2, le_rmax]; exact Or.inl hright.1
                · intro y hy hlt
                  rw [hm] at hy
                  have h1 := hright.2 y hy.1 hlt
                  have h2 := hfirst y hy.1 (by grind)
                  have h3 := hinv.coal x hx y hy.1
                  have hsymm : (y.2 == v) = true → (x.2 == y.2) = true := fun h =>
                    PartialEquivBEq.trans hv (PartialEquivBEq.symm h)
                  rw [e2]
                  constructor
                  · rw [rmax_lt]; grind [Before]
                  · intro hnn hnx
                    unfold rmax at hnx
                    grind
            · subst hn'
              have hxhi : ¬ hi < x.1.start := by
                intro h
                have := (hbt h).2
                simp_all
              rw [if_neg (by grind)] at hl
              refine ⟨?_, ?_, ?_, by grind⟩
              · intro y hy hlt
                have := hleft y
                rw [hm] at hy
                rcases hy with hy | ⟨hy, rfl⟩ | ⟨hy, rfl⟩
                · exact this hy.1 hlt
                · exfalso; grind
                · exfalso
                  have := (hss hy).1.1
                  simp only [RangeInclusive.mk'_start] at hlt
                  grind
              · refine ⟨hright.1, ?_⟩
                intro y hy hlt
                have := hright.2 y
                rw [hm] at hy
                rcases hy with hy | ⟨hy, rfl⟩ | ⟨hy, rfl⟩
                · exact this hy.1 hlt
                · exfalso; grind
                · exact ⟨(hss hy).1.1, fun _ _ => hv⟩
              · by_cases hxr : n1.stop < x.1.stop
                · right
                  intro y hy hy'
                  have h1 := hfirst y
                  rw [hm] at hy
                  rcases hy with hy | ⟨hy, rfl⟩ | ⟨hy, rfl⟩
                  · have hb := (h1 hy.1 hy').resolve_left hy.2
                    have hlt := hb.2
                    refine ⟨by grind, fun hn => ?_⟩
                    have := hn.2 x.1.stop hxr
                    grind
                  · exfalso; grind
                  · exact ⟨(hss hy).1.1, fun _ => hv⟩
                · left
                  rw [if_neg hxr] at hl
                  omega
            · exfalso
              have hxhi : ¬ hi < x.1.start := by
                intro h
                have := (hbt h).2
                simp_all
              have := hright.1
              grind
          obtain ⟨h2, h3, h4, h5⟩ := hstep
          obtain ⟨m', n', hm', hi', hl', hd', hlen', hst⟩ := ih m1 n1 hinv1 h2 h3 hhi h4
          refine ⟨m', n', ?_, hi', hl', hd', by omega, .step hx hle (by grind) hadj hst⟩
          intro fuel hf
          obtain ⟨f, rfl⟩ : ∃ f, fuel = f + 1 := ⟨fuel - 1, by omega⟩
          rw [insertLoop_unfold S hi v f m n, hh]
          simp only [hb, hadj, Except.bind]
          exact hm' f (by omega)
    · refine ⟨m, n, ?_, hinv, hleft, hd, by omega, .refl⟩
      intro fuel hf
      obtain ⟨f, rfl⟩ : ∃ f, fuel = f + 1 := ⟨fuel - 1, by omega⟩
      exact insertLoop_done hS hright.1 hd

end Verif.RangeInclusiveMap

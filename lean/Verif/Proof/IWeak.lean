import Verif.Proof.IAppend
import Verif.Proof.ICanon
import Verif.Proof.Weak

/-!
# `RangeInclusiveMap::insert` when `==` of the values obeys no laws

The proof of `Proof/IMapInsert.lean` without the part on coalescing, for which alone the laws of
`==` are needed.
-/
set_option linter.unusedSectionVars false
set_option linter.unusedVariables false

namespace Verif.RangeInclusiveMap.Weak
open Spec
variable {K : Type} [LE K] [LT K] [DecidableLE K] [DecidableLT K]
  [Std.IsLinearPreorder K] [Std.LawfulOrderLT K] {V : Type} [BEq V]

/-- Invariant of `insert` of `r ↦ v` into `m0`; `m` is the current tree and `n` the (grown) new
range. -/
structure IInv (m0 : List (RangeInclusive K × V)) (r : RangeInclusive K) (v : V)
    (m : List (RangeInclusive K × V)) (n : RangeInclusive K) : Prop where
  sep : Sep m
  fresh : Fresh m0 → Fresh m
  ex : n.exhausted = false ∨ n = r
  ns : n.start ≤ r.start
  ne : r.stop ≤ n.stop
  out : ∀ k, ¬ (n.start ≤ k ∧ k ≤ n.stop) → ∀ w, Maps m k w ↔ Maps m0 k w
  ado : ∀ k, n.start ≤ k → k ≤ n.stop → ¬ (r.start ≤ k ∧ k ≤ r.stop) →
    ∃ w, Maps m0 k w ∧ (w == v) = true

/-- What `adjust_touching_ranges_for_insert` does to the entries, for an entry `x` that touches
the new range. -/
theorem adjustInsert_spec {S : StepFns K} (hS : LawfulSteps S)
    {m0 m : List (RangeInclusive K × V)} {r n : RangeInclusive K} {v : V}
    (hr : r.start ≤ r.stop) (h : IInv m0 r v m n) {x : RangeInclusive K × V} (hx : x ∈ m)
    (ht1 : x.1.start ≤ n.stop ∨ Next n.stop x.1.start)
    (ht2 : n.start ≤ x.1.stop ∨ Next x.1.stop n.start) :
    ∃ m' n', adjustTouchingRangesForInsert S m x.1 x.2 n v = .ok (m', n') ∧ IInv m0 r v m' n' ∧
    (((x.2 == v) = true ∧ n'.start = rmin n.start x.1.start ∧ n'.stop = rmax n.stop x.1.stop ∧
        (∀ y, y ∈ m' ↔ y ∈ m ∧ y ≠ x) ∧ m'.length + 1 = m.length) ∨
     ((x.2 == v) = false ∧ x.1.start ≤ n.stop ∧ n.start ≤ x.1.stop ∧ n' = n ∧ ∃ p s,
        (x.1.start < n.start → Next p n.start ∧ x.1.start ≤ p) ∧
        (n.stop < x.1.stop → Next n.stop s ∧ s ≤ x.1.stop) ∧
        (∀ y, y ∈ m' ↔ (y ∈ m ∧ y ≠ x) ∨
          (x.1.start < n.start ∧ y = (.mk' x.1.start p, x.2)) ∨
          (n.stop < x.1.stop ∧ y = (.mk' s x.1.stop, x.2))) ∧
        m'.length + 1 = m.length + (if x.1.start < n.start then 1 else 0) +
          (if n.stop < x.1.stop then 1 else 0) ∧
        (x.1.start < n.start → S.subOne n.start = .ok p) ∧
        (n.stop < x.1.stop → S.addOne n.stop = .ok s)) ∨
     ((x.2 == v) = false ∧ ¬ (x.1.start ≤ n.stop ∧ n.start ≤ x.1.stop) ∧ n' = n ∧ m' = m)) := by
  have htri := h.sep.tri x hx
  have hne := h.sep.ne x hx
  have hns := h.ns
  have hne' := h.ne
  have hnn : n.start ≤ n.stop := by grind
  unfold adjustTouchingRangesForInsert
  by_cases hv : (x.2 == v) = true
  · rw [if_pos hv]
    have em := h.sep.mem_remove hx
    refine ⟨_, _, rfl, ⟨h.sep.remove _, ?_, Or.inl rfl, ?_, ?_, ?_, ?_⟩,
      Or.inl ⟨hv, rfl, rfl, em, h.sep.length_remove hx⟩⟩
    · intro hf e he
      rw [em] at he
      exact h.fresh hf e he.1
    · simp only [RangeInclusive.mk'_start]; rw [rmin_le]; exact Or.inl hns
    · simp only [RangeInclusive.mk'_stop]; rw [le_rmax]; exact Or.inl hne'
    · intro k hk w
      simp only [RangeInclusive.mk'_start, RangeInclusive.mk'_stop, rmin_le, le_rmax] at hk
      rw [← h.out k (by grind) w]
      unfold Maps
      constructor
      · rintro ⟨e, he, h1, h2, h3⟩
        rw [em] at he
        exact ⟨e, he.1, h1, h2, h3⟩
      · rintro ⟨e, he, h1, h2, h3⟩
        refine ⟨e, ?_, h1, h2, h3⟩
        rw [em]
        grind
    · intro k hk1 hk2 hk3
      simp only [RangeInclusive.mk'_start, RangeInclusive.mk'_stop, rmin_le, le_rmax] at hk1 hk2
      by_cases hkn : n.start ≤ k ∧ k ≤ n.stop
      · exact h.ado k hkn.1 hkn.2 hk3
      · refine ⟨x.2, ?_, hv⟩
        rw [← h.out k hkn]
        refine ⟨x, hx, ?_, ?_, rfl⟩
        · rcases ht1 with ht | ht
          · grind
          · have := ht.2 k
            grind
        · rcases ht2 with ht | ht
          · grind
          · have := Next.iff ht k
            grind
  · have hv' : (x.2 == v) = false := by simpa using hv
    rw [if_neg hv]
    by_cases hov : n.overlaps x.1 = true
    · rw [if_pos hov]
      simp only [RangeInclusive.overlaps, decide_eq_true_eq, le_rmin, rmax_le] at hov
      obtain ⟨m2, m3, p, s, h2, h3, s3, hp, hs, e3, l3, hpq⟩ :=
        h.sep.cut hS hx hnn (by grind) (by grind)
      refine ⟨m3, n, ?_, ⟨s3,
        fun hf => cut_fresh e3 (h.fresh hf), h.ex, hns, hne', ?_, h.ado⟩,
        Or.inr (Or.inl ⟨hv', by grind, by grind, rfl, p, s, hp, hs, e3, l3, hpq⟩)⟩
      · simp [h2, h3, bind, Except.bind, pure, Except.pure]
      · intro k hk w
        rw [← h.out k hk w]
        exact cut_maps hx hp hs (by grind) (by grind) e3 hk w
    · rw [if_neg hov]
      simp only [RangeInclusive.overlaps, decide_eq_true_eq, le_rmin, rmax_le] at hov
      exact ⟨m, n, rfl, h, Or.inr (Or.inr ⟨hv', by grind, rfl, rfl⟩)⟩

theorem IInv.refl {m : List (RangeInclusive K × V)} {r : RangeInclusive K} {v : V} (hs : Sep m) :
    IInv m r v m r :=
  ⟨hs, id, Or.inr rfl, by grind, by grind, fun _ _ _ => Iff.rfl, by grind⟩

/-- Everything that starts before the new range is settled. -/
def LeftOk (v : V) (m : List (RangeInclusive K × V)) (n : RangeInclusive K) : Prop :=
  ∀ y ∈ m, y.1.start < n.start →
    y.1.stop < n.start

/-- The candidates of `insert`: the last two entries starting at or before the new range. -/
theorem insertPrefix_spec {S : StepFns K} (hS : LawfulSteps S) {m : List (RangeInclusive K × V)}
    {r : RangeInclusive K} {v : V}
    (hr : r.start ≤ r.stop) (hs : Sep m) :
    ∃ m' n', insertPrefix S m r v = .ok (m', n') ∧ IInv m r v m' n' ∧ LeftOk v m' n' ∧
      m'.length ≤ m.length + 1 := by
  unfold insertPrefix
  rw [BTreeMap.range_ok rfl]
  simp only [Bound.admitsAsLower, Bound.admitsAsUpper, Bool.true_and, bind, Except.bind, pure,
    Except.pure]
  -- facts about the reversed list
  have hpw : ((m.filter fun e => decide (e.1.start ≤ r.start)).reverse).Pairwise
      (fun a b => Before b a) := by
    rw [List.pairwise_reverse]; exact hs.pw.filter _
  have hmem : ∀ y, y ∈ (m.filter fun e => decide (e.1.start ≤ r.start)).reverse ↔
      y ∈ m ∧ y.1.start ≤ r.start := by
    intro y; simp
  -- adjusting an entry `c` such that all earlier-starting entries precede it
  have key : ∀ c, c ∈ m → c.1.start ≤ r.start → (r.start ≤ c.1.stop ∨ Next c.1.stop r.start) →
      (∀ y ∈ m, y.1.start < r.start → y = c ∨
        (Before y c ∧ y.1.stop < r.start ∧ ¬ Next y.1.stop r.start)) →
      ∃ m' n', adjustTouchingRangesForInsert S m c.1 c.2 r v = .ok (m', n') ∧ IInv m r v m' n' ∧
        LeftOk v m' n' ∧ m'.length ≤ m.length + 1 := by
    intro c hc' h1 h2 h3
    have hcn := hs.ne c hc'
    obtain ⟨m', n', hp, hinv, hadj⟩ :=
      adjustInsert_spec (v := v) hS hr (IInv.refl hs) hc' (by grind) h2
    refine ⟨m', n', hp, hinv, ?_, ?_⟩
    · rcases hadj with ⟨hv, e1, e2, hm, hl⟩ | ⟨hv, e1, e2, hn, p, s, hp, hsu, hm, hl, -⟩ |
        ⟨hv, e1, hn, hm⟩
      · intro y hy hlt
        rw [hm] at hy
        rw [e1] at hlt ⊢
        have h3 := h3 y hy.1
        simp only [rmin, Before] at *
        by_cases hcr : c.1.start < r.start
        · simp only [hcr, if_true] at *
          grind
        · simp only [hcr, if_false] at *
          grind
      · intro y hy hlt
        rw [hn] at hlt ⊢
        rw [hm] at hy
        have h3 := h3 y
        rcases hy with hy | ⟨hy, rfl⟩ | ⟨hy, rfl⟩
        · grind
        · exact (hp hy).1.1
        · exfalso
          have := (hsu hy).1.1
          simp only [RangeInclusive.mk'_start] at hlt
          grind
      · intro y hy hlt
        rw [hn] at hlt ⊢
        rw [hm] at hy
        have h3 := h3 y hy hlt
        rcases h3 with rfl | h3
        · grind
        · exact h3.2.1
    · grind
  generalize hl : (m.filter fun e => decide (e.1.start ≤ r.start)).reverse = l at hpw hmem ⊢
  match l, hpw, hmem with
  | [], hpw, hmem =>
    refine ⟨m, r, rfl, .refl hs, ?_, by omega⟩
    intro y hy hlt
    have := hmem y
    grind
  | [c1], hpw, hmem =>
    have hc1 := (hmem c1).1 (by simp)
    have hn1 := hs.ne c1 hc1.1
    have hlast : ∀ y ∈ m, y.1.start ≤ r.start → y = c1 := by
      intro y hy hlt
      have := hmem y
      grind
    obtain ⟨b, hb, hbt⟩ := touches_spec hS hr hc1.2 hn1
    simp only [List.take, filterE, hb, bind, Except.bind, pure, Except.pure]
    cases b with
    | true =>
      obtain ⟨m', n', h1, h2⟩ := key c1 hc1.1 hc1.2 (hbt.1 rfl) (by grind)
      exact ⟨m', n', by simp [h1], h2⟩
    | false =>
      refine ⟨m, r, rfl, .refl hs, ?_, by omega⟩
      intro y hy hlt
      have := hlast y hy
      grind
  | c1 :: c2 :: t, hpw, hmem =>
    have hc1 := (hmem c1).1 (by simp)
    have hc2 := (hmem c2).1 (by simp)
    have hn1 := hs.ne c1 hc1.1
    have hn2 := hs.ne c2 hc2.1
    rw [List.pairwise_cons, List.pairwise_cons] at hpw
    have hbef := hpw.1 c2 (by simp)
    have hlast : ∀ y ∈ m, y.1.start ≤ r.start → y = c1 ∨ y = c2 ∨ Before y c2 := by
      intro y hy hlt
      have := hmem y
      have := hpw.2.1 y
      grind
    -- what touches, when there is something in between
    have hfar : ∀ y z : RangeInclusive K × V, Before y z → z.1.start ≤ z.1.stop →
        z.1.stop < r.start → y.1.stop < r.start ∧ ¬ Next y.1.stop r.start := by
      intro y z hyz hzz hz
      refine ⟨by grind [Before], fun h => ?_⟩
      have := h.2 z.1.start hyz.2
      grind
    have hfar2 : ∀ y z : RangeInclusive K × V, Before y z →
        z.1.start < r.start → y.1.stop < r.start ∧ ¬ Next y.1.stop r.start := by
      intro y z hyz hz
      refine ⟨by grind [Before], fun h => ?_⟩
      have := h.2 z.1.start hyz.2
      grind
    obtain ⟨b1, hb1, hbt1⟩ := touches_spec hS hr hc1.2 hn1
    obtain ⟨b2, hb2, hbt2⟩ := touches_spec hS hr hc2.2 hn2
    simp only [List.take, filterE, hb1, hb2, bind, Except.bind, pure, Except.pure]
    have hc2lt : c2.1.start < r.start := by grind [Before]
    have hc2st : c2.1.stop < r.start := by grind [Before]
    cases b1 with
    | true =>
      cases b2 with
      | true =>
        have hc1ge : r.start ≤ c1.1.start := by
          have := hfar2 c2 c1 hbef
          grind
        obtain ⟨m', n', h1, h2⟩ := key c2 hc2.1 hc2.2 (hbt2.1 rfl) (by
          intro y hy hlt
          rcases hlast y hy (by grind) with rfl | rfl | h
          · exfalso; grind
          · exact Or.inl rfl
          · exact Or.inr ⟨h, hfar2 y c2 h hc2lt⟩)
        exact ⟨m', n', by simp [h1], h2⟩
      | false =>
        obtain ⟨m', n', h1, h2⟩ := key c1 hc1.1 hc1.2 (hbt1.1 rfl) (by
          intro y hy hlt
          rcases hlast y hy (by grind) with rfl | rfl | h
          · exact Or.inl rfl
          · exact Or.inr ⟨hbef, hc2st, by grind⟩
          · exact Or.inr ⟨by grind [Before], hfar2 y c2 h hc2lt⟩)
        exact ⟨m', n', by simp [h1], h2⟩
    | false =>
      have hst1 : c1.1.stop < r.start := by grind
      cases b2 with
      | true =>
        exfalso
        have := hfar c2 c1 hbef hn1 hst1
        grind
      | false =>
        refine ⟨m, r, rfl, .refl hs, ?_, by omega⟩
        intro y hy hlt
        rcases hlast y hy (by grind) with rfl | rfl | h
        · exact hst1
        · exact hc2st
        · exact (hfar2 y c2 h hc2lt).1

/-- Nothing left to do for the loop: the next stored range is beyond the new one. -/
def Done (hi : K) (v : V) (m : List (RangeInclusive K × V)) (n : RangeInclusive K) : Prop :=
  ∀ y ∈ m, n.start ≤ y.1.start → n.stop < y.1.start ∧
    (Next hi y.1.start → (y.2 == v) = false)

/-- Everything that starts after `hi` is beyond the new range. -/
def RightOk (hi : K) (v : V) (m : List (RangeInclusive K × V)) (n : RangeInclusive K) : Prop :=
  hi ≤ n.stop ∧ ∀ y ∈ m, hi < y.1.start → n.stop < y.1.start

/-- If there is nothing left to do the loop stops at once. -/
theorem insertLoop_done {S : StepFns K} (hS : LawfulSteps S) {hi : K} {v : V}
    {m : List (RangeInclusive K × V)} {n : RangeInclusive K} {f : Nat}
    (hh : hi ≤ n.stop) (hd : Done hi v m n) :
    insertLoop S hi v (f + 1) m n = .ok (m, n) := by
  rw [insertLoop_unfold S hi v f m n]
  split
  · rfl
  · rename_i x hx
    have hx := List.mem_of_head? hx
    rw [List.mem_filter] at hx
    have hdx := hd _ hx.1 (by simpa using hx.2)
    obtain ⟨b, hb, hbt⟩ := breakCond_spec hS hi v x
    have : b = true := by
      rw [hbt]
      exact ⟨by grind, hdx.2⟩
    simp [hb, this, Except.bind]

theorem insertLoop_spec {S : StepFns K} (hS : LawfulSteps S)
    {m0 : List (RangeInclusive K × V)} {r : RangeInclusive K} {v : V} {hi : K}
    (hr : r.start ≤ r.stop) (L : Nat) :
    ∀ (m : List (RangeInclusive K × V)) (n : RangeInclusive K), IInv m0 r v m n → LeftOk v m n →
      RightOk hi v m n → r.stop ≤ hi → (m.length ≤ L ∨ Done hi v m n) →
      ∃ m' n', (∀ fuel, L + 1 ≤ fuel → insertLoop S hi v fuel m n = .ok (m', n')) ∧
        IInv m0 r v m' n' ∧ LeftOk v m' n' ∧ Done hi v m' n' ∧ m'.length ≤ m.length := by
  induction L with
  | zero =>
    intro m n hinv hleft hright hhi hlen
    have hd : Done hi v m n := by
      rcases hlen with hlen | hlen
      · have : m = [] := List.eq_nil_of_length_eq_zero (by omega)
        simp [this, Done]
      · exact hlen
    refine ⟨m, n, ?_, hinv, hleft, hd, by omega⟩
    intro fuel hf
    obtain ⟨f, rfl⟩ : ∃ f, fuel = f + 1 := ⟨fuel - 1, by omega⟩
    exact insertLoop_done hS hright.1 hd
  | succ L ih =>
    intro m n hinv hleft hright hhi hlen
    have hns := hinv.ns
    have hne := hinv.ne
    rcases hlen with hlen | hd
    · have hn : n.start ≤ hi := by grind
      cases hh : (m.filter fun e => decide (n.start ≤ e.1.start)).head? with
      | none =>
        refine ⟨m, n, ?_, hinv, hleft, ?_, by omega⟩
        · intro fuel hf
          obtain ⟨f, rfl⟩ : ∃ f, fuel = f + 1 := ⟨fuel - 1, by omega⟩
          rw [insertLoop_unfold S hi v f m n, hh]
        · rw [BTreeMap.head?_filter_eq_none] at hh
          intro y hy hy'
          have := hh y hy
          grind
      | some x =>
        obtain ⟨hx, hp, hfirst⟩ := BTreeMap.head?_filter_eq_some hinv.sep.pw hh
        simp only [decide_eq_true_eq] at hp hfirst
        have hnx := hinv.sep.ne x hx
        have htri := hinv.sep.tri x hx
        obtain ⟨b, hb, hbt⟩ := breakCond_spec hS hi v x
        cases b with
        | true =>
          have hbt := hbt.1 rfl
          refine ⟨m, n, ?_, hinv, hleft, ?_, by omega⟩
          · intro fuel hf
            obtain ⟨f, rfl⟩ : ∃ f, fuel = f + 1 := ⟨fuel - 1, by omega⟩
            rw [insertLoop_unfold S hi v f m n, hh]
            simp [hb, Except.bind]
          · intro y hy hy'
            rcases hfirst y hy hy' with rfl | hxy
            · exact ⟨hright.2 y hy hbt.1, hbt.2⟩
            · have hlt : hi < y.1.start := by grind [Before]
              refine ⟨hright.2 y hy hlt, fun h => ?_⟩
              have := h.2 x.1.start hbt.1
              grind [Before]
        | false =>
          have hbt : hi < x.1.start → Next hi x.1.start ∧ (x.2 == v) = true := by
            intro h
            by_cases hnn : Next hi x.1.start
            · refine ⟨hnn, ?_⟩
              by_cases hxv : (x.2 == v) = true
              · exact hxv
              · simp_all
            · simp_all
          have hle : x.1.start ≤ n.stop ∨ Next n.stop x.1.start := by
            by_cases h : hi < x.1.start
            · have := (hbt h).1
              have h2 := hright.2 x hx h
              right
              refine ⟨h2, fun d hd => this.2 d (by have := hright.1; grind)⟩
            · left; have := hright.1; grind
          obtain ⟨m1, n1, hadj, hinv1, ha⟩ :=
            adjustInsert_spec hS hr hinv hx hle (by grind)
          have hstep : LeftOk v m1 n1 ∧ RightOk hi v m1 n1 ∧
              (m1.length ≤ L ∨ Done hi v m1 n1) ∧ m1.length ≤ m.length := by
            rcases ha with ⟨hv, e1, e2, hm, hl⟩ | ⟨hv, e1, e2, hn', p, s, hpp, hss, hm, hl, -⟩ |
              ⟨hv, e1, hn', hm⟩
            · refine ⟨?_, ?_, Or.inl (by omega), by omega⟩
              · intro y hy hlt
                rw [hm] at hy
                have := hleft y hy.1
                have hst : n1.start = n.start := by rw [e1]; unfold rmin; rw [if_neg (by grind)]
                rw [hst] at hlt ⊢
                exact this hlt
              · refine ⟨?_, ?_⟩
                · rw [e2, le_rmax]; exact Or.inl hright.1
                · intro y hy hlt
                  rw [hm] at hy
                  have h1 := hright.2 y hy.1 hlt
                  have h2 := hfirst y hy.1 (by grind)
                  rw [e2, rmax_lt]
                  grind [Before]
            · subst hn'
              have hxhi : ¬ hi < x.1.start := by
                intro h
                have := (hbt h).2
                simp_all
              rw [if_neg (by grind)] at hl
              refine ⟨?_, ?_, ?_, by grind⟩
              · intro y hy hlt
                have := hleft y
                rw [hm] at hy
                rcases hy with hy | ⟨hy, rfl⟩ | ⟨hy, rfl⟩
                · exact this hy.1 hlt
                · exfalso; grind
                · exfalso
                  have := (hss hy).1.1
                  simp only [RangeInclusive.mk'_start] at hlt
                  grind
              · refine ⟨hright.1, ?_⟩
                intro y hy hlt
                have := hright.2 y
                rw [hm] at hy
                rcases hy with hy | ⟨hy, rfl⟩ | ⟨hy, rfl⟩
                · exact this hy.1 hlt
                · exfalso; grind
                · exact (hss hy).1.1
              · by_cases hxr : n1.stop < x.1.stop
                · right
                  intro y hy hy'
                  have h1 := hfirst y
                  rw [hm] at hy
                  rcases hy with hy | ⟨hy, rfl⟩ | ⟨hy, rfl⟩
                  · have hb := (h1 hy.1 hy').resolve_left hy.2
                    have hlt := hb.2
                    refine ⟨by grind, fun hn => ?_⟩
                    have := hright.1
                    have := hn.2 x.1.stop (by grind)
                    grind
                  · exfalso; grind
                  · exact ⟨(hss hy).1.1, fun _ => hv⟩
                · left
                  rw [if_neg hxr] at hl
                  omega
            · exfalso
              have hxhi : ¬ hi < x.1.start := by
                intro h
                have := (hbt h).2
                simp_all
              have := hright.1
              grind
          obtain ⟨h2, h3, h4, h5⟩ := hstep
          obtain ⟨m', n', hm', hi', hl', hd', hlen'⟩ := ih m1 n1 hinv1 h2 h3 hhi h4
          refine ⟨m', n', ?_, hi', hl', hd', by omega⟩
          intro fuel hf
          obtain ⟨f, rfl⟩ : ∃ f, fuel = f + 1 := ⟨fuel - 1, by omega⟩
          rw [insertLoop_unfold S hi v f m n, hh]
          simp only [hb, hadj, Except.bind]
          exact hm' f (by omega)
    · refine ⟨m, n, ?_, hinv, hleft, hd, by omega⟩
      intro fuel hf
      obtain ⟨f, rfl⟩ : ∃ f, fuel = f + 1 := ⟨fuel - 1, by omega⟩
      exact insertLoop_done hS hright.1 hd

theorem insert_spec {S : StepFns K} (hS : LawfulSteps S)
    {m : RangeInclusiveMap K V} (h : Sep m.btm) {r : RangeInclusive K} (v : V)
    (hr : r.start ≤ r.stop) :
    ∃ m' : RangeInclusiveMap K V, (∀ fuel, m.len + 2 ≤ fuel → insertFuel S fuel m r v = .ok m') ∧
      Sep m'.btm ∧ (Fresh m.btm → r.exhausted = false → Fresh m'.btm) ∧ m'.len ≤ m.len + 2 ∧
      ∃ n : RangeInclusive K, n.start ≤ r.start ∧ r.stop ≤ n.stop ∧
        (∀ k, n.start ≤ k → k ≤ n.stop → ¬ (r.start ≤ k ∧ k ≤ r.stop) →
          ∃ w, Maps m.btm k w ∧ (w == v) = true) ∧
        (∀ k, n.start ≤ k → k ≤ n.stop → ∀ w, Maps m'.btm k w ↔ w = v) ∧
        (∀ k, ¬ (n.start ≤ k ∧ k ≤ n.stop) → ∀ w, Maps m'.btm k w ↔ Maps m.btm k w) := by
  obtain ⟨m1, n1, hp, hi1, hl1, hlen1⟩ := insertPrefix_spec (v := v) hS hr h
  obtain ⟨m2, n2, hloop, hi2, hl2, hd2, hlen2⟩ :=
    insertLoop_spec (hi := n1.stop) hS hr (m.len + 1) m1 n1 hi1 hl1 ⟨by grind, by grind⟩ hi1.ne
      (Or.inl hlen1)
  have hns := hi2.ns
  have hne := hi2.ne
  have hfit : Fits m2 n2 := by
    refine ⟨by grind, ?_⟩
    intro e he
    have := hl2 e he
    have := hd2 e he
    grind
  have em := hi2.sep.mem_insert hfit v
  refine ⟨⟨BTreeMap.insert RangeInclusive.start n2 v m2⟩, ?_, hi2.sep.insert hfit v, ?_, ?_, n2,
    hns, hne, hi2.ado, ?_, ?_⟩
  · intro fuel hf
    unfold insertFuel
    simp [hr, hp, hloop fuel (by omega), bind, Except.bind, pure, Except.pure]
  · intro hf he e hm
    rw [em] at hm
    rcases hm with rfl | hm
    · rcases hi2.ex with h | h
      · exact h
      · rw [h]; exact he
    · exact hi2.fresh hf e hm
  · simp only [len, hi2.sep.length_insert hfit v] at *
    omega
  · intro k hk1 hk2 w
    simp only [Maps]
    constructor
    · rintro ⟨e, he, h1, h2, h3⟩
      rw [em] at he
      rcases he with rfl | he
      · exact h3.symm
      · have := hfit.2 e he
        exfalso
        grind
    · rintro rfl
      exact ⟨(n2, w), by rw [em]; grind, hk1, hk2, rfl⟩
  · intro k hk w
    rw [← hi2.out k hk]
    simp only [Maps]
    constructor
    · rintro ⟨e, he, h1, h2, h3⟩
      rw [em] at he
      rcases he with rfl | he
      · exact absurd ⟨h1, h2⟩ hk
      · exact ⟨e, he, h1, h2, h3⟩
    · rintro ⟨e, he, h1, h2, h3⟩
      exact ⟨e, by rw [em]; grind, h1, h2, h3⟩

variable {S : StepFns K}

theorem insert_ok (hS : LawfulSteps S) {m : RangeInclusiveMap K V} (h : Sep m.btm)
    {r : RangeInclusive K} (v : V) (hr : r.start ≤ r.stop) :
    ∃ m', m.insert S r v = .ok m' ∧ Sep m'.btm ∧
      (Fresh m.btm → r.exhausted = false → Fresh m'.btm) := by
  obtain ⟨m', h1, h2, h3, _⟩ := insert_spec hS h v hr
  exact ⟨m', h1 _ (by omega), h2, h3⟩

open RangeMap.Weak (never never_per)

omit [BEq V] in
theorem wf_never {m : List (RangeInclusive K × V)} (h : Sep m) (hf : Fresh m) :
    @WF K _ _ V (never V) m :=
  @WF.mk K _ _ V (never V) m h (fun _ _ _ _ _ => rfl) hf

omit [BEq V] in
theorem sc_never {m : List (RangeInclusive K × V)} (h : Sep m) : @SC K _ _ V (never V) m :=
  @SC.mk K _ _ V (never V) m h (fun _ _ _ _ _ => rfl)

theorem get_look {m : RangeInclusiveMap K V} (h : Sep m.btm) (hf : Fresh m.btm) (k : K) :
    m.get k = .ok (m.look k) := by
  obtain ⟨o, ho, _⟩ := get_spec h hf k
  simp [look, ho]

theorem look_eq_some {m : RangeInclusiveMap K V} (h : Sep m.btm) (hf : Fresh m.btm) (k : K)
    (w : V) : m.look k = some w ↔ Maps m.btm k w := by
  rw [← get_eq_some h hf, get_look h hf]
  simp

theorem look_eq_none {m : RangeInclusiveMap K V} (h : Sep m.btm) (hf : Fresh m.btm) (k : K) :
    m.look k = none ↔ ∀ w, ¬ Maps m.btm k w := by
  rw [← get_eq_none h hf, get_look h hf]
  simp

theorem look_congr {m m' : RangeInclusiveMap K V} (h : Sep m.btm) (hf : Fresh m.btm)
    (h' : Sep m'.btm) (hf' : Fresh m'.btm) {k : K}
    (he : ∀ w, Maps m'.btm k w ↔ Maps m.btm k w) : m'.look k = m.look k := by
  have := get_congr h hf h' hf' he
  rw [get_look h hf, get_look h' hf'] at this
  simpa using this

/-- `insert` on the abstract contents. -/
theorem insert_look (hS : LawfulSteps S) {m m' : RangeInclusiveMap K V} (h : Sep m.btm)
    (hf : Fresh m.btm) {r : RangeInclusive K} {v : V} (hx : r.exhausted = false)
    (hr : r.start ≤ r.stop) (hi : m.insert S r v = .ok m') (k : K) :
    (r.start ≤ k → k ≤ r.stop → m'.look k = some v) ∧
    (¬ (r.start ≤ k ∧ k ≤ r.stop) → m'.look k = m.look k ∨
      ∃ w, m.look k = some w ∧ (w == v) = true ∧ m'.look k = some v) := by
  obtain ⟨m'', h1, h2, hf2, _, n, h3, h4, h5, h6, h7⟩ := insert_spec hS h v hr
  have : m'' = m' := by
    have := h1 _ (Nat.le_refl _)
    rw [RangeInclusiveMap.insert] at hi
    simpa [hi] using this.symm
  subst this
  have hf2 := hf2 hf hx
  constructor
  · intro hk1 hk2
    rw [look_eq_some h2 hf2, h6 k (by grind) (by grind)]
  · intro hk
    by_cases hkn : n.start ≤ k ∧ k ≤ n.stop
    · right
      obtain ⟨w, hw1, hw2⟩ := h5 k hkn.1 hkn.2 hk
      refine ⟨w, (look_eq_some h hf _ _).2 hw1, hw2, ?_⟩
      rw [look_eq_some h2 hf2, h6 k hkn.1 hkn.2]
    · left
      exact look_congr h hf h2 hf2 (h7 k hkn)

omit [BEq V] in
theorem remove_ok (hS : LawfulSteps S) {m : RangeInclusiveMap K V} (h : Sep m.btm)
    {r : RangeInclusive K} (hr : r.start ≤ r.stop) :
    ∃ m', m.remove S r = .ok m' ∧ Sep m'.btm ∧ (Fresh m.btm → Fresh m'.btm) := by
  obtain ⟨m', h1, h2, h3, _⟩ :=
    @remove_spec K _ _ _ _ _ _ V (never V) S hS m (sc_never h) r hr
  exact ⟨m', h1 _ (Nat.le_refl _), @SC.sep K _ _ V (never V) _ h2, h3⟩

theorem remove_look (hS : LawfulSteps S) {m m' : RangeInclusiveMap K V} (h : Sep m.btm)
    (hf : Fresh m.btm) {r : RangeInclusive K} (hr : r.start ≤ r.stop)
    (hi : m.remove S r = .ok m') (k : K) :
    m'.look k = if r.start ≤ k ∧ k ≤ r.stop then none else m.look k :=
  @RangeInclusiveMap.remove_look K _ _ _ _ _ _ V (never V) S hS m m' (wf_never h hf) r hr hi k

theorem extend_sep (hS : LawfulSteps S) {m : RangeInclusiveMap K V}
    (h : Sep m.btm) (items : List (RangeInclusive K × V)) :
    Sep (m.extend S items).1.btm ∧ (Fresh m.btm → (∀ e ∈ items, e.1.exhausted = false) →
      Fresh (m.extend S items).1.btm) := by
  induction items generalizing m with
  | nil => exact ⟨h, fun h _ => h⟩
  | cons e t ih =>
    unfold RangeInclusiveMap.extend
    by_cases he : e.1.start ≤ e.1.stop
    · obtain ⟨m', h1, h2, h3⟩ := insert_ok hS h e.2 he
      rw [h1]
      exact ⟨(ih h2).1, fun hf hi => (ih h2).2 (h3 hf (hi e (by simp)))
        (fun x hx => hi x (by simp [hx]))⟩
    · rw [insert_invalid he]
      exact ⟨h, fun h _ => h⟩

theorem apply_sep (hS : LawfulSteps S) {m : RangeInclusiveMap K V}
    (h : Sep m.btm) (op : Op (RangeInclusive K) V) :
    Sep (m.apply S op).1.btm ∧ (Fresh m.btm → (∀ r ∈ op.inserted, r.exhausted = false) →
      Fresh (m.apply S op).1.btm) := by
  cases op with
  | insert r v =>
    unfold RangeInclusiveMap.apply
    by_cases hr : r.start ≤ r.stop
    · obtain ⟨m', h1, h2, h3⟩ := insert_ok hS h v hr
      simp only [h1]
      exact ⟨h2, fun hf hi => h3 hf (hi r (by simp [Op.inserted]))⟩
    · simp only [insert_invalid hr]
      exact ⟨h, fun h _ => h⟩
  | remove r =>
    unfold RangeInclusiveMap.apply
    by_cases hr : r.start ≤ r.stop
    · obtain ⟨m', h1, h2, h3⟩ := remove_ok hS h hr
      simp only [h1]
      exact ⟨h2, fun hf _ => h3 hf⟩
    · simp only [remove_invalid hr]
      exact ⟨h, fun h _ => h⟩
  | clear => exact ⟨SC.nil.sep, fun _ _ => WF.nil.fresh⟩
  | extend items =>
    refine ⟨(extend_sep hS h items).1, fun hf hi => (extend_sep hS h items).2 hf fun e he => ?_⟩
    exact hi _ (by simp only [Op.inserted, List.mem_map]; exact ⟨e, he, rfl⟩)

theorem run_sep (hS : LawfulSteps S) (ops : List (Op (RangeInclusive K) V)) :
    Sep (run S ops).btm ∧ ((∀ op ∈ ops, ∀ r ∈ op.inserted, r.exhausted = false) →
      Fresh (run S ops).btm) := by
  unfold run
  suffices ∀ m : RangeInclusiveMap K V, Sep m.btm →
      Sep (ops.foldl (fun m op => (m.apply S op).1) m).btm ∧
      (Fresh m.btm → (∀ op ∈ ops, ∀ r ∈ op.inserted, r.exhausted = false) →
        Fresh (ops.foldl (fun m op => (m.apply S op).1) m).btm) from
    ⟨(this _ SC.nil.sep).1, (this _ SC.nil.sep).2 WF.nil.fresh⟩
  induction ops with
  | nil => intro m h; exact ⟨h, fun h _ => h⟩
  | cons op ops ih =>
    intro m h
    have h1 := apply_sep hS h op
    have h2 := ih _ h1.1
    exact ⟨h2.1, fun hf hi => h2.2 (h1.2 hf (hi op (by simp))) fun o ho => hi o (by simp [ho])⟩

theorem reachable_sep (hS : LawfulSteps S) {m : RangeInclusiveMap K V}
    (h : Reachable S m) : Sep m.btm ∧ Fresh m.btm := by
  obtain ⟨ops, ho, rfl⟩ := h
  exact ⟨(run_sep hS ops).1, (run_sep hS ops).2 ho⟩

theorem reachableAny_sep (hS : LawfulSteps S) {m : RangeInclusiveMap K V}
    (h : ReachableAny S m) : Sep m.btm := by
  obtain ⟨ops, rfl⟩ := h
  exact (run_sep hS ops).1

theorem reachable_never (hS : LawfulSteps S) {m : RangeInclusiveMap K V} (h : Reachable S m) :
    @Reachable K _ _ _ _ V (never V) S m :=
  @WF.reachable K _ _ _ _ _ _ V (never V) S (never_per V) hS m
    (wf_never (reachable_sep hS h).1 (reachable_sep hS h).2)

theorem reachableAny_never (hS : LawfulSteps S) {m : RangeInclusiveMap K V}
    (h : ReachableAny S m) : @ReachableAny K _ _ _ _ V (never V) S m :=
  (@reachableAny_iff K _ _ _ _ _ _ V (never V) S (never_per V) hS m).2
    (sc_never (reachableAny_sep hS h))

/-! ### Histories -/
open RangeMap.Weak (Chained.refl Chained.trans)

theorem insert_look_chain (hS : LawfulSteps S) {m m' : RangeInclusiveMap K V} (h : Sep m.btm)
    (hf : Fresh m.btm) {r : RangeInclusive K} {v : V} (hx : r.exhausted = false)
    (hr : r.start ≤ r.stop) (hi : m.insert S r v = .ok m') (k : K) :
    Chained (if r.start ≤ k ∧ k ≤ r.stop then some v else m.look k) (m'.look k) := by
  have := insert_look hS h hf hx hr hi k
  split
  · rename_i hk
    rw [this.1 hk.1 hk.2]
    exact Chained.refl _
  · rename_i hk
    rcases this.2 hk with h | ⟨w, h1, h2, h3⟩
    · rw [h]; exact Chained.refl _
    · rw [h1, h3]
      exact .step .refl h2

theorem extend_look (hS : LawfulSteps S) {m : RangeInclusiveMap K V} (h : Sep m.btm) (hfr : Fresh m.btm)
    (items : List (RangeInclusive K × V)) (hx : ∀ e ∈ items, e.1.exhausted = false) (k : K) :
    Chained
      (match (items.takeWhile fun e => ivalid e.1).reverse.find? fun e => icovers e.1 k with
      | some e => some e.2
      | none => m.look k) ((m.extend S items).1.look k) := by
  induction items generalizing m with
  | nil => exact Chained.refl _
  | cons e t ih =>
    obtain ⟨r, v⟩ := e
    unfold RangeInclusiveMap.extend
    by_cases he : r.start ≤ r.stop
    · obtain ⟨m', h1, h2, h3⟩ := insert_ok hS h v he
      rw [h1]
      have := ih h2 (h3 hfr (hx (r, v) (by simp))) (fun e he => hx e (by simp [he]))
      simp only [List.takeWhile_cons, ivalid, he, decide_true, if_true, List.reverse_cons,
        List.find?_append]
      simp only [ivalid] at this
      cases hf : (t.takeWhile fun e => decide (e.1.start ≤ e.1.stop)).reverse.find?
          fun e => icovers e.1 k with
      | some e => simp only [hf] at this; simpa using this
      | none =>
        simp only [hf] at this
        refine Chained.trans ?_ this
        have hi := insert_look_chain hS h hfr (hx (r, v) (by simp)) he h1 k
        by_cases hk : r.start ≤ k ∧ k ≤ r.stop
        · simp only [hk, and_self, if_true] at hi
          simpa [icovers, hk] using hi
        · rw [if_neg hk] at hi
          simpa [icovers, hk] using hi
    · rw [insert_invalid he]
      simp [ivalid, he]
      exact Chained.refl _

theorem apply_look (hS : LawfulSteps S) {m : RangeInclusiveMap K V} (h : Sep m.btm) (hfr : Fresh m.btm)
    (op : Op (RangeInclusive K) V) (hx : ∀ r ∈ op.inserted, r.exhausted = false) (k : K)
    (ops : List (Op (RangeInclusive K) V))
    (hm : Chained (lastWrite icovers ivalid ops k) (m.look k)) :
    Chained (lastWrite icovers ivalid (op :: ops) k) ((m.apply S op).1.look k) := by
  cases op with
  | insert r v =>
    simp only [RangeInclusiveMap.apply, lastWrite, ivalid, icovers]
    by_cases hr : r.start ≤ r.stop
    · obtain ⟨m', h1, h2, h3⟩ := insert_ok hS h v hr
      simp only [h1]
      have := insert_look_chain hS h hfr (hx r (by simp [Op.inserted])) hr h1 k
      by_cases hk : r.start ≤ k ∧ k ≤ r.stop
      · simpa [hr, hk] using this
      · rw [if_neg hk] at this
        simpa [hk] using Chained.trans hm this
    · simpa [insert_invalid hr, hr] using hm
  | remove r =>
    simp only [RangeInclusiveMap.apply, lastWrite, ivalid, icovers]
    by_cases hr : r.start ≤ r.stop
    · obtain ⟨m', h1, h2, _⟩ := remove_ok hS h hr
      simp only [h1]
      have := remove_look hS h hfr hr h1 k
      by_cases hk : r.start ≤ k ∧ k ≤ r.stop
      · simp [hr, hk, this, Chained]
      · simpa [hk, this] using hm
    · simpa [remove_invalid hr, hr] using hm
  | clear =>
    simp only [RangeInclusiveMap.apply, lastWrite, RangeInclusiveMap.clear]
    have : (⟨[]⟩ : RangeInclusiveMap K V).look k = none := by
      rw [look_eq_none (m := ⟨[]⟩) (WF.nil (K := K) (V := V)).sep (WF.nil (K := K) (V := V)).fresh]
      rintro w ⟨x, hx, _⟩
      simp at hx
    rw [this]
    trivial
  | extend items =>
    simp only [RangeInclusiveMap.apply, lastWrite]
    have := extend_look hS h hfr items (fun e he => hx _ (by simp only [Op.inserted, List.mem_map]; exact ⟨e, he, rfl⟩)) k
    cases hf : (items.takeWhile fun e => ivalid e.1).reverse.find?
        fun e => icovers e.1 k with
    | some e => simpa only [hf] using this
    | none =>
      simp only [hf] at this ⊢
      exact Chained.trans hm this

theorem run_look (hS : LawfulSteps S) (ops : List (Op (RangeInclusive K) V))
    (hx : ∀ op ∈ ops, ∀ r ∈ op.inserted, r.exhausted = false) (k : K) :
    Chained (lastWrite icovers ivalid ops.reverse k) ((run S ops).look k) := by
  suffices ∀ rops : List (Op (RangeInclusive K) V),
      (∀ op ∈ rops, ∀ r ∈ op.inserted, r.exhausted = false) →
      Chained (lastWrite icovers ivalid rops k) ((run S rops.reverse).look k) by
    simpa using this ops.reverse (by simpa using hx)
  intro rops hx
  induction rops with
  | nil =>
    have : (run S [] : RangeInclusiveMap K V).look k = none := by
      rw [look_eq_none (m := run S []) (WF.nil (K := K) (V := V)).sep (WF.nil (K := K) (V := V)).fresh]
      rintro w ⟨x, hx, _⟩
      simp [run, RangeInclusiveMap.new] at hx
    simp [this, lastWrite, Chained]
  | cons op rops ih =>
    rw [List.reverse_cons, run_append]
    exact apply_look hS (run_sep hS rops.reverse).1 ((run_sep hS rops.reverse).2 (by grind)) op (hx op (by simp)) k rops
      (ih fun o ho => hx o (by simp [ho]))

end Verif.RangeInclusiveMap.Weak

import Verif.Proof.Append
import Verif.Proof.Canon

/-!
# `RangeMap::insert` when `==` of the values obeys no laws

The proof of `Proof/MapInsert.lean` without the part on coalescing, for which alone the laws of `==`
are needed.
-/
set_option linter.unusedSectionVars false
set_option linter.unusedVariables false

namespace Verif.RangeMap.Weak
variable {K : Type} [LE K] [LT K] [DecidableLE K] [DecidableLT K]
  [Std.IsLinearPreorder K] [Std.LawfulOrderLT K] {V : Type} [BEq V]

/-- Invariant of `insert` of `r ↦ v` into `m0`; `m` is the current tree and `n` the (grown) new
range. -/
structure IInv (m0 : List (Range K × V)) (r : Range K) (v : V) (m : List (Range K × V))
    (n : Range K) : Prop where
  sep : Sep m
  ns : n.start ≤ r.start
  ne : r.stop ≤ n.stop
  out : ∀ k, ¬ (n.start ≤ k ∧ k < n.stop) → ∀ w, Maps m k w ↔ Maps m0 k w
  ado : ∀ k, n.start ≤ k → k < n.stop → ¬ (r.start ≤ k ∧ k < r.stop) →
    ∃ w, Maps m0 k w ∧ (w == v) = true

/-- What `adjust_touching_ranges_for_insert` does to the entries, for an entry `x` that touches
the new range. -/
theorem adjustInsert_spec {m0 m : List (Range K × V)} {r n : Range K} {v : V}
    (hr : r.start < r.stop) (h : IInv m0 r v m n) {x : Range K × V} (hx : x ∈ m)
    (ht1 : x.1.start ≤ n.stop) (ht2 : n.start ≤ x.1.stop)
    {m' : List (Range K × V)} {n' : Range K}
    (heq : adjustTouchingRangesForInsert m x.1 x.2 n v = (m', n')) :
    IInv m0 r v m' n' ∧
    (((x.2 == v) = true ∧ n'.start = rmin n.start x.1.start ∧ n'.stop = rmax n.stop x.1.stop ∧
        (∀ y, y ∈ m' ↔ y ∈ m ∧ y ≠ x) ∧ m'.length + 1 = m.length) ∨
     ((x.2 == v) = false ∧ x.1.start < n.stop ∧ n.start < x.1.stop ∧ n' = n ∧
        (∀ y, y ∈ m' ↔ (y ∈ m ∧ y ≠ x) ∨
          (x.1.start < n.start ∧ y = (⟨x.1.start, n.start⟩, x.2)) ∨
          (n.stop < x.1.stop ∧ y = (⟨n.stop, x.1.stop⟩, x.2))) ∧
        m'.length + 1 = m.length + (if x.1.start < n.start then 1 else 0) +
          (if n.stop < x.1.stop then 1 else 0)) ∨
     ((x.2 == v) = false ∧ ¬ (x.1.start < n.stop ∧ n.start < x.1.stop) ∧ n' = n ∧ m' = m)) := by
  have htri := h.sep.tri x hx
  have hne := h.sep.ne x hx
  have hns := h.ns
  have hne' := h.ne
  have hnn : n.start < n.stop := by grind
  unfold adjustTouchingRangesForInsert at heq
  by_cases hv : (x.2 == v) = true
  · rw [if_pos hv] at heq
    obtain ⟨rfl, rfl⟩ := Prod.mk.inj heq
    have em := h.sep.mem_remove hx
    refine ⟨⟨h.sep.remove _, ?_, ?_, ?_, ?_⟩, Or.inl ⟨hv, rfl, rfl, em, h.sep.length_remove hx⟩⟩
    · rw [rmin_le]; exact Or.inl hns
    · rw [le_rmax]; exact Or.inl hne'
    · intro k hk w
      simp only [rmin_le, lt_rmax] at hk
      rw [← h.out k (by grind) w]
      unfold Maps
      constructor
      · rintro ⟨e, he, h1, h2, h3⟩
        rw [em] at he
        exact ⟨e, he.1, h1, h2, h3⟩
      · rintro ⟨e, he, h1, h2, h3⟩
        refine ⟨e, ?_, h1, h2, h3⟩
        rw [em]
        grind
    · intro k hk1 hk2 hk3
      simp only [rmin_le, lt_rmax] at hk1 hk2
      by_cases hkn : n.start ≤ k ∧ k < n.stop
      · exact h.ado k hkn.1 hkn.2 hk3
      · refine ⟨x.2, ?_, hv⟩
        rw [← h.out k hkn]
        exact ⟨x, hx, by grind, by grind, rfl⟩
  · have hv' : (x.2 == v) = false := by simpa using hv
    rw [if_neg hv] at heq
    by_cases hov : n.overlaps x.1 = true
    · rw [if_pos hov] at heq
      simp only [Range.overlaps, decide_eq_true_eq, lt_rmin, rmax_lt] at hov
      obtain ⟨hm', rfl⟩ := Prod.mk.inj heq
      have hc := h.sep.cut hx hnn (by grind) (by grind) rfl rfl hm'.symm
      obtain ⟨s3, e3, l3⟩ := hc
      refine ⟨⟨s3, hns, hne', ?_, h.ado⟩,
        Or.inr (Or.inl ⟨hv', by grind, by grind, rfl, e3, l3⟩)⟩
      · intro k hk w
        rw [← h.out k hk w]
        unfold Maps
        constructor
        · rintro ⟨e, he, h1, h2, h3⟩
          rw [e3] at he
          grind
        · rintro ⟨e, he, h1, h2, h3⟩
          by_cases hex : e = x
          · subst hex
            by_cases hks : k < n.start
            · exact ⟨(⟨e.1.start, n.start⟩, e.2), by rw [e3]; grind, by grind⟩
            · exact ⟨(⟨n.stop, e.1.stop⟩, e.2), by rw [e3]; grind, by grind⟩
          · exact ⟨e, by rw [e3]; grind, h1, h2, h3⟩
    · rw [if_neg hov] at heq
      simp only [Range.overlaps, decide_eq_true_eq, lt_rmin, rmax_lt] at hov
      obtain ⟨rfl, rfl⟩ := Prod.mk.inj heq
      exact ⟨h, Or.inr (Or.inr ⟨hv', by grind, rfl, rfl⟩)⟩

theorem IInv.refl {m : List (Range K × V)} {r : Range K} {v : V} (hs : Sep m) :
    IInv m r v m r :=
  ⟨hs, by grind, by grind, fun _ _ _ => Iff.rfl, by grind⟩

/-- Everything that starts before the new range is settled. -/
def LeftOk (v : V) (m : List (Range K × V)) (n : Range K) : Prop :=
  ∀ y ∈ m, y.1.start < n.start → y.1.stop ≤ n.start

/-- The candidates of `insert`: the last two entries starting at or before the new range. -/
theorem insertPrefix_spec {m : List (Range K × V)} {r : Range K} {v : V}
    (hr : r.start < r.stop) (hs : Sep m) :
    ∃ m' n', insertPrefix m r v = .ok (m', n') ∧ IInv m r v m' n' ∧ LeftOk v m' n' ∧
      m'.length ≤ m.length + 1 := by
  unfold insertPrefix
  rw [BTreeMap.range_ok rfl]
  simp only [Bound.admitsAsLower, Bound.admitsAsUpper, Bool.true_and, bind, Except.bind, pure,
    Except.pure]
  -- facts about the reversed list
  have hpw : ((m.filter fun e => decide (e.1.start ≤ r.start)).reverse).Pairwise
      (fun a b => Before b a) := by
    rw [List.pairwise_reverse]; exact hs.pw.filter _
  have hmem : ∀ y, y ∈ (m.filter fun e => decide (e.1.start ≤ r.start)).reverse ↔
      y ∈ m ∧ y.1.start ≤ r.start := by
    intro y; simp
  -- adjusting an entry `c` such that all earlier-starting entries precede it
  have key : ∀ c, c ∈ m → c.1.start ≤ r.start → r.start ≤ c.1.stop →
      (∀ y ∈ m, y.1.start < r.start → y = c ∨ (Before y c ∧ y.1.stop < r.start)) →
      ∃ m' n', adjustTouchingRangesForInsert m c.1 c.2 r v = (m', n') ∧ IInv m r v m' n' ∧
        LeftOk v m' n' ∧ m'.length ≤ m.length + 1 := by
    intro c hc' h1 h2 h3
    have hcn := hs.ne c hc'
    generalize hp : adjustTouchingRangesForInsert m c.1 c.2 r v = p
    obtain ⟨m', n'⟩ := p
    refine ⟨m', n', rfl, ?_⟩
    have hadj := adjustInsert_spec (v := v) hr (IInv.refl hs) hc' (by grind) h2 hp
    clear hp
    refine ⟨hadj.1, ?_, ?_⟩
    · rcases hadj.2 with ⟨hv, e1, e2, hm, hl⟩ | ⟨hv, e1, e2, hn, hm, hl⟩ | ⟨hv, e1, hn, hm⟩
      · intro y hy hlt
        rw [hm] at hy
        rw [e1] at hlt ⊢
        have h3 := h3 y hy.1
        simp only [rmin, Before] at *
        grind
      · intro y hy hlt
        rw [hn] at hlt ⊢
        rw [hm] at hy
        have h3 := h3 y
        simp only [Before] at *
        grind
      · intro y hy hlt
        rw [hn] at hlt ⊢
        rw [hm] at hy
        have h3 := h3 y hy
        simp only [Before] at *
        grind
    · grind
  generalize hl : (m.filter fun e => decide (e.1.start ≤ r.start)).reverse = l at hpw hmem ⊢
  match l, hpw, hmem with
  | [], hpw, hmem =>
    refine ⟨m, r, rfl, .refl hs, ?_, by omega⟩
    intro y hy hlt
    have := hmem y
    grind
  | [c1], hpw, hmem =>
    have hc1 := (hmem c1).1 (by simp)
    have hlast : ∀ y ∈ m, y.1.start ≤ r.start → y = c1 := by
      intro y hy hlt
      have := hmem y
      grind
    by_cases ht : c1.1.touches r = true
    · simp only [List.take, List.filter, ht]
      simp only [Range.touches, decide_eq_true_eq, le_rmin, rmax_le] at ht
      obtain ⟨m', n', h1, h2⟩ := key c1 hc1.1 hc1.2 (by grind) (by grind)
      exact ⟨m', n', by rw [h1], h2⟩
    · simp only [List.take, List.filter, ht]
      simp only [Range.touches, decide_eq_true_eq, le_rmin, rmax_le] at ht
      refine ⟨m, r, rfl, .refl hs, ?_, by omega⟩
      intro y hy hlt
      have := hlast y hy
      have := hs.ne c1 hc1.1
      grind
  | c1 :: c2 :: t, hpw, hmem =>
    have hc1 := (hmem c1).1 (by simp)
    have hc2 := (hmem c2).1 (by simp)
    have hn1 := hs.ne c1 hc1.1
    have hn2 := hs.ne c2 hc2.1
    rw [List.pairwise_cons, List.pairwise_cons] at hpw
    have hb := hpw.1 c2 (by simp)
    have hlast : ∀ y ∈ m, y.1.start ≤ r.start → y = c1 ∨ y = c2 ∨ Before y c2 := by
      intro y hy hlt
      have := hmem y
      have := hpw.2.1 y
      grind
    by_cases ht1 : c1.1.touches r = true
    · by_cases ht2 : c2.1.touches r = true
      · simp only [List.take, List.filter, ht1, ht2]
        simp only [Range.touches, decide_eq_true_eq, le_rmin, rmax_le] at ht1 ht2
        obtain ⟨m', n', h1, h2⟩ := key c2 hc2.1 hc2.2 (by grind) (by grind [Before])
        exact ⟨m', n', by rw [h1], h2⟩
      · simp only [List.take, List.filter, ht1, ht2]
        simp only [Range.touches, decide_eq_true_eq, le_rmin, rmax_le] at ht1 ht2
        obtain ⟨m', n', h1, h2⟩ := key c1 hc1.1 hc1.2 (by grind) (by grind [Before])
        exact ⟨m', n', by rw [h1], h2⟩
    · by_cases ht2 : c2.1.touches r = true
      · exfalso
        simp only [Range.touches, decide_eq_true_eq, le_rmin, rmax_le] at ht1 ht2
        grind [Before]
      · simp only [List.take, List.filter, ht1, ht2]
        simp only [Range.touches, decide_eq_true_eq, le_rmin, rmax_le] at ht1 ht2
        refine ⟨m, r, rfl, .refl hs, ?_, by omega⟩
        intro y hy hlt
        have := hlast y hy
        grind [Before]

/-- Nothing left to do for the loop: the next stored range is beyond the new one. -/
def Done (hi : K) (v : V) (m : List (Range K × V)) (n : Range K) : Prop :=
  ∀ y ∈ m, n.start ≤ y.1.start → n.stop ≤ y.1.start ∧ (y.1.start ≤ hi → (y.2 == v) = false)

/-- Everything that starts after `hi` is settled. -/
def RightOk (hi : K) (v : V) (m : List (Range K × V)) (n : Range K) : Prop :=
  hi ≤ n.stop ∧ ∀ y ∈ m, hi < y.1.start → n.stop ≤ y.1.start

theorem insertLoop_unfold (hi : K) (v : V) (f : Nat) (m : List (Range K × V)) (n : Range K)
    (h : n.start ≤ hi) : insertLoop hi v (f + 1) m n =
      match (m.filter fun e => decide (n.start ≤ e.1.start) && decide (e.1.start ≤ hi)).head? with
      | none => .ok (m, n)
      | some (stored, storedValue) =>
        if keq stored.start n.stop && !(storedValue == v) then .ok (m, n)
        else insertLoop hi v f (adjustTouchingRangesForInsert m stored storedValue n v).1
          (adjustTouchingRangesForInsert m stored storedValue n v).2 := by
  conv => lhs; unfold insertLoop
  rw [BTreeMap.range_ok (by simp only [Bound.invalid]; grind)]
  rfl

/-- If there is nothing left to do the loop stops at once. -/
theorem insertLoop_done {hi : K} {v : V} {m : List (Range K × V)} {n : Range K} {f : Nat}
    (h : n.start ≤ hi) (hh : hi ≤ n.stop) (hd : Done hi v m n) :
    insertLoop hi v (f + 1) m n = .ok (m, n) := by
  rw [insertLoop_unfold hi v f m n h]
  split
  · rfl
  · rename_i x xv hx
    have hx := List.mem_of_head? hx
    rw [List.mem_filter] at hx
    have := hd _ hx.1
    rw [if_pos]
    simp only [keq]
    grind

theorem insertLoop_spec {m0 : List (Range K × V)} {r : Range K} {v : V} {hi : K}
    (hr : r.start < r.stop) (L : Nat) :
    ∀ (m : List (Range K × V)) (n : Range K), IInv m0 r v m n → LeftOk v m n →
      RightOk hi v m n → r.stop ≤ hi → (m.length ≤ L ∨ Done hi v m n) →
      ∃ m' n', (∀ fuel, L + 1 ≤ fuel → insertLoop hi v fuel m n = .ok (m', n')) ∧
        IInv m0 r v m' n' ∧ LeftOk v m' n' ∧ Done hi v m' n' ∧ m'.length ≤ m.length := by
  induction L with
  | zero =>
    intro m n hinv hleft hright hhi hlen
    have hd : Done hi v m n := by
      rcases hlen with hlen | hlen
      · have : m = [] := List.eq_nil_of_length_eq_zero (by omega)
        simp [this, Done]
      · exact hlen
    refine ⟨m, n, ?_, hinv, hleft, hd, by omega⟩
    intro fuel hf
    obtain ⟨f, rfl⟩ : ∃ f, fuel = f + 1 := ⟨fuel - 1, by omega⟩
    have := hinv.ns
    exact insertLoop_done (by grind) hright.1 hd
  | succ L ih =>
    intro m n hinv hleft hright hhi hlen
    have hns := hinv.ns
    have hne := hinv.ne
    rcases hlen with hlen | hd
    · have hn : n.start ≤ hi := by grind
      cases hh : (m.filter fun e =>
          decide (n.start ≤ e.1.start) && decide (e.1.start ≤ hi)).head? with
      | none =>
        refine ⟨m, n, ?_, hinv, hleft, ?_, by omega⟩
        · intro fuel hf
          obtain ⟨f, rfl⟩ : ∃ f, fuel = f + 1 := ⟨fuel - 1, by omega⟩
          rw [insertLoop_unfold hi v f m n hn, hh]
        · rw [BTreeMap.head?_filter_eq_none] at hh
          intro y hy hy'
          have := hh y hy
          have := hright.2 y hy
          grind
      | some x =>
        obtain ⟨hx, hp, hfirst⟩ := BTreeMap.head?_filter_eq_some hinv.sep.pw hh
        simp only [Bool.and_eq_true, decide_eq_true_eq] at hp
        have hnx := hinv.sep.ne x hx
        have htri := hinv.sep.tri x hx
        by_cases hbr : (keq x.1.start n.stop && !(x.2 == v)) = true
        · refine ⟨m, n, ?_, hinv, hleft, ?_, by omega⟩
          · intro fuel hf
            obtain ⟨f, rfl⟩ : ∃ f, fuel = f + 1 := ⟨fuel - 1, by omega⟩
            rw [insertLoop_unfold hi v f m n hn, hh]
            simp only [hbr, if_true]
          · intro y hy hy'
            have := hfirst y hy
            have := hright.2 y hy
            have := hright.1
            simp only [keq, Bool.and_eq_true, decide_eq_true_eq, Bool.not_eq_true'] at hbr
            grind [Before]
        · have hbr' : (keq x.1.start n.stop && !(x.2 == v)) = false := by simpa using hbr
          simp only [keq, Bool.and_eq_true, decide_eq_true_eq, Bool.not_eq_true'] at hbr
          have hle : x.1.start ≤ n.stop := by have := hright.1; grind
          generalize hadj : adjustTouchingRangesForInsert m x.1 x.2 n v = p at *
          obtain ⟨m1, n1⟩ := p
          have hge : n.start ≤ x.1.stop := by grind
          have ha := adjustInsert_spec hr hinv hx hle hge hadj
          have hstep : IInv m0 r v m1 n1 ∧ LeftOk v m1 n1 ∧ RightOk hi v m1 n1 ∧
              (m1.length ≤ L ∨ Done hi v m1 n1) ∧ m1.length ≤ m.length := by
            refine ⟨ha.1, ?_⟩
            rcases ha.2 with ⟨hv, e1, e2, hm, hl⟩ | ⟨hv, e1, e2, hn', hm, hl⟩ | ⟨hv, e1, hn', hm⟩
            · refine ⟨?_, ?_, Or.inl (by omega), by omega⟩
              · intro y hy hlt
                rw [hm] at hy
                have := hleft y hy.1
                simp only [e1, rmin] at hlt ⊢
                grind
              · refine ⟨?_, ?_⟩
                · rw [e2, le_rmax]; exact Or.inl hright.1
                · intro y hy hlt
                  rw [hm] at hy
                  have h1 := hright.2 y hy.1 hlt
                  have h2 := htri y hy.1
                  have h4 := hinv.sep.ne y hy.1
                  simp only [e2, rmax]
                  grind
            · subst hn'
              rw [if_neg (by grind)] at hl
              refine ⟨?_, ?_, ?_, by grind⟩
              · intro y hy hlt
                have := hleft y
                rw [hm] at hy
                grind
              · refine ⟨hright.1, ?_⟩
                intro y hy hlt
                have := hright.2 y
                rw [hm] at hy
                grind
              · by_cases hxr : n1.stop < x.1.stop
                · right
                  intro y hy hy'
                  have := hright.1
                  have := hfirst y
                  have := hright.2 y
                  rw [hm] at hy
                  grind [Before]
                · left
                  rw [if_neg hxr] at hl
                  omega
            · exfalso
              grind
          obtain ⟨h1, h2, h3, h4, h5⟩ := hstep
          obtain ⟨m', n', hm', hi', hl', hd', hlen'⟩ := ih m1 n1 h1 h2 h3 hhi h4
          refine ⟨m', n', ?_, hi', hl', hd', by omega⟩
          intro fuel hf
          obtain ⟨f, rfl⟩ : ∃ f, fuel = f + 1 := ⟨fuel - 1, by omega⟩
          rw [insertLoop_unfold hi v f m n hn, hh]
          simp only [hbr', hadj]
          exact hm' f (by omega)
    · refine ⟨m, n, ?_, hinv, hleft, hd, by omega⟩
      intro fuel hf
      obtain ⟨f, rfl⟩ : ∃ f, fuel = f + 1 := ⟨fuel - 1, by omega⟩
      exact insertLoop_done (by grind) hright.1 hd

theorem insert_spec {m : RangeMap K V} (h : Sep m.btm) {r : Range K} (v : V)
    (hr : r.start < r.stop) :
    ∃ m' : RangeMap K V, (∀ fuel, m.len + 2 ≤ fuel → insertFuel fuel m r v = .ok m') ∧
      Sep m'.btm ∧ m'.len ≤ m.len + 2 ∧
      ∃ n : Range K, n.start ≤ r.start ∧ r.stop ≤ n.stop ∧
        (∀ k, n.start ≤ k → k < n.stop → ¬ (r.start ≤ k ∧ k < r.stop) →
          ∃ w, Maps m.btm k w ∧ (w == v) = true) ∧
        (∀ k, n.start ≤ k → k < n.stop → ∀ w, Maps m'.btm k w ↔ w = v) ∧
        (∀ k, ¬ (n.start ≤ k ∧ k < n.stop) → ∀ w, Maps m'.btm k w ↔ Maps m.btm k w) := by
  obtain ⟨m1, n1, hp, hi1, hl1, hlen1⟩ := insertPrefix_spec (v := v) hr h
  obtain ⟨m2, n2, hloop, hi2, hl2, hd2, hlen2⟩ := insertLoop_spec (hi := n1.stop) hr (m.len + 1)
    m1 n1 hi1 hl1 ⟨by grind, by grind⟩ hi1.ne (Or.inl hlen1)
  have hns := hi2.ns
  have hne := hi2.ne
  have hfit : Fits m2 n2 := by
    refine ⟨by grind, ?_⟩
    intro e he
    have := hl2 e he
    have := hd2 e he
    grind
  have em := hi2.sep.mem_insert hfit v
  refine ⟨⟨BTreeMap.insert Range.start n2 v m2⟩, ?_, hi2.sep.insert hfit v, ?_, n2, hns, hne,
    hi2.ado, ?_, ?_⟩
  · intro fuel hf
    unfold insertFuel
    simp [hr, hp, hloop fuel (by omega), bind, Except.bind, pure, Except.pure]
  · simp only [len, hi2.sep.length_insert hfit v] at *
    omega
  · intro k hk1 hk2 w
    simp only [Maps]
    constructor
    · rintro ⟨e, he, h1, h2, h3⟩
      rw [em] at he
      rcases he with rfl | he
      · exact h3.symm
      · have := hfit.2 e he
        exfalso
        grind
    · rintro rfl
      exact ⟨(n2, w), by rw [em]; grind, hk1, hk2, rfl⟩
  · intro k hk w
    rw [← hi2.out k hk]
    simp only [Maps]
    constructor
    · rintro ⟨e, he, h1, h2, h3⟩
      rw [em] at he
      rcases he with rfl | he
      · exact absurd ⟨h1, h2⟩ hk
      · exact ⟨e, he, h1, h2, h3⟩
    · rintro ⟨e, he, h1, h2, h3⟩
      exact ⟨e, by rw [em]; grind, h1, h2, h3⟩

theorem insert_ok {m : RangeMap K V} (h : Sep m.btm) {r : Range K} (v : V)
    (hr : r.start < r.stop) : ∃ m', m.insert r v = .ok m' ∧ Sep m'.btm := by
  obtain ⟨m', h1, h2, _⟩ := insert_spec h v hr
  exact ⟨m', h1 _ (by omega), h2⟩

/-- `insert` on the abstract contents. -/
theorem insert_look {m m' : RangeMap K V} (h : Sep m.btm) {r : Range K} {v : V}
    (hr : r.start < r.stop) (hi : m.insert r v = .ok m') (k : K) :
    (r.start ≤ k → k < r.stop → m'.look k = some v) ∧
    (¬ (r.start ≤ k ∧ k < r.stop) → m'.look k = m.look k ∨
      ∃ w, m.look k = some w ∧ (w == v) = true ∧ m'.look k = some v) := by
  obtain ⟨m'', h1, h2, _, n, h3, h4, h5, h6, h7⟩ := insert_spec h v hr
  have : m'' = m' := by
    have := h1 _ (Nat.le_refl _)
    rw [RangeMap.insert] at hi
    simpa [hi] using this.symm
  subst this
  constructor
  · intro hk1 hk2
    rw [look_eq_some h2, h6 k (by grind) (by grind)]
  · intro hk
    by_cases hkn : n.start ≤ k ∧ k < n.stop
    · right
      obtain ⟨w, hw1, hw2⟩ := h5 k hkn.1 hkn.2 hk
      refine ⟨w, (look_eq_some h _ _).2 hw1, hw2, ?_⟩
      rw [look_eq_some h2, h6 k hkn.1 hkn.2]
    · left
      have := get_congr h h2 (h7 k hkn)
      rw [get_look h, get_look h2] at this
      simpa using this

/-- The `==` that is never true.  It is symmetric and transitive. -/
def never (V : Type) : BEq V := ⟨fun _ _ => false⟩

theorem never_per (V : Type) : @PartialEquivBEq V (never V) :=
  @PartialEquivBEq.mk V (never V) (fun h => by cases h) (fun h => by cases h)

omit [BEq V] in
theorem wf_never {m : List (Range K × V)} (h : Sep m) : @WF K _ _ V (never V) m :=
  @WF.mk K _ _ V (never V) m h (fun _ _ _ _ _ _ => rfl)

omit [BEq V] in
theorem remove_ok {m : RangeMap K V} (h : Sep m.btm) {r : Range K} (hr : r.start < r.stop) :
    ∃ m', m.remove r = .ok m' ∧ Sep m'.btm := by
  obtain ⟨m', h1, h2, _⟩ := @remove_spec K _ _ _ _ _ _ V (never V) m (wf_never h) r hr
  exact ⟨m', h1 _ (Nat.le_refl _), @WF.sep K _ _ V (never V) _ h2⟩

theorem remove_look {m m' : RangeMap K V} (h : Sep m.btm) {r : Range K} (hr : r.start < r.stop)
    (hi : m.remove r = .ok m') (k : K) :
    m'.look k = if r.start ≤ k ∧ k < r.stop then none else m.look k :=
  @RangeMap.remove_look K _ _ _ _ _ _ V (never V) m m' (wf_never h) r hr hi k

theorem extend_sep {m : RangeMap K V} (h : Sep m.btm) (items : List (Range K × V)) :
    Sep (m.extend items).1.btm := by
  induction items generalizing m with
  | nil => exact h
  | cons e t ih =>
    unfold RangeMap.extend
    by_cases he : e.1.start < e.1.stop
    · obtain ⟨m', h1, h2⟩ := insert_ok h e.2 he
      rw [h1]
      exact ih h2
    · rw [insert_invalid he]
      exact h

theorem apply_sep {m : RangeMap K V} (h : Sep m.btm) (op : Spec.Op (Range K) V) :
    Sep (m.apply op).1.btm := by
  cases op with
  | insert r v =>
    unfold RangeMap.apply
    by_cases hr : r.start < r.stop
    · obtain ⟨m', h1, h2⟩ := insert_ok h v hr
      simp only [h1]
      exact h2
    · simp only [insert_invalid hr]
      exact h
  | remove r =>
    unfold RangeMap.apply
    by_cases hr : r.start < r.stop
    · obtain ⟨m', h1, h2⟩ := remove_ok h hr
      simp only [h1]
      exact h2
    · simp only [remove_invalid hr]
      exact h
  | clear => exact WF.nil.sep
  | extend items => exact extend_sep h items

theorem reachable_sep {m : RangeMap K V} (h : Reachable m) : Sep m.btm := by
  obtain ⟨ops, rfl⟩ := h
  unfold run
  suffices ∀ m : RangeMap K V, Sep m.btm →
      Sep (ops.foldl (fun m op => (m.apply op).1) m).btm from this _ WF.nil.sep
  induction ops with
  | nil => intro m h; exact h
  | cons op ops ih => intro m h; exact ih _ (apply_sep h op)

theorem reachable_never {m : RangeMap K V} (h : Reachable m) : @Reachable K _ _ _ _ V (never V) m :=
  @WF.reachable K _ _ _ _ _ _ V (never V) (never_per V) m (wf_never (reachable_sep h))

/-! ### Histories -/

theorem Chain.trans {a b c : V} (h : Spec.Chain a b) (h' : Spec.Chain b c) : Spec.Chain a c := by
  induction h' with
  | refl => exact h
  | step _ h2 ih => exact .step ih h2

theorem Chained.refl (a : Option V) : Spec.Chained a a := by
  cases a
  · trivial
  · exact Spec.Chain.refl

theorem Chained.trans {a b c : Option V} (h : Spec.Chained a b) (h' : Spec.Chained b c) :
    Spec.Chained a c := by
  cases a <;> cases b <;> cases c <;> simp_all [Spec.Chained]
  exact Chain.trans h h'

theorem insert_look_chain {m m' : RangeMap K V} (h : Sep m.btm) {r : Range K}
    {v : V} (hr : r.start < r.stop) (hi : m.insert r v = .ok m') (k : K) :
    Spec.Chained (if r.start ≤ k ∧ k < r.stop then some v else m.look k) (m'.look k) := by
  have := insert_look h hr hi k
  split
  · rename_i hk
    rw [this.1 hk.1 hk.2]
    exact Chained.refl _
  · rename_i hk
    rcases this.2 hk with h | ⟨w, h1, h2, h3⟩
    · rw [h]; exact Chained.refl _
    · rw [h1, h3]
      exact .step .refl h2

theorem extend_look {m : RangeMap K V} (h : Sep m.btm) (items : List (Range K × V)) (k : K) :
    Spec.Chained
      (match (items.takeWhile fun e => Spec.valid e.1).reverse.find? fun e => Spec.covers e.1 k with
      | some e => some e.2
      | none => m.look k) ((m.extend items).1.look k) := by
  induction items generalizing m with
  | nil => exact Chained.refl _
  | cons e t ih =>
    obtain ⟨r, v⟩ := e
    unfold RangeMap.extend
    by_cases he : r.start < r.stop
    · obtain ⟨m', h1, h2⟩ := insert_ok h v he
      rw [h1]
      have := ih h2
      simp only [List.takeWhile_cons, Spec.valid, he, decide_true, if_true, List.reverse_cons,
        List.find?_append]
      simp only [Spec.valid] at this
      cases hf : (t.takeWhile fun e => decide (e.1.start < e.1.stop)).reverse.find?
          fun e => Spec.covers e.1 k with
      | some e => simp only [hf] at this; simpa using this
      | none =>
        simp only [hf] at this
        refine Chained.trans ?_ this
        have hi := insert_look_chain h he h1 k
        by_cases hk : r.start ≤ k ∧ k < r.stop
        · simp only [hk, and_self, if_true] at hi
          simpa [Spec.covers, hk] using hi
        · rw [if_neg hk] at hi
          simpa [Spec.covers, hk] using hi
    · rw [insert_invalid he]
      simp [Spec.valid, he]
      exact Chained.refl _

theorem apply_look {m : RangeMap K V} (h : Sep m.btm)
    (op : Spec.Op (Range K) V) (k : K) (ops : List (Spec.Op (Range K) V))
    (hm : Spec.Chained (Spec.lastWrite Spec.covers Spec.valid ops k) (m.look k)) :
    Spec.Chained (Spec.lastWrite Spec.covers Spec.valid (op :: ops) k) ((m.apply op).1.look k) := by
  cases op with
  | insert r v =>
    simp only [RangeMap.apply, Spec.lastWrite, Spec.valid, Spec.covers]
    by_cases hr : r.start < r.stop
    · obtain ⟨m', h1, h2⟩ := insert_ok h v hr
      simp only [h1]
      have := insert_look_chain h hr h1 k
      by_cases hk : r.start ≤ k ∧ k < r.stop
      · simpa [hr, hk] using this
      · rw [if_neg hk] at this
        simpa [hk] using Chained.trans hm this
    · simpa [insert_invalid hr, hr] using hm
  | remove r =>
    simp only [RangeMap.apply, Spec.lastWrite, Spec.valid, Spec.covers]
    by_cases hr : r.start < r.stop
    · obtain ⟨m', h1, h2⟩ := remove_ok h hr
      simp only [h1]
      have := remove_look h hr h1 k
      by_cases hk : r.start ≤ k ∧ k < r.stop
      · simp [hr, hk, this, Spec.Chained]
      · simpa [hk, this] using hm
    · simpa [remove_invalid hr, hr] using hm
  | clear =>
    simp only [RangeMap.apply, Spec.lastWrite, RangeMap.clear]
    have : (⟨[]⟩ : RangeMap K V).look k = none := by
      rw [look_eq_none (m := ⟨[]⟩) (WF.nil (K := K) (V := V)).sep]
      rintro w ⟨x, hx, _⟩
      simp at hx
    rw [this]
    trivial
  | extend items =>
    simp only [RangeMap.apply, Spec.lastWrite]
    have := extend_look h items k
    cases hf : (items.takeWhile fun e => Spec.valid e.1).reverse.find?
        fun e => Spec.covers e.1 k with
    | some e => simpa only [hf] using this
    | none =>
      simp only [hf] at this ⊢
      exact Chained.trans hm this

theorem run_look (ops : List (Spec.Op (Range K) V)) (k : K) :
    Spec.Chained (Spec.lastWrite Spec.covers Spec.valid ops.reverse k) ((run ops).look k) := by
  suffices ∀ rops : List (Spec.Op (Range K) V),
      Spec.Chained (Spec.lastWrite Spec.covers Spec.valid rops k) ((run rops.reverse).look k) by
    simpa using this ops.reverse
  intro rops
  induction rops with
  | nil =>
    have : (run [] : RangeMap K V).look k = none := by
      rw [look_eq_none (m := run []) (WF.nil (K := K) (V := V)).sep]
      rintro w ⟨x, hx, _⟩
      simp [run, RangeMap.new] at hx
    simp [this, Spec.lastWrite, Spec.Chained]
  | cons op rops ih =>
    rw [List.reverse_cons, run_append]
    exact apply_look (reachable_sep ⟨_, rfl⟩) op k rops ih

end Verif.RangeMap.Weak

import Verif.Proof.Map

/-!
# Invariant proof for `RangeMap::insert`
-/
set_option linter.unusedSectionVars false
set_option linter.unusedVariables false

namespace Verif.RangeMap
variable {K : Type} [LE K] [LT K] [DecidableLE K] [DecidableLT K]
  [Std.IsLinearPreorder K] [Std.LawfulOrderLT K] {V : Type} [BEq V] [PartialEquivBEq V]

/-- Invariant of `insert` of `r ↦ v` into `m0`; `m` is the current tree and `n` the (grown) new
range. -/
structure IInv (m0 : List (Range K × V)) (r : Range K) (v : V) (m : List (Range K × V))
    (n : Range K) : Prop where
  sep : Sep m
  coal : Coal m
  ns : n.start ≤ r.start
  ne : r.stop ≤ n.stop
  out : ∀ k, ¬ (n.start ≤ k ∧ k < n.stop) → ∀ w, Maps m k w ↔ Maps m0 k w
  ado : ∀ k, n.start ≤ k → k < n.stop → ¬ (r.start ≤ k ∧ k < r.stop) →
    ∃ w, Maps m0 k w ∧ (w == v) = true

/-- What `adjust_touching_ranges_for_insert` does to the entries, for an entry `x` that touches
the new range. -/
theorem adjustInsert_spec {m0 m : List (Range K × V)} {r n : Range K} {v : V}
    (hr : r.start < r.stop) (h : IInv m0 r v m n) {x : Range K × V} (hx : x ∈ m)
    (ht1 : x.1.start ≤ n.stop) (ht2 : n.start ≤ x.1.stop)
    {m' : List (Range K × V)} {n' : Range K}
    (heq : adjustTouchingRangesForInsert m x.1 x.2 n v = (m', n')) :
    IInv m0 r v m' n' ∧
    (((x.2 == v) = true ∧ n'.start = rmin n.start x.1.start ∧ n'.stop = rmax n.stop x.1.stop ∧
        (∀ y, y ∈ m' ↔ y ∈ m ∧ y ≠ x) ∧ m'.length + 1 = m.length) ∨
     ((x.2 == v) = false ∧ x.1.start < n.stop ∧ n.start < x.1.stop ∧ n' = n ∧
        (∀ y, y ∈ m' ↔ (y ∈ m ∧ y ≠ x) ∨
          (x.1.start < n.start ∧ y = (⟨x.1.start, n.start⟩, x.2)) ∨
          (n.stop < x.1.stop ∧ y = (⟨n.stop, x.1.stop⟩, x.2))) ∧
        m'.length + 1 = m.length + (if x.1.start < n.start then 1 else 0) +
          (if n.stop < x.1.stop then 1 else 0)) ∨
     ((x.2 == v) = false ∧ ¬ (x.1.start < n.stop ∧ n.start < x.1.stop) ∧ n' = n ∧ m' = m)) := by
  have htri := h.sep.tri x hx
  have hne := h.sep.ne x hx
  have hns := h.ns
  have hne' := h.ne
  have hnn : n.start < n.stop := by grind
  unfold adjustTouchingRangesForInsert at heq
  by_cases hv : (x.2 == v) = true
  · rw [if_pos hv] at heq
    obtain ⟨rfl, rfl⟩ := Prod.mk.inj heq
    have em := h.sep.mem_remove hx
    refine ⟨⟨h.sep.remove _, ?_, ?_, ?_, ?_, ?_⟩, Or.inl ⟨hv, rfl, rfl, em, h.sep.length_remove hx⟩⟩
    · intro a ha b hb
      rw [em] at ha hb
      exact h.coal a ha.1 b hb.1
    · rw [rmin_le]; exact Or.inl hns
    · rw [le_rmax]; exact Or.inl hne'
    · intro k hk w
      simp only [rmin_le, lt_rmax] at hk
      rw [← h.out k (by grind) w]
      unfold Maps
      constructor
      · rintro ⟨e, he, h1, h2, h3⟩
        rw [em] at he
        exact ⟨e, he.1, h1, h2, h3⟩
      · rintro ⟨e, he, h1, h2, h3⟩
        refine ⟨e, ?_, h1, h2, h3⟩
        rw [em]
        grind
    · intro k hk1 hk2 hk3
      simp only [rmin_le, lt_rmax] at hk1 hk2
      by_cases hkn : n.start ≤ k ∧ k < n.stop
      · exact h.ado k hkn.1 hkn.2 hk3
      · refine ⟨x.2, ?_, hv⟩
        rw [← h.out k hkn]
        exact ⟨x, hx, by grind, by grind, rfl⟩
  · have hv' : (x.2 == v) = false := by simpa using hv
    rw [if_neg hv] at heq
    by_cases hov : n.overlaps x.1 = true
    · rw [if_pos hov] at heq
      simp only [Range.overlaps, decide_eq_true_eq, lt_rmin, rmax_lt] at hov
      obtain ⟨hm', rfl⟩ := Prod.mk.inj heq
      have hc := h.sep.cut hx hnn (by grind) (by grind) rfl rfl hm'.symm
      obtain ⟨s3, e3, l3⟩ := hc
      refine ⟨⟨s3, ?_, hns, hne', ?_, h.ado⟩,
        Or.inr (Or.inl ⟨hv', by grind, by grind, rfl, e3, l3⟩)⟩
      · intro a ha b hb h1 h2
        have hc1 := h.coal a
        have hc2 := h.coal x hx b
        have hc3 := h.coal x hx x hx
        have hta := htri a
        have htb := htri b
        have hna := h.sep.ne a
        have hnb := h.sep.ne b
        rw [e3] at ha hb
        grind
      · intro k hk w
        rw [← h.out k hk w]
        unfold Maps
        constructor
        · rintro ⟨e, he, h1, h2, h3⟩
          rw [e3] at he
          grind
        · rintro ⟨e, he, h1, h2, h3⟩
          by_cases hex : e = x
          · subst hex
            by_cases hks : k < n.start
            · exact ⟨(⟨e.1.start, n.start⟩, e.2), by rw [e3]; grind, by grind⟩
            · exact ⟨(⟨n.stop, e.1.stop⟩, e.2), by rw [e3]; grind, by grind⟩
          · exact ⟨e, by rw [e3]; grind, h1, h2, h3⟩
    · rw [if_neg hov] at heq
      simp only [Range.overlaps, decide_eq_true_eq, lt_rmin, rmax_lt] at hov
      obtain ⟨rfl, rfl⟩ := Prod.mk.inj heq
      exact ⟨h, Or.inr (Or.inr ⟨hv', by grind, rfl, rfl⟩)⟩

theorem IInv.refl {m : List (Range K × V)} {r : Range K} {v : V} (hs : Sep m) (hc : Coal m) :
    IInv m r v m r :=
  ⟨hs, hc, by grind, by grind, fun _ _ _ => Iff.rfl, by grind⟩

/-- `insert` works by adjusting, one after the other, stored entries that touch the new range as it
is then. -/
inductive Steps (v : V) : List (Range K × V) → Range K → List (Range K × V) → Range K → Prop
  | refl {m n} : Steps v m n m n
  | step {m n m1 n1 m' n'} {x : Range K × V} : x ∈ m → x.1.start ≤ n.stop → n.start ≤ x.1.stop →
      adjustTouchingRangesForInsert m x.1 x.2 n v = (m1, n1) → Steps v m1 n1 m' n' →
      Steps v m n m' n'

theorem Steps.trans {v : V} {m m1 m2 : List (Range K × V)} {n n1 n2 : Range K}
    (h : Steps v m n m1 n1) (h' : Steps v m1 n1 m2 n2) : Steps v m n m2 n2 := by
  induction h with
  | refl => exact h'
  | step h1 h2 h3 h4 _ ih => exact .step h1 h2 h3 h4 (ih h')

/-- Everything that starts before the new range is settled. -/
def LeftOk (v : V) (m : List (Range K × V)) (n : Range K) : Prop :=
  ∀ y ∈ m, y.1.start < n.start →
    y.1.stop < n.start ∨ (y.1.stop ≤ n.start ∧ (y.2 == v) = false)

/-- The candidates of `insert`: the last two entries starting at or before the new range. -/
theorem insertPrefix_spec {m : List (Range K × V)} {r : Range K} {v : V}
    (hr : r.start < r.stop) (hs : Sep m) (hc : Coal m) :
    ∃ m' n', insertPrefix m r v = .ok (m', n') ∧ IInv m r v m' n' ∧ LeftOk v m' n' ∧
      m'.length ≤ m.length + 1 ∧ Steps v m r m' n' := by
  unfold insertPrefix
  rw [BTreeMap.range_ok rfl]
  simp only [Bound.admitsAsLower, Bound.admitsAsUpper, Bool.true_and, bind, Except.bind, pure,
    Except.pure]
  -- facts about the reversed list
  have hpw : ((m.filter fun e => decide (e.1.start ≤ r.start)).reverse).Pairwise
      (fun a b => Before b a) := by
    rw [List.pairwise_reverse]; exact hs.pw.filter _
  have hmem : ∀ y, y ∈ (m.filter fun e => decide (e.1.start ≤ r.start)).reverse ↔
      y ∈ m ∧ y.1.start ≤ r.start := by
    intro y; simp
  -- adjusting an entry `c` such that all earlier-starting entries precede it
  have key : ∀ c, c ∈ m → c.1.start ≤ r.start → r.start ≤ c.1.stop →
      (∀ y ∈ m, y.1.start < r.start → y = c ∨ (Before y c ∧ y.1.stop < r.start)) →
      ∃ m' n', adjustTouchingRangesForInsert m c.1 c.2 r v = (m', n') ∧ IInv m r v m' n' ∧
        LeftOk v m' n' ∧ m'.length ≤ m.length + 1 ∧ Steps v m r m' n' := by
    intro c hc' h1 h2 h3
    have hcn := hs.ne c hc'
    generalize hp : adjustTouchingRangesForInsert m c.1 c.2 r v = p
    obtain ⟨m', n'⟩ := p
    refine ⟨m', n', rfl, ?_⟩
    have hadj := adjustInsert_spec (v := v) hr (IInv.refl hs hc) hc' (by grind) h2 hp
    have hst : Steps v m r m' n' := .step hc' (by grind) h2 hp .refl
    clear hp
    refine ⟨hadj.1, ?_, ?_, hst⟩
    · rcases hadj.2 with ⟨hv, e1, e2, hm, hl⟩ | ⟨hv, e1, e2, hn, hm, hl⟩ | ⟨hv, e1, hn, hm⟩
      · intro y hy hlt
        rw [hm] at hy
        rw [e1] at hlt ⊢
        have := hc y hy.1 c hc'
        have h3 := h3 y hy.1
        simp only [rmin, Before] at *
        have hsymm : (y.2 == v) = true → (y.2 == c.2) = true := fun h =>
          PartialEquivBEq.trans h (PartialEquivBEq.symm hv)
        grind
      · intro y hy hlt
        rw [hn] at hlt ⊢
        rw [hm] at hy
        have h3 := h3 y
        simp only [Before] at *
        grind
      · intro y hy hlt
        rw [hn] at hlt ⊢
        rw [hm] at hy
        have h3 := h3 y hy
        simp only [Before] at *
        grind
    · grind
  generalize hl : (m.filter fun e => decide (e.1.start ≤ r.start)).reverse = l at hpw hmem ⊢
  match l, hpw, hmem with
  | [], hpw, hmem =>
    refine ⟨m, r, rfl, .refl hs hc, ?_, by omega, .refl⟩
    intro y hy hlt
    have := hmem y
    grind
  | [c1], hpw, hmem =>
    have hc1 := (hmem c1).1 (by simp)
    have hlast : ∀ y ∈ m, y.1.start ≤ r.start → y = c1 := by
      intro y hy hlt
      have := hmem y
      grind
    by_cases ht : c1.1.touches r = true
    · simp only [List.take, List.filter, ht]
      simp only [Range.touches, decide_eq_true_eq, le_rmin, rmax_le] at ht
      obtain ⟨m', n', h1, h2⟩ := key c1 hc1.1 hc1.2 (by grind) (by grind)
      exact ⟨m', n', by rw [h1], h2⟩
    · simp only [List.take, List.filter, ht]
      simp only [Range.touches, decide_eq_true_eq, le_rmin, rmax_le] at ht
      refine ⟨m, r, rfl, .refl hs hc, ?_, by omega, .refl⟩
      intro y hy hlt
      have := hlast y hy
      have := hs.ne c1 hc1.1
      grind
  | c1 :: c2 :: t, hpw, hmem =>
    have hc1 := (hmem c1).1 (by simp)
    have hc2 := (hmem c2).1 (by simp)
    have hn1 := hs.ne c1 hc1.1
    have hn2 := hs.ne c2 hc2.1
    rw [List.pairwise_cons, List.pairwise_cons] at hpw
    have hb := hpw.1 c2 (by simp)
    have hlast : ∀ y ∈ m, y.1.start ≤ r.start → y = c1 ∨ y = c2 ∨ Before y c2 := by
      intro y hy hlt
      have := hmem y
      have := hpw.2.1 y
      grind
    by_cases ht1 : c1.1.touches r = true
    · by_cases ht2 : c2.1.touches r = true
      · simp only [List.take, List.filter, ht1, ht2]
        simp only [Range.touches, decide_eq_true_eq, le_rmin, rmax_le] at ht1 ht2
        obtain ⟨m', n', h1, h2⟩ := key c2 hc2.1 hc2.2 (by grind) (by grind [Before])
        exact ⟨m', n', by rw [h1], h2⟩
      · simp only [List.take, List.filter, ht1, ht2]
        simp only [Range.touches, decide_eq_true_eq, le_rmin, rmax_le] at ht1 ht2
        obtain ⟨m', n', h1, h2⟩ := key c1 hc1.1 hc1.2 (by grind) (by grind [Before])
        exact ⟨m', n', by rw [h1], h2⟩
    · by_cases ht2 : c2.1.touches r = true
      · exfalso
        simp only [Range.touches, decide_eq_true_eq, le_rmin, rmax_le] at ht1 ht2
        grind [Before]
      · simp only [List.take, List.filter, ht1, ht2]
        simp only [Range.touches, decide_eq_true_eq, le_rmin, rmax_le] at ht1 ht2
        refine ⟨m, r, rfl, .refl hs hc, ?_, by omega, .refl⟩
        intro y hy hlt
        have := hlast y hy
        grind [Before]

/-- Nothing left to do for the loop: the next stored range is beyond the new one. -/
def Done (hi : K) (v : V) (m : List (Range K × V)) (n : Range K) : Prop :=
  ∀ y ∈ m, n.start ≤ y.1.start → n.stop < y.1.start ∨
    (n.stop ≤ y.1.start ∧ (y.2 == v) = false)

/-- Everything that starts after `hi` is settled. -/
def RightOk (hi : K) (v : V) (m : List (Range K × V)) (n : Range K) : Prop :=
  hi ≤ n.stop ∧ ∀ y ∈ m, hi < y.1.start →
    n.stop < y.1.start ∨ (n.stop ≤ y.1.start ∧ (y.2 == v) = false)

theorem insertLoop_unfold (hi : K) (v : V) (f : Nat) (m : List (Range K × V)) (n : Range K)
    (h : n.start ≤ hi) : insertLoop hi v (f + 1) m n =
      match (m.filter fun e => decide (n.start ≤ e.1.start) && decide (e.1.start ≤ hi)).head? with
      | none => .ok (m, n)
      | some (stored, storedValue) =>
        if keq stored.start n.stop && !(storedValue == v) then .ok (m, n)
        else insertLoop hi v f (adjustTouchingRangesForInsert m stored storedValue n v).1
          (adjustTouchingRangesForInsert m stored storedValue n v).2 := by
  conv => lhs; unfold insertLoop
  rw [BTreeMap.range_ok (by simp only [Bound.invalid]; grind)]
  rfl

/-- If there is nothing left to do the loop stops at once. -/
theorem insertLoop_done {hi : K} {v : V} {m : List (Range K × V)} {n : Range K} {f : Nat}
    (h : n.start ≤ hi) (hh : hi ≤ n.stop) (hd : Done hi v m n) :
    insertLoop hi v (f + 1) m n = .ok (m, n) := by
  rw [insertLoop_unfold hi v f m n h]
  split
  · rfl
  · rename_i x xv hx
    have hx := List.mem_of_head? hx
    rw [List.mem_filter] at hx
    have := hd _ hx.1
    rw [if_pos]
    simp only [keq]
    grind

theorem insertLoop_spec {m0 : List (Range K × V)} {r : Range K} {v : V} {hi : K}
    (hr : r.start < r.stop) (L : Nat) :
    ∀ (m : List (Range K × V)) (n : Range K), IInv m0 r v m n → LeftOk v m n →
      RightOk hi v m n → r.stop ≤ hi → (m.length ≤ L ∨ Done hi v m n) →
      ∃ m' n', (∀ fuel, L + 1 ≤ fuel → insertLoop hi v fuel m n = .ok (m', n')) ∧
        IInv m0 r v m' n' ∧ LeftOk v m' n' ∧ Done hi v m' n' ∧ m'.length ≤ m.length ∧
        Steps v m n m' n' := by
  induction L with
  | zero =>
    intro m n hinv hleft hright hhi hlen
    have hd : Done hi v m n := by
      rcases hlen with hlen | hlen
      · have : m = [] := List.eq_nil_of_length_eq_zero (by omega)
        simp [this, Done]
      · exact hlen
    refine ⟨m, n, ?_, hinv, hleft, hd, by omega, .refl⟩
    intro fuel hf
    obtain ⟨f, rfl⟩ : ∃ f, fuel = f + 1 := ⟨fuel - 1, by omega⟩
    have := hinv.ns
    exact insertLoop_done (by grind) hright.1 hd
  | succ L ih =>
    intro m n hinv hleft hright hhi hlen
    have hns := hinv.ns
    have hne := hinv.ne
    rcases hlen with hlen | hd
    · have hn : n.start ≤ hi := by grind
      cases hh : (m.filter fun e =>
          decide (n.start ≤ e.1.start) && decide (e.1.start ≤ hi)).head? with
      | none =>
        refine ⟨m, n, ?_, hinv, hleft, ?_, by omega, .refl⟩
        · intro fuel hf
          obtain ⟨f, rfl⟩ : ∃ f, fuel = f + 1 := ⟨fuel - 1, by omega⟩
          rw [insertLoop_unfold hi v f m n hn, hh]
        · rw [BTreeMap.head?_filter_eq_none] at hh
          intro y hy hy'
          have := hh y hy
          have := hright.2 y hy
          grind
      | some x =>
        obtain ⟨hx, hp, hfirst⟩ := BTreeMap.head?_filter_eq_some hinv.sep.pw hh
        simp only [Bool.and_eq_true, decide_eq_true_eq] at hp
        have hnx := hinv.sep.ne x hx
        have htri := hinv.sep.tri x hx
        by_cases hbr : (keq x.1.start n.stop && !(x.2 == v)) = true
        · refine ⟨m, n, ?_, hinv, hleft, ?_, by omega, .refl⟩
          · intro fuel hf
            obtain ⟨f, rfl⟩ : ∃ f, fuel = f + 1 := ⟨fuel - 1, by omega⟩
            rw [insertLoop_unfold hi v f m n hn, hh]
            simp only [hbr, if_true]
          · intro y hy hy'
            have := hfirst y hy
            have := hright.2 y hy
            simp only [keq, Bool.and_eq_true, decide_eq_true_eq, Bool.not_eq_true'] at hbr
            grind [Before]
        · have hbr' : (keq x.1.start n.stop && !(x.2 == v)) = false := by simpa using hbr
          simp only [keq, Bool.and_eq_true, decide_eq_true_eq, Bool.not_eq_true'] at hbr
          have hle : x.1.start ≤ n.stop := by have := hright.1; grind
          generalize hadj : adjustTouchingRangesForInsert m x.1 x.2 n v = p at *
          obtain ⟨m1, n1⟩ := p
          have hge : n.start ≤ x.1.stop := by grind
          have ha := adjustInsert_spec hr hinv hx hle hge hadj
          have hstep : IInv m0 r v m1 n1 ∧ LeftOk v m1 n1 ∧ RightOk hi v m1 n1 ∧
              (m1.length ≤ L ∨ Done hi v m1 n1) ∧ m1.length ≤ m.length := by
            refine ⟨ha.1, ?_⟩
            rcases ha.2 with ⟨hv, e1, e2, hm, hl⟩ | ⟨hv, e1, e2, hn', hm, hl⟩ | ⟨hv, e1, hn', hm⟩
            · refine ⟨?_, ?_, Or.inl (by omega), by omega⟩
              · intro y hy hlt
                rw [hm] at hy
                have := hleft y hy.1
                simp only [e1, rmin] at hlt ⊢
                grind
              · refine ⟨?_, ?_⟩
                · rw [e2, le_rmax]; exact Or.inl hright.1
                · intro y hy hlt
                  rw [hm] at hy
                  have h1 := hright.2 y hy.1 hlt
                  have h2 := htri y hy.1
                  have h3 := hinv.coal x hx y hy.1
                  have h4 := hinv.sep.ne y hy.1
                  have hsymm : (y.2 == v) = true → (x.2 == y.2) = true := fun h =>
                    PartialEquivBEq.trans hv (PartialEquivBEq.symm h)
                  simp only [e2, rmax]
                  grind
            · subst hn'
              rw [if_neg (by grind)] at hl
              refine ⟨?_, ?_, ?_, by grind⟩
              · intro y hy hlt
                have := hleft y
                rw [hm] at hy
                grind
              · refine ⟨hright.1, ?_⟩
                intro y hy hlt
                have := hright.2 y
                rw [hm] at hy
                grind
              · by_cases hxr : n1.stop < x.1.stop
                · right
                  intro y hy hy'
                  have := hfirst y
                  have := hright.2 y
                  rw [hm] at hy
                  grind [Before]
                · left
                  rw [if_neg hxr] at hl
                  omega
            · exfalso
              grind
          obtain ⟨h1, h2, h3, h4, h5⟩ := hstep
          obtain ⟨m', n', hm', hi', hl', hd', hlen', hst⟩ := ih m1 n1 h1 h2 h3 hhi h4
          refine ⟨m', n', ?_, hi', hl', hd', by omega, .step hx hle hge hadj hst⟩
          intro fuel hf
          obtain ⟨f, rfl⟩ : ∃ f, fuel = f + 1 := ⟨fuel - 1, by omega⟩
          rw [insertLoop_unfold hi v f m n hn, hh]
          simp only [hbr', hadj]
          exact hm' f (by omega)
    · refine ⟨m, n, ?_, hinv, hleft, hd, by omega, .refl⟩
      intro fuel hf
      obtain ⟨f, rfl⟩ : ∃ f, fuel = f + 1 := ⟨fuel - 1, by omega⟩
      exact insertLoop_done (by grind) hright.1 hd

end Verif.RangeMap

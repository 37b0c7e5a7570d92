import Verif.Model.Map
import Verif.Proof.BTree

/-!
# Invariant proofs for `RangeMap::insert` and `RangeMap::remove`
-/
set_option linter.unusedSectionVars false
set_option linter.unusedVariables false

namespace Verif.RangeMap
variable {K : Type} [LE K] [LT K] [DecidableLE K] [DecidableLT K]
  [Std.IsLinearPreorder K] [Std.LawfulOrderLT K] {V : Type}

/-- `a` lies before `b`. -/
def Before (a b : Range K × V) : Prop := a.1.start < b.1.start ∧ a.1.stop ≤ b.1.start

/-- sorted, disjoint, non-empty. -/
structure Sep (m : List (Range K × V)) : Prop where
  pw : m.Pairwise Before
  ne : ∀ e ∈ m, e.1.start < e.1.stop

/-- Touching entries have different values. -/
def Coal [BEq V] (m : List (Range K × V)) : Prop :=
  ∀ a ∈ m, ∀ b ∈ m, a.1.stop ≤ b.1.start → b.1.start ≤ a.1.stop → (a.2 == b.2) = false

/-- key `k` is mapped to `w` by the entry list `m`. -/
def Maps (m : List (Range K × V)) (k : K) (w : V) : Prop :=
  ∃ e ∈ m, e.1.start ≤ k ∧ k < e.1.stop ∧ e.2 = w

theorem before_key (a b : Range K × V) (h : Before a b) : a.1.start < b.1.start := h.1

theorem pw_tri {α : Type} {Rel : α → α → Prop} {m : List α} (h : m.Pairwise Rel) :
    ∀ x ∈ m, ∀ y ∈ m, x = y ∨ Rel x y ∨ Rel y x := by
  induction m with
  | nil => simp
  | cons e t ih =>
    rw [List.pairwise_cons] at h
    have := ih h.2
    grind

theorem Sep.tri {m : List (Range K × V)} (h : Sep m) :
    ∀ x ∈ m, ∀ y ∈ m, x = y ∨ x.1.stop ≤ y.1.start ∨ y.1.stop ≤ x.1.start := by
  intro x hx y hy
  have := pw_tri h.pw x hx y hy
  grind [Before]

theorem Sep.mem_remove {m : List (Range K × V)} (h : Sep m) {x : Range K × V} (hx : x ∈ m)
    (y : Range K × V) : y ∈ BTreeMap.remove Range.start x.1.start m ↔ y ∈ m ∧ y ≠ x := by
  rw [BTreeMap.mem_remove before_key h.pw]
  have := h.ne x hx
  have := h.ne y
  have := h.tri x hx y
  grind

theorem Sep.remove {m : List (Range K × V)} (h : Sep m) (k : K) :
    Sep (BTreeMap.remove Range.start k m) where
  pw := h.pw.sublist BTreeMap.sublist_remove
  ne e he := h.ne e (BTreeMap.sublist_remove.subset he)

theorem Sep.length_remove {m : List (Range K × V)} (h : Sep m) {x : Range K × V} (hx : x ∈ m) :
    (BTreeMap.remove Range.start x.1.start m).length + 1 = m.length :=
  BTreeMap.length_remove ⟨x, hx, by grind, by grind⟩

/-- A new non-empty range fits if it does not overlap any stored range. -/
def Fits (m : List (Range K × V)) (r : Range K) : Prop :=
  r.start < r.stop ∧ ∀ e ∈ m, e.1.stop ≤ r.start ∨ r.stop ≤ e.1.start

theorem Sep.fresh {m : List (Range K × V)} (h : Sep m) {r : Range K} (hr : Fits m r) :
    ∀ e ∈ m, ¬ (e.1.start ≤ r.start ∧ r.start ≤ e.1.start) := by
  intro e he
  have := hr.2 e he
  have := h.ne e he
  have := hr.1
  grind

theorem Sep.mem_insert {m : List (Range K × V)} (h : Sep m) {r : Range K} (hr : Fits m r) (v : V)
    (y : Range K × V) : y ∈ BTreeMap.insert Range.start r v m ↔ y = (r, v) ∨ y ∈ m :=
  BTreeMap.mem_insert_of_fresh (h.fresh hr) y

theorem Sep.length_insert {m : List (Range K × V)} (h : Sep m) {r : Range K} (hr : Fits m r)
    (v : V) : (BTreeMap.insert Range.start r v m).length = m.length + 1 :=
  BTreeMap.length_insert_of_fresh (h.fresh hr)

theorem Sep.insert {m : List (Range K × V)} (h : Sep m) {r : Range K} (hr : Fits m r) (v : V) :
    Sep (BTreeMap.insert Range.start r v m) where
  pw := by
    refine BTreeMap.pairwise_insert before_key h.pw ?_
    intro e he
    have := hr.2 e he
    have := h.ne e he
    have := hr.1
    grind [Before]
  ne e he := by
    rw [h.mem_insert hr] at he
    have := h.ne e
    have := hr.1
    grind

/-- Result of cutting `cut` out of the stored entry `x`: the (at most two) remnants. -/
theorem Sep.cut {m : List (Range K × V)} (h : Sep m) {x : Range K × V} (hx : x ∈ m)
    {n : Range K} (hn : n.start < n.stop) (hov1 : x.1.start < n.stop) (hov2 : n.start < x.1.stop)
    {m1 m2 m3 : List (Range K × V)}
    (h1 : m1 = BTreeMap.remove Range.start x.1.start m)
    (h2 : m2 = if x.1.start < n.start then
      BTreeMap.insert Range.start ⟨x.1.start, n.start⟩ x.2 m1 else m1)
    (h3 : m3 = if n.stop < x.1.stop then
      BTreeMap.insert Range.start ⟨n.stop, x.1.stop⟩ x.2 m2 else m2) :
    Sep m3 ∧ (∀ y, y ∈ m3 ↔ (y ∈ m ∧ y ≠ x) ∨
        (x.1.start < n.start ∧ y = (⟨x.1.start, n.start⟩, x.2)) ∨
        (n.stop < x.1.stop ∧ y = (⟨n.stop, x.1.stop⟩, x.2))) ∧
      m3.length + 1 = m.length + (if x.1.start < n.start then 1 else 0) +
        (if n.stop < x.1.stop then 1 else 0) := by
  have htri := h.tri x hx
  have hne := h.ne x hx
  have s1 : Sep m1 := h1 ▸ h.remove _
  have e1 : ∀ y, y ∈ m1 ↔ y ∈ m ∧ y ≠ x := by intro y; rw [h1, h.mem_remove hx]
  have l1 : m1.length + 1 = m.length := by rw [h1, h.length_remove hx]
  have s2 : Sep m2 ∧ (∀ y, y ∈ m2 ↔ (y ∈ m ∧ y ≠ x) ∨
      (x.1.start < n.start ∧ y = (⟨x.1.start, n.start⟩, x.2))) ∧
      m2.length + 1 = m.length + (if x.1.start < n.start then 1 else 0) := by
    by_cases hl : x.1.start < n.start
    · have hf : Fits m1 ⟨x.1.start, n.start⟩ := by
        refine ⟨hl, ?_⟩
        intro e he
        rw [e1] at he
        have := htri e he.1
        grind
      rw [if_pos hl] at h2
      subst h2
      refine ⟨s1.insert hf _, ?_, ?_⟩
      · intro y; rw [s1.mem_insert hf, e1]; grind
      · rw [s1.length_insert hf, if_pos hl]; omega
    · rw [if_neg hl] at h2
      subst h2
      refine ⟨s1, ?_, ?_⟩
      · intro y; rw [e1]; grind
      · rw [if_neg hl]; omega
  obtain ⟨s2, e2, l2⟩ := s2
  by_cases hl : n.stop < x.1.stop
  · have hf : Fits m2 ⟨n.stop, x.1.stop⟩ := by
      refine ⟨hl, ?_⟩
      intro e he
      rw [e2] at he
      rcases he with he | he
      · have := htri e he.1
        have := h.ne e he.1
        grind
      · grind
    rw [if_pos hl] at h3
    subst h3
    refine ⟨s2.insert hf _, ?_, ?_⟩
    · intro y; rw [s2.mem_insert hf, e2]; grind
    · rw [s2.length_insert hf, if_pos hl]; omega
  · rw [if_neg hl] at h3
    subst h3
    refine ⟨s2, ?_, ?_⟩
    · intro y; rw [e2]; grind
    · rw [if_neg hl]; omega

/-! ### remove -/

/-- Invariant of `remove`: everything outside the range is as before. -/
structure RInv [BEq V] (m0 : List (Range K × V)) (n : Range K) (m : List (Range K × V)) : Prop where
  sep : Sep m
  coal : Coal m
  out : ∀ k, ¬ (n.start ≤ k ∧ k < n.stop) → ∀ w, Maps m k w ↔ Maps m0 k w

theorem adjustRemove_spec [BEq V] {m0 m : List (Range K × V)} {n : Range K}
    (hn : n.start < n.stop) (h : RInv m0 n m) {x : Range K × V} (hx : x ∈ m)
    (hov1 : x.1.start < n.stop) (hov2 : n.start < x.1.stop) :
    RInv m0 n (adjustOverlappingRangesForRemove m x.1 x.2 n) ∧
      (∀ y, y ∈ adjustOverlappingRangesForRemove m x.1 x.2 n ↔ (y ∈ m ∧ y ≠ x) ∨
        (x.1.start < n.start ∧ y = (⟨x.1.start, n.start⟩, x.2)) ∨
        (n.stop < x.1.stop ∧ y = (⟨n.stop, x.1.stop⟩, x.2))) ∧
      (adjustOverlappingRangesForRemove m x.1 x.2 n).length + 1 = m.length +
        (if x.1.start < n.start then 1 else 0) + (if n.stop < x.1.stop then 1 else 0) := by
  have hc := h.sep.cut hx hn hov1 hov2 rfl rfl
    (m3 := adjustOverlappingRangesForRemove m x.1 x.2 n) rfl
  generalize adjustOverlappingRangesForRemove m x.1 x.2 n = m3 at hc ⊢
  obtain ⟨s3, e3, l3⟩ := hc
  refine ⟨⟨s3, ?_, ?_⟩, e3, l3⟩
  · have htri := h.sep.tri x hx
    have hne := h.sep.ne x hx
    intro a ha b hb h1 h2
    have hc1 := h.coal a
    have hc2 := h.coal x hx b
    have hc3 := h.coal x hx x hx
    have hta := htri a
    have htb := htri b
    have hna := h.sep.ne a
    have hnb := h.sep.ne b
    rw [e3] at ha hb
    grind
  · intro k hk w
    rw [← h.out k hk w]
    have htri := h.sep.tri x hx
    have hne := h.sep.ne x hx
    unfold Maps
    constructor
    · rintro ⟨e, he, h1, h2, h3⟩
      rw [e3] at he
      grind
    · rintro ⟨e, he, h1, h2, h3⟩
      by_cases hex : e = x
      · subst hex
        by_cases hks : k < n.start
        · exact ⟨(⟨e.1.start, n.start⟩, e.2), by rw [e3]; grind, by grind⟩
        · exact ⟨(⟨n.stop, e.1.stop⟩, e.2), by rw [e3]; grind, by grind⟩
      · exact ⟨e, by rw [e3]; grind, h1, h2, h3⟩

/-- `remove` works by cutting, one after the other, stored entries that overlap the range. -/
inductive RSteps (n : Range K) : List (Range K × V) → List (Range K × V) → Prop
  | refl {m} : RSteps n m m
  | step {m m'} {x : Range K × V} : x ∈ m → x.1.start < n.stop → n.start < x.1.stop →
      RSteps n (adjustOverlappingRangesForRemove m x.1 x.2 n) m' → RSteps n m m'

theorem RSteps.trans {n : Range K} {m m1 m2 : List (Range K × V)}
    (h : RSteps n m m1) (h' : RSteps n m1 m2) : RSteps n m m2 := by
  induction h with
  | refl => exact h'
  | step h1 h2 h3 _ ih => exact .step h1 h2 h3 (ih h')

theorem RInv.refl [BEq V] {m : List (Range K × V)} {n : Range K} (h : Sep m) (hc : Coal m) :
    RInv m n m := ⟨h, hc, fun _ _ _ => Iff.rfl⟩

theorem removePrefix_spec [BEq V] {m : List (Range K × V)} {n : Range K}
    (hn : n.start < n.stop) (hs : Sep m) (hc : Coal m) :
    ∃ m', removePrefix m n = .ok m' ∧ RInv m n m' ∧
      (∀ y ∈ m', y.1.start ≤ n.start → y.1.stop ≤ n.start) ∧
      m'.length ≤ m.length + 1 ∧
      (m'.length = m.length + 1 →
        ∀ y ∈ m', ¬ (n.start < y.1.start ∧ y.1.start < n.stop)) ∧ RSteps n m m' := by
  unfold removePrefix
  rw [BTreeMap.range_ok rfl]
  simp only [Bound.admitsAsLower, Bound.admitsAsUpper, Bool.true_and, bind, Except.bind, pure,
    Except.pure]
  cases hl : (m.filter fun e => decide (e.1.start ≤ n.start)).getLast? with
  | none =>
    rw [BTreeMap.getLast?_filter_eq_none] at hl
    refine ⟨m, by simp, .refl hs hc, ?_, by omega, by omega, .refl⟩
    intro y hy
    have := hl y hy
    grind
  | some x =>
    obtain ⟨hx, hp, hlast⟩ := BTreeMap.getLast?_filter_eq_some hs.pw hl
    by_cases hov : x.1.overlaps n
    · simp only [Option.filter, hov, if_true]
      simp only [Range.overlaps, decide_eq_true_eq, lt_rmin, rmax_lt] at hov
      have ha := adjustRemove_spec hn (.refl hs hc) hx (by grind) (by grind)
      have hst : RSteps n m (adjustOverlappingRangesForRemove m x.1 x.2 n) :=
        .step hx (by grind) (by grind) .refl
      generalize adjustOverlappingRangesForRemove m x.1 x.2 n = m3 at ha hst
      obtain ⟨hr, he, h1⟩ := ha
      refine ⟨m3, rfl, hr, ?_, by grind, ?_, hst⟩
      · intro y hy hy'
        have := hlast y
        have := hs.ne x hx
        rw [he] at hy
        grind [Before]
      · intro hlen y hy
        have := hs.tri x hx y
        have := hs.ne y
        rw [he] at hy
        grind
    · simp only [Option.filter, hov]
      refine ⟨m, rfl, .refl hs hc, ?_, by omega, by omega, .refl⟩
      intro y hy hy'
      have := hlast y hy (by simpa using hy')
      have := hs.ne x hx
      simp only [Range.overlaps, decide_eq_true_eq, lt_rmin, rmax_lt] at hov
      grind [Before]

/-- `remove`'s loop: it terminates, leaves nothing in the range, and preserves the invariant. -/
theorem removeLoop_spec [BEq V] {m0 : List (Range K × V)} {n : Range K}
    (hn : n.start < n.stop) (L : Nat) :
    ∀ m : List (Range K × V), RInv m0 n m →
      (∀ y ∈ m, y.1.start ≤ n.start → y.1.stop ≤ n.start) →
      (m.length ≤ L ∨ ∀ y ∈ m, ¬ (n.start < y.1.start ∧ y.1.start < n.stop)) →
      ∃ m', (∀ fuel, L + 1 ≤ fuel → removeLoop n fuel m = .ok m') ∧ RInv m0 n m' ∧
        (∀ y ∈ m', y.1.stop ≤ n.start ∨ n.stop ≤ y.1.start) ∧ m'.length ≤ m.length ∧
        RSteps n m m' := by
  induction L with
  | zero =>
    intro m hinv hleft hlen
    refine ⟨m, ?_, hinv, ?_, by omega, .refl⟩
    · intro fuel hf
      obtain ⟨f, rfl⟩ : ∃ f, fuel = f + 1 := ⟨fuel - 1, by omega⟩
      have : (m.filter fun e => decide (n.start < e.1.start) && decide (e.1.start < n.stop)).head?
          = none := by
        rw [BTreeMap.head?_filter_eq_none]
        rcases hlen with hlen | hlen
        · have : m = [] := List.eq_nil_of_length_eq_zero (by omega)
          simp [this]
        · intro y hy
          have := hlen y hy
          grind
      unfold removeLoop
      rw [BTreeMap.range_ok (by simp only [Bound.invalid]; grind)]
      simp [Bound.admitsAsLower, Bound.admitsAsUpper, bind, Except.bind, pure, Except.pure, this]
    · intro y hy
      have := hleft y hy
      have := hinv.sep.ne y hy
      rcases hlen with hlen | hlen
      · have : m = [] := List.eq_nil_of_length_eq_zero (by omega)
        simp [this] at hy
      · have := hlen y hy
        grind
  | succ L ih =>
    intro m hinv hleft hlen
    have hunf : ∀ f, removeLoop n (f + 1) m =
        match (m.filter fun e => decide (n.start < e.1.start) &&
          decide (e.1.start < n.stop)).head? with
        | none => .ok m
        | some (stored, storedValue) =>
          removeLoop n f (adjustOverlappingRangesForRemove m stored storedValue n) := by
      intro f
      conv => lhs; unfold removeLoop
      rw [BTreeMap.range_ok (by simp only [Bound.invalid]; grind)]
      rfl
    cases hh : (m.filter fun e => decide (n.start < e.1.start) &&
          decide (e.1.start < n.stop)).head? with
    | none =>
      refine ⟨m, ?_, hinv, ?_, by omega, .refl⟩
      · intro fuel hf
        obtain ⟨f, rfl⟩ : ∃ f, fuel = f + 1 := ⟨fuel - 1, by omega⟩
        rw [hunf, hh]
      · rw [BTreeMap.head?_filter_eq_none] at hh
        intro y hy
        have := hh y hy
        have := hleft y hy
        grind
    | some x =>
      obtain ⟨hx, hp, hfirst⟩ := BTreeMap.head?_filter_eq_some hinv.sep.pw hh
      have hne := hinv.sep.ne x hx
      have ha := adjustRemove_spec hn hinv hx (by grind) (by grind)
      have hst : ∀ m', RSteps n (adjustOverlappingRangesForRemove m x.1 x.2 n) m' →
          RSteps n m m' := fun _ h => .step hx (by grind) (by grind) h
      generalize hm3 : adjustOverlappingRangesForRemove m x.1 x.2 n = m3 at ha hst
      obtain ⟨hr, he, h1⟩ := ha
      rw [if_neg (by grind)] at h1
      obtain ⟨m', hm', hr', hd', hl', hst'⟩ := ih m3 hr (by
          intro y hy
          have := hleft y
          rw [he] at hy
          grind) (by
          rcases hlen with hlen | hlen
          · by_cases hxr : n.stop < x.1.stop
            · right
              intro y hy
              have := hfirst y
              have := hinv.sep.ne y
              rw [he] at hy
              grind [Before]
            · left
              rw [if_neg hxr] at h1
              omega
          · have := hlen x hx
            grind)
      refine ⟨m', ?_, hr', hd', by grind, hst _ hst'⟩
      intro fuel hf
      obtain ⟨f, rfl⟩ : ∃ f, fuel = f + 1 := ⟨fuel - 1, by omega⟩
      rw [hunf, hh]
      simp only [hm3]
      exact hm' f (by omega)

end Verif.RangeMap

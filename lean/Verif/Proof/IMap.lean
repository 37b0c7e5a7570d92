import Verif.Model.IMap
import Verif.Spec
import Verif.Proof.Map

/-!
# Invariant proofs for `RangeInclusiveMap::remove`
-/
set_option linter.unusedSectionVars false
set_option linter.unusedVariables false

namespace Verif.RangeInclusiveMap
open Spec (Next LawfulSteps)
variable {K : Type} [LE K] [LT K] [DecidableLE K] [DecidableLT K]
  [Std.IsLinearPreorder K] [Std.LawfulOrderLT K] {V : Type}

theorem Next.le_of_lt {a b d : K} (h : Next a b) (hd : a < d) : b ≤ d := h.2 d hd
theorem Next.le_of_gt {a b d : K} (h : Next a b) (hd : d < b) : d ≤ a := by
  have := h.2 d
  grind
theorem Next.iff {a b : K} (h : Next a b) (d : K) : (a < d ↔ b ≤ d) ∧ (d < b ↔ d ≤ a) := by
  have := h.1
  have := h.2 d
  grind

/-- `a` lies before `b`. -/
def Before (a b : RangeInclusive K × V) : Prop := a.1.start < b.1.start ∧ a.1.stop < b.1.start

/-- sorted, disjoint, non-empty. -/
structure Sep (m : List (RangeInclusive K × V)) : Prop where
  pw : m.Pairwise Before
  ne : ∀ e ∈ m, e.1.start ≤ e.1.stop

/-- Adjacent entries have different values. -/
def Coal [BEq V] (m : List (RangeInclusive K × V)) : Prop :=
  ∀ a ∈ m, ∀ b ∈ m, Next a.1.stop b.1.start → (a.2 == b.2) = false

/-- No stored range has the `exhausted` flag set. -/
def Fresh (m : List (RangeInclusive K × V)) : Prop := ∀ e ∈ m, e.1.exhausted = false

/-- key `k` is mapped to `w` by the entry list `m`. -/
def Maps (m : List (RangeInclusive K × V)) (k : K) (w : V) : Prop :=
  ∃ e ∈ m, e.1.start ≤ k ∧ k ≤ e.1.stop ∧ e.2 = w

theorem before_key (a b : RangeInclusive K × V) (h : Before a b) : a.1.start < b.1.start := h.1

theorem Sep.tri {m : List (RangeInclusive K × V)} (h : Sep m) :
    ∀ x ∈ m, ∀ y ∈ m, x = y ∨ x.1.stop < y.1.start ∨ y.1.stop < x.1.start := by
  intro x hx y hy
  have := RangeMap.pw_tri h.pw x hx y hy
  grind [Before]

theorem Sep.mem_remove {m : List (RangeInclusive K × V)} (h : Sep m) {x : RangeInclusive K × V}
    (hx : x ∈ m) (y : RangeInclusive K × V) :
    y ∈ BTreeMap.remove RangeInclusive.start x.1.start m ↔ y ∈ m ∧ y ≠ x := by
  rw [BTreeMap.mem_remove before_key h.pw]
  have := h.ne x hx
  have := h.ne y
  have := h.tri x hx y
  grind

theorem Sep.remove {m : List (RangeInclusive K × V)} (h : Sep m) (k : K) :
    Sep (BTreeMap.remove RangeInclusive.start k m) where
  pw := h.pw.sublist BTreeMap.sublist_remove
  ne e he := h.ne e (BTreeMap.sublist_remove.subset he)

theorem Sep.length_remove {m : List (RangeInclusive K × V)} (h : Sep m)
    {x : RangeInclusive K × V} (hx : x ∈ m) :
    (BTreeMap.remove RangeInclusive.start x.1.start m).length + 1 = m.length :=
  BTreeMap.length_remove ⟨x, hx, by grind, by grind⟩

/-- A new non-empty range fits if it does not overlap any stored range. -/
def Fits (m : List (RangeInclusive K × V)) (r : RangeInclusive K) : Prop :=
  r.start ≤ r.stop ∧ ∀ e ∈ m, e.1.stop < r.start ∨ r.stop < e.1.start

theorem Sep.fresh {m : List (RangeInclusive K × V)} (h : Sep m) {r : RangeInclusive K}
    (hr : Fits m r) : ∀ e ∈ m, ¬ (e.1.start ≤ r.start ∧ r.start ≤ e.1.start) := by
  intro e he
  have := hr.2 e he
  have := h.ne e he
  have := hr.1
  grind

theorem Sep.mem_insert {m : List (RangeInclusive K × V)} (h : Sep m) {r : RangeInclusive K}
    (hr : Fits m r) (v : V) (y : RangeInclusive K × V) :
    y ∈ BTreeMap.insert RangeInclusive.start r v m ↔ y = (r, v) ∨ y ∈ m :=
  BTreeMap.mem_insert_of_fresh (h.fresh hr) y

theorem Sep.length_insert {m : List (RangeInclusive K × V)} (h : Sep m) {r : RangeInclusive K}
    (hr : Fits m r) (v : V) :
    (BTreeMap.insert RangeInclusive.start r v m).length = m.length + 1 :=
  BTreeMap.length_insert_of_fresh (h.fresh hr)

theorem Sep.insert {m : List (RangeInclusive K × V)} (h : Sep m) {r : RangeInclusive K}
    (hr : Fits m r) (v : V) : Sep (BTreeMap.insert RangeInclusive.start r v m) where
  pw := by
    refine BTreeMap.pairwise_insert before_key h.pw ?_
    intro e he
    have := hr.2 e he
    have := h.ne e he
    have := hr.1
    grind [Before]
  ne e he := by
    rw [h.mem_insert hr] at he
    have := h.ne e
    have := hr.1
    grind

/-- Result of cutting `n` out of the stored entry `x`: the (at most two) remnants `x.start..=p` and
`s..=x.stop`, where `p`, `s` are the neighbours of `n`. -/
theorem Sep.cut {S : StepFns K} (hS : LawfulSteps S) {m : List (RangeInclusive K × V)} (h : Sep m)
    {x : RangeInclusive K × V} (hx : x ∈ m)
    {n : RangeInclusive K} (hn : n.start ≤ n.stop) (hov1 : x.1.start ≤ n.stop)
    (hov2 : n.start ≤ x.1.stop) :
    ∃ m2 m3 p s, insertLeft S (BTreeMap.remove RangeInclusive.start x.1.start m) x.1 x.2 n = .ok m2 ∧
      insertRight S m2 x.1 x.2 n = .ok m3 ∧
      Sep m3 ∧ (x.1.start < n.start → Next p n.start ∧ x.1.start ≤ p) ∧
      (n.stop < x.1.stop → Next n.stop s ∧ s ≤ x.1.stop) ∧
      (∀ y, y ∈ m3 ↔ (y ∈ m ∧ y ≠ x) ∨
        (x.1.start < n.start ∧ y = (.mk' x.1.start p, x.2)) ∨
        (n.stop < x.1.stop ∧ y = (.mk' s x.1.stop, x.2))) ∧
      m3.length + 1 = m.length + (if x.1.start < n.start then 1 else 0) +
        (if n.stop < x.1.stop then 1 else 0) ∧
      (x.1.start < n.start → S.subOne n.start = .ok p) ∧
      (n.stop < x.1.stop → S.addOne n.stop = .ok s) := by
  have htri := h.tri x hx
  have hne := h.ne x hx
  generalize h1 : BTreeMap.remove RangeInclusive.start x.1.start m = m1
  have s1 : Sep m1 := h1 ▸ h.remove _
  have e1 : ∀ y, y ∈ m1 ↔ y ∈ m ∧ y ≠ x := by intro y; rw [← h1, h.mem_remove hx]
  have l1 : m1.length + 1 = m.length := by rw [← h1, h.length_remove hx]
  have s2 : ∃ m2 p, insertLeft S m1 x.1 x.2 n = .ok m2 ∧ Sep m2 ∧
      (x.1.start < n.start → Next p n.start ∧ x.1.start ≤ p) ∧
      (∀ y, y ∈ m2 ↔ (y ∈ m ∧ y ≠ x) ∨
        (x.1.start < n.start ∧ y = (.mk' x.1.start p, x.2))) ∧
      m2.length + 1 = m.length + (if x.1.start < n.start then 1 else 0) ∧
      (x.1.start < n.start → S.subOne n.start = .ok p) := by
    by_cases hl : x.1.start < n.start
    · obtain ⟨p, hp, hpn⟩ := hS.subOne n.start _ hl
      have hp' := Next.le_of_gt hpn hl
      have hp1 := hpn.1
      have hf : Fits m1 (.mk' x.1.start p) := by
        refine ⟨hp', ?_⟩
        intro e he
        rw [e1] at he
        have := htri e he.1
        grind [RangeInclusive.mk']
      refine ⟨BTreeMap.insert RangeInclusive.start (.mk' x.1.start p) x.2 m1, p, ?_,
        s1.insert hf _, fun _ => ⟨hpn, hp'⟩, ?_, ?_, fun _ => hp⟩
      · simp [insertLeft, hl, hp, bind, Except.bind, pure, Except.pure]
      · intro y; rw [s1.mem_insert hf, e1]; grind
      · rw [s1.length_insert hf, if_pos hl]; omega
    · refine ⟨m1, x.1.start, ?_, s1, fun h => absurd h hl, ?_, ?_, fun h => absurd h hl⟩
      · simp [insertLeft, hl, pure, Except.pure]
      · intro y; rw [e1]; grind
      · rw [if_neg hl]; omega
  obtain ⟨m2, p, hm2, s2, hp, e2, l2, hps⟩ := s2
  by_cases hl : n.stop < x.1.stop
  · obtain ⟨s, hs, hsn⟩ := hS.addOne n.stop _ hl
    have hs' := Next.le_of_lt hsn hl
    have hs1 := hsn.1
    have hf : Fits m2 (.mk' s x.1.stop) := by
      refine ⟨hs', ?_⟩
      intro e he
      rw [e2] at he
      rcases he with he | he
      · have := htri e he.1
        have := h.ne e he.1
        grind [RangeInclusive.mk']
      · have := (hp he.1).1.1
        grind [RangeInclusive.mk']
    refine ⟨m2, BTreeMap.insert RangeInclusive.start (.mk' s x.1.stop) x.2 m2, p, s, hm2, ?_,
      s2.insert hf _, hp, fun _ => ⟨hsn, hs'⟩, ?_, ?_, hps, fun _ => hs⟩
    · simp [insertRight, hl, hs, bind, Except.bind, pure, Except.pure]
    · intro y; rw [s2.mem_insert hf, e2]; grind
    · rw [s2.length_insert hf, if_pos hl]; omega
  · refine ⟨m2, m2, p, x.1.start, hm2, ?_, s2, hp, fun h => absurd h hl, ?_, ?_, hps,
      fun h => absurd h hl⟩
    · simp [insertRight, hl, pure, Except.pure]
    · intro y; rw [e2]; grind
    · rw [if_neg hl]; omega

/-- The remnants of a cut entry are coalesced and map the same keys outside the cut. -/
theorem cut_coal [BEq V] {m m3 : List (RangeInclusive K × V)} (h : Sep m) (hc : Coal m)
    {x : RangeInclusive K × V} (hx : x ∈ m) {n : RangeInclusive K} {p s : K}
    (hn : n.start ≤ n.stop) (hov1 : x.1.start ≤ n.stop) (hov2 : n.start ≤ x.1.stop)
    (hp : x.1.start < n.start → Next p n.start ∧ x.1.start ≤ p)
    (hs : n.stop < x.1.stop → Next n.stop s ∧ s ≤ x.1.stop)
    (e3 : ∀ y, y ∈ m3 ↔ (y ∈ m ∧ y ≠ x) ∨
        (x.1.start < n.start ∧ y = (.mk' x.1.start p, x.2)) ∨
        (n.stop < x.1.stop ∧ y = (.mk' s x.1.stop, x.2))) : Coal m3 := by
  have htri := h.tri x hx
  have hne := h.ne x hx
  intro a ha b hb h1
  have h0 := h1.1
  have h00 := h1.2
  have hc1 := hc a
  have hc2 := hc x hx b
  have hta := htri a
  have htb := htri b
  have hna := h.ne a
  have hnb := h.ne b
  rw [e3] at ha hb
  rcases ha with ha | ⟨ha, rfl⟩ | ⟨ha, rfl⟩
  · rcases hb with hb | ⟨hb, rfl⟩ | ⟨hb, rfl⟩
    · exact hc1 ha.1 b hb.1 h1
    · exact hc1 ha.1 x hx h1
    · exfalso
      have hz := (hs hb).1.1
      have := h00 n.stop
      have := (hs hb).1.2 a.1.stop
      simp only [RangeInclusive.mk'_start, RangeInclusive.mk'_stop] at *
      grind
  · have := (hp ha).1.1
    simp only [RangeInclusive.mk'_start, RangeInclusive.mk'_stop] at *
    rcases hb with hb | ⟨hb, rfl⟩ | ⟨hb, rfl⟩
    · exfalso
      have := h00 n.start this
      have := h0
      have := htb hb.1
      grind
    · simp only [RangeInclusive.mk'_start, RangeInclusive.mk'_stop] at *; exfalso; grind
    · have := (hs hb).1.1
      have := h00 n.start
      simp only [RangeInclusive.mk'_start, RangeInclusive.mk'_stop] at *; exfalso; grind
  · have := (hs ha).1.1
    rcases hb with hb | ⟨hb, rfl⟩ | ⟨hb, rfl⟩
    · exact hc2 hb.1 h1
    · simp only [RangeInclusive.mk'_start, RangeInclusive.mk'_stop] at *; exfalso; grind
    · simp only [RangeInclusive.mk'_start, RangeInclusive.mk'_stop] at *; exfalso; grind

theorem cut_maps {m m3 : List (RangeInclusive K × V)} {x : RangeInclusive K × V} (hx : x ∈ m)
    {n : RangeInclusive K} {p s : K}
    (hp : x.1.start < n.start → Next p n.start ∧ x.1.start ≤ p)
    (hs : n.stop < x.1.stop → Next n.stop s ∧ s ≤ x.1.stop)
    (hov1 : x.1.start ≤ n.stop) (hov2 : n.start ≤ x.1.stop)
    (e3 : ∀ y, y ∈ m3 ↔ (y ∈ m ∧ y ≠ x) ∨
        (x.1.start < n.start ∧ y = (.mk' x.1.start p, x.2)) ∨
        (n.stop < x.1.stop ∧ y = (.mk' s x.1.stop, x.2)))
    {k : K} (hk : ¬ (n.start ≤ k ∧ k ≤ n.stop)) (w : V) : Maps m3 k w ↔ Maps m k w := by
  unfold Maps
  constructor
  · rintro ⟨e, he, h1, h2, h3⟩
    rw [e3] at he
    rcases he with he | ⟨he, rfl⟩ | ⟨he, rfl⟩
    · exact ⟨e, he.1, h1, h2, h3⟩
    · have := (hp he).1.1
      exact ⟨x, hx, h1, by simp only [RangeInclusive.mk'_stop] at h2; grind, h3⟩
    · have := (hs he).1.1
      exact ⟨x, hx, by simp only [RangeInclusive.mk'_start] at h1; grind, h2, h3⟩
  · rintro ⟨e, he, h1, h2, h3⟩
    by_cases hex : e = x
    · subst hex
      by_cases hks : k < n.start
      · have hlt : e.1.start < n.start := by grind
        exact ⟨(.mk' e.1.start p, e.2), by rw [e3]; grind, h1, Next.le_of_gt (hp hlt).1 hks, h3⟩
      · have hlt : n.stop < e.1.stop := by grind
        exact ⟨(.mk' s e.1.stop, e.2), by rw [e3]; grind,
          Next.le_of_lt (hs hlt).1 (by grind), h2, h3⟩
    · exact ⟨e, by rw [e3]; grind, h1, h2, h3⟩

theorem cut_fresh {m m3 : List (RangeInclusive K × V)} {x : RangeInclusive K × V}
    {n : RangeInclusive K} {p s : K}
    (e3 : ∀ y, y ∈ m3 ↔ (y ∈ m ∧ y ≠ x) ∨
        (x.1.start < n.start ∧ y = (.mk' x.1.start p, x.2)) ∨
        (n.stop < x.1.stop ∧ y = (.mk' s x.1.stop, x.2))) (h : Fresh m) : Fresh m3 := by
  intro e he
  rw [e3] at he
  rcases he with he | ⟨_, rfl⟩ | ⟨_, rfl⟩
  · exact h e he.1
  · rfl
  · rfl

/-! ### remove -/

/-- Invariant of `remove`: everything outside the range is as before. -/
structure RInv [BEq V] (m0 : List (RangeInclusive K × V)) (n : RangeInclusive K)
    (m : List (RangeInclusive K × V)) : Prop where
  sep : Sep m
  coal : Coal m
  fresh : Fresh m0 → Fresh m
  out : ∀ k, ¬ (n.start ≤ k ∧ k ≤ n.stop) → ∀ w, Maps m k w ↔ Maps m0 k w

theorem adjustRemove_spec [BEq V] {S : StepFns K} (hS : LawfulSteps S)
    {m0 m : List (RangeInclusive K × V)} {n : RangeInclusive K}
    (hn : n.start ≤ n.stop) (h : RInv m0 n m) {x : RangeInclusive K × V} (hx : x ∈ m)
    (hov1 : x.1.start ≤ n.stop) (hov2 : n.start ≤ x.1.stop) :
    ∃ m3 p s, adjustOverlappingRangesForRemove S m x.1 x.2 n = .ok m3 ∧ RInv m0 n m3 ∧
      (x.1.start < n.start → Next p n.start ∧ x.1.start ≤ p) ∧
      (n.stop < x.1.stop → Next n.stop s ∧ s ≤ x.1.stop) ∧
      (∀ y, y ∈ m3 ↔ (y ∈ m ∧ y ≠ x) ∨
        (x.1.start < n.start ∧ y = (.mk' x.1.start p, x.2)) ∨
        (n.stop < x.1.stop ∧ y = (.mk' s x.1.stop, x.2))) ∧
      m3.length + 1 = m.length +
        (if x.1.start < n.start then 1 else 0) + (if n.stop < x.1.stop then 1 else 0) ∧
      (x.1.start < n.start → S.subOne n.start = .ok p) ∧
      (n.stop < x.1.stop → S.addOne n.stop = .ok s) := by
  obtain ⟨m2, m3, p, s, h2, h3, s3, hp, hs, e3, l3, hpq⟩ := h.sep.cut hS hx hn hov1 hov2
  refine ⟨m3, p, s, ?_, ⟨s3, cut_coal h.sep h.coal hx hn hov1 hov2 hp hs e3,
    fun hf => cut_fresh e3 (h.fresh hf), ?_⟩, hp, hs, e3, l3, hpq⟩
  · simp [adjustOverlappingRangesForRemove, h2, h3, bind, Except.bind]
  · intro k hk w
    rw [← h.out k hk w]
    exact cut_maps hx hp hs hov1 hov2 e3 hk w

/-- `remove` works by cutting, one after the other, stored entries that overlap the range. -/
inductive RSteps (S : StepFns K) (n : RangeInclusive K) :
    List (RangeInclusive K × V) → List (RangeInclusive K × V) → Prop
  | refl {m} : RSteps S n m m
  | step {m m1 m'} {x : RangeInclusive K × V} : x ∈ m → x.1.start ≤ n.stop → n.start ≤ x.1.stop →
      adjustOverlappingRangesForRemove S m x.1 x.2 n = .ok m1 → RSteps S n m1 m' → RSteps S n m m'

theorem RSteps.trans {S : StepFns K} {n : RangeInclusive K} {m m1 m2 : List (RangeInclusive K × V)}
    (h : RSteps S n m m1) (h' : RSteps S n m1 m2) : RSteps S n m m2 := by
  induction h with
  | refl => exact h'
  | step h1 h2 h3 h4 _ ih => exact .step h1 h2 h3 h4 (ih h')

theorem RInv.refl [BEq V] {m : List (RangeInclusive K × V)} {n : RangeInclusive K} (h : Sep m)
    (hc : Coal m) : RInv m n m := ⟨h, hc, id, fun _ _ _ => Iff.rfl⟩

theorem removePrefix_spec [BEq V] {S : StepFns K} (hS : LawfulSteps S)
    {m : List (RangeInclusive K × V)} {n : RangeInclusive K}
    (hn : n.start ≤ n.stop) (hs : Sep m) (hc : Coal m) :
    ∃ m', removePrefix S m n = .ok m' ∧ RInv m n m' ∧
      (∀ y ∈ m', y.1.start ≤ n.start → y.1.stop < n.start) ∧
      m'.length ≤ m.length + 1 ∧ RSteps S n m m' := by
  unfold removePrefix
  rw [BTreeMap.range_ok rfl]
  simp only [Bound.admitsAsLower, Bound.admitsAsUpper, Bool.true_and, bind, Except.bind, pure,
    Except.pure]
  cases hl : (m.filter fun e => decide (e.1.start ≤ n.start)).getLast? with
  | none =>
    rw [BTreeMap.getLast?_filter_eq_none] at hl
    refine ⟨m, by simp, .refl hs hc, ?_, by omega, .refl⟩
    intro y hy
    have := hl y hy
    grind
  | some x =>
    obtain ⟨hx, hp, hlast⟩ := BTreeMap.getLast?_filter_eq_some hs.pw hl
    by_cases hov : x.1.overlaps n
    · simp only [Option.filter, hov, if_true]
      simp only [RangeInclusive.overlaps, decide_eq_true_eq, le_rmin, rmax_le] at hov
      obtain ⟨m3, p, s, ha, hr, hp, hs', he, h1, -⟩ :=
        adjustRemove_spec hS hn (.refl hs hc) hx (by grind) (by grind)
      refine ⟨m3, ha, hr, ?_, by grind, .step hx (by grind) (by grind) ha .refl⟩
      · intro y hy hy'
        have := hlast y
        have := hs.ne x hx
        rw [he] at hy
        rcases hy with hy | ⟨hy, rfl⟩ | ⟨hy, rfl⟩
        · grind [Before]
        · exact (hp hy).1.1
        · exfalso
          have := (hs' hy).1.1
          simp only [RangeInclusive.mk'_start] at hy'
          grind
    · simp only [Option.filter, hov]
      refine ⟨m, rfl, .refl hs hc, ?_, by omega, .refl⟩
      intro y hy hy'
      have := hlast y hy (by simpa using hy')
      have := hs.ne x hx
      simp only [RangeInclusive.overlaps, decide_eq_true_eq, le_rmin, rmax_le] at hov
      grind [Before]

theorem removeLoop_unfold {S : StepFns K} {n : RangeInclusive K} (hn : n.start ≤ n.stop)
    (m : List (RangeInclusive K × V)) (f : Nat) : removeLoop S n (f + 1) m =
      match (m.filter fun e => decide (n.start < e.1.start) &&
        decide (e.1.start ≤ n.stop)).head? with
      | none => .ok m
      | some (stored, storedValue) =>
        (adjustOverlappingRangesForRemove S m stored storedValue n).bind (removeLoop S n f) := by
  conv => lhs; unfold removeLoop
  rw [BTreeMap.range_ok (by simp only [Bound.invalid]; grind)]
  rfl

/-- `remove`'s loop: it terminates, leaves nothing in the range, and preserves the invariant. -/
theorem removeLoop_spec [BEq V] {S : StepFns K} (hS : LawfulSteps S)
    {m0 : List (RangeInclusive K × V)} {n : RangeInclusive K}
    (hn : n.start ≤ n.stop) (L : Nat) :
    ∀ m : List (RangeInclusive K × V), RInv m0 n m →
      (∀ y ∈ m, y.1.start ≤ n.start → y.1.stop < n.start) →
      (m.length ≤ L ∨ ∀ y ∈ m, ¬ (n.start < y.1.start ∧ y.1.start ≤ n.stop)) →
      ∃ m', (∀ fuel, L + 1 ≤ fuel → removeLoop S n fuel m = .ok m') ∧ RInv m0 n m' ∧
        (∀ y ∈ m', y.1.stop < n.start ∨ n.stop < y.1.start) ∧ m'.length ≤ m.length ∧
        RSteps S n m m' := by
  induction L with
  | zero =>
    intro m hinv hleft hlen
    refine ⟨m, ?_, hinv, ?_, by omega, .refl⟩
    · intro fuel hf
      obtain ⟨f, rfl⟩ : ∃ f, fuel = f + 1 := ⟨fuel - 1, by omega⟩
      have : (m.filter fun e => decide (n.start < e.1.start) && decide (e.1.start ≤ n.stop)).head?
          = none := by
        rw [BTreeMap.head?_filter_eq_none]
        rcases hlen with hlen | hlen
        · have : m = [] := List.eq_nil_of_length_eq_zero (by omega)
          simp [this]
        · intro y hy
          have := hlen y hy
          grind
      rw [removeLoop_unfold hn, this]
    · intro y hy
      have := hleft y hy
      have := hinv.sep.ne y hy
      rcases hlen with hlen | hlen
      · have : m = [] := List.eq_nil_of_length_eq_zero (by omega)
        simp [this] at hy
      · have := hlen y hy
        grind
  | succ L ih =>
    intro m hinv hleft hlen
    cases hh : (m.filter fun e => decide (n.start < e.1.start) &&
          decide (e.1.start ≤ n.stop)).head? with
    | none =>
      refine ⟨m, ?_, hinv, ?_, by omega, .refl⟩
      · intro fuel hf
        obtain ⟨f, rfl⟩ : ∃ f, fuel = f + 1 := ⟨fuel - 1, by omega⟩
        rw [removeLoop_unfold hn, hh]
      · rw [BTreeMap.head?_filter_eq_none] at hh
        intro y hy
        have := hh y hy
        have := hleft y hy
        grind
    | some x =>
      obtain ⟨hx, hp, hfirst⟩ := BTreeMap.head?_filter_eq_some hinv.sep.pw hh
      have hne := hinv.sep.ne x hx
      obtain ⟨m3, p, s, hm3, hr, hp', hs', he, h1, -⟩ :=
        adjustRemove_spec hS hn hinv hx (by grind) (by grind)
      rw [if_neg (by grind)] at h1
      obtain ⟨m', hm', hr', hd', hl', hst⟩ := ih m3 hr (by
          intro y hy
          have := hleft y
          rw [he] at hy
          rcases hy with hy | ⟨hy, rfl⟩ | ⟨hy, rfl⟩
          · exact this hy.1
          · exfalso; grind
          · intro hle
            exfalso
            have := (hs' hy).1.1
            simp only [RangeInclusive.mk'_start] at hle
            grind) (by
          rcases hlen with hlen | hlen
          · by_cases hxr : n.stop < x.1.stop
            · right
              intro y hy
              have := hfirst y
              have := hinv.sep.ne y
              rw [he] at hy
              rcases hy with hy | ⟨hy, rfl⟩ | ⟨hy, rfl⟩
              · grind [Before]
              · exfalso; grind
              · have := (hs' hy).1.1
                simp only [RangeInclusive.mk'_start]
                grind
            · left
              rw [if_neg hxr] at h1
              omega
          · have := hlen x hx
            grind)
      refine ⟨m', ?_, hr', hd', by grind, .step hx (by grind) (by grind) hm3 hst⟩
      intro fuel hf
      obtain ⟨f, rfl⟩ : ∃ f, fuel = f + 1 := ⟨fuel - 1, by omega⟩
      rw [removeLoop_unfold hn, hh]
      simp only [hm3]
      exact hm' f (by omega)

end Verif.RangeInclusiveMap

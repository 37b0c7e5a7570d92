import Verif.Proof.IMapTop

/-!
# The exact effect of `insert` and `remove` on the stored entries (inclusive)
-/
set_option linter.unusedSectionVars false
set_option linter.unusedVariables false

namespace Verif.RangeInclusiveMap
open Spec (Next LawfulSteps)
variable {K : Type} [LE K] [LT K] [DecidableLE K] [DecidableLT K]
  [Std.IsLinearPreorder K] [Std.LawfulOrderLT K] {V : Type}

/-- `x` overlaps `r`. -/
def Ovl (r x : RangeInclusive K) : Prop := x.start ≤ r.stop ∧ r.start ≤ x.stop
/-- `x` overlaps `r` or is adjacent to it. -/
def Tch (r x : RangeInclusive K) : Prop :=
  (x.start ≤ r.stop ∨ Next r.stop x.start) ∧ (r.start ≤ x.stop ∨ Next x.stop r.start)

/-- `y` is what is left of `x` on one side of `r`. -/
def Piece (S : StepFns K) (r : RangeInclusive K) (x y : RangeInclusive K × V) : Prop :=
  (x.1.start < r.start ∧ ∃ p, S.subOne r.start = .ok p ∧ y = (.mk' x.1.start p, x.2)) ∨
  (r.stop < x.1.stop ∧ ∃ s, S.addOne r.stop = .ok s ∧ y = (.mk' s x.1.stop, x.2))

theorem Piece.facts {S : StepFns K} (hS : LawfulSteps S) {r : RangeInclusive K}
    {x y : RangeInclusive K × V} (h : Piece S r x y) : y.2 = x.2 ∧
      ((x.1.start < r.start ∧ y.1.start = x.1.start ∧ Next y.1.stop r.start) ∨
       (r.stop < x.1.stop ∧ y.1.stop = x.1.stop ∧ Next r.stop y.1.start)) := by
  rcases h with ⟨h1, p, h2, rfl⟩ | ⟨h1, s, h2, rfl⟩
  · obtain ⟨c, h3, h4⟩ := hS.subOne _ _ h1
    rw [h2] at h3
    obtain rfl := Except.ok.inj h3
    exact ⟨rfl, Or.inl ⟨h1, rfl, h4⟩⟩
  · obtain ⟨c, h3, h4⟩ := hS.addOne _ _ h1
    rw [h2] at h3
    obtain rfl := Except.ok.inj h3
    exact ⟨rfl, Or.inr ⟨h1, rfl, h4⟩⟩

section
variable [BEq V]

/-- Invariant of `insert`, in terms of the entries. -/
structure EInv (S : StepFns K) (m0 : List (RangeInclusive K × V)) (r : RangeInclusive K) (v : V)
    (m : List (RangeInclusive K × V)) (n : RangeInclusive K) : Prop where
  src : ∀ y ∈ m, y ∈ m0 ∨ ∃ x ∈ m0, (x.2 == v) = false ∧ Ovl r x.1 ∧ Piece S r x y
  kept : ∀ x ∈ m0, x ∈ m ∨
    ((x.2 == v) = true ∧ Tch r x.1 ∧ n.start ≤ x.1.start ∧ x.1.stop ≤ n.stop) ∨
    ((x.2 == v) = false ∧ Ovl r x.1 ∧ ∀ y, Piece S r x y → y ∈ m)
  st : n.start = r.start ∨
    ∃ a ∈ m0, (a.2 == v) = true ∧ Tch r a.1 ∧ a.1.start < r.start ∧ n.start = a.1.start
  sp : n.stop = r.stop ∨
    ∃ a ∈ m0, (a.2 == v) = true ∧ Tch r a.1 ∧ r.stop ≤ a.1.stop ∧ n.stop = a.1.stop

theorem EInv.refl {S : StepFns K} {m : List (RangeInclusive K × V)} {r : RangeInclusive K} {v : V} :
    EInv S m r v m r :=
  ⟨fun y hy => Or.inl hy, fun x hx => Or.inl hx, Or.inl rfl, Or.inl rfl⟩

variable [PartialEquivBEq V]

theorem EInv.step {S : StepFns K} (hS : LawfulSteps S) {m0 m : List (RangeInclusive K × V)}
    {r n : RangeInclusive K} {v : V} (h0 : Sep m0)
    (c0 : Coal m0) (hr : r.start ≤ r.stop) (hi : IInv m0 r v m n) (h : EInv S m0 r v m n)
    {x : RangeInclusive K × V} (hx : x ∈ m)
    (ht1 : x.1.start ≤ n.stop ∨ Next n.stop x.1.start)
    (ht2 : n.start ≤ x.1.stop ∨ Next x.1.stop n.start)
    {m' : List (RangeInclusive K × V)} {n' : RangeInclusive K}
    (heq : adjustTouchingRangesForInsert S m x.1 x.2 n v = .ok (m', n')) :
    IInv m0 r v m' n' ∧ EInv S m0 r v m' n' := by
  have hns := hi.ns
  have hne := hi.ne
  have hxx := hi.sep.ne x hx
  obtain ⟨m'', n'', heq', hi', hadj⟩ := adjustInsert_spec hS hr hi hx ht1 ht2
  rw [heq] at heq'
  obtain ⟨rfl, rfl⟩ : m' = m'' ∧ n' = n'' := by simpa using heq'
  refine ⟨hi', ?_⟩
  rcases hadj with
    ⟨hv, e1, e2, hm, -⟩ | ⟨hv, e1, e2, hn, p, s, hp, hs, hm, -, hps, hss⟩ | ⟨hv, e1, hn, hm⟩
  · -- adopted
    have hx0 : x ∈ m0 := by
      rcases h.src x hx with h1 | ⟨x0, h1, h2, h3, h4⟩
      · exact h1
      · exfalso
        rw [(h4.facts hS).1, h2] at hv
        simp at hv
    have hsame : ∀ a ∈ m0, (a.2 == v) = true → a = x ∨
        (a.1.stop < x.1.start ∧ ¬ Next a.1.stop x.1.start) ∨
        (x.1.stop < a.1.start ∧ ¬ Next x.1.stop a.1.start) := by
      intro a ha hav
      have h1 := c0 a ha x hx0
      have h2 := c0 x hx0 a ha
      have h3 : (a.2 == x.2) = true := PartialEquivBEq.trans hav (PartialEquivBEq.symm hv)
      have h4 := h0.tri a ha x hx0
      have h5 : (x.2 == a.2) = true := PartialEquivBEq.symm h3
      grind
    have htch : Tch r x.1 := by
      refine ⟨?_, ?_⟩
      · rcases h.sp with h1 | ⟨a, h1, h2, h3, h4, h5⟩
        · rwa [h1] at ht1
        · rw [h5] at ht1
          rcases hsame a h1 h2 with rfl | h6 | h6
          · exact h3.1
          · exfalso; grind
          · left
            rcases h3.1 with h7 | h7
            · grind
            · have := Next.le_of_gt h7 (d := x.1.start) (by grind)
              grind
      · rcases h.st with h1 | ⟨a, h1, h2, h3, h4, h5⟩
        · rwa [h1] at ht2
        · rw [h5] at ht2
          rcases hsame a h1 h2 with rfl | h6 | h6
          · exact h3.2
          · left
            rcases h3.2 with h7 | h7
            · grind
            · have := Next.le_of_lt h7 (d := x.1.stop) (by grind)
              grind
          · exfalso; grind
    have hn1 : n'.start ≤ n.start ∧ n'.start ≤ x.1.start := by
      simp only [e1, rmin_le]; grind
    have hn2 : n.stop ≤ n'.stop ∧ x.1.stop ≤ n'.stop := by
      simp only [e2, le_rmax]; grind
    refine ⟨?_, ?_, ?_, ?_⟩
    · intro y hy
      rw [hm] at hy
      exact h.src y hy.1
    · intro z hz
      rcases h.kept z hz with h1 | ⟨h1, h2, h3, h4⟩ | ⟨h1, h2, h3⟩
      · by_cases hzx : z = x
        · subst hzx
          exact Or.inr (Or.inl ⟨hv, htch, hn1.2, hn2.2⟩)
        · exact Or.inl ((hm z).2 ⟨h1, hzx⟩)
      · exact Or.inr (Or.inl ⟨h1, h2, by grind, by grind⟩)
      · refine Or.inr (Or.inr ⟨h1, h2, fun y hy => (hm y).2 ⟨h3 y hy, ?_⟩⟩)
        rintro rfl
        rw [(hy.facts hS).1, h1] at hv
        simp at hv
    · rw [e1]
      unfold rmin
      split
      · exact Or.inr ⟨x, hx0, hv, htch, by grind, rfl⟩
      · exact h.st
    · rw [e2]
      unfold rmax
      split
      · exact h.sp
      · exact Or.inr ⟨x, hx0, hv, htch, by grind, rfl⟩
  · -- cut
    subst hn
    have hcov1 : ∀ z ∈ m0, (z.2 == v) = false → Ovl r z.1 →
        (n'.start = r.start ∨ r.start ≤ z.1.start) := by
      intro z hz hzv hzo
      rcases h.st with h1 | ⟨a, h1, h2, h3, h4, h5⟩
      · exact Or.inl h1
      · right
        have h6 := h0.tri a h1 z hz
        have h7 := h0.ne a h1
        have h8 := h0.ne z hz
        have h9 := h3.2
        rcases h9 with h9 | h9
        · grind [Ovl]
        · have := Next.iff h9 z.1.start
          have := Next.iff h9 z.1.stop
          grind [Ovl]
    have hcov2 : ∀ z ∈ m0, (z.2 == v) = false → Ovl r z.1 →
        (n'.stop = r.stop ∨ z.1.stop ≤ r.stop) := by
      intro z hz hzv hzo
      rcases h.sp with h1 | ⟨a, h1, h2, h3, h4, h5⟩
      · exact Or.inl h1
      · right
        have h6 := h0.tri a h1 z hz
        have h7 := h0.ne a h1
        have h8 := h0.ne z hz
        have h9 := h3.1
        rcases h9 with h9 | h9
        · grind [Ovl]
        · have := Next.iff h9 z.1.start
          have := Next.iff h9 z.1.stop
          grind [Ovl]
    have hx0 : x ∈ m0 := by
      rcases h.src x hx with h1 | ⟨x0, h1, h2, h3, h4⟩
      · exact h1
      · exfalso
        have h5 := hcov1 x0 h1 h2 h3
        have h6 := hcov2 x0 h1 h2 h3
        obtain ⟨-, ⟨h7, h8, h9⟩ | ⟨h7, h8, h9⟩⟩ := h4.facts hS
        · have := h9.1
          rcases h5 with h5 | h5
          · rw [h5] at e2; grind
          · grind
        · have := h9.1
          rcases h6 with h6 | h6
          · rw [h6] at e1; grind
          · grind
    have hov : Ovl r x.1 := by
      refine ⟨?_, ?_⟩
      · rcases h.sp with h1 | ⟨a, h1, h2, h3, h4, h5⟩
        · grind
        · have := h0.tri a h1 x hx0
          have := h0.ne a h1
          rcases h3.1 with h9 | h9
          · grind
          · have := Next.iff h9 x.1.start
            have := Next.iff h9 x.1.stop
            grind
      · rcases h.st with h1 | ⟨a, h1, h2, h3, h4, h5⟩
        · grind
        · have := h0.tri a h1 x hx0
          have := h0.ne a h1
          rcases h3.2 with h9 | h9
          · grind
          · have := Next.iff h9 x.1.start
            have := Next.iff h9 x.1.stop
            grind
    have h5 := hcov1 x hx0 hv hov
    have h6 := hcov2 x hx0 hv hov
    have hpc : ∀ y, ((x.1.start < n'.start ∧ y = (.mk' x.1.start p, x.2)) ∨
          (n'.stop < x.1.stop ∧ y = (.mk' s x.1.stop, x.2))) ↔ Piece S r x y := by
      intro y
      unfold Piece
      refine or_congr ?_ ?_
      · rcases h5 with h5 | h5
        · rw [h5] at hps ⊢
          refine and_congr_right fun hlt => ?_
          simp [hps hlt]
        · exact ⟨fun h => absurd h.1 (by grind), fun h => absurd h.1 (by grind)⟩
      · rcases h6 with h6 | h6
        · rw [h6] at hss ⊢
          refine and_congr_right fun hlt => ?_
          simp [hss hlt]
        · exact ⟨fun h => absurd h.1 (by grind), fun h => absurd h.1 (by grind)⟩
    simp only [hpc] at hm
    refine ⟨?_, ?_, h.st, h.sp⟩
    · intro y hy
      rw [hm] at hy
      rcases hy with hy | hy
      · exact h.src y hy.1
      · exact Or.inr ⟨x, hx0, hv, hov, hy⟩
    · intro z hz
      by_cases hzx : z = x
      · subst hzx
        exact Or.inr (Or.inr ⟨hv, hov, fun y hy => (hm y).2 (Or.inr hy)⟩)
      · rcases h.kept z hz with h1 | h1 | ⟨h1, h2, h3⟩
        · exact Or.inl ((hm z).2 (Or.inl ⟨h1, hzx⟩))
        · exact Or.inr (Or.inl h1)
        · refine Or.inr (Or.inr ⟨h1, h2, fun y hy => (hm y).2 (Or.inl ⟨h3 y hy, ?_⟩)⟩)
          rintro rfl
          unfold Ovl at hov
          obtain ⟨-, ⟨h7, h8, h9⟩ | ⟨h7, h8, h9⟩⟩ := hy.facts hS
          · have := h9.1
            grind
          · have := h9.1
            grind
  · subst hn hm
    exact h

theorem EInv.steps {S : StepFns K} (hS : LawfulSteps S) {m0 m m' : List (RangeInclusive K × V)}
    {r n n' : RangeInclusive K} {v : V} (h0 : Sep m0)
    (c0 : Coal m0) (hr : r.start ≤ r.stop) (hs : Steps S v m n m' n') (hi : IInv m0 r v m n)
    (h : EInv S m0 r v m n) : EInv S m0 r v m' n' := by
  induction hs with
  | refl => exact h
  | step h1 h2 h3 h4 _ ih =>
    have := h.step hS h0 c0 hr hi h1 h2 h3 h4
    exact ih this.1 this.2

/-- What becomes of the stored entry `x` when `r ↦ v` is inserted. -/
def Survives (S : StepFns K) (r : RangeInclusive K) (v : V) (x y : RangeInclusive K × V) : Prop :=
  ((x.2 == v) = true ∧ ¬ Tch r x.1 ∧ y = x) ∨
  ((x.2 == v) = false ∧ ¬ Ovl r x.1 ∧ y = x) ∨
  ((x.2 == v) = false ∧ Ovl r x.1 ∧ Piece S r x y)

theorem insert_exact {S : StepFns K} (hS : LawfulSteps S) {m : RangeInclusiveMap K V}
    (h : SC m.btm) {r : RangeInclusive K} (v : V) (hr : r.start ≤ r.stop) :
    ∃ (m' : RangeInclusiveMap K V) (n : RangeInclusive K), m.insert S r v = .ok m' ∧
      n.start ≤ r.start ∧ r.stop ≤ n.stop ∧ (n.exhausted = false ∨ n = r) ∧
      (∀ x ∈ m.btm, (x.2 == v) = true → Tch r x.1 → n.start ≤ x.1.start ∧ x.1.stop ≤ n.stop) ∧
      (n.start = r.start ∨ ∃ a ∈ m.btm, (a.2 == v) = true ∧ Tch r a.1 ∧ a.1.start < r.start ∧
        n.start = a.1.start) ∧
      (n.stop = r.stop ∨ ∃ a ∈ m.btm, (a.2 == v) = true ∧ Tch r a.1 ∧ r.stop ≤ a.1.stop ∧
        n.stop = a.1.stop) ∧
      ∀ y, y ∈ m'.btm ↔ y = (n, v) ∨ ∃ x ∈ m.btm, Survives S r v x y := by
  obtain ⟨m1, n1, hp, hi1, hl1, hlen1, hst1⟩ := insertPrefix_spec (v := v) hS hr h.sep h.coal
  obtain ⟨m2, n2, hloop, hi2, hl2, hd2, hlen2, hst2⟩ :=
    insertLoop_spec (hi := n1.stop) hS hr (m.len + 1) m1 n1 hi1 hl1 ⟨by grind, by grind⟩ hi1.ne
      (Or.inl hlen1)
  have hns := hi2.ns
  have hne := hi2.ne
  have he := EInv.steps hS h.sep h.coal hr (hst1.trans hst2) (IInv.refl h.sep h.coal) EInv.refl
  have hfit : Fits m2 n2 := by
    refine ⟨by grind, ?_⟩
    intro e he
    have := hl2 e he
    have := hd2 e he
    grind
  have hfit' : ∀ y ∈ m2, (y.2 == v) = true → (y.1.stop < n2.start ∧ ¬ Next y.1.stop n2.start) ∨
      (n2.stop < y.1.start ∧ ¬ Next n2.stop y.1.start) := by
    intro y hy hv
    have := hl2 y hy
    have := hd2 y hy
    grind
  have hno : ∀ y ∈ m2, (y.2 == v) = true → ¬ Tch r y.1 := by
    intro y hy hv ht
    have hyy := hi2.sep.ne y hy
    rcases hfit' y hy hv with ⟨h1, h2⟩ | ⟨h1, h2⟩
    · rcases ht.2 with h3 | h3
      · grind
      · refine h2 ⟨h1, fun d hd => ?_⟩
        have := h3.2 d hd
        grind
    · rcases ht.1 with h3 | h3
      · grind
      · refine h2 ⟨h1, fun d hd => h3.2 d (by grind)⟩
  have em := hi2.sep.mem_insert hfit v
  refine ⟨⟨BTreeMap.insert RangeInclusive.start n2 v m2⟩, n2, ?_, hns, hne, hi2.ex, ?_, he.st,
    he.sp, ?_⟩
  · unfold insert insertFuel
    simp [hr, hp, hloop (m.len + 2) (by omega), bind, Except.bind, pure, Except.pure]
  · intro x hx hv ht
    rcases he.kept x hx with h1 | h1 | h1
    · exact absurd ht (hno x h1 hv)
    · exact h1.2.2
    · simp [hv] at h1
  · intro y
    rw [em]
    refine or_congr Iff.rfl ⟨fun hy => ?_, ?_⟩
    · rcases he.src y hy with h1 | ⟨x, h1, h2, h3, h4⟩
      · refine ⟨y, h1, ?_⟩
        have h2 := hno y hy
        have h3 := hfit.2 y hy
        have h4 := hi2.sep.ne y hy
        cases hv : y.2 == v with
        | true => exact Or.inl ⟨hv, h2 hv, rfl⟩
        | false => exact Or.inr (Or.inl ⟨hv, by grind [Ovl], rfl⟩)
      · exact ⟨x, h1, Or.inr (Or.inr ⟨h2, h3, h4⟩)⟩
    · rintro ⟨x, hx, ⟨h1, h2, rfl⟩ | ⟨h1, h2, rfl⟩ | ⟨h1, h2, h3⟩⟩
      · rcases he.kept y hx with h3 | h3 | h3
        · exact h3
        · exact absurd h3.2.1 h2
        · simp [h1] at h3
      · rcases he.kept y hx with h3 | h3 | h3
        · exact h3
        · simp [h1] at h3
        · exact absurd h3.2.1 h2
      · rcases he.kept x hx with h4 | h4 | h4
        · exfalso
          have := hfit.2 x h4
          have := h.sep.ne x hx
          grind [Ovl]
        · simp [h1] at h4
        · exact h4.2.2 y h3

end

/-! ### remove -/

/-- Invariant of `remove`, in terms of the entries. -/
structure REInv (S : StepFns K) (m0 : List (RangeInclusive K × V)) (r : RangeInclusive K)
    (m : List (RangeInclusive K × V)) : Prop where
  src : ∀ y ∈ m, y ∈ m0 ∨ ∃ x ∈ m0, Ovl r x.1 ∧ Piece S r x y
  kept : ∀ x ∈ m0, x ∈ m ∨ (Ovl r x.1 ∧ ∀ y, Piece S r x y → y ∈ m)

theorem REInv.steps [BEq V] {S : StepFns K} (hS : LawfulSteps S)
    {m0 m m' : List (RangeInclusive K × V)} {r : RangeInclusive K} (h0 : Sep m0)
    (hr : r.start ≤ r.stop) (hs : RSteps S r m m') (hi : RInv m0 r m)
    (h : REInv S m0 r m) : REInv S m0 r m' := by
  induction hs with
  | refl => exact h
  | @step m m1 m' x hx h2 h3 h4 _ ih =>
    obtain ⟨m3, p, s, heq, i1, hp, hs, hm, -, hps, hss⟩ := adjustRemove_spec hS hr hi hx h2 h3
    rw [h4] at heq
    obtain rfl := Except.ok.inj heq
    have hpc : ∀ y, ((x.1.start < r.start ∧ y = (.mk' x.1.start p, x.2)) ∨
          (r.stop < x.1.stop ∧ y = (.mk' s x.1.stop, x.2))) ↔ Piece S r x y := by
      intro y
      unfold Piece
      refine or_congr ?_ ?_
      · exact and_congr_right fun hlt => by simp [hps hlt]
      · exact and_congr_right fun hlt => by simp [hss hlt]
    simp only [hpc] at hm
    refine ih i1 ?_
    have hno : ∀ {z y : RangeInclusive K × V}, Piece S r z y → y ≠ x := by
      rintro z y hy rfl
      obtain ⟨-, ⟨h7, h8, h9⟩ | ⟨h7, h8, h9⟩⟩ := hy.facts hS
      · have := h9.1
        grind
      · have := h9.1
        grind
    have hx0 : x ∈ m0 := by
      rcases h.src x hx with h1 | ⟨x0, h1, h4, h5⟩
      · exact h1
      · exact absurd rfl (hno h5)
    refine ⟨?_, ?_⟩
    · intro y hy
      rw [hm] at hy
      rcases hy with hy | hy
      · exact h.src y hy.1
      · exact Or.inr ⟨x, hx0, ⟨h2, h3⟩, hy⟩
    · intro z hz
      by_cases hzx : z = x
      · subst hzx
        exact Or.inr ⟨⟨h2, h3⟩, fun y hy => (hm y).2 (Or.inr hy)⟩
      · rcases h.kept z hz with h1 | ⟨h1, h4⟩
        · exact Or.inl ((hm z).2 (Or.inl ⟨h1, hzx⟩))
        · exact Or.inr ⟨h1, fun y hy => (hm y).2 (Or.inl ⟨h4 y hy, hno hy⟩)⟩

theorem remove_exact [BEq V] {S : StepFns K} (hS : LawfulSteps S) {m : RangeInclusiveMap K V}
    (h : SC m.btm) {r : RangeInclusive K} (hr : r.start ≤ r.stop) :
    ∃ m' : RangeInclusiveMap K V, m.remove S r = .ok m' ∧
      ∀ y, y ∈ m'.btm ↔ ∃ x ∈ m.btm, (¬ Ovl r x.1 ∧ y = x) ∨ (Ovl r x.1 ∧ Piece S r x y) := by
  obtain ⟨m1, hp, hi1, hleft, hlen, hst1⟩ := removePrefix_spec hS hr h.sep h.coal
  obtain ⟨m2, hloop, hi2, hout, hlen2, hst2⟩ := removeLoop_spec hS hr (m.len + 1) m1 hi1 hleft
    (Or.inl hlen)
  have he := REInv.steps hS h.sep hr (hst1.trans hst2) (RInv.refl h.sep h.coal)
    ⟨fun y hy => Or.inl hy, fun x hx => Or.inl hx⟩
  refine ⟨⟨m2⟩, ?_, fun y => ⟨fun hy => ?_, ?_⟩⟩
  · unfold remove removeFuel
    simp [hr, hp, hloop (m.len + 2) (by omega), bind, Except.bind, pure, Except.pure]
  · rcases he.src y hy with h1 | ⟨x, h1, h2⟩
    · have := hout y hy
      exact ⟨y, h1, Or.inl ⟨by grind [Ovl], rfl⟩⟩
    · exact ⟨x, h1, Or.inr h2⟩
  · rintro ⟨x, hx, ⟨h1, rfl⟩ | ⟨h1, h2⟩⟩
    · rcases he.kept y hx with h3 | h3
      · exact h3
      · exact absurd h3.1 h1
    · rcases he.kept x hx with h3 | h3
      · have := hout x h3
        have := h.sep.ne x hx
        exfalso
        grind [Ovl]
      · exact h3.2 y h2

end Verif.RangeInclusiveMap

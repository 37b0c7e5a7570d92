import Verif.Proof.MapTop

/-!
# The exact effect of `insert` and `remove` on the stored entries
-/
set_option linter.unusedSectionVars false
set_option linter.unusedVariables false

namespace Verif.RangeMap
variable {K : Type} [LE K] [LT K] [DecidableLE K] [DecidableLT K]
  [Std.IsLinearPreorder K] [Std.LawfulOrderLT K] {V : Type}

/-- `x` overlaps `r`. -/
def Ovl (r x : Range K) : Prop := x.start < r.stop ∧ r.start < x.stop
/-- `x` overlaps `r` or shares an end point with it. -/
def Tch (r x : Range K) : Prop := x.start ≤ r.stop ∧ r.start ≤ x.stop

/-- `y` is what is left of `x` on one side of `r`. -/
def Piece (r : Range K) (x y : Range K × V) : Prop :=
  (x.1.start < r.start ∧ y = (⟨x.1.start, r.start⟩, x.2)) ∨
  (r.stop < x.1.stop ∧ y = (⟨r.stop, x.1.stop⟩, x.2))

section
variable [BEq V]

/-- Invariant of `insert`, in terms of the entries. -/
structure EInv (m0 : List (Range K × V)) (r : Range K) (v : V) (m : List (Range K × V))
    (n : Range K) : Prop where
  src : ∀ y ∈ m, y ∈ m0 ∨ ∃ x ∈ m0, (x.2 == v) = false ∧ Ovl r x.1 ∧ Piece r x y
  kept : ∀ x ∈ m0, x ∈ m ∨
    ((x.2 == v) = true ∧ Tch r x.1 ∧ n.start ≤ x.1.start ∧ x.1.stop ≤ n.stop) ∨
    ((x.2 == v) = false ∧ Ovl r x.1 ∧ ∀ y, Piece r x y → y ∈ m)
  st : n.start = r.start ∨
    ∃ a ∈ m0, (a.2 == v) = true ∧ Tch r a.1 ∧ a.1.start < r.start ∧ n.start = a.1.start
  sp : n.stop = r.stop ∨
    ∃ a ∈ m0, (a.2 == v) = true ∧ Tch r a.1 ∧ r.stop ≤ a.1.stop ∧ n.stop = a.1.stop

theorem EInv.refl {m : List (Range K × V)} {r : Range K} {v : V} : EInv m r v m r :=
  ⟨fun y hy => Or.inl hy, fun x hx => Or.inl hx, Or.inl rfl, Or.inl rfl⟩

variable [PartialEquivBEq V]

theorem EInv.step {m0 m : List (Range K × V)} {r n : Range K} {v : V} (h0 : Sep m0)
    (c0 : Coal m0) (hr : r.start < r.stop) (hi : IInv m0 r v m n) (h : EInv m0 r v m n)
    {x : Range K × V} (hx : x ∈ m)
    (ht1 : x.1.start ≤ n.stop) (ht2 : n.start ≤ x.1.stop)
    {m' : List (Range K × V)} {n' : Range K}
    (heq : adjustTouchingRangesForInsert m x.1 x.2 n v = (m', n')) : EInv m0 r v m' n' := by
  have hns := hi.ns
  have hne := hi.ne
  have hxx := hi.sep.ne x hx
  rcases (adjustInsert_spec hr hi hx ht1 ht2 heq).2 with
    ⟨hv, e1, e2, hm, -⟩ | ⟨hv, e1, e2, hn, hm, -⟩ | ⟨hv, e1, hn, hm⟩
  · -- adopted
    have hx0 : x ∈ m0 := by
      rcases h.src x hx with h1 | ⟨x0, h1, h2, h3, h4⟩
      · exact h1
      · exfalso
        rcases h4 with ⟨_, h4⟩ | ⟨_, h4⟩ <;> rw [h4] at hv <;> simp [h2] at hv
    have hsame : ∀ a ∈ m0, (a.2 == v) = true → a = x ∨
        (a.1.stop < x.1.start ∨ x.1.stop < a.1.start) := by
      intro a ha hav
      have h1 := c0 a ha x hx0
      have h2 := c0 x hx0 a ha
      have h3 : (a.2 == x.2) = true := PartialEquivBEq.trans hav (PartialEquivBEq.symm hv)
      have h4 := h0.tri a ha x hx0
      have h5 : (x.2 == a.2) = true := PartialEquivBEq.symm h3
      grind
    have htch : Tch r x.1 := by
      refine ⟨?_, ?_⟩
      · rcases h.sp with h1 | ⟨a, h1, h2, h3, h4, h5⟩
        · grind
        · have := hsame a h1 h2
          have := h0.ne a h1
          grind [Tch]
      · rcases h.st with h1 | ⟨a, h1, h2, h3, h4, h5⟩
        · grind
        · have := hsame a h1 h2
          have := h0.ne a h1
          grind [Tch]
    have hn1 : n'.start ≤ n.start ∧ n'.start ≤ x.1.start := by
      simp only [e1, rmin_le]; grind
    have hn2 : n.stop ≤ n'.stop ∧ x.1.stop ≤ n'.stop := by
      simp only [e2, le_rmax]; grind
    refine ⟨?_, ?_, ?_, ?_⟩
    · intro y hy
      rw [hm] at hy
      exact h.src y hy.1
    · intro z hz
      rcases h.kept z hz with h1 | ⟨h1, h2, h3, h4⟩ | ⟨h1, h2, h3⟩
      · by_cases hzx : z = x
        · subst hzx
          exact Or.inr (Or.inl ⟨hv, htch, hn1.2, hn2.2⟩)
        · exact Or.inl ((hm z).2 ⟨h1, hzx⟩)
      · exact Or.inr (Or.inl ⟨h1, h2, by grind, by grind⟩)
      · refine Or.inr (Or.inr ⟨h1, h2, fun y hy => (hm y).2 ⟨h3 y hy, ?_⟩⟩)
        rintro rfl
        rcases hy with ⟨_, h4⟩ | ⟨_, h4⟩ <;> rw [h4] at hv <;> simp [h1] at hv
    · rw [e1]
      unfold rmin
      split
      · exact Or.inr ⟨x, hx0, hv, htch, by grind, rfl⟩
      · exact h.st
    · rw [e2]
      unfold rmax
      split
      · exact h.sp
      · exact Or.inr ⟨x, hx0, hv, htch, by grind, rfl⟩
  · -- cut
    subst hn
    have hcov1 : ∀ z ∈ m0, (z.2 == v) = false → Ovl r z.1 →
        (n'.start = r.start ∨ r.start ≤ z.1.start) := by
      intro z hz hzv hzo
      rcases h.st with h1 | ⟨a, h1, h2, h3, h4, h5⟩
      · exact Or.inl h1
      · right
        have := h0.tri a h1 z hz
        have := h0.ne a h1
        grind [Tch, Ovl]
    have hcov2 : ∀ z ∈ m0, (z.2 == v) = false → Ovl r z.1 →
        (n'.stop = r.stop ∨ z.1.stop ≤ r.stop) := by
      intro z hz hzv hzo
      rcases h.sp with h1 | ⟨a, h1, h2, h3, h4, h5⟩
      · exact Or.inl h1
      · right
        have := h0.tri a h1 z hz
        have := h0.ne a h1
        grind [Tch, Ovl]
    have hx0 : x ∈ m0 := by
      rcases h.src x hx with h1 | ⟨x0, h1, h2, h3, h4⟩
      · exact h1
      · exfalso
        have h5 := hcov1 x0 h1 h2 h3
        have h6 := hcov2 x0 h1 h2 h3
        rcases h4 with ⟨h7, h4⟩ | ⟨h7, h4⟩ <;> subst h4 <;> simp only at e1 e2 ht1 ht2
        · rcases h5 with h5 | h5
          · rw [h5] at e2; grind
          · grind
        · rcases h6 with h6 | h6
          · rw [h6] at e1; grind
          · grind
    have hov : Ovl r x.1 := by
      refine ⟨?_, ?_⟩
      · rcases h.sp with h1 | ⟨a, h1, h2, h3, h4, h5⟩
        · grind
        · have := h0.tri a h1 x hx0
          have := h0.ne a h1
          grind [Tch]
      · rcases h.st with h1 | ⟨a, h1, h2, h3, h4, h5⟩
        · grind
        · have := h0.tri a h1 x hx0
          have := h0.ne a h1
          grind [Tch]
    have h5 := hcov1 x hx0 hv hov
    have h6 := hcov2 x hx0 hv hov
    have hpc : ∀ y, ((x.1.start < n'.start ∧ y = (⟨x.1.start, n'.start⟩, x.2)) ∨
          (n'.stop < x.1.stop ∧ y = (⟨n'.stop, x.1.stop⟩, x.2))) ↔ Piece r x y := by
      intro y
      unfold Piece
      rcases h5 with h5 | h5 <;> rcases h6 with h6 | h6
      · rw [h5, h6]
      · rw [h5]; grind
      · rw [h6]; grind
      · grind
    simp only [hpc] at hm
    refine ⟨?_, ?_, h.st, h.sp⟩
    · intro y hy
      rw [hm] at hy
      rcases hy with hy | hy
      · exact h.src y hy.1
      · exact Or.inr ⟨x, hx0, hv, hov, hy⟩
    · intro z hz
      by_cases hzx : z = x
      · subst hzx
        exact Or.inr (Or.inr ⟨hv, hov, fun y hy => (hm y).2 (Or.inr hy)⟩)
      · rcases h.kept z hz with h1 | h1 | ⟨h1, h2, h3⟩
        · exact Or.inl ((hm z).2 (Or.inl ⟨h1, hzx⟩))
        · exact Or.inr (Or.inl h1)
        · refine Or.inr (Or.inr ⟨h1, h2, fun y hy => (hm y).2 (Or.inl ⟨h3 y hy, ?_⟩)⟩)
          rintro rfl
          have := h0.tri z hz y hx0
          have := hcov1 z hz h1 h2
          rcases hy with ⟨h7, h4⟩ | ⟨h7, h4⟩ <;> rw [h4] at hov <;> simp only [Ovl] at hov <;> grind
  · subst hn hm
    exact h

theorem EInv.steps {m0 m m' : List (Range K × V)} {r n n' : Range K} {v : V} (h0 : Sep m0)
    (c0 : Coal m0) (hr : r.start < r.stop) (hs : Steps v m n m' n') (hi : IInv m0 r v m n)
    (h : EInv m0 r v m n) : EInv m0 r v m' n' := by
  induction hs with
  | refl => exact h
  | step h1 h2 h3 h4 _ ih =>
    exact ih (adjustInsert_spec hr hi h1 h2 h3 h4).1 (h.step h0 c0 hr hi h1 h2 h3 h4)

/-- What becomes of the stored entry `x` when `r ↦ v` is inserted. -/
def Survives (r : Range K) (v : V) (x y : Range K × V) : Prop :=
  ((x.2 == v) = true ∧ ¬ Tch r x.1 ∧ y = x) ∨
  ((x.2 == v) = false ∧ ¬ Ovl r x.1 ∧ y = x) ∨
  ((x.2 == v) = false ∧ Ovl r x.1 ∧ Piece r x y)

theorem insert_exact {m : RangeMap K V} (h : WF m.btm) {r : Range K} (v : V)
    (hr : r.start < r.stop) :
    ∃ (m' : RangeMap K V) (n : Range K), m.insert r v = .ok m' ∧
      n.start ≤ r.start ∧ r.stop ≤ n.stop ∧
      (∀ x ∈ m.btm, (x.2 == v) = true → Tch r x.1 → n.start ≤ x.1.start ∧ x.1.stop ≤ n.stop) ∧
      (n.start = r.start ∨ ∃ a ∈ m.btm, (a.2 == v) = true ∧ Tch r a.1 ∧ a.1.start < r.start ∧
        n.start = a.1.start) ∧
      (n.stop = r.stop ∨ ∃ a ∈ m.btm, (a.2 == v) = true ∧ Tch r a.1 ∧ r.stop ≤ a.1.stop ∧
        n.stop = a.1.stop) ∧
      ∀ y, y ∈ m'.btm ↔ y = (n, v) ∨ ∃ x ∈ m.btm, Survives r v x y := by
  obtain ⟨m1, n1, hp, hi1, hl1, hlen1, hst1⟩ := insertPrefix_spec (v := v) hr h.sep h.coal
  obtain ⟨m2, n2, hloop, hi2, hl2, hd2, hlen2, hst2⟩ :=
    insertLoop_spec (hi := n1.stop) hr (m.len + 1) m1 n1 hi1 hl1 ⟨by grind, by grind⟩ hi1.ne
      (Or.inl hlen1)
  have hns := hi2.ns
  have hne := hi2.ne
  have he := EInv.steps h.sep h.coal hr (hst1.trans hst2) (IInv.refl h.sep h.coal) EInv.refl
  have hfit : Fits m2 n2 := by
    refine ⟨by grind, ?_⟩
    intro e he
    have := hl2 e he
    have := hd2 e he
    grind
  have hfit' : ∀ y ∈ m2, (y.2 == v) = true → y.1.stop < n2.start ∨ n2.stop < y.1.start := by
    intro y hy hv
    have := hl2 y hy
    have := hd2 y hy
    grind
  have em := hi2.sep.mem_insert hfit v
  refine ⟨⟨BTreeMap.insert Range.start n2 v m2⟩, n2, ?_, hns, hne, ?_, he.st, he.sp, ?_⟩
  · unfold insert insertFuel
    simp [hr, hp, hloop (m.len + 2) (by omega), bind, Except.bind, pure, Except.pure]
  · intro x hx hv ht
    rcases he.kept x hx with h1 | h1 | h1
    · exfalso
      have := hfit' x h1 hv
      grind [Tch]
    · exact h1.2.2
    · simp [hv] at h1
  · intro y
    rw [em]
    refine or_congr Iff.rfl ⟨fun hy => ?_, ?_⟩
    · rcases he.src y hy with h1 | ⟨x, h1, h2, h3, h4⟩
      · refine ⟨y, h1, ?_⟩
        have h2 := hfit' y hy
        have h3 := hfit.2 y hy
        have h4 := hi2.sep.ne y hy
        cases hv : y.2 == v with
        | true => exact Or.inl ⟨hv, by grind [Tch], rfl⟩
        | false => exact Or.inr (Or.inl ⟨hv, by grind [Ovl], rfl⟩)
      · exact ⟨x, h1, Or.inr (Or.inr ⟨h2, h3, h4⟩)⟩
    · rintro ⟨x, hx, ⟨h1, h2, rfl⟩ | ⟨h1, h2, rfl⟩ | ⟨h1, h2, h3⟩⟩
      · rcases he.kept y hx with h3 | h3 | h3
        · exact h3
        · exact absurd h3.2.1 h2
        · simp [h1] at h3
      · rcases he.kept y hx with h3 | h3 | h3
        · exact h3
        · simp [h1] at h3
        · exact absurd h3.2.1 h2
      · rcases he.kept x hx with h4 | h4 | h4
        · exfalso
          have := hfit.2 x h4
          have := h.sep.ne x hx
          grind [Ovl]
        · simp [h1] at h4
        · exact h4.2.2 y h3

end

/-! ### remove -/

/-- Invariant of `remove`, in terms of the entries. -/
structure REInv (m0 : List (Range K × V)) (r : Range K) (m : List (Range K × V)) : Prop where
  src : ∀ y ∈ m, y ∈ m0 ∨ ∃ x ∈ m0, Ovl r x.1 ∧ Piece r x y
  kept : ∀ x ∈ m0, x ∈ m ∨ (Ovl r x.1 ∧ ∀ y, Piece r x y → y ∈ m)

theorem REInv.steps [BEq V] {m0 m m' : List (Range K × V)} {r : Range K} (h0 : Sep m0)
    (hr : r.start < r.stop) (hs : RSteps r m m') (hi : RInv m0 r m)
    (h : REInv m0 r m) : REInv m0 r m' := by
  induction hs with
  | refl => exact h
  | @step m m' x hx h2 h3 _ ih =>
    obtain ⟨i1, hm, _⟩ := adjustRemove_spec hr hi hx h2 h3
    refine ih i1 ?_
    have hx0 : x ∈ m0 := by
      rcases h.src x hx with h1 | ⟨x0, h1, h4, h5⟩
      · exact h1
      · exfalso
        rcases h5 with ⟨h6, h5⟩ | ⟨h6, h5⟩ <;> subst h5 <;> simp only at h2 h3 <;> grind
    refine ⟨?_, ?_⟩
    · intro y hy
      rw [hm] at hy
      rcases hy with hy | hy
      · exact h.src y hy.1
      · exact Or.inr ⟨x, hx0, ⟨h2, h3⟩, hy⟩
    · intro z hz
      by_cases hzx : z = x
      · subst hzx
        exact Or.inr ⟨⟨h2, h3⟩, fun y hy => (hm y).2 (Or.inr hy)⟩
      · rcases h.kept z hz with h1 | ⟨h1, h4⟩
        · exact Or.inl ((hm z).2 (Or.inl ⟨h1, hzx⟩))
        · refine Or.inr ⟨h1, fun y hy => (hm y).2 (Or.inl ⟨h4 y hy, ?_⟩)⟩
          rintro rfl
          rcases hy with ⟨h7, h5⟩ | ⟨h7, h5⟩ <;> rw [h5] at h2 h3 <;> simp only at h2 h3 <;> grind

theorem remove_exact [BEq V] {m : RangeMap K V} (h : WF m.btm) {r : Range K}
    (hr : r.start < r.stop) :
    ∃ m' : RangeMap K V, m.remove r = .ok m' ∧
      ∀ y, y ∈ m'.btm ↔ ∃ x ∈ m.btm, (¬ Ovl r x.1 ∧ y = x) ∨ (Ovl r x.1 ∧ Piece r x y) := by
  obtain ⟨m1, hp, hi1, hleft, hlen, hlen', hst1⟩ := removePrefix_spec hr h.sep h.coal
  obtain ⟨m2, hloop, hi2, hout, hlen2, hst2⟩ := removeLoop_spec hr (m.len + 1) m1 hi1 hleft
    (Or.inl hlen)
  have he := REInv.steps h.sep hr (hst1.trans hst2) (RInv.refl h.sep h.coal)
    ⟨fun y hy => Or.inl hy, fun x hx => Or.inl hx⟩
  refine ⟨⟨m2⟩, ?_, fun y => ⟨fun hy => ?_, ?_⟩⟩
  · unfold remove removeFuel
    simp [hr, hp, hloop (m.len + 2) (by omega), bind, Except.bind, pure, Except.pure]
  · rcases he.src y hy with h1 | ⟨x, h1, h2⟩
    · have := hout y hy
      exact ⟨y, h1, Or.inl ⟨by grind [Ovl], rfl⟩⟩
    · exact ⟨x, h1, Or.inr h2⟩
  · rintro ⟨x, hx, ⟨h1, rfl⟩ | ⟨h1, h2⟩⟩
    · rcases he.kept y hx with h3 | h3
      · exact h3
      · exact absurd h3.1 h1
    · rcases he.kept x hx with h3 | h3
      · have := hout x h3
        have := h.sep.ne x hx
        exfalso
        grind [Ovl]
      · exact h3.2 y h2

end Verif.RangeMap

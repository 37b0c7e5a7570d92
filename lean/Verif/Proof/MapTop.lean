import Verif.Proof.MapInsert

/-!
# What a whole call of `insert`, `remove`, `get` does
-/
set_option linter.unusedSectionVars false
set_option linter.unusedVariables false

namespace Verif.RangeMap
variable {K : Type} [LE K] [LT K] [DecidableLE K] [DecidableLT K]
  [Std.IsLinearPreorder K] [Std.LawfulOrderLT K] {V : Type} [BEq V]

/-- Well-formed entry lists. -/
structure WF (m : List (Range K × V)) : Prop where
  sep : Sep m
  coal : Coal m

theorem WF.nil : WF ([] : List (Range K × V)) :=
  ⟨⟨List.Pairwise.nil, by simp⟩, by simp [Coal]⟩

theorem insert_spec [PartialEquivBEq V] {m : RangeMap K V} (h : WF m.btm) {r : Range K} (v : V)
    (hr : r.start < r.stop) :
    ∃ m' : RangeMap K V, (∀ fuel, m.len + 2 ≤ fuel → insertFuel fuel m r v = .ok m') ∧
      WF m'.btm ∧ m'.len ≤ m.len + 2 ∧
      ∃ n : Range K, n.start ≤ r.start ∧ r.stop ≤ n.stop ∧
        (∀ k, n.start ≤ k → k < n.stop → ¬ (r.start ≤ k ∧ k < r.stop) →
          ∃ w, Maps m.btm k w ∧ (w == v) = true) ∧
        (∀ k, n.start ≤ k → k < n.stop → ∀ w, Maps m'.btm k w ↔ w = v) ∧
        (∀ k, ¬ (n.start ≤ k ∧ k < n.stop) → ∀ w, Maps m'.btm k w ↔ Maps m.btm k w) := by
  obtain ⟨m1, n1, hp, hi1, hl1, hlen1, _⟩ := insertPrefix_spec (v := v) hr h.sep h.coal
  obtain ⟨m2, n2, hloop, hi2, hl2, hd2, hlen2, _⟩ := insertLoop_spec (hi := n1.stop) hr (m.len + 1)
    m1 n1 hi1 hl1 ⟨by grind, by grind⟩ hi1.ne (Or.inl hlen1)
  have hns := hi2.ns
  have hne := hi2.ne
  have hfit : Fits m2 n2 := by
    refine ⟨by grind, ?_⟩
    intro e he
    have := hl2 e he
    have := hd2 e he
    grind
  have em := hi2.sep.mem_insert hfit v
  refine ⟨⟨BTreeMap.insert Range.start n2 v m2⟩, ?_, ⟨hi2.sep.insert hfit v, ?_⟩, ?_, n2, hns, hne,
    hi2.ado, ?_, ?_⟩
  · intro fuel hf
    unfold insertFuel
    simp [hr, hp, hloop fuel (by omega), bind, Except.bind, pure, Except.pure]
  · intro a ha b hb h1 h2
    have ha1 := hl2 a
    have ha2 := hd2 a
    have hb1 := hl2 b
    have hb2 := hd2 b
    have hna := hi2.sep.ne a
    have hnb := hi2.sep.ne b
    have hcab := hi2.coal a
    have hsy : (v == b.2) = (b.2 == v) := BEq.comm
    rw [em] at ha hb
    grind
  · simp only [len, hi2.sep.length_insert hfit v] at *
    omega
  · intro k hk1 hk2 w
    simp only [Maps]
    constructor
    · rintro ⟨e, he, h1, h2, h3⟩
      rw [em] at he
      rcases he with rfl | he
      · exact h3.symm
      · have := hfit.2 e he
        exfalso
        grind
    · rintro rfl
      exact ⟨(n2, w), by rw [em]; grind, hk1, hk2, rfl⟩
  · intro k hk w
    rw [← hi2.out k hk]
    simp only [Maps]
    constructor
    · rintro ⟨e, he, h1, h2, h3⟩
      rw [em] at he
      rcases he with rfl | he
      · exact absurd ⟨h1, h2⟩ hk
      · exact ⟨e, he, h1, h2, h3⟩
    · rintro ⟨e, he, h1, h2, h3⟩
      exact ⟨e, by rw [em]; grind, h1, h2, h3⟩

theorem remove_spec {m : RangeMap K V} (h : WF m.btm) {r : Range K} (hr : r.start < r.stop) :
    ∃ m' : RangeMap K V, (∀ fuel, m.len + 2 ≤ fuel → removeFuel fuel m r = .ok m') ∧
      WF m'.btm ∧ m'.len ≤ m.len + 1 ∧
      (∀ k, r.start ≤ k → k < r.stop → ∀ w, ¬ Maps m'.btm k w) ∧
      (∀ k, ¬ (r.start ≤ k ∧ k < r.stop) → ∀ w, Maps m'.btm k w ↔ Maps m.btm k w) := by
  obtain ⟨m1, hp, hi1, hleft, hlen, hlen', _⟩ := removePrefix_spec hr h.sep h.coal
  obtain ⟨m2, hloop, hi2, hout, hlen2, _⟩ := removeLoop_spec hr (m.len + 1) m1 hi1 hleft
    (Or.inl hlen)
  refine ⟨⟨m2⟩, ?_, ⟨hi2.sep, hi2.coal⟩, ?_, ?_, hi2.out⟩
  · intro fuel hf
    unfold removeFuel
    simp [hr, hp, hloop fuel (by omega), bind, Except.bind, pure, Except.pure]
  · simp only [len] at *; omega
  · rintro k hk1 hk2 w ⟨e, he, h1, h2, h3⟩
    have := hout e he
    grind

/-- The unique entry covering a key. -/
theorem Sep.unique {m : List (Range K × V)} (h : Sep m) {k : K} {a b : Range K × V}
    (ha : a ∈ m) (hb : b ∈ m) (ha' : a.1.start ≤ k ∧ k < a.1.stop)
    (hb' : b.1.start ≤ k ∧ k < b.1.stop) : a = b := by
  have := h.tri a ha b hb
  grind

theorem Maps.unique {m : List (Range K × V)} (h : Sep m) {k : K} {a b : V}
    (ha : Maps m k a) (hb : Maps m k b) : a = b := by
  obtain ⟨x, hx, h1, h2, rfl⟩ := ha
  obtain ⟨y, hy, h3, h4, rfl⟩ := hb
  rw [h.unique hx hy ⟨h1, h2⟩ ⟨h3, h4⟩]

theorem getKeyValue_spec {m : RangeMap K V} (h : Sep m.btm) (k : K) :
    ∃ o, m.getKeyValue k = .ok o ∧
      ∀ e, o = some e ↔ e ∈ m.btm ∧ e.1.start ≤ k ∧ k < e.1.stop := by
  unfold getKeyValue
  rw [BTreeMap.range_ok rfl]
  refine ⟨_, rfl, ?_⟩
  intro e
  simp only [Bound.admitsAsLower, Bound.admitsAsUpper, Bool.true_and]
  cases hl : (m.btm.filter fun e => decide (e.1.start ≤ k)).getLast? with
  | none =>
    rw [BTreeMap.getLast?_filter_eq_none] at hl
    have := hl e
    grind
  | some x =>
    obtain ⟨hx, hp, hlast⟩ := BTreeMap.getLast?_filter_eq_some h.pw hl
    have := hlast e
    have := h.ne e
    have hu := fun he => h.unique (k := k) (a := x) (b := e) hx he
    simp only [Option.filter_eq_some_iff, Range.contains, Bool.and_eq_true, decide_eq_true_eq]
    grind [Before]

/-- `get` in terms of `Maps`. -/
theorem get_spec {m : RangeMap K V} (h : Sep m.btm) (k : K) :
    ∃ o, m.get k = .ok o ∧ ∀ w, o = some w ↔ Maps m.btm k w := by
  obtain ⟨o, ho, hs⟩ := getKeyValue_spec h k
  refine ⟨o.map (·.2), by simp [get, ho, bind, Except.bind, pure, Except.pure], ?_⟩
  intro w
  simp only [Option.map_eq_some_iff, hs, Maps]
  grind

theorem get_eq_some {m : RangeMap K V} (h : Sep m.btm) (k : K) (w : V) :
    m.get k = .ok (some w) ↔ Maps m.btm k w := by
  obtain ⟨o, ho, hs⟩ := get_spec h k
  rw [ho, ← hs]
  simp

theorem get_eq_none {m : RangeMap K V} (h : Sep m.btm) (k : K) :
    m.get k = .ok none ↔ ∀ w, ¬ Maps m.btm k w := by
  obtain ⟨o, ho, hs⟩ := get_spec h k
  rw [ho]
  constructor
  · intro h w hw
    rw [← hs] at hw
    simp_all
  · intro hw
    cases o with
    | none => rfl
    | some w => exact absurd ((hs w).1 rfl) (hw w)

/-- Same `Maps` at a key, same `get`. -/
theorem get_congr {m m' : RangeMap K V} (h : Sep m.btm) (h' : Sep m'.btm) {k : K}
    (he : ∀ w, Maps m'.btm k w ↔ Maps m.btm k w) : m'.get k = m.get k := by
  obtain ⟨o, ho, hs⟩ := get_spec h k
  obtain ⟨o', ho', hs'⟩ := get_spec h' k
  rw [ho, ho']
  have : o = o' := by
    apply Option.ext
    intro w
    rw [hs, hs', he]
  rw [this]

end Verif.RangeMap

import Verif.Proof.MapTop
import Verif.Model.Collect

/-!
# Reachable maps are well-formed; refinement
-/
set_option linter.unusedSectionVars false
set_option linter.unusedVariables false

namespace Verif.RangeMap
variable {K : Type} [LE K] [LT K] [DecidableLE K] [DecidableLT K]
  [Std.IsLinearPreorder K] [Std.LawfulOrderLT K] {V : Type} [BEq V]

omit [Std.IsLinearPreorder K] [Std.LawfulOrderLT K] in
theorem insert_invalid {m : RangeMap K V} {r : Range K} {v : V} (h : ¬ r.start < r.stop) :
    m.insert r v = .error .assertFailed := by
  simp [insert, insertFuel, h, bind, Except.bind, throw, throwThe, MonadExceptOf.throw]

omit [Std.IsLinearPreorder K] [Std.LawfulOrderLT K] in
theorem remove_invalid {m : RangeMap K V} {r : Range K} (h : ¬ r.start < r.stop) :
    m.remove r = .error .assertFailed := by
  simp [remove, removeFuel, h, bind, Except.bind, throw, throwThe, MonadExceptOf.throw]

theorem insert_ok [PartialEquivBEq V] {m : RangeMap K V} (h : WF m.btm) {r : Range K} (v : V)
    (hr : r.start < r.stop) : ∃ m', m.insert r v = .ok m' ∧ WF m'.btm := by
  obtain ⟨m', h1, h2, _⟩ := insert_spec h v hr
  exact ⟨m', h1 _ (by omega), h2⟩

theorem WF.extend [PartialEquivBEq V] {m : RangeMap K V} (h : WF m.btm)
    (items : List (Range K × V)) : WF (m.extend items).1.btm := by
  induction items generalizing m with
  | nil => exact h
  | cons e t ih =>
    unfold RangeMap.extend
    by_cases he : e.1.start < e.1.stop
    · obtain ⟨m', h1, h2⟩ := insert_ok h e.2 he
      rw [h1]
      exact ih h2
    · rw [insert_invalid he]
      exact h

theorem WF.apply [PartialEquivBEq V] {m : RangeMap K V} (h : WF m.btm)
    (op : Spec.Op (Range K) V) : WF (m.apply op).1.btm := by
  cases op with
  | insert r v =>
    unfold RangeMap.apply
    by_cases hr : r.start < r.stop
    · obtain ⟨m', h1, h2⟩ := insert_ok h v hr
      simp only [h1]
      exact h2
    · simp only [insert_invalid hr]
      exact h
  | remove r =>
    unfold RangeMap.apply
    by_cases hr : r.start < r.stop
    · obtain ⟨m', h1, h2, _⟩ := remove_spec h hr
      simp only [RangeMap.remove, h1 _ (Nat.le_refl _)]
      exact h2
    · simp only [remove_invalid hr]
      exact h
  | clear => exact WF.nil
  | extend items => exact h.extend items

theorem run_append (ops : List (Spec.Op (Range K) V)) (op : Spec.Op (Range K) V) :
    run (ops ++ [op]) = ((run ops).apply op).1 := by
  simp [run, List.foldl_append]

theorem Reachable.wf [PartialEquivBEq V] {m : RangeMap K V} (h : Reachable m) : WF m.btm := by
  obtain ⟨ops, rfl⟩ := h
  unfold run
  suffices ∀ m : RangeMap K V, WF m.btm →
      WF (ops.foldl (fun m op => (m.apply op).1) m).btm from this _ WF.nil
  induction ops with
  | nil => intro m h; exact h
  | cons op ops ih => intro m h; exact ih _ (h.apply op)

theorem Reachable.new : Reachable (RangeMap.new : RangeMap K V) := ⟨[], rfl⟩

theorem Reachable.apply {m : RangeMap K V} (h : Reachable m) (op : Spec.Op (Range K) V) :
    Reachable (m.apply op).1 := by
  obtain ⟨ops, rfl⟩ := h
  exact ⟨ops ++ [op], run_append ops op⟩

theorem Reachable.insert {m m' : RangeMap K V} (h : Reachable m) {r : Range K} {v : V}
    (hi : m.insert r v = .ok m') : Reachable m' := by
  have := h.apply (.insert r v)
  simpa [RangeMap.apply, hi] using this

theorem Reachable.remove {m m' : RangeMap K V} (h : Reachable m) {r : Range K}
    (hi : m.remove r = .ok m') : Reachable m' := by
  have := h.apply (.remove r)
  simpa [RangeMap.apply, hi] using this

/-! ### Agreement up to `==` -/

theorem Agree.refl (a : Option V) : Spec.Agree a a := by cases a <;> simp [Spec.Agree]

theorem Agree.trans [PartialEquivBEq V] {a b c : Option V} (h1 : Spec.Agree a b)
    (h2 : Spec.Agree b c) : Spec.Agree a c := by
  cases a <;> cases b <;> cases c <;> simp_all [Spec.Agree]
  rcases h1 with rfl | h1
  · exact h2
  · rcases h2 with rfl | h2
    · exact Or.inr h1
    · exact Or.inr (PartialEquivBEq.trans h1 h2)

theorem Agree.symm [PartialEquivBEq V] {a b : Option V} (h1 : Spec.Agree a b) :
    Spec.Agree b a := by
  cases a <;> cases b <;> simp_all [Spec.Agree]
  rcases h1 with rfl | h1
  · exact Or.inl rfl
  · exact Or.inr (PartialEquivBEq.symm h1)

theorem Agree.eq [LawfulBEq V] {a b : Option V} (h : Spec.Agree a b) : a = b := by
  cases a <;> cases b <;> simp_all [Spec.Agree]

/-- `get` as a total function, for well-formed maps. -/
def look (m : RangeMap K V) (k : K) : Option V :=
  match m.get k with
  | .ok o => o
  | .error _ => none

theorem get_look {m : RangeMap K V} (h : Sep m.btm) (k : K) : m.get k = .ok (m.look k) := by
  obtain ⟨o, ho, _⟩ := get_spec h k
  simp [look, ho]

theorem look_eq_some {m : RangeMap K V} (h : Sep m.btm) (k : K) (w : V) :
    m.look k = some w ↔ Maps m.btm k w := by
  rw [← get_eq_some h, get_look h]
  simp

theorem look_eq_none {m : RangeMap K V} (h : Sep m.btm) (k : K) :
    m.look k = none ↔ ∀ w, ¬ Maps m.btm k w := by
  rw [← get_eq_none h, get_look h]
  simp

/-- `insert` on the abstract contents. -/
theorem insert_look [PartialEquivBEq V] {m m' : RangeMap K V} (h : WF m.btm) {r : Range K} {v : V}
    (hr : r.start < r.stop) (hi : m.insert r v = .ok m') (k : K) :
    (r.start ≤ k → k < r.stop → m'.look k = some v) ∧
    (¬ (r.start ≤ k ∧ k < r.stop) → m'.look k = m.look k ∨
      ∃ w, m.look k = some w ∧ (w == v) = true ∧ m'.look k = some v) := by
  obtain ⟨m'', h1, h2, _, n, h3, h4, h5, h6, h7⟩ := insert_spec h v hr
  have : m'' = m' := by
    have := h1 _ (Nat.le_refl _)
    rw [RangeMap.insert] at hi
    simpa [hi] using this.symm
  subst this
  constructor
  · intro hk1 hk2
    rw [look_eq_some h2.sep, h6 k (by grind) (by grind)]
  · intro hk
    by_cases hkn : n.start ≤ k ∧ k < n.stop
    · right
      obtain ⟨w, hw1, hw2⟩ := h5 k hkn.1 hkn.2 hk
      refine ⟨w, (look_eq_some h.sep _ _).2 hw1, hw2, ?_⟩
      rw [look_eq_some h2.sep, h6 k hkn.1 hkn.2]
    · left
      have := get_congr h.sep h2.sep (h7 k hkn)
      rw [get_look h.sep, get_look h2.sep] at this
      simpa using this

theorem remove_look {m m' : RangeMap K V} (h : WF m.btm) {r : Range K}
    (hr : r.start < r.stop) (hi : m.remove r = .ok m') (k : K) :
    m'.look k = if r.start ≤ k ∧ k < r.stop then none else m.look k := by
  obtain ⟨m'', h1, h2, _, h3, h4⟩ := remove_spec h hr
  have : m'' = m' := by
    have := h1 _ (Nat.le_refl _)
    rw [RangeMap.remove] at hi
    simpa [hi] using this.symm
  subst this
  split
  · rename_i hk
    rw [look_eq_none h2.sep]
    exact h3 k hk.1 hk.2
  · rename_i hk
    have := get_congr h.sep h2.sep (h4 k hk)
    rw [get_look h.sep, get_look h2.sep] at this
    simpa using this

theorem insert_look_agree [PartialEquivBEq V] {m m' : RangeMap K V} (h : WF m.btm) {r : Range K}
    {v : V} (hr : r.start < r.stop) (hi : m.insert r v = .ok m') (k : K) :
    Spec.Agree (m'.look k) (if r.start ≤ k ∧ k < r.stop then some v else m.look k) := by
  have := insert_look h hr hi k
  split
  · rename_i hk
    rw [this.1 hk.1 hk.2]
    exact Agree.refl _
  · rename_i hk
    rcases this.2 hk with h | ⟨w, h1, h2, h3⟩
    · rw [h]; exact Agree.refl _
    · rw [h1, h3]
      exact Or.inr (PartialEquivBEq.symm h2)

end Verif.RangeMap

import Verif.Proof.IMapTop
import Verif.Proof.Reach
import Verif.Model.ICollect

/-!
# Inclusive map: reachable maps are well-formed; refinement
-/
set_option linter.unusedSectionVars false
set_option linter.unusedVariables false

namespace Verif.RangeInclusiveMap
open Spec
open RangeMap (Agree.refl Agree.trans Agree.symm Agree.eq)
variable {K : Type} [LE K] [LT K] [DecidableLE K] [DecidableLT K]
  [Std.IsLinearPreorder K] [Std.LawfulOrderLT K] {V : Type} [BEq V] {S : StepFns K}

omit [Std.IsLinearPreorder K] [Std.LawfulOrderLT K] in
theorem insert_invalid {m : RangeInclusiveMap K V} {r : RangeInclusive K} {v : V}
    (h : ¬ r.start ≤ r.stop) : m.insert S r v = .error .assertFailed := by
  simp [insert, insertFuel, h, bind, Except.bind, throw, throwThe, MonadExceptOf.throw]

omit [Std.IsLinearPreorder K] [Std.LawfulOrderLT K] in
theorem remove_invalid {m : RangeInclusiveMap K V} {r : RangeInclusive K}
    (h : ¬ r.start ≤ r.stop) : m.remove S r = .error .assertFailed := by
  simp [remove, removeFuel, h, bind, Except.bind, throw, throwThe, MonadExceptOf.throw]

theorem insert_ok [PartialEquivBEq V] (hS : LawfulSteps S) {m : RangeInclusiveMap K V}
    (h : SC m.btm) {r : RangeInclusive K} (v : V) (hr : r.start ≤ r.stop) :
    ∃ m', m.insert S r v = .ok m' ∧ SC m'.btm ∧
      (Fresh m.btm → r.exhausted = false → Fresh m'.btm) := by
  obtain ⟨m', h1, h2, h3, _⟩ := insert_spec hS h v hr
  exact ⟨m', h1 _ (by omega), h2, h3⟩

theorem SC.extend [PartialEquivBEq V] (hS : LawfulSteps S) {m : RangeInclusiveMap K V}
    (h : SC m.btm) (items : List (RangeInclusive K × V)) :
    SC (m.extend S items).1.btm ∧ (Fresh m.btm → (∀ e ∈ items, e.1.exhausted = false) →
      Fresh (m.extend S items).1.btm) := by
  induction items generalizing m with
  | nil => exact ⟨h, fun h _ => h⟩
  | cons e t ih =>
    unfold RangeInclusiveMap.extend
    by_cases he : e.1.start ≤ e.1.stop
    · obtain ⟨m', h1, h2, h3⟩ := insert_ok hS h e.2 he
      rw [h1]
      exact ⟨(ih h2).1, fun hf hi => (ih h2).2 (h3 hf (hi e (by simp)))
        (fun x hx => hi x (by simp [hx]))⟩
    · rw [insert_invalid he]
      exact ⟨h, fun h _ => h⟩

theorem SC.apply [PartialEquivBEq V] (hS : LawfulSteps S) {m : RangeInclusiveMap K V}
    (h : SC m.btm) (op : Op (RangeInclusive K) V) :
    SC (m.apply S op).1.btm ∧ (Fresh m.btm → (∀ r ∈ op.inserted, r.exhausted = false) →
      Fresh (m.apply S op).1.btm) := by
  cases op with
  | insert r v =>
    unfold RangeInclusiveMap.apply
    by_cases hr : r.start ≤ r.stop
    · obtain ⟨m', h1, h2, h3⟩ := insert_ok hS h v hr
      simp only [h1]
      exact ⟨h2, fun hf hi => h3 hf (hi r (by simp [Op.inserted]))⟩
    · simp only [insert_invalid hr]
      exact ⟨h, fun h _ => h⟩
  | remove r =>
    unfold RangeInclusiveMap.apply
    by_cases hr : r.start ≤ r.stop
    · obtain ⟨m', h1, h2, h3, _⟩ := remove_spec hS h hr
      simp only [RangeInclusiveMap.remove, h1 _ (Nat.le_refl _)]
      exact ⟨h2, fun hf _ => h3 hf⟩
    · simp only [remove_invalid hr]
      exact ⟨h, fun h _ => h⟩
  | clear => exact ⟨SC.nil, fun _ _ => WF.nil.fresh⟩
  | extend items =>
    refine ⟨(h.extend hS items).1, fun hf hi => (h.extend hS items).2 hf fun e he => ?_⟩
    exact hi _ (by simp only [Op.inserted, List.mem_map]; exact ⟨e, he, rfl⟩)

theorem WF.mk' {m : List (RangeInclusive K × V)} (h : SC m) (hf : Fresh m) : WF m :=
  ⟨h.sep, h.coal, hf⟩

theorem run_append (ops : List (Op (RangeInclusive K) V)) (op : Op (RangeInclusive K) V) :
    run S (ops ++ [op]) = ((run S ops).apply S op).1 := by
  simp [run, List.foldl_append]

theorem run_sc [PartialEquivBEq V] (hS : LawfulSteps S) (ops : List (Op (RangeInclusive K) V)) :
    SC (run S ops).btm ∧ ((∀ op ∈ ops, ∀ r ∈ op.inserted, r.exhausted = false) →
      Fresh (run S ops).btm) := by
  unfold run
  suffices ∀ m : RangeInclusiveMap K V, SC m.btm →
      SC (ops.foldl (fun m op => (m.apply S op).1) m).btm ∧
      (Fresh m.btm → (∀ op ∈ ops, ∀ r ∈ op.inserted, r.exhausted = false) →
        Fresh (ops.foldl (fun m op => (m.apply S op).1) m).btm) from
    ⟨(this _ SC.nil).1, (this _ SC.nil).2 WF.nil.fresh⟩
  induction ops with
  | nil => intro m h; exact ⟨h, fun h _ => h⟩
  | cons op ops ih =>
    intro m h
    have h1 := h.apply hS op
    have h2 := ih _ h1.1
    exact ⟨h2.1, fun hf hi => h2.2 (h1.2 hf (hi op (by simp))) fun o ho => hi o (by simp [ho])⟩

theorem Reachable.wf [PartialEquivBEq V] (hS : LawfulSteps S) {m : RangeInclusiveMap K V}
    (h : Reachable S m) : WF m.btm := by
  obtain ⟨ops, ho, rfl⟩ := h
  exact WF.mk' (run_sc hS ops).1 ((run_sc hS ops).2 ho)

theorem ReachableAny.sc [PartialEquivBEq V] (hS : LawfulSteps S) {m : RangeInclusiveMap K V}
    (h : ReachableAny S m) : SC m.btm := by
  obtain ⟨ops, rfl⟩ := h
  exact (run_sc hS ops).1

theorem Reachable.any {m : RangeInclusiveMap K V} (h : Reachable S m) : ReachableAny S m := by
  obtain ⟨ops, _, h⟩ := h
  exact ⟨ops, h⟩

theorem Reachable.new : Reachable S (RangeInclusiveMap.new : RangeInclusiveMap K V) :=
  ⟨[], by simp, rfl⟩

theorem Reachable.apply {m : RangeInclusiveMap K V} (h : Reachable S m)
    (op : Op (RangeInclusive K) V) (ho : ∀ r ∈ op.inserted, r.exhausted = false) :
    Reachable S (m.apply S op).1 := by
  obtain ⟨ops, h1, rfl⟩ := h
  refine ⟨ops ++ [op], ?_, run_append ops op⟩
  intro o hm
  rw [List.mem_append, List.mem_singleton] at hm
  rcases hm with hm | rfl
  · exact h1 o hm
  · exact ho

theorem ReachableAny.apply {m : RangeInclusiveMap K V} (h : ReachableAny S m)
    (op : Op (RangeInclusive K) V) : ReachableAny S (m.apply S op).1 := by
  obtain ⟨ops, rfl⟩ := h
  exact ⟨ops ++ [op], run_append ops op⟩

theorem Reachable.insert {m m' : RangeInclusiveMap K V} (h : Reachable S m)
    {r : RangeInclusive K} {v : V} (hr : r.exhausted = false)
    (hi : m.insert S r v = .ok m') : Reachable S m' := by
  have := h.apply (.insert r v) (by simpa [Op.inserted] using hr)
  simpa [RangeInclusiveMap.apply, hi] using this

theorem Reachable.remove {m m' : RangeInclusiveMap K V} (h : Reachable S m)
    {r : RangeInclusive K} (hi : m.remove S r = .ok m') : Reachable S m' := by
  have := h.apply (.remove r) (by simp [Op.inserted])
  simpa [RangeInclusiveMap.apply, hi] using this

/-- `get` as a total function, for well-formed maps. -/
def look (m : RangeInclusiveMap K V) (k : K) : Option V :=
  match m.get k with
  | .ok o => o
  | .error _ => none

theorem get_look {m : RangeInclusiveMap K V} (h : WF m.btm) (k : K) :
    m.get k = .ok (m.look k) := by
  obtain ⟨o, ho, _⟩ := get_spec h.sep h.fresh k
  simp [look, ho]

theorem look_eq_some {m : RangeInclusiveMap K V} (h : WF m.btm) (k : K) (w : V) :
    m.look k = some w ↔ Maps m.btm k w := by
  rw [← get_eq_some h.sep h.fresh, get_look h]
  simp

theorem look_eq_none {m : RangeInclusiveMap K V} (h : WF m.btm) (k : K) :
    m.look k = none ↔ ∀ w, ¬ Maps m.btm k w := by
  rw [← get_eq_none h.sep h.fresh, get_look h]
  simp

theorem look_congr {m m' : RangeInclusiveMap K V} (h : WF m.btm) (h' : WF m'.btm) {k : K}
    (he : ∀ w, Maps m'.btm k w ↔ Maps m.btm k w) : m'.look k = m.look k := by
  have := get_congr h.sep h.fresh h'.sep h'.fresh he
  rw [get_look h, get_look h'] at this
  simpa using this

/-- `insert` on the abstract contents. -/
theorem insert_look [PartialEquivBEq V] (hS : LawfulSteps S) {m m' : RangeInclusiveMap K V}
    (h : WF m.btm) {r : RangeInclusive K} {v : V} (hx : r.exhausted = false)
    (hr : r.start ≤ r.stop) (hi : m.insert S r v = .ok m') (k : K) :
    (r.start ≤ k → k ≤ r.stop → m'.look k = some v) ∧
    (¬ (r.start ≤ k ∧ k ≤ r.stop) → m'.look k = m.look k ∨
      ∃ w, m.look k = some w ∧ (w == v) = true ∧ m'.look k = some v) := by
  obtain ⟨m'', h1, h2, hf, _, n, h3, h4, h5, h6, h7⟩ := insert_spec hS h.sc v hr
  have : m'' = m' := by
    have := h1 _ (Nat.le_refl _)
    rw [RangeInclusiveMap.insert] at hi
    simpa [hi] using this.symm
  subst this
  have h2 := WF.mk' h2 (hf h.fresh hx)
  constructor
  · intro hk1 hk2
    rw [look_eq_some h2, h6 k (by grind) (by grind)]
  · intro hk
    by_cases hkn : n.start ≤ k ∧ k ≤ n.stop
    · right
      obtain ⟨w, hw1, hw2⟩ := h5 k hkn.1 hkn.2 hk
      refine ⟨w, (look_eq_some h _ _).2 hw1, hw2, ?_⟩
      rw [look_eq_some h2, h6 k hkn.1 hkn.2]
    · left
      exact look_congr h h2 (h7 k hkn)

theorem remove_look (hS : LawfulSteps S) {m m' : RangeInclusiveMap K V} (h : WF m.btm)
    {r : RangeInclusive K} (hr : r.start ≤ r.stop) (hi : m.remove S r = .ok m') (k : K) :
    m'.look k = if r.start ≤ k ∧ k ≤ r.stop then none else m.look k := by
  obtain ⟨m'', h1, h2, hf, _, h3, h4⟩ := remove_spec hS h.sc hr
  have : m'' = m' := by
    have := h1 _ (Nat.le_refl _)
    rw [RangeInclusiveMap.remove] at hi
    simpa [hi] using this.symm
  subst this
  have h2 := WF.mk' h2 (hf h.fresh)
  split
  · rename_i hk
    rw [look_eq_none h2]
    exact h3 k hk.1 hk.2
  · rename_i hk
    exact look_congr h h2 (h4 k hk)

theorem insert_look_agree [PartialEquivBEq V] (hS : LawfulSteps S)
    {m m' : RangeInclusiveMap K V} (h : WF m.btm) {r : RangeInclusive K} {v : V}
    (hx : r.exhausted = false) (hr : r.start ≤ r.stop) (hi : m.insert S r v = .ok m') (k : K) :
    Agree (m'.look k) (if r.start ≤ k ∧ k ≤ r.stop then some v else m.look k) := by
  have := insert_look hS h hx hr hi k
  split
  · rename_i hk
    rw [this.1 hk.1 hk.2]
    exact Agree.refl _
  · rename_i hk
    rcases this.2 hk with h | ⟨w, h1, h2, h3⟩
    · rw [h]; exact Agree.refl _
    · rw [h1, h3]
      exact Or.inr (PartialEquivBEq.symm h2)

end Verif.RangeInclusiveMap

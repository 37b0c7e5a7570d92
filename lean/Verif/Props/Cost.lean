import Verif.Props.Demo
import Verif.Proof.Cost
import Verif.Proof.ICost
import Verif.Proof.Reach
import Verif.Proof.IReach
import Verif.Props.Exact

/-!
# C59: how much work `insert` and `remove` do
-/
set_option linter.unusedSectionVars false

namespace Verif.Spec

/-- The number of ranges handed to `insert` or `remove` by a call. -/
def Op.count {R V : Type} : Op R V → Nat
  | .insert _ _ => 1
  | .remove _ => 1
  | .clear => 0
  | .extend items => items.length

/-- How many of the entries have a range with the property `P`. -/
noncomputable def howMany {R V : Type} (P : R → Prop) (entries : List (R × V)) : Nat :=
  open Classical in entries.countP fun e => decide (P e.1)

end Verif.Spec

namespace Verif.Props
open Spec
variable {K : Type} [LE K] [LT K] [DecidableLE K] [DecidableLT K]
  [Std.IsLinearPreorder K] [Std.LawfulOrderLT K] {V : Type} [BEq V] [PartialEquivBEq V]

/-! ## Half-open maps -/

section
open RangeMap

theorem insertCost_invalid {m : RangeMap K V} {r : Range K} {v : V} (h : ¬ r.start < r.stop) :
    m.insertCost r v = 0 := by
  unfold insertCost insertProgram
  refine (Cr.cost_user_bind _ _ _).trans ?_
  rw [if_neg h]
  rfl

theorem removeCost_invalid {m : RangeMap K V} {r : Range K} (h : ¬ r.start < r.stop) :
    m.removeCost r = 0 := by
  unfold removeCost removeProgram
  refine (Cr.cost_user_bind _ _ _).trans ?_
  rw [if_neg h]
  rfl

/-- **C59** `insert` searches the B-tree at most twice more than there are stored ranges touching the
given one, deletes at most those, and stores at most three entries — however large the map is. -/
theorem C59_insert_cost {m : RangeMap K V} (hm : Reachable m) (r : Range K) (v : V) :
    (m.insertCost r v).searches ≤ howMany (Touch r) m.iter + 2 ∧
    (m.insertCost r v).puts ≤ 3 ∧
    (m.insertCost r v).deletes ≤ howMany (Touch r) m.iter := by
  by_cases hr : r.start < r.stop
  · obtain ⟨h1, h2, h3, -⟩ := insert_count hm.wf v hr
      (fun e => open Classical in decide (Touch r e.1)) (by
        intro x hx h
        exact @decide_eq_true _ (Classical.propDecidable _) ((touch_iff hr (hm.wf.sep.ne x hx)).2 h))
    exact ⟨h1, h2, h3⟩
  · rw [insertCost_invalid hr]
    simp

/-- **C59** `remove` searches the B-tree at most twice more than there are stored ranges overlapping
the given one, deletes at most those, and stores at most two entries — however large the map is. -/
theorem C59_remove_cost {m : RangeMap K V} (hm : Reachable m) (r : Range K) :
    (m.removeCost r).searches ≤ howMany (Common covers r) m.iter + 2 ∧
    (m.removeCost r).puts ≤ 2 ∧
    (m.removeCost r).deletes ≤ howMany (Common covers r) m.iter := by
  by_cases hr : r.start < r.stop
  · obtain ⟨h1, h2, h3, -⟩ := remove_count hm.wf hr
      (fun e => open Classical in decide (Common covers r e.1)) (by
        intro x hx h
        exact @decide_eq_true _ (Classical.propDecidable _) ((common_iff hr (hm.wf.sep.ne x hx)).2 h))
    exact ⟨h1, h2, h3⟩
  · rw [removeCost_invalid hr]
    simp

example := C59_remove_cost (K := Nat) (V := Char) (m := Demo.map) Demo.map_reachable ⟨2, 22⟩

theorem insertCost_amortized {m : RangeMap K V} (hm : WF m.btm) (r : Range K) (v : V) :
    (m.insertCost r v).total + 2 * (m.apply (.insert r v)).1.len ≤ 11 + 2 * m.len := by
  unfold apply
  by_cases hr : r.start < r.stop
  · obtain ⟨-, h2, -, h4, h5⟩ := insert_count hm v hr (fun _ => true) (fun _ _ _ => rfl)
    obtain ⟨m', h6, -⟩ := insert_ok hm v hr
    have h5 := h5 m' h6
    simp only [h6]
    unfold Cost.total
    omega
  · simp only [insertCost_invalid hr, insert_invalid hr]
    show 0 + 2 * m.len ≤ _
    omega

theorem removeCost_amortized {m : RangeMap K V} (hm : WF m.btm) (r : Range K) :
    (m.removeCost r).total + 2 * (m.apply (.remove r)).1.len ≤ 8 + 2 * m.len := by
  unfold apply
  by_cases hr : r.start < r.stop
  · obtain ⟨-, h2, -, h4, h5⟩ := remove_count hm hr (fun _ => true) (fun _ _ _ => rfl)
    obtain ⟨m', h6, -⟩ := remove_spec hm hr
    have h6 : m.remove r = .ok m' := h6 _ (Nat.le_refl _)
    have h5 := h5 m' h6
    simp only [h6]
    unfold Cost.total
    omega
  · simp only [removeCost_invalid hr, remove_invalid hr]
    show 0 + 2 * m.len ≤ _
    omega

theorem extendCost_amortized (items : List (Range K × V)) : ∀ {m : RangeMap K V},
    WF m.btm →
    (m.extendCost items).total + 2 * (m.extend items).1.len ≤ 11 * items.length + 2 * m.len := by
  induction items with
  | nil => intro m _; show 0 + 2 * m.len ≤ 11 * 0 + 2 * m.len; omega
  | cons e t ih =>
    intro m hm
    obtain ⟨r, v⟩ := e
    have h1 := insertCost_amortized hm r v
    unfold apply at h1
    unfold extendCost extend
    by_cases hr : r.start < r.stop
    · obtain ⟨m', h6, h7⟩ := insert_ok hm v hr
      have h8 := ih h7
      simp only [h6, List.length_cons] at h1 ⊢
      unfold Cost.total at *
      simp only [Cost.add_searches, Cost.add_puts, Cost.add_deletes]
      omega
    · rw [insertCost_invalid hr, insert_invalid hr]
      show 0 + 2 * m.len ≤ _
      omega

/-- **C59** A history of calls makes at most eleven calls of B-tree methods for every range inserted
or removed, and two for every range stored at the beginning. -/
theorem C59_history_cost (ops : List (Op (Range K) V)) {m : RangeMap K V} (hm : Reachable m) :
    (m.historyCost ops).total ≤ 11 * (ops.map Op.count).sum + 2 * m.len := by
  suffices ∀ m : RangeMap K V, Reachable m →
      (m.historyCost ops).total + 2 * (ops.foldl (fun m op => (m.apply op).1) m).len ≤
        11 * (ops.map Op.count).sum + 2 * m.len by
    have := this m hm
    omega
  clear hm m
  induction ops with
  | nil => intro m _; show 0 + 2 * m.len ≤ 11 * 0 + 2 * m.len; omega
  | cons op ops ih =>
    intro m hm
    have h1 := ih _ (hm.apply op)
    have h2 : (m.opCost op).total + 2 * (m.apply op).1.len ≤ 11 * op.count + 2 * m.len := by
      cases op with
      | insert r v =>
        have := insertCost_amortized hm.wf r v
        show _ ≤ 11 * 1 + _
        simp only [opCost]
        omega
      | remove r =>
        have := removeCost_amortized hm.wf r
        show _ ≤ 11 * 1 + _
        simp only [opCost]
        omega
      | clear =>
        show 0 + 2 * 0 ≤ _
        omega
      | extend items => exact extendCost_amortized items hm.wf
    simp only [historyCost, List.foldl_cons, List.map_cons, List.sum_cons]
    unfold Cost.total at *
    simp only [Cost.add_searches, Cost.add_puts, Cost.add_deletes]
    omega

/-- A call in the middle of the map: one stored range touches it. -/
example : Demo.map.insertCost ⟨12, 18⟩ 'a' = ⟨2, 1, 1⟩ := by rfl
/-- A call over all of the map. -/
example : Demo.map.insertCost ⟨1, 30⟩ 'x' = ⟨5, 3, 4⟩ := by rfl
example : Demo.map.removeCost ⟨1, 30⟩ = ⟨5, 2, 4⟩ := by rfl
example : howMany (Touch (⟨1, 30⟩ : Range Nat)) Demo.map.iter ≤ 4 := by
  unfold howMany
  exact List.countP_le_length
example : (Demo.map.insertCost ⟨1, 30⟩ 'x').puts ≤ 3 :=
  (C59_insert_cost Demo.map_reachable ⟨1, 30⟩ 'x').2.1
/-- Nothing touches the given range: two searches and one entry stored. -/
example : Demo.map.insertCost ⟨50, 60⟩ 'x' = ⟨2, 1, 0⟩ := by rfl
/-- A history of eight ranges. -/
example : (RangeMap.new : RangeMap Nat Char).historyCost Demo.ops = ⟨10, 7, 3⟩ := by rfl
example : (Demo.ops.map Op.count).sum = 8 := by rfl

end

namespace Inclusive
open RangeInclusiveMap
variable {S : StepFns K}

/-! ## Inclusive maps -/

theorem insertCost_invalid {S : StepFns K} {m : RangeInclusiveMap K V} {r : RangeInclusive K} {v : V} (h : ¬ r.start ≤ r.stop) :
    m.insertCost S r v = 0 := by
  unfold insertCost insertProgram
  refine (Cr.cost_user_bind _ _ _).trans ?_
  rw [if_neg h]
  rfl

theorem removeCost_invalid {S : StepFns K} {m : RangeInclusiveMap K V} {r : RangeInclusive K} (h : ¬ r.start ≤ r.stop) :
    m.removeCost S r = 0 := by
  unfold removeCost removeProgram
  refine (Cr.cost_user_bind _ _ _).trans ?_
  rw [if_neg h]
  rfl

/-- **C59** `insert` searches the B-tree at most twice more than there are stored ranges touching the
given one, deletes at most those, and stores at most three entries — however large the map is. -/
theorem C59_insert_cost (hS : LawfulSteps S) {m : RangeInclusiveMap K V} (hm : ReachableAny S m) (r : RangeInclusive K) (v : V) :
    (m.insertCost S r v).searches ≤ howMany (ITouch r) m.iter + 2 ∧
    (m.insertCost S r v).puts ≤ 3 ∧
    (m.insertCost S r v).deletes ≤ howMany (ITouch r) m.iter := by
  by_cases hr : r.start ≤ r.stop
  · obtain ⟨h1, h2, h3, -⟩ := insert_count hS (hm.sc hS) v hr
      (fun e => open Classical in decide (ITouch r e.1)) (by
        intro x hx h
        exact @decide_eq_true _ (Classical.propDecidable _) ((touch_iff hr ((hm.sc hS).sep.ne x hx)).2 h))
    exact ⟨h1, h2, h3⟩
  · rw [insertCost_invalid hr]
    simp

/-- **C59** `remove` searches the B-tree at most twice more than there are stored ranges overlapping
the given one, deletes at most those, and stores at most two entries — however large the map is. -/
theorem C59_remove_cost (hS : LawfulSteps S) {m : RangeInclusiveMap K V} (hm : ReachableAny S m) (r : RangeInclusive K) :
    (m.removeCost S r).searches ≤ howMany (Common icovers r) m.iter + 2 ∧
    (m.removeCost S r).puts ≤ 2 ∧
    (m.removeCost S r).deletes ≤ howMany (Common icovers r) m.iter := by
  by_cases hr : r.start ≤ r.stop
  · obtain ⟨h1, h2, h3, -⟩ := remove_count hS (hm.sc hS) hr
      (fun e => open Classical in decide (Common icovers r e.1)) (by
        intro x hx h
        exact @decide_eq_true _ (Classical.propDecidable _) ((common_iff hr ((hm.sc hS).sep.ne x hx)).2 h))
    exact ⟨h1, h2, h3⟩
  · rw [removeCost_invalid hr]
    simp

example := Inclusive.C59_remove_cost (K := UIntW 8) (V := Char) (S := Demo.u8) Demo.u8_lawful
    (m := Demo.imap) Demo.imap_reachable.any (Demo.by8 2 22)

theorem insertCost_amortized (hS : LawfulSteps S) {m : RangeInclusiveMap K V} (hm : SC m.btm) (r : RangeInclusive K) (v : V) :
    (m.insertCost S r v).total + 2 * (m.apply S (.insert r v)).1.len ≤ 11 + 2 * m.len := by
  unfold apply
  by_cases hr : r.start ≤ r.stop
  · obtain ⟨-, h2, -, h4, h5⟩ := insert_count hS hm v hr (fun _ => true) (fun _ _ _ => rfl)
    obtain ⟨m', h6, -⟩ := insert_ok hS hm v hr
    have h5 := h5 m' h6
    simp only [h6]
    unfold Cost.total
    omega
  · simp only [insertCost_invalid hr, insert_invalid hr]
    show 0 + 2 * m.len ≤ _
    omega

theorem removeCost_amortized (hS : LawfulSteps S) {m : RangeInclusiveMap K V} (hm : SC m.btm) (r : RangeInclusive K) :
    (m.removeCost S r).total + 2 * (m.apply S (.remove r)).1.len ≤ 8 + 2 * m.len := by
  unfold apply
  by_cases hr : r.start ≤ r.stop
  · obtain ⟨-, h2, -, h4, h5⟩ := remove_count hS hm hr (fun _ => true) (fun _ _ _ => rfl)
    obtain ⟨m', h6, -⟩ := remove_spec hS hm hr
    have h6 : m.remove S r = .ok m' := h6 _ (Nat.le_refl _)
    have h5 := h5 m' h6
    simp only [h6]
    unfold Cost.total
    omega
  · simp only [removeCost_invalid hr, remove_invalid hr]
    show 0 + 2 * m.len ≤ _
    omega

theorem extendCost_amortized (hS : LawfulSteps S) (items : List (RangeInclusive K × V)) : ∀ {m : RangeInclusiveMap K V},
    SC m.btm →
    (m.extendCost S items).total + 2 * (m.extend S items).1.len ≤ 11 * items.length + 2 * m.len := by
  induction items with
  | nil => intro m _; show 0 + 2 * m.len ≤ 11 * 0 + 2 * m.len; omega
  | cons e t ih =>
    intro m hm
    obtain ⟨r, v⟩ := e
    have h1 := insertCost_amortized hS hm r v
    unfold apply at h1
    unfold extendCost extend
    by_cases hr : r.start ≤ r.stop
    · obtain ⟨m', h6, h7⟩ := insert_ok hS hm v hr
      have h8 := ih h7.1
      simp only [h6, List.length_cons] at h1 ⊢
      unfold Cost.total at *
      simp only [Cost.add_searches, Cost.add_puts, Cost.add_deletes]
      omega
    · rw [insertCost_invalid hr, insert_invalid hr]
      show 0 + 2 * m.len ≤ _
      omega

/-- **C59** A history of calls makes at most eleven calls of B-tree methods for every range inserted
or removed, and two for every range stored at the beginning. -/
theorem C59_history_cost (hS : LawfulSteps S) (ops : List (Op (RangeInclusive K) V)) {m : RangeInclusiveMap K V} (hm : ReachableAny S m) :
    (m.historyCost S ops).total ≤ 11 * (ops.map Op.count).sum + 2 * m.len := by
  suffices ∀ m : RangeInclusiveMap K V, ReachableAny S m →
      (m.historyCost S ops).total + 2 * (ops.foldl (fun m op => (m.apply S op).1) m).len ≤
        11 * (ops.map Op.count).sum + 2 * m.len by
    have := this m hm
    omega
  clear hm m
  induction ops with
  | nil => intro m _; show 0 + 2 * m.len ≤ 11 * 0 + 2 * m.len; omega
  | cons op ops ih =>
    intro m hm
    have h1 := ih _ (hm.apply op)
    have h2 : (m.opCost S op).total + 2 * (m.apply S op).1.len ≤ 11 * op.count + 2 * m.len := by
      cases op with
      | insert r v =>
        have := insertCost_amortized hS (hm.sc hS) r v
        show _ ≤ 11 * 1 + _
        simp only [opCost]
        omega
      | remove r =>
        have := removeCost_amortized hS (hm.sc hS) r
        show _ ≤ 11 * 1 + _
        simp only [opCost]
        omega
      | clear =>
        show 0 + 2 * 0 ≤ _
        omega
      | extend items => exact extendCost_amortized hS items (hm.sc hS)
    simp only [historyCost, List.foldl_cons, List.map_cons, List.sum_cons]
    unfold Cost.total at *
    simp only [Cost.add_searches, Cost.add_puts, Cost.add_deletes]
    omega

/-- A call over the whole key domain. -/
example : Demo.imap.insertCost Demo.u8 (Demo.by8 1 30) 'x' = ⟨5, 3, 4⟩ := by rfl
example : Demo.imap.removeCost Demo.u8 (Demo.by8 1 30) = ⟨5, 2, 4⟩ := by rfl
example : Demo.imap.insertCost Demo.u8 (Demo.by8 0 255) 'x' = ⟨5, 1, 4⟩ := by rfl
/-- Touches one stored range. -/
example : Demo.imap.insertCost Demo.u8 (Demo.by8 16 17) 'a' = ⟨2, 1, 1⟩ := by rfl
example : (Demo.imap.insertCost Demo.u8 (Demo.by8 1 30) 'x').puts ≤ 3 :=
  (C59_insert_cost Demo.u8_lawful Demo.imap_reachable.any (Demo.by8 1 30) 'x').2.1
example : (RangeInclusiveMap.new : RangeInclusiveMap (UIntW 8) Char).historyCost Demo.u8 Demo.iops =
    ⟨10, 7, 3⟩ := by rfl

end Inclusive
end Verif.Props

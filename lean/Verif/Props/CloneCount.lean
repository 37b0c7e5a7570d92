import Verif.Props.Demo
import Verif.Model.CloneCount
import Verif.Proof.CloneOpsCount
import Verif.Proof.ICloneCount
import Verif.Props.Cost
import Verif.Props.Clone

/-!
# C68: how many clones are made
-/
set_option linter.unusedSectionVars false

namespace Verif.Props
open Spec
variable {K : Type} [LE K] [LT K] [DecidableLE K] [DecidableLT K]
  [Std.IsLinearPreorder K] [Std.LawfulOrderLT K] {V : Type} [BEq V] [PartialEquivBEq V]

/-! ## Half-open maps -/

section
open RangeMap

/-- **C68** `insert` clones at most one value more than there are stored ranges touching the given one,
and at most four keys for each of them and four more — however large the map is. -/
theorem C68_insert_clones {m : RangeMap K V} (hm : Reachable m) (r : Range K) (v : V) :
    (m.insertL r v).keys ≤ 4 * howMany (Touch r) m.iter + 4 ∧
    (m.insertL r v).vals ≤ howMany (Touch r) m.iter + 1 := by
  by_cases hr : r.start < r.stop
  · obtain ⟨h1, h2⟩ := insertL_clones hm.wf v hr
    have h3 := (C59_insert_cost hm r v).2.2
    omega
  · unfold insertL
    rw [if_neg hr]
    exact ⟨Nat.zero_le _, Nat.zero_le _⟩

/-- **C68** `remove` clones at most one value more than there are stored ranges overlapping the given
one, and at most three keys for each of them and three more. -/
theorem C68_remove_clones {m : RangeMap K V} (hm : Reachable m) (r : Range K) :
    (m.removeL r).keys ≤ 3 * howMany (Common covers r) m.iter + 3 ∧
    (m.removeL r).vals ≤ howMany (Common covers r) m.iter + 1 := by
  by_cases hr : r.start < r.stop
  · obtain ⟨h1, h2⟩ := removeL_clones hm.wf hr
    have h3 := (C59_remove_cost hm r).2.2
    omega
  · unfold removeL
    rw [if_neg hr]
    exact ⟨Nat.zero_le _, Nat.zero_le _⟩

/-- **C68** `insert` and `remove` that panic because of their range have cloned nothing. -/
theorem C68_invalid (m : RangeMap K V) {r : Range K} (hr : ¬ r.start < r.stop) (v : V) :
    (m.insertL r v).keys = 0 ∧ (m.insertL r v).vals = 0 ∧
    (m.removeL r).keys = 0 ∧ (m.removeL r).vals = 0 := by
  unfold insertL removeL
  rw [if_neg hr, if_neg hr]
  exact ⟨rfl, rfl, rfl, rfl⟩

example := C68_invalid (K := Nat) (V := Char) Demo.map (r := ⟨9, 4⟩) (by decide) 'q'

theorem insertClones_amortized {m : RangeMap K V} (hm : WF m.btm) (r : Range K) (v : V) :
    (m.insertL r v).keys + 4 * (m.apply (.insert r v)).1.len ≤ 16 + 4 * m.len ∧
    (m.insertL r v).vals + (m.apply (.insert r v)).1.len ≤ 4 + m.len := by
  unfold apply
  by_cases hr : r.start < r.stop
  · obtain ⟨-, h2, -, h4, h5⟩ := insert_count hm v hr (fun _ => true) (fun _ _ _ => rfl)
    obtain ⟨m', h6, -⟩ := insert_ok hm v hr
    have h5 := h5 m' h6
    have h7 := insertL_clones hm v hr
    simp only [h6]
    omega
  · have h7 := C68_invalid m hr v
    simp only [insert_invalid hr]
    omega

theorem removeClones_amortized {m : RangeMap K V} (hm : WF m.btm) (r : Range K) :
    (m.removeL r).keys + 4 * (m.apply (.remove r)).1.len ≤ 11 + 4 * m.len ∧
    (m.removeL r).vals + (m.apply (.remove r)).1.len ≤ 3 + m.len := by
  unfold apply
  by_cases hr : r.start < r.stop
  · obtain ⟨-, h2, -, h4, h5⟩ := remove_count hm hr (fun _ => true) (fun _ _ _ => rfl)
    obtain ⟨m', h6, -⟩ := remove_spec hm hr
    have h6 : m.remove r = .ok m' := h6 _ (Nat.le_refl _)
    have h5 := h5 m' h6
    have h7 := removeL_clones hm hr
    simp only [h6]
    omega
  · have h7 : (m.removeL r).keys = 0 ∧ (m.removeL r).vals = 0 := by
      unfold removeL
      rw [if_neg hr]
      exact ⟨rfl, rfl⟩
    simp only [remove_invalid hr]
    omega

theorem extendClones_amortized (items : List (Range K × V)) : ∀ {m : RangeMap K V},
    WF m.btm →
    m.extendClones Cl.keys items + 4 * (m.extend items).1.len ≤ 16 * items.length + 4 * m.len ∧
    m.extendClones Cl.vals items + (m.extend items).1.len ≤ 4 * items.length + m.len := by
  induction items with
  | nil => intro m _; show 0 + 4 * m.len ≤ 16 * 0 + 4 * m.len ∧ 0 + m.len ≤ 4 * 0 + m.len; omega
  | cons e t ih =>
    intro m hm
    obtain ⟨r, v⟩ := e
    have h1 := insertClones_amortized hm r v
    unfold apply at h1
    unfold extendClones extend
    by_cases hr : r.start < r.stop
    · obtain ⟨m', h6, h7⟩ := insert_ok hm v hr
      have h8 := ih h7
      simp only [h6, List.length_cons] at h1 ⊢
      omega
    · rw [(C68_invalid m hr v).1, (C68_invalid m hr v).2.1, insert_invalid hr]
      show 0 + 4 * m.len ≤ _ ∧ 0 + m.len ≤ _
      omega

/-- **C68** A history of calls makes at most sixteen clones of keys and four of values for every range
inserted or removed, and four resp. one for every range stored at the beginning. -/
theorem C68_history_clones (ops : List (Op (Range K) V)) {m : RangeMap K V} (hm : Reachable m) :
    m.historyClones Cl.keys ops ≤ 16 * (ops.map Op.count).sum + 4 * m.len ∧
    m.historyClones Cl.vals ops ≤ 4 * (ops.map Op.count).sum + m.len := by
  suffices ∀ m : RangeMap K V, Reachable m →
      m.historyClones Cl.keys ops + 4 * (ops.foldl (fun m op => (m.apply op).1) m).len ≤
        16 * (ops.map Op.count).sum + 4 * m.len ∧
      m.historyClones Cl.vals ops + (ops.foldl (fun m op => (m.apply op).1) m).len ≤
        4 * (ops.map Op.count).sum + m.len by
    have := this m hm
    omega
  clear hm m
  induction ops with
  | nil => intro m _; show 0 + 4 * m.len ≤ 16 * 0 + 4 * m.len ∧ 0 + m.len ≤ 4 * 0 + m.len; omega
  | cons op ops ih =>
    intro m hm
    have h1 := ih _ (hm.apply op)
    have h2 : m.opClones Cl.keys op + 4 * (m.apply op).1.len ≤ 16 * op.count + 4 * m.len ∧
        m.opClones Cl.vals op + (m.apply op).1.len ≤ 4 * op.count + m.len := by
      cases op with
      | insert r v =>
        have := insertClones_amortized hm.wf r v
        simp only [opClones, Op.count]
        omega
      | remove r =>
        have := removeClones_amortized hm.wf r
        simp only [opClones, Op.count]
        omega
      | clear =>
        show 0 + 4 * 0 ≤ _ ∧ 0 + 0 ≤ _
        omega
      | extend items => exact extendClones_amortized items hm.wf
    simp only [historyClones, List.foldl_cons, List.map_cons, List.sum_cons]
    omega

omit [Std.IsLinearPreorder K] [Std.LawfulOrderLT K] [BEq V] [PartialEquivBEq V] in
/-- **C68** Lookups, `overlapping` and `gaps` clone two keys, and no value. -/
theorem C68_query_clones (m : RangeMap K V) (k : K) (r : Range K) :
    (m.getKeyValueL k).keys = 2 ∧ (m.getKeyValueL k).vals = 0 ∧
    (m.overlappingL r).keys = 2 ∧ (m.overlappingL r).vals = 0 ∧
    (m.gapsL r).keys = 2 ∧ (m.gapsL r).vals = 0 :=
  ⟨(getKeyValueL_clones m k).1, (getKeyValueL_clones m k).2, (overlappingL_clones m r).1,
    (overlappingL_clones m r).2, (gapsL_clones m r).1, (gapsL_clones m r).2⟩

example := C68_query_clones (K := Nat) (V := Char) Demo.map 7 ⟨2, 22⟩

omit [Std.IsLinearPreorder K] [Std.LawfulOrderLT K] [BEq V] [PartialEquivBEq V] in
/-- **C68** `Gaps::next` clones the two ends of the gap it returns, and nothing else. -/
theorem C68_gaps_next_clones (g : Gaps K V) :
    g.nextL.keys = (if g.next.1.isSome then 2 else 0) ∧ g.nextL.vals = 0 :=
  Gaps.nextL_clones g

example := C68_gaps_next_clones (K := Nat) (V := Char) (RangeMap.Gaps.mk 2 22 Demo.map.iter)

omit [LE K] [LT K] [DecidableLE K] [DecidableLT K] [Std.IsLinearPreorder K] [Std.LawfulOrderLT K]
  [BEq V] [PartialEquivBEq V] in
/-- **C68** `clone` clones every key and value stored, once. -/
theorem C68_clone_clones [LE K] [LT K] [DecidableLE K] [DecidableLT K] (m : RangeMap K V) :
    (cloneL m.btm).keys = 2 * m.len ∧ (cloneL m.btm).vals = m.len :=
  cloneL_clones m.btm

example := C68_clone_clones (K := Nat) (V := Char) Demo.map

omit [Std.IsLinearPreorder K] [Std.LawfulOrderLT K] [BEq V] [PartialEquivBEq V] in
/-- **C68** `Union::next` makes at most one clone of a key more than it takes ranges from the two sets;
`Intersection::next` clones the two ends of the range it returns, and nothing else. -/
theorem C68_operations_clones (u : Union (Range K)) (i : Intersection (Range K)) :
    (u.nextL (V := V) Cl.cloneRange Range.mergeL).keys + (u.next.2.left.length + u.next.2.right.length) ≤
      (u.left.length + u.right.length) + (if u.next.1.isSome then 1 else 0) ∧
    (i.nextL (V := V) Range.intersectL).keys = if i.next.1.isSome then 2 else 0 := by
  constructor
  · have := (Union.nextL_clones (V := V) (clone := Cl.cloneRange) (merge := Range.mergeL) (w := 1)
      (fun _ => rfl) (fun _ => ⟨rfl, rfl⟩) Range.mergeL_eval Range.mergeL_clones u).1
    split at this
    · next h => rw [if_pos h]; omega
    · next h =>
      rw [if_neg h, this]
      unfold Union.next at h ⊢
      cases hf : u.first with
      | none => simp only; omega
      | some p => rw [hf] at h; simp at h
  · exact (Intersection.nextLoopL_clones (V := V) Range.intersectL_eval Range.intersectL_clones _ _ _
      (by omega)).1

example := C68_operations_clones (K := Nat) (V := Char) ⟨[⟨2, 9⟩], [⟨4, 30⟩]⟩ ⟨[⟨2, 9⟩], [⟨4, 30⟩]⟩

omit [Std.IsLinearPreorder K] [Std.LawfulOrderLT K] [BEq V] [PartialEquivBEq V] in
/-- **C65** With clones that are what was cloned, `Union` and `Intersection` are those of the other
properties. -/
theorem C65_identical_operations (u : Union (Range K)) (x : Intersection (Range K)) (i : Nat) :
    (u.nextL (V := V) Cl.cloneRange Range.mergeL).run identical i = .ok u.next ∧
    (x.nextL (V := V) Range.intersectL).run identical i = .ok x.next := by
  rw [Cl.run_identical, Cl.run_identical]
  exact ⟨Union.nextL_eval (fun _ => rfl) Range.mergeL_eval u,
    Intersection.nextLoopL_eval Range.intersectL_eval _ _ _ (by omega)⟩

/-- A call over all of the map: every stored range is cloned. -/
example : (Demo.map.insertL ⟨1, 30⟩ 'x').keys = 12 ∧ (Demo.map.insertL ⟨1, 30⟩ 'x').vals = 5 := by
  exact ⟨rfl, rfl⟩
example : (Demo.map.removeL ⟨1, 30⟩).keys = 12 ∧ (Demo.map.removeL ⟨1, 30⟩).vals = 5 := ⟨rfl, rfl⟩
/-- Nothing touches the given range. -/
example : (Demo.map.insertL ⟨50, 60⟩ 'x').keys = 2 ∧ (Demo.map.insertL ⟨50, 60⟩ 'x').vals = 0 :=
  ⟨rfl, rfl⟩
example : (Demo.map.insertL ⟨1, 30⟩ 'x').vals ≤ howMany (Touch (⟨1, 30⟩ : Range Nat)) Demo.map.iter + 1 :=
  (C68_insert_clones Demo.map_reachable ⟨1, 30⟩ 'x').2
example : (Demo.map.removeL ⟨1, 30⟩).vals ≤
    howMany (Common covers (⟨1, 30⟩ : Range Nat)) Demo.map.iter + 1 :=
  (C68_remove_clones Demo.map_reachable ⟨1, 30⟩).2
example : (RangeMap.new : RangeMap Nat Char).historyClones Cl.keys Demo.ops = 21 := by rfl
example : (RangeMap.new : RangeMap Nat Char).historyClones Cl.vals Demo.ops = 5 := by rfl
example : (RangeMap.new : RangeMap Nat Char).historyClones Cl.keys Demo.ops ≤ 16 * 8 + 4 * 0 :=
  (C68_history_clones Demo.ops Reachable.new).1
example : ¬ (⟨7, 7⟩ : Range Nat).start < (⟨7, 7⟩ : Range Nat).stop := by decide

end

/-! ## Inclusive maps -/

namespace Inclusive
open RangeInclusiveMap
variable {S : StepFns K}

/-- **C68** `insert` clones at most one value more than there are stored ranges touching the given one,
and at most four keys for each of them and six more — however large the map is. -/
theorem C68_insert_clones (hS : LawfulSteps S) {m : RangeInclusiveMap K V} (hm : ReachableAny S m) (r : RangeInclusive K) (v : V) :
    (m.insertL S r v).keys ≤ 4 * howMany (ITouch r) m.iter + 6 ∧
    (m.insertL S r v).vals ≤ howMany (ITouch r) m.iter + 1 := by
  by_cases hr : r.start ≤ r.stop
  · obtain ⟨h1, h2⟩ := insertL_clones hS (hm.sc hS) v hr
    have h3 := (C59_insert_cost hS hm r v).2.2
    omega
  · unfold insertL
    rw [if_neg hr]
    exact ⟨Nat.zero_le _, Nat.zero_le _⟩

/-- **C68** `remove` clones at most one value more than there are stored ranges overlapping the given
one, and at most three keys for each of them and three more. -/
theorem C68_remove_clones (hS : LawfulSteps S) {m : RangeInclusiveMap K V} (hm : ReachableAny S m) (r : RangeInclusive K) :
    (m.removeL S r).keys ≤ 3 * howMany (Common icovers r) m.iter + 3 ∧
    (m.removeL S r).vals ≤ howMany (Common icovers r) m.iter + 1 := by
  by_cases hr : r.start ≤ r.stop
  · obtain ⟨h1, h2⟩ := removeL_clones hS (hm.sc hS) hr
    have h3 := (C59_remove_cost hS hm r).2.2
    omega
  · unfold removeL
    rw [if_neg hr]
    exact ⟨Nat.zero_le _, Nat.zero_le _⟩

/-- **C68** `insert` and `remove` that panic because of their range have cloned nothing. -/
theorem C68_invalid (m : RangeInclusiveMap K V) {r : RangeInclusive K} (hr : ¬ r.start ≤ r.stop) (v : V) :
    (m.insertL S r v).keys = 0 ∧ (m.insertL S r v).vals = 0 ∧
    (m.removeL S r).keys = 0 ∧ (m.removeL S r).vals = 0 := by
  unfold insertL removeL
  rw [if_neg hr, if_neg hr]
  exact ⟨rfl, rfl, rfl, rfl⟩

example := Inclusive.C68_invalid (K := UIntW 8) (V := Char) (S := Demo.u8) Demo.imap
    (r := Demo.by8 9 4) (by decide) 'q'

theorem insertClones_amortized (hS : LawfulSteps S) {m : RangeInclusiveMap K V} (hm : SC m.btm) (r : RangeInclusive K) (v : V) :
    (m.insertL S r v).keys + 4 * (m.apply S (.insert r v)).1.len ≤ 18 + 4 * m.len ∧
    (m.insertL S r v).vals + (m.apply S (.insert r v)).1.len ≤ 4 + m.len := by
  unfold apply
  by_cases hr : r.start ≤ r.stop
  · obtain ⟨-, h2, -, h4, h5⟩ := insert_count hS hm v hr (fun _ => true) (fun _ _ _ => rfl)
    obtain ⟨m', h6, -⟩ := insert_ok hS hm v hr
    have h5 := h5 m' h6
    have h7 := insertL_clones hS hm v hr
    simp only [h6]
    omega
  · have h7 := C68_invalid (S := S) m hr v
    simp only [insert_invalid hr]
    omega

theorem removeClones_amortized (hS : LawfulSteps S) {m : RangeInclusiveMap K V} (hm : SC m.btm) (r : RangeInclusive K) :
    (m.removeL S r).keys + 4 * (m.apply S (.remove r)).1.len ≤ 11 + 4 * m.len ∧
    (m.removeL S r).vals + (m.apply S (.remove r)).1.len ≤ 3 + m.len := by
  unfold apply
  by_cases hr : r.start ≤ r.stop
  · obtain ⟨-, h2, -, h4, h5⟩ := remove_count hS hm hr (fun _ => true) (fun _ _ _ => rfl)
    obtain ⟨m', h6, -⟩ := remove_spec hS hm hr
    have h6 : m.remove S r = .ok m' := h6 _ (Nat.le_refl _)
    have h5 := h5 m' h6
    have h7 := removeL_clones hS hm hr
    simp only [h6]
    omega
  · have h7 : (m.removeL S r).keys = 0 ∧ (m.removeL S r).vals = 0 := by
      unfold removeL
      rw [if_neg hr]
      exact ⟨rfl, rfl⟩
    simp only [remove_invalid hr]
    omega

theorem extendClones_amortized (hS : LawfulSteps S) (items : List (RangeInclusive K × V)) : ∀ {m : RangeInclusiveMap K V},
    SC m.btm →
    m.extendClones Cl.keys S items + 4 * (m.extend S items).1.len ≤ 18 * items.length + 4 * m.len ∧
    m.extendClones Cl.vals S items + (m.extend S items).1.len ≤ 4 * items.length + m.len := by
  induction items with
  | nil => intro m _; show 0 + 4 * m.len ≤ 18 * 0 + 4 * m.len ∧ 0 + m.len ≤ 4 * 0 + m.len; omega
  | cons e t ih =>
    intro m hm
    obtain ⟨r, v⟩ := e
    have h1 := insertClones_amortized hS hm r v
    unfold apply at h1
    unfold extendClones extend
    by_cases hr : r.start ≤ r.stop
    · obtain ⟨m', h6, h7⟩ := insert_ok hS hm v hr
      have h8 := ih h7.1
      simp only [h6, List.length_cons] at h1 ⊢
      omega
    · rw [(C68_invalid m hr v).1, (C68_invalid m hr v).2.1, insert_invalid hr]
      show 0 + 4 * m.len ≤ _ ∧ 0 + m.len ≤ _
      omega

/-- **C68** A history of calls makes at most eighteen clones of keys and four of values for every range
inserted or removed, and four resp. one for every range stored at the beginning. -/
theorem C68_history_clones (hS : LawfulSteps S) (ops : List (Op (RangeInclusive K) V)) {m : RangeInclusiveMap K V} (hm : ReachableAny S m) :
    m.historyClones Cl.keys S ops ≤ 18 * (ops.map Op.count).sum + 4 * m.len ∧
    m.historyClones Cl.vals S ops ≤ 4 * (ops.map Op.count).sum + m.len := by
  suffices ∀ m : RangeInclusiveMap K V, ReachableAny S m →
      m.historyClones Cl.keys S ops + 4 * (ops.foldl (fun m op => (m.apply S op).1) m).len ≤
        18 * (ops.map Op.count).sum + 4 * m.len ∧
      m.historyClones Cl.vals S ops + (ops.foldl (fun m op => (m.apply S op).1) m).len ≤
        4 * (ops.map Op.count).sum + m.len by
    have := this m hm
    omega
  clear hm m
  induction ops with
  | nil => intro m _; show 0 + 4 * m.len ≤ 18 * 0 + 4 * m.len ∧ 0 + m.len ≤ 4 * 0 + m.len; omega
  | cons op ops ih =>
    intro m hm
    have h1 := ih _ (hm.apply op)
    have h2 : m.opClones Cl.keys S op + 4 * (m.apply S op).1.len ≤ 18 * op.count + 4 * m.len ∧
        m.opClones Cl.vals S op + (m.apply S op).1.len ≤ 4 * op.count + m.len := by
      cases op with
      | insert r v =>
        have := insertClones_amortized hS (hm.sc hS) r v
        simp only [opClones, Op.count]
        omega
      | remove r =>
        have := removeClones_amortized hS (hm.sc hS) r
        simp only [opClones, Op.count]
        omega
      | clear =>
        show 0 + 4 * 0 ≤ _ ∧ 0 + 0 ≤ _
        omega
      | extend items => exact extendClones_amortized hS items (hm.sc hS)
    simp only [historyClones, List.foldl_cons, List.map_cons, List.sum_cons]
    omega

example := Inclusive.C68_history_clones (K := UIntW 8) (V := Char) (S := Demo.u8) Demo.u8_lawful
    Demo.iops (m := Demo.imap) Demo.imap_reachable.any

omit [Std.IsLinearPreorder K] [Std.LawfulOrderLT K] [BEq V] [PartialEquivBEq V] in
/-- **C68** Lookups, `overlapping` and `gaps` clone two keys, and no value. -/
theorem C68_query_clones (m : RangeInclusiveMap K V) (k : K) (r : RangeInclusive K) :
    (m.getKeyValueL k).keys = 2 ∧ (m.getKeyValueL k).vals = 0 ∧
    (m.overlappingL r).keys = 2 ∧ (m.overlappingL r).vals = 0 ∧
    (m.gapsL r).keys = 2 ∧ (m.gapsL r).vals = 0 :=
  ⟨(getKeyValueL_clones m k).1, (getKeyValueL_clones m k).2, (overlappingL_clones m r).1,
    (overlappingL_clones m r).2, (gapsL_clones m r).1, (gapsL_clones m r).2⟩

example := Inclusive.C68_query_clones (K := UIntW 8) (V := Char) Demo.imap ⟨7⟩ (Demo.by8 2 22)

omit [Std.IsLinearPreorder K] [Std.LawfulOrderLT K] [BEq V] [PartialEquivBEq V] in
/-- **C68** `Gaps::next` clones at most two keys, and no value. -/
theorem C68_gaps_next_clones (g : Gaps K V) : (g.nextL S).keys ≤ 2 ∧ (g.nextL S).vals = 0 :=
  Gaps.nextL_clones g

example := Inclusive.C68_gaps_next_clones (K := UIntW 8) (V := Char) (S := Demo.u8)
    ⟨true, ⟨2⟩, ⟨22⟩, Demo.imap.iter⟩

omit [LE K] [LT K] [DecidableLE K] [DecidableLT K] [Std.IsLinearPreorder K] [Std.LawfulOrderLT K]
  [BEq V] [PartialEquivBEq V] in
/-- **C68** `clone` clones every key and value stored, once. -/
theorem C68_clone_clones [LE K] [LT K] [DecidableLE K] [DecidableLT K] (m : RangeInclusiveMap K V) :
    (cloneL m.btm).keys = 2 * m.len ∧ (cloneL m.btm).vals = m.len :=
  cloneL_clones m.btm

example := Inclusive.C68_clone_clones (K := UIntW 8) (V := Char) Demo.imap

omit [Std.IsLinearPreorder K] [Std.LawfulOrderLT K] [BEq V] [PartialEquivBEq V] in
/-- **C68** `Union::next` makes at most two clones of keys for every range it takes from the two sets;
`Intersection::next` clones the two ends of the range it returns, and nothing else. -/
theorem C68_operations_clones (u : Union (RangeInclusive K)) (i : Intersection (RangeInclusive K)) :
    (u.nextL (V := V) Cl.cloneIRange RangeInclusive.mergeL).keys + 2 * (u.next.2.left.length + u.next.2.right.length) ≤
      2 * (u.left.length + u.right.length) ∧
    (i.nextL (V := V) RangeInclusive.intersectL).keys = if i.next.1.isSome then 2 else 0 := by
  constructor
  · have := (Union.nextL_clones (V := V) (clone := Cl.cloneIRange) (merge := RangeInclusive.mergeL) (w := 2)
      (fun _ => rfl) (fun _ => ⟨rfl, rfl⟩) RangeInclusive.mergeL_eval RangeInclusive.mergeL_clones u).1
    split at this
    · omega
    · next h =>
      rw [this]
      unfold Union.next at h ⊢
      cases hf : u.first with
      | none => simp only; omega
      | some p => rw [hf] at h; simp at h
  · exact (Intersection.nextLoopL_clones (V := V) RangeInclusive.intersectL_eval RangeInclusive.intersectL_clones _ _ _
      (by omega)).1

example := Inclusive.C68_operations_clones (K := UIntW 8) (V := Char)
    ⟨[(Demo.by8 2 9)], [(Demo.by8 4 30)]⟩ ⟨[(Demo.by8 2 9)], [(Demo.by8 4 30)]⟩

omit [Std.IsLinearPreorder K] [Std.LawfulOrderLT K] [BEq V] [PartialEquivBEq V] in
/-- **C65** With clones that are what was cloned, `Union` and `Intersection` are those of the other
properties. -/
theorem C65_identical_operations (u : Union (RangeInclusive K)) (x : Intersection (RangeInclusive K)) (i : Nat) :
    (u.nextL (V := V) Cl.cloneIRange RangeInclusive.mergeL).run identical i = .ok u.next ∧
    (x.nextL (V := V) RangeInclusive.intersectL).run identical i = .ok x.next := by
  rw [Cl.run_identical, Cl.run_identical]
  exact ⟨Union.nextL_eval (fun _ => rfl) RangeInclusive.mergeL_eval u,
    Intersection.nextLoopL_eval RangeInclusive.intersectL_eval _ _ _ (by omega)⟩

/-- A call over all of the map: every stored range is cloned. -/
example : (Demo.imap.insertL Demo.u8 (Demo.by8 1 30) 'x').keys = 13 ∧
    (Demo.imap.insertL Demo.u8 (Demo.by8 1 30) 'x').vals = 5 := ⟨rfl, rfl⟩
example : (Demo.imap.insertL Demo.u8 (Demo.by8 1 30) 'x').vals ≤
    howMany (ITouch (Demo.by8 1 30)) Demo.imap.iter + 1 :=
  (C68_insert_clones Demo.u8_lawful Demo.imap_reachable.any (Demo.by8 1 30) 'x').2
example : (Demo.imap.removeL Demo.u8 (Demo.by8 1 30)).vals ≤
    howMany (Common icovers (Demo.by8 1 30)) Demo.imap.iter + 1 :=
  (C68_remove_clones Demo.u8_lawful Demo.imap_reachable.any (Demo.by8 1 30)).2

end Inclusive
end Verif.Props

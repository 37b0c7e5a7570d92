import Verif.Props.IEqualPrograms
import Verif.Props.EqualSetPrograms
import Verif.Proof.ISet

/-!
# Equal sets in programs: C119 for inclusive sets
-/
set_option linter.unusedSectionVars false

namespace Verif.Props.Inclusive
open Spec Cl

section
variable {K : Type} [LE K] [LT K] [DecidableLE K] [DecidableLT K]
  [Std.IsLinearPreorder K] [Std.LawfulOrderLT K] {S : StepFns K}

theorem setFromIter_alike (hS : StepsRespect S) {l l' : List (RangeInclusive K)}
    (hl : Pointwise SameIRange l l') :
    SameOutcome (fun x y => x.eq y = true) (RangeInclusiveSet.fromIter S l)
      (RangeInclusiveSet.fromIter S l') := by
  have := set_extend_equal hS (s := (RangeInclusiveSet.new : RangeInclusiveSet K))
      (s' := RangeInclusiveSet.new) rfl hl
  unfold RangeInclusiveSet.fromIter
  revert this
  rcases RangeInclusiveSet.extend S RangeInclusiveSet.new l with ⟨x, a⟩
  rcases RangeInclusiveSet.extend S RangeInclusiveSet.new l' with ⟨y, b⟩
  rintro ⟨h1, h2⟩
  subst h2
  cases a
  · exact rfl
  · exact h1

theorem setIterNext_alike {i i' : RangeInclusiveSet.Iter K} (h : AlikeIters i.inner i'.inner) :
    SameOpt SameIRange i.next.1 i'.next.1 ∧ AlikeIters i.next.2.inner i'.next.2.inner :=
  ⟨(iterNext_alike h).1.map fun _ _ h => h.1, (iterNext_alike h).2⟩

theorem setIterNextBack_alike {i i' : RangeInclusiveSet.Iter K} (h : AlikeIters i.inner i'.inner) :
    SameOpt SameIRange i.nextBack.1 i'.nextBack.1 ∧
      AlikeIters i.nextBack.2.inner i'.nextBack.2.inner :=
  ⟨(iterNextBack_alike h).1.map fun _ _ h => h.1, (iterNextBack_alike h).2⟩

theorem setOverNext_alike {o o' : RangeInclusiveSet.Overlapping K} (h : o.inner.SameIter o'.inner) :
    SameOpt SameIRange o.next.1 o'.next.1 ∧ o.next.2.inner.SameIter o'.next.2.inner :=
  ⟨(RangeInclusiveMap.Overlapping.next_same h).1.map fun _ _ h => h.1,
    (RangeInclusiveMap.Overlapping.next_same h).2⟩

theorem setOverNextBack_alike {o o' : RangeInclusiveSet.Overlapping K}
    (h : o.inner.SameIter o'.inner) :
    SameOpt SameIRange o.nextBack.1 o'.nextBack.1 ∧
      o.nextBack.2.inner.SameIter o'.nextBack.2.inner :=
  ⟨(RangeInclusiveMap.Overlapping.nextBack_same h).1.map fun _ _ h => h.1,
    (RangeInclusiveMap.Overlapping.nextBack_same h).2⟩

theorem setOverlapping_alike {s s' : RangeInclusiveSet K} (h : s.eq s' = true)
    {q q' : RangeInclusive K}
    (hq : SameIRange q q') :
    SameOutcome (fun o o' => o.inner.SameIter o'.inner) (s.overlapping q) (s'.overlapping q') :=
  (overlapping_alike (V := Unit) (map_pointwise_of_eq h) hq).bind fun _ _ h => h

theorem setOverlaps_alike {s s' : RangeInclusiveSet K} (h : s.eq s' = true)
    {q q' : RangeInclusive K}
    (hq : SameIRange q q') : SameOutcome (· = ·) (s.overlaps q) (s'.overlaps q') := by
  unfold RangeInclusiveSet.overlaps
  refine (setOverlapping_alike h hq).bind fun a b h => ?_
  exact (setOverNext_alike h).1.isSome

theorem setGaps_alike {s s' : RangeInclusiveSet K} (h : s.eq s' = true) {q q' : RangeInclusive K}
    (hq : SameIRange q q') :
    SameOutcome (fun o o' => o.inner.SameIter o'.inner) (s.gaps q) (s'.gaps q') :=
  (gaps_alike (V := Unit) (map_pointwise_of_eq h) hq).bind fun _ _ h => h

theorem setGapsNext_alike (hS : StepsRespect S) {g g' : RangeInclusiveSet.Gaps K}
    (h : g.inner.SameIter g'.inner) (hg : g'.inner.Guard) :
    SameOutcome (fun x y => SameOpt SameIRange x.1 y.1 ∧ x.2.inner.SameIter y.2.inner) (g.next S)
      (g'.next S) := by
  unfold RangeInclusiveSet.Gaps.next
  exact (gapsNext_alike hS h hg).bind fun _ _ h => h

theorem setGaps_kept (hL : LawfulSteps S) {s : RangeInclusiveSet K}
    (hm : RangeInclusiveMap.ReachableAny S s.rm) {q : RangeInclusive K}
    {g : RangeInclusiveSet.Gaps K} (h : s.gaps q = .ok g) : g.inner.Guard := by
  unfold RangeInclusiveSet.gaps at h
  cases e : s.rm.gaps q with
  | ok o =>
    rw [e] at h
    obtain rfl := Except.ok.inj h
    exact RangeInclusiveMap.gaps_guard (RangeInclusiveMap.Weak.reachableAny_sep hL hm) e
  | error p => rw [e] at h; cases h

theorem setGapsNext_guard (S : StepFns K) {g g' : RangeInclusiveSet.Gaps K}
    {r : Option (RangeInclusive K)} (hg : g.inner.Guard) (h : g.next S = .ok (r, g')) :
    g'.inner.Guard := by
  unfold RangeInclusiveSet.Gaps.next at h
  cases e : g.inner.next S with
  | ok x =>
    rw [e] at h
    obtain rfl := (Prod.mk.inj (Except.ok.inj h)).2
    exact gapsNext_guard S hg e
  | error p => rw [e] at h; cases h

theorem setGapsCalls_alike (hS : StepsRespect S) (n : Nat) {g g' : RangeInclusiveSet.Gaps K}
    (h : g.inner.SameIter g'.inner) (hg : g'.inner.Guard) :
    SameOutcome (Pointwise (SameOpt SameIRange)) (callsE (RangeInclusiveSet.Gaps.next S) n g)
      (callsE (RangeInclusiveSet.Gaps.next S) n g') := by
  induction n generalizing g g' with
  | zero => exact Pointwise.nil
  | succ n ih =>
    unfold callsE
    rcases (setGapsNext_alike hS h hg).cases with ⟨x, y, h1, h2, h3⟩ | ⟨p, h1, h2⟩
    · simp only [h1, h2]
      exact (ih h3.2 (setGapsNext_guard S hg h2)).map fun _ _ h => .cons h3.1 h
    · simp only [h1, h2]; exact rfl

theorem unionNext_alike {u u' : Union (RangeInclusive K)} (h : Union.SameIter SameIRange u u') :
    SameOpt SameIRange u.next.1 u'.next.1 ∧ Union.SameIter SameIRange u.next.2 u'.next.2 := by
  have := (Union.nextL_sim (K := K) (V := Unit) (S := SameIRange) (merge := RangeInclusive.mergeL)
    (clone := Cl.cloneIRange) (fun _ _ _ _ h h' => kcmp_same h.1 h'.1)
    (fun _ _ _ _ h h' => RangeInclusive.mergeL_sim h h')
      (fun _ _ h => RangeInclusive.cloneIRange_sim h) h).run
    lawful_identical 0
  rw [(C65_identical_operations (V := Unit) u ⟨[], []⟩ 0).1] at this
  exact this

theorem intersectionNext_alike {u u' : Intersection (RangeInclusive K)}
    (h : Intersection.SameIter SameIRange u u') :
    SameOpt SameIRange u.next.1 u'.next.1 ∧
    Intersection.SameIter SameIRange u.next.2 u'.next.2 := by
  have := (Intersection.nextL_sim (K := K) (V := Unit) (S := SameIRange)
    (intersect := RangeInclusive.intersectL) (fun _ _ _ _ h h' => kcmp_same h.2.1 h'.2.1)
    (fun _ _ _ _ h h' => RangeInclusive.intersectL_sim h h') h).run lawful_identical 0
  rw [(C65_identical_operations (V := Unit) ⟨[], []⟩ u 0).2] at this
  exact this

theorem set_pointwise_of_eq {s s' : RangeInclusiveSet K} (h : s.eq s' = true) :
    Pointwise SameIRange s.iter s'.iter := (C97_set_eq_iff _ _).1 h

theorem items_closed {l l' : List (Range K)} (h : Pointwise SameRange l l') :
    Pointwise SameIRange (l.map Range.closed) (l'.map Range.closed) := by
  induction h with
  | nil => exact .nil
  | cons h _ ih => exact .cons (closed_alike h) ih

theorem setPerform_alike (hL : LawfulSteps S) {sets sets' : Nat → RangeInclusiveSet K}
    (h : ∀ i, (sets i).eq (sets' i) = true)
    (hm : ∀ i, RangeInclusiveMap.ReachableAny S (sets' i).rm) {c c' : SetCall K}
      (hc : AlikeSetCall c c') :
    AlikeSetAnswer SameIRange (RangeInclusiveSet.perform S sets c).1
      (RangeInclusiveSet.perform S sets' c').1 ∧
    ∀ i, ((RangeInclusiveSet.perform S sets c).2 i).eq ((RangeInclusiveSet.perform S sets' c').2 i)
      = true := by
  have hS := hL.respect
  have st := fun i m m' => store_alike (P := fun x y : RangeInclusiveSet K => x.eq y = true) h i
    (m := m) (m' := m')
  have rn := fun i x y => renew_alike (same := SameIRange (K := K))
    (P := fun x y : RangeInclusiveSet K => x.eq y = true) h i (x := x) (y := y)
  have ends := fun i => C97_ends (V := Unit) (h i)
  cases hc with
  | insert i hr => exact rn i _ _ (C97_set_update hS (h i) (closed_alike hr)).1
  | remove i hr => exact rn i _ _ (C97_set_update hS (h i) (closed_alike hr)).2
  | clear i => exact ⟨.done, st i _ _ rfl⟩
  | @extend i l l' hl =>
    obtain ⟨h1, h2⟩ := set_extend_equal hS (h i) (items_closed hl)
    refine ⟨?_, st i _ _ h1⟩
    simp only [RangeInclusiveSet.perform, h2]
    cases ((sets' i).extend S (l'.map Range.closed)).2
    · exact .panicked
    · exact .done
  | collect i hl => exact rn i _ _ (setFromIter_alike hS (items_closed hl))
  | copy i j => exact ⟨.done, st i _ _ (h j)⟩
  | append i j =>
    obtain ⟨h1, h2⟩ := set_extend_equal hS (h i) (set_pointwise_of_eq (h j))
    refine ⟨?_, st i _ _ h1⟩
    simp only [RangeInclusiveSet.perform, h2]
    cases ((sets' i).extend S (sets' j).iter).2
    · exact .panicked
    · exact .done
  | or i j l => exact rn i _ _ (C97_set_operators hS (h j) (h l)).1
  | and i j l => exact rn i _ _ (C97_set_operators hS (h j) (h l)).2
  | contains i hk =>
    refine ⟨?_, h⟩
    simp only [RangeInclusiveSet.perform, (C97_set_lookup (h i) hk).2]
    cases (sets' i).contains _
    · exact .panicked
    · exact .flag _
  | get i hk => exact ⟨.of (fun _ _ => .range) (C97_set_lookup (h i) hk).1, h⟩
  | len i =>
    refine ⟨?_, h⟩
    simp only [RangeInclusiveSet.perform]
    rw [show (sets i).len = (sets' i).len from (ends i).1]
    exact .number _
  | isEmpty i =>
    refine ⟨?_, h⟩
    simp only [RangeInclusiveSet.perform]
    rw [show (sets i).isEmpty = (sets' i).isEmpty from (ends i).2.1]
    exact .flag _
  | first i => exact ⟨.range ((ends i).2.2.1.map fun _ _ h => h.1), h⟩
  | last i => exact ⟨.range ((ends i).2.2.2.map fun _ _ h => h.1), h⟩
  | iter i cs =>
    exact ⟨.ranges (script_same
      (R := fun i i' : RangeInclusiveSet.Iter K => AlikeIters i.inner i'.inner)
      (fun _ _ => setIterNext_alike) (fun _ _ => setIterNextBack_alike) cs
      (map_pointwise_of_eq (h i))), h⟩
  | overlapping i cs hq =>
    exact ⟨.of (fun _ _ ho => .ranges (script_same
      (R := fun o o' : RangeInclusiveSet.Overlapping K => o.inner.SameIter o'.inner)
      (fun _ _ => setOverNext_alike) (fun _ _ => setOverNextBack_alike) cs ho))
      (setOverlapping_alike (h i) (closed_alike hq)), h⟩
  | overlaps i hq => exact
    ⟨.of (fun _ _ e => e ▸ .flag _) (setOverlaps_alike (h i) (closed_alike hq)), h⟩
  | @gaps i q q' n hq =>
    refine ⟨.of (fun _ _ h => .ranges h) ?_, h⟩
    rcases (setGaps_alike (h i) (closed_alike hq)).cases with ⟨x, y, h1, h2, h3⟩ | ⟨p, h1, h2⟩
    · rw [h1, h2]
      exact setGapsCalls_alike hS n h3 (setGaps_kept hL (hm i) h2)
    · rw [h1, h2]; exact rfl
  | union i j n => exact ⟨.ranges (C97_set_operations (h i) (h j) n).1, h⟩
  | intersection i j n => exact ⟨.ranges (C97_set_operations (h i) (h j) n).2, h⟩
  | eq i j =>
    refine ⟨?_, h⟩
    simp only [RangeInclusiveSet.perform]
    rw [show (sets i).eq (sets j) = (sets' i).eq (sets' j) from
      (C97_compare (V := Unit) (h i) (h j)).1]
    exact .flag _

/-- Kept iterators with two ends that compare equal. -/
def AlikeSetWalks : RangeInclusiveSet.Walk K → RangeInclusiveSet.Walk K → Prop
  | .iter i, .iter i' => AlikeIters i.inner i'.inner
  | .overlapping o, .overlapping o' => o.inner.SameIter o'.inner
  | _, _ => False

theorem setWalkNext_alike {w w' : RangeInclusiveSet.Walk K} (h : AlikeSetWalks w w') :
    SameOpt SameIRange w.next.1 w'.next.1 ∧ AlikeSetWalks w.next.2 w'.next.2 := by
  cases w <;> cases w' <;> first | exact absurd h id | skip
  · exact setIterNext_alike h
  · exact setOverNext_alike h

theorem setWalkNextBack_alike {w w' : RangeInclusiveSet.Walk K} (h : AlikeSetWalks w w') :
    SameOpt SameIRange w.nextBack.1 w'.nextBack.1 ∧ AlikeSetWalks w.nextBack.2 w'.nextBack.2 := by
  cases w <;> cases w' <;> first | exact absurd h id | skip
  · exact setIterNextBack_alike h
  · exact setOverNextBack_alike h

/-- Kept iterators with one end that compare equal. -/
def AlikeFlows : RangeInclusiveSet.Flow K → RangeInclusiveSet.Flow K → Prop
  | .gaps g, .gaps g' => g.inner.SameIter g'.inner
  | .union u, .union u' => Union.SameIter SameIRange u u'
  | .intersection i, .intersection i' => Intersection.SameIter SameIRange i i'
  | _, _ => False

/-- A kept `gaps` comes from a set that comes from calls. -/
def FlowKept : RangeInclusiveSet.Flow K → Prop
  | .gaps g => g.inner.Guard
  | _ => True

theorem flowNext_alike (hS : StepsRespect S) {w w' : RangeInclusiveSet.Flow K}
    (h : AlikeFlows w w') (hw : FlowKept w') :
    SameOutcome (fun x y => SameOpt SameIRange x.1 y.1 ∧ AlikeFlows x.2 y.2) (w.next S)
      (w'.next S) := by
  cases w <;> cases w' <;> first | exact absurd h id | skip
  · simp only [RangeInclusiveSet.Flow.next]
    rcases (setGapsNext_alike hS h hw).cases with ⟨x, y, h1, h2, h3⟩ | ⟨p, h1, h2⟩
    · simp only [h1, h2]; exact h3
    · simp only [h1, h2]; exact rfl
  · exact unionNext_alike h
  · exact intersectionNext_alike h

theorem flowNext_kept (S : StepFns K) {w w' : RangeInclusiveSet.Flow K}
    {r : Option (RangeInclusive K)} (hw : FlowKept w) (h : w.next S = .ok (r, w')) :
    FlowKept w' := by
  cases w with
  | gaps g =>
    simp only [RangeInclusiveSet.Flow.next] at h
    cases e : g.next S with
    | ok x =>
      rw [e] at h
      obtain rfl := (Prod.mk.inj (Except.ok.inj h)).2
      exact setGapsNext_guard S hw e
    | error p => rw [e] at h; cases h
  | union u => obtain rfl := (Prod.mk.inj (Except.ok.inj h)).2; exact trivial
  | intersection u => obtain rfl := (Prod.mk.inj (Except.ok.inj h)).2; exact trivial

/-- All a program holds: sets and iterators that compare equal. -/
structure AlikeSetDesks (d d' : RangeInclusiveSet.Desk K) : Prop where
  sets : ∀ i, (d.sets i).eq (d'.sets i) = true
  walks : ∀ h, AlikeSetWalks (d.walks h) (d'.walks h)
  flows : ∀ h, AlikeFlows (d.flows h) (d'.flows h)

/-- The sets of a program come from calls, and the kept `gaps` from such sets. -/
structure SetLived (S : StepFns K) (d : RangeInclusiveSet.Desk K) : Prop where
  sets : ∀ i, RangeInclusiveMap.ReachableAny S (d.sets i).rm
  flows : ∀ h, FlowKept (d.flows h)

theorem setApply_reachable {s s' : RangeInclusiveSet K}
    (h : RangeInclusiveMap.ReachableAny S s.rm) {r : RangeInclusive K} :
    (s.insert S r = .ok s' → RangeInclusiveMap.ReachableAny S s'.rm) ∧
    (s.remove S r = .ok s' → RangeInclusiveMap.ReachableAny S s'.rm) := by
  constructor <;> intro e
  · have h' := h.apply (.insert r ())
    unfold RangeInclusiveSet.insert at e
    simp only [RangeInclusiveMap.apply] at h'
    cases x : s.rm.insert S r () with
    | ok m => rw [x] at e h'; obtain rfl := Except.ok.inj e; exact h'
    | error p => rw [x] at e; cases e
  · have h' := h.apply (.remove r)
    unfold RangeInclusiveSet.remove at e
    simp only [RangeInclusiveMap.apply] at h'
    cases x : s.rm.remove S r with
    | ok m => rw [x] at e h'; obtain rfl := Except.ok.inj e; exact h'
    | error p => rw [x] at e; cases e

theorem setExtend_reachable {s : RangeInclusiveSet K} (h : RangeInclusiveMap.ReachableAny S s.rm)
    (l : List (RangeInclusive K)) : RangeInclusiveMap.ReachableAny S (s.extend S l).1.rm := by
  induction l generalizing s with
  | nil => exact h
  | cons r l ih =>
    unfold RangeInclusiveSet.extend
    cases e : s.insert S r with
    | ok s' => exact ih ((setApply_reachable h).1 e)
    | error p => exact h

theorem setFromIter_reachable {l : List (RangeInclusive K)} {s : RangeInclusiveSet K}
    (h : RangeInclusiveSet.fromIter S l = .ok s) : RangeInclusiveMap.ReachableAny S s.rm := by
  have := setExtend_reachable (S := S) (s := (RangeInclusiveSet.new : RangeInclusiveSet K))
    ⟨[], rfl⟩ l
  unfold RangeInclusiveSet.fromIter at h
  revert h this
  rcases RangeInclusiveSet.extend S RangeInclusiveSet.new l with ⟨x, a⟩
  intro h this
  cases a with
  | ok => obtain rfl := Except.ok.inj h; exact this
  | error p => cases h

theorem setPerform_reachable {sets : Nat → RangeInclusiveSet K}
    (hm : ∀ i, RangeInclusiveMap.ReachableAny S (sets i).rm) (c : SetCall K) (i : Nat) :
    RangeInclusiveMap.ReachableAny S ((RangeInclusiveSet.perform S sets c).2 i).rm := by
  have st : ∀ i (m : RangeInclusiveSet K), RangeInclusiveMap.ReachableAny S m.rm →
      ∀ j, RangeInclusiveMap.ReachableAny S (store sets i m j).rm := by
    intro i m h j
    unfold store
    split
    · exact h
    · exact hm j
  have rn : ∀ j (x : Except Panic (RangeInclusiveSet K)),
      (∀ s, x = .ok s → RangeInclusiveMap.ReachableAny S s.rm) →
      RangeInclusiveMap.ReachableAny S
        ((renew (R := RangeInclusive K) sets j x).2 i).rm := by
    intro j x h
    cases x with
    | ok s => exact st j s (h s rfl) i
    | error p => exact hm i
  cases c with
  | insert j r => exact rn j _ fun s e => (setApply_reachable (hm j)).1 e
  | remove j r => exact rn j _ fun s e => (setApply_reachable (hm j)).2 e
  | clear j => exact st j _ ⟨[], rfl⟩ i
  | extend j l => exact st j _ (setExtend_reachable (hm j) _) i
  | collect j l => exact rn j _ fun s e => setFromIter_reachable e
  | copy j k => exact st j _ (hm k) i
  | append j k => exact st j _ (setExtend_reachable (hm j) _) i
  | or j k l =>
    refine rn j _ fun s e => ?_
    unfold RangeInclusiveSet.bitOr at e
    cases x : drain Union.next ((sets k).len + (sets l).len + 1) ((sets k).union (sets l)) with
    | ok m => rw [x] at e; exact setFromIter_reachable e
    | error p => rw [x] at e; cases e
  | and j k l =>
    refine rn j _ fun s e => ?_
    unfold RangeInclusiveSet.bitAnd at e
    cases x : drain Intersection.next ((sets k).len + (sets l).len + 1)
        ((sets k).intersection (sets l)) with
    | ok m => rw [x] at e; exact setFromIter_reachable e
    | error p => rw [x] at e; cases e
  | _ => exact hm i

theorem setDeskPerform_lived (hL : LawfulSteps S) {d : RangeInclusiveSet.Desk K}
    (hd : SetLived S d) (c : SetOpenCall K) : SetLived S (d.perform S c).2 := by
  have kept : ∀ h w, FlowKept w → ∀ k, FlowKept (store d.flows h w k) := by
    intro h w hw k
    unfold store
    split
    · exact hw
    · exact hd.flows k
  cases c with
  | plain c => exact ⟨setPerform_reachable hd.sets c, hd.flows⟩
  | walkOver h i q =>
    simp only [RangeInclusiveSet.Desk.perform]
    cases (d.sets i).overlapping q.closed with
    | ok o => exact ⟨hd.sets, hd.flows⟩
    | error p => exact hd
  | take h i => exact ⟨setPerform_reachable hd.sets (.clear i), hd.flows⟩
  | holes h i q =>
    simp only [RangeInclusiveSet.Desk.perform]
    cases e : (d.sets i).gaps q.closed with
    | ok o => exact ⟨hd.sets, kept h (.gaps o) (setGaps_kept hL (hd.sets i) e)⟩
    | error p => exact hd
  | both h i j => exact ⟨hd.sets, kept h _ trivial⟩
  | common h i j => exact ⟨hd.sets, kept h _ trivial⟩
  | nextFlow h =>
    simp only [RangeInclusiveSet.Desk.perform]
    cases e : (d.flows h).next S with
    | ok x => exact ⟨hd.sets, kept h x.2 (flowNext_kept S (hd.flows h) e)⟩
    | error p => exact hd
  | _ => exact ⟨hd.sets, hd.flows⟩

theorem setDeskPerform_alike (hL : LawfulSteps S) {d d' : RangeInclusiveSet.Desk K}
    (hd : AlikeSetDesks d d')
    (hl : SetLived S d')
    {c c' : SetOpenCall K} (hc : AlikeSetOpenCall c c') :
    AlikeSetAnswer SameIRange (d.perform S c).1 (d'.perform S c').1 ∧
      AlikeSetDesks (d.perform S c).2 (d'.perform S c').2 := by
  have walked : ∀ i, AlikeSetWalks (.iter (d.sets i).iterator) (.iter (d'.sets i).iterator) :=
    fun i => map_pointwise_of_eq (hd.sets i)
  have flowed : ∀ i j, Pointwise SameIRange (d.sets i).iter (d'.sets i).iter ∧
      Pointwise SameIRange (d.sets j).iter (d'.sets j).iter :=
    fun i j => ⟨set_pointwise_of_eq (hd.sets i), set_pointwise_of_eq (hd.sets j)⟩
  cases hc with
  | plain hc =>
    obtain ⟨h1, h2⟩ := setPerform_alike hL hd.sets hl.sets hc
    exact ⟨h1, h2, hd.walks, hd.flows⟩
  | walk h i => exact ⟨.done, hd.sets, store_alike hd.walks h (walked i), hd.flows⟩
  | walkOver h i hq =>
    simp only [RangeInclusiveSet.Desk.perform]
    rcases (setOverlapping_alike (hd.sets i) (closed_alike hq)).cases with ⟨x, y, h1, h2, h3⟩ |
      ⟨p, h1, h2⟩
    · simp only [h1, h2]
      exact ⟨.done, hd.sets, store_alike hd.walks h (m := .overlapping x) (m' := .overlapping y) h3,
        hd.flows⟩
    · simp only [h1, h2]; exact ⟨.panicked, hd⟩
  | take h i =>
    exact ⟨.done, store_alike (P := fun x y : RangeInclusiveSet K => x.eq y = true) hd.sets i rfl,
      store_alike hd.walks h (walked i), hd.flows⟩
  | next h =>
    obtain ⟨h1, h2⟩ := setWalkNext_alike (hd.walks h)
    exact ⟨.range h1, hd.sets, store_alike hd.walks h h2, hd.flows⟩
  | nextBack h =>
    obtain ⟨h1, h2⟩ := setWalkNextBack_alike (hd.walks h)
    exact ⟨.range h1, hd.sets, store_alike hd.walks h h2, hd.flows⟩
  | holes h i hq =>
    simp only [RangeInclusiveSet.Desk.perform]
    rcases (setGaps_alike (hd.sets i) (closed_alike hq)).cases with ⟨x, y, h1, h2, h3⟩ | ⟨p, h1, h2⟩
    · simp only [h1, h2]
      exact ⟨.done, hd.sets, hd.walks,
        store_alike hd.flows h (m := .gaps x) (m' := .gaps y) h3⟩
    · simp only [h1, h2]; exact ⟨.panicked, hd⟩
  | both h i j =>
    exact ⟨.done, hd.sets, hd.walks, store_alike hd.flows h
      (m := .union ((d.sets i).union (d.sets j))) (m' := .union ((d'.sets i).union (d'.sets j)))
      (flowed i j)⟩
  | common h i j =>
    exact ⟨.done, hd.sets, hd.walks, store_alike hd.flows h
      (m := .intersection ((d.sets i).intersection (d.sets j)))
      (m' := .intersection ((d'.sets i).intersection (d'.sets j))) (flowed i j)⟩
  | nextFlow h =>
    simp only [RangeInclusiveSet.Desk.perform]
    rcases (flowNext_alike hL.respect (hd.flows h) (hl.flows h)).cases with
      ⟨x, y, h1, h2, h3⟩ | ⟨p, h1, h2⟩
    · simp only [h1, h2]
      exact ⟨.range h3.1, hd.sets, hd.walks, store_alike hd.flows h h3.2⟩
    · simp only [h1, h2]; exact ⟨.panicked, hd⟩

/-- **C119** Two programs that go on alike after answers that are alike, on sets that are `==` and
iterators that compare equal, hear answers that compare equal. -/
theorem C119_set_programs (hL : LawfulSteps S) {p p' : SetOpenProgram (RangeInclusive K) K}
    (hp : AlikeSetPrograms SameIRange p p') {d d' : RangeInclusiveSet.Desk K}
      (hd : AlikeSetDesks d d')
    (hl : SetLived S d') (n : Nat) :
    Pointwise (AlikeSetAnswer SameIRange) (RangeInclusiveSet.openDialogue S p n [] d)
      (RangeInclusiveSet.openDialogue S p' n [] d') := by
  suffices H : ∀ (n : Nat) (as as' : List (SetAnswer (RangeInclusive K)))
    (d d' : RangeInclusiveSet.Desk K),
      Pointwise (AlikeSetAnswer SameIRange) as as' → AlikeSetDesks d d' → SetLived S d' →
      Pointwise (AlikeSetAnswer SameIRange) (RangeInclusiveSet.openDialogue S p n as d)
        (RangeInclusiveSet.openDialogue S p' n as' d') from H n [] [] d d' .nil hd hl
  intro n
  induction n with
  | zero => exact fun _ _ _ _ h _ _ => h
  | succ n ih =>
    intro as as' d d' ha hd hl
    have hc := hp as as' ha
    unfold RangeInclusiveSet.openDialogue
    cases e : p as <;> cases e' : p' as' <;> rw [e, e'] at hc <;> first | exact absurd hc id | skip
    · exact ha
    · obtain ⟨h1, h2⟩ := setDeskPerform_alike hL hd hl hc
      exact ih _ _ _ _ (.cons h1 ha) h2 (setDeskPerform_lived hL hl _)

theorem equalSetDesks {sets sets' : Nat → RangeInclusiveSet K}
    (h : ∀ i, (sets i).eq (sets' i) = true) : AlikeSetDesks { sets := sets } { sets := sets' } where
  sets := h
  walks _ := Pointwise.nil
  flows _ := ⟨.nil, .nil⟩

/-- **C119** So on sets that are `==` a program that looks at keys with their own comparisons only
hears equal answers, however the sets came about. -/
theorem C119_equal_sets (hL : LawfulSteps S) {p p' : SetOpenProgram (RangeInclusive K) K}
    (hp : AlikeSetPrograms SameIRange p p')
    {sets sets' : Nat → RangeInclusiveSet K}
    (hm : ∀ i, RangeInclusiveSet.ReachableAny S (sets' i))
    (h : ∀ i, (sets i).eq (sets' i) = true) (n : Nat) :
    Pointwise (AlikeSetAnswer SameIRange) (RangeInclusiveSet.openDialogue S p n [] { sets := sets })
      (RangeInclusiveSet.openDialogue S p' n [] { sets := sets' }) :=
  C119_set_programs hL hp (equalSetDesks h)
    ⟨fun i => RangeInclusiveSet.ReachableAny.map (hm i), fun _ => trivial⟩ n

end

/-! ### Examples -/

/-- Asks for the first range, takes it out of set 1, puts it into set 2, and looks at the union of
these two. -/
def backIn {K : Type} : SetOpenProgram (RangeInclusive K) K
  | [] => some (.plain (.first 0))
  | [a] => match a with
    | .range (some r) => some (.plain (.remove 1 ⟨r.start, r.stop⟩))
    | _ => none
  | [_, a] => match a with
    | .range (some r) => some (.plain (.insert 2 ⟨r.start, r.stop⟩))
    | _ => none
  | [_, _, _] => some (.both 0 1 2)
  | [_, _, _, _] => some (.nextFlow 0)
  | [_, _, _, _, _] => some (.nextFlow 0)
  | _ :: _ :: _ :: _ :: _ :: _ :: _ => none

theorem backIn_alike {K : Type} [LE K] [LT K] [DecidableLE K] [DecidableLT K] :
    AlikeSetPrograms SameIRange (backIn : SetOpenProgram (RangeInclusive K) K) backIn := by
  intro as as' ha
  cases ha with
  | nil => exact .plain (.first 0)
  | cons h1 ha => cases ha with
    | nil => cases h1 with
      | @range e e' h =>
        cases e <;> cases e' <;> first | exact absurd h id | skip
        · exact trivial
        · exact .plain (.remove 1 ⟨h.1, h.2.1⟩)
      | _ => exact trivial
    | cons h2 ha => cases ha with
      | nil => cases h2 with
        | @range e e' h =>
          cases e <;> cases e' <;> first | exact absurd h id | skip
          · exact trivial
          · exact .plain (.insert 2 ⟨h.1, h.2.1⟩)
        | _ => exact trivial
      | cons h3 ha => cases ha with
        | nil => exact .both 0 1 2
        | cons h4 ha => cases ha with
          | nil => exact .nextFlow 0
          | cons h5 ha => cases ha with
            | nil => exact .nextFlow 0
            | cons => exact trivial

theorem twins'_reachable : RangeInclusiveSet.ReachableAny Demo.tagSteps twins' :=
  ⟨[.insert (.mk' ⟨0, false⟩ ⟨2, false⟩), .insert (.mk' ⟨3, false⟩ ⟨4, true⟩),
    .insert (.mk' ⟨6, true⟩ ⟨9, false⟩)], rfl⟩

-- equal sets with other tags: six answers, which are not the same but alike
example : RangeInclusiveSet.openDialogue Demo.tagSteps backIn 9 [] { sets := fun _ => twins }
      ≠ RangeInclusiveSet.openDialogue Demo.tagSteps backIn 9 [] { sets := fun _ => twins' } ∧
    (RangeInclusiveSet.openDialogue Demo.tagSteps backIn 9 [] { sets := fun _ => twins }).length
      = 6 := by
  decide +kernel
example := C119_set_programs Demo.tagSteps_lawful (p := backIn) (p' := backIn) backIn_alike
    (d := { sets := fun _ => twins }) (d' := { sets := fun _ => twins' })
    (equalSetDesks fun _ => twins_eq) ⟨fun _ => ⟨_, rfl⟩, fun _ => trivial⟩ 9
example := C119_equal_sets Demo.tagSteps_lawful (p := backIn) (p' := backIn) backIn_alike
    (sets := fun _ => twins) (sets' := fun _ => twins')
    (fun _ => twins'_reachable) (fun _ => twins_eq) 9

end Verif.Props.Inclusive

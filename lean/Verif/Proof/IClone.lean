import Verif.Proof.Clone
import Verif.Proof.IRename

/-!
# `RangeInclusiveMap` with `Clone` that returns equal keys and values
-/
set_option linter.unusedSectionVars false
namespace Verif
open Spec
variable {K V : Type} [LE K] [LT K] [DecidableLE K] [DecidableLT K]
  [Std.IsLinearPreorder K] [Std.LawfulOrderLT K] [BEq V]

namespace RangeInclusive
variable {r r' o o' : RangeInclusive K} {k k' : K} {S : StepFns K}

theorem contains_same (h : SameIRange r r') (hk : keq k k' = true) :
    r.contains k = r'.contains k' := by
  simp only [contains, keq.le h.1 hk, keq.lt hk h.2.1, keq.le hk h.2.1, h.2.2]

theorem overlaps_same (h : SameIRange r r') (ho : SameIRange o o') :
    r.overlaps o = r'.overlaps o' := by
  simp only [overlaps, keq.le (keq.rmax h.1 ho.1) (keq.rmin h.2.1 ho.2.1)]

theorem mk'_same {a a' b b' : K} (ha : keq a a' = true) (hb : keq b b' = true) :
    SameIRange (mk' a b) (mk' a' b') := ⟨ha, hb, rfl⟩

end RangeInclusive

theorem Spec.LawfulSteps.respect {S : StepFns K} (hS : LawfulSteps S) : StepsRespect S := by
  constructor
  · intro a a' b hab h
    obtain ⟨c, hc, hn⟩ := hS.addOne a b hab
    obtain ⟨c', hc', hn'⟩ := hS.addOne a' b (by grind [keq])
    rw [hc, hc']
    have h1 := hn.2 c'
    have h2 := hn'.2 c
    have h3 := hn.1
    have h4 := hn'.1
    simp only [SameOutcome]
    grind [keq]
  · intro a b b' hab h
    obtain ⟨c, hc, hn⟩ := hS.subOne b a hab
    obtain ⟨c', hc', hn'⟩ := hS.subOne b' a (by grind [keq])
    rw [hc, hc']
    have h1 := hn.2 c'
    have h2 := hn'.2 c
    have h3 := hn.1
    have h4 := hn'.1
    simp only [SameOutcome]
    grind [keq]

namespace RangeInclusiveMap
open Cl
variable {S : StepFns K}

theorem touchesL_sim (hS : StepsRespect S) {r r' o o' : RangeInclusive K} (h : SameIRange r r')
    (ho : SameIRange o o') :
    Cl.Sim (touchesL S r o : Cl K V Bool) (r'.touches S o') Eq := by
  unfold touchesL RangeInclusive.touches
  have h1 := keq.rmax h.1 ho.1
  have h2 := keq.rmin h.2.1 ho.2.1
  dsimp only
  refine Cl.Sim.ite (keq.lt h2 h1) (fun _ hlt => ?_) fun _ _ => ?_
  · refine Cl.Sim.bind (Cl.Sim.lib (hS.addOne _ _ _ hlt h2)) fun c c' hc => Cl.Sim.ret ?_
    simp only [keq.le h1 hc]
  · refine Cl.Sim.key h2 fun c hc => Cl.Sim.ret ?_
    simp only [keq.le h1 hc]

theorem filterL_sim {α : Type} {R : α → α → Prop} {p : α → Cl K V Bool}
    {p' : α → Except Panic Bool} (hp : ∀ a a', R a a' → Cl.Sim (p a) (p' a') Eq) {l l' : List α}
    (h : Pointwise R l l') : Cl.Sim (filterL p l) (filterE p' l') (Pointwise R) := by
  induction h with
  | nil => exact Cl.Sim.ret .nil
  | cons h _ ih =>
    unfold filterL filterE
    refine Cl.Sim.bind (hp _ _ h) fun b b' hb => Cl.Sim.bind ih fun t t' ht => Cl.Sim.ret ?_
    subst hb
    cases b
    · exact ht
    · exact .cons h ht

/-- Entry by entry the same. -/
abbrev SameBtm (l l' : List (RangeInclusive K × V)) : Prop := Pointwise (SameEntry SameIRange) l l'

theorem start_same (r s : RangeInclusive K) (h : SameIRange r s) : keq (RangeInclusive.start r) (RangeInclusive.start s) = true :=
  h.1

theorem stop_same (r s : RangeInclusive K) (h : SameIRange r s) : keq (RangeInclusive.stop r) (RangeInclusive.stop s) = true :=
  h.2.1

/-- A tree and a range. -/
def SamePair (p q : List (RangeInclusive K × V) × RangeInclusive K) : Prop := SameBtm p.1 q.1 ∧ SameIRange p.2 q.2

theorem cloneL_sim {l l' : List (RangeInclusive K × V)} (h : SameBtm l l') :
    Cl.Sim (cloneL l) (pure l') SameBtm := by
  induction h with
  | nil => exact Cl.Sim.ret .nil
  | cons h _ ih =>
    unfold cloneL
    refine Cl.Sim.irange h.1 fun r hr => Cl.Sim.val h.2 fun v hv => ?_
    refine Cl.Sim.bind (g := fun t => pure (_ :: t)) ih fun t t' ht => ?_
    exact Cl.Sim.ret (.cons ⟨hr, hv⟩ ht)

theorem insertLeftL_sim (hS : StepsRespect S) {l l' : List (RangeInclusive K × V)}
    (h : SameBtm l l') {r r' c c' : RangeInclusive K}
    {v v' : V} (hr : SameIRange r r') (hv : Same v v') (hc : SameIRange c c') :
    Cl.Sim (insertLeftL S l r v c) (insertLeft S l' r' v' c') SameBtm := by
  unfold insertLeftL insertLeft
  refine Cl.Sim.ite (keq.lt hr.1 hc.1) (fun _ hlt => ?_) fun _ _ => Cl.Sim.ret h
  refine Cl.Sim.key hr.1 fun k hk => ?_
  refine Cl.Sim.bind (Cl.Sim.lib (hS.subOne _ _ _ hlt hc.1)) fun e e' he => ?_
  refine Cl.Sim.val hv fun w hw => Cl.Sim.ret ?_
  exact BTreeMap.insert_same start_same (RangeInclusive.mk'_same hk he) hw h

theorem insertRightL_sim (hS : StepsRespect S) {l l' : List (RangeInclusive K × V)}
    (h : SameBtm l l') {r r' c c' : RangeInclusive K}
    {v v' : V} (hr : SameIRange r r') (hv : Same v v') (hc : SameIRange c c') :
    Cl.Sim (insertRightL S l r v c) (insertRight S l' r' v' c') SameBtm := by
  unfold insertRightL insertRight
  refine Cl.Sim.ite (keq.lt hc.2.1 hr.2.1) (fun _ hlt => ?_) fun _ _ => Cl.Sim.ret h
  refine Cl.Sim.bind (Cl.Sim.lib (hS.addOne _ _ _ hlt hc.2.1)) fun e e' he => ?_
  refine Cl.Sim.key hr.2.1 fun k hk => Cl.Sim.ret ?_
  exact BTreeMap.insert_same start_same (RangeInclusive.mk'_same he hk) hv h

theorem adjustInsertL_sim (hS : StepsRespect S) {l l' : List (RangeInclusive K × V)}
    (h : SameBtm l l') {r r' n n' : RangeInclusive K}
    {v v' w w' : V} (hr : SameIRange r r') (hv : Same v v') (hn : SameIRange n n')
    (hw : Same w w') :
    Cl.Sim (adjustTouchingRangesForInsertL S l r v n w)
      (adjustTouchingRangesForInsert S l' r' v' n' w') SamePair := by
  unfold adjustTouchingRangesForInsertL adjustTouchingRangesForInsert
  rw [Same.beq hv hw, RangeInclusive.overlaps_same hn hr]
  refine Cl.Sim.ite rfl (fun _ _ => ?_) fun _ _ => Cl.Sim.ite rfl (fun _ _ => ?_) fun _ _ => ?_
  · refine Cl.Sim.key (keq.rmin hn.1 hr.1) fun a ha =>
      Cl.Sim.key (keq.rmax hn.2.1 hr.2.1) fun b hb => ?_
    exact Cl.Sim.ret ⟨BTreeMap.remove_same start_same hr.1 h, ha, hb, rfl⟩
  · refine Cl.Sim.bind (insertLeftL_sim hS (BTreeMap.remove_same start_same hr.1 h) hr hv hn)
      fun t t' ht => Cl.Sim.bind (insertRightL_sim hS ht hr hv hn) fun t t' ht => ?_
    exact Cl.Sim.ret ⟨ht, hn⟩
  · exact Cl.Sim.ret ⟨h, hn⟩

theorem breakCond_same (hS : StepsRespect S) {hi hi' : K} (hh : keq hi hi' = true) {w w' : V}
    (hw : Same w w') {x x' : RangeInclusive K × V} (hx : SameEntry SameIRange x x') :
    SameOutcome Eq (breakCond S hi w x) (breakCond S hi' w' x') := by
  unfold breakCond
  have hlt := keq.lt hh hx.1.1
  by_cases h : hi' < x'.1.start
  · rw [if_pos h, if_pos (hlt ▸ h)]
    have := hS.addOne _ _ _ h hh
    revert this
    cases S.addOne hi <;> cases h2 : S.addOne hi' <;> intro this <;>
      simp only [SameOutcome, bind, Except.bind] at this ⊢
    · exact this
    · rename_i c c'
      rw [keq.eq hx.1.1 this, Same.beq hx.2 hw]
      simp only [keq.lt this hx.1.1]
      by_cases h' : c' < x'.1.start
      · rw [if_pos h']; exact rfl
      · rw [if_neg h']; exact rfl
  · rw [if_neg h, if_neg (hlt ▸ h)]
    exact rfl

theorem insertLoopL_sim (hS : StepsRespect S) {hi hi' : K} (hh : keq hi hi' = true) {w w' : V} (hw : Same w w')
    (fuel : Nat) {l l' : List (RangeInclusive K × V)} (h : SameBtm l l') {n n' : RangeInclusive K}
    (hn : SameIRange n n') :
    Cl.Sim (insertLoopL S hi w fuel l n) (insertLoop S hi' w' fuel l' n') SamePair := by
  induction fuel generalizing l l' n n' with
  | zero => exact rfl
  | succ fuel ih =>
    unfold insertLoopL insertLoop
    refine Cl.Sim.bind (Cl.Sim.lib (BTreeMap.range_same start_same
      (lo := .included n.start) (lo' := .included n'.start)
      (hi := .unbounded) (hi' := .unbounded) hn.1 trivial h)) fun t t' ht => ?_
    have hx := ht.head?
    generalize t.head? = x at hx
    generalize t'.head? = x' at hx
    cases x <;> cases x' <;> simp only [SameOpt] at hx
    · exact Cl.Sim.ret ⟨h, hn⟩
    · rename_i x x'
      refine Cl.Sim.bind (Cl.Sim.lib (breakCond_same hS hh hw hx)) fun b b' hb => ?_
      subst hb
      refine Cl.Sim.ite rfl (fun _ _ => Cl.Sim.ret ⟨h, hn⟩) fun _ _ => ?_
      refine Cl.Sim.irange hx.1 fun r hr => Cl.Sim.val hx.2 fun v hv => ?_
      refine Cl.Sim.bind (g := fun p => insertLoop S hi' w' fuel p.1 p.2)
        (adjustInsertL_sim hS h hr hv hn hw) fun p q hpq => ?_
      exact ih hpq.1 hpq.2

theorem insertPrefixL_sim (hS : StepsRespect S) {l l' : List (RangeInclusive K × V)} (h : SameBtm l l') {n n' : RangeInclusive K}
    (hn : SameIRange n n') {w w' : V} (hw : Same w w') :
    Cl.Sim (insertPrefixL S l n w) (insertPrefix S l' n' w') SamePair := by
  unfold insertPrefixL insertPrefix
  refine Cl.Sim.bind (Cl.Sim.lib (BTreeMap.range_same start_same (lo := .unbounded) (lo' := .unbounded)
    (hi := .included n.start) (hi' := .included n'.start) trivial hn.1 h)) fun t t' ht => ?_
  refine Cl.Sim.bind (filterL_sim (fun a b hab => touchesL_sim hS hab.1 hn) (ht.reverse.take 2))
    fun c c' hc => ?_
  rcases hc with _ | ⟨ha, _ | ⟨hb, _⟩⟩
  · exact Cl.Sim.ret ⟨h, hn⟩
  · refine Cl.Sim.irange ha.1 fun r hr => Cl.Sim.val ha.2 fun v hv => ?_
    exact adjustInsertL_sim hS h hr hv hn hw
  · refine Cl.Sim.irange hb.1 fun r hr => Cl.Sim.val hb.2 fun v hv => ?_
    exact adjustInsertL_sim hS h hr hv hn hw

/-- The same entries. -/
abbrev SameMap (m m' : RangeInclusiveMap K V) : Prop := SameBtm m.btm m'.btm

theorem insertL_sim (hS : StepsRespect S) {m m' : RangeInclusiveMap K V} (h : SameMap m m') {r r' : RangeInclusive K} {v v' : V}
    (hr : SameIRange r r') (hv : Same v v') :
    Cl.Sim (m.insertL S r v) (m'.insert S r' v') SameMap := by
  unfold insertL RangeInclusiveMap.insert insertFuel
  simp only [keq.le hr.1 hr.2.1]
  by_cases hv' : r'.start ≤ r'.stop
  · simp only [hv', not_true_eq_false, if_false, if_true]
    refine Cl.Sim.bind (insertPrefixL_sim hS h hr hv) fun p q hpq => ?_
    refine Cl.Sim.key hpq.2.2.1 fun hi hh => Cl.Sim.key hh fun hi hh => ?_
    rw [show m.len = m'.len from h.length]
    refine Cl.Sim.bind (insertLoopL_sim hS hh hv _ hpq.1 hpq.2) fun p q hpq => ?_
    exact Cl.Sim.ret (BTreeMap.insert_same start_same hpq.2 hv hpq.1)
  · simp only [hv', not_false_eq_true, if_false, if_true]
    exact rfl

theorem adjustRemoveL_sim (hS : StepsRespect S) {l l' : List (RangeInclusive K × V)}
    (h : SameBtm l l') {r r' n n' : RangeInclusive K}
    {v v' : V} (hr : SameIRange r r') (hv : Same v v') (hn : SameIRange n n') :
    Cl.Sim (adjustOverlappingRangesForRemoveL S l r v n)
      (adjustOverlappingRangesForRemove S l' r' v' n') SameBtm := by
  unfold adjustOverlappingRangesForRemoveL adjustOverlappingRangesForRemove
  exact Cl.Sim.bind (insertLeftL_sim hS (BTreeMap.remove_same start_same hr.1 h) hr hv hn)
    fun t t' ht => insertRightL_sim hS ht hr hv hn

theorem removeLoopL_sim (hS : StepsRespect S) {n n' : RangeInclusive K} (hn : SameIRange n n') {hi : K}
    (hh : keq hi n'.stop = true) (fuel : Nat) {l l' : List (RangeInclusive K × V)} (h : SameBtm l l') :
    Cl.Sim (removeLoopL S n hi fuel l) (removeLoop S n' fuel l') SameBtm := by
  induction fuel generalizing l l' with
  | zero => exact rfl
  | succ fuel ih =>
    unfold removeLoopL removeLoop
    refine Cl.Sim.bind (Cl.Sim.lib (BTreeMap.range_same start_same
      (lo := .excluded n.start) (lo' := .excluded n'.start)
      (hi := .included hi) (hi' := .included n'.stop) hn.1 hh h)) fun t t' ht => ?_
    have hx := ht.head?
    generalize t.head? = x at hx
    generalize t'.head? = x' at hx
    cases x <;> cases x' <;> simp only [SameOpt] at hx
    · exact Cl.Sim.ret h
    · rename_i x x'
      refine Cl.Sim.irange hx.1 fun r hr => Cl.Sim.val hx.2 fun v hv => ?_
      exact Cl.Sim.bind (adjustRemoveL_sim hS h hr hv hn) fun p q hpq => ih hpq

theorem removePrefixL_sim (hS : StepsRespect S) {l l' : List (RangeInclusive K × V)} (h : SameBtm l l') {n n' : RangeInclusive K}
    (hn : SameIRange n n') : Cl.Sim (removePrefixL S l n) (removePrefix S l' n') SameBtm := by
  unfold removePrefixL removePrefix
  refine Cl.Sim.bind (Cl.Sim.lib (BTreeMap.range_same start_same (lo := .unbounded) (lo' := .unbounded)
    (hi := .included n.start) (hi' := .included n'.start) trivial hn.1 h)) fun t t' ht => ?_
  have hx := ht.getLast?.filter (p := fun e => e.1.overlaps n) (q := fun e => e.1.overlaps n')
    fun a b hab => RangeInclusive.overlaps_same hab.1 hn
  generalize t.getLast?.filter _ = x at hx
  generalize t'.getLast?.filter _ = x' at hx
  cases x <;> cases x' <;> simp only [SameOpt] at hx
  · exact Cl.Sim.ret h
  · refine Cl.Sim.irange hx.1 fun r hr => Cl.Sim.val hx.2 fun v hv => ?_
    exact adjustRemoveL_sim hS h hr hv hn

theorem removeL_sim (hS : StepsRespect S) {m m' : RangeInclusiveMap K V} (h : SameMap m m') {r r' : RangeInclusive K}
    (hr : SameIRange r r') : Cl.Sim (m.removeL S r) (m'.remove S r') SameMap := by
  unfold removeL RangeInclusiveMap.remove removeFuel
  simp only [keq.le hr.1 hr.2.1]
  by_cases hv' : r'.start ≤ r'.stop
  · simp only [hv', not_true_eq_false, if_false, if_true]
    refine Cl.Sim.bind (removePrefixL_sim hS h hr) fun p q hpq => ?_
    refine Cl.Sim.key hr.2.1 fun hi hh => Cl.Sim.key hr.2.1 fun _ _ => ?_
    rw [show m.len = m'.len from h.length]
    refine Cl.Sim.bind (removeLoopL_sim hS hr hh _ hpq) fun p q hpq => ?_
    exact Cl.Sim.ret hpq
  · simp only [hv', not_false_eq_true, if_false, if_true]
    exact rfl

theorem getKeyValueL_sim {m m' : RangeInclusiveMap K V} (h : SameMap m m') {k k' : K}
    (hk : keq k k' = true) :
    Cl.Sim (m.getKeyValueL k) (m'.getKeyValue k') (SameOpt (SameEntry SameIRange)) := by
  unfold getKeyValueL getKeyValue
  refine Cl.Sim.key hk fun a ha => Cl.Sim.key hk fun _ _ => ?_
  refine Cl.Sim.bind (Cl.Sim.lib (BTreeMap.range_same start_same (lo := .unbounded) (lo' := .unbounded)
    (hi := .included a) (hi' := .included k') trivial ha h)) fun t t' ht => ?_
  exact Cl.Sim.ret (ht.getLast?.filter fun a b hab => RangeInclusive.contains_same hab.1 hk)

/-- The same query and the same entries left. -/
def Overlapping.SameIter (o o' : Overlapping K V) : Prop :=
  SameIRange o.queryRange o'.queryRange ∧ SameBtm o.btmRangeIter o'.btmRangeIter

theorem overlappingL_sim {m m' : RangeInclusiveMap K V} (h : SameMap m m') {q q' : RangeInclusive K}
    (hq : SameIRange q q') :
    Cl.Sim (m.overlappingL q) (m'.overlapping q') Overlapping.SameIter := by
  unfold overlappingL overlapping
  refine Cl.Sim.key hq.1 fun _ _ => Cl.Sim.key hq.1 fun a ha => ?_
  refine Cl.Sim.bind (Cl.Sim.lib (BTreeMap.range_same stop_same
    (lo := .included a) (lo' := .included q'.start)
    (hi := .unbounded) (hi' := .unbounded) ha trivial h)) fun t t' ht => ?_
  exact Cl.Sim.ret ⟨hq, ht⟩

theorem Overlapping.next_same {o o' : Overlapping K V} (h : o.SameIter o') :
    SameOpt (SameEntry SameIRange) o.next.1 o'.next.1 ∧ o.next.2.SameIter o'.next.2 := by
  obtain ⟨q, l⟩ := o
  obtain ⟨q', l'⟩ := o'
  obtain ⟨hq, hl⟩ := h
  simp only at hq hl
  cases hl with
  | nil => exact ⟨trivial, hq, .nil⟩
  | cons h ht =>
    simp only [next, Deque.next, keq.le h.1.1 hq.2.1]
    split
    · exact ⟨h, hq, ht⟩
    · exact ⟨trivial, hq, ht⟩

theorem Overlapping.nextBack_same {o o' : Overlapping K V} (h : o.SameIter o') :
    SameOpt (SameEntry SameIRange) o.nextBack.1 o'.nextBack.1 ∧
      o.nextBack.2.SameIter o'.nextBack.2 := by
  obtain ⟨q, l⟩ := o
  obtain ⟨q', l'⟩ := o'
  obtain ⟨hq, hl⟩ := h
  simp only at hq hl
  induction hn : l.length generalizing l l' with
  | zero =>
    rcases hl.concat_cases with ⟨rfl, rfl⟩ | ⟨t, e, t', e', rfl, rfl, ht, he⟩
    · rw [Overlapping.nextBack_nil, Overlapping.nextBack_nil]
      exact ⟨trivial, hq, .nil⟩
    · simp at hn
  | succ n ih =>
    rcases hl.concat_cases with ⟨rfl, rfl⟩ | ⟨t, e, t', e', rfl, rfl, ht, he⟩
    · simp at hn
    · rw [Overlapping.nextBack_concat, Overlapping.nextBack_concat]
      simp only [keq.le he.1.1 hq.2.1]
      split
      · exact ⟨he, hq, ht⟩
      · exact ih _ _ ht (by simpa using hn)

/-- The same cursor. -/
def Gaps.SameIter (g g' : Gaps K V) : Prop :=
  g.candidateNeedsPlusOne = g'.candidateNeedsPlusOne ∧
  keq g.candidateStart g'.candidateStart = true ∧ keq g.queryEnd g'.queryEnd = true ∧
    SameBtm g.btmRangeIter g'.btmRangeIter

/-- The same gap, or none, and the same cursor. -/
def Gaps.SameStep (p q : Option (RangeInclusive K) × Gaps K V) : Prop :=
  SameOpt SameIRange p.1 q.1 ∧ p.2.SameIter q.2

theorem gapsL_sim {m m' : RangeInclusiveMap K V} (h : SameMap m m') {q q' : RangeInclusive K}
    (hq : SameIRange q q') : Cl.Sim (m.gapsL q) (m'.gaps q') Gaps.SameIter := by
  unfold gapsL gaps
  exact Cl.Sim.bind (overlappingL_sim h hq) fun o o' ho => Cl.Sim.ret ⟨rfl, hq.1, hq.2.1, ho.2⟩

theorem Gaps.nextTailL_sim (hS : StepsRespect S) (p : Bool) {a a' b b' : K}
    (ha : keq a a' = true) (hb : keq b b' = true)
    {l l' : List (RangeInclusive K × V)} (h : SameBtm l l') :
    Cl.Sim (nextTailL S p a b l) (nextTail S p a' b' l') SameStep := by
  unfold nextTailL nextTail
  refine Cl.Sim.ite rfl (fun _ _ => ?_) fun _ _ => ?_
  · refine Cl.Sim.ite (keq.lt ha hb) (fun _ hlt => ?_) fun _ _ => Cl.Sim.ret ⟨trivial, rfl, hb, hb, h⟩
    refine Cl.Sim.bind (Cl.Sim.lib (hS.addOne _ _ _ hlt ha)) fun c c' hc => ?_
    exact Cl.Sim.key hb fun y hy => Cl.Sim.ret ⟨⟨hc, hy, rfl⟩, rfl, hb, hb, h⟩
  · refine Cl.Sim.ite (keq.le ha hb) (fun _ _ => ?_) fun _ _ => Cl.Sim.ret ⟨trivial, rfl, hb, hb, h⟩
    exact Cl.Sim.key ha fun x hx => Cl.Sim.key hb fun y hy =>
      Cl.Sim.ret ⟨⟨hx, hy, rfl⟩, rfl, hb, hb, h⟩

theorem Gaps.nextL_sim (hS : StepsRespect S) {g g' : Gaps K V} (h : g.SameIter g')
    (hg : g'.Guard) : Cl.Sim (g.nextL S) (g'.next S) SameStep := by
  obtain ⟨p, a, b, l⟩ := g
  obtain ⟨p', a', b', l'⟩ := g'
  obtain ⟨hp, ha, hb, hl⟩ := h
  obtain ⟨h1, h2⟩ := hg
  simp only [nextL, next] at *
  subst hp
  induction hl generalizing p a a' with
  | nil => exact nextTailL_sim hS p ha hb .nil
  | @cons x x' t t' hx ht ih =>
    have hs : Sep t' := ⟨(List.pairwise_cons.1 h2.pw).2, fun y hy => h2.ne y (by simp [hy])⟩
    have hx' : ∀ y ∈ t', x'.1.stop < y.1.start := fun y hy => by
      have := (List.pairwise_cons.1 h2.pw).1 y hy
      grind [Before]
    unfold nextLoopL nextLoop
    refine Cl.Sim.ite (keq.lt hb hx.1.1) (fun _ _ => nextTailL_sim hS p ha hb ht) fun _ _ => ?_
    refine Cl.Sim.bind (R := fun c c' => keq c c' = true) ?_ fun c c' hc => ?_
    · unfold curCandidateStartL curCandidateStart
      refine Cl.Sim.ite rfl (fun hp _ => ?_) fun _ _ => ?_
      · exact Cl.Sim.lib (hS.addOne _ _ _ (h1 hp x' (by simp)) ha)
      · exact fun k hk => Cl.Sim.ret (R := fun c c' => keq c c' = true) (keq.trans hk ha)
    · refine Cl.Sim.ite (keq.lt hc hx.1.1) (fun _ hlt => ?_) fun _ _ => ?_
      · refine Cl.Sim.bind (Cl.Sim.lib (hS.subOne _ _ _ hlt hx.1.1)) fun e e' he => ?_
        exact Cl.Sim.ret ⟨⟨hc, he, rfl⟩, rfl, hx.1.2.1, hb, ht⟩
      · exact ih _ _ _ hx.1.2.1 hs fun _ => hx'

/-! ### Histories -/

theorem extendL_same (hS : StepsRespect S) {m m' : RangeInclusiveMap K V} (h : SameMap m m') {C : Nat → Clones K V}
    (hC : ∀ i, LawfulClones (C i)) (items : List (RangeInclusive K × V)) :
    SameMap (m.extendL S C items).1 (m'.extend S items).1 ∧
      (m.extendL S C items).2 = (m'.extend S items).2 := by
  induction items generalizing m m' C with
  | nil => exact ⟨h, by trivial⟩
  | cons e t ih =>
    obtain ⟨r, v⟩ := e
    unfold extendL extend
    rcases Spec.SameOutcome.cases ((insertL_sim hS h (r := r) (r' := r) (v := v)
      ⟨keq_self _, keq_self _, rfl⟩ Same.rfl').run (hC 0) 0) with ⟨a, b, h1, h2, h3⟩ | ⟨p, h1, h2⟩
    · simp only [h1, h2]
      exact ih h3 fun i => hC (i + 1)
    · simp only [h1, h2]
      exact ⟨h, by trivial⟩

theorem applyL_same (hS : StepsRespect S) {m m' : RangeInclusiveMap K V} (h : SameMap m m') {C : Nat → Clones K V}
    (hC : ∀ i, LawfulClones (C i)) (op : Op (RangeInclusive K) V) :
    SameMap (m.applyL S C op).1 (m'.apply S op).1 ∧ (m.applyL S C op).2 = (m'.apply S op).2 := by
  cases op with
  | insert r v =>
    unfold applyL apply
    rcases Spec.SameOutcome.cases ((insertL_sim hS h (r := r) (r' := r) (v := v)
      ⟨keq_self _, keq_self _, rfl⟩ Same.rfl').run (hC 0) 0) with ⟨a, b, h1, h2, h3⟩ | ⟨p, h1, h2⟩
    · simp only [h1, h2]
      exact ⟨h3, by trivial⟩
    · simp only [h1, h2]
      exact ⟨h, by trivial⟩
  | remove r =>
    unfold applyL apply
    rcases Spec.SameOutcome.cases ((removeL_sim hS h (r := r) (r' := r)
      ⟨keq_self _, keq_self _, rfl⟩).run (hC 0) 0) with ⟨a, b, h1, h2, h3⟩ | ⟨p, h1, h2⟩
    · simp only [h1, h2]
      exact ⟨h3, by trivial⟩
    · simp only [h1, h2]
      exact ⟨h, by trivial⟩
  | clear => exact ⟨.nil, rfl⟩
  | extend items => exact extendL_same hS h hC items

theorem runL_same (hS : StepsRespect S) (ops : List ((Nat → Clones K V) × Op (RangeInclusive K) V))
    (hC : ∀ op ∈ ops, ∀ i, LawfulClones (op.1 i)) :
    SameMap (runL S ops) (run S (ops.map (·.2))) := by
  unfold runL run
  rw [List.foldl_map]
  suffices ∀ m m' : RangeInclusiveMap K V, SameMap m m' →
      SameMap (ops.foldl (fun m op => (m.applyL S op.1 op.2).1) m)
        (ops.foldl (fun m op => (m.apply S op.2).1) m') from this _ _ .nil
  induction ops with
  | nil => exact fun _ _ h => h
  | cons op t ih =>
    intro m m' h
    exact ih (fun op ho => hC op (List.mem_cons_of_mem _ ho)) _ _
      (applyL_same hS h (hC op List.mem_cons_self) op.2).1

end RangeInclusiveMap
end Verif

import Verif.Proof.CloneBase
import Verif.Proof.Rename

/-!
# `RangeMap` with `Clone` that returns equal keys and values
-/
set_option linter.unusedSectionVars false
namespace Verif
open Spec
variable {K V : Type} [LE K] [LT K] [DecidableLE K] [DecidableLT K]
  [Std.IsLinearPreorder K] [Std.LawfulOrderLT K] [BEq V]

namespace Range
variable {r r' o o' : Range K} {k k' : K}

theorem contains_same (h : SameRange r r') (hk : keq k k' = true) :
    r.contains k = r'.contains k' := by
  simp only [contains, keq.le h.1 hk, keq.lt hk h.2]

theorem overlaps_same (h : SameRange r r') (ho : SameRange o o') :
    r.overlaps o = r'.overlaps o' := by
  simp only [overlaps, keq.lt (keq.rmax h.1 ho.1) (keq.rmin h.2 ho.2)]

theorem touches_same (h : SameRange r r') (ho : SameRange o o') :
    r.touches o = r'.touches o' := by
  simp only [touches, keq.le (keq.rmax h.1 ho.1) (keq.rmin h.2 ho.2)]

end Range

namespace RangeMap
open Cl

/-- Entry by entry the same. -/
abbrev SameBtm (l l' : List (Range K × V)) : Prop := Pointwise (SameEntry SameRange) l l'

theorem start_same (r s : Range K) (h : SameRange r s) : keq (Range.start r) (Range.start s) = true :=
  h.1

theorem stop_same (r s : Range K) (h : SameRange r s) : keq (Range.stop r) (Range.stop s) = true :=
  h.2

/-- A tree and a range. -/
def SamePair (p q : List (Range K × V) × Range K) : Prop := SameBtm p.1 q.1 ∧ SameRange p.2 q.2

theorem cloneL_sim {l l' : List (Range K × V)} (h : SameBtm l l') :
    Cl.Sim (cloneL l) (pure l') SameBtm := by
  induction h with
  | nil => exact Cl.Sim.ret .nil
  | cons h _ ih =>
    unfold cloneL
    refine Cl.Sim.range h.1 fun r hr => Cl.Sim.val h.2 fun v hv => ?_
    refine Cl.Sim.bind (g := fun t => pure (_ :: t)) ih fun t t' ht => ?_
    exact Cl.Sim.ret (.cons ⟨hr, hv⟩ ht)

theorem insertLeftL_sim {l l' : List (Range K × V)} (h : SameBtm l l') {r r' c c' : Range K}
    {v v' : V} (hr : SameRange r r') (hv : Same v v') (hc : SameRange c c') :
    Cl.Sim (insertLeftL l r v c) (pure (if r'.start < c'.start then
      BTreeMap.insert Range.start ⟨r'.start, c'.start⟩ v' l' else l')) SameBtm := by
  unfold insertLeftL
  simp only [keq.lt hr.1 hc.1]
  split
  · refine Cl.Sim.key hc.1 fun k hk => Cl.Sim.val hv fun w hw => Cl.Sim.ret ?_
    have hs : SameRange ⟨r.start, k⟩ ⟨r'.start, c'.start⟩ := ⟨hr.1, hk⟩
    exact BTreeMap.insert_same start_same hs hw h
  · exact Cl.Sim.ret h

theorem insertRightL_sim {l l' : List (Range K × V)} (h : SameBtm l l') {r r' c c' : Range K}
    {v v' : V} (hr : SameRange r r') (hv : Same v v') (hc : SameRange c c') :
    Cl.Sim (insertRightL l r v c) (pure (if c'.stop < r'.stop then
      BTreeMap.insert Range.start ⟨c'.stop, r'.stop⟩ v' l' else l')) SameBtm := by
  unfold insertRightL
  simp only [keq.lt hc.2 hr.2]
  split
  · refine Cl.Sim.key hc.2 fun k hk => Cl.Sim.ret ?_
    have hs : SameRange ⟨k, r.stop⟩ ⟨c'.stop, r'.stop⟩ := ⟨hk, hr.2⟩
    exact BTreeMap.insert_same start_same hs hv h
  · exact Cl.Sim.ret h

theorem adjustInsertL_sim {l l' : List (Range K × V)} (h : SameBtm l l') {r r' n n' : Range K}
    {v v' w w' : V} (hr : SameRange r r') (hv : Same v v') (hn : SameRange n n') (hw : Same w w') :
    Cl.Sim (adjustTouchingRangesForInsertL l r v n w)
      (pure (adjustTouchingRangesForInsert l' r' v' n' w')) SamePair := by
  unfold adjustTouchingRangesForInsertL adjustTouchingRangesForInsert
  rw [Same.beq hv hw, Range.overlaps_same hn hr]
  split
  · refine Cl.Sim.key (keq.rmin hn.1 hr.1) fun a ha => Cl.Sim.key (keq.rmax hn.2 hr.2) fun b hb => ?_
    exact Cl.Sim.ret ⟨BTreeMap.remove_same start_same hr.1 h, ha, hb⟩
  · split
    · refine Cl.Sim.bind (g := fun t => pure (if n'.stop < r'.stop then
          BTreeMap.insert Range.start ⟨n'.stop, r'.stop⟩ v' t else t, n'))
        (insertLeftL_sim (BTreeMap.remove_same start_same hr.1 h) hr hv hn) fun t t' ht => ?_
      refine Cl.Sim.bind (g := fun t => pure (t, n')) (insertRightL_sim ht hr hv hn)
        fun t t' ht => ?_
      exact Cl.Sim.ret ⟨ht, hn⟩
    · exact Cl.Sim.ret ⟨h, hn⟩

theorem insertLoopL_sim {hi hi' : K} (hh : keq hi hi' = true) {w w' : V} (hw : Same w w')
    (fuel : Nat) {l l' : List (Range K × V)} (h : SameBtm l l') {n n' : Range K}
    (hn : SameRange n n') :
    Cl.Sim (insertLoopL hi w fuel l n) (insertLoop hi' w' fuel l' n') SamePair := by
  induction fuel generalizing l l' n n' with
  | zero => exact rfl
  | succ fuel ih =>
    unfold insertLoopL insertLoop
    refine Cl.Sim.bind (Cl.Sim.lib (BTreeMap.range_same start_same
      (lo := .included n.start) (lo' := .included n'.start)
      (hi := .included hi) (hi' := .included hi') hn.1 hh h)) fun t t' ht => ?_
    have hx := ht.head?
    generalize t.head? = x at hx
    generalize t'.head? = x' at hx
    cases x <;> cases x' <;> simp only [SameOpt] at hx
    · exact Cl.Sim.ret ⟨h, hn⟩
    · rename_i x x'
      simp only [keq.eq hx.1.1 hn.2, Same.beq hx.2 hw]
      refine Cl.Sim.ite rfl (fun _ _ => Cl.Sim.ret ⟨h, hn⟩) fun _ _ => ?_
      refine Cl.Sim.range hx.1 fun r hr => Cl.Sim.val hx.2 fun v hv => ?_
      have := adjustInsertL_sim h hr hv hn hw
      refine Cl.Sim.bind (y := pure _) (g := fun p => insertLoop hi' w' fuel p.1 p.2) this
        fun p q hpq => ?_
      exact ih hpq.1 hpq.2

theorem insertPrefixL_sim {l l' : List (Range K × V)} (h : SameBtm l l') {n n' : Range K}
    (hn : SameRange n n') {w w' : V} (hw : Same w w') :
    Cl.Sim (insertPrefixL l n w) (insertPrefix l' n' w') SamePair := by
  unfold insertPrefixL insertPrefix
  refine Cl.Sim.bind (Cl.Sim.lib (BTreeMap.range_same start_same (lo := .unbounded) (lo' := .unbounded)
    (hi := .included n.start) (hi' := .included n'.start) trivial hn.1 h)) fun t t' ht => ?_
  have hc := (ht.reverse.take 2).filter (p := fun e => e.1.touches n)
    (q := fun e => e.1.touches n') fun a b hab => Range.touches_same hab.1 hn
  simp only
  generalize (t.reverse.take 2).filter _ = c at hc
  generalize (t'.reverse.take 2).filter _ = c' at hc
  rcases hc with _ | ⟨ha, _ | ⟨hb, _⟩⟩
  · exact Cl.Sim.ret ⟨h, hn⟩
  · refine Cl.Sim.range ha.1 fun r hr => Cl.Sim.val ha.2 fun v hv => ?_
    exact adjustInsertL_sim h hr hv hn hw
  · refine Cl.Sim.range hb.1 fun r hr => Cl.Sim.val hb.2 fun v hv => ?_
    exact adjustInsertL_sim h hr hv hn hw

/-- The same entries. -/
abbrev SameMap (m m' : RangeMap K V) : Prop := SameBtm m.btm m'.btm

theorem insertL_sim {m m' : RangeMap K V} (h : SameMap m m') {r r' : Range K} {v v' : V}
    (hr : SameRange r r') (hv : Same v v') :
    Cl.Sim (m.insertL r v) (m'.insert r' v') SameMap := by
  unfold insertL RangeMap.insert insertFuel
  simp only [keq.lt hr.1 hr.2]
  by_cases hv' : r'.start < r'.stop
  · simp only [hv', not_true_eq_false, if_false, if_true]
    refine Cl.Sim.bind (insertPrefixL_sim h hr hv) fun p q hpq => ?_
    refine Cl.Sim.key hpq.2.2 fun hi hh => Cl.Sim.key hpq.2.2 fun _ _ => ?_
    rw [show m.len = m'.len from h.length]
    refine Cl.Sim.bind (insertLoopL_sim hh hv _ hpq.1 hpq.2) fun p q hpq => ?_
    exact Cl.Sim.ret (BTreeMap.insert_same start_same hpq.2 hv hpq.1)
  · simp only [hv', not_false_eq_true, if_false, if_true]
    exact rfl

theorem adjustRemoveL_sim {l l' : List (Range K × V)} (h : SameBtm l l') {r r' n n' : Range K}
    {v v' : V} (hr : SameRange r r') (hv : Same v v') (hn : SameRange n n') :
    Cl.Sim (adjustOverlappingRangesForRemoveL l r v n)
      (pure (adjustOverlappingRangesForRemove l' r' v' n')) SameBtm := by
  unfold adjustOverlappingRangesForRemoveL adjustOverlappingRangesForRemove
  exact Cl.Sim.bind (g := fun t => pure (if n'.stop < r'.stop then
      BTreeMap.insert Range.start ⟨n'.stop, r'.stop⟩ v' t else t))
    (insertLeftL_sim (BTreeMap.remove_same start_same hr.1 h) hr hv hn)
    fun t t' ht => insertRightL_sim ht hr hv hn

theorem removeLoopL_sim {n n' : Range K} (hn : SameRange n n') {hi : K}
    (hh : keq hi n'.stop = true) (fuel : Nat) {l l' : List (Range K × V)} (h : SameBtm l l') :
    Cl.Sim (removeLoopL n hi fuel l) (removeLoop n' fuel l') SameBtm := by
  induction fuel generalizing l l' with
  | zero => exact rfl
  | succ fuel ih =>
    unfold removeLoopL removeLoop
    refine Cl.Sim.bind (Cl.Sim.lib (BTreeMap.range_same start_same
      (lo := .excluded n.start) (lo' := .excluded n'.start)
      (hi := .excluded hi) (hi' := .excluded n'.stop) hn.1 hh h)) fun t t' ht => ?_
    have hx := ht.head?
    generalize t.head? = x at hx
    generalize t'.head? = x' at hx
    cases x <;> cases x' <;> simp only [SameOpt] at hx
    · exact Cl.Sim.ret h
    · rename_i x x'
      refine Cl.Sim.range hx.1 fun r hr => Cl.Sim.val hx.2 fun v hv => ?_
      have := adjustRemoveL_sim h hr hv hn
      exact Cl.Sim.bind (y := pure _) (g := fun t => removeLoop n' fuel t) this
        fun p q hpq => ih hpq

theorem removePrefixL_sim {l l' : List (Range K × V)} (h : SameBtm l l') {n n' : Range K}
    (hn : SameRange n n') : Cl.Sim (removePrefixL l n) (removePrefix l' n') SameBtm := by
  unfold removePrefixL removePrefix
  refine Cl.Sim.bind (Cl.Sim.lib (BTreeMap.range_same start_same (lo := .unbounded) (lo' := .unbounded)
    (hi := .included n.start) (hi' := .included n'.start) trivial hn.1 h)) fun t t' ht => ?_
  have hx := ht.getLast?.filter (p := fun e => e.1.overlaps n) (q := fun e => e.1.overlaps n')
    fun a b hab => Range.overlaps_same hab.1 hn
  generalize t.getLast?.filter _ = x at hx
  generalize t'.getLast?.filter _ = x' at hx
  cases x <;> cases x' <;> simp only [SameOpt] at hx
  · exact Cl.Sim.ret h
  · refine Cl.Sim.range hx.1 fun r hr => Cl.Sim.val hx.2 fun v hv => ?_
    exact adjustRemoveL_sim h hr hv hn

theorem removeL_sim {m m' : RangeMap K V} (h : SameMap m m') {r r' : Range K}
    (hr : SameRange r r') : Cl.Sim (m.removeL r) (m'.remove r') SameMap := by
  unfold removeL RangeMap.remove removeFuel
  simp only [keq.lt hr.1 hr.2]
  by_cases hv' : r'.start < r'.stop
  · simp only [hv', not_true_eq_false, if_false, if_true]
    refine Cl.Sim.bind (removePrefixL_sim h hr) fun p q hpq => ?_
    refine Cl.Sim.key hr.2 fun hi hh => Cl.Sim.key hr.2 fun _ _ => ?_
    rw [show m.len = m'.len from h.length]
    refine Cl.Sim.bind (removeLoopL_sim hr hh _ hpq) fun p q hpq => ?_
    exact Cl.Sim.ret hpq
  · simp only [hv', not_false_eq_true, if_false, if_true]
    exact rfl

theorem getKeyValueL_sim {m m' : RangeMap K V} (h : SameMap m m') {k k' : K}
    (hk : keq k k' = true) :
    Cl.Sim (m.getKeyValueL k) (m'.getKeyValue k') (SameOpt (SameEntry SameRange)) := by
  unfold getKeyValueL getKeyValue
  refine Cl.Sim.key hk fun a ha => Cl.Sim.key hk fun _ _ => ?_
  refine Cl.Sim.bind (Cl.Sim.lib (BTreeMap.range_same start_same (lo := .unbounded) (lo' := .unbounded)
    (hi := .included a) (hi' := .included k') trivial ha h)) fun t t' ht => ?_
  exact Cl.Sim.ret (ht.getLast?.filter fun a b hab => Range.contains_same hab.1 hk)

/-- The same query and the same entries left. -/
def Overlapping.SameIter (o o' : Overlapping K V) : Prop :=
  SameRange o.queryRange o'.queryRange ∧ SameBtm o.btmRangeIter o'.btmRangeIter

theorem overlappingL_sim {m m' : RangeMap K V} (h : SameMap m m') {q q' : Range K}
    (hq : SameRange q q') :
    Cl.Sim (m.overlappingL q) (m'.overlapping q') Overlapping.SameIter := by
  unfold overlappingL overlapping
  refine Cl.Sim.key hq.1 fun _ _ => Cl.Sim.key hq.1 fun a ha => ?_
  refine Cl.Sim.bind (Cl.Sim.lib (BTreeMap.range_same stop_same
    (lo := .excluded a) (lo' := .excluded q'.start)
    (hi := .unbounded) (hi' := .unbounded) ha trivial h)) fun t t' ht => ?_
  exact Cl.Sim.ret ⟨hq, ht⟩

theorem Overlapping.next_same {o o' : Overlapping K V} (h : o.SameIter o') :
    SameOpt (SameEntry SameRange) o.next.1 o'.next.1 ∧ o.next.2.SameIter o'.next.2 := by
  obtain ⟨q, l⟩ := o
  obtain ⟨q', l'⟩ := o'
  obtain ⟨hq, hl⟩ := h
  simp only at hq hl
  cases hl with
  | nil => exact ⟨trivial, hq, .nil⟩
  | cons h ht =>
    simp only [next, Deque.next, keq.lt h.1.1 hq.2]
    split
    · exact ⟨h, hq, ht⟩
    · exact ⟨trivial, hq, ht⟩

theorem Overlapping.nextBack_same {o o' : Overlapping K V} (h : o.SameIter o') :
    SameOpt (SameEntry SameRange) o.nextBack.1 o'.nextBack.1 ∧
      o.nextBack.2.SameIter o'.nextBack.2 := by
  obtain ⟨q, l⟩ := o
  obtain ⟨q', l'⟩ := o'
  obtain ⟨hq, hl⟩ := h
  simp only at hq hl
  induction hn : l.length generalizing l l' with
  | zero =>
    rcases hl.concat_cases with ⟨rfl, rfl⟩ | ⟨t, e, t', e', rfl, rfl, ht, he⟩
    · rw [Overlapping.nextBack_nil, Overlapping.nextBack_nil]
      exact ⟨trivial, hq, .nil⟩
    · simp at hn
  | succ n ih =>
    rcases hl.concat_cases with ⟨rfl, rfl⟩ | ⟨t, e, t', e', rfl, rfl, ht, he⟩
    · simp at hn
    · rw [Overlapping.nextBack_concat, Overlapping.nextBack_concat]
      simp only [keq.lt he.1.1 hq.2]
      split
      · exact ⟨he, hq, ht⟩
      · exact ih _ _ ht (by simpa using hn)

/-- The same cursor. -/
def Gaps.SameIter (g g' : Gaps K V) : Prop :=
  keq g.candidateStart g'.candidateStart = true ∧ keq g.queryEnd g'.queryEnd = true ∧
    SameBtm g.btmRangeIter g'.btmRangeIter

/-- The same gap, or none, and the same cursor. -/
def Gaps.SameStep (p q : Option (Range K) × Gaps K V) : Prop :=
  SameOpt SameRange p.1 q.1 ∧ p.2.SameIter q.2

theorem gapsL_sim {m m' : RangeMap K V} (h : SameMap m m') {q q' : Range K}
    (hq : SameRange q q') : Cl.Sim (m.gapsL q) (m'.gaps q') Gaps.SameIter := by
  unfold gapsL gaps
  exact Cl.Sim.bind (overlappingL_sim h hq) fun o o' ho => Cl.Sim.ret ⟨hq.1, hq.2, ho.2⟩

theorem Gaps.nextTailL_sim {a a' b b' : K} (ha : keq a a' = true) (hb : keq b b' = true)
    {l l' : List (Range K × V)} (h : SameBtm l l') :
    Cl.Sim (nextTailL a b l) (pure (nextTail a' b' l')) SameStep := by
  unfold nextTailL nextTail
  simp only [keq.lt ha hb]
  split
  · exact Cl.Sim.key ha fun x hx => Cl.Sim.key hb fun y hy => Cl.Sim.ret ⟨⟨hx, hy⟩, hb, hb, h⟩
  · exact Cl.Sim.ret ⟨trivial, ha, hb, h⟩

theorem Gaps.nextL_sim {g g' : Gaps K V} (h : g.SameIter g') :
    Cl.Sim g.nextL (pure g'.next) SameStep := by
  obtain ⟨a, b, l⟩ := g
  obtain ⟨a', b', l'⟩ := g'
  obtain ⟨ha, hb, hl⟩ := h
  simp only [nextL, next] at *
  induction hl generalizing a a' with
  | nil => exact nextTailL_sim ha hb .nil
  | @cons x x' t t' hx ht ih =>
    unfold nextLoopL nextLoop
    simp only [keq.le hb hx.1.1, keq.lt ha hx.1.1]
    split
    · exact nextTailL_sim ha hb ht
    · split
      · exact Cl.Sim.key ha fun x hx' => Cl.Sim.key hx.1.1 fun y hy =>
          Cl.Sim.ret ⟨⟨hx', hy⟩, hx.1.2, hb, ht⟩
      · exact ih _ _ hx.1.2

/-! ### Histories -/

theorem _root_.Verif.Spec.SameOutcome.cases {α β : Type} {R : α → β → Prop} {x : Except Panic α}
    {y : Except Panic β} (h : SameOutcome R x y) :
    (∃ a b, x = .ok a ∧ y = .ok b ∧ R a b) ∨ ∃ p, x = .error p ∧ y = .error p := by
  cases x <;> cases y <;> simp_all [SameOutcome]

theorem extendL_same {m m' : RangeMap K V} (h : SameMap m m') {C : Nat → Clones K V}
    (hC : ∀ i, LawfulClones (C i)) (items : List (Range K × V)) :
    SameMap (m.extendL C items).1 (m'.extend items).1 ∧
      (m.extendL C items).2 = (m'.extend items).2 := by
  induction items generalizing m m' C with
  | nil => exact ⟨h, by trivial⟩
  | cons e t ih =>
    obtain ⟨r, v⟩ := e
    unfold extendL extend
    rcases Spec.SameOutcome.cases ((insertL_sim h (r := r) (r' := r) (v := v)
      ⟨keq_self _, keq_self _⟩ Same.rfl').run (hC 0) 0) with ⟨a, b, h1, h2, h3⟩ | ⟨p, h1, h2⟩
    · simp only [h1, h2]
      exact ih h3 fun i => hC (i + 1)
    · simp only [h1, h2]
      exact ⟨h, by trivial⟩

theorem applyL_same {m m' : RangeMap K V} (h : SameMap m m') {C : Nat → Clones K V}
    (hC : ∀ i, LawfulClones (C i)) (op : Op (Range K) V) :
    SameMap (m.applyL C op).1 (m'.apply op).1 ∧ (m.applyL C op).2 = (m'.apply op).2 := by
  cases op with
  | insert r v =>
    unfold applyL apply
    rcases Spec.SameOutcome.cases ((insertL_sim h (r := r) (r' := r) (v := v)
      ⟨keq_self _, keq_self _⟩ Same.rfl').run (hC 0) 0) with ⟨a, b, h1, h2, h3⟩ | ⟨p, h1, h2⟩
    · simp only [h1, h2]
      exact ⟨h3, by trivial⟩
    · simp only [h1, h2]
      exact ⟨h, by trivial⟩
  | remove r =>
    unfold applyL apply
    rcases Spec.SameOutcome.cases ((removeL_sim h (r := r) (r' := r)
      ⟨keq_self _, keq_self _⟩).run (hC 0) 0) with ⟨a, b, h1, h2, h3⟩ | ⟨p, h1, h2⟩
    · simp only [h1, h2]
      exact ⟨h3, by trivial⟩
    · simp only [h1, h2]
      exact ⟨h, by trivial⟩
  | clear => exact ⟨.nil, rfl⟩
  | extend items => exact extendL_same h hC items

theorem runL_same (ops : List ((Nat → Clones K V) × Op (Range K) V))
    (hC : ∀ op ∈ ops, ∀ i, LawfulClones (op.1 i)) :
    SameMap (runL ops) (run (ops.map (·.2))) := by
  unfold runL run
  rw [List.foldl_map]
  suffices ∀ m m' : RangeMap K V, SameMap m m' →
      SameMap (ops.foldl (fun m op => (m.applyL op.1 op.2).1) m)
        (ops.foldl (fun m op => (m.apply op.2).1) m') from this _ _ .nil
  induction ops with
  | nil => exact fun _ _ h => h
  | cons op t ih =>
    intro m m' h
    exact ih (fun op ho => hC op (List.mem_cons_of_mem _ ho)) _ _
      (applyL_same h (hC op List.mem_cons_self) op.2).1

end RangeMap
end Verif

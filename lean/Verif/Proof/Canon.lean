import Verif.Proof.Reach
import Verif.Model.Cmp

/-!
# Canonicality, and refinement of whole histories
-/
set_option linter.unusedSectionVars false
set_option linter.unusedVariables false

namespace Verif.RangeMap
variable {K : Type} [LE K] [LT K] [DecidableLE K] [DecidableLT K]
  [Std.IsLinearPreorder K] [Std.LawfulOrderLT K] {V : Type} [BEq V]

theorem WF.tail {e : Range K × V} {t : List (Range K × V)} (h : WF (e :: t)) : WF t where
  sep := ⟨(List.pairwise_cons.1 h.sep.pw).2, fun x hx => h.sep.ne x (by simp [hx])⟩
  coal a ha b hb := h.coal a (by simp [ha]) b (by simp [hb])

theorem WF.head {e : Range K × V} {t : List (Range K × V)} (h : WF (e :: t)) :
    ∀ x ∈ t, Before e x := (List.pairwise_cons.1 h.sep.pw).1

theorem maps_tail {e : Range K × V} {t : List (Range K × V)} (h : WF (e :: t)) (k : K) (w : V) :
    Maps t k w ↔ Maps (e :: t) k w ∧ e.1.stop ≤ k := by
  have hh := h.head
  constructor
  · rintro ⟨x, hx, h1, h2, h3⟩
    have := hh x hx
    exact ⟨⟨x, by simp [hx], h1, h2, h3⟩, by grind [Before]⟩
  · rintro ⟨⟨x, hx, h1, h2, h3⟩, h4⟩
    refine ⟨x, ?_, h1, h2, h3⟩
    grind

/-- One direction of agreement. -/
def Sub (l l' : List (Range K × V)) : Prop :=
  ∀ k w, Maps l k w → ∃ w', Maps l' k w' ∧ (w == w') = true

theorem canon_start {e e' : Range K × V} {t t' : List (Range K × V)}
    (h : WF (e :: t)) (h' : WF (e' :: t')) (hs : Sub (e :: t) (e' :: t')) :
    e'.1.start ≤ e.1.start := by
  have hne := h.sep.ne e (by simp)
  obtain ⟨w', ⟨x, hx, h1, h2, h3⟩, _⟩ := hs e.1.start e.2 ⟨e, by simp, by grind, hne, rfl⟩
  have := h'.head x
  grind [Before]

theorem canon_stop [PartialEquivBEq V] {e e' : Range K × V} {t t' : List (Range K × V)}
    (h : WF (e :: t)) (h' : WF (e' :: t')) (hs : Sub (e' :: t') (e :: t))
    (h1 : e'.1.start ≤ e.1.start)
    (hv : (e'.2 == e.2) = true) : e'.1.stop ≤ e.1.stop := by
  apply Decidable.byContradiction
  intro hlt
  have hne := h.sep.ne e (by simp)
  obtain ⟨w, ⟨x, hx, h3, h4, h5⟩, hw⟩ := hs e.1.stop e'.2 ⟨e', by simp, by grind, by grind, rfl⟩
  have hb := h.head x
  have hc := h.coal e (by simp) x hx
  have : (e.2 == x.2) = true := by
    rw [h5]; exact PartialEquivBEq.trans (PartialEquivBEq.symm hv) hw
  grind [Before]

theorem canon_tail [PartialEquivBEq V] {e e' : Range K × V} {t t' : List (Range K × V)}
    (h : WF (e :: t)) (h' : WF (e' :: t')) (hs : Sub (e :: t) (e' :: t'))
    (he : e'.1.stop ≤ e.1.stop) : Sub t t' := by
  intro k w hm
  rw [maps_tail h] at hm
  obtain ⟨w', hw', hww⟩ := hs k w hm.1
  exact ⟨w', (maps_tail h' k w').2 ⟨hw', by grind⟩, hww⟩

/-- Two well-formed lists with the same contents are entrywise equal. -/
theorem canon [PartialEquivBEq V] : ∀ {l l' : List (Range K × V)}, WF l → WF l' →
    Sub l l' → Sub l' l → iterEq entryEq l l' = true
  | [], [], _, _, _, _ => rfl
  | e :: t, [], h, _, hs, _ => by
    have hne := h.sep.ne e (by simp)
    obtain ⟨w', ⟨x, hx, _⟩, _⟩ := hs e.1.start e.2 ⟨e, by simp, by grind, hne, rfl⟩
    simp at hx
  | [], e :: t, _, h, _, hs => by
    have hne := h.sep.ne e (by simp)
    obtain ⟨w', ⟨x, hx, _⟩, _⟩ := hs e.1.start e.2 ⟨e, by simp, by grind, hne, rfl⟩
    simp at hx
  | e :: t, e' :: t', h, h', hs, hs' => by
    have a1 := canon_start h h' hs
    have a2 := canon_start h' h hs'
    have hne := h.sep.ne e (by simp)
    have hne' := h'.sep.ne e' (by simp)
    have hv : (e.2 == e'.2) = true := by
      obtain ⟨w', hw, hww⟩ := hs e.1.start e.2 ⟨e, by simp, by grind, hne, rfl⟩
      have : Maps (e' :: t') e.1.start e'.2 := ⟨e', by simp, a1, by grind, rfl⟩
      rwa [Maps.unique h'.sep this hw]
    have hv' : (e'.2 == e.2) = true := PartialEquivBEq.symm hv
    have b1 := canon_stop h h' hs' a1 hv'
    have b2 := canon_stop h' h hs a2 hv
    have := canon h.tail h'.tail (canon_tail h h' hs b1) (canon_tail h' h hs' b2)
    simp [iterEq, entryEq, keq, *]

/-- Entrywise equal lists have the same contents. -/
theorem sub_of_iterEq : ∀ {l l' : List (Range K × V)}, iterEq entryEq l l' = true → Sub l l'
  | [], [], _ => by rintro k w ⟨x, hx, _⟩; simp at hx
  | e :: t, [], h => by simp [iterEq] at h
  | [], e :: t, h => by simp [iterEq] at h
  | e :: t, e' :: t', h => by
    simp only [iterEq, entryEq, keq, Bool.and_eq_true, decide_eq_true_eq] at h
    have ih := sub_of_iterEq h.2
    rintro k w ⟨x, hx, h1, h2, h3⟩
    rw [List.mem_cons] at hx
    rcases hx with rfl | hx
    · exact ⟨e'.2, ⟨e', by simp, by grind, by grind, rfl⟩, by grind⟩
    · obtain ⟨w', ⟨y, hy, h4⟩, h5⟩ := ih k w ⟨x, hx, h1, h2, h3⟩
      exact ⟨w', ⟨y, by simp [hy], h4⟩, h5⟩

theorem iterEq_symm [PartialEquivBEq V] : ∀ {l l' : List (Range K × V)},
    iterEq entryEq l l' = true → iterEq entryEq l' l = true
  | [], [], _ => rfl
  | e :: t, [], h => by simp [iterEq] at h
  | [], e :: t, h => by simp [iterEq] at h
  | e :: t, e' :: t', h => by
    simp only [iterEq, entryEq, keq, Bool.and_eq_true, decide_eq_true_eq] at h ⊢
    have ih := iterEq_symm h.2
    have := PartialEquivBEq.symm h.1.2
    grind

theorem iterEq_trans [PartialEquivBEq V] : ∀ {l l' l'' : List (Range K × V)},
    iterEq entryEq l l' = true → iterEq entryEq l' l'' = true → iterEq entryEq l l'' = true
  | [], [], [], _, _ => rfl
  | e :: t, [], _, h, _ => by simp [iterEq] at h
  | [], e :: t, _, h, _ => by simp [iterEq] at h
  | [], [], e :: t, _, h => by simp [iterEq] at h
  | e :: t, e' :: t', [], _, h => by simp [iterEq] at h
  | e :: t, e' :: t', e'' :: t'', h, h' => by
    simp only [iterEq, entryEq, keq, Bool.and_eq_true, decide_eq_true_eq] at h h' ⊢
    have ih := iterEq_trans h.2 h'.2
    have := PartialEquivBEq.trans h.1.2 h'.1.2
    grind

theorem iterEq_refl [ReflBEq V] : ∀ {l : List (Range K × V)}, iterEq entryEq l l = true
  | [] => rfl
  | e :: t => by
    have ih := iterEq_refl (l := t)
    simp [iterEq, entryEq, keq, ih]

theorem sub_of_look {m m' : RangeMap K V} [ReflBEq V] (h : WF m.btm) (h' : WF m'.btm)
    (hl : ∀ k, Spec.Agree (m.look k) (m'.look k)) : Sub m.btm m'.btm := by
  intro k w hw
  rw [← look_eq_some h.sep] at hw
  have := hl k
  rw [hw] at this
  cases hk : m'.look k with
  | none => simp [hk, Spec.Agree] at this
  | some w' =>
    refine ⟨w', (look_eq_some h'.sep _ _).1 hk, ?_⟩
    simp only [hk, Spec.Agree] at this
    rcases this with rfl | h
    · simp
    · exact h

theorem agree_of_sub {m m' : RangeMap K V} [PartialEquivBEq V] (h : WF m.btm) (h' : WF m'.btm)
    (hs : Sub m.btm m'.btm) (hs' : Sub m'.btm m.btm) (k : K) :
    Spec.Agree (m.look k) (m'.look k) := by
  cases hk : m.look k with
  | none =>
    cases hk' : m'.look k with
    | none => trivial
    | some w =>
      obtain ⟨w', hw', _⟩ := hs' k w ((look_eq_some h'.sep _ _).1 hk')
      exact absurd hw' ((look_eq_none h.sep _).1 hk w')
  | some w =>
    obtain ⟨w', hw', hww⟩ := hs k w ((look_eq_some h.sep _ _).1 hk)
    rw [(look_eq_some h'.sep _ _).2 hw']
    exact Or.inr hww

/-- Equality is equality of contents. -/
theorem eq_iff_look [EquivBEq V] {m m' : RangeMap K V} (h : WF m.btm) (h' : WF m'.btm) :
    m.eq m' = true ↔ ∀ k, Spec.Agree (m.look k) (m'.look k) := by
  constructor
  · intro he
    exact agree_of_sub h h' (sub_of_iterEq he) (sub_of_iterEq (iterEq_symm he))
  · intro hl
    exact canon h h' (sub_of_look h h' hl) (sub_of_look h' h fun k => Agree.symm (hl k))

/-! ### Histories -/

theorem extend_look [PartialEquivBEq V] {m : RangeMap K V} (h : WF m.btm)
    (items : List (Range K × V)) (k : K) :
    Spec.Agree ((m.extend items).1.look k)
      (match (items.takeWhile fun e => Spec.valid e.1).reverse.find? fun e => Spec.covers e.1 k with
      | some e => some e.2
      | none => m.look k) := by
  induction items generalizing m with
  | nil => exact Agree.refl _
  | cons e t ih =>
    obtain ⟨r, v⟩ := e
    unfold RangeMap.extend
    by_cases he : r.start < r.stop
    · obtain ⟨m', h1, h2⟩ := insert_ok h v he
      rw [h1]
      have := ih h2
      simp only [List.takeWhile_cons, Spec.valid, he, decide_true, if_true, List.reverse_cons,
        List.find?_append]
      simp only [Spec.valid] at this
      cases hf : (t.takeWhile fun e => decide (e.1.start < e.1.stop)).reverse.find?
          fun e => Spec.covers e.1 k with
      | some e => simp only [hf] at this; simpa using this
      | none =>
        simp only [hf] at this
        refine Agree.trans this ?_
        have hi := insert_look_agree h he h1 k
        by_cases hk : r.start ≤ k ∧ k < r.stop
        · simp only [hk, and_self, if_true] at hi
          simpa [Spec.covers, hk] using hi
        · rw [if_neg hk] at hi
          simpa [Spec.covers, hk] using hi
    · rw [insert_invalid he]
      simp [Spec.valid, he]
      exact Agree.refl _

theorem apply_look [PartialEquivBEq V] {m : RangeMap K V} (h : WF m.btm)
    (op : Spec.Op (Range K) V) (k : K) (ops : List (Spec.Op (Range K) V))
    (hm : Spec.Agree (m.look k) (Spec.lastWrite Spec.covers Spec.valid ops k)) :
    Spec.Agree ((m.apply op).1.look k) (Spec.lastWrite Spec.covers Spec.valid (op :: ops) k) := by
  cases op with
  | insert r v =>
    simp only [RangeMap.apply, Spec.lastWrite, Spec.valid, Spec.covers]
    by_cases hr : r.start < r.stop
    · obtain ⟨m', h1, h2⟩ := insert_ok h v hr
      simp only [h1]
      have := insert_look_agree h hr h1 k
      by_cases hk : r.start ≤ k ∧ k < r.stop
      · simpa [hr, hk] using this
      · rw [if_neg hk] at this
        simpa [hk] using Agree.trans this hm
    · simpa [insert_invalid hr, hr] using hm
  | remove r =>
    simp only [RangeMap.apply, Spec.lastWrite, Spec.valid, Spec.covers]
    by_cases hr : r.start < r.stop
    · obtain ⟨m', h1, h2, _⟩ := remove_spec h hr
      have h1 : m.remove r = .ok m' := h1 _ (Nat.le_refl _)
      simp only [h1]
      have := remove_look h hr h1 k
      by_cases hk : r.start ≤ k ∧ k < r.stop
      · simp [hr, hk, this, Spec.Agree]
      · simpa [hk, this] using hm
    · simpa [remove_invalid hr, hr] using hm
  | clear =>
    simp only [RangeMap.apply, Spec.lastWrite, RangeMap.clear]
    have : (⟨[]⟩ : RangeMap K V).look k = none := by
      rw [look_eq_none WF.nil.sep]
      rintro w ⟨x, hx, _⟩
      simp at hx
    rw [this]
    trivial
  | extend items =>
    simp only [RangeMap.apply, Spec.lastWrite]
    have := extend_look h items k
    cases hf : (items.takeWhile fun e => Spec.valid e.1).reverse.find?
        fun e => Spec.covers e.1 k with
    | some e => simpa only [hf] using this
    | none =>
      simp only [hf] at this ⊢
      exact Agree.trans this hm

theorem run_look [PartialEquivBEq V] (ops : List (Spec.Op (Range K) V)) (k : K) :
    Spec.Agree ((run ops).look k) (Spec.lastWrite Spec.covers Spec.valid ops.reverse k) := by
  suffices ∀ rops : List (Spec.Op (Range K) V),
      Spec.Agree ((run rops.reverse).look k) (Spec.lastWrite Spec.covers Spec.valid rops k) by
    simpa using this ops.reverse
  intro rops
  induction rops with
  | nil =>
    have : (run [] : RangeMap K V).look k = none := by
      rw [look_eq_none (m := run []) WF.nil.sep]
      rintro w ⟨x, hx, _⟩
      simp [run, RangeMap.new] at hx
    simp [this, Spec.lastWrite, Spec.Agree]
  | cons op rops ih =>
    rw [List.reverse_cons, run_append]
    exact apply_look (Reachable.wf ⟨_, rfl⟩) op k rops ih

end Verif.RangeMap

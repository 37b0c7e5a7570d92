import Verif.Proof.IReach
import Verif.Proof.Canon

/-!
# Inclusive map: canonicality, and refinement of whole histories
-/
set_option linter.unusedSectionVars false
set_option linter.unusedVariables false

namespace Verif.RangeInclusiveMap
open Spec
open RangeMap (Agree.refl Agree.trans Agree.symm Agree.eq)
variable {K : Type} [LE K] [LT K] [DecidableLE K] [DecidableLT K]
  [Std.IsLinearPreorder K] [Std.LawfulOrderLT K] {V : Type} [BEq V] {S : StepFns K}

theorem WF.tail {e : RangeInclusive K × V} {t : List (RangeInclusive K × V)} (h : WF (e :: t)) : WF t where
  sep := ⟨(List.pairwise_cons.1 h.sep.pw).2, fun x hx => h.sep.ne x (by simp [hx])⟩
  coal a ha b hb := h.coal a (by simp [ha]) b (by simp [hb])
  fresh a ha := h.fresh a (by simp [ha])

theorem WF.head {e : RangeInclusive K × V} {t : List (RangeInclusive K × V)} (h : WF (e :: t)) :
    ∀ x ∈ t, Before e x := (List.pairwise_cons.1 h.sep.pw).1

theorem maps_tail {e : RangeInclusive K × V} {t : List (RangeInclusive K × V)} (h : WF (e :: t)) (k : K) (w : V) :
    Maps t k w ↔ Maps (e :: t) k w ∧ e.1.stop < k := by
  have hh := h.head
  constructor
  · rintro ⟨x, hx, h1, h2, h3⟩
    have := hh x hx
    exact ⟨⟨x, by simp [hx], h1, h2, h3⟩, by grind [Before]⟩
  · rintro ⟨⟨x, hx, h1, h2, h3⟩, h4⟩
    refine ⟨x, ?_, h1, h2, h3⟩
    grind

/-- One direction of agreement. -/
def Sub (l l' : List (RangeInclusive K × V)) : Prop :=
  ∀ k w, Maps l k w → ∃ w', Maps l' k w' ∧ (w == w') = true

theorem canon_start {e e' : RangeInclusive K × V} {t t' : List (RangeInclusive K × V)}
    (h : WF (e :: t)) (h' : WF (e' :: t')) (hs : Sub (e :: t) (e' :: t')) :
    e'.1.start ≤ e.1.start := by
  have hne := h.sep.ne e (by simp)
  obtain ⟨w', ⟨x, hx, h1, h2, h3⟩, _⟩ := hs e.1.start e.2 ⟨e, by simp, by grind, hne, rfl⟩
  have := h'.head x
  grind [Before]

theorem canon_stop [PartialEquivBEq V] (hS : LawfulSteps S) {e e' : RangeInclusive K × V}
    {t t' : List (RangeInclusive K × V)} (h : WF (e :: t)) (h' : WF (e' :: t'))
    (hs : Sub (e' :: t') (e :: t)) (h1 : e'.1.start ≤ e.1.start)
    (hv : (e'.2 == e.2) = true) : e'.1.stop ≤ e.1.stop := by
  apply Decidable.byContradiction
  intro hlt
  have hlt : e.1.stop < e'.1.stop := by grind
  have hne := h.sep.ne e (by simp)
  obtain ⟨c, _, hc⟩ := hS.addOne _ _ hlt
  have hc1 := hc.1
  have hc2 := hc.2 _ hlt
  obtain ⟨w, ⟨x, hx, h3, h4, h5⟩, hw⟩ := hs c e'.2 ⟨e', by simp, by grind, by grind, rfl⟩
  have : (e.2 == x.2) = true := by
    rw [h5]; exact PartialEquivBEq.trans (PartialEquivBEq.symm hv) hw
  rw [List.mem_cons] at hx
  rcases hx with rfl | hx
  · grind
  · have hb := h.head x hx
    have hn : Next e.1.stop x.1.start := ⟨hb.2, fun d hd => by have := hc.2 d hd; grind⟩
    have := h.coal e (by simp) x (by simp [hx]) hn
    grind

theorem canon_tail [PartialEquivBEq V] {e e' : RangeInclusive K × V} {t t' : List (RangeInclusive K × V)}
    (h : WF (e :: t)) (h' : WF (e' :: t')) (hs : Sub (e :: t) (e' :: t'))
    (he : e'.1.stop ≤ e.1.stop) : Sub t t' := by
  intro k w hm
  rw [maps_tail h] at hm
  obtain ⟨w', hw', hww⟩ := hs k w hm.1
  exact ⟨w', (maps_tail h' k w').2 ⟨hw', by grind⟩, hww⟩

/-- Two well-formed lists with the same contents are entrywise equal. -/
theorem canon [PartialEquivBEq V] (hS : LawfulSteps S) : ∀ {l l' : List (RangeInclusive K × V)}, WF l → WF l' →
    Sub l l' → Sub l' l → iterEq entryEq l l' = true
  | [], [], _, _, _, _ => rfl
  | e :: t, [], h, _, hs, _ => by
    have hne := h.sep.ne e (by simp)
    obtain ⟨w', ⟨x, hx, _⟩, _⟩ := hs e.1.start e.2 ⟨e, by simp, by grind, hne, rfl⟩
    simp at hx
  | [], e :: t, _, h, _, hs => by
    have hne := h.sep.ne e (by simp)
    obtain ⟨w', ⟨x, hx, _⟩, _⟩ := hs e.1.start e.2 ⟨e, by simp, by grind, hne, rfl⟩
    simp at hx
  | e :: t, e' :: t', h, h', hs, hs' => by
    have a1 := canon_start h h' hs
    have a2 := canon_start h' h hs'
    have hne := h.sep.ne e (by simp)
    have hne' := h'.sep.ne e' (by simp)
    have hv : (e.2 == e'.2) = true := by
      obtain ⟨w', hw, hww⟩ := hs e.1.start e.2 ⟨e, by simp, by grind, hne, rfl⟩
      have : Maps (e' :: t') e.1.start e'.2 := ⟨e', by simp, a1, by grind, rfl⟩
      rwa [Maps.unique h'.sep this hw]
    have hv' : (e'.2 == e.2) = true := PartialEquivBEq.symm hv
    have b1 := canon_stop hS h h' hs' a1 hv'
    have b2 := canon_stop hS h' h hs a2 hv
    have := canon hS h.tail h'.tail (canon_tail h h' hs b1) (canon_tail h' h hs' b2)
    have := h.fresh e (by simp)
    have := h'.fresh e' (by simp)
    simp [iterEq, entryEq, keq, *]

/-- Entrywise equal lists have the same contents. -/
theorem sub_of_iterEq : ∀ {l l' : List (RangeInclusive K × V)}, iterEq entryEq l l' = true → Sub l l'
  | [], [], _ => by rintro k w ⟨x, hx, _⟩; simp at hx
  | e :: t, [], h => by simp [iterEq] at h
  | [], e :: t, h => by simp [iterEq] at h
  | e :: t, e' :: t', h => by
    simp only [iterEq, entryEq, keq, Bool.and_eq_true, decide_eq_true_eq] at h
    have ih := sub_of_iterEq h.2
    rintro k w ⟨x, hx, h1, h2, h3⟩
    rw [List.mem_cons] at hx
    rcases hx with rfl | hx
    · exact ⟨e'.2, ⟨e', by simp, by grind, by grind, rfl⟩, by grind⟩
    · obtain ⟨w', ⟨y, hy, h4⟩, h5⟩ := ih k w ⟨x, hx, h1, h2, h3⟩
      exact ⟨w', ⟨y, by simp [hy], h4⟩, h5⟩

theorem iterEq_symm [PartialEquivBEq V] : ∀ {l l' : List (RangeInclusive K × V)},
    iterEq entryEq l l' = true → iterEq entryEq l' l = true
  | [], [], _ => rfl
  | e :: t, [], h => by simp [iterEq] at h
  | [], e :: t, h => by simp [iterEq] at h
  | e :: t, e' :: t', h => by
    simp only [iterEq, entryEq, keq, Bool.and_eq_true, decide_eq_true_eq] at h ⊢
    have ih := iterEq_symm h.2
    have := PartialEquivBEq.symm h.1.2
    grind

theorem iterEq_trans [PartialEquivBEq V] : ∀ {l l' l'' : List (RangeInclusive K × V)},
    iterEq entryEq l l' = true → iterEq entryEq l' l'' = true → iterEq entryEq l l'' = true
  | [], [], [], _, _ => rfl
  | e :: t, [], _, h, _ => by simp [iterEq] at h
  | [], e :: t, _, h, _ => by simp [iterEq] at h
  | [], [], e :: t, _, h => by simp [iterEq] at h
  | e :: t, e' :: t', [], _, h => by simp [iterEq] at h
  | e :: t, e' :: t', e'' :: t'', h, h' => by
    simp only [iterEq, entryEq, keq, Bool.and_eq_true, decide_eq_true_eq] at h h' ⊢
    have ih := iterEq_trans h.2 h'.2
    have := PartialEquivBEq.trans h.1.2 h'.1.2
    grind

theorem iterEq_refl [ReflBEq V] : ∀ {l : List (RangeInclusive K × V)}, iterEq entryEq l l = true
  | [] => rfl
  | e :: t => by
    have ih := iterEq_refl (l := t)
    simp [iterEq, entryEq, keq, ih]

theorem sub_of_look {m m' : RangeInclusiveMap K V} [ReflBEq V] (h : WF m.btm) (h' : WF m'.btm)
    (hl : ∀ k, Agree (m.look k) (m'.look k)) : Sub m.btm m'.btm := by
  intro k w hw
  rw [← look_eq_some h] at hw
  have := hl k
  rw [hw] at this
  cases hk : m'.look k with
  | none => simp [hk, Agree] at this
  | some w' =>
    refine ⟨w', (look_eq_some h' _ _).1 hk, ?_⟩
    simp only [hk, Agree] at this
    rcases this with rfl | h
    · simp
    · exact h

theorem agree_of_sub {m m' : RangeInclusiveMap K V} [PartialEquivBEq V] (h : WF m.btm) (h' : WF m'.btm)
    (hs : Sub m.btm m'.btm) (hs' : Sub m'.btm m.btm) (k : K) :
    Agree (m.look k) (m'.look k) := by
  cases hk : m.look k with
  | none =>
    cases hk' : m'.look k with
    | none => trivial
    | some w =>
      obtain ⟨w', hw', _⟩ := hs' k w ((look_eq_some h' _ _).1 hk')
      exact absurd hw' ((look_eq_none h _).1 hk w')
  | some w =>
    obtain ⟨w', hw', hww⟩ := hs k w ((look_eq_some h _ _).1 hk)
    rw [(look_eq_some h' _ _).2 hw']
    exact Or.inr hww

/-- Equality is equality of contents. -/
theorem eq_iff_look [EquivBEq V] (hS : LawfulSteps S) {m m' : RangeInclusiveMap K V} (h : WF m.btm) (h' : WF m'.btm) :
    m.eq m' = true ↔ ∀ k, Agree (m.look k) (m'.look k) := by
  constructor
  · intro he
    exact agree_of_sub h h' (sub_of_iterEq he) (sub_of_iterEq (iterEq_symm he))
  · intro hl
    exact canon hS h h' (sub_of_look h h' hl) (sub_of_look h' h fun k => Agree.symm (hl k))

/-! ### Histories -/

theorem extend_look [PartialEquivBEq V] (hS : LawfulSteps S) {m : RangeInclusiveMap K V} (h : WF m.btm)
    (items : List (RangeInclusive K × V)) (hx : ∀ e ∈ items, e.1.exhausted = false) (k : K) :
    Agree ((m.extend S items).1.look k)
      (match (items.takeWhile fun e => ivalid e.1).reverse.find? fun e => icovers e.1 k with
      | some e => some e.2
      | none => m.look k) := by
  induction items generalizing m with
  | nil => exact Agree.refl _
  | cons e t ih =>
    obtain ⟨r, v⟩ := e
    unfold RangeInclusiveMap.extend
    by_cases he : r.start ≤ r.stop
    · obtain ⟨m', h1, h2, h3⟩ := insert_ok hS h.sc v he
      rw [h1]
      have := ih (WF.mk' h2 (h3 h.fresh (hx (r, v) (by simp)))) (fun e he => hx e (by simp [he]))
      simp only [List.takeWhile_cons, ivalid, he, decide_true, if_true, List.reverse_cons,
        List.find?_append]
      simp only [ivalid] at this
      cases hf : (t.takeWhile fun e => decide (e.1.start ≤ e.1.stop)).reverse.find?
          fun e => icovers e.1 k with
      | some e => simp only [hf] at this; simpa using this
      | none =>
        simp only [hf] at this
        refine Agree.trans this ?_
        have hi := insert_look_agree hS h (hx (r, v) (by simp)) he h1 k
        by_cases hk : r.start ≤ k ∧ k ≤ r.stop
        · simp only [hk, and_self, if_true] at hi
          simpa [icovers, hk] using hi
        · rw [if_neg hk] at hi
          simpa [icovers, hk] using hi
    · rw [insert_invalid he]
      simp [ivalid, he]
      exact Agree.refl _

theorem apply_look [PartialEquivBEq V] (hS : LawfulSteps S) {m : RangeInclusiveMap K V} (h : WF m.btm)
    (op : Op (RangeInclusive K) V) (hx : ∀ r ∈ op.inserted, r.exhausted = false) (k : K)
    (ops : List (Op (RangeInclusive K) V))
    (hm : Agree (m.look k) (lastWrite icovers ivalid ops k)) :
    Agree ((m.apply S op).1.look k) (lastWrite icovers ivalid (op :: ops) k) := by
  cases op with
  | insert r v =>
    simp only [RangeInclusiveMap.apply, lastWrite, ivalid, icovers]
    by_cases hr : r.start ≤ r.stop
    · obtain ⟨m', h1, h2, h3⟩ := insert_ok hS h.sc v hr
      simp only [h1]
      have := insert_look_agree hS h (hx r (by simp [Op.inserted])) hr h1 k
      by_cases hk : r.start ≤ k ∧ k ≤ r.stop
      · simpa [hr, hk] using this
      · rw [if_neg hk] at this
        simpa [hk] using Agree.trans this hm
    · simpa [insert_invalid hr, hr] using hm
  | remove r =>
    simp only [RangeInclusiveMap.apply, lastWrite, ivalid, icovers]
    by_cases hr : r.start ≤ r.stop
    · obtain ⟨m', h1, h2, _⟩ := remove_spec hS h.sc hr
      have h1 : m.remove S r = .ok m' := h1 _ (Nat.le_refl _)
      simp only [h1]
      have := remove_look hS h hr h1 k
      by_cases hk : r.start ≤ k ∧ k ≤ r.stop
      · simp [hr, hk, this, Agree]
      · simpa [hk, this] using hm
    · simpa [remove_invalid hr, hr] using hm
  | clear =>
    simp only [RangeInclusiveMap.apply, lastWrite, RangeInclusiveMap.clear]
    have : (⟨[]⟩ : RangeInclusiveMap K V).look k = none := by
      rw [look_eq_none WF.nil]
      rintro w ⟨x, hx, _⟩
      simp at hx
    rw [this]
    trivial
  | extend items =>
    simp only [RangeInclusiveMap.apply, lastWrite]
    have := extend_look hS h items (fun e he => hx _ (by simp only [Op.inserted, List.mem_map]; exact ⟨e, he, rfl⟩)) k
    cases hf : (items.takeWhile fun e => ivalid e.1).reverse.find?
        fun e => icovers e.1 k with
    | some e => simpa only [hf] using this
    | none =>
      simp only [hf] at this ⊢
      exact Agree.trans this hm

theorem run_look [PartialEquivBEq V] (hS : LawfulSteps S) (ops : List (Op (RangeInclusive K) V))
    (hx : ∀ op ∈ ops, ∀ r ∈ op.inserted, r.exhausted = false) (k : K) :
    Agree ((run S ops).look k) (lastWrite icovers ivalid ops.reverse k) := by
  suffices ∀ rops : List (Op (RangeInclusive K) V),
      (∀ op ∈ rops, ∀ r ∈ op.inserted, r.exhausted = false) →
      Agree ((run S rops.reverse).look k) (lastWrite icovers ivalid rops k) by
    simpa using this ops.reverse (by simpa using hx)
  intro rops hx
  induction rops with
  | nil =>
    have : (run S [] : RangeInclusiveMap K V).look k = none := by
      rw [look_eq_none (m := run S []) WF.nil]
      rintro w ⟨x, hx, _⟩
      simp [run, RangeInclusiveMap.new] at hx
    simp [this, lastWrite, Agree]
  | cons op rops ih =>
    rw [List.reverse_cons, run_append]
    exact apply_look hS (Reachable.wf hS ⟨rops.reverse, by grind, rfl⟩) op (hx op (by simp)) k rops
      (ih fun o ho => hx o (by simp [ho]))

end Verif.RangeInclusiveMap

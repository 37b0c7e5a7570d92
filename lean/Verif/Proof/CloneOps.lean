import Verif.Proof.IClone

/-!
# `Union` and `Intersection` with `Clone` that returns equal keys
-/
set_option linter.unusedSectionVars false
namespace Verif
open Spec Cl
variable {K V : Type} [LE K] [LT K] [DecidableLE K] [DecidableLT K]
  [Std.IsLinearPreorder K] [Std.LawfulOrderLT K] [BEq V]

theorem kcmp_same {a a' b b' : K} (ha : keq a a' = true) (hb : keq b b' = true) :
    kcmp a b = kcmp a' b' := by
  simp only [kcmp, keq.lt ha hb, keq.lt hb ha]

namespace Range
variable {r r' o o' : Range K}

theorem mergeL_sim (h : SameRange r r') (ho : SameRange o o') :
    Cl.Sim (r.mergeL o : Cl K V _) (pure (RangeMerge.merge r' o')) (SameOpt SameRange) := by
  unfold mergeL
  simp only [RangeMerge.merge, merge, Range.contains_same h ho.1, keq.lt h.2 ho.2]
  split
  · exact Cl.Sim.ret trivial
  · split
    · exact Cl.Sim.key ho.2 fun b hb => Cl.Sim.ret ⟨h.1, hb⟩
    · exact Cl.Sim.ret h

theorem intersectL_sim (h : SameRange r r') (ho : SameRange o o') :
    Cl.Sim (r.intersectL o : Cl K V _) (pure (RangeIntersect.intersect r' o'))
      (SameOpt SameRange) := by
  unfold intersectL
  have h1 := keq.rmax h.1 ho.1
  have h2 := keq.rmin h.2 ho.2
  simp only [RangeIntersect.intersect, intersect, keq.le h2 h1]
  split
  · exact Cl.Sim.ret trivial
  · exact Cl.Sim.key h1 fun a ha => Cl.Sim.key h2 fun b hb => Cl.Sim.ret ⟨ha, hb⟩

theorem cloneRange_sim (h : SameRange r r') :
    Cl.Sim (cloneRange r : Cl K V _) (pure r') SameRange :=
  fun _ ha _ hb => Cl.Sim.ret (R := SameRange) ⟨keq.trans ha h.1, keq.trans hb h.2⟩

end Range

namespace RangeInclusive
variable {r r' o o' : RangeInclusive K}

theorem mergeL_sim (h : SameIRange r r') (ho : SameIRange o o') :
    Cl.Sim (r.mergeL o : Cl K V _) (pure (RangeMerge.merge r' o')) (SameOpt SameIRange) := by
  unfold mergeL
  simp only [RangeMerge.merge, merge, RangeInclusive.contains_same h ho.1, keq.lt h.2.1 ho.2.1]
  split
  · exact Cl.Sim.ret trivial
  · split
    · exact Cl.Sim.key h.1 fun a ha => Cl.Sim.key ho.2.1 fun b hb => Cl.Sim.ret ⟨ha, hb, rfl⟩
    · exact Cl.Sim.ret h

theorem intersectL_sim (h : SameIRange r r') (ho : SameIRange o o') :
    Cl.Sim (r.intersectL o : Cl K V _) (pure (RangeIntersect.intersect r' o'))
      (SameOpt SameIRange) := by
  unfold intersectL
  have h1 := keq.rmax h.1 ho.1
  have h2 := keq.rmin h.2.1 ho.2.1
  simp only [RangeIntersect.intersect, intersect, keq.lt h2 h1]
  split
  · exact Cl.Sim.ret trivial
  · exact Cl.Sim.key h1 fun a ha => Cl.Sim.key h2 fun b hb => Cl.Sim.ret ⟨ha, hb, rfl⟩

theorem cloneIRange_sim (h : SameIRange r r') :
    Cl.Sim (cloneIRange r : Cl K V _) (pure r') SameIRange :=
  fun _ ha _ hb => Cl.Sim.ret (R := SameIRange) ⟨keq.trans ha h.1, keq.trans hb h.2.1, h.2.2⟩

end RangeInclusive

section
variable {R : Type} [RangeOrder R] {S : R → R → Prop}

namespace Union

/-- The same remaining items. -/
def SameIter (S : R → R → Prop) (u u' : Union R) : Prop :=
  Pointwise S u.left u'.left ∧ Pointwise S u.right u'.right

/-- The same item, or none, and the same remaining items. -/
def SameStep (S : R → R → Prop) (p q : Option R × Union R) : Prop :=
  SameOpt S p.1 q.1 ∧ SameIter S p.2 q.2

theorem first_same (hS : ∀ a a' b b', S a a' → S b b' →
    RangeOrder.orderStart a b = RangeOrder.orderStart a' b') {u u' : Union R}
    (h : SameIter S u u') :
    SameOpt (fun p q => S p.1 q.1 ∧ SameIter S p.2 q.2) u.first u'.first := by
  obtain ⟨l, r⟩ := u
  obtain ⟨l', r'⟩ := u'
  obtain ⟨hl, hr⟩ := h
  simp only at hl hr
  rcases hl with _ | ⟨ha, hl⟩ <;> rcases hr with _ | ⟨hb, hr⟩
  · exact trivial
  · exact ⟨hb, .nil, hr⟩
  · exact ⟨ha, hl, .nil⟩
  · simp only [first, hS _ _ _ _ ha hb]
    split
    · exact ⟨ha, hl, .cons hb hr⟩
    · exact ⟨hb, .cons ha hl, hr⟩

variable [RangeMerge R] {merge : R → R → Cl K V (Option R)}

theorem joinL_sim (hM : ∀ a a' b b', S a a' → S b b' →
    Cl.Sim (merge a b) (pure (RangeMerge.merge a' b')) (SameOpt S)) {r r' : R} (hr : S r r')
    {l l' : List R} (h : Pointwise S l l') :
    Cl.Sim (joinL merge r l) (pure (join r' l'))
      (SameOpt fun p q => S p.1 q.1 ∧ Pointwise S p.2 q.2) := by
  cases h with
  | nil => exact Cl.Sim.ret trivial
  | cons ha ht =>
    unfold joinL join
    refine Cl.Sim.bind (g := fun o => pure (o.map _)) (hM _ _ _ _ hr ha) fun o o' ho => Cl.Sim.ret ?_
    cases o <;> cases o' <;> simp only [SameOpt, Option.map] at ho ⊢
    exact ⟨ho, ht⟩

theorem joinL_sim' (hM : ∀ a a' b b', S a a' → S b b' →
    Cl.Sim (merge a b) (pure (RangeMerge.merge a' b')) (SameOpt S)) {r r' : R} (hr : S r r')
    {l l' : List R} (h : Pointwise S l l') :
    Cl.Sim (joinL merge r l) (pure (join r' l'))
      (fun j j' => j' = join r' l' ∧
        SameOpt (fun p q => S p.1 q.1 ∧ Pointwise S p.2 q.2) j j') :=
  (joinL_sim hM hr h).ok fun _ ho => ⟨rfl, ho⟩

omit [RangeOrder R] in
theorem mergeLoop_eq (r : R) (left right : List R) : mergeLoop r left right =
    match join r left with
    | some p => mergeLoop p.1 p.2 right
    | none =>
      match join r right with
      | some p => mergeLoop p.1 left p.2
      | none => (r, ⟨left, right⟩) := by
  rw [mergeLoop]
  split
  · rename_i h; rw [h]
  · rename_i h
    rw [h]
    split <;> rename_i h' <;> rw [h']

theorem mergeLoopL_sim (hM : ∀ a a' b b', S a a' → S b b' →
    Cl.Sim (merge a b) (pure (RangeMerge.merge a' b')) (SameOpt S)) (fuel : Nat) {r r' : R}
    (hr : S r r') {l l' k k' : List R} (h : Pointwise S l l') (hk : Pointwise S k k')
    (hf : l'.length + k'.length < fuel) :
    Cl.Sim (mergeLoopL merge fuel r l k) (pure (mergeLoop r' l' k'))
      fun p q => S p.1 q.1 ∧ SameIter S p.2 q.2 := by
  induction fuel generalizing r r' l l' k k' with
  | zero => omega
  | succ fuel ih =>
    unfold mergeLoopL
    rw [mergeLoop_eq]
    refine Cl.Sim.bind (g := fun j : Option (R × List R) => pure (match j with
      | some p => mergeLoop p.1 p.2 k'
      | none =>
        match join r' k' with
        | some p => mergeLoop p.1 l' p.2
        | none => (r', ⟨l', k'⟩))) (joinL_sim' hM hr h) fun j j' hj => ?_
    obtain ⟨hj1, hj⟩ := hj
    cases j <;> cases j' <;> simp only [SameOpt] at hj
    · refine Cl.Sim.bind (g := fun j : Option (R × List R) => pure (match j with
        | some p => mergeLoop p.1 l' p.2
        | none => (r', ⟨l', k'⟩))) (joinL_sim' hM hr hk) fun i i' hi => ?_
      obtain ⟨hi1, hi⟩ := hi
      cases i <;> cases i' <;> simp only [SameOpt] at hi
      · exact Cl.Sim.ret ⟨hr, h, hk⟩
      · have := join_length hi1.symm
        exact ih hi.1 h hi.2 (by omega)
    · have := join_length hj1.symm
      exact ih hj.1 hj.2 hk (by omega)

theorem nextL_sim (hS : ∀ a a' b b', S a a' → S b b' →
    RangeOrder.orderStart a b = RangeOrder.orderStart a' b') (hM : ∀ a a' b b', S a a' → S b b' →
    Cl.Sim (merge a b) (pure (RangeMerge.merge a' b')) (SameOpt S)) {clone : R → Cl K V R}
    (hC : ∀ a a', S a a' → Cl.Sim (clone a) (pure a') S) {u u' : Union R} (h : SameIter S u u') :
    Cl.Sim (u.nextL clone merge) (pure u'.next) (SameStep S) := by
  have hf := first_same hS h
  unfold nextL next
  generalize u.first = f at hf
  generalize u'.first = f' at hf
  cases f <;> cases f' <;> simp only [SameOpt] at hf
  · exact Cl.Sim.ret ⟨trivial, h⟩
  · rename_i p p'
    refine Cl.Sim.bind (g := fun r => pure (some (mergeLoop r p'.2.left p'.2.right).1,
      (mergeLoop r p'.2.left p'.2.right).2)) (hC _ _ hf.1) fun a a' ha => ?_
    refine Cl.Sim.bind (y := pure _) (g := fun q => pure (some q.1, q.2))
      (mergeLoopL_sim hM _ ha hf.2.1 hf.2.2 ?_) fun q q' hq => Cl.Sim.ret ⟨hq.1, hq.2⟩
    rw [hf.2.1.length, hf.2.2.length]
    omega

end Union

namespace Intersection

/-- The same remaining items. -/
def SameIter (S : R → R → Prop) (u u' : Intersection R) : Prop :=
  Pointwise S u.left u'.left ∧ Pointwise S u.right u'.right

/-- The same item, or none, and the same remaining items. -/
def SameStep (S : R → R → Prop) (p q : Option R × Intersection R) : Prop :=
  SameOpt S p.1 q.1 ∧ SameIter S p.2 q.2

variable [RangeIntersect R] {intersect : R → R → Cl K V (Option R)}

theorem nextLoopL_sim (hS : ∀ a a' b b', S a a' → S b b' →
    RangeOrder.orderEnd a b = RangeOrder.orderEnd a' b') (hI : ∀ a a' b b', S a a' → S b b' →
    Cl.Sim (intersect a b) (pure (RangeIntersect.intersect a' b')) (SameOpt S)) (fuel : Nat)
    {l l' k k' : List R} (h : Pointwise S l l') (hk : Pointwise S k k')
    (hf : l'.length + k'.length < fuel) :
    Cl.Sim (nextLoopL intersect fuel l k) (pure (nextLoop l' k')) (SameStep S) := by
  induction fuel generalizing l l' k k' with
  | zero => omega
  | succ fuel ih =>
    rcases h with _ | @⟨a, a', t, t', ha, ht⟩
    · unfold nextLoopL nextLoop
      exact Cl.Sim.ret ⟨trivial, .nil, hk⟩
    · rcases hk with _ | @⟨b, b', s, s', hb, hs⟩
      · unfold nextLoopL nextLoop
        exact Cl.Sim.ret ⟨trivial, .cons ha ht, .nil⟩
      · unfold nextLoopL nextLoop
        simp only [List.length_cons] at hf
        simp only [hS _ _ _ _ ha hb]
        refine Cl.Sim.bind (g := fun i : Option R => pure (if
          (RangeOrder.orderEnd a' b').isLT = true then
            match i with
            | some i => (some i, (⟨t', b' :: s'⟩ : Intersection R))
            | none => nextLoop t' (b' :: s')
          else
            match i with
            | some i => (some i, ⟨a' :: t', s'⟩)
            | none => nextLoop (a' :: t') s')) (hI _ _ _ _ ha hb) fun i i' hi => ?_
        cases i <;> cases i' <;> simp only [SameOpt] at hi
        all_goals by_cases hlt : (RangeOrder.orderEnd a' b').isLT = true
        all_goals simp only [hlt, if_true, if_false, Bool.false_eq_true]
        · exact ih ht (.cons hb hs) (by simp only [List.length_cons]; omega)
        · exact ih (.cons ha ht) hs (by simp only [List.length_cons]; omega)
        · exact Cl.Sim.ret ⟨hi, ht, .cons hb hs⟩
        · exact Cl.Sim.ret ⟨hi, .cons ha ht, hs⟩

theorem nextL_sim (hS : ∀ a a' b b', S a a' → S b b' →
    RangeOrder.orderEnd a b = RangeOrder.orderEnd a' b') (hI : ∀ a a' b b', S a a' → S b b' →
    Cl.Sim (intersect a b) (pure (RangeIntersect.intersect a' b')) (SameOpt S))
    {i i' : Intersection R} (h : SameIter S i i') :
    Cl.Sim (i.nextL intersect) (pure i'.next) (SameStep S) :=
  nextLoopL_sim hS hI _ h.1 h.2 (by rw [h.1.length, h.2.length]; omega)

end Intersection
end

/-! ### Sequences of calls -/

theorem Spec.Pointwise.refl {α : Type} {R : α → α → Prop} (h : ∀ a, R a a) :
    ∀ l : List α, Pointwise R l l
  | [] => .nil
  | a :: t => .cons (h a) (refl h t)

theorem script_same {σ σ' α β : Type} {next nextBack : σ → Option α × σ}
    {next' nextBack' : σ' → Option β × σ'} {R : σ → σ' → Prop} {Q : α → β → Prop}
    (h : ∀ s s', R s s' → SameOpt Q (next s).1 (next' s').1 ∧ R (next s).2 (next' s').2)
    (h' : ∀ s s', R s s' →
      SameOpt Q (nextBack s).1 (nextBack' s').1 ∧ R (nextBack s).2 (nextBack' s').2)
    (cs : List End) {s : σ} {s' : σ'} (hs : R s s') :
    Pointwise (SameOpt Q) (script next nextBack cs s) (script next' nextBack' cs s') := by
  induction cs generalizing s s' with
  | nil => exact .nil
  | cons c cs ih =>
    cases c
    · exact .cons (h _ _ hs).1 (ih (h _ _ hs).2)
    · exact .cons (h' _ _ hs).1 (ih (h' _ _ hs).2)

theorem callsL_sim {σ σ' α β : Type} {next : σ → Cl K V (Option α × σ)}
    {next' : σ' → Option β × σ'} {R : σ → σ' → Prop} {Q : α → β → Prop}
    (h : ∀ s s', R s s' →
      Cl.Sim (next s) (pure (next' s')) fun p q => SameOpt Q p.1 q.1 ∧ R p.2 q.2)
    (n : Nat) {s : σ} {s' : σ'} (hs : R s s') :
    Cl.Sim (callsL next n s) (pure (calls next' n s')) (Pointwise (SameOpt Q)) := by
  induction n generalizing s s' with
  | zero => exact Cl.Sim.ret .nil
  | succ n ih =>
    unfold callsL calls
    refine Cl.Sim.bind (g := fun p => pure (p.1 :: calls next' n p.2)) (h _ _ hs) fun p q hp => ?_
    exact Cl.Sim.bind (g := fun t => pure (q.1 :: t)) (ih hp.2) fun t t' ht => Cl.Sim.ret (.cons hp.1 ht)

theorem Cl.Sim.map_right {α β γ δ : Type} {x : Cl K V α} {y : Except Panic β} {R : α → β → Prop}
    (h : Cl.Sim x y R) {f : α → Cl K V γ} {g : β → δ} {R' : γ → δ → Prop}
    (hf : ∀ a b, R a b → Cl.Sim (f a) (pure (g b)) R') : Cl.Sim (x >>= f) (y.map g) R' := by
  have := Cl.Sim.bind h (g := fun b => pure (g b)) hf
  cases y <;> exact this

theorem Cl.Sim.bind' {α β γ δ : Type} {x : Cl K V α} {y : Except Panic β} {R : α → β → Prop}
    (h : Cl.Sim x y R) {f : α → Cl K V γ} {g : β → Except Panic δ} {R' : γ → δ → Prop}
    (hf : ∀ a b, R a b → y = .ok b → Cl.Sim (f a) (g b) R') : Cl.Sim (x >>= f) (y >>= g) R' := by
  refine Cl.Sim.bind (R := fun a b => R a b ∧ y = .ok b) ?_ fun a b hab => hf a b hab.1 hab.2
  cases y with
  | error p => exact Cl.Sim.error h
  | ok b => exact Cl.Sim.ok (R := R) h fun _ h => ⟨h, rfl⟩

namespace RangeMap

theorem eq_of_same [EquivBEq V] {m m' : RangeMap K V} (h : SameMap m m') : m.eq m' = true := by
  unfold RangeMap.eq iter
  unfold SameMap at h
  generalize m.btm = l at h
  generalize m'.btm = l' at h
  induction h with
  | nil => rfl
  | @cons a b s t h _ ih =>
    have hv : (a.2 == b.2) = true := by rw [(h.2 b.2).1]; exact BEq.rfl
    simp only [iterEq, entryEq, h.1.1, h.1.2, hv, ih, Bool.and_self]

theorem eq_of_same_exact [LawfulBEq V] (hK : ∀ a b : K, a ≤ b → b ≤ a → a = b)
    {m m' : RangeMap K V} (h : SameMap m m') : m = m' := by
  obtain ⟨l⟩ := m
  obtain ⟨l'⟩ := m'
  congr 1
  simp only [SameMap] at h
  induction h with
  | nil => rfl
  | @cons a b s t h _ ih =>
    have hv : a.2 = b.2 := eq_of_beq (by rw [(h.2 b.2).1]; exact BEq.rfl)
    have h1 : a.1 = b.1 := by
      obtain ⟨⟨a1, a2⟩, _⟩ := a
      obtain ⟨⟨b1, b2⟩, _⟩ := b
      have := h.1
      simp only [SameRange, keq, Bool.and_eq_true, decide_eq_true_eq] at this
      rw [hK a1 b1 this.1.1 this.1.2, hK a2 b2 this.2.1 this.2.2]
    rw [ih, show a = b from Prod.ext h1 hv]

end RangeMap

namespace RangeInclusiveMap

theorem eq_of_same [EquivBEq V] {m m' : RangeInclusiveMap K V} (h : SameMap m m') :
    m.eq m' = true := by
  unfold RangeInclusiveMap.eq iter
  unfold SameMap at h
  generalize m.btm = l at h
  generalize m'.btm = l' at h
  induction h with
  | nil => rfl
  | @cons a b s t h _ ih =>
    have hv : (a.2 == b.2) = true := by rw [(h.2 b.2).1]; exact BEq.rfl
    simp only [iterEq, entryEq, h.1.1, h.1.2.1, h.1.2.2, hv, ih, Bool.and_self, BEq.rfl]

theorem eq_of_same_exact [LawfulBEq V] (hK : ∀ a b : K, a ≤ b → b ≤ a → a = b)
    {m m' : RangeInclusiveMap K V} (h : SameMap m m') : m = m' := by
  obtain ⟨l⟩ := m
  obtain ⟨l'⟩ := m'
  congr 1
  simp only [SameMap] at h
  induction h with
  | nil => rfl
  | @cons a b s t h _ ih =>
    have hv : a.2 = b.2 := eq_of_beq (by rw [(h.2 b.2).1]; exact BEq.rfl)
    have h1 : a.1 = b.1 := by
      obtain ⟨⟨a1, a2, a3⟩, _⟩ := a
      obtain ⟨⟨b1, b2, b3⟩, _⟩ := b
      have := h.1
      simp only [SameIRange, keq, Bool.and_eq_true, decide_eq_true_eq] at this
      rw [hK a1 b1 this.1.1 this.1.2, hK a2 b2 this.2.1.1 this.2.1.2, this.2.2]
    rw [ih, show a = b from Prod.ext h1 hv]

theorem Gaps.callsL_sim {S : StepFns K} (hS : StepsRespect S) (n : Nat) {g g' : Gaps K V}
    (h : g.SameIter g') (hg : g'.Guard) :
    Cl.Sim (callsL (Gaps.nextL S) n g) (callsE (Gaps.next S) n g')
      (Pointwise (SameOpt SameIRange)) := by
  induction n generalizing g g' with
  | zero => exact Cl.Sim.ret .nil
  | succ n ih =>
    have h2 := (Gaps.next_rename (f := id) (g := id) (S := S) (S' := S)
      (fun _ _ => .rfl) ⟨fun a _ _ => by cases h : S.addOne a <;> simp [h, Except.map],
        fun a _ _ => by cases h : S.subOne a <;> simp [h, Except.map]⟩ g' hg).2
    have hc : callsE (Gaps.next S) (n + 1) g' = g'.next S >>= fun p =>
        callsE (Gaps.next S) n p.2 >>= fun t => pure (p.1 :: t) := by
      rw [callsE]
      cases g'.next S with
      | error p => rfl
      | ok p =>
        show (callsE (Gaps.next S) n p.2).map _ =
          callsE (Gaps.next S) n p.2 >>= fun t => pure (p.1 :: t)
        cases callsE (Gaps.next S) n p.2 <;> rfl
    rw [hc]
    unfold callsL
    refine Cl.Sim.bind' (Gaps.nextL_sim hS h hg) fun p q hp hq => ?_
    exact Cl.Sim.bind (ih hp.2 (h2 _ _ hq)) fun t t' ht => Cl.Sim.ret (.cons hp.1 ht)

end RangeInclusiveMap
end Verif

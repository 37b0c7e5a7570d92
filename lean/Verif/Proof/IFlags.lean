import Verif.Proof.IUnflag

/-!
# Which stored ranges carry the `exhausted` flag
-/
set_option linter.unusedSectionVars false

namespace Verif

open Spec

namespace RangeInclusiveMap
variable {K : Type} [LE K] [LT K] [DecidableLE K] [DecidableLT K]
  [Std.IsLinearPreorder K] [Std.LawfulOrderLT K] {V : Type} {S : StepFns K}

/-! ### where the stored flags come from -/

/-- Every flagged range of `l` is in `R`. -/
def FlagsIn (R : List (RangeInclusive K)) (l : List (RangeInclusive K × V)) : Prop :=
  ∀ e ∈ l, e.1.exhausted = true → e.1 ∈ R

theorem FlagsIn.nil {R : List (RangeInclusive K)} : FlagsIn R ([] : List (RangeInclusive K × V)) :=
  fun _ h => nomatch h

theorem FlagsIn.insert {R : List (RangeInclusive K)} {l : List (RangeInclusive K × V)}
    (h : FlagsIn R l) {r : RangeInclusive K} (hr : r.exhausted = true → r ∈ R) (v : V) :
    FlagsIn R (BTreeMap.insert RangeInclusive.start r v l) := by
  induction l with
  | nil =>
    intro e he hx
    obtain rfl : e = (r, v) := by simpa [BTreeMap.insert] using he
    exact hr hx
  | cons a t ih =>
    have ih := ih fun e he => h e (by simp [he])
    intro e he hx
    simp only [BTreeMap.insert] at he
    split at he
    · rcases List.mem_cons.1 he with rfl | he
      · exact hr hx
      · exact h e he hx
    · split at he
      · rcases List.mem_cons.1 he with rfl | he
        · exact h e (by simp) hx
        · exact ih e he hx
      · rcases List.mem_cons.1 he with rfl | he
        · exact h a (by simp) hx
        · exact h e (by simp [he]) hx

theorem FlagsIn.remove {R : List (RangeInclusive K)} {l : List (RangeInclusive K × V)}
    (h : FlagsIn R l) (k : K) : FlagsIn R (BTreeMap.remove RangeInclusive.start k l) := by
  induction l with
  | nil => exact h
  | cons a t ih =>
    have ih := ih fun e he => h e (by simp [he])
    intro e he hx
    simp only [BTreeMap.remove] at he
    split at he
    · exact h e (by simp [he]) hx
    · rcases List.mem_cons.1 he with rfl | he
      · exact h e (by simp) hx
      · exact ih e he hx

theorem FlagsIn.left {R : List (RangeInclusive K)} {l l' : List (RangeInclusive K × V)}
    (h : FlagsIn R l) {s n : RangeInclusive K} {v : V} (h' : insertLeft S l s v n = .ok l') :
    FlagsIn R l' := by
  simp only [insertLeft] at h'
  split at h'
  · cases hc : S.subOne n.start with
    | error p => rw [hc] at h'; cases h'
    | ok c =>
      rw [hc] at h'
      cases h'
      exact h.insert (by simp) v
  · cases h'
    exact h

theorem FlagsIn.right {R : List (RangeInclusive K)} {l l' : List (RangeInclusive K × V)}
    (h : FlagsIn R l) {s n : RangeInclusive K} {v : V} (h' : insertRight S l s v n = .ok l') :
    FlagsIn R l' := by
  simp only [insertRight] at h'
  split at h'
  · cases hc : S.addOne n.stop with
    | error p => rw [hc] at h'; cases h'
    | ok c =>
      rw [hc] at h'
      cases h'
      exact h.insert (by simp) v
  · cases h'
    exact h

theorem FlagsIn.cut {R : List (RangeInclusive K)} {l l' : List (RangeInclusive K × V)}
    (h : FlagsIn R l) {s n : RangeInclusive K} {v : V}
    (h' : adjustOverlappingRangesForRemove S l s v n = .ok l') : FlagsIn R l' := by
  simp only [adjustOverlappingRangesForRemove] at h'
  cases h1 : insertLeft S (BTreeMap.remove RangeInclusive.start s.start l) s v n with
  | error p => rw [h1] at h'; cases h'
  | ok l1 =>
    rw [h1] at h'
    exact ((h.remove s.start).left h1).right h'

section
variable [BEq V]

theorem FlagsIn.adjust {R : List (RangeInclusive K)} {l : List (RangeInclusive K × V)}
    (h : FlagsIn R l) {s n : RangeInclusive K} (hn : n.exhausted = true → n ∈ R) {sv v : V}
    {p : List (RangeInclusive K × V) × RangeInclusive K}
    (h' : adjustTouchingRangesForInsert S l s sv n v = .ok p) :
    FlagsIn R p.1 ∧ (p.2.exhausted = true → p.2 ∈ R) := by
  unfold adjustTouchingRangesForInsert at h'
  split at h'
  · cases h'
    exact ⟨h.remove _, by simp⟩
  · split at h'
    · simp only [bind, Except.bind] at h'
      cases h1 : insertLeft S (BTreeMap.remove RangeInclusive.start s.start l) s sv n with
      | error p => rw [h1] at h'; cases h'
      | ok l1 =>
        rw [h1] at h'
        simp only at h'
        cases h2 : insertRight S l1 s sv n with
        | error p => rw [h2] at h'; cases h'
        | ok l2 =>
          rw [h2] at h'
          cases h'
          exact ⟨((h.remove s.start).left h1).right h2, hn⟩
    · cases h'
      exact ⟨h, hn⟩

theorem FlagsIn.loop {R : List (RangeInclusive K)} {hi : K} {v : V} :
    ∀ (fuel : Nat) {l : List (RangeInclusive K × V)} {n : RangeInclusive K}, FlagsIn R l →
    (n.exhausted = true → n ∈ R) → ∀ {p}, insertLoop S hi v fuel l n = .ok p →
    FlagsIn R p.1 ∧ (p.2.exhausted = true → p.2 ∈ R) := by
  intro fuel
  induction fuel with
  | zero => intro l n _ _ p h'; cases h'
  | succ fuel ih =>
    intro l n h hn p h'
    simp only [insertLoop] at h'
    cases h1 : BTreeMap.range RangeInclusive.start (.included n.start) .unbounded l with
    | error p => rw [h1] at h'; cases h'
    | ok c =>
      rw [h1] at h'
      simp only [bind, Except.bind] at h'
      cases hc : c.head? with
      | none =>
        rw [hc] at h'
        cases h'
        exact ⟨h, hn⟩
      | some e =>
        rw [hc] at h'
        simp only at h'
        cases hb : breakCond S hi v e with
        | error p => rw [hb] at h'; cases h'
        | ok b =>
          rw [hb] at h'
          cases b with
          | true =>
            cases h'
            exact ⟨h, hn⟩
          | false =>
            simp only [Bool.false_eq_true, if_false] at h'
            cases ha : adjustTouchingRangesForInsert S l e.1 e.2 n v with
            | error p => rw [ha] at h'; cases h'
            | ok q =>
              rw [ha] at h'
              obtain ⟨h2, h3⟩ := h.adjust hn ha
              exact ih h2 h3 h'

theorem FlagsIn.insertPrefix {R : List (RangeInclusive K)} {l : List (RangeInclusive K × V)}
    (h : FlagsIn R l) {n : RangeInclusive K} (hn : n.exhausted = true → n ∈ R) {v : V}
    {p : List (RangeInclusive K × V) × RangeInclusive K}
    (h' : RangeInclusiveMap.insertPrefix S l n v = .ok p) :
    FlagsIn R p.1 ∧ (p.2.exhausted = true → p.2 ∈ R) := by
  simp only [RangeInclusiveMap.insertPrefix] at h'
  cases h1 : BTreeMap.range RangeInclusive.start .unbounded (.included n.start) l with
  | error p => rw [h1] at h'; cases h'
  | ok c =>
    rw [h1] at h'
    simp only [bind, Except.bind] at h'
    cases h2 : filterE (fun e => e.1.touches S n) (c.reverse.take 2) with
    | error p => rw [h2] at h'; cases h'
    | ok d =>
      rw [h2] at h'
      match d, h' with
      | [], h' => cases h'; exact ⟨h, hn⟩
      | [a], h' => exact h.adjust hn h'
      | a :: b :: t, h' => exact h.adjust hn h'

theorem FlagsIn.insertMap {R : List (RangeInclusive K)} {m m' : RangeInclusiveMap K V}
    (h : FlagsIn R m.btm) {r : RangeInclusive K} (hr : r.exhausted = true → r ∈ R) {v : V}
    (h' : m.insert S r v = .ok m') : FlagsIn R m'.btm := by
  simp only [RangeInclusiveMap.insert, insertFuel] at h'
  split at h'
  · cases h'
  · simp only [bind, Except.bind, pure, Except.pure] at h'
    cases h1 : RangeInclusiveMap.insertPrefix S m.btm r v with
    | error p => rw [h1] at h'; cases h'
    | ok p =>
      rw [h1] at h'
      simp only at h'
      obtain ⟨a1, a2⟩ := h.insertPrefix hr h1
      cases h2 : insertLoop S p.2.stop v (m.len + 2) p.1 p.2 with
      | error p => rw [h2] at h'; cases h'
      | ok q =>
        rw [h2] at h'
        cases h'
        obtain ⟨b1, b2⟩ := a1.loop _ a2 h2
        exact b1.insert b2 v

theorem FlagsIn.extend {R : List (RangeInclusive K)} (items : List (RangeInclusive K × V)) :
    ∀ {m : RangeInclusiveMap K V}, FlagsIn R m.btm → (∀ e ∈ items, e.1 ∈ R) →
    FlagsIn R (m.extend S items).1.btm := by
  induction items with
  | nil => intro m h _; exact h
  | cons e t ih =>
    intro m h hi
    simp only [RangeInclusiveMap.extend]
    cases h1 : m.insert S e.1 e.2 with
    | error p => exact h
    | ok m' => exact ih (h.insertMap (fun _ => hi e (by simp)) h1) fun x hx => hi x (by simp [hx])

end

theorem FlagsIn.removePrefix {R : List (RangeInclusive K)} {l l' : List (RangeInclusive K × V)}
    (h : FlagsIn R l) {n : RangeInclusive K}
    (h' : RangeInclusiveMap.removePrefix S l n = .ok l') : FlagsIn R l' := by
  simp only [RangeInclusiveMap.removePrefix] at h'
  cases h1 : BTreeMap.range RangeInclusive.start .unbounded (.included n.start) l with
  | error p => rw [h1] at h'; cases h'
  | ok c =>
    rw [h1] at h'
    simp only [bind, Except.bind] at h'
    cases h2 : c.getLast?.filter fun e => e.1.overlaps n with
    | none => rw [h2] at h'; cases h'; exact h
    | some d => rw [h2] at h'; exact h.cut h'

theorem FlagsIn.removeLoop {R : List (RangeInclusive K)} {n : RangeInclusive K} :
    ∀ (fuel : Nat) {l : List (RangeInclusive K × V)}, FlagsIn R l →
    ∀ {l'}, RangeInclusiveMap.removeLoop S n fuel l = .ok l' → FlagsIn R l' := by
  intro fuel
  induction fuel with
  | zero => intro l _ l' h'; cases h'
  | succ fuel ih =>
    intro l h l' h'
    simp only [RangeInclusiveMap.removeLoop] at h'
    cases h1 : BTreeMap.range RangeInclusive.start (.excluded n.start) (.included n.stop) l with
    | error p => rw [h1] at h'; cases h'
    | ok c =>
      rw [h1] at h'
      simp only [bind, Except.bind] at h'
      cases hc : c.head? with
      | none => rw [hc] at h'; cases h'; exact h
      | some e =>
        rw [hc] at h'
        simp only at h'
        cases ha : adjustOverlappingRangesForRemove S l e.1 e.2 n with
        | error p => rw [ha] at h'; cases h'
        | ok q => rw [ha] at h'; exact ih (h.cut ha) h'

theorem FlagsIn.removeMap {R : List (RangeInclusive K)} {m m' : RangeInclusiveMap K V}
    (h : FlagsIn R m.btm) {r : RangeInclusive K} (h' : m.remove S r = .ok m') :
    FlagsIn R m'.btm := by
  simp only [RangeInclusiveMap.remove, removeFuel] at h'
  split at h'
  · cases h'
  · simp only [bind, Except.bind, pure, Except.pure] at h'
    cases h1 : RangeInclusiveMap.removePrefix S m.btm r with
    | error p => rw [h1] at h'; cases h'
    | ok p =>
      rw [h1] at h'
      simp only at h'
      cases h2 : RangeInclusiveMap.removeLoop S r (m.len + 2) p with
      | error p => rw [h2] at h'; cases h'
      | ok q => rw [h2] at h'; cases h'; exact (h.removePrefix h1).removeLoop _ h2

theorem FlagsIn.run [BEq V] (ops : List (Op (RangeInclusive K) V)) :
    FlagsIn (ops.flatMap Op.inserted) (RangeInclusiveMap.run S ops).btm := by
  suffices ∀ (R : List (RangeInclusive K)) (m : RangeInclusiveMap K V), FlagsIn R m.btm →
      (∀ op ∈ ops, ∀ r ∈ op.inserted, r ∈ R) →
      FlagsIn R (ops.foldl (fun m op => (m.apply S op).1) m).btm from
    this _ _ .nil fun op ho r hr => List.mem_flatMap.2 ⟨op, ho, hr⟩
  intro R
  induction ops with
  | nil => intro m h _; exact h
  | cons op ops ih =>
    intro m h hR
    refine ih _ ?_ fun o ho => hR o (by simp [ho])
    have hop := hR op (by simp)
    cases op with
    | insert r v =>
      simp only [RangeInclusiveMap.apply]
      cases h1 : m.insert S r v with
      | error p => exact h
      | ok m' => exact h.insertMap (fun _ => hop r (by simp [Op.inserted])) h1
    | remove r =>
      simp only [RangeInclusiveMap.apply]
      cases h1 : m.remove S r with
      | error p => exact h
      | ok m' => exact h.removeMap h1
    | clear => exact .nil
    | extend items =>
      exact h.extend items fun e he => hop e.1 (List.mem_map.2 ⟨e, he, rfl⟩)

end RangeInclusiveMap
end Verif

import Verif.Proof.ICanon
import Verif.Proof.Append

/-!
# Inclusive map: inserting the entries of a well-formed list in order rebuilds exactly that list
-/
set_option linter.unusedSectionVars false
set_option linter.unusedVariables false

namespace Verif
variable {K : Type} [LE K] [LT K] [DecidableLE K] [DecidableLT K]
  [Std.IsLinearPreorder K] [Std.LawfulOrderLT K]

theorem filterE_mem {α : Type} {p : α → Except Panic Bool} :
    ∀ {l : List α}, (∀ a ∈ l, ∃ b, p a = .ok b) →
      ∃ l', filterE p l = .ok l' ∧ ∀ a ∈ l', a ∈ l ∧ p a = .ok true
  | [], _ => ⟨[], rfl, by simp⟩
  | a :: t, h => by
    obtain ⟨b, hb⟩ := h a (by simp)
    obtain ⟨t', ht, hm⟩ := filterE_mem (l := t) fun x hx => h x (by simp [hx])
    refine ⟨if b then a :: t' else t', ?_, ?_⟩
    · simp [filterE, hb, ht, bind, Except.bind, pure, Except.pure]
    · intro x hx
      cases b
      · have := hm x (by simpa using hx)
        exact ⟨by simp [this.1], this.2⟩
      · simp only [if_true, List.mem_cons] at hx
        rcases hx with rfl | hx
        · exact ⟨by simp, hb⟩
        · have := hm x hx
          exact ⟨by simp [this.1], this.2⟩

namespace RangeInclusiveMap
open Spec
variable {V : Type} [BEq V] {S : StepFns K}

theorem insert_append [PartialEquivBEq V] (hS : LawfulSteps S) {l : List (RangeInclusive K × V)}
    {e : RangeInclusive K × V} (h : SC (l ++ [e])) :
    (⟨l⟩ : RangeInclusiveMap K V).insert S e.1 e.2 = .ok ⟨l ++ [e]⟩ := by
  have hne := h.sep.ne e (by simp)
  have hpw := List.pairwise_append.1 h.sep.pw
  have hb : ∀ x ∈ l, Before x e := fun x hx => hpw.2.2 x hx e (by simp)
  have hn : ∀ x ∈ l, x.1.start ≤ x.1.stop := fun x hx => h.sep.ne x (by simp [hx])
  have hc : ∀ x ∈ l, Next x.1.stop e.1.start → (x.2 == e.2) = false := by
    intro x hx hle
    exact h.coal x (by simp [hx]) e (by simp) hle
  have hadj : ∀ c ∈ l, c.1.touches S e.1 = .ok true →
      adjustTouchingRangesForInsert S l c.1 c.2 e.1 e.2 = .ok (l, e.1) := by
    intro c hcl ht
    have hbc := hb c hcl
    obtain ⟨b, hb1, hb2⟩ := touches_spec hS (c := c.1) hne (by grind [Before]) (hn c hcl)
    rw [hb1] at ht
    have : b = true := by simpa using ht
    have hv := hc c hcl (by grind [Before])
    have hov : ¬ e.1.overlaps c.1 = true := by
      simp only [RangeInclusive.overlaps, decide_eq_true_eq, le_rmin, rmax_le]
      grind [Before]
    simp only [adjustTouchingRangesForInsert, hv, hov]
    rfl
  have hpre : insertPrefix S l e.1 e.2 = .ok (l, e.1) := by
    unfold insertPrefix
    rw [BTreeMap.range_ok rfl]
    simp only [bind, Except.bind, pure, Except.pure]
    have hin : ∀ x ∈ ((l.filter fun x => (Bound.unbounded : Bound K).admitsAsLower x.1.start &&
        (Bound.included e.1.start).admitsAsUpper x.1.start).reverse.take 2), x ∈ l := by
      intro x hx
      exact (List.mem_filter.1 (List.mem_reverse.1 (List.mem_of_mem_take hx))).1
    obtain ⟨cs, hcs, hm⟩ := filterE_mem
      (p := fun x : RangeInclusive K × V => x.1.touches S e.1)
      (l := ((l.filter fun x => (Bound.unbounded : Bound K).admitsAsLower x.1.start &&
        (Bound.included e.1.start).admitsAsUpper x.1.start).reverse.take 2)) (by
        intro x hx
        have hx := hin x hx
        have := hb x hx
        obtain ⟨b, hb, _⟩ := touches_spec hS (c := x.1) hne (by grind [Before]) (hn x hx)
        exact ⟨b, hb⟩)
    rw [hcs]
    match cs, hm with
    | [], _ => rfl
    | [c], hm =>
      have := hm c (by simp)
      exact hadj c (hin c this.1) this.2
    | _ :: c :: _, hm =>
      have := hm c (by simp)
      exact hadj c (hin c this.1) this.2
  have hloop : ∀ f, insertLoop S e.1.stop e.2 (f + 1) l e.1 = .ok (l, e.1) := by
    intro f
    apply insertLoop_done hS (by grind)
    intro y hy hle
    have := hb y hy
    grind [Before]
  simp only [insert, insertFuel, hne, not_true, if_false, hpre, hloop, bind, Except.bind, pure,
    Except.pure]
  rw [BTreeMap.insert_append fun x hx => (hb x hx).1]

theorem SC.prefix {l l' : List (RangeInclusive K × V)} (h : SC (l ++ l')) : SC l where
  sep := ⟨(List.pairwise_append.1 h.sep.pw).1, fun x hx => h.sep.ne x (by simp [hx])⟩
  coal a ha b hb := h.coal a (by simp [ha]) b (by simp [hb])

/-- Extending a prefix of a well-formed list by the rest of it. -/
theorem extend_rest [PartialEquivBEq V] (hS : LawfulSteps S) (l' : List (RangeInclusive K × V)) :
    ∀ l : List (RangeInclusive K × V), SC (l ++ l') →
      (⟨l⟩ : RangeInclusiveMap K V).extend S l' = (⟨l ++ l'⟩, .ok ()) := by
  induction l' with
  | nil => intro l _; simp [extend]
  | cons e t ih =>
    intro l h
    rw [← List.singleton_append, ← List.append_assoc] at h ⊢
    rw [List.singleton_append, extend, insert_append hS h.prefix]
    exact ih _ h

theorem run_self [PartialEquivBEq V] (hS : LawfulSteps S) {m : RangeInclusiveMap K V}
    (h : SC m.btm) : run S [.extend m.btm] = m := by
  have := extend_rest hS m.btm [] (by simpa using h)
  simp [run, RangeInclusiveMap.apply, RangeInclusiveMap.new, this]

/-- Every well-formed map is reachable. -/
theorem WF.reachable [PartialEquivBEq V] (hS : LawfulSteps S) {m : RangeInclusiveMap K V}
    (h : WF m.btm) : Reachable S m := by
  refine ⟨[.extend m.btm], ?_, run_self hS h.sc⟩
  intro op ho r hr
  rw [List.mem_singleton] at ho
  subst ho
  simp only [Op.inserted, List.mem_map] at hr
  obtain ⟨e, he, rfl⟩ := hr
  exact h.fresh e he

theorem reachable_iff [PartialEquivBEq V] (hS : LawfulSteps S) {m : RangeInclusiveMap K V} :
    Reachable S m ↔ WF m.btm := ⟨Reachable.wf hS, WF.reachable hS⟩

theorem reachableAny_iff [PartialEquivBEq V] (hS : LawfulSteps S) {m : RangeInclusiveMap K V} :
    ReachableAny S m ↔ SC m.btm := ⟨ReachableAny.sc hS, fun h => ⟨_, run_self hS h⟩⟩

end RangeInclusiveMap
end Verif

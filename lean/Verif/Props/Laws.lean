import Verif.Props.Demo
import Verif.Props.IMap
import Verif.Props.ISet

/-!
# The laws of `StepFns` are needed (C66)

`RangeInclusiveMap::new_with_step_fns` takes any `StepFns`.  The documentation asks for `add_one` and
`sub_one` to return neighbours; C25 shows that this is enough.  Here: that nothing less is, and what
happens otherwise.
-/
set_option linter.unusedSectionVars false
namespace Verif.Props.Inclusive
open Verif Verif.Spec Verif.RangeInclusiveMap

section
variable {K : Type} [LE K] [LT K] [DecidableLE K] [DecidableLT K]
  [Std.IsLinearPreorder K] [Std.LawfulOrderLT K] {V : Type} [BEq V] {S : StepFns K}

theorem insert_into_empty (S : StepFns K) {a b : K} (h : a ≤ b) (v : V) :
    run S [.insert (.mk' a b) v] = (⟨[(.mk' a b, v)]⟩ : RangeInclusiveMap K V) := by
  simp [run, RangeInclusiveMap.apply, RangeInclusiveMap.insert, insertFuel, insertPrefix, insertLoop,
    filterE, BTreeMap.range, new, BTreeMap.insert, h, bind, Except.bind, pure, Except.pure,
    RangeInclusive.mk', Bound.invalid, len]

theorem get_single (a b : K) (v : V) (k : K) :
    (⟨[(.mk' a b, v)]⟩ : RangeInclusiveMap K V).get k =
      .ok (if a ≤ k ∧ k ≤ b then some v else none) := by
  simp only [RangeInclusiveMap.get, getKeyValue, BTreeMap.range, Bound.invalid, bind, Except.bind,
    pure, Except.pure, Bound.admitsAsLower, Bound.admitsAsUpper, RangeInclusive.mk']
  by_cases h : a ≤ k <;> by_cases h' : k ≤ b <;>
    simp [h, h', RangeInclusive.contains]

theorem removeLoop_single (S : StepFns K) {a : K} (c : K) (b : K) (v : V) (n : Nat)
    (h : ¬ (a < c ∧ c ≤ a)) :
    removeLoop S (.mk' a a) (n + 1) [(.mk' c b, v)] = .ok [(.mk' c b, v)] := by
  have h2 : ¬ a < a := by grind
  unfold removeLoop
  have h3 : BTreeMap.range RangeInclusive.start (.excluded a) (.included a) [(RangeInclusive.mk' c b, v)]
      = .ok [] := by
    have : ∀ x : K, ¬ (a < x ∧ x ≤ a) := by intro x; grind
    simp [BTreeMap.range, Bound.invalid, h2, Bound.admitsAsLower, Bound.admitsAsUpper,
      RangeInclusive.mk']
    grind
  have h4 : BTreeMap.range RangeInclusive.start (.excluded (RangeInclusive.mk' a a).start)
      (.included (RangeInclusive.mk' a a).stop) [(RangeInclusive.mk' c b, v)] = .ok [] := h3
  rw [h4]
  rfl

theorem remove_first (S : StepFns K) {a b : K} (h : a < b) (v : V) :
    (⟨[(.mk' a b, v)]⟩ : RangeInclusiveMap K V).remove S (.mk' a a) =
      (S.addOne a).map fun c => ⟨[(.mk' c b, v)]⟩ := by
  have h1 : (RangeInclusive.mk' a b).overlaps (.mk' a a) = true := by
    refine decide_eq_true ?_
    simp only [RangeInclusive.mk', le_rmin, rmax_le]
    grind
  have h2 : ¬ a < a := by grind
  have h3 : a ≤ a := by grind
  have hp : removePrefix S [(.mk' a b, v)] (.mk' a a) = (S.addOne a).map fun c => [(.mk' c b, v)] := by
    simp only [removePrefix, BTreeMap.range, Bound.invalid, bind, Except.bind,
      pure, Except.pure, Bound.admitsAsLower, Bound.admitsAsUpper]
    simp only [RangeInclusive.mk'] at h1
    simp [RangeInclusive.mk', h3, h1, Option.filter, adjustOverlappingRangesForRemove, insertLeft, h2,
      insertRight, h, BTreeMap.remove, keq, bind, Except.bind, pure, Except.pure]
    cases S.addOne a <;> rfl
  simp only [RangeInclusiveMap.remove, removeFuel, hp, bind, Except.bind, pure, Except.pure]
  have h4 : ¬ ¬ (RangeInclusive.mk' a a).start ≤ (RangeInclusive.mk' a a).stop := not_not_intro h3
  rw [if_neg h4]
  cases S.addOne a with
  | error p => rfl
  | ok c =>
    simp only [Except.map]
    rw [removeLoop_single S c b v _ (by grind)]

theorem remove_last (S : StepFns K) {a b : K} (h : b < a) (v : V) :
    (⟨[(.mk' b a, v)]⟩ : RangeInclusiveMap K V).remove S (.mk' a a) =
      (S.subOne a).map fun c => ⟨[(.mk' b c, v)]⟩ := by
  have h1 : (RangeInclusive.mk' b a).overlaps (.mk' a a) = true := by
    refine decide_eq_true ?_
    simp only [RangeInclusive.mk', le_rmin, rmax_le]
    grind
  have h2 : ¬ a < a := by grind
  have h3 : a ≤ a := by grind
  have h4 : b ≤ a := by grind
  have h5 : b ≤ b := by grind
  have hp : removePrefix S [(.mk' b a, v)] (.mk' a a) = (S.subOne a).map fun c => [(.mk' b c, v)] := by
    simp only [removePrefix, BTreeMap.range, Bound.invalid, bind, Except.bind,
      pure, Except.pure, Bound.admitsAsLower, Bound.admitsAsUpper]
    simp only [RangeInclusive.mk'] at h1
    simp [RangeInclusive.mk', h4, h5, h1, Option.filter, adjustOverlappingRangesForRemove, insertLeft, h2,
      insertRight, h, BTreeMap.remove, keq, bind, Except.bind, pure, Except.pure]
    cases S.subOne a <;> rfl
  simp only [RangeInclusiveMap.remove, removeFuel, hp, bind, Except.bind, pure, Except.pure]
  have h4 : ¬ ¬ (RangeInclusive.mk' a a).start ≤ (RangeInclusive.mk' a a).stop := not_not_intro h3
  rw [if_neg h4]
  cases S.subOne a with
  | error p => rfl
  | ok c =>
    simp only [Except.map]
    rw [removeLoop_single S b c v _ (by grind)]

/-- **C66** If storing `a..=b` and then removing `a` has the effect it should have on every key, then
`add_one(a)` does not panic and returns the next key. -/
theorem C66_add_one_needed (v : V) {a b : K} (hab : a < b)
    (h : ∀ k, (run S [.insert (.mk' a b) v, .remove (.mk' a a)]).containsKey k
      = .ok (decide (a < k ∧ k ≤ b))) :
    ∃ c, S.addOne a = .ok c ∧ Next a c := by
  have hrun : run S [.insert (.mk' a b) v, .remove (.mk' a a)] =
      (((⟨[(.mk' a b, v)]⟩ : RangeInclusiveMap K V).apply S (.remove (.mk' a a))).1) := by
    rw [← insert_into_empty S (by grind : a ≤ b) v]; rfl
  rw [hrun] at h
  simp only [RangeInclusiveMap.apply, remove_first S hab] at h
  cases hc : S.addOne a with
  | error p =>
    have := h a
    simp [hc, Except.map, containsKey, get_single, bind, Except.bind, pure, Except.pure] at this
    grind
  | ok c =>
    have h1 : ∀ k, (c ≤ k ∧ k ≤ b) ↔ (a < k ∧ k ≤ b) := by
      intro k
      have := h k
      simp only [hc, Except.map, containsKey, get_single, bind, Except.bind, pure, Except.pure,
        Except.ok.injEq] at this
      by_cases h2 : c ≤ k ∧ k ≤ b <;> simp [h2] at this <;> grind
    refine ⟨c, rfl, ?_, fun d hd => ?_⟩
    · have := h1 b; have := h1 c; grind
    · have := h1 b; have := h1 d; grind

/-- **C66** If storing `b..=a` and then removing `a` has the effect it should have on every key, then
`sub_one(a)` does not panic and returns the previous key. -/
theorem C66_sub_one_needed (v : V) {a b : K} (hab : b < a)
    (h : ∀ k, (run S [.insert (.mk' b a) v, .remove (.mk' a a)]).containsKey k
      = .ok (decide (b ≤ k ∧ k < a))) :
    ∃ c, S.subOne a = .ok c ∧ Next c a := by
  have hrun : run S [.insert (.mk' b a) v, .remove (.mk' a a)] =
      (((⟨[(.mk' b a, v)]⟩ : RangeInclusiveMap K V).apply S (.remove (.mk' a a))).1) := by
    rw [← insert_into_empty S (by grind : b ≤ a) v]; rfl
  rw [hrun] at h
  simp only [RangeInclusiveMap.apply, remove_last S hab] at h
  cases hc : S.subOne a with
  | error p =>
    have := h a
    simp [hc, Except.map, containsKey, get_single, bind, Except.bind, pure, Except.pure] at this
    grind
  | ok c =>
    have h1 : ∀ k, (b ≤ k ∧ k ≤ c) ↔ (b ≤ k ∧ k < a) := by
      intro k
      have := h k
      simp only [hc, Except.map, containsKey, get_single, bind, Except.bind, pure, Except.pure,
        Except.ok.injEq] at this
      by_cases h2 : b ≤ k ∧ k ≤ c <;> simp [h2] at this <;> grind
    refine ⟨c, rfl, ?_, fun d hd => ?_⟩
    · have := h1 b; have := h1 c; grind
    · have := h1 b; have := h1 d; grind

/-- **C66** The laws are necessary and sufficient: exactly with step functions that return the
neighbours (where there are any) does every history of calls leave the map with the contents it should
have.  (`v` only says that there are values.) -/
theorem C66_laws_necessary_and_sufficient [PartialEquivBEq V] (v : V) :
    LawfulSteps S ↔ ∀ (ops : List (Op (RangeInclusive K) V)),
      (∀ op ∈ ops, ∀ r ∈ op.inserted, r.exhausted = false) → ∀ k,
      ∃ o, (run S ops).get k = .ok o ∧ Agree o (lastWrite icovers ivalid ops.reverse k) := by
  refine ⟨fun hS ops hx k => C25_refinement hS ops hx k, fun h => ⟨fun a b hab => ?_, fun a b hab => ?_⟩⟩
  · refine C66_add_one_needed v hab fun k => ?_
    obtain ⟨o, h1, h2⟩ := h [.insert (.mk' a b) v, .remove (.mk' a a)] (by
      simp [Op.inserted, RangeInclusive.mk']) k
    simp only [containsKey, h1, bind, Except.bind, pure, Except.pure]
    have h3 : a ≤ b := by grind
    have h4 : a ≤ a := by grind
    simp only [List.reverse_cons, List.reverse_nil, List.nil_append, List.cons_append, lastWrite,
      ivalid, icovers, RangeInclusive.mk', h3, h4] at h2
    by_cases h5 : a ≤ k <;> by_cases h6 : k ≤ a <;> by_cases h7 : k ≤ b <;>
      cases o <;> simp [h5, h6, h7, Agree] at h2 ⊢ <;> grind
  · refine C66_sub_one_needed v hab fun k => ?_
    obtain ⟨o, h1, h2⟩ := h [.insert (.mk' b a) v, .remove (.mk' a a)] (by
      simp [Op.inserted, RangeInclusive.mk']) k
    simp only [containsKey, h1, bind, Except.bind, pure, Except.pure]
    have h3 : b ≤ a := by grind
    have h4 : a ≤ a := by grind
    simp only [List.reverse_cons, List.reverse_nil, List.nil_append, List.cons_append, lastWrite,
      ivalid, icovers, RangeInclusive.mk', h3, h4] at h2
    by_cases h5 : b ≤ k <;> by_cases h6 : k ≤ a <;> by_cases h7 : a ≤ k <;>
      cases o <;> simp [h5, h6, h7, Agree] at h2 ⊢ <;> grind

example := Inclusive.C66_laws_necessary_and_sufficient (K := UIntW 8) (V := Char) (S := Demo.u8)
    'q'

/-- **C66** The same for sets. -/
theorem C66_set_laws_necessary_and_sufficient :
    LawfulSteps S ↔ ∀ (ops : List (SetOp (RangeInclusive K))),
      (∀ op ∈ ops, ∀ r ∈ op.inserted, r.exhausted = false) → ∀ k,
      (RangeInclusiveSet.run S ops).contains k = .ok (member icovers ivalid ops.reverse k) := by
  refine ⟨fun hS ops hx k => C36_refinement hS ops hx k, fun h => ⟨fun a b hab => ?_, fun a b hab => ?_⟩⟩
  · refine C66_add_one_needed () hab fun k => ?_
    have h1 := h [.insert (.mk' a b), .remove (.mk' a a)] (by
      simp [SetOp.inserted, RangeInclusive.mk']) k
    rw [RangeInclusiveSet.contains, RangeInclusiveSet.run_rm] at h1
    refine Eq.trans h1 (congrArg _ ?_)
    have h3 : a ≤ b := by grind
    have h4 : a ≤ a := by grind
    simp only [List.reverse_cons, List.reverse_nil, List.nil_append, List.cons_append, member,
      ivalid, icovers, RangeInclusive.mk', h3, h4]
    by_cases h5 : a ≤ k <;> by_cases h6 : k ≤ a <;> by_cases h7 : k ≤ b <;>
      simp [h5, h6, h7] <;> grind
  · refine C66_sub_one_needed () hab fun k => ?_
    have h1 := h [.insert (.mk' b a), .remove (.mk' a a)] (by
      simp [SetOp.inserted, RangeInclusive.mk']) k
    rw [RangeInclusiveSet.contains, RangeInclusiveSet.run_rm] at h1
    refine Eq.trans h1 (congrArg _ ?_)
    have h3 : b ≤ a := by grind
    have h4 : a ≤ a := by grind
    simp only [List.reverse_cons, List.reverse_nil, List.nil_append, List.cons_append, member,
      ivalid, icovers, RangeInclusive.mk', h3, h4]
    by_cases h5 : b ≤ k <;> by_cases h6 : k ≤ a <;> by_cases h7 : a ≤ k <;>
      simp [h5, h6, h7] <;> grind

example := Inclusive.C66_set_laws_necessary_and_sufficient (K := UIntW 8) (S := Demo.u8)

/-- **C66** Step functions that skip a key make `insert` run forever: after storing `x` with a value
`v`, inserting `a < x` with another value never returns if `add_one(a) > x`. -/
theorem C66_skipping_hangs {a x c : K} {v w : V} (hax : a < x) (hc : S.addOne a = .ok c) (hxc : x < c)
    (hv : (v == w) = false) (fuel : Nat) :
    insertFuel S fuel (run S [.insert (.mk' x x) v]) (.mk' a a) w = .error .diverge := by
  rw [insert_into_empty S (by grind : x ≤ x) v]
  have hloop : ∀ fuel, insertLoop S a w fuel [(.mk' x x, v)] (.mk' a a) = .error .diverge := by
    intro fuel
    induction fuel with
    | zero => rfl
    | succ n ih =>
      have h1 : a ≤ x := by grind
      have h2 : ¬ c < x := by grind
      have h3 : keq x c = false := by simp [keq]; grind
      have h4 : ¬ rmax a x ≤ rmin a x := by rw [le_rmin, rmax_le, rmax_le]; grind
      have h4 : (RangeInclusive.mk' a a).overlaps (.mk' x x) = false := by
        simp [RangeInclusive.overlaps, RangeInclusive.mk', h4]
      unfold insertLoop
      simp only [BTreeMap.range, Bound.invalid, bind, Except.bind, pure, Except.pure,
        Bound.admitsAsLower, Bound.admitsAsUpper]
      simp [breakCond, RangeInclusive.mk', hax, hc, h1, h2, h3, hv, bind, Except.bind,
        pure, Except.pure, adjustTouchingRangesForInsert]
      simp only [RangeInclusive.mk'] at h4 ih
      simp [h4, ih]
  have h1 : ¬ x ≤ a := by grind
  have h2 : a ≤ a := by grind
  have := hloop fuel
  simp only [RangeInclusive.mk'] at this
  simp [insertFuel, insertPrefix, BTreeMap.range, Bound.invalid, bind, Except.bind, pure, Except.pure,
    Bound.admitsAsLower, Bound.admitsAsUpper, RangeInclusive.mk', filterE, h1, h2, this]

/-- **C66** Step functions that do not move make `insert` run forever, too: after storing `a..=b` with
a value `v`, inserting `a` with another value never returns if `add_one(a)` is `a`. -/
theorem C66_standing_still_hangs {a b c : K} {v w : V} (hab : a < b) (hc : S.addOne a = .ok c)
    (hca : keq c a = true) (hv : (v == w) = false) (fuel : Nat) :
    insertFuel S fuel (run S [.insert (.mk' a b) v]) (.mk' a a) w = .error .diverge := by
  rw [insert_into_empty S (by grind : a ≤ b) v]
  have hc' : c ≤ a ∧ a ≤ c := by simpa [keq] using hca
  have h2 : ¬ a < a := by grind
  have h3 : ¬ a < c := by grind
  have h3' : ¬ c < a := by grind
  have hov : ∀ d, keq d a = true → (RangeInclusive.mk' a a).overlaps (.mk' d b) = true := by
    intro d hd
    refine decide_eq_true ?_
    simp only [keq, Bool.and_eq_true, decide_eq_true_eq] at hd
    simp only [RangeInclusive.mk', le_rmin, rmax_le]
    grind
  have hadj : ∀ d, keq d a = true → adjustTouchingRangesForInsert S [(.mk' d b, v)] (.mk' d b) v
      (.mk' a a) w = .ok ([(.mk' c b, v)], .mk' a a) := by
    intro d hd
    have h4 : ¬ d < a := by simp [keq] at hd; grind
    have h5 : keq d d = true := by simp [keq]
    have h6 := hov d hd
    simp only [RangeInclusive.mk'] at h6
    simp [adjustTouchingRangesForInsert, RangeInclusive.mk', hv, h6, BTreeMap.remove, h5, insertLeft, h4,
      insertRight, hab, hc, bind, Except.bind, pure, Except.pure, BTreeMap.insert]
  have hloop : ∀ fuel, insertLoop S a w fuel [(.mk' c b, v)] (.mk' a a) = .error .diverge := by
    intro fuel
    induction fuel with
    | zero => rfl
    | succ n ih =>
      have h6 := hadj c hca
      unfold insertLoop
      simp only [BTreeMap.range, Bound.invalid, bind, Except.bind, pure, Except.pure,
        Bound.admitsAsLower, Bound.admitsAsUpper]
      simp only [RangeInclusive.mk'] at h6 ih
      simp [breakCond, RangeInclusive.mk', h3, hc', h6, ih, pure, Except.pure]
  have h1 : a ≤ a := by grind
  have ht : (RangeInclusive.mk' a b).touches S (.mk' a a) = .ok true := by
    have h7 : ¬ rmin b a < rmax a a := by
      simp only [rmin_lt, lt_rmax]; grind
    have h8 : rmax a a ≤ rmin b a := by grind
    simp [RangeInclusive.touches, RangeInclusive.mk', h7, h8, bind, Except.bind, pure, Except.pure]
  have h9 := hadj a (by simp [keq])
  have h10 := hloop fuel
  simp only [RangeInclusive.mk'] at ht h9 h10
  simp [insertFuel, insertPrefix, BTreeMap.range, Bound.invalid, bind, Except.bind, pure, Except.pure,
    Bound.admitsAsLower, Bound.admitsAsUpper, RangeInclusive.mk', filterE, h1, ht, h9, h10]

end

/-- Steps of ten. -/
def tens : StepFns Nat := ⟨fun k => .ok (k + 10), fun k => .ok (k - 10)⟩

-- the hypotheses of the theorems are met by concrete histories; steps of ten break lookups ...
example : ((run tens [.insert (.mk' 0 30) 'a', .remove (.mk' 0 0)]).containsKey 5).toOption = some false := by
  rfl
-- ... while `u8` meets the hypotheses, also next to the greatest key
example : ∃ c, Demo.u8.addOne ⟨.ofNat 8 254⟩ = .ok c ∧ Next (⟨.ofNat 8 254⟩ : UIntW 8) c := by
  refine C66_add_one_needed (b := ⟨.ofNat 8 255⟩) 'a' (by decide) fun k => ?_
  have h := C25_refinement_exact Demo.u8_lawful
    [.insert (Demo.by8 254 255) 'a', .remove (Demo.by8 254 254)] (by decide) k
  have h' : (run Demo.u8 [.insert (.mk' ⟨.ofNat 8 254⟩ ⟨.ofNat 8 255⟩) 'a',
    .remove (.mk' ⟨.ofNat 8 254⟩ ⟨.ofNat 8 254⟩)]).get k = _ := h
  simp only [containsKey, h', bind, Except.bind, pure, Except.pure]
  have : ∀ x : BitVec 8, (lastWrite icovers ivalid ([.insert (Demo.by8 254 255) 'a',
      .remove (Demo.by8 254 254)] : List (Op _ _)).reverse (⟨x⟩ : UIntW 8)).isSome
      = decide ((⟨.ofNat 8 254⟩ : UIntW 8) < ⟨x⟩ ∧ (⟨x⟩ : UIntW 8) ≤ ⟨.ofNat 8 255⟩) := by decide
  exact congrArg _ (this k.bits)
example : ¬ LawfulSteps tens := fun h => by
  obtain ⟨c, h1, h2⟩ := h.addOne 0 1 (by decide)
  cases h1
  exact absurd (h2.2 1 (by decide)) (by decide)
-- ... and make `insert(0..=0, 'b')` hang when 5 is mapped to 'a'
example (fuel : Nat) : insertFuel tens fuel (run tens [.insert (.mk' 5 5) 'a']) (.mk' 0 0) 'b'
    = .error .diverge :=
  C66_skipping_hangs (c := 10) (by decide) rfl (by decide) rfl fuel

/-- `saturating_add` that saturates at 100. -/
def capped : StepFns Nat := ⟨fun k => .ok (min (k + 1) 100), fun k => .ok (k - 1)⟩

example (fuel : Nat) : insertFuel capped fuel (run capped [.insert (.mk' 100 200) 'a']) (.mk' 100 100) 'b'
    = .error .diverge :=
  C66_standing_still_hangs (c := 100) (by decide) rfl (by decide) rfl fuel


-- what it says of `u8`: 99 is before 100
example : ∃ c, Demo.u8.subOne ⟨100⟩ = .ok c ∧ Next c ⟨100⟩ :=
  C66_sub_one_needed (b := ⟨90⟩) 'a' (by decide) fun k => Demo.ok_of (Demo.forall8 (P := fun k =>
    ((run Demo.u8 [.insert (.mk' ⟨90⟩ ⟨100⟩) 'a', .remove (.mk' ⟨100⟩ ⟨100⟩)]).containsKey k).toOption
      = some (decide ((⟨90⟩ : UIntW 8) ≤ k ∧ k < ⟨100⟩))) (by decide +kernel) k)

end Verif.Props.Inclusive

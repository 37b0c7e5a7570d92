import Verif.Proof.IReach

/-!
# Inclusive map: what the step functions do at the extremes of the key domain does not matter

`StepLe S S'`: wherever `S` succeeds, `S'` gives the same result.  Every operation is monotone in
this order; as every operation succeeds with step functions that panic at the extremes, it gives the
same result with step functions that do something else there.
-/
set_option linter.unusedSectionVars false
set_option linter.unusedVariables false

namespace Verif

/-- Wherever `a` succeeds, `b` gives the same result. -/
structure ExLe {α : Type} (a b : Except Panic α) : Prop where
  ok : ∀ x, a = .ok x → b = .ok x

theorem ExLe.refl {α : Type} (a : Except Panic α) : ExLe a a := ⟨fun _ h => h⟩

theorem ExLe.bind {α β : Type} {a b : Except Panic α} {f g : α → Except Panic β}
    (h : ExLe a b) (hf : ∀ x, ExLe (f x) (g x)) : ExLe (a >>= f) (b >>= g) := by
  refine ⟨fun y hy => ?_⟩
  cases a with
  | error e => simp [Bind.bind, Except.bind] at hy
  | ok x =>
    rw [h.ok x rfl]
    exact (hf x).ok y hy

theorem ExLe.ite {α : Type} {c : Prop} [Decidable c] {a b a' b' : Except Panic α}
    (h : ExLe a a') (h' : ExLe b b') : ExLe (if c then a else b) (if c then a' else b') := by
  split
  · exact h
  · exact h'

/-- Wherever `S` succeeds, `S'` gives the same result. -/
structure StepLe {K : Type} (S S' : StepFns K) : Prop where
  addOne : ∀ a, ExLe (S.addOne a) (S'.addOne a)
  subOne : ∀ a, ExLe (S.subOne a) (S'.subOne a)

namespace RangeInclusiveMap
variable {K : Type} [LE K] [LT K] [DecidableLE K] [DecidableLT K] {V : Type} [BEq V]
  {S S' : StepFns K}

theorem insertLeft_le (h : StepLe S S') (btm : List (RangeInclusive K × V))
    (stored : RangeInclusive K) (w : V) (cut : RangeInclusive K) :
    ExLe (insertLeft S btm stored w cut) (insertLeft S' btm stored w cut) :=
  ExLe.ite (ExLe.bind (h.subOne _) fun _ => ExLe.refl _) (ExLe.refl _)

theorem insertRight_le (h : StepLe S S') (btm : List (RangeInclusive K × V))
    (stored : RangeInclusive K) (w : V) (cut : RangeInclusive K) :
    ExLe (insertRight S btm stored w cut) (insertRight S' btm stored w cut) :=
  ExLe.ite (ExLe.bind (h.addOne _) fun _ => ExLe.refl _) (ExLe.refl _)

theorem adjustTouching_le (h : StepLe S S') (btm : List (RangeInclusive K × V))
    (stored : RangeInclusive K) (w : V) (n : RangeInclusive K) (v : V) :
    ExLe (adjustTouchingRangesForInsert S btm stored w n v)
      (adjustTouchingRangesForInsert S' btm stored w n v) :=
  ExLe.ite (ExLe.refl _) (ExLe.ite (ExLe.bind (insertLeft_le h ..) fun _ =>
    ExLe.bind (insertRight_le h ..) fun _ => ExLe.refl _) (ExLe.refl _))

theorem adjustOverlapping_le (h : StepLe S S') (btm : List (RangeInclusive K × V))
    (stored : RangeInclusive K) (w : V) (n : RangeInclusive K) :
    ExLe (adjustOverlappingRangesForRemove S btm stored w n)
      (adjustOverlappingRangesForRemove S' btm stored w n) :=
  ExLe.bind (insertLeft_le h ..) fun _ => insertRight_le h ..

theorem breakCond_le (h : StepLe S S') (hi : K) (v : V) (x : RangeInclusive K × V) :
    ExLe (breakCond S hi v x) (breakCond S' hi v x) :=
  ExLe.ite (ExLe.bind (h.addOne _) fun _ => ExLe.refl _) (ExLe.refl _)

theorem touches_le (h : StepLe S S') (r o : RangeInclusive K) :
    ExLe (r.touches S o) (r.touches S' o) := by
  unfold RangeInclusive.touches
  refine ExLe.ite (ExLe.bind (h.addOne _) fun _ => ExLe.refl _) (ExLe.refl _)

theorem filterE_le {α : Type} {p q : α → Except Panic Bool} (h : ∀ a, ExLe (p a) (q a)) :
    ∀ l : List α, ExLe (filterE p l) (filterE q l)
  | [] => ExLe.refl _
  | a :: t => ExLe.bind (h a) fun _ => ExLe.bind (filterE_le h t) fun _ => ExLe.refl _

theorem insertPrefix_le (h : StepLe S S') (btm : List (RangeInclusive K × V))
    (n : RangeInclusive K) (v : V) : ExLe (insertPrefix S btm n v) (insertPrefix S' btm n v) := by
  unfold insertPrefix
  refine ExLe.bind (ExLe.refl _) fun r => ExLe.bind (filterE_le (fun _ => touches_le h _ _) _) ?_
  intro cs
  match cs with
  | [] => exact ExLe.refl _
  | [c] => exact adjustTouching_le h ..
  | _ :: c :: _ => exact adjustTouching_le h ..

theorem insertLoop_le (h : StepLe S S') (hi : K) (v : V) (fuel : Nat) :
    ∀ (btm : List (RangeInclusive K × V)) (n : RangeInclusive K),
      ExLe (insertLoop S hi v fuel btm n) (insertLoop S' hi v fuel btm n) := by
  induction fuel with
  | zero => intro _ _; exact ExLe.refl _
  | succ f ih =>
    intro btm n
    unfold insertLoop
    refine ExLe.bind (ExLe.refl _) fun r => ?_
    cases r.head? with
    | none => exact ExLe.refl _
    | some x =>
      refine ExLe.bind (breakCond_le h ..) fun b => ?_
      cases b
      · exact ExLe.bind (adjustTouching_le h ..) fun p => ih _ _
      · exact ExLe.refl _

theorem insertFuel_le (h : StepLe S S') (fuel : Nat) (m : RangeInclusiveMap K V)
    (r : RangeInclusive K) (v : V) : ExLe (insertFuel S fuel m r v) (insertFuel S' fuel m r v) := by
  unfold insertFuel
  by_cases hr : r.start ≤ r.stop
  · simp only [hr, not_true, if_false]
    exact ExLe.bind (insertPrefix_le h ..) fun p => ExLe.bind (insertLoop_le h ..) fun _ =>
      ExLe.refl _
  · simp only [hr, not_false_eq_true, if_true]
    refine ⟨fun x hx => ?_⟩
    simp [bind, Except.bind, throw, throwThe, MonadExceptOf.throw] at hx

theorem removePrefix_le (h : StepLe S S') (btm : List (RangeInclusive K × V))
    (n : RangeInclusive K) : ExLe (removePrefix S btm n) (removePrefix S' btm n) := by
  unfold removePrefix
  refine ExLe.bind (ExLe.refl _) fun r => ?_
  split
  · exact ExLe.refl _
  · exact adjustOverlapping_le h ..

theorem removeLoop_le (h : StepLe S S') (n : RangeInclusive K) (fuel : Nat) :
    ∀ btm : List (RangeInclusive K × V),
      ExLe (removeLoop S n fuel btm) (removeLoop S' n fuel btm) := by
  induction fuel with
  | zero => intro _; exact ExLe.refl _
  | succ f ih =>
    intro btm
    unfold removeLoop
    refine ExLe.bind (ExLe.refl _) fun r => ?_
    cases r.head? with
    | none => exact ExLe.refl _
    | some x => exact ExLe.bind (adjustOverlapping_le h ..) fun p => ih _

theorem removeFuel_le (h : StepLe S S') (fuel : Nat) (m : RangeInclusiveMap K V)
    (r : RangeInclusive K) : ExLe (removeFuel S fuel m r) (removeFuel S' fuel m r) := by
  unfold removeFuel
  by_cases hr : r.start ≤ r.stop
  · simp only [hr, not_true, if_false]
    exact ExLe.bind (removePrefix_le h ..) fun p => ExLe.bind (removeLoop_le h ..) fun _ =>
      ExLe.refl _
  · simp only [hr, not_false_eq_true, if_true]
    refine ⟨fun x hx => ?_⟩
    simp [bind, Except.bind, throw, throwThe, MonadExceptOf.throw] at hx

/-- `S`, but panicking at the extremes. -/
noncomputable def strict (S : StepFns K) : StepFns K :=
  open Classical in
  { addOne := fun a => if ∃ b, a < b then S.addOne a else .error .stepOverflow
    subOne := fun a => if ∃ b, b < a then S.subOne a else .error .stepOverflow }

theorem strict_lawful (h : Spec.LawfulSteps S) : Spec.LawfulSteps (strict S) where
  addOne a b hab := by
    have : ∃ b, a < b := ⟨b, hab⟩
    simpa [strict, this] using h.addOne a b hab
  subOne a b hab := by
    have : ∃ b, b < a := ⟨b, hab⟩
    simpa [strict, this] using h.subOne a b hab

theorem strict_le (ha : ∀ a b, a < b → S.addOne a = S'.addOne a)
    (hb : ∀ a b, b < a → S.subOne a = S'.subOne a) : StepLe (strict S) S' where
  addOne a := ⟨fun x hx => by
    by_cases h : ∃ b, a < b
    · obtain ⟨b, hb⟩ := h
      rw [← ha a b hb]
      have : ∃ b, a < b := ⟨b, hb⟩
      simpa [strict, this] using hx
    · simp [strict, h] at hx⟩
  subOne a := ⟨fun x hx => by
    by_cases h : ∃ b, b < a
    · obtain ⟨b, hb'⟩ := h
      rw [← hb a b hb']
      have : ∃ b, b < a := ⟨b, hb'⟩
      simpa [strict, this] using hx
    · simp [strict, h] at hx⟩

end RangeInclusiveMap
end Verif

import Verif.Proof.Canon

/-!
# Proofs about `Ord` and `Hash`
-/
set_option linter.unusedSectionVars false
set_option linter.unusedVariables false

namespace Verif

/-- Rust's contract of `Ord::cmp`: swapping the arguments swaps the result, and it is transitive. -/
structure TotalCmp {α : Type} (cmp : α → α → Ordering) : Prop where
  swap : ∀ a b, cmp b a = (cmp a b).swap
  trans : ∀ a b c, cmp a b ≠ .gt → cmp b c ≠ .gt → cmp a c ≠ .gt

namespace TotalCmp
variable {α : Type} {cmp : α → α → Ordering}

theorem eq_left (h : TotalCmp cmp) {a b : α} (c : α) (hab : cmp a b = .eq) :
    cmp a c = cmp b c := by
  have s1 := h.swap a b
  have s2 := h.swap b c
  have s3 := h.swap a c
  have t1 := h.trans a b c
  have t2 := h.trans b a c
  have t3 := h.trans c a b
  have t4 := h.trans c b a
  cases h1 : cmp a c <;> cases h2 : cmp b c <;> simp_all [Ordering.swap]

theorem lt_trans (h : TotalCmp cmp) {a b c : α} (hab : cmp a b = .lt) (hbc : cmp b c = .lt) :
    cmp a c = .lt := by
  have s1 := h.swap a b
  have s2 := h.swap b c
  have s3 := h.swap a c
  have t1 := h.trans a b c
  have t3 := h.trans b c a
  cases h1 : cmp a c <;> simp_all [Ordering.swap]

theorem eq_right (h : TotalCmp cmp) {b c : α} (a : α) (hbc : cmp b c = .eq) :
    cmp a b = cmp a c := by
  rw [h.swap b a, h.swap c a, h.eq_left a hbc]

/-- Lexicographic combination of two comparisons. -/
theorem lex {cmp' : α → α → Ordering} (h : TotalCmp cmp) (h' : TotalCmp cmp') :
    TotalCmp (fun a b => match cmp a b with | .eq => cmp' a b | o => o) where
  swap a b := by
    have s1 := h.swap a b
    have s2 := h'.swap a b
    cases h1 : cmp a b <;> simp_all [Ordering.swap]
  trans a b c hab hbc := by
    cases h1 : cmp a b with
    | gt => simp [h1] at hab
    | eq =>
      cases h2 : cmp b c with
      | gt => simp [h2] at hbc
      | eq =>
        have h3 : cmp a c = .eq := by rw [h.eq_left c h1, h2]
        simp only [h1, h2, h3] at *
        exact h'.trans a b c hab hbc
      | lt =>
        have h3 : cmp a c = .lt := by rw [h.eq_left c h1, h2]
        simp [h3]
    | lt =>
      cases h2 : cmp b c with
      | gt => simp [h2] at hbc
      | eq =>
        have h3 : cmp a c = .lt := by rw [← h.eq_right a h2, h1]
        simp [h3]
      | lt =>
        have h3 : cmp a c = .lt := h.lt_trans h1 h2
        simp [h3]

theorem on {β : Type} (h : TotalCmp cmp) (f : β → α) : TotalCmp (fun a b => cmp (f a) (f b)) where
  swap a b := h.swap _ _
  trans a b c := h.trans _ _ _

theorem iterCmp (h : TotalCmp cmp) : TotalCmp (iterCmp cmp) where
  swap a b := by
    induction a generalizing b with
    | nil => cases b <;> rfl
    | cons x s ih =>
      cases b with
      | nil => rfl
      | cons y t =>
        have s1 := h.swap x y
        have ih := ih t
        cases h1 : cmp x y <;> simp_all [Verif.iterCmp, Ordering.swap]
  trans a b c hab hbc := by
    induction a generalizing b c with
    | nil => cases c <;> simp [Verif.iterCmp]
    | cons x s ih =>
      cases b with
      | nil => simp [Verif.iterCmp] at hab
      | cons y t =>
        cases c with
        | nil => simp [Verif.iterCmp] at hbc
        | cons z u =>
          have ih := ih t u
          simp only [Verif.iterCmp] at *
          cases h1 : cmp x y with
          | gt => simp [h1] at hab
          | eq =>
            cases h2 : cmp y z with
            | gt => simp [h2] at hbc
            | eq =>
              have h3 : cmp x z = .eq := by rw [h.eq_left z h1, h2]
              simp only [h1, h2, h3] at *
              exact ih hab hbc
            | lt =>
              have h3 : cmp x z = .lt := by rw [h.eq_left z h1, h2]
              simp [h3]
          | lt =>
            cases h2 : cmp y z with
            | gt => simp [h2] at hbc
            | eq =>
              have h3 : cmp x z = .lt := by rw [← h.eq_right x h2, h1]
              simp [h3]
            | lt =>
              have h3 : cmp x z = .lt := h.lt_trans h1 h2
              simp [h3]

end TotalCmp

section
variable {K : Type} [LE K] [LT K] [DecidableLE K] [DecidableLT K]
  [Std.IsLinearPreorder K] [Std.LawfulOrderLT K] {V : Type}

theorem totalCmp_kcmp : TotalCmp (kcmp : K → K → Ordering) where
  swap a b := by
    unfold kcmp
    split <;> split <;> simp [Ordering.swap] <;> grind
  trans a b c := by
    unfold kcmp
    grind

theorem kcmp_eq (a b : K) : kcmp a b = .eq ↔ keq a b = true := by
  rw [keq_iff]
  unfold kcmp
  split
  · simp; grind
  · split
    · simp; grind
    · simp; grind

theorem totalCmp_triple {vcmp : V → V → Ordering} (h : TotalCmp vcmp) :
    TotalCmp (tripleCmp vcmp : K × K × V → K × K × V → Ordering) :=
  (totalCmp_kcmp.on (fun p : K × K × V => p.1)).lex
    ((totalCmp_kcmp.on (fun p : K × K × V => p.2.1)).lex (h.on (fun p : K × K × V => p.2.2)))

namespace RangeMap
variable [BEq V]

theorem cmp_eq_iff {vcmp : V → V → Ordering}
    (hv : ∀ a b, vcmp a b = .eq ↔ (a == b) = true) (m m' : RangeMap K V) :
    m.cmp vcmp m' = .eq ↔ m.eq m' = true := by
  obtain ⟨l⟩ := m
  obtain ⟨l'⟩ := m'
  simp only [cmp, eq, expandedIter, iter]
  induction l generalizing l' with
  | nil => cases l' <;> simp [iterCmp, iterEq]
  | cons e t ih =>
    cases l' with
    | nil => simp [iterCmp, iterEq]
    | cons e' t' =>
      have ih := ih t'
      have k1 := kcmp_eq e.1.start e'.1.start
      have k2 := kcmp_eq e.1.stop e'.1.stop
      have k3 := hv e.2 e'.2
      simp only [List.map_cons, iterCmp, tripleCmp, iterEq, entryEq, Bool.and_eq_true, ← ih, ← k1,
        ← k2, ← k3]
      cases h1 : kcmp e.1.start e'.1.start <;> cases h2 : kcmp e.1.stop e'.1.stop <;>
        cases h3 : vcmp e.2 e'.2 <;> simp

theorem partialCmp_some (vcmp : V → V → Ordering) (m m' : RangeMap K V) :
    m.partialCmp (fun a b => some (vcmp a b)) m' = some (m.cmp vcmp m') := by
  obtain ⟨l⟩ := m
  obtain ⟨l'⟩ := m'
  simp only [cmp, partialCmp, expandedIter]
  induction l generalizing l' with
  | nil => cases l' <;> simp [iterCmp, iterPartialCmp]
  | cons e t ih =>
    cases l' with
    | nil => simp [iterCmp, iterPartialCmp]
    | cons e' t' =>
      have ih := ih t'
      simp only [List.map_cons, iterCmp, tripleCmp, iterPartialCmp, triplePartialCmp]
      cases h1 : kcmp e.1.start e'.1.start <;> cases h2 : kcmp e.1.stop e'.1.stop <;>
        cases h3 : vcmp e.2 e'.2 <;> simp [ih]

theorem hash_congr {H : Type} {hk : K → List H} {hv : V → List H}
    (hkc : ∀ a b, keq a b = true → hk a = hk b) (hvc : ∀ a b, (a == b) = true → hv a = hv b)
    {l l' : List (Range K × V)} (h : iterEq entryEq l l' = true) :
    l.length = l'.length ∧
    (l.flatMap fun e => (hk e.1.start ++ hk e.1.stop ++ hv e.2).map (HashToken.data)) =
    (l'.flatMap fun e => (hk e.1.start ++ hk e.1.stop ++ hv e.2).map HashToken.data) := by
  induction l generalizing l' with
  | nil => cases l' <;> simp_all [iterEq]
  | cons e t ih =>
    cases l' with
    | nil => simp [iterEq] at h
    | cons e' t' =>
      simp only [iterEq, entryEq, Bool.and_eq_true] at h
      have ih := ih h.2
      simp only [List.length_cons, List.flatMap_cons, ih, hkc _ _ h.1.1.1, hkc _ _ h.1.1.2,
        hvc _ _ h.1.2, and_self]

end RangeMap
end
end Verif

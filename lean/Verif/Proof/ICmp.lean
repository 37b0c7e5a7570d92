import Verif.Proof.Cmp
import Verif.Proof.ICanon

/-!
# Inclusive map: proofs about `Ord` and `Hash`
-/
set_option linter.unusedSectionVars false
set_option linter.unusedVariables false

namespace Verif.RangeInclusiveMap
variable {K : Type} [LE K] [LT K] [DecidableLE K] [DecidableLT K]
  [Std.IsLinearPreorder K] [Std.LawfulOrderLT K] {V : Type} [BEq V]

theorem cmp_eq_iff {vcmp : V → V → Ordering}
    (hv : ∀ a b, vcmp a b = .eq ↔ (a == b) = true) {m m' : RangeInclusiveMap K V}
    (hm : Fresh m.btm) (hm' : Fresh m'.btm) :
    m.cmp vcmp m' = .eq ↔ m.eq m' = true := by
  obtain ⟨l⟩ := m
  obtain ⟨l'⟩ := m'
  simp only [cmp, eq, expandedIter, iter] at *
  induction l generalizing l' with
  | nil => cases l' <;> simp [iterCmp, iterEq]
  | cons e t ih =>
    cases l' with
    | nil => simp [iterCmp, iterEq]
    | cons e' t' =>
      have ih := ih (fun x hx => hm x (by simp [hx])) t' (fun x hx => hm' x (by simp [hx]))
      have k1 := kcmp_eq e.1.start e'.1.start
      have k2 := kcmp_eq e.1.stop e'.1.stop
      have k3 := hv e.2 e'.2
      have x1 := hm e (by simp)
      have x2 := hm' e' (by simp)
      simp only [List.map_cons, iterCmp, tripleCmp, iterEq, entryEq, Bool.and_eq_true, ← ih, ← k1,
        ← k2, ← k3, x1, x2]
      cases h1 : kcmp e.1.start e'.1.start <;> cases h2 : kcmp e.1.stop e'.1.stop <;>
        cases h3 : vcmp e.2 e'.2 <;> simp

theorem partialCmp_some (vcmp : V → V → Ordering) (m m' : RangeInclusiveMap K V) :
    m.partialCmp (fun a b => some (vcmp a b)) m' = some (m.cmp vcmp m') := by
  obtain ⟨l⟩ := m
  obtain ⟨l'⟩ := m'
  simp only [cmp, partialCmp, expandedIter]
  induction l generalizing l' with
  | nil => cases l' <;> simp [iterCmp, iterPartialCmp]
  | cons e t ih =>
    cases l' with
    | nil => simp [iterCmp, iterPartialCmp]
    | cons e' t' =>
      have ih := ih t'
      simp only [List.map_cons, iterCmp, tripleCmp, iterPartialCmp, triplePartialCmp]
      cases h1 : kcmp e.1.start e'.1.start <;> cases h2 : kcmp e.1.stop e'.1.stop <;>
        cases h3 : vcmp e.2 e'.2 <;> simp [ih]

theorem hash_congr {H : Type} {hk : K → List H} {hv : V → List H}
    (hkc : ∀ a b, keq a b = true → hk a = hk b) (hvc : ∀ a b, (a == b) = true → hv a = hv b)
    {l l' : List (RangeInclusive K × V)} (h : iterEq entryEq l l' = true) :
    l.length = l'.length ∧
    (l.flatMap fun e => (hk e.1.start ++ hk e.1.stop).map HashToken.data ++
      [.bool e.1.exhausted] ++ (hv e.2).map HashToken.data) =
    (l'.flatMap fun e => (hk e.1.start ++ hk e.1.stop).map HashToken.data ++
      [.bool e.1.exhausted] ++ (hv e.2).map HashToken.data) := by
  induction l generalizing l' with
  | nil => cases l' <;> simp_all [iterEq]
  | cons e t ih =>
    cases l' with
    | nil => simp [iterEq] at h
    | cons e' t' =>
      simp only [iterEq, entryEq, Bool.and_eq_true] at h
      have ih := ih h.2
      have hx : e.1.exhausted = e'.1.exhausted := by simpa using h.1.1.2
      simp only [List.length_cons, List.flatMap_cons, ih, hkc _ _ h.1.1.1.1, hkc _ _ h.1.1.1.2,
        hvc _ _ h.1.2, and_self, hx]

end Verif.RangeInclusiveMap

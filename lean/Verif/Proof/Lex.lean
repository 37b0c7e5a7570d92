import Verif.Proof.Cmp
import Verif.Model.ICollect

/-!
# Lexicographic comparison, by the first difference
-/
set_option linter.unusedSectionVars false
set_option linter.unusedSimpArgs false

namespace Verif

open Spec

/-- What a first difference of `l` and `l'` at position `i` says about their order. -/
def DiffAt {α : Type} (cmp : α → α → Option Ordering) (l l' : List α) (i : Nat)
    (o : Option Ordering) : Prop :=
  match l[i]?, l'[i]? with
  | none, some _ => o = some .lt
  | some _, none => o = some .gt
  | some a, some b => cmp a b = o
  | none, none => False

theorem SameUpTo_cons {α : Type} {same : α → α → Prop} {a b : α} {l l' : List α} {i : Nat} :
    SameUpTo same (a :: l) (b :: l') (i + 1) ↔ same a b ∧ SameUpTo same l l' i := by
  constructor
  · intro h
    refine ⟨?_, fun j hj => ?_⟩
    · obtain ⟨x, y, h1, h2, h3⟩ := h 0 (by omega)
      simp only [List.getElem?_cons_zero, Option.some.injEq] at h1 h2
      subst h1 h2; exact h3
    · simpa using h (j + 1) (by omega)
  · rintro ⟨h1, h2⟩ j hj
    cases j with
    | zero => exact ⟨a, b, rfl, rfl, h1⟩
    | succ j => simpa using h2 j (by omega)

theorem iterPartialCmp_iff {α : Type} (cmp : α → α → Option Ordering) {o : Option Ordering}
    (ho : o ≠ some .eq) : ∀ l l' : List α, iterPartialCmp cmp l l' = o ↔
      ∃ i, SameUpTo (fun a b => cmp a b = some .eq) l l' i ∧ DiffAt cmp l l' i o
  | [], [] => by
    simp only [iterPartialCmp]
    constructor
    · intro h; exact absurd h.symm ho
    · rintro ⟨i, -, h⟩; simp [DiffAt] at h
  | [], b :: t => by
    simp only [iterPartialCmp]
    constructor
    · intro h; exact ⟨0, fun j hj => by omega, by simp [DiffAt, h]⟩
    · rintro ⟨i, h1, h2⟩
      cases i with
      | zero => simp only [DiffAt] at h2; simpa using h2.symm
      | succ i => obtain ⟨x, y, h3, -⟩ := h1 0 (by omega); simp at h3
  | a :: s, [] => by
    simp only [iterPartialCmp]
    constructor
    · intro h; exact ⟨0, fun j hj => by omega, by simp [DiffAt, h]⟩
    · rintro ⟨i, h1, h2⟩
      cases i with
      | zero => simp only [DiffAt] at h2; simpa using h2.symm
      | succ i => obtain ⟨x, y, h3, h4, -⟩ := h1 0 (by omega); simp at h4
  | a :: s, b :: t => by
    have ih := iterPartialCmp_iff cmp ho s t
    by_cases hab : cmp a b = some .eq
    · have : iterPartialCmp cmp (a :: s) (b :: t) = iterPartialCmp cmp s t := by
        simp [iterPartialCmp, hab]
      rw [this, ih]
      constructor
      · rintro ⟨i, h1, h2⟩
        exact ⟨i + 1, SameUpTo_cons.2 ⟨hab, h1⟩, by simpa [DiffAt] using h2⟩
      · rintro ⟨i, h1, h2⟩
        cases i with
        | zero => simp only [DiffAt, List.getElem?_cons_zero] at h2; exact absurd (h2 ▸ hab) ho
        | succ i => exact ⟨i, (SameUpTo_cons.1 h1).2, by simpa [DiffAt] using h2⟩
    · have : iterPartialCmp cmp (a :: s) (b :: t) = cmp a b := by
        unfold iterPartialCmp
        split
        · contradiction
        · rfl
      rw [this]
      constructor
      · intro h; exact ⟨0, fun j hj => by omega, by simpa [DiffAt] using h⟩
      · rintro ⟨i, h1, h2⟩
        cases i with
        | zero => simpa [DiffAt] using h2
        | succ i => exact absurd (SameUpTo_cons.1 h1).1 hab

theorem iterPartialCmp_eq_iff {α : Type} (cmp : α → α → Option Ordering) :
    ∀ l l' : List α, iterPartialCmp cmp l l' = some .eq ↔
      l.length = l'.length ∧ SameUpTo (fun a b => cmp a b = some .eq) l l' l.length
  | [], [] => by simp [iterPartialCmp, SameUpTo]
  | [], b :: t => by simp [iterPartialCmp]
  | a :: s, [] => by simp [iterPartialCmp]
  | a :: s, b :: t => by
    have ih := iterPartialCmp_eq_iff cmp s t
    simp only [List.length_cons, SameUpTo_cons]
    by_cases hab : cmp a b = some .eq
    · have : iterPartialCmp cmp (a :: s) (b :: t) = iterPartialCmp cmp s t := by
        simp [iterPartialCmp, hab]
      rw [this, ih]
      constructor
      · rintro ⟨h1, h2⟩; exact ⟨by omega, hab, h2⟩
      · rintro ⟨h1, -, h2⟩; exact ⟨by omega, h2⟩
    · have : iterPartialCmp cmp (a :: s) (b :: t) = cmp a b := by
        unfold iterPartialCmp
        split
        · contradiction
        · rfl
      rw [this]
      exact ⟨fun h => absurd h hab, fun h => absurd h.2.1 hab⟩

section
variable {K : Type} [LE K] [LT K] [DecidableLE K] [DecidableLT K]
  [Std.IsLinearPreorder K] [Std.LawfulOrderLT K] {V : Type}

theorem triplePartialCmp_eq (vcmp : V → V → Option Ordering) (a b : K × K × V) :
    triplePartialCmp vcmp a b = some .eq ↔ SameTriple (fun a b => vcmp a b = some .eq) a b := by
  unfold triplePartialCmp SameTriple kcmp
  repeat' split
  all_goals grind

theorem triplePartialCmp_lt (vcmp : V → V → Option Ordering) (a b : K × K × V) :
    triplePartialCmp vcmp a b = some .lt ↔ LessTriple (fun a b => vcmp a b = some .lt) a b := by
  unfold triplePartialCmp LessTriple kcmp
  repeat' split
  all_goals grind

theorem triplePartialCmp_gt (vcmp : V → V → Option Ordering) (a b : K × K × V) :
    triplePartialCmp vcmp a b = some .gt ↔ LessTriple (fun b a => vcmp a b = some .gt) b a := by
  unfold triplePartialCmp LessTriple kcmp
  repeat' split
  all_goals grind

theorem triplePartialCmp_none (vcmp : V → V → Option Ordering) (a b : K × K × V) :
    triplePartialCmp vcmp a b = none ↔ SameTriple (fun a b => vcmp a b = none) a b := by
  unfold triplePartialCmp SameTriple kcmp
  repeat' split
  all_goals grind

theorem SameUpTo_congr {α : Type} {same same' : α → α → Prop} (h : ∀ a b, same a b ↔ same' a b)
    (l l' : List α) (i : Nat) : SameUpTo same l l' i ↔ SameUpTo same' l l' i := by
  simp only [SameUpTo, h]

theorem SameUpTo_swap {α : Type} {same : α → α → Prop} (l l' : List α) (i : Nat) :
    SameUpTo same l l' i ↔ SameUpTo (fun b a => same a b) l' l i := by
  unfold SameUpTo
  grind

/-- Comparing lists of triples lexicographically, spelled out. -/
theorem iterPartialCmp_triple (vcmp : V → V → Option Ordering) (l l' : List (K × K × V)) :
    (iterPartialCmp (triplePartialCmp vcmp) l l' = some .eq ↔
      l.length = l'.length ∧ SameUpTo (SameTriple fun a b => vcmp a b = some .eq) l l' l.length) ∧
    (iterPartialCmp (triplePartialCmp vcmp) l l' = some .lt ↔
      LexLess (SameTriple fun a b => vcmp a b = some .eq)
        (LessTriple fun a b => vcmp a b = some .lt) l l') ∧
    (iterPartialCmp (triplePartialCmp vcmp) l l' = some .gt ↔
      LexLess (SameTriple fun b a => vcmp a b = some .eq)
        (LessTriple fun b a => vcmp a b = some .gt) l' l) ∧
    (iterPartialCmp (triplePartialCmp vcmp) l l' = none ↔
      ∃ i, SameUpTo (SameTriple fun a b => vcmp a b = some .eq) l l' i ∧
        ∃ a b, l[i]? = some a ∧ l'[i]? = some b ∧ SameTriple (fun a b => vcmp a b = none) a b) := by
  refine ⟨?_, ?_, ?_, ?_⟩
  · rw [iterPartialCmp_eq_iff, SameUpTo_congr (triplePartialCmp_eq vcmp)]
  · rw [iterPartialCmp_iff _ (by simp)]
    unfold LexLess
    refine exists_congr fun i => ?_
    rw [SameUpTo_congr (triplePartialCmp_eq vcmp)]
    refine and_congr_right fun hi => ?_
    have hlen : i ≤ l.length := by
      rcases Nat.lt_or_ge l.length i with h | h
      · obtain ⟨a, b, h1, -⟩ := hi _ h
        simp at h1
      · exact h
    unfold DiffAt
    rcases h1 : l[i]? with _ | a <;> rcases h2 : l'[i]? with _ | b <;>
      simp [List.getElem?_eq_none_iff, triplePartialCmp_lt] at * <;> try omega
    · have := (List.getElem?_eq_some_iff.1 h2).1; omega
    · have := (List.getElem?_eq_some_iff.1 h1).1
      intro; omega
  · rw [iterPartialCmp_iff _ (by simp)]
    unfold LexLess
    refine exists_congr fun i => ?_
    rw [SameUpTo_congr (triplePartialCmp_eq vcmp), SameUpTo_swap]
    have : (fun (b a : K × K × V) => SameTriple (fun a b => vcmp a b = some .eq) a b) =
        SameTriple fun b a => vcmp a b = some .eq := by
      funext b a
      simp only [SameTriple, eq_iff_iff]
      grind
    rw [this]
    refine and_congr_right fun hi => ?_
    have hlen : i ≤ l'.length := by
      rcases Nat.lt_or_ge l'.length i with h | h
      · obtain ⟨a, b, h1, -⟩ := hi _ h
        simp at h1
      · exact h
    unfold DiffAt
    rcases h1 : l[i]? with _ | a <;> rcases h2 : l'[i]? with _ | b <;>
      simp [List.getElem?_eq_none_iff, triplePartialCmp_gt] at * <;> try omega
    · have := (List.getElem?_eq_some_iff.1 h1).1; omega
    · have := (List.getElem?_eq_some_iff.1 h2).1
      intro; omega
  · rw [iterPartialCmp_iff _ (by simp)]
    refine exists_congr fun i => ?_
    rw [SameUpTo_congr (triplePartialCmp_eq vcmp)]
    refine and_congr_right fun hi => ?_
    unfold DiffAt
    rcases h1 : l[i]? with _ | a <;> rcases h2 : l'[i]? with _ | b <;>
      simp [triplePartialCmp_none]

end

end Verif

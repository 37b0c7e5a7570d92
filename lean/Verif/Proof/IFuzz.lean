import Verif.Proof.Fuzz
import Verif.Proof.IReach
import Verif.Proof.IIter

/-!
# The randomised tests never fail: inclusive maps
-/
set_option linter.unusedSectionVars false
set_option linter.unusedVariables false

namespace Verif.RangeInclusiveMap
open Spec
variable {K : Type} [LE K] [LT K] [DecidableLE K] [DecidableLT K]
  [Std.IsLinearPreorder K] [Std.LawfulOrderLT K] {V : Type} [BEq V] {S : StepFns K}

theorem ITiles.after {b : K} {F : K → Prop} {ps : List (RangeInclusive K)} (h : ITiles b F ps)
    {a : K} (hF : ∀ k, F k → a < k) : ∀ p ∈ ps, a < p.start := by
  induction ps generalizing F a with
  | nil => simp
  | cons p ps ih =>
    obtain ⟨h1, h2, h3⟩ := h
    have := hF _ h1
    intro x hx
    rcases List.mem_cons.1 hx with rfl | hx
    · exact this
    · rcases h3 with ⟨rfl, _⟩ | h3
      · cases hx
      · exact ih h3 (fun k hk => by have := hk.1; grind) x hx

theorem ITiles.sorted {b : K} {F : K → Prop} {ps : List (RangeInclusive K)} (h : ITiles b F ps) :
    (∀ p ∈ ps, p.start ≤ p.stop) ∧ ps.Pairwise (fun x y => x.start < y.start) := by
  induction ps generalizing F with
  | nil => simp
  | cons p ps ih =>
    obtain ⟨h1, h2, h3⟩ := h
    rcases h3 with ⟨rfl, _⟩ | h3
    · simpa using h2
    · obtain ⟨h4, h5⟩ := ih h3
      refine ⟨?_, List.pairwise_cons.2 ⟨?_, h5⟩⟩
      · intro x hx
        rcases List.mem_cons.1 hx with rfl | hx
        · exact h2
        · exact h4 x hx
      · exact ITiles.after h3 fun k hk => by have := hk.1; grind

theorem ITiles.windows (hS : LawfulSteps S) {b : K} {F : K → Prop} {p : RangeInclusive K}
    {ps : List (RangeInclusive K)} (h : ITiles b F (p :: ps)) :
    F p.start ∧ (∃ q, (p :: ps).getLast? = some q ∧ keq q.stop b = true) ∧
      fuzzWindows S (p :: ps) = .ok () := by
  induction ps generalizing F p with
  | nil =>
    obtain ⟨h1, h2, h3⟩ := h
    rcases h3 with ⟨_, h3⟩ | h3
    · exact ⟨h1, ⟨p, rfl, keq_iff.2 h3⟩, rfl⟩
    · exact h3.elim
  | cons q ps ih =>
    obtain ⟨h1, h2, h3⟩ := h
    rcases h3 with ⟨h3, _⟩ | h3
    · cases h3
    obtain ⟨h4, ⟨x, h5, h6⟩, h7⟩ := ih h3
    refine ⟨h1, ⟨x, by rw [List.getLast?_cons_cons]; exact h5, h6⟩, ?_⟩
    obtain ⟨c, h8, h9⟩ := hS.addOne _ _ h4.1
    have : keq c q.start = true := keq_iff.2 ⟨h9.2 _ h4.1, h4.2 _ h9.1⟩
    simp only [fuzzWindows, h8, this, check_true, h7, bind, Except.bind]

theorem ITiles.fuzz (hS : LawfulSteps S) {outer : RangeInclusive K}
    {ps : List (RangeInclusive K)} (h : ITiles outer.stop (fun k => keq outer.start k = true) ps)
    (ho : outer.start ≤ outer.stop) (hx : outer.exhausted = false) :
    fuzzTiles S outer ps = .ok () := by
  cases ps with
  | nil => exact h.elim
  | cons p ps =>
    obtain ⟨h1, ⟨q, h2, h3⟩, h4⟩ := ITiles.windows hS h
    have h1 : keq p.start outer.start = true := by rw [keq_iff] at *; exact ⟨h1.2, h1.1⟩
    simp [fuzzTiles, RangeInclusive.isEmpty, ho, hx, h1, h2, h3, h4, bind, Except.bind]

/-- Tiling does not see which of two equal keys a piece is made of. -/
theorem ITiles.replace {b : K} {F G : K → Prop} {P : List (RangeInclusive K × RangeInclusive K)}
    (h : ITiles b F (P.map (·.1)))
    (hP : ∀ x ∈ P, keq x.1.start x.2.start = true ∧ keq x.1.stop x.2.stop = true)
    (hFG : ∀ k k', keq k k' = true → F k → G k') : ITiles b G (P.map (·.2)) := by
  induction P generalizing F G with
  | nil => exact h
  | cons x P ih =>
    obtain ⟨h1, h2, h3⟩ := h
    have hx := hP x (by simp)
    have hG := hFG _ _ hx.1 h1
    simp only [keq_iff] at hx
    refine ⟨hG, by grind, ?_⟩
    rcases h3 with ⟨h3, h4⟩ | h3
    · exact .inl ⟨by simpa using h3, by grind⟩
    · refine .inr (ih h3 (fun y hy => hP y (by simp [hy])) fun k k' hk hn => ?_)
      rw [keq_iff] at hk
      refine ⟨by have := hn.1; grind, fun d hd => ?_⟩
      have := hn.2 d (by grind)
      grind

theorem fuzzApply_ok [PartialEquivBEq V] (hS : LawfulSteps S) {m : RangeInclusiveMap K V}
    (hm : ReachableAny S m) (op : FuzzOp (RangeInclusive K) V)
    (hr : op.range.start ≤ op.range.stop) :
    ∃ m', m.fuzzApply S op = .ok m' ∧ ReachableAny S m' := by
  have hsc := hm.sc hS
  cases op with
  | insert r v =>
    obtain ⟨m', h1, _⟩ := insert_ok hS hsc (r := r) v hr
    refine ⟨m', h1, ?_⟩
    have := hm.apply (.insert r v)
    simpa [RangeInclusiveMap.apply, h1] using this
  | remove r =>
    obtain ⟨m', h1, _⟩ := remove_spec hS hsc hr
    have h1 : m.remove S r = .ok m' := h1 _ (Nat.le_refl _)
    refine ⟨m', h1, ?_⟩
    have := hm.apply (.remove r)
    simpa [RangeInclusiveMap.apply, h1] using this

theorem fuzzRun_ok [PartialEquivBEq V] (hS : LawfulSteps S)
    (ops : List (FuzzOp (RangeInclusive K) V)) (hv : ∀ op ∈ ops, op.range.start ≤ op.range.stop)
    {m : RangeInclusiveMap K V} (hm : ReachableAny S m) :
    ∃ m', ops.foldlM (fuzzApply S) m = .ok m' ∧ ReachableAny S m' := by
  induction ops generalizing m with
  | nil => exact ⟨m, rfl, hm⟩
  | cons op ops ih =>
    obtain ⟨m', h1, h2⟩ := fuzzApply_ok hS hm op (hv op (by simp))
    obtain ⟨m'', h3, h4⟩ := ih (fun o ho => hv o (by simp [ho])) h2
    exact ⟨m'', by simp [List.foldlM_cons, h1, h3, bind, Except.bind], h4⟩

theorem fuzzPeek_ok (hS : LawfulSteps S) {l : List (RangeInclusive K × V)} (hsep : Sep l)
    (h : ∀ a ∈ l, ∀ b ∈ l, Next a.1.stop b.1.start → (a.2 == b.2) = false) :
    fuzzPeek S l = .ok () := by
  induction l with
  | nil => rfl
  | cons a t ih =>
    cases t with
    | nil => rfl
    | cons b t =>
      have hab := h a (by simp) b (by simp)
      have hlt : a.1.stop < b.1.start := ((List.pairwise_cons.1 hsep.pw).1 b (by simp)).2
      obtain ⟨c, h1, h2⟩ := hS.subOne _ _ hlt
      simp only [fuzzPeek, h1, bind, Except.bind]
      rw [if_neg]
      · exact ih ⟨hsep.pw.tail, fun x hx => hsep.ne x (by simp [hx])⟩
          fun x hx y hy => h x (by simp [hx]) y (by simp [hy])
      · intro hc
        simp only [Bool.and_eq_true, keq_iff] at hc
        have hn : Next a.1.stop b.1.start := ⟨hlt, fun d hd => h2.2 d (by grind)⟩
        simp [hab hn] at hc

end Verif.RangeInclusiveMap

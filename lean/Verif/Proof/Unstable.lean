import Verif.Proof.NeMap
import Verif.Model.Unstable

/-!
# `RangeMap::insert` with comparisons that may change their answer

At a step answered `true` the code does what it does with the `==` "was ever answered `true`"; at
    a step
answered `false` it does what it does with the `==` that is never true.  So `Proof/Weak.lean`
    applies
step by step.
-/
set_option linter.unusedSectionVars false
set_option linter.unusedVariables false

namespace Verif.RangeMap.Unstable
open Spec (Answers)
open Verif.RangeMap.Weak (never never_per wf_never)
variable {K : Type} [LE K] [LT K] [DecidableLE K] [DecidableLT K]
  [Std.IsLinearPreorder K] [Std.LawfulOrderLT K] {V : Type}

/-- The `==` that holds if it is ever answered `true`. -/
noncomputable def ever (A : Answers V) : BEq V :=
  ⟨fun a b => @decide (A.everEq a b) (Classical.propDecidable _)⟩

theorem ever_iff {A : Answers V} {a b : V} : @BEq.beq V (ever A) a b = true ↔ A.everEq a b :=
  @decide_eq_true_iff _ (Classical.propDecidable _)

theorem linked_iff {A : Answers V} {a b : Option V} :
    Spec.Linked A.everEq a b ↔ @Spec.Chained V (ever A) a b := by
  have key : ∀ a b, Spec.Path A.everEq a b ↔ @Spec.Chain V (ever A) a b := by
    intro a b
    constructor
    · intro h
      induction h with
      | refl => exact @Spec.Chain.refl V (ever A) a
      | step _ h ih => exact @Spec.Chain.step V (ever A) a _ _ ih (ever_iff.2 h)
    · intro h
      induction h with
      | refl => exact .refl
      | step _ h ih => exact .step ih (ever_iff.1 h)
  cases a <;> cases b <;> simp only [Spec.Linked, Spec.Chained]
  exact key _ _

/-- Invariant of `insert` of `r ↦ v` into `m0`; `m` is the current tree and `n` the (grown) new
range. -/
structure Inv (A : Answers V) (m0 : List (Range K × V)) (r : Range K) (v : V)
    (m : List (Range K × V)) (n : Range K) : Prop where
  sep : Sep m
  ns : n.start ≤ r.start
  ne : r.stop ≤ n.stop
  out : ∀ k, ¬ (n.start ≤ k ∧ k < n.stop) → ∀ w, Maps m k w ↔ Maps m0 k w
  ado : ∀ k, n.start ≤ k → k < n.stop → ¬ (r.start ≤ k ∧ k < r.stop) →
    ∃ w, Maps m0 k w ∧ A.everEq w v

theorem inv_iff {A : Answers V} {m0 m : List (Range K × V)} {r n : Range K} {v : V} :
    Inv A m0 r v m n ↔ @Weak.IInv K _ _ V (ever A) m0 r v m n := by
  letI := ever A
  constructor
  · intro h
    exact ⟨h.sep, h.ns, h.ne, h.out, fun k h1 h2 h3 =>
      (h.ado k h1 h2 h3).imp fun w hw => ⟨hw.1, ever_iff.2 hw.2⟩⟩
  · intro h
    exact ⟨h.sep, h.ns, h.ne, h.out, fun k h1 h2 h3 =>
      (h.ado k h1 h2 h3).imp fun w hw => ⟨hw.1, ever_iff.1 hw.2⟩⟩

theorem adjustU_eq (A : Answers V) (i : Nat) (B : BEq V) (m : List (Range K × V)) (s : Range K)
    (sv : V) (n : Range K) (v : V) (h : (sv == v) = A.eq i sv v) :
    adjustTouchingRangesForInsertU A i m s sv n v =
      (i + 1, (adjustTouchingRangesForInsert m s sv n v).1,
        (adjustTouchingRangesForInsert m s sv n v).2) := by
  unfold adjustTouchingRangesForInsertU adjustTouchingRangesForInsert
  rw [h]
  split
  · rfl
  · split <;> rfl

theorem Inv.of_never {A : Answers V} {m0 m : List (Range K × V)} {r n n' : Range K} {v : V}
    {m' : List (Range K × V)} (h : Inv A m0 r v m n) (hn : n' = n)
    (h' : @Weak.IInv K _ _ V (never V) m n v m' n') : Inv A m0 r v m' n' := by
  subst hn
  letI := never V
  exact ⟨h'.sep, h.ns, h.ne, fun k hk w => (h'.out k hk w).trans (h.out k hk w), h.ado⟩

theorem adjustU_spec {A : Answers V} {i : Nat} {m0 m : List (Range K × V)} {r n : Range K} {v : V}
    (hr : r.start < r.stop) (h : Inv A m0 r v m n) {x : Range K × V} (hx : x ∈ m)
    (ht1 : x.1.start ≤ n.stop) (ht2 : n.start ≤ x.1.stop)
    {i' : Nat} {m' : List (Range K × V)} {n' : Range K}
    (heq : adjustTouchingRangesForInsertU A i m x.1 x.2 n v = (i', m', n')) :
    i' = i + 1 ∧ Inv A m0 r v m' n' ∧
    ((A.eq i x.2 v = true ∧ n'.start = rmin n.start x.1.start ∧ n'.stop = rmax n.stop x.1.stop ∧
        (∀ y, y ∈ m' ↔ y ∈ m ∧ y ≠ x) ∧ m'.length + 1 = m.length) ∨
     (A.eq i x.2 v = false ∧ x.1.start < n.stop ∧ n.start < x.1.stop ∧ n' = n ∧
        (∀ y, y ∈ m' ↔ (y ∈ m ∧ y ≠ x) ∨
          (x.1.start < n.start ∧ y = (⟨x.1.start, n.start⟩, x.2)) ∨
          (n.stop < x.1.stop ∧ y = (⟨n.stop, x.1.stop⟩, x.2))) ∧
        m'.length + 1 = m.length + (if x.1.start < n.start then 1 else 0) +
          (if n.stop < x.1.stop then 1 else 0)) ∨
     (A.eq i x.2 v = false ∧ ¬ (x.1.start < n.stop ∧ n.start < x.1.stop) ∧ n' = n ∧ m' = m)) := by
  have hnn : n.start < n.stop := by have := h.ns; have := h.ne; grind
  cases hb : A.eq i x.2 v with
  | true =>
    have hv : @BEq.beq V (ever A) x.2 v = true := ever_iff.2 ⟨i, hb⟩
    rw [@adjustU_eq K _ _ _ _ _ _ V A i (ever A) _ _ _ _ _ (by rw [hv, hb])] at heq
    simp only [Prod.mk.injEq] at heq
    obtain ⟨rfl, h1, h2⟩ := heq
    have := @Weak.adjustInsert_spec K _ _ _ _ _ _ V (ever A) m0 m r n v hr (inv_iff.1 h) x hx ht1
      ht2 m' n'
      (Prod.ext h1 h2)
    refine ⟨rfl, inv_iff.2 this.1, ?_⟩
    simpa [hv] using this.2
  | false =>
    have hv : @BEq.beq V (never V) x.2 v = false := rfl
    rw [@adjustU_eq K _ _ _ _ _ _ V A i (never V) _ _ _ _ _ (by rw [hv, hb])] at heq
    simp only [Prod.mk.injEq] at heq
    obtain ⟨rfl, h1, h2⟩ := heq
    have := @Weak.adjustInsert_spec K _ _ _ _ _ _ V (never V) m m n n v hnn
      (@Weak.IInv.refl K _ _ _ _ _ _ V (never V) m n v h.sep) x hx ht1 ht2 m' n' (Prod.ext h1 h2)
    obtain ⟨hi, hc⟩ := this
    simp only [hv, Bool.false_eq_true, false_and, true_and, false_or] at hc ⊢
    exact ⟨Inv.of_never h (by rcases hc with ⟨_, _, h, _⟩ | ⟨_, h, _⟩ <;> exact h) hi, hc⟩

theorem insertPrefixU_eq (A : Answers V) (i : Nat) (m : List (Range K × V)) (r : Range K) (v : V) :
    ∃ (i' : Nat) (B : BEq V), i ≤ i' ∧ (B = ever A ∨ B = never V) ∧
      insertPrefixU A i m r v = (insertPrefix m r v).map fun p => (i', p.1, p.2) := by
  have key : ∀ c : Range K × V, ∃ B : BEq V, (B = ever A ∨ B = never V) ∧
      adjustTouchingRangesForInsertU A i m c.1 c.2 r v =
      (i + 1, (adjustTouchingRangesForInsert m c.1 c.2 r v).1,
        (adjustTouchingRangesForInsert m c.1 c.2 r v).2) := by
    intro c
    cases hb : A.eq i c.2 v with
    | true =>
      refine ⟨ever A, .inl rfl, @adjustU_eq K _ _ _ _ _ _ V A i (ever A) _ _ _ _ _ ?_⟩
      rw [hb]; exact ever_iff.2 ⟨i, hb⟩
    | false =>
      refine ⟨never V, .inr rfl, @adjustU_eq K _ _ _ _ _ _ V A i (never V) _ _ _ _ _ ?_⟩
      rw [hb]; rfl
  unfold insertPrefixU insertPrefix
  rw [BTreeMap.range_ok rfl]
  simp only [bind, Except.bind, pure, Except.pure]
  split
  · exact ⟨i, never V, Nat.le_refl _, .inr rfl, by simp [Except.map, *]⟩
  · rename_i c hc
    obtain ⟨B, h1, h2⟩ := key c
    exact ⟨i + 1, B, by omega, h1, by simp only [hc, h2]; rfl⟩
  · rename_i d c t hc
    obtain ⟨B, h1, h2⟩ := key c
    exact ⟨i + 1, B, by omega, h1, by simp only [hc, h2]; rfl⟩

theorem insertPrefixU_spec (A : Answers V) (i : Nat) {m : List (Range K × V)} {r : Range K} {v : V}
    (hr : r.start < r.stop) (hs : Sep m) :
    ∃ i' m' n', insertPrefixU A i m r v = .ok (i', m', n') ∧ i ≤ i' ∧ Inv A m r v m' n' ∧
      Weak.LeftOk v m' n' ∧ m'.length ≤ m.length + 1 := by
  obtain ⟨i', B, hi, hB, h⟩ := insertPrefixU_eq A i m r v
  obtain ⟨m', n', h1, h2, h3, h4⟩ := @Weak.insertPrefix_spec K _ _ _ _ _ _ V B m r v hr hs
  refine ⟨i', m', n', by rw [h, h1]; rfl, hi, ?_, h3, h4⟩
  rcases hB with rfl | rfl
  · exact inv_iff.2 h2
  · letI := never V
    refine ⟨h2.sep, h2.ns, h2.ne, h2.out, fun k h1 h3 h4 => ?_⟩
    obtain ⟨w, _, hw⟩ := h2.ado k h1 h3 h4
    cases hw

theorem insertLoopU_unfold (A : Answers V) (hi : K) (v : V) (f i : Nat) (m : List (Range K × V))
    (n : Range K) (h : n.start ≤ hi) : insertLoopU A hi v (f + 1) i m n =
      match (m.filter fun e => decide (n.start ≤ e.1.start) && decide (e.1.start ≤ hi)).head? with
      | none => .ok (i, m, n)
      | some x =>
        if keq x.1.start n.stop = true ∧ A.ne i x.2 v = true then .ok (i + 1, m, n)
        else
          let p := adjustTouchingRangesForInsertU A (if keq x.1.start n.stop then i + 1 else i) m
            x.1 x.2 n v
          insertLoopU A hi v f p.1 p.2.1 p.2.2 := by
  conv => lhs; unfold insertLoopU
  rw [BTreeMap.range_ok (by simp only [Bound.invalid]; grind)]
  simp only [bind, Except.bind, pure, Except.pure, Bound.admitsAsLower, Bound.admitsAsUpper]
  generalize (m.filter fun e => decide (n.start ≤ e.1.start) && decide (e.1.start ≤ hi)).head? = o
  cases o with
  | none => rfl
  | some x =>
    by_cases h1 : keq x.1.start n.stop = true
    · by_cases h2 : A.ne i x.2 v = true <;> simp [h1, h2]
    · simp [h1]

/-- The loop is through: whatever starts in or after the new range is beyond it. -/
def Done (m : List (Range K × V)) (n : Range K) : Prop :=
  ∀ y ∈ m, n.start ≤ y.1.start → n.stop ≤ y.1.start

/-- One iteration of the loop. -/
theorem step_spec {A : Answers V} {m0 : List (Range K × V)} {r : Range K} {v : V} {hi : K}
    (hr : r.start < r.stop) {i : Nat} {m : List (Range K × V)} {n : Range K}
    (hinv : Inv A m0 r v m n) (hleft : Weak.LeftOk v m n) (hright : Weak.RightOk hi v m n)
    (hhi : r.stop ≤ hi) :
    (Done m n ∧ ∃ i', ∀ f, insertLoopU A hi v (f + 1) i m n = .ok (i', m, n)) ∨
    ∃ i' m' n', (∀ f, insertLoopU A hi v (f + 1) i m n = insertLoopU A hi v f i' m' n') ∧ i < i' ∧
      Inv A m0 r v m' n' ∧ Weak.LeftOk v m' n' ∧ Weak.RightOk hi v m' n' ∧
      (m'.length < m.length ∨ (¬ Done m n ∧ Done m' n' ∧ m'.length = m.length) ∨
        (m' = m ∧ n' = n ∧ i' = i + 2 ∧ ∃ a, A.ne i a v = false ∧ A.eq (i + 1) a v = false)) ∧
      (Done m n → Done m' n' ∧ m'.length ≤ m.length) := by
  have hns := hinv.ns
  have hne := hinv.ne
  have hn : n.start ≤ hi := by grind
  simp only [fun f => insertLoopU_unfold A hi v f i m n hn]
  cases hh : (m.filter fun e =>
      decide (n.start ≤ e.1.start) && decide (e.1.start ≤ hi)).head? with
  | none =>
    refine .inl ⟨?_, i, fun _ => rfl⟩
    rw [BTreeMap.head?_filter_eq_none] at hh
    intro y hy hy'
    have := hh y hy
    have := hright.2 y hy
    grind
  | some x =>
    obtain ⟨hx, hp, hfirst⟩ := BTreeMap.head?_filter_eq_some hinv.sep.pw hh
    simp only [Bool.and_eq_true, decide_eq_true_eq] at hp
    have hnx := hinv.sep.ne x hx
    have htri := hinv.sep.tri x hx
    by_cases hbr : keq x.1.start n.stop = true ∧ A.ne i x.2 v = true
    · refine .inl ⟨?_, i + 1, fun _ => by simp only [hbr, and_self, if_true]⟩
      intro y hy hy'
      have := hfirst y hy
      have := hright.2 y hy
      have := hright.1
      simp only [keq, Bool.and_eq_true, decide_eq_true_eq] at hbr
      grind [Before]
    · refine .inr ?_
      simp only [hbr, if_false]
      have hle : x.1.start ≤ n.stop := by have := hright.1; grind
      have hge : n.start ≤ x.1.stop := by grind
      generalize hj : (if keq x.1.start n.stop = true then i + 1 else i) = j
      generalize hadj : adjustTouchingRangesForInsertU A j m x.1 x.2 n v = p at *
      obtain ⟨i1, m1, n1⟩ := p
      obtain ⟨rfl, ha1, ha2⟩ := adjustU_spec hr hinv hx hle hge hadj
      have hij : i ≤ j := by grind
      refine ⟨j + 1, m1, n1, fun _ => rfl, by omega, ha1, ?_⟩
      rcases ha2 with ⟨hv, e1, e2, hm, hl⟩ | ⟨hv, e1, e2, hn', hm, hl⟩ | ⟨hv, e1, hn', hm⟩
      · refine ⟨?_, ?_, Or.inl (by omega), ?_⟩
        · intro y hy hlt
          rw [hm] at hy
          have := hleft y hy.1
          simp only [e1, rmin] at hlt ⊢
          grind
        · refine ⟨?_, ?_⟩
          · rw [e2, le_rmax]; exact Or.inl hright.1
          · intro y hy hlt
            rw [hm] at hy
            have h1 := hright.2 y hy.1 hlt
            have h2 := htri y hy.1
            have h4 := hinv.sep.ne y hy.1
            simp only [e2, rmax]
            grind
        · intro hd
          refine ⟨?_, by omega⟩
          intro y hy hy'
          rw [hm] at hy
          have h2 := htri y hy.1
          have h3 := hd y hy.1
          have h4 := hinv.sep.ne y hy.1
          have h5 := hfirst y hy.1
          have h6 := hd x hx
          simp only [e1, e2, rmin, rmax] at hy' ⊢
          have := hright.1
          grind [Before]
      · subst hn'
        rw [if_neg (by grind)] at hl
        refine ⟨?_, ?_, ?_, ?_⟩
        · intro y hy hlt
          have := hleft y
          rw [hm] at hy
          grind
        · refine ⟨hright.1, ?_⟩
          intro y hy hlt
          have := hright.2 y
          rw [hm] at hy
          grind
        · by_cases hxr : n1.stop < x.1.stop
          · right; left
            refine ⟨fun hd => ?_, ?_⟩
            · have := hd x hx hp.1
              grind
            · refine ⟨?_, by rw [if_pos hxr] at hl; omega⟩
              intro y hy hy'
              have := hright.1
              have := hfirst y
              have := hright.2 y
              rw [hm] at hy
              grind [Before]
          · left
            rw [if_neg hxr] at hl
            omega
        · intro hd
          have := hd x hx hp.1
          grind
      · subst hn' hm
        refine ⟨hleft, hright, .inr (.inr ⟨rfl, rfl, ?_, x.2, ?_⟩), fun h => ⟨h, Nat.le_refl _⟩⟩
        · have : keq x.1.start n1.stop = true := keq_iff.2 (by grind)
          grind
        · have : keq x.1.start n1.stop = true := keq_iff.2 (by grind)
          simp only [this, if_true, true_and, Bool.not_eq_true] at hj hbr
          subst hj
          exact ⟨hbr, hv⟩

/-- Partial correctness of the loop. -/
theorem insertLoopU_spec {A : Answers V} {m0 : List (Range K × V)} {r : Range K} {v : V} {hi : K}
    (hr : r.start < r.stop) (hhi : r.stop ≤ hi) (fuel : Nat) :
    ∀ (i : Nat) (m : List (Range K × V)) (n : Range K), Inv A m0 r v m n → Weak.LeftOk v m n →
      Weak.RightOk hi v m n →
      insertLoopU A hi v fuel i m n = .error .diverge ∨
      ∃ i' m' n', insertLoopU A hi v fuel i m n = .ok (i', m', n') ∧ 
        Inv A m0 r v m' n' ∧ Weak.LeftOk v m' n' ∧ Done m' n' := by
  induction fuel with
  | zero => intro i m n _ _ _; exact .inl rfl
  | succ f ih =>
    intro i m n h1 h2 h3
    rcases step_spec hr h1 h2 h3 hhi (i := i) with ⟨hd, i', h⟩ | ⟨i', m', n', h, _, h4, h5, h6, _⟩
    · exact .inr ⟨i', m, n, h f, h1, h2, hd⟩
    · rw [h f]
      exact ih i' m' n' h4 h5 h6

/-- More fuel does not change the outcome. -/
theorem insertLoopU_mono (A : Answers V) (hi : K) (v : V) (fuel : Nat) :
    ∀ (i : Nat) (m : List (Range K × V)) (n : Range K) (fuel' : Nat), fuel ≤ fuel' →
      insertLoopU A hi v fuel i m n ≠ .error .diverge →
      insertLoopU A hi v fuel' i m n = insertLoopU A hi v fuel i m n := by
  induction fuel with
  | zero => intro i m n _ _ h; exact absurd rfl h
  | succ f ih =>
    intro i m n fuel' hf h
    obtain ⟨f', rfl⟩ : ∃ f', fuel' = f' + 1 := ⟨fuel' - 1, by omega⟩
    unfold insertLoopU at h ⊢
    cases hr : BTreeMap.range Range.start (.included n.start) (.included hi) m with
    | error p => rfl
    | ok l =>
      simp only [hr, bind, Except.bind, pure, Except.pure] at h ⊢
      split
      · rfl
      · rename_i x xv hx
        simp only [hx] at h
        split
        · rename_i h1
          rw [if_pos h1] at h
          split
          · rfl
          · rename_i h2
            rw [if_neg h2] at h
            exact ih _ _ _ _ (by omega) h
        · rename_i h1
          rw [if_neg h1] at h
          exact ih _ _ _ _ (by omega) h

/-- When nothing overlaps any more, the loop ends soon after the answers settle. -/
theorem late {A : Answers V} {N : Nat} (hA : A.SettledFrom N) {m0 : List (Range K × V)}
    {r : Range K}
    {v : V} {hi : K} (hr : r.start < r.stop) (hhi : r.stop ≤ hi) (s : Nat) :
    ∀ (i : Nat) (m : List (Range K × V)) (n : Range K), Inv A m0 r v m n → Weak.LeftOk v m n →
      Weak.RightOk hi v m n → Done m n → m.length + (N - i) ≤ s →
      ∀ fuel, s + 1 ≤ fuel → insertLoopU A hi v fuel i m n ≠ .error .diverge := by
  induction s with
  | zero =>
    intro i m n h1 h2 h3 hd hs fuel hf
    obtain ⟨f, rfl⟩ : ∃ f, fuel = f + 1 := ⟨fuel - 1, by omega⟩
    rcases step_spec hr h1 h2 h3 hhi (i := i) with ⟨_, i', h⟩ |
      ⟨i', m', n', h, hi', h4, h5, h6, h7, h8⟩
    · rw [h f]; simp
    · exfalso
      rcases h7 with h7 | h7 | ⟨rfl, rfl, rfl, a, ha, hb⟩
      · omega
      · exact h7.1 hd
      · have := hA i (by omega) a v ha
        simp [hb] at this
  | succ s ih =>
    intro i m n h1 h2 h3 hd hs fuel hf
    obtain ⟨f, rfl⟩ : ∃ f, fuel = f + 1 := ⟨fuel - 1, by omega⟩
    rcases step_spec hr h1 h2 h3 hhi (i := i) with ⟨_, i', h⟩ |
      ⟨i', m', n', h, hi', h4, h5, h6, h7, h8⟩
    · rw [h f]; simp
    · rw [h f]
      refine ih i' m' n' h4 h5 h6 (h8 hd).1 ?_ f (by omega)
      rcases h7 with h7 | h7 | ⟨rfl, rfl, rfl, a, ha, hb⟩
      · omega
      · exact absurd hd h7.1
      · have : ¬ N ≤ i := by
          intro hN
          have := hA i hN a v ha
          simp [hb] at this
        omega

theorem insertLoopU_returns {A : Answers V} {N : Nat} (hA : A.SettledFrom N)
    {m0 : List (Range K × V)} {r : Range K}
    {v : V} {hi : K} (hr : r.start < r.stop) (hhi : r.stop ≤ hi) (s : Nat) :
    ∀ (i : Nat) (m : List (Range K × V)) (n : Range K), Inv A m0 r v m n → Weak.LeftOk v m n →
      Weak.RightOk hi v m n → m.length + (N - i) ≤ s →
      ∀ fuel, s + 2 ≤ fuel → insertLoopU A hi v fuel i m n ≠ .error .diverge := by
  induction s with
  | zero =>
    intro i m n h1 h2 h3 hs
    have hm : m = [] := List.eq_nil_of_length_eq_zero (by omega)
    intro fuel hf
    exact late hA hr hhi 0 i m n h1 h2 h3 (by simp [hm, Done]) hs fuel (by omega)
  | succ s ih =>
    intro i m n h1 h2 h3 hs fuel hf
    obtain ⟨f, rfl⟩ : ∃ f, fuel = f + 1 := ⟨fuel - 1, by omega⟩
    rcases step_spec hr h1 h2 h3 hhi (i := i) with ⟨_, i', h⟩ |
      ⟨i', m', n', h, hi', h4, h5, h6, h7, h8⟩
    · rw [h f]; simp
    · rw [h f]
      rcases h7 with h7 | ⟨_, h7, h7'⟩ | ⟨rfl, rfl, rfl, a, ha, hb⟩
      · exact ih i' m' n' h4 h5 h6 (by omega) f (by omega)
      · exact late hA hr hhi (s + 1) i' m' n' h4 h5 h6 h7 (by omega) f (by omega)
      · have : ¬ N ≤ i := by
          intro hN
          have := hA i hN a v ha
          simp [hb] at this
        exact ih _ _ _ h4 h5 h6 (by omega) f (by omega)

theorem insertFuelU_invalid (A : Answers V) (fuel i : Nat) {m : RangeMap K V} {r : Range K} {v : V}
    (hr : ¬ r.start < r.stop) : m.insertFuelU A fuel i r v = .error .assertFailed := by
  simp [insertFuelU, hr, bind, Except.bind, throw, throwThe, MonadExceptOf.throw]

theorem insertFuelU_spec (A : Answers V) (fuel i : Nat) {m : RangeMap K V} (h : Sep m.btm)
    {r : Range K} (v : V) (hr : r.start < r.stop) :
    m.insertFuelU A fuel i r v = .error .diverge ∨
    ∃ i', ∃ m' : RangeMap K V, m.insertFuelU A fuel i r v = .ok (i', m') ∧ Sep m'.btm ∧
      ∃ n : Range K, n.start ≤ r.start ∧ r.stop ≤ n.stop ∧
        (∀ k, n.start ≤ k → k < n.stop → ¬ (r.start ≤ k ∧ k < r.stop) →
          ∃ w, Maps m.btm k w ∧ A.everEq w v) ∧
        (∀ k, n.start ≤ k → k < n.stop → ∀ w, Maps m'.btm k w ↔ w = v) ∧
        (∀ k, ¬ (n.start ≤ k ∧ k < n.stop) → ∀ w, Maps m'.btm k w ↔ Maps m.btm k w) := by
  obtain ⟨i1, m1, n1, hp, hi1, hv1, hl1, hlen1⟩ := insertPrefixU_spec A i (v := v) hr h
  have hr1 : Weak.RightOk n1.stop v m1 n1 := ⟨by grind, by grind⟩
  rcases insertLoopU_spec hr hv1.ne fuel i1 m1 n1 hv1 hl1 hr1 with hloop |
    ⟨i2, m2, n2, hloop, hi2, hl2, hd2⟩
  · left
    unfold insertFuelU
    simp [hr, hp, hloop, bind, Except.bind, pure, Except.pure]
  right
  have hns := hi2.ns
  have hne := hi2.ne
  have hfit : Fits m2 n2 := by
    refine ⟨by grind, ?_⟩
    intro e he
    have := hl2 e he
    have := hd2 e he
    grind
  have em := hi2.sep.mem_insert hfit v
  refine ⟨i2, ⟨BTreeMap.insert Range.start n2 v m2⟩, ?_, hi2.sep.insert hfit v, n2, hns, hne,
    hi2.ado, ?_, ?_⟩
  · unfold insertFuelU
    simp [hr, hp, hloop, bind, Except.bind, pure, Except.pure]
  · intro k hk1 hk2 w
    simp only [Maps]
    constructor
    · rintro ⟨e, he, h1, h2, h3⟩
      rw [em] at he
      rcases he with rfl | he
      · exact h3.symm
      · have := hfit.2 e he
        exfalso
        grind
    · rintro rfl
      exact ⟨(n2, w), by rw [em]; grind, hk1, hk2, rfl⟩
  · intro k hk w
    rw [← hi2.out k hk]
    simp only [Maps]
    constructor
    · rintro ⟨e, he, h1, h2, h3⟩
      rw [em] at he
      rcases he with rfl | he
      · exact absurd ⟨h1, h2⟩ hk
      · exact ⟨e, he, h1, h2, h3⟩
    · rintro ⟨e, he, h1, h2, h3⟩
      exact ⟨e, by rw [em]; grind, h1, h2, h3⟩

theorem insertFuelU_mono (A : Answers V) (fuel i : Nat) (m : RangeMap K V) (r : Range K) (v : V)
    (fuel' : Nat) (hf : fuel ≤ fuel') (h : m.insertFuelU A fuel i r v ≠ .error .diverge) :
    m.insertFuelU A fuel' i r v = m.insertFuelU A fuel i r v := by
  unfold insertFuelU at h ⊢
  by_cases hr : r.start < r.stop
  · cases hp : insertPrefixU A i m.btm r v with
    | error p => simp [hr, bind, Except.bind, pure, Except.pure]
    | ok p =>
      have : insertLoopU A p.2.2.stop v fuel p.1 p.2.1 p.2.2 ≠ .error .diverge := by
        intro h1
        simp [hr, hp, h1, bind, Except.bind, pure, Except.pure] at h
      simp [hr, bind, Except.bind, pure, Except.pure,
        insertLoopU_mono A _ v fuel p.1 p.2.1 p.2.2 fuel' hf this]
  · simp [hr, bind, Except.bind, throw, throwThe, MonadExceptOf.throw]

theorem insertFuelU_returns {A : Answers V} {N : Nat} (hA : A.SettledFrom N) (i : Nat)
    {m : RangeMap K V} (h : Sep m.btm) (r : Range K) (v : V)
    (fuel : Nat) (hf : m.len + (N - i) + 3 ≤ fuel) :
    m.insertFuelU A fuel i r v ≠ .error .diverge := by
  by_cases hr : r.start < r.stop
  · obtain ⟨i1, m1, n1, hp, hi1, hv1, hl1, hlen1⟩ := insertPrefixU_spec A i (v := v) hr h
    have hr1 : Weak.RightOk n1.stop v m1 n1 := ⟨by grind, by grind⟩
    have := insertLoopU_returns hA hr hv1.ne (m1.length + (N - i1)) i1 m1 n1 hv1 hl1 hr1
      (Nat.le_refl _) fuel (by simp only [len] at hf; omega)
    unfold insertFuelU
    simp only [hr, hp, not_true, if_false, bind, Except.bind, pure, Except.pure]
    intro h1
    apply this
    split at h1
    · rename_i p hp'
      simp only [Except.error.injEq] at h1
      rw [hp', h1]
    · simp at h1
  · rw [insertFuelU_invalid A fuel i hr]
    simp

/-- `insert` on the abstract contents. -/
theorem insert_look {A : Answers V} {fuel i i' : Nat} {m m' : RangeMap K V} (h : Sep m.btm)
    {r : Range K} {v : V} (hr : r.start < r.stop) (hi : m.insertFuelU A fuel i r v = .ok (i', m')) :
    Sep m'.btm ∧ ∀ k, @Spec.Chained V (ever A)
      (if r.start ≤ k ∧ k < r.stop then some v else m.look k) (m'.look k) := by
  rcases insertFuelU_spec A fuel i h v hr with hd | ⟨i'', m'', h1, h2, n, h3, h4, h5, h6, h7⟩
  · rw [hd] at hi; cases hi
  rw [hi] at h1
  cases h1
  refine ⟨h2, fun k => ?_⟩
  letI := ever A
  split
  · rename_i hk
    have : m'.look k = some v := by rw [look_eq_some h2, h6 k (by grind) (by grind)]
    rw [this]
    exact Weak.Chained.refl _
  · rename_i hk
    by_cases hkn : n.start ≤ k ∧ k < n.stop
    · obtain ⟨w, hw1, hw2⟩ := h5 k hkn.1 hkn.2 hk
      rw [(look_eq_some h _ _).2 hw1, (look_eq_some h2 k v).2 ((h6 k hkn.1 hkn.2 _).2 rfl)]
      exact .step .refl (ever_iff.2 hw2)
    · have := get_congr h h2 (h7 k hkn)
      rw [get_look h, get_look h2] at this
      simp only [Except.ok.injEq] at this
      rw [this]
      exact Weak.Chained.refl _

theorem extend_look (A : Answers V) (fuel : Nat) {m : RangeMap K V} (h : Sep m.btm) (i : Nat)
    (items : List (Range K × V)) (hd : (extendFuelU A fuel i m items).2.2 ≠ .error .diverge) :
    Sep (extendFuelU A fuel i m items).2.1.btm ∧ ∀ k, @Spec.Chained V (ever A)
      (match (items.takeWhile fun e => Spec.valid e.1).reverse.find? fun e => Spec.covers e.1 k with
      | some e => some e.2
      | none => m.look k) ((extendFuelU A fuel i m items).2.1.look k) := by
  letI := ever A
  induction items generalizing m i with
  | nil => exact ⟨h, fun k => Weak.Chained.refl _⟩
  | cons e t ih =>
    obtain ⟨r, v⟩ := e
    unfold extendFuelU at hd ⊢
    by_cases he : r.start < r.stop
    · cases hi : m.insertFuelU A fuel i r v with
      | error p =>
        rcases insertFuelU_spec A fuel i h v he with h1 | ⟨i'', m'', h1, _⟩
        · simp [h1] at hd
        · simp [h1] at hi
      | ok p =>
        obtain ⟨i', m'⟩ := p
        simp only [hi] at hd ⊢
        obtain ⟨hs, hl⟩ := insert_look h he hi
        obtain ⟨ih1, ih2⟩ := ih hs i' hd
        refine ⟨ih1, fun k => ?_⟩
        have := ih2 k
        simp only [List.takeWhile_cons, Spec.valid, he, decide_true, if_true, List.reverse_cons,
          List.find?_append]
        simp only [Spec.valid] at this
        cases hf : (t.takeWhile fun e => decide (e.1.start < e.1.stop)).reverse.find?
            fun e => Spec.covers e.1 k with
        | some e => simp only [hf] at this; simpa using this
        | none =>
          simp only [hf] at this
          refine Weak.Chained.trans ?_ this
          have hi := hl k
          by_cases hk : r.start ≤ k ∧ k < r.stop
          · simp only [hk, and_self, if_true] at hi
            simpa [Spec.covers, hk] using hi
          · rw [if_neg hk] at hi
            simpa [Spec.covers, hk] using hi
    · rw [insertFuelU_invalid A fuel i he]
      refine ⟨h, fun k => ?_⟩
      simp [Spec.valid, he]
      exact Weak.Chained.refl _

theorem apply_look (A : Answers V) (fuel : Nat) {m : RangeMap K V} (h : Sep m.btm) (i : Nat)
    (op : Spec.Op (Range K) V) (hd : (m.applyFuelU A fuel i op).2.2 ≠ .error .diverge) :
    Sep (m.applyFuelU A fuel i op).2.1.btm ∧ ∀ k (ops : List (Spec.Op (Range K) V)),
      @Spec.Chained V (ever A) (Spec.lastWrite Spec.covers Spec.valid ops k) (m.look k) →
      @Spec.Chained V (ever A) (Spec.lastWrite Spec.covers Spec.valid (op :: ops) k)
        ((m.applyFuelU A fuel i op).2.1.look k) := by
  letI := ever A
  cases op with
  | insert r v =>
    simp only [applyFuelU, Spec.lastWrite, Spec.valid, Spec.covers] at hd ⊢
    by_cases hr : r.start < r.stop
    · cases hi : m.insertFuelU A fuel i r v with
      | error p =>
        rcases insertFuelU_spec A fuel i h v hr with h1 | ⟨i'', m'', h1, _⟩
        · simp [h1] at hd
        · simp [h1] at hi
      | ok p =>
        obtain ⟨i', m'⟩ := p
        obtain ⟨hs, hl⟩ := insert_look h hr hi
        refine ⟨hs, fun k ops hm => ?_⟩
        have := hl k
        by_cases hk : r.start ≤ k ∧ k < r.stop
        · simpa [hr, hk] using this
        · rw [if_neg hk] at this
          simpa [hk] using Weak.Chained.trans hm this
    · rw [insertFuelU_invalid A fuel i hr]
      exact ⟨h, fun k ops hm => by simpa [hr] using hm⟩
  | remove r =>
    simp only [applyFuelU, Spec.lastWrite, Spec.valid, Spec.covers]
    by_cases hr : r.start < r.stop
    · obtain ⟨m', h1, h2⟩ := Weak.remove_ok h hr
      simp only [h1]
      refine ⟨h2, fun k ops hm => ?_⟩
      have := Weak.remove_look h hr h1 k
      by_cases hk : r.start ≤ k ∧ k < r.stop
      · simp [hr, hk, this, Spec.Chained]
      · simpa [hk, this] using hm
    · simp only [remove_invalid hr]
      exact ⟨h, fun k ops hm => by simpa [hr] using hm⟩
  | clear =>
    refine ⟨WF.nil.sep, fun k ops hm => ?_⟩
    simp only [applyFuelU, Spec.lastWrite, RangeMap.clear]
    have : (⟨[]⟩ : RangeMap K V).look k = none := by
      rw [look_eq_none (m := ⟨[]⟩) (WF.nil (K := K) (V := V)).sep]
      rintro w ⟨x, hx, _⟩
      simp at hx
    rw [this]
    trivial
  | extend items =>
    simp only [applyFuelU, Spec.lastWrite] at hd ⊢
    obtain ⟨hs, hl⟩ := extend_look A fuel h i items hd
    refine ⟨hs, fun k ops hm => ?_⟩
    have := hl k
    cases hf : (items.takeWhile fun e => Spec.valid e.1).reverse.find?
        fun e => Spec.covers e.1 k with
    | some e => simpa only [hf] using this
    | none =>
      simp only [hf] at this ⊢
      exact Weak.Chained.trans hm this

theorem runs_spec {A : Answers V} {ops : List (Spec.Op (Range K) V)} {i : Nat} {m : RangeMap K V}
    (h : Runs A ops i m) : Sep m.btm ∧ ∀ k,
      @Spec.Chained V (ever A) (Spec.lastWrite Spec.covers Spec.valid ops.reverse k) (m.look k) :=
        by
  letI := ever A
  induction h with
  | new =>
    refine ⟨WF.nil.sep, fun k => ?_⟩
    have : (RangeMap.new : RangeMap K V).look k = none := by
      rw [look_eq_none (m := RangeMap.new) (WF.nil (K := K) (V := V)).sep]
      rintro w ⟨x, hx, _⟩
      simp [RangeMap.new] at hx
    simp [this, Spec.lastWrite, Spec.Chained]
  | other j _ _ ih => exact ih
  | call op fuel _ hd ih =>
    obtain ⟨h1, h2⟩ := apply_look A fuel ih.1 _ op hd
    refine ⟨h1, fun k => ?_⟩
    rw [List.reverse_append]
    exact h2 k _ (ih.2 k)

end Verif.RangeMap.Unstable

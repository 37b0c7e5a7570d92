import Verif.Proof.NeIMap
import Verif.Proof.Unstable

/-!
# `RangeInclusiveMap::insert` with comparisons that may change their answer

As `Proof/Unstable.lean`.
-/
set_option linter.unusedSectionVars false
set_option linter.unusedVariables false

namespace Verif.RangeInclusiveMap.Unstable
open Spec
open RangeMap.Weak (never never_per Chained.refl Chained.trans)
open RangeMap.Unstable (ever ever_iff linked_iff)
variable {K : Type} [LE K] [LT K] [DecidableLE K] [DecidableLT K]
  [Std.IsLinearPreorder K] [Std.LawfulOrderLT K] {V : Type}

/-- Invariant of `insert` of `r ↦ v` into `m0`; `m` is the current tree and `n` the (grown) new
range. -/
structure Inv (A : Answers V) (m0 : List (RangeInclusive K × V)) (r : RangeInclusive K) (v : V)
    (m : List (RangeInclusive K × V)) (n : RangeInclusive K) : Prop where
  sep : Sep m
  fresh : Fresh m0 → Fresh m
  ex : n.exhausted = false ∨ n = r
  ns : n.start ≤ r.start
  ne : r.stop ≤ n.stop
  out : ∀ k, ¬ (n.start ≤ k ∧ k ≤ n.stop) → ∀ w, Maps m k w ↔ Maps m0 k w
  ado : ∀ k, n.start ≤ k → k ≤ n.stop → ¬ (r.start ≤ k ∧ k ≤ r.stop) →
    ∃ w, Maps m0 k w ∧ A.everEq w v

theorem inv_iff {A : Answers V} {m0 m : List (RangeInclusive K × V)} {r n : RangeInclusive K}
    {v : V} : Inv A m0 r v m n ↔ @Weak.IInv K _ _ V (ever A) m0 r v m n := by
  letI := ever A
  constructor
  · intro h
    exact ⟨h.sep, h.fresh, h.ex, h.ns, h.ne, h.out, fun k h1 h2 h3 =>
      (h.ado k h1 h2 h3).imp fun w hw => ⟨hw.1, ever_iff.2 hw.2⟩⟩
  · intro h
    exact ⟨h.sep, h.fresh, h.ex, h.ns, h.ne, h.out, fun k h1 h2 h3 =>
      (h.ado k h1 h2 h3).imp fun w hw => ⟨hw.1, ever_iff.1 hw.2⟩⟩

theorem adjustU_eq (A : Answers V) (S : StepFns K) (i : Nat) (B : BEq V)
    (m : List (RangeInclusive K × V)) (s : RangeInclusive K)
    (sv : V) (n : RangeInclusive K) (v : V) (h : (sv == v) = A.eq i sv v) :
    adjustTouchingRangesForInsertU A S i m s sv n v =
      (adjustTouchingRangesForInsert S m s sv n v).map fun p => (i + 1, p.1, p.2) := by
  unfold adjustTouchingRangesForInsertU adjustTouchingRangesForInsert
  rw [h]
  split
  · rfl
  · split
    · simp only [bind, Except.bind, pure, Except.pure]
      cases insertLeft S (BTreeMap.remove RangeInclusive.start s.start m) s sv n with
      | error p => rfl
      | ok m1 =>
        simp only
        cases insertRight S m1 s sv n <;> rfl
    · rfl

theorem Inv.of_never {A : Answers V} {m0 m : List (RangeInclusive K × V)}
    {r n n' : RangeInclusive K}
    {v : V} {m' : List (RangeInclusive K × V)} (h : Inv A m0 r v m n) (hn : n' = n)
    (h' : @Weak.IInv K _ _ V (never V) m n v m' n') : Inv A m0 r v m' n' := by
  subst hn
  letI := never V
  exact ⟨h'.sep, fun hf => h'.fresh (h.fresh hf), h.ex, h.ns, h.ne,
    fun k hk w => (h'.out k hk w).trans (h.out k hk w), h.ado⟩

theorem adjustU_spec {A : Answers V} {S : StepFns K} (hS : LawfulSteps S) (i : Nat)
    {m0 m : List (RangeInclusive K × V)} {r n : RangeInclusive K} {v : V}
    (hr : r.start ≤ r.stop) (h : Inv A m0 r v m n) {x : RangeInclusive K × V} (hx : x ∈ m)
    (ht1 : x.1.start ≤ n.stop ∨ Next n.stop x.1.start)
    (ht2 : n.start ≤ x.1.stop ∨ Next x.1.stop n.start) :
    ∃ m' n', adjustTouchingRangesForInsertU A S i m x.1 x.2 n v = .ok (i + 1, m', n') ∧
    Inv A m0 r v m' n' ∧
    ((A.eq i x.2 v = true ∧ n'.start = rmin n.start x.1.start ∧ n'.stop = rmax n.stop x.1.stop ∧
        (∀ y, y ∈ m' ↔ y ∈ m ∧ y ≠ x) ∧ m'.length + 1 = m.length) ∨
     (A.eq i x.2 v = false ∧ x.1.start ≤ n.stop ∧ n.start ≤ x.1.stop ∧ n' = n ∧ ∃ p s,
        (x.1.start < n.start → Next p n.start ∧ x.1.start ≤ p) ∧
        (n.stop < x.1.stop → Next n.stop s ∧ s ≤ x.1.stop) ∧
        (∀ y, y ∈ m' ↔ (y ∈ m ∧ y ≠ x) ∨
          (x.1.start < n.start ∧ y = (.mk' x.1.start p, x.2)) ∨
          (n.stop < x.1.stop ∧ y = (.mk' s x.1.stop, x.2))) ∧
        m'.length + 1 = m.length + (if x.1.start < n.start then 1 else 0) +
          (if n.stop < x.1.stop then 1 else 0)) ∨
     (A.eq i x.2 v = false ∧ ¬ (x.1.start ≤ n.stop ∧ n.start ≤ x.1.stop) ∧ n' = n ∧ m' = m)) := by
  have hnn : n.start ≤ n.stop := by have := h.ns; have := h.ne; grind
  cases hb : A.eq i x.2 v with
  | true =>
    have hv : @BEq.beq V (ever A) x.2 v = true := ever_iff.2 ⟨i, hb⟩
    rw [@adjustU_eq K _ _ _ _ _ _ V A S i (ever A) _ _ _ _ _ (by rw [hv, hb])]
    obtain ⟨m', n', h1, h2, h3⟩ := @Weak.adjustInsert_spec K _ _ _ _ _ _ V (ever A) S hS m0 m r n
      v hr
      (inv_iff.1 h) x hx ht1 ht2
    refine ⟨m', n', by rw [h1]; rfl, inv_iff.2 h2, ?_⟩
    simpa [hv] using h3
  | false =>
    have hv : @BEq.beq V (never V) x.2 v = false := rfl
    rw [@adjustU_eq K _ _ _ _ _ _ V A S i (never V) _ _ _ _ _ (by rw [hv, hb])]
    obtain ⟨m', n', h1, h2, h3⟩ := @Weak.adjustInsert_spec K _ _ _ _ _ _ V (never V) S hS m m n n
      v hnn
      (@Weak.IInv.refl K _ _ _ _ _ _ V (never V) m n v h.sep) x hx ht1 ht2
    refine ⟨m', n', by rw [h1]; rfl, ?_⟩
    simp only [hv, Bool.false_eq_true, false_and, true_and, false_or] at h3 ⊢
    refine ⟨Inv.of_never h (by rcases h3 with ⟨_, _, h, _⟩ | ⟨_, h, _⟩ <;> exact h) h2, ?_⟩
    rcases h3 with ⟨a, b, c, p, s, d, e, f, g, _⟩ | h3
    · exact .inl ⟨a, b, c, p, s, d, e, f, g⟩
    · exact .inr h3

theorem insertPrefixU_eq (A : Answers V) (S : StepFns K) (i : Nat) (m : List (RangeInclusive K × V))
    (r : RangeInclusive K) (v : V) :
    ∃ (i' : Nat) (B : BEq V), i ≤ i' ∧ (B = ever A ∨ B = never V) ∧
      insertPrefixU A S i m r v = (insertPrefix S m r v).map fun p => (i', p.1, p.2) := by
  have key : ∀ c : RangeInclusive K × V, ∃ B : BEq V, (B = ever A ∨ B = never V) ∧
      adjustTouchingRangesForInsertU A S i m c.1 c.2 r v =
      (adjustTouchingRangesForInsert S m c.1 c.2 r v).map fun p => (i + 1, p.1, p.2) := by
    intro c
    cases hb : A.eq i c.2 v with
    | true =>
      refine ⟨ever A, .inl rfl, @adjustU_eq K _ _ _ _ _ _ V A S i (ever A) _ _ _ _ _ ?_⟩
      rw [hb]; exact ever_iff.2 ⟨i, hb⟩
    | false =>
      refine ⟨never V, .inr rfl, @adjustU_eq K _ _ _ _ _ _ V A S i (never V) _ _ _ _ _ ?_⟩
      rw [hb]; rfl
  unfold insertPrefixU insertPrefix
  rw [BTreeMap.range_ok rfl]
  simp only [bind, Except.bind, pure, Except.pure]
  cases hc : filterE (fun e : RangeInclusive K × V => e.1.touches S r)
      (List.take 2 (m.filter fun e => Bound.admitsAsLower .unbounded e.1.start &&
        Bound.admitsAsUpper (.included r.start) e.1.start).reverse) with
  | error p => exact ⟨i, never V, Nat.le_refl _, .inr rfl, rfl⟩
  | ok l =>
    simp only
    split
    · exact ⟨i, never V, Nat.le_refl _, .inr rfl, rfl⟩
    · rename_i c
      obtain ⟨B, h1, h2⟩ := key c
      exact ⟨i + 1, B, by omega, h1, h2⟩
    · rename_i d c t
      obtain ⟨B, h1, h2⟩ := key c
      exact ⟨i + 1, B, by omega, h1, h2⟩

theorem insertPrefixU_spec (A : Answers V) {S : StepFns K} (hS : LawfulSteps S) (i : Nat)
    {m : List (RangeInclusive K × V)} {r : RangeInclusive K} {v : V}
    (hr : r.start ≤ r.stop) (hs : Sep m) :
    ∃ i' m' n', insertPrefixU A S i m r v = .ok (i', m', n') ∧ i ≤ i' ∧ Inv A m r v m' n' ∧
      Weak.LeftOk v m' n' ∧ m'.length ≤ m.length + 1 := by
  obtain ⟨i', B, hi, hB, h⟩ := insertPrefixU_eq A S i m r v
  obtain ⟨m', n', h1, h2, h3, h4⟩ := @Weak.insertPrefix_spec K _ _ _ _ _ _ V B S hS m r v hr hs
  refine ⟨i', m', n', by rw [h, h1]; rfl, hi, ?_, h3, h4⟩
  rcases hB with rfl | rfl
  · exact inv_iff.2 h2
  · letI := never V
    refine ⟨h2.sep, h2.fresh, h2.ex, h2.ns, h2.ne, h2.out, fun k h1 h3 h4 => ?_⟩
    obtain ⟨w, _, hw⟩ := h2.ado k h1 h3 h4
    cases hw

theorem breakCondU_spec (A : Answers V) {S : StepFns K} (hS : LawfulSteps S) (hi : K) (v : V)
    (i : Nat)
    (x : RangeInclusive K × V) : ∃ j b, breakCondU A S hi v i x = .ok (j, b) ∧ i ≤ j ∧
      (b = true → hi < x.1.start) ∧
      (b = false → (¬ hi < x.1.start ∧ j = i) ∨
        (Next hi x.1.start ∧ j = i + 1 ∧ A.ne i x.2 v = false)) := by
  unfold breakCondU
  by_cases h : hi < x.1.start
  · obtain ⟨c, hc, hn⟩ := hS.addOne _ _ h
    have hcx := hn.2 _ h
    by_cases hcl : c < x.1.start
    · exact ⟨i, true, by simp [h, hc, hcl, bind, Except.bind, pure, Except.pure], by omega, by
      simp [h],
        by simp⟩
    · have hk : keq x.1.start c = true := by rw [keq_iff]; grind
      have hnx : Next hi x.1.start := ⟨h, fun d hd => by have := hn.2 d hd; grind⟩
      refine ⟨i + 1, A.ne i x.2 v, by simp [h, hc, hcl, hk, bind, Except.bind, pure, Except.pure],
        by omega, fun _ => h, fun hf => .inr ⟨hnx, rfl, hf⟩⟩
  · exact ⟨i, false, by simp [h, pure, Except.pure], by omega, by simp, fun _ => .inl ⟨h, rfl⟩⟩

theorem insertLoopU_unfold (A : Answers V) (S : StepFns K) (hi : K) (v : V) (f i : Nat)
    (m : List (RangeInclusive K × V)) (n : RangeInclusive K) :
    insertLoopU A S hi v (f + 1) i m n =
      match (m.filter fun e => decide (n.start ≤ e.1.start)).head? with
      | none => .ok (i, m, n)
      | some x =>
        (breakCondU A S hi v i x).bind fun q =>
          if q.2 then .ok (q.1, m, n)
          else (adjustTouchingRangesForInsertU A S q.1 m x.1 x.2 n v).bind fun p =>
            insertLoopU A S hi v f p.1 p.2.1 p.2.2 := by
  conv => lhs; unfold insertLoopU
  rw [BTreeMap.range_ok rfl]
  simp only [Bound.admitsAsLower, Bound.admitsAsUpper, Bool.and_true]
  rfl

/-- The loop is through: whatever starts in or after the new range is beyond it. -/
def Done (m : List (RangeInclusive K × V)) (n : RangeInclusive K) : Prop :=
  ∀ y ∈ m, n.start ≤ y.1.start → n.stop < y.1.start

/-- Everything that starts after `hi` is beyond the new range. -/
def RightOk (hi : K) (m : List (RangeInclusive K × V)) (n : RangeInclusive K) : Prop :=
  hi ≤ n.stop ∧ ∀ y ∈ m, hi < y.1.start → n.stop < y.1.start

/-- One iteration of the loop. -/
theorem step_spec {A : Answers V} {S : StepFns K} (hS : LawfulSteps S)
    {m0 : List (RangeInclusive K × V)} {r : RangeInclusive K} {v : V} {hi : K}
    (hr : r.start ≤ r.stop) {i : Nat} {m : List (RangeInclusive K × V)} {n : RangeInclusive K}
    (hinv : Inv A m0 r v m n) (hleft : Weak.LeftOk v m n) (hright : RightOk hi m n)
    (hhi : r.stop ≤ hi) :
    (Done m n ∧ ∃ i', ∀ f, insertLoopU A S hi v (f + 1) i m n = .ok (i', m, n)) ∨
    ∃ i' m' n', (∀ f, insertLoopU A S hi v (f + 1) i m n = insertLoopU A S hi v f i' m' n') ∧ i <
      i' ∧
      Inv A m0 r v m' n' ∧ Weak.LeftOk v m' n' ∧ RightOk hi m' n' ∧
      (m'.length < m.length ∨ (¬ Done m n ∧ Done m' n' ∧ m'.length = m.length) ∨
        (m' = m ∧ n' = n ∧ i' = i + 2 ∧ ∃ a, A.ne i a v = false ∧ A.eq (i + 1) a v = false)) ∧
      (Done m n → Done m' n' ∧ m'.length ≤ m.length) := by
  have hns := hinv.ns
  have hne := hinv.ne
  simp only [fun f => insertLoopU_unfold A S hi v f i m n]
  cases hh : (m.filter fun e => decide (n.start ≤ e.1.start)).head? with
  | none =>
    refine .inl ⟨?_, i, fun _ => rfl⟩
    rw [BTreeMap.head?_filter_eq_none] at hh
    intro y hy hy'
    have := hh y hy
    grind
  | some x =>
    obtain ⟨hx, hp, hfirst⟩ := BTreeMap.head?_filter_eq_some hinv.sep.pw hh
    simp only [decide_eq_true_eq] at hp hfirst
    have hnx := hinv.sep.ne x hx
    have htri := hinv.sep.tri x hx
    obtain ⟨j, b, hb, hij, hbt, hbf⟩ := breakCondU_spec A hS hi v i x
    cases b with
    | true =>
      have hbt := hbt rfl
      refine .inl ⟨?_, j, fun _ => by simp [hb, Except.bind]⟩
      intro y hy hy'
      rcases hfirst y hy hy' with rfl | hxy
      · exact hright.2 y hy hbt
      · exact hright.2 y hy (by grind [Before])
    | false =>
      refine .inr ?_
      have hbf := hbf rfl
      have hle : x.1.start ≤ n.stop ∨ Next n.stop x.1.start := by
        rcases hbf with ⟨h, _⟩ | ⟨h, _⟩
        · left; have := hright.1; grind
        · right
          have h2 := hright.2 x hx h.1
          exact ⟨h2, fun d hd => h.2 d (by have := hright.1; grind)⟩
      obtain ⟨m1, n1, hadj, hinv1, ha⟩ := adjustU_spec hS j hr hinv hx hle (by grind)
      refine ⟨j + 1, m1, n1, fun _ => by simp [hb, hadj, Except.bind], by omega, hinv1, ?_⟩
      rcases ha with ⟨hv, e1, e2, hm, hl⟩ | ⟨hv, e1, e2, hn', p, s, hpp, hss, hm, hl⟩ |
        ⟨hv, e1, hn', hm⟩
      · have hst : n1.start = n.start := by rw [e1]; unfold rmin; rw [if_neg (by grind)]
        refine ⟨?_, ?_, Or.inl (by omega), ?_⟩
        · intro y hy hlt
          rw [hm] at hy
          have := hleft y hy.1
          rw [hst] at hlt ⊢
          exact this hlt
        · refine ⟨?_, ?_⟩
          · rw [e2, le_rmax]; exact Or.inl hright.1
          · intro y hy hlt
            rw [hm] at hy
            have h1 := hright.2 y hy.1 hlt
            have h2 := hfirst y hy.1 (by grind)
            rw [e2, rmax_lt]
            grind [Before]
        · intro hd
          refine ⟨?_, by omega⟩
          intro y hy hy'
          rw [hm] at hy
          rw [hst] at hy'
          have h3 := hd y hy.1 hy'
          have h5 := (hfirst y hy.1 hy').resolve_left hy.2
          rw [e2, rmax_lt]
          exact ⟨h3, h5.2⟩
      · subst hn'
        rw [if_neg (by grind)] at hl
        refine ⟨?_, ?_, ?_, ?_⟩
        · intro y hy hlt
          have := hleft y
          rw [hm] at hy
          rcases hy with hy | ⟨hy, rfl⟩ | ⟨hy, rfl⟩
          · exact this hy.1 hlt
          · exfalso; grind
          · exfalso
            have := (hss hy).1.1
            simp only [RangeInclusive.mk'_start] at hlt
            grind
        · refine ⟨hright.1, ?_⟩
          intro y hy hlt
          have := hright.2 y
          rw [hm] at hy
          rcases hy with hy | ⟨hy, rfl⟩ | ⟨hy, rfl⟩
          · exact this hy.1 hlt
          · exfalso; grind
          · exact (hss hy).1.1
        · by_cases hxr : n1.stop < x.1.stop
          · right; left
            refine ⟨fun hd => ?_, ?_, by rw [if_pos hxr] at hl; omega⟩
            · have := hd x hx hp
              grind
            · intro y hy hy'
              have h1 := hfirst y
              rw [hm] at hy
              rcases hy with hy | ⟨hy, rfl⟩ | ⟨hy, rfl⟩
              · have hb := (h1 hy.1 hy').resolve_left hy.2
                have hlt := hb.2
                grind
              · exfalso; grind
              · exact (hss hy).1.1
          · left
            rw [if_neg hxr] at hl
            omega
        · intro hd
          have := hd x hx hp
          grind
      · subst hn' hm
        have hxn : n1.stop < x.1.start := by grind
        rcases hbf with ⟨h, _⟩ | ⟨_, rfl, h⟩
        · exfalso
          have := hright.1
          grind
        · exact ⟨hleft, hright, .inr (.inr ⟨rfl, rfl, rfl, x.2, h, hv⟩), fun h =>
          ⟨h, Nat.le_refl _⟩⟩

/-- Partial correctness of the loop. -/
theorem insertLoopU_spec {A : Answers V} {S : StepFns K} (hS : LawfulSteps S)
    {m0 : List (RangeInclusive K × V)} {r : RangeInclusive K} {v : V} {hi : K}
    (hr : r.start ≤ r.stop) (hhi : r.stop ≤ hi) (fuel : Nat) :
    ∀ (i : Nat) (m : List (RangeInclusive K × V)) (n : RangeInclusive K), Inv A m0 r v m n →
      Weak.LeftOk v m n →
      RightOk hi m n →
      insertLoopU A S hi v fuel i m n = .error .diverge ∨
      ∃ i' m' n', insertLoopU A S hi v fuel i m n = .ok (i', m', n') ∧ 
        Inv A m0 r v m' n' ∧ Weak.LeftOk v m' n' ∧ Done m' n' := by
  induction fuel with
  | zero => intro i m n _ _ _; exact .inl rfl
  | succ f ih =>
    intro i m n h1 h2 h3
    rcases step_spec hS hr h1 h2 h3 hhi (i := i) with ⟨hd, i', h⟩ |
      ⟨i', m', n', h, _, h4, h5, h6, _⟩
    · exact .inr ⟨i', m, n, h f, h1, h2, hd⟩
    · rw [h f]
      exact ih i' m' n' h4 h5 h6

/-- More fuel does not change the outcome. -/
theorem insertLoopU_mono (A : Answers V) (S : StepFns K) (hi : K) (v : V) (fuel : Nat) :
    ∀ (i : Nat) (m : List (RangeInclusive K × V)) (n : RangeInclusive K) (fuel' : Nat), fuel ≤
      fuel' →
      insertLoopU A S hi v fuel i m n ≠ .error .diverge →
      insertLoopU A S hi v fuel' i m n = insertLoopU A S hi v fuel i m n := by
  induction fuel with
  | zero => intro i m n _ _ h; exact absurd rfl h
  | succ f ih =>
    intro i m n fuel' hf h
    obtain ⟨f', rfl⟩ : ∃ f', fuel' = f' + 1 := ⟨fuel' - 1, by omega⟩
    rw [insertLoopU_unfold] at h ⊢
    rw [insertLoopU_unfold]
    split
    · rfl
    · rename_i x hx
      simp only [hx] at h
      cases hq : breakCondU A S hi v i x with
      | error p => rfl
      | ok q =>
        simp only [hq, Except.bind] at h ⊢
        split
        · rfl
        · rename_i h1
          rw [if_neg h1] at h
          cases hp : adjustTouchingRangesForInsertU A S q.1 m x.1 x.2 n v with
          | error p => rfl
          | ok p =>
            simp only [hp] at h ⊢
            exact ih _ _ _ _ (by omega) h

/-- When nothing overlaps any more, the loop ends soon after the answers settle. -/
theorem late {A : Answers V} {S : StepFns K} (hS : LawfulSteps S) {N : Nat} (hA : A.SettledFrom N)
    {m0 : List (RangeInclusive K × V)} {r : RangeInclusive K}
    {v : V} {hi : K} (hr : r.start ≤ r.stop) (hhi : r.stop ≤ hi) (s : Nat) :
    ∀ (i : Nat) (m : List (RangeInclusive K × V)) (n : RangeInclusive K), Inv A m0 r v m n →
      Weak.LeftOk v m n →
      RightOk hi m n → Done m n → m.length + (N - i) ≤ s →
      ∀ fuel, s + 1 ≤ fuel → insertLoopU A S hi v fuel i m n ≠ .error .diverge := by
  induction s with
  | zero =>
    intro i m n h1 h2 h3 hd hs fuel hf
    obtain ⟨f, rfl⟩ : ∃ f, fuel = f + 1 := ⟨fuel - 1, by omega⟩
    rcases step_spec hS hr h1 h2 h3 hhi (i := i) with ⟨_, i', h⟩ |
      ⟨i', m', n', h, hi', h4, h5, h6, h7, h8⟩
    · rw [h f]; simp
    · exfalso
      rcases h7 with h7 | h7 | ⟨rfl, rfl, rfl, a, ha, hb⟩
      · omega
      · exact h7.1 hd
      · have := hA i (by omega) a v ha
        simp [hb] at this
  | succ s ih =>
    intro i m n h1 h2 h3 hd hs fuel hf
    obtain ⟨f, rfl⟩ : ∃ f, fuel = f + 1 := ⟨fuel - 1, by omega⟩
    rcases step_spec hS hr h1 h2 h3 hhi (i := i) with ⟨_, i', h⟩ |
      ⟨i', m', n', h, hi', h4, h5, h6, h7, h8⟩
    · rw [h f]; simp
    · rw [h f]
      refine ih i' m' n' h4 h5 h6 (h8 hd).1 ?_ f (by omega)
      rcases h7 with h7 | h7 | ⟨rfl, rfl, rfl, a, ha, hb⟩
      · omega
      · exact absurd hd h7.1
      · have : ¬ N ≤ i := by
          intro hN
          have := hA i hN a v ha
          simp [hb] at this
        omega

theorem insertLoopU_returns {A : Answers V} {S : StepFns K} (hS : LawfulSteps S) {N : Nat}
    (hA : A.SettledFrom N)
    {m0 : List (RangeInclusive K × V)} {r : RangeInclusive K}
    {v : V} {hi : K} (hr : r.start ≤ r.stop) (hhi : r.stop ≤ hi) (s : Nat) :
    ∀ (i : Nat) (m : List (RangeInclusive K × V)) (n : RangeInclusive K), Inv A m0 r v m n →
      Weak.LeftOk v m n →
      RightOk hi m n → m.length + (N - i) ≤ s →
      ∀ fuel, s + 2 ≤ fuel → insertLoopU A S hi v fuel i m n ≠ .error .diverge := by
  induction s with
  | zero =>
    intro i m n h1 h2 h3 hs
    have hm : m = [] := List.eq_nil_of_length_eq_zero (by omega)
    intro fuel hf
    exact late hS hA hr hhi 0 i m n h1 h2 h3 (by simp [hm, Done]) hs fuel (by omega)
  | succ s ih =>
    intro i m n h1 h2 h3 hs fuel hf
    obtain ⟨f, rfl⟩ : ∃ f, fuel = f + 1 := ⟨fuel - 1, by omega⟩
    rcases step_spec hS hr h1 h2 h3 hhi (i := i) with ⟨_, i', h⟩ |
      ⟨i', m', n', h, hi', h4, h5, h6, h7, h8⟩
    · rw [h f]; simp
    · rw [h f]
      rcases h7 with h7 | ⟨_, h7, h7'⟩ | ⟨rfl, rfl, rfl, a, ha, hb⟩
      · exact ih i' m' n' h4 h5 h6 (by omega) f (by omega)
      · exact late hS hA hr hhi (s + 1) i' m' n' h4 h5 h6 h7 (by omega) f (by omega)
      · have : ¬ N ≤ i := by
          intro hN
          have := hA i hN a v ha
          simp [hb] at this
        exact ih _ _ _ h4 h5 h6 (by omega) f (by omega)

theorem insertFuelU_invalid (A : Answers V) (S : StepFns K) (fuel i : Nat)
    {m : RangeInclusiveMap K V} {r : RangeInclusive K} {v : V}
    (hr : ¬ r.start ≤ r.stop) : m.insertFuelU A S fuel i r v = .error .assertFailed := by
  simp [insertFuelU, hr, bind, Except.bind, throw, throwThe, MonadExceptOf.throw]

theorem insertFuelU_spec (A : Answers V) {S : StepFns K} (hS : LawfulSteps S) (fuel i : Nat)
    {m : RangeInclusiveMap K V} (h : Sep m.btm)
    {r : RangeInclusive K} (v : V) (hr : r.start ≤ r.stop) :
    m.insertFuelU A S fuel i r v = .error .diverge ∨
    ∃ i', ∃ m' : RangeInclusiveMap K V, m.insertFuelU A S fuel i r v = .ok (i', m') ∧ Sep m'.btm ∧
      (Fresh m.btm → r.exhausted = false → Fresh m'.btm) ∧
      ∃ n : RangeInclusive K, n.start ≤ r.start ∧ r.stop ≤ n.stop ∧
        (∀ k, n.start ≤ k → k ≤ n.stop → ¬ (r.start ≤ k ∧ k ≤ r.stop) →
          ∃ w, Maps m.btm k w ∧ A.everEq w v) ∧
        (∀ k, n.start ≤ k → k ≤ n.stop → ∀ w, Maps m'.btm k w ↔ w = v) ∧
        (∀ k, ¬ (n.start ≤ k ∧ k ≤ n.stop) → ∀ w, Maps m'.btm k w ↔ Maps m.btm k w) := by
  obtain ⟨i1, m1, n1, hp, hi1, hv1, hl1, hlen1⟩ := insertPrefixU_spec A hS i (v := v) hr h
  have hr1 : RightOk n1.stop m1 n1 := ⟨by grind, by grind⟩
  rcases insertLoopU_spec hS hr hv1.ne fuel i1 m1 n1 hv1 hl1 hr1 with hloop |
    ⟨i2, m2, n2, hloop, hi2, hl2, hd2⟩
  · left
    unfold insertFuelU
    simp [hr, hp, hloop, bind, Except.bind, pure, Except.pure]
  right
  have hns := hi2.ns
  have hne := hi2.ne
  have hfit : Fits m2 n2 := by
    refine ⟨by grind, ?_⟩
    intro e he
    have := hl2 e he
    have := hd2 e he
    grind
  have em := hi2.sep.mem_insert hfit v
  refine ⟨i2, ⟨BTreeMap.insert RangeInclusive.start n2 v m2⟩, ?_, hi2.sep.insert hfit v, ?_, n2,
    hns, hne,
    hi2.ado, ?_, ?_⟩
  · unfold insertFuelU
    simp [hr, hp, hloop, bind, Except.bind, pure, Except.pure]
  · intro hf he e hm
    rw [em] at hm
    rcases hm with rfl | hm
    · rcases hi2.ex with h | h
      · exact h
      · rw [h]; exact he
    · exact hi2.fresh hf e hm
  · intro k hk1 hk2 w
    simp only [Maps]
    constructor
    · rintro ⟨e, he, h1, h2, h3⟩
      rw [em] at he
      rcases he with rfl | he
      · exact h3.symm
      · have := hfit.2 e he
        exfalso
        grind
    · rintro rfl
      exact ⟨(n2, w), by rw [em]; grind, hk1, hk2, rfl⟩
  · intro k hk w
    rw [← hi2.out k hk]
    simp only [Maps]
    constructor
    · rintro ⟨e, he, h1, h2, h3⟩
      rw [em] at he
      rcases he with rfl | he
      · exact absurd ⟨h1, h2⟩ hk
      · exact ⟨e, he, h1, h2, h3⟩
    · rintro ⟨e, he, h1, h2, h3⟩
      exact ⟨e, by rw [em]; grind, h1, h2, h3⟩

theorem insertFuelU_mono (A : Answers V) (S : StepFns K) (fuel i : Nat)
    (m : RangeInclusiveMap K V) (r : RangeInclusive K) (v : V)
    (fuel' : Nat) (hf : fuel ≤ fuel') (h : m.insertFuelU A S fuel i r v ≠ .error .diverge) :
    m.insertFuelU A S fuel' i r v = m.insertFuelU A S fuel i r v := by
  unfold insertFuelU at h ⊢
  by_cases hr : r.start ≤ r.stop
  · cases hp : insertPrefixU A S i m.btm r v with
    | error p => simp [hr, bind, Except.bind, pure, Except.pure]
    | ok p =>
      have : insertLoopU A S p.2.2.stop v fuel p.1 p.2.1 p.2.2 ≠ .error .diverge := by
        intro h1
        simp [hr, hp, h1, bind, Except.bind, pure, Except.pure] at h
      simp [hr, bind, Except.bind, pure, Except.pure,
        insertLoopU_mono A S _ v fuel p.1 p.2.1 p.2.2 fuel' hf this]
  · simp [hr, bind, Except.bind, throw, throwThe, MonadExceptOf.throw]

theorem insertFuelU_returns {A : Answers V} {S : StepFns K} (hS : LawfulSteps S) {N : Nat}
    (hA : A.SettledFrom N) (i : Nat)
    {m : RangeInclusiveMap K V} (h : Sep m.btm) (r : RangeInclusive K) (v : V)
    (fuel : Nat) (hf : m.len + (N - i) + 3 ≤ fuel) :
    m.insertFuelU A S fuel i r v ≠ .error .diverge := by
  by_cases hr : r.start ≤ r.stop
  · obtain ⟨i1, m1, n1, hp, hi1, hv1, hl1, hlen1⟩ := insertPrefixU_spec A hS i (v := v) hr h
    have hr1 : RightOk n1.stop m1 n1 := ⟨by grind, by grind⟩
    have := insertLoopU_returns hS hA hr hv1.ne (m1.length + (N - i1)) i1 m1 n1 hv1 hl1 hr1
      (Nat.le_refl _) fuel (by simp only [len] at hf; omega)
    unfold insertFuelU
    simp only [hr, hp, not_true, if_false, bind, Except.bind, pure, Except.pure]
    intro h1
    apply this
    split at h1
    · rename_i p hp'
      simp only [Except.error.injEq] at h1
      rw [hp', h1]
    · simp at h1
  · rw [insertFuelU_invalid A S fuel i hr]
    simp

/-- `insert` on the abstract contents. -/
theorem insert_look {A : Answers V} {S : StepFns K} (hS : LawfulSteps S) {fuel i i' : Nat}
    {m m' : RangeInclusiveMap K V} (h : Sep m.btm) {r : RangeInclusive K} {v : V}
    (hr : r.start ≤ r.stop) (hi : m.insertFuelU A S fuel i r v = .ok (i', m')) :
    Sep m'.btm ∧ (Fresh m.btm → r.exhausted = false → Fresh m'.btm ∧ ∀ k, @Spec.Chained V (ever A)
      (if r.start ≤ k ∧ k ≤ r.stop then some v else m.look k) (m'.look k)) := by
  rcases insertFuelU_spec A hS fuel i h v hr with hd |
    ⟨i'', m'', h1, h2, hf2, n, h3, h4, h5, h6, h7⟩
  · rw [hd] at hi; cases hi
  rw [hi] at h1
  cases h1
  refine ⟨h2, fun hf hx => ⟨hf2 hf hx, fun k => ?_⟩⟩
  have hf2 := hf2 hf hx
  letI := ever A
  split
  · rename_i hk
    have : m'.look k = some v := by rw [Weak.look_eq_some h2 hf2, h6 k (by grind) (by grind)]
    rw [this]
    exact Chained.refl _
  · rename_i hk
    by_cases hkn : n.start ≤ k ∧ k ≤ n.stop
    · obtain ⟨w, hw1, hw2⟩ := h5 k hkn.1 hkn.2 hk
      rw [(Weak.look_eq_some h hf _ _).2 hw1, (Weak.look_eq_some h2 hf2 k v).2
        ((h6 k hkn.1 hkn.2 _).2 rfl)]
      exact .step .refl (ever_iff.2 hw2)
    · rw [Weak.look_congr h hf h2 hf2 (h7 k hkn)]
      exact Chained.refl _

theorem extend_look (A : Answers V) {S : StepFns K} (hS : LawfulSteps S) (fuel : Nat)
    {m : RangeInclusiveMap K V} (h : Sep m.btm) (i : Nat) (items : List (RangeInclusive K × V))
    (hd : (extendFuelU A S fuel i m items).2.2 ≠ .error .diverge) :
    Sep (extendFuelU A S fuel i m items).2.1.btm ∧
    (Fresh m.btm → (∀ e ∈ items, e.1.exhausted = false) →
      Fresh (extendFuelU A S fuel i m items).2.1.btm ∧ ∀ k, @Spec.Chained V (ever A)
      (match (items.takeWhile fun e => ivalid e.1).reverse.find? fun e => icovers e.1 k with
      | some e => some e.2
      | none => m.look k) ((extendFuelU A S fuel i m items).2.1.look k)) := by
  letI := ever A
  induction items generalizing m i with
  | nil => exact ⟨h, fun hf _ => ⟨hf, fun k => Chained.refl _⟩⟩
  | cons e t ih =>
    obtain ⟨r, v⟩ := e
    unfold extendFuelU at hd ⊢
    by_cases he : r.start ≤ r.stop
    · cases hi : m.insertFuelU A S fuel i r v with
      | error p =>
        rcases insertFuelU_spec A hS fuel i h v he with h1 | ⟨i'', m'', h1, _⟩
        · simp [h1] at hd
        · simp [h1] at hi
      | ok p =>
        obtain ⟨i', m'⟩ := p
        simp only [hi] at hd ⊢
        obtain ⟨hs, hl⟩ := insert_look hS h he hi
        obtain ⟨ih1, ih2⟩ := ih hs i' hd
        refine ⟨ih1, fun hf hx => ?_⟩
        obtain ⟨hf', hl⟩ := hl hf (hx (r, v) (by simp))
        obtain ⟨ih2, ih3⟩ := ih2 hf' fun e he => hx e (by simp [he])
        refine ⟨ih2, fun k => ?_⟩
        have := ih3 k
        simp only [List.takeWhile_cons, ivalid, he, decide_true, if_true, List.reverse_cons,
          List.find?_append]
        simp only [ivalid] at this
        cases hf : (t.takeWhile fun e => decide (e.1.start ≤ e.1.stop)).reverse.find?
            fun e => icovers e.1 k with
        | some e => simp only [hf] at this; simpa using this
        | none =>
          simp only [hf] at this
          refine Chained.trans ?_ this
          have hi := hl k
          by_cases hk : r.start ≤ k ∧ k ≤ r.stop
          · simp only [hk, and_self, if_true] at hi
            simpa [icovers, hk] using hi
          · rw [if_neg hk] at hi
            simpa [icovers, hk] using hi
    · rw [insertFuelU_invalid A S fuel i he]
      refine ⟨h, fun hf _ => ⟨hf, fun k => ?_⟩⟩
      simp [ivalid, he]
      exact Chained.refl _

theorem apply_look (A : Answers V) {S : StepFns K} (hS : LawfulSteps S) (fuel : Nat)
    {m : RangeInclusiveMap K V} (h : Sep m.btm) (i : Nat) (op : Op (RangeInclusive K) V)
    (hd : (m.applyFuelU A S fuel i op).2.2 ≠ .error .diverge) :
    Sep (m.applyFuelU A S fuel i op).2.1.btm ∧
    (Fresh m.btm → (∀ r ∈ op.inserted, r.exhausted = false) →
      Fresh (m.applyFuelU A S fuel i op).2.1.btm ∧ ∀ k (ops : List (Op (RangeInclusive K) V)),
      @Spec.Chained V (ever A) (lastWrite icovers ivalid ops k) (m.look k) →
      @Spec.Chained V (ever A) (lastWrite icovers ivalid (op :: ops) k)
        ((m.applyFuelU A S fuel i op).2.1.look k)) := by
  letI := ever A
  cases op with
  | insert r v =>
    simp only [applyFuelU, lastWrite, ivalid, icovers] at hd ⊢
    by_cases hr : r.start ≤ r.stop
    · cases hi : m.insertFuelU A S fuel i r v with
      | error p =>
        rcases insertFuelU_spec A hS fuel i h v hr with h1 | ⟨i'', m'', h1, _⟩
        · simp [h1] at hd
        · simp [h1] at hi
      | ok p =>
        obtain ⟨i', m'⟩ := p
        obtain ⟨hs, hl⟩ := insert_look hS h hr hi
        refine ⟨hs, fun hf hx => ?_⟩
        obtain ⟨hf', hl⟩ := hl hf (hx r (by simp [Op.inserted]))
        refine ⟨hf', fun k ops hm => ?_⟩
        have := hl k
        by_cases hk : r.start ≤ k ∧ k ≤ r.stop
        · simpa [hr, hk] using this
        · rw [if_neg hk] at this
          simpa [hk] using Chained.trans hm this
    · rw [insertFuelU_invalid A S fuel i hr]
      exact ⟨h, fun hf _ => ⟨hf, fun k ops hm => by simpa [hr] using hm⟩⟩
  | remove r =>
    simp only [applyFuelU, lastWrite, ivalid, icovers]
    by_cases hr : r.start ≤ r.stop
    · obtain ⟨m', h1, h2, h3⟩ := Weak.remove_ok hS h hr
      simp only [h1]
      refine ⟨h2, fun hf _ => ⟨h3 hf, fun k ops hm => ?_⟩⟩
      have := Weak.remove_look hS h hf hr h1 k
      by_cases hk : r.start ≤ k ∧ k ≤ r.stop
      · simp [hr, hk, this, Spec.Chained]
      · simpa [hk, this] using hm
    · simp only [remove_invalid hr]
      exact ⟨h, fun hf _ => ⟨hf, fun k ops hm => by simpa [hr] using hm⟩⟩
  | clear =>
    refine ⟨SC.nil.sep, fun hf _ => ⟨WF.nil.fresh, fun k ops hm => ?_⟩⟩
    simp only [applyFuelU, lastWrite, RangeInclusiveMap.clear]
    have : (⟨[]⟩ : RangeInclusiveMap K V).look k = none := by
      rw [Weak.look_eq_none (m := ⟨[]⟩) (SC.nil (K := K) (V := V)).sep
        (WF.nil (K := K) (V := V)).fresh]
      rintro w ⟨x, hx, _⟩
      simp at hx
    rw [this]
    trivial
  | extend items =>
    simp only [applyFuelU, lastWrite] at hd ⊢
    obtain ⟨hs, hl⟩ := extend_look A hS fuel h i items hd
    refine ⟨hs, fun hf hx => ?_⟩
    obtain ⟨hf', hl⟩ := hl hf fun e he => hx e.1 (by
      simp only [Op.inserted, List.mem_map]; exact ⟨e, he, rfl⟩)
    refine ⟨hf', fun k ops hm => ?_⟩
    have := hl k
    cases hf : (items.takeWhile fun e => ivalid e.1).reverse.find? fun e => icovers e.1 k with
    | some e => simpa only [hf] using this
    | none =>
      simp only [hf] at this ⊢
      exact Chained.trans hm this

theorem runs_spec {A : Answers V} {S : StepFns K} (hS : LawfulSteps S)
    {ops : List (Op (RangeInclusive K) V)} {i : Nat} {m : RangeInclusiveMap K V}
    (h : Runs A S ops i m) : Sep m.btm ∧
      ((∀ op ∈ ops, ∀ r ∈ op.inserted, r.exhausted = false) → Fresh m.btm ∧ ∀ k,
        @Spec.Chained V (ever A) (lastWrite icovers ivalid ops.reverse k) (m.look k)) := by
  letI := ever A
  induction h with
  | new =>
    refine ⟨SC.nil.sep, fun _ => ⟨WF.nil.fresh, fun k => ?_⟩⟩
    have : (RangeInclusiveMap.new : RangeInclusiveMap K V).look k = none := by
      rw [Weak.look_eq_none (m := RangeInclusiveMap.new) (SC.nil (K := K) (V := V)).sep
        (WF.nil (K := K) (V := V)).fresh]
      rintro w ⟨x, hx, _⟩
      simp [RangeInclusiveMap.new] at hx
    simp [this, lastWrite, Spec.Chained]
  | other j _ _ ih => exact ih
  | call op fuel _ hd ih =>
    obtain ⟨h1, h2⟩ := apply_look A hS fuel ih.1 _ op hd
    refine ⟨h1, fun hx => ?_⟩
    obtain ⟨hf, hl⟩ := ih.2 fun op ho => hx op (by simp [ho])
    obtain ⟨h2, h3⟩ := h2 hf (hx op (by simp))
    refine ⟨h2, fun k => ?_⟩
    rw [List.reverse_append]
    exact h3 k _ (hl k)

end Verif.RangeInclusiveMap.Unstable

import Verif.Model.TreeMeter
import Verif.Props.Metered
import Verif.Props.TreeCmp

/-!
# C87: the counts are the readings of a meter
-/
set_option linter.unusedSectionVars false
set_option linter.unusedSimpArgs false
namespace Verif.Props
open Spec Meter

section
variable {K : Type} [LE K] [LT K] [DecidableLE K] [DecidableLT K] {R V : Type}

theorem lowerM_run (b : SearchBound K) (k : K) (w : Work) :
    b.lowerM k w = .ok (b.lower k, w + ⟨0, b.cmps, 0⟩) := by
  cases b with
  | included q =>
    simp only [SearchBound.lowerM, SearchBound.lower, bind_run, cmp_run, ok_bind, kcmp,
      SearchBound.cmps]
    split
    · rfl
    · split <;> rfl
  | excluded q =>
    simp only [SearchBound.lowerM, SearchBound.lower, bind_run, cmp_run, ok_bind, kcmp,
      SearchBound.cmps]
    split
    · rfl
    · split <;> rfl
  | allIncluded => rfl
  | allExcluded => rfl

theorem upperM_run (b : SearchBound K) (k : K) (w : Work) :
    b.upperM k w = .ok (b.upper k, w + ⟨0, b.cmps, 0⟩) := by
  cases b with
  | included q =>
    simp only [SearchBound.upperM, SearchBound.upper, bind_run, cmp_run, ok_bind, kcmp,
      SearchBound.cmps]
    split
    · rfl
    · split <;> rfl
  | excluded q =>
    simp only [SearchBound.upperM, SearchBound.upper, bind_run, cmp_run, ok_bind, kcmp,
      SearchBound.cmps]
    split
    · rfl
    · split <;> rfl
  | allIncluded => rfl
  | allExcluded => rfl

theorem fromLowerM_run (key : R → K) : ∀ (t : Tree (R × V)) (b : SearchBound K) (w : Work),
    t.fromLowerM key b w = .ok ((t.fromLowerC key b).1, w + ⟨0, (t.fromLowerC key b).2, 0⟩)
  | .nil, b, w => rfl
  | .node l e r, b, w => by
    simp only [Tree.fromLowerM, Tree.fromLowerC, bind_run, lowerM_run, ok_bind]
    generalize b.lower (key e.1) = p
    obtain ⟨c, b'⟩ := p
    cases c with
    | true => simp only [fromLowerM_run key r b', work_add_assoc, work_mk_add, Nat.zero_add]
    | false =>
      simp only [bind_run, fromLowerM_run key l b', ok_bind, pure_run, work_add_assoc, work_mk_add,
        Nat.zero_add]

theorem toUpperM_run (key : R → K) : ∀ (t : Tree (R × V)) (b : SearchBound K) (w : Work),
    t.toUpperM key b w = .ok ((t.toUpperC key b).1, w + ⟨0, (t.toUpperC key b).2, 0⟩)
  | .nil, b, w => rfl
  | .node l e r, b, w => by
    simp only [Tree.toUpperM, Tree.toUpperC, bind_run, upperM_run, ok_bind]
    generalize b.upper (key e.1) = p
    obtain ⟨c, b'⟩ := p
    cases c with
    | false => simp only [toUpperM_run key l b', work_add_assoc, work_mk_add, Nat.zero_add]
    | true =>
      simp only [bind_run, toUpperM_run key r b', ok_bind, pure_run, work_add_assoc, work_mk_add,
        Nat.zero_add]

theorem betweenM_run (key : R → K) : ∀ (t : Tree (R × V)) (lo hi : SearchBound K) (w : Work),
    t.betweenM key lo hi w =
      .ok ((t.betweenC key lo hi).1, w + ⟨0, (t.betweenC key lo hi).2, 0⟩)
  | .nil, lo, hi, w => rfl
  | .node l e r, lo, hi, w => by
    simp only [Tree.betweenM, Tree.betweenC, bind_run, lowerM_run, ok_bind]
    generalize lo.lower (key e.1) = p
    obtain ⟨c, lo'⟩ := p
    cases c with
    | true => simp only [betweenM_run key r, work_add_assoc, work_mk_add, Nat.zero_add]
    | false =>
      simp only [bind_run, upperM_run, ok_bind]
      generalize hi.upper (key e.1) = p
      obtain ⟨c, hi'⟩ := p
      cases c with
      | true =>
        simp only [bind_run, fromLowerM_run, toUpperM_run, ok_bind, pure_run, work_add_assoc,
          work_mk_add, Nat.zero_add, Nat.add_assoc]
      | false =>
        simp only [betweenM_run key l, work_add_assoc, work_mk_add, Nat.zero_add, Nat.add_assoc]

variable [Std.IsLinearPreorder K] [Std.LawfulOrderLT K]

theorem checkM_run (lo hi : Bound K) (w : Work) :
    Tree.checkM lo hi w = if Bound.invalid lo hi then .error .btreeRange
      else .ok ((), w + ⟨0, Tree.boundCmps lo hi, 0⟩) := by
  have hthrow : ∀ (p : Panic) (w : Work), (throw p : Metered Unit) w = .error p := fun _ _ => rfl
  have herr : ∀ (p : Panic) (f : Unit × Work → Except Panic (Unit × Work)),
      (Except.error p >>= f) = .error p := fun _ _ => rfl
  cases lo with
  | unbounded => cases hi <;> rfl
  | included s =>
    cases hi with
    | unbounded => rfl
    | included e =>
      simp only [Tree.checkM, bind_run, lt_run, ok_bind, Bound.invalid, Tree.boundCmps]
      by_cases h : e < s <;> simp only [h, decide_true, decide_false, if_true, if_false] <;> rfl
    | excluded e =>
      simp only [Tree.checkM, bind_run, lt_run, ok_bind, Bound.invalid, Tree.boundCmps]
      by_cases h : e < s <;> simp only [h, decide_true, decide_false, if_true, if_false] <;> rfl
  | excluded s =>
    cases hi with
    | unbounded => rfl
    | included e =>
      simp only [Tree.checkM, bind_run, lt_run, ok_bind, Bound.invalid, Tree.boundCmps]
      by_cases h : e < s <;> simp only [h, decide_true, decide_false, if_true, if_false] <;> rfl
    | excluded e =>
      simp only [Tree.checkM, bind_run, lt_run, cmp_run, ok_bind, Bound.invalid, Tree.boundCmps]
      have hk : kcmp s e = .eq ↔ keq s e = true := by
        rw [keq_iff]
        unfold kcmp
        by_cases h1 : s < e
        · simp only [h1, if_true]; grind
        · by_cases h2 : e < s
          · simp only [h1, h2, if_true, if_false]; grind
          · simp only [h1, h2, if_false]; grind
      by_cases h1 : keq s e = true
      · have h2 : e ≤ s := by rw [keq_iff] at h1; exact h1.2
        rw [if_pos (hk.2 h1)]
        simp only [h2, decide_true, if_true]; rfl
      · rw [if_neg (mt hk.1 h1)]
        rw [keq_iff] at h1
        simp only [bind_run, lt_run, ok_bind]
        by_cases h2 : e < s
        · have h3 : e ≤ s := by grind
          simp only [h2, h3, decide_true, if_true]; rfl
        · have h3 : ¬ e ≤ s := by grind
          have h4 : keq s e = false := by
            cases hq : keq s e
            · rfl
            · exact absurd (keq_iff.1 hq) h1
          simp only [h2, h3, h4, decide_false, Bool.false_eq_true, if_false]; rfl

theorem rangeM_run (key : R → K) (lo hi : Bound K) (t : Tree (R × V)) (w : Work) :
    t.rangeM key lo hi w = match t.rangeC key lo hi with
      | (.ok l, n) => .ok (l, w + ⟨0, n, 0⟩)
      | (.error p, _) => .error p := by
  simp only [Tree.rangeM, Tree.rangeC, bind_run, checkM_run]
  by_cases h : Bound.invalid lo hi = true
  · simp only [h, if_true]; rfl
  · simp only [h, Bool.false_eq_true, if_false, ok_bind, betweenM_run, work_add_assoc, work_mk_add,
      Nat.zero_add]

theorem containsM_run (key : R → K) (k : K) : ∀ (t : Tree (R × V)) (w : Work),
    t.containsM key k w = .ok ((t.containsC key k).1, w + ⟨0, (t.containsC key k).2, 0⟩)
  | .nil, w => rfl
  | .node l e r, w => by
    simp only [Tree.containsM, Tree.containsC, bind_run, cmp_run, ok_bind, kcmp]
    split
    · simp only [containsM_run key k l, work_add_assoc, work_mk_add, Nat.zero_add]
    · split
      · simp only [containsM_run key k r, work_add_assoc, work_mk_add, Nat.zero_add]
      · rfl

/-- **C87** The comparisons counted for the searches, and for a whole program (`insert`, `remove`) that
returns, are exactly those that move a meter when the searches are written with metered comparisons;
and the metered searches return what the searches of C52 return. -/
theorem C87_counts_exact (key : R → K) :
    (∀ (t : Tree (R × V)) lo hi w, t.rangeM key lo hi w = match t.rangeC key lo hi with
      | (.ok l, n) => .ok (l, w + ⟨0, n, 0⟩)
      | (.error p, _) => .error p) ∧
    (∀ (t : Tree (R × V)) lo hi, (t.rangeC key lo hi).1 = t.range key lo hi) ∧
    (∀ (t : Tree (R × V)) k w,
      t.containsM key k w = .ok (t.contains key k, w + ⟨0, (t.containsC key k).2, 0⟩)) ∧
    ∀ {α : Type} (shapes : Tree.Shapes (R × V)) (c : Cr K R V α) n i (t : Tree (R × V)) w,
      c.runM key shapes i t w = match c.runTree key shapes (fun _ => false) ⟨n, i, t⟩ with
        | (.ok a, s) => .ok ((a, s.tree), w + ⟨0, c.cmps key shapes i t, 0⟩)
        | (.error (.lib p), _) => .error p
        | (.error .user, _) => .error .diverge := by
  refine ⟨fun t lo hi w => rangeM_run key lo hi t w, fun t lo hi => (Tree.rangeC_eq key lo hi t).1,
    fun t k w => ?_, fun shapes c => ?_⟩
  · rw [containsM_run, (Tree.containsC_eq key k t).1]
  · induction c with
    | ret a => intro n i t w; rfl
    | panic p => intro n i t w; rfl
    | call next ih => intro n i t w; exact ih (n + 1) i t w
    | size next ih => intro n i t w; exact ih _ n i t w
    | search lo hi next ih =>
      intro n i t w
      have h := (Tree.rangeC_eq key lo hi t).1
      simp only [Cr.runM, Cr.runTree, Cr.cmps, bind_run, rangeM_run, ← h]
      generalize t.rangeC key lo hi = p
      obtain ⟨o, k⟩ := p
      cases o with
      | error p => rfl
      | ok l =>
        simp only [ok_bind, ih l n]
        split <;> simp_all [work_add_assoc, work_mk_add]
    | put r v next ih =>
      intro n i t w
      simp only [Cr.runM, Cr.runTree, Cr.cmps, bind_run, containsM_run, ok_bind,
        (Tree.containsC_eq key (key r) t).1, ih _ n]
      split <;> simp_all [work_add_assoc, work_mk_add]
    | delete k next ih =>
      intro n i t w
      simp only [Cr.runM, Cr.runTree, Cr.cmps, bind_run, containsM_run, ok_bind, ih n]
      split <;> simp_all [work_add_assoc, work_mk_add]

section
open RangeMap

/-- **C87** `get_key_value` and `overlapping` compare keys exactly as often as counted, and so does a
history of calls none of which panics. -/
theorem C87_counts_exact_map [BEq V] :
    (∀ (t : Tree (Range K × V)) k w, treeGetKeyValueM t k w = match treeGetKeyValueC t k with
      | (.ok o, n) => .ok (o, w + ⟨0, n, 0⟩)
      | (.error p, _) => .error p) ∧
    (∀ (t : Tree (Range K × V)) q w, treeOverlappingM t q w = match treeOverlappingC t q with
      | (.ok o, n) => .ok (o, w + ⟨0, n, 0⟩)
      | (.error p, _) => .error p) ∧
    ∀ (ops : List (Tree.Shapes (Range K × V) × Op (Range K) V)) (t t' : Tree (Range K × V)) w w',
      historyM t ops w = .ok (t', w') → w' = w + ⟨0, historyCmps t ops, 0⟩ := by
  have hrun := (C87_counts_exact (V := V) Range.start (K := K)).2.2.2 (α := Unit)
  have hins : ∀ (shapes : Tree.Shapes (Range K × V)) (t t' : Tree (Range K × V)) r v w w' o,
      (insertProgram r v).runM Range.start shapes 0 t w = .ok ((o, t'), w') →
      treeInsert shapes (fun _ => false) t r v = (.ok o, t') ∧
      w' = w + ⟨0, insertCmps shapes t r v, 0⟩ := by
    intro shapes t t' r v w w' o h
    rw [hrun shapes _ 0] at h
    unfold treeInsert insertCmps
    generalize (insertProgram r v).runTree Range.start shapes (fun _ => false) ⟨0, 0, t⟩ = p at h
    obtain ⟨out, st⟩ := p
    rcases out with (p | p) | p
    · cases h
    · cases h
    · have := Except.ok.inj h
      simp only [Prod.mk.injEq] at this
      obtain ⟨⟨-, rfl⟩, rfl⟩ := this
      exact ⟨rfl, rfl⟩
  have hrem : ∀ (shapes : Tree.Shapes (Range K × V)) (t t' : Tree (Range K × V)) r w w' o,
      (removeProgram r).runM Range.start shapes 0 t w = .ok ((o, t'), w') →
      (treeRemove shapes (fun _ => false) t r).2 = t' ∧
      w' = w + ⟨0, removeCmps shapes t r, 0⟩ := by
    intro shapes t t' r w w' o h
    rw [hrun shapes _ 0] at h
    unfold treeRemove removeCmps
    generalize (removeProgram r).runTree Range.start shapes (fun _ => false) ⟨0, 0, t⟩ = p at h
    obtain ⟨out, st⟩ := p
    rcases out with (p | p) | p
    · cases h
    · cases h
    · have := Except.ok.inj h
      simp only [Prod.mk.injEq] at this
      obtain ⟨⟨-, rfl⟩, rfl⟩ := this
      exact ⟨rfl, rfl⟩
  have hext : ∀ (shapes : Tree.Shapes (Range K × V)) (items : List (Range K × V))
      (t t' : Tree (Range K × V)) w w', opM shapes t (.extend items) w = .ok (t', w') →
      t' = (extendCmps shapes t items).2 ∧ w' = w + ⟨0, (extendCmps shapes t items).1, 0⟩ := by
    intro shapes items
    induction items with
    | nil =>
      intro t t' w w' h
      have := Except.ok.inj h
      simp only [Prod.mk.injEq] at this
      obtain ⟨rfl, rfl⟩ := this
      exact ⟨rfl, rfl⟩
    | cons e items ih =>
      obtain ⟨r, v⟩ := e
      intro t t' w w' h
      simp only [opM, List.foldlM_cons, bind_run] at h
      cases h1 : (insertProgram r v).runM Range.start shapes 0 t w with
      | error p => rw [h1] at h; cases h
      | ok x =>
        obtain ⟨⟨o, t1⟩, w1⟩ := x
        rw [h1] at h
        obtain ⟨h2, h3⟩ := hins _ _ _ _ _ _ _ _ h1
        obtain ⟨h4, h5⟩ := ih t1 t' w1 w' h
        unfold extendCmps
        rw [h2]
        refine ⟨h4, ?_⟩
        rw [h5, h3, work_add_assoc, work_mk_add]
        rfl
  refine ⟨fun t k w => ?_, fun t q w => ?_, fun ops => ?_⟩
  · simp only [treeGetKeyValueM, treeGetKeyValueC, bind_run, rangeM_run]
    generalize t.rangeC Range.start .unbounded (.included k) = p
    obtain ⟨o, n⟩ := p
    cases o with
    | error p => rfl
    | ok l =>
      simp only [ok_bind]
      cases l.getLast? with
      | none => rfl
      | some e =>
        simp only [bind_run, rangeContains_run, ok_bind, pure_run, work_add_assoc, work_mk_add,
          Nat.zero_add]
  · simp only [treeOverlappingM, treeOverlappingC, bind_run, rangeM_run]
    generalize t.rangeC Range.stop (.excluded q.start) .unbounded = p
    obtain ⟨o, n⟩ := p
    cases o <;> rfl
  · induction ops with
    | nil =>
      intro t t' w w' h
      have := Except.ok.inj h
      simp only [Prod.mk.injEq] at this
      exact this.2.symm
    | cons p ops ih =>
      obtain ⟨shapes, op⟩ := p
      intro t t' w w' h
      simp only [historyM, bind_run] at h
      cases h1 : opM shapes t op w with
      | error p => rw [h1] at h; cases h
      | ok x =>
        obtain ⟨t1, w1⟩ := x
        rw [h1] at h
        have h2 := ih t1 t' w1 w' h
        have h3 : t1 = (opCmps shapes t op).2 ∧ w1 = w + ⟨0, (opCmps shapes t op).1, 0⟩ := by
          cases op with
          | insert r v =>
            simp only [opM, bind_run] at h1
            cases h4 : (insertProgram r v).runM Range.start shapes 0 t w with
            | error p => rw [h4] at h1; cases h1
            | ok x =>
              obtain ⟨⟨o, t2⟩, w2⟩ := x
              rw [h4] at h1
              obtain ⟨h5, h6⟩ := hins _ _ _ _ _ _ _ _ h4
              have := Except.ok.inj h1
              simp only [Prod.mk.injEq] at this
              obtain ⟨rfl, rfl⟩ := this
              exact ⟨by simp only [opCmps, h5], h6⟩
          | remove r =>
            simp only [opM, bind_run] at h1
            cases h4 : (removeProgram r).runM Range.start shapes 0 t w with
            | error p => rw [h4] at h1; cases h1
            | ok x =>
              obtain ⟨⟨o, t2⟩, w2⟩ := x
              rw [h4] at h1
              obtain ⟨h5, h6⟩ := hrem _ _ _ _ _ _ _ h4
              have := Except.ok.inj h1
              simp only [Prod.mk.injEq] at this
              obtain ⟨rfl, rfl⟩ := this
              exact ⟨by simp only [opCmps, h5], h6⟩
          | clear =>
            have := Except.ok.inj h1
            simp only [Prod.mk.injEq] at this
            obtain ⟨rfl, rfl⟩ := this
            exact ⟨rfl, rfl⟩
          | extend items => exact hext _ _ _ _ _ _ h1
        obtain ⟨rfl, rfl⟩ := h3
        rw [h2, work_add_assoc, work_mk_add]
        rfl

example : treeGetKeyValueM oneLeaf 39 ⟨0, 0, 0⟩ = .ok (some (⟨25, 40⟩, 'c'), ⟨0, 6, 0⟩) := by rfl
-- the meter and the count agree on a history
example : ∃ t, historyM (.nil : Tree (Range Nat × Char))
    [(leaves, .insert ⟨1, 5⟩ 'a'), (leaves, .insert ⟨3, 9⟩ 'b'), (leaves, .remove ⟨4, 6⟩)] ⟨0, 0, 0⟩ =
    .ok (t, ⟨0, 19, 0⟩) ∧ historyCmps (.nil : Tree (Range Nat × Char))
    [(leaves, .insert ⟨1, 5⟩ 'a'), (leaves, .insert ⟨3, 9⟩ 'b'), (leaves, .remove ⟨4, 6⟩)] = 19 :=
  ⟨_, by rfl, by rfl⟩
end

namespace Inclusive
open RangeInclusiveMap

/-- **C87** `get_key_value` and `overlapping` compare keys exactly as often as counted, and so does a
history of calls none of which panics. -/
theorem C87_counts_exact_map [BEq V] (S : StepFns K) :
    (∀ (t : Tree (RangeInclusive K × V)) k w, treeGetKeyValueM t k w = match treeGetKeyValueC t k with
      | (.ok o, n) => .ok (o, w + ⟨0, n, 0⟩)
      | (.error p, _) => .error p) ∧
    (∀ (t : Tree (RangeInclusive K × V)) q w, treeOverlappingM t q w = match treeOverlappingC t q with
      | (.ok o, n) => .ok (o, w + ⟨0, n, 0⟩)
      | (.error p, _) => .error p) ∧
    ∀ (ops : List (Tree.Shapes (RangeInclusive K × V) × Op (RangeInclusive K) V)) (t t' : Tree (RangeInclusive K × V)) w w',
      historyM S t ops w = .ok (t', w') → w' = w + ⟨0, historyCmps S t ops, 0⟩ := by
  have hrun := (C87_counts_exact (V := V) RangeInclusive.start (K := K)).2.2.2 (α := Unit)
  have hins : ∀ (shapes : Tree.Shapes (RangeInclusive K × V)) (t t' : Tree (RangeInclusive K × V)) r v w w' o,
      (insertProgram S r v).runM RangeInclusive.start shapes 0 t w = .ok ((o, t'), w') →
      treeInsert S shapes (fun _ => false) t r v = (.ok o, t') ∧
      w' = w + ⟨0, insertCmps S shapes t r v, 0⟩ := by
    intro shapes t t' r v w w' o h
    rw [hrun shapes _ 0] at h
    unfold treeInsert insertCmps
    generalize (insertProgram S r v).runTree RangeInclusive.start shapes (fun _ => false) ⟨0, 0, t⟩ = p at h
    obtain ⟨out, st⟩ := p
    rcases out with (p | p) | p
    · cases h
    · cases h
    · have := Except.ok.inj h
      simp only [Prod.mk.injEq] at this
      obtain ⟨⟨-, rfl⟩, rfl⟩ := this
      exact ⟨rfl, rfl⟩
  have hrem : ∀ (shapes : Tree.Shapes (RangeInclusive K × V)) (t t' : Tree (RangeInclusive K × V)) r w w' o,
      (removeProgram S r).runM RangeInclusive.start shapes 0 t w = .ok ((o, t'), w') →
      (treeRemove S shapes (fun _ => false) t r).2 = t' ∧
      w' = w + ⟨0, removeCmps S shapes t r, 0⟩ := by
    intro shapes t t' r w w' o h
    rw [hrun shapes _ 0] at h
    unfold treeRemove removeCmps
    generalize (removeProgram S r).runTree RangeInclusive.start shapes (fun _ => false) ⟨0, 0, t⟩ = p at h
    obtain ⟨out, st⟩ := p
    rcases out with (p | p) | p
    · cases h
    · cases h
    · have := Except.ok.inj h
      simp only [Prod.mk.injEq] at this
      obtain ⟨⟨-, rfl⟩, rfl⟩ := this
      exact ⟨rfl, rfl⟩
  have hext : ∀ (shapes : Tree.Shapes (RangeInclusive K × V)) (items : List (RangeInclusive K × V))
      (t t' : Tree (RangeInclusive K × V)) w w', opM S shapes t (.extend items) w = .ok (t', w') →
      t' = (extendCmps S shapes t items).2 ∧ w' = w + ⟨0, (extendCmps S shapes t items).1, 0⟩ := by
    intro shapes items
    induction items with
    | nil =>
      intro t t' w w' h
      have := Except.ok.inj h
      simp only [Prod.mk.injEq] at this
      obtain ⟨rfl, rfl⟩ := this
      exact ⟨rfl, rfl⟩
    | cons e items ih =>
      obtain ⟨r, v⟩ := e
      intro t t' w w' h
      simp only [opM, List.foldlM_cons, bind_run] at h
      cases h1 : (insertProgram S r v).runM RangeInclusive.start shapes 0 t w with
      | error p => rw [h1] at h; cases h
      | ok x =>
        obtain ⟨⟨o, t1⟩, w1⟩ := x
        rw [h1] at h
        obtain ⟨h2, h3⟩ := hins _ _ _ _ _ _ _ _ h1
        obtain ⟨h4, h5⟩ := ih t1 t' w1 w' h
        unfold extendCmps
        rw [h2]
        refine ⟨h4, ?_⟩
        rw [h5, h3, work_add_assoc, work_mk_add]
        rfl
  refine ⟨fun t k w => ?_, fun t q w => ?_, fun ops => ?_⟩
  · simp only [treeGetKeyValueM, treeGetKeyValueC, bind_run, rangeM_run]
    generalize t.rangeC RangeInclusive.start .unbounded (.included k) = p
    obtain ⟨o, n⟩ := p
    cases o with
    | error p => rfl
    | ok l =>
      simp only [ok_bind]
      cases l.getLast? with
      | none => rfl
      | some e =>
        simp only [bind_run, inclusiveContains_run, ok_bind, pure_run, work_add_assoc, work_mk_add,
          Nat.zero_add]
  · simp only [treeOverlappingM, treeOverlappingC, bind_run, rangeM_run]
    generalize t.rangeC RangeInclusive.stop (.included q.start) .unbounded = p
    obtain ⟨o, n⟩ := p
    cases o <;> rfl
  · induction ops with
    | nil =>
      intro t t' w w' h
      have := Except.ok.inj h
      simp only [Prod.mk.injEq] at this
      exact this.2.symm
    | cons p ops ih =>
      obtain ⟨shapes, op⟩ := p
      intro t t' w w' h
      simp only [historyM, bind_run] at h
      cases h1 : opM S shapes t op w with
      | error p => rw [h1] at h; cases h
      | ok x =>
        obtain ⟨t1, w1⟩ := x
        rw [h1] at h
        have h2 := ih t1 t' w1 w' h
        have h3 : t1 = (opCmps S shapes t op).2 ∧ w1 = w + ⟨0, (opCmps S shapes t op).1, 0⟩ := by
          cases op with
          | insert r v =>
            simp only [opM, bind_run] at h1
            cases h4 : (insertProgram S r v).runM RangeInclusive.start shapes 0 t w with
            | error p => rw [h4] at h1; cases h1
            | ok x =>
              obtain ⟨⟨o, t2⟩, w2⟩ := x
              rw [h4] at h1
              obtain ⟨h5, h6⟩ := hins _ _ _ _ _ _ _ _ h4
              have := Except.ok.inj h1
              simp only [Prod.mk.injEq] at this
              obtain ⟨rfl, rfl⟩ := this
              exact ⟨by simp only [opCmps, h5], h6⟩
          | remove r =>
            simp only [opM, bind_run] at h1
            cases h4 : (removeProgram S r).runM RangeInclusive.start shapes 0 t w with
            | error p => rw [h4] at h1; cases h1
            | ok x =>
              obtain ⟨⟨o, t2⟩, w2⟩ := x
              rw [h4] at h1
              obtain ⟨h5, h6⟩ := hrem _ _ _ _ _ _ _ h4
              have := Except.ok.inj h1
              simp only [Prod.mk.injEq] at this
              obtain ⟨rfl, rfl⟩ := this
              exact ⟨by simp only [opCmps, h5], h6⟩
          | clear =>
            have := Except.ok.inj h1
            simp only [Prod.mk.injEq] at this
            obtain ⟨rfl, rfl⟩ := this
            exact ⟨rfl, rfl⟩
          | extend items => exact hext _ _ _ _ _ _ h1
        obtain ⟨rfl, rfl⟩ := h3
        rw [h2, work_add_assoc, work_mk_add]
        rfl

example : treeOverlappingM (.node .nil (RangeInclusive.mk' 1 4, 'a')
    (.node .nil (RangeInclusive.mk' 6 8, 'b') .nil)) (RangeInclusive.mk' 5 7) ⟨0, 0, 0⟩ =
    .ok (⟨RangeInclusive.mk' 5 7, [(RangeInclusive.mk' 6 8, 'b')]⟩, ⟨0, 2, 0⟩) := by rfl

end Inclusive

end

example := C87_counts_exact (V := Char) Range.stop (K := Nat)

end Verif.Props

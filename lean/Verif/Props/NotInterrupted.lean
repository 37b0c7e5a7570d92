import Verif.Props.IterCrash
import Verif.Props.Borrow

/-!
# C71, C72: what the interrupted iterators have to do with the ordinary ones

A call during which no user code panics does what the ordinary call does, and a call is interrupted
only by the piece of user code that ran last.  `overlapping` with a changing `borrow()` calls it once
for each entry looked at.
-/
set_option linter.unusedSectionVars false

namespace Verif.Spec

/-- None of the pieces of user code numbered `a..b` panics. -/
def Quiet (panics : Panics) (a b : Nat) : Prop := ∀ c i, a ≤ i → i < b → panics c i = false

/-- One of the pieces of user code numbered `a..b`, the last, panics. -/
def Interrupted (panics : Panics) (a b : Nat) : Prop := ∃ c i, a ≤ i ∧ i + 1 = b ∧ panics c i = true

theorem Quiet.mono {panics : Panics} {a b a' b' : Nat} (h : Quiet panics a b) (ha : a ≤ a')
    (hb : b' ≤ b) : Quiet panics a' b' :=
  fun c i h1 h2 => h c i (Nat.le_trans ha h1) (Nat.lt_of_lt_of_le h2 hb)

theorem Interrupted.mono {panics : Panics} {a b a' : Nat} (h : Interrupted panics a b)
    (ha : a' ≤ a) : Interrupted panics a' b := by
  obtain ⟨c, i, h1, h2, h3⟩ := h
  exact ⟨c, i, Nat.le_trans ha h1, h2, h3⟩

end Verif.Spec

namespace Verif.Props
open Spec RangeMap
variable {K : Type} [LE K] [LT K] [DecidableLE K] [DecidableLT K]
  [Std.IsLinearPreorder K] [Std.LawfulOrderLT K] {V : Type}

/-- **C72** A call of `Overlapping::next` during which nothing panics is the ordinary one. -/
theorem C72_next_not_interrupted (panics : Panics) (o : OverlappingP K V)
    (h : Quiet panics o.calls (o.next panics).2.calls) :
    (o.next panics).1 = some o.it.next.1 ∧ (o.next panics).2.it = o.it.next.2 := by
  obtain ⟨n, q, l⟩ := o
  cases l with
  | nil => exact ⟨rfl, rfl⟩
  | cons e t =>
    simp only [OverlappingP.next, Overlapping.next, Deque.next] at h ⊢
    by_cases hp : panics .cmp n = true
    · rw [if_pos hp] at h
      simp [h .cmp n (Nat.le_refl _) (by simp)] at hp
    · rw [if_neg hp]
      split <;> exact ⟨rfl, rfl⟩

/-- **C72** `Overlapping::next` is interrupted by the user code that ran last. -/
theorem C72_next_interrupted (panics : Panics) (o : OverlappingP K V)
    (h : (o.next panics).1 = none) : Interrupted panics o.calls (o.next panics).2.calls := by
  obtain ⟨n, q, l⟩ := o
  cases l with
  | nil => cases h
  | cons e t =>
    simp only [OverlappingP.next, Deque.next] at h ⊢
    by_cases hp : panics .cmp n = true
    · rw [if_pos hp]
      exact ⟨.cmp, n, Nat.le_refl _, rfl, hp⟩
    · rw [if_neg hp] at h
      split at h <;> cases h

/-- **C72** A call of `Overlapping::next_back` during which nothing panics is the ordinary one; it is
interrupted by the user code that ran last. -/
theorem C72_nextBack_not_interrupted (panics : Panics) (o : OverlappingP K V) :
    o.calls ≤ (o.nextBack panics).2.calls ∧
    (Quiet panics o.calls (o.nextBack panics).2.calls →
      (o.nextBack panics).1 = some o.it.nextBack.1 ∧
        (o.nextBack panics).2.it = o.it.nextBack.2) ∧
    ((o.nextBack panics).1 = none →
      Interrupted panics o.calls (o.nextBack panics).2.calls) := by
  fun_induction OverlappingP.nextBack panics o with
  | case1 o e he o' hp =>
    subst o'
    refine ⟨Nat.le_succ _, fun h => ?_, fun _ => ⟨.cmp, _, Nat.le_refl _, rfl, hp⟩⟩
    rw [h .cmp o.calls (Nat.le_refl _) (Nat.lt_succ_self _)] at hp
    cases hp
  | case2 o e he o' hp hlt =>
    subst o'
    refine ⟨Nat.le_succ _, fun _ => ?_, nofun⟩
    rw [Overlapping.nextBack]
    split <;> rename_i h' <;> simp only [he] at h'
    · obtain rfl := Option.some.inj h'
      rw [if_pos hlt]
      exact ⟨rfl, rfl⟩
    · cases h'
  | case3 o e he hp hlt ih =>
    obtain ⟨i1, i2, i3⟩ := ih
    simp only [] at i1 i2 i3
    refine ⟨Nat.le_trans (Nat.le_succ _) i1, fun h => ?_, fun h => (i3 h).mono (Nat.le_succ _)⟩
    have := i2 (h.mono (Nat.le_succ _) (Nat.le_refl _))
    rw [Overlapping.nextBack]
    split <;> rename_i h' <;> simp only [he] at h'
    · obtain rfl := Option.some.inj h'
      rw [if_neg hlt]
      exact this
    · cases h'
  | case4 o he =>
    refine ⟨Nat.le_refl _, fun _ => ?_, nofun⟩
    rw [Overlapping.nextBack]
    split <;> rename_i h' <;> simp only [he] at h'
    · cases h'
    · exact ⟨rfl, rfl⟩

theorem gapsP_tail_quiet (panics : Panics) (n : Nat) (cand qe : K) (l : List (Range K × V)) :
    let p := GapsP.nextTail panics n cand qe l
    n ≤ p.2.calls ∧
    (Quiet panics n p.2.calls →
      p.1 = some (Gaps.nextTail cand qe l).1 ∧ p.2.it = (Gaps.nextTail cand qe l).2) ∧
    (p.1 = none → Interrupted panics n p.2.calls) := by
  intro p
  have hp : p = GapsP.nextTail panics n cand qe l := rfl
  clear_value p
  unfold GapsP.nextTail at hp
  unfold Gaps.nextTail
  by_cases h1 : panics .cmp n = true
  · rw [if_pos h1] at hp
    subst hp
    refine ⟨Nat.le_succ _, fun h => ?_, fun _ => ⟨.cmp, n, Nat.le_refl _, rfl, h1⟩⟩
    rw [h .cmp n (Nat.le_refl _) (Nat.lt_succ_self _)] at h1
    cases h1
  · rw [if_neg h1] at hp
    by_cases h2 : cand < qe
    · rw [if_pos h2] at hp
      rw [if_pos h2]
      by_cases h3 : panics .clone (n + 1) = true
      · rw [if_pos h3] at hp
        subst hp
        refine ⟨Nat.le_add_right _ _, fun h => ?_, fun _ => ⟨.clone, n + 1, Nat.le_succ _, rfl, h3⟩⟩
        rw [h .clone (n + 1) (Nat.le_succ _) (Nat.lt_succ_self _)] at h3
        cases h3
      · rw [if_neg h3] at hp
        subst hp
        exact ⟨Nat.le_add_right _ _, fun _ => ⟨rfl, rfl⟩, nofun⟩
    · rw [if_neg h2] at hp
      rw [if_neg h2]
      subst hp
      exact ⟨Nat.le_succ _, fun _ => ⟨rfl, rfl⟩, nofun⟩

theorem gapsP_loop_quiet (panics : Panics) (qe : K) : ∀ (l : List (Range K × V)) (cand : K) (n : Nat),
    let p := GapsP.nextLoop panics n cand qe l
    n ≤ p.2.calls ∧
    (Quiet panics n p.2.calls →
      p.1 = some (Gaps.nextLoop cand qe l).1 ∧ p.2.it = (Gaps.nextLoop cand qe l).2) ∧
    (p.1 = none → Interrupted panics n p.2.calls) := by
  intro l
  induction l with
  | nil => intro cand n; exact gapsP_tail_quiet panics n cand qe []
  | cons e t ih =>
    intro cand n p
    have hp : p = GapsP.nextLoop panics n cand qe (e :: t) := rfl
    clear_value p
    unfold GapsP.nextLoop at hp
    unfold Gaps.nextLoop
    by_cases h1 : panics .cmp n = true
    · rw [if_pos h1] at hp
      subst hp
      refine ⟨Nat.le_succ _, fun h => ?_, fun _ => ⟨.cmp, n, Nat.le_refl _, rfl, h1⟩⟩
      rw [h .cmp n (Nat.le_refl _) (Nat.lt_succ_self _)] at h1
      cases h1
    rw [if_neg h1] at hp
    by_cases h2 : qe ≤ e.1.start
    · rw [if_pos h2] at hp
      rw [if_pos h2]
      obtain ⟨i1, i2, i3⟩ := gapsP_tail_quiet panics (n + 1) cand qe t
      rw [← hp] at i1 i2 i3
      exact ⟨Nat.le_trans (Nat.le_succ _) i1, fun h => i2 (h.mono (Nat.le_succ _) (Nat.le_refl _)),
        fun h => (i3 h).mono (Nat.le_succ _)⟩
    rw [if_neg h2] at hp
    rw [if_neg h2]
    by_cases h3 : panics .cmp (n + 1) = true
    · rw [if_pos h3] at hp
      subst hp
      refine ⟨Nat.le_add_right _ _, fun h => ?_, fun _ => ⟨.cmp, n + 1, Nat.le_succ _, rfl, h3⟩⟩
      rw [h .cmp (n + 1) (Nat.le_succ _) (Nat.lt_succ_self _)] at h3
      cases h3
    rw [if_neg h3] at hp
    by_cases h4 : cand < e.1.start
    · rw [if_pos h4] at hp
      rw [if_pos h4]
      by_cases h5 : panics .clone (n + 2) = true
      · rw [if_pos h5] at hp
        subst hp
        refine ⟨Nat.le_add_right _ _, fun h => ?_,
          fun _ => ⟨.clone, n + 2, Nat.le_add_right _ _, rfl, h5⟩⟩
        rw [h .clone (n + 2) (Nat.le_add_right _ _) (Nat.lt_succ_self _)] at h5
        cases h5
      · rw [if_neg h5] at hp
        subst hp
        exact ⟨Nat.le_add_right _ _, fun _ => ⟨rfl, rfl⟩, nofun⟩
    · rw [if_neg h4] at hp
      rw [if_neg h4]
      obtain ⟨i1, i2, i3⟩ := ih e.1.stop (n + 2)
      rw [← hp] at i1 i2 i3
      exact ⟨Nat.le_trans (Nat.le_add_right _ _) i1,
        fun h => i2 (h.mono (Nat.le_add_right _ _) (Nat.le_refl _)),
        fun h => (i3 h).mono (Nat.le_add_right _ _)⟩

/-- **C72** A call of `Gaps::next` during which nothing panics is the ordinary one; it is interrupted
by the user code that ran last. -/
theorem C72_gaps_not_interrupted (panics : Panics) (g : GapsP K V) :
    g.calls ≤ (g.next panics).2.calls ∧
    (Quiet panics g.calls (g.next panics).2.calls →
      (g.next panics).1 = some g.it.next.1 ∧ (g.next panics).2.it = g.it.next.2) ∧
    ((g.next panics).1 = none → Interrupted panics g.calls (g.next panics).2.calls) :=
  gapsP_loop_quiet panics g.it.queryEnd g.it.btmRangeIter g.it.candidateStart g.calls

/-- The eighth piece of user code panics: the first call, which runs five, is not affected; the second
is interrupted. -/
example : ∃ g, Demo.map.gaps ⟨1, 50⟩ = .ok g ∧
    Quiet (fun _ i => i == 7) 0 (GapsP.next (fun _ i => i == 7) ⟨0, g⟩).2.calls ∧
    (GapsP.next (fun _ i => i == 7) (GapsP.next (fun _ i => i == 7) ⟨0, g⟩).2).1 = none := by
  refine ⟨_, rfl, ?_, rfl⟩
  intro c i _ h
  have : i < 5 := h
  simp only [beq_eq_false_iff_ne]
  omega

/-- **C71** `borrow()` is called once for each entry taken from the underlying iterator. -/
theorem C71_asks (o : OverlappingB K V) :
    o.next.2.used + o.next.2.btmRangeIter.length = o.used + o.btmRangeIter.length ∧
    o.nextBack.2.used + o.nextBack.2.btmRangeIter.length = o.used + o.btmRangeIter.length := by
  constructor
  · obtain ⟨q, u, l⟩ := o
    cases l with
    | nil => rfl
    | cons e t =>
      simp only [OverlappingB.next, Deque.next]
      split <;> simp <;> omega
  · fun_induction OverlappingB.nextBack o with
    | case1 o e he h =>
      have : o.btmRangeIter ≠ [] := by intro h'; simp [h'] at he
      have := List.length_pos_iff.2 this
      simp
      omega
    | case2 o e he h ih =>
      have : o.btmRangeIter ≠ [] := by intro h'; simp [h'] at he
      have := List.length_pos_iff.2 this
      rw [ih]
      simp
      omega
    | case3 o he => rfl

end Verif.Props

namespace Verif.Props.Inclusive
open Spec RangeInclusiveMap
variable {K : Type} [LE K] [LT K] [DecidableLE K] [DecidableLT K]
  [Std.IsLinearPreorder K] [Std.LawfulOrderLT K] {V : Type}

/-- **C72** A call of `Overlapping::next` during which nothing panics is the ordinary one. -/
theorem C72_next_not_interrupted (panics : Panics) (o : OverlappingP K V)
    (h : Quiet panics o.calls (o.next panics).2.calls) :
    (o.next panics).1 = some o.it.next.1 ∧ (o.next panics).2.it = o.it.next.2 := by
  obtain ⟨n, q, l⟩ := o
  cases l with
  | nil => exact ⟨rfl, rfl⟩
  | cons e t =>
    simp only [OverlappingP.next, Overlapping.next, Deque.next] at h ⊢
    by_cases hp : panics .cmp n = true
    · rw [if_pos hp] at h
      simp [h .cmp n (Nat.le_refl _) (by simp)] at hp
    · rw [if_neg hp]
      split <;> exact ⟨rfl, rfl⟩

/-- **C72** `Overlapping::next` is interrupted by the user code that ran last. -/
theorem C72_next_interrupted (panics : Panics) (o : OverlappingP K V)
    (h : (o.next panics).1 = none) : Interrupted panics o.calls (o.next panics).2.calls := by
  obtain ⟨n, q, l⟩ := o
  cases l with
  | nil => cases h
  | cons e t =>
    simp only [OverlappingP.next, Deque.next] at h ⊢
    by_cases hp : panics .cmp n = true
    · rw [if_pos hp]
      exact ⟨.cmp, n, Nat.le_refl _, rfl, hp⟩
    · rw [if_neg hp] at h
      split at h <;> cases h

/-- **C72** A call of `Overlapping::next_back` during which nothing panics is the ordinary one; it is
interrupted by the user code that ran last. -/
theorem C72_nextBack_not_interrupted (panics : Panics) (o : OverlappingP K V) :
    o.calls ≤ (o.nextBack panics).2.calls ∧
    (Quiet panics o.calls (o.nextBack panics).2.calls →
      (o.nextBack panics).1 = some o.it.nextBack.1 ∧
        (o.nextBack panics).2.it = o.it.nextBack.2) ∧
    ((o.nextBack panics).1 = none →
      Interrupted panics o.calls (o.nextBack panics).2.calls) := by
  fun_induction OverlappingP.nextBack panics o with
  | case1 o e he o' hp =>
    subst o'
    refine ⟨Nat.le_succ _, fun h => ?_, fun _ => ⟨.cmp, _, Nat.le_refl _, rfl, hp⟩⟩
    rw [h .cmp o.calls (Nat.le_refl _) (Nat.lt_succ_self _)] at hp
    cases hp
  | case2 o e he o' hp hlt =>
    subst o'
    refine ⟨Nat.le_succ _, fun _ => ?_, nofun⟩
    rw [Overlapping.nextBack]
    split <;> rename_i h' <;> simp only [he] at h'
    · obtain rfl := Option.some.inj h'
      rw [if_pos hlt]
      exact ⟨rfl, rfl⟩
    · cases h'
  | case3 o e he hp hlt ih =>
    obtain ⟨i1, i2, i3⟩ := ih
    simp only [] at i1 i2 i3
    refine ⟨Nat.le_trans (Nat.le_succ _) i1, fun h => ?_, fun h => (i3 h).mono (Nat.le_succ _)⟩
    have := i2 (h.mono (Nat.le_succ _) (Nat.le_refl _))
    rw [Overlapping.nextBack]
    split <;> rename_i h' <;> simp only [he] at h'
    · obtain rfl := Option.some.inj h'
      rw [if_neg hlt]
      exact this
    · cases h'
  | case4 o he =>
    refine ⟨Nat.le_refl _, fun _ => ?_, nofun⟩
    rw [Overlapping.nextBack]
    split <;> rename_i h' <;> simp only [he] at h'
    · cases h'
    · exact ⟨rfl, rfl⟩

theorem gapsP_tail_quiet {S : StepFns K} (panics : Panics) (n : Nat) (flag : Bool) (cand qe : K)
    (l : List (RangeInclusive K × V)) :
    match GapsP.nextTail S panics n flag cand qe l with
    | .error e => Gaps.nextTail S flag cand qe l = .error e
    | .ok p => n ≤ p.2.calls ∧
      (Quiet panics n p.2.calls →
        ∃ r, p.1 = some r ∧ Gaps.nextTail S flag cand qe l = .ok (r, p.2.it)) ∧
      (p.1 = none → Interrupted panics n p.2.calls) := by
  unfold GapsP.nextTail Gaps.nextTail
  simp only []
  by_cases h1 : panics .cmp n = true
  · rw [if_pos h1]
    refine ⟨Nat.le_succ _, fun h => ?_, fun _ => ⟨.cmp, n, Nat.le_refl _, rfl, h1⟩⟩
    rw [h .cmp n (Nat.le_refl _) (Nat.lt_succ_self _)] at h1
    cases h1
  rw [if_neg h1]
  by_cases hf : flag = true
  · rw [if_pos hf, if_pos hf]
    by_cases h2 : cand < qe
    · rw [if_pos h2, if_pos h2]
      by_cases h3 : panics .step (n + 1) = true
      · rw [if_pos h3]
        refine ⟨Nat.le_add_right _ _, fun h => ?_, fun _ => ⟨.step, n + 1, Nat.le_succ _, rfl, h3⟩⟩
        rw [h .step (n + 1) (Nat.le_succ _) (Nat.lt_succ_self _)] at h3
        cases h3
      · rw [if_neg h3]
        cases ha : S.addOne cand with
        | error e => exact rfl
        | ok a =>
          simp only [bind, Except.bind]
          by_cases h4 : panics .clone (n + 2) = true
          · rw [if_pos h4]
            refine ⟨Nat.le_add_right _ _, fun h => ?_,
              fun _ => ⟨.clone, n + 2, Nat.le_add_right _ _, rfl, h4⟩⟩
            rw [h .clone (n + 2) (Nat.le_add_right _ _) (Nat.lt_succ_self _)] at h4
            cases h4
          · rw [if_neg h4]
            exact ⟨Nat.le_add_right _ _, fun _ => ⟨_, rfl, rfl⟩, nofun⟩
    · rw [if_neg h2, if_neg h2]
      exact ⟨Nat.le_succ _, fun _ => ⟨_, rfl, rfl⟩, nofun⟩
  · rw [if_neg hf, if_neg hf]
    by_cases h2 : cand ≤ qe
    · rw [if_pos h2, if_pos h2]
      by_cases h3 : panics .clone (n + 1) = true
      · rw [if_pos h3]
        refine ⟨Nat.le_add_right _ _, fun h => ?_, fun _ => ⟨.clone, n + 1, Nat.le_succ _, rfl, h3⟩⟩
        rw [h .clone (n + 1) (Nat.le_succ _) (Nat.lt_succ_self _)] at h3
        cases h3
      · rw [if_neg h3]
        exact ⟨Nat.le_add_right _ _, fun _ => ⟨_, rfl, rfl⟩, nofun⟩
    · rw [if_neg h2, if_neg h2]
      exact ⟨Nat.le_succ _, fun _ => ⟨_, rfl, rfl⟩, nofun⟩

theorem gapsP_loop_quiet {S : StepFns K} (panics : Panics) (qe : K) :
    ∀ (l : List (RangeInclusive K × V)) (flag : Bool) (cand : K) (n : Nat),
    match GapsP.nextLoop S panics n flag cand qe l with
    | .error e => Gaps.nextLoop S flag cand qe l = .error e
    | .ok p => n ≤ p.2.calls ∧
      (Quiet panics n p.2.calls →
        ∃ r, p.1 = some r ∧ Gaps.nextLoop S flag cand qe l = .ok (r, p.2.it)) ∧
      (p.1 = none → Interrupted panics n p.2.calls) := by
  intro l
  induction l with
  | nil => intro flag cand n; exact gapsP_tail_quiet panics n flag cand qe []
  | cons e t ih =>
    intro flag cand n
    unfold GapsP.nextLoop Gaps.nextLoop
    simp only []
    by_cases h1 : panics .cmp n = true
    · rw [if_pos h1]
      refine ⟨Nat.le_succ _, fun h => ?_, fun _ => ⟨.cmp, n, Nat.le_refl _, rfl, h1⟩⟩
      rw [h .cmp n (Nat.le_refl _) (Nat.lt_succ_self _)] at h1
      cases h1
    rw [if_neg h1]
    by_cases h2 : qe < e.1.start
    · rw [if_pos h2, if_pos h2]
      have := gapsP_tail_quiet (S := S) panics (n + 1) flag cand qe t
      split at this
      · exact this
      · obtain ⟨i1, i2, i3⟩ := this
        exact ⟨Nat.le_trans (Nat.le_succ _) i1,
          fun h => i2 (h.mono (Nat.le_succ _) (Nat.le_refl _)), fun h => (i3 h).mono (Nat.le_succ _)⟩
    rw [if_neg h2, if_neg h2]
    generalize (if flag = true then UserCode.step else UserCode.clone) = code
    by_cases h3 : panics code (n + 1) = true
    · rw [if_pos h3]
      refine ⟨Nat.le_add_right _ _, fun h => ?_, fun _ => ⟨code, n + 1, Nat.le_succ _, rfl, h3⟩⟩
      rw [h code (n + 1) (Nat.le_succ _) (Nat.lt_succ_self _)] at h3
      cases h3
    rw [if_neg h3]
    cases hcur : Gaps.curCandidateStart S flag cand with
    | error p => exact rfl
    | ok c =>
      simp only [bind, Except.bind]
      by_cases h4 : panics .cmp (n + 2) = true
      · rw [if_pos h4]
        refine ⟨Nat.le_add_right _ _, fun h => ?_,
          fun _ => ⟨.cmp, n + 2, Nat.le_add_right _ _, rfl, h4⟩⟩
        rw [h .cmp (n + 2) (Nat.le_add_right _ _) (Nat.lt_succ_self _)] at h4
        cases h4
      rw [if_neg h4]
      by_cases h5 : c < e.1.start
      · rw [if_pos h5, if_pos h5]
        by_cases h6 : panics .step (n + 3) = true
        · rw [if_pos h6]
          refine ⟨Nat.le_add_right _ _, fun h => ?_,
            fun _ => ⟨.step, n + 3, Nat.le_add_right _ _, rfl, h6⟩⟩
          rw [h .step (n + 3) (Nat.le_add_right _ _) (Nat.lt_succ_self _)] at h6
          cases h6
        rw [if_neg h6]
        cases hd : S.subOne e.1.start with
        | error p => exact rfl
        | ok d => exact ⟨Nat.le_add_right _ _, fun _ => ⟨_, rfl, rfl⟩, nofun⟩
      · rw [if_neg h5, if_neg h5]
        have := ih true e.1.stop (n + 3)
        split at this
        · exact this
        · obtain ⟨i1, i2, i3⟩ := this
          exact ⟨Nat.le_trans (Nat.le_add_right _ _) i1,
            fun h => i2 (h.mono (Nat.le_add_right _ _) (Nat.le_refl _)),
            fun h => (i3 h).mono (Nat.le_add_right _ _)⟩

/-- **C72** A call of `Gaps::next` during which nothing panics is the ordinary one; it is interrupted
by the user code that ran last; an error of a step function is one of the ordinary call. -/
theorem C72_gaps_not_interrupted {S : StepFns K} (panics : Panics) (g : GapsP K V) :
    (∀ e, g.next S panics = .error e → g.it.next S = .error e) ∧
    ∀ p, g.next S panics = .ok p → g.calls ≤ p.2.calls ∧
      (Quiet panics g.calls p.2.calls → ∃ r, p.1 = some r ∧ g.it.next S = .ok (r, p.2.it)) ∧
      (p.1 = none → Interrupted panics g.calls p.2.calls) := by
  have h := gapsP_loop_quiet (S := S) panics g.it.queryEnd g.it.btmRangeIter
    g.it.candidateNeedsPlusOne g.it.candidateStart g.calls
  rw [← GapsP.next] at h
  constructor
  · intro e he
    rw [he] at h
    exact h
  · intro p hp
    rw [hp] at h
    exact h

/-- **C71** `borrow()` is called once for each entry taken from the underlying iterator. -/
theorem C71_asks (o : OverlappingB K V) :
    o.next.2.used + o.next.2.btmRangeIter.length = o.used + o.btmRangeIter.length ∧
    o.nextBack.2.used + o.nextBack.2.btmRangeIter.length = o.used + o.btmRangeIter.length := by
  constructor
  · obtain ⟨q, u, l⟩ := o
    cases l with
    | nil => rfl
    | cons e t =>
      simp only [OverlappingB.next, Deque.next]
      split <;> simp <;> omega
  · fun_induction OverlappingB.nextBack o with
    | case1 o e he h =>
      have : o.btmRangeIter ≠ [] := by intro h'; simp [h'] at he
      have := List.length_pos_iff.2 this
      simp
      omega
    | case2 o e he h ih =>
      have : o.btmRangeIter ≠ [] := by intro h'; simp [h'] at he
      have := List.length_pos_iff.2 this
      rw [ih]
      simp
      omega
    | case3 o he => rfl


-- `next` interrupted and not, from both ends; `borrow()` asked
example := C72_next_not_interrupted (V := Char) (fun _ i => i == 9)
  ⟨3, ⟨Demo.by8 2 22, Demo.imap.iter⟩⟩ (by
    intro c i h1 h2
    have : i < 4 := h2
    simp only at h1
    simp
    omega)
example := C72_next_interrupted (V := Char) (fun _ i => i == 3)
  ⟨3, ⟨Demo.by8 2 22, Demo.imap.iter⟩⟩ rfl
example := C72_nextBack_not_interrupted (V := Char) (fun _ i => i == 4)
  ⟨3, ⟨Demo.by8 2 22, Demo.imap.iter⟩⟩
example := C72_gaps_not_interrupted (S := Demo.u8) (V := Char) (fun _ i => i == 4)
  ⟨3, ⟨true, ⟨2⟩, ⟨255⟩, Demo.imap.iter⟩⟩
example := C71_asks (V := Char) ⟨fun n => Demo.by8 n 22, 0, Demo.imap.iter⟩
example := Props.C72_next_not_interrupted (V := Char) (fun _ i => i == 9)
  ⟨3, ⟨⟨2, 22⟩, Demo.map.iter⟩⟩ (by
    intro c i h1 h2
    have : i < 4 := h2
    simp only at h1
    simp
    omega)
example := Props.C72_next_interrupted (V := Char) (fun _ i => i == 3)
  ⟨3, ⟨⟨2, 22⟩, Demo.map.iter⟩⟩ rfl
example := Props.C72_nextBack_not_interrupted (V := Char) (fun _ i => i == 4)
  ⟨3, ⟨⟨2, 22⟩, Demo.map.iter⟩⟩
example := Props.C71_asks (V := Char) ⟨fun n => ⟨n, 22⟩, 0, Demo.map.iter⟩

end Verif.Props.Inclusive

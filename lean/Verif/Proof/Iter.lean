import Verif.Proof.Canon
import Verif.Model.Iter

/-!
# Proofs about the iterators of `RangeMap`
-/
set_option linter.unusedSectionVars false
set_option linter.unusedVariables false

namespace Verif
open Spec

theorem take_replicate_succ {α : Type} (l : List (Option α)) (n : Nat) :
    (l ++ List.replicate (n + 1) none).take n = (l ++ List.replicate n none).take n := by
  rw [List.replicate_succ', ← List.append_assoc, List.take_append_of_le_length]
  simp

theorem Yields.cons {S α : Type} {next : S → Option α × S} {s s' : S} {a : α} {l : List α}
    (h : next s = (some a, s')) (hl : Yields next s' l) : Yields next s (a :: l) := by
  intro n
  cases n with
  | zero => rfl
  | succ n =>
    simp only [calls, h, hl n, List.map_cons, List.cons_append, List.take_succ_cons]
    rw [take_replicate_succ]

/-- A state in which `next` returns `None` and stays in such a state yields nothing. -/
theorem Yields.nil {S α : Type} {next : S → Option α × S} (P : S → Prop)
    (hP : ∀ s, P s → (next s).1 = none ∧ P (next s).2) {s : S} (hs : P s) :
    Yields next s [] := by
  intro n
  induction n generalizing s with
  | zero => rfl
  | succ n ih =>
    have := hP s hs
    have ih := ih this.2
    simp only [calls, this.1, ih]
    simp [List.replicate_succ, List.take_replicate]

/-- `for`/`collect` over such an iterator gives the list. -/
theorem Yields.drain {S α : Type} {next : S → Option α × S} {s : S} {l : List α}
    (h : Yields next s l) {fuel : Nat} (hf : l.length + 1 ≤ fuel) :
    Verif.drain next fuel s = .ok l := by
  induction l generalizing s fuel with
  | nil =>
    obtain ⟨f, rfl⟩ : ∃ f, fuel = f + 1 := ⟨fuel - 1, by omega⟩
    have := h 1
    simp only [calls, List.map_nil, List.nil_append] at this
    have : (next s).1 = none := by simpa using this
    unfold Verif.drain
    split
    · rfl
    · simp_all
  | cons a l ih =>
    simp only [List.length_cons] at hf
    obtain ⟨f, rfl⟩ : ∃ f, fuel = f + 1 := ⟨fuel - 1, by omega⟩
    have h1 : (next s).1 = some a := by
      have := h 1
      simpa [calls] using this
    have h2 : Yields next (next s).2 l := by
      intro n
      have := h (n + 1)
      simp only [calls, List.map_cons, List.cons_append, List.take_succ_cons,
        List.cons.injEq] at this
      rw [this.2, take_replicate_succ]
    unfold Verif.drain
    split
    · simp_all
    · rename_i b s' hb
      rw [hb] at h1 h2
      cases h1
      rw [ih h2 (by omega)]
      rfl

namespace RangeMap
variable {K : Type} [LE K] [LT K] [DecidableLE K] [DecidableLT K]
  [Std.IsLinearPreorder K] [Std.LawfulOrderLT K] {V : Type}

/-! ### overlapping -/

theorem overlapping_ok (m : RangeMap K V) (q : Range K) :
    m.overlapping q = .ok ⟨q, m.btm.filter fun e => decide (q.start < e.1.stop)⟩ := by
  unfold overlapping
  rw [BTreeMap.range_ok rfl]
  simp [Bound.admitsAsLower, Bound.admitsAsUpper, bind, Except.bind, pure, Except.pure]

/-- Entries sorted by start. -/
def StartSorted (l : List (Range K × V)) : Prop := l.Pairwise fun a b => a.1.start < b.1.start

theorem Sep.startSorted {l : List (Range K × V)} (h : Sep l) : StartSorted l :=
  h.pw.imp fun h => h.1

/-- What an `Overlapping` iterator has still to yield. -/
def Overlapping.items (o : Overlapping K V) : List (Range K × V) :=
  o.btmRangeIter.filter fun e => decide (e.1.start < o.queryRange.stop)

theorem Overlapping.next_spec (o : Overlapping K V) (h : StartSorted o.btmRangeIter) :
    o.next.1 = o.items.head? ∧ o.next.2.items = o.items.tail ∧
      StartSorted o.next.2.btmRangeIter := by
  obtain ⟨q, l⟩ := o
  cases l with
  | nil => exact ⟨rfl, rfl, h⟩
  | cons e t =>
    have hh := List.pairwise_cons.1 h
    by_cases he : e.1.start < q.stop
    · simp [next, Deque.next, items, he]
      exact hh.2
    · have : t.filter (fun e => decide (e.1.start < q.stop)) = [] := by
        rw [List.filter_eq_nil_iff]
        intro x hx
        have := hh.1 x hx
        grind
      simp [next, Deque.next, items, he, this]
      exact hh.2

theorem Overlapping.nextBack_spec (o : Overlapping K V) (h : StartSorted o.btmRangeIter) :
    o.nextBack.1 = o.items.getLast? ∧ o.nextBack.2.items = o.items.dropLast ∧
      StartSorted o.nextBack.2.btmRangeIter := by
  fun_induction nextBack o with
  | case1 o e hl he =>
    obtain ⟨l, hl'⟩ := List.getLast?_eq_some_iff.1 hl
    simp only [items, hl', List.dropLast_concat, List.filter_append]
    simp only [List.filter_cons, he, decide_true, if_true, List.filter_nil]
    refine ⟨by simp, by simp, ?_⟩
    rw [hl'] at h
    exact h.sublist (List.sublist_append_left _ _)
  | case2 o e hl he ih =>
    obtain ⟨l, hl'⟩ := List.getLast?_eq_some_iff.1 hl
    have hd : o.btmRangeIter.dropLast = l := by rw [hl']; simp
    have hs : StartSorted l := by
      rw [hl'] at h
      exact h.sublist (List.sublist_append_left _ _)
    have hitems : o.items = (⟨o.queryRange, l⟩ : Overlapping K V).items := by
      simp [items, hl', he]
    rw [hd] at ih ⊢
    rw [hitems]
    exact ih hs
  | case3 o hl =>
    have : o.btmRangeIter = [] := by simpa using hl
    simp [items, this]
    exact List.Pairwise.nil

theorem Overlapping.script_spec (cs : List End) : ∀ (o : Overlapping K V),
    StartSorted o.btmRangeIter → script next nextBack cs o = dequeScript cs o.items := by
  induction cs with
  | nil => intros; rfl
  | cons c cs ih =>
    intro o h
    cases c with
    | front =>
      obtain ⟨h1, h2, h3⟩ := next_spec o h
      simp only [script, dequeScript, h1, ih _ h3, h2]
    | back =>
      obtain ⟨h1, h2, h3⟩ := nextBack_spec o h
      simp only [script, dequeScript, h1, ih _ h3, h2]

theorem Overlapping.yields (o : Overlapping K V) (h : StartSorted o.btmRangeIter) :
    Yields next o o.items := by
  generalize hl : o.items = l
  induction l generalizing o with
  | nil =>
    refine Yields.nil (fun o => StartSorted o.btmRangeIter ∧ o.items = []) ?_ ⟨h, hl⟩
    rintro s ⟨h1, h2⟩
    have := next_spec s h1
    rw [h2] at this
    exact ⟨by simpa using this.1, this.2.2, by simpa using this.2.1⟩
  | cons a l ih =>
    obtain ⟨h1, h2, h3⟩ := next_spec o h
    rw [hl] at h1 h2
    refine Yields.cons (s' := o.next.2) ?_ (ih _ h3 h2)
    rw [← show o.next.1 = some a from h1]

/-- `overlapping` and what it has to yield. -/
theorem overlapping_items {m : RangeMap K V} (h : Sep m.btm) (q : Range K) :
    ∃ o, m.overlapping q = .ok o ∧ StartSorted o.btmRangeIter ∧
      o.items = m.btm.filter fun e => decide (q.start < e.1.stop) && decide (e.1.start < q.stop) := by
  refine ⟨_, overlapping_ok m q, h.startSorted.filter _, ?_⟩
  simp only [Overlapping.items, List.filter_filter]
  congr 1
  funext e
  rw [Bool.and_comm]

/-! ### gaps -/

/-- The gaps a `Gaps` iterator has still to yield. -/
def gapsList (qe : K) : K → List (Range K × V) → List (Range K)
  | cand, [] => if cand < qe then [⟨cand, qe⟩] else []
  | cand, e :: t =>
    if qe ≤ e.1.start then (if cand < qe then [⟨cand, qe⟩] else [])
    else if cand < e.1.start then ⟨cand, e.1.start⟩ :: gapsList qe e.1.stop t
    else gapsList qe e.1.stop t

theorem nextTail_yields {cand qe : K} {rest : List (Range K × V)}
    (h : ∀ e ∈ rest, qe ≤ e.1.start) {s : Gaps K V} (hs : s.next = Gaps.nextTail cand qe rest) :
    Yields Gaps.next s (if cand < qe then [⟨cand, qe⟩] else []) := by
  have hP : ∀ s : Gaps K V, (¬ s.candidateStart < s.queryEnd ∧
      ∀ e ∈ s.btmRangeIter, s.queryEnd ≤ e.1.start) → (s.next.1 = none ∧
      (¬ s.next.2.candidateStart < s.next.2.queryEnd ∧
      ∀ e ∈ s.next.2.btmRangeIter, s.next.2.queryEnd ≤ e.1.start)) := by
    rintro ⟨c, q, l⟩ ⟨h1, h2⟩
    simp only at h1 h2
    cases l with
    | nil => simp [Gaps.next, Gaps.nextLoop, Gaps.nextTail, h1]
    | cons e t =>
      have := h2 e (by simp)
      simp [Gaps.next, Gaps.nextLoop, Gaps.nextTail, h1, this]
      intro a b hab
      exact h2 (a, b) (by simp [hab])
  unfold Gaps.nextTail at hs
  split
  · rename_i hlt
    rw [if_pos hlt] at hs
    exact Yields.cons hs (Yields.nil _ hP ⟨by grind, h⟩)
  · rename_i hlt
    rw [if_neg hlt] at hs
    intro n
    cases n with
    | zero => rfl
    | succ n =>
      have := Yields.nil (next := Gaps.next) _ hP (s := ⟨cand, qe, rest⟩) ⟨hlt, h⟩ n
      simp only [calls, hs, this]
      simp [List.replicate_succ, List.take_replicate]

theorem gaps_yields (qe : K) : ∀ (l : List (Range K × V)) (cand : K), StartSorted l →
    ∀ s : Gaps K V, s.next = Gaps.nextLoop cand qe l → Yields Gaps.next s (gapsList qe cand l) := by
  intro l
  induction l with
  | nil =>
    intro cand _ s hs
    exact nextTail_yields (by simp) hs
  | cons e t ih =>
    intro cand hsort s hs
    have hsort := List.pairwise_cons.1 hsort
    unfold Gaps.nextLoop at hs
    unfold gapsList
    split
    · rename_i h
      rw [if_pos h] at hs
      refine nextTail_yields ?_ hs
      intro x hx
      have := hsort.1 x hx
      grind
    · rename_i h
      rw [if_neg h] at hs
      split
      · rename_i h'
        rw [if_pos h'] at hs
        exact Yields.cons hs (ih _ hsort.2 _ rfl)
      · rename_i h'
        rw [if_neg h'] at hs
        exact ih _ hsort.2 _ hs

/-- Condition on the state: sorted disjoint entries, none ending before the candidate. -/
def GapsOk (cand : K) (l : List (Range K × V)) : Prop := Sep l ∧ ∀ e ∈ l, cand ≤ e.1.stop

theorem GapsOk.tail {cand : K} {e : Range K × V} {t : List (Range K × V)}
    (h : GapsOk cand (e :: t)) : GapsOk e.1.stop t := by
  have hp := List.pairwise_cons.1 h.1.pw
  refine ⟨⟨hp.2, fun x hx => h.1.ne x (by simp [hx])⟩, ?_⟩
  intro x hx
  have := hp.1 x hx
  have := h.1.ne x (by simp [hx])
  grind [Before]

/-- The keys in the yielded gaps. -/
theorem gapsList_mem (qe : K) : ∀ (l : List (Range K × V)) (cand : K), GapsOk cand l → ∀ k,
    (∃ g ∈ gapsList qe cand l, g.start ≤ k ∧ k < g.stop) ↔
      cand ≤ k ∧ k < qe ∧ ∀ e ∈ l, ¬ (e.1.start ≤ k ∧ k < e.1.stop) := by
  intro l
  induction l with
  | nil =>
    intro cand _ k
    unfold gapsList
    constructor
    · grind
    · intro hk
      rw [if_pos (by grind)]
      exact ⟨_, List.mem_singleton.2 rfl, hk.1, hk.2.1⟩
  | cons e t ih =>
    intro cand h k
    have ih := ih e.1.stop h.tail k
    have hp := List.pairwise_cons.1 h.1.pw
    have h1 := h.1.ne e (by simp)
    have h2 := h.2 e (by simp)
    unfold gapsList
    split
    · rename_i hqe
      constructor
      · intro hk
        refine ⟨by grind, by grind, ?_⟩
        intro x hx
        have := hp.1 x
        grind [Before]
      · intro hk
        rw [if_pos (by grind)]
        exact ⟨_, List.mem_singleton.2 rfl, hk.1, hk.2.1⟩
    · split
      · simp only [List.mem_cons, exists_eq_or_imp, ih]
        constructor
        · rintro (hk | hk)
          · refine ⟨by grind, by grind, ?_⟩
            intro x hx
            have := hp.1 x
            grind [Before]
          · refine ⟨by grind, by grind, ?_⟩
            intro x hx
            have := hk.2.2 x
            grind
        · intro hk
          have := hk.2.2 e (Or.inl rfl)
          grind
      · rw [ih]
        constructor
        · intro hk
          refine ⟨by grind, by grind, ?_⟩
          intro x hx
          rcases List.mem_cons.1 hx with rfl | hx
          · grind
          · exact hk.2.2 x hx
        · intro hk
          have := hk.2.2 e (by simp)
          exact ⟨by grind, by grind, fun x hx => hk.2.2 x (by simp [hx])⟩

/-- Shape of the yielded gaps. -/
theorem gapsList_shape (qe : K) : ∀ (l : List (Range K × V)) (cand : K), GapsOk cand l →
    (∀ g ∈ gapsList qe cand l, g.start < g.stop ∧ cand ≤ g.start ∧ g.stop ≤ qe ∧
      (g.start = cand ∨ ∃ e ∈ l, e.1.stop = g.start) ∧
      (g.stop = qe ∨ ∃ e ∈ l, e.1.start = g.stop ∧ e.1.start < qe)) ∧
    (gapsList qe cand l).Pairwise (fun g g' =>
      g.stop < g'.start ∧ ∃ e ∈ l, e.1.start = g.stop ∧ e.1.start < qe) := by
  intro l
  induction l with
  | nil =>
    intro cand _
    unfold gapsList
    split
    · rename_i h
      refine ⟨?_, by simp⟩
      intro g hg
      rw [List.mem_singleton] at hg
      subst hg
      exact ⟨h, by grind, by grind, Or.inl rfl, Or.inl rfl⟩
    · simp
  | cons e t ih =>
    intro cand h
    obtain ⟨ih1, ih2⟩ := ih e.1.stop h.tail
    have h1 := h.1.ne e (by simp)
    have h2 := h.2 e (by simp)
    have ih1' : ∀ g ∈ gapsList qe e.1.stop t, g.start < g.stop ∧ cand ≤ g.start ∧ g.stop ≤ qe ∧
        (g.start = cand ∨ ∃ x ∈ e :: t, x.1.stop = g.start) ∧
        (g.stop = qe ∨ ∃ x ∈ e :: t, x.1.start = g.stop ∧ x.1.start < qe) := by
      intro g hg
      obtain ⟨a1, a2, a3, a4, a5⟩ := ih1 g hg
      refine ⟨a1, by grind, a3, ?_, ?_⟩
      · right
        rcases a4 with a4 | ⟨x, hx, a4⟩
        · exact ⟨e, by simp, a4.symm⟩
        · exact ⟨x, by simp [hx], a4⟩
      · rcases a5 with a5 | ⟨x, hx, a5⟩
        · exact Or.inl a5
        · exact Or.inr ⟨x, by simp [hx], a5⟩
    have ih2' : (gapsList qe e.1.stop t).Pairwise (fun g g' =>
        g.stop < g'.start ∧ ∃ x ∈ e :: t, x.1.start = g.stop ∧ x.1.start < qe) := by
      refine ih2.imp ?_
      rintro g g' ⟨a1, x, hx, a2⟩
      exact ⟨a1, x, by simp [hx], a2⟩
    unfold gapsList
    split
    · split
      · refine ⟨?_, by simp⟩
        intro g hg
        rw [List.mem_singleton] at hg
        subst hg
        rename_i hlt
        exact ⟨hlt, by grind, by grind, Or.inl rfl, Or.inl rfl⟩
      · simp
    · split
      · rename_i hq hc
        refine ⟨?_, ?_⟩
        · intro g hg
          rcases List.mem_cons.1 hg with rfl | hg
          · exact ⟨hc, by grind, by grind, Or.inl rfl, Or.inr ⟨e, by simp, rfl, by grind⟩⟩
          · exact ih1' g hg
        · refine List.pairwise_cons.2 ⟨?_, ih2'⟩
          intro g' hg'
          have := ih1 g' hg'
          exact ⟨by grind, e, by simp, rfl, by grind⟩
      · exact ⟨ih1', ih2'⟩

theorem gaps_ok (m : RangeMap K V) (q : Range K) :
    m.gaps q = .ok ⟨q.start, q.stop, m.btm.filter fun e => decide (q.start < e.1.stop)⟩ := by
  simp [gaps, overlapping_ok, bind, Except.bind, pure, Except.pure]

theorem gaps_spec {m : RangeMap K V} (h : Sep m.btm) (q : Range K) :
    ∃ g, m.gaps q = .ok g ∧ Yields Gaps.next g (gapsList q.stop q.start
      (m.btm.filter fun e => decide (q.start < e.1.stop))) ∧
      GapsOk q.start (m.btm.filter fun e => decide (q.start < e.1.stop)) := by
  refine ⟨_, gaps_ok m q, gaps_yields _ _ _ (h.startSorted.filter _) _ rfl,
    ⟨h.pw.filter _, ?_⟩, ?_⟩
  · intro e he
    rw [List.mem_filter] at he
    exact h.ne e he.1
  · intro e he
    rw [List.mem_filter] at he
    grind

/-! ### tiling -/

theorem tiles_congr {a a' b : K} {ps : List (Range K)} (h : Tiles a ps b) (h1 : a ≤ a')
    (h2 : a' ≤ a) : Tiles a' ps b := by
  cases ps with
  | nil => simp only [Tiles] at *; grind
  | cons p ps => simp only [Tiles] at *; grind

theorem filter_past {l : List (Range K × V)} {qe : K} (h : ∀ e ∈ l, qe ≤ e.1.start) :
    (l.filter fun e => decide (e.1.start < qe)) = [] := by
  rw [List.filter_eq_nil_iff]
  intro e he
  have := h e he
  grind

theorem gapsList_past {l : List (Range K × V)} {qe cand : K} (h : ∀ e ∈ l, qe ≤ e.1.start)
    (hc : qe ≤ cand) : gapsList qe cand l = [] := by
  unfold gapsList
  cases l with
  | nil => simp only; grind
  | cons e t =>
    have := h e (by simp)
    simp only
    grind

theorem tiles (q : Range K) : ∀ (l : List (Range K × V)) (cand : K), GapsOk cand l →
    (∀ e ∈ l, cand < e.1.stop) → cand < q.stop →
    ∃ ps, ps.Perm ((l.filter fun e => decide (e.1.start < q.stop)).map
        (fun e => (⟨rmax cand e.1.start, rmin q.stop e.1.stop⟩ : Range K)) ++
      gapsList q.stop cand l) ∧ Tiles cand ps q.stop := by
  intro l
  induction l with
  | nil =>
    intro cand h _ hq
    unfold gapsList
    rw [if_pos hq]
    refine ⟨[⟨cand, q.stop⟩], by simp, ?_⟩
    simp only [Tiles]
    grind
  | cons e t ih =>
    intro cand h hs hq
    have hp := List.pairwise_cons.1 h.1.pw
    have hne := h.1.ne e (by simp)
    have hes := hs e (by simp)
    by_cases hqe : q.stop ≤ e.1.start
    · have : ∀ x ∈ e :: t, q.stop ≤ x.1.start := by
        intro x hx
        have := hp.1 x
        grind [Before]
      rw [filter_past this]
      unfold gapsList
      rw [if_pos hqe, if_pos hq]
      refine ⟨[⟨cand, q.stop⟩], by simp, ?_⟩
      simp only [Tiles]
      grind
    · have hlt : e.1.start < q.stop := by grind
      -- the pieces after `e`
      have hrest : ∃ ps, ps.Perm ((t.filter fun e => decide (e.1.start < q.stop)).map
          (fun e => (⟨rmax cand e.1.start, rmin q.stop e.1.stop⟩ : Range K)) ++
          gapsList q.stop e.1.stop t) ∧ Tiles (rmin q.stop e.1.stop) ps q.stop := by
        by_cases hstop : e.1.stop < q.stop
        · obtain ⟨ps, h1, h2⟩ := ih e.1.stop h.tail (by
            intro x hx
            have := hp.1 x hx
            have := h.1.ne x (by simp [hx])
            grind [Before]) hstop
          refine ⟨ps, ?_, ?_⟩
          · rw [List.map_congr_left (g := fun e : Range K × V =>
              (⟨rmax cand e.1.start, rmin q.stop e.1.stop⟩ : Range K))] at h1
            · exact h1
            · intro x hx
              have := hp.1 x (List.mem_filter.1 hx).1
              simp only [rmax]
              rw [if_neg (by grind [Before]), if_neg (by grind [Before])]
          · refine tiles_congr h2 ?_ ?_
            · rw [le_rmin]; grind
            · rw [rmin_le]; grind
        · have : ∀ x ∈ t, q.stop ≤ x.1.start := by
            intro x hx
            have := hp.1 x hx
            grind [Before]
          refine ⟨[], ?_, ?_⟩
          · rw [filter_past this, gapsList_past this (by grind)]
            simp
          · simp only [Tiles, rmin_le, le_rmin]
            grind
      obtain ⟨ps, hperm, htiles⟩ := hrest
      have hpiece : rmax cand e.1.start < rmin q.stop e.1.stop := by
        rw [lt_rmin, rmax_lt, rmax_lt]
        grind
      simp only [List.filter_cons, hlt, decide_true, if_true, List.map_cons, List.cons_append]
      unfold gapsList
      rw [if_neg hqe]
      by_cases hc : cand < e.1.start
      · rw [if_pos hc]
        refine ⟨⟨cand, e.1.start⟩ :: ⟨rmax cand e.1.start, rmin q.stop e.1.stop⟩ :: ps, ?_, ?_⟩
        · refine (List.Perm.swap _ _ _).trans (List.Perm.cons _ ?_)
          exact (List.Perm.cons _ hperm).trans List.perm_middle.symm
        · refine ⟨by simp only; grind, hc, ⟨?_, ?_⟩, hpiece, htiles⟩
          · simp only [le_rmax]; grind
          · simp only [rmax_le]; grind
      · rw [if_neg hc]
        refine ⟨⟨rmax cand e.1.start, rmin q.stop e.1.stop⟩ :: ps, List.Perm.cons _ hperm,
          ⟨?_, ?_⟩, hpiece, htiles⟩
        · simp only [le_rmax]; grind
        · simp only [rmax_le]; grind

end RangeMap
end Verif

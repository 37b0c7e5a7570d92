import Verif.Proof.IReach
import Verif.Proof.IExt
import Verif.Proof.Iter
import Verif.Model.IIter

/-!
# Proofs about the iterators of `RangeInclusiveMap`
-/
set_option linter.unusedSectionVars false
set_option linter.unusedVariables false

namespace Verif
open Spec

theorem YieldsE.cons {S α : Type} {next : S → Except Panic (Option α × S)} {s s' : S} {a : α}
    {l : List α} (h : next s = .ok (some a, s')) (hl : YieldsE next s' l) :
    YieldsE next s (a :: l) := by
  intro n
  cases n with
  | zero => rfl
  | succ n =>
    simp only [callsE, h, hl n, List.map_cons, List.cons_append, List.take_succ_cons]
    rw [take_replicate_succ]
    rfl

theorem YieldsE.nil {S α : Type} {next : S → Except Panic (Option α × S)} (P : S → Prop)
    (hP : ∀ s, P s → ∃ s', next s = .ok (none, s') ∧ P s') {s : S} (hs : P s) :
    YieldsE next s [] := by
  intro n
  induction n generalizing s with
  | zero => rfl
  | succ n ih =>
    obtain ⟨s', h1, h2⟩ := hP s hs
    simp only [callsE, h1, ih h2]
    simp [List.replicate_succ, List.take_replicate, Except.map]

theorem YieldsE.drain {S α : Type} {next : S → Except Panic (Option α × S)} {s : S} {l : List α}
    (h : YieldsE next s l) {fuel : Nat} (hf : l.length + 1 ≤ fuel) :
    drainE next fuel s = .ok l := by
  induction l generalizing s fuel with
  | nil =>
    obtain ⟨f, rfl⟩ : ∃ f, fuel = f + 1 := ⟨fuel - 1, by omega⟩
    have := h 1
    simp only [callsE] at this
    unfold drainE
    cases hn : next s with
    | error p => simp [hn] at this
    | ok x =>
      obtain ⟨a, s'⟩ := x
      simp [hn, Except.map] at this
      subst this
      rfl
  | cons a l ih =>
    simp only [List.length_cons] at hf
    obtain ⟨f, rfl⟩ : ∃ f, fuel = f + 1 := ⟨fuel - 1, by omega⟩
    unfold drainE
    have h1 := h 1
    simp only [callsE] at h1
    cases hn : next s with
    | error p => simp [hn] at h1
    | ok x =>
      obtain ⟨b, s'⟩ := x
      simp [hn, Except.map] at h1
      subst h1
      have h2 : YieldsE next s' l := by
        intro n
        have := h (n + 1)
        simp only [callsE, hn, List.map_cons, List.cons_append, List.take_succ_cons] at this
        cases hc : callsE next n s' with
        | error p => simp [hc, Except.map] at this
        | ok y =>
          simp [hc, Except.map] at this
          rw [this, take_replicate_succ]
      simp [bind, Except.bind, pure, Except.pure, ih h2 (fuel := f) (by omega)]

namespace RangeInclusiveMap
variable {K : Type} [LE K] [LT K] [DecidableLE K] [DecidableLT K]
  [Std.IsLinearPreorder K] [Std.LawfulOrderLT K] {V : Type}

/-! ### overlapping -/

theorem overlapping_ok (m : RangeInclusiveMap K V) (q : RangeInclusive K) :
    m.overlapping q = .ok ⟨q, m.btm.filter fun e => decide (q.start ≤ e.1.stop)⟩ := by
  unfold overlapping
  rw [BTreeMap.range_ok rfl]
  simp [Bound.admitsAsLower, Bound.admitsAsUpper, bind, Except.bind, pure, Except.pure]

/-- Entries sorted by start. -/
def StartSorted (l : List (RangeInclusive K × V)) : Prop :=
  l.Pairwise fun a b => a.1.start < b.1.start

theorem Sep.startSorted {l : List (RangeInclusive K × V)} (h : Sep l) : StartSorted l :=
  h.pw.imp fun h => h.1

/-- What an `Overlapping` iterator has still to yield. -/
def Overlapping.items (o : Overlapping K V) : List (RangeInclusive K × V) :=
  o.btmRangeIter.filter fun e => decide (e.1.start ≤ o.queryRange.stop)

theorem Overlapping.next_spec (o : Overlapping K V) (h : StartSorted o.btmRangeIter) :
    o.next.1 = o.items.head? ∧ o.next.2.items = o.items.tail ∧
      StartSorted o.next.2.btmRangeIter := by
  obtain ⟨q, l⟩ := o
  cases l with
  | nil => exact ⟨rfl, rfl, h⟩
  | cons e t =>
    have hh := List.pairwise_cons.1 h
    by_cases he : e.1.start ≤ q.stop
    · simp [next, Deque.next, items, he]
      exact hh.2
    · have : t.filter (fun e => decide (e.1.start ≤ q.stop)) = [] := by
        rw [List.filter_eq_nil_iff]
        intro x hx
        have := hh.1 x hx
        grind
      simp [next, Deque.next, items, he, this]
      exact hh.2

theorem Overlapping.nextBack_spec (o : Overlapping K V) (h : StartSorted o.btmRangeIter) :
    o.nextBack.1 = o.items.getLast? ∧ o.nextBack.2.items = o.items.dropLast ∧
      StartSorted o.nextBack.2.btmRangeIter := by
  fun_induction nextBack o with
  | case1 o e hl he =>
    obtain ⟨l, hl'⟩ := List.getLast?_eq_some_iff.1 hl
    simp only [items, hl', List.dropLast_concat, List.filter_append]
    simp only [List.filter_cons, he, decide_true, if_true, List.filter_nil]
    refine ⟨by simp, by simp, ?_⟩
    rw [hl'] at h
    exact h.sublist (List.sublist_append_left _ _)
  | case2 o e hl he ih =>
    obtain ⟨l, hl'⟩ := List.getLast?_eq_some_iff.1 hl
    have hd : o.btmRangeIter.dropLast = l := by rw [hl']; simp
    have hs : StartSorted l := by
      rw [hl'] at h
      exact h.sublist (List.sublist_append_left _ _)
    have hitems : o.items = (⟨o.queryRange, l⟩ : Overlapping K V).items := by
      simp [items, hl', he]
    rw [hd] at ih ⊢
    rw [hitems]
    exact ih hs
  | case3 o hl =>
    have : o.btmRangeIter = [] := by simpa using hl
    simp [items, this]
    exact List.Pairwise.nil

theorem Overlapping.script_spec (cs : List End) : ∀ (o : Overlapping K V),
    StartSorted o.btmRangeIter → script next nextBack cs o = dequeScript cs o.items := by
  induction cs with
  | nil => intros; rfl
  | cons c cs ih =>
    intro o h
    cases c with
    | front =>
      obtain ⟨h1, h2, h3⟩ := next_spec o h
      simp only [script, dequeScript, h1, ih _ h3, h2]
    | back =>
      obtain ⟨h1, h2, h3⟩ := nextBack_spec o h
      simp only [script, dequeScript, h1, ih _ h3, h2]

theorem Overlapping.yields (o : Overlapping K V) (h : StartSorted o.btmRangeIter) :
    Yields next o o.items := by
  generalize hl : o.items = l
  induction l generalizing o with
  | nil =>
    refine Yields.nil (fun o => StartSorted o.btmRangeIter ∧ o.items = []) ?_ ⟨h, hl⟩
    rintro s ⟨h1, h2⟩
    have := next_spec s h1
    rw [h2] at this
    exact ⟨by simpa using this.1, this.2.2, by simpa using this.2.1⟩
  | cons a l ih =>
    obtain ⟨h1, h2, h3⟩ := next_spec o h
    rw [hl] at h1 h2
    refine Yields.cons (s' := o.next.2) ?_ (ih _ h3 h2)
    rw [← show o.next.1 = some a from h1]

/-- `overlapping` and what it has to yield. -/
theorem overlapping_items {m : RangeInclusiveMap K V} (h : Sep m.btm) (q : RangeInclusive K) :
    ∃ o, m.overlapping q = .ok o ∧ StartSorted o.btmRangeIter ∧
      o.items = m.btm.filter fun e => decide (q.start ≤ e.1.stop) && decide (e.1.start ≤ q.stop) := by
  refine ⟨_, overlapping_ok m q, h.startSorted.filter _, ?_⟩
  simp only [Overlapping.items, List.filter_filter]
  congr 1
  funext e
  rw [Bool.and_comm]

/-! ### gaps -/

/-- The keys from the candidate on. -/
def Lo (flag : Bool) (cand k : K) : Prop := if flag then cand < k else cand ≤ k

/-- The first of these keys. -/
def First (flag : Bool) (cand s : K) : Prop := if flag then Next cand s else cand ≤ s ∧ s ≤ cand

/-- Condition on the state of a `Gaps` iterator. -/
structure GapsOk (flag : Bool) (cand : K) (l : List (RangeInclusive K × V)) : Prop where
  sep : Sep l
  lo : ∀ e ∈ l, cand ≤ e.1.stop ∧ (flag = true → cand < e.1.start)

theorem GapsOk.tail {flag : Bool} {cand : K} {e : RangeInclusive K × V}
    {t : List (RangeInclusive K × V)} (h : GapsOk flag cand (e :: t)) :
    GapsOk true e.1.stop t := by
  have hp := List.pairwise_cons.1 h.sep.pw
  refine ⟨⟨hp.2, fun x hx => h.sep.ne x (by simp [hx])⟩, ?_⟩
  intro x hx
  have := hp.1 x hx
  have := h.sep.ne x (by simp [hx])
  grind [Before]

/-- What is claimed about the gaps `gs` still to be yielded. -/
structure GapsProps (flag : Bool) (cand qe : K) (l : List (RangeInclusive K × V))
    (gs : List (RangeInclusive K)) : Prop where
  mem : ∀ k, (∃ g ∈ gs, g.start ≤ k ∧ k ≤ g.stop) ↔
    Lo flag cand k ∧ k ≤ qe ∧ ∀ e ∈ l, ¬ (e.1.start ≤ k ∧ k ≤ e.1.stop)
  shape : ∀ g ∈ gs, g.start ≤ g.stop ∧ g.exhausted = false ∧ Lo flag cand g.start ∧ g.stop ≤ qe ∧
    (First flag cand g.start ∨ ∃ e ∈ l, Next e.1.stop g.start) ∧
    (g.stop = qe ∨ ∃ e ∈ l, Next g.stop e.1.start ∧ e.1.start ≤ qe)
  pw : gs.Pairwise fun g g' => ∃ e ∈ l, Next g.stop e.1.start ∧ e.1.stop < g'.start

theorem tail_done {S : StepFns K} {qe : K} {s : Gaps K V}
    (h : s.candidateNeedsPlusOne = true ∧ ¬ s.candidateStart < s.queryEnd ∧
      ∀ e ∈ s.btmRangeIter, s.queryEnd < e.1.start) :
    YieldsE (Gaps.next S) s [] := by
  refine YieldsE.nil (fun s : Gaps K V => s.candidateNeedsPlusOne = true ∧
    ¬ s.candidateStart < s.queryEnd ∧ ∀ e ∈ s.btmRangeIter, s.queryEnd < e.1.start) ?_ h
  rintro ⟨f, c, q, l⟩ ⟨h1, h2, h3⟩
  simp only at h1 h2 h3
  subst h1
  cases l with
  | nil =>
    refine ⟨⟨true, q, q, []⟩, ?_, rfl, by grind, by simp⟩
    simp [Gaps.next, Gaps.nextLoop, Gaps.nextTail, h2, pure, Except.pure]
  | cons e t =>
    have := h3 e (by simp)
    refine ⟨⟨true, q, q, t⟩, ?_, rfl, by simp only; grind, fun x hx => h3 x (by simp [hx])⟩
    simp [Gaps.next, Gaps.nextLoop, Gaps.nextTail, h2, this, pure, Except.pure]

theorem YieldsE.none {S α : Type} {next : S → Except Panic (Option α × S)} {s s' : S}
    (h : next s = .ok (none, s')) (hl : YieldsE next s' []) : YieldsE next s [] := by
  intro n
  cases n with
  | zero => rfl
  | succ n =>
    have := hl n
    simp only [callsE, h, this]
    simp [List.replicate_succ, List.take_replicate, Except.map]

theorem nextTail_yields {S : StepFns K} (hS : LawfulSteps S) {flag : Bool} {cand qe : K}
    {l rest : List (RangeInclusive K × V)} (hl : ∀ e ∈ l, qe < e.1.start)
    (h : ∀ e ∈ rest, qe < e.1.start) {s : Gaps K V}
    (hs : s.next S = Gaps.nextTail S flag cand qe rest) :
    ∃ gs, YieldsE (Gaps.next S) s gs ∧ GapsProps flag cand qe l gs ∧
      (Lo flag cand qe → ITiles qe (First flag cand) gs) ∧ (¬ Lo flag cand qe → gs = []) := by
  have hend : YieldsE (Gaps.next S) (⟨true, qe, qe, rest⟩ : Gaps K V) [] :=
    tail_done (qe := qe) ⟨rfl, by simp only; grind, h⟩
  unfold Gaps.nextTail at hs
  have hnone : ¬ Lo flag cand qe → GapsProps flag cand qe l [] := by
    intro hlo
    refine ⟨?_, by simp, List.Pairwise.nil⟩
    intro k
    simp only [List.not_mem_nil, false_and, exists_false, false_iff]
    rintro ⟨h1, h2, _⟩
    unfold Lo at *
    grind
  cases flag with
  | true =>
    rw [if_pos rfl] at hs
    by_cases hc : cand < qe
    · obtain ⟨a, ha, hn⟩ := hS.addOne cand qe hc
      rw [if_pos hc, ha] at hs
      have hle := hn.2 qe hc
      refine ⟨[.mk' a qe], YieldsE.cons hs hend, ⟨?_, ?_, by simp⟩, ?_, ?_⟩
      · intro k
        have := hn.1
        have hk := hn.2 k
        simp only [List.mem_singleton, exists_eq_left, RangeInclusive.mk'_start,
          RangeInclusive.mk'_stop, Lo, if_true]
        constructor
        · intro hk
          refine ⟨by grind, by grind, ?_⟩
          intro e he
          have := hl e he
          grind
        · grind
      · intro g hg
        rw [List.mem_singleton] at hg
        subst hg
        exact ⟨hle, rfl, hn.1, Std.le_refl _, Or.inl hn, Or.inl rfl⟩
      · intro _
        exact ⟨hn, hle, Or.inl ⟨rfl, Std.le_refl _, Std.le_refl _⟩⟩
      · intro hno
        exact absurd hc hno
    · rw [if_neg hc] at hs
      exact ⟨[], YieldsE.none hs hend, hnone hc, fun h => absurd h hc, fun _ => rfl⟩
  | false =>
    rw [if_neg (by simp)] at hs
    by_cases hc : cand ≤ qe
    · rw [if_pos hc] at hs
      refine ⟨[.mk' cand qe], YieldsE.cons hs hend, ⟨?_, ?_, by simp⟩, ?_, ?_⟩
      · intro k
        simp only [List.mem_singleton, exists_eq_left, RangeInclusive.mk'_start,
          RangeInclusive.mk'_stop, Lo]
        constructor
        · intro hk
          refine ⟨by grind, by grind, ?_⟩
          intro e he
          have := hl e he
          grind
        · grind
      · intro g hg
        rw [List.mem_singleton] at hg
        subst hg
        exact ⟨hc, rfl, Std.le_refl _, Std.le_refl _, Or.inl ⟨Std.le_refl _, Std.le_refl _⟩,
          Or.inl rfl⟩
      · intro _
        exact ⟨⟨Std.le_refl _, Std.le_refl _⟩, hc, Or.inl ⟨rfl, Std.le_refl _, Std.le_refl _⟩⟩
      · intro hno
        exact absurd hc hno
    · rw [if_neg hc] at hs
      exact ⟨[], YieldsE.none hs hend, hnone hc, fun h => absurd h hc, fun _ => rfl⟩

theorem filter_past {l : List (RangeInclusive K × V)} {qe : K} (h : ∀ e ∈ l, qe < e.1.start) :
    (l.filter fun e => decide (e.1.start ≤ qe)) = [] := by
  rw [List.filter_eq_nil_iff]
  intro e he
  have := h e he
  grind

theorem iTiles_congr {b : K} {P Q : K → Prop} {ps : List (RangeInclusive K)}
    (h : ITiles b P ps) (hPQ : ∀ k, P k → Q k) : ITiles b Q ps := by
  cases ps with
  | nil => exact h
  | cons p ps => exact ⟨hPQ _ h.1, h.2⟩

/-- The overlapping entries, clipped to the outer range. -/
def clips (lo qe : K) (l : List (RangeInclusive K × V)) : List (RangeInclusive K) :=
  (l.filter fun e => decide (e.1.start ≤ qe)).map
    fun e => .mk' (rmax lo e.1.start) (rmin qe e.1.stop)

theorem gaps_yields {S : StepFns K} (hS : LawfulSteps S) (lo qe : K) :
    ∀ (l : List (RangeInclusive K × V)) (flag : Bool) (cand : K), GapsOk flag cand l →
    (flag = false → cand = lo) → lo ≤ cand →
    ∀ s : Gaps K V, s.next S = Gaps.nextLoop S flag cand qe l →
    ∃ gs, YieldsE (Gaps.next S) s gs ∧ GapsProps flag cand qe l gs ∧
      (Lo flag cand qe → ∃ ps, ps.Perm (clips lo qe l ++ gs) ∧ ITiles qe (First flag cand) ps) ∧
      (flag = true → ¬ Lo flag cand qe → gs = []) := by
  intro l
  induction l with
  | nil =>
    intro flag cand h _ _ s hs
    obtain ⟨gs, h1, h2, h3, h4⟩ := nextTail_yields (l := []) hS (by simp) (by simp) hs
    exact ⟨gs, h1, h2, fun hlo => ⟨gs, by simp [clips], h3 hlo⟩, fun _ => h4⟩
  | cons e t ih =>
    intro flag cand h hfl hlo s hs
    have hp := List.pairwise_cons.1 h.sep.pw
    have hne := h.sep.ne e (by simp)
    have hc := h.lo e (by simp)
    unfold Gaps.nextLoop at hs
    by_cases hq : qe < e.1.start
    · rw [if_pos hq] at hs
      have hpast : ∀ x ∈ e :: t, qe < x.1.start := by
        intro x hx
        have := hp.1 x
        grind [Before]
      obtain ⟨gs, h1, h2, h3, h4⟩ := nextTail_yields (l := e :: t) hS hpast
        (fun x hx => hpast x (by simp [hx])) hs
      refine ⟨gs, h1, h2, fun hlo => ⟨gs, ?_, h3 hlo⟩, fun _ => h4⟩
      rw [clips, filter_past hpast]
      simp
    · rw [if_neg hq] at hs
      -- where the gap would begin
      have hcur : ∃ cur, Gaps.curCandidateStart S flag cand = .ok cur ∧ First flag cand cur := by
        cases flag with
        | true =>
          obtain ⟨c, h1, h2⟩ := hS.addOne cand e.1.start (hc.2 rfl)
          exact ⟨c, by simp [Gaps.curCandidateStart, h1], h2⟩
        | false => exact ⟨cand, rfl, Std.le_refl _, Std.le_refl _⟩
      obtain ⟨cur, hcur, hfirst⟩ := hcur
      have hlocur : ∀ k, Lo flag cand k ↔ cur ≤ k := by
        intro k
        cases flag with
        | true => exact ((Next.iff hfirst) k).1
        | false =>
          have := hfirst.1
          have := hfirst.2
          show cand ≤ k ↔ cur ≤ k
          grind
      simp only [hcur, bind, Except.bind] at hs
      have htail := h.tail
      -- the pieces from `e` on
      have hrest : ∀ gs, (Lo true e.1.stop qe → ∃ ps,
          ps.Perm (clips lo qe t ++ gs) ∧ ITiles qe (First true e.1.stop) ps) →
          (true = true → ¬ Lo true e.1.stop qe → gs = []) →
          ∃ ps, ps.Perm (clips lo qe t ++ gs) ∧
            ((ps = [] ∧ rmin qe e.1.stop ≤ qe ∧ qe ≤ rmin qe e.1.stop) ∨
              ITiles qe (Next (rmin qe e.1.stop)) ps) := by
        intro gs h3 h4
        by_cases hqs : e.1.stop < qe
        · obtain ⟨ps, h5, h6⟩ := h3 hqs
          refine ⟨ps, h5, Or.inr (iTiles_congr h6 ?_)⟩
          intro k (hk : Next e.1.stop k)
          have : rmin qe e.1.stop ≤ e.1.stop := by rw [rmin_le]; grind
          have : e.1.stop ≤ rmin qe e.1.stop := by rw [le_rmin]; grind
          have := hk.1
          refine ⟨by grind, fun d hd => ?_⟩
          have := hk.2 d
          grind
        · have hpast : ∀ x ∈ t, qe < x.1.start := by
            intro x hx
            have := hp.1 x hx
            grind [Before]
          rw [h4 rfl hqs, clips, filter_past hpast]
          refine ⟨[], by simp, Or.inl ⟨rfl, ?_, ?_⟩⟩
          · rw [rmin_le]; grind
          · rw [le_rmin]; grind
      have hclip : clips lo qe (e :: t) =
          .mk' (rmax lo e.1.start) (rmin qe e.1.stop) :: clips lo qe t := by
        simp [clips, show e.1.start ≤ qe by grind]
      have hmax1 : lo ≤ rmax lo e.1.start := by rw [le_rmax]; grind
      have hmax2 : e.1.start ≤ rmax lo e.1.start := by rw [le_rmax]; grind
      have hmax3 : ∀ d, rmax lo e.1.start ≤ d ↔ lo ≤ d ∧ e.1.start ≤ d := fun d => rmax_le
      have hpiece : Lo flag cand qe → rmax lo e.1.start ≤ rmin qe e.1.stop := by
        intro hl
        have : cand ≤ qe := by
          cases flag
          · exact hl
          · have : cand < qe := hl
            grind
        rw [le_rmin, rmax_le, rmax_le]
        grind
      have hfinal : flag = true → Lo flag cand qe := by
        rintro rfl
        have := hc.2 rfl
        show cand < qe
        grind
      by_cases hgap : cur < e.1.start
      · obtain ⟨p, hp1, hp2⟩ := hS.subOne e.1.start cur hgap
        rw [if_pos hgap, hp1] at hs
        obtain ⟨gs, h1, h2, h3, h4⟩ := ih true e.1.stop htail (by simp) (by grind)
          (⟨true, e.1.stop, qe, t⟩ : Gaps K V) rfl
        have hcp := Next.le_of_gt hp2 hgap
        have hpe := hp2.1
        refine ⟨.mk' cur p :: gs, YieldsE.cons hs h1, ⟨?_, ?_, ?_⟩, ?_, ?_⟩
        · intro k
          have hm := h2.mem k
          have hn := (Next.iff hp2 k).2
          rw [hlocur]
          simp only [List.mem_cons, exists_eq_or_imp, hm, RangeInclusive.mk'_start,
            RangeInclusive.mk'_stop, Lo, if_true]
          constructor
          · rintro (hk | hk)
            · refine ⟨by grind, by grind, ?_⟩
              intro x hx
              have := hp.1 x
              grind [Before]
            · refine ⟨by grind, by grind, ?_⟩
              intro x hx
              have := hk.2.2 x
              grind
          · intro hk
            have := hk.2.2 e (Or.inl rfl)
            grind
        · intro g hg
          rcases List.mem_cons.1 hg with rfl | hg
          · refine ⟨hcp, rfl, (hlocur _).2 (Std.le_refl _), ?_, Or.inl hfirst,
              Or.inr ⟨e, by simp, hp2, by grind⟩⟩
            show p ≤ qe
            grind
          · obtain ⟨a1, a2, a3, a4, a5, a6⟩ := h2.shape g hg
            have a3 : e.1.stop < g.start := a3
            refine ⟨a1, a2, (hlocur _).2 (by grind), a4, Or.inr ?_, ?_⟩
            · rcases a5 with a5 | ⟨x, hx, a5⟩
              · exact ⟨e, by simp, a5⟩
              · exact ⟨x, by simp [hx], a5⟩
            · rcases a6 with a6 | ⟨x, hx, a6⟩
              · exact Or.inl a6
              · exact Or.inr ⟨x, by simp [hx], a6⟩
        · refine List.pairwise_cons.2 ⟨?_, ?_⟩
          · intro g hg
            exact ⟨e, by simp, hp2, (h2.shape g hg).2.2.1⟩
          · exact h2.pw.imp fun ⟨x, hx, a⟩ => ⟨x, by simp [hx], a⟩
        · intro hl
          obtain ⟨ps, h5, h6⟩ := hrest gs h3 h4
          refine ⟨.mk' cur p :: .mk' (rmax lo e.1.start) (rmin qe e.1.stop) :: ps, ?_,
            hfirst, hcp, Or.inr ⟨?_, hpiece hl, h6⟩⟩
          · rw [hclip]
            refine (List.Perm.swap _ _ _).trans (List.Perm.cons _ ?_)
            exact (List.Perm.cons _ h5).trans List.perm_middle.symm
          · have hcc : cand ≤ cur := by
              have := (hlocur cur).2 (Std.le_refl _)
              cases flag
              · exact this
              · have : cand < cur := this
                grind
            have := (hmax3 e.1.start).2 (by grind)
            simp only [RangeInclusive.mk'_start, RangeInclusive.mk'_stop]
            refine ⟨by grind, fun d hd => ?_⟩
            have := hp2.2 d hd
            rw [hmax3]
            grind
        · intro hf hno
          exact absurd (hfinal hf) hno
      · rw [if_neg hgap] at hs
        obtain ⟨gs, h1, h2, h3, h4⟩ := ih true e.1.stop htail (by simp) (by grind) s hs
        refine ⟨gs, h1, ⟨?_, ?_, ?_⟩, ?_, ?_⟩
        · intro k
          have hm := h2.mem k
          rw [hlocur, hm]
          simp only [List.mem_cons, Lo, if_true]
          have hcc : cur ≤ e.1.stop := by
            cases flag
            · have := hfirst.2
              grind
            · have := hfirst.2 e.1.start (hc.2 rfl)
              grind
          constructor
          · intro hk
            refine ⟨by grind, by grind, ?_⟩
            intro x hx
            have := hk.2.2 x
            grind
          · intro hk
            have := hk.2.2 e (Or.inl rfl)
            exact ⟨by grind, by grind, fun x hx => hk.2.2 x (Or.inr hx)⟩
        · intro g hg
          obtain ⟨a1, a2, a3, a4, a5, a6⟩ := h2.shape g hg
          have a3 : e.1.stop < g.start := a3
          have hcc : cur ≤ e.1.stop := by
            cases flag
            · have := hfirst.2
              grind
            · have := hfirst.2 e.1.start (hc.2 rfl)
              grind
          refine ⟨a1, a2, (hlocur _).2 (by grind), a4, Or.inr ?_, ?_⟩
          · rcases a5 with a5 | ⟨x, hx, a5⟩
            · exact ⟨e, by simp, a5⟩
            · exact ⟨x, by simp [hx], a5⟩
          · rcases a6 with a6 | ⟨x, hx, a6⟩
            · exact Or.inl a6
            · exact Or.inr ⟨x, by simp [hx], a6⟩
        · exact h2.pw.imp fun ⟨x, hx, a⟩ => ⟨x, by simp [hx], a⟩
        · intro hl
          obtain ⟨ps, h5, h6⟩ := hrest gs h3 h4
          refine ⟨.mk' (rmax lo e.1.start) (rmin qe e.1.stop) :: ps, ?_, ?_, hpiece hl, h6⟩
          · rw [hclip]
            exact List.Perm.cons _ h5
          · simp only [RangeInclusive.mk'_start]
            cases flag with
            | false =>
              have hcl := hfl rfl
              subst hcl
              have := hfirst.2
              exact ⟨hmax1, (hmax3 _).2 (by grind)⟩
            | true =>
              have hn : Next cand cur := hfirst
              have := hc.2 rfl
              refine ⟨by grind, fun d hd => ?_⟩
              have := hn.2 d hd
              have := hn.2 e.1.start (hc.2 rfl)
              rw [hmax3]
              grind
        · intro hf hno
          exact absurd (hfinal hf) hno

theorem gaps_ok (m : RangeInclusiveMap K V) (q : RangeInclusive K) : m.gaps q =
    .ok ⟨false, q.start, q.stop, m.btm.filter fun e => decide (q.start ≤ e.1.stop)⟩ := by
  simp [gaps, overlapping_ok, bind, Except.bind, pure, Except.pure]

/-- `gaps` and what it yields. -/
theorem gaps_spec {S : StepFns K} (hS : LawfulSteps S) {m : RangeInclusiveMap K V} (h : Sep m.btm)
    (q : RangeInclusive K) :
    ∃ g gs, m.gaps q = .ok g ∧ YieldsE (Gaps.next S) g gs ∧
      GapsProps false q.start q.stop (m.btm.filter fun e => decide (q.start ≤ e.1.stop)) gs ∧
      (q.start ≤ q.stop → ∃ ps, ps.Perm (clips q.start q.stop
        (m.btm.filter fun e => decide (q.start ≤ e.1.stop)) ++ gs) ∧
        ITiles q.stop (First false q.start) ps) := by
  obtain ⟨gs, h1, h2, h3, _⟩ := gaps_yields hS q.start q.stop
    (m.btm.filter fun e => decide (q.start ≤ e.1.stop)) false q.start
    ⟨⟨h.pw.filter _, fun e he => h.ne e (List.mem_filter.1 he).1⟩, fun e he => ⟨by
      simpa using (List.mem_filter.1 he).2, by simp⟩⟩ (fun _ => rfl) (Std.le_refl _)
    ⟨false, q.start, q.stop, m.btm.filter fun e => decide (q.start ≤ e.1.stop)⟩ rfl
  exact ⟨_, gs, gaps_ok m q, h1, h2, h3⟩

/-! ### step functions at the extremes -/

theorem Gaps.nextTail_le {S S' : StepFns K} (h : StepLe S S') (f : Bool) (c q : K)
    (l : List (RangeInclusive K × V)) : ExLe (nextTail S f c q l) (nextTail S' f c q l) :=
  ExLe.ite (ExLe.ite (ExLe.bind (h.addOne _) fun _ => ExLe.refl _) (ExLe.refl _)) (ExLe.refl _)

theorem Gaps.nextLoop_le {S S' : StepFns K} (h : StepLe S S') (q : K) :
    ∀ (l : List (RangeInclusive K × V)) (f : Bool) (c : K),
      ExLe (nextLoop S f c q l) (nextLoop S' f c q l)
  | [], f, c => nextTail_le h f c q []
  | e :: t, f, c => by
    unfold nextLoop
    refine ExLe.ite (nextTail_le h ..) (ExLe.bind (ExLe.ite (h.addOne _) (ExLe.refl _)) fun cur => ?_)
    exact ExLe.ite (ExLe.bind (h.subOne _) fun _ => ExLe.refl _) (nextLoop_le h q t _ _)

theorem YieldsE.mono {σ α : Type} {next next' : σ → Except Panic (Option α × σ)}
    (h : ∀ s, ExLe (next s) (next' s)) {s : σ} {l : List α} (hy : YieldsE next s l) :
    YieldsE next' s l := by
  have : ∀ n s, ExLe (callsE next n s) (callsE next' n s) := by
    intro n
    induction n with
    | zero => intro s; exact ExLe.refl _
    | succ n ih =>
      intro s
      refine ⟨fun x hx => ?_⟩
      unfold callsE at hx ⊢
      cases hn : next s with
      | error p => simp [hn] at hx
      | ok y =>
        obtain ⟨a, s'⟩ := y
        rw [(h s).ok _ hn]
        simp only [hn] at hx ⊢
        cases hc : callsE next n s' with
        | error p => simp [hc, Except.map] at hx
        | ok z => rw [(ih s').ok _ hc, ← hc]; exact hx
  intro n
  exact (this n s).ok _ (hy n)

end RangeInclusiveMap
end Verif

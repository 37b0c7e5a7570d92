import Verif.Model.QueryWork
import Verif.Props.Iter
import Verif.Props.IIter
import Verif.Props.Demo

/-!
# C70: queries do work proportional to what they return
-/
set_option linter.unusedSectionVars false

namespace Verif

namespace Work

/-- At most as much of everything. -/
instance : LE Work :=
  ⟨fun a b => a.taken ≤ b.taken ∧ a.compared ≤ b.compared ∧ a.stepped ≤ b.stepped⟩

theorem le_def {a b : Work} :
    a ≤ b ↔ a.taken ≤ b.taken ∧ a.compared ≤ b.compared ∧ a.stepped ≤ b.stepped := Iff.rfl
theorem add_taken (a b : Work) : (a + b).taken = a.taken + b.taken := rfl
theorem add_compared (a b : Work) : (a + b).compared = a.compared + b.compared := rfl
theorem add_stepped (a b : Work) : (a + b).stepped = a.stepped + b.stepped := rfl
theorem zero_def : (0 : Work) = ⟨0, 0, 0⟩ := rfl

end Work

open Spec

theorem Yields.cons_inv {S α : Type} {next : S → Option α × S} {s : S} {a : α} {t : List α}
    (h : Yields next s (a :: t)) : (next s).1 = some a ∧ Yields next (next s).2 t := by
  have key : ∀ n, (next s).1 = some a ∧
      calls next n (next s).2 = (t.map some ++ List.replicate n none).take n := by
    intro n
    have := h (n + 1)
    simp only [calls, List.map_cons, List.cons_append, List.take_succ_cons, List.cons.injEq] at this
    refine ⟨this.1, this.2.trans ?_⟩
    rw [List.take_append, List.take_append]
    congr 1
    rw [List.take_replicate, List.take_replicate]
    congr 1
    omega
  exact ⟨(key 0).1, fun n => (key n).2⟩

theorem YieldsE.cons_inv {S α : Type} {next : S → Except Panic (Option α × S)} {s : S} {a : α}
    {t : List α} (h : YieldsE next s (a :: t)) :
    ∃ s', next s = .ok (some a, s') ∧ YieldsE next s' t := by
  cases hn : next s with
  | error p =>
    have := h 1
    simp [callsE, hn] at this
  | ok r =>
    obtain ⟨o, s'⟩ := r
    have key : ∀ n, o = some a ∧
        callsE next n s' = .ok ((t.map some ++ List.replicate n none).take n) := by
      intro n
      have := h (n + 1)
      simp only [callsE, hn, List.map_cons, List.cons_append, List.take_succ_cons] at this
      cases hc : callsE next n s' with
      | error p => simp [hc, Except.map] at this
      | ok l =>
        simp only [hc, Except.map, Except.ok.injEq, List.cons.injEq] at this
        refine ⟨this.1, congrArg _ (this.2.trans ?_)⟩
        rw [List.take_append, List.take_append]
        congr 1
        rw [List.take_replicate, List.take_replicate]
        congr 1
        omega
    obtain ⟨rfl, -⟩ := key 0
    exact ⟨s', rfl, fun n => (key n).2⟩

/-- A potential that pays for every call. -/
theorem totalWork_le {S α : Type} {nextW : S → (Option α × S) × Work} {next : S → Option α × S}
    (hn : ∀ s, (nextW s).1 = next s) (I : S → Prop) (φ : S → Work)
    (step : ∀ s, I s → (nextW s).2 ≤ φ s ∧
      ((next s).1.isSome → I (next s).2 ∧ (nextW s).2 + φ (next s).2 ≤ φ s)) :
    ∀ (l : List α) (s : S), I s → Yields next s l → totalWork nextW (l.length + 1) s ≤ φ s := by
  intro l
  induction l with
  | nil =>
    intro s hs _
    have := (step s hs).1
    simp only [totalWork, List.length_nil, Work.le_def, Work.add_taken, Work.add_compared,
      Work.add_stepped, Work.zero_def] at *
    omega
  | cons a t ih =>
    intro s hs hy
    obtain ⟨h1, h2⟩ := Yields.cons_inv hy
    obtain ⟨h3, h4⟩ := (step s hs).2 (by simp [h1])
    have := ih _ h3 h2
    rw [List.length_cons, totalWork, hn]
    simp only [Work.le_def, Work.add_taken, Work.add_compared, Work.add_stepped] at *
    omega

theorem totalWorkE_le {S α : Type} {nextW : S → Except Panic ((Option α × S) × Work)}
    {next : S → Except Panic (Option α × S)}
    (hn : ∀ s, (nextW s).map (·.1) = next s) (I : S → Prop) (φ : S → Work)
    (step : ∀ s, I s → ∀ r, nextW s = .ok r → r.2 ≤ φ s ∧
      (r.1.1.isSome → I r.1.2 ∧ r.2 + φ r.1.2 ≤ φ s)) :
    ∀ (l : List α) (s : S), I s → YieldsE next s l →
      ∃ w, totalWorkE nextW (l.length + 1) s = .ok w ∧ w ≤ φ s := by
  intro l
  induction l with
  | nil =>
    intro s hs hy
    cases hr : nextW s with
    | error p =>
      have := hy 1
      simp [callsE, ← hn, hr, Except.map] at this
    | ok r =>
      have := (step s hs r hr).1
      refine ⟨_, by simp only [totalWorkE, List.length_nil, hr, bind, Except.bind, pure, Except.pure]; rfl,
        ?_⟩
      simp only [Work.le_def, Work.add_taken, Work.add_compared, Work.add_stepped, Work.zero_def] at *
      omega
  | cons a t ih =>
    intro s hs hy
    obtain ⟨s', h1, h2⟩ := YieldsE.cons_inv hy
    cases hr : nextW s with
    | error p => simp [← hn, hr, Except.map] at h1
    | ok r =>
      rw [← hn, hr] at h1
      have h1 : r.1 = (some a, s') := Except.ok.inj h1
      obtain ⟨h3, h4⟩ := (step s hs r hr).2 (by simp [h1])
      rw [h1] at h3 h4
      obtain ⟨w, h5, h6⟩ := ih _ h3 h2
      refine ⟨r.2 + w, ?_, ?_⟩
      · rw [List.length_cons, totalWorkE, hr]
        simp only [bind, Except.bind, pure, Except.pure, h1]
        rw [h5]
      · simp only [Work.le_def, Work.add_taken, Work.add_compared, Work.add_stepped] at *
        omega

end Verif

namespace Verif.Props
open Spec RangeMap
variable {K : Type} [LE K] [LT K] [DecidableLE K] [DecidableLT K]
  [Std.IsLinearPreorder K] [Std.LawfulOrderLT K] {V : Type}

/-! ## Half-open maps -/

theorem nextW_eq (o : Overlapping K V) : o.nextW.1 = o.next := by
  obtain ⟨q, l⟩ := o
  cases l with
  | nil => rfl
  | cons e t =>
    simp only [Overlapping.nextW, Overlapping.next, Deque.next]
    split <;> rfl

theorem nextBackW_eq (o : Overlapping K V) : o.nextBackW.1 = o.nextBack := by
  fun_induction Overlapping.nextBackW o with
  | case1 o e he h =>
    rw [Overlapping.nextBack]
    split <;> rename_i h' <;> rw [he] at h' <;> simp_all
  | case2 o e he h r ih =>
    rw [Overlapping.nextBack]
    split <;> rename_i h' <;> rw [he] at h' <;> simp_all
    exact ih
  | case3 o he =>
    rw [Overlapping.nextBack]
    split <;> rename_i h' <;> rw [he] at h' <;> simp_all

theorem gaps_nextLoopW_eq (qe : K) : ∀ (l : List (Range K × V)) (c : K),
    (Gaps.nextLoopW c qe l).1 = Gaps.nextLoop c qe l := by
  intro l
  induction l with
  | nil =>
    intro c
    simp only [Gaps.nextLoopW, Gaps.nextLoop, Gaps.nextTailW, Gaps.nextTail]
    split <;> rfl
  | cons e t ih =>
    intro c
    simp only [Gaps.nextLoopW, Gaps.nextLoop, Gaps.nextTailW, Gaps.nextTail]
    split
    · split <;> rfl
    · split
      · rfl
      · exact ih _

theorem gaps_nextW_eq (g : Gaps K V) : g.nextW.1 = g.next := gaps_nextLoopW_eq _ _ _

/-- **C70** The counted functions return what the functions return. -/
theorem C70_counted_is_real (o : Overlapping K V) (g : Gaps K V) :
    o.nextW.1 = o.next ∧ o.nextBackW.1 = o.nextBack ∧ g.nextW.1 = g.next :=
  ⟨nextW_eq o, nextBackW_eq o, gaps_nextW_eq g⟩

/-- **C70** `Overlapping::next` looks at one entry at most. -/
theorem C70_overlapping_next (o : Overlapping K V) : o.nextW.2 ≤ ⟨1, 1, 0⟩ := by
  obtain ⟨q, l⟩ := o
  cases l with
  | nil => simp [Overlapping.nextW, Deque.next, Work.le_def, Work.zero_def]
  | cons e t =>
    simp only [Overlapping.nextW, Deque.next]
    split <;> simp [Work.le_def]

variable [BEq V] [PartialEquivBEq V]

/-- **C70** `overlaps` looks at one entry at most. -/
theorem C70_overlaps (m : RangeMap K V) (q : Range K) :
    ∃ b w, m.overlapsW q = .ok (b, w) ∧ m.overlaps q = .ok b ∧ w ≤ ⟨1, 1, 0⟩ := by
  simp only [overlapsW, overlaps, overlapping_ok, bind, Except.bind, pure, Except.pure]
  refine ⟨_, _, rfl, ?_, C70_overlapping_next _⟩
  rw [nextW_eq]

example := C70_overlaps (K := Nat) (V := Char) Demo.map ⟨2, 22⟩

/-- **C70** Consuming `overlapping(q)` from the front until it returns `None` takes at most one
entry more than are yielded, whatever else the map holds. -/
theorem C70_overlapping {m : RangeMap K V} (hm : Reachable m) (q : Range K) :
    ∃ o l, m.overlapping q = .ok o ∧ Yields Overlapping.next o l ∧
      totalWork Overlapping.nextW (l.length + 1) o ≤ ⟨l.length + 1, l.length + 1, 0⟩ := by
  obtain ⟨o, h1, h2⟩ := C13_overlapping_exact hm q
  refine ⟨o, _, h1, h2, ?_⟩
  generalize m.iter.filter _ = l at h2
  clear h1
  generalize l.length + 1 = n
  clear h2 l
  induction n generalizing o with
  | zero => simp [totalWork, Work.le_def, Work.zero_def]
  | succ n ih =>
    have h1 := C70_overlapping_next o
    have h2 := ih o.nextW.1.2
    simp only [totalWork, Work.le_def, Work.add_taken, Work.add_compared, Work.add_stepped] at *
    omega

example := C70_overlapping (K := Nat) (V := Char) (m := Demo.map) Demo.map_reachable ⟨2, 22⟩

/-- `next_back` on a list that falls into the entries before the end of the query and the others. -/
theorem nextBackW_append (q : Range K) (A B : List (Range K × V))
    (hA : ∀ e ∈ A, e.1.start < q.stop) (hB : ∀ e ∈ B, ¬ e.1.start < q.stop) :
    (⟨q, A ++ B⟩ : Overlapping K V).nextBackW =
      ((A.getLast?, ⟨q, A.dropLast⟩),
        ⟨B.length + min 1 A.length, B.length + min 1 A.length, 0⟩) := by
  generalize hn : B.length = n
  induction n generalizing B with
  | zero =>
    obtain rfl := List.length_eq_zero_iff.1 hn
    rw [List.append_nil]
    rw [Overlapping.nextBackW]
    split
    · rename_i e he
      have hm : e ∈ A := List.mem_of_getLast? he
      have := List.length_pos_of_mem hm
      simp only at he
      simp only [hA e hm, if_true, he]
      congr 2 <;> omega
    · rename_i he
      simp only [List.getLast?_eq_none_iff] at he
      subst he
      rfl
  | succ n ih =>
    have hb : B ≠ [] := by rintro rfl; simp at hn
    obtain ⟨B, b, rfl⟩ : ∃ B' b, B = B' ++ [b] :=
      ⟨B.dropLast, B.getLast hb, (List.dropLast_concat_getLast hb).symm⟩
    have := ih B (fun e he => hB e (by simp [he])) (by simpa using hn)
    rw [Overlapping.nextBackW]
    split
    · rename_i e he
      rw [← List.append_assoc, List.getLast?_concat] at he
      obtain rfl := Option.some.inj he
      rw [if_neg (hB _ (by simp))]
      simp only [← List.append_assoc, List.dropLast_concat, this]
      congr 1
      show Work.mk _ _ _ = _
      congr 1 <;> simp only [] <;> omega
    · rename_i he
      simp at he

theorem split_sorted (q : Range K) : ∀ l : List (Range K × V), StartSorted l →
    l = l.filter (fun e => decide (e.1.start < q.stop)) ++
      l.filter (fun e => decide (q.stop ≤ e.1.start)) := by
  intro l
  induction l with
  | nil => intro _; rfl
  | cons e t ih =>
    intro h
    have hp := List.pairwise_cons.1 h
    by_cases he : e.1.start < q.stop
    · have : ¬ q.stop ≤ e.1.start := by grind
      simp only [he, this, decide_true, decide_false, List.filter_cons, if_true, Bool.false_eq_true,
        if_false, List.cons_append]
      rw [← ih hp.2]
    · have h1 : t.filter (fun e => decide (e.1.start < q.stop)) = [] := by
        rw [List.filter_eq_nil_iff]
        intro x hx
        have := hp.1 x hx
        simp only [decide_eq_true_eq]
        grind
      have h2 : t.filter (fun e => decide (q.stop ≤ e.1.start)) = t := by
        rw [List.filter_eq_self]
        intro x hx
        have := hp.1 x hx
        simp only [decide_eq_true_eq]
        grind
      have : q.stop ≤ e.1.start := by grind
      simp [he, this, h1, h2]

/-- **C70** From the back it is different: the first call of `next_back` goes through all the entries
after the query, to the end of the map; and that is all the additional work there is. -/
theorem C70_overlapping_back {m : RangeMap K V} (hm : Reachable m) (q : Range K) :
    ∃ o l, m.overlapping q = .ok o ∧ Yields Overlapping.next o l ∧
      ∀ past, past = (m.iter.filter fun e =>
        decide (q.start < e.1.stop) && decide (q.stop ≤ e.1.start)).length →
      o.nextBackW.2 = ⟨past + min 1 l.length, past + min 1 l.length, 0⟩ ∧
      ∀ n, l.length ≤ n → 0 < n →
        totalWork Overlapping.nextBackW n o = ⟨past + l.length, past + l.length, 0⟩ := by
  have hsep := hm.wf.sep
  obtain ⟨o, h1, h2⟩ := C13_overlapping_exact hm q
  refine ⟨o, _, h1, h2, ?_⟩
  clear h2
  rintro past rfl
  rw [overlapping_ok] at h1
  obtain rfl := Except.ok.inj h1
  have hs := split_sorted q (m.btm.filter fun e => decide (q.start < e.1.stop))
    (hsep.startSorted.filter _)
  rw [List.filter_filter, List.filter_filter] at hs
  rw [hs]
  have e1 : ∀ e : Range K × V, (decide (e.1.start < q.stop) && decide (q.start < e.1.stop)) =
      (decide (q.start < e.1.stop) && decide (e.1.start < q.stop)) := fun e => Bool.and_comm _ _
  have e2 : ∀ e : Range K × V, (decide (q.stop ≤ e.1.start) && decide (q.start < e.1.stop)) =
      (decide (q.start < e.1.stop) && decide (q.stop ≤ e.1.start)) := fun e => Bool.and_comm _ _
  simp only [e1, e2, RangeMap.iter]
  have hA : ∀ e ∈ m.btm.filter (fun e => decide (q.start < e.1.stop) && decide (e.1.start < q.stop)),
      e.1.start < q.stop := by
    intro e he; simp at he; exact he.2.2
  have hB : ∀ e ∈ m.btm.filter (fun e => decide (q.start < e.1.stop) && decide (q.stop ≤ e.1.start)),
      ¬ e.1.start < q.stop := by
    intro e he; simp at he; grind
  generalize m.btm.filter (fun e => decide (q.start < e.1.stop) && decide (e.1.start < q.stop)) = A at hA
  generalize m.btm.filter (fun e => decide (q.start < e.1.stop) && decide (q.stop ≤ e.1.start)) = B at hB
  rw [nextBackW_append q A B hA hB]
  refine ⟨rfl, ?_⟩
  -- afterwards there are no such entries
  have rest : ∀ (n : Nat) (A : List (Range K × V)), (∀ e ∈ A, e.1.start < q.stop) → A.length ≤ n →
      totalWork Overlapping.nextBackW n ⟨q, A⟩ = ⟨A.length, A.length, 0⟩ := by
    intro n
    induction n with
    | zero =>
      intro A _ hn
      obtain rfl := List.length_eq_zero_iff.1 (Nat.le_zero.1 hn)
      rfl
    | succ n ih =>
      intro A hA hn
      have := nextBackW_append q A [] hA (by simp)
      rw [List.append_nil] at this
      rw [totalWork, this, ih _ (fun e he => hA e (List.dropLast_subset _ he)) (by simp; omega)]
      simp only [List.length_nil, List.length_dropLast]
      show Work.mk _ _ _ = _
      congr 1 <;> simp only [] <;> omega
  intro n hn hpos
  cases n with
  | zero => omega
  | succ n =>
    rw [totalWork, nextBackW_append q A B hA hB,
      rest n _ (fun e he => hA e (List.dropLast_subset _ he)) (by simp; omega)]
    show Work.mk _ _ _ = _
    simp only [List.length_dropLast]
    congr 1 <;> omega

example := C70_overlapping_back (K := Nat) (V := Char) (m := Demo.map) Demo.map_reachable ⟨2, 22⟩

/-! `gaps` -/

/-- Entries still to come that begin before the end of the query. -/
def remaining (qe : K) (l : List (Range K × V)) : Nat := l.countP fun e => decide (e.1.start < qe)

/-- How often `next` can still run into the end of the query. -/
def ends (c qe : K) : Nat := if c < qe then 2 else 1

theorem nextLoopW_work (qe : K) : ∀ (l : List (Range K × V)) (c : K), GapsOk c l →
    (Gaps.nextLoopW c qe l).2 ≤ ⟨remaining qe l + ends c qe, 2 * remaining qe l + 2 * ends c qe, 0⟩ ∧
    ((Gaps.nextLoop c qe l).1.isSome →
      let g := (Gaps.nextLoop c qe l).2
      GapsOk g.candidateStart g.btmRangeIter ∧ g.queryEnd = qe ∧
      (Gaps.nextLoopW c qe l).2 + ⟨remaining qe g.btmRangeIter + ends g.candidateStart qe,
        2 * remaining qe g.btmRangeIter + 2 * ends g.candidateStart qe, 0⟩ ≤
        ⟨remaining qe l + ends c qe, 2 * remaining qe l + 2 * ends c qe, 0⟩) := by
  intro l
  induction l with
  | nil =>
    intro c h
    simp only [Gaps.nextLoopW, Gaps.nextLoop, Gaps.nextTailW, Gaps.nextTail]
    have hirr : ¬ qe < qe := by grind
    split
    · rename_i hc
      simp [remaining, ends, hc, hirr, Work.le_def, Work.add_taken, Work.add_compared,
        Work.add_stepped, GapsOk]
      exact ⟨by simp, by simp⟩
    · rename_i hc
      simp [remaining, ends, hc, Work.le_def]
  | cons e t ih =>
    intro c h
    have hne := h.1.ne e (by simp)
    have hc := h.2 e (by simp)
    have ht := h.tail
    have hp := (List.pairwise_cons.1 h.1.pw).1
    have hirr : ¬ qe < qe := by grind
    simp only [Gaps.nextLoopW, Gaps.nextLoop, Gaps.nextTailW, Gaps.nextTail]
    by_cases h1 : qe ≤ e.1.start
    · have hz : remaining qe t = 0 := by
        rw [remaining, List.countP_eq_zero]
        intro x hx
        have := hp x hx
        simp only [decide_eq_true_eq]
        grind [Before]
      have hz' : remaining qe (e :: t) = 0 := by
        have : ¬ e.1.start < qe := by grind
        simp only [remaining] at hz
        simp [remaining, hz, this]
      have hok : GapsOk qe t := ⟨ht.1, fun x hx => by
        have := hp x hx; have := ht.1.ne x hx; grind [Before]⟩
      simp only [h1, if_true]
      split
      · rename_i h2
        simp [hz, hz', ends, h2, hirr, Work.le_def, Work.add_taken, Work.add_compared,
          Work.add_stepped, hok]
      · rename_i h2
        simp [hz', ends, h2, Work.le_def, Work.add_taken, Work.add_compared, Work.add_stepped]
    · have hr : remaining qe (e :: t) = remaining qe t + 1 := by
        have : e.1.start < qe := by grind
        simp [remaining, this]
      simp only [h1, if_false]
      by_cases h2 : c < e.1.start
      · have h3 : c < qe := by grind
        simp only [h2, if_true, Option.isSome_some, forall_const]
        refine ⟨?_, ht, trivial, ?_⟩
        · simp [hr, ends, h3, Work.le_def]
        · have : ends e.1.stop qe ≤ 2 := by unfold ends; split <;> omega
          simp [hr, ends, h3, Work.le_def, Work.add_taken, Work.add_compared, Work.add_stepped] at this ⊢
          omega
      · simp only [h2, if_false]
        obtain ⟨i1, i2⟩ := ih e.1.stop ht
        have he : ends e.1.stop qe ≤ ends c qe := by
          unfold ends
          split <;> split <;> grind
        constructor
        · simp only [hr, Work.le_def, Work.add_taken, Work.add_compared, Work.add_stepped] at i1 ⊢
          omega
        · intro hs
          obtain ⟨j1, j2, j3⟩ := i2 hs
          refine ⟨j1, j2, ?_⟩
          simp only [hr, Work.le_def, Work.add_taken, Work.add_compared, Work.add_stepped] at j3 ⊢
          omega

/-- **C70** Consuming `gaps(outer)` until it returns `None` takes at most two entries more than
overlap `outer`, and makes at most two comparisons for each. -/
theorem C70_gaps {m : RangeMap K V} (hm : Reachable m) (outer : Range K) :
    ∃ g l, m.gaps outer = .ok g ∧ Yields Gaps.next g l ∧
      ∀ ovl, ovl = (m.iter.filter fun e =>
        decide (outer.start < e.1.stop) && decide (e.1.start < outer.stop)).length →
      totalWork Gaps.nextW (l.length + 1) g ≤ ⟨ovl + 2, 2 * ovl + 4, 0⟩ := by
  obtain ⟨g, h1, h2, h3⟩ := gaps_spec hm.wf.sep outer
  refine ⟨g, _, h1, h2, ?_⟩
  rintro ovl rfl
  rw [gaps_ok] at h1
  obtain rfl := Except.ok.inj h1
  have := totalWork_le (nextW := Gaps.nextW) (next := Gaps.next) gaps_nextW_eq
    (fun g : Gaps K V => GapsOk g.candidateStart g.btmRangeIter ∧ g.queryEnd = outer.stop)
    (fun g => ⟨remaining outer.stop g.btmRangeIter + ends g.candidateStart outer.stop,
      2 * remaining outer.stop g.btmRangeIter + 2 * ends g.candidateStart outer.stop, 0⟩)
    (by
      rintro ⟨c, qe, l⟩ ⟨hg, rfl⟩
      obtain ⟨i1, i2⟩ := nextLoopW_work outer.stop l c hg
      exact ⟨i1, fun hs => ⟨⟨(i2 hs).1, (i2 hs).2.1⟩, (i2 hs).2.2⟩⟩) _ _ ⟨h3, rfl⟩ h2
  have hr : remaining outer.stop (m.btm.filter fun e => decide (outer.start < e.1.stop)) =
      (m.iter.filter fun e =>
        decide (outer.start < e.1.stop) && decide (e.1.start < outer.stop)).length := by
    rw [remaining, List.countP_eq_length_filter, List.filter_filter, RangeMap.iter]
    congr 2
    funext e
    exact Bool.and_comm _ _
  rw [← hr]
  have he : ends outer.start outer.stop ≤ 2 := by unfold ends; split <;> omega
  simp only [Work.le_def] at this ⊢
  omega

-- two entries are yielded, none from the back is saved
example : Reachable Demo.map ∧
    (Demo.map.overlapping ⟨1, 9⟩).toOption.map
      (fun o => (totalWork Overlapping.nextW 3 o, totalWork Overlapping.nextBackW 2 o)) =
        some (⟨3, 3, 0⟩, ⟨4, 4, 0⟩) ∧
    (Demo.map.gaps ⟨1, 17⟩).toOption.map (fun g => totalWork Gaps.nextW 3 g) = some ⟨4, 8, 0⟩ :=
  ⟨Demo.map_reachable, by decide +kernel, by decide +kernel⟩

end Verif.Props

namespace Verif.Props.Inclusive
open Spec RangeInclusiveMap
variable {K : Type} [LE K] [LT K] [DecidableLE K] [DecidableLT K]
  [Std.IsLinearPreorder K] [Std.LawfulOrderLT K] {V : Type}

/-! ## Inclusive maps -/

theorem nextW_eq (o : Overlapping K V) : o.nextW.1 = o.next := by
  obtain ⟨q, l⟩ := o
  cases l with
  | nil => rfl
  | cons e t =>
    simp only [Overlapping.nextW, Overlapping.next, Deque.next]
    split <;> rfl

theorem nextBackW_eq (o : Overlapping K V) : o.nextBackW.1 = o.nextBack := by
  fun_induction Overlapping.nextBackW o with
  | case1 o e he h =>
    rw [Overlapping.nextBack]
    split <;> rename_i h' <;> rw [he] at h' <;> simp_all
  | case2 o e he h r ih =>
    rw [Overlapping.nextBack]
    split <;> rename_i h' <;> rw [he] at h' <;> simp_all
    exact ih
  | case3 o he =>
    rw [Overlapping.nextBack]
    split <;> rename_i h' <;> rw [he] at h' <;> simp_all

theorem gaps_nextTailW_eq (S : StepFns K) (f : Bool) (c qe : K) (l : List (RangeInclusive K × V)) :
    (Gaps.nextTailW S f c qe l).map (·.1) = Gaps.nextTail S f c qe l := by
  simp only [Gaps.nextTailW, Gaps.nextTail]
  split
  · split
    · cases S.addOne c <;> rfl
    · rfl
  · split <;> rfl

theorem gaps_nextLoopW_eq (S : StepFns K) (qe : K) :
    ∀ (l : List (RangeInclusive K × V)) (f : Bool) (c : K),
    (Gaps.nextLoopW S f c qe l).map (·.1) = Gaps.nextLoop S f c qe l := by
  intro l
  induction l with
  | nil => exact fun f c => gaps_nextTailW_eq S f c qe []
  | cons e t ih =>
    intro f c
    simp only [Gaps.nextLoopW, Gaps.nextLoop]
    split
    · rw [← gaps_nextTailW_eq]
      cases Gaps.nextTailW S f c qe t <;> rfl
    · cases Gaps.curCandidateStart S f c with
      | error p => rfl
      | ok cur =>
        simp only [bind, Except.bind]
        split
        · cases S.subOne e.1.start <;> rfl
        · rw [← ih]
          cases Gaps.nextLoopW S true e.1.stop qe t <;> rfl

theorem gaps_nextW_eq (S : StepFns K) (g : Gaps K V) : (g.nextW S).map (·.1) = g.next S :=
  gaps_nextLoopW_eq _ _ _ _ _

/-- **C70** The counted functions return what the functions return. -/
theorem C70_counted_is_real (S : StepFns K) (o : Overlapping K V)
    (g : Gaps K V) :
    o.nextW.1 = o.next ∧ o.nextBackW.1 = o.nextBack ∧ (g.nextW S).map (·.1) = g.next S :=
  ⟨nextW_eq o, nextBackW_eq o, gaps_nextW_eq S g⟩

/-- **C70** `Overlapping::next` looks at one entry at most. -/
theorem C70_overlapping_next (o : Overlapping K V) : o.nextW.2 ≤ ⟨1, 1, 0⟩ := by
  obtain ⟨q, l⟩ := o
  cases l with
  | nil => simp [Overlapping.nextW, Deque.next, Work.le_def, Work.zero_def]
  | cons e t =>
    simp only [Overlapping.nextW, Deque.next]
    split <;> simp [Work.le_def]

variable [BEq V] [PartialEquivBEq V]

/-- **C70** `overlaps` looks at one entry at most. -/
theorem C70_overlaps (m : RangeInclusiveMap K V) (q : RangeInclusive K) :
    ∃ b w, m.overlapsW q = .ok (b, w) ∧ m.overlaps q = .ok b ∧ w ≤ ⟨1, 1, 0⟩ := by
  simp only [overlapsW, overlaps, overlapping_ok, bind, Except.bind, pure, Except.pure]
  refine ⟨_, _, rfl, ?_, C70_overlapping_next _⟩
  rw [nextW_eq]

example := Inclusive.C70_overlaps (K := UIntW 8) (V := Char) Demo.imap (Demo.by8 2 22)

/-- **C70** Consuming `overlapping(q)` from the front until it returns `None` takes at most one
entry more than are yielded, whatever else the map holds. -/
theorem C70_overlapping {S : StepFns K} (hS : LawfulSteps S)
    {m : RangeInclusiveMap K V} (hm : ReachableAny S m) (q : RangeInclusive K) :
    ∃ o l, m.overlapping q = .ok o ∧ Yields Overlapping.next o l ∧
      totalWork Overlapping.nextW (l.length + 1) o ≤ ⟨l.length + 1, l.length + 1, 0⟩ := by
  obtain ⟨o, h1, h2⟩ := C32_overlapping_exact hS hm q
  refine ⟨o, _, h1, h2, ?_⟩
  generalize m.iter.filter _ = l at h2
  clear h1
  generalize l.length + 1 = n
  clear h2 l
  induction n generalizing o with
  | zero => simp [totalWork, Work.le_def, Work.zero_def]
  | succ n ih =>
    have h1 := C70_overlapping_next o
    have h2 := ih o.nextW.1.2
    simp only [totalWork, Work.le_def, Work.add_taken, Work.add_compared, Work.add_stepped] at *
    omega

example := Inclusive.C70_overlapping (K := UIntW 8) (V := Char) (S := Demo.u8) Demo.u8_lawful
    (m := Demo.imap) Demo.imap_reachable.any (Demo.by8 2 22)

/-- `next_back` on a list that falls into the entries before the end of the query and the others. -/
theorem nextBackW_append (q : RangeInclusive K) (A B : List (RangeInclusive K × V))
    (hA : ∀ e ∈ A, e.1.start ≤ q.stop) (hB : ∀ e ∈ B, ¬ e.1.start ≤ q.stop) :
    (⟨q, A ++ B⟩ : Overlapping K V).nextBackW =
      ((A.getLast?, ⟨q, A.dropLast⟩),
        ⟨B.length + min 1 A.length, B.length + min 1 A.length, 0⟩) := by
  generalize hn : B.length = n
  induction n generalizing B with
  | zero =>
    obtain rfl := List.length_eq_zero_iff.1 hn
    rw [List.append_nil]
    rw [Overlapping.nextBackW]
    split
    · rename_i e he
      have hm : e ∈ A := List.mem_of_getLast? he
      have := List.length_pos_of_mem hm
      simp only at he
      simp only [hA e hm, if_true, he]
      congr 2 <;> omega
    · rename_i he
      simp only [List.getLast?_eq_none_iff] at he
      subst he
      rfl
  | succ n ih =>
    have hb : B ≠ [] := by rintro rfl; simp at hn
    obtain ⟨B, b, rfl⟩ : ∃ B' b, B = B' ++ [b] :=
      ⟨B.dropLast, B.getLast hb, (List.dropLast_concat_getLast hb).symm⟩
    have := ih B (fun e he => hB e (by simp [he])) (by simpa using hn)
    rw [Overlapping.nextBackW]
    split
    · rename_i e he
      rw [← List.append_assoc, List.getLast?_concat] at he
      obtain rfl := Option.some.inj he
      rw [if_neg (hB _ (by simp))]
      simp only [← List.append_assoc, List.dropLast_concat, this]
      congr 1
      show Work.mk _ _ _ = _
      congr 1 <;> simp only [] <;> omega
    · rename_i he
      simp at he

theorem split_sorted (q : RangeInclusive K) : ∀ l : List (RangeInclusive K × V), StartSorted l →
    l = l.filter (fun e => decide (e.1.start ≤ q.stop)) ++
      l.filter (fun e => decide (q.stop < e.1.start)) := by
  intro l
  induction l with
  | nil => intro _; rfl
  | cons e t ih =>
    intro h
    have hp := List.pairwise_cons.1 h
    by_cases he : e.1.start ≤ q.stop
    · have : ¬ q.stop < e.1.start := by grind
      simp only [he, this, decide_true, decide_false, List.filter_cons, if_true, Bool.false_eq_true,
        if_false, List.cons_append]
      rw [← ih hp.2]
    · have h1 : t.filter (fun e => decide (e.1.start ≤ q.stop)) = [] := by
        rw [List.filter_eq_nil_iff]
        intro x hx
        have := hp.1 x hx
        simp only [decide_eq_true_eq]
        grind
      have h2 : t.filter (fun e => decide (q.stop < e.1.start)) = t := by
        rw [List.filter_eq_self]
        intro x hx
        have := hp.1 x hx
        simp only [decide_eq_true_eq]
        grind
      have : q.stop < e.1.start := by grind
      simp [he, this, h1, h2]

/-- **C70** From the back it is different: the first call of `next_back` goes through all the entries
after the query, to the end of the map; and that is all the additional work there is. -/
theorem C70_overlapping_back {S : StepFns K} (hS : LawfulSteps S)
    {m : RangeInclusiveMap K V} (hm : ReachableAny S m) (q : RangeInclusive K) :
    ∃ o l, m.overlapping q = .ok o ∧ Yields Overlapping.next o l ∧
      ∀ past, past = (m.iter.filter fun e =>
        decide (q.start ≤ e.1.stop) && decide (q.stop < e.1.start)).length →
      o.nextBackW.2 = ⟨past + min 1 l.length, past + min 1 l.length, 0⟩ ∧
      ∀ n, l.length ≤ n → 0 < n →
        totalWork Overlapping.nextBackW n o = ⟨past + l.length, past + l.length, 0⟩ := by
  have hsep := (hm.sc hS).sep
  obtain ⟨o, h1, h2⟩ := C32_overlapping_exact hS hm q
  refine ⟨o, _, h1, h2, ?_⟩
  clear h2
  rintro past rfl
  rw [overlapping_ok] at h1
  obtain rfl := Except.ok.inj h1
  have hs := split_sorted q (m.btm.filter fun e => decide (q.start ≤ e.1.stop))
    (hsep.startSorted.filter _)
  rw [List.filter_filter, List.filter_filter] at hs
  rw [hs]
  have e1 : ∀ e : RangeInclusive K × V, (decide (e.1.start ≤ q.stop) && decide (q.start ≤ e.1.stop)) =
      (decide (q.start ≤ e.1.stop) && decide (e.1.start ≤ q.stop)) := fun e => Bool.and_comm _ _
  have e2 : ∀ e : RangeInclusive K × V, (decide (q.stop < e.1.start) && decide (q.start ≤ e.1.stop)) =
      (decide (q.start ≤ e.1.stop) && decide (q.stop < e.1.start)) := fun e => Bool.and_comm _ _
  simp only [e1, e2, RangeInclusiveMap.iter]
  have hA : ∀ e ∈ m.btm.filter (fun e => decide (q.start ≤ e.1.stop) && decide (e.1.start ≤ q.stop)),
      e.1.start ≤ q.stop := by
    intro e he; simp at he; exact he.2.2
  have hB : ∀ e ∈ m.btm.filter (fun e => decide (q.start ≤ e.1.stop) && decide (q.stop < e.1.start)),
      ¬ e.1.start ≤ q.stop := by
    intro e he; simp at he; grind
  generalize m.btm.filter (fun e => decide (q.start ≤ e.1.stop) && decide (e.1.start ≤ q.stop)) = A at hA
  generalize m.btm.filter (fun e => decide (q.start ≤ e.1.stop) && decide (q.stop < e.1.start)) = B at hB
  rw [nextBackW_append q A B hA hB]
  refine ⟨rfl, ?_⟩
  -- afterwards there are no such entries
  have rest : ∀ (n : Nat) (A : List (RangeInclusive K × V)), (∀ e ∈ A, e.1.start ≤ q.stop) → A.length ≤ n →
      totalWork Overlapping.nextBackW n ⟨q, A⟩ = ⟨A.length, A.length, 0⟩ := by
    intro n
    induction n with
    | zero =>
      intro A _ hn
      obtain rfl := List.length_eq_zero_iff.1 (Nat.le_zero.1 hn)
      rfl
    | succ n ih =>
      intro A hA hn
      have := nextBackW_append q A [] hA (by simp)
      rw [List.append_nil] at this
      rw [totalWork, this, ih _ (fun e he => hA e (List.dropLast_subset _ he)) (by simp; omega)]
      simp only [List.length_nil, List.length_dropLast]
      show Work.mk _ _ _ = _
      congr 1 <;> simp only [] <;> omega
  intro n hn hpos
  cases n with
  | zero => omega
  | succ n =>
    rw [totalWork, nextBackW_append q A B hA hB,
      rest n _ (fun e he => hA e (List.dropLast_subset _ he)) (by simp; omega)]
    show Work.mk _ _ _ = _
    simp only [List.length_dropLast]
    congr 1 <;> omega

example := Inclusive.C70_overlapping_back (K := UIntW 8) (V := Char) (S := Demo.u8)
    Demo.u8_lawful (m := Demo.imap) Demo.imap_reachable.any (Demo.by8 2 22)

/-! `gaps` -/

/-- Entries still to come that do not begin after the end of the query. -/
def remaining (qe : K) (l : List (RangeInclusive K × V)) : Nat :=
  l.countP fun e => decide (e.1.start ≤ qe)

/-- How often `next` can still run into the end of the query. -/
def ends (flag : Bool) (c qe : K) : Nat := if (flag = true ∧ c < qe) ∨ (flag = false ∧ c ≤ qe) then 2 else 1

theorem ends_bounds (flag : Bool) (c qe : K) : 1 ≤ ends flag c qe ∧ ends flag c qe ≤ 2 := by
  unfold ends; split <;> omega

/-- What the calls still to be made may cost. -/
def credit (flag : Bool) (c qe : K) (l : List (RangeInclusive K × V)) : Work :=
  ⟨remaining qe l + ends flag c qe, 2 * remaining qe l + 2 * ends flag c qe,
    2 * remaining qe l + (ends flag c qe - 1)⟩

theorem nextTailW_work {S : StepFns K} {f : Bool} {c qe : K} {l : List (RangeInclusive K × V)}
    {r} (h : Gaps.nextTailW S f c qe l = .ok r) :
    r.1.2 = ⟨true, qe, qe, l⟩ ∧ r.2.taken = 0 ∧ r.2.compared = 1 ∧ r.2.stepped ≤ ends f c qe - 1 ∧
      (r.1.1.isSome → ends f c qe = 2) := by
  unfold Gaps.nextTailW at h
  unfold ends
  split at h
  · split at h
    · cases ha : S.addOne c with
      | error p => simp [ha, bind, Except.bind] at h
      | ok a =>
        simp only [ha, bind, Except.bind, pure, Except.pure, Except.ok.injEq] at h
        subst h
        simp_all
    · obtain rfl := Except.ok.inj h
      simp_all
  · split at h
    · obtain rfl := Except.ok.inj h
      simp_all
    · obtain rfl := Except.ok.inj h
      simp_all

theorem nextLoopW_work {S : StepFns K} (qe : K) : ∀ (l : List (RangeInclusive K × V)) (f : Bool)
    (c : K) (r), GapsOk f c l → Gaps.nextLoopW S f c qe l = .ok r →
    r.2 ≤ credit f c qe l ∧ (r.1.1.isSome →
      (GapsOk r.1.2.candidateNeedsPlusOne r.1.2.candidateStart r.1.2.btmRangeIter ∧
        r.1.2.queryEnd = qe) ∧
      r.2 + credit r.1.2.candidateNeedsPlusOne r.1.2.candidateStart qe r.1.2.btmRangeIter ≤
        credit f c qe l) := by
  intro l
  induction l with
  | nil =>
    intro f c r h hr
    obtain ⟨h1, h2, h3, h4, h5⟩ := nextTailW_work hr
    have hb := ends_bounds f c qe
    have he : ends true qe qe = 1 := by
      have : ¬ qe < qe := by grind
      simp [ends, this]
    have hz : remaining qe ([] : List (RangeInclusive K × V)) = 0 := rfl
    constructor
    · simp only [credit, hz, Work.le_def]
      omega
    · intro hs
      have := h5 hs
      refine ⟨⟨?_, by rw [h1]⟩, ?_⟩
      · rw [h1]; exact ⟨⟨by simp, by simp⟩, by simp⟩
      · rw [h1]
        simp only [credit, hz, he, Work.le_def, Work.add_taken, Work.add_compared, Work.add_stepped]
        omega
  | cons e t ih =>
    intro f c r h hr
    have hne := h.sep.ne e (by simp)
    have hc := h.lo e (by simp)
    have ht := h.tail
    have hp := (List.pairwise_cons.1 h.sep.pw).1
    have hb := ends_bounds f c qe
    simp only [Gaps.nextLoopW] at hr
    by_cases h1 : qe < e.1.start
    · have hz : remaining qe t = 0 := by
        rw [remaining, List.countP_eq_zero]
        intro x hx
        have := hp x hx
        simp only [decide_eq_true_eq]
        grind [Before]
      have hz' : remaining qe (e :: t) = 0 := by
        have : ¬ e.1.start ≤ qe := by grind
        simp only [remaining] at hz
        simp [remaining, hz, this]
      have hok : GapsOk true qe t := ⟨ht.sep, fun x hx => by
        have := hp x hx; have := ht.sep.ne x hx; grind [Before]⟩
      have he : ends true qe qe = 1 := by
        have : ¬ qe < qe := by grind
        simp [ends, this]
      rw [if_pos h1] at hr
      cases hq : Gaps.nextTailW S f c qe t with
      | error p => simp [hq, bind, Except.bind] at hr
      | ok r' =>
        simp only [hq, bind, Except.bind, pure, Except.pure, Except.ok.injEq] at hr
        subst hr
        obtain ⟨i1, i2, i3, i4, i5⟩ := nextTailW_work hq
        constructor
        · simp only [credit, hz', Work.le_def, Work.add_taken, Work.add_compared, Work.add_stepped]
          omega
        · intro hs
          have := i5 hs
          refine ⟨⟨?_, by simp only [i1]⟩, ?_⟩
          · simp only [i1]; exact hok
          · simp only [i1, credit, hz, hz', he, Work.le_def, Work.add_taken, Work.add_compared,
              Work.add_stepped]
            omega
    · have hrm : remaining qe (e :: t) = remaining qe t + 1 := by
        have : e.1.start ≤ qe := by grind
        simp [remaining, this]
      have hb' := ends_bounds true e.1.stop qe
      have he : ends true e.1.stop qe ≤ ends f c qe := by
        unfold ends
        split <;> split <;> grind
      rw [if_neg h1] at hr
      cases hq : Gaps.curCandidateStart S f c with
      | error p => simp [hq, bind, Except.bind] at hr
      | ok cur =>
        simp only [hq, bind, Except.bind] at hr
        have hst : (if f = true then 1 else 0) ≤ 1 := by split <;> omega
        generalize (if f = true then 1 else 0) = st at hr hst
        by_cases h2 : cur < e.1.start
        · rw [if_pos h2] at hr
          cases hq' : S.subOne e.1.start with
          | error p => simp [hq'] at hr
          | ok s =>
            simp only [hq', pure, Except.pure, Except.ok.injEq] at hr
            subst hr
            constructor
            · simp only [credit, hrm, Work.le_def]
              omega
            · intro _
              refine ⟨⟨ht, rfl⟩, ?_⟩
              simp only [credit, hrm, Work.le_def, Work.add_taken, Work.add_compared,
                Work.add_stepped]
              omega
        · rw [if_neg h2] at hr
          cases hq' : Gaps.nextLoopW S true e.1.stop qe t with
          | error p => simp [hq'] at hr
          | ok r' =>
            simp only [hq', pure, Except.pure, Except.ok.injEq] at hr
            subst hr
            obtain ⟨i1, i2⟩ := ih true e.1.stop r' ht hq'
            constructor
            · simp only [credit, hrm, Work.le_def, Work.add_taken, Work.add_compared,
                Work.add_stepped] at i1 ⊢
              omega
            · intro hs
              obtain ⟨j1, j2⟩ := i2 hs
              refine ⟨j1, ?_⟩
              simp only [credit, hrm, Work.le_def, Work.add_taken, Work.add_compared,
                Work.add_stepped] at j2 ⊢
              omega

/-- **C70** Consuming `gaps(outer)` until it returns `None` takes at most two entries more than
overlap `outer`, makes at most two comparisons for each, and calls `add_one` and `sub_one` at most
twice for each overlapping entry and once more. -/
theorem C70_gaps {S : StepFns K} (hS : LawfulSteps S) {m : RangeInclusiveMap K V}
    (hm : ReachableAny S m) (outer : RangeInclusive K) :
    ∃ g l, m.gaps outer = .ok g ∧ YieldsE (Gaps.next S) g l ∧
      ∀ ovl, ovl = (m.iter.filter fun e =>
        decide (outer.start ≤ e.1.stop) && decide (e.1.start ≤ outer.stop)).length →
      ∃ w, totalWorkE (Gaps.nextW S) (l.length + 1) g = .ok w ∧
        w ≤ ⟨ovl + 2, 2 * ovl + 4, 2 * ovl + 1⟩ := by
  have hs := (hm.sc hS).sep
  obtain ⟨g, l, h1, h2, -⟩ := gaps_spec hS hs outer
  refine ⟨g, l, h1, h2, ?_⟩
  rintro ovl rfl
  rw [gaps_ok] at h1
  obtain rfl := Except.ok.inj h1
  have hok : GapsOk false outer.start (m.btm.filter fun e => decide (outer.start ≤ e.1.stop)) :=
    ⟨⟨hs.pw.filter _, fun e he => hs.ne e (List.mem_filter.1 he).1⟩, fun e he => ⟨by
      simpa using (List.mem_filter.1 he).2, by simp⟩⟩
  obtain ⟨w, h3, h4⟩ := totalWorkE_le (nextW := Gaps.nextW S) (next := Gaps.next S) (gaps_nextW_eq S)
    (fun g : Gaps K V => GapsOk g.candidateNeedsPlusOne g.candidateStart g.btmRangeIter ∧
      g.queryEnd = outer.stop)
    (fun g => credit g.candidateNeedsPlusOne g.candidateStart outer.stop g.btmRangeIter)
    (by
      rintro ⟨f, c, qe, l⟩ ⟨hg, rfl⟩ r hr
      exact nextLoopW_work outer.stop l f c r hg hr) _ _ ⟨hok, rfl⟩ h2
  refine ⟨w, h3, ?_⟩
  have hr : remaining outer.stop (m.btm.filter fun e => decide (outer.start ≤ e.1.stop)) =
      (m.iter.filter fun e =>
        decide (outer.start ≤ e.1.stop) && decide (e.1.start ≤ outer.stop)).length := by
    rw [remaining, List.countP_eq_length_filter, List.filter_filter, RangeInclusiveMap.iter]
    congr 2
    funext e
    exact Bool.and_comm _ _
  rw [← hr]
  have he := ends_bounds false outer.start outer.stop
  simp only [credit, Work.le_def] at h4 ⊢
  omega

-- the same on a map where two entries follow the query
example : ReachableAny Demo.u8 Demo.imap ∧ LawfulSteps Demo.u8 ∧
    (Demo.imap.overlapping (Demo.by8 1 9)).toOption.map
      (fun o => (totalWork Overlapping.nextW 3 o, totalWork Overlapping.nextBackW 2 o)) =
        some (⟨3, 3, 0⟩, ⟨4, 4, 0⟩) ∧
    ((Demo.imap.gaps (Demo.by8 1 17)).toOption.bind fun g =>
      (totalWorkE (Gaps.nextW Demo.u8) 3 g).toOption) = some ⟨4, 8, 3⟩ :=
  ⟨Demo.imap_reachable.any, Demo.u8_lawful, by decide +kernel, by decide +kernel⟩


example := C70_counted_is_real Demo.u8 (V := Char) ⟨Demo.by8 2 22, Demo.imap.iter⟩
  ⟨true, ⟨2⟩, ⟨255⟩, Demo.imap.iter⟩
example := C70_overlapping_next (V := Char) ⟨Demo.by8 2 22, Demo.imap.iter⟩
example := Props.C70_counted_is_real (V := Char) ⟨⟨2, 22⟩, Demo.map.iter⟩ ⟨2, 22, Demo.map.iter⟩
example := Props.C70_overlapping_next (V := Char) ⟨⟨2, 22⟩, Demo.map.iter⟩

end Verif.Props.Inclusive

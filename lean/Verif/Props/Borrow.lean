import Verif.Model.Borrow
import Verif.Props.Iter
import Verif.Props.IIter
import Verif.Props.Demo

/-!
# C71: `overlapping` with any implementation of `Borrow`
-/
set_option linter.unusedSectionVars false

namespace Verif.Spec

/-- The items returned by the calls at one end, in the order they were returned. -/
def returned {α : Type} (e : End) (cs : List End) (rs : List (Option α)) : List α :=
  (cs.zip rs).filterMap fun p => if p.1 = e then p.2 else none

end Verif.Spec

namespace Verif.Props
open Spec RangeMap
variable {K : Type} [LE K] [LT K] [DecidableLE K] [DecidableLT K]
  [Std.IsLinearPreorder K] [Std.LawfulOrderLT K] {V : Type}

theorem overlappingB_ok (m : RangeMap K V) (b : Nat → Range K) :
    m.overlappingB b = .ok ⟨b, 2, m.btm.filter fun e => decide ((b 1).start < e.1.stop)⟩ := by
  unfold overlappingB
  simp only []
  rw [BTreeMap.range_ok rfl]
  simp [Bound.admitsAsLower, Bound.admitsAsUpper, bind, Except.bind, pure, Except.pure]

/-- What one call of `next` does to the entries left. -/
theorem nextB_spec (o : OverlappingB K V) :
    o.next.2.queryRange = o.queryRange ∧ o.next.2.btmRangeIter = o.btmRangeIter.tail ∧
    (∀ e, o.next.1 = some e → o.btmRangeIter.head? = some e ∧
      e.1.start < (o.queryRange o.used).stop) := by
  obtain ⟨q, u, l⟩ := o
  cases l with
  | nil => simp [OverlappingB.next, Deque.next]
  | cons e t =>
    simp only [OverlappingB.next, Deque.next]
    split
    · rename_i h
      simpa using h
    · simp

/-- What one call of `next_back` does to the entries left. -/
theorem nextBackB_spec (o : OverlappingB K V) :
    o.nextBack.2.queryRange = o.queryRange ∧ o.used ≤ o.nextBack.2.used ∧
    (o.nextBack.1 = none → o.nextBack.2.btmRangeIter = []) ∧
    (∀ e, o.nextBack.1 = some e → ∃ skipped, o.btmRangeIter =
        o.nextBack.2.btmRangeIter ++ e :: skipped ∧
      ∃ t, o.used ≤ t ∧ t < o.nextBack.2.used ∧ e.1.start < (o.queryRange t).stop) := by
  fun_induction OverlappingB.nextBack o with
  | case1 o e he h =>
    refine ⟨rfl, Nat.le_succ _, by simp, ?_⟩
    intro e' he'
    obtain rfl := Option.some.inj he'
    have hne : o.btmRangeIter ≠ [] := by intro h0; simp [h0] at he
    rw [List.getLast?_eq_some_getLast hne] at he
    refine ⟨[], ?_, o.used, Nat.le_refl _, Nat.lt_succ_self _, h⟩
    rw [← Option.some.inj he]
    exact (List.dropLast_concat_getLast hne).symm
  | case2 o e he h ih =>
    obtain ⟨i1, i2, i3, i4⟩ := ih
    refine ⟨i1, Nat.le_trans (Nat.le_succ _) i2, i3, ?_⟩
    intro e' he'
    obtain ⟨s, j1, t, j2, j3, j4⟩ := i4 e' he'
    have hne : o.btmRangeIter ≠ [] := by intro h0; simp [h0] at he
    refine ⟨s ++ [o.btmRangeIter.getLast hne], ?_, t, Nat.le_trans (Nat.le_succ _) j2, j3, j4⟩
    have := (List.dropLast_concat_getLast hne).symm
    simp only at j1
    rw [j1] at this
    simpa using this
  | case3 o he =>
    refine ⟨rfl, Nat.le_refl _, fun _ => ?_, by simp⟩
    simpa using he

theorem returned_script (next nextBack : OverlappingB K V → Option (Range K × V) × OverlappingB K V)
    (hf : next = OverlappingB.next) (hb : nextBack = OverlappingB.nextBack) :
    ∀ (cs : List End) (o : OverlappingB K V),
      (returned .front cs (script next nextBack cs o) ++
        (returned .back cs (script next nextBack cs o)).reverse).Sublist o.btmRangeIter := by
  subst hf hb
  intro cs
  induction cs with
  | nil => intro o; simp [returned]
  | cons c cs ih =>
    intro o
    cases c with
    | front =>
      obtain ⟨-, h1, h2⟩ := nextB_spec o
      have := ih o.next.2
      rw [h1] at this
      cases hn : o.next.1 with
      | none =>
        simp only [script, hn, returned, List.zip_cons_cons, List.filterMap_cons] at this ⊢
        exact this.trans (List.tail_sublist _)
      | some e =>
        obtain ⟨t, ht⟩ := List.head?_eq_some_iff.1 (h2 e hn).1
        rw [ht] at this ⊢
        simp only [script, hn, returned, List.zip_cons_cons, List.filterMap_cons] at this ⊢
        exact this.cons_cons e
    | back =>
      obtain ⟨-, -, h1, h2⟩ := nextBackB_spec o
      have := ih o.nextBack.2
      cases hn : o.nextBack.1 with
      | none =>
        rw [h1 hn] at this
        simp only [script, hn, returned, List.zip_cons_cons, List.filterMap_cons] at this ⊢
        exact this.trans (List.nil_sublist _)
      | some e =>
        obtain ⟨s, hs, -⟩ := h2 e hn
        rw [hs]
        simp only [script, hn, returned, List.zip_cons_cons, List.filterMap_cons] at this ⊢
        simp only [reduceCtorEq, if_false, if_true, List.reverse_cons]
        rw [← List.append_assoc, List.append_cons o.nextBack.2.btmRangeIter]
        exact (this.append (List.Sublist.refl [e])).trans (List.sublist_append_left _ _)

/-- **C71** However `borrow()` behaves: `overlapping` does not panic, and whatever sequence of calls
of `next` and `next_back` is made, the items returned at the front, followed by those returned at
the back in the opposite order, are distinct entries of the map in ascending order. -/
theorem C71_each_at_most_once (m : RangeMap K V) (b : Nat → Range K) :
    ∃ o, m.overlappingB b = .ok o ∧ ∀ cs : List End,
      let rs := script OverlappingB.next OverlappingB.nextBack cs o
      (returned .front cs rs ++ (returned .back cs rs).reverse).Sublist m.iter := by
  refine ⟨_, overlappingB_ok m b, fun cs => ?_⟩
  exact (returned_script _ _ rfl rfl cs _).trans List.filter_sublist

example := C71_each_at_most_once (K := Nat) (V := Char) Demo.map (fun _ => ⟨2, 22⟩)

theorem drained (cs : List End) : ∀ (o : OverlappingB K V), o.btmRangeIter = [] →
    ∀ r ∈ script OverlappingB.next OverlappingB.nextBack cs o, r = none := by
  induction cs with
  | nil => intro o _ r hr; simp [script] at hr
  | cons c cs ih =>
    intro o ho r hr
    cases c with
    | front =>
      obtain ⟨-, h1, h2⟩ := nextB_spec o
      rw [script, List.mem_cons] at hr
      rcases hr with rfl | hr
      · cases hn : o.next.1 with
        | none => rfl
        | some e => simpa [ho] using (h2 e hn).1
      · exact ih _ (by rw [h1, ho]; rfl) r hr
    | back =>
      obtain ⟨-, -, h1, h2⟩ := nextBackB_spec o
      rw [script, List.mem_cons] at hr
      rcases hr with rfl | hr
      · cases hn : o.nextBack.1 with
        | none => rfl
        | some e =>
          obtain ⟨s, hs, -⟩ := h2 e hn
          simp [ho] at hs
      · refine ih _ ?_ r hr
        cases hn : o.nextBack.1 with
        | none => exact h1 hn
        | some e =>
          obtain ⟨s, hs, -⟩ := h2 e hn
          simp [ho] at hs

/-- **C71** After as many calls as there are entries, the iterator returns `None` forever (before, a
`None` need not be the last word). -/
theorem C71_ends (m : RangeMap K V) (b : Nat → Range K) :
    ∃ o, m.overlappingB b = .ok o ∧ ∀ cs cs' : List End, m.len ≤ cs.length →
      ∀ r ∈ (script OverlappingB.next OverlappingB.nextBack (cs ++ cs') o).drop cs.length,
        r = none := by
  refine ⟨_, overlappingB_ok m b, ?_⟩
  suffices h : ∀ (cs cs' : List End) (o : OverlappingB K V), o.btmRangeIter.length ≤ cs.length →
      ∀ r ∈ (script OverlappingB.next OverlappingB.nextBack (cs ++ cs') o).drop cs.length,
        r = none from
    fun cs cs' hl => h cs cs' _ (Nat.le_trans (List.length_filter_le _ _) hl)
  intro cs
  induction cs with
  | nil =>
    intro cs' o hl r hr
    exact drained cs' o (List.length_eq_zero_iff.1 (Nat.le_zero.1 hl)) r hr
  | cons c cs ih =>
    intro cs' o hl r hr
    cases c with
    | front =>
      obtain ⟨-, h1, -⟩ := nextB_spec o
      refine ih cs' o.next.2 ?_ r hr
      rw [h1, List.length_tail]
      simp at hl
      omega
    | back =>
      obtain ⟨-, -, h1, h2⟩ := nextBackB_spec o
      refine ih cs' o.nextBack.2 ?_ r hr
      cases hn : o.nextBack.1 with
      | none => rw [h1 hn]; simp
      | some e =>
        obtain ⟨s, hs, -⟩ := h2 e hn
        rw [hs] at hl
        simp at hl
        omega

example := C71_ends (K := Nat) (V := Char) Demo.map (fun _ => ⟨2, 22⟩)

/-- **C71** Every entry returned ends after the start of the query `borrow()` gave at the beginning
(the second time), and begins before the end of the query it gave during the call. -/
theorem C71_items (m : RangeMap K V) (b : Nat → Range K) :
    ∃ o, m.overlappingB b = .ok o ∧ o.queryRange = b ∧
      (∀ e ∈ o.btmRangeIter, e ∈ m.iter ∧ (b 1).start < e.1.stop) ∧
    ∀ o' : OverlappingB K V, o'.queryRange = b →
      (∀ e, o'.next.1 = some e → e ∈ o'.btmRangeIter ∧ e.1.start < (b o'.used).stop) ∧
      (∀ e, o'.nextBack.1 = some e → e ∈ o'.btmRangeIter ∧
        ∃ t, o'.used ≤ t ∧ t < o'.nextBack.2.used ∧ e.1.start < (b t).stop) := by
  refine ⟨_, overlappingB_ok m b, rfl, ?_, ?_⟩
  · intro e he
    simpa [List.mem_filter, RangeMap.iter] using he
  · rintro o' rfl
    obtain ⟨-, -, h2⟩ := nextB_spec o'
    obtain ⟨-, -, -, h4⟩ := nextBackB_spec o'
    refine ⟨fun e he => ⟨List.mem_of_head? (h2 e he).1, (h2 e he).2⟩, fun e he => ?_⟩
    obtain ⟨s, hs, ht⟩ := h4 e he
    exact ⟨by rw [hs]; simp, ht⟩

example := C71_items (K := Nat) (V := Char) Demo.map (fun _ => ⟨2, 22⟩)

/-- The two iterators, when `borrow()` always returns the same. -/
theorem nextBack_same {q : Range K} (o : OverlappingB K V)
    (h : ∀ n, keq (o.queryRange n).stop q.stop = true) :
    o.nextBack.1 = (⟨q, o.btmRangeIter⟩ : Overlapping K V).nextBack.1 ∧
    (⟨q, o.nextBack.2.btmRangeIter⟩ : Overlapping K V) =
      (⟨q, o.btmRangeIter⟩ : Overlapping K V).nextBack.2 := by
  fun_induction OverlappingB.nextBack o with
  | case1 o e he hlt =>
    have := h o.used
    rw [keq_iff] at this
    rw [Overlapping.nextBack]
    split <;> rename_i h' <;> simp only [he] at h'
    · obtain rfl := Option.some.inj h'
      rw [if_pos (by grind)]
      exact ⟨rfl, rfl⟩
    · simp at h'
  | case2 o e he hlt ih =>
    have := h o.used
    rw [keq_iff] at this
    rw [Overlapping.nextBack]
    split <;> rename_i h' <;> simp only [he] at h'
    · obtain rfl := Option.some.inj h'
      rw [if_neg (by grind)]
      exact ih h
    · simp at h'
  | case3 o he =>
    rw [Overlapping.nextBack]
    split <;> rename_i h' <;> simp only [he] at h'
    · simp at h'
    · exact ⟨rfl, rfl⟩

/-- **C71** If the ranges `borrow()` returns always have equal ends, the iterator is the one for the
first of them. -/
theorem C71_consistent (m : RangeMap K V) (b : Nat → Range K)
    (h : ∀ n, keq (b n).start (b 0).start = true ∧ keq (b n).stop (b 0).stop = true) :
    ∃ o o', m.overlappingB b = .ok o ∧ m.overlapping (b 0) = .ok o' ∧ ∀ cs : List End,
      script OverlappingB.next OverlappingB.nextBack cs o =
        script Overlapping.next Overlapping.nextBack cs o' := by
  refine ⟨_, _, overlappingB_ok m b, overlapping_ok m (b 0), ?_⟩
  have hl : (m.btm.filter fun e => decide ((b 1).start < e.1.stop)) =
      m.btm.filter fun e => decide ((b 0).start < e.1.stop) := by
    congr 1
    funext e
    have := (h 1).1
    rw [keq_iff] at this
    apply decide_eq_decide.2
    grind
  rw [hl]
  generalize (m.btm.filter fun e => decide ((b 0).start < e.1.stop)) = l
  suffices h' : ∀ (cs : List End) (o : OverlappingB K V), o.queryRange = b →
      script OverlappingB.next OverlappingB.nextBack cs o =
        script Overlapping.next Overlapping.nextBack cs ⟨b 0, o.btmRangeIter⟩ from
    fun cs => h' cs _ rfl
  intro cs
  induction cs with
  | nil => exact fun _ _ => rfl
  | cons c cs ih =>
    rintro o ho
    cases c with
    | front =>
      have hs : o.next.1 = (⟨b 0, o.btmRangeIter⟩ : Overlapping K V).next.1 ∧
          (⟨b 0, o.next.2.btmRangeIter⟩ : Overlapping K V) =
            (⟨b 0, o.btmRangeIter⟩ : Overlapping K V).next.2 := by
        obtain ⟨q, u, l⟩ := o
        obtain rfl : q = b := ho
        cases l with
        | nil => exact ⟨rfl, rfl⟩
        | cons e t =>
          have := (h u).2
          rw [keq_iff] at this
          simp only [OverlappingB.next, Overlapping.next, Deque.next]
          by_cases hc : e.1.start < (q 0).stop
          · rw [if_pos hc, if_pos (by grind)]
            exact ⟨rfl, rfl⟩
          · rw [if_neg hc, if_neg (by grind)]
            exact ⟨rfl, rfl⟩
      rw [script, script, hs.1, ih _ ((nextB_spec o).1.trans ho), hs.2]
    | back =>
      have hs := nextBack_same (q := b 0) o (by rw [ho]; exact fun n => (h n).2)
      rw [script, script, hs.1, ih _ ((nextBackB_spec o).1.trans ho), hs.2]

-- a `borrow()` that cannot make up its mind: `None` is followed by an entry
example : (Demo.map.overlappingB fun n => if n = 2 then ⟨0, 0⟩ else ⟨0, 30⟩).toOption.map
    (fun o => script OverlappingB.next OverlappingB.nextBack [.front, .front, .back, .back] o) =
      some [none, some (⟨5, 15⟩, 'a'), some (⟨25, 40⟩, 'c'), some (⟨20, 25⟩, 'b')] := by
  decide +kernel

end Verif.Props

namespace Verif.Props.Inclusive
open Spec RangeInclusiveMap
variable {K : Type} [LE K] [LT K] [DecidableLE K] [DecidableLT K]
  [Std.IsLinearPreorder K] [Std.LawfulOrderLT K] {V : Type}

theorem overlappingB_ok (m : RangeInclusiveMap K V) (b : Nat → RangeInclusive K) :
    m.overlappingB b = .ok ⟨b, 2, m.btm.filter fun e => decide ((b 1).start ≤ e.1.stop)⟩ := by
  unfold overlappingB
  simp only []
  rw [BTreeMap.range_ok rfl]
  simp [Bound.admitsAsLower, Bound.admitsAsUpper, bind, Except.bind, pure, Except.pure]
  rfl

/-- What one call of `next` does to the entries left. -/
theorem nextB_spec (o : OverlappingB K V) :
    o.next.2.queryRange = o.queryRange ∧ o.next.2.btmRangeIter = o.btmRangeIter.tail ∧
    (∀ e, o.next.1 = some e → o.btmRangeIter.head? = some e ∧
      e.1.start ≤ (o.queryRange o.used).stop) := by
  obtain ⟨q, u, l⟩ := o
  cases l with
  | nil => simp [OverlappingB.next, Deque.next]
  | cons e t =>
    simp only [OverlappingB.next, Deque.next]
    split
    · rename_i h
      simpa using h
    · simp

/-- What one call of `next_back` does to the entries left. -/
theorem nextBackB_spec (o : OverlappingB K V) :
    o.nextBack.2.queryRange = o.queryRange ∧ o.used ≤ o.nextBack.2.used ∧
    (o.nextBack.1 = none → o.nextBack.2.btmRangeIter = []) ∧
    (∀ e, o.nextBack.1 = some e → ∃ skipped, o.btmRangeIter =
        o.nextBack.2.btmRangeIter ++ e :: skipped ∧
      ∃ t, o.used ≤ t ∧ t < o.nextBack.2.used ∧ e.1.start ≤ (o.queryRange t).stop) := by
  fun_induction OverlappingB.nextBack o with
  | case1 o e he h =>
    refine ⟨rfl, Nat.le_succ _, by simp, ?_⟩
    intro e' he'
    obtain rfl := Option.some.inj he'
    have hne : o.btmRangeIter ≠ [] := by intro h0; simp [h0] at he
    rw [List.getLast?_eq_some_getLast hne] at he
    refine ⟨[], ?_, o.used, Nat.le_refl _, Nat.lt_succ_self _, h⟩
    rw [← Option.some.inj he]
    exact (List.dropLast_concat_getLast hne).symm
  | case2 o e he h ih =>
    obtain ⟨i1, i2, i3, i4⟩ := ih
    refine ⟨i1, Nat.le_trans (Nat.le_succ _) i2, i3, ?_⟩
    intro e' he'
    obtain ⟨s, j1, t, j2, j3, j4⟩ := i4 e' he'
    have hne : o.btmRangeIter ≠ [] := by intro h0; simp [h0] at he
    refine ⟨s ++ [o.btmRangeIter.getLast hne], ?_, t, Nat.le_trans (Nat.le_succ _) j2, j3, j4⟩
    have := (List.dropLast_concat_getLast hne).symm
    simp only at j1
    rw [j1] at this
    simpa using this
  | case3 o he =>
    refine ⟨rfl, Nat.le_refl _, fun _ => ?_, by simp⟩
    simpa using he

theorem returned_script (next nextBack : OverlappingB K V → Option (RangeInclusive K × V) × OverlappingB K V)
    (hf : next = OverlappingB.next) (hb : nextBack = OverlappingB.nextBack) :
    ∀ (cs : List End) (o : OverlappingB K V),
      (returned .front cs (script next nextBack cs o) ++
        (returned .back cs (script next nextBack cs o)).reverse).Sublist o.btmRangeIter := by
  subst hf hb
  intro cs
  induction cs with
  | nil => intro o; simp [returned]
  | cons c cs ih =>
    intro o
    cases c with
    | front =>
      obtain ⟨-, h1, h2⟩ := nextB_spec o
      have := ih o.next.2
      rw [h1] at this
      cases hn : o.next.1 with
      | none =>
        simp only [script, hn, returned, List.zip_cons_cons, List.filterMap_cons] at this ⊢
        exact this.trans (List.tail_sublist _)
      | some e =>
        obtain ⟨t, ht⟩ := List.head?_eq_some_iff.1 (h2 e hn).1
        rw [ht] at this ⊢
        simp only [script, hn, returned, List.zip_cons_cons, List.filterMap_cons] at this ⊢
        exact this.cons_cons e
    | back =>
      obtain ⟨-, -, h1, h2⟩ := nextBackB_spec o
      have := ih o.nextBack.2
      cases hn : o.nextBack.1 with
      | none =>
        rw [h1 hn] at this
        simp only [script, hn, returned, List.zip_cons_cons, List.filterMap_cons] at this ⊢
        exact this.trans (List.nil_sublist _)
      | some e =>
        obtain ⟨s, hs, -⟩ := h2 e hn
        rw [hs]
        simp only [script, hn, returned, List.zip_cons_cons, List.filterMap_cons] at this ⊢
        simp only [reduceCtorEq, if_false, if_true, List.reverse_cons]
        rw [← List.append_assoc, List.append_cons o.nextBack.2.btmRangeIter]
        exact (this.append (List.Sublist.refl [e])).trans (List.sublist_append_left _ _)

/-- **C71** However `borrow()` behaves: `overlapping` does not panic, and whatever sequence of calls
of `next` and `next_back` is made, the items returned at the front, followed by those returned at
the back in the opposite order, are distinct entries of the map in ascending order. -/
theorem C71_each_at_most_once (m : RangeInclusiveMap K V) (b : Nat → RangeInclusive K) :
    ∃ o, m.overlappingB b = .ok o ∧ ∀ cs : List End,
      let rs := script OverlappingB.next OverlappingB.nextBack cs o
      (returned .front cs rs ++ (returned .back cs rs).reverse).Sublist m.iter := by
  refine ⟨_, overlappingB_ok m b, fun cs => ?_⟩
  exact (returned_script _ _ rfl rfl cs _).trans List.filter_sublist

example := Inclusive.C71_each_at_most_once (K := UIntW 8) (V := Char) Demo.imap
    (fun _ => Demo.by8 2 22)

theorem drained (cs : List End) : ∀ (o : OverlappingB K V), o.btmRangeIter = [] →
    ∀ r ∈ script OverlappingB.next OverlappingB.nextBack cs o, r = none := by
  induction cs with
  | nil => intro o _ r hr; simp [script] at hr
  | cons c cs ih =>
    intro o ho r hr
    cases c with
    | front =>
      obtain ⟨-, h1, h2⟩ := nextB_spec o
      rw [script, List.mem_cons] at hr
      rcases hr with rfl | hr
      · cases hn : o.next.1 with
        | none => rfl
        | some e => simpa [ho] using (h2 e hn).1
      · exact ih _ (by rw [h1, ho]; rfl) r hr
    | back =>
      obtain ⟨-, -, h1, h2⟩ := nextBackB_spec o
      rw [script, List.mem_cons] at hr
      rcases hr with rfl | hr
      · cases hn : o.nextBack.1 with
        | none => rfl
        | some e =>
          obtain ⟨s, hs, -⟩ := h2 e hn
          simp [ho] at hs
      · refine ih _ ?_ r hr
        cases hn : o.nextBack.1 with
        | none => exact h1 hn
        | some e =>
          obtain ⟨s, hs, -⟩ := h2 e hn
          simp [ho] at hs

/-- **C71** After as many calls as there are entries, the iterator returns `None` forever (before, a
`None` need not be the last word). -/
theorem C71_ends (m : RangeInclusiveMap K V) (b : Nat → RangeInclusive K) :
    ∃ o, m.overlappingB b = .ok o ∧ ∀ cs cs' : List End, m.len ≤ cs.length →
      ∀ r ∈ (script OverlappingB.next OverlappingB.nextBack (cs ++ cs') o).drop cs.length,
        r = none := by
  refine ⟨_, overlappingB_ok m b, ?_⟩
  suffices h : ∀ (cs cs' : List End) (o : OverlappingB K V), o.btmRangeIter.length ≤ cs.length →
      ∀ r ∈ (script OverlappingB.next OverlappingB.nextBack (cs ++ cs') o).drop cs.length,
        r = none from
    fun cs cs' hl => h cs cs' _ (Nat.le_trans (List.length_filter_le _ _) hl)
  intro cs
  induction cs with
  | nil =>
    intro cs' o hl r hr
    exact drained cs' o (List.length_eq_zero_iff.1 (Nat.le_zero.1 hl)) r hr
  | cons c cs ih =>
    intro cs' o hl r hr
    cases c with
    | front =>
      obtain ⟨-, h1, -⟩ := nextB_spec o
      refine ih cs' o.next.2 ?_ r hr
      rw [h1, List.length_tail]
      simp at hl
      omega
    | back =>
      obtain ⟨-, -, h1, h2⟩ := nextBackB_spec o
      refine ih cs' o.nextBack.2 ?_ r hr
      cases hn : o.nextBack.1 with
      | none => rw [h1 hn]; simp
      | some e =>
        obtain ⟨s, hs, -⟩ := h2 e hn
        rw [hs] at hl
        simp at hl
        omega

example := Inclusive.C71_ends (K := UIntW 8) (V := Char) Demo.imap (fun _ => Demo.by8 2 22)

/-- **C71** Every entry returned does not end before the start of the query `borrow()` gave at the beginning
(the second time), and does not begin after the end of the query it gave during the call. -/
theorem C71_items (m : RangeInclusiveMap K V) (b : Nat → RangeInclusive K) :
    ∃ o, m.overlappingB b = .ok o ∧ o.queryRange = b ∧
      (∀ e ∈ o.btmRangeIter, e ∈ m.iter ∧ (b 1).start ≤ e.1.stop) ∧
    ∀ o' : OverlappingB K V, o'.queryRange = b →
      (∀ e, o'.next.1 = some e → e ∈ o'.btmRangeIter ∧ e.1.start ≤ (b o'.used).stop) ∧
      (∀ e, o'.nextBack.1 = some e → e ∈ o'.btmRangeIter ∧
        ∃ t, o'.used ≤ t ∧ t < o'.nextBack.2.used ∧ e.1.start ≤ (b t).stop) := by
  refine ⟨_, overlappingB_ok m b, rfl, ?_, ?_⟩
  · intro e he
    simpa [List.mem_filter, RangeInclusiveMap.iter] using he
  · rintro o' rfl
    obtain ⟨-, -, h2⟩ := nextB_spec o'
    obtain ⟨-, -, -, h4⟩ := nextBackB_spec o'
    refine ⟨fun e he => ⟨List.mem_of_head? (h2 e he).1, (h2 e he).2⟩, fun e he => ?_⟩
    obtain ⟨s, hs, ht⟩ := h4 e he
    exact ⟨by rw [hs]; simp, ht⟩

example := Inclusive.C71_items (K := UIntW 8) (V := Char) Demo.imap (fun _ => Demo.by8 2 22)

/-- The two iterators, when `borrow()` always returns the same. -/
theorem nextBack_same {q : RangeInclusive K} (o : OverlappingB K V)
    (h : ∀ n, keq (o.queryRange n).stop q.stop = true) :
    o.nextBack.1 = (⟨q, o.btmRangeIter⟩ : Overlapping K V).nextBack.1 ∧
    (⟨q, o.nextBack.2.btmRangeIter⟩ : Overlapping K V) =
      (⟨q, o.btmRangeIter⟩ : Overlapping K V).nextBack.2 := by
  fun_induction OverlappingB.nextBack o with
  | case1 o e he hlt =>
    have := h o.used
    rw [keq_iff] at this
    rw [Overlapping.nextBack]
    split <;> rename_i h' <;> simp only [he] at h'
    · obtain rfl := Option.some.inj h'
      rw [if_pos (by grind)]
      exact ⟨rfl, rfl⟩
    · simp at h'
  | case2 o e he hlt ih =>
    have := h o.used
    rw [keq_iff] at this
    rw [Overlapping.nextBack]
    split <;> rename_i h' <;> simp only [he] at h'
    · obtain rfl := Option.some.inj h'
      rw [if_neg (by grind)]
      exact ih h
    · simp at h'
  | case3 o he =>
    rw [Overlapping.nextBack]
    split <;> rename_i h' <;> simp only [he] at h'
    · simp at h'
    · exact ⟨rfl, rfl⟩

/-- **C71** If the ranges `borrow()` returns always have equal ends, the iterator is the one for the
first of them. -/
theorem C71_consistent (m : RangeInclusiveMap K V) (b : Nat → RangeInclusive K)
    (h : ∀ n, keq (b n).start (b 0).start = true ∧ keq (b n).stop (b 0).stop = true) :
    ∃ o o', m.overlappingB b = .ok o ∧ m.overlapping (b 0) = .ok o' ∧ ∀ cs : List End,
      script OverlappingB.next OverlappingB.nextBack cs o =
        script Overlapping.next Overlapping.nextBack cs o' := by
  refine ⟨_, _, overlappingB_ok m b, overlapping_ok m (b 0), ?_⟩
  have hl : (m.btm.filter fun e => decide ((b 1).start ≤ e.1.stop)) =
      m.btm.filter fun e => decide ((b 0).start ≤ e.1.stop) := by
    congr 1
    funext e
    have := (h 1).1
    rw [keq_iff] at this
    apply decide_eq_decide.2
    grind
  rw [hl]
  generalize (m.btm.filter fun e => decide ((b 0).start ≤ e.1.stop)) = l
  suffices h' : ∀ (cs : List End) (o : OverlappingB K V), o.queryRange = b →
      script OverlappingB.next OverlappingB.nextBack cs o =
        script Overlapping.next Overlapping.nextBack cs ⟨b 0, o.btmRangeIter⟩ from
    fun cs => h' cs _ rfl
  intro cs
  induction cs with
  | nil => exact fun _ _ => rfl
  | cons c cs ih =>
    rintro o ho
    cases c with
    | front =>
      have hs : o.next.1 = (⟨b 0, o.btmRangeIter⟩ : Overlapping K V).next.1 ∧
          (⟨b 0, o.next.2.btmRangeIter⟩ : Overlapping K V) =
            (⟨b 0, o.btmRangeIter⟩ : Overlapping K V).next.2 := by
        obtain ⟨q, u, l⟩ := o
        obtain rfl : q = b := ho
        cases l with
        | nil => exact ⟨rfl, rfl⟩
        | cons e t =>
          have := (h u).2
          rw [keq_iff] at this
          simp only [OverlappingB.next, Overlapping.next, Deque.next]
          by_cases hc : e.1.start ≤ (q 0).stop
          · rw [if_pos hc, if_pos (by grind)]
            exact ⟨rfl, rfl⟩
          · rw [if_neg hc, if_neg (by grind)]
            exact ⟨rfl, rfl⟩
      rw [script, script, hs.1, ih _ ((nextB_spec o).1.trans ho), hs.2]
    | back =>
      have hs := nextBack_same (q := b 0) o (by rw [ho]; exact fun n => (h n).2)
      rw [script, script, hs.1, ih _ ((nextBackB_spec o).1.trans ho), hs.2]

example : (Demo.imap.overlappingB fun n => if n = 2 then Demo.by8 1 0 else Demo.by8 0 30).toOption.map
    (fun o => script OverlappingB.next OverlappingB.nextBack [.front, .front, .back, .back] o) =
      some [some (Demo.by8 0 2, 'a'), some (Demo.by8 5 15, 'a'), some (Demo.by8 25 255, 'c'),
        some (Demo.by8 20 24, 'b')] := by
  decide +kernel

end Verif.Props.Inclusive

import Verif.Props.Demo
import Verif.Model.IterCrash
import Verif.Props.Borrow
import Verif.Props.QueryWork

/-!
# C72: query iterators interrupted by a panic of user code
-/
set_option linter.unusedSectionVars false

namespace Verif.Spec

/-- The items among the outcomes of calls that may have been interrupted. -/
def got {α : Type} (rs : List (Called α)) : List α := (rs.filterMap id).filterMap id

/-- The call was not interrupted and returned `None`. -/
def isEnd {α : Type} : Called α → Bool
  | some none => true
  | _ => false

end Verif.Spec

namespace Verif.Props
open Spec RangeMap
variable {K : Type} [LE K] [LT K] [DecidableLE K] [DecidableLT K]
  [Std.IsLinearPreorder K] [Std.LawfulOrderLT K] {V : Type}

/-- What one call does to the entries still to be yielded. -/
theorem nextP_spec (panics : Panics) (o : OverlappingP K V) (h : StartSorted o.it.btmRangeIter) :
    StartSorted (o.next panics).2.it.btmRangeIter ∧
    match (o.next panics).1 with
    | none => (o.next panics).2.it.items = o.it.items.tail
    | some none => o.it.items = [] ∧ (o.next panics).2.it.items = []
    | some (some e) => o.it.items = e :: (o.next panics).2.it.items := by
  obtain ⟨n, q, l⟩ := o
  cases l with
  | nil => exact ⟨h, rfl, rfl⟩
  | cons e t =>
    have hh := List.pairwise_cons.1 h
    by_cases he : e.1.start < q.stop
    · by_cases hp : panics .cmp n = true
      · simp [OverlappingP.next, Deque.next, Overlapping.items, he, hp]
        exact hh.2
      · simp [OverlappingP.next, Deque.next, Overlapping.items, he, hp]
        exact hh.2
    · have : t.filter (fun e => decide (e.1.start < q.stop)) = [] := by
        rw [List.filter_eq_nil_iff]
        intro x hx
        have := hh.1 x hx
        grind
      by_cases hp : panics .cmp n = true
      · simp [OverlappingP.next, Deque.next, Overlapping.items, he, this, hp]
        exact hh.2
      · simp [OverlappingP.next, Deque.next, Overlapping.items, he, this, hp]
        exact hh.2

/-- What one call does to the entries still to be yielded. -/
theorem nextBackP_spec (panics : Panics) (o : OverlappingP K V)
    (h : StartSorted o.it.btmRangeIter) :
    StartSorted (o.nextBack panics).2.it.btmRangeIter ∧
    match (o.nextBack panics).1 with
    | none => (o.nextBack panics).2.it.items = o.it.items.dropLast ∨
        (o.nextBack panics).2.it.items = o.it.items
    | some none => o.it.items = [] ∧ (o.nextBack panics).2.it.items = []
    | some (some e) => o.it.items = (o.nextBack panics).2.it.items ++ [e] := by
  have hstep : ∀ (o : OverlappingP K V) e, StartSorted o.it.btmRangeIter →
      o.it.btmRangeIter.getLast? = some e →
      StartSorted o.it.btmRangeIter.dropLast ∧
      o.it.items = (⟨o.it.queryRange, o.it.btmRangeIter.dropLast⟩ : Overlapping K V).items ++
        (if e.1.start < o.it.queryRange.stop then [e] else []) := by
    intro o e h hl
    obtain ⟨l, hl'⟩ := List.getLast?_eq_some_iff.1 hl
    simp only [Overlapping.items, hl', List.dropLast_concat, List.filter_append]
    refine ⟨?_, ?_⟩
    · rw [hl'] at h
      exact h.sublist (List.sublist_append_left _ _)
    · simp [List.filter_cons]
  fun_induction OverlappingP.nextBack panics o with
  | case1 o e hl o' hp =>
    obtain ⟨h1, h2⟩ := hstep o e h hl
    refine ⟨h1, ?_⟩
    split at h2
    · exact Or.inl (by rw [h2]; simp [o'])
    · exact Or.inr (by rw [h2]; simp [o'])
  | case2 o e hl o' hp he =>
    obtain ⟨h1, h2⟩ := hstep o e h hl
    rw [if_pos he] at h2
    exact ⟨h1, h2⟩
  | case3 o e hl hp he ih =>
    obtain ⟨h1, h2⟩ := hstep o e h hl
    rw [if_neg he, List.append_nil] at h2
    rw [h2]
    exact ih h1
  | case4 o hl =>
    have : o.it.btmRangeIter = [] := by simpa using hl
    simp only [Overlapping.items, this]
    exact ⟨List.Pairwise.nil, rfl, rfl⟩

theorem scriptP (panics : Panics) (cs : List End) : ∀ o : OverlappingP K V,
    StartSorted o.it.btmRangeIter →
    let rs := script (OverlappingP.next panics) (OverlappingP.nextBack panics) cs o
    ((returned .front cs rs).filterMap id ++ ((returned .back cs rs).filterMap id).reverse).Sublist
      o.it.items ∧
    (some none ∈ rs → o.it.items.length ≤ rs.countP fun r => !isEnd r) := by
  induction cs with
  | nil => intro o _; simp [returned, script]
  | cons c cs ih =>
    intro o ho
    cases c with
    | front =>
      obtain ⟨h1, h2⟩ := nextP_spec panics o ho
      obtain ⟨i1, i2⟩ := ih _ h1
      rcases hn : (o.next panics).1 with _ | _ | e <;> rw [hn] at h2 <;> simp only at h2
      · rw [h2] at i1 i2
        simp only [script, hn, returned, List.zip_cons_cons, List.filterMap_cons] at i1 ⊢
        refine ⟨i1.trans (List.tail_sublist _), ?_⟩
        simp only [List.mem_cons, reduceCtorEq, false_or, List.countP_cons, List.length_tail] at i2 ⊢
        intro h
        have := i2 h
        simp [isEnd] at this ⊢
        omega
      · rw [h2.2] at i1
        simp only [script, hn, returned, List.zip_cons_cons, List.filterMap_cons] at i1 ⊢
        rw [h2.1]
        exact ⟨by simpa using i1, by simp⟩
      · rw [h2]
        simp only [script, hn, returned, List.zip_cons_cons, List.filterMap_cons] at i1 ⊢
        refine ⟨by simpa using i1, ?_⟩
        simp only [List.mem_cons, Option.some.injEq, reduceCtorEq, false_or, List.countP_cons,
          List.length_cons]
        intro h
        have := i2 h
        simp [isEnd] at this ⊢
        omega
    | back =>
      obtain ⟨h1, h2⟩ := nextBackP_spec panics o ho
      obtain ⟨i1, i2⟩ := ih _ h1
      rcases hn : (o.nextBack panics).1 with _ | _ | e <;> rw [hn] at h2 <;> simp only at h2
      · have hs : (o.nextBack panics).2.it.items.Sublist o.it.items := by
          rcases h2 with h2 | h2
          · rw [h2]; exact List.dropLast_sublist _
          · rw [h2]; exact List.Sublist.refl _
        have hlen : o.it.items.length ≤ (o.nextBack panics).2.it.items.length + 1 := by
          rcases h2 with h2 | h2
          · rw [h2, List.length_dropLast]; omega
          · rw [h2]; omega
        simp only [script, hn, returned, List.zip_cons_cons, List.filterMap_cons] at i1 ⊢
        refine ⟨i1.trans hs, ?_⟩
        simp only [List.mem_cons, reduceCtorEq, false_or, List.countP_cons] at i2 ⊢
        intro h
        have := i2 h
        simp [isEnd] at this ⊢
        omega
      · rw [h2.2] at i1
        simp only [script, hn, returned, List.zip_cons_cons, List.filterMap_cons] at i1 ⊢
        rw [h2.1]
        exact ⟨by simpa using i1, by simp⟩
      · rw [h2]
        simp only [script, hn, returned, List.zip_cons_cons, List.filterMap_cons] at i1 ⊢
        refine ⟨?_, ?_⟩
        · simp only [reduceCtorEq, if_false, if_true, List.filterMap_cons, id, List.reverse_cons]
          rw [← List.append_assoc]
          exact i1.append (List.Sublist.refl [e])
        · simp only [List.mem_cons, Option.some.injEq, reduceCtorEq, false_or, List.countP_cons,
            List.length_append]
          intro h
          have := i2 h
          simp [isEnd] at this ⊢
          omega

/-- **C72** If user code panics (at whichever points of whichever calls) and the caller goes on with
the `Overlapping` iterator, from either end: the items it gets at the front, followed by those it
gets at the back in the opposite order, are among those of the uninterrupted iterator, each at most
once and in the same order. -/
theorem C72_overlapping {m : RangeMap K V} [BEq V] [PartialEquivBEq V] (hm : m.Reachable)
    (q : Range K) :
    ∃ o l, m.overlapping q = .ok o ∧ Yields Overlapping.next o l ∧
      ∀ (panics : Panics) (cs : List End),
        let rs := script (OverlappingP.next panics) (OverlappingP.nextBack panics) cs ⟨0, o⟩
        ((returned .front cs rs).filterMap id ++
          ((returned .back cs rs).filterMap id).reverse).Sublist l := by
  obtain ⟨o, h1, h2, -⟩ := overlapping_items hm.wf.sep q
  exact ⟨o, _, h1, o.yields h2, fun panics cs => (scriptP panics cs ⟨0, o⟩ h2).1⟩

example := C72_overlapping (K := Nat) (V := Char) (m := Demo.map) Demo.map_reachable ⟨2, 22⟩

/-- **C72** An interrupted call loses at most one item: when a call finally returns `None`, there
have been at least as many calls that returned an item or panicked as the uninterrupted iterator has
items. -/
theorem C72_overlapping_loses_one {m : RangeMap K V} [BEq V] [PartialEquivBEq V] (hm : m.Reachable)
    (q : Range K) :
    ∃ o l, m.overlapping q = .ok o ∧ Yields Overlapping.next o l ∧
      ∀ (panics : Panics) (cs : List End),
        let rs := script (OverlappingP.next panics) (OverlappingP.nextBack panics) cs ⟨0, o⟩
        some none ∈ rs → l.length ≤ rs.countP fun r => !isEnd r := by
  obtain ⟨o, h1, h2, -⟩ := overlapping_items hm.wf.sep q
  exact ⟨o, _, h1, o.yields h2, fun panics cs => (scriptP panics cs ⟨0, o⟩ h2).2⟩

example := C72_overlapping_loses_one (K := Nat) (V := Char) (m := Demo.map) Demo.map_reachable
    ⟨2, 22⟩

/-! ### gaps -/

/-- The item returned by a call, if any. -/
def item {α : Type} : Called α → List α
  | some (some a) => [a]
  | _ => []

theorem got_cons {α : Type} (r : Called α) (rs : List (Called α)) :
    got (r :: rs) = item r ++ got rs := by
  rcases r with _ | _ | a <;> rfl

/-- One call, whatever panics. -/
theorem gapsP_step (panics : Panics) (qe : K) : ∀ (l : List (Range K × V)) (cand : K) (n : Nat),
    GapsOk cand l →
    let p := GapsP.nextLoop panics n cand qe l
    p.2.it.queryEnd = qe ∧ GapsOk p.2.it.candidateStart p.2.it.btmRangeIter ∧
    cand ≤ p.2.it.candidateStart ∧
    ∀ x, p.1 = some (some x) → x.start < x.stop ∧ cand ≤ x.start ∧ x.stop ≤ qe ∧
      (x.stop < p.2.it.candidateStart ∨ qe ≤ p.2.it.candidateStart) := by
  have htail : ∀ (l : List (Range K × V)) (cand : K) (n : Nat), GapsOk cand l →
      (∀ e ∈ l, qe ≤ e.1.start) →
      let p := GapsP.nextTail panics n cand qe l
      p.2.it.queryEnd = qe ∧ GapsOk p.2.it.candidateStart p.2.it.btmRangeIter ∧
      cand ≤ p.2.it.candidateStart ∧
      ∀ x, p.1 = some (some x) → x.start < x.stop ∧ cand ≤ x.start ∧ x.stop ≤ qe ∧
        (x.stop < p.2.it.candidateStart ∨ qe ≤ p.2.it.candidateStart) := by
    intro l cand n h hl
    simp only [GapsP.nextTail]
    split
    · exact ⟨rfl, h, Std.le_refl _, by simp⟩
    · split
      · rename_i hlt
        split
        · exact ⟨rfl, h, Std.le_refl _, by simp⟩
        · refine ⟨rfl, ⟨h.1, ?_⟩, by simp only; grind, ?_⟩
          · intro e he
            have := hl e he
            have := h.1.ne e he
            simp only
            grind
          · intro x hx
            obtain rfl := Option.some.inj (Option.some.inj hx)
            exact ⟨hlt, Std.le_refl _, Std.le_refl _, Or.inr (Std.le_refl _)⟩
      · exact ⟨rfl, h, Std.le_refl _, by simp⟩
  intro l
  induction l with
  | nil => intro cand n h; exact htail [] cand n h (by simp)
  | cons e t ih =>
    intro cand n h
    have hdrop : GapsOk cand t :=
      ⟨⟨(List.pairwise_cons.1 h.1.pw).2, fun x hx => h.1.ne x (by simp [hx])⟩,
        fun x hx => h.2 x (by simp [hx])⟩
    have hce := h.2 e (by simp)
    have hne := h.1.ne e (by simp)
    simp only [GapsP.nextLoop]
    split
    · exact ⟨rfl, hdrop, Std.le_refl _, by simp⟩
    · split
      · rename_i hqe
        refine htail t cand (n + 1) hdrop ?_
        intro x hx
        have := (List.pairwise_cons.1 h.1.pw).1 x hx
        grind [Before]
      · rename_i hqe
        split
        · exact ⟨rfl, h.tail, hce, by simp⟩
        · split
          · rename_i hlt
            split
            · exact ⟨rfl, h.tail, hce, by simp⟩
            · refine ⟨rfl, h.tail, hce, ?_⟩
              intro x hx
              obtain rfl := Option.some.inj (Option.some.inj hx)
              exact ⟨hlt, Std.le_refl _, by simp only; grind, Or.inl hne⟩
          · obtain ⟨i1, i2, i3, i4⟩ := ih e.1.stop (n + 2) h.tail
            refine ⟨i1, i2, Std.le_trans hce i3, ?_⟩
            intro x hx
            have := i4 x hx
            exact ⟨this.1, Std.le_trans hce this.2.1, this.2.2⟩

theorem gapsP_calls (panics : Panics) (qe : K) (n : Nat) : ∀ g : GapsP K V, g.it.queryEnd = qe →
    GapsOk g.it.candidateStart g.it.btmRangeIter →
    (∀ x ∈ got (calls (GapsP.next panics) n g), x.start < x.stop ∧ g.it.candidateStart ≤ x.start ∧
      x.stop ≤ qe) ∧
    (got (calls (GapsP.next panics) n g)).Pairwise fun x y => x.stop < y.start := by
  induction n with
  | zero => intro g _ _; simp [calls, got]
  | succ n ih =>
    intro g hq hg
    obtain ⟨h1, h2, h3, h4⟩ := gapsP_step panics qe g.it.btmRangeIter g.it.candidateStart g.calls hg
    subst hq
    rw [← GapsP.next] at h1 h2 h3 h4
    obtain ⟨i1, i2⟩ := ih _ h1 h2
    rw [calls, got_cons]
    rcases hr : (g.next panics).1 with _ | _ | x
    · exact ⟨fun x hx => by have := i1 x hx; grind, i2⟩
    · exact ⟨fun x hx => by have := i1 x hx; grind, i2⟩
    · have h4 := h4 x hr
      refine ⟨?_, ?_⟩
      · intro y hy
        rcases List.mem_append.1 hy with hy | hy
        · obtain rfl := List.mem_singleton.1 hy
          exact ⟨h4.1, h4.2.1, h4.2.2.1⟩
        · have := i1 y hy
          grind
      · refine List.pairwise_cons.2 ⟨?_, i2⟩
        intro y hy
        have := i1 y hy
        grind

/-- **C72** If user code panics and the caller goes on with the `Gaps` iterator, the ranges it gets
are not empty, lie within the outer range, and are in ascending order without touching each other.
-/
theorem C72_gaps_ordered {m : RangeMap K V} [BEq V] [PartialEquivBEq V] (hm : m.Reachable)
    (outer : Range K) :
    ∃ g, m.gaps outer = .ok g ∧ ∀ (panics : Panics) (n : Nat),
      let rs := got (calls (GapsP.next panics) n ⟨0, g⟩)
      (∀ x ∈ rs, x.start < x.stop ∧ outer.start ≤ x.start ∧ x.stop ≤ outer.stop) ∧
      rs.Pairwise fun x y => x.stop < y.start := by
  obtain ⟨g, h1, -, h3⟩ := gaps_spec hm.wf.sep outer
  have h1' := h1
  rw [gaps_ok] at h1'
  obtain rfl := Except.ok.inj h1'
  exact ⟨_, h1, fun panics n => gapsP_calls panics outer.stop n ⟨0, _⟩ rfl h3⟩

example := C72_gaps_ordered (K := Nat) (V := Char) (m := Demo.map) Demo.map_reachable ⟨2, 22⟩

/-- One call, if comparisons do not panic. -/
theorem gapsP_step_clone (panics : Panics) (hc : ∀ i, panics .cmp i = false) (qe : K) :
    ∀ (l : List (Range K × V)) (cand : K) (n : Nat), StartSorted l →
    let p := GapsP.nextLoop panics n cand qe l
    p.2.it.queryEnd = qe ∧ StartSorted p.2.it.btmRangeIter ∧
    (item p.1 ++
      gapsList qe p.2.it.candidateStart p.2.it.btmRangeIter).Sublist (gapsList qe cand l) := by
  have hpast : ∀ (l : List (Range K × V)) (cand : K), (∀ e ∈ l, qe ≤ e.1.start) →
      gapsList qe cand l = if cand < qe then [⟨cand, qe⟩] else [] := by
    intro l cand hl
    cases l with
    | nil => rfl
    | cons e t => rw [gapsList, if_pos (hl e (by simp))]
  have htail : ∀ (l : List (Range K × V)) (cand : K) (n : Nat), StartSorted l →
      (∀ e ∈ l, qe ≤ e.1.start) →
      let p := GapsP.nextTail panics n cand qe l
      p.2.it.queryEnd = qe ∧ StartSorted p.2.it.btmRangeIter ∧
      (item p.1 ++
        gapsList qe p.2.it.candidateStart p.2.it.btmRangeIter).Sublist
        (if cand < qe then [⟨cand, qe⟩] else []) := by
    intro l cand n hs hl
    simp only [GapsP.nextTail, hc]
    rw [if_neg (by simp)]
    split
    · rename_i hlt
      split
      · refine ⟨rfl, hs, ?_⟩
        simp only [hpast l cand hl, if_pos hlt, List.nil_append]
        exact List.Sublist.refl _
      · refine ⟨rfl, hs, ?_⟩
        simp only [hpast l qe hl]
        rw [if_neg (by grind)]
        exact List.Sublist.refl _
    · rename_i hlt
      refine ⟨rfl, hs, ?_⟩
      simp only [hpast l cand hl, if_neg hlt, List.nil_append]
      exact List.Sublist.refl _
  intro l
  induction l with
  | nil => intro cand n h; exact htail [] cand n h (by simp)
  | cons e t ih =>
    intro cand n h
    have hh := List.pairwise_cons.1 h
    simp only [GapsP.nextLoop, gapsList, hc]
    rw [if_neg (by simp)]
    split
    · rename_i hqe
      refine htail t cand (n + 1) hh.2 ?_
      intro x hx
      have := hh.1 x hx
      grind
    · rename_i hqe
      rw [if_neg (by simp)]
      split
      · split
        · exact ⟨rfl, hh.2, List.sublist_cons_self _ _⟩
        · exact ⟨rfl, hh.2, List.Sublist.refl _⟩
      · exact ih e.1.stop (n + 2) hh.2

/-- **C72** If comparisons do not panic, but `clone` does, every range the caller gets from the
`Gaps` iterator is one of the gaps the uninterrupted iterator yields, each at most once and in the
same order. -/
theorem C72_gaps_clone {m : RangeMap K V} [BEq V] [PartialEquivBEq V] (hm : m.Reachable)
    (outer : Range K) :
    ∃ g l, m.gaps outer = .ok g ∧ Yields Gaps.next g l ∧
      ∀ panics : Panics, (∀ i, panics .cmp i = false) → ∀ n,
        (got (calls (GapsP.next panics) n ⟨0, g⟩)).Sublist l := by
  obtain ⟨g, h1, h2, -⟩ := gaps_spec hm.wf.sep outer
  have h1' := h1
  rw [gaps_ok] at h1'
  obtain rfl := Except.ok.inj h1'
  refine ⟨_, _, h1, h2, fun panics hc n => ?_⟩
  suffices h : ∀ (n : Nat) (g : GapsP K V), g.it.queryEnd = outer.stop →
      StartSorted g.it.btmRangeIter → (got (calls (GapsP.next panics) n g)).Sublist
        (gapsList outer.stop g.it.candidateStart g.it.btmRangeIter) from
    h n ⟨0, _⟩ rfl (hm.wf.sep.startSorted.filter _)
  intro n
  induction n with
  | zero => intro g _ _; exact List.nil_sublist _
  | succ n ih =>
    intro g hq hg
    obtain ⟨i1, i2, i3⟩ := gapsP_step_clone panics hc outer.stop g.it.btmRangeIter
      g.it.candidateStart g.calls hg
    rw [calls, got_cons]
    have hn : GapsP.nextLoop panics g.calls g.it.candidateStart outer.stop g.it.btmRangeIter =
        g.next panics := by rw [← hq]; rfl
    rw [hn] at i1 i2 i3
    exact (List.Sublist.append (List.Sublist.refl _) (ih _ i1 i2)).trans i3

example := C72_gaps_clone (K := Nat) (V := Char) (m := Demo.map) Demo.map_reachable ⟨2, 22⟩

/-- The first comparison panics. -/
def firstCmp : Panics := fun c i => c == .cmp && i == 0

/-- **C72** Without that condition this is not so: when the comparison of an entry with the end of
the query panics, the entry is skipped, and the range returned next as a gap contains it.  Here
`4..20` is returned, while `get(5)` is `Some('a')`. -/
theorem C72_gaps_skips_entry :
    ∃ g, Demo.map.gaps ⟨4, 30⟩ = .ok g ∧
      calls (GapsP.next firstCmp) 3 ⟨0, g⟩ = [none, some (some ⟨4, 20⟩), some none] ∧
      Demo.map.get 5 = .ok (some 'a') := ⟨_, rfl, rfl, rfl⟩

/-- Three calls of `next`, the second of which is interrupted, and one of `next_back`. -/
example : ∃ o, Demo.map.overlapping ⟨0, 30⟩ = .ok o ∧
    script (OverlappingP.next fun _ i => i == 1) (OverlappingP.nextBack fun _ i => i == 1)
      [.front, .front, .front, .front, .front] ⟨0, o⟩ =
    [some (some (⟨0, 3⟩, 'a')), none, some (some (⟨20, 25⟩, 'b')), some (some (⟨25, 40⟩, 'c')),
      some none] := ⟨_, rfl, rfl⟩

/-- `clone` panics once, while the gap `3..5` is being returned: the others follow. -/
example : ∃ g, Demo.map.gaps ⟨1, 50⟩ = .ok g ∧
    calls (GapsP.next fun c i => c == .clone && i < 6) 5 ⟨0, g⟩ =
      [none, some (some ⟨15, 20⟩), some (some ⟨40, 50⟩), some none, some none] := ⟨_, rfl, rfl⟩

end Verif.Props

namespace Verif.Props.Inclusive
open Spec RangeInclusiveMap
variable {K : Type} [LE K] [LT K] [DecidableLE K] [DecidableLT K]
  [Std.IsLinearPreorder K] [Std.LawfulOrderLT K] {V : Type} [BEq V] [PartialEquivBEq V]

/-- What one call does to the entries still to be yielded. -/
theorem nextP_spec (panics : Panics) (o : OverlappingP K V) (h : StartSorted o.it.btmRangeIter) :
    StartSorted (o.next panics).2.it.btmRangeIter ∧
    match (o.next panics).1 with
    | none => (o.next panics).2.it.items = o.it.items.tail
    | some none => o.it.items = [] ∧ (o.next panics).2.it.items = []
    | some (some e) => o.it.items = e :: (o.next panics).2.it.items := by
  obtain ⟨n, q, l⟩ := o
  cases l with
  | nil => exact ⟨h, rfl, rfl⟩
  | cons e t =>
    have hh := List.pairwise_cons.1 h
    by_cases he : e.1.start ≤ q.stop
    · by_cases hp : panics .cmp n = true
      · simp [OverlappingP.next, Deque.next, Overlapping.items, he, hp]
        exact hh.2
      · simp [OverlappingP.next, Deque.next, Overlapping.items, he, hp]
        exact hh.2
    · have : t.filter (fun e => decide (e.1.start ≤ q.stop)) = [] := by
        rw [List.filter_eq_nil_iff]
        intro x hx
        have := hh.1 x hx
        grind
      by_cases hp : panics .cmp n = true
      · simp [OverlappingP.next, Deque.next, Overlapping.items, he, this, hp]
        exact hh.2
      · simp [OverlappingP.next, Deque.next, Overlapping.items, he, this, hp]
        exact hh.2

/-- What one call does to the entries still to be yielded. -/
theorem nextBackP_spec (panics : Panics) (o : OverlappingP K V)
    (h : StartSorted o.it.btmRangeIter) :
    StartSorted (o.nextBack panics).2.it.btmRangeIter ∧
    match (o.nextBack panics).1 with
    | none => (o.nextBack panics).2.it.items = o.it.items.dropLast ∨
        (o.nextBack panics).2.it.items = o.it.items
    | some none => o.it.items = [] ∧ (o.nextBack panics).2.it.items = []
    | some (some e) => o.it.items = (o.nextBack panics).2.it.items ++ [e] := by
  have hstep : ∀ (o : OverlappingP K V) e, StartSorted o.it.btmRangeIter →
      o.it.btmRangeIter.getLast? = some e →
      StartSorted o.it.btmRangeIter.dropLast ∧
      o.it.items = (⟨o.it.queryRange, o.it.btmRangeIter.dropLast⟩ : Overlapping K V).items ++
        (if e.1.start ≤ o.it.queryRange.stop then [e] else []) := by
    intro o e h hl
    obtain ⟨l, hl'⟩ := List.getLast?_eq_some_iff.1 hl
    simp only [Overlapping.items, hl', List.dropLast_concat, List.filter_append]
    refine ⟨?_, ?_⟩
    · rw [hl'] at h
      exact h.sublist (List.sublist_append_left _ _)
    · simp [List.filter_cons]
  fun_induction OverlappingP.nextBack panics o with
  | case1 o e hl o' hp =>
    obtain ⟨h1, h2⟩ := hstep o e h hl
    refine ⟨h1, ?_⟩
    split at h2
    · exact Or.inl (by rw [h2]; simp [o'])
    · exact Or.inr (by rw [h2]; simp [o'])
  | case2 o e hl o' hp he =>
    obtain ⟨h1, h2⟩ := hstep o e h hl
    rw [if_pos he] at h2
    exact ⟨h1, h2⟩
  | case3 o e hl hp he ih =>
    obtain ⟨h1, h2⟩ := hstep o e h hl
    rw [if_neg he, List.append_nil] at h2
    rw [h2]
    exact ih h1
  | case4 o hl =>
    have : o.it.btmRangeIter = [] := by simpa using hl
    simp only [Overlapping.items, this]
    exact ⟨List.Pairwise.nil, rfl, rfl⟩

theorem scriptP (panics : Panics) (cs : List End) : ∀ o : OverlappingP K V,
    StartSorted o.it.btmRangeIter →
    let rs := script (OverlappingP.next panics) (OverlappingP.nextBack panics) cs o
    ((returned .front cs rs).filterMap id ++ ((returned .back cs rs).filterMap id).reverse).Sublist
      o.it.items ∧
    (some none ∈ rs → o.it.items.length ≤ rs.countP fun r => !isEnd r) := by
  induction cs with
  | nil => intro o _; simp [returned, script]
  | cons c cs ih =>
    intro o ho
    cases c with
    | front =>
      obtain ⟨h1, h2⟩ := nextP_spec panics o ho
      obtain ⟨i1, i2⟩ := ih _ h1
      rcases hn : (o.next panics).1 with _ | _ | e <;> rw [hn] at h2 <;> simp only at h2
      · rw [h2] at i1 i2
        simp only [script, hn, returned, List.zip_cons_cons, List.filterMap_cons] at i1 ⊢
        refine ⟨i1.trans (List.tail_sublist _), ?_⟩
        simp only [List.mem_cons, reduceCtorEq, false_or, List.countP_cons, List.length_tail] at i2 ⊢
        intro h
        have := i2 h
        simp [isEnd] at this ⊢
        omega
      · rw [h2.2] at i1
        simp only [script, hn, returned, List.zip_cons_cons, List.filterMap_cons] at i1 ⊢
        rw [h2.1]
        exact ⟨by simpa using i1, by simp⟩
      · rw [h2]
        simp only [script, hn, returned, List.zip_cons_cons, List.filterMap_cons] at i1 ⊢
        refine ⟨by simpa using i1, ?_⟩
        simp only [List.mem_cons, Option.some.injEq, reduceCtorEq, false_or, List.countP_cons,
          List.length_cons]
        intro h
        have := i2 h
        simp [isEnd] at this ⊢
        omega
    | back =>
      obtain ⟨h1, h2⟩ := nextBackP_spec panics o ho
      obtain ⟨i1, i2⟩ := ih _ h1
      rcases hn : (o.nextBack panics).1 with _ | _ | e <;> rw [hn] at h2 <;> simp only at h2
      · have hs : (o.nextBack panics).2.it.items.Sublist o.it.items := by
          rcases h2 with h2 | h2
          · rw [h2]; exact List.dropLast_sublist _
          · rw [h2]; exact List.Sublist.refl _
        have hlen : o.it.items.length ≤ (o.nextBack panics).2.it.items.length + 1 := by
          rcases h2 with h2 | h2
          · rw [h2, List.length_dropLast]; omega
          · rw [h2]; omega
        simp only [script, hn, returned, List.zip_cons_cons, List.filterMap_cons] at i1 ⊢
        refine ⟨i1.trans hs, ?_⟩
        simp only [List.mem_cons, reduceCtorEq, false_or, List.countP_cons] at i2 ⊢
        intro h
        have := i2 h
        simp [isEnd] at this ⊢
        omega
      · rw [h2.2] at i1
        simp only [script, hn, returned, List.zip_cons_cons, List.filterMap_cons] at i1 ⊢
        rw [h2.1]
        exact ⟨by simpa using i1, by simp⟩
      · rw [h2]
        simp only [script, hn, returned, List.zip_cons_cons, List.filterMap_cons] at i1 ⊢
        refine ⟨?_, ?_⟩
        · simp only [reduceCtorEq, if_false, if_true, List.filterMap_cons, id, List.reverse_cons]
          rw [← List.append_assoc]
          exact i1.append (List.Sublist.refl [e])
        · simp only [List.mem_cons, Option.some.injEq, reduceCtorEq, false_or, List.countP_cons,
            List.length_append]
          intro h
          have := i2 h
          simp [isEnd] at this ⊢
          omega

/-- **C72** If user code panics (at whichever points of whichever calls) and the caller goes on with
the `Overlapping` iterator, from either end: the items it gets at the front, followed by those it
gets at the back in the opposite order, are among those of the uninterrupted iterator, each at most
once and in the same order. -/
theorem C72_overlapping {S : StepFns K} {m : RangeInclusiveMap K V} (hS : LawfulSteps S)
    (hm : ReachableAny S m) (q : RangeInclusive K) :
    ∃ o l, m.overlapping q = .ok o ∧ Yields Overlapping.next o l ∧
      ∀ (panics : Panics) (cs : List End),
        let rs := script (OverlappingP.next panics) (OverlappingP.nextBack panics) cs ⟨0, o⟩
        ((returned .front cs rs).filterMap id ++
          ((returned .back cs rs).filterMap id).reverse).Sublist l := by
  obtain ⟨o, h1, h2, -⟩ := overlapping_items (hm.sc hS).sep q
  exact ⟨o, _, h1, o.yields h2, fun panics cs => (scriptP panics cs ⟨0, o⟩ h2).1⟩

example := Inclusive.C72_overlapping (K := UIntW 8) (V := Char) (S := Demo.u8) (m := Demo.imap)
    Demo.u8_lawful Demo.imap_reachable.any (Demo.by8 2 22)

/-- **C72** An interrupted call loses at most one item: when a call finally returns `None`, there
have been at least as many calls that returned an item or panicked as the uninterrupted iterator has
items. -/
theorem C72_overlapping_loses_one {S : StepFns K} {m : RangeInclusiveMap K V} (hS : LawfulSteps S)
    (hm : ReachableAny S m) (q : RangeInclusive K) :
    ∃ o l, m.overlapping q = .ok o ∧ Yields Overlapping.next o l ∧
      ∀ (panics : Panics) (cs : List End),
        let rs := script (OverlappingP.next panics) (OverlappingP.nextBack panics) cs ⟨0, o⟩
        some none ∈ rs → l.length ≤ rs.countP fun r => !isEnd r := by
  obtain ⟨o, h1, h2, -⟩ := overlapping_items (hm.sc hS).sep q
  exact ⟨o, _, h1, o.yields h2, fun panics cs => (scriptP panics cs ⟨0, o⟩ h2).2⟩

example := Inclusive.C72_overlapping_loses_one (K := UIntW 8) (V := Char) (S := Demo.u8)
    (m := Demo.imap) Demo.u8_lawful Demo.imap_reachable.any (Demo.by8 2 22)

/-! ### gaps -/

/-- One call, whatever panics. -/
theorem gapsP_step {S : StepFns K} (hS : LawfulSteps S) (panics : Panics) (qe : K) :
    ∀ (l : List (RangeInclusive K × V)) (flag : Bool) (cand : K) (n : Nat), GapsOk flag cand l →
    ∃ p, GapsP.nextLoop S panics n flag cand qe l = .ok p ∧
    p.2.it.queryEnd = qe ∧
    GapsOk p.2.it.candidateNeedsPlusOne p.2.it.candidateStart p.2.it.btmRangeIter ∧
    (∀ k, Lo p.2.it.candidateNeedsPlusOne p.2.it.candidateStart k → k ≤ qe → Lo flag cand k) ∧
    ∀ x, p.1 = some (some x) → x.start ≤ x.stop ∧ x.exhausted = false ∧ Lo flag cand x.start ∧
      x.stop ≤ qe ∧
      ∀ k, Lo p.2.it.candidateNeedsPlusOne p.2.it.candidateStart k → k ≤ qe → x.stop < k := by
  have htail : ∀ (l : List (RangeInclusive K × V)) (flag : Bool) (cand : K) (n : Nat),
      GapsOk flag cand l → (∀ e ∈ l, qe < e.1.start) →
      ∃ p, GapsP.nextTail S panics n flag cand qe l = .ok p ∧
      p.2.it.queryEnd = qe ∧
      GapsOk p.2.it.candidateNeedsPlusOne p.2.it.candidateStart p.2.it.btmRangeIter ∧
      (∀ k, Lo p.2.it.candidateNeedsPlusOne p.2.it.candidateStart k → k ≤ qe → Lo flag cand k) ∧
      ∀ x, p.1 = some (some x) → x.start ≤ x.stop ∧ x.exhausted = false ∧ Lo flag cand x.start ∧
        x.stop ≤ qe ∧
        ∀ k, Lo p.2.it.candidateNeedsPlusOne p.2.it.candidateStart k → k ≤ qe → x.stop < k := by
    intro l flag cand n h hl
    have hok : GapsOk true qe l := ⟨h.sep, fun e he => by
      have := hl e he
      have := h.sep.ne e he
      exact ⟨by grind, fun _ => by assumption⟩⟩
    have hlo : ∀ k, Lo true qe k → k ≤ qe → Lo flag cand k := by
      intro k h1 h2
      simp only [Lo, if_true] at h1
      grind
    have hlo' : ∀ k, Lo true qe k → k ≤ qe → qe < k := by
      intro k h1 h2
      simpa only [Lo, if_true] using h1
    simp only [GapsP.nextTail]
    split
    · exact ⟨_, rfl, rfl, hok, hlo, by simp⟩
    · split
      · rename_i hf
        split
        · rename_i hlt
          split
          · exact ⟨_, rfl, rfl, hok, hlo, by simp⟩
          · obtain ⟨c, hc, hn⟩ := hS.addOne cand qe hlt
            rw [hc]
            simp only [bind, Except.bind]
            split
            · exact ⟨_, rfl, rfl, hok, hlo, by simp⟩
            · refine ⟨_, rfl, rfl, hok, hlo, ?_⟩
              intro x hx
              obtain rfl := Option.some.inj (Option.some.inj hx)
              refine ⟨hn.2 qe hlt, rfl, ?_, Std.le_refl _, hlo'⟩
              simp only [Lo, hf, if_true]
              exact hn.1
        · exact ⟨_, rfl, rfl, hok, hlo, by simp⟩
      · rename_i hf
        split
        · rename_i hle
          split
          · exact ⟨_, rfl, rfl, hok, hlo, by simp⟩
          · refine ⟨_, rfl, rfl, hok, hlo, ?_⟩
            intro x hx
            obtain rfl := Option.some.inj (Option.some.inj hx)
            refine ⟨hle, rfl, ?_, Std.le_refl _, hlo'⟩
            simp only [Lo, if_neg hf]
            exact Std.le_refl _
        · exact ⟨_, rfl, rfl, hok, hlo, by simp⟩
  intro l
  induction l with
  | nil => intro flag cand n h; exact htail [] flag cand n h (by simp)
  | cons e t ih =>
    intro flag cand n h
    have hdrop : GapsOk flag cand t :=
      ⟨⟨(List.pairwise_cons.1 h.sep.pw).2, fun x hx => h.sep.ne x (by simp [hx])⟩,
        fun x hx => h.lo x (by simp [hx])⟩
    have hce := h.lo e (by simp)
    have hne := h.sep.ne e (by simp)
    have hlo : ∀ k, Lo true e.1.stop k → k ≤ qe → Lo flag cand k := by
      intro k h1 h2
      simp only [Lo, if_true] at h1 ⊢
      split <;> grind
    simp only [GapsP.nextLoop]
    generalize (if flag = true then UserCode.step else UserCode.clone) = code
    split
    · exact ⟨_, rfl, rfl, hdrop, fun k h _ => h, by simp⟩
    · split
      · rename_i hqe
        refine htail t flag cand (n + 1) hdrop ?_
        intro x hx
        have := (List.pairwise_cons.1 h.sep.pw).1 x hx
        grind [Before]
      · rename_i hqe
        split
        · exact ⟨_, rfl, rfl, h.tail, hlo, by simp⟩
        · have hcur : ∃ c, Gaps.curCandidateStart S flag cand = .ok c ∧ Lo flag cand c := by
            unfold Gaps.curCandidateStart
            split
            · rename_i hf
              obtain ⟨c, hc, hn⟩ := hS.addOne cand e.1.start (hce.2 hf)
              exact ⟨c, hc, by simp only [Lo, hf, if_true]; exact hn.1⟩
            · rename_i hf
              exact ⟨cand, rfl, by simp only [Lo, if_neg hf]; exact Std.le_refl _⟩
          obtain ⟨c, hc, hcl⟩ := hcur
          rw [hc]
          simp only [bind, Except.bind]
          split
          · exact ⟨_, rfl, rfl, h.tail, hlo, by simp⟩
          · split
            · rename_i hlt
              split
              · exact ⟨_, rfl, rfl, h.tail, hlo, by simp⟩
              · obtain ⟨d, hd, hn⟩ := hS.subOne e.1.start c hlt
                rw [hd]
                refine ⟨_, rfl, rfl, h.tail, hlo, ?_⟩
                intro x hx
                obtain rfl := Option.some.inj (Option.some.inj hx)
                have h1 := hn.1
                have h2 : c ≤ d := by
                  have := hn.2 c
                  grind
                refine ⟨h2, rfl, hcl, ?_, ?_⟩
                · show d ≤ qe
                  grind
                · intro k hk _
                  simp only [Lo, if_true] at hk
                  show d < k
                  grind
            · obtain ⟨p, i0, i1, i2, i3, i4⟩ := ih true e.1.stop (n + 3) h.tail
              refine ⟨p, i0, i1, i2, fun k h1 h2 => hlo k (i3 k h1 h2) h2, ?_⟩
              intro x hx
              obtain ⟨j1, j2, j3, j4, j5⟩ := i4 x hx
              exact ⟨j1, j2, hlo _ j3 (Std.le_trans j1 j4), j4, j5⟩

theorem gapsP_calls {S : StepFns K} (hS : LawfulSteps S) (panics : Panics) (qe : K) (n : Nat) :
    ∀ g : GapsP K V, g.it.queryEnd = qe →
    GapsOk g.it.candidateNeedsPlusOne g.it.candidateStart g.it.btmRangeIter →
    ∃ rs, callsE (GapsP.next S panics) n g = .ok rs ∧
    (∀ x ∈ got rs, x.start ≤ x.stop ∧ x.exhausted = false ∧
      Lo g.it.candidateNeedsPlusOne g.it.candidateStart x.start ∧ x.stop ≤ qe) ∧
    (got rs).Pairwise fun x y => x.stop < y.start := by
  induction n with
  | zero => intro g _ _; exact ⟨[], rfl, by simp [got], List.Pairwise.nil⟩
  | succ n ih =>
    intro g hq hg
    obtain ⟨⟨r, g'⟩, h0, h1, h2, h3, h4⟩ :=
      gapsP_step hS panics qe g.it.btmRangeIter g.it.candidateNeedsPlusOne g.it.candidateStart
        g.calls hg
    subst hq
    rw [← GapsP.next] at h0
    obtain ⟨rs, i0, i1, i2⟩ := ih _ h1 h2
    refine ⟨r :: rs, by simp only [callsE, h0, i0]; rfl, ?_⟩
    rw [got_cons]
    have hrest : ∀ x ∈ got rs, x.start ≤ x.stop ∧ x.exhausted = false ∧
        Lo g.it.candidateNeedsPlusOne g.it.candidateStart x.start ∧ x.stop ≤ g.it.queryEnd := by
      intro x hx
      have := i1 x hx
      exact ⟨this.1, this.2.1, h3 _ this.2.2.1 (Std.le_trans this.1 this.2.2.2), this.2.2.2⟩
    rcases r with _ | _ | x
    · exact ⟨hrest, i2⟩
    · exact ⟨hrest, i2⟩
    · have h4 := h4 x rfl
      refine ⟨?_, ?_⟩
      · intro y hy
        rcases List.mem_append.1 hy with hy | hy
        · obtain rfl := List.mem_singleton.1 hy
          exact ⟨h4.1, h4.2.1, h4.2.2.1, h4.2.2.2.1⟩
        · exact hrest y hy
      · refine List.pairwise_cons.2 ⟨?_, i2⟩
        intro y hy
        have := i1 y hy
        exact h4.2.2.2.2 _ this.2.2.1 (Std.le_trans this.1 this.2.2.2)

/-- **C72** If user code panics and the caller goes on with the `Gaps` iterator, the ranges it gets
are not empty, lie within the outer range, and are in ascending order and disjoint; and no call
panics of its own accord (step functions are not called where there is no neighbour). -/
theorem C72_gaps_ordered {S : StepFns K} (hS : LawfulSteps S) {m : RangeInclusiveMap K V}
    (hm : ReachableAny S m) (outer : RangeInclusive K) :
    ∃ g, m.gaps outer = .ok g ∧ ∀ (panics : Panics) (n : Nat), ∃ rs,
      callsE (GapsP.next S panics) n ⟨0, g⟩ = .ok rs ∧
      (∀ x ∈ got rs, x.start ≤ x.stop ∧ x.exhausted = false ∧ outer.start ≤ x.start ∧
        x.stop ≤ outer.stop) ∧
      (got rs).Pairwise fun x y => x.stop < y.start := by
  have h := (hm.sc hS).sep
  refine ⟨_, gaps_ok m outer, fun panics n => ?_⟩
  obtain ⟨rs, h1, h2, h3⟩ := gapsP_calls hS panics outer.stop n
    ⟨0, ⟨false, outer.start, outer.stop, m.btm.filter fun e => decide (outer.start ≤ e.1.stop)⟩⟩ rfl
    ⟨⟨h.pw.filter _, fun e he => h.ne e (List.mem_filter.1 he).1⟩, fun e he => ⟨by
      simpa using (List.mem_filter.1 he).2, by simp⟩⟩
  refine ⟨rs, h1, ?_, h3⟩
  intro x hx
  simpa [Lo] using h2 x hx

example := Inclusive.C72_gaps_ordered (K := UIntW 8) (V := Char) (S := Demo.u8) Demo.u8_lawful
    (m := Demo.imap) Demo.imap_reachable.any (Demo.by8 2 22)

/-- One call, if comparisons do not panic: the new state is that of the uninterrupted call, or the
next call takes it there. -/
theorem gapsP_step_clone {S : StepFns K} (panics : Panics) (hc : ∀ i, panics .cmp i = false)
    (qe : K) : ∀ (l : List (RangeInclusive K × V)) (flag : Bool) (cand : K) (n : Nat)
    (r : Option (RangeInclusive K)) (g : Gaps K V), Gaps.nextLoop S flag cand qe l = .ok (r, g) →
    ∃ c s, GapsP.nextLoop S panics n flag cand qe l = .ok (c, s) ∧
      ((s.it = g ∧ (c = none ∨ c = some r)) ∨ (c = none ∧ Gaps.next S s.it = .ok (r, g))) := by
  have htail : ∀ (l : List (RangeInclusive K × V)) (flag : Bool) (cand : K) (n : Nat)
      (r : Option (RangeInclusive K)) (g : Gaps K V), Gaps.nextTail S flag cand qe l = .ok (r, g) →
      ∃ c s, GapsP.nextTail S panics n flag cand qe l = .ok (c, s) ∧
        ((s.it = g ∧ (c = none ∨ c = some r)) ∨ (c = none ∧ Gaps.next S s.it = .ok (r, g))) := by
    intro l flag cand n r g h
    simp only [Gaps.nextTail] at h
    simp only [GapsP.nextTail, hc, Bool.false_eq_true, if_false]
    split at h
    · rename_i hf
      rw [if_pos hf]
      split at h
      · rename_i hlt
        rw [if_pos hlt]
        cases ha : S.addOne cand with
        | error p => rw [ha] at h; cases h
        | ok a =>
          rw [ha] at h
          cases h
          split
          · exact ⟨_, _, rfl, Or.inl ⟨rfl, Or.inl rfl⟩⟩
          · simp only [bind, Except.bind]
            split
            · exact ⟨_, _, rfl, Or.inl ⟨rfl, Or.inl rfl⟩⟩
            · exact ⟨_, _, rfl, Or.inl ⟨rfl, Or.inr rfl⟩⟩
      · rename_i hlt
        rw [if_neg hlt]
        cases h
        exact ⟨_, _, rfl, Or.inl ⟨rfl, Or.inr rfl⟩⟩
    · rename_i hf
      rw [if_neg hf]
      split at h
      · rename_i hlt
        rw [if_pos hlt]
        cases h
        split
        · exact ⟨_, _, rfl, Or.inl ⟨rfl, Or.inl rfl⟩⟩
        · exact ⟨_, _, rfl, Or.inl ⟨rfl, Or.inr rfl⟩⟩
      · rename_i hlt
        rw [if_neg hlt]
        cases h
        exact ⟨_, _, rfl, Or.inl ⟨rfl, Or.inr rfl⟩⟩
  intro l
  induction l with
  | nil => intro flag cand n r g h; exact htail [] flag cand n r g h
  | cons e t ih =>
    intro flag cand n r g h
    simp only [Gaps.nextLoop] at h
    simp only [GapsP.nextLoop, hc, Bool.false_eq_true, if_false]
    generalize (if flag = true then UserCode.step else UserCode.clone) = code
    split at h
    · rename_i hqe
      rw [if_pos hqe]
      exact htail t flag cand (n + 1) r g h
    · rename_i hqe
      rw [if_neg hqe]
      cases hcur : Gaps.curCandidateStart S flag cand with
      | error p => rw [hcur] at h; cases h
      | ok c =>
        rw [hcur] at h
        simp only [bind, Except.bind] at h ⊢
        split at h
        · rename_i hlt
          cases hd : S.subOne e.1.start with
          | error p => rw [hd] at h; cases h
          | ok d =>
            rw [hd] at h
            cases h
            split
            · exact ⟨_, _, rfl, Or.inl ⟨rfl, Or.inl rfl⟩⟩
            · split
              · exact ⟨_, _, rfl, Or.inl ⟨rfl, Or.inl rfl⟩⟩
              · exact ⟨_, _, rfl, Or.inl ⟨rfl, Or.inr rfl⟩⟩
        · rename_i hlt
          split
          · exact ⟨_, _, rfl, Or.inr ⟨rfl, h⟩⟩
          · exact ih true e.1.stop (n + 3) r g h

theorem YieldsE.nil_inv {S α : Type} {next : S → Except Panic (Option α × S)} {s : S}
    (h : YieldsE next s []) : ∃ s', next s = .ok (none, s') ∧ YieldsE next s' [] := by
  cases hn : next s with
  | error p =>
    have := h 1
    simp [callsE, hn] at this
  | ok q =>
    obtain ⟨r, s'⟩ := q
    have h1 := h 1
    simp only [callsE, hn, Except.map] at h1
    have : r = none := by simpa using h1
    subst this
    refine ⟨s', rfl, fun n => ?_⟩
    have h2 := h (n + 1)
    simp only [callsE, hn] at h2
    cases hc : callsE next n s' with
    | error p => rw [hc] at h2; cases h2
    | ok rs =>
      rw [hc] at h2
      simp only [Except.map, List.map_nil, List.nil_append, List.replicate_succ, List.take_succ_cons,
        Except.ok.injEq, List.cons.injEq, true_and] at h2
      rw [h2]
      simp [List.take_replicate]

/-- **C72** If comparisons do not panic, but `clone`, `add_one` or `sub_one` does, every range the
caller gets from the `Gaps` iterator is one of the gaps the uninterrupted iterator yields, each at
most once and in the same order. -/
theorem C72_gaps_clone {S : StepFns K} (hS : LawfulSteps S) {m : RangeInclusiveMap K V}
    (hm : ReachableAny S m) (outer : RangeInclusive K) :
    ∃ g l, m.gaps outer = .ok g ∧ YieldsE (Gaps.next S) g l ∧
      ∀ panics : Panics, (∀ i, panics .cmp i = false) → ∀ n, ∃ rs,
        callsE (GapsP.next S panics) n ⟨0, g⟩ = .ok rs ∧ (got rs).Sublist l := by
  obtain ⟨g, l, h1, h2, -⟩ := gaps_spec hS (hm.sc hS).sep outer
  refine ⟨g, l, h1, h2, fun panics hc n => ?_⟩
  suffices h : ∀ (n : Nat) (g : GapsP K V) l, YieldsE (Gaps.next S) g.it l →
      ∃ rs, callsE (GapsP.next S panics) n g = .ok rs ∧ (got rs).Sublist l from h n ⟨0, g⟩ l h2
  intro n
  induction n with
  | zero => intro g l _; exact ⟨[], rfl, List.nil_sublist _⟩
  | succ n ih =>
    intro g l hl
    have hnext : ∃ r s, Gaps.next S g.it = .ok (r, s) := by
      have := hl 1
      simp only [callsE] at this
      split at this
      · simp at this
      · rename_i r s h
        exact ⟨r, s, h⟩
    obtain ⟨r, s, hrs⟩ := hnext
    have hfin : ∃ l', YieldsE (Gaps.next S) s l' ∧
        (match r with | some x => x :: l' | none => l').Sublist l := by
      cases l with
      | nil =>
        obtain ⟨s', h3, h4⟩ := YieldsE.nil_inv hl
        rw [hrs] at h3
        cases h3
        exact ⟨[], h4, List.Sublist.refl _⟩
      | cons x l =>
        obtain ⟨s', h3, h4⟩ := YieldsE.cons_inv hl
        rw [hrs] at h3
        cases h3
        exact ⟨l, h4, List.Sublist.refl _⟩
    obtain ⟨l', h3, h4⟩ := hfin
    obtain ⟨c, t, h5, h6⟩ := gapsP_step_clone panics hc _ _ _ _ g.calls r s hrs
    rw [← GapsP.next] at h5
    rcases h6 with ⟨h6, h7⟩ | ⟨h6, h7⟩
    · obtain ⟨rs, i1, i2⟩ := ih t l' (h6 ▸ h3)
      refine ⟨c :: rs, by simp only [callsE, h5, i1]; rfl, ?_⟩
      rw [got_cons]
      rcases h7 with rfl | rfl
      · refine i2.trans ((?_ : List.Sublist l' _).trans h4)
        cases r
        · exact List.Sublist.refl _
        · exact List.sublist_cons_self _ _
      · cases r with
        | none => exact i2.trans h4
        | some x => exact (i2.cons_cons x).trans h4
    · have : YieldsE (Gaps.next S) t.it l := by
        intro k
        have := hl k
        cases k with
        | zero => exact this
        | succ k =>
          simp only [callsE, hrs] at this
          simp only [callsE, h7]
          exact this
      obtain ⟨rs, i1, i2⟩ := ih t l this
      refine ⟨c :: rs, by simp only [callsE, h5, i1]; rfl, ?_⟩
      rw [got_cons, h6]
      exact i2

example := Inclusive.C72_gaps_clone (K := UIntW 8) (V := Char) (S := Demo.u8) Demo.u8_lawful
    (m := Demo.imap) Demo.imap_reachable.any (Demo.by8 2 22)

/-- **C72** Without that condition this is not so: when the comparison of an entry with the end of
the query panics, the entry is skipped, and the range returned next as a gap contains it.  Here
`4..=19` is returned, while `get(5)` is `Some('a')`. -/
theorem C72_gaps_skips_entry :
    ∃ g, Demo.imap.gaps (Demo.by8 4 30) = .ok g ∧
      callsE (GapsP.next Demo.u8 firstCmp) 3 ⟨0, g⟩ =
        .ok [none, some (some (Demo.by8 4 19)), some none] ∧
      Demo.imap.get ⟨.ofNat 8 5⟩ = .ok (some 'a') := ⟨_, rfl, rfl, rfl⟩

/-- The second of five calls of `next` is interrupted. -/
example : ∃ o, Demo.imap.overlapping (Demo.by8 0 30) = .ok o ∧
    script (OverlappingP.next fun _ i => i == 1) (OverlappingP.nextBack fun _ i => i == 1)
      [.front, .front, .front, .front, .front] ⟨0, o⟩ =
    [some (some (Demo.by8 0 2, 'a')), none, some (some (Demo.by8 20 24, 'b')),
      some (some (Demo.by8 25 255, 'c')), some none] := ⟨_, rfl, rfl⟩

/-- `sub_one` panics while the gap `3..=4` is being returned: the other one follows. -/
example : ∃ g, Demo.imap.gaps (Demo.by8 1 255) = .ok g ∧
    callsE (GapsP.next Demo.u8 fun c i => c == .step && i == 6) 3 ⟨0, g⟩ =
      .ok [none, some (some (Demo.by8 16 19)), some none] := ⟨_, rfl, rfl⟩

end Verif.Props.Inclusive

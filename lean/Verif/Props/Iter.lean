import Verif.Props.Demo
import Verif.Proof.Iter
import Verif.Props.Map

/-!
# Properties C10–C16 of the iterators of `RangeMap`
-/
set_option linter.unusedSectionVars false

namespace Verif.Props
open RangeMap Spec
variable {K : Type} [LE K] [LT K] [DecidableLE K] [DecidableLT K]
  [Std.IsLinearPreorder K] [Std.LawfulOrderLT K] {V : Type} [BEq V] [PartialEquivBEq V]

theorem gaps_yields_list {m : RangeMap K V} (hm : Reachable m) (q : Range K) :
    ∃ g l, m.gaps q = .ok g ∧ Yields Gaps.next g l ∧
      (∀ k, (∃ r ∈ l, r.start ≤ k ∧ k < r.stop) ↔
        q.start ≤ k ∧ k < q.stop ∧ m.get k = .ok none) ∧
      (∀ r ∈ l, r.start < r.stop ∧ q.start ≤ r.start ∧ r.stop ≤ q.stop) ∧
      l.Pairwise (fun r r' => r.stop < r'.start ∧ ∃ w, m.get r.stop = .ok (some w)) ∧
      (∀ r ∈ l, (r.start = q.start ∨ ∃ e ∈ m.iter, e.1.stop = r.start) ∧
        (r.stop = q.stop ∨ ∃ e ∈ m.iter, e.1.start = r.stop)) := by
  have hs := hm.wf.sep
  obtain ⟨g, h1, h2, h3⟩ := gaps_spec hs q
  have h4 := gapsList_mem q.stop _ q.start h3
  obtain ⟨h5, h6⟩ := gapsList_shape q.stop _ q.start h3
  refine ⟨g, _, h1, h2, ?_, ?_, ?_, ?_⟩
  · intro k
    rw [h4, get_eq_none hs]
    constructor
    · rintro ⟨a, b, c⟩
      refine ⟨a, b, ?_⟩
      rintro w ⟨e, he, h7, h8, h9⟩
      have := c e
      grind
    · rintro ⟨a, b, c⟩
      refine ⟨a, b, ?_⟩
      intro e he h7
      exact c e.2 ⟨e, (List.mem_filter.1 he).1, h7.1, h7.2, rfl⟩
  · intro r hr
    have := h5 r hr
    exact ⟨this.1, this.2.1, this.2.2.1⟩
  · refine h6.imp ?_
    rintro r r' ⟨a, e, he, h7, h8⟩
    refine ⟨a, e.2, ?_⟩
    have he := (List.mem_filter.1 he).1
    have := hs.ne e he
    exact (get_eq_some hs _ _).2 ⟨e, he, by grind, by grind, rfl⟩
  · intro r hr
    obtain ⟨_, _, _, h7, h8⟩ := h5 r hr
    constructor
    · rcases h7 with h7 | ⟨e, he, h7⟩
      · exact Or.inl h7
      · exact Or.inr ⟨e, (List.mem_filter.1 he).1, h7⟩
    · rcases h8 with h8 | ⟨e, he, h8⟩
      · exact Or.inl h8
      · exact Or.inr ⟨e, (List.mem_filter.1 he).1, h8.1⟩

/-! ## C10 -/

/-- **C10** `gaps(outer)` never panics, yields finitely many ranges and then `None` forever; a key
lies in one of them iff it lies in `outer` and is not mapped. -/
theorem C10_gaps_exact {m : RangeMap K V} (hm : Reachable m) (outer : Range K) :
    ∃ g l, m.gaps outer = .ok g ∧ Yields Gaps.next g l ∧
      ∀ k, (∃ r ∈ l, r.start ≤ k ∧ k < r.stop) ↔
        outer.start ≤ k ∧ k < outer.stop ∧ m.get k = .ok none := by
  obtain ⟨g, l, h1, h2, h3, _⟩ := gaps_yields_list hm outer
  exact ⟨g, l, h1, h2, h3⟩

-- the gaps of the demo map in 1..50
example : (Demo.map.gaps ⟨1, 50⟩).toOption.bind
      (fun g => (drain Gaps.next 9 g).toOption) = some [⟨3, 5⟩, ⟨15, 20⟩, ⟨40, 50⟩] := by rfl

/-! ## C11 -/

/-- **C11** The yielded gaps are non-empty, within the outer range, strictly increasing, and the
key at which a gap (other than the last) ends is mapped. -/
theorem C11_gaps_ordered {m : RangeMap K V} (hm : Reachable m) (outer : Range K) :
    ∃ g l, m.gaps outer = .ok g ∧ Yields Gaps.next g l ∧
      (∀ r ∈ l, r.start < r.stop ∧ outer.start ≤ r.start ∧ r.stop ≤ outer.stop) ∧
      l.Pairwise (fun r r' => r.stop < r'.start ∧ ∃ w, m.get r.stop = .ok (some w)) := by
  obtain ⟨g, l, h1, h2, _, h4, h5, _⟩ := gaps_yields_list hm outer
  exact ⟨g, l, h1, h2, h4, h5⟩

example := C11_gaps_ordered (K := Nat) (V := Char) (m := Demo.map) Demo.map_reachable ⟨2, 22⟩

/-- **C11** Each yielded gap is maximal: a range within `outer` that contains it and covers no
mapped key is the same range. -/
theorem C11_gaps_maximal {m : RangeMap K V} (hm : Reachable m) (outer : Range K) :
    ∃ g l, m.gaps outer = .ok g ∧ Yields Gaps.next g l ∧
      ∀ r ∈ l, ∀ r' : Range K, outer.start ≤ r'.start → r'.stop ≤ outer.stop →
        r'.start ≤ r.start → r.stop ≤ r'.stop →
        (∀ k, r'.start ≤ k → k < r'.stop → m.get k = .ok none) →
        keq r.start r'.start = true ∧ keq r.stop r'.stop = true := by
  have hs := hm.wf.sep
  obtain ⟨g, l, h1, h2, _, h4, _, h6⟩ := gaps_yields_list hm outer
  refine ⟨g, l, h1, h2, ?_⟩
  intro r hr r' o1 o2 s1 s2 hfree
  have h4 := h4 r hr
  have h6 := h6 r hr
  have hno : ∀ e ∈ m.iter, ∀ k, r'.start ≤ k → k < r'.stop → ¬ (e.1.start ≤ k ∧ k < e.1.stop) := by
    intro e he k hk hk' hc
    exact (get_eq_none hs k).1 (hfree k hk hk') e.2 ⟨e, he, hc.1, hc.2, rfl⟩
  simp only [keq_iff]
  constructor
  · rcases h6.1 with h7 | ⟨e, he, h7⟩
    · rw [h7]; grind
    · have hne := hs.ne e he
      have ha := hno e he e.1.start
      have hb := hno e he r'.start
      grind
  · rcases h6.2 with h7 | ⟨e, he, h7⟩
    · rw [h7]; grind
    · have hne := hs.ne e he
      have ha := hno e he e.1.start
      grind

example := C11_gaps_maximal (K := Nat) (V := Char) (m := Demo.map) Demo.map_reachable ⟨2, 22⟩

/-- **C11** An empty or inverted outer range yields nothing at all.  (The doc comment of `gaps`,
/repo/src/map.rs:187-189, promises a single empty gap when `start == end`; the code and its tests
do not do that.) -/
theorem C11_empty_outer {m : RangeMap K V} (hm : Reachable m) (outer : Range K)
    (h : outer.stop ≤ outer.start) :
    ∃ g, m.gaps outer = .ok g ∧ Yields Gaps.next g [] := by
  obtain ⟨g, l, h1, h2, _, h4, _⟩ := gaps_yields_list hm outer
  refine ⟨g, h1, ?_⟩
  cases l with
  | nil => exact h2
  | cons r t =>
    have := h4 r (by simp)
    exfalso
    grind

example : (Demo.map.gaps ⟨17, 17⟩).toOption.bind
      (fun g => (drain Gaps.next 9 g).toOption) = some [] := by rfl
example : (Demo.map.gaps ⟨18, 16⟩).toOption.bind
      (fun g => (drain Gaps.next 9 g).toOption) = some [] := by rfl

/-! ## C12 -/

/-- **C12** For a non-empty outer range, the overlapping entries clipped to it, together with the
gaps, tile it. -/
theorem C12_tiling {m : RangeMap K V} (hm : Reachable m) (outer : Range K)
    (h : outer.start < outer.stop) :
    ∃ o os g gs ps, m.overlapping outer = .ok o ∧ Yields Overlapping.next o os ∧
      m.gaps outer = .ok g ∧ Yields Gaps.next g gs ∧
      ps.Perm (os.map (fun e => (⟨rmax outer.start e.1.start, rmin outer.stop e.1.stop⟩ : Range K))
        ++ gs) ∧
      Tiles outer.start ps outer.stop := by
  have hs := hm.wf.sep
  obtain ⟨g, h1, h2, h3⟩ := gaps_spec hs outer
  have h4 := Overlapping.yields (⟨outer, m.btm.filter fun e => decide (outer.start < e.1.stop)⟩ :
    Overlapping K V) (hs.startSorted.filter _)
  obtain ⟨ps, h5, h6⟩ := tiles outer _ outer.start h3 (by
    intro e he
    simpa using (List.mem_filter.1 he).2) h
  exact ⟨_, _, g, _, ps, overlapping_ok m outer, h4, h1, h2, h5, h6⟩

-- 2..30 over the demo map is tiled by 2..3 3..5 5..15 15..20 20..25 25..30
example : Tiles 2 [⟨2, 3⟩, ⟨3, 5⟩, ⟨5, 15⟩, ⟨15, 20⟩, ⟨20, 25⟩, ⟨25, 30⟩] 30 := by
  simp [Tiles]
example : Reachable Demo.map ∧ (2 : Nat) < 30 := ⟨Demo.map_reachable, by decide⟩

/-! ## C13 -/

/-- **C13** `overlapping(q)` never panics and yields, in `iter()` order, exactly the entries with
`end > q.start` and `start < q.end`. -/
theorem C13_overlapping_exact {m : RangeMap K V} (hm : Reachable m) (q : Range K) :
    ∃ o, m.overlapping q = .ok o ∧ Yields Overlapping.next o
      (m.iter.filter fun e => decide (q.start < e.1.stop) && decide (e.1.start < q.stop)) := by
  obtain ⟨o, h1, h2, h3⟩ := overlapping_items hm.wf.sep q
  refine ⟨o, h1, ?_⟩
  rw [RangeMap.iter, ← h3]
  exact Overlapping.yields o h2

example := C13_overlapping_exact (K := Nat) (V := Char) (m := Demo.map) Demo.map_reachable ⟨2, 22⟩

/-- **C13** For a non-empty query these are exactly the entries sharing a key with it. -/
theorem C13_overlapping_shares_key {m : RangeMap K V} (hm : Reachable m) (q : Range K)
    (hq : q.start < q.stop) (e : Range K × V) (he : e ∈ m.iter) :
    (q.start < e.1.stop ∧ e.1.start < q.stop) ↔
      ∃ k, (q.start ≤ k ∧ k < q.stop) ∧ (e.1.start ≤ k ∧ k < e.1.stop) := by
  have := hm.wf.sep.ne e he
  constructor
  · intro h
    by_cases hc : q.start ≤ e.1.start
    · exact ⟨e.1.start, by grind⟩
    · exact ⟨q.start, by grind⟩
  · rintro ⟨k, hk⟩
    grind

example := C13_overlapping_shares_key (K := Nat) (V := Char) (m := Demo.map) Demo.map_reachable
    ⟨2, 22⟩ (by decide) (⟨5, 15⟩, 'a') (by decide)

/-- **C13** `overlaps(q)` never panics and is true iff there is such an entry. -/
theorem C13_overlaps {m : RangeMap K V} (hm : Reachable m) (q : Range K) :
    ∃ b, m.overlaps q = .ok b ∧
      (b = true ↔ ∃ e ∈ m.iter, q.start < e.1.stop ∧ e.1.start < q.stop) := by
  obtain ⟨o, h1, h2, h3⟩ := overlapping_items hm.wf.sep q
  obtain ⟨h4, _⟩ := Overlapping.next_spec o h2
  refine ⟨o.next.1.isSome, by simp [overlaps, h1, bind, Except.bind, pure, Except.pure], ?_⟩
  rw [h4, h3, List.isSome_head?]
  simp [RangeMap.iter]

example : (Demo.map.overlapping ⟨14, 25⟩).toOption.bind
    (fun o => (drain Overlapping.next 9 o).toOption) =
      some [(⟨5, 15⟩, 'a'), (⟨20, 25⟩, 'b')] := by rfl
example : Demo.map.overlaps ⟨15, 20⟩ = .ok false ∧ Demo.map.overlaps ⟨15, 21⟩ = .ok true :=
  ⟨by rfl, by rfl⟩

/-! ## C14 -/

/-- **C14** Any interleaving of `next` and `next_back` on `overlapping(q)` behaves as on a double
ended queue of the overlapping entries: nothing is skipped or repeated, and when it is exhausted
both ends return `None` forever. -/
theorem C14_overlapping_double_ended {m : RangeMap K V} (hm : Reachable m) (q : Range K)
    (cs : List End) :
    ∃ o, m.overlapping q = .ok o ∧ script Overlapping.next Overlapping.nextBack cs o =
      dequeScript cs
        (m.iter.filter fun e => decide (q.start < e.1.stop) && decide (e.1.start < q.stop)) := by
  obtain ⟨o, h1, h2, h3⟩ := overlapping_items hm.wf.sep q
  refine ⟨o, h1, ?_⟩
  rw [Overlapping.script_spec _ _ h2, h3, RangeMap.iter]

example : dequeScript [.back, .front, .back, .front]
    (Demo.map.iter.filter fun e => decide (4 < e.1.stop) && decide (e.1.start < 25)) =
    [some (⟨20, 25⟩, 'b'), some (⟨5, 15⟩, 'a'), none, none] := by rfl

/-! ## C15 -/

/-- **C15** A `gaps` iterator is fused: if some call of `next` returned `None`, every later call
returns `None`. -/
theorem C15_gaps_fused {m : RangeMap K V} (hm : Reachable m) (outer : Range K) :
    ∃ g, m.gaps outer = .ok g ∧ ∀ n i j : Nat, i ≤ j → j < n →
      (calls Gaps.next n g)[i]? = some none → (calls Gaps.next n g)[j]? = some none := by
  obtain ⟨g, l, h1, h2, _⟩ := gaps_yields_list hm outer
  refine ⟨g, h1, ?_⟩
  intro n i j hij hj
  rw [h2 n]
  simp only [List.getElem?_take, hj, if_true, show i < n by omega, List.getElem?_append]
  grind

example : (Demo.map.gaps ⟨1, 18⟩).toOption.map (calls Gaps.next 4) =
    some [some ⟨3, 5⟩, some ⟨15, 18⟩, none, none] := by rfl

/-! ## C16 -/

theorem iter_script (cs : List End) : ∀ l : List (Range K × V),
    script RangeMap.Iter.next RangeMap.Iter.nextBack cs ⟨l⟩ = dequeScript cs l := by
  induction cs with
  | nil => intro l; rfl
  | cons c cs ih =>
    intro l
    cases c with
    | front =>
      cases l <;>
        simp [script, dequeScript, RangeMap.Iter.next, Deque.next, ih]
    | back => simp [script, dequeScript, RangeMap.Iter.nextBack, Deque.nextBack, ih]

/-- **C16** Any interleaving of `next`/`next_back` on `iter()`/`into_iter()` behaves as on a double
ended queue of the entries. -/
theorem C16_iter_double_ended (m : RangeMap K V) (cs : List End) :
    script RangeMap.Iter.next RangeMap.Iter.nextBack cs m.iterator = dequeScript cs m.iter :=
  iter_script cs m.btm

example := C16_iter_double_ended (K := Nat) (V := Char) Demo.map [.back, .front, .front]

/-- **C16** `size_hint` of a fresh iterator is exact and is `len()`; each call that returns an item
decreases it by one; an iterator with size hint 0 returns `None`. -/
theorem C16_size_hint (m : RangeMap K V) (i : RangeMap.Iter K V) :
    m.iterator.sizeHint = (m.len, some m.len) ∧
    (i.next.1.isSome → i.next.2.sizeHint.1 + 1 = i.sizeHint.1) ∧
    (i.nextBack.1.isSome → i.nextBack.2.sizeHint.1 + 1 = i.sizeHint.1) ∧
    i.sizeHint.2 = some i.sizeHint.1 ∧
    (i.next.1 = none ↔ i.sizeHint.1 = 0) ∧ (i.nextBack.1 = none ↔ i.sizeHint.1 = 0) := by
  obtain ⟨l⟩ := i
  refine ⟨rfl, ?_, ?_, rfl, ?_, ?_⟩
  · cases l <;> simp [RangeMap.Iter.next, Deque.next, RangeMap.Iter.sizeHint]
  · cases l <;> simp [RangeMap.Iter.nextBack, Deque.nextBack, RangeMap.Iter.sizeHint]
  · cases l <;> simp [RangeMap.Iter.next, Deque.next, RangeMap.Iter.sizeHint]
  · cases l <;> simp [RangeMap.Iter.nextBack, Deque.nextBack, RangeMap.Iter.sizeHint]

example := C16_size_hint (K := Nat) (V := Char) Demo.map ⟨Demo.map.iter⟩

/-- **C16** `len()` is the number of entries, and `is_empty()` iff it is 0 iff no key is mapped. -/
theorem C16_len_is_empty {m : RangeMap K V} (hm : Reachable m) :
    m.len = m.iter.length ∧ (m.isEmpty = true ↔ m.len = 0) ∧
      (m.isEmpty = true ↔ ∀ k, m.get k = .ok none) := by
  refine ⟨rfl, by simp [isEmpty, len], ?_⟩
  constructor
  · intro h k
    rw [get_eq_none hm.wf.sep]
    rintro w ⟨e, he, _⟩
    simp [isEmpty] at h
    simp [h] at he
  · intro h
    rw [isEmpty, List.isEmpty_iff]
    apply List.eq_nil_iff_forall_not_mem.2
    intro e he
    have := hm.wf.sep.ne e he
    exact (get_eq_none hm.wf.sep _).1 (h e.1.start) e.2 ⟨e, he, by grind, this, rfl⟩

example := C16_len_is_empty (K := Nat) (V := Char) (m := Demo.map) Demo.map_reachable

/-- **C16** `first_range_value` is an entry whose range lies before all others, and is `None` only
for the empty map; `last_range_value` likewise, after all others. -/
theorem C16_first_last {m : RangeMap K V} (hm : Reachable m) :
    (m.firstRangeValue = none ↔ m.isEmpty = true) ∧ (m.lastRangeValue = none ↔ m.isEmpty = true) ∧
    (∀ e, m.firstRangeValue = some e → e ∈ m.iter ∧ ∀ x ∈ m.iter, x = e ∨ e.1.stop ≤ x.1.start) ∧
    (∀ e, m.lastRangeValue = some e → e ∈ m.iter ∧ ∀ x ∈ m.iter, x = e ∨ x.1.stop ≤ e.1.start) := by
  have hs := hm.wf.sep
  refine ⟨by simp [firstRangeValue, isEmpty], by simp [lastRangeValue, isEmpty], ?_, ?_⟩
  · intro e he
    rw [firstRangeValue, List.head?_eq_some_iff] at he
    obtain ⟨t, ht⟩ := he
    have hp := hs.pw
    rw [ht] at hp
    have := (List.pairwise_cons.1 hp).1
    simp only [RangeMap.iter, ht]
    grind [Before]
  · intro e he
    rw [lastRangeValue, List.getLast?_eq_some_iff] at he
    obtain ⟨t, ht⟩ := he
    have hp := hs.pw
    rw [ht] at hp
    have := (List.pairwise_append.1 hp).2.2
    simp only [RangeMap.iter, ht]
    grind [Before]

example : Demo.map.firstRangeValue = some (⟨0, 3⟩, 'a') ∧
    Demo.map.lastRangeValue = some (⟨25, 40⟩, 'c') ∧ Demo.map.len = 4 := ⟨by rfl, by rfl, by rfl⟩

/-! ## C07, iterators -/

/-- **C07** Creating and draining `gaps`, `overlapping`, and calling `overlaps`, never panics, for
any argument (also empty or inverted ranges), and terminates. -/
theorem C07_iterators_never_panic {m : RangeMap K V} (hm : Reachable m) (q : Range K) :
    (∃ o, m.overlapping q = .ok o ∧ ∃ n l, drain Overlapping.next n o = .ok l) ∧
    (∃ g, m.gaps q = .ok g ∧ ∃ n l, drain Gaps.next n g = .ok l) ∧
    (∃ b, m.overlaps q = .ok b) := by
  obtain ⟨o, h1, h2⟩ := C13_overlapping_exact hm q
  obtain ⟨g, l, h3, h4, _⟩ := C10_gaps_exact hm q
  obtain ⟨b, h5, _⟩ := C13_overlaps hm q
  exact ⟨⟨o, h1, _, _, Yields.drain h2 (Nat.le_refl _)⟩, ⟨g, h3, _, _, Yields.drain h4 (Nat.le_refl _)⟩, b, h5⟩

example := C07_iterators_never_panic (K := Nat) (V := Char) (m := Demo.map) Demo.map_reachable
    ⟨2, 22⟩

end Verif.Props

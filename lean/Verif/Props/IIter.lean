import Verif.Props.Demo
import Verif.Proof.IIter
import Verif.Props.IMap
import Verif.Props.Iter

/-!
# Properties of the iterators of `RangeInclusiveMap`: C31, C32, the inclusive half of C14, C15 and
C28, and C45, C46
-/
set_option linter.unusedSectionVars false

namespace Verif.Props
open RangeInclusiveMap Spec
variable {K : Type} [LE K] [LT K] [DecidableLE K] [DecidableLT K]
  [Std.IsLinearPreorder K] [Std.LawfulOrderLT K] {V : Type} [BEq V] [PartialEquivBEq V]
  {S : StepFns K}

/-! ## C31 -/

/-- **C31** `gaps(outer)` never panics, yields finitely many ranges and then `None` forever; a key
lies in one of them iff it lies in `outer` and is not mapped. -/
theorem C31_gaps_exact (hS : LawfulSteps S) {m : RangeInclusiveMap K V} (hm : Reachable S m)
    (outer : RangeInclusive K) :
    ∃ g l, m.gaps outer = .ok g ∧ YieldsE (Gaps.next S) g l ∧
      ∀ k, (∃ r ∈ l, r.start ≤ k ∧ k ≤ r.stop) ↔
        outer.start ≤ k ∧ k ≤ outer.stop ∧ m.get k = .ok none := by
  have hw := hm.wf hS
  obtain ⟨g, l, h1, h2, h3, _⟩ := gaps_spec hS hw.sep outer
  refine ⟨g, l, h1, h2, fun k => ?_⟩
  rw [h3.mem, get_eq_none hw.sep hw.fresh]
  show outer.start ≤ k ∧ _ ↔ _
  constructor
  · rintro ⟨a, b, c⟩
    refine ⟨a, b, ?_⟩
    rintro w ⟨e, he, h7, h8, h9⟩
    have := c e
    grind
  · rintro ⟨a, b, c⟩
    refine ⟨a, b, ?_⟩
    intro e he h7
    exact c e.2 ⟨e, (List.mem_filter.1 he).1, h7.1, h7.2, rfl⟩

example := C31_gaps_exact (K := UIntW 8) (V := Char) (S := Demo.u8) Demo.u8_lawful
    (m := Demo.imap) Demo.imap_reachable (Demo.by8 2 22)

/-- **C31** Also with `exhausted` ranges in the history: a key lies in a gap iff it lies in `outer`
and within no stored range. -/
theorem C31_gaps_exact_any (hS : LawfulSteps S) {m : RangeInclusiveMap K V}
    (hm : ReachableAny S m) (outer : RangeInclusive K) :
    ∃ g l, m.gaps outer = .ok g ∧ YieldsE (Gaps.next S) g l ∧
      ∀ k, (∃ r ∈ l, r.start ≤ k ∧ k ≤ r.stop) ↔
        outer.start ≤ k ∧ k ≤ outer.stop ∧ ∀ e ∈ m.iter, ¬ (e.1.start ≤ k ∧ k ≤ e.1.stop) := by
  obtain ⟨g, l, h1, h2, h3, _⟩ := gaps_spec hS (hm.sc hS).sep outer
  refine ⟨g, l, h1, h2, fun k => ?_⟩
  rw [h3.mem]
  show outer.start ≤ k ∧ _ ↔ _
  simp only [List.mem_filter, decide_eq_true_eq, RangeInclusiveMap.iter]
  constructor
  · rintro ⟨a, b, c⟩
    refine ⟨a, b, fun e he h7 => ?_⟩
    have := c e
    grind
  · rintro ⟨a, b, c⟩
    exact ⟨a, b, fun e he => c e he.1⟩

example := C31_gaps_exact_any (K := UIntW 8) (V := Char) (S := Demo.u8) Demo.u8_lawful
    (m := Demo.imap) Demo.imap_reachable.any (Demo.by8 2 22)

/-- **C31** The yielded gaps are non-empty, literal (not `exhausted`), within the outer range and
increasing; after each gap but the last comes a stored range that begins at the successor of the
end of the gap and ends before the next gap. -/
theorem C31_gaps_ordered (hS : LawfulSteps S) {m : RangeInclusiveMap K V}
    (hm : ReachableAny S m) (outer : RangeInclusive K) :
    ∃ g l, m.gaps outer = .ok g ∧ YieldsE (Gaps.next S) g l ∧
      (∀ r ∈ l, r.start ≤ r.stop ∧ r.exhausted = false ∧ outer.start ≤ r.start ∧
        r.stop ≤ outer.stop) ∧
      l.Pairwise (fun r r' => ∃ e ∈ m.iter, Next r.stop e.1.start ∧ e.1.start ≤ e.1.stop ∧
        e.1.stop < r'.start) := by
  have hs := (hm.sc hS).sep
  obtain ⟨g, l, h1, h2, h3, _⟩ := gaps_spec hS hs outer
  refine ⟨g, l, h1, h2, ?_, ?_⟩
  · intro r hr
    obtain ⟨a1, a2, a3, a4, _⟩ := h3.shape r hr
    exact ⟨a1, a2, a3, a4⟩
  · refine h3.pw.imp ?_
    rintro r r' ⟨e, he, h⟩
    exact ⟨e, (List.mem_filter.1 he).1, h.1, hs.ne e (List.mem_filter.1 he).1, h.2⟩

example := C31_gaps_ordered (K := UIntW 8) (V := Char) (S := Demo.u8) Demo.u8_lawful
    (m := Demo.imap) Demo.imap_reachable.any (Demo.by8 2 22)

/-- **C31** Each yielded gap is maximal: a range within `outer` that contains it and covers no
mapped key is the same range. -/
theorem C31_gaps_maximal (hS : LawfulSteps S) {m : RangeInclusiveMap K V} (hm : Reachable S m)
    (outer : RangeInclusive K) :
    ∃ g l, m.gaps outer = .ok g ∧ YieldsE (Gaps.next S) g l ∧
      ∀ r ∈ l, ∀ r' : RangeInclusive K, outer.start ≤ r'.start → r'.stop ≤ outer.stop →
        r'.start ≤ r.start → r.stop ≤ r'.stop →
        (∀ k, r'.start ≤ k → k ≤ r'.stop → m.get k = .ok none) →
        keq r.start r'.start = true ∧ keq r.stop r'.stop = true := by
  have hw := hm.wf hS
  have hs := hw.sep
  obtain ⟨g, l, h1, h2, h3, _⟩ := gaps_spec hS hs outer
  refine ⟨g, l, h1, h2, ?_⟩
  intro r hr r' o1 o2 s1 s2 hfree
  obtain ⟨a1, _, a3, a4, a5, a6⟩ := h3.shape r hr
  have a3 : outer.start ≤ r.start := a3
  have hno : ∀ e ∈ m.iter, ∀ k, r'.start ≤ k → k ≤ r'.stop → ¬ (e.1.start ≤ k ∧ k ≤ e.1.stop) := by
    intro e he k hk hk' hc
    exact (get_eq_none hs hw.fresh k).1 (hfree k hk hk') e.2 ⟨e, he, hc.1, hc.2, rfl⟩
  simp only [keq_iff]
  constructor
  · rcases a5 with h7 | ⟨e, he, h7⟩
    · have h7 : outer.start ≤ r.start ∧ r.start ≤ outer.start := h7
      grind
    · have he := (List.mem_filter.1 he).1
      have hne := hs.ne e he
      have ha := hno e he e.1.stop
      have := h7.1
      have := h7.2 r'.start
      grind
  · rcases a6 with h7 | ⟨e, he, h7, h8⟩
    · rw [h7]; grind
    · have he := (List.mem_filter.1 he).1
      have hne := hs.ne e he
      have ha := hno e he e.1.start
      have := h7.1
      have := h7.2 r'.stop
      grind

example := C31_gaps_maximal (K := UIntW 8) (V := Char) (S := Demo.u8) Demo.u8_lawful
    (m := Demo.imap) Demo.imap_reachable (Demo.by8 2 22)

/-- **C31** An inverted outer range yields nothing at all. -/
theorem C31_inverted_outer (hS : LawfulSteps S) {m : RangeInclusiveMap K V}
    (hm : ReachableAny S m) (outer : RangeInclusive K) (h : outer.stop < outer.start) :
    ∃ g, m.gaps outer = .ok g ∧ YieldsE (Gaps.next S) g [] := by
  obtain ⟨g, l, h1, h2, h3, _⟩ := C31_gaps_ordered hS hm outer
  refine ⟨g, h1, ?_⟩
  cases l with
  | nil => exact h2
  | cons r t =>
    have := h3 r (by simp)
    exfalso
    grind

example : (Demo.imap.gaps (Demo.by8 0 255)).toOption.bind
    (fun g => (drainE (Gaps.next Demo.u8) 9 g).toOption) =
      some [Demo.by8 3 4, Demo.by8 16 19] := by rfl
example : (Demo.imap.gaps (Demo.by8 18 12)).toOption.bind
    (fun g => (drainE (Gaps.next Demo.u8) 9 g).toOption) = some [] := by rfl
-- gaps reaching both ends of the key domain
example : ((run Demo.u8 [.insert (Demo.by8 3 7) 'a']).gaps (Demo.by8 0 255)).toOption.bind
    (fun g => (drainE (Gaps.next Demo.u8) 9 g).toOption) =
      some [Demo.by8 0 2, Demo.by8 8 255] := by rfl

/-! ## C45 -/

/-- **C45** For a non-inverted outer range, the overlapping entries clipped to it, together with the
gaps, tile it. -/
theorem C45_tiling (hS : LawfulSteps S) {m : RangeInclusiveMap K V} (hm : ReachableAny S m)
    (outer : RangeInclusive K) (h : outer.start ≤ outer.stop) :
    ∃ o os g gs ps, m.overlapping outer = .ok o ∧ Yields Overlapping.next o os ∧
      m.gaps outer = .ok g ∧ YieldsE (Gaps.next S) g gs ∧
      ps.Perm (os.map (fun e => RangeInclusive.mk' (rmax outer.start e.1.start)
        (rmin outer.stop e.1.stop)) ++ gs) ∧
      ITiles outer.stop (fun k => keq outer.start k = true) ps := by
  have hs := (hm.sc hS).sep
  obtain ⟨g, gs, h1, h2, _, h3⟩ := gaps_spec hS hs outer
  have h4 := Overlapping.yields (⟨outer, m.btm.filter fun e => decide (outer.start ≤ e.1.stop)⟩ :
    Overlapping K V) (hs.startSorted.filter _)
  obtain ⟨ps, h5, h6⟩ := h3 h
  exact ⟨_, _, g, gs, ps, overlapping_ok m outer, h4, h1, h2, h5,
    iTiles_congr h6 fun k hk => keq_iff.2 hk⟩

example : ITiles (⟨30⟩ : UIntW 8) (fun k => keq ⟨2⟩ k = true)
    [Demo.by8 2 2, Demo.by8 3 4, Demo.by8 5 15, Demo.by8 16 19, Demo.by8 20 24, Demo.by8 25 30] := by
  have hn : ∀ a b : UIntW 8, b.bits.toNat = a.bits.toNat + 1 → Next a b := by
    intro a b h
    refine ⟨?_, fun d hd => ?_⟩
    · rw [UIntW.lt_def]; omega
    · rw [UIntW.lt_def] at hd; rw [UIntW.le_def]; omega
  refine ⟨by decide, by decide, Or.inr ⟨hn _ _ rfl, by decide, Or.inr ⟨hn _ _ rfl, by decide,
    Or.inr ⟨hn _ _ rfl, by decide, Or.inr ⟨hn _ _ rfl, by decide, Or.inr ⟨hn _ _ rfl, by decide,
    Or.inl ⟨rfl, by decide, by decide⟩⟩⟩⟩⟩⟩⟩

/-! ## C32 -/

/-- **C32** `overlapping(q)` never panics and yields, in `iter()` order, exactly the entries with
`end >= q.start` and `start <= q.end`. -/
theorem C32_overlapping_exact (hS : LawfulSteps S) {m : RangeInclusiveMap K V}
    (hm : ReachableAny S m) (q : RangeInclusive K) :
    ∃ o, m.overlapping q = .ok o ∧ Yields Overlapping.next o
      (m.iter.filter fun e => decide (q.start ≤ e.1.stop) && decide (e.1.start ≤ q.stop)) := by
  obtain ⟨o, h1, h2, h3⟩ := overlapping_items (hm.sc hS).sep q
  refine ⟨o, h1, ?_⟩
  rw [RangeInclusiveMap.iter, ← h3]
  exact Overlapping.yields o h2

example := C32_overlapping_exact (K := UIntW 8) (V := Char) (S := Demo.u8) Demo.u8_lawful
    (m := Demo.imap) Demo.imap_reachable.any (Demo.by8 2 22)

/-- **C32** For a query that is not inverted these are exactly the entries sharing a key with it. -/
theorem C32_overlapping_shares_key (hS : LawfulSteps S) {m : RangeInclusiveMap K V}
    (hm : ReachableAny S m) (q : RangeInclusive K)
    (hq : q.start ≤ q.stop) (e : RangeInclusive K × V) (he : e ∈ m.iter) :
    (q.start ≤ e.1.stop ∧ e.1.start ≤ q.stop) ↔
      ∃ k, (q.start ≤ k ∧ k ≤ q.stop) ∧ (e.1.start ≤ k ∧ k ≤ e.1.stop) := by
  have := (hm.sc hS).sep.ne e he
  constructor
  · intro h
    by_cases hc : q.start ≤ e.1.start
    · exact ⟨e.1.start, by grind⟩
    · exact ⟨q.start, by grind⟩
  · rintro ⟨k, hk⟩
    grind

example := C32_overlapping_shares_key (K := UIntW 8) (V := Char) (S := Demo.u8) Demo.u8_lawful
    (m := Demo.imap) Demo.imap_reachable.any (Demo.by8 2 22) (by decide) (Demo.by8 5 15, 'a')
    (by decide)

/-- **C32** `overlaps(q)` never panics and is true iff there is such an entry. -/
theorem C32_overlaps (hS : LawfulSteps S) {m : RangeInclusiveMap K V} (hm : ReachableAny S m)
    (q : RangeInclusive K) :
    ∃ b, m.overlaps q = .ok b ∧
      (b = true ↔ ∃ e ∈ m.iter, q.start ≤ e.1.stop ∧ e.1.start ≤ q.stop) := by
  obtain ⟨o, h1, h2, h3⟩ := overlapping_items (hm.sc hS).sep q
  obtain ⟨h4, _⟩ := Overlapping.next_spec o h2
  refine ⟨o.next.1.isSome, by simp [overlaps, h1, bind, Except.bind, pure, Except.pure], ?_⟩
  rw [h4, h3, List.isSome_head?]
  simp [RangeInclusiveMap.iter]

example : (Demo.imap.overlapping (Demo.by8 15 20)).toOption.bind
    (fun o => (drain Overlapping.next 9 o).toOption) =
      some [(Demo.by8 5 15, 'a'), (Demo.by8 20 24, 'b')] := by rfl
example : Demo.imap.overlaps (Demo.by8 16 19) = .ok false ∧
    Demo.imap.overlaps (Demo.by8 16 20) = .ok true := ⟨by rfl, by rfl⟩

/-! ## C14 -/

/-- **C14** Inclusive maps: any interleaving of `next` and `next_back` on `overlapping(q)` behaves as
on a double ended queue of the overlapping entries. -/
theorem C14_overlapping_double_ended_inclusive (hS : LawfulSteps S) {m : RangeInclusiveMap K V}
    (hm : ReachableAny S m) (q : RangeInclusive K) (cs : List End) :
    ∃ o, m.overlapping q = .ok o ∧ script Overlapping.next Overlapping.nextBack cs o =
      dequeScript cs
        (m.iter.filter fun e => decide (q.start ≤ e.1.stop) && decide (e.1.start ≤ q.stop)) := by
  obtain ⟨o, h1, h2, h3⟩ := overlapping_items (hm.sc hS).sep q
  refine ⟨o, h1, ?_⟩
  rw [Overlapping.script_spec _ _ h2, h3, RangeInclusiveMap.iter]

example : dequeScript [.back, .front, .back, .front]
    (Demo.imap.iter.filter fun e => decide ((⟨4⟩ : UIntW 8) ≤ e.1.stop) &&
      decide (e.1.start ≤ (⟨24⟩ : UIntW 8))) =
    [some (Demo.by8 20 24, 'b'), some (Demo.by8 5 15, 'a'), none, none] := by rfl

/-! ## C15 -/

/-- **C15** Inclusive maps: a `gaps` iterator is fused. -/
theorem C15_gaps_fused_inclusive (hS : LawfulSteps S) {m : RangeInclusiveMap K V}
    (hm : ReachableAny S m) (outer : RangeInclusive K) :
    ∃ g, m.gaps outer = .ok g ∧ ∀ n, ∃ rs, callsE (Gaps.next S) n g = .ok rs ∧ rs.length = n ∧
      ∀ i j : Nat, i ≤ j → j < n → rs[i]? = some none → rs[j]? = some none := by
  obtain ⟨g, l, h1, h2, _⟩ := C31_gaps_ordered hS hm outer
  refine ⟨g, h1, fun n => ⟨_, h2 n, by simp, ?_⟩⟩
  intro i j hij hj
  simp only [List.getElem?_take, hj, if_true, show i < n by omega, List.getElem?_append]
  grind

example : (Demo.imap.gaps (Demo.by8 1 18)).toOption.bind
    (fun g => (callsE (Gaps.next Demo.u8) 4 g).toOption) =
    some [some (Demo.by8 3 4), some (Demo.by8 16 18), none, none] := by rfl

/-! ## C28, iterators -/

/-- **C28** Creating and draining `gaps` and `overlapping`, and calling `overlaps`, never panics, for
any argument.  Since `S` may panic at the extremes, `gaps` does not call `add_one` at the greatest
key nor `sub_one` at the least. -/
theorem C28_iterators_never_panic (hS : LawfulSteps S) {m : RangeInclusiveMap K V}
    (hm : ReachableAny S m) (q : RangeInclusive K) :
    (∃ o, m.overlapping q = .ok o ∧ ∃ n l, drain Overlapping.next n o = .ok l) ∧
    (∃ g, m.gaps q = .ok g ∧ (∀ n, ∃ rs, callsE (Gaps.next S) n g = .ok rs) ∧
      ∃ n l, drainE (Gaps.next S) n g = .ok l) ∧
    (∃ b, m.overlaps q = .ok b) := by
  obtain ⟨o, h1, h2⟩ := C32_overlapping_exact hS hm q
  obtain ⟨g, l, h3, h4, _⟩ := C31_gaps_ordered hS hm q
  obtain ⟨b, h5, _⟩ := C32_overlaps hS hm q
  exact ⟨⟨o, h1, _, _, Yields.drain h2 (Nat.le_refl _)⟩,
    ⟨g, h3, fun n => ⟨_, h4 n⟩, _, _, YieldsE.drain h4 (Nat.le_refl _)⟩, b, h5⟩

example := C28_iterators_never_panic (K := UIntW 8) (V := Char) (S := Demo.u8) Demo.u8_lawful
    (m := Demo.imap) Demo.imap_reachable.any (Demo.by8 2 22)

/-- **C28** Whatever the step functions do at the extremes, `gaps` yields the same ranges. -/
theorem C28_extremes_irrelevant_gaps (hS : LawfulSteps S) {S' : StepFns K}
    (ha : ∀ a b, a < b → S.addOne a = S'.addOne a) (hb : ∀ a b, b < a → S.subOne a = S'.subOne a)
    {m : RangeInclusiveMap K V} (hm : ReachableAny S m) (q : RangeInclusive K) :
    ∃ g l, m.gaps q = .ok g ∧ YieldsE (Gaps.next S) g l ∧ YieldsE (Gaps.next S') g l := by
  obtain ⟨g, l, h1, h2, _⟩ := gaps_spec (strict_lawful hS) (hm.sc hS).sep q
  exact ⟨g, l, h1,
    YieldsE.mono (fun s => Gaps.nextLoop_le (strict_le (S := S) (fun _ _ _ => rfl)
      (fun _ _ _ => rfl)) _ _ _ _) h2,
    YieldsE.mono (fun s => Gaps.nextLoop_le (strict_le ha hb) _ _ _ _) h2⟩

example := C28_extremes_irrelevant_gaps (K := UIntW 8) (V := Char) (S := Demo.u8) Demo.u8_lawful
    (S' := Demo.u8) (by simp) (by simp) (m := Demo.imap) Demo.imap_reachable.any (Demo.by8 2 22)

/-! ## C46 -/

theorem iiter_script (cs : List End) : ∀ l : List (RangeInclusive K × V),
    script RangeInclusiveMap.Iter.next RangeInclusiveMap.Iter.nextBack cs ⟨l⟩ =
      dequeScript cs l := by
  induction cs with
  | nil => intro l; rfl
  | cons c cs ih =>
    intro l
    cases c with
    | front =>
      cases l <;>
        simp [script, dequeScript, RangeInclusiveMap.Iter.next, Deque.next, ih]
    | back => simp [script, dequeScript, RangeInclusiveMap.Iter.nextBack, Deque.nextBack, ih]

/-- **C46** Any interleaving of `next`/`next_back` on `iter()`/`into_iter()` behaves as on a double
ended queue of the entries. -/
theorem C46_iter_double_ended (m : RangeInclusiveMap K V) (cs : List End) :
    script RangeInclusiveMap.Iter.next RangeInclusiveMap.Iter.nextBack cs m.iterator =
      dequeScript cs m.iter :=
  iiter_script cs m.btm

example := C46_iter_double_ended (K := UIntW 8) (V := Char) Demo.imap [.back, .front, .front]

/-- **C46** `size_hint` of a fresh iterator is exact and is `len()`; each call that returns an item
decreases it by one; an iterator with size hint 0 returns `None`. -/
theorem C46_size_hint (m : RangeInclusiveMap K V) (i : RangeInclusiveMap.Iter K V) :
    m.iterator.sizeHint = (m.len, some m.len) ∧
    (i.next.1.isSome → i.next.2.sizeHint.1 + 1 = i.sizeHint.1) ∧
    (i.nextBack.1.isSome → i.nextBack.2.sizeHint.1 + 1 = i.sizeHint.1) ∧
    i.sizeHint.2 = some i.sizeHint.1 ∧
    (i.next.1 = none ↔ i.sizeHint.1 = 0) ∧ (i.nextBack.1 = none ↔ i.sizeHint.1 = 0) := by
  obtain ⟨l⟩ := i
  refine ⟨rfl, ?_, ?_, rfl, ?_, ?_⟩
  · cases l <;> simp [RangeInclusiveMap.Iter.next, Deque.next, RangeInclusiveMap.Iter.sizeHint]
  · cases l <;>
      simp [RangeInclusiveMap.Iter.nextBack, Deque.nextBack, RangeInclusiveMap.Iter.sizeHint]
  · cases l <;> simp [RangeInclusiveMap.Iter.next, Deque.next, RangeInclusiveMap.Iter.sizeHint]
  · cases l <;>
      simp [RangeInclusiveMap.Iter.nextBack, Deque.nextBack, RangeInclusiveMap.Iter.sizeHint]

example := C46_size_hint (K := UIntW 8) (V := Char) Demo.imap ⟨Demo.imap.iter⟩

/-- **C46** `len()` is the number of entries, and `is_empty()` iff it is 0 iff no key is mapped. -/
theorem C46_len_is_empty (hS : LawfulSteps S) {m : RangeInclusiveMap K V} (hm : Reachable S m) :
    m.len = m.iter.length ∧ (m.isEmpty = true ↔ m.len = 0) ∧
      (m.isEmpty = true ↔ ∀ k, m.get k = .ok none) := by
  have hw := hm.wf hS
  refine ⟨rfl, by simp [isEmpty, len], ?_⟩
  constructor
  · intro h k
    rw [get_eq_none hw.sep hw.fresh]
    rintro w ⟨e, he, _⟩
    simp [isEmpty] at h
    simp [h] at he
  · intro h
    rw [isEmpty, List.isEmpty_iff]
    apply List.eq_nil_iff_forall_not_mem.2
    intro e he
    have := hw.sep.ne e he
    exact (get_eq_none hw.sep hw.fresh _).1 (h e.1.start) e.2 ⟨e, he, by grind, this, rfl⟩

example := C46_len_is_empty (K := UIntW 8) (V := Char) (S := Demo.u8) Demo.u8_lawful
    (m := Demo.imap) Demo.imap_reachable

/-- **C46** `first_range_value` is an entry whose range lies before all others, and is `None` only
for the empty map; `last_range_value` likewise, after all others. -/
theorem C46_first_last (hS : LawfulSteps S) {m : RangeInclusiveMap K V} (hm : ReachableAny S m) :
    (m.firstRangeValue = none ↔ m.isEmpty = true) ∧ (m.lastRangeValue = none ↔ m.isEmpty = true) ∧
    (∀ e, m.firstRangeValue = some e → e ∈ m.iter ∧ ∀ x ∈ m.iter, x = e ∨ e.1.stop < x.1.start) ∧
    (∀ e, m.lastRangeValue = some e → e ∈ m.iter ∧ ∀ x ∈ m.iter, x = e ∨ x.1.stop < e.1.start) := by
  have hs := (hm.sc hS).sep
  refine ⟨by simp [firstRangeValue, isEmpty], by simp [lastRangeValue, isEmpty], ?_, ?_⟩
  · intro e he
    rw [firstRangeValue, List.head?_eq_some_iff] at he
    obtain ⟨t, ht⟩ := he
    have hp := hs.pw
    rw [ht] at hp
    have := (List.pairwise_cons.1 hp).1
    simp only [RangeInclusiveMap.iter, ht]
    grind [Before]
  · intro e he
    rw [lastRangeValue, List.getLast?_eq_some_iff] at he
    obtain ⟨t, ht⟩ := he
    have hp := hs.pw
    rw [ht] at hp
    have := (List.pairwise_append.1 hp).2.2
    simp only [RangeInclusiveMap.iter, ht]
    grind [Before]

example : Demo.imap.firstRangeValue = some (Demo.by8 0 2, 'a') ∧
    Demo.imap.lastRangeValue = some (Demo.by8 25 255, 'c') ∧ Demo.imap.len = 4 :=
  ⟨by rfl, by rfl, by rfl⟩
example : script RangeInclusiveMap.Iter.next RangeInclusiveMap.Iter.nextBack [.back, .front, .back]
    Demo.imap.iterator =
    [some (Demo.by8 25 255, 'c'), some (Demo.by8 0 2, 'a'), some (Demo.by8 20 24, 'b')] := by rfl

end Verif.Props

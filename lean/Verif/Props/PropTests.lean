import Verif.Props.Demo
import Verif.Proof.PropTests
import Verif.Props.Fuzz
import Verif.Props.Build
import Verif.Props.Set
import Verif.Props.Step

/-!
# C79: the crate's property tests pass on every input
-/
set_option linter.unusedSectionVars false

namespace Verif.Props
open RangeMap Spec
variable {K : Type} [LE K] [LT K] [DecidableLE K] [DecidableLT K]
  [Std.IsLinearPreorder K] [Std.LawfulOrderLT K] {V : Type} [BEq V] [PartialEquivBEq V]

/-! ## The strategies -/

theorem strategy_le (p : K × K) : (Range.strategy p).start ≤ (Range.strategy p).stop := by
  unfold Range.strategy
  split <;> grind

theorem strategy_empty (p : K × K) :
    (Range.strategy p).stop ≤ (Range.strategy p).start ↔ keq p.1 p.2 = true := by
  unfold Range.strategy
  rw [keq_iff]
  split <;> grind

/-- **C79** The strategy for `RangeMap` panics exactly when two equal bounds are drawn; every map it
makes is one that can be built by the API. -/
theorem C79_map_strategy (items : List ((K × K) × V)) :
    ((∃ p, RangeMap.strategy items = .error p) ↔ ∃ e ∈ items, keq e.1.1 e.1.2 = true) ∧
    ∀ m, RangeMap.strategy items = .ok m → Reachable m := by
  have hp := C19_extend_panics_iff (Reachable.new (K := K) (V := V))
    (items.map fun e => (Range.strategy e.1, e.2))
  have hs : (∃ e ∈ items.map fun e => (Range.strategy e.1, e.2), e.1.stop ≤ e.1.start) ↔
      ∃ e ∈ items, keq e.1.1 e.1.2 = true := by
    simp only [List.mem_map, ← strategy_empty]
    constructor
    · rintro ⟨_, ⟨e, he, rfl⟩, h⟩
      exact ⟨e, he, h⟩
    · rintro ⟨e, he, h⟩
      exact ⟨_, ⟨e, he, rfl⟩, h⟩
  refine ⟨?_, fun m h => ?_⟩
  · rw [← hs, ← hp, RangeMap.strategy, fromIter]
    generalize (new : RangeMap K V).extend _ = x
    obtain ⟨m, o⟩ := x
    cases o <;> simp [Except.map]
  · have h := ((C19_from_iter_from_array _).2.1 m).1 h
    have := Reachable.apply (Reachable.new (K := K) (V := V))
      (.extend (items.map fun e => (Range.strategy e.1, e.2)))
    simpa [RangeMap.apply, h] using this

example := C79_map_strategy (K := Nat) (V := Char) [((2, 9), 'x'), ((20, 22), 'y')]

/-- **C79** The strategy for `RangeSet`, which drops empty ranges, never panics. -/
theorem C79_set_strategy (items : List (K × K)) :
    ∃ s, RangeSet.strategy items = .ok s ∧ RangeSet.Reachable s := by
  obtain ⟨_, h1, h2⟩ := C49_from_iter
    ((items.map Range.strategy).filter fun r => !keq r.start r.stop)
  cases h : RangeSet.strategy items with
  | ok s => exact ⟨s, rfl, (h2 s h).1⟩
  | error p =>
    obtain ⟨r, hr, hle⟩ := h1.1 ⟨p, h⟩
    rw [List.mem_filter, List.mem_map] at hr
    obtain ⟨⟨q, _, rfl⟩, hne⟩ := hr
    have := strategy_le q
    have : keq (Range.strategy q).start (Range.strategy q).stop = true := keq_iff.2 ⟨this, hle⟩
    simp [this] at hne

example := C79_set_strategy (K := Nat) [(2, 9), (20, 22)]

theorem fromIter_iter {m : RangeMap K V} (hm : Reachable m) : fromIter m.iter = .ok m := by
  have h := extend_rest m.btm [] (by simpa using hm.wf)
  rw [List.nil_append] at h
  simp only [fromIter, RangeMap.iter, show (new : RangeMap K V) = ⟨[]⟩ from rfl, h]
  rfl

/-- **C79** What the strategies can make.  Two different bounds make the range between them, in
whichever order they are drawn, and every map and every set that the API can build is made from
some draw. -/
theorem C79_strategies_reach_everything :
    (∀ a b : K, a < b → Range.strategy (a, b) = ⟨a, b⟩ ∧ Range.strategy (b, a) = ⟨a, b⟩) ∧
    (∀ m : RangeMap K V, Reachable m → RangeMap.strategy
      (m.iter.map fun e => ((e.1.start, e.1.stop), e.2)) = .ok m) ∧
    ∀ s : RangeSet K, RangeSet.Reachable s →
      RangeSet.strategy (s.iter.map fun r => (r.start, r.stop)) = .ok s := by
  have h1 : ∀ a b : K, a < b → Range.strategy (a, b) = ⟨a, b⟩ ∧ Range.strategy (b, a) = ⟨a, b⟩ := by
    intro a b h
    have : ¬ b < a := by grind
    simp [Range.strategy, h, this]
  refine ⟨h1, fun m hm => ?_, fun s hs => ?_⟩
  · rw [RangeMap.strategy, List.map_map]
    have : m.iter.map ((fun e : (K × K) × V => (Range.strategy e.1, e.2)) ∘
        fun e : Range K × V => ((e.1.start, e.1.stop), e.2)) = m.iter := by
      conv => rhs; rw [← List.map_id m.iter]
      refine List.map_congr_left fun e he => ?_
      simp only [Function.comp, (h1 _ _ (hm.wf.sep.ne e he)).1, id]
    rw [this, fromIter_iter hm]
  · obtain ⟨g1, _⟩ := (RangeSet.reachable_iff s).1 hs
    have h2 : (s.iter.map fun r => (r.start, r.stop)).map Range.strategy = s.iter := by
      rw [List.map_map]
      conv => rhs; rw [← List.map_id s.iter]
      refine List.map_congr_left fun r hr => ?_
      simp only [Function.comp, (h1 _ _ (g1 r hr)).1, id]
    have h3 : s.iter.filter (fun r => !keq r.start r.stop) = s.iter := by
      refine List.filter_eq_self.2 fun r hr => ?_
      have := g1 r hr
      rw [Bool.not_eq_true', ← Bool.not_eq_true, keq_iff]
      grind
    have h4 : (s.iter.map fun r => (r, ())) = s.rm.btm := by
      simp only [RangeSet.iter, RangeMap.iter, List.map_map]
      exact List.map_id _
    have h5 := RangeMap.extend_rest s.rm.btm [] (by simpa using hs.wf)
    rw [List.nil_append] at h5
    simp only [RangeSet.strategy, h2, h3, RangeSet.fromIter, RangeSet.extend_rm, h4,
      show (RangeSet.new : RangeSet K).rm = ⟨[]⟩ from rfl, h5]
    rfl

/-! ## `RangeMap` -/

/-- **C79** `test_len` passes. -/
theorem C79_map_len (m : RangeMap K V) : ∃ n, ∀ fuel, n ≤ fuel → m.testLen fuel = .ok () := by
  refine ⟨m.iter.length + 1, fun fuel hf => ?_⟩
  have h1 := drain_of_script (fun n => C16_iter_double_ended m (List.replicate n .front)) hf
  have h2 := drain_of_script (fun n => C16_iter_double_ended m.clear (List.replicate n .front))
    (fuel := fuel) (by simp only [clear, RangeMap.iter, List.length_nil]; omega)
  have h3 : (m.isEmpty == (m.len == 0)) = true := by
    unfold isEmpty len
    cases m.btm <;> rfl
  simp only [testLen, h1, h2, h3, bind, Except.bind, check_true,
    show (m.len == m.iter.length) = true from BEq.rfl]
  rfl

example := C79_map_len (K := Nat) (V := Char) Demo.map

/-- **C79** `test_iter_reversible` and `test_into_iter_reversible` pass for all maps whose values are
`==` to themselves (and only for those: the test compares the values). -/
theorem C79_map_iter_reversible (m : RangeMap K V) : ∃ n, ∀ fuel, n ≤ fuel →
    (m.testIterReversible fuel = .ok () ↔ ∀ e ∈ m.iter, (e.2 == e.2) = true) := by
  refine ⟨m.iter.length + 1, fun fuel hf => ?_⟩
  rw [testIterReversible, PropTest.reversible_iff (C16_iter_double_ended m) hf]
  have hk : ∀ k : K, keq k k = true := fun k => keq_iff.2 ⟨by grind, by grind⟩
  simp [entryEq, hk]

example := C79_map_iter_reversible (K := Nat) (V := Char) Demo.map

/-- **C79** `test_overlapping_reversible` passes, likewise. -/
theorem C79_map_overlapping_reversible {m : RangeMap K V} (hm : Reachable m) (q : Range K) :
    ∃ n, ∀ fuel, n ≤ fuel → (m.testOverlappingReversible fuel q = .ok () ↔
      ∀ e ∈ m.iter, q.start < e.1.stop → e.1.start < q.stop → (e.2 == e.2) = true) := by
  obtain ⟨o, h1, _⟩ := C14_overlapping_double_ended hm q []
  have h2 := fun cs => C14_overlapping_double_ended hm q cs
  simp only [h1, Except.ok.injEq, exists_eq_left'] at h2
  refine ⟨(m.iter.filter fun e => decide (q.start < e.1.stop) &&
    decide (e.1.start < q.stop)).length + 1, fun fuel hf => ?_⟩
  simp only [testOverlappingReversible, h1, bind, Except.bind]
  rw [PropTest.reversible_iff h2 hf]
  have hk : ∀ k : K, keq k k = true := fun k => keq_iff.2 ⟨by grind, by grind⟩
  simp only [entryEq, hk, Bool.and_self, Bool.true_and, List.mem_filter, Bool.and_eq_true,
    decide_eq_true_eq]
  grind

example := C79_map_overlapping_reversible (K := Nat) (V := Char) (m := Demo.map)
    Demo.map_reachable ⟨2, 22⟩

theorem filter_valid {α : Type} {f : α → Range K} {l : List α}
    (hv : ∀ e ∈ l, (f e).start ≤ (f e).stop) :
    ∀ e ∈ l.filter fun e => !keq (f e).start (f e).stop, (f e).start < (f e).stop := by
  intro e he
  rw [List.mem_filter] at he
  have h1 := hv e he.1
  have h2 : ¬ keq (f e).start (f e).stop = true := by simpa using he.2
  rw [keq_iff] at h2
  grind

theorem extend_valid_ok {m : RangeMap K V} (hm : Reachable m) (items : List (Range K × V))
    (hv : ∀ e ∈ items, e.1.start < e.1.stop) : (m.extend items).2 = .ok () := by
  cases h : (m.extend items).2 with
  | ok u => rfl
  | error p =>
    obtain ⟨e, he, hle⟩ := (C19_extend_panics_iff hm items).1 ⟨p, h⟩
    have := hv e he
    exfalso
    grind

/-- **C79** `test_arbitrary_map_u8` passes on all the entries proptest can generate (bounds in
order): the value of every key is that of the last range that contains it. -/
theorem C79_map_arbitrary [ReflBEq V] (ranges : List (Range K × V))
    (hv : ∀ e ∈ ranges, e.1.start ≤ e.1.stop) (values : List K) :
    testArbitrary ranges values = .ok () := by
  have hne := filter_valid (f := fun e : Range K × V => e.1) hv
  have h := fun k => C19_extend_last_wins (Reachable.new (K := K) (V := V)) _ hne k
  have hok := extend_valid_ok (Reachable.new (K := K) (V := V)) _ hne
  simp only [testArbitrary, foldlM_extend, hok, Except.map, bind, Except.bind]
  refine PropTest.forKeys_ok fun k => ?_
  obtain ⟨_, o, o', h1, h2, h3⟩ := h k
  cases (show o' = none from (Except.ok.inj h2).symm)
  refine ⟨_, _, h1, rfl, ?_⟩
  have hc : (fun e : Range K × V => e.1.contains k) = fun e => covers e.1 k := by
    funext e
    simp [Range.contains, covers]
  rw [hc]
  revert h3
  generalize List.find? _ _ = f
  cases f <;> cases o <;> simp [Agree]
  rintro (rfl | h)
  · exact BEq.rfl
  · exact h

example := C79_map_arbitrary (K := Nat) (V := Char) Demo.items (by decide) [3, 8]

/-- **C79** `test_hash` passes, whatever the hasher makes of what is written to it, for key and value
types whose own `Hash` agrees with their `==`. -/
theorem C79_map_hash {H F : Type} [DecidableEq F] {hk : K → List H} {hv : V → List H}
    (hkc : ∀ a b, keq a b = true → hk a = hk b) (hvc : ∀ a b, (a == b) = true → hv a = hv b)
    (finish : List (HashToken H) → F) (left right : RangeMap K V) :
    testHash hk hv finish left right = .ok () :=
  PropTest.hash_ok fun h => by rw [C17_hash_eq hkc hvc h]

example := C79_map_hash (K := Demo.TagKey) (V := Nat) (H := Nat) (F := Nat) (hk := fun k => [k.n])
    (hv := fun v => [v]) (fun _ _ h => congrArg (fun n => [n])
    (Nat.le_antisymm (keq_iff.1 h).1 (keq_iff.1 h).2)) (fun _ _ h => by
    simp_all) List.length tagA tagB

/-- **C79** `test_ord` passes, for value types whose `Ord` agrees with their `==`. -/
theorem C79_map_ord {vcmp : V → V → Ordering} (hv : ∀ a b, vcmp a b = .eq ↔ (a == b) = true)
    (left right : RangeMap K V) : testOrd vcmp left right = .ok () :=
  PropTest.ord_ok (C18_cmp_eq_iff hv left right) (C18_partial_cmp vcmp left right)

example := C79_map_ord (K := Nat) (V := Char) (vcmp := compare)
    (fun a b => by simp [Std.LawfulEqCmp.compare_eq_iff_eq]) Demo.map Demo.map'

/-! ## `RangeSet` -/

/-- **C79** `test_len` passes. -/
theorem C79_set_len (s : RangeSet K) : ∃ n, ∀ fuel, n ≤ fuel → s.testLen fuel = .ok () := by
  refine ⟨s.iter.length + 1, fun fuel hf => ?_⟩
  have h1 := drain_of_script (fun n => (C48_iter s (List.replicate n .front)).1) hf
  have h2 := drain_of_script (fun n => (C48_iter s.clear (List.replicate n .front)).1)
    (fuel := fuel) (by simp only [RangeSet.iter, RangeSet.clear, clear, RangeMap.iter,
      List.map_nil, List.length_nil]; omega)
  obtain ⟨_, _, h3, _⟩ := C48_iter s []
  have h4 : (s.isEmpty == (s.len == 0)) = true := by
    unfold RangeSet.isEmpty RangeSet.len isEmpty len
    cases s.rm.btm <;> rfl
  simp only [RangeSet.testLen, h1, h2, h4, bind, Except.bind, check_true, ← h3, BEq.rfl]
  rfl

example := C79_set_len (K := Nat) Demo.set

theorem rangeEq_self (r : Range K) : RangeSet.rangeEq r r = true := by
  have hk : ∀ k : K, keq k k = true := fun k => keq_iff.2 ⟨by grind, by grind⟩
  simp [RangeSet.rangeEq, hk]

/-- **C79** `test_iter_reversible` and `test_into_iter_reversible` pass. -/
theorem C79_set_iter_reversible (s : RangeSet K) : ∃ n, ∀ fuel, n ≤ fuel →
    s.testIterReversible fuel = .ok () :=
  ⟨s.iter.length + 1, fun _ hf =>
    (PropTest.reversible_iff (fun cs => (C48_iter s cs).1) hf).2 fun r _ => rangeEq_self r⟩

example := C79_set_iter_reversible (K := Nat) Demo.set

/-- **C79** `test_overlapping_reversible` passes. -/
theorem C79_set_overlapping_reversible {s : RangeSet K} (hs : RangeSet.Reachable s) (q : Range K) :
    ∃ n, ∀ fuel, n ≤ fuel → s.testOverlappingReversible fuel q = .ok () := by
  obtain ⟨o, h1, _⟩ := C48_overlapping hs q []
  have h2 : ∀ cs, _ := fun cs => C48_overlapping hs q cs
  simp only [h1, Except.ok.injEq, exists_eq_left'] at h2
  refine ⟨(s.iter.filter fun r => decide (q.start < r.stop) &&
    decide (r.start < q.stop)).length + 1, fun fuel hf => ?_⟩
  simp only [RangeSet.testOverlappingReversible, h1, bind, Except.bind]
  exact (PropTest.reversible_iff (fun cs => (h2 cs).1) hf).2 fun r _ => rangeEq_self r

example := C79_set_overlapping_reversible (K := Nat) (s := Demo.set) Demo.set_reachable ⟨2, 22⟩

/-- **C79** `test_first` and `test_last` pass. -/
theorem C79_set_first_last {s : RangeSet K} (hs : RangeSet.Reachable s) :
    ∃ n, ∀ fuel, n ≤ fuel → s.testFirstLast fuel = .ok () := by
  refine ⟨s.iter.length + 1, fun fuel hf => ?_⟩
  have h1 := drain_of_script (fun n => (C48_iter s (List.replicate n .front)).1) hf
  obtain ⟨_, _, _, _, h2, h3⟩ := C48_iter s []
  obtain ⟨hne, hpw⟩ := (C35_reachable_iff s).1 hs
  have hp : s.iter.Pairwise fun x y => x.start < y.start ∧ x.stop < y.stop := by
    refine List.Pairwise.imp_of_mem ?_ hpw
    intro a b ha hb h
    have := hne a ha
    have := hne b hb
    grind
  simp only [RangeSet.testFirstLast, h1, h2, h3, bind, Except.bind,
    minByKey_sorted (hp.imp fun h => h.1), maxByKey_sorted (hp.imp fun h => h.2)]
  cases s.iter.head? <;> cases s.iter.getLast? <;>
    simp [rangeEq_self, pure, Except.pure]

example := C79_set_first_last (K := Nat) (s := Demo.set) Demo.set_reachable

/-- **C79** `test_arbitrary_set_u8` passes on all the ranges proptest can generate. -/
theorem C79_set_arbitrary (ranges : List (Range K)) (hv : ∀ r ∈ ranges, r.start ≤ r.stop)
    (values : List K) : RangeSet.testArbitrary ranges values = .ok () := by
  have hne := filter_valid (f := fun r : Range K => r) hv
  obtain ⟨h1, h2, h3⟩ := C49_from_iter (ranges.filter fun r => !keq r.start r.stop)
  cases h : (RangeSet.fromArray (ranges.filter fun r => !keq r.start r.stop)) with
  | error p =>
    obtain ⟨r, hr, hle⟩ := h2.1 ⟨p, h1.trans h⟩
    have := hne r hr
    exfalso
    grind
  | ok s =>
    rw [RangeSet.fromArray] at h
    simp only [RangeSet.testArbitrary, h, bind, Except.bind]
    refine PropTest.forKeys_ok fun k => ⟨_, _, (h3 s (h1.trans h)).2 k, rfl, ?_⟩
    simp [Range.contains]

example := C79_set_arbitrary (K := Nat) [⟨2, 9⟩, ⟨20, 22⟩] (by decide) [3, 8]

/-- **C79** `test_hash` passes. -/
theorem C79_set_hash {H F : Type} [DecidableEq F] {hk : K → List H}
    (hkc : ∀ a b, keq a b = true → hk a = hk b)
    (finish : List (HashToken H) → F) (left right : RangeSet K) :
    RangeSet.testHash hk finish left right = .ok () :=
  PropTest.hash_ok fun h => by
    rw [(C50_comparison left right left).2.2.2.2.2.2.2 H hk hkc h]

/-- **C79** `test_ord` passes. -/
theorem C79_set_ord (left right : RangeSet K) : RangeSet.testOrd left right = .ok () :=
  have h := C50_comparison left right left
  PropTest.ord_ok h.2.2.2.2.2.1 h.2.2.2.2.2.2.1

example := C79_set_ord (K := Nat) Demo.set Demo.set'

/-- **C79** `test_union_contains_u8` passes. -/
theorem C79_union_contains {a b : RangeSet K} (ha : RangeSet.Reachable a)
    (hb : RangeSet.Reachable b) (values : List K) : a.testUnionContains b values = .ok () := by
  obtain ⟨c, h1, _, h2⟩ := C39_bitor ha hb
  simp only [RangeSet.testUnionContains, h1, bind, Except.bind]
  refine PropTest.forKeys_ok fun k => ?_
  obtain ⟨x, y, g1, g2, g3⟩ := h2 k
  refine ⟨_, x || y, g3, ?_, BEq.rfl⟩
  cases x <;> simp [g1, g2, pure, Except.pure]

example := C79_union_contains (K := Nat) (a := Demo.set) (b := Demo.set') Demo.set_reachable
    Demo.set'_reachable [3, 8]

/-- **C79** `test_intersection_contains_u8` passes. -/
theorem C79_intersection_contains {a b : RangeSet K} (ha : RangeSet.Reachable a)
    (hb : RangeSet.Reachable b) (values : List K) :
    a.testIntersectionContains b values = .ok () := by
  obtain ⟨c, h1, _, _, h2⟩ := C39_bitand ha hb
  simp only [RangeSet.testIntersectionContains, h1, bind, Except.bind]
  refine PropTest.forKeys_ok fun k => ?_
  obtain ⟨x, y, g1, g2, g3⟩ := h2 k
  refine ⟨_, x && y, g3, ?_, BEq.rfl⟩
  cases x <;> simp [g1, g2, pure, Except.pure]

example := C79_intersection_contains (K := Nat) (a := Demo.set) (b := Demo.set')
    Demo.set_reachable Demo.set'_reachable [3, 8]

/-- **C79** What `test_hash` tests: it passes for two given containers exactly when they are not
`==` or their hashes are the same. -/
theorem C79_hash_meaning {H F : Type} [DecidableEq F] (hk : K → List H) (hv : V → List H)
    (finish : List (HashToken H) → F) (a b : RangeMap K V) (s t : RangeSet K) :
    (testHash hk hv finish a b = .ok () ↔
      (a.eq b = true → finish (a.hash hk hv) = finish (b.hash hk hv))) ∧
    (RangeSet.testHash hk finish s t = .ok () ↔
      (s.eq t = true → finish (s.hash hk) = finish (t.hash hk))) :=
  ⟨PropTest.hash_ok_iff, PropTest.hash_ok_iff⟩

example := C79_hash_meaning (K := Nat) (V := Char) (H := Nat) (F := Nat) (fun _ => [1])
    (fun _ => [2]) (fun l => l.length) Demo.map Demo.map' Demo.set Demo.set'

/-- **C79** What `test_ord` tests: it passes for two given containers exactly when `cmp` says
`Equal` just if they are `==`, and `partial_cmp` says the same as `cmp`. -/
theorem C79_ord_meaning (vcmp : V → V → Ordering) (a b : RangeMap K V) (s t : RangeSet K) :
    (testOrd vcmp a b = .ok () ↔ (a.cmp vcmp b = .eq ↔ a.eq b = true) ∧
      a.partialCmp (fun x y => some (vcmp x y)) b = some (a.cmp vcmp b)) ∧
    (RangeSet.testOrd s t = .ok () ↔ (s.cmp t = .eq ↔ s.eq t = true) ∧
      s.partialCmp t = some (s.cmp t)) :=
  ⟨PropTest.ord_ok_iff, PropTest.ord_ok_iff⟩

example := C79_ord_meaning (K := Nat) (V := Char) compare Demo.map Demo.map' Demo.set Demo.set'

/-- **C79** The comparison of the items of a set in `test_iter_reversible` and
`test_overlapping_reversible` compares both ends. -/
theorem C79_set_item_eq (a b : Range K) :
    RangeSet.rangeEq a b = true ↔ (a.start ≤ b.start ∧ b.start ≤ a.start) ∧
      a.stop ≤ b.stop ∧ b.stop ≤ a.stop := by
  simp only [RangeSet.rangeEq, Bool.and_eq_true, keq_iff]

example := C79_set_item_eq (K := Nat) ⟨2, 22⟩ ⟨6, 9⟩

/-! ## The steps of floating point numbers -/

theorem exists_posInf (eb mb : Nat) : ∃ a : NotNan eb mb, a.val = .posInf := by
  have hp : (2 : Nat) ^ (eb + mb) = 2 ^ eb * 2 ^ mb := Nat.pow_add ..
  have hb := Nat.two_pow_pos mb
  have he := Nat.two_pow_pos eb
  have hlt : (2 ^ eb - 1) * 2 ^ mb < 2 ^ (eb + mb) := by
    rw [hp]
    exact Nat.mul_lt_mul_of_pos_right (by omega) hb
  have hn : (NotNan.infinity eb mb).toNat = (2 ^ eb - 1) * 2 ^ mb := by
    simp only [NotNan.infinity, BitVec.toNat_ofNat]
    exact Nat.mod_eq_of_lt (by rw [Nat.pow_succ]; omega)
  have h1 : fExp (NotNan.infinity eb mb) = 2 ^ eb - 1 := by
    rw [fExp, hn, Nat.mod_eq_of_lt hlt, Nat.mul_div_cancel _ hb]
  have h2 : fMant (NotNan.infinity eb mb) = 0 := by
    rw [fMant, hn, Nat.mul_mod_left]
  refine ⟨⟨NotNan.infinity eb mb, by simp [fIsNan, h2]⟩, ?_⟩
  have h3 : fSign (NotNan.infinity eb mb) = false := by
    rw [fSign, hn, decide_eq_false_iff_not]
    omega
  simp [NotNan.val, fVal, h1, h3]

theorem exists_negInf (eb mb : Nat) : ∃ a : NotNan eb mb, a.val = .negInf := by
  have hp : (2 : Nat) ^ (eb + mb) = 2 ^ eb * 2 ^ mb := Nat.pow_add ..
  have hb := Nat.two_pow_pos mb
  have he := Nat.two_pow_pos eb
  have hlt : (2 ^ eb - 1) * 2 ^ mb < 2 ^ (eb + mb) := by
    rw [hp]
    exact Nat.mul_lt_mul_of_pos_right (by omega) hb
  let b : BitVec (eb + mb + 1) := .ofNat _ (2 ^ (eb + mb) + (2 ^ eb - 1) * 2 ^ mb)
  have hn : b.toNat = 2 ^ (eb + mb) + (2 ^ eb - 1) * 2 ^ mb := by
    simp only [b, BitVec.toNat_ofNat]
    exact Nat.mod_eq_of_lt (by rw [Nat.pow_succ]; omega)
  have h1 : fExp b = 2 ^ eb - 1 := by
    rw [fExp, hn, Nat.add_mod_left, Nat.mod_eq_of_lt hlt, Nat.mul_div_cancel _ hb]
  have h2 : fMant b = 0 := by
    rw [fMant, hn, hp, ← Nat.add_mul, Nat.mul_mod_left]
  refine ⟨⟨b, by simp [fIsNan, h2]⟩, ?_⟩
  have h3 : fSign b = true := by
    rw [fSign, hn, decide_eq_true_iff]
    omega
  simp [NotNan.val, fVal, h1, h3]

/-- **C79** `steps_are_reversible` and `steps_move_in_the_right_direction` pass for every finite
number, in both build modes. -/
theorem C79_steps (eb mb : Nat) (heb : 1 ≤ eb) (debug : Bool) (x : NotNan eb mb) :
    x.testReversible debug = .ok () ∧ x.testDirection debug = .ok () := by
  cases hx : x.isFinite with
  | false => simp [NotNan.testReversible, NotNan.testDirection, hx, pure, Except.pure]
  | true =>
    obtain ⟨n, hn⟩ : ∃ n, x.val = .fin n := by
      unfold NotNan.isFinite at hx
      split at hx
      · exact ⟨_, ‹_›⟩
      · cases hx
    obtain ⟨hi, hhi⟩ := exists_posInf eb mb
    obtain ⟨lo, hlo⟩ := exists_negInf eb mb
    have h1 : x < hi := by
      show x.val.lt hi.val = true
      rw [hn, hhi]; rfl
    have h2 : lo < x := by
      show lo.val.lt x.val = true
      rw [hn, hlo]; rfl
    have hL := C34_lawful eb mb heb debug
    obtain ⟨c, d, a1, a2, a3⟩ := (C34_inverse eb mb heb debug x).1 hi h1
    obtain ⟨c', d', b1, b2, b3⟩ := (C34_inverse eb mb heb debug x).2 lo h2
    obtain ⟨e, e1, e2⟩ := hL.addOne x hi h1
    obtain ⟨e', f1, f2⟩ := hL.subOne x lo h2
    simp only [NotNan.steps] at a1 a2 b1 b2 e1 f1
    rw [a1] at e1
    rw [b1] at f1
    cases e1
    cases f1
    simp only [NotNan.testReversible, NotNan.testDirection, hx, if_true, a1, a2, a3, b1, b2, b3,
      bind, Except.bind, check_true, e2.1, f2.1, decide_true, and_self]

/-- **C79** The inputs that `steps_are_reversible` and `steps_move_in_the_right_direction` do not
reject are the numbers strictly between the infinities. -/
theorem C79_steps_inputs (eb mb : Nat) (x : NotNan eb mb) :
    x.isFinite = true ↔ ∃ lo hi : NotNan eb mb, lo < x ∧ x < hi := by
  constructor
  · intro hx
    obtain ⟨n, hn⟩ : ∃ n, x.val = .fin n := by
      unfold NotNan.isFinite at hx
      split at hx
      · exact ⟨_, ‹_›⟩
      · cases hx
    obtain ⟨hi, hhi⟩ := exists_posInf eb mb
    obtain ⟨lo, hlo⟩ := exists_negInf eb mb
    refine ⟨lo, hi, ?_, ?_⟩
    · show lo.val.lt x.val = true
      rw [hn, hlo]; rfl
    · show x.val.lt hi.val = true
      rw [hn, hhi]; rfl
  · rintro ⟨lo, hi, h1, h2⟩
    have h1 : lo.val.lt x.val = true := h1
    have h2 : x.val.lt hi.val = true := h2
    unfold NotNan.isFinite
    cases hx : x.val with
    | fin n => rfl
    | negInf => rw [hx] at h1; cases hl : lo.val <;> simp [hl, FVal.lt] at h1
    | posInf => rw [hx] at h2; cases hl : hi.val <;> simp [hl, FVal.lt] at h2

-- the programs do test something: each can fail on other data
example : (PropTest.reversible (· == ·) Deque.next Deque.next 5 [1, 2]).toOption = none := by rfl
example : (PropTest.hash true 1 2).toOption = none ∧ (PropTest.hash false 1 2).toOption = some () :=
  ⟨rfl, rfl⟩
example : (PropTest.ord true .lt (some .lt)).toOption = none ∧
    (PropTest.ord false .lt (some .gt)).toOption = none ∧
    (PropTest.ord false .lt none).toOption = none := ⟨rfl, rfl, rfl⟩
example : (PropTest.forKeys [1, 2] (fun k => .ok k) fun _ => .ok 1).toOption = none := by rfl
-- the strategies
example : (RangeMap.strategy [((5, 2), 'a'), ((1, 3), 'b')]).toOption.map (·.iter) =
    some [(⟨1, 3⟩, 'b'), (⟨3, 5⟩, 'a')] := by rfl
example : (RangeMap.strategy [((5, 2), 'a'), ((3, 3), 'b')]).toOption.isNone := by rfl
example : (RangeSet.strategy [(5, 2), (3, 3)]).toOption.map (·.iter) = some [⟨2, 5⟩] := by rfl
-- a map that the tests are run on
example : Reachable Demo.map ∧ (Demo.map.testLen 9).toOption = some () ∧
    (Demo.map.testIterReversible 9).toOption = some () ∧
    (Demo.map.testIterReversible 3).toOption = none := ⟨Demo.map_reachable, rfl, rfl, rfl⟩
example : (testArbitrary [((⟨1, 4⟩ : Range Nat), 'a'), (⟨2, 2⟩, 'c'), (⟨3, 6⟩, 'b')]
    [0, 1, 2, 3, 4, 5, 6]).toOption = some () := by rfl
-- inputs the float tests do not reject, and reject
example : NotNan.isFinite (⟨5#8, by decide⟩ : NotNan 3 4) = true ∧
    NotNan.isFinite (⟨0x70#8, by decide⟩ : NotNan 3 4) = false := by decide
-- a draw for a map with touching entries, one of them drawn the wrong way round
example : (3 : Nat) < 8 ∧ Range.strategy (8, 3) = ⟨3, 8⟩ := ⟨by decide, rfl⟩
example : RangeMap.strategy (Demo.map.iter.map fun e => ((e.1.start, e.1.stop), e.2)) =
    .ok Demo.map := C79_strategies_reach_everything.2.1 _ Demo.map_reachable
-- both ends count
example : RangeSet.rangeEq ⟨1, 4⟩ ⟨1, 5⟩ = false ∧ RangeSet.rangeEq ⟨1, 4⟩ ⟨0, 4⟩ = false := by decide


example := C79_set_hash (K := Demo.TagKey) (hk := fun k => [k.n])
  (fun a b h => by
    simp only [keq, Bool.and_eq_true, decide_eq_true_eq] at h
    exact congrArg (fun n => [n]) (Nat.le_antisymm h.1 h.2))
  (fun l => l.length) ⟨⟨[(⟨⟨1, true⟩, ⟨4, false⟩⟩, ())]⟩⟩ ⟨⟨[(⟨⟨1, false⟩, ⟨4, true⟩⟩, ())]⟩⟩
-- single precision
example (x : NotNan 8 23) := C79_steps 8 23 (by decide) true x

end Verif.Props

import Verif.Props.Demo
import Verif.Proof.PropTests
import Verif.Props.IFuzz
import Verif.Props.IBuild
import Verif.Props.ISet

/-!
# C79: the crate's property tests pass on every input (inclusive)
-/
set_option linter.unusedSectionVars false

namespace Verif.Props.Inclusive
open RangeInclusiveMap Spec
variable {K : Type} [LE K] [LT K] [DecidableLE K] [DecidableLT K]
  [Std.IsLinearPreorder K] [Std.LawfulOrderLT K] {V : Type} [BEq V] [PartialEquivBEq V]
  {S : StepFns K}

/-! ## The strategies -/

theorem strategy_le (p : K × K) :
    (RangeInclusive.strategy p).start ≤ (RangeInclusive.strategy p).stop ∧
    (RangeInclusive.strategy p).exhausted = false := by
  unfold RangeInclusive.strategy RangeInclusive.mk'
  split <;> grind

theorem extend_valid_ok (hS : LawfulSteps S) {m : RangeInclusiveMap K V} (hm : ReachableAny S m)
    (items : List (RangeInclusive K × V))
    (hv : ∀ e ∈ items, e.1.start ≤ e.1.stop) : (m.extend S items).2 = .ok () := by
  cases h : (m.extend S items).2 with
  | ok u => rfl
  | error p =>
    obtain ⟨e, he, hle⟩ := (C19_extend_panics_iff hS hm items).1 ⟨p, h⟩
    have := hv e he
    exfalso
    grind

/-- **C79** The strategy for `RangeInclusiveMap` never panics, and makes maps that can be built by
the API from ranges that are not `exhausted`. -/
theorem C79_map_strategy (hS : LawfulSteps S) (items : List ((K × K) × V)) :
    ∃ m, RangeInclusiveMap.strategy S items = .ok m ∧ Reachable S m := by
  have h := extend_valid_ok hS (Reachable.new (K := K) (V := V) (S := S)).any
    (items.map fun e => (RangeInclusive.strategy e.1, e.2)) (fun e he => by
      obtain ⟨p, _, rfl⟩ := List.mem_map.1 he
      exact (strategy_le p.1).1)
  have hm : RangeInclusiveMap.strategy S items = .ok ((new : RangeInclusiveMap K V).extend S
      (items.map fun e => (RangeInclusive.strategy e.1, e.2))).1 :=
    ((C19_from_iter_from_array _).2.1 _).2 (Prod.ext rfl h)
  refine ⟨_, hm, ?_⟩
  have := Reachable.apply (Reachable.new (K := K) (V := V) (S := S))
    (.extend (items.map fun e => (RangeInclusive.strategy e.1, e.2))) (by
      intro r hr
      simp only [Op.inserted, List.map_map, List.mem_map, Function.comp] at hr
      obtain ⟨e, _, rfl⟩ := hr
      exact (strategy_le e.1).2)
  simpa [RangeInclusiveMap.apply] using this

example := Inclusive.C79_map_strategy (K := UIntW 8) (V := Char) (S := Demo.u8) Demo.u8_lawful
    [((⟨2⟩, ⟨9⟩), 'x'), ((⟨20⟩, ⟨22⟩), 'y')]

/-- **C79** The strategy for `RangeInclusiveSet` likewise. -/
theorem C79_set_strategy (hS : LawfulSteps S) (items : List (K × K)) :
    ∃ s, RangeInclusiveSet.strategy S items = .ok s ∧ RangeInclusiveSet.Reachable S s := by
  obtain ⟨_, h1, h2⟩ := C49_from_iter hS (items.map RangeInclusive.strategy)
  cases h : RangeInclusiveSet.strategy S items with
  | ok s =>
    refine ⟨s, rfl, (h2 (fun r hr => ?_) s h).1⟩
    obtain ⟨p, _, rfl⟩ := List.mem_map.1 hr
    exact (strategy_le p).2
  | error p =>
    obtain ⟨r, hr, hlt⟩ := h1.1 ⟨p, h⟩
    obtain ⟨q, _, rfl⟩ := List.mem_map.1 hr
    have := (strategy_le q).1
    exfalso
    grind

example := Inclusive.C79_set_strategy (K := UIntW 8) (S := Demo.u8) Demo.u8_lawful
    [(⟨2⟩, ⟨9⟩), (⟨20⟩, ⟨22⟩)]

theorem fromIter_iter (hS : LawfulSteps S) {m : RangeInclusiveMap K V} (hm : Reachable S m) :
    fromIter S m.iter = .ok m := by
  have h := extend_rest hS m.btm [] (by simpa using (hm.wf hS).sc)
  rw [List.nil_append] at h
  simp only [fromIter, RangeInclusiveMap.iter, show (new : RangeInclusiveMap K V) = ⟨[]⟩ from rfl, h]
  rfl

/-- **C79** What the strategies can make.  Two bounds make the range between them, in whichever
order they are drawn, and every map and every set that the API can build is made from some draw. -/
theorem C79_strategies_reach_everything (hS : LawfulSteps S) :
    (∀ a b : K, a < b → RangeInclusive.strategy (a, b) = .mk' a b ∧
      RangeInclusive.strategy (b, a) = .mk' a b) ∧
    (∀ a : K, RangeInclusive.strategy (a, a) = .mk' a a) ∧
    (∀ m : RangeInclusiveMap K V, Reachable S m → RangeInclusiveMap.strategy S
      (m.iter.map fun e => ((e.1.start, e.1.stop), e.2)) = .ok m) ∧
    ∀ s : RangeInclusiveSet K, RangeInclusiveSet.Reachable S s →
      RangeInclusiveSet.strategy S (s.iter.map fun r => (r.start, r.stop)) = .ok s := by
  have h1 : ∀ a b : K, a ≤ b → RangeInclusive.strategy (a, b) = .mk' a b := by
    intro a b h
    have : ¬ b < a := by grind
    simp [RangeInclusive.strategy, this]
  have h1' : ∀ r : RangeInclusive K, r.start ≤ r.stop → r.exhausted = false →
      RangeInclusive.strategy (r.start, r.stop) = r := by
    rintro ⟨a, b, x⟩ h hx
    rw [h1 _ _ h]
    cases hx
    rfl
  refine ⟨fun a b h => ⟨h1 a b (by grind), by simp [RangeInclusive.strategy, h]⟩,
    fun a => h1 a a (by grind), fun m hm => ?_, fun s hs => ?_⟩
  · have hw := hm.wf hS
    rw [RangeInclusiveMap.strategy, List.map_map]
    have : m.iter.map ((fun e : (K × K) × V => (RangeInclusive.strategy e.1, e.2)) ∘
        fun e : RangeInclusive K × V => ((e.1.start, e.1.stop), e.2)) = m.iter := by
      conv => rhs; rw [← List.map_id m.iter]
      refine List.map_congr_left fun e he => ?_
      simp only [Function.comp, h1' _ (hw.sep.ne e he) (hw.fresh e he), id]
    rw [this, fromIter_iter hS hm]
  · obtain ⟨g1, _⟩ := (RangeInclusiveSet.reachable_iff hS s).1 hs
    have h2 : (s.iter.map fun r => (r.start, r.stop)).map RangeInclusive.strategy = s.iter := by
      rw [List.map_map]
      conv => rhs; rw [← List.map_id s.iter]
      refine List.map_congr_left fun r hr => ?_
      simp only [Function.comp, h1' _ (g1 r hr).1 (g1 r hr).2, id]
    have h4 : (s.iter.map fun r => (r, ())) = s.rm.btm := by
      simp only [RangeInclusiveSet.iter, RangeInclusiveMap.iter, List.map_map]
      exact List.map_id _
    have h5 := RangeInclusiveMap.extend_rest hS s.rm.btm [] (by simpa using (hs.wf hS).sc)
    rw [List.nil_append] at h5
    simp only [RangeInclusiveSet.strategy, h2, RangeInclusiveSet.fromIter,
      RangeInclusiveSet.extend_rm, h4,
      show (RangeInclusiveSet.new : RangeInclusiveSet K).rm = ⟨[]⟩ from rfl, h5]
    rfl

/-! ## `RangeInclusiveMap` -/

/-- **C79** `test_len` passes. -/
theorem C79_map_len (m : RangeInclusiveMap K V) :
    ∃ n, ∀ fuel, n ≤ fuel → m.testLen fuel = .ok () := by
  refine ⟨m.iter.length + 1, fun fuel hf => ?_⟩
  have h1 := drain_of_script (fun n => C46_iter_double_ended m (List.replicate n .front)) hf
  have h2 := drain_of_script (fun n => C46_iter_double_ended m.clear (List.replicate n .front))
    (fuel := fuel) (by simp only [clear, RangeInclusiveMap.iter, List.length_nil]; omega)
  have h3 : (m.isEmpty == (m.len == 0)) = true := by
    unfold isEmpty len
    cases m.btm <;> rfl
  simp only [testLen, h1, h2, h3, bind, Except.bind, check_true,
    show (m.len == m.iter.length) = true from BEq.rfl]
  rfl

example := Inclusive.C79_map_len (K := UIntW 8) (V := Char) Demo.imap

/-- **C79** `test_iter_reversible` and `test_into_iter_reversible` pass for all maps whose values are
`==` to themselves (and only for those: the test compares the values). -/
theorem C79_map_iter_reversible (m : RangeInclusiveMap K V) : ∃ n, ∀ fuel, n ≤ fuel →
    (m.testIterReversible fuel = .ok () ↔ ∀ e ∈ m.iter, (e.2 == e.2) = true) := by
  refine ⟨m.iter.length + 1, fun fuel hf => ?_⟩
  rw [testIterReversible, PropTest.reversible_iff (C46_iter_double_ended m) hf]
  have hk : ∀ k : K, keq k k = true := fun k => keq_iff.2 ⟨by grind, by grind⟩
  simp [entryEq, hk]

example := Inclusive.C79_map_iter_reversible (K := UIntW 8) (V := Char) Demo.imap

/-- **C79** `test_overlapping_reversible` passes, likewise. -/
theorem C79_map_overlapping_reversible (hS : LawfulSteps S) {m : RangeInclusiveMap K V}
    (hm : ReachableAny S m) (q : RangeInclusive K) :
    ∃ n, ∀ fuel, n ≤ fuel → (m.testOverlappingReversible fuel q = .ok () ↔
      ∀ e ∈ m.iter, q.start ≤ e.1.stop → e.1.start ≤ q.stop → (e.2 == e.2) = true) := by
  obtain ⟨o, h1, _⟩ := C14_overlapping_double_ended_inclusive hS hm q []
  have h2 := fun cs => C14_overlapping_double_ended_inclusive hS hm q cs
  simp only [h1, Except.ok.injEq, exists_eq_left'] at h2
  refine ⟨(m.iter.filter fun e => decide (q.start ≤ e.1.stop) &&
    decide (e.1.start ≤ q.stop)).length + 1, fun fuel hf => ?_⟩
  simp only [testOverlappingReversible, h1, bind, Except.bind]
  rw [PropTest.reversible_iff h2 hf]
  have hk : ∀ k : K, keq k k = true := fun k => keq_iff.2 ⟨by grind, by grind⟩
  simp only [entryEq, hk, Bool.and_self, Bool.true_and, List.mem_filter, Bool.and_eq_true,
    decide_eq_true_eq, BEq.rfl]
  grind

example := Inclusive.C79_map_overlapping_reversible (K := UIntW 8) (V := Char) (S := Demo.u8)
    Demo.u8_lawful (m := Demo.imap) Demo.imap_reachable.any (Demo.by8 2 22)

/-- **C79** `test_arbitrary_map_u8` passes on all the entries proptest can generate (bounds in
order): the value of every key is that of the last range that contains it. -/
theorem C79_map_arbitrary [ReflBEq V] (hS : LawfulSteps S) (ranges : List (RangeInclusive K × V))
    (hv : ∀ e ∈ ranges, e.1.start ≤ e.1.stop) (hx : ∀ e ∈ ranges, e.1.exhausted = false)
    (values : List K) : testArbitrary S ranges values = .ok () := by
  have hv' : ∀ e ∈ ranges.filter fun e => !keq e.1.start e.1.stop, e.1.start ≤ e.1.stop :=
    fun e he => hv e (List.mem_filter.1 he).1
  have hx' : ∀ e ∈ ranges.filter fun e => !keq e.1.start e.1.stop, e.1.exhausted = false :=
    fun e he => hx e (List.mem_filter.1 he).1
  have h := fun k => C19_extend_last_wins hS (Reachable.new (K := K) (V := V)) _ hv' hx' k
  have hok := extend_valid_ok hS (Reachable.new (K := K) (V := V) (S := S)).any _ hv'
  simp only [testArbitrary, foldlM_extend, hok, Except.map, bind, Except.bind]
  refine PropTest.forKeys_ok fun k => ?_
  obtain ⟨_, o, o', h1, h2, h3⟩ := h k
  cases (show o' = none from (Except.ok.inj h2).symm)
  refine ⟨_, _, h1, rfl, ?_⟩
  have hc : ((ranges.filter fun e => !keq e.1.start e.1.stop).reverse.find?
        fun e => e.1.contains k) =
      (ranges.filter fun e => !keq e.1.start e.1.stop).reverse.find? fun e => icovers e.1 k := by
    apply find?_congr
    intro e he
    simp [RangeInclusive.contains, icovers, hx' e (List.mem_reverse.1 he)]
  rw [hc]
  revert h3
  generalize List.find? _ _ = f
  cases f <;> cases o <;> simp [Agree]
  rintro (rfl | h)
  · exact BEq.rfl
  · exact h
where
  find?_congr {α : Type} {p q : α → Bool} {l : List α} (h : ∀ a ∈ l, p a = q a) :
      l.find? p = l.find? q := by
    induction l with
    | nil => rfl
    | cons a t ih =>
      rw [List.find?_cons, List.find?_cons, h a (by simp), ih fun b hb => h b (by simp [hb])]

example := Inclusive.C79_map_arbitrary (K := UIntW 8) (V := Char) (S := Demo.u8) Demo.u8_lawful
    Demo.iitems (by decide) (by decide) [⟨3⟩, ⟨8⟩]

/-- **C79** `test_hash` passes, whatever the hasher makes of what is written to it, for key and value
types whose own `Hash` agrees with their `==`. -/
theorem C79_map_hash {H F : Type} [DecidableEq F] {hk : K → List H} {hv : V → List H}
    (hkc : ∀ a b, keq a b = true → hk a = hk b) (hvc : ∀ a b, (a == b) = true → hv a = hv b)
    (finish : List (HashToken H) → F) (left right : RangeInclusiveMap K V) :
    testHash hk hv finish left right = .ok () :=
  PropTest.hash_ok fun h => by rw [C17_hash_eq hkc hvc h]

example := Inclusive.C79_map_hash (K := Demo.TagKey) (V := Nat) (H := Nat) (F := Nat)
    (hk := fun k => [k.n]) (hv := fun v => [v])
    (fun _ _ h => congrArg (fun n => [n]) (Nat.le_antisymm (keq_iff.1 h).1 (keq_iff.1 h).2))
    (fun _ _ h => by simp_all) List.length Inclusive.tagA Inclusive.tagB

/-- **C79** `test_ord` passes, for value types whose `Ord` agrees with their `==`. -/
theorem C79_map_ord (hS : LawfulSteps S) {vcmp : V → V → Ordering}
    (hv : ∀ a b, vcmp a b = .eq ↔ (a == b) = true) {left right : RangeInclusiveMap K V}
    (hl : Reachable S left) (hr : Reachable S right) : testOrd vcmp left right = .ok () :=
  PropTest.ord_ok (C18_cmp_eq_iff hS hv hl hr) (C18_partial_cmp vcmp left right)

example := Inclusive.C79_map_ord (K := UIntW 8) (V := Char) (S := Demo.u8) Demo.u8_lawful
    (vcmp := compare) (fun a b => by simp [Std.LawfulEqCmp.compare_eq_iff_eq]) (left := Demo.imap)
    (right := Demo.imap') Demo.imap_reachable Demo.imap'_reachable

/-! ## `RangeInclusiveSet` -/

/-- **C79** `test_len` passes. -/
theorem C79_set_len (s : RangeInclusiveSet K) :
    ∃ n, ∀ fuel, n ≤ fuel → s.testLen fuel = .ok () := by
  refine ⟨s.iter.length + 1, fun fuel hf => ?_⟩
  have h1 := drain_of_script (fun n => (C48_iter s (List.replicate n .front)).1) hf
  have h2 := drain_of_script (fun n => (C48_iter s.clear (List.replicate n .front)).1)
    (fuel := fuel) (by simp only [RangeInclusiveSet.iter, RangeInclusiveSet.clear, clear,
      RangeInclusiveMap.iter, List.map_nil, List.length_nil]; omega)
  obtain ⟨_, _, h3, _⟩ := C48_iter s []
  have h4 : (s.isEmpty == (s.len == 0)) = true := by
    unfold RangeInclusiveSet.isEmpty RangeInclusiveSet.len isEmpty len
    cases s.rm.btm <;> rfl
  simp only [RangeInclusiveSet.testLen, h1, h2, h4, bind, Except.bind, check_true, ← h3, BEq.rfl]
  rfl

example := Inclusive.C79_set_len (K := UIntW 8) Demo.iset

theorem rangeEq_self (r : RangeInclusive K) : RangeInclusiveSet.rangeEq r r = true := by
  have hk : ∀ k : K, keq k k = true := fun k => keq_iff.2 ⟨by grind, by grind⟩
  simp [RangeInclusiveSet.rangeEq, hk]

/-- **C79** `test_iter_reversible` and `test_into_iter_reversible` pass. -/
theorem C79_set_iter_reversible (s : RangeInclusiveSet K) : ∃ n, ∀ fuel, n ≤ fuel →
    s.testIterReversible fuel = .ok () :=
  ⟨s.iter.length + 1, fun _ hf =>
    (PropTest.reversible_iff (fun cs => (C48_iter s cs).1) hf).2 fun r _ => rangeEq_self r⟩

example := Inclusive.C79_set_iter_reversible (K := UIntW 8) Demo.iset

/-- **C79** `test_overlapping_reversible` passes. -/
theorem C79_set_overlapping_reversible (hS : LawfulSteps S) {s : RangeInclusiveSet K}
    (hs : RangeInclusiveSet.ReachableAny S s) (q : RangeInclusive K) :
    ∃ n, ∀ fuel, n ≤ fuel → s.testOverlappingReversible fuel q = .ok () := by
  obtain ⟨o, h1, _⟩ := C48_overlapping hS hs q []
  have h2 : ∀ cs, _ := fun cs => C48_overlapping hS hs q cs
  simp only [h1, Except.ok.injEq, exists_eq_left'] at h2
  refine ⟨(s.iter.filter fun r => decide (q.start ≤ r.stop) &&
    decide (r.start ≤ q.stop)).length + 1, fun fuel hf => ?_⟩
  simp only [RangeInclusiveSet.testOverlappingReversible, h1, bind, Except.bind]
  exact (PropTest.reversible_iff (fun cs => (h2 cs).1) hf).2 fun r _ => rangeEq_self r

example := Inclusive.C79_set_overlapping_reversible (K := UIntW 8) (S := Demo.u8) Demo.u8_lawful
    (s := Demo.iset) Demo.iset_reachable.any (Demo.by8 2 22)

/-- **C79** `test_first` and `test_last` pass. -/
theorem C79_set_first_last (hS : LawfulSteps S) {s : RangeInclusiveSet K}
    (hs : RangeInclusiveSet.Reachable S s) :
    ∃ n, ∀ fuel, n ≤ fuel → s.testFirstLast fuel = .ok () := by
  refine ⟨s.iter.length + 1, fun fuel hf => ?_⟩
  have h1 := drain_of_script (fun n => (C48_iter s (List.replicate n .front)).1) hf
  obtain ⟨_, _, _, _, h2, h3⟩ := C48_iter s []
  obtain ⟨hne, hpw⟩ := (C36_reachable_iff hS s).1 hs
  have hp : s.iter.Pairwise fun x y => x.start < y.start ∧ x.stop < y.stop := by
    refine List.Pairwise.imp_of_mem ?_ hpw
    intro a b ha hb h
    have := (hne a ha).1
    have := (hne b hb).1
    have := h.1
    grind
  simp only [RangeInclusiveSet.testFirstLast, h1, h2, h3, bind, Except.bind,
    minByKey_sorted (hp.imp fun h => h.1), maxByKey_sorted (hp.imp fun h => h.2)]
  cases s.iter.head? <;> cases s.iter.getLast? <;>
    simp [rangeEq_self, pure, Except.pure]

example := Inclusive.C79_set_first_last (K := UIntW 8) (S := Demo.u8) Demo.u8_lawful
    (s := Demo.iset) Demo.iset_reachable

/-- **C79** `test_arbitrary_set_u8` passes on all the ranges proptest can generate. -/
theorem C79_set_arbitrary (hS : LawfulSteps S) (ranges : List (RangeInclusive K))
    (hv : ∀ r ∈ ranges, r.start ≤ r.stop) (hx : ∀ r ∈ ranges, r.exhausted = false)
    (values : List K) : RangeInclusiveSet.testArbitrary S ranges values = .ok () := by
  obtain ⟨h1, h2, h3⟩ := C49_from_iter hS (ranges.filter fun r => !keq r.start r.stop)
  cases h : (RangeInclusiveSet.fromArray S (ranges.filter fun r => !keq r.start r.stop)) with
  | error p =>
    obtain ⟨r, hr, hle⟩ := h2.1 ⟨p, h1.trans h⟩
    have := hv r (List.mem_filter.1 hr).1
    exfalso
    grind
  | ok s =>
    have hx' : ∀ r ∈ ranges.filter fun r => !keq r.start r.stop, r.exhausted = false :=
      fun e he => hx e (List.mem_filter.1 he).1
    have h4 := (h3 hx' s (h1.trans h)).2
    rw [RangeInclusiveSet.fromArray] at h
    simp only [RangeInclusiveSet.testArbitrary, h, bind, Except.bind]
    refine PropTest.forKeys_ok fun k => ⟨_, _, h4 k, rfl, ?_⟩
    rw [beq_iff_eq, Bool.eq_iff_iff, List.any_eq_true, List.any_eq_true]
    constructor <;> rintro ⟨r, hr, h5⟩ <;> refine ⟨r, hr, ?_⟩ <;>
      simpa [RangeInclusive.contains, hx' r hr] using h5

example := Inclusive.C79_set_arbitrary (K := UIntW 8) (S := Demo.u8) Demo.u8_lawful
    [Demo.by8 2 9, Demo.by8 20 22] (by decide) (by decide) [⟨3⟩, ⟨8⟩]

/-- **C79** `test_hash` passes. -/
theorem C79_set_hash {H F : Type} [DecidableEq F] {hk : K → List H}
    (hkc : ∀ a b, keq a b = true → hk a = hk b)
    (finish : List (HashToken H) → F) (left right : RangeInclusiveSet K) :
    RangeInclusiveSet.testHash hk finish left right = .ok () :=
  PropTest.hash_ok fun h => by
    rw [(C50_comparison left right left).2.2.2.2.2.2 H hk hkc h]

/-- **C79** `test_ord` passes. -/
theorem C79_set_ord (hS : LawfulSteps S) {left right : RangeInclusiveSet K}
    (hl : RangeInclusiveSet.Reachable S left) (hr : RangeInclusiveSet.Reachable S right) :
    RangeInclusiveSet.testOrd left right = .ok () :=
  PropTest.ord_ok (C50_cmp_eq_iff hS hl hr) (C50_comparison left right left).2.2.2.2.2.1

example := Inclusive.C79_set_ord (K := UIntW 8) (S := Demo.u8) Demo.u8_lawful
    (left := Demo.iset) (right := Demo.iset') Demo.iset_reachable Demo.iset'_reachable

/-- **C79** `test_union_contains_u8` passes. -/
theorem C79_union_contains (hS : LawfulSteps S) {a b : RangeInclusiveSet K}
    (ha : RangeInclusiveSet.Reachable S a) (hb : RangeInclusiveSet.Reachable S b)
    (values : List K) : a.testUnionContains S b values = .ok () := by
  obtain ⟨c, h1, _, h2⟩ := C39_bitor hS ha hb
  simp only [RangeInclusiveSet.testUnionContains, h1, bind, Except.bind]
  refine PropTest.forKeys_ok fun k => ?_
  obtain ⟨x, y, g1, g2, g3⟩ := h2 k
  refine ⟨_, x || y, g3, ?_, BEq.rfl⟩
  cases x <;> simp [g1, g2, pure, Except.pure]

example := Inclusive.C79_union_contains (K := UIntW 8) (S := Demo.u8) Demo.u8_lawful
    (a := Demo.iset) (b := Demo.iset') Demo.iset_reachable Demo.iset'_reachable [⟨3⟩, ⟨8⟩]

/-- **C79** `test_intersection_contains_u8` passes. -/
theorem C79_intersection_contains (hS : LawfulSteps S) {a b : RangeInclusiveSet K}
    (ha : RangeInclusiveSet.Reachable S a) (hb : RangeInclusiveSet.Reachable S b)
    (values : List K) : a.testIntersectionContains S b values = .ok () := by
  obtain ⟨c, h1, _, _, h2⟩ := C39_bitand hS ha hb
  simp only [RangeInclusiveSet.testIntersectionContains, h1, bind, Except.bind]
  refine PropTest.forKeys_ok fun k => ?_
  obtain ⟨x, y, g1, g2, g3⟩ := h2 k
  refine ⟨_, x && y, g3, ?_, BEq.rfl⟩
  cases x <;> simp [g1, g2, pure, Except.pure]

example := Inclusive.C79_intersection_contains (K := UIntW 8) (S := Demo.u8) Demo.u8_lawful
    (a := Demo.iset) (b := Demo.iset') Demo.iset_reachable Demo.iset'_reachable [⟨3⟩, ⟨8⟩]

/-- **C79** What `test_hash` tests: it passes for two given containers exactly when they are not
`==` or their hashes are the same. -/
theorem C79_hash_meaning {H F : Type} [DecidableEq F] (hk : K → List H) (hv : V → List H)
    (finish : List (HashToken H) → F) (a b : RangeInclusiveMap K V) (s t : RangeInclusiveSet K) :
    (testHash hk hv finish a b = .ok () ↔
      (a.eq b = true → finish (a.hash hk hv) = finish (b.hash hk hv))) ∧
    (RangeInclusiveSet.testHash hk finish s t = .ok () ↔
      (s.eq t = true → finish (s.hash hk) = finish (t.hash hk))) :=
  ⟨PropTest.hash_ok_iff, PropTest.hash_ok_iff⟩

example := Inclusive.C79_hash_meaning (K := UIntW 8) (V := Char) (H := Nat) (F := Nat)
    (fun _ => [1]) (fun _ => [2]) (fun l => l.length) Demo.imap Demo.imap' Demo.iset Demo.iset'

/-- **C79** What `test_ord` tests: it passes for two given containers exactly when `cmp` says
`Equal` just if they are `==`, and `partial_cmp` says the same as `cmp`. -/
theorem C79_ord_meaning (vcmp : V → V → Ordering) (a b : RangeInclusiveMap K V)
    (s t : RangeInclusiveSet K) :
    (testOrd vcmp a b = .ok () ↔ (a.cmp vcmp b = .eq ↔ a.eq b = true) ∧
      a.partialCmp (fun x y => some (vcmp x y)) b = some (a.cmp vcmp b)) ∧
    (RangeInclusiveSet.testOrd s t = .ok () ↔ (s.cmp t = .eq ↔ s.eq t = true) ∧
      s.partialCmp t = some (s.cmp t)) :=
  ⟨PropTest.ord_ok_iff, PropTest.ord_ok_iff⟩

example := Inclusive.C79_ord_meaning (K := UIntW 8) (V := Char) compare Demo.imap Demo.imap'
    Demo.iset Demo.iset'

/-- **C79** The comparison of the items of a set in `test_iter_reversible`,
`test_overlapping_reversible`, `test_first` and `test_last` compares both ends and the flag. -/
theorem C79_set_item_eq (a b : RangeInclusive K) :
    RangeInclusiveSet.rangeEq a b = true ↔ (a.start ≤ b.start ∧ b.start ≤ a.start) ∧
      (a.stop ≤ b.stop ∧ b.stop ≤ a.stop) ∧ a.exhausted = b.exhausted := by
  simp only [RangeInclusiveSet.rangeEq, Bool.and_eq_true, keq_iff, beq_iff_eq, and_assoc]

-- the strategy: equal bounds are one key
example : (Demo.by8 3 8).start < (Demo.by8 3 8).stop ∧
    RangeInclusive.strategy (⟨8⟩, ⟨3⟩) = (Demo.by8 3 8) := ⟨by decide, rfl⟩
example : RangeInclusiveMap.strategy Demo.u8
    (Demo.imap.iter.map fun e => ((e.1.start, e.1.stop), e.2)) = .ok Demo.imap :=
  (C79_strategies_reach_everything Demo.u8_lawful).2.2.1 _ Demo.imap_reachable
example : (RangeInclusiveMap.strategy (V := Char) Demo.u8
    [((⟨5⟩, ⟨2⟩), 'a'), ((⟨3⟩, ⟨3⟩), 'b')]).toOption.map (·.iter) =
    some [(.mk' ⟨2⟩ ⟨2⟩, 'a'), (.mk' ⟨3⟩ ⟨3⟩, 'b'), (.mk' ⟨4⟩ ⟨5⟩, 'a')] := by rfl
-- a map and sets that the tests are run on
example : Reachable Demo.u8 Demo.imap ∧ (Demo.imap.testLen 9).toOption = some () ∧
    (Demo.imap.testIterReversible 9).toOption = some () := ⟨Demo.imap_reachable, rfl, rfl⟩
example : (testArbitrary (V := Char) Demo.u8
    [(.mk' ⟨1⟩ ⟨4⟩, 'a'), (.mk' ⟨2⟩ ⟨2⟩, 'c'), (.mk' ⟨3⟩ ⟨6⟩, 'b')]
    [⟨0⟩, ⟨1⟩, ⟨2⟩, ⟨3⟩, ⟨6⟩, ⟨7⟩]).toOption = some () := by rfl
-- with an exhausted range `test_ord` fails (C41)
example : (testOrd (V := Char) compare
    ⟨[((⟨⟨1⟩, ⟨4⟩, true⟩ : RangeInclusive (UIntW 8)), 'a')]⟩
    ⟨[(⟨⟨1⟩, ⟨4⟩, false⟩, 'a')]⟩).toOption = none := by rfl


example := C79_set_hash (K := UIntW 8) (hk := fun k => [k.bits])
  (fun a b h => by
    obtain rfl := Demo.u8_antisymm a b (keq_iff.1 h).1 (keq_iff.1 h).2
    rfl)
  (fun l => l.length) Demo.iset Demo.iset'

end Verif.Props.Inclusive

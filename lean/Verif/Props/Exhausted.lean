import Verif.Props.Demo
import Verif.Props.IIter
import Verif.Props.IBuild

/-!
# C41: `RangeInclusive` arguments whose hidden `exhausted` flag is set

std sets the flag when a range has been iterated to its end; `for x in &mut r {}` leaves `r` with
`start == end` and the flag set.  `insert` accepts such a range, since it only asserts
`start <= end`.
-/
set_option linter.unusedSectionVars false

namespace Verif.Props.Inclusive
open RangeInclusiveMap Spec
variable {K : Type} [LE K] [LT K] [DecidableLE K] [DecidableLT K]
  [Std.IsLinearPreorder K] [Std.LawfulOrderLT K] {V : Type} [BEq V] [PartialEquivBEq V]
  {S : StepFns K}

/-- **C41** What `get_key_value` returns whatever the history: the entry containing the key, unless
the key is the end of an exhausted entry. -/
theorem C41_get_key_value_any (hS : LawfulSteps S) {m : RangeInclusiveMap K V}
    (hm : ReachableAny S m) (k : K) (e : RangeInclusive K × V) :
    m.getKeyValue k = .ok (some e) ↔ e ∈ m.iter ∧ e.1.start ≤ k ∧ k ≤ e.1.stop ∧
      (e.1.exhausted = true → k < e.1.stop) := by
  have h := (hm.sc hS).sep
  unfold getKeyValue
  rw [BTreeMap.range_ok rfl]
  simp only [Bound.admitsAsLower, Bound.admitsAsUpper, Bool.true_and, RangeInclusiveMap.iter,
    bind, Except.bind, pure, Except.pure, Except.ok.injEq]
  cases hl : (m.btm.filter fun e => decide (e.1.start ≤ k)).getLast? with
  | none =>
    rw [BTreeMap.getLast?_filter_eq_none] at hl
    have := hl e
    grind
  | some x =>
    obtain ⟨hx, hp, hlast⟩ := BTreeMap.getLast?_filter_eq_some h.pw hl
    have := hlast e
    have := h.ne e
    have hu := fun he => h.unique (k := k) (a := x) (b := e) hx he
    simp only [Option.filter_eq_some_iff, RangeInclusive.contains, Bool.and_eq_true,
      decide_eq_true_eq]
    grind [Before]

example := Inclusive.C41_get_key_value_any (K := UIntW 8) (V := Char) (S := Demo.u8)
    Demo.u8_lawful (m := Demo.imap) Demo.imap_reachable.any ⟨7⟩ (Demo.by8 5 15, 'a')

/-- **C41** Inserting an exhausted range succeeds and stores it, but its end key is not found by
`get`/`contains_key`, although `overlaps` and `gaps` treat it as covered. -/
theorem C41_end_key_lost (hS : LawfulSteps S) (r : RangeInclusive K) (v : V)
    (hr : r.start ≤ r.stop) (hx : r.exhausted = true) :
    ∃ m : RangeInclusiveMap K V, (new : RangeInclusiveMap K V).insert S r v = .ok m ∧
      m.iter = [(r, v)] ∧
      m.get r.stop = .ok none ∧ m.containsKey r.stop = .ok false ∧
      m.overlaps (.mk' r.stop r.stop) = .ok true ∧
      ∃ g, m.gaps (.mk' r.stop r.stop) = .ok g ∧ YieldsE (Gaps.next S) g [] := by
  have hm : (new : RangeInclusiveMap K V).insert S r v = .ok ⟨[(r, v)]⟩ := by
    have : SC ([] ++ [(r, v)]) := by
      refine ⟨⟨by simp, by simpa using hr⟩, ?_⟩
      intro a ha b hb hn
      simp only [List.nil_append, List.mem_singleton] at ha hb
      subst ha hb
      have := hn.1
      exfalso
      grind
    exact insert_append hS this
  have hany : ReachableAny S (⟨[(r, v)]⟩ : RangeInclusiveMap K V) :=
    ⟨[.insert r v], by simp [run, RangeInclusiveMap.apply, hm]⟩
  obtain ⟨o, h1, h2, h3⟩ := C30_projections (⟨[(r, v)]⟩ : RangeInclusiveMap K V) r.stop
  have ho : o = none := by
    cases o with
    | none => rfl
    | some e =>
      have := (C41_get_key_value_any hS hany r.stop e).1 h1
      simp only [RangeInclusiveMap.iter, List.mem_singleton] at this
      obtain ⟨rfl, _, _, h⟩ := this
      have := h hx
      grind
  subst ho
  refine ⟨_, hm, rfl, h2, h3, ?_, ?_⟩
  · obtain ⟨b, h4, h5⟩ := C32_overlaps hS hany (.mk' r.stop r.stop)
    rw [h4, h5.2 ⟨(r, v), by simp [RangeInclusiveMap.iter], by simp, hr⟩]
  · obtain ⟨g, l, g1, g2, g3⟩ := C31_gaps_exact_any hS hany (.mk' r.stop r.stop)
    obtain ⟨g', l', g1', g2', g3', _⟩ := C31_gaps_ordered hS hany (.mk' r.stop r.stop)
    rw [g1] at g1'
    cases g1'
    refine ⟨g, g1, ?_⟩
    cases l' with
    | nil => exact g2'
    | cons x t =>
      exfalso
      have e : l = x :: t := by
        have h1 := YieldsE.drain g2 (fuel := l.length + (x :: t).length + 1) (by omega)
        rw [YieldsE.drain g2' (by omega)] at h1
        cases h1
        rfl
      subst e
      have a1 := g3' x (by simp)
      have a2 := (g3 x.start).1 ⟨x, by simp, by grind, a1.1⟩
      simp only [RangeInclusive.mk'_start, RangeInclusive.mk'_stop] at a1 a2
      exact a2.2.2 (r, v) (by simp [RangeInclusiveMap.iter]) (by grind)

example := Inclusive.C41_end_key_lost (K := UIntW 8) (V := Char) (S := Demo.u8) Demo.u8_lawful
    ⟨⟨2⟩, ⟨22⟩, true⟩ 'q' (by decide) (by decide)

/-- **C41** Two maps that differ only in the flag are `!=` although `cmp` says `Equal`. -/
theorem C41_eq_disagrees_with_cmp (hS : LawfulSteps S) (a b : K) (v : V) (hab : a ≤ b)
    (vcmp : V → V → Ordering) (hv : vcmp v v = .eq) :
    ∃ m m' : RangeInclusiveMap K V,
      (new : RangeInclusiveMap K V).insert S ⟨a, b, true⟩ v = .ok m ∧
      (new : RangeInclusiveMap K V).insert S ⟨a, b, false⟩ v = .ok m' ∧
      m.eq m' = false ∧ m.cmp vcmp m' = .eq := by
  have hins : ∀ x, (new : RangeInclusiveMap K V).insert S ⟨a, b, x⟩ v =
      .ok ⟨[(⟨a, b, x⟩, v)]⟩ := by
    intro x
    refine insert_append hS (l := []) (e := (⟨a, b, x⟩, v)) ⟨⟨by simp, by simpa using hab⟩, ?_⟩
    intro c hc d hd hn
    simp only [List.nil_append, List.mem_singleton] at hc hd
    subst hc hd
    have := hn.1
    exfalso
    grind
  refine ⟨_, _, hins true, hins false, ?_, ?_⟩
  · simp [RangeInclusiveMap.eq, RangeInclusiveMap.iter, iterEq, entryEq]
  · have : kcmp a a = .eq ∧ kcmp b b = .eq := by
      constructor <;> · unfold kcmp; grind
    simp [RangeInclusiveMap.cmp, RangeInclusiveMap.expandedIter, iterCmp, tripleCmp, this, hv]

example := Inclusive.C41_eq_disagrees_with_cmp (K := UIntW 8) (V := Char) (S := Demo.u8)
    Demo.u8_lawful ⟨7⟩ ⟨12⟩ 'q' (by decide) compare (by decide)

/-- **C41** Histories that never insert an exhausted range never store one, so that all of
C23–C32, C45–C47 apply to them. -/
theorem C41_no_exhausted_stored (hS : LawfulSteps S) (ops : List (Op (RangeInclusive K) V))
    (hx : ∀ op ∈ ops, ∀ r ∈ op.inserted, r.exhausted = false) :
    Reachable S (run S ops) ∧ ∀ e ∈ (run S ops).iter, e.1.exhausted = false := by
  have : Reachable S (run S ops) := ⟨ops, hx, rfl⟩
  exact ⟨this, C26_not_exhausted hS this⟩

-- `let mut r = 3..=7; for _ in &mut r {}` leaves the exhausted range 7..=7
example : ((new : RangeInclusiveMap (UIntW 8) Char).insert Demo.u8 ⟨⟨7⟩, ⟨7⟩, true⟩
    'a').toOption.map (fun m => (m.iter, (m.get ⟨7⟩).toOption, (m.overlaps (Demo.by8 7 7)).toOption)) =
    some ([(⟨⟨7⟩, ⟨7⟩, true⟩, 'a')], some none, some true) := by rfl

end Verif.Props.Inclusive

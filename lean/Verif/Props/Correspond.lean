import Verif.Props.Demo
import Verif.Props.Map
import Verif.Props.IMap

/-!
# C44: half-open and inclusive maps agree
-/
set_option linter.unusedSectionVars false

namespace Verif.Props
open Spec
variable {K : Type} [LE K] [LT K] [DecidableLE K] [DecidableLT K]
  [Std.IsLinearPreorder K] [Std.LawfulOrderLT K] {V : Type} [BEq V]

/-- The half-open range standing for the same keys as an inclusive range. -/
def half (succ : K → K) (r : RangeInclusive K) : Range K := ⟨r.start, succ r.stop⟩

/-- The same call on a map of the other kind. -/
def halfOp (succ : K → K) : Op (RangeInclusive K) V → Op (Range K) V
  | .insert r v => .insert (half succ r) v
  | .remove r => .remove (half succ r)
  | .clear => .clear
  | .extend items => .extend (items.map fun e => (half succ e.1, e.2))

/-- The ranges a call mentions. -/
def opRanges : Op (RangeInclusive K) V → List (RangeInclusive K)
  | .insert r _ => [r]
  | .remove r => [r]
  | .clear => []
  | .extend items => items.map (·.1)

theorem half_covers {succ : K → K} {r : RangeInclusive K} (h : Next r.stop (succ r.stop)) (k : K) :
    covers (half succ r) k = icovers r k := by
  have h1 := h.1
  have h2 := h.2 k
  unfold covers icovers half
  apply decide_eq_decide.2
  simp only
  grind

theorem half_valid {succ : K → K} {r : RangeInclusive K} (h : Next r.stop (succ r.stop)) :
    valid (half succ r) = ivalid r := by
  have h1 := h.1
  have h2 := h.2 r.start
  unfold valid ivalid half
  apply decide_eq_decide.2
  simp only
  grind

theorem half_takeWhile {succ : K → K} : ∀ (items : List (RangeInclusive K × V)),
    (∀ e ∈ items, Next e.1.stop (succ e.1.stop)) →
    ((items.map fun e => (half succ e.1, e.2)).takeWhile fun e => valid e.1) =
      (items.takeWhile fun e => ivalid e.1).map fun e => (half succ e.1, e.2)
  | [], _ => rfl
  | e :: t, h => by
    have ih := half_takeWhile t fun e he => h e (by simp [he])
    have hv := half_valid (h e (by simp))
    simp only [List.map_cons, List.takeWhile_cons, hv]
    cases ivalid e.1 <;> simp [ih]

theorem half_find {succ : K → K} (k : K) : ∀ (items : List (RangeInclusive K × V)),
    (∀ e ∈ items, Next e.1.stop (succ e.1.stop)) →
    ((items.map fun e => (half succ e.1, e.2)).find? fun e => covers e.1 k) =
      (items.find? fun e => icovers e.1 k).map fun e => (half succ e.1, e.2)
  | [], _ => rfl
  | e :: t, h => by
    have ih := half_find k t fun e he => h e (by simp [he])
    have hv := half_covers (h e (by simp)) k
    simp only [List.map_cons, List.find?_cons, hv]
    cases icovers e.1 k <;> simp [ih]

theorem half_lastWrite {succ : K → K} (k : K) : ∀ (ops : List (Op (RangeInclusive K) V)),
    (∀ op ∈ ops, ∀ r ∈ opRanges op, Next r.stop (succ r.stop)) →
    lastWrite covers valid (ops.map (halfOp succ)) k = lastWrite icovers ivalid ops k
  | [], _ => rfl
  | op :: ops, h => by
    have ih := half_lastWrite k ops fun op hop => h op (by simp [hop])
    have ho := h op (by simp)
    cases op with
    | insert r v =>
      have hr := ho r (by simp [opRanges])
      simp only [List.map_cons, halfOp, lastWrite, half_covers hr, half_valid hr, ih]
    | remove r =>
      have hr := ho r (by simp [opRanges])
      simp only [List.map_cons, halfOp, lastWrite, half_covers hr, half_valid hr, ih]
    | clear => rfl
    | extend items =>
      have hr : ∀ e ∈ items, Next e.1.stop (succ e.1.stop) := fun e he =>
        ho e.1 (by simp only [opRanges, List.mem_map]; exact ⟨e, he, rfl⟩)
      have hr' : ∀ e ∈ (items.takeWhile fun e => ivalid e.1).reverse,
          Next e.1.stop (succ e.1.stop) := by
        intro e he
        rw [List.mem_reverse] at he
        exact hr e ((List.takeWhile_sublist _).subset he)
      simp only [List.map_cons, halfOp, lastWrite, half_takeWhile items hr, ← List.map_reverse,
        half_find k _ hr', ih]
      cases (items.takeWhile fun e => ivalid e.1).reverse.find? fun e => icovers e.1 k <;> rfl

theorem half_wf {succ : K → K} {l : List (RangeInclusive K × V)} (h : RangeInclusiveMap.SC l)
    (hs : ∀ e ∈ l, Next e.1.stop (succ e.1.stop)) :
    RangeMap.WF (l.map fun e => (half succ e.1, e.2)) := by
  refine ⟨⟨?_, ?_⟩, ?_⟩
  · rw [List.pairwise_map]
    refine h.sep.pw.imp_of_mem fun {a b} ha hb hab => ?_
    have h1 := h.sep.ne a ha
    have h2 := h.sep.ne b hb
    have h3 := (hs a ha).2 b.1.start hab.2
    have h4 := hab.2
    refine ⟨?_, h3⟩
    show a.1.start < b.1.start
    grind
  · intro e he
    obtain ⟨a, ha, rfl⟩ := List.mem_map.1 he
    have h1 := h.sep.ne a ha
    have h2 := (hs a ha).1
    show a.1.start < succ a.1.stop
    grind
  · intro x hx y hy h1 h2
    obtain ⟨a, ha, rfl⟩ := List.mem_map.1 hx
    obtain ⟨b, hb, rfl⟩ := List.mem_map.1 hy
    refine h.coal a ha b hb ?_
    have h3 := hs a ha
    simp only [half] at h1 h2
    have h4 := h3.1
    refine ⟨by grind, fun d hd => ?_⟩
    have := h3.2 d hd
    grind

theorem half_maps {succ : K → K} {l : List (RangeInclusive K × V)}
    (hs : ∀ e ∈ l, Next e.1.stop (succ e.1.stop)) (k : K) (w : V) :
    RangeMap.Maps (l.map fun e => (half succ e.1, e.2)) k w ↔ RangeInclusiveMap.Maps l k w := by
  constructor
  · rintro ⟨e, he, h1, h2, h3⟩
    obtain ⟨a, ha, rfl⟩ := List.mem_map.1 he
    have h4 := (hs a ha).2 k
    simp only [half] at h1 h2
    exact ⟨a, ha, h1, by grind, h3⟩
  · rintro ⟨a, ha, h1, h2, h3⟩
    have h4 := (hs a ha).1
    exact ⟨(half succ a.1, a.2), List.mem_map.2 ⟨a, ha, rfl⟩, h1, by simp only [half]; grind, h3⟩

section
variable {S : StepFns K} (hS : LawfulSteps S) {succ : K → K}
  (hsucc : ∀ a b, a < b → Next a (succ a))
include hS hsucc

variable [PartialEquivBEq V]

theorem half_stored (ops : List (Op (RangeInclusive K) V))
    (hx : ∀ op ∈ ops, ∀ r ∈ op.inserted, r.exhausted = false)
    (hn : ∀ op ∈ ops, ∀ r ∈ opRanges op, ∃ b, r.stop < b) :
    ∀ e ∈ (RangeInclusiveMap.run S ops).iter, Next e.1.stop (succ e.1.stop) := by
  intro e he
  have hw : RangeInclusiveMap.WF (RangeInclusiveMap.run S ops).btm :=
    RangeInclusiveMap.Reachable.wf hS ⟨ops, hx, rfl⟩
  have hm : RangeInclusiveMap.Maps (RangeInclusiveMap.run S ops).btm e.1.stop e.2 :=
    ⟨e, he, hw.sep.ne e he, by grind, rfl⟩
  rw [← RangeInclusiveMap.look_eq_some hw] at hm
  have h1 := RangeInclusiveMap.run_look hS ops hx e.1.stop
  have h2 := RangeMap.run_look (ops.map (halfOp succ)) e.1.stop
  rw [← List.map_reverse, half_lastWrite _ _ (by
    intro op hop r hr
    obtain ⟨b, hb⟩ := hn op (List.mem_reverse.1 hop) r hr
    exact hsucc _ b hb)] at h2
  have h3 := RangeMap.Agree.trans h1 (RangeMap.Agree.symm h2)
  rw [hm] at h3
  cases hl : (RangeMap.run (ops.map (halfOp succ))).look e.1.stop with
  | none => simp [hl, Agree] at h3
  | some w =>
    have hw' : RangeMap.WF (RangeMap.run (ops.map (halfOp succ))).btm :=
      RangeMap.Reachable.wf ⟨_, rfl⟩
    obtain ⟨x, _, _, h4, _⟩ := (RangeMap.look_eq_some hw'.sep _ _).1 hl
    exact hsucc _ _ h4

/-- **C44** A history on a `RangeInclusiveMap` (no range ending at the greatest key, and no
exhausted range), and the same history on a `RangeMap` with every `a..=b` replaced by `a..b+1`:
the entries of the former, with every `a..=b` replaced by `a..b+1`, compare `==` to the entries of
the latter. -/
theorem C44_entries_correspond [ReflBEq V] (ops : List (Op (RangeInclusive K) V))
    (hx : ∀ op ∈ ops, ∀ r ∈ op.inserted, r.exhausted = false)
    (hn : ∀ op ∈ ops, ∀ r ∈ opRanges op, ∃ b, r.stop < b) :
    iterEq RangeMap.entryEq
      ((RangeInclusiveMap.run S ops).iter.map fun e => (half succ e.1, e.2))
      (RangeMap.run (ops.map (halfOp succ))).iter = true := by
  have hst := half_stored hS hsucc ops hx hn
  have hw : RangeInclusiveMap.WF (RangeInclusiveMap.run S ops).btm :=
    RangeInclusiveMap.Reachable.wf hS ⟨ops, hx, rfl⟩
  have hw' : RangeMap.WF (RangeMap.run (ops.map (halfOp succ))).btm :=
    RangeMap.Reachable.wf ⟨_, rfl⟩
  have hh := half_wf hw.sc hst
  have : EquivBEq V := {}
  refine (RangeMap.eq_iff_look (m := ⟨_⟩) hh hw').2 fun k => ?_
  have h0 : RangeMap.look ⟨(RangeInclusiveMap.run S ops).btm.map
      fun e => (half succ e.1, e.2)⟩ k = (RangeInclusiveMap.run S ops).look k := by
    cases hl : (RangeInclusiveMap.run S ops).look k with
    | none =>
      rw [RangeMap.look_eq_none (m := ⟨_⟩) hh.sep]
      rw [RangeInclusiveMap.look_eq_none hw] at hl
      exact fun w hm => hl w ((half_maps hst k w).1 hm)
    | some w =>
      rw [RangeMap.look_eq_some (m := ⟨_⟩) hh.sep]
      rw [RangeInclusiveMap.look_eq_some hw] at hl
      exact (half_maps hst k w).2 hl
  rw [h0]
  have h1 := RangeInclusiveMap.run_look hS ops hx k
  have h2 := RangeMap.run_look (ops.map (halfOp succ)) k
  rw [← List.map_reverse, half_lastWrite _ _ (by
    intro op hop r hr
    obtain ⟨b, hb⟩ := hn op (List.mem_reverse.1 hop) r hr
    exact hsucc _ b hb)] at h2
  exact RangeMap.Agree.trans h1 (RangeMap.Agree.symm h2)

/-- **C44** When `==` on keys and values is equality, the entries are the same. -/
theorem C44_entries_equal [LawfulBEq V] (hk : ∀ a b : K, a ≤ b → b ≤ a → a = b)
    (ops : List (Op (RangeInclusive K) V))
    (hx : ∀ op ∈ ops, ∀ r ∈ op.inserted, r.exhausted = false)
    (hn : ∀ op ∈ ops, ∀ r ∈ opRanges op, ∃ b, r.stop < b) :
    (RangeMap.run (ops.map (halfOp succ))).iter =
      (RangeInclusiveMap.run S ops).iter.map fun e => (half succ e.1, e.2) :=
  (iterEq_eq_of_lawful hk (C44_entries_correspond hS hsucc ops hx hn)).symm

/-- **C44** Lookups agree (whatever the value type). -/
theorem C44_lookups_agree (ops : List (Op (RangeInclusive K) V))
    (hx : ∀ op ∈ ops, ∀ r ∈ op.inserted, r.exhausted = false)
    (hn : ∀ op ∈ ops, ∀ r ∈ opRanges op, ∃ b, r.stop < b) (k : K) :
    ∃ o o', (RangeInclusiveMap.run S ops).get k = .ok o ∧
      (RangeMap.run (ops.map (halfOp succ))).get k = .ok o' ∧ Agree o o' := by
  obtain ⟨o, h1, h2⟩ := C25_refinement hS ops hx k
  obtain ⟨o', h3, h4⟩ := C03_refinement (ops.map (halfOp succ)) k
  rw [← List.map_reverse, half_lastWrite _ _ (by
    intro op hop r hr
    obtain ⟨b, hb⟩ := hn op (List.mem_reverse.1 hop) r hr
    exact hsucc _ b hb)] at h4
  exact ⟨o, o', h1, h3, RangeMap.Agree.trans h2 (RangeMap.Agree.symm h4)⟩

end

/-- The history of the example. -/
def corrOps : List (Op (RangeInclusive (UIntW 8)) Char) :=
  [.insert (Demo.by8 0 9) 'a', .insert (Demo.by8 20 254) 'b', .insert (Demo.by8 10 14) 'a',
   .remove (Demo.by8 3 4), .extend [(Demo.by8 25 39, 'c'), (Demo.by8 7 6, 'z')]]

/-- Successor on `u8`, as release builds compute it. -/
def succ8 (a : UIntW 8) : UIntW 8 := ⟨a.bits + 1⟩

example : (RangeInclusiveMap.run Demo.u8 corrOps).iter.map (fun e => (half succ8 e.1, e.2)) =
    (RangeMap.run (corrOps.map (halfOp succ8))).iter ∧
    (RangeInclusiveMap.run Demo.u8 corrOps).iter.length = 5 := by decide +kernel
example : (∀ op ∈ corrOps, ∀ r ∈ op.inserted, r.exhausted = false) ∧
    (∀ op ∈ corrOps, ∀ r ∈ opRanges op, r.stop < (⟨255⟩ : UIntW 8)) := by decide

/-! ### Cases that meet the hypotheses -/

/-- The successor of a key that is not the last one. -/
theorem succ8_next (a b : UIntW 8) (h : a < b) : Next a (succ8 a) := by
  obtain ⟨c, h1, h2⟩ := (UIntW.lawful 8 false).addOne a b h
  obtain rfl : succ8 a = c := Except.ok.inj h1
  exact h2

/-- The ranges of `corrOps` end below the last key. -/
theorem corrOps_below :
    ∀ op ∈ corrOps, ∀ r ∈ opRanges op, ∃ b : UIntW 8, r.stop < b := by
  have : ∀ op ∈ corrOps, ∀ r ∈ opRanges op, r.stop < (⟨255⟩ : UIntW 8) := by decide
  exact fun op hop r hr => ⟨_, this op hop r hr⟩

example := C44_entries_correspond (K := UIntW 8) (V := Char) (S := Demo.u8) Demo.u8_lawful
    (succ := Props.succ8) succ8_next corrOps (by decide) corrOps_below

example := C44_entries_equal (K := UIntW 8) (V := Char) (S := Demo.u8) Demo.u8_lawful
    (succ := Props.succ8) succ8_next Demo.u8_antisymm corrOps (by decide) corrOps_below

example := C44_lookups_agree (K := UIntW 8) (V := Char) (S := Demo.u8) Demo.u8_lawful
    (succ := Props.succ8) succ8_next corrOps (by decide) corrOps_below ⟨7⟩

end Verif.Props

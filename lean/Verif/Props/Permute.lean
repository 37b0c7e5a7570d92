import Verif.Props.Build
import Verif.Props.IBuild
import Verif.Props.Set
import Verif.Props.ISet

/-!
# C57: compatible insertions commute
-/
set_option linter.unusedSectionVars false

namespace Verif.Props
open Spec
variable {K : Type} [LE K] [LT K] [DecidableLE K] [DecidableLT K]
  [Std.IsLinearPreorder K] [Std.LawfulOrderLT K] {V : Type} [BEq V]

section
open RangeMap

/-- **C57** Extending a map by the same pairs in any order and number gives equal maps, if the values of
overlapping ranges are equal. -/
theorem C57_extend_order [EquivBEq V] {m : RangeMap K V} (hm : Reachable m)
    {items items' : List (Range K × V)} (hsame : ∀ e, e ∈ items ↔ e ∈ items')
    (hvalid : ∀ e ∈ items, e.1.start < e.1.stop)
    (hcompat : ∀ e ∈ items, ∀ e' ∈ items, ∀ k, covers e.1 k = true → covers e'.1 k = true →
      (e.2 == e'.2) = true) :
    (m.extend items).2 = .ok () ∧ (m.extend items').2 = .ok () ∧
      (m.extend items).1.eq (m.extend items').1 = true := by
  have hvalid' : ∀ e ∈ items', e.1.start < e.1.stop := fun e he => hvalid e ((hsame e).2 he)
  have hok : ∀ l : List (Range K × V), (∀ e ∈ l, e.1.start < e.1.stop) → (m.extend l).2 = .ok () := by
    intro l hl
    cases hx : (m.extend l).2 with
    | ok u => rfl
    | error p =>
      obtain ⟨e, he, h⟩ := (C19_extend_panics_iff hm l).1 ⟨p, hx⟩
      have := hl e he
      grind
  refine ⟨hok _ hvalid, hok _ hvalid', ?_⟩
  have hw1 : WF (m.extend items).1.btm := hm.wf.extend items
  have hw2 : WF (m.extend items').1.btm := hm.wf.extend items'
  refine (eq_iff_look hw1 hw2).2 fun k => ?_
  have h1 := extend_look hm.wf items k
  have h2 := extend_look hm.wf items' k
  have ht : ∀ l : List (Range K × V), (∀ e ∈ l, e.1.start < e.1.stop) →
      (l.takeWhile fun e => valid e.1) = l := by
    intro l hl
    induction l with
    | nil => rfl
    | cons e t ih =>
      rw [List.takeWhile_cons_of_pos (by simp [valid, hl e (by simp)]),
        ih fun e he => hl e (by simp [he])]
  rw [ht _ hvalid] at h1
  rw [ht _ hvalid'] at h2
  refine RangeMap.Agree.trans h1 (RangeMap.Agree.trans ?_ (RangeMap.Agree.symm h2))
  cases hf : items.reverse.find? fun e => covers e.1 k with
  | some e =>
    have he := List.mem_of_find?_eq_some hf
    have hk := List.find?_some hf
    cases hf' : items'.reverse.find? fun e => covers e.1 k with
    | some e' =>
      have he' := List.mem_of_find?_eq_some hf'
      have hk' := List.find?_some hf'
      exact Or.inr (hcompat e (by simpa using he) e' ((hsame e').2 (by simpa using he')) k hk hk')
    | none =>
      have := List.find?_eq_none.1 hf' e (by simpa using (hsame e).1 (by simpa using he))
      exact absurd hk this
  | none =>
    cases hf' : items'.reverse.find? fun e => covers e.1 k with
    | some e' =>
      have he' := List.mem_of_find?_eq_some hf'
      have hk' := List.find?_some hf'
      have := List.find?_eq_none.1 hf e' (by simpa using (hsame e').2 (by simpa using he'))
      exact absurd hk' this
    | none => exact RangeMap.Agree.refl _

/-- **C57** Collecting the entries of a map in any order and number gives a map equal to it. -/
theorem C57_collect_entries [EquivBEq V] {m : RangeMap K V} (hm : Reachable m)
    {items : List (Range K × V)} (hsame : ∀ e, e ∈ items ↔ e ∈ m.iter) :
    ∃ m', RangeMap.fromIter items = .ok m' ∧ m'.eq m = true := by
  have hw := hm.wf
  have hvalid : ∀ e ∈ items, e.1.start < e.1.stop := fun e he =>
    hw.sep.ne e ((hsame e).1 he)
  have hcompat : ∀ e ∈ items, ∀ e' ∈ items, ∀ k, covers e.1 k = true → covers e'.1 k = true →
      (e.2 == e'.2) = true := by
    intro e he e' he' k hk hk'
    simp only [covers, decide_eq_true_eq] at hk hk'
    have : e.2 = e'.2 := Maps.unique hw.sep (k := k) ⟨e, (hsame e).1 he, hk.1, hk.2, rfl⟩
      ⟨e', (hsame e').1 he', hk'.1, hk'.2, rfl⟩
    rw [this]
    exact BEq.rfl
  obtain ⟨h1, -, h3⟩ := C57_extend_order (Reachable.new (K := K) (V := V) ) hsame hvalid hcompat
  refine ⟨((new : RangeMap K V).extend items).1, ?_, ?_⟩
  · simp [RangeMap.fromIter, h1, Except.map]
  · have h2 := extend_rest m.btm [] (by simpa using hm.wf)
    rw [List.nil_append] at h2
    rw [show (new : RangeMap K V) = ⟨[]⟩ from rfl] at *
    rw [show m.iter = m.btm from rfl, h2] at h3
    exact h3

/-- **C57** Extending a set by the same ranges in any order and number gives equal sets. -/
theorem C57_set_extend_order {s : RangeSet K} (hs : RangeSet.Reachable s) {items items' : List (Range K)}
    (hsame : ∀ r, r ∈ items ↔ r ∈ items') (hvalid : ∀ e ∈ items, e.start < e.stop) :
    (s.extend items).2 = .ok () ∧ (s.extend items').2 = .ok () ∧
      (s.extend items).1.eq (s.extend items').1 = true := by
  obtain ⟨h1, h2, h3⟩ := RangeSet.extend_has items (s := s) (hs.wf ) hvalid
  obtain ⟨h1', h2', h3'⟩ := RangeSet.extend_has items' (s := s) (hs.wf )
    (fun e he => hvalid e ((hsame e).2 he))
  refine ⟨h1, h1', (RangeSet.eq_iff_has h2 h2').2 fun k => ?_⟩
  rw [h3, h3']
  congr 1
  rw [Bool.eq_iff_iff]
  simp only [List.any_eq_true, hsame]

example : ((Demo.map.extend [(⟨8, 22⟩, 'x'), (⟨40, 41⟩, 'c'), (⟨2, 9⟩, 'x')]).1.btm =
    [(⟨0, 2⟩, 'a'), (⟨2, 22⟩, 'x'), (⟨22, 25⟩, 'b'), (⟨25, 41⟩, 'c')]) ∧
    ((Demo.map.extend [(⟨2, 9⟩, 'x'), (⟨2, 9⟩, 'x'), (⟨8, 22⟩, 'x'), (⟨40, 41⟩, 'c')]).1.btm =
    [(⟨0, 2⟩, 'a'), (⟨2, 22⟩, 'x'), (⟨22, 25⟩, 'b'), (⟨25, 41⟩, 'c')]) := by decide
/-- the condition on overlapping ranges is needed -/
example : ((Demo.map.extend [(⟨8, 22⟩, 'x'), (⟨2, 9⟩, 'y')]).1.eq
    (Demo.map.extend [(⟨2, 9⟩, 'y'), (⟨8, 22⟩, 'x')]).1) = false := by decide
example : ∃ m', RangeMap.fromIter Demo.map.iter.reverse = .ok m' ∧ m'.eq Demo.map = true :=
  C57_collect_entries Demo.map_reachable (by simp)
example : (Demo.set.extend [⟨2, 5⟩, ⟨44, 45⟩]).1.iter = [⟨0, 15⟩, ⟨20, 40⟩, ⟨44, 45⟩] ∧
    (Demo.set.extend [⟨44, 45⟩, ⟨2, 5⟩, ⟨44, 45⟩]).1.iter = [⟨0, 15⟩, ⟨20, 40⟩, ⟨44, 45⟩] := by decide

end

namespace Inclusive
open RangeInclusiveMap
variable {S : StepFns K}

/-- **C57** Extending a map by the same pairs in any order and number gives equal maps, if the values of
overlapping ranges are equal. -/
theorem C57_extend_order [EquivBEq V] (hS : LawfulSteps S) {m : RangeInclusiveMap K V} (hm : Reachable S m)
    {items items' : List (RangeInclusive K × V)} (hsame : ∀ e, e ∈ items ↔ e ∈ items')
    (hvalid : ∀ e ∈ items, e.1.start ≤ e.1.stop ∧ e.1.exhausted = false)
    (hcompat : ∀ e ∈ items, ∀ e' ∈ items, ∀ k, icovers e.1 k = true → icovers e'.1 k = true →
      (e.2 == e'.2) = true) :
    (m.extend S items).2 = .ok () ∧ (m.extend S items').2 = .ok () ∧
      (m.extend S items).1.eq (m.extend S items').1 = true := by
  have hvalid' : ∀ e ∈ items', e.1.start ≤ e.1.stop ∧ e.1.exhausted = false := fun e he => hvalid e ((hsame e).2 he)
  have hok : ∀ l : List (RangeInclusive K × V), (∀ e ∈ l, e.1.start ≤ e.1.stop ∧ e.1.exhausted = false) → (m.extend S l).2 = .ok () := by
    intro l hl
    cases hx : (m.extend S l).2 with
    | ok u => rfl
    | error p =>
      obtain ⟨e, he, h⟩ := (C19_extend_panics_iff hS hm.any l).1 ⟨p, hx⟩
      have := hl e he
      grind
  refine ⟨hok _ hvalid, hok _ hvalid', ?_⟩
  have hw1 : WF (m.extend S items).1.btm := (hm.apply (.extend items) (by
    intro r hr
    obtain ⟨e, he, rfl⟩ := List.mem_map.1 hr
    exact (hvalid e he).2)).wf hS
  have hw2 : WF (m.extend S items').1.btm := (hm.apply (.extend items') (by
    intro r hr
    obtain ⟨e, he, rfl⟩ := List.mem_map.1 hr
    exact (hvalid' e he).2)).wf hS
  refine (eq_iff_look hS hw1 hw2).2 fun k => ?_
  have h1 := extend_look hS (hm.wf hS) items (fun e he => (hvalid e he).2) k
  have h2 := extend_look hS (hm.wf hS) items' (fun e he => (hvalid' e he).2) k
  have ht : ∀ l : List (RangeInclusive K × V), (∀ e ∈ l, e.1.start ≤ e.1.stop ∧ e.1.exhausted = false) →
      (l.takeWhile fun e => ivalid e.1) = l := by
    intro l hl
    induction l with
    | nil => rfl
    | cons e t ih =>
      rw [List.takeWhile_cons_of_pos (by simp [ivalid, hl e (by simp)]),
        ih fun e he => hl e (by simp [he])]
  rw [ht _ hvalid] at h1
  rw [ht _ hvalid'] at h2
  refine RangeMap.Agree.trans h1 (RangeMap.Agree.trans ?_ (RangeMap.Agree.symm h2))
  cases hf : items.reverse.find? fun e => icovers e.1 k with
  | some e =>
    have he := List.mem_of_find?_eq_some hf
    have hk := List.find?_some hf
    cases hf' : items'.reverse.find? fun e => icovers e.1 k with
    | some e' =>
      have he' := List.mem_of_find?_eq_some hf'
      have hk' := List.find?_some hf'
      exact Or.inr (hcompat e (by simpa using he) e' ((hsame e').2 (by simpa using he')) k hk hk')
    | none =>
      have := List.find?_eq_none.1 hf' e (by simpa using (hsame e).1 (by simpa using he))
      exact absurd hk this
  | none =>
    cases hf' : items'.reverse.find? fun e => icovers e.1 k with
    | some e' =>
      have he' := List.mem_of_find?_eq_some hf'
      have hk' := List.find?_some hf'
      have := List.find?_eq_none.1 hf e' (by simpa using (hsame e').2 (by simpa using he'))
      exact absurd hk' this
    | none => exact RangeMap.Agree.refl _

/-- **C57** Collecting the entries of a map in any order and number gives a map equal to it. -/
theorem C57_collect_entries [EquivBEq V] (hS : LawfulSteps S) {m : RangeInclusiveMap K V} (hm : Reachable S m)
    {items : List (RangeInclusive K × V)} (hsame : ∀ e, e ∈ items ↔ e ∈ m.iter) :
    ∃ m', RangeInclusiveMap.fromIter S items = .ok m' ∧ m'.eq m = true := by
  have hw := hm.wf hS
  have hvalid : ∀ e ∈ items, e.1.start ≤ e.1.stop ∧ e.1.exhausted = false := fun e he =>
    ⟨hw.sep.ne e ((hsame e).1 he), hw.fresh e ((hsame e).1 he)⟩
  have hcompat : ∀ e ∈ items, ∀ e' ∈ items, ∀ k, icovers e.1 k = true → icovers e'.1 k = true →
      (e.2 == e'.2) = true := by
    intro e he e' he' k hk hk'
    simp only [icovers, decide_eq_true_eq] at hk hk'
    have : e.2 = e'.2 := Maps.unique hw.sep (k := k) ⟨e, (hsame e).1 he, hk.1, hk.2, rfl⟩
      ⟨e', (hsame e').1 he', hk'.1, hk'.2, rfl⟩
    rw [this]
    exact BEq.rfl
  obtain ⟨h1, -, h3⟩ := C57_extend_order hS (Reachable.new (K := K) (V := V) (S := S)) hsame hvalid hcompat
  refine ⟨((new : RangeInclusiveMap K V).extend S items).1, ?_, ?_⟩
  · simp [RangeInclusiveMap.fromIter, h1, Except.map]
  · have h2 := extend_rest hS m.btm [] (by simpa using (hm.wf hS).sc)
    rw [List.nil_append] at h2
    rw [show (new : RangeInclusiveMap K V) = ⟨[]⟩ from rfl] at *
    rw [show m.iter = m.btm from rfl, h2] at h3
    exact h3

/-- **C57** Extending a set by the same ranges in any order and number gives equal sets. -/
theorem C57_set_extend_order (hS : LawfulSteps S) {s : RangeInclusiveSet K} (hs : RangeInclusiveSet.Reachable S s) {items items' : List (RangeInclusive K)}
    (hsame : ∀ r, r ∈ items ↔ r ∈ items') (hvalid : ∀ e ∈ items, e.start ≤ e.stop ∧ e.exhausted = false) :
    (s.extend S items).2 = .ok () ∧ (s.extend S items').2 = .ok () ∧
      (s.extend S items).1.eq (s.extend S items').1 = true := by
  obtain ⟨h1, h2, h3⟩ := RangeInclusiveSet.extend_has hS items (s := s) (hs.wf hS) hvalid
  obtain ⟨h1', h2', h3'⟩ := RangeInclusiveSet.extend_has hS items' (s := s) (hs.wf hS)
    (fun e he => hvalid e ((hsame e).2 he))
  refine ⟨h1, h1', (RangeInclusiveSet.eq_iff_has hS h2 h2').2 fun k => ?_⟩
  rw [h3, h3']
  congr 1
  rw [Bool.eq_iff_iff]
  simp only [List.any_eq_true, hsame]

example : ∃ m', RangeInclusiveMap.fromIter Demo.u8 (Demo.imap.iter.reverse ++ Demo.imap.iter) = .ok m' ∧
    m'.eq Demo.imap = true :=
  C57_collect_entries Demo.u8_lawful Demo.imap_reachable (by simp)
example : (Demo.iset.extend Demo.u8 [Demo.by8 2 5, Demo.by8 16 17]).1.iter =
      [Demo.by8 0 14, Demo.by8 16 17, Demo.by8 20 255] ∧
    (Demo.iset.extend Demo.u8 [Demo.by8 16 17, Demo.by8 2 5, Demo.by8 16 17]).1.iter =
      [Demo.by8 0 14, Demo.by8 16 17, Demo.by8 20 255] := by decide


example := C57_extend_order (V := Char) Demo.u8_lawful Demo.imap_reachable
  (items := [(Demo.by8 1 9, 'x'), (Demo.by8 5 12, 'x'), (Demo.by8 50 60, 'y')])
  (items' := [(Demo.by8 50 60, 'y'), (Demo.by8 5 12, 'x'), (Demo.by8 1 9, 'x'), (Demo.by8 5 12, 'x')])
  (by simp; grind) (by decide)
  (fun e he e' he' k => Demo.forall8 (P := fun k => ∀ e ∈ [(Demo.by8 1 9, 'x'),
    (Demo.by8 5 12, 'x'), (Demo.by8 50 60, 'y')], ∀ e' ∈ [(Demo.by8 1 9, 'x'), (Demo.by8 5 12, 'x'),
    (Demo.by8 50 60, 'y')], icovers e.1 k = true → icovers e'.1 k = true → (e.2 == e'.2) = true)
    (by decide +kernel) k e he e' he')
example := Props.C57_extend_order (V := Char) Demo.map_reachable
  (items := [(⟨1, 9⟩, 'x'), (⟨5, 12⟩, 'x'), (⟨50, 60⟩, 'y')])
  (items' := [(⟨50, 60⟩, 'y'), (⟨5, 12⟩, 'x'), (⟨1, 9⟩, 'x'), (⟨5, 12⟩, 'x')])
  (by simp; grind) (by decide)
  (fun e he e' he' k h h' => by
    simp only [covers, Bool.and_eq_true, decide_eq_true_eq] at h h'
    simp only [List.mem_cons, List.not_mem_nil, or_false] at he he'
    rcases he with rfl | rfl | rfl <;> rcases he' with rfl | rfl | rfl <;>
      first | rfl | (exfalso; simp only at h h'; omega))

end Inclusive
end Verif.Props

import Verif.Props.ITransform
import Verif.Props.IIter
import Verif.Props.Zip

/-!
# C125 for inclusive maps
-/
set_option linter.unusedSectionVars false

namespace Verif.Spec
variable {K : Type} [LE K] [LT K] [DecidableLE K] [DecidableLT K] {V W : Type}

/-- What two ranges have in common. -/
def icap (r s : RangeInclusive K) : RangeInclusive K :=
  RangeInclusive.mk' (if r.start ≤ s.start then s.start else r.start)
    (if s.stop ≤ r.stop then s.stop else r.stop)

/-- The parts of the entry `e` that entries of `l` share, with both values. -/
def isharedWith (l : List (RangeInclusive K × W)) (e : RangeInclusive K × V) : List
    (RangeInclusive K × (V × W)) :=
  (l.filter fun f => decide (e.1.start ≤ f.1.stop) && decide (f.1.start ≤ e.1.stop)).map
    fun f => (icap e.1 f.1, (e.2, f.2))

/-- The parts that an entry of `l` and an entry of `l'` share, with both values. -/
def ishared (l : List (RangeInclusive K × V)) (l' : List (RangeInclusive K × W)) : List
    (RangeInclusive K × (V × W)) :=
  l.flatMap (isharedWith l')

end Verif.Spec

namespace Verif
namespace RangeInclusiveMap
open Spec
variable {K : Type} [LE K] [LT K] [DecidableLE K] [DecidableLT K] {V W : Type}

/-- A function that a user of the crate may write (it is not in /repo):
`b.overlapping(&e.0).map(|f| (max(..)..=min(..), (e.1.clone(), f.1.clone()))).collect::<Vec<_>>()`.
  -/
def zipOne (b : RangeInclusiveMap K W) (e : RangeInclusive K × V) :
    Except Panic (List (RangeInclusive K × (V × W))) := do
  let l ← drain Overlapping.next (b.len + 1) (← b.overlapping e.1)
  return l.map fun f => (icap e.1 f.1, (e.2, f.2))

/-- `a.iter().flat_map(|e| ...).collect::<RangeInclusiveMap<_, _>>()` with the function above. -/
def zip [BEq V] [BEq W] (S : StepFns K) (a : RangeInclusiveMap K V) (b : RangeInclusiveMap K W) :
    Except Panic (RangeInclusiveMap K (V × W)) := do
  fromIter S (← a.iter.mapM (zipOne b)).flatten

end RangeInclusiveMap

namespace Props.Inclusive
open Spec RangeInclusiveMap
section
variable {K : Type} [LE K] [LT K] [DecidableLE K] [DecidableLT K]
  [Std.IsLinearPreorder K] [Std.LawfulOrderLT K] {V W : Type} {S : StepFns K}

theorem mem_sharedParts {l : List (RangeInclusive K × V)} {l' : List (RangeInclusive K × W)}
    {x : RangeInclusive K × (V × W)} :
    x ∈ ishared l l' ↔ ∃ e ∈ l, ∃ f ∈ l', e.1.start ≤ f.1.stop ∧ f.1.start ≤ e.1.stop ∧
      x = (icap e.1 f.1, (e.2, f.2)) := by
  simp only [ishared, isharedWith, List.mem_flatMap, List.mem_map, List.mem_filter,
    Bool.and_eq_true,
    decide_eq_true_eq]
  constructor
  · rintro ⟨e, he, f, ⟨hf, h1, h2⟩, rfl⟩
    exact ⟨e, he, f, hf, h1, h2, rfl⟩
  · rintro ⟨e, he, f, hf, h1, h2, rfl⟩
    exact ⟨e, he, f, ⟨hf, h1, h2⟩, rfl⟩

theorem shared_sep {l : List (RangeInclusive K × V)} {l' : List (RangeInclusive K × W)} (h : Sep l)
    (h' : Sep l') :
    Sep (ishared l l') := by
  refine ⟨?_, fun x hx => ?_⟩
  · rw [ishared, List.pairwise_flatMap]
    refine ⟨fun e he => ?_, h.pw.imp_of_mem fun {e e'} he he' hb x hx y hy => ?_⟩
    · rw [isharedWith, List.pairwise_map, List.pairwise_filter]
      refine h'.pw.imp_of_mem fun {f f'} hf hf' hb h1 h2 => ?_
      have e1 := h.ne e he
      have e2 := h'.ne f hf
      have e3 := h'.ne f' hf'
      unfold Before at hb ⊢
      simp only [Bool.and_eq_true, decide_eq_true_eq, icap, RangeInclusive.mk'] at h1 h2 ⊢
      grind
    · simp only [isharedWith, List.mem_map, List.mem_filter, Bool.and_eq_true,
        decide_eq_true_eq] at hx hy
      obtain ⟨f, ⟨hf, h1, h2⟩, rfl⟩ := hx
      obtain ⟨f', ⟨hf', h3, h4⟩, rfl⟩ := hy
      have e1 := h.ne e he
      have e2 := h'.ne f hf
      have e3 := h'.ne f' hf'
      unfold Before at hb ⊢
      simp only [icap, RangeInclusive.mk']
      grind
  · obtain ⟨e, he, f, hf, h1, h2, rfl⟩ := mem_sharedParts.1 hx
    have e1 := h.ne e he
    have e2 := h'.ne f hf
    simp only [icap, RangeInclusive.mk']
    grind

theorem shared_fresh {l : List (RangeInclusive K × V)} {l' : List (RangeInclusive K × W)} :
    Fresh (ishared l l') := by
  intro x hx
  obtain ⟨e, he, f, hf, h1, h2, rfl⟩ := mem_sharedParts.1 hx
  rfl

theorem shared_wf [BEq V] [BEq W] {l : List (RangeInclusive K × V)}
    {l' : List (RangeInclusive K × W)} (h : WF l) (h' : WF l') : WF (ishared l l') := by
  refine ⟨shared_sep h.sep h'.sep, fun x hx y hy h1 => ?_, shared_fresh⟩
  obtain ⟨e, he, f, hf, h3, h4, rfl⟩ := mem_sharedParts.1 hx
  obtain ⟨e', he', f', hf', h5, h6, rfl⟩ := mem_sharedParts.1 hy
  have n1 := h.sep.ne e he
  have n2 := h.sep.ne e' he'
  have n3 := h'.sep.ne f hf
  have n4 := h'.sep.ne f' hf'
  show (e.2 == e'.2 && f.2 == f'.2) = false
  rw [Bool.and_eq_false_iff]
  have hlt := h1.1
  simp only [icap, RangeInclusive.mk'] at h1 hlt
  by_cases c : e.1.stop < e'.1.start ∧ e.1.stop ≤ f.1.stop
  · refine .inl (h.coal e he e' he' ?_)
    have e1 : (if f.1.stop ≤ e.1.stop then f.1.stop else e.1.stop) ≤ e.1.stop := by
      clear h1; grind
    have e2 : e.1.stop ≤ (if f.1.stop ≤ e.1.stop then f.1.stop else e.1.stop) := by
      clear h1; grind
    have e3 : e'.1.start ≤ (if e'.1.start ≤ f'.1.start then f'.1.start else e'.1.start) := by
      clear h1; grind
    exact ⟨c.1, fun d hd => Std.IsPreorder.le_trans _ _ _ e3
      (h1.2 d (by clear h1; grind))⟩
  · refine .inr (h'.coal f hf f' hf' ?_)
    have key : f.1.stop < f'.1.start ∧
        f.1.stop ≤ (if f.1.stop ≤ e.1.stop then f.1.stop else e.1.stop) ∧
        (if f.1.stop ≤ e.1.stop then f.1.stop else e.1.stop) ≤ f.1.stop ∧
        f'.1.start ≤ (if e'.1.start ≤ f'.1.start then f'.1.start else e'.1.start) := by
      clear h1
      rcases h.sep.tri e he e' he' with rfl | t | t <;>
      rcases h'.sep.tri f hf f' hf' with rfl | u | u <;> grind
    exact ⟨key.1, fun d hd => Std.IsPreorder.le_trans _ _ _ key.2.2.2
      (h1.2 d (by clear h1; grind))⟩

theorem maps_shared {l : List (RangeInclusive K × V)} {l' : List (RangeInclusive K × W)} (k : K)
    (p : V × W) :
    Maps (ishared l l') k p ↔ Maps l k p.1 ∧ Maps l' k p.2 := by
  constructor
  · rintro ⟨x, hx, h1, h2, rfl⟩
    obtain ⟨e, he, f, hf, h3, h4, rfl⟩ := mem_sharedParts.1 hx
    simp only [icap, RangeInclusive.mk'] at h1 h2
    exact ⟨⟨e, he, by grind, by grind, rfl⟩, ⟨f, hf, by grind, by grind, rfl⟩⟩
  · rintro ⟨⟨e, he, h1, h2, h3⟩, ⟨f, hf, h4, h5, h6⟩⟩
    refine ⟨(icap e.1 f.1, (e.2, f.2)), mem_sharedParts.2 ⟨e, he, f, hf, by grind, by grind, rfl⟩,
      ?_⟩
    simp only [icap, RangeInclusive.mk']
    exact ⟨by grind, by grind, by rw [h3, h6]⟩

theorem shared_nil (l : List (RangeInclusive K × V)) : ishared l ([] : List (RangeInclusive K × W))
    = [] := by
  simp [ishared, isharedWith]

theorem overlap_count {l : List (RangeInclusive K × W)} (h : Sep l) (e : RangeInclusive K × V) :
    (isharedWith l e).length ≤ (l.filter fun f => decide (f.1.stop ≤ e.1.stop)).length + 1 := by
  rw [isharedWith, List.length_map]
  induction l with
  | nil => simp
  | cons f l ih =>
    have hp := List.pairwise_cons.1 h.pw
    have hs : Sep l := ⟨hp.2, fun x hx => h.ne x (List.mem_cons_of_mem _ hx)⟩
    by_cases c : f.1.stop ≤ e.1.stop
    · have := ih hs
      rw [List.filter_cons_of_pos
        (p := fun f : RangeInclusive K × W => decide (f.1.stop ≤ e.1.stop))
        (by simpa using c), List.length_cons, List.filter_cons]
      split <;> (try rw [List.length_cons]) <;> omega
    · have : (l.filter fun f => decide (e.1.start ≤ f.1.stop) &&
          decide (f.1.start ≤ e.1.stop)) = [] := by
        rw [List.filter_eq_nil_iff]
        intro x hx
        have := hp.1 x hx
        unfold Before at this
        simp only [Bool.and_eq_true, decide_eq_true_eq]
        grind
      rw [List.filter_cons, this]
      split <;> simp

theorem filter_shared {l' : List (RangeInclusive K × W)} {e : RangeInclusive K × V}
    {l : List (RangeInclusive K × V)}
    (hb : ∀ x ∈ l, Before e x) :
    ishared l l' = ishared l (l'.filter fun f => !decide (f.1.stop ≤ e.1.stop)) := by
  rw [ishared, ishared, List.flatMap, List.flatMap]
  refine congrArg _ (List.map_congr_left fun x hx => ?_)
  have := hb x hx
  unfold Before at this
  rw [isharedWith, isharedWith, List.filter_filter]
  refine congrArg _ (List.filter_congr fun f _ => ?_)
  rw [Bool.eq_iff_iff]
  simp only [Bool.and_eq_true, decide_eq_true_eq, Bool.not_eq_true', decide_eq_false_iff_not]
  grind

theorem shared_length {l : List (RangeInclusive K × V)} (h : Sep l) : ∀
    {l' : List (RangeInclusive K × W)}, Sep l' →
    (ishared l l').length ≤ l.length + l'.length - 1 := by
  induction l with
  | nil => intro l' _; simp [ishared]
  | cons e l ih =>
    intro l' h'
    have hp := List.pairwise_cons.1 h.pw
    have hs : Sep l := ⟨hp.2, fun x hx => h.ne x (List.mem_cons_of_mem _ hx)⟩
    have h1 := overlap_count h' e
    have h2 : (isharedWith l' e).length ≤ l'.length := by
      rw [isharedWith, List.length_map]
      exact List.length_filter_le _ _
    have hsub : Sep (l'.filter fun f => !decide (f.1.stop ≤ e.1.stop)) :=
      ⟨h'.pw.sublist List.filter_sublist, fun x hx => h'.ne x (List.mem_filter.1 hx).1⟩
    have h3 := ih hs hsub
    have h4 : l'.length = (l'.filter fun f => decide (f.1.stop ≤ e.1.stop)).length +
        (l'.filter fun f => !decide (f.1.stop ≤ e.1.stop)).length :=
      filter_split _ l'
    have h5 : (ishared (e :: l) l').length = (isharedWith l' e).length + (ishared l l').length := by
      rw [ishared, List.flatMap_cons, List.length_append]
      rfl
    rw [h5, filter_shared hp.1]
    cases hl : (l'.filter fun f => !decide (f.1.stop ≤ e.1.stop)) with
    | nil =>
      rw [shared_nil, List.length_nil, List.length_cons]
      omega
    | cons f r =>
      rw [hl] at h3 h4
      simp only [List.length_cons] at h3 h4 ⊢
      cases l with
      | nil =>
        simp only [ishared, List.flatMap_nil, List.length_nil]
        omega
      | cons x l =>
        simp only [List.length_cons] at h3 ⊢
        omega

variable [BEq V] [LawfulBEq V] [BEq W] [LawfulBEq W]

theorem zipOne_eq (hS : LawfulSteps S) {b : RangeInclusiveMap K W} (hb : Reachable S b)
    (e : RangeInclusive K × V) :
    zipOne b e = .ok (isharedWith b.iter e) := by
  obtain ⟨o, h1, h2⟩ := C32_overlapping_exact hS hb.any e.1
  have h3 : drain Overlapping.next (b.len + 1) o = .ok (b.iter.filter fun f =>
      decide (e.1.start ≤ f.1.stop) && decide (f.1.start ≤ e.1.stop)) :=
    Yields.drain h2 (Nat.lt_succ_of_le (List.length_filter_le _ _))
  simp only [zipOne, h1, bind, Except.bind, h3]
  rfl

/-- **C125** Joining two maps by way of `overlapping` succeeds, and the result stores exactly the
parts that an entry of the one and an entry of the other share, in order: nothing is coalesced. -/
theorem C125_zip (hS : LawfulSteps S) {a : RangeInclusiveMap K V} {b : RangeInclusiveMap K W}
    (ha : Reachable S a) (hb : Reachable S b) :
    ∃ z, zip S a b = .ok z ∧ Reachable S z ∧ z.iter = ishared a.iter b.iter := by
  have h := collect_wf hS (shared_wf (ha.wf hS) (hb.wf hS))
  refine ⟨_, ?_, h.2, rfl⟩
  rw [zip, mapM_ok (zipOne_eq hS hb)]
  exact h.1

/-- **C125** A key has a pair in the joined map exactly if it has the one half in the one map and
the other half in the other. -/
theorem C125_get (hS : LawfulSteps S) {a : RangeInclusiveMap K V} {b : RangeInclusiveMap K W}
    (ha : Reachable S a) (hb : Reachable S b)
    {z : RangeInclusiveMap K (V × W)} (hz : zip S a b = .ok z) (k : K) (v : V) (w : W) :
    z.get k = .ok (some (v, w)) ↔ a.get k = .ok (some v) ∧ b.get k = .ok (some w) := by
  obtain ⟨z', h1, h2, h3⟩ := C125_zip hS ha hb
  cases hz.symm.trans h1
  rw [get_eq_some (h2.wf hS).sep (h2.wf hS).fresh, get_eq_some (ha.wf hS).sep (ha.wf hS).fresh,
    get_eq_some (hb.wf hS).sep (hb.wf hS).fresh,
    show z.btm = _ from h3]
  exact maps_shared k (v, w)

/-- **C125** The joined map has fewer ranges than the two together. -/
theorem C125_len (hS : LawfulSteps S) {a : RangeInclusiveMap K V} {b : RangeInclusiveMap K W}
    (ha : Reachable S a) (hb : Reachable S b)
    {z : RangeInclusiveMap K (V × W)} (hz : zip S a b = .ok z) : z.len ≤ a.len + b.len - 1 := by
  obtain ⟨z', h1, h2, h3⟩ := C125_zip hS ha hb
  cases hz.symm.trans h1
  unfold RangeInclusiveMap.len
  rw [show z.btm = _ from h3]
  exact shared_length (ha.wf hS).sep (hb.wf hS).sep

end

/-! ### Examples -/

def zipOps : List (Op (RangeInclusive (UIntW 8)) Nat) :=
  [.insert (Demo.by8 3 11) 1, .insert (Demo.by8 12 255) 2, .insert (Demo.by8 20 21) 1]

def zipOps' : List (Op (RangeInclusive (UIntW 8)) Char) :=
  [.insert (Demo.by8 0 14) 'a', .insert (Demo.by8 18 255) 'b', .remove (Demo.by8 5 5)]

theorem zipOps_reachable : Reachable Demo.u8 (run Demo.u8 zipOps) := ⟨_, by decide, rfl⟩

theorem zipOps'_reachable : Reachable Demo.u8 (run Demo.u8 zipOps') := ⟨_, by decide, rfl⟩

example : ((zip Demo.u8 (run Demo.u8 zipOps) (run Demo.u8 zipOps')).map (·.iter)).toOption =
    some [(Demo.by8 3 4, (1, 'a')), (Demo.by8 6 11, (1, 'a')), (Demo.by8 12 14, (2, 'a')),
      (Demo.by8 18 19, (2, 'b')), (Demo.by8 20 21, (1, 'b')), (Demo.by8 22 255, (2, 'b'))] := by
  decide +kernel
example : ∃ z, zip Demo.u8 (run Demo.u8 zipOps) (run Demo.u8 zipOps') = .ok z ∧
    z.get ⟨21⟩ = .ok (some (1, 'b')) ∧ z.len ≤ 4 + 3 - 1 := by
  obtain ⟨z, hz, -, -⟩ := C125_zip Demo.u8_lawful zipOps_reachable zipOps'_reachable
  exact ⟨z, hz, (C125_get Demo.u8_lawful zipOps_reachable zipOps'_reachable hz ⟨21⟩ 1 'b').2
    ⟨rfl, rfl⟩, C125_len Demo.u8_lawful zipOps_reachable zipOps'_reachable hz⟩

end Props.Inclusive
end Verif

import Verif.Props.Transform
import Verif.Props.Iter

/-!
# C125: two maps joined into a map to pairs
-/
set_option linter.unusedSectionVars false

namespace Verif.Spec
variable {K : Type} [LE K] [LT K] [DecidableLE K] [DecidableLT K] {V W : Type}

/-- What two ranges have in common. -/
def cap (r s : Range K) : Range K :=
  ⟨if r.start ≤ s.start then s.start else r.start, if s.stop ≤ r.stop then s.stop else r.stop⟩

/-- The parts of the entry `e` that entries of `l` share, with both values. -/
def sharedWith (l : List (Range K × W)) (e : Range K × V) : List (Range K × (V × W)) :=
  (l.filter fun f => decide (e.1.start < f.1.stop) && decide (f.1.start < e.1.stop)).map
    fun f => (cap e.1 f.1, (e.2, f.2))

/-- The parts that an entry of `l` and an entry of `l'` share, with both values. -/
def shared (l : List (Range K × V)) (l' : List (Range K × W)) : List (Range K × (V × W)) :=
  l.flatMap (sharedWith l')

end Verif.Spec

namespace Verif
namespace RangeMap
open Spec
variable {K : Type} [LE K] [LT K] [DecidableLE K] [DecidableLT K] {V W : Type}

/-- A function that a user of the crate may write (it is not in /repo):
`b.overlapping(&e.0).map(|f| (max(..)..min(..), (e.1.clone(), f.1.clone()))).collect::<Vec<_>>()`.
  -/
def zipOne (b : RangeMap K W) (e : Range K × V) :
    Except Panic (List (Range K × (V × W))) := do
  let l ← drain Overlapping.next (b.len + 1) (← b.overlapping e.1)
  return l.map fun f => (cap e.1 f.1, (e.2, f.2))

/-- `a.iter().flat_map(|e| ...).collect::<RangeMap<_, _>>()` with the function above. -/
def zip [BEq V] [BEq W] (a : RangeMap K V) (b : RangeMap K W) :
    Except Panic (RangeMap K (V × W)) := do
  fromIter (← a.iter.mapM (zipOne b)).flatten

end RangeMap

namespace Props
open Spec RangeMap
section
variable {K : Type} [LE K] [LT K] [DecidableLE K] [DecidableLT K]
  [Std.IsLinearPreorder K] [Std.LawfulOrderLT K] {V W : Type}

theorem mem_sharedParts {l : List (Range K × V)} {l' : List (Range K × W)} {x : Range K × (V × W)} :
    x ∈ shared l l' ↔ ∃ e ∈ l, ∃ f ∈ l', e.1.start < f.1.stop ∧ f.1.start < e.1.stop ∧
      x = (cap e.1 f.1, (e.2, f.2)) := by
  simp only [shared, sharedWith, List.mem_flatMap, List.mem_map, List.mem_filter, Bool.and_eq_true,
    decide_eq_true_eq]
  constructor
  · rintro ⟨e, he, f, ⟨hf, h1, h2⟩, rfl⟩
    exact ⟨e, he, f, hf, h1, h2, rfl⟩
  · rintro ⟨e, he, f, hf, h1, h2, rfl⟩
    exact ⟨e, he, f, ⟨hf, h1, h2⟩, rfl⟩

theorem shared_sep {l : List (Range K × V)} {l' : List (Range K × W)} (h : Sep l) (h' : Sep l') :
    Sep (shared l l') := by
  refine ⟨?_, fun x hx => ?_⟩
  · rw [shared, List.pairwise_flatMap]
    refine ⟨fun e he => ?_, h.pw.imp_of_mem fun {e e'} he he' hb x hx y hy => ?_⟩
    · rw [sharedWith, List.pairwise_map, List.pairwise_filter]
      refine h'.pw.imp_of_mem fun {f f'} hf hf' hb h1 h2 => ?_
      have e1 := h.ne e he
      have e2 := h'.ne f hf
      have e3 := h'.ne f' hf'
      unfold Before at hb ⊢
      simp only [Bool.and_eq_true, decide_eq_true_eq, cap] at h1 h2 ⊢
      grind
    · simp only [sharedWith, List.mem_map, List.mem_filter, Bool.and_eq_true,
        decide_eq_true_eq] at hx hy
      obtain ⟨f, ⟨hf, h1, h2⟩, rfl⟩ := hx
      obtain ⟨f', ⟨hf', h3, h4⟩, rfl⟩ := hy
      have e1 := h.ne e he
      have e2 := h'.ne f hf
      have e3 := h'.ne f' hf'
      unfold Before at hb ⊢
      simp only [cap]
      grind
  · obtain ⟨e, he, f, hf, h1, h2, rfl⟩ := mem_sharedParts.1 hx
    have e1 := h.ne e he
    have e2 := h'.ne f hf
    simp only [cap]
    grind

theorem shared_wf [BEq V] [BEq W] {l : List (Range K × V)} {l' : List (Range K × W)} (h : WF l)
    (h' : WF l') : WF (shared l l') := by
  refine ⟨shared_sep h.sep h'.sep, fun x hx y hy h1 h2 => ?_⟩
  obtain ⟨e, he, f, hf, h3, h4, rfl⟩ := mem_sharedParts.1 hx
  obtain ⟨e', he', f', hf', h5, h6, rfl⟩ := mem_sharedParts.1 hy
  have n1 := h.sep.ne e he
  have n2 := h.sep.ne e' he'
  have n3 := h'.sep.ne f hf
  have n4 := h'.sep.ne f' hf'
  show (e.2 == e'.2 && f.2 == f'.2) = false
  rw [Bool.and_eq_false_iff]
  by_cases c : e.1.stop ≤ e'.1.start ∧ e'.1.start ≤ e.1.stop
  · exact .inl (h.coal e he e' he' c.1 c.2)
  · refine .inr (h'.coal f hf f' hf' ?_ ?_) <;>
      rcases pw_tri h.sep.pw e he e' he' with rfl | t | t <;>
      rcases pw_tri h'.sep.pw f hf f' hf' with rfl | u | u <;>
      simp only [cap, Before] at * <;> grind

theorem maps_shared {l : List (Range K × V)} {l' : List (Range K × W)} (k : K) (p : V × W) :
    Maps (shared l l') k p ↔ Maps l k p.1 ∧ Maps l' k p.2 := by
  constructor
  · rintro ⟨x, hx, h1, h2, rfl⟩
    obtain ⟨e, he, f, hf, h3, h4, rfl⟩ := mem_sharedParts.1 hx
    simp only [cap] at h1 h2
    exact ⟨⟨e, he, by grind, by grind, rfl⟩, ⟨f, hf, by grind, by grind, rfl⟩⟩
  · rintro ⟨⟨e, he, h1, h2, h3⟩, ⟨f, hf, h4, h5, h6⟩⟩
    refine ⟨(cap e.1 f.1, (e.2, f.2)), mem_sharedParts.2 ⟨e, he, f, hf, by grind, by grind, rfl⟩,
      ?_⟩
    simp only [cap]
    exact ⟨by grind, by grind, by rw [h3, h6]⟩

theorem shared_nil (l : List (Range K × V)) : shared l ([] : List (Range K × W)) = [] := by
  simp [shared, sharedWith]

theorem overlap_count {l : List (Range K × W)} (h : Sep l) (e : Range K × V) :
    (sharedWith l e).length ≤ (l.filter fun f => decide (f.1.stop ≤ e.1.stop)).length + 1 := by
  rw [sharedWith, List.length_map]
  induction l with
  | nil => simp
  | cons f l ih =>
    have hp := List.pairwise_cons.1 h.pw
    have hs : Sep l := ⟨hp.2, fun x hx => h.ne x (List.mem_cons_of_mem _ hx)⟩
    by_cases c : f.1.stop ≤ e.1.stop
    · have := ih hs
      rw [List.filter_cons_of_pos (p := fun f : Range K × W => decide (f.1.stop ≤ e.1.stop))
        (by simpa using c), List.length_cons, List.filter_cons]
      split <;> (try rw [List.length_cons]) <;> omega
    · have : (l.filter fun f => decide (e.1.start < f.1.stop) &&
          decide (f.1.start < e.1.stop)) = [] := by
        rw [List.filter_eq_nil_iff]
        intro x hx
        have := hp.1 x hx
        unfold Before at this
        simp only [Bool.and_eq_true, decide_eq_true_eq]
        grind
      rw [List.filter_cons, this]
      split <;> simp

theorem filter_shared {l' : List (Range K × W)} {e : Range K × V} {l : List (Range K × V)}
    (hb : ∀ x ∈ l, Before e x) :
    shared l l' = shared l (l'.filter fun f => !decide (f.1.stop ≤ e.1.stop)) := by
  rw [shared, shared, List.flatMap, List.flatMap]
  refine congrArg _ (List.map_congr_left fun x hx => ?_)
  have := hb x hx
  unfold Before at this
  rw [sharedWith, sharedWith, List.filter_filter]
  refine congrArg _ (List.filter_congr fun f _ => ?_)
  rw [Bool.eq_iff_iff]
  simp only [Bool.and_eq_true, decide_eq_true_eq, Bool.not_eq_true', decide_eq_false_iff_not]
  grind

theorem filter_split {α : Type} (p : α → Bool) : ∀ l : List α,
    l.length = (l.filter p).length + (l.filter fun x => !p x).length
  | [] => rfl
  | x :: l => by
    have := filter_split p l
    cases h : p x <;> simp [h] <;> omega

theorem shared_length {l : List (Range K × V)} (h : Sep l) : ∀ {l' : List (Range K × W)}, Sep l' →
    (shared l l').length ≤ l.length + l'.length - 1 := by
  induction l with
  | nil => intro l' _; simp [shared]
  | cons e l ih =>
    intro l' h'
    have hp := List.pairwise_cons.1 h.pw
    have hs : Sep l := ⟨hp.2, fun x hx => h.ne x (List.mem_cons_of_mem _ hx)⟩
    have h1 := overlap_count h' e
    have h2 : (sharedWith l' e).length ≤ l'.length := by
      rw [sharedWith, List.length_map]
      exact List.length_filter_le _ _
    have hsub : Sep (l'.filter fun f => !decide (f.1.stop ≤ e.1.stop)) :=
      ⟨h'.pw.sublist List.filter_sublist, fun x hx => h'.ne x (List.mem_filter.1 hx).1⟩
    have h3 := ih hs hsub
    have h4 : l'.length = (l'.filter fun f => decide (f.1.stop ≤ e.1.stop)).length +
        (l'.filter fun f => !decide (f.1.stop ≤ e.1.stop)).length :=
      filter_split _ l'
    have h5 : (shared (e :: l) l').length = (sharedWith l' e).length + (shared l l').length := by
      rw [shared, List.flatMap_cons, List.length_append]
      rfl
    rw [h5, filter_shared hp.1]
    cases hl : (l'.filter fun f => !decide (f.1.stop ≤ e.1.stop)) with
    | nil =>
      rw [shared_nil, List.length_nil, List.length_cons]
      omega
    | cons f r =>
      rw [hl] at h3 h4
      simp only [List.length_cons] at h3 h4 ⊢
      cases l with
      | nil =>
        simp only [shared, List.flatMap_nil, List.length_nil]
        omega
      | cons x l =>
        simp only [List.length_cons] at h3 ⊢
        omega

variable [BEq V] [LawfulBEq V] [BEq W] [LawfulBEq W]

theorem zipOne_eq {b : RangeMap K W} (hb : Reachable b) (e : Range K × V) :
    zipOne b e = .ok (sharedWith b.iter e) := by
  obtain ⟨o, h1, h2⟩ := C13_overlapping_exact hb e.1
  have h3 : drain Overlapping.next (b.len + 1) o = .ok (b.iter.filter fun f =>
      decide (e.1.start < f.1.stop) && decide (f.1.start < e.1.stop)) :=
    Yields.drain h2 (Nat.lt_succ_of_le (List.length_filter_le _ _))
  simp only [zipOne, h1, bind, Except.bind, h3]
  rfl

theorem mapM_ok {α β : Type} {f : α → Except Panic β} {g : α → β} (h : ∀ a, f a = .ok (g a)) :
    ∀ l : List α, l.mapM f = .ok (l.map g)
  | [] => rfl
  | a :: l => by
    rw [List.mapM_cons, h, mapM_ok h l]
    rfl

/-- **C125** Joining two maps by way of `overlapping` succeeds, and the result stores exactly the
parts that an entry of the one and an entry of the other share, in order: nothing is coalesced. -/
theorem C125_zip {a : RangeMap K V} {b : RangeMap K W} (ha : Reachable a) (hb : Reachable b) :
    ∃ z, zip a b = .ok z ∧ Reachable z ∧ z.iter = shared a.iter b.iter := by
  have h := collect_wf (shared_wf ha.wf hb.wf)
  refine ⟨_, ?_, h.2, rfl⟩
  rw [zip, mapM_ok (zipOne_eq hb)]
  exact h.1

/-- **C125** A key has a pair in the joined map exactly if it has the one half in the one map and
the other half in the other. -/
theorem C125_get {a : RangeMap K V} {b : RangeMap K W} (ha : Reachable a) (hb : Reachable b)
    {z : RangeMap K (V × W)} (hz : zip a b = .ok z) (k : K) (v : V) (w : W) :
    z.get k = .ok (some (v, w)) ↔ a.get k = .ok (some v) ∧ b.get k = .ok (some w) := by
  obtain ⟨z', h1, h2, h3⟩ := C125_zip ha hb
  cases hz.symm.trans h1
  rw [get_eq_some h2.wf.sep, get_eq_some ha.wf.sep, get_eq_some hb.wf.sep,
    show z.btm = _ from h3]
  exact maps_shared k (v, w)

/-- **C125** The joined map has fewer ranges than the two together. -/
theorem C125_len {a : RangeMap K V} {b : RangeMap K W} (ha : Reachable a) (hb : Reachable b)
    {z : RangeMap K (V × W)} (hz : zip a b = .ok z) : z.len ≤ a.len + b.len - 1 := by
  obtain ⟨z', h1, h2, h3⟩ := C125_zip ha hb
  cases hz.symm.trans h1
  unfold RangeMap.len
  rw [show z.btm = _ from h3]
  exact shared_length ha.wf.sep hb.wf.sep

end

/-! ### Examples -/

/-- A map to join with `Demo.map`. -/
def zipOps : List (Op (Range Nat) Nat) :=
    [.insert ⟨3, 12⟩ 1, .insert ⟨12, 30⟩ 2, .insert ⟨20, 22⟩ 1]

def zipOps' : List (Op (Range Nat) Char) :=
    [.insert ⟨0, 15⟩ 'a', .insert ⟨18, 40⟩ 'b', .remove ⟨5, 6⟩]

example : ((zip (run zipOps) (run zipOps')).map (·.iter)).toOption =
    some [(⟨3, 5⟩, (1, 'a')), (⟨6, 12⟩, (1, 'a')), (⟨12, 15⟩, (2, 'a')), (⟨18, 20⟩, (2, 'b')),
      (⟨20, 22⟩, (1, 'b')), (⟨22, 30⟩, (2, 'b'))] := by decide +kernel
example := C125_zip (a := run zipOps) (b := run zipOps') ⟨_, rfl⟩ ⟨_, rfl⟩
example : ∃ z, zip (run zipOps) (run zipOps') = .ok z ∧ z.get 21 = .ok (some (1, 'b')) ∧
    z.len ≤ 4 + 3 - 1 := by
  obtain ⟨z, hz, -, -⟩ := C125_zip (a := run zipOps) (b := run zipOps') ⟨_, rfl⟩ ⟨_, rfl⟩
  exact ⟨z, hz, (C125_get ⟨_, rfl⟩ ⟨_, rfl⟩ hz 21 1 'b').2 ⟨rfl, rfl⟩,
    C125_len ⟨_, rfl⟩ ⟨_, rfl⟩ hz⟩

end Props
end Verif

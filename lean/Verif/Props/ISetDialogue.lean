import Verif.Model.SetDialogue
import Verif.Props.IDialogue
import Verif.Props.OpsExact

/-!
# C112: every program sees plain sets of keys (inclusive ranges)
-/
set_option linter.unusedSectionVars false

namespace Verif.Spec
section
variable {K : Type} [LE K] [LT K] [DecidableLE K] [DecidableLT K]

/-- `f` with the ranges added in turn, up to the first one that is inverted. -/
def iaddAll (f : K → Bool) : List (Range K) → K → Bool
  | [] => f
  | r :: t =>
    if r.start ≤ r.stop then iaddAll (fun k => decide (r.start ≤ k ∧ k ≤ r.stop) || f k) t else f

/-- What a call does to plain sets `sets`.  The calls that panic are those with an inverted
range. -/
def isetEffect (sets : Nat → K → Bool) : SetCall K → Nat → K → Bool
  | .insert i r =>
    if r.start ≤ r.stop then
      store sets i fun k => decide (r.start ≤ k ∧ k ≤ r.stop) || sets i k
    else sets
  | .remove i r =>
    if r.start ≤ r.stop then
      store sets i fun k => !decide (r.start ≤ k ∧ k ≤ r.stop) && sets i k
    else sets
  | .clear i => store sets i fun _ => false
  | .extend i items => store sets i (iaddAll (sets i) items)
  | .collect i items =>
    if ∀ r ∈ items, r.start ≤ r.stop then store sets i (iaddAll (fun _ => false) items) else sets
  | .copy i j => store sets i (sets j)
  | .append i j => store sets i fun k => sets j k || sets i k
  | .or i j l => store sets i fun k => sets j k || sets l k
  | .and i j l => store sets i fun k => sets j k && sets l k
  | _ => sets

/-- `l` is the keys with `P`, cut into their longest runs, in order. -/
structure IStretches (P : K → Prop) (l : List (RangeInclusive K)) : Prop where
  nonempty : ∀ r ∈ l, r.start ≤ r.stop ∧ r.exhausted = false
  ordered : l.Pairwise fun a b => ∃ k, a.stop < k ∧ k < b.start
  exact : ∀ k, (∃ r ∈ l, r.start ≤ k ∧ k ≤ r.stop) ↔ P k

/-- What a call may answer when the sets are the plain sets `sets`. -/
def ISetSays (sets : Nat → K → Bool) : SetCall K → SetAnswer (RangeInclusive K) → Prop
  | .insert _ r, a => a = if r.start ≤ r.stop then .done else .panicked
  | .remove _ r, a => a = if r.start ≤ r.stop then .done else .panicked
  | .clear _, a => a = .done
  | .extend _ items, a => a = if ∀ r ∈ items, r.start ≤ r.stop then .done else .panicked
  | .collect _ items, a => a = if ∀ r ∈ items, r.start ≤ r.stop then .done else .panicked
  | .copy _ _, a => a = .done
  | .append _ _, a => a = .done
  | .or _ _ _, a => a = .done
  | .and _ _ _, a => a = .done
  | .contains i k, a => a = .flag (sets i k)
  | .get i k, a => ∃ l, IStretches (fun k => sets i k) l ∧
      a = .range (l.find? fun r => decide (r.start ≤ k ∧ k ≤ r.stop))
  | .len i, a => ∃ l, IStretches (fun k => sets i k) l ∧ a = .number l.length
  | .isEmpty i, a => ∃ b, a = .flag b ∧ (b = true ↔ ∀ k, sets i k = false)
  | .first i, a => ∃ l, IStretches (fun k => sets i k) l ∧ a = .range l.head?
  | .last i, a => ∃ l, IStretches (fun k => sets i k) l ∧ a = .range l.getLast?
  | .iter i cs, a => ∃ l, IStretches (fun k => sets i k) l ∧ a = .ranges (dequeScript cs l)
  | .overlapping i q cs, a => ∃ l, IStretches (fun k => sets i k) l ∧
      a = .ranges (dequeScript cs
        (l.filter fun r => decide (q.start ≤ r.stop) && decide (r.start ≤ q.stop)))
  | .overlaps i q, a => ∃ l b, IStretches (fun k => sets i k) l ∧ a = .flag b ∧
      (b = true ↔ ∃ r ∈ l, q.start ≤ r.stop ∧ r.start ≤ q.stop)
  | .gaps i q n, a => ∃ l,
      IStretches (fun k => q.start ≤ k ∧ k ≤ q.stop ∧ sets i k = false) l ∧
      a = .ranges ((l.map some ++ List.replicate n none).take n)
  | .union i j n, a => ∃ x y l, IStretches (fun k => sets i k) x ∧
      IStretches (fun k => sets j k) y ∧ IDivision (x ++ y) l ∧
      (∀ r ∈ l, r.exhausted = false) ∧
      a = .ranges ((l.map some ++ List.replicate n none).take n)
  | .intersection i j n, a => ∃ l, IStretches (fun k => sets i k ∧ sets j k) l ∧
      a = .ranges ((l.map some ++ List.replicate n none).take n)
  | .eq i j, a => ∃ b, a = .flag b ∧ (b = true ↔ ∀ k, sets i k = sets j k)

/-- `all` is what a program that has had `answers` may hear in at most `n` more calls. -/
def ISetHears (program : SetProgram (RangeInclusive K) K) :
    Nat → List (SetAnswer (RangeInclusive K)) →
    (Nat → K → Bool) → List (SetAnswer (RangeInclusive K)) → Prop
  | 0, answers, _, all => all = answers
  | n + 1, answers, sets, all =>
    match program answers with
    | none => all = answers
    | some c => ∃ a, ISetSays sets c a ∧ ISetHears program n (a :: answers) (isetEffect sets c) all

end
end Verif.Spec

namespace Verif.Props.Inclusive
open Spec RangeInclusiveSet
open RangeInclusiveMap (WF)
section
variable {K : Type} [LE K] [LT K] [DecidableLE K] [DecidableLT K]
  [Std.IsLinearPreorder K] [Std.LawfulOrderLT K] {S : StepFns K}

/-- The sets of the program are the plain sets. -/
def SetMirrors (S : StepFns K) (sets : Nat → RangeInclusiveSet K) (plain : Nat → K → Bool) : Prop :=
  ∀ i, Reachable S (sets i) ∧ ∀ k, (sets i).contains k = .ok (plain i k)

theorem between {a b : K} (h : a < b) (h' : ¬ Next a b) : ∃ k, a < k ∧ k < b := by
  apply Classical.byContradiction
  intro hc
  refine h' ⟨h, fun d hd => ?_⟩
  apply Classical.byContradiction
  intro hb
  exact hc ⟨d, hd, by grind⟩

theorem stretches_of_wf {s : RangeInclusiveSet K} (h : WF s.rm.btm) {f : K → Bool}
    (hf : ∀ k, s.has k = f k) : IStretches (fun k => f k) s.iter := by
  obtain ⟨h1, h2⟩ := (wf_iff s).1 h
  exact ⟨h1, h2.imp fun h => between h.1 h.2, fun k => by rw [← has_iff, hf]⟩

theorem SetMirrors.store (hS : LawfulSteps S) {sets : Nat → RangeInclusiveSet K}
    {plain : Nat → K → Bool} (h : SetMirrors S sets plain) (i : Nat) {s : RangeInclusiveSet K}
    {f : K → Bool}
    (hs : WF s.rm.btm) (hf : ∀ k, s.has k = f k) :
    SetMirrors S (Verif.store sets i s) (Verif.store plain i f) := by
  intro j
  unfold Verif.store
  split
  · exact ⟨.of_wf hS hs, fun k => by rw [contains_eq hs, hf]⟩
  · exact h j

theorem set_insert_invalid {s : RangeInclusiveSet K} {r : Range K} (hr : ¬ r.start ≤ r.stop) :
    s.insert S r.closed = .error .assertFailed ∧
    s.remove S r.closed = .error .assertFailed := by
  rw [insert_rm, remove_rm, RangeInclusiveMap.insert_invalid (r := r.closed) hr,
    RangeInclusiveMap.remove_invalid (r := r.closed) hr]
  exact ⟨rfl, rfl⟩

theorem extend_iaddAll (hS : LawfulSteps S) (items : List (Range K)) :
    ∀ {s : RangeInclusiveSet K}, WF s.rm.btm →
    ∀ {f : K → Bool}, (∀ k, s.has k = f k) →
    WF (s.extend S (items.map Range.closed)).1.rm.btm ∧
    (∀ k, (s.extend S (items.map Range.closed)).1.has k = iaddAll f items k) ∧
    (if ∀ r ∈ items, r.start ≤ r.stop then (s.extend S (items.map Range.closed)).2 = .ok ()
      else ∃ p, (s.extend S (items.map Range.closed)).2 = .error p) := by
  induction items with
  | nil =>
    intro s h f hf
    exact ⟨h, hf, by simp [RangeInclusiveSet.extend]⟩
  | cons r t ih =>
    intro s h f hf
    rw [List.map_cons]
    unfold RangeInclusiveSet.extend iaddAll
    by_cases hr : r.start ≤ r.stop
    · obtain ⟨s', h1⟩ := insert_ok (r := r.closed) hS h.sc hr
      have h2 : ∀ k, s'.has k = (decide (r.start ≤ k ∧ k ≤ r.stop) || f k) := fun k => by
        rw [(insert_has hS h rfl h1 k).2.2, hf]
        rfl
      have := ih (insert_has hS h rfl h1 r.start).1 h2
      simp only [h1, hr, if_true]
      refine ⟨this.1, this.2.1, ?_⟩
      simpa only [List.forall_mem_cons, hr, true_and] using this.2.2
    · simp only [(set_insert_invalid hr).1, hr, if_false]
      refine ⟨h, hf, ?_⟩
      rw [if_neg fun hc => hr (hc _ (List.mem_cons_self ..))]
      exact ⟨_, rfl⟩

/-- **C112** One call, on sets that are the plain sets `plain`: what it answers is what plain sets
may say, and afterwards the sets are the plain sets with the effect of the call. -/
theorem C112_call (hS : LawfulSteps S) {sets : Nat → RangeInclusiveSet K}
    {plain : Nat → K → Bool}
    (h : SetMirrors S sets plain) (c : SetCall K) :
    ISetSays plain c (perform S sets c).1 ∧
      SetMirrors S (perform S sets c).2 (isetEffect plain c) := by
  have hs : ∀ i, Reachable S (sets i) := fun i => (h i).1
  have hc : ∀ i k, (sets i).contains k = .ok (plain i k) := fun i => (h i).2
  have hw : ∀ i, WF (sets i).rm.btm := fun i => (hs i).wf hS
  have hh : ∀ i k, (sets i).has k = plain i k := fun i k => by
    have := hc i k
    rw [contains_eq (hw i)] at this
    exact Except.ok.inj this
  have hr : ∀ i, IStretches (fun k => plain i k) (sets i).iter := fun i =>
    stretches_of_wf (hw i) (hh i)
  cases c with
  | insert i r =>
    by_cases hv : r.start ≤ r.stop
    · obtain ⟨s', h1⟩ := insert_ok (r := r.closed) hS (hw i).sc hv
      simp only [perform, renew, h1, ISetSays, isetEffect, hv, if_true, true_and]
      refine h.store hS i (insert_has hS (hw i) rfl h1 r.start).1 fun k => ?_
      rw [(insert_has hS (hw i) rfl h1 k).2.2, hh]
      rfl
    · simp only [perform, renew, (set_insert_invalid hv).1, ISetSays, isetEffect, hv, if_false,
        true_and]
      exact h
  | remove i r =>
    by_cases hv : r.start ≤ r.stop
    · obtain ⟨s', h1⟩ := remove_ok (r := r.closed) hS (hw i).sc hv
      simp only [perform, renew, h1, ISetSays, isetEffect, hv, if_true, true_and]
      refine h.store hS i (remove_has hS (hw i) h1 r.start).1 fun k => ?_
      rw [(remove_has hS (hw i) h1 k).2.2, hh]
      rfl
    · simp only [perform, renew, (set_insert_invalid hv).2, ISetSays, isetEffect, hv, if_false,
        true_and]
      exact h
  | clear i => exact ⟨rfl, h.store hS i RangeInclusiveMap.WF.nil fun k => rfl⟩
  | extend i items =>
    obtain ⟨h0, h1, h2⟩ := extend_iaddAll hS items (hw i) (hh i)
    refine ⟨?_, h.store hS i h0 h1⟩
    simp only [perform, ISetSays]
    split at h2
    · rw [h2, if_pos ‹_›]; rfl
    · obtain ⟨p, h2⟩ := h2
      rw [h2, if_neg ‹_›]; rfl
  | collect i items =>
    obtain ⟨h0, h1, h2⟩ := extend_iaddAll hS items
      (s := (RangeInclusiveSet.new : RangeInclusiveSet K)) RangeInclusiveMap.WF.nil
      (f := fun _ => false) (fun k => rfl)
    simp only [perform, ISetSays, isetEffect]
    split at h2
    · have h3 : (fromIter S (items.map Range.closed) : Except Panic (RangeInclusiveSet K)) =
          .ok ((RangeInclusiveSet.new : RangeInclusiveSet K).extend S
            (items.map Range.closed)).1 := by
        simp only [fromIter, h2]; rfl
      rw [h3, if_pos ‹_›, if_pos ‹_›]
      exact ⟨rfl, h.store hS i h0 h1⟩
    · obtain ⟨p, h2⟩ := h2
      have h3 : (fromIter S (items.map Range.closed) : Except Panic (RangeInclusiveSet K)) =
          .error p := by
        simp only [fromIter, h2]; rfl
      rw [h3, if_neg ‹_›, if_neg ‹_›]
      exact ⟨rfl, h⟩
  | copy i j => exact ⟨rfl, h.store hS i (hw j) (hh j)⟩
  | append i j =>
    obtain ⟨h0, h1, h2⟩ := extend_has hS (sets j).iter (hw i) (hr j).nonempty
    refine ⟨?_, h.store hS i h1 fun k => ?_⟩
    · simp only [perform, ISetSays, h0]; rfl
    · rw [h2 k, hh i]
      congr 1
      exact hh j k
  | or i j l =>
    obtain ⟨c, h1, h2, h3⟩ := bitOr_spec hS (hw j) (hw l)
    simp only [perform, h1, renew, ISetSays, isetEffect, true_and]
    exact h.store hS i h2 fun k => by rw [h3, hh, hh]
  | and i j l =>
    obtain ⟨c, h1, h2, -, h3⟩ := bitAnd_spec hS (hw j) (hw l)
    simp only [perform, h1, renew, ISetSays, isetEffect, true_and]
    exact h.store hS i h2 fun k => by rw [h3, hh, hh]
  | contains i k => exact ⟨by simp only [perform, ISetSays, hc]; rfl, h⟩
  | get i k =>
    refine ⟨⟨_, hr i, ?_⟩, h⟩
    obtain ⟨o, ho, -, h2⟩ := C36_get hS (hs i) k
    simp only [perform, ho, SetAnswer.of]
    congr 1
    cases hf : (sets i).iter.find? fun r => decide (r.start ≤ k ∧ k ≤ r.stop) with
    | none =>
      cases o with
      | none => rfl
      | some r =>
        obtain ⟨h3, h4⟩ := (h2 r).1 rfl
        have := List.find?_eq_none.1 hf r h3
        simp [h4] at this
    | some r =>
      have h6 := List.find?_some hf
      simp only [decide_eq_true_eq] at h6
      exact (h2 r).2 ⟨List.mem_of_find?_eq_some hf, h6⟩
  | len i => exact ⟨⟨_, hr i, by simp only [perform]; rw [(C48_iter (sets i) []).2.2.1]⟩, h⟩
  | isEmpty i =>
    refine ⟨⟨_, rfl, ?_⟩, h⟩
    rw [(C48_iter (sets i) []).2.2.2.1]
    constructor
    · intro h1 k
      have := (hr i).exact k
      rw [h1] at this
      simpa using this
    · intro h1
      cases hb : (sets i).iter with
      | nil => rfl
      | cons r t =>
        have he : r ∈ (sets i).iter := by
          rw [hb]
          exact List.mem_cons_self ..
        have := ((hr i).exact r.start).1 ⟨r, he, Std.le_refl _, ((hr i).nonempty r he).1⟩
        simp [h1] at this
  | first i =>
    exact ⟨⟨_, hr i, by simp only [perform]; rw [(C48_iter (sets i) []).2.2.2.2.1]⟩, h⟩
  | last i =>
    exact ⟨⟨_, hr i, by simp only [perform]; rw [(C48_iter (sets i) []).2.2.2.2.2]⟩, h⟩
  | iter i cs =>
    exact ⟨⟨_, hr i, by simp only [perform]; rw [(C48_iter (sets i) cs).1]⟩, h⟩
  | overlapping i q cs =>
    obtain ⟨o, h1, h2, -⟩ := C48_overlapping hS (hs i).any q.closed cs
    refine ⟨⟨_, hr i, ?_⟩, h⟩
    simp only [perform, h1, SetAnswer.of, h2]
    rfl
  | overlaps i q =>
    obtain ⟨o, -, -, b, h1, h2⟩ := C48_overlapping hS (hs i).any q.closed []
    exact ⟨⟨_, b, hr i, by simp only [perform, h1]; rfl, h2⟩, h⟩
  | gaps i q n =>
    obtain ⟨g, l, h1, h2, h3, h4, h5⟩ := C48_gaps hS (hs i) q.closed
    refine ⟨⟨l, ⟨fun r hr => ⟨(h3 r hr).1, (h3 r hr).2.1⟩, h4.imp fun h => between h.1 h.2,
      fun k => ?_⟩, ?_⟩, h⟩
    · rw [h5, hc]
      simp [Range.closed, RangeInclusive.mk']
    · simp only [perform, h1, bind, Except.bind, h2 n, SetAnswer.of]
  | union i j n =>
    obtain ⟨l, h1, h2⟩ := C81_union_division hS (hs i) (hs j)
    obtain ⟨l', h1', h3, -⟩ := C37_union hS (hs i) (hs j)
    obtain rfl := Yields.unique h1 h1'
    exact ⟨⟨_, _, l, hr i, hr j, h2, fun r hr => (h3 r hr).2, by simp only [perform, h1 n]⟩, h⟩
  | intersection i j n =>
    obtain ⟨l, h1, h2, h3, h4⟩ := C38_intersection hS (hs i) (hs j)
    refine ⟨⟨l, ⟨h2, h3.imp fun h => between h.1 h.2, fun k => ?_⟩,
      by simp only [perform, h1 n]⟩, h⟩
    rw [h4, hc, hc]
    simp
  | eq i j =>
    refine ⟨⟨_, rfl, ?_⟩, h⟩
    rw [eq_iff_has hS (hw i) (hw j)]
    simp only [hh]

example := C112_call (K := UIntW 8) Demo.u8_lawful
    (sets := fun i => if i = 0 then Demo.iset else Demo.iset')
    (plain := fun i k => if i = 0 then Demo.iset.has k else Demo.iset'.has k)
    (fun i => by
      by_cases hi : i = 0
      · simp only [hi, if_true]
        exact ⟨Demo.iset_reachable, contains_eq (Demo.iset_reachable.wf Demo.u8_lawful)⟩
      · simp only [hi, if_false]
        exact ⟨Demo.iset'_reachable, contains_eq (Demo.iset'_reachable.wf Demo.u8_lawful)⟩)
    (.union 0 1 9)

/-- **C112** Whatever the program, and however its calls depend on the answers: it hears what it
could hear from plain sets of keys.  In particular the only calls that panic are those with an
inverted range. -/
theorem C112_programs (hS : LawfulSteps S)
    (program : SetProgram (RangeInclusive K) K) (n : Nat) :
    ISetHears program n [] (fun _ _ => false)
      (dialogue S program n [] fun _ => RangeInclusiveSet.new) := by
  suffices H : ∀ (n : Nat) (answers : List (SetAnswer (RangeInclusive K)))
      (sets : Nat → RangeInclusiveSet K) (plain : Nat → K → Bool), SetMirrors S sets plain →
      ISetHears program n answers plain (dialogue S program n answers sets) from
    H n [] _ _ fun i => ⟨⟨[], by simp, rfl⟩, fun k => rfl⟩
  intro n
  induction n with
  | zero => exact fun _ _ _ _ => rfl
  | succ n ih =>
    intro answers sets plain h
    unfold ISetHears dialogue
    cases program answers with
    | none => rfl
    | some c => exact ⟨_, (C112_call hS h c).1, ih _ _ _ (C112_call hS h c).2⟩

/-- A program whose fifth call depends on the answer to the fourth. -/
def meetThenJoin : SetProgram (RangeInclusive (UIntW 8)) (UIntW 8)
  | [] => some (.extend 0 [⟨⟨1⟩, ⟨3⟩⟩, ⟨⟨6⟩, ⟨8⟩⟩, ⟨⟨5⟩, ⟨4⟩⟩, ⟨⟨20⟩, ⟨30⟩⟩])
  | [_] => some (.collect 1 [⟨⟨3⟩, ⟨6⟩⟩, ⟨⟨9⟩, ⟨255⟩⟩])
  | [_, _] => some (.and 2 0 1)
  | [_, _, _] => some (.isEmpty 2)
  | [.flag false, _, _, _] => some (.union 0 1 3)
  | [_, _, _, _] => some (.clear 0)
  | [_, _, _, _, _] => some (.or 0 0 1)
  | [_, _, _, _, _, _] => some (.iter 0 [.front, .back])
  | [_, _, _, _, _, _, _] => some (.intersection 0 2 4)
  | [_, _, _, _, _, _, _, _] => some (.eq 1 2)
  | _ => none

example : (dialogue Demo.u8 meetThenJoin 20 [] fun _ => RangeInclusiveSet.new) =
    [.flag false, .ranges [some (Demo.by8 3 3), some (Demo.by8 6 6), none, none],
      .ranges [some (Demo.by8 1 255), none], .done,
      .ranges [some (Demo.by8 1 8), some (Demo.by8 9 255), none], .flag false, .done, .done,
      .panicked] := by
  decide +kernel
example := C112_programs Demo.u8_lawful meetThenJoin 20

/-- The stretches of a set of keys are determined by it, when keys that compare equal are equal. -/
theorem stretches_unique (hS : LawfulSteps S) (hk : ∀ a b : K, a ≤ b → b ≤ a → a = b)
    {P : K → Prop} {l l' : List (RangeInclusive K)} (h : IStretches P l)
    (h' : IStretches P l') : l = l' :=
  ranges_unique hS hk l l' P h.nonempty h'.nonempty h.ordered h'.ordered h.exact h'.exact

theorem division_unique (hk : ∀ a b : K, a ≤ b → b ≤ a → a = b)
    {xs l l' : List (RangeInclusive K)} (h : IDivision xs l) (h' : IDivision xs l')
    (hx : ∀ r ∈ l, r.exhausted = false) (hx' : ∀ r ∈ l', r.exhausted = false) : l = l' := by
  obtain ⟨h1, h2⟩ := C81_division_unique h h'
  refine List.ext_getElem h1 fun i hi hi' => ?_
  have hz : i < (l.zip l').length := by
    rw [List.length_zip]
    omega
  obtain ⟨h3, h4⟩ := h2 (l[i], l'[i]) (by
    rw [← List.getElem_zip (h := hz)]
    exact List.getElem_mem hz)
  rw [keq_iff] at h3 h4
  have h5 := hx _ (List.getElem_mem hi)
  have h6 := hx' _ (List.getElem_mem hi')
  cases hl : l[i]
  cases hl' : l'[i]
  rw [hl] at h3 h4 h5
  rw [hl'] at h3 h4 h6
  simp only at h3 h4 h5 h6
  rw [hk _ _ h3.1 h3.2, hk _ _ h4.1 h4.2, h5, h6]

/-- **C112** When keys that compare equal are equal, the plain sets leave no choice about the
answer of a call. -/
theorem C112_one_answer (hS : LawfulSteps S) (hk : ∀ a b : K, a ≤ b → b ≤ a → a = b)
    {plain : Nat → K → Bool}
    {c : SetCall K} {a a' : SetAnswer (RangeInclusive K)} (h : ISetSays plain c a)
    (h' : ISetSays plain c a') : a = a' := by
  have flag : ∀ {P : Prop} {a a' : SetAnswer (RangeInclusive K)},
      (∃ b, a = .flag b ∧ (b = true ↔ P)) → (∃ b, a' = .flag b ∧ (b = true ↔ P)) → a = a' := by
    rintro P _ _ ⟨b, rfl, h1⟩ ⟨b', rfl, h2⟩
    congr 1
    exact Bool.eq_iff_iff.2 (h1.trans h2.symm)
  cases c <;> simp only [ISetSays] at h h'
  case isEmpty => exact flag h h'
  case eq => exact flag h h'
  case overlaps =>
    obtain ⟨l, b, h1, h2, h3⟩ := h
    obtain ⟨l', b', h1', h2', h3'⟩ := h'
    cases stretches_unique hS hk h1 h1'
    exact flag ⟨b, h2, h3⟩ ⟨b', h2', h3'⟩
  case union =>
    obtain ⟨x, y, l, h1, h2, h3, h4, rfl⟩ := h
    obtain ⟨x', y', l', h1', h2', h3', h4', rfl⟩ := h'
    cases stretches_unique hS hk h1 h1'
    cases stretches_unique hS hk h2 h2'
    rw [division_unique hk h3 h3' h4 h4']
  all_goals first
    | exact h.trans h'.symm
    | (obtain ⟨l, h1, rfl⟩ := h
       obtain ⟨l', h1', rfl⟩ := h'
       rw [stretches_unique hS hk h1 h1'])

example := C112_one_answer (K := UIntW 8) Demo.u8_lawful Demo.u8_antisymm
    (plain := fun _ k => Demo.iset.has k) (c := .get 0 ⟨7⟩) (a' := .panicked)
    (a := .range (some (Demo.by8 5 14)))
    ⟨_, stretches_of_wf (Demo.iset_reachable.wf Demo.u8_lawful) fun _ => rfl, by rfl⟩

/-- **C112** Then the answers a program hears are exactly those it could hear from plain sets of
keys: nothing it can do tells the two apart. -/
theorem C112_exactly (hS : LawfulSteps S) (hk : ∀ a b : K, a ≤ b → b ≤ a → a = b)
    (program : SetProgram (RangeInclusive K) K)
    (n : Nat) (all : List (SetAnswer (RangeInclusive K))) :
    ISetHears program n [] (fun _ _ => false) all ↔
      all = dialogue S program n [] fun _ => RangeInclusiveSet.new := by
  constructor
  · suffices H : ∀ (n : Nat) (answers : List (SetAnswer (RangeInclusive K)))
        (plain : Nat → K → Bool) (all all' : List (SetAnswer (RangeInclusive K))),
        ISetHears program n answers plain all →
        ISetHears program n answers plain all' → all = all' from
      fun h => H n [] _ _ _ h (C112_programs hS program n)
    intro n
    induction n with
    | zero => exact fun _ _ _ _ h h' => Eq.trans h (Eq.symm h')
    | succ n ih =>
      intro answers plain all all' h h'
      unfold ISetHears at h h'
      cases hp : program answers with
      | none =>
        rw [hp] at h h'
        exact Eq.trans h (Eq.symm h')
      | some c =>
        rw [hp] at h h'
        obtain ⟨a, h1, h2⟩ := h
        obtain ⟨a', h1', h2'⟩ := h'
        cases C112_one_answer hS hk h1 h1'
        exact ih _ _ _ _ h2 h2'
  · rintro rfl
    exact C112_programs hS program n

example := C112_exactly Demo.u8_lawful Demo.u8_antisymm meetThenJoin 20

end
end Verif.Props.Inclusive

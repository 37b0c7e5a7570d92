import Verif.Model.Dialogue
import Verif.Proof.IAppend
import Verif.Props.IMap
import Verif.Props.IIter
import Verif.Props.Recipes
import Verif.Props.Demo

/-!
# C111: every program sees a plain map from keys to values (inclusive ranges)
-/
set_option linter.unusedSectionVars false

namespace Verif.Spec
section
variable {K V : Type} [LE K] [LT K] [DecidableLE K] [DecidableLT K]

/-- `f` with the keys of `a..=b` mapped to `o`. -/
def iassign (f : K → Option V) (r : Range K) (o : Option V) : K → Option V :=
  fun k => if r.start ≤ k ∧ k ≤ r.stop then o else f k

/-- `f` with the items assigned in turn, up to the first one whose range is inverted. -/
def iassignAll (f : K → Option V) : List (Range K × V) → K → Option V
  | [] => f
  | (r, v) :: t => if r.start ≤ r.stop then iassignAll (iassign f r (some v)) t else f

/-- What a call does to plain maps `maps`.
The calls that panic are those with an inverted range. -/
def ieffect (maps : Nat → K → Option V) : Call K V → Nat → K → Option V
  | .insert i r v => if r.start ≤ r.stop then store maps i (iassign (maps i) r (some v)) else maps
  | .remove i r => if r.start ≤ r.stop then store maps i (iassign (maps i) r none) else maps
  | .clear i => store maps i fun _ => none
  | .extend i items => store maps i (iassignAll (maps i) items)
  | .collect i items =>
    if ∀ e ∈ items, e.1.start ≤ e.1.stop then store maps i (iassignAll (fun _ => none) items)
    else maps
  | .copy i j => store maps i (maps j)
  | .append i j => store maps i fun k => (maps j k).or (maps i k)
  | _ => maps

/-- `l` is `f` cut into its longest runs of equal values, in order. -/
structure IRuns (f : K → Option V) (l : List (RangeInclusive K × V)) : Prop where
  nonempty : ∀ e ∈ l, e.1.start ≤ e.1.stop ∧ e.1.exhausted = false
  ordered : l.Pairwise fun a b => a.1.stop < b.1.start
  exact : ∀ k v, f k = some v ↔ ∃ e ∈ l, e.1.start ≤ k ∧ k ≤ e.1.stop ∧ e.2 = v
  longest : ∀ a ∈ l, ∀ b ∈ l, Next a.1.stop b.1.start → a.2 ≠ b.2

/-- `l` is the keys of `q` that `f` does not map, cut into their longest runs, in order. -/
structure IHoles (f : K → Option V) (q : Range K) (l : List (RangeInclusive K)) : Prop where
  nonempty : ∀ r ∈ l, r.start ≤ r.stop ∧ r.exhausted = false
  ordered : l.Pairwise fun a b => ∃ k, a.stop < k ∧ k < b.start
  exact : ∀ k, (∃ r ∈ l, r.start ≤ k ∧ k ≤ r.stop) ↔ q.start ≤ k ∧ k ≤ q.stop ∧ f k = none

/-- What a call may answer when the maps are the plain maps `maps`. -/
def ISays (maps : Nat → K → Option V) : Call K V → Answer (RangeInclusive K) V → Prop
  | .insert _ r _, a => a = if r.start ≤ r.stop then .done else .panicked
  | .remove _ r, a => a = if r.start ≤ r.stop then .done else .panicked
  | .clear _, a => a = .done
  | .extend _ items, a => a = if ∀ e ∈ items, e.1.start ≤ e.1.stop then .done else .panicked
  | .collect _ items, a => a = if ∀ e ∈ items, e.1.start ≤ e.1.stop then .done else .panicked
  | .copy _ _, a => a = .done
  | .append _ _, a => a = .done
  | .get i k, a => a = .value (maps i k)
  | .getKeyValue i k, a => ∃ l, IRuns (maps i) l ∧
      a = .entry (l.find? fun e => decide (e.1.start ≤ k ∧ k ≤ e.1.stop))
  | .containsKey i k, a => a = .flag (maps i k).isSome
  | .len i, a => ∃ l, IRuns (maps i) l ∧ a = .number l.length
  | .isEmpty i, a => ∃ b, a = .flag b ∧ (b = true ↔ ∀ k, maps i k = none)
  | .first i, a => ∃ l, IRuns (maps i) l ∧ a = .entry l.head?
  | .last i, a => ∃ l, IRuns (maps i) l ∧ a = .entry l.getLast?
  | .iter i cs, a => ∃ l, IRuns (maps i) l ∧ a = .entries (dequeScript cs l)
  | .overlapping i q cs, a => ∃ l, IRuns (maps i) l ∧
      a = .entries (dequeScript cs
        (l.filter fun e => decide (q.start ≤ e.1.stop) && decide (e.1.start ≤ q.stop)))
  | .overlaps i q, a => ∃ l b, IRuns (maps i) l ∧ a = .flag b ∧
      (b = true ↔ ∃ e ∈ l, q.start ≤ e.1.stop ∧ e.1.start ≤ q.stop)
  | .gaps i q n, a => ∃ l, IHoles (maps i) q l ∧
      a = .ranges ((l.map some ++ List.replicate n none).take n)
  | .eq i j, a => ∃ b, a = .flag b ∧ (b = true ↔ ∀ k, maps i k = maps j k)

/-- `all` is what a program that has had `answers` may hear in at most `n` more calls. -/
def IHears (program : Program (RangeInclusive K) K V) : Nat → List (Answer (RangeInclusive K) V) →
    (Nat → K → Option V) → List (Answer (RangeInclusive K) V) → Prop
  | 0, answers, _, all => all = answers
  | n + 1, answers, maps, all =>
    match program answers with
    | none => all = answers
    | some c => ∃ a, ISays maps c a ∧ IHears program n (a :: answers) (ieffect maps c) all

end
end Verif.Spec

namespace Verif.Props.Inclusive
open Spec RangeInclusiveMap
section
variable {K : Type} [LE K] [LT K] [DecidableLE K] [DecidableLT K]
  [Std.IsLinearPreorder K] [Std.LawfulOrderLT K] {V : Type} [BEq V] [LawfulBEq V]
  {S : StepFns K}

/-- The maps of the program are the plain maps. -/
def Mirrors (S : StepFns K) (maps : Nat → RangeInclusiveMap K V)
    (plain : Nat → K → Option V) : Prop :=
  ∀ i, RangeInclusiveMap.Reachable S (maps i) ∧ ∀ k, (maps i).get k = .ok (plain i k)

theorem Mirrors.wf (hS : LawfulSteps S) {maps : Nat → RangeInclusiveMap K V}
    {plain : Nat → K → Option V}
    (h : Mirrors S maps plain) (i : Nat) :
    WF (maps i).btm ∧ ∀ k, (maps i).look k = plain i k := by
  have hw := (h i).1.wf hS
  refine ⟨hw, fun k => ?_⟩
  have := (h i).2 k
  rw [get_look hw] at this
  exact Except.ok.inj this

theorem runs_of_wf {m : RangeInclusiveMap K V} (h : WF m.btm) {f : K → Option V}
    (hf : ∀ k, m.look k = f k) : IRuns f m.iter where
  nonempty e he := ⟨h.sep.ne e he, h.fresh e he⟩
  ordered := h.sep.pw.imp fun h => h.2
  exact k v := by
    rw [← hf k, look_eq_some h]
    rfl
  longest a ha b hb h1 := by
    have := h.coal a ha b hb h1
    simpa using this

theorem Mirrors.store (hS : LawfulSteps S) {maps : Nat → RangeInclusiveMap K V}
    {plain : Nat → K → Option V}
    (h : Mirrors S maps plain) (i : Nat) {m : RangeInclusiveMap K V} {f : K → Option V}
        (hm : WF m.btm)
    (hf : ∀ k, m.look k = f k) : Mirrors S (Verif.store maps i m) (Verif.store plain i f) := by
  intro j
  unfold Verif.store
  split
  · exact ⟨hm.reachable hS, fun k => by rw [get_look hm, hf]⟩
  · exact h j

theorem insert_iassign (hS : LawfulSteps S) {m m' : RangeInclusiveMap K V} (h : WF m.btm)
    {r : RangeInclusive K} {v : V} (hx : r.exhausted = false) (hr : r.start ≤ r.stop)
    (hi : m.insert S r v = .ok m') {f : K → Option V} (hf : ∀ k, m.look k = f k) :
    ∀ k, m'.look k = iassign f ⟨r.start, r.stop⟩ (some v) k := by
  intro k
  have := RangeMap.Agree.eq (insert_look_agree hS h hx hr hi k)
  rw [this, hf]
  rfl

/-- The two ends of the range of an entry. -/
def twoEnds (e : RangeInclusive K × V) : Range K × V := (⟨e.1.start, e.1.stop⟩, e.2)

omit [LE K] [LT K] [DecidableLE K] [DecidableLT K] [Std.IsLinearPreorder K]
  [Std.LawfulOrderLT K] [BEq V] [LawfulBEq V] in
theorem twoEnds_closed (items : List (Range K × V)) :
    (items.map fun e => (e.1.closed, e.2)).map twoEnds = items := by
  rw [List.map_map]
  exact List.map_id'' (fun e => rfl) items

theorem extend_iassignAll (hS : LawfulSteps S) (items : List (RangeInclusive K × V))
    (hx : ∀ e ∈ items, e.1.exhausted = false) :
    ∀ {m : RangeInclusiveMap K V}, WF m.btm →
    ∀ {f : K → Option V}, (∀ k, m.look k = f k) →
    WF (m.extend S items).1.btm ∧
    (∀ k, (m.extend S items).1.look k = iassignAll f (items.map twoEnds) k) ∧
    (if ∀ e ∈ items, e.1.start ≤ e.1.stop then (m.extend S items).2 = .ok ()
      else ∃ p, (m.extend S items).2 = .error p) := by
  induction items with
  | nil =>
    intro m h f hf
    exact ⟨h, hf, by simp [RangeInclusiveMap.extend]⟩
  | cons e t ih =>
    obtain ⟨r, v⟩ := e
    intro m h f hf
    rw [List.map_cons]
    unfold RangeInclusiveMap.extend twoEnds iassignAll
    by_cases hr : r.start ≤ r.stop
    · have hx' := hx _ (List.mem_cons_self ..)
      obtain ⟨m', h1, h2, h3⟩ := insert_ok hS h.sc v hr
      have h2 : WF m'.btm := ⟨h2.sep, h2.coal, h3 h.fresh hx'⟩
      have := ih (fun e he => hx e (List.mem_cons_of_mem _ he)) h2
          (insert_iassign hS h hx' hr h1 hf)
      simp only [h1, hr, if_true]
      refine ⟨this.1, this.2.1, ?_⟩
      simpa only [List.forall_mem_cons, hr, true_and] using this.2.2
    · simp only [insert_invalid hr, hr, if_false]
      refine ⟨h, hf, ?_⟩
      rw [if_neg fun hc => hr (hc _ (List.mem_cons_self ..))]
      exact ⟨_, rfl⟩

omit [BEq V] [LawfulBEq V] in
theorem iassignAll_valid (items : List (Range K × V)) (hi : ∀ e ∈ items, e.1.start ≤ e.1.stop) :
    ∀ (f : K → Option V) (k : K), iassignAll f items k =
      ((items.reverse.find? fun e => decide (e.1.start ≤ k ∧ k ≤ e.1.stop)).map (·.2)).or
        (f k) := by
  induction items with
  | nil => intro f k; rfl
  | cons e t ih =>
    obtain ⟨r, v⟩ := e
    intro f k
    unfold iassignAll
    rw [if_pos (hi _ (List.mem_cons_self ..)), ih (fun e he => hi e (List.mem_cons_of_mem _ he)),
      List.reverse_cons, List.find?_append]
    cases (t.reverse.find? fun e => decide (e.1.start ≤ k ∧ k ≤ e.1.stop)) with
    | some e => rfl
    | none =>
      by_cases hk : r.start ≤ k ∧ k ≤ r.stop
      · simp [iassign, hk]
      · simp [iassign, hk]

omit [BEq V] [LawfulBEq V] in
theorem iassignAll_exact {l : List (RangeInclusive K × V)} {g : K → Option V}
    (hn : ∀ e ∈ l, e.1.start ≤ e.1.stop)
    (hg : ∀ k v, g k = some v ↔ ∃ e ∈ l, e.1.start ≤ k ∧ k ≤ e.1.stop ∧ e.2 = v)
    (f : K → Option V) (k : K) : iassignAll f (l.map twoEnds) k = (g k).or (f k) := by
  have hv : ∀ e ∈ l.map twoEnds, e.1.start ≤ e.1.stop := by
    intro e he
    obtain ⟨e', he', rfl⟩ := List.mem_map.1 he
    exact hn e' he'
  have hx : ∀ k v, g k = some v ↔ ∃ e ∈ l.map twoEnds, e.1.start ≤ k ∧ k ≤ e.1.stop ∧ e.2 = v := by
    intro k v
    rw [hg]
    constructor
    · rintro ⟨e, he, h1⟩
      exact ⟨twoEnds e, List.mem_map_of_mem he, h1⟩
    · rintro ⟨e, he, h1⟩
      obtain ⟨e', he', rfl⟩ := List.mem_map.1 he
      exact ⟨e', he', h1⟩
  rw [iassignAll_valid _ hv]
  congr 1
  apply Option.ext
  intro v
  rw [hx]
  constructor
  · intro hv
    obtain ⟨e, he, rfl⟩ := Option.map_eq_some_iff.1 hv
    have h1 := List.mem_of_find?_eq_some he
    have h2 := List.find?_some he
    simp only [decide_eq_true_eq] at h2
    exact ⟨e, List.mem_reverse.1 h1, h2.1, h2.2, rfl⟩
  · rintro ⟨e, he, h1, h2, rfl⟩
    cases hf : (l.map twoEnds).reverse.find? fun e => decide (e.1.start ≤ k ∧ k ≤ e.1.stop) with
    | none =>
      have := List.find?_eq_none.1 hf e (List.mem_reverse.2 he)
      simp [h1, h2] at this
    | some e' =>
      have h3 := List.mem_of_find?_eq_some hf
      have h4 := List.find?_some hf
      simp only [decide_eq_true_eq] at h4
      have h5 := (hx k e.2).2 ⟨e, he, h1, h2, rfl⟩
      have h6 := (hx k e'.2).2 ⟨e', List.mem_reverse.1 h3, h4.1, h4.2, rfl⟩
      rw [h5] at h6
      simpa using h6.symm

theorem iassignAll_runs {l : List (RangeInclusive K × V)} {g : K → Option V} (h : IRuns g l)
    (f : K → Option V) (k : K) : iassignAll f (l.map twoEnds) k = (g k).or (f k) :=
  iassignAll_exact (fun e he => (h.nonempty e he).1) h.exact f k

/-- **C111** One call, on maps that are the plain maps `plain`: what it answers is what plain maps
may say, and afterwards the maps are the plain maps with the effect of the call. -/
theorem C111_call (hS : LawfulSteps S) {maps : Nat → RangeInclusiveMap K V}
    {plain : Nat → K → Option V}
    (h : Mirrors S maps plain) (c : Call K V) :
    ISays plain c (perform S maps c).1 ∧ Mirrors S (perform S maps c).2 (ieffect plain c) := by
  have hw := h.wf hS
  have hr : ∀ i, IRuns (plain i) (maps i).iter := fun i => runs_of_wf (hw i).1 (hw i).2
  have hm : ∀ i, RangeInclusiveMap.Reachable S (maps i) := fun i => (h i).1
  have hg : ∀ i k, (maps i).get k = .ok (plain i k) := fun i => (h i).2
  cases c with
  | insert i r v =>
    by_cases hv : r.start ≤ r.stop
    · obtain ⟨m', h1, h2, h3⟩ := insert_ok (r := r.closed) hS (hw i).1.sc v hv
      have h2 : WF m'.btm := ⟨h2.sep, h2.coal, h3 (hw i).1.fresh rfl⟩
      simp only [perform, h1, ISays, ieffect, hv, if_true, true_and]
      exact h.store hS i h2 (insert_iassign hS (hw i).1 rfl hv h1 (hw i).2)
    · simp only [perform, insert_invalid (r := r.closed) hv, ISays, ieffect, hv, if_false, true_and]
      exact h
  | remove i r =>
    by_cases hv : r.start ≤ r.stop
    · obtain ⟨m', h1, h2, h3, -⟩ := remove_spec (r := r.closed) hS (hw i).1.sc hv
      have h2 : WF m'.btm := ⟨h2.sep, h2.coal, h3 (hw i).1.fresh⟩
      have h1 : (maps i).remove S r.closed = .ok m' := h1 _ (Nat.le_refl _)
      simp only [perform, h1, ISays, ieffect, hv, if_true, true_and]
      refine h.store hS i h2 fun k => ?_
      rw [remove_look hS (hw i).1 hv h1 k, (hw i).2]
      rfl
    · simp only [perform, remove_invalid (r := r.closed) hv, ISays, ieffect, hv, if_false, true_and]
      exact h
  | clear i => exact ⟨rfl, h.store hS i WF.nil fun k => rfl⟩
  | extend i items =>
    obtain ⟨h0, h1, h2⟩ := extend_iassignAll hS (items.map fun e => (e.1.closed, e.2))
      (fun e he => by obtain ⟨x, -, rfl⟩ := List.mem_map.1 he; rfl) (hw i).1 (hw i).2
    rw [twoEnds_closed] at h1
    simp only [List.forall_mem_map] at h2
    refine ⟨?_, h.store hS i h0 h1⟩
    simp only [perform, ISays]
    split at h2
    · rw [h2, if_pos ‹_›]; rfl
    · obtain ⟨p, h2⟩ := h2
      rw [h2, if_neg ‹_›]; rfl
  | collect i items =>
    obtain ⟨h0, h1, h2⟩ := extend_iassignAll hS (items.map fun e => (e.1.closed, e.2))
      (fun e he => by obtain ⟨x, -, rfl⟩ := List.mem_map.1 he; rfl)
      (m := (RangeInclusiveMap.new : RangeInclusiveMap K V)) WF.nil
          (f := fun _ => none) (fun k => rfl)
    rw [twoEnds_closed] at h1
    simp only [List.forall_mem_map] at h2
    simp only [perform, ISays, ieffect]
    split at h2
    · have h3 : (fromIter S (items.map fun e => (e.1.closed, e.2)) :
          Except Panic (RangeInclusiveMap K V)) = .ok ((RangeInclusiveMap.new :
            RangeInclusiveMap K V).extend S (items.map fun e => (e.1.closed, e.2))).1 := by
        simp only [fromIter, h2]; rfl
      rw [h3, if_pos ‹_›, if_pos ‹_›]
      exact ⟨rfl, h.store hS i h0 h1⟩
    · obtain ⟨p, h2⟩ := h2
      have h3 : (fromIter S (items.map fun e => (e.1.closed, e.2)) :
          Except Panic (RangeInclusiveMap K V)) = .error p := by
        simp only [fromIter, h2]; rfl
      rw [h3, if_neg ‹_›, if_neg ‹_›]
      exact ⟨rfl, h⟩
  | copy i j => exact ⟨rfl, h.store hS i (hw j).1 (hw j).2⟩
  | append i j =>
    obtain ⟨h0, h1, h2⟩ := extend_iassignAll hS (maps j).iter
      (fun e he => ((hr j).nonempty e he).2) (hw i).1 (hw i).2
    rw [if_pos fun e he => ((hr j).nonempty e he).1] at h2
    refine ⟨?_, h.store hS i h0 fun k => ?_⟩
    · simp only [perform, ISays, h2]; rfl
    · rw [h1 k, iassignAll_runs (hr j)]
  | get i k => exact ⟨by simp only [perform, ISays, hg]; rfl, h⟩
  | getKeyValue i k =>
    refine ⟨⟨_, hr i, ?_⟩, h⟩
    obtain ⟨o, ho, h1, -⟩ := C30_projections (maps i) k
    simp only [perform, ho, Answer.of]
    congr 1
    apply Option.ext
    intro e
    have h2 := C30_get_key_value hS (hm i) k e
    rw [ho] at h2
    have h2 : o = some e ↔ _ := ⟨fun hc => h2.1 (by rw [hc]), fun hc => by
      have := h2.2 hc
      injection this⟩
    rw [h2]
    constructor
    · rintro ⟨h3, h4, h5⟩
      cases hf : (maps i).iter.find? fun e => decide (e.1.start ≤ k ∧ k ≤ e.1.stop) with
      | none =>
        have := List.find?_eq_none.1 hf e h3
        simp [h4, h5] at this
      | some e' =>
        have h6 := List.find?_some hf
        simp only [decide_eq_true_eq] at h6
        rw [(hw i).1.sep.unique (List.mem_of_find?_eq_some hf) h3 h6 ⟨h4, h5⟩]
    · intro hf
      have h6 := List.find?_some hf
      simp only [decide_eq_true_eq] at h6
      exact ⟨List.mem_of_find?_eq_some hf, h6⟩
  | containsKey i k =>
    refine ⟨?_, h⟩
    obtain ⟨o, ho, h1, h2⟩ := C30_projections (maps i) k
    rw [hg] at h1
    injection h1 with h1
    simp only [perform, ISays, h2, h1, Option.isSome_map]
    rfl
  | len i => exact ⟨⟨_, hr i, rfl⟩, h⟩
  | isEmpty i =>
    refine ⟨⟨_, rfl, ?_⟩, h⟩
    rw [RangeInclusiveMap.isEmpty, List.isEmpty_iff]
    constructor
    · intro h1 k
      cases hp : plain i k with
      | none => rfl
      | some v =>
        obtain ⟨e, he, -⟩ := ((hr i).exact k v).1 hp
        rw [RangeInclusiveMap.iter, h1] at he
        cases he
    · intro h1
      cases hb : (maps i).btm with
      | nil => rfl
      | cons e t =>
        have he : e ∈ (maps i).iter := by
          rw [RangeInclusiveMap.iter, hb]
          exact List.mem_cons_self ..
        have h2 := ((hr i).nonempty e he).1
        have := ((hr i).exact e.1.start e.2).2 ⟨e, he, Std.le_refl _, h2, rfl⟩
        rw [h1] at this
        cases this
  | first i => exact ⟨⟨_, hr i, rfl⟩, h⟩
  | last i => exact ⟨⟨_, hr i, rfl⟩, h⟩
  | iter i cs =>
    refine ⟨⟨_, hr i, ?_⟩, h⟩
    simp only [perform]
    rw [C46_iter_double_ended]
  | overlapping i q cs =>
    obtain ⟨o, h1, h2⟩ := C14_overlapping_double_ended_inclusive hS (hm i).any q.closed cs
    refine ⟨⟨_, hr i, ?_⟩, h⟩
    simp only [perform, h1, Answer.of, h2]
    rfl
  | overlaps i q =>
    obtain ⟨b, h1, h2⟩ := C32_overlaps hS (hm i).any q.closed
    exact ⟨⟨_, b, hr i, by simp only [perform, h1]; rfl, h2⟩, h⟩
  | gaps i q n =>
    obtain ⟨g, l, h1, h2, h3⟩ := C31_gaps_exact hS (hm i) q.closed
    obtain ⟨g', l', i1, i2, i3, i4⟩ := C31_gaps_ordered hS (hm i).any q.closed
    rw [h1] at i1
    cases i1
    cases YieldsE.unique i2 h2
    refine ⟨⟨l, ⟨fun r hr => ⟨(i3 r hr).1, (i3 r hr).2.1⟩, i4.imp ?_, fun k => ?_⟩, ?_⟩, h⟩
    · rintro a b ⟨e, -, j1, j2, j3⟩
      exact ⟨e.1.start, j1.1, by grind⟩
    · rw [h3, hg]
      simp [Range.closed, RangeInclusive.mk']
    · simp only [perform, h1, bind, Except.bind, h2 n, Answer.of]
  | eq i j =>
    refine ⟨⟨_, rfl, ?_⟩, h⟩
    rw [C27_canonical hS (hm i) (hm j)]
    constructor
    · intro h1 k
      obtain ⟨o, o', h2, h3, h4⟩ := h1 k
      rw [hg] at h2 h3
      cases h2
      cases h3
      exact RangeMap.Agree.eq h4
    · intro h1 k
      exact ⟨_, _, hg i k, hg j k, by rw [h1]; exact RangeMap.Agree.refl _⟩

example := C111_call (K := UIntW 8) (V := Char) Demo.u8_lawful (maps := fun _ => Demo.imap)
    (plain := fun _ k => Demo.imap.look k)
    (fun _ => ⟨Demo.imap_reachable, get_look (Demo.imap_reachable.wf Demo.u8_lawful)⟩) (.append 0 1)

/-- **C111** Whatever the program, and however its calls depend on the answers: it hears what it
could hear from plain maps.  In particular the only calls that panic are those with an inverted
range. -/
theorem C111_programs (hS : LawfulSteps S) (program : Program (RangeInclusive K) K V) (n : Nat) :
    IHears program n [] (fun _ _ => none)
      (dialogue S program n [] fun _ => RangeInclusiveMap.new) := by
  suffices H : ∀ (n : Nat) (answers : List (Answer (RangeInclusive K) V))
      (maps : Nat → RangeInclusiveMap K V)
      (plain : Nat → K → Option V), Mirrors S maps plain →
      IHears program n answers plain (dialogue S program n answers maps) from
    H n [] _ _ fun i => ⟨⟨[], by simp, rfl⟩, fun k => rfl⟩
  intro n
  induction n with
  | zero => exact fun _ _ _ _ => rfl
  | succ n ih =>
    intro answers maps plain h
    unfold IHears dialogue
    cases program answers with
    | none => rfl
    | some c => exact ⟨_, (C111_call hS h c).1, ih _ _ _ (C111_call hS h c).2⟩

/-- A program whose third call depends on the answer to the second. -/
def lookThenCut : Program (RangeInclusive (UIntW 8)) (UIntW 8) Char
  | [] => some (.insert 0 ⟨⟨1⟩, ⟨255⟩⟩ 'a')
  | [_] => some (.get 0 ⟨4⟩)
  | [.value (some _), _] => some (.remove 0 ⟨⟨4⟩, ⟨4⟩⟩)
  | [.value none, _] => some (.clear 0)
  | [_, _, _] => some (.gaps 0 ⟨⟨0⟩, ⟨255⟩⟩ 4)
  | [_, _, _, _] => some (.insert 0 ⟨⟨3⟩, ⟨2⟩⟩ 'b')
  | [_, _, _, _, _] => some (.len 0)
  | [_, _, _, _, _, _] => some (.eq 0 1)
  | _ => none

example : (dialogue Demo.u8 lookThenCut 20 [] fun _ => RangeInclusiveMap.new) =
    [.flag false, .number 2, .panicked, .ranges [some (Demo.by8 0 0), some (Demo.by8 4 4), none,
      none], .done, .value (some 'a'), .done] := by rfl
example := C111_programs Demo.u8_lawful lookThenCut 20

/-- The runs of a plain map are determined by it, when keys that compare equal are equal. -/
theorem runs_unique (hS : LawfulSteps S) (hk : ∀ a b : K, a ≤ b → b ≤ a → a = b)
    {f : K → Option V} {l l' : List (RangeInclusive K × V)} (h : IRuns f l) (h' : IRuns f l') :
    l = l' := by
  have hw : ∀ {l : List (RangeInclusive K × V)}, IRuns f l → WF l := fun {l} h =>
    ⟨⟨h.ordered.imp_of_mem fun {a b} ha hb hab => ⟨by have := (h.nonempty a ha).1; grind, hab⟩,
      fun e he => (h.nonempty e he).1⟩,
      fun a ha b hb h1 => by simpa using h.longest a ha b hb h1,
      fun e he => (h.nonempty e he).2⟩
  have hl : ∀ {l : List (RangeInclusive K × V)} (h : IRuns f l) (k : K),
      (⟨l⟩ : RangeInclusiveMap K V).get k = .ok (f k) := fun {l} h k => by
    rw [get_look (hw h)]
    congr 1
    apply Option.ext
    intro v
    rw [look_eq_some (hw h), h.exact]
    rfl
  refine iterEq_eq_of_lawful_inclusive hk ((C27_canonical hS (m := ⟨l⟩) (m' := ⟨l'⟩)
    ((hw h).reachable hS) ((hw h').reachable hS)).2 fun k => ?_)
  exact ⟨_, _, hl h k, hl h' k, RangeMap.Agree.refl _⟩

/-- Ranges in order with keys between them are determined by the keys they cover, when keys that
compare equal are equal. -/
theorem ranges_unique (hS : LawfulSteps S) (hk : ∀ a b : K, a ≤ b → b ≤ a → a = b) :
    ∀ (l l' : List (RangeInclusive K)) (P : K → Prop),
      (∀ r ∈ l, r.start ≤ r.stop ∧ r.exhausted = false) →
      (∀ r ∈ l', r.start ≤ r.stop ∧ r.exhausted = false) →
      (l.Pairwise fun a b => ∃ k, a.stop < k ∧ k < b.start) →
      (l'.Pairwise fun a b => ∃ k, a.stop < k ∧ k < b.start) →
      (∀ k, (∃ r ∈ l, r.start ≤ k ∧ k ≤ r.stop) ↔ P k) →
      (∀ k, (∃ r ∈ l', r.start ≤ k ∧ k ≤ r.stop) ↔ P k) → l = l' := by
  -- the first ranges have the same end
  have stops : ∀ (a b : RangeInclusive K) (t : List (RangeInclusive K)) (P : K → Prop),
      (∀ r ∈ t, ∃ k, b.stop < k ∧ k < r.start) →
      (∀ k, a.start ≤ k ∧ k ≤ a.stop → P k) →
      (∀ k, (∃ r ∈ b :: t, r.start ≤ k ∧ k ≤ r.stop) ↔ P k) →
      a.start ≤ b.start → b.start ≤ b.stop → a.stop ≤ b.stop := by
    intro a b t P h1 h2 h3 h4 h5
    apply Std.not_lt.1
    intro hc
    obtain ⟨c, -, h6, h7⟩ := hS.addOne _ _ hc
    obtain ⟨r, hr, h8, h9⟩ := (h3 c).2 (h2 c ⟨by grind, h7 _ hc⟩)
    rcases List.mem_cons.1 hr with rfl | hr
    · grind
    · obtain ⟨k, h10, h11⟩ := h1 r hr
      have := h7 k h10
      grind
  intro l
  induction l with
  | nil =>
    intro l' P _ h2 _ _ h5 h6
    cases l' with
    | nil => rfl
    | cons r t =>
      have := (h2 r (by simp)).1
      have := (h5 r.start).2 ((h6 _).1 ⟨r, by simp, Std.le_refl _, this⟩)
      simp at this
  | cons a t ih =>
    intro l' P h1 h2 h3 h4 h5 h6
    cases l' with
    | nil =>
      have := (h1 a (by simp)).1
      have := (h6 a.start).2 ((h5 _).1 ⟨a, by simp, Std.le_refl _, this⟩)
      simp at this
    | cons b t' =>
      rw [List.pairwise_cons] at h3 h4
      obtain ⟨ha, ha'⟩ := h1 a (by simp)
      obtain ⟨hb, hb'⟩ := h2 b (by simp)
      have hat : ∀ r ∈ t, r.start ≤ r.stop ∧ r.exhausted = false :=
        fun r hr => h1 r (List.mem_cons_of_mem _ hr)
      have hbt : ∀ r ∈ t', r.start ≤ r.stop ∧ r.exhausted = false :=
        fun r hr => h2 r (List.mem_cons_of_mem _ hr)
      have hs : a.start = b.start := by
        obtain ⟨r, hr, h7, h8⟩ := (h6 a.start).2 ((h5 _).1 ⟨a, by simp, Std.le_refl _, ha⟩)
        obtain ⟨r', hr', h9, h10⟩ := (h5 b.start).2 ((h6 _).1 ⟨b, by simp, Std.le_refl _, hb⟩)
        refine hk _ _ ?_ ?_
        · rcases List.mem_cons.1 hr' with rfl | hr'
          · exact h9
          · obtain ⟨k, h11, h12⟩ := h3.1 r' hr'
            grind
        · rcases List.mem_cons.1 hr with rfl | hr
          · exact h7
          · obtain ⟨k, h11, h12⟩ := h4.1 r hr
            grind
      have he : a.stop = b.stop := by
        refine hk _ _ ?_ ?_
        · exact stops a b t' P h4.1 (fun k hc => (h5 k).1 ⟨a, by simp, hc⟩) h6
            (by rw [hs]; exact Std.le_refl _) hb
        · exact stops b a t P h3.1 (fun k hc => (h6 k).1 ⟨b, by simp, hc⟩) h5
            (by rw [hs]; exact Std.le_refl _) ha
      obtain ⟨as, ae, ax⟩ := a
      obtain ⟨bs, be, bx⟩ := b
      simp only at hs he ha' hb'
      subst hs he ha' hb'
      congr 1
      refine ih t' (fun k => P k ∧ ¬ (as ≤ k ∧ k ≤ ae)) hat hbt h3.2 h4.2 (fun k => ?_) fun k => ?_
      · rw [← h5]
        constructor
        · rintro ⟨r, hr, h7, h8⟩
          exact ⟨⟨r, List.mem_cons_of_mem _ hr, h7, h8⟩, by obtain ⟨x, _, _⟩ := h3.1 r hr; grind⟩
        · rintro ⟨⟨r, hr, h7, h8⟩, h9⟩
          rcases List.mem_cons.1 hr with rfl | hr
          · exact absurd ⟨h7, h8⟩ h9
          · exact ⟨r, hr, h7, h8⟩
      · rw [← h6]
        constructor
        · rintro ⟨r, hr, h7, h8⟩
          exact ⟨⟨r, List.mem_cons_of_mem _ hr, h7, h8⟩, by obtain ⟨x, _, _⟩ := h4.1 r hr; grind⟩
        · rintro ⟨⟨r, hr, h7, h8⟩, h9⟩
          rcases List.mem_cons.1 hr with rfl | hr
          · exact absurd ⟨h7, h8⟩ h9
          · exact ⟨r, hr, h7, h8⟩

/-- The holes of a plain map are determined by it, when keys that compare equal are equal. -/
theorem holes_unique (hS : LawfulSteps S) (hk : ∀ a b : K, a ≤ b → b ≤ a → a = b)
    {f : K → Option V} {q : Range K} {l l' : List (RangeInclusive K)} (h : IHoles f q l)
    (h' : IHoles f q l') : l = l' :=
  ranges_unique hS hk l l' _ h.nonempty h'.nonempty h.ordered h'.ordered h.exact h'.exact

/-- **C111** When keys that compare equal are equal, the plain maps leave no choice about the
answer of a call. -/
theorem C111_one_answer (hS : LawfulSteps S) (hk : ∀ a b : K, a ≤ b → b ≤ a → a = b)
    {plain : Nat → K → Option V}
    {c : Call K V} {a a' : Answer (RangeInclusive K) V} (h : ISays plain c a)
        (h' : ISays plain c a') :
    a = a' := by
  have flag : ∀ {P : Prop} {a a' : Answer (RangeInclusive K) V},
      (∃ b, a = .flag b ∧ (b = true ↔ P)) → (∃ b, a' = .flag b ∧ (b = true ↔ P)) → a = a' := by
    rintro P _ _ ⟨b, rfl, h1⟩ ⟨b', rfl, h2⟩
    congr 1
    exact Bool.eq_iff_iff.2 (h1.trans h2.symm)
  cases c <;> simp only [ISays] at h h'
  case isEmpty => exact flag h h'
  case eq => exact flag h h'
  case overlaps =>
    obtain ⟨l, b, h1, h2, h3⟩ := h
    obtain ⟨l', b', h1', h2', h3'⟩ := h'
    cases runs_unique hS hk h1 h1'
    exact flag ⟨b, h2, h3⟩ ⟨b', h2', h3'⟩
  case gaps =>
    obtain ⟨l, h1, rfl⟩ := h
    obtain ⟨l', h1', rfl⟩ := h'
    rw [holes_unique hS hk h1 h1']
  all_goals first
    | exact h.trans h'.symm
    | (obtain ⟨l, h1, rfl⟩ := h
       obtain ⟨l', h1', rfl⟩ := h'
       rw [runs_unique hS hk h1 h1'])

example := C111_one_answer (K := UIntW 8) (V := Char) Demo.u8_lawful Demo.u8_antisymm
    (plain := fun _ k => Demo.imap.look k) (c := .overlapping 0 ⟨⟨2⟩, ⟨22⟩⟩ [.back, .front])
    (a' := .panicked) (a := .entries [some (Demo.by8 20 24, 'b'), some (Demo.by8 0 2, 'a')])
    ⟨_, runs_of_wf (Demo.imap_reachable.wf Demo.u8_lawful) fun _ => rfl, by rfl⟩

/-- **C111** Then the answers a program hears are exactly those it could hear from plain maps:
nothing it can do tells the two apart. -/
theorem C111_exactly (hS : LawfulSteps S) (hk : ∀ a b : K, a ≤ b → b ≤ a → a = b)
    (program : Program (RangeInclusive K) K V)
    (n : Nat) (all : List (Answer (RangeInclusive K) V)) :
    IHears program n [] (fun _ _ => none) all ↔
      all = dialogue S program n [] fun _ => RangeInclusiveMap.new := by
  constructor
  · suffices H : ∀ (n : Nat) (answers : List (Answer (RangeInclusive K) V))
      (plain : Nat → K → Option V)
        (all all' : List (Answer (RangeInclusive K) V)), IHears program n answers plain all →
        IHears program n answers plain all' → all = all' from
      fun h => H n [] _ _ _ h (C111_programs hS program n)
    intro n
    induction n with
    | zero => exact fun _ _ _ _ h h' => Eq.trans h (Eq.symm h')
    | succ n ih =>
      intro answers plain all all' h h'
      unfold IHears at h h'
      cases hp : program answers with
      | none =>
        rw [hp] at h h'
        exact Eq.trans h (Eq.symm h')
      | some c =>
        rw [hp] at h h'
        obtain ⟨a, h1, h2⟩ := h
        obtain ⟨a', h1', h2'⟩ := h'
        cases C111_one_answer hS hk h1 h1'
        exact ih _ _ _ _ h2 h2'
  · rintro rfl
    exact C111_programs hS program n

example := C111_exactly Demo.u8_lawful Demo.u8_antisymm lookThenCut 20

end
end Verif.Props.Inclusive

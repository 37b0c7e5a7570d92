import Verif.Props.IDialogue
import Verif.Props.LooseDialogue

/-!
# C113: every program, with values whose `==` is not equality (inclusive ranges)

See `LooseDialogue.lean`.
-/
set_option linter.unusedSectionVars false

namespace Verif.Spec
section
variable {K V : Type} [LE K] [LT K] [DecidableLE K] [DecidableLT K] [BEq V]

/-- What the entries `l` say about `k`. -/
def ivalueAt (l : List (RangeInclusive K × V)) (k : K) : Option V :=
  (l.find? fun e => decide (e.1.start ≤ k ∧ k ≤ e.1.stop)).map (·.2)

/-- `l` is `f` up to `==`, in order, with no two entries that could be one. -/
structure ILooseRuns (f : K → Option V) (l : List (RangeInclusive K × V)) : Prop where
  nonempty : ∀ e ∈ l, e.1.start ≤ e.1.stop ∧ e.1.exhausted = false
  ordered : l.Pairwise fun a b => a.1.stop < b.1.start
  agree : ∀ k, Agree (ivalueAt l k) (f k)
  longest : ∀ a ∈ l, ∀ b ∈ l, Next a.1.stop b.1.start → (a.2 == b.2) = false

/-- What a call answers when the entries of the maps are `runs`. -/
def IReplies (runs : Nat → List (RangeInclusive K × V)) :
    Call K V → Answer (RangeInclusive K) V → Prop
  | .insert _ r _, a => a = if r.start ≤ r.stop then .done else .panicked
  | .remove _ r, a => a = if r.start ≤ r.stop then .done else .panicked
  | .clear _, a => a = .done
  | .extend _ items, a => a = if ∀ e ∈ items, e.1.start ≤ e.1.stop then .done else .panicked
  | .collect _ items, a => a = if ∀ e ∈ items, e.1.start ≤ e.1.stop then .done else .panicked
  | .copy _ _, a => a = .done
  | .append _ _, a => a = .done
  | .get i k, a => a = .value (ivalueAt (runs i) k)
  | .getKeyValue i k, a =>
    a = .entry ((runs i).find? fun e => decide (e.1.start ≤ k ∧ k ≤ e.1.stop))
  | .containsKey i k, a => a = .flag (ivalueAt (runs i) k).isSome
  | .len i, a => a = .number (runs i).length
  | .isEmpty i, a => a = .flag (runs i).isEmpty
  | .first i, a => a = .entry (runs i).head?
  | .last i, a => a = .entry (runs i).getLast?
  | .iter i cs, a => a = .entries (dequeScript cs (runs i))
  | .overlapping i q cs, a => a = .entries (dequeScript cs
      ((runs i).filter fun e => decide (q.start ≤ e.1.stop) && decide (e.1.start ≤ q.stop)))
  | .overlaps i q, a => ∃ b, a = .flag b ∧
      (b = true ↔ ∃ e ∈ runs i, q.start ≤ e.1.stop ∧ e.1.start ≤ q.stop)
  | .gaps i q n, a => ∃ l, IHoles (ivalueAt (runs i)) q l ∧
      a = .ranges ((l.map some ++ List.replicate n none).take n)
  | .eq i j, a => ∃ b, a = .flag b ∧
      (b = true ↔ ∀ k, (ivalueAt (runs i) k == ivalueAt (runs j) k) = true)

/-- What may become of the entries `runs` by a call answered with `a`, when the plain maps are
`plain` before. -/
structure IFollows (plain : Nat → K → Option V) (runs : Nat → List (RangeInclusive K × V))
    (c : Call K V) (a : Answer (RangeInclusive K) V) (runs' : Nat → List (RangeInclusive K × V)) :
    Prop where
  /-- The entries are the plain maps with the effect of the call. -/
  entries : ∀ i, ILooseRuns (ieffect plain c i) (runs' i)
  /-- The other maps keep their entries. -/
  kept : ∀ i, changed c ≠ some i → runs' i = runs i
  /-- A panic leaves all maps as they are, except in `extend`. -/
  refused : a = .panicked → (∀ i items, c ≠ .extend i items) → runs' = runs
  /-- A copy has the same entries, with the same values. -/
  copied : ∀ i j, c = .copy i j → runs' i = runs j

/-- `all` is what a program that has had `answers` may hear in at most `n` more calls. -/
def ILooseHears (program : Program (RangeInclusive K) K V) : Nat →
    List (Answer (RangeInclusive K) V) → (Nat → K → Option V) →
    (Nat → List (RangeInclusive K × V)) → List (Answer (RangeInclusive K) V) → Prop
  | 0, answers, _, _, all => all = answers
  | n + 1, answers, plain, runs, all =>
    match program answers with
    | none => all = answers
    | some c => ∃ a runs', IReplies runs c a ∧ IFollows plain runs c a runs' ∧
        ILooseHears program n (a :: answers) (ieffect plain c) runs' all

end
end Verif.Spec

namespace Verif.Props.Inclusive
open Spec RangeInclusiveMap
section
variable {K : Type} [LE K] [LT K] [DecidableLE K] [DecidableLT K]
  [Std.IsLinearPreorder K] [Std.LawfulOrderLT K] {V : Type} [BEq V] [PartialEquivBEq V]
  {S : StepFns K}

/-- The maps of the program are the plain maps, up to `==`. -/
def LooseMirrors (S : StepFns K) (maps : Nat → RangeInclusiveMap K V)
    (plain : Nat → K → Option V) : Prop :=
  ∀ i, RangeInclusiveMap.Reachable S (maps i) ∧
    ∀ k, ∃ o, (maps i).get k = .ok o ∧ Agree o (plain i k)

theorem LooseMirrors.wf (hS : LawfulSteps S) {maps : Nat → RangeInclusiveMap K V}
    {plain : Nat → K → Option V}
    (h : LooseMirrors S maps plain) (i : Nat) :
    WF (maps i).btm ∧ ∀ k, Agree ((maps i).look k) (plain i k) := by
  have hw := (h i).1.wf hS
  refine ⟨hw, fun k => ?_⟩
  obtain ⟨o, h1, h2⟩ := (h i).2 k
  rw [get_look hw] at h1
  rw [Except.ok.inj h1]
  exact h2

theorem valueAt_iter {m : RangeInclusiveMap K V} (h : WF m.btm) (k : K) :
    ivalueAt m.iter k = m.look k := by
  apply Option.ext
  intro v
  rw [look_eq_some h]
  constructor
  · intro hv
    obtain ⟨e, he, rfl⟩ := Option.map_eq_some_iff.1 hv
    have h2 := List.find?_some he
    simp only [decide_eq_true_eq] at h2
    exact ⟨e, List.mem_of_find?_eq_some he, h2.1, h2.2, rfl⟩
  · rintro ⟨e, he, h1, h2, rfl⟩
    unfold ivalueAt
    cases hf : m.iter.find? fun e => decide (e.1.start ≤ k ∧ k ≤ e.1.stop) with
    | none =>
      have := List.find?_eq_none.1 hf e he
      simp [h1, h2] at this
    | some e' =>
      have h4 := List.find?_some hf
      simp only [decide_eq_true_eq] at h4
      rw [h.sep.unique (List.mem_of_find?_eq_some hf) he h4 ⟨h1, h2⟩]
      rfl

theorem looseRuns_of_wf {m : RangeInclusiveMap K V} (h : WF m.btm) {f : K → Option V}
    (hf : ∀ k, Agree (m.look k) (f k)) : ILooseRuns f m.iter where
  nonempty e he := ⟨h.sep.ne e he, h.fresh e he⟩
  ordered := h.sep.pw.imp fun h => h.2
  agree k := by rw [valueAt_iter h]; exact hf k
  longest := h.coal

theorem LooseMirrors.store (hS : LawfulSteps S) {maps : Nat → RangeInclusiveMap K V}
    {plain : Nat → K → Option V}
    (h : LooseMirrors S maps plain) (i : Nat) {m : RangeInclusiveMap K V} {f : K → Option V}
        (hm : WF m.btm)
    (hf : ∀ k, Agree (m.look k) (f k)) :
    LooseMirrors S (Verif.store maps i m) (Verif.store plain i f) := by
  intro j
  unfold Verif.store
  split
  · exact ⟨hm.reachable hS, fun k => ⟨_, get_look hm k, hf k⟩⟩
  · exact h j

theorem iassign_agree {f g : K → Option V} (h : ∀ k, Agree (f k) (g k)) (r : Range K)
    (o : Option V) (k : K) : Agree (iassign f r o k) (iassign g r o k) := by
  unfold iassign
  split
  · exact RangeMap.Agree.refl _
  · exact h k

theorem insert_looseIassign (hS : LawfulSteps S) {m m' : RangeInclusiveMap K V} (h : WF m.btm)
    {r : RangeInclusive K} {v : V} (hx : r.exhausted = false) (hr : r.start ≤ r.stop)
    (hi : m.insert S r v = .ok m') {f : K → Option V} (hf : ∀ k, Agree (m.look k) (f k)) (k : K) :
    Agree (m'.look k) (iassign f ⟨r.start, r.stop⟩ (some v) k) :=
  RangeMap.Agree.trans (insert_look_agree hS h hx hr hi k)
    (iassign_agree hf ⟨r.start, r.stop⟩ (some v) k)

theorem extend_looseIassignAll (hS : LawfulSteps S) (items : List (RangeInclusive K × V))
    (hx : ∀ e ∈ items, e.1.exhausted = false) :
    ∀ {m : RangeInclusiveMap K V}, WF m.btm →
    ∀ {f : K → Option V}, (∀ k, Agree (m.look k) (f k)) →
    WF (m.extend S items).1.btm ∧
    (∀ k, Agree ((m.extend S items).1.look k) (iassignAll f (items.map twoEnds) k)) ∧
    (if ∀ e ∈ items, e.1.start ≤ e.1.stop then (m.extend S items).2 = .ok ()
      else ∃ p, (m.extend S items).2 = .error p) := by
  induction items with
  | nil =>
    intro m h f hf
    exact ⟨h, hf, by simp [RangeInclusiveMap.extend]⟩
  | cons e t ih =>
    obtain ⟨r, v⟩ := e
    intro m h f hf
    rw [List.map_cons]
    unfold RangeInclusiveMap.extend twoEnds iassignAll
    by_cases hr : r.start ≤ r.stop
    · have hx' := hx _ (List.mem_cons_self ..)
      obtain ⟨m', h1, h2, h3⟩ := insert_ok hS h.sc v hr
      have h2 : WF m'.btm := ⟨h2.sep, h2.coal, h3 h.fresh hx'⟩
      have := ih (fun e he => hx e (List.mem_cons_of_mem _ he)) h2
          (insert_looseIassign hS h hx' hr h1 hf)
      simp only [h1, hr, if_true]
      refine ⟨this.1, this.2.1, ?_⟩
      simpa only [List.forall_mem_cons, hr, true_and] using this.2.2
    · simp only [insert_invalid hr, hr, if_false]
      refine ⟨h, hf, ?_⟩
      rw [if_neg fun hc => hr (hc _ (List.mem_cons_self ..))]
      exact ⟨_, rfl⟩

theorem eq_iff_strict (hS : LawfulSteps S) {m m' : RangeInclusiveMap K V} (h : WF m.btm)
    (h' : WF m'.btm) :
    m.eq m' = true ↔ ∀ k, (m.look k == m'.look k) = true := by
  constructor
  · intro he k
    have hs := sub_of_iterEq he
    have hs' := sub_of_iterEq (iterEq_symm he)
    cases hk : m.look k with
    | none =>
      cases hk' : m'.look k with
      | none => rfl
      | some w =>
        obtain ⟨w', hw', _⟩ := hs' k w ((look_eq_some h' _ _).1 hk')
        exact absurd hw' ((look_eq_none h _).1 hk w')
    | some w =>
      obtain ⟨w', hw', hww⟩ := hs k w ((look_eq_some h _ _).1 hk)
      rw [(look_eq_some h' _ _).2 hw']
      exact hww
  · intro hl
    have sub : ∀ {m m' : RangeInclusiveMap K V}, WF m.btm → WF m'.btm →
        (∀ k, (m.look k == m'.look k) = true) → Sub m.btm m'.btm := by
      intro m m' h h' hl k w hw
      rw [← look_eq_some h] at hw
      have := hl k
      rw [hw] at this
      cases hk : m'.look k with
      | none =>
        rw [hk] at this
        cases this
      | some w' =>
        rw [hk] at this
        exact ⟨w', (look_eq_some h' _ _).1 hk, this⟩
    refine canon hS h h' (sub h h' hl) (sub h' h fun k => ?_)
    have := hl k
    cases hk : m.look k <;> cases hk' : m'.look k <;> rw [hk, hk'] at this
    · rfl
    · cases this
    · cases this
    · exact PartialEquivBEq.symm (α := V) this

/-- **C113** One call, on maps that are the plain maps `plain` up to `==`: the answer is read off
the entries of the maps, the entries afterwards are the plain maps with the effect of the call, and
the other maps keep theirs. -/
theorem C113_call (hS : LawfulSteps S) {maps : Nat → RangeInclusiveMap K V}
    {plain : Nat → K → Option V}
    (h : LooseMirrors S maps plain) (c : Call K V) :
    IReplies (fun i => (maps i).iter) c (perform S maps c).1 ∧
    IFollows plain (fun i => (maps i).iter) c (perform S maps c).1
      (fun i => ((perform S maps c).2 i).iter) ∧
    LooseMirrors S (perform S maps c).2 (ieffect plain c) := by
  suffices H : IReplies (fun i => (maps i).iter) c (perform S maps c).1 ∧
      LooseMirrors S (perform S maps c).2 (ieffect plain c) from by
    refine ⟨H.1, ⟨fun i => looseRuns_of_wf (H.2.wf hS i).1 (H.2.wf hS i).2, fun i hi => ?_,
      fun hp hn => ?_, fun i j hc => ?_⟩, H.2⟩
    · cases c <;> simp only [changed, ne_eq, Option.some.injEq] at hi <;> simp only [perform] <;>
        (try split) <;> first
        | rfl
        | (simp only [Verif.store]
           rw [if_neg fun he => hi he.symm])
    · have hr := H.1
      rw [hp] at hr
      cases c
      case extend i items => exact absurd rfl (hn i items)
      case clear | copy | append => cases hr
      case insert | remove | collect =>
        simp only [perform] at hp ⊢
        split at hp
        · cases hp
        · rfl
      all_goals rfl
    · subst hc
      simp [perform, Verif.store]
  have hw := h.wf hS
  have hv : ∀ i k, ivalueAt (maps i).iter k = (maps i).look k := fun i => valueAt_iter (hw i).1
  have hm : ∀ i, RangeInclusiveMap.Reachable S (maps i) := fun i => (h i).1
  have hg : ∀ i k, (maps i).get k = .ok ((maps i).look k) := fun i => get_look (hw i).1
  cases c with
  | insert i r v =>
    by_cases hv : r.start ≤ r.stop
    · obtain ⟨m', h1, h2, h3⟩ := insert_ok (r := r.closed) hS (hw i).1.sc v hv
      have h2 : WF m'.btm := ⟨h2.sep, h2.coal, h3 (hw i).1.fresh rfl⟩
      simp only [perform, h1, IReplies, ieffect, hv, if_true, true_and]
      exact h.store hS i h2 (insert_looseIassign hS (hw i).1 rfl hv h1 (hw i).2)
    · simp only [perform, insert_invalid (r := r.closed) hv, IReplies, ieffect, hv, if_false,
        true_and]
      exact h
  | remove i r =>
    by_cases hv : r.start ≤ r.stop
    · obtain ⟨m', h1, h2, h3, -⟩ := remove_spec (r := r.closed) hS (hw i).1.sc hv
      have h2 : WF m'.btm := ⟨h2.sep, h2.coal, h3 (hw i).1.fresh⟩
      have h1 : (maps i).remove S r.closed = .ok m' := h1 _ (Nat.le_refl _)
      simp only [perform, h1, IReplies, ieffect, hv, if_true, true_and]
      refine h.store hS i h2 fun k => ?_
      rw [remove_look hS (hw i).1 hv h1 k]
      exact iassign_agree (hw i).2 r none k
    · simp only [perform, remove_invalid (r := r.closed) hv, IReplies, ieffect, hv, if_false,
        true_and]
      exact h
  | clear i => exact ⟨rfl, h.store hS i WF.nil fun k => trivial⟩
  | extend i items =>
    obtain ⟨h0, h1, h2⟩ := extend_looseIassignAll hS (items.map fun e => (e.1.closed, e.2))
      (fun e he => by obtain ⟨x, -, rfl⟩ := List.mem_map.1 he; rfl) (hw i).1 (hw i).2
    rw [twoEnds_closed] at h1
    simp only [List.forall_mem_map] at h2
    refine ⟨?_, h.store hS i h0 h1⟩
    simp only [perform, IReplies]
    split at h2
    · rw [h2, if_pos ‹_›]; rfl
    · obtain ⟨p, h2⟩ := h2
      rw [h2, if_neg ‹_›]; rfl
  | collect i items =>
    obtain ⟨h0, h1, h2⟩ := extend_looseIassignAll hS (items.map fun e => (e.1.closed, e.2))
      (fun e he => by obtain ⟨x, -, rfl⟩ := List.mem_map.1 he; rfl)
      (m := (RangeInclusiveMap.new : RangeInclusiveMap K V)) WF.nil
          (f := fun _ => none) (fun k => trivial)
    rw [twoEnds_closed] at h1
    simp only [List.forall_mem_map] at h2
    simp only [perform, IReplies, ieffect]
    split at h2
    · have h3 : (fromIter S (items.map fun e => (e.1.closed, e.2)) :
          Except Panic (RangeInclusiveMap K V)) = .ok ((RangeInclusiveMap.new :
            RangeInclusiveMap K V).extend S (items.map fun e => (e.1.closed, e.2))).1 := by
        simp only [fromIter, h2]; rfl
      rw [h3, if_pos ‹_›, if_pos ‹_›]
      exact ⟨rfl, h.store hS i h0 h1⟩
    · obtain ⟨p, h2⟩ := h2
      have h3 : (fromIter S (items.map fun e => (e.1.closed, e.2)) :
          Except Panic (RangeInclusiveMap K V)) = .error p := by
        simp only [fromIter, h2]; rfl
      rw [h3, if_neg ‹_›, if_neg ‹_›]
      exact ⟨rfl, h⟩
  | copy i j => exact ⟨rfl, h.store hS i (hw j).1 (hw j).2⟩
  | append i j =>
    have hn : ∀ e ∈ (maps j).iter, e.1.start ≤ e.1.stop := (hw j).1.sep.ne
    obtain ⟨h0, h1, h2⟩ := extend_looseIassignAll hS (maps j).iter
      (fun e he => (hw j).1.fresh e he) (hw i).1 (hw i).2
    rw [if_pos hn] at h2
    refine ⟨?_, h.store hS i h0 fun k => ?_⟩
    · simp only [perform, IReplies, h2]; rfl
    · have := h1 k
      rw [iassignAll_exact (g := (maps j).look) hn
        (fun k v => look_eq_some (hw j).1 k v)] at this
      exact RangeMap.Agree.trans this (looseOr_agree ((hw j).2 k) (RangeMap.Agree.refl _))
  | get i k => exact ⟨by simp only [perform, IReplies, hg, hv]; rfl, h⟩
  | getKeyValue i k =>
    refine ⟨?_, h⟩
    obtain ⟨o, ho, h1, -⟩ := C30_projections (maps i) k
    simp only [perform, ho, Answer.of, IReplies]
    congr 1
    apply Option.ext
    intro e
    have h2 := C30_get_key_value hS (hm i) k e
    rw [ho] at h2
    have h2 : o = some e ↔ _ := ⟨fun hc => h2.1 (by rw [hc]), fun hc => by
      have := h2.2 hc
      injection this⟩
    rw [h2]
    constructor
    · rintro ⟨h3, h4, h5⟩
      cases hf : (maps i).iter.find? fun e => decide (e.1.start ≤ k ∧ k ≤ e.1.stop) with
      | none =>
        have := List.find?_eq_none.1 hf e h3
        simp [h4, h5] at this
      | some e' =>
        have h6 := List.find?_some hf
        simp only [decide_eq_true_eq] at h6
        rw [(hw i).1.sep.unique (List.mem_of_find?_eq_some hf) h3 h6 ⟨h4, h5⟩]
    · intro hf
      have h6 := List.find?_some hf
      simp only [decide_eq_true_eq] at h6
      exact ⟨List.mem_of_find?_eq_some hf, h6⟩
  | containsKey i k =>
    refine ⟨?_, h⟩
    obtain ⟨o, ho, h1, h2⟩ := C30_projections (maps i) k
    rw [hg] at h1
    injection h1 with h1
    simp only [perform, IReplies, h2, hv, h1, Option.isSome_map]
    rfl
  | len i => exact ⟨rfl, h⟩
  | isEmpty i => exact ⟨rfl, h⟩
  | first i => exact ⟨rfl, h⟩
  | last i => exact ⟨rfl, h⟩
  | iter i cs =>
    refine ⟨?_, h⟩
    simp only [perform, IReplies]
    rw [C46_iter_double_ended]
  | overlapping i q cs =>
    obtain ⟨o, h1, h2⟩ := C14_overlapping_double_ended_inclusive hS (hm i).any q.closed cs
    refine ⟨?_, h⟩
    simp only [perform, h1, Answer.of, h2, IReplies]
    rfl
  | overlaps i q =>
    obtain ⟨b, h1, h2⟩ := C32_overlaps hS (hm i).any q.closed
    exact ⟨⟨b, by simp only [perform, h1]; rfl, h2⟩, h⟩
  | gaps i q n =>
    obtain ⟨g, l, h1, h2, h3⟩ := C31_gaps_exact hS (hm i) q.closed
    obtain ⟨g', l', i1, i2, i3, i4⟩ := C31_gaps_ordered hS (hm i).any q.closed
    rw [h1] at i1
    cases i1
    cases YieldsE.unique i2 h2
    refine ⟨⟨l, ⟨fun r hr => ⟨(i3 r hr).1, (i3 r hr).2.1⟩, i4.imp ?_, fun k => ?_⟩, ?_⟩, h⟩
    · rintro a b ⟨e, -, j1, j2, j3⟩
      exact ⟨e.1.start, j1.1, by grind⟩
    · rw [h3, hg, hv]
      simp [Range.closed, RangeInclusive.mk']
    · simp only [perform, h1, bind, Except.bind, h2 n, Answer.of]
  | eq i j =>
    refine ⟨⟨_, rfl, ?_⟩, h⟩
    simp only [hv]
    exact eq_iff_strict hS (hw i).1 (hw j).1

example := C113_call (K := UIntW 8) (V := Char) Demo.u8_lawful (maps := fun _ => Demo.imap)
    (plain := fun _ k => Demo.imap.look k)
    (fun _ => ⟨Demo.imap_reachable, fun k =>
      ⟨_, get_look (Demo.imap_reachable.wf Demo.u8_lawful) k, RangeMap.Agree.refl _⟩⟩)
    (.append 0 1)

/-- **C113** Whatever the program, and however its calls depend on the answers: it hears what it
could hear from lists of entries that are plain maps up to `==`. -/
theorem C113_programs (hS : LawfulSteps S) (program : Program (RangeInclusive K) K V) (n : Nat) :
    ILooseHears program n [] (fun _ _ => none) (fun _ => [])
      (dialogue S program n [] fun _ => RangeInclusiveMap.new) := by
  suffices H : ∀ (n : Nat) (answers : List (Answer (RangeInclusive K) V))
      (maps : Nat → RangeInclusiveMap K V)
      (plain : Nat → K → Option V), LooseMirrors S maps plain →
      ILooseHears program n answers plain (fun i => (maps i).iter)
        (dialogue S program n answers maps) from
    H n [] _ _ fun i => ⟨⟨[], by simp, rfl⟩, fun k => ⟨_, rfl, trivial⟩⟩
  intro n
  induction n with
  | zero => exact fun _ _ _ _ => rfl
  | succ n ih =>
    intro answers maps plain h
    unfold ILooseHears dialogue
    cases program answers with
    | none => rfl
    | some c =>
      exact ⟨_, _, (C113_call hS h c).1, (C113_call hS h c).2.1, ih _ _ _ (C113_call hS h c).2.2⟩

/-- A program that looks at two entries of a value that differs from itself, and at two entries
that differ in their marks only. -/
def markThenLook : Program (RangeInclusive (UIntW 8)) (UIntW 8) Marked
  | [] => some (.extend 0 [(⟨⟨1⟩, ⟨3⟩⟩, ⟨0, 'a'⟩), (⟨⟨4⟩, ⟨9⟩⟩, ⟨0, 'b'⟩)])
  | [_] => some (.len 0)
  | [_, _] => some (.eq 0 0)
  | [.flag false, _, _] =>
    some (.collect 1 [(⟨⟨1⟩, ⟨3⟩⟩, ⟨5, 'a'⟩), (⟨⟨4⟩, ⟨9⟩⟩, ⟨5, 'b'⟩)])
  | [_, _, _, _] => some (.iter 1 [.front, .back])
  | [_, _, _, _, _] => some (.eq 1 1)
  | [_, _, _, _, _, _] => some (.get 1 ⟨2⟩)
  | _ => none

example : (dialogue Demo.u8 markThenLook 20 [] fun _ => RangeInclusiveMap.new) =
    [.value (some ⟨5, 'b'⟩), .flag true, .entries [some (.mk' ⟨1⟩ ⟨9⟩, ⟨5, 'b'⟩), none], .done,
      .flag false, .number 2, .done] := by rfl
example := C113_programs Demo.u8_lawful markThenLook 20

end
section
variable {K : Type} [LE K] [LT K] [DecidableLE K] [DecidableLT K]
  [Std.IsLinearPreorder K] [Std.LawfulOrderLT K] {V : Type} [BEq V] [EquivBEq V]
  {S : StepFns K}

/-- **C113** If every value is `==` to itself, the plain maps leave no choice about the ranges, and
none about the values up to `==`. -/
theorem C113_determined (hS : LawfulSteps S) {f : K → Option V}
    {l l' : List (RangeInclusive K × V)} (h : ILooseRuns f l) (h' : ILooseRuns f l') :
    l.length = l'.length ∧ ∀ p ∈ l.zip l', p.1.1.start ≤ p.2.1.start ∧ p.2.1.start ≤ p.1.1.start ∧
      p.1.1.stop ≤ p.2.1.stop ∧ p.2.1.stop ≤ p.1.1.stop ∧ (p.1.2 == p.2.2) = true := by
  have hw : ∀ {l : List (RangeInclusive K × V)}, ILooseRuns f l → WF l := fun {l} h =>
    ⟨⟨h.ordered.imp_of_mem fun {a b} ha hb hab => ⟨by have := h.nonempty a ha; grind, hab⟩,
      fun e he => (h.nonempty e he).1⟩, h.longest, fun e he => (h.nonempty e he).2⟩
  have hl : ∀ {l : List (RangeInclusive K × V)} (h : ILooseRuns f l) (k : K),
      Agree ((⟨l⟩ : RangeInclusiveMap K V).look k) (f k) := fun {l} h k => by
    rw [← valueAt_iter (m := ⟨l⟩) (hw h)]
    exact h.agree k
  have he : iterEq entryEq l l' = true :=
    (eq_iff_look hS (m := ⟨l⟩) (m' := ⟨l'⟩) (hw h) (hw h')).2 fun k =>
      RangeMap.Agree.trans (hl h k) (RangeMap.Agree.symm (hl h' k))
  clear h h' hw hl
  induction l generalizing l' with
  | nil => cases l' with
    | nil => simp
    | cons b t => simp [iterEq] at he
  | cons a t ih => cases l' with
    | nil => simp [iterEq] at he
    | cons b t' =>
      simp only [iterEq, entryEq, keq, Bool.and_eq_true, decide_eq_true_eq] at he
      obtain ⟨h1, h2⟩ := ih he.2
      refine ⟨by simp [h1], ?_⟩
      simp only [List.zip_cons_cons, List.forall_mem_cons]
      exact ⟨⟨he.1.1.1.1.1, he.1.1.1.1.2, he.1.1.1.2.1, he.1.1.1.2.2, he.1.2⟩, h2⟩

example := C113_determined Demo.u8_lawful
  (looseRuns_of_wf (Demo.imap_reachable.wf Demo.u8_lawful) fun _ => RangeMap.Agree.refl _)
  (looseRuns_of_wf (Demo.imap_reachable.wf Demo.u8_lawful) fun _ => RangeMap.Agree.refl _)

end
end Verif.Props.Inclusive

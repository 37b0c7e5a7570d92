import Verif.Props.Dialogue

/-!
# C113: every program, with values whose `==` is not equality

C111 asks for values whose `==` is equality.  Here `==` is any symmetric and transitive relation:
values that compare equal may differ, and a value may differ from itself like NaN.  Then the plain
maps do not say all: which of several `==` values a map gives, and where it keeps two entries of
NaN apart.  So the program sees lists of entries, one for each map, that only change by its calls
and that are the plain maps up to `==`.
-/
set_option linter.unusedSectionVars false

namespace Verif.Spec
section
variable {K V : Type} [LE K] [LT K] [DecidableLE K] [DecidableLT K] [BEq V]

/-- What the entries `l` say about `k`. -/
def valueAt (l : List (Range K × V)) (k : K) : Option V :=
  (l.find? fun e => decide (e.1.start ≤ k ∧ k < e.1.stop)).map (·.2)

/-- `l` is `f` up to `==`, in order, with no two entries that could be one. -/
structure LooseRuns (f : K → Option V) (l : List (Range K × V)) : Prop where
  nonempty : ∀ e ∈ l, e.1.start < e.1.stop
  ordered : l.Pairwise fun a b => a.1.stop ≤ b.1.start
  agree : ∀ k, Agree (valueAt l k) (f k)
  longest : ∀ a ∈ l, ∀ b ∈ l, a.1.stop ≤ b.1.start → b.1.start ≤ a.1.stop →
    (a.2 == b.2) = false

/-- What a call answers when the entries of the maps are `runs`. -/
def Replies (runs : Nat → List (Range K × V)) : Call K V → Answer (Range K) V → Prop
  | .insert _ r _, a => a = if r.start < r.stop then .done else .panicked
  | .remove _ r, a => a = if r.start < r.stop then .done else .panicked
  | .clear _, a => a = .done
  | .extend _ items, a => a = if ∀ e ∈ items, e.1.start < e.1.stop then .done else .panicked
  | .collect _ items, a => a = if ∀ e ∈ items, e.1.start < e.1.stop then .done else .panicked
  | .copy _ _, a => a = .done
  | .append _ _, a => a = .done
  | .get i k, a => a = .value (valueAt (runs i) k)
  | .getKeyValue i k, a =>
    a = .entry ((runs i).find? fun e => decide (e.1.start ≤ k ∧ k < e.1.stop))
  | .containsKey i k, a => a = .flag (valueAt (runs i) k).isSome
  | .len i, a => a = .number (runs i).length
  | .isEmpty i, a => a = .flag (runs i).isEmpty
  | .first i, a => a = .entry (runs i).head?
  | .last i, a => a = .entry (runs i).getLast?
  | .iter i cs, a => a = .entries (dequeScript cs (runs i))
  | .overlapping i q cs, a => a = .entries (dequeScript cs
      ((runs i).filter fun e => decide (q.start < e.1.stop) && decide (e.1.start < q.stop)))
  | .overlaps i q, a => ∃ b, a = .flag b ∧
      (b = true ↔ ∃ e ∈ runs i, q.start < e.1.stop ∧ e.1.start < q.stop)
  | .gaps i q n, a => ∃ l, Holes (valueAt (runs i)) q l ∧
      a = .ranges ((l.map some ++ List.replicate n none).take n)
  | .eq i j, a => ∃ b, a = .flag b ∧
      (b = true ↔ ∀ k, (valueAt (runs i) k == valueAt (runs j) k) = true)

/-- The map that a call may change. -/
def changed : Call K V → Option Nat
  | .insert i _ _ | .remove i _ | .clear i | .extend i _ | .collect i _ | .copy i _
  | .append i _ => some i
  | _ => none

/-- What may become of the entries `runs` by a call answered with `a`, when the plain maps are
`plain` before. -/
structure Follows (plain : Nat → K → Option V) (runs : Nat → List (Range K × V)) (c : Call K V)
    (a : Answer (Range K) V) (runs' : Nat → List (Range K × V)) : Prop where
  /-- The entries are the plain maps with the effect of the call. -/
  entries : ∀ i, LooseRuns (effect plain c i) (runs' i)
  /-- The other maps keep their entries. -/
  kept : ∀ i, changed c ≠ some i → runs' i = runs i
  /-- A panic leaves all maps as they are, except in `extend`. -/
  refused : a = .panicked → (∀ i items, c ≠ .extend i items) → runs' = runs
  /-- A copy has the same entries, with the same values. -/
  copied : ∀ i j, c = .copy i j → runs' i = runs j

/-- `all` is what a program that has had `answers` may hear in at most `n` more calls. -/
def LooseHears (program : Program (Range K) K V) : Nat → List (Answer (Range K) V) →
    (Nat → K → Option V) → (Nat → List (Range K × V)) → List (Answer (Range K) V) → Prop
  | 0, answers, _, _, all => all = answers
  | n + 1, answers, plain, runs, all =>
    match program answers with
    | none => all = answers
    | some c => ∃ a runs', Replies runs c a ∧ Follows plain runs c a runs' ∧
        LooseHears program n (a :: answers) (effect plain c) runs' all

end
end Verif.Spec

namespace Verif.Props
open Spec RangeMap
section
variable {K : Type} [LE K] [LT K] [DecidableLE K] [DecidableLT K]
  [Std.IsLinearPreorder K] [Std.LawfulOrderLT K] {V : Type} [BEq V] [PartialEquivBEq V]

/-- The maps of the program are the plain maps, up to `==`. -/
def LooseMirrors (maps : Nat → RangeMap K V) (plain : Nat → K → Option V) : Prop :=
  ∀ i, Reachable (maps i) ∧ ∀ k, ∃ o, (maps i).get k = .ok o ∧ Agree o (plain i k)

theorem LooseMirrors.wf {maps : Nat → RangeMap K V} {plain : Nat → K → Option V}
    (h : LooseMirrors maps plain) (i : Nat) :
    WF (maps i).btm ∧ ∀ k, Agree ((maps i).look k) (plain i k) := by
  refine ⟨(h i).1.wf, fun k => ?_⟩
  obtain ⟨o, h1, h2⟩ := (h i).2 k
  rw [get_look (h i).1.wf.sep] at h1
  rw [Except.ok.inj h1]
  exact h2

theorem valueAt_iter {m : RangeMap K V} (h : WF m.btm) (k : K) :
    valueAt m.iter k = m.look k := by
  apply Option.ext
  intro v
  rw [look_eq_some h.sep]
  constructor
  · intro hv
    obtain ⟨e, he, rfl⟩ := Option.map_eq_some_iff.1 hv
    have h2 := List.find?_some he
    simp only [decide_eq_true_eq] at h2
    exact ⟨e, List.mem_of_find?_eq_some he, h2.1, h2.2, rfl⟩
  · rintro ⟨e, he, h1, h2, rfl⟩
    unfold valueAt
    cases hf : m.iter.find? fun e => decide (e.1.start ≤ k ∧ k < e.1.stop) with
    | none =>
      have := List.find?_eq_none.1 hf e he
      simp [h1, h2] at this
    | some e' =>
      have h4 := List.find?_some hf
      simp only [decide_eq_true_eq] at h4
      rw [h.sep.unique (List.mem_of_find?_eq_some hf) he h4 ⟨h1, h2⟩]
      rfl

theorem looseRuns_of_wf {m : RangeMap K V} (h : WF m.btm) {f : K → Option V}
    (hf : ∀ k, Agree (m.look k) (f k)) : LooseRuns f m.iter where
  nonempty := h.sep.ne
  ordered := h.sep.pw.imp fun h => h.2
  agree k := by rw [valueAt_iter h]; exact hf k
  longest := h.coal

theorem LooseMirrors.store {maps : Nat → RangeMap K V} {plain : Nat → K → Option V}
    (h : LooseMirrors maps plain) (i : Nat) {m : RangeMap K V} {f : K → Option V} (hm : WF m.btm)
    (hf : ∀ k, Agree (m.look k) (f k)) :
    LooseMirrors (Verif.store maps i m) (Verif.store plain i f) := by
  intro j
  unfold Verif.store
  split
  · exact ⟨hm.reachable, fun k => ⟨_, get_look hm.sep k, hf k⟩⟩
  · exact h j

theorem assign_agree {f g : K → Option V} (h : ∀ k, Agree (f k) (g k)) (r : Range K)
    (o : Option V) (k : K) : Agree (assign f r o k) (assign g r o k) := by
  unfold assign
  split
  · exact Agree.refl _
  · exact h k

theorem insert_looseAssign {m m' : RangeMap K V} (h : WF m.btm) {r : Range K} {v : V}
    (hr : r.start < r.stop) (hi : m.insert r v = .ok m') {f : K → Option V}
    (hf : ∀ k, Agree (m.look k) (f k)) (k : K) : Agree (m'.look k) (assign f r (some v) k) :=
  Agree.trans (insert_look_agree h hr hi k) (assign_agree hf r (some v) k)

theorem extend_looseAssignAll (items : List (Range K × V)) : ∀ {m : RangeMap K V}, WF m.btm →
    ∀ {f : K → Option V}, (∀ k, Agree (m.look k) (f k)) →
    (∀ k, Agree ((m.extend items).1.look k) (assignAll f items k)) ∧
    (if ∀ e ∈ items, e.1.start < e.1.stop then (m.extend items).2 = .ok ()
      else ∃ p, (m.extend items).2 = .error p) := by
  induction items with
  | nil =>
    intro m h f hf
    exact ⟨hf, by simp [RangeMap.extend]⟩
  | cons e t ih =>
    obtain ⟨r, v⟩ := e
    intro m h f hf
    unfold RangeMap.extend assignAll
    by_cases hr : r.start < r.stop
    · obtain ⟨m', h1, h2⟩ := insert_ok h v hr
      have := ih h2 (insert_looseAssign h hr h1 hf)
      simp only [h1, hr, if_true]
      refine ⟨this.1, ?_⟩
      simpa only [List.forall_mem_cons, hr, true_and] using this.2
    · simp only [insert_invalid hr, hr, if_false]
      refine ⟨hf, ?_⟩
      rw [if_neg fun hc => hr (hc _ (List.mem_cons_self ..))]
      exact ⟨_, rfl⟩

theorem looseOr_agree {a a' b b' : Option V} (h : Agree a a') (h' : Agree b b') :
    Agree (a.or b) (a'.or b') := by
  cases a <;> cases a' <;> simp_all [Agree]

theorem eq_iff_strict {m m' : RangeMap K V} (h : WF m.btm) (h' : WF m'.btm) :
    m.eq m' = true ↔ ∀ k, (m.look k == m'.look k) = true := by
  constructor
  · intro he k
    have hs := sub_of_iterEq he
    have hs' := sub_of_iterEq (iterEq_symm he)
    cases hk : m.look k with
    | none =>
      cases hk' : m'.look k with
      | none => rfl
      | some w =>
        obtain ⟨w', hw', _⟩ := hs' k w ((look_eq_some h'.sep _ _).1 hk')
        exact absurd hw' ((look_eq_none h.sep _).1 hk w')
    | some w =>
      obtain ⟨w', hw', hww⟩ := hs k w ((look_eq_some h.sep _ _).1 hk)
      rw [(look_eq_some h'.sep _ _).2 hw']
      exact hww
  · intro hl
    have sub : ∀ {m m' : RangeMap K V}, WF m.btm → WF m'.btm →
        (∀ k, (m.look k == m'.look k) = true) → Sub m.btm m'.btm := by
      intro m m' h h' hl k w hw
      rw [← look_eq_some h.sep] at hw
      have := hl k
      rw [hw] at this
      cases hk : m'.look k with
      | none =>
        rw [hk] at this
        cases this
      | some w' =>
        rw [hk] at this
        exact ⟨w', (look_eq_some h'.sep _ _).1 hk, this⟩
    refine canon h h' (sub h h' hl) (sub h' h fun k => ?_)
    have := hl k
    cases hk : m.look k <;> cases hk' : m'.look k <;> rw [hk, hk'] at this
    · rfl
    · cases this
    · cases this
    · exact PartialEquivBEq.symm (α := V) this

/-- **C113** One call, on maps that are the plain maps `plain` up to `==`: the answer is read off
the entries of the maps, the entries afterwards are the plain maps with the effect of the call, and
the other maps keep theirs. -/
theorem C113_call {maps : Nat → RangeMap K V} {plain : Nat → K → Option V}
    (h : LooseMirrors maps plain) (c : Call K V) :
    Replies (fun i => (maps i).iter) c (perform maps c).1 ∧
    Follows plain (fun i => (maps i).iter) c (perform maps c).1
      (fun i => ((perform maps c).2 i).iter) ∧
    LooseMirrors (perform maps c).2 (effect plain c) := by
  suffices H : Replies (fun i => (maps i).iter) c (perform maps c).1 ∧
      LooseMirrors (perform maps c).2 (effect plain c) from by
    refine ⟨H.1, ⟨fun i => looseRuns_of_wf (H.2.wf i).1 (H.2.wf i).2, fun i hi => ?_,
      fun hp hn => ?_, fun i j hc => ?_⟩, H.2⟩
    · cases c <;> simp only [changed, ne_eq, Option.some.injEq] at hi <;> simp only [perform] <;>
        (try split) <;> first
        | rfl
        | (simp only [Verif.store]
           rw [if_neg fun he => hi he.symm])
    · have hr := H.1
      rw [hp] at hr
      cases c
      case extend i items => exact absurd rfl (hn i items)
      case clear | copy | append => cases hr
      case insert | remove | collect =>
        simp only [perform] at hp ⊢
        split at hp
        · cases hp
        · rfl
      all_goals rfl
    · subst hc
      simp [perform, Verif.store]
  have hw := h.wf
  have hv : ∀ i k, valueAt (maps i).iter k = (maps i).look k := fun i => valueAt_iter (hw i).1
  have hm : ∀ i, Reachable (maps i) := fun i => (h i).1
  have hg : ∀ i k, (maps i).get k = .ok ((maps i).look k) := fun i => get_look (hw i).1.sep
  cases c with
  | insert i r v =>
    by_cases hv : r.start < r.stop
    · obtain ⟨m', h1, h2⟩ := insert_ok (hw i).1 v hv
      simp only [perform, h1, Replies, effect, hv, if_true, true_and]
      exact h.store i h2 (insert_looseAssign (hw i).1 hv h1 (hw i).2)
    · simp only [perform, insert_invalid hv, Replies, effect, hv, if_false, true_and]
      exact h
  | remove i r =>
    by_cases hv : r.start < r.stop
    · obtain ⟨m', h1, h2, -⟩ := remove_spec (hw i).1 hv
      have h1 : (maps i).remove r = .ok m' := h1 _ (Nat.le_refl _)
      simp only [perform, h1, Replies, effect, hv, if_true, true_and]
      refine h.store i h2 fun k => ?_
      rw [remove_look (hw i).1 hv h1 k]
      exact assign_agree (hw i).2 r none k
    · simp only [perform, remove_invalid hv, Replies, effect, hv, if_false, true_and]
      exact h
  | clear i => exact ⟨rfl, h.store i WF.nil fun k => trivial⟩
  | extend i items =>
    obtain ⟨h1, h2⟩ := extend_looseAssignAll items (hw i).1 (hw i).2
    refine ⟨?_, h.store i ((hw i).1.extend items) h1⟩
    simp only [perform, Replies]
    split at h2
    · rw [h2, if_pos ‹_›]; rfl
    · obtain ⟨p, h2⟩ := h2
      rw [h2, if_neg ‹_›]; rfl
  | collect i items =>
    obtain ⟨h1, h2⟩ := extend_looseAssignAll items (m := (RangeMap.new : RangeMap K V)) WF.nil
      (f := fun _ => none) (fun k => trivial)
    simp only [perform, Replies, effect]
    split at h2
    · have h3 : (fromIter items : Except Panic (RangeMap K V)) =
          .ok ((RangeMap.new : RangeMap K V).extend items).1 := by
        simp only [fromIter, h2]; rfl
      rw [h3, if_pos ‹_›, if_pos ‹_›]
      exact ⟨rfl, h.store i (WF.nil.extend items) h1⟩
    · obtain ⟨p, h2⟩ := h2
      have h3 : (fromIter items : Except Panic (RangeMap K V)) = .error p := by
        simp only [fromIter, h2]; rfl
      rw [h3, if_neg ‹_›, if_neg ‹_›]
      exact ⟨rfl, h⟩
  | copy i j => exact ⟨rfl, h.store i (hw j).1 (hw j).2⟩
  | append i j =>
    obtain ⟨h1, h2⟩ := extend_looseAssignAll (maps j).iter (hw i).1 (hw i).2
    have hn : ∀ e ∈ (maps j).iter, e.1.start < e.1.stop := (hw j).1.sep.ne
    rw [if_pos hn] at h2
    refine ⟨?_, h.store i ((hw i).1.extend _) fun k => ?_⟩
    · simp only [perform, Replies, h2]; rfl
    · have := h1 k
      rw [assignAll_exact (g := (maps j).look) hn
        (fun k v => look_eq_some (hw j).1.sep k v)] at this
      exact Agree.trans this (looseOr_agree ((hw j).2 k) (Agree.refl _))
  | get i k => exact ⟨by simp only [perform, Replies, hg, hv]; rfl, h⟩
  | getKeyValue i k =>
    refine ⟨?_, h⟩
    obtain ⟨o, ho, h1, -⟩ := C09_projections (hm i) k
    simp only [perform, ho, Answer.of, Replies]
    congr 1
    apply Option.ext
    intro e
    have h2 := C09_get_key_value (hm i) k e
    rw [ho] at h2
    have h2 : o = some e ↔ _ := ⟨fun hc => h2.1 (by rw [hc]), fun hc => by
      have := h2.2 hc
      injection this⟩
    rw [h2]
    constructor
    · rintro ⟨h3, h4, h5⟩
      cases hf : (maps i).iter.find? fun e => decide (e.1.start ≤ k ∧ k < e.1.stop) with
      | none =>
        have := List.find?_eq_none.1 hf e h3
        simp [h4, h5] at this
      | some e' =>
        have h6 := List.find?_some hf
        simp only [decide_eq_true_eq] at h6
        rw [(hw i).1.sep.unique (List.mem_of_find?_eq_some hf) h3 h6 ⟨h4, h5⟩]
    · intro hf
      have h6 := List.find?_some hf
      simp only [decide_eq_true_eq] at h6
      exact ⟨List.mem_of_find?_eq_some hf, h6⟩
  | containsKey i k =>
    refine ⟨?_, h⟩
    obtain ⟨o, ho, h1, h2⟩ := C09_projections (hm i) k
    rw [hg] at h1
    injection h1 with h1
    simp only [perform, Replies, h2, hv, h1, Option.isSome_map]
    rfl
  | len i => exact ⟨rfl, h⟩
  | isEmpty i => exact ⟨rfl, h⟩
  | first i => exact ⟨rfl, h⟩
  | last i => exact ⟨rfl, h⟩
  | iter i cs =>
    refine ⟨?_, h⟩
    simp only [perform, Replies]
    rw [C16_iter_double_ended]
  | overlapping i q cs =>
    obtain ⟨o, h1, h2⟩ := C14_overlapping_double_ended (hm i) q cs
    refine ⟨?_, h⟩
    simp only [perform, h1, Answer.of, h2, Replies]
  | overlaps i q =>
    obtain ⟨b, h1, h2⟩ := C13_overlaps (hm i) q
    exact ⟨⟨b, by simp only [perform, h1]; rfl, h2⟩, h⟩
  | gaps i q n =>
    obtain ⟨g, l, h1, h2, h3, h4, h5, -⟩ := gaps_yields_list (hm i) q
    refine ⟨⟨l, ⟨fun r hr => (h4 r hr).1, h5.imp fun h => h.1, fun k => ?_⟩, ?_⟩, h⟩
    · rw [h3, hg, hv]
      simp
    · simp only [perform, h1, Answer.of, h2 n]
  | eq i j =>
    refine ⟨⟨_, rfl, ?_⟩, h⟩
    simp only [hv]
    exact eq_iff_strict (hw i).1 (hw j).1

example := C113_call (K := Nat) (V := Char) (maps := fun _ => Demo.map)
    (plain := fun _ k => Demo.map.look k)
    (fun _ => ⟨Demo.map_reachable, fun k => ⟨_, get_look Demo.map_reachable.wf.sep k,
      Agree.refl _⟩⟩) (.append 0 1)

/-- **C113** Whatever the program, and however its calls depend on the answers: it hears what it
could hear from lists of entries that are plain maps up to `==`. -/
theorem C113_programs (program : Program (Range K) K V) (n : Nat) :
    LooseHears program n [] (fun _ _ => none) (fun _ => [])
      (dialogue program n [] fun _ => RangeMap.new) := by
  suffices H : ∀ (n : Nat) (answers : List (Answer (Range K) V)) (maps : Nat → RangeMap K V)
      (plain : Nat → K → Option V), LooseMirrors maps plain →
      LooseHears program n answers plain (fun i => (maps i).iter)
        (dialogue program n answers maps) from
    H n [] _ _ fun i => ⟨.new, fun k => ⟨_, rfl, trivial⟩⟩
  intro n
  induction n with
  | zero => exact fun _ _ _ _ => rfl
  | succ n ih =>
    intro answers maps plain h
    unfold LooseHears dialogue
    cases program answers with
    | none => rfl
    | some c =>
      exact ⟨_, _, (C113_call h c).1, (C113_call h c).2.1, ih _ _ _ (C113_call h c).2.2⟩

/-- Values with a mark that `==` ignores, except that 0 differs from itself. -/
structure Marked where
  value : Nat
  mark : Char
deriving DecidableEq

instance : BEq Marked := ⟨fun a b => a.value != 0 && a.value == b.value⟩

instance : PartialEquivBEq Marked where
  symm {a b} h := by
    simp only [BEq.beq, Bool.and_eq_true] at h ⊢
    grind
  trans {a b c} h h' := by
    simp only [BEq.beq, Bool.and_eq_true] at h h' ⊢
    grind

/-- A program that looks at two entries of a value that differs from itself, and at two entries
that differ in their marks only. -/
def markThenLook : Program (Range Nat) Nat Marked
  | [] => some (.extend 0 [(⟨1, 4⟩, ⟨0, 'a'⟩), (⟨4, 9⟩, ⟨0, 'b'⟩)])
  | [_] => some (.len 0)
  | [_, _] => some (.eq 0 0)
  | [.flag false, _, _] => some (.collect 1 [(⟨1, 4⟩, ⟨5, 'a'⟩), (⟨4, 9⟩, ⟨5, 'b'⟩)])
  | [_, _, _, _] => some (.iter 1 [.front, .back])
  | [_, _, _, _, _] => some (.eq 1 1)
  | [_, _, _, _, _, _] => some (.get 1 2)
  | _ => none

example : (dialogue markThenLook 20 [] fun _ => RangeMap.new) =
    [.value (some ⟨5, 'b'⟩), .flag true, .entries [some (⟨1, 9⟩, ⟨5, 'b'⟩), none], .done,
      .flag false, .number 2, .done] := by rfl
example := C113_programs markThenLook 20

end
section
variable {K : Type} [LE K] [LT K] [DecidableLE K] [DecidableLT K]
  [Std.IsLinearPreorder K] [Std.LawfulOrderLT K] {V : Type} [BEq V] [EquivBEq V]

/-- **C113** If every value is `==` to itself, the plain maps leave no choice about the ranges, and
none about the values up to `==`. -/
theorem C113_determined {f : K → Option V} {l l' : List (Range K × V)} (h : LooseRuns f l)
    (h' : LooseRuns f l') :
    l.length = l'.length ∧ ∀ p ∈ l.zip l', p.1.1.start ≤ p.2.1.start ∧ p.2.1.start ≤ p.1.1.start ∧
      p.1.1.stop ≤ p.2.1.stop ∧ p.2.1.stop ≤ p.1.1.stop ∧ (p.1.2 == p.2.2) = true := by
  have hw : ∀ {l : List (Range K × V)}, LooseRuns f l → WF l := fun {l} h =>
    ⟨⟨h.ordered.imp_of_mem fun {a b} ha hb hab => ⟨by have := h.nonempty a ha; grind, hab⟩,
      h.nonempty⟩, h.longest⟩
  have hl : ∀ {l : List (Range K × V)} (h : LooseRuns f l) (k : K),
      Agree ((⟨l⟩ : RangeMap K V).look k) (f k) := fun {l} h k => by
    rw [← valueAt_iter (m := ⟨l⟩) (hw h)]
    exact h.agree k
  have he : iterEq entryEq l l' = true :=
    (eq_iff_look (m := ⟨l⟩) (m' := ⟨l'⟩) (hw h) (hw h')).2 fun k =>
      Agree.trans (hl h k) (Agree.symm (hl h' k))
  clear h h' hw hl
  induction l generalizing l' with
  | nil => cases l' with
    | nil => simp
    | cons b t => simp [iterEq] at he
  | cons a t ih => cases l' with
    | nil => simp [iterEq] at he
    | cons b t' =>
      simp only [iterEq, entryEq, keq, Bool.and_eq_true, decide_eq_true_eq] at he
      obtain ⟨h1, h2⟩ := ih he.2
      refine ⟨by simp [h1], ?_⟩
      simp only [List.zip_cons_cons, List.forall_mem_cons]
      exact ⟨⟨he.1.1.1.1, he.1.1.1.2, he.1.1.2.1, he.1.1.2.2, he.1.2⟩, h2⟩

example := C113_determined (looseRuns_of_wf Demo.map_reachable.wf fun _ => Agree.refl _)
  (looseRuns_of_wf Demo.map_reachable.wf fun _ => Agree.refl _)

end
end Verif.Props

import Verif.Model.Dialogue
import Verif.Proof.Append
import Verif.Props.Map
import Verif.Props.Iter
import Verif.Props.Build
import Verif.Props.Demo

/-!
# C111: every program sees a plain map from keys to values
-/
set_option linter.unusedSectionVars false

namespace Verif.Spec
section
variable {K V : Type} [LE K] [LT K] [DecidableLE K] [DecidableLT K]

/-- `f` with the keys of `a..b` mapped to `o`. -/
def assign (f : K → Option V) (r : Range K) (o : Option V) : K → Option V :=
  fun k => if r.start ≤ k ∧ k < r.stop then o else f k

/-- `f` with the items assigned in turn, up to the first one whose range is empty. -/
def assignAll (f : K → Option V) : List (Range K × V) → K → Option V
  | [] => f
  | (r, v) :: t => if r.start < r.stop then assignAll (assign f r (some v)) t else f

/-- What a call does to plain maps `maps`.  The calls that panic are those with an empty range. -/
def effect (maps : Nat → K → Option V) : Call K V → Nat → K → Option V
  | .insert i r v => if r.start < r.stop then store maps i (assign (maps i) r (some v)) else maps
  | .remove i r => if r.start < r.stop then store maps i (assign (maps i) r none) else maps
  | .clear i => store maps i fun _ => none
  | .extend i items => store maps i (assignAll (maps i) items)
  | .collect i items =>
    if ∀ e ∈ items, e.1.start < e.1.stop then store maps i (assignAll (fun _ => none) items)
    else maps
  | .copy i j => store maps i (maps j)
  | .append i j => store maps i fun k => (maps j k).or (maps i k)
  | _ => maps

/-- `l` is `f` cut into its longest runs of equal values, in order. -/
structure Runs (f : K → Option V) (l : List (Range K × V)) : Prop where
  nonempty : ∀ e ∈ l, e.1.start < e.1.stop
  ordered : l.Pairwise fun a b => a.1.stop ≤ b.1.start
  exact : ∀ k v, f k = some v ↔ ∃ e ∈ l, e.1.start ≤ k ∧ k < e.1.stop ∧ e.2 = v
  longest : ∀ a ∈ l, ∀ b ∈ l, a.1.stop ≤ b.1.start → b.1.start ≤ a.1.stop → a.2 ≠ b.2

/-- `l` is the keys of `q` that `f` does not map, cut into their longest runs, in order. -/
structure Holes (f : K → Option V) (q : Range K) (l : List (Range K)) : Prop where
  nonempty : ∀ r ∈ l, r.start < r.stop
  ordered : l.Pairwise fun a b => a.stop < b.start
  exact : ∀ k, (∃ r ∈ l, r.start ≤ k ∧ k < r.stop) ↔ q.start ≤ k ∧ k < q.stop ∧ f k = none

/-- What a call may answer when the maps are the plain maps `maps`. -/
def Says (maps : Nat → K → Option V) : Call K V → Answer (Range K) V → Prop
  | .insert _ r _, a => a = if r.start < r.stop then .done else .panicked
  | .remove _ r, a => a = if r.start < r.stop then .done else .panicked
  | .clear _, a => a = .done
  | .extend _ items, a => a = if ∀ e ∈ items, e.1.start < e.1.stop then .done else .panicked
  | .collect _ items, a => a = if ∀ e ∈ items, e.1.start < e.1.stop then .done else .panicked
  | .copy _ _, a => a = .done
  | .append _ _, a => a = .done
  | .get i k, a => a = .value (maps i k)
  | .getKeyValue i k, a => ∃ l, Runs (maps i) l ∧
      a = .entry (l.find? fun e => decide (e.1.start ≤ k ∧ k < e.1.stop))
  | .containsKey i k, a => a = .flag (maps i k).isSome
  | .len i, a => ∃ l, Runs (maps i) l ∧ a = .number l.length
  | .isEmpty i, a => ∃ b, a = .flag b ∧ (b = true ↔ ∀ k, maps i k = none)
  | .first i, a => ∃ l, Runs (maps i) l ∧ a = .entry l.head?
  | .last i, a => ∃ l, Runs (maps i) l ∧ a = .entry l.getLast?
  | .iter i cs, a => ∃ l, Runs (maps i) l ∧ a = .entries (dequeScript cs l)
  | .overlapping i q cs, a => ∃ l, Runs (maps i) l ∧
      a = .entries (dequeScript cs
        (l.filter fun e => decide (q.start < e.1.stop) && decide (e.1.start < q.stop)))
  | .overlaps i q, a => ∃ l b, Runs (maps i) l ∧ a = .flag b ∧
      (b = true ↔ ∃ e ∈ l, q.start < e.1.stop ∧ e.1.start < q.stop)
  | .gaps i q n, a => ∃ l, Holes (maps i) q l ∧
      a = .ranges ((l.map some ++ List.replicate n none).take n)
  | .eq i j, a => ∃ b, a = .flag b ∧ (b = true ↔ ∀ k, maps i k = maps j k)

/-- `all` is what a program that has had `answers` may hear in at most `n` more calls. -/
def Hears (program : Program (Range K) K V) : Nat → List (Answer (Range K) V) →
    (Nat → K → Option V) → List (Answer (Range K) V) → Prop
  | 0, answers, _, all => all = answers
  | n + 1, answers, maps, all =>
    match program answers with
    | none => all = answers
    | some c => ∃ a, Says maps c a ∧ Hears program n (a :: answers) (effect maps c) all

end
end Verif.Spec

namespace Verif.Props
open Spec RangeMap
section
variable {K : Type} [LE K] [LT K] [DecidableLE K] [DecidableLT K]
  [Std.IsLinearPreorder K] [Std.LawfulOrderLT K] {V : Type} [BEq V] [LawfulBEq V]

/-- The maps of the program are the plain maps. -/
def Mirrors (maps : Nat → RangeMap K V) (plain : Nat → K → Option V) : Prop :=
  ∀ i, Reachable (maps i) ∧ ∀ k, (maps i).get k = .ok (plain i k)

theorem Mirrors.wf {maps : Nat → RangeMap K V} {plain : Nat → K → Option V}
    (h : Mirrors maps plain) (i : Nat) :
    WF (maps i).btm ∧ ∀ k, (maps i).look k = plain i k := by
  refine ⟨(h i).1.wf, fun k => ?_⟩
  have := (h i).2 k
  rw [get_look (h i).1.wf.sep] at this
  exact Except.ok.inj this

theorem runs_of_wf {m : RangeMap K V} (h : WF m.btm) {f : K → Option V}
    (hf : ∀ k, m.look k = f k) : Runs f m.iter where
  nonempty := h.sep.ne
  ordered := h.sep.pw.imp fun h => h.2
  exact k v := by
    rw [← hf k, look_eq_some h.sep]
    rfl
  longest a ha b hb h1 h2 := by
    have := h.coal a ha b hb h1 h2
    simpa using this

theorem Mirrors.store {maps : Nat → RangeMap K V} {plain : Nat → K → Option V}
    (h : Mirrors maps plain) (i : Nat) {m : RangeMap K V} {f : K → Option V} (hm : WF m.btm)
    (hf : ∀ k, m.look k = f k) : Mirrors (Verif.store maps i m) (Verif.store plain i f) := by
  intro j
  unfold Verif.store
  split
  · exact ⟨hm.reachable, fun k => by rw [get_look hm.sep, hf]⟩
  · exact h j

theorem insert_assign {m m' : RangeMap K V} (h : WF m.btm) {r : Range K} {v : V}
    (hr : r.start < r.stop) (hi : m.insert r v = .ok m') {f : K → Option V}
    (hf : ∀ k, m.look k = f k) : ∀ k, m'.look k = assign f r (some v) k := by
  intro k
  have := Agree.eq (insert_look_agree h hr hi k)
  rw [this, hf]
  rfl

theorem extend_assignAll (items : List (Range K × V)) : ∀ {m : RangeMap K V}, WF m.btm →
    ∀ {f : K → Option V}, (∀ k, m.look k = f k) →
    (∀ k, (m.extend items).1.look k = assignAll f items k) ∧
    (if ∀ e ∈ items, e.1.start < e.1.stop then (m.extend items).2 = .ok ()
      else ∃ p, (m.extend items).2 = .error p) := by
  induction items with
  | nil =>
    intro m h f hf
    exact ⟨hf, by simp [RangeMap.extend]⟩
  | cons e t ih =>
    obtain ⟨r, v⟩ := e
    intro m h f hf
    unfold RangeMap.extend assignAll
    by_cases hr : r.start < r.stop
    · obtain ⟨m', h1, h2⟩ := insert_ok h v hr
      have := ih h2 (insert_assign h hr h1 hf)
      simp only [h1, hr, if_true]
      refine ⟨this.1, ?_⟩
      simpa only [List.forall_mem_cons, hr, true_and] using this.2
    · simp only [insert_invalid hr, hr, if_false]
      refine ⟨hf, ?_⟩
      rw [if_neg fun hc => hr (hc _ (List.mem_cons_self ..))]
      exact ⟨_, rfl⟩

omit [BEq V] [LawfulBEq V] in
theorem assignAll_valid (items : List (Range K × V)) (hi : ∀ e ∈ items, e.1.start < e.1.stop) :
    ∀ (f : K → Option V) (k : K), assignAll f items k =
      ((items.reverse.find? fun e => covers e.1 k).map (·.2)).or (f k) := by
  induction items with
  | nil => intro f k; rfl
  | cons e t ih =>
    obtain ⟨r, v⟩ := e
    intro f k
    unfold assignAll
    rw [if_pos (hi _ (List.mem_cons_self ..)), ih (fun e he => hi e (List.mem_cons_of_mem _ he)),
      List.reverse_cons, List.find?_append]
    cases (t.reverse.find? fun e => covers e.1 k) with
    | some e => rfl
    | none =>
      by_cases hk : r.start ≤ k ∧ k < r.stop
      · simp [assign, covers, hk]
      · simp [assign, covers, hk]

omit [BEq V] [LawfulBEq V] in
theorem assignAll_exact {l : List (Range K × V)} {g : K → Option V}
    (hn : ∀ e ∈ l, e.1.start < e.1.stop)
    (hx : ∀ k v, g k = some v ↔ ∃ e ∈ l, e.1.start ≤ k ∧ k < e.1.stop ∧ e.2 = v)
    (f : K → Option V) (k : K) : assignAll f l k = (g k).or (f k) := by
  rw [assignAll_valid l hn]
  congr 1
  apply Option.ext
  intro v
  rw [hx]
  constructor
  · intro hv
    obtain ⟨e, he, rfl⟩ := Option.map_eq_some_iff.1 hv
    have h1 := List.mem_of_find?_eq_some he
    have h2 := List.find?_some he
    simp only [covers, decide_eq_true_eq] at h2
    exact ⟨e, by simpa using h1, h2.1, h2.2, rfl⟩
  · rintro ⟨e, he, h1, h2, rfl⟩
    cases hf : l.reverse.find? fun e => covers e.1 k with
    | none =>
      have := List.find?_eq_none.1 hf e (by simpa using he)
      simp [covers, h1, h2] at this
    | some e' =>
      have h3 := List.mem_of_find?_eq_some hf
      have h4 := List.find?_some hf
      simp only [covers, decide_eq_true_eq] at h4
      have h5 := (hx k e.2).2 ⟨e, he, h1, h2, rfl⟩
      have h6 := (hx k e'.2).2 ⟨e', by simpa using h3, h4.1, h4.2, rfl⟩
      rw [h5] at h6
      simpa using h6.symm

theorem assignAll_runs {l : List (Range K × V)} {g : K → Option V} (h : Runs g l)
    (f : K → Option V) (k : K) : assignAll f l k = (g k).or (f k) :=
  assignAll_exact h.nonempty h.exact f k

/-- **C111** One call, on maps that are the plain maps `plain`: what it answers is what plain maps
may say, and afterwards the maps are the plain maps with the effect of the call. -/
theorem C111_call {maps : Nat → RangeMap K V} {plain : Nat → K → Option V}
    (h : Mirrors maps plain) (c : Call K V) :
    Says plain c (perform maps c).1 ∧ Mirrors (perform maps c).2 (effect plain c) := by
  have hw := h.wf
  have hr : ∀ i, Runs (plain i) (maps i).iter := fun i => runs_of_wf (hw i).1 (hw i).2
  have hm : ∀ i, Reachable (maps i) := fun i => (h i).1
  have hg : ∀ i k, (maps i).get k = .ok (plain i k) := fun i => (h i).2
  cases c with
  | insert i r v =>
    by_cases hv : r.start < r.stop
    · obtain ⟨m', h1, h2⟩ := insert_ok (hw i).1 v hv
      simp only [perform, h1, Says, effect, hv, if_true, true_and]
      exact h.store i h2 (insert_assign (hw i).1 hv h1 (hw i).2)
    · simp only [perform, insert_invalid hv, Says, effect, hv, if_false, true_and]
      exact h
  | remove i r =>
    by_cases hv : r.start < r.stop
    · obtain ⟨m', h1, h2, -⟩ := remove_spec (hw i).1 hv
      have h1 : (maps i).remove r = .ok m' := h1 _ (Nat.le_refl _)
      simp only [perform, h1, Says, effect, hv, if_true, true_and]
      refine h.store i h2 fun k => ?_
      rw [remove_look (hw i).1 hv h1 k, (hw i).2]
      rfl
    · simp only [perform, remove_invalid hv, Says, effect, hv, if_false, true_and]
      exact h
  | clear i => exact ⟨rfl, h.store i WF.nil fun k => rfl⟩
  | extend i items =>
    obtain ⟨h1, h2⟩ := extend_assignAll items (hw i).1 (hw i).2
    refine ⟨?_, h.store i ((hw i).1.extend items) h1⟩
    simp only [perform, Says]
    split at h2
    · rw [h2, if_pos ‹_›]; rfl
    · obtain ⟨p, h2⟩ := h2
      rw [h2, if_neg ‹_›]; rfl
  | collect i items =>
    obtain ⟨h1, h2⟩ := extend_assignAll items (m := (RangeMap.new : RangeMap K V)) WF.nil
      (f := fun _ => none) (fun k => rfl)
    simp only [perform, Says, effect]
    split at h2
    · have h3 : (fromIter items : Except Panic (RangeMap K V)) =
          .ok ((RangeMap.new : RangeMap K V).extend items).1 := by
        simp only [fromIter, h2]; rfl
      rw [h3, if_pos ‹_›, if_pos ‹_›]
      exact ⟨rfl, h.store i (WF.nil.extend items) h1⟩
    · obtain ⟨p, h2⟩ := h2
      have h3 : (fromIter items : Except Panic (RangeMap K V)) = .error p := by
        simp only [fromIter, h2]; rfl
      rw [h3, if_neg ‹_›, if_neg ‹_›]
      exact ⟨rfl, h⟩
  | copy i j => exact ⟨rfl, h.store i (hw j).1 (hw j).2⟩
  | append i j =>
    obtain ⟨h1, h2⟩ := extend_assignAll (maps j).iter (hw i).1 (hw i).2
    rw [if_pos (hr j).nonempty] at h2
    refine ⟨?_, h.store i ((hw i).1.extend _) fun k => ?_⟩
    · simp only [perform, Says, h2]; rfl
    · rw [h1 k, assignAll_runs (hr j)]
  | get i k => exact ⟨by simp only [perform, Says, hg]; rfl, h⟩
  | getKeyValue i k =>
    refine ⟨⟨_, hr i, ?_⟩, h⟩
    obtain ⟨o, ho, h1, -⟩ := C09_projections (hm i) k
    simp only [perform, ho, Answer.of]
    congr 1
    apply Option.ext
    intro e
    have h2 := C09_get_key_value (hm i) k e
    rw [ho] at h2
    have h2 : o = some e ↔ _ := ⟨fun hc => h2.1 (by rw [hc]), fun hc => by
      have := h2.2 hc
      injection this⟩
    rw [h2]
    constructor
    · rintro ⟨h3, h4, h5⟩
      cases hf : (maps i).iter.find? fun e => decide (e.1.start ≤ k ∧ k < e.1.stop) with
      | none =>
        have := List.find?_eq_none.1 hf e h3
        simp [h4, h5] at this
      | some e' =>
        have h6 := List.find?_some hf
        simp only [decide_eq_true_eq] at h6
        rw [(hw i).1.sep.unique (List.mem_of_find?_eq_some hf) h3 h6 ⟨h4, h5⟩]
    · intro hf
      have h6 := List.find?_some hf
      simp only [decide_eq_true_eq] at h6
      exact ⟨List.mem_of_find?_eq_some hf, h6⟩
  | containsKey i k =>
    refine ⟨?_, h⟩
    obtain ⟨o, ho, h1, h2⟩ := C09_projections (hm i) k
    rw [hg] at h1
    injection h1 with h1
    simp only [perform, Says, h2, h1, Option.isSome_map]
    rfl
  | len i => exact ⟨⟨_, hr i, rfl⟩, h⟩
  | isEmpty i =>
    refine ⟨⟨_, rfl, ?_⟩, h⟩
    rw [RangeMap.isEmpty, List.isEmpty_iff]
    constructor
    · intro h1 k
      cases hp : plain i k with
      | none => rfl
      | some v =>
        obtain ⟨e, he, -⟩ := ((hr i).exact k v).1 hp
        rw [RangeMap.iter, h1] at he
        cases he
    · intro h1
      cases hb : (maps i).btm with
      | nil => rfl
      | cons e t =>
        have he : e ∈ (maps i).iter := by rw [RangeMap.iter, hb]; exact List.mem_cons_self ..
        have h2 := (hr i).nonempty e he
        have := ((hr i).exact e.1.start e.2).2 ⟨e, he, by grind, h2, rfl⟩
        rw [h1] at this
        cases this
  | first i => exact ⟨⟨_, hr i, rfl⟩, h⟩
  | last i => exact ⟨⟨_, hr i, rfl⟩, h⟩
  | iter i cs =>
    refine ⟨⟨_, hr i, ?_⟩, h⟩
    simp only [perform]
    rw [C16_iter_double_ended]
  | overlapping i q cs =>
    obtain ⟨o, h1, h2⟩ := C14_overlapping_double_ended (hm i) q cs
    refine ⟨⟨_, hr i, ?_⟩, h⟩
    simp only [perform, h1, Answer.of, h2]
  | overlaps i q =>
    obtain ⟨b, h1, h2⟩ := C13_overlaps (hm i) q
    exact ⟨⟨_, b, hr i, by simp only [perform, h1]; rfl, h2⟩, h⟩
  | gaps i q n =>
    obtain ⟨g, l, h1, h2, h3, h4, h5, -⟩ := gaps_yields_list (hm i) q
    refine ⟨⟨l, ⟨fun r hr => (h4 r hr).1, h5.imp fun h => h.1, fun k => ?_⟩, ?_⟩, h⟩
    · rw [h3, hg]
      simp
    · simp only [perform, h1, Answer.of, h2 n]
  | eq i j =>
    refine ⟨⟨_, rfl, ?_⟩, h⟩
    rw [C06_canonical (hm i) (hm j)]
    constructor
    · intro h1 k
      obtain ⟨o, o', h2, h3, h4⟩ := h1 k
      rw [hg] at h2 h3
      cases h2
      cases h3
      exact Agree.eq h4
    · intro h1 k
      exact ⟨_, _, hg i k, hg j k, by rw [h1]; exact Agree.refl _⟩

example := C111_call (K := Nat) (V := Char) (maps := fun _ => Demo.map)
    (plain := fun _ k => Demo.map.look k)
    (fun _ => ⟨Demo.map_reachable, get_look Demo.map_reachable.wf.sep⟩) (.append 0 1)

/-- **C111** Whatever the program, and however its calls depend on the answers: it hears what it
could hear from plain maps.  In particular the only calls that panic are those with an empty
range. -/
theorem C111_programs (program : Program (Range K) K V) (n : Nat) :
    Hears program n [] (fun _ _ => none) (dialogue program n [] fun _ => RangeMap.new) := by
  suffices H : ∀ (n : Nat) (answers : List (Answer (Range K) V)) (maps : Nat → RangeMap K V)
      (plain : Nat → K → Option V), Mirrors maps plain →
      Hears program n answers plain (dialogue program n answers maps) from
    H n [] _ _ fun i => ⟨.new, fun k => rfl⟩
  intro n
  induction n with
  | zero => exact fun _ _ _ _ => rfl
  | succ n ih =>
    intro answers maps plain h
    unfold Hears dialogue
    cases program answers with
    | none => rfl
    | some c => exact ⟨_, (C111_call h c).1, ih _ _ _ (C111_call h c).2⟩

/-- A program whose third call depends on the answer to the second. -/
def lookThenCut : Program (Range Nat) Nat Char
  | [] => some (.insert 0 ⟨1, 9⟩ 'a')
  | [_] => some (.get 0 4)
  | [.value (some _), _] => some (.remove 0 ⟨4, 5⟩)
  | [.value none, _] => some (.clear 0)
  | [_, _, _] => some (.gaps 0 ⟨0, 20⟩ 4)
  | [_, _, _, _] => some (.insert 0 ⟨3, 3⟩ 'b')
  | [_, _, _, _, _] => some (.len 0)
  | [_, _, _, _, _, _] => some (.eq 0 1)
  | _ => none

example : (dialogue lookThenCut 20 [] fun _ => RangeMap.new) =
    [.flag false, .number 2, .panicked, .ranges [some ⟨0, 1⟩, some ⟨4, 5⟩, some ⟨9, 20⟩, none],
      .done, .value (some 'a'), .done] := by rfl
example := C111_programs lookThenCut 20

/-- The runs of a plain map are determined by it, when keys that compare equal are equal. -/
theorem runs_unique (hk : ∀ a b : K, a ≤ b → b ≤ a → a = b) {f : K → Option V}
    {l l' : List (Range K × V)} (h : Runs f l) (h' : Runs f l') : l = l' := by
  have hw : ∀ {l : List (Range K × V)}, Runs f l → WF l := fun {l} h =>
    ⟨⟨h.ordered.imp_of_mem fun {a b} ha hb hab => ⟨by have := h.nonempty a ha; grind, hab⟩,
      h.nonempty⟩, fun a ha b hb h1 h2 => by simpa using h.longest a ha b hb h1 h2⟩
  have hl : ∀ {l : List (Range K × V)} (h : Runs f l) (k : K),
      (⟨l⟩ : RangeMap K V).get k = .ok (f k) := fun {l} h k => by
    rw [get_look (hw h).sep]
    congr 1
    apply Option.ext
    intro v
    rw [look_eq_some (hw h).sep, h.exact]
    rfl
  refine iterEq_eq_of_lawful hk
    ((C06_canonical (m := ⟨l⟩) (m' := ⟨l'⟩) (hw h).reachable (hw h').reachable).2 fun k => ?_)
  exact ⟨_, _, hl h k, hl h' k, Agree.refl _⟩

/-- Ranges in order that do not touch are determined by the keys they cover, when keys that compare
equal are equal. -/
theorem ranges_unique (hk : ∀ a b : K, a ≤ b → b ≤ a → a = b) :
    ∀ (l l' : List (Range K)) (P : K → Prop),
      (∀ r ∈ l, r.start < r.stop) → (∀ r ∈ l', r.start < r.stop) →
      (l.Pairwise fun a b => a.stop < b.start) → (l'.Pairwise fun a b => a.stop < b.start) →
      (∀ k, (∃ r ∈ l, r.start ≤ k ∧ k < r.stop) ↔ P k) →
      (∀ k, (∃ r ∈ l', r.start ≤ k ∧ k < r.stop) ↔ P k) → l = l' := by
  intro l
  induction l with
  | nil =>
    intro l' P _ h2 _ _ h5 h6
    cases l' with
    | nil => rfl
    | cons r t =>
      have := h2 r (by simp)
      have := (h5 r.start).2 ((h6 _).1 ⟨r, by simp, by grind, this⟩)
      simp at this
  | cons a t ih =>
    intro l' P h1 h2 h3 h4 h5 h6
    cases l' with
    | nil =>
      have := h1 a (by simp)
      have := (h6 a.start).2 ((h5 _).1 ⟨a, by simp, by grind, this⟩)
      simp at this
    | cons b t' =>
      rw [List.pairwise_cons] at h3 h4
      have ha := h1 a (by simp)
      have hb := h2 b (by simp)
      have hat : ∀ r ∈ t, r.start < r.stop := fun r hr => h1 r (List.mem_cons_of_mem _ hr)
      have hbt : ∀ r ∈ t', r.start < r.stop := fun r hr => h2 r (List.mem_cons_of_mem _ hr)
      have hs : a.start = b.start := by
        obtain ⟨r, hr, h7, h8⟩ := (h6 a.start).2 ((h5 _).1 ⟨a, by simp, by grind, ha⟩)
        obtain ⟨r', hr', h9, h10⟩ := (h5 b.start).2 ((h6 _).1 ⟨b, by simp, by grind, hb⟩)
        refine hk _ _ ?_ ?_
        · rcases List.mem_cons.1 hr' with rfl | hr'
          · exact h9
          · have := h3.1 r' hr'
            grind
        · rcases List.mem_cons.1 hr with rfl | hr
          · exact h7
          · have := h4.1 r hr
            grind
      have he : a.stop = b.stop := by
        refine hk _ _ ?_ ?_
        · apply Std.not_lt.1
          intro hc
          obtain ⟨r, hr, h7, h8⟩ := (h6 b.stop).2 ((h5 _).1 ⟨a, by simp, by grind, hc⟩)
          rcases List.mem_cons.1 hr with rfl | hr
          · grind
          · have := h4.1 r hr
            grind
        · apply Std.not_lt.1
          intro hc
          obtain ⟨r, hr, h7, h8⟩ := (h5 a.stop).2 ((h6 _).1 ⟨b, by simp, by grind, hc⟩)
          rcases List.mem_cons.1 hr with rfl | hr
          · grind
          · have := h3.1 r hr
            grind
      obtain ⟨as, ae⟩ := a
      obtain ⟨bs, be⟩ := b
      simp only at hs he
      subst hs he
      congr 1
      refine ih t' (fun k => P k ∧ ¬ (as ≤ k ∧ k < ae)) hat hbt h3.2 h4.2 (fun k => ?_) fun k => ?_
      · rw [← h5]
        constructor
        · rintro ⟨r, hr, h7, h8⟩
          exact ⟨⟨r, List.mem_cons_of_mem _ hr, h7, h8⟩, by have := h3.1 r hr; grind⟩
        · rintro ⟨⟨r, hr, h7, h8⟩, h9⟩
          rcases List.mem_cons.1 hr with rfl | hr
          · exact absurd ⟨h7, h8⟩ h9
          · exact ⟨r, hr, h7, h8⟩
      · rw [← h6]
        constructor
        · rintro ⟨r, hr, h7, h8⟩
          exact ⟨⟨r, List.mem_cons_of_mem _ hr, h7, h8⟩, by have := h4.1 r hr; grind⟩
        · rintro ⟨⟨r, hr, h7, h8⟩, h9⟩
          rcases List.mem_cons.1 hr with rfl | hr
          · exact absurd ⟨h7, h8⟩ h9
          · exact ⟨r, hr, h7, h8⟩

/-- The holes of a plain map are determined by it, when keys that compare equal are equal. -/
theorem holes_unique (hk : ∀ a b : K, a ≤ b → b ≤ a → a = b) {f : K → Option V} {q : Range K}
    {l l' : List (Range K)} (h : Holes f q l) (h' : Holes f q l') : l = l' :=
  ranges_unique hk l l' _ h.nonempty h'.nonempty h.ordered h'.ordered h.exact h'.exact

/-- **C111** When keys that compare equal are equal, the plain maps leave no choice about the
answer of a call. -/
theorem C111_one_answer (hk : ∀ a b : K, a ≤ b → b ≤ a → a = b) {plain : Nat → K → Option V}
    {c : Call K V} {a a' : Answer (Range K) V} (h : Says plain c a) (h' : Says plain c a') :
    a = a' := by
  have flag : ∀ {P : Prop} {a a' : Answer (Range K) V},
      (∃ b, a = .flag b ∧ (b = true ↔ P)) → (∃ b, a' = .flag b ∧ (b = true ↔ P)) → a = a' := by
    rintro P _ _ ⟨b, rfl, h1⟩ ⟨b', rfl, h2⟩
    congr 1
    exact Bool.eq_iff_iff.2 (h1.trans h2.symm)
  cases c <;> simp only [Says] at h h'
  case isEmpty => exact flag h h'
  case eq => exact flag h h'
  case overlaps =>
    obtain ⟨l, b, h1, h2, h3⟩ := h
    obtain ⟨l', b', h1', h2', h3'⟩ := h'
    cases runs_unique hk h1 h1'
    exact flag ⟨b, h2, h3⟩ ⟨b', h2', h3'⟩
  case gaps =>
    obtain ⟨l, h1, rfl⟩ := h
    obtain ⟨l', h1', rfl⟩ := h'
    rw [holes_unique hk h1 h1']
  all_goals first
    | exact h.trans h'.symm
    | (obtain ⟨l, h1, rfl⟩ := h
       obtain ⟨l', h1', rfl⟩ := h'
       rw [runs_unique hk h1 h1'])

example := C111_one_answer (K := Nat) (V := Char) (fun _ _ => Nat.le_antisymm)
    (plain := fun _ k => Demo.map.look k) (c := .overlapping 0 ⟨2, 22⟩ [.back, .front])
    (a' := .panicked) (a := .entries [some (⟨20, 25⟩, 'b'), some (⟨0, 3⟩, 'a')])
    ⟨_, runs_of_wf Demo.map_reachable.wf fun _ => rfl, by rfl⟩

/-- **C111** Then the answers a program hears are exactly those it could hear from plain maps:
nothing it can do tells the two apart. -/
theorem C111_exactly (hk : ∀ a b : K, a ≤ b → b ≤ a → a = b) (program : Program (Range K) K V)
    (n : Nat) (all : List (Answer (Range K) V)) :
    Hears program n [] (fun _ _ => none) all ↔
      all = dialogue program n [] fun _ => RangeMap.new := by
  constructor
  · suffices H : ∀ (n : Nat) (answers : List (Answer (Range K) V)) (plain : Nat → K → Option V)
        (all all' : List (Answer (Range K) V)), Hears program n answers plain all →
        Hears program n answers plain all' → all = all' from
      fun h => H n [] _ _ _ h (C111_programs program n)
    intro n
    induction n with
    | zero => exact fun _ _ _ _ h h' => Eq.trans h (Eq.symm h')
    | succ n ih =>
      intro answers plain all all' h h'
      unfold Hears at h h'
      cases hp : program answers with
      | none =>
        rw [hp] at h h'
        exact Eq.trans h (Eq.symm h')
      | some c =>
        rw [hp] at h h'
        obtain ⟨a, h1, h2⟩ := h
        obtain ⟨a', h1', h2'⟩ := h'
        cases C111_one_answer hk h1 h1'
        exact ih _ _ _ _ h2 h2'
  · rintro rfl
    exact C111_programs program n

example := C111_exactly (fun _ _ => Nat.le_antisymm) lookThenCut 20

end
end Verif.Props

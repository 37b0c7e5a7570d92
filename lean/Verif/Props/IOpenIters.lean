import Verif.Model.OpenIters
import Verif.Props.IDialogue
import Verif.Props.OpenIters

/-!
# C114: iterators that a program keeps open (inclusive ranges)
-/
set_option linter.unusedSectionVars false

namespace Verif.Spec
section
variable {K V : Type} [LE K] [LT K] [DecidableLE K] [DecidableLT K]

/-- The world `w` may answer a call with `a`, and then be `w'`. -/
def ITurns (w : World (RangeInclusive K) K V) :
    OpenCall K V → Answer (RangeInclusive K) V → World (RangeInclusive K) K V → Prop
  | .plain c, a, w' => ISays w.maps c a ∧ w' = w.plain (ieffect w.maps c)
  | .walk h i, a, w' => a = .done ∧ ∃ l, IRuns (w.maps i) l ∧ w' = w.walk h l
  | .walkOver h i q, a, w' => a = .done ∧ ∃ l, IRuns (w.maps i) l ∧ w' = w.walk h
      (l.filter fun e => decide (q.start ≤ e.1.stop) && decide (e.1.start ≤ q.stop))
  | .take h i, a, w' => a = .done ∧ ∃ l, IRuns (w.maps i) l ∧
      w' = (w.walk h l).plain (store w.maps i fun _ => none)
  | .next h, a, w' => a = .entry (w.walks h).head? ∧ w' = w.walk h (w.walks h).tail
  | .nextBack h, a, w' => a = .entry (w.walks h).getLast? ∧ w' = w.walk h (w.walks h).dropLast
  | .holes g i q, a, w' => a = .done ∧ ∃ l, IHoles (w.maps i) q l ∧ w' = w.hole g l
  | .nextHole g, a, w' => a = .ranges [(w.holes g).head?] ∧ w' = w.hole g (w.holes g).tail

/-- `all` is what a program that has had `answers` may hear in at most `n` more calls. -/
def IOpenHears (program : OpenProgram (RangeInclusive K) K V) : Nat →
    List (Answer (RangeInclusive K) V) → World (RangeInclusive K) K V →
    List (Answer (RangeInclusive K) V) → Prop
  | 0, answers, _, all => all = answers
  | n + 1, answers, w, all =>
    match program answers with
    | none => all = answers
    | some c => ∃ a w', ITurns w c a w' ∧ IOpenHears program n (a :: answers) w' all

end
end Verif.Spec

namespace Verif.Props.Inclusive
open Spec RangeInclusiveMap
section
variable {K : Type} [LE K] [LT K] [DecidableLE K] [DecidableLT K]
  [Std.IsLinearPreorder K] [Std.LawfulOrderLT K] {V : Type} [BEq V] [LawfulBEq V]
  {S : StepFns K}

/-- What the program holds is the world `w`. -/
structure Shows (S : StepFns K) (d : Desk K V) (w : World (RangeInclusive K) K V) : Prop where
  maps : Mirrors S d.maps w.maps
  walks : ∀ h, Ends Walk.next Walk.nextBack (d.walks h) (w.walks h)
  holes : ∀ g, match d.holes g with
    | none => w.holes g = []
    | some s => YieldsE (Gaps.next S) s (w.holes g)

theorem ends_iter (m : RangeInclusiveMap K V) :
    Ends Walk.next Walk.nextBack (.iter m.iterator) m.iter :=
  Ends.wrap Walk.iter (fun _ => rfl) (fun _ => rfl) (C46_iter_double_ended m)

theorem ends_store {walks : Nat → Walk K V} {lists : Nat → List (RangeInclusive K × V)}
    (h : ∀ i, Ends Walk.next Walk.nextBack (walks i) (lists i)) (j : Nat) {s : Walk K V}
    {l : List (RangeInclusive K × V)} (hs : Ends Walk.next Walk.nextBack s l) (i : Nat) :
    Ends Walk.next Walk.nextBack (store walks j s i) (store lists j l i) := by
  unfold store
  split
  · exact hs
  · exact h i

theorem yields_store {holes : Nat → Option (Gaps K V)} {lists : Nat → List (RangeInclusive K)}
    (h : ∀ g, match holes g with
      | none => lists g = []
      | some s => YieldsE (Gaps.next S) s (lists g)) (j : Nat) {s : Gaps K V}
    {l : List (RangeInclusive K)} (hs : YieldsE (Gaps.next S) s l) (g : Nat) :
    match store holes j (some s) g with
      | none => store lists j l g = []
      | some s => YieldsE (Gaps.next S) s (store lists j l g) := by
  unfold store
  by_cases hg : g = j
  · simp only [hg, if_true]
    exact hs
  · simp only [hg, if_false]
    exact h g

theorem yieldsE_next {S α : Type} {next : S → Except Panic (Option α × S)} {s : S} {l : List α}
    (h : YieldsE next s l) : ∃ s', next s = .ok (l.head?, s') ∧ YieldsE next s' l.tail := by
  cases l with
  | nil => exact YieldsE.stop h
  | cons a l => exact YieldsE.head h

/-- **C114** One call: what it answers is what the world may answer, and afterwards what the program
holds is what the world may have become.  So a kept iterator yields what its map held when it was
made, whatever is done since to the map and to other iterators. -/
theorem C114_call (hS : LawfulSteps S) {d : Desk K V} {w : World (RangeInclusive K) K V}
    (h : Shows S d w) (c : OpenCall K V) :
    ∃ w', ITurns w c (d.perform S c).1 w' ∧ Shows S (d.perform S c).2 w' := by
  have hr : ∀ i, IRuns (w.maps i) (d.maps i).iter := fun i =>
    runs_of_wf (h.maps.wf hS i).1 (h.maps.wf hS i).2
  have hm : ∀ i, RangeInclusiveMap.Reachable S (d.maps i) := fun i => (h.maps i).1
  cases c with
  | plain c =>
    have := C111_call hS h.maps c
    exact ⟨_, ⟨this.1, rfl⟩, this.2, h.walks, h.holes⟩
  | walk k i =>
    exact ⟨_, ⟨rfl, _, hr i, rfl⟩, h.maps, ends_store h.walks k (ends_iter _), h.holes⟩
  | walkOver k i q =>
    have h1 : ∃ o, (d.maps i).overlapping q.closed = .ok o ∧
        Ends Overlapping.next Overlapping.nextBack o
        ((d.maps i).iter.filter fun e =>
          decide (q.start ≤ e.1.stop) && decide (e.1.start ≤ q.stop)) := by
      obtain ⟨o, h1, -⟩ := C14_overlapping_double_ended_inclusive hS (hm i).any q.closed []
      refine ⟨o, h1, fun cs => ?_⟩
      obtain ⟨o', h2, h3⟩ := C14_overlapping_double_ended_inclusive hS (hm i).any q.closed cs
      rw [h1] at h2
      cases h2
      exact h3
    obtain ⟨o, h1, h2⟩ := h1
    refine ⟨_, ⟨?_, _, hr i, rfl⟩, ?_⟩
    · simp only [Desk.perform, h1]
    · simp only [Desk.perform, h1]
      exact ⟨h.maps, ends_store h.walks k (Ends.wrap Walk.overlapping (fun _ => rfl)
        (fun _ => rfl) h2), h.holes⟩
  | take k i =>
    exact ⟨_, ⟨rfl, _, hr i, rfl⟩, h.maps.store hS (f := fun _ => none) i WF.nil fun _ => rfl,
      ends_store h.walks k (ends_iter _), h.holes⟩
  | next k =>
    have := (h.walks k).next
    exact ⟨w.walk k (w.walks k).tail, ⟨by rw [Desk.perform, this.1], rfl⟩, h.maps,
      ends_store h.walks k this.2, h.holes⟩
  | nextBack k =>
    have := (h.walks k).back
    exact ⟨w.walk k (w.walks k).dropLast, ⟨by rw [Desk.perform, this.1], rfl⟩, h.maps,
      ends_store h.walks k this.2, h.holes⟩
  | holes g i q =>
    obtain ⟨s, l, h1, h2, h3⟩ := C31_gaps_exact hS (hm i) q.closed
    obtain ⟨s', l', i1, i2, i3, i4⟩ := C31_gaps_ordered hS (hm i).any q.closed
    rw [h1] at i1
    cases i1
    cases YieldsE.unique i2 h2
    refine ⟨_, ⟨?_, l, ⟨fun r hr => ⟨(i3 r hr).1, (i3 r hr).2.1⟩, i4.imp ?_, fun k => ?_⟩, rfl⟩,
      ?_⟩
    · simp only [Desk.perform, h1]
    · rintro a b ⟨e, -, j1, j2, j3⟩
      exact ⟨e.1.start, j1.1, by grind⟩
    · rw [h3, (h.maps i).2]
      simp [Range.closed, RangeInclusive.mk']
    · simp only [Desk.perform, h1]
      exact ⟨h.maps, h.walks, yields_store h.holes g h2⟩
  | nextHole g =>
    have hg := h.holes g
    cases hs : d.holes g with
    | none =>
      rw [hs] at hg
      have hg : w.holes g = [] := hg
      refine ⟨w, ⟨?_, ?_⟩, ?_⟩
      · simp only [Desk.perform, hs, hg, List.head?_nil]
      · have : store w.holes g (w.holes g).tail = w.holes := by
          funext j
          unfold store
          split
          · next hj => rw [hj, hg]; rfl
          · rfl
        rw [World.hole, this]
      · simp only [Desk.perform, hs]
        exact h
    | some s =>
      rw [hs] at hg
      obtain ⟨s', h1, h2⟩ := yieldsE_next hg
      refine ⟨_, ⟨?_, rfl⟩, ?_⟩
      · simp only [Desk.perform, hs, h1]
      · simp only [Desk.perform, hs, h1]
        exact ⟨h.maps, h.walks, yields_store h.holes g h2⟩

theorem shows_empty : Shows S ({} : Desk K V) {} where
  maps _ := ⟨⟨[], by simp, rfl⟩, fun _ => rfl⟩
  walks _ := ends_iter RangeInclusiveMap.new
  holes _ := rfl

example := C114_call Demo.u8_lawful (d := { maps := fun _ => Demo.imap })
    (w := { maps := fun _ k => Demo.imap.look k })
    ⟨fun _ => ⟨Demo.imap_reachable, get_look (Demo.imap_reachable.wf Demo.u8_lawful)⟩,
      fun _ => ends_iter RangeInclusiveMap.new, fun _ => rfl⟩ (.take 0 3)

/-- **C114** Whatever the program, and however its calls depend on the answers: it hears what it
could hear from plain maps, with iterators that are lists from which items are taken at both
ends. -/
theorem C114_programs (hS : LawfulSteps S) (program : OpenProgram (RangeInclusive K) K V)
    (n : Nat) :
    IOpenHears program n [] {} (openDialogue S program n [] {}) := by
  suffices H : ∀ (n : Nat) (answers : List (Answer (RangeInclusive K) V)) (d : Desk K V)
      (w : World (RangeInclusive K) K V), Shows S d w →
      IOpenHears program n answers w (openDialogue S program n answers d) from
    H n [] _ _ shows_empty
  intro n
  induction n with
  | zero => exact fun _ _ _ _ => rfl
  | succ n ih =>
    intro answers d w h
    unfold IOpenHears openDialogue
    cases program answers with
    | none => rfl
    | some c =>
      obtain ⟨w', h1, h2⟩ := C114_call hS h c
      exact ⟨_, w', h1, ih _ _ _ h2⟩

/-- A program that takes a map apart from both ends while it fills the map again. -/
def takeAndFill : OpenProgram (RangeInclusive (UIntW 8)) (UIntW 8) Char
  | [] => some (.plain (.extend 0 [(⟨⟨1⟩, ⟨2⟩⟩, 'a'), (⟨⟨5⟩, ⟨6⟩⟩, 'b'), (⟨⟨9⟩, ⟨10⟩⟩, 'c')]))
  | [_] => some (.holes 0 0 ⟨⟨0⟩, ⟨19⟩⟩)
  | [_, _] => some (.take 0 0)
  | [_, _, _] => some (.nextBack 0)
  | .entry (some e) :: l =>
    if l.length < 5 then some (.plain (.insert 0 ⟨e.1.start, ⟨20⟩⟩ e.2)) else none
  | [_, _, _, _, _] => some (.nextHole 0)
  | [_, _, _, _, _, _] => some (.walkOver 1 0 ⟨⟨0⟩, ⟨10⟩⟩)
  | [_, _, _, _, _, _, _] => some (.next 0)
  | _ => none

example : openDialogue Demo.u8 takeAndFill 20 [] {} =
    [.entry (some (.mk' ⟨1⟩ ⟨2⟩, 'a')), .done, .ranges [some (.mk' ⟨0⟩ ⟨0⟩)], .done,
      .entry (some (.mk' ⟨9⟩ ⟨10⟩, 'c')), .done, .done, .done] := by rfl
example := C114_programs Demo.u8_lawful takeAndFill 20

/-- **C114** When keys that compare equal are equal, the world leaves no choice. -/
theorem C114_one_answer (hS : LawfulSteps S) (hk : ∀ a b : K, a ≤ b → b ≤ a → a = b)
    {w w' w'' : World (RangeInclusive K) K V}
    {c : OpenCall K V} {a a' : Answer (RangeInclusive K) V} (h : ITurns w c a w')
    (h' : ITurns w c a' w'') :
    a = a' ∧ w' = w'' := by
  cases c with
  | plain c => exact ⟨C111_one_answer hS hk h.1 h'.1, h.2.trans h'.2.symm⟩
  | walk | walkOver | take =>
    obtain ⟨rfl, l, h1, rfl⟩ := h
    obtain ⟨rfl, l', h2, rfl⟩ := h'
    cases runs_unique hS hk h1 h2
    exact ⟨rfl, rfl⟩
  | next | nextBack | nextHole => exact ⟨h.1.trans h'.1.symm, h.2.trans h'.2.symm⟩
  | holes =>
    obtain ⟨rfl, l, h1, rfl⟩ := h
    obtain ⟨rfl, l', h2, rfl⟩ := h'
    cases holes_unique hS hk h1 h2
    exact ⟨rfl, rfl⟩

example := C114_one_answer (K := UIntW 8) (V := Char) Demo.u8_lawful Demo.u8_antisymm
    (w := { walks := fun _ => Demo.imap.iter }) (c := .nextBack 1) (a' := .panicked) (w'' := {})
    (a := .entry Demo.imap.iter.getLast?) ⟨rfl, rfl⟩

/-- **C114** Then the answers a program hears are exactly those it could hear from the world. -/
theorem C114_exactly (hS : LawfulSteps S) (hk : ∀ a b : K, a ≤ b → b ≤ a → a = b)
    (program : OpenProgram (RangeInclusive K) K V) (n : Nat)
    (all : List (Answer (RangeInclusive K) V)) :
    IOpenHears program n [] {} all ↔ all = openDialogue S program n [] {} := by
  constructor
  · suffices H : ∀ (n : Nat) (answers : List (Answer (RangeInclusive K) V))
        (w : World (RangeInclusive K) K V)
        (all all' : List (Answer (RangeInclusive K) V)), IOpenHears program n answers w all →
        IOpenHears program n answers w all' → all = all' from
      fun h => H n [] _ _ _ h (C114_programs hS program n)
    intro n
    induction n with
    | zero => exact fun _ _ _ _ h h' => Eq.trans h (Eq.symm h')
    | succ n ih =>
      intro answers w all all' h h'
      unfold IOpenHears at h h'
      cases hp : program answers with
      | none =>
        rw [hp] at h h'
        exact Eq.trans h (Eq.symm h')
      | some c =>
        rw [hp] at h h'
        obtain ⟨a, w', h1, h2⟩ := h
        obtain ⟨a', w'', h1', h2'⟩ := h'
        obtain ⟨rfl, rfl⟩ := C114_one_answer hS hk h1 h1'
        exact ih _ _ _ _ h2 h2'
  · rintro rfl
    exact C114_programs hS program n

example := C114_exactly Demo.u8_lawful Demo.u8_antisymm takeAndFill 20

end
end Verif.Props.Inclusive

import Verif.Model.OpenIters
import Verif.Props.Dialogue
import Verif.Props.Provided
import Verif.Proof.Peekable

/-!
# C114: iterators that a program keeps open
-/
set_option linter.unusedSectionVars false

namespace Verif.Spec
section
variable {K V : Type} [LE K] [LT K] [DecidableLE K] [DecidableLT K]

/-- Plain maps, and for every iterator the items left to it. -/
structure World (R K V : Type) where
  maps : Nat → K → Option V := fun _ _ => none
  walks : Nat → List (R × V) := fun _ => []
  holes : Nat → List R := fun _ => []

/-- Another list of items left to the iterator `h`. -/
def World.walk {R : Type} (w : World R K V) (h : Nat) (l : List (R × V)) : World R K V :=
  { w with walks := store w.walks h l }

/-- Another list of gaps left to the iterator `g`. -/
def World.hole {R : Type} (w : World R K V) (g : Nat) (l : List R) : World R K V :=
  { w with holes := store w.holes g l }

/-- Other plain maps. -/
def World.plain {R : Type} (w : World R K V) (maps : Nat → K → Option V) : World R K V :=
  { w with maps }

/-- The world `w` may answer a call with `a`, and then be `w'`. -/
def Turns (w : World (Range K) K V) :
    OpenCall K V → Answer (Range K) V → World (Range K) K V → Prop
  | .plain c, a, w' => Says w.maps c a ∧ w' = w.plain (effect w.maps c)
  | .walk h i, a, w' => a = .done ∧ ∃ l, Runs (w.maps i) l ∧ w' = w.walk h l
  | .walkOver h i q, a, w' => a = .done ∧ ∃ l, Runs (w.maps i) l ∧ w' = w.walk h
      (l.filter fun e => decide (q.start < e.1.stop) && decide (e.1.start < q.stop))
  | .take h i, a, w' => a = .done ∧ ∃ l, Runs (w.maps i) l ∧
      w' = (w.walk h l).plain (store w.maps i fun _ => none)
  | .next h, a, w' => a = .entry (w.walks h).head? ∧ w' = w.walk h (w.walks h).tail
  | .nextBack h, a, w' => a = .entry (w.walks h).getLast? ∧ w' = w.walk h (w.walks h).dropLast
  | .holes g i q, a, w' => a = .done ∧ ∃ l, Holes (w.maps i) q l ∧ w' = w.hole g l
  | .nextHole g, a, w' => a = .ranges [(w.holes g).head?] ∧ w' = w.hole g (w.holes g).tail

/-- `all` is what a program that has had `answers` may hear in at most `n` more calls. -/
def OpenHears (program : OpenProgram (Range K) K V) : Nat → List (Answer (Range K) V) →
    World (Range K) K V → List (Answer (Range K) V) → Prop
  | 0, answers, _, all => all = answers
  | n + 1, answers, w, all =>
    match program answers with
    | none => all = answers
    | some c => ∃ a w', Turns w c a w' ∧ OpenHears program n (a :: answers) w' all

end

theorem Ends.next {S α : Type} {next back : S → Option α × S} {s : S} {l : List α}
    (h : Ends next back s l) : (next s).1 = l.head? ∧ Ends next back (next s).2 l.tail :=
  ⟨(List.cons.inj (h [.front])).1, fun cs => (List.cons.inj (h (.front :: cs))).2⟩

theorem Ends.back {S α : Type} {next back : S → Option α × S} {s : S} {l : List α}
    (h : Ends next back s l) : (back s).1 = l.getLast? ∧ Ends next back (back s).2 l.dropLast :=
  ⟨(List.cons.inj (h [.back])).1, fun cs => (List.cons.inj (h (.back :: cs))).2⟩

theorem Ends.wrap {S S' α : Type} {next back : S → Option α × S} {next' back' : S' → Option α × S'}
    (f : S → S') (hn : ∀ s, next' (f s) = ((next s).1, f (next s).2))
    (hb : ∀ s, back' (f s) = ((back s).1, f (back s).2)) {s : S} {l : List α}
    (h : Ends next back s l) : Ends next' back' (f s) l := by
  have key : ∀ cs s, script next' back' cs (f s) = script next back cs s := by
    intro cs
    induction cs with
    | nil => intro s; rfl
    | cons c cs ih => intro s; cases c <;> simp only [script, hn, hb, ih]
  intro cs
  rw [key]
  exact h cs

end Verif.Spec

namespace Verif.Props
open Spec RangeMap
section
variable {K : Type} [LE K] [LT K] [DecidableLE K] [DecidableLT K]
  [Std.IsLinearPreorder K] [Std.LawfulOrderLT K] {V : Type} [BEq V] [LawfulBEq V]

/-- What the program holds is the world `w`. -/
structure Shows (d : Desk K V) (w : World (Range K) K V) : Prop where
  maps : Mirrors d.maps w.maps
  walks : ∀ h, Ends Walk.next Walk.nextBack (d.walks h) (w.walks h)
  holes : ∀ g, match d.holes g with
    | none => w.holes g = []
    | some s => Yields Gaps.next s (w.holes g)

theorem ends_iter (m : RangeMap K V) :
    Ends Walk.next Walk.nextBack (.iter m.iterator) m.iter :=
  Ends.wrap Walk.iter (fun _ => rfl) (fun _ => rfl) (C16_iter_double_ended m)

theorem ends_store {walks : Nat → Walk K V} {lists : Nat → List (Range K × V)}
    (h : ∀ i, Ends Walk.next Walk.nextBack (walks i) (lists i)) (j : Nat) {s : Walk K V}
    {l : List (Range K × V)} (hs : Ends Walk.next Walk.nextBack s l) (i : Nat) :
    Ends Walk.next Walk.nextBack (store walks j s i) (store lists j l i) := by
  unfold store
  split
  · exact hs
  · exact h i

theorem yields_store {holes : Nat → Option (Gaps K V)} {lists : Nat → List (Range K)}
    (h : ∀ g, match holes g with
      | none => lists g = []
      | some s => Yields Gaps.next s (lists g)) (j : Nat) {s : Gaps K V}
    {l : List (Range K)} (hs : Yields Gaps.next s l) (g : Nat) :
    match store holes j (some s) g with
      | none => store lists j l g = []
      | some s => Yields Gaps.next s (store lists j l g) := by
  unfold store
  by_cases hg : g = j
  · simp only [hg, if_true]
    exact hs
  · simp only [hg, if_false]
    exact h g

/-- **C114** One call: what it answers is what the world may answer, and afterwards what the program
holds is what the world may have become.  So a kept iterator yields what its map held when it was
made, whatever is done since to the map and to other iterators. -/
theorem C114_call {d : Desk K V} {w : World (Range K) K V} (h : Shows d w) (c : OpenCall K V) :
    ∃ w', Turns w c (d.perform c).1 w' ∧ Shows (d.perform c).2 w' := by
  have hr : ∀ i, Runs (w.maps i) (d.maps i).iter := fun i =>
    runs_of_wf (h.maps.wf i).1 (h.maps.wf i).2
  have hm : ∀ i, Reachable (d.maps i) := fun i => (h.maps i).1
  cases c with
  | plain c =>
    have := C111_call h.maps c
    exact ⟨_, ⟨this.1, rfl⟩, this.2, h.walks, h.holes⟩
  | walk k i =>
    exact ⟨_, ⟨rfl, _, hr i, rfl⟩, h.maps, ends_store h.walks k (ends_iter _), h.holes⟩
  | walkOver k i q =>
    have h1 : ∃ o, (d.maps i).overlapping q = .ok o ∧ Ends Overlapping.next Overlapping.nextBack o
        ((d.maps i).iter.filter fun e =>
          decide (q.start < e.1.stop) && decide (e.1.start < q.stop)) := by
      obtain ⟨o, h1, -⟩ := C14_overlapping_double_ended (hm i) q []
      refine ⟨o, h1, fun cs => ?_⟩
      obtain ⟨o', h2, h3⟩ := C14_overlapping_double_ended (hm i) q cs
      rw [h1] at h2
      cases h2
      exact h3
    obtain ⟨o, h1, h2⟩ := h1
    refine ⟨_, ⟨?_, _, hr i, rfl⟩, ?_⟩
    · simp only [Desk.perform, h1]
    · simp only [Desk.perform, h1]
      exact ⟨h.maps, ends_store h.walks k (Ends.wrap Walk.overlapping (fun _ => rfl)
        (fun _ => rfl) h2), h.holes⟩
  | take k i =>
    exact ⟨_, ⟨rfl, _, hr i, rfl⟩, h.maps.store (f := fun _ => none) i WF.nil fun _ => rfl,
      ends_store h.walks k (ends_iter _), h.holes⟩
  | next k =>
    have := (h.walks k).next
    exact ⟨w.walk k (w.walks k).tail, ⟨by rw [Desk.perform, this.1], rfl⟩, h.maps,
      ends_store h.walks k this.2, h.holes⟩
  | nextBack k =>
    have := (h.walks k).back
    exact ⟨w.walk k (w.walks k).dropLast, ⟨by rw [Desk.perform, this.1], rfl⟩, h.maps,
      ends_store h.walks k this.2, h.holes⟩
  | holes g i q =>
    obtain ⟨s, l, h1, h2, h3, h4, h5, -⟩ := gaps_yields_list (hm i) q
    refine ⟨_, ⟨?_, l, ⟨fun r hr => (h4 r hr).1,
      h5.imp fun h => h.1, fun k => ?_⟩, rfl⟩, ?_⟩
    · simp only [Desk.perform, h1]
    · rw [h3, (h.maps i).2]
      simp
    · simp only [Desk.perform, h1]
      exact ⟨h.maps, h.walks, yields_store h.holes g h2⟩
  | nextHole g =>
    have hg := h.holes g
    cases hs : d.holes g with
    | none =>
      rw [hs] at hg
      have hg : w.holes g = [] := hg
      refine ⟨w, ⟨?_, ?_⟩, ?_⟩
      · simp only [Desk.perform, hs, hg, List.head?_nil]
      · have : store w.holes g (w.holes g).tail = w.holes := by
          funext j
          unfold store
          split
          · next hj => rw [hj, hg]; rfl
          · rfl
        rw [World.hole, this]
      · simp only [Desk.perform, hs]
        exact h
    | some s =>
      rw [hs] at hg
      obtain ⟨h1, h2⟩ := Spec.Yields.next hg
      refine ⟨_, ⟨?_, rfl⟩, ?_⟩
      · simp only [Desk.perform, hs, h1]
      · simp only [Desk.perform, hs]
        exact ⟨h.maps, h.walks, yields_store h.holes g h2⟩

theorem shows_empty : Shows ({} : Desk K V) {} where
  maps _ := ⟨.new, fun _ => rfl⟩
  walks _ := ends_iter RangeMap.new
  holes _ := rfl

example := C114_call (d := { maps := fun _ => Demo.map })
    (w := { maps := fun _ k => Demo.map.look k })
    ⟨fun _ => ⟨Demo.map_reachable, get_look Demo.map_reachable.wf.sep⟩,
      fun _ => ends_iter RangeMap.new, fun _ => rfl⟩ (.take 0 3)

/-- **C114** Whatever the program, and however its calls depend on the answers: it hears what it
could hear from plain maps, with iterators that are lists from which items are taken at both
ends. -/
theorem C114_programs (program : OpenProgram (Range K) K V) (n : Nat) :
    OpenHears program n [] {} (openDialogue program n [] {}) := by
  suffices H : ∀ (n : Nat) (answers : List (Answer (Range K) V)) (d : Desk K V)
      (w : World (Range K) K V), Shows d w →
      OpenHears program n answers w (openDialogue program n answers d) from
    H n [] _ _ shows_empty
  intro n
  induction n with
  | zero => exact fun _ _ _ _ => rfl
  | succ n ih =>
    intro answers d w h
    unfold OpenHears openDialogue
    cases program answers with
    | none => rfl
    | some c =>
      obtain ⟨w', h1, h2⟩ := C114_call h c
      exact ⟨_, w', h1, ih _ _ _ h2⟩

/-- A program that takes a map apart from both ends while it fills the map again. -/
def takeAndFill : OpenProgram (Range Nat) Nat Char
  | [] => some (.plain (.extend 0 [(⟨1, 3⟩, 'a'), (⟨5, 7⟩, 'b'), (⟨9, 11⟩, 'c')]))
  | [_] => some (.holes 0 0 ⟨0, 20⟩)
  | [_, _] => some (.take 0 0)
  | [_, _, _] => some (.nextBack 0)
  | .entry (some e) :: l =>
    if l.length < 5 then some (.plain (.insert 0 ⟨e.1.start, e.1.stop + 1⟩ e.2)) else none
  | [_, _, _, _, _] => some (.nextHole 0)
  | [_, _, _, _, _, _] => some (.walkOver 1 0 ⟨0, 10⟩)
  | [_, _, _, _, _, _, _] => some (.next 0)
  | _ => none

example : openDialogue takeAndFill 20 [] {} =
    [.entry (some (⟨1, 3⟩, 'a')), .done, .ranges [some ⟨0, 1⟩], .done,
      .entry (some (⟨9, 11⟩, 'c')), .done, .done, .done] := by rfl
example := C114_programs takeAndFill 20

/-- **C114** When keys that compare equal are equal, the world leaves no choice. -/
theorem C114_one_answer (hk : ∀ a b : K, a ≤ b → b ≤ a → a = b) {w w' w'' : World (Range K) K V}
    {c : OpenCall K V} {a a' : Answer (Range K) V} (h : Turns w c a w') (h' : Turns w c a' w'') :
    a = a' ∧ w' = w'' := by
  cases c with
  | plain c => exact ⟨C111_one_answer hk h.1 h'.1, h.2.trans h'.2.symm⟩
  | walk | walkOver | take =>
    obtain ⟨rfl, l, h1, rfl⟩ := h
    obtain ⟨rfl, l', h2, rfl⟩ := h'
    cases runs_unique hk h1 h2
    exact ⟨rfl, rfl⟩
  | next | nextBack | nextHole => exact ⟨h.1.trans h'.1.symm, h.2.trans h'.2.symm⟩
  | holes =>
    obtain ⟨rfl, l, h1, rfl⟩ := h
    obtain ⟨rfl, l', h2, rfl⟩ := h'
    cases holes_unique hk h1 h2
    exact ⟨rfl, rfl⟩

example := C114_one_answer (K := Nat) (V := Char) (fun _ _ => Nat.le_antisymm)
    (w := { walks := fun _ => Demo.map.iter }) (c := .nextBack 1) (a' := .panicked) (w'' := {})
    (a := .entry Demo.map.iter.getLast?) ⟨rfl, rfl⟩

/-- **C114** Then the answers a program hears are exactly those it could hear from the world. -/
theorem C114_exactly (hk : ∀ a b : K, a ≤ b → b ≤ a → a = b)
    (program : OpenProgram (Range K) K V) (n : Nat) (all : List (Answer (Range K) V)) :
    OpenHears program n [] {} all ↔ all = openDialogue program n [] {} := by
  constructor
  · suffices H : ∀ (n : Nat) (answers : List (Answer (Range K) V)) (w : World (Range K) K V)
        (all all' : List (Answer (Range K) V)), OpenHears program n answers w all →
        OpenHears program n answers w all' → all = all' from
      fun h => H n [] _ _ _ h (C114_programs program n)
    intro n
    induction n with
    | zero => exact fun _ _ _ _ h h' => Eq.trans h (Eq.symm h')
    | succ n ih =>
      intro answers w all all' h h'
      unfold OpenHears at h h'
      cases hp : program answers with
      | none =>
        rw [hp] at h h'
        exact Eq.trans h (Eq.symm h')
      | some c =>
        rw [hp] at h h'
        obtain ⟨a, w', h1, h2⟩ := h
        obtain ⟨a', w'', h1', h2'⟩ := h'
        obtain ⟨rfl, rfl⟩ := C114_one_answer hk h1 h1'
        exact ih _ _ _ _ h2 h2'
  · rintro rfl
    exact C114_programs program n

example := C114_exactly (fun _ _ => Nat.le_antisymm) takeAndFill 20

end
end Verif.Props

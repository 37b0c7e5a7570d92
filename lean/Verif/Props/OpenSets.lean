import Verif.Model.OpenSets
import Verif.Props.SetDialogue
import Verif.Props.OpenIters

/-!
# C115: iterators over sets that a program keeps open
-/
set_option linter.unusedSectionVars false

namespace Verif.Spec
section
variable {K : Type} [LE K] [LT K] [DecidableLE K] [DecidableLT K]

/-- Plain sets, and for every iterator the ranges left to it. -/
structure SetWorld (R K : Type) where
  sets : Nat → K → Bool := fun _ _ => false
  walks : Nat → List R := fun _ => []
  flows : Nat → List R := fun _ => []

/-- Another list of ranges left to the iterator `h` with two ends. -/
def SetWorld.walk {R : Type} (w : SetWorld R K) (h : Nat) (l : List R) : SetWorld R K :=
  { w with walks := store w.walks h l }

/-- Another list of ranges left to the iterator `g` with one end. -/
def SetWorld.flow {R : Type} (w : SetWorld R K) (g : Nat) (l : List R) : SetWorld R K :=
  { w with flows := store w.flows g l }

/-- Other plain sets. -/
def SetWorld.plain {R : Type} (w : SetWorld R K) (sets : Nat → K → Bool) : SetWorld R K :=
  { w with sets }

/-- The world `w` may answer a call with `a`, and then be `w'`. -/
def SetTurns (w : SetWorld (Range K) K) :
    SetOpenCall K → SetAnswer (Range K) → SetWorld (Range K) K → Prop
  | .plain c, a, w' => SetSays w.sets c a ∧ w' = w.plain (setEffect w.sets c)
  | .walk h i, a, w' => a = .done ∧ ∃ l, Stretches (fun k => w.sets i k) l ∧ w' = w.walk h l
  | .walkOver h i q, a, w' => a = .done ∧ ∃ l, Stretches (fun k => w.sets i k) l ∧ w' = w.walk h
      (l.filter fun r => decide (q.start < r.stop) && decide (r.start < q.stop))
  | .take h i, a, w' => a = .done ∧ ∃ l, Stretches (fun k => w.sets i k) l ∧
      w' = (w.walk h l).plain (store w.sets i fun _ => false)
  | .next h, a, w' => a = .range (w.walks h).head? ∧ w' = w.walk h (w.walks h).tail
  | .nextBack h, a, w' => a = .range (w.walks h).getLast? ∧ w' = w.walk h (w.walks h).dropLast
  | .holes g i q, a, w' => a = .done ∧ ∃ l,
      Stretches (fun k => q.start ≤ k ∧ k < q.stop ∧ w.sets i k = false) l ∧ w' = w.flow g l
  | .both g i j, a, w' => a = .done ∧ ∃ x y l, Stretches (fun k => w.sets i k) x ∧
      Stretches (fun k => w.sets j k) y ∧ Division (x ++ y) l ∧ w' = w.flow g l
  | .common g i j, a, w' => a = .done ∧ ∃ l,
      Stretches (fun k => w.sets i k ∧ w.sets j k) l ∧ w' = w.flow g l
  | .nextFlow g, a, w' => a = .range (w.flows g).head? ∧ w' = w.flow g (w.flows g).tail

/-- `all` is what a program that has had `answers` may hear in at most `n` more calls. -/
def SetOpenHears (program : SetOpenProgram (Range K) K) : Nat → List (SetAnswer (Range K)) →
    SetWorld (Range K) K → List (SetAnswer (Range K)) → Prop
  | 0, answers, _, all => all = answers
  | n + 1, answers, w, all =>
    match program answers with
    | none => all = answers
    | some c => ∃ a w', SetTurns w c a w' ∧ SetOpenHears program n (a :: answers) w' all

end

theorem Yields.carry {S S' α : Type} {next : S → Option α × S} {next' : S' → Option α × S'}
    (f : S → S') (hn : ∀ s, next' (f s) = ((next s).1, f (next s).2)) {s : S} {l : List α}
    (h : Yields next s l) : Yields next' (f s) l := by
  have key : ∀ n s, calls next' n (f s) = calls next n s := by
    intro n
    induction n with
    | zero => intro s; rfl
    | succ n ih => intro s; simp only [calls, hn, ih]
  intro n
  rw [key]
  exact h n

end Verif.Spec

namespace Verif.Props
open Spec RangeSet

theorem store_both {α β : Type} {P : α → β → Prop} {a : Nat → α} {b : Nat → β}
    (h : ∀ i, P (a i) (b i)) (j : Nat) {x : α} {y : β} (hs : P x y) (i : Nat) :
    P (store a j x i) (store b j y i) := by
  unfold store
  split
  · exact hs
  · exact h i

section
variable {K : Type} [LE K] [LT K] [DecidableLE K] [DecidableLT K]
  [Std.IsLinearPreorder K] [Std.LawfulOrderLT K]

/-- What the program holds is the world `w`. -/
structure SetShows (d : Desk K) (w : SetWorld (Range K) K) : Prop where
  sets : SetMirrors d.sets w.sets
  walks : ∀ h, Ends Walk.next Walk.nextBack (d.walks h) (w.walks h)
  flows : ∀ g, Yields Flow.next (d.flows g) (w.flows g)

theorem set_ends_iter (s : RangeSet K) :
    Ends Walk.next Walk.nextBack (.iter s.iterator) s.iter :=
  Ends.wrap Walk.iter (fun _ => rfl) (fun _ => rfl) fun cs => (C48_iter s cs).1

theorem yields_nothing : Yields (Flow.next (K := K)) (.union ⟨[], []⟩) [] := by
  have h : Yields (Union.next (R := Range K)) ⟨[], []⟩ [] := by
    intro n
    induction n with
    | zero => rfl
    | succ n ih =>
      have : (Union.next ⟨[], []⟩ : Option (Range K) × _) = (none, ⟨[], []⟩) := by
        unfold Union.next
        rfl
      simp only [calls, this, ih]
      simp [List.replicate_succ]
  exact Yields.carry Flow.union (fun _ => rfl) h

/-- **C115** One call: what it answers is what the world may answer, and afterwards what the program
holds is what the world may have become.  So a kept iterator yields what its sets held when it was
made, whatever is done since to the sets and to other iterators. -/
theorem C115_call {d : Desk K} {w : SetWorld (Range K) K} (h : SetShows d w)
    (c : SetOpenCall K) :
    ∃ w', SetTurns w c (d.perform c).1 w' ∧ SetShows (d.perform c).2 w' := by
  have hs : ∀ i, Reachable (d.sets i) := fun i => (h.sets i).1
  have hc : ∀ i k, (d.sets i).contains k = .ok (w.sets i k) := fun i => (h.sets i).2
  have hr : ∀ i, Stretches (fun k => w.sets i k) (d.sets i).iter := fun i =>
    stretches_of_wf (hs i).wf fun k => by
      have := hc i k
      rw [contains_eq (hs i).wf] at this
      exact Except.ok.inj this
  cases c with
  | plain c =>
    have := C112_call h.sets c
    exact ⟨_, ⟨this.1, rfl⟩, this.2, h.walks, h.flows⟩
  | walk k i =>
    exact ⟨_, ⟨rfl, _, hr i, rfl⟩, h.sets, store_both h.walks k (set_ends_iter _), h.flows⟩
  | walkOver k i q =>
    have h1 : ∃ o, (d.sets i).overlapping q = .ok o ∧ Ends Overlapping.next Overlapping.nextBack o
        ((d.sets i).iter.filter fun r =>
          decide (q.start < r.stop) && decide (r.start < q.stop)) := by
      obtain ⟨o, h1, -⟩ := C48_overlapping (hs i) q []
      refine ⟨o, h1, fun cs => ?_⟩
      obtain ⟨o', h2, h3, -⟩ := C48_overlapping (hs i) q cs
      rw [h1] at h2
      cases h2
      exact h3
    obtain ⟨o, h1, h2⟩ := h1
    refine ⟨_, ⟨?_, _, hr i, rfl⟩, ?_⟩
    · simp only [Desk.perform, h1]
    · simp only [Desk.perform, h1]
      exact ⟨h.sets, store_both h.walks k (Ends.wrap Walk.overlapping (fun _ => rfl)
        (fun _ => rfl) h2), h.flows⟩
  | take k i =>
    exact ⟨_, ⟨rfl, _, hr i, rfl⟩,
      h.sets.store (f := fun _ => false) i RangeMap.WF.nil fun _ => rfl,
      store_both h.walks k (set_ends_iter _), h.flows⟩
  | next k =>
    have := (h.walks k).next
    exact ⟨w.walk k (w.walks k).tail, ⟨by rw [Desk.perform, this.1], rfl⟩, h.sets,
      store_both h.walks k this.2, h.flows⟩
  | nextBack k =>
    have := (h.walks k).back
    exact ⟨w.walk k (w.walks k).dropLast, ⟨by rw [Desk.perform, this.1], rfl⟩, h.sets,
      store_both h.walks k this.2, h.flows⟩
  | holes g i q =>
    obtain ⟨s, l, h1, h2, h3, h4, h5⟩ := C48_gaps (hs i) q
    refine ⟨_, ⟨?_, l, ⟨fun r hr => (h3 r hr).1, h4, fun k => ?_⟩, rfl⟩, ?_⟩
    · simp only [Desk.perform, h1]
    · rw [h5, hc]
      simp
    · simp only [Desk.perform, h1]
      exact ⟨h.sets, h.walks, store_both h.flows g (Yields.carry Flow.gaps (fun _ => rfl) h2)⟩
  | both g i j =>
    obtain ⟨l, h1, h2⟩ := C81_union_division (hs i) (hs j)
    exact ⟨_, ⟨rfl, _, _, l, hr i, hr j, h2, rfl⟩, h.sets, h.walks,
      store_both h.flows g (Yields.carry Flow.union (fun _ => rfl) h1)⟩
  | common g i j =>
    obtain ⟨l, h1, h2, h3, h4⟩ := C38_intersection (hs i) (hs j)
    refine ⟨_, ⟨rfl, l, ⟨h2, h3, fun k => ?_⟩, rfl⟩, h.sets, h.walks,
      store_both h.flows g (Yields.carry Flow.intersection (fun _ => rfl) h1)⟩
    rw [h4, hc, hc]
    simp
  | nextFlow g =>
    obtain ⟨h1, h2⟩ := Spec.Yields.next (h.flows g)
    exact ⟨w.flow g (w.flows g).tail, ⟨by rw [Desk.perform, h1], rfl⟩, h.sets, h.walks,
      store_both h.flows g h2⟩

theorem set_shows_empty : SetShows ({} : Desk K) {} where
  sets _ := ⟨⟨[], rfl⟩, fun _ => rfl⟩
  walks _ := set_ends_iter RangeSet.new
  flows _ := yields_nothing

example := C115_call (d := { sets := fun _ => Demo.set })
    (w := { sets := fun _ k => Demo.set.has k })
    ⟨fun _ => ⟨Demo.set_reachable, contains_eq Demo.set_reachable.wf⟩,
      fun _ => set_ends_iter RangeSet.new, fun _ => yields_nothing⟩ (.both 2 0 3)

/-- **C115** Whatever the program, and however its calls depend on the answers: it hears what it
could hear from plain sets of keys, with iterators that are lists from which ranges are taken. -/
theorem C115_programs (program : SetOpenProgram (Range K) K) (n : Nat) :
    SetOpenHears program n [] {} (openDialogue program n [] {}) := by
  suffices H : ∀ (n : Nat) (answers : List (SetAnswer (Range K))) (d : Desk K)
      (w : SetWorld (Range K) K), SetShows d w →
      SetOpenHears program n answers w (openDialogue program n answers d) from
    H n [] _ _ set_shows_empty
  intro n
  induction n with
  | zero => exact fun _ _ _ _ => rfl
  | succ n ih =>
    intro answers d w h
    unfold SetOpenHears openDialogue
    cases program answers with
    | none => rfl
    | some c =>
      obtain ⟨w', h1, h2⟩ := C115_call h c
      exact ⟨_, w', h1, ih _ _ _ h2⟩

/-- A program that adds what a union yields to one of the two sets, and goes on with the union. -/
def growUnderUnion : SetOpenProgram (Range Nat) Nat
  | [] => some (.plain (.collect 0 [⟨1, 4⟩, ⟨6, 9⟩]))
  | [_] => some (.plain (.collect 1 [⟨3, 5⟩, ⟨20, 30⟩]))
  | [_, _] => some (.both 0 0 1)
  | [_, _, _] => some (.common 1 0 1)
  | [_, _, _, _] => some (.nextFlow 0)
  | [.range (some r), _, _, _, _] => some (.plain (.insert 0 ⟨r.start, r.stop + 10⟩))
  | [_, _, _, _, _, _] => some (.nextFlow 0)
  | [_, _, _, _, _, _, _] => some (.nextFlow 1)
  | [_, _, _, _, _, _, _, _] => some (.take 5 0)
  | [_, _, _, _, _, _, _, _, _] => some (.nextBack 5)
  | [_, _, _, _, _, _, _, _, _, _] => some (.plain (.isEmpty 0))
  | _ => none

example : openDialogue growUnderUnion 20 [] {} =
    [.flag true, .range (some ⟨1, 15⟩), .done, .range (some ⟨3, 4⟩), .range (some ⟨6, 9⟩), .done,
      .range (some ⟨1, 5⟩), .done, .done, .done, .done] := by decide +kernel
example := C115_programs growUnderUnion 20

/-- **C115** When keys that compare equal are equal, the world leaves no choice. -/
theorem C115_one_answer (hk : ∀ a b : K, a ≤ b → b ≤ a → a = b) {w w' w'' : SetWorld (Range K) K}
    {c : SetOpenCall K} {a a' : SetAnswer (Range K)} (h : SetTurns w c a w')
    (h' : SetTurns w c a' w'') :
    a = a' ∧ w' = w'' := by
  cases c with
  | plain c => exact ⟨C112_one_answer hk h.1 h'.1, h.2.trans h'.2.symm⟩
  | walk | walkOver | take | holes | common =>
    obtain ⟨rfl, l, h1, rfl⟩ := h
    obtain ⟨rfl, l', h2, rfl⟩ := h'
    cases stretches_unique hk h1 h2
    exact ⟨rfl, rfl⟩
  | next | nextBack | nextFlow => exact ⟨h.1.trans h'.1.symm, h.2.trans h'.2.symm⟩
  | both =>
    obtain ⟨rfl, x, y, l, h1, h2, h3, rfl⟩ := h
    obtain ⟨rfl, x', y', l', h1', h2', h3', rfl⟩ := h'
    cases stretches_unique hk h1 h1'
    cases stretches_unique hk h2 h2'
    cases division_unique hk h3 h3'
    exact ⟨rfl, rfl⟩

example := C115_one_answer (K := Nat) (fun _ _ => Nat.le_antisymm)
    (w := { flows := fun _ => Demo.set.iter }) (c := .nextFlow 1) (a' := .panicked) (w'' := {})
    (a := .range Demo.set.iter.head?) ⟨rfl, rfl⟩

/-- **C115** Then the answers a program hears are exactly those it could hear from the world. -/
theorem C115_exactly (hk : ∀ a b : K, a ≤ b → b ≤ a → a = b)
    (program : SetOpenProgram (Range K) K) (n : Nat) (all : List (SetAnswer (Range K))) :
    SetOpenHears program n [] {} all ↔ all = openDialogue program n [] {} := by
  constructor
  · suffices H : ∀ (n : Nat) (answers : List (SetAnswer (Range K))) (w : SetWorld (Range K) K)
        (all all' : List (SetAnswer (Range K))), SetOpenHears program n answers w all →
        SetOpenHears program n answers w all' → all = all' from
      fun h => H n [] _ _ _ h (C115_programs program n)
    intro n
    induction n with
    | zero => exact fun _ _ _ _ h h' => Eq.trans h (Eq.symm h')
    | succ n ih =>
      intro answers w all all' h h'
      unfold SetOpenHears at h h'
      cases hp : program answers with
      | none =>
        rw [hp] at h h'
        exact Eq.trans h (Eq.symm h')
      | some c =>
        rw [hp] at h h'
        obtain ⟨a, w', h1, h2⟩ := h
        obtain ⟨a', w'', h1', h2'⟩ := h'
        obtain ⟨rfl, rfl⟩ := C115_one_answer hk h1 h1'
        exact ih _ _ _ _ h2 h2'
  · rintro rfl
    exact C115_programs program n

example := C115_exactly (fun _ _ => Nat.le_antisymm) growUnderUnion 20

end
end Verif.Props

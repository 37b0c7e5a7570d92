import Verif.Model.OpenSets
import Verif.Props.ISetDialogue
import Verif.Props.IOpenIters
import Verif.Props.OpenSets

/-!
# C115: iterators over sets that a program keeps open (inclusive ranges)
-/
set_option linter.unusedSectionVars false

namespace Verif.Spec
section
variable {K : Type} [LE K] [LT K] [DecidableLE K] [DecidableLT K]

/-- The world `w` may answer a call with `a`, and then be `w'`. -/
def ISetTurns (w : SetWorld (RangeInclusive K) K) :
    SetOpenCall K → SetAnswer (RangeInclusive K) → SetWorld (RangeInclusive K) K → Prop
  | .plain c, a, w' => ISetSays w.sets c a ∧ w' = w.plain (isetEffect w.sets c)
  | .walk h i, a, w' => a = .done ∧ ∃ l, IStretches (fun k => w.sets i k) l ∧ w' = w.walk h l
  | .walkOver h i q, a, w' => a = .done ∧ ∃ l, IStretches (fun k => w.sets i k) l ∧ w' = w.walk h
      (l.filter fun r => decide (q.start ≤ r.stop) && decide (r.start ≤ q.stop))
  | .take h i, a, w' => a = .done ∧ ∃ l, IStretches (fun k => w.sets i k) l ∧
      w' = (w.walk h l).plain (store w.sets i fun _ => false)
  | .next h, a, w' => a = .range (w.walks h).head? ∧ w' = w.walk h (w.walks h).tail
  | .nextBack h, a, w' => a = .range (w.walks h).getLast? ∧ w' = w.walk h (w.walks h).dropLast
  | .holes g i q, a, w' => a = .done ∧ ∃ l,
      IStretches (fun k => q.start ≤ k ∧ k ≤ q.stop ∧ w.sets i k = false) l ∧ w' = w.flow g l
  | .both g i j, a, w' => a = .done ∧ ∃ x y l, IStretches (fun k => w.sets i k) x ∧
      IStretches (fun k => w.sets j k) y ∧ IDivision (x ++ y) l ∧
      (∀ r ∈ l, r.exhausted = false) ∧ w' = w.flow g l
  | .common g i j, a, w' => a = .done ∧ ∃ l,
      IStretches (fun k => w.sets i k ∧ w.sets j k) l ∧ w' = w.flow g l
  | .nextFlow g, a, w' => a = .range (w.flows g).head? ∧ w' = w.flow g (w.flows g).tail

/-- `all` is what a program that has had `answers` may hear in at most `n` more calls. -/
def ISetOpenHears (program : SetOpenProgram (RangeInclusive K) K) :
    Nat → List (SetAnswer (RangeInclusive K)) →
    SetWorld (RangeInclusive K) K → List (SetAnswer (RangeInclusive K)) → Prop
  | 0, answers, _, all => all = answers
  | n + 1, answers, w, all =>
    match program answers with
    | none => all = answers
    | some c => ∃ a w', ISetTurns w c a w' ∧ ISetOpenHears program n (a :: answers) w' all

end

theorem YieldsE.carry {S S' α : Type} {next : S → Except Panic (Option α × S)}
    {next' : S' → Except Panic (Option α × S')} (f : S → S')
    (hn : ∀ s, next' (f s) = (next s).map fun p => (p.1, f p.2)) {s : S} {l : List α}
    (h : YieldsE next s l) : YieldsE next' (f s) l := by
  have key : ∀ n s, callsE next' n (f s) = callsE next n s := by
    intro n
    induction n with
    | zero => intro s; rfl
    | succ n ih =>
      intro s
      simp only [callsE, hn]
      cases next s with
      | error p => rfl
      | ok p => simp only [Except.map, bind, Except.bind, ih]
  intro n
  rw [key]
  exact h n

theorem YieldsE.pure {S S' α : Type} {next : S → Option α × S}
    {next' : S' → Except Panic (Option α × S')} (f : S → S')
    (hn : ∀ s, next' (f s) = .ok ((next s).1, f (next s).2)) {s : S} {l : List α}
    (h : Yields next s l) : YieldsE next' (f s) l := by
  have key : ∀ n s, callsE next' n (f s) = .ok (calls next n s) := by
    intro n
    induction n with
    | zero => intro s; rfl
    | succ n ih =>
      intro s
      simp only [callsE, hn, calls, bind, Except.bind, ih]
      rfl
  intro n
  rw [key, h n]

end Verif.Spec

namespace Verif.Props.Inclusive
open Spec RangeInclusiveSet
open RangeInclusiveMap (WF)

section
variable {K : Type} [LE K] [LT K] [DecidableLE K] [DecidableLT K]
  [Std.IsLinearPreorder K] [Std.LawfulOrderLT K] {S : StepFns K}

/-- What the program holds is the world `w`. -/
structure SetShows (S : StepFns K) (d : Desk K) (w : SetWorld (RangeInclusive K) K) : Prop where
  sets : SetMirrors S d.sets w.sets
  walks : ∀ h, Ends Walk.next Walk.nextBack (d.walks h) (w.walks h)
  flows : ∀ g, YieldsE (Flow.next S) (d.flows g) (w.flows g)

theorem set_ends_iter (s : RangeInclusiveSet K) :
    Ends Walk.next Walk.nextBack (.iter s.iterator) s.iter :=
  Ends.wrap Walk.iter (fun _ => rfl) (fun _ => rfl) fun cs => (C48_iter s cs).1

theorem yields_nothing : YieldsE (Flow.next S) (.union ⟨[], []⟩) [] := by
  have h : Yields (Union.next (R := RangeInclusive K)) ⟨[], []⟩ [] := by
    intro n
    induction n with
    | zero => rfl
    | succ n ih =>
      have : (Union.next ⟨[], []⟩ : Option (RangeInclusive K) × _) = (none, ⟨[], []⟩) := by
        unfold Union.next
        rfl
      simp only [calls, this, ih]
      simp [List.replicate_succ]
  exact YieldsE.pure Flow.union (fun _ => rfl) h

/-- **C115** One call: what it answers is what the world may answer, and afterwards what the program
holds is what the world may have become.  So a kept iterator yields what its sets held when it was
made, whatever is done since to the sets and to other iterators. -/
theorem C115_call (hS : LawfulSteps S) {d : Desk K} {w : SetWorld (RangeInclusive K) K}
    (h : SetShows S d w) (c : SetOpenCall K) :
    ∃ w', ISetTurns w c (d.perform S c).1 w' ∧ SetShows S (d.perform S c).2 w' := by
  have hs : ∀ i, Reachable S (d.sets i) := fun i => (h.sets i).1
  have hc : ∀ i k, (d.sets i).contains k = .ok (w.sets i k) := fun i => (h.sets i).2
  have hr : ∀ i, IStretches (fun k => w.sets i k) (d.sets i).iter := fun i =>
    stretches_of_wf ((hs i).wf hS) fun k => by
      have := hc i k
      rw [contains_eq ((hs i).wf hS)] at this
      exact Except.ok.inj this
  cases c with
  | plain c =>
    have := C112_call hS h.sets c
    exact ⟨_, ⟨this.1, rfl⟩, this.2, h.walks, h.flows⟩
  | walk k i =>
    exact ⟨_, ⟨rfl, _, hr i, rfl⟩, h.sets, store_both h.walks k (set_ends_iter _), h.flows⟩
  | walkOver k i q =>
    have h1 : ∃ o, (d.sets i).overlapping q.closed = .ok o ∧
        Ends Overlapping.next Overlapping.nextBack o
        ((d.sets i).iter.filter fun r =>
          decide (q.start ≤ r.stop) && decide (r.start ≤ q.stop)) := by
      obtain ⟨o, h1, -⟩ := C48_overlapping hS (hs i).any q.closed []
      refine ⟨o, h1, fun cs => ?_⟩
      obtain ⟨o', h2, h3, -⟩ := C48_overlapping hS (hs i).any q.closed cs
      rw [h1] at h2
      cases h2
      exact h3
    obtain ⟨o, h1, h2⟩ := h1
    refine ⟨_, ⟨?_, _, hr i, rfl⟩, ?_⟩
    · simp only [Desk.perform, h1]
    · simp only [Desk.perform, h1]
      exact ⟨h.sets, store_both h.walks k (Ends.wrap Walk.overlapping (fun _ => rfl)
        (fun _ => rfl) h2), h.flows⟩
  | take k i =>
    exact ⟨_, ⟨rfl, _, hr i, rfl⟩,
      h.sets.store hS (f := fun _ => false) i WF.nil fun _ => rfl,
      store_both h.walks k (set_ends_iter _), h.flows⟩
  | next k =>
    have := (h.walks k).next
    exact ⟨w.walk k (w.walks k).tail, ⟨by rw [Desk.perform, this.1], rfl⟩, h.sets,
      store_both h.walks k this.2, h.flows⟩
  | nextBack k =>
    have := (h.walks k).back
    exact ⟨w.walk k (w.walks k).dropLast, ⟨by rw [Desk.perform, this.1], rfl⟩, h.sets,
      store_both h.walks k this.2, h.flows⟩
  | holes g i q =>
    obtain ⟨s, l, h1, h2, h3, h4, h5⟩ := C48_gaps hS (hs i) q.closed
    refine ⟨_, ⟨?_, l, ⟨fun r hr => ⟨(h3 r hr).1, (h3 r hr).2.1⟩,
      h4.imp fun h => between h.1 h.2, fun k => ?_⟩, rfl⟩, ?_⟩
    · simp only [Desk.perform, h1]
    · rw [h5, hc]
      simp [Range.closed, RangeInclusive.mk']
    · simp only [Desk.perform, h1]
      exact ⟨h.sets, h.walks, store_both h.flows g (YieldsE.carry Flow.gaps (fun g => by
        simp only [Flow.next]
        cases g.next S <;> rfl) h2)⟩
  | both g i j =>
    obtain ⟨l, h1, h2⟩ := C81_union_division hS (hs i) (hs j)
    obtain ⟨l', h1', h3, -⟩ := C37_union hS (hs i) (hs j)
    obtain rfl := Yields.unique h1 h1'
    exact ⟨_, ⟨rfl, _, _, l, hr i, hr j, h2, fun r hr => (h3 r hr).2, rfl⟩, h.sets, h.walks,
      store_both h.flows g (YieldsE.pure Flow.union (fun _ => rfl) h1)⟩
  | common g i j =>
    obtain ⟨l, h1, h2, h3, h4⟩ := C38_intersection hS (hs i) (hs j)
    refine ⟨_, ⟨rfl, l, ⟨h2, h3.imp fun h => between h.1 h.2, fun k => ?_⟩, rfl⟩, h.sets, h.walks,
      store_both h.flows g (YieldsE.pure Flow.intersection (fun _ => rfl) h1)⟩
    rw [h4, hc, hc]
    simp
  | nextFlow g =>
    obtain ⟨s', h1, h2⟩ := yieldsE_next (h.flows g)
    refine ⟨w.flow g (w.flows g).tail, ⟨?_, rfl⟩, ?_⟩
    · simp only [Desk.perform, h1]
    · simp only [Desk.perform, h1]
      exact ⟨h.sets, h.walks, store_both h.flows g h2⟩

theorem set_shows_empty : SetShows S ({} : Desk K) {} where
  sets _ := ⟨⟨[], by simp, rfl⟩, fun _ => rfl⟩
  walks _ := set_ends_iter RangeInclusiveSet.new
  flows _ := yields_nothing

example := C115_call Demo.u8_lawful (d := { sets := fun _ => Demo.iset })
    (w := { sets := fun _ k => Demo.iset.has k })
    ⟨fun _ => ⟨Demo.iset_reachable, contains_eq (Demo.iset_reachable.wf Demo.u8_lawful)⟩,
      fun _ => set_ends_iter RangeInclusiveSet.new, fun _ => yields_nothing⟩ (.both 2 0 3)

/-- **C115** Whatever the program, and however its calls depend on the answers: it hears what it
could hear from plain sets of keys, with iterators that are lists from which ranges are taken. -/
theorem C115_programs (hS : LawfulSteps S) (program : SetOpenProgram (RangeInclusive K) K)
    (n : Nat) :
    ISetOpenHears program n [] {} (openDialogue S program n [] {}) := by
  suffices H : ∀ (n : Nat) (answers : List (SetAnswer (RangeInclusive K))) (d : Desk K)
      (w : SetWorld (RangeInclusive K) K), SetShows S d w →
      ISetOpenHears program n answers w (openDialogue S program n answers d) from
    H n [] _ _ set_shows_empty
  intro n
  induction n with
  | zero => exact fun _ _ _ _ => rfl
  | succ n ih =>
    intro answers d w h
    unfold ISetOpenHears openDialogue
    cases program answers with
    | none => rfl
    | some c =>
      obtain ⟨w', h1, h2⟩ := C115_call hS h c
      exact ⟨_, w', h1, ih _ _ _ h2⟩

/-- A program that adds what a union yields to one of the two sets, and goes on with the union. -/
def growUnderUnion : SetOpenProgram (RangeInclusive (UIntW 8)) (UIntW 8)
  | [] => some (.plain (.collect 0 [⟨⟨1⟩, ⟨3⟩⟩, ⟨⟨6⟩, ⟨8⟩⟩]))
  | [_] => some (.plain (.collect 1 [⟨⟨3⟩, ⟨4⟩⟩, ⟨⟨20⟩, ⟨29⟩⟩]))
  | [_, _] => some (.both 0 0 1)
  | [_, _, _] => some (.common 1 0 1)
  | [_, _, _, _] => some (.nextFlow 0)
  | [.range (some r), _, _, _, _] => some (.plain (.insert 0 ⟨r.start, ⟨14⟩⟩))
  | [_, _, _, _, _, _] => some (.nextFlow 0)
  | [_, _, _, _, _, _, _] => some (.nextFlow 1)
  | [_, _, _, _, _, _, _, _] => some (.take 5 0)
  | [_, _, _, _, _, _, _, _, _] => some (.nextBack 5)
  | [_, _, _, _, _, _, _, _, _, _] => some (.plain (.isEmpty 0))
  | _ => none

example : openDialogue Demo.u8 growUnderUnion 20 [] {} =
    [.flag true, .range (some (Demo.by8 1 14)), .done, .range (some (Demo.by8 3 3)),
      .range (some (Demo.by8 6 8)), .done,
      .range (some (Demo.by8 1 4)), .done, .done, .done, .done] := by decide +kernel
example := C115_programs Demo.u8_lawful growUnderUnion 20

/-- **C115** When keys that compare equal are equal, the world leaves no choice. -/
theorem C115_one_answer (hS : LawfulSteps S) (hk : ∀ a b : K, a ≤ b → b ≤ a → a = b)
    {w w' w'' : SetWorld (RangeInclusive K) K}
    {c : SetOpenCall K} {a a' : SetAnswer (RangeInclusive K)} (h : ISetTurns w c a w')
    (h' : ISetTurns w c a' w'') :
    a = a' ∧ w' = w'' := by
  cases c with
  | plain c => exact ⟨C112_one_answer hS hk h.1 h'.1, h.2.trans h'.2.symm⟩
  | walk | walkOver | take | holes | common =>
    obtain ⟨rfl, l, h1, rfl⟩ := h
    obtain ⟨rfl, l', h2, rfl⟩ := h'
    cases stretches_unique hS hk h1 h2
    exact ⟨rfl, rfl⟩
  | next | nextBack | nextFlow => exact ⟨h.1.trans h'.1.symm, h.2.trans h'.2.symm⟩
  | both =>
    obtain ⟨rfl, x, y, l, h1, h2, h3, h4, rfl⟩ := h
    obtain ⟨rfl, x', y', l', h1', h2', h3', h4', rfl⟩ := h'
    cases stretches_unique hS hk h1 h1'
    cases stretches_unique hS hk h2 h2'
    cases division_unique hk h3 h3' h4 h4'
    exact ⟨rfl, rfl⟩

example := C115_one_answer (K := UIntW 8) Demo.u8_lawful Demo.u8_antisymm
    (w := { flows := fun _ => Demo.iset.iter }) (c := .nextFlow 1) (a' := .panicked) (w'' := {})
    (a := .range Demo.iset.iter.head?) ⟨rfl, rfl⟩

/-- **C115** Then the answers a program hears are exactly those it could hear from the world. -/
theorem C115_exactly (hS : LawfulSteps S) (hk : ∀ a b : K, a ≤ b → b ≤ a → a = b)
    (program : SetOpenProgram (RangeInclusive K) K) (n : Nat)
    (all : List (SetAnswer (RangeInclusive K))) :
    ISetOpenHears program n [] {} all ↔ all = openDialogue S program n [] {} := by
  constructor
  · suffices H : ∀ (n : Nat) (answers : List (SetAnswer (RangeInclusive K)))
        (w : SetWorld (RangeInclusive K) K)
        (all all' : List (SetAnswer (RangeInclusive K))), ISetOpenHears program n answers w all →
        ISetOpenHears program n answers w all' → all = all' from
      fun h => H n [] _ _ _ h (C115_programs hS program n)
    intro n
    induction n with
    | zero => exact fun _ _ _ _ h h' => Eq.trans h (Eq.symm h')
    | succ n ih =>
      intro answers w all all' h h'
      unfold ISetOpenHears at h h'
      cases hp : program answers with
      | none =>
        rw [hp] at h h'
        exact Eq.trans h (Eq.symm h')
      | some c =>
        rw [hp] at h h'
        obtain ⟨a, w', h1, h2⟩ := h
        obtain ⟨a', w'', h1', h2'⟩ := h'
        obtain ⟨rfl, rfl⟩ := C115_one_answer hS hk h1 h1'
        exact ih _ _ _ _ h2 h2'
  · rintro rfl
    exact C115_programs hS program n

example := C115_exactly Demo.u8_lawful Demo.u8_antisymm growUnderUnion 20

end
end Verif.Props.Inclusive

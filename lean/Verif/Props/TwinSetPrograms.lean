import Verif.Props.IOpenSets
import Verif.Props.TwinPrograms

/-!
# C116: a program cannot tell the two kinds of sets apart
-/
set_option linter.unusedSectionVars false

namespace Verif.Spec
section
variable {K : Type}

/-- The same call with the upper ends of all ranges moved by `f`. -/
def movedSetCall (f : K → K) : SetCall K → SetCall K
  | .insert i r => .insert i (ended f r)
  | .remove i r => .remove i (ended f r)
  | .extend i items => .extend i (items.map (ended f))
  | .collect i items => .collect i (items.map (ended f))
  | .overlapping i q cs => .overlapping i (ended f q) cs
  | .overlaps i q => .overlaps i (ended f q)
  | .gaps i q n => .gaps i (ended f q) n
  | c => c

/-- The same, with iterators. -/
def movedSetOpenCall (f : K → K) : SetOpenCall K → SetOpenCall K
  | .plain c => .plain (movedSetCall f c)
  | .walkOver h i q => .walkOver h i (ended f q)
  | .holes g i q => .holes g i (ended f q)
  | c => c

/-- The ranges in a call. -/
def setRangesIn : SetCall K → List (Range K)
  | .insert _ r => [r]
  | .remove _ r => [r]
  | .extend _ items => items
  | .collect _ items => items
  | .overlapping _ q _ => [q]
  | .overlaps _ q => [q]
  | .gaps _ q _ => [q]
  | _ => []

/-- The same, with iterators. -/
def setOpenRangesIn : SetOpenCall K → List (Range K)
  | .plain c => setRangesIn c
  | .walkOver _ _ q => [q]
  | .holes _ _ q => [q]
  | _ => []

/-- An answer with other ranges. -/
def _root_.Verif.SetAnswer.on {R R' : Type} (f : R → R') : SetAnswer R → SetAnswer R'
  | .done => .done
  | .panicked => .panicked
  | .range r => .range (r.map f)
  | .flag b => .flag b
  | .number n => .number n
  | .ranges l => .ranges (l.map (·.map f))

end
end Verif.Spec

namespace Verif.Props
open Spec
section
variable {K : Type} [LE K] [LT K] [DecidableLE K] [DecidableLT K]
  [Std.IsLinearPreorder K] [Std.LawfulOrderLT K]

/-- No keys have `P` but keys below others. -/
def SetBelow (P : K → Prop) : Prop := ∀ k, P k → ∃ b, k < b

variable {succ : K → K}

theorem stretches_half (hs : ∀ a b : K, a < b → Next a (succ a)) {P : K → Prop} (hf : SetBelow P)
    {l : List (RangeInclusive K)} (h : IStretches P l) :
    (∀ r ∈ l, Next r.stop (succ r.stop)) ∧ Stretches P (l.map (half succ)) := by
  have hn : ∀ r ∈ l, Next r.stop (succ r.stop) := by
    intro r hr
    obtain ⟨b, hb⟩ := hf r.stop ((h.exact _).1 ⟨r, hr, (h.nonempty r hr).1, Std.le_refl _⟩)
    exact hs _ b hb
  refine ⟨hn, fun r hr0 => ?_, ?_, fun k => ?_⟩
  · obtain ⟨r, hr, rfl⟩ := List.mem_map.1 hr0
    exact (next_le (hn r hr) _).1 (h.nonempty r hr).1
  · rw [List.pairwise_map]
    refine h.ordered.imp_of_mem fun ha _ hab => ?_
    obtain ⟨k, h1, h2⟩ := hab
    have := (next_lt (hn _ ha) _).1 h1
    simp only [half]
    grind
  · rw [← h.exact]
    constructor
    · rintro ⟨r, hr0, h1, h2⟩
      obtain ⟨r, hr, rfl⟩ := List.mem_map.1 hr0
      exact ⟨r, hr, h1, (next_le (hn r hr) k).2 h2⟩
    · rintro ⟨r, hr, h1, h2⟩
      exact ⟨_, List.mem_map_of_mem hr, h1, (next_le (hn r hr) k).1 h2⟩

theorem missing_half (hs : ∀ a b : K, a < b → Next a (succ a)) {f : K → Bool} {q : Range K}
    (hq : ∃ b, q.stop < b) {l : List (RangeInclusive K)}
    (h : IStretches (fun k => q.start ≤ k ∧ k ≤ q.stop ∧ f k = false) l) :
    Stretches (fun k => (ended succ q).start ≤ k ∧ k < (ended succ q).stop ∧ f k = false)
      (l.map (half succ)) := by
  obtain ⟨b, hb⟩ := hq
  have := (stretches_half hs (fun k hk => ⟨b, by grind⟩) h).2
  refine ⟨this.nonempty, this.ordered, fun k => ?_⟩
  rw [this.exact, next_le (hs _ b hb)]
  rfl

theorem division_half {xs l : List (RangeInclusive K)}
    (hx : ∀ r ∈ xs, Next r.stop (succ r.stop)) (hn : ∀ r ∈ l, Next r.stop (succ r.stop))
    (h : IDivision xs l) : Division (xs.map (half succ)) (l.map (half succ)) where
  nonempty r hr0 := by
    obtain ⟨r, hr, rfl⟩ := List.mem_map.1 hr0
    exact (next_le (hn r hr) _).1 (h.nonempty r hr)
  ordered := by
    rw [List.pairwise_map]
    exact h.ordered.imp_of_mem fun ha _ hab => (next_lt (hn _ ha) _).1 hab
  covered r hr0 k h1 h2 := by
    obtain ⟨r, hr, rfl⟩ := List.mem_map.1 hr0
    obtain ⟨x, hx0, h3, h4⟩ := h.covered r hr k h1 ((next_le (hn r hr) k).2 h2)
    exact ⟨_, List.mem_map_of_mem hx0, h3, (next_le (hx x hx0) k).1 h4⟩
  uncut x hx0 := by
    obtain ⟨x, hx1, rfl⟩ := List.mem_map.1 hx0
    obtain ⟨r, hr, h1, h2⟩ := h.uncut x hx1
    refine ⟨_, List.mem_map_of_mem hr, h1, ?_⟩
    exact (next_lt (hx x hx1) _).1 (Std.lt_of_le_of_lt h2 (hn r hr).1)
  finest r hr0 p h1 h2 := by
    obtain ⟨r, hr, rfl⟩ := List.mem_map.1 hr0
    obtain ⟨x, hx0, h3, h4⟩ := h.finest r hr p h1 ((next_le (hn r hr) p).2 h2)
    exact ⟨_, List.mem_map_of_mem hx0, h3, (next_le (hx x hx0) p).1 h4⟩

theorem union_half (hs : ∀ a b : K, a < b → Next a (succ a)) {P Q : K → Prop} (hP : SetBelow P)
    (hQ : SetBelow Q) {x y l : List (RangeInclusive K)} (h1 : IStretches P x)
    (h2 : IStretches Q y) (h3 : IDivision (x ++ y) l) :
    Division (x.map (half succ) ++ y.map (half succ)) (l.map (half succ)) := by
  have hx : ∀ r ∈ x ++ y, Next r.stop (succ r.stop) := by
    intro r hr
    rcases List.mem_append.1 hr with hr | hr
    · exact (stretches_half hs hP h1).1 r hr
    · exact (stretches_half hs hQ h2).1 r hr
  rw [← List.map_append]
  refine division_half hx (fun r hr => ?_) h3
  obtain ⟨z, hz, h4, h5⟩ := h3.covered r hr r.stop (h3.nonempty r hr) (Std.le_refl _)
  have := (hx z hz).1
  exact hs _ (succ z.stop) (by grind)

theorem inRange_moved {r : Range K} (h : Next r.stop (succ r.stop)) (k : K) :
    decide ((ended succ r).start ≤ k ∧ k < (ended succ r).stop) =
      decide (r.start ≤ k ∧ k ≤ r.stop) :=
  decide_eq_decide.2 (and_congr_right fun _ => (next_le h k).symm)

theorem moved_allSetValid {items : List (Range K)} (h : ∀ r ∈ items, Next r.stop (succ r.stop)) :
    (∀ r ∈ items.map (ended succ), r.start < r.stop) ↔ ∀ r ∈ items, r.start ≤ r.stop := by
  rw [List.forall_mem_map]
  exact forall_congr' fun r => forall_congr' fun hr => moved_valid (h r hr)

theorem addAll_moved : ∀ {items : List (Range K)} {f : K → Bool},
    (∀ r ∈ items, Next r.stop (succ r.stop)) →
    addAll f (items.map (ended succ)) = iaddAll f items
  | [], _, _ => rfl
  | r :: t, f, h => by
    have hr : Next r.stop (succ r.stop) := h r (List.mem_cons_self ..)
    simp only [List.map_cons, addAll, iaddAll, moved_valid hr, inRange_moved hr,
      addAll_moved fun e he => h e (List.mem_cons_of_mem _ he)]

theorem setEffect_moved (hs : ∀ a b : K, a < b → Next a (succ a)) (sets : Nat → K → Bool)
    {c : SetCall K} (hc : ∀ r ∈ setRangesIn c, ∃ b, r.stop < b) :
    setEffect sets (movedSetCall succ c) = isetEffect sets c := by
  have hn : ∀ r ∈ setRangesIn c, Next r.stop (succ r.stop) := fun r hr =>
    (hc r hr).elim fun b hb => hs _ b hb
  cases c with
  | insert i r | remove i r =>
    have hr := hn r (List.mem_singleton_self _)
    simp only [movedSetCall, setEffect, isetEffect, moved_valid hr, inRange_moved hr]
  | extend i items | collect i items =>
    have hv := moved_allSetValid (succ := succ) (items := items) hn
    have ha := fun f => addAll_moved (succ := succ) (items := items) (f := f) hn
    simp only [movedSetCall, setEffect, isetEffect, hv, ha]
  | _ => rfl

theorem below_addAll : ∀ {items : List (Range K)} {f : K → Bool}, SetBelow (fun k => f k) →
    (∀ r ∈ items, ∃ b, r.stop < b) → SetBelow (fun k => iaddAll f items k)
  | [], _, hf, _ => hf
  | r :: t, f, hf, h => by
    unfold iaddAll
    split
    · refine below_addAll (fun k hk => ?_) fun e he => h e (List.mem_cons_of_mem _ he)
      simp only [Bool.or_eq_true, decide_eq_true_eq] at hk
      rcases hk with hk | hk
      · obtain ⟨b, hb⟩ := h r (List.mem_cons_self ..)
        exact ⟨b, by grind⟩
      · exact hf k hk
    · exact hf

theorem setBelow_effect {sets : Nat → K → Bool} (hm : ∀ i, SetBelow (fun k => sets i k))
    {c : SetCall K} (hc : ∀ r ∈ setRangesIn c, ∃ b, r.stop < b) (j : Nat) :
    SetBelow (fun k => isetEffect sets c j k) := by
  have put : ∀ (i : Nat) {f : K → Bool}, SetBelow (fun k => f k) →
      SetBelow (fun k => store sets i f j k) := by
    intro i f hf
    unfold store
    split
    · exact hf
    · exact hm j
  have none : SetBelow (fun _ : K => (false : Bool)) := fun _ h => by cases h
  cases c with
  | insert i r =>
    have := below_addAll (items := [r]) (hm i) fun e he => by
      rw [List.mem_singleton.1 he]
      exact hc r (List.mem_singleton_self _)
    simp only [iaddAll] at this
    simp only [isetEffect]
    split
    · next hr =>
      simp only [if_pos hr] at this
      exact put i this
    · exact hm j
  | remove i r =>
    simp only [isetEffect]
    split
    · refine put i fun k hk => ?_
      simp only [Bool.and_eq_true] at hk
      exact hm i k hk.2
    · exact hm j
  | clear i => exact put i none
  | extend i items => exact put i (below_addAll (hm i) hc)
  | collect i items =>
    simp only [isetEffect]
    split
    · exact put i (below_addAll none hc)
    · exact hm j
  | copy i l => exact put i (hm l)
  | append i l =>
    refine put i fun k hk => ?_
    simp only [Bool.or_eq_true] at hk
    rcases hk with hk | hk
    · exact hm l k hk
    · exact hm i k hk
  | or i l l' =>
    refine put i fun k hk => ?_
    simp only [Bool.or_eq_true] at hk
    rcases hk with hk | hk
    · exact hm l k hk
    · exact hm l' k hk
  | and i l l' =>
    refine put i fun k hk => ?_
    simp only [Bool.and_eq_true] at hk
    exact hm l k hk.1
  | _ => exact hm j

theorem setFilter_half {q : Range K} (hq : Next q.stop (succ q.stop))
    {l : List (RangeInclusive K)} (hn : ∀ r ∈ l, Next r.stop (succ r.stop)) :
    ((l.map (half succ)).filter fun r =>
      decide ((ended succ q).start < r.stop) && decide (r.start < (ended succ q).stop)) =
    (l.filter fun r => decide (q.start ≤ r.stop) && decide (r.start ≤ q.stop)).map
      (half succ) := by
  rw [List.filter_map]
  congr 1
  refine List.filter_congr fun e he => ?_
  exact congr (congrArg _ (decide_eq_decide.2 (next_le (hn e he) _).symm))
    (decide_eq_decide.2 (next_le hq _).symm)

theorem setSays_moved (hs : ∀ a b : K, a < b → Next a (succ a)) {sets : Nat → K → Bool}
    (hm : ∀ i, SetBelow (fun k => sets i k)) {c : SetCall K}
    (hc : ∀ r ∈ setRangesIn c, ∃ b, r.stop < b)
    {a : SetAnswer (RangeInclusive K)} (h : ISetSays sets c a) :
    SetSays sets (movedSetCall succ c) (a.on (half succ)) := by
  have hn : ∀ r ∈ setRangesIn c, Next r.stop (succ r.stop) := fun r hr =>
    (hc r hr).elim fun b hb => hs _ b hb
  cases c with
  | insert i r | remove i r =>
    have hr := hn r (List.mem_singleton_self _)
    simp only [ISetSays] at h
    simp only [movedSetCall, SetSays, moved_valid hr, h]
    split <;> rfl
  | extend i items | collect i items =>
    simp only [ISetSays] at h
    have hv := moved_allSetValid (succ := succ) (items := items) hn
    simp only [movedSetCall, SetSays, hv, h]
    split <;> rfl
  | clear | copy | append | or | and | contains =>
    simp only [ISetSays] at h
    simp only [movedSetCall, SetSays, h, SetAnswer.on]
  | get i k =>
    obtain ⟨l, h1, rfl⟩ := h
    obtain ⟨hl, h2⟩ := stretches_half hs (hm i) h1
    refine ⟨_, h2, ?_⟩
    simp only [SetAnswer.on]
    congr 1
    rw [List.find?_map]
    congr 1
    refine find_congr fun e he => ?_
    exact decide_eq_decide.2 (and_congr_right fun _ => next_le (hl e he) _)
  | len i =>
    obtain ⟨l, h1, rfl⟩ := h
    exact ⟨_, (stretches_half hs (hm i) h1).2, by simp [SetAnswer.on]⟩
  | first i =>
    obtain ⟨l, h1, rfl⟩ := h
    exact ⟨_, (stretches_half hs (hm i) h1).2, by simp [SetAnswer.on]⟩
  | last i =>
    obtain ⟨l, h1, rfl⟩ := h
    exact ⟨_, (stretches_half hs (hm i) h1).2, by simp [SetAnswer.on]⟩
  | iter i cs =>
    obtain ⟨l, h1, rfl⟩ := h
    exact ⟨_, (stretches_half hs (hm i) h1).2, by simp [SetAnswer.on, dequeScript_map]⟩
  | overlapping i q cs =>
    obtain ⟨l, h1, rfl⟩ := h
    obtain ⟨hl, h2⟩ := stretches_half hs (hm i) h1
    refine ⟨_, h2, ?_⟩
    rw [setFilter_half (hn q (List.mem_singleton_self _)) hl, dequeScript_map]
    rfl
  | overlaps i q =>
    obtain ⟨l, b, h1, rfl, h2⟩ := h
    obtain ⟨hl, h5⟩ := stretches_half hs (hm i) h1
    have hq := hn q (List.mem_singleton_self _)
    refine ⟨_, b, h5, rfl, h2.trans ?_⟩
    constructor
    · rintro ⟨e, he, h3, h4⟩
      exact ⟨_, List.mem_map_of_mem he, (next_le (hl e he) _).1 h3, (next_le hq _).1 h4⟩
    · rintro ⟨e, he0, h3, h4⟩
      obtain ⟨e, he, rfl⟩ := List.mem_map.1 he0
      exact ⟨e, he, (next_le (hl e he) _).2 h3, (next_le hq _).2 h4⟩
  | gaps i q n =>
    obtain ⟨l, h1, rfl⟩ := h
    exact ⟨_, missing_half hs (hc q (List.mem_singleton_self _)) h1, by
      simp only [SetAnswer.on, take_map]⟩
  | union i j n =>
    obtain ⟨x, y, l, h1, h2, h3, -, rfl⟩ := h
    exact ⟨_, _, _, (stretches_half hs (hm i) h1).2, (stretches_half hs (hm j) h2).2,
      union_half hs (hm i) (hm j) h1 h2 h3, by simp only [SetAnswer.on, take_map]⟩
  | intersection i j n =>
    obtain ⟨l, h1, rfl⟩ := h
    exact ⟨_, (stretches_half hs (fun k hk => hm i k hk.1) h1).2, by
      simp only [SetAnswer.on, take_map]⟩
  | isEmpty | eq =>
    obtain ⟨b, rfl, h1⟩ := h
    exact ⟨b, rfl, h1⟩

/-- The same world with half-open ranges. -/
def halfSetWorld (succ : K → K) (w : SetWorld (RangeInclusive K) K) : SetWorld (Range K) K where
  sets := w.sets
  walks h := (w.walks h).map (half succ)
  flows g := (w.flows g).map (half succ)

theorem halfSetWorld_walk (w : SetWorld (RangeInclusive K) K) (h : Nat)
    (l : List (RangeInclusive K)) :
    halfSetWorld succ (w.walk h l) = (halfSetWorld succ w).walk h (l.map (half succ)) := by
  simp only [halfSetWorld, SetWorld.walk]
  congr 1
  exact store_map (fun l => l.map (half succ)) w.walks h l

theorem halfSetWorld_flow (w : SetWorld (RangeInclusive K) K) (g : Nat)
    (l : List (RangeInclusive K)) :
    halfSetWorld succ (w.flow g l) = (halfSetWorld succ w).flow g (l.map (half succ)) := by
  simp only [halfSetWorld, SetWorld.flow]
  congr 1
  exact store_map (fun l => l.map (half succ)) w.flows g l

theorem setTurns_moved (hs : ∀ a b : K, a < b → Next a (succ a))
    {w w' : SetWorld (RangeInclusive K) K} (hm : ∀ i, SetBelow (fun k => w.sets i k))
    {c : SetOpenCall K} (hc : ∀ r ∈ setOpenRangesIn c, ∃ b, r.stop < b)
    {a : SetAnswer (RangeInclusive K)} (h : ISetTurns w c a w') :
    SetTurns (halfSetWorld succ w) (movedSetOpenCall succ c) (a.on (half succ))
      (halfSetWorld succ w') ∧ ∀ i, SetBelow (fun k => w'.sets i k) := by
  cases c with
  | plain c =>
    obtain ⟨h1, rfl⟩ := h
    refine ⟨⟨setSays_moved hs hm hc h1, ?_⟩, setBelow_effect hm hc⟩
    simp only [halfSetWorld, SetWorld.plain, setEffect_moved hs _ hc]
  | walk k i =>
    obtain ⟨rfl, l, h1, rfl⟩ := h
    exact ⟨⟨rfl, _, (stretches_half hs (hm i) h1).2, halfSetWorld_walk ..⟩, hm⟩
  | walkOver k i q =>
    obtain ⟨rfl, l, h1, rfl⟩ := h
    obtain ⟨hl, h2⟩ := stretches_half hs (hm i) h1
    refine ⟨⟨rfl, _, h2, ?_⟩, hm⟩
    obtain ⟨b, hb⟩ := hc q (List.mem_singleton_self _)
    rw [setFilter_half (hs _ b hb) hl]
    exact halfSetWorld_walk ..
  | take k i =>
    obtain ⟨rfl, l, h1, rfl⟩ := h
    refine ⟨⟨rfl, _, (stretches_half hs (hm i) h1).2, ?_⟩, fun j => ?_⟩
    · have := halfSetWorld_walk (succ := succ) w k l
      simp only [SetWorld.plain]
      rw [← this]
      rfl
    · exact setBelow_effect hm (c := .clear i) (fun r hr => by cases hr) j
  | next k =>
    obtain ⟨rfl, rfl⟩ := h
    refine ⟨⟨by simp [SetAnswer.on, halfSetWorld], ?_⟩, hm⟩
    rw [halfSetWorld_walk]
    simp [halfSetWorld]
  | nextBack k =>
    obtain ⟨rfl, rfl⟩ := h
    refine ⟨⟨by simp [SetAnswer.on, halfSetWorld], ?_⟩, hm⟩
    rw [halfSetWorld_walk]
    simp [halfSetWorld, List.map_dropLast]
  | holes g i q =>
    obtain ⟨rfl, l, h1, rfl⟩ := h
    exact ⟨⟨rfl, _, missing_half hs (hc q (List.mem_singleton_self _)) h1,
      halfSetWorld_flow ..⟩, hm⟩
  | both g i j =>
    obtain ⟨rfl, x, y, l, h1, h2, h3, -, rfl⟩ := h
    exact ⟨⟨rfl, _, _, _, (stretches_half hs (hm i) h1).2, (stretches_half hs (hm j) h2).2,
      union_half hs (hm i) (hm j) h1 h2 h3, halfSetWorld_flow ..⟩, hm⟩
  | common g i j =>
    obtain ⟨rfl, l, h1, rfl⟩ := h
    exact ⟨⟨rfl, _, (stretches_half hs (fun k hk => hm i k hk.1) h1).2,
      halfSetWorld_flow ..⟩, hm⟩
  | nextFlow g =>
    obtain ⟨rfl, rfl⟩ := h
    refine ⟨⟨by simp [SetAnswer.on, halfSetWorld], ?_⟩, hm⟩
    rw [halfSetWorld_flow]
    simp [halfSetWorld]

variable {S : StepFns K}

/-- **C116** A program `p` for inclusive sets and a program `q` for half-open sets that say the same
with `start..=stop` and `start..stop + 1` hear the same: each answer of the half-open sets is that
of the inclusive sets, with `start..stop + 1` for `start..=stop`.  `p` must not mention a range up
to the greatest key, for which there is no `stop + 1`. -/
theorem C116_set_programs (hS : LawfulSteps S) (hk : ∀ a b : K, a ≤ b → b ≤ a → a = b)
    (hs : ∀ a b : K, a < b → Next a (succ a)) {p : SetOpenProgram (RangeInclusive K) K}
    {q : SetOpenProgram (Range K) K}
    (hpq : ∀ answers, q (answers.map (SetAnswer.on (half succ))) =
      (p answers).map (movedSetOpenCall succ))
    (hp : ∀ answers c, p answers = some c → ∀ r ∈ setOpenRangesIn c, ∃ b, r.stop < b) (n : Nat) :
    RangeSet.openDialogue q n [] {} =
      (RangeInclusiveSet.openDialogue S p n [] {}).map (SetAnswer.on (half succ)) := by
  suffices H : ∀ (n : Nat) (answers : List (SetAnswer (RangeInclusive K)))
      (w : SetWorld (RangeInclusive K) K) (all : List (SetAnswer (RangeInclusive K))),
      (∀ i, SetBelow (fun k => w.sets i k)) → ISetOpenHears p n answers w all →
      SetOpenHears q n (answers.map (SetAnswer.on (half succ))) (halfSetWorld succ w)
        (all.map (SetAnswer.on (half succ))) from
    ((C115_exactly hk q n _).1 (H n [] {} _ (fun _ _ h => by cases h)
      (Inclusive.C115_programs hS p n))).symm
  intro n
  induction n with
  | zero =>
    intro answers w all _ h
    rw [show all = answers from h]
    rfl
  | succ n ih =>
    intro answers w all hm h
    unfold ISetOpenHears at h
    unfold SetOpenHears
    rw [hpq]
    cases hc : p answers with
    | none =>
      rw [hc] at h
      rw [show all = answers from h]
      rfl
    | some c =>
      rw [hc] at h
      obtain ⟨a, w', h1, h2⟩ := h
      obtain ⟨h3, h4⟩ := setTurns_moved hs hm (hp _ _ hc) h1
      exact ⟨_, _, h3, ih _ _ _ h4 h2⟩

/-- A program that makes the calls `quiet`, until one panics; then it goes on with `loud`. -/
def setUntilPanic {R K : Type} (quiet loud : List (SetOpenCall K)) : SetOpenProgram R K :=
  fun answers =>
    if answers.any fun | .panicked => true | _ => false then loud[answers.length]?
    else quiet[answers.length]?

theorem setUntilPanic_on {R R' K : Type} (f : R → R') (quiet loud : List (SetOpenCall K))
    (g : SetOpenCall K → SetOpenCall K) (answers : List (SetAnswer R)) :
    setUntilPanic (quiet.map g) (loud.map g) (answers.map (SetAnswer.on f)) =
      (setUntilPanic quiet loud answers).map g := by
  have : ((answers.map (SetAnswer.on f)).any fun | .panicked => true | _ => false) =
      answers.any fun | .panicked => true | _ => false := by
    rw [List.any_map]
    congr 1
    funext a
    cases a <;> rfl
  unfold setUntilPanic
  rw [this]
  split <;> simp

theorem setUntilPanic_in {R K : Type} {quiet loud : List (SetOpenCall K)} {P : Range K → Prop}
    (hq : ∀ c ∈ quiet, ∀ r ∈ setOpenRangesIn c, P r)
    (hl : ∀ c ∈ loud, ∀ r ∈ setOpenRangesIn c, P r) (answers : List (SetAnswer R))
    (c : SetOpenCall K) (h : setUntilPanic quiet loud answers = some c) :
    ∀ r ∈ setOpenRangesIn c, P r := by
  unfold setUntilPanic at h
  split at h
  · exact hl c (List.mem_of_getElem? h)
  · exact hq c (List.mem_of_getElem? h)

def askSetsQuiet : List (SetOpenCall (UIntW 8)) :=
  [.plain (.extend 0 [⟨⟨1⟩, ⟨3⟩⟩, ⟨⟨6⟩, ⟨8⟩⟩, ⟨⟨9⟩, ⟨8⟩⟩]), .take 3 0]

def askSetsLoud : List (SetOpenCall (UIntW 8)) :=
  [.take 0 0, .plain (.collect 1 [⟨⟨3⟩, ⟨4⟩⟩, ⟨⟨20⟩, ⟨29⟩⟩]), .both 0 0 1, .common 1 0 1,
    .nextFlow 0, .plain (.insert 0 ⟨⟨4⟩, ⟨14⟩⟩), .nextFlow 0, .nextFlow 1, .walkOver 2 0 ⟨⟨5⟩, ⟨9⟩⟩,
    .nextBack 2]

example : RangeInclusiveSet.openDialogue Demo.u8 (setUntilPanic askSetsQuiet askSetsLoud) 20 [] {} =
    [.range (some (Demo.by8 1 14)), .done, .range (some (Demo.by8 3 3)),
      .range (some (Demo.by8 6 8)), .done, .range (some (Demo.by8 1 4)), .done, .done, .done,
      .panicked] := by decide +kernel
example : RangeSet.openDialogue (setUntilPanic (askSetsQuiet.map (movedSetOpenCall succ8))
      (askSetsLoud.map (movedSetOpenCall succ8))) 20 [] {} =
    [.range (some ⟨⟨1⟩, ⟨15⟩⟩), .done, .range (some ⟨⟨3⟩, ⟨4⟩⟩),
      .range (some ⟨⟨6⟩, ⟨9⟩⟩), .done, .range (some ⟨⟨1⟩, ⟨5⟩⟩), .done, .done, .done,
      .panicked] := by decide +kernel
example (n : Nat) := C116_set_programs Demo.u8_lawful Demo.u8_antisymm succ8_next
  (setUntilPanic_on (half succ8) askSetsQuiet askSetsLoud (movedSetOpenCall succ8))
  (setUntilPanic_in (P := fun r => ∃ b, r.stop < b)
    (fun c hc r hr => ⟨⟨255⟩, (by decide : ∀ c ∈ askSetsQuiet, ∀ r ∈ setOpenRangesIn c,
      r.stop < (⟨255⟩ : UIntW 8)) c hc r hr⟩)
    (fun c hc r hr => ⟨⟨255⟩, (by decide : ∀ c ∈ askSetsLoud, ∀ r ∈ setOpenRangesIn c,
      r.stop < (⟨255⟩ : UIntW 8)) c hc r hr⟩)) n

/-- A program for half-open sets, run on inclusive sets: it sees `start..stop + 1` where there is
`start..=stop`, and says `start..=stop - 1` for `start..stop`. -/
def closedSetProgram (succ pred : K → K) (q : SetOpenProgram (Range K) K) :
    SetOpenProgram (RangeInclusive K) K := fun answers =>
  (q (answers.map (SetAnswer.on (half succ)))).map (movedSetOpenCall pred)

theorem setMoved_back {pred : K → K} (hb : ∀ a b : K, b < a → succ (pred a) = a)
    {c : SetOpenCall K} (hc : ∀ r ∈ setOpenRangesIn c, ∃ b, b < r.stop) :
    movedSetOpenCall succ (movedSetOpenCall pred c) = c := by
  have one : ∀ r : Range K, (∃ b, b < r.stop) → ended succ (ended pred r) = r := by
    rintro ⟨a, b⟩ ⟨d, h⟩
    simp only [ended, hb b d h]
  have many : ∀ items : List (Range K), (∀ r ∈ items, ∃ b, b < r.stop) →
      (items.map (ended pred)).map (ended succ) = items := by
    intro items h
    rw [List.map_map]
    conv => rhs; rw [← List.map_id items]
    exact List.map_congr_left fun e he => one e (h _ he)
  cases c with
  | plain c =>
    cases c with
    | insert i r | remove i r =>
      simp only [movedSetOpenCall, movedSetCall, one r (hc r (List.mem_singleton_self _))]
    | extend i items | collect i items =>
      simp only [movedSetOpenCall, movedSetCall, many items hc]
    | overlapping i q _ | overlaps i q | gaps i q _ =>
      simp only [movedSetOpenCall, movedSetCall, one q (hc q (List.mem_singleton_self _))]
    | _ => rfl
  | walkOver h i q | holes h i q =>
    simp only [movedSetOpenCall, one q (hc q (List.mem_singleton_self _))]
  | _ => rfl

theorem setMoved_above {pred : K → K} (hp : ∀ a b : K, b < a → Next (pred a) a)
    {c : SetOpenCall K} (hc : ∀ r ∈ setOpenRangesIn c, ∃ b, b < r.stop) :
    ∀ r ∈ setOpenRangesIn (movedSetOpenCall pred c), ∃ b, r.stop < b := by
  have many : ∀ items : List (Range K), (∀ r ∈ items, ∃ b, b < r.stop) →
      ∀ r ∈ items.map (ended pred), ∃ b, r.stop < b := by
    intro items h r hr
    obtain ⟨e, he, rfl⟩ := List.mem_map.1 hr
    obtain ⟨d, hd⟩ := h e he
    exact ⟨e.stop, (hp e.stop d hd).1⟩
  cases c with
  | plain c =>
    cases c with
    | insert i r | remove i r => exact many [r] hc
    | extend i items | collect i items => exact many items hc
    | overlapping i q _ | overlaps i q | gaps i q _ => exact many [q] hc
    | _ => exact fun r hr => by cases hr
  | walkOver h i q | holes h i q => exact many [q] hc
  | _ => exact fun r hr => by cases hr

/-- **C116** Every program for half-open sets that mentions no range up to the least key (such a
range is empty) can be run on inclusive sets instead, and hears exactly the same. -/
theorem C116_half_open_sets_on_inclusive (hS : LawfulSteps S)
    (hk : ∀ a b : K, a ≤ b → b ≤ a → a = b) {pred : K → K}
    (hs : ∀ a b : K, a < b → Next a (succ a)) (hd : ∀ a b : K, b < a → Next (pred a) a)
    (q : SetOpenProgram (Range K) K)
    (hq : ∀ answers c, q answers = some c → ∀ r ∈ setOpenRangesIn c, ∃ b, b < r.stop) (n : Nat) :
    RangeSet.openDialogue q n [] {} =
      (RangeInclusiveSet.openDialogue S (closedSetProgram succ pred q) n [] {}).map
        (SetAnswer.on (half succ)) := by
  have hb : ∀ a b : K, b < a → succ (pred a) = a := by
    intro a b h
    have h1 := hd a b h
    have h2 := hs (pred a) a h1.1
    exact hk _ _ (h2.2 a h1.1) (h1.2 _ h2.1)
  refine C116_set_programs hS hk hs (fun answers => ?_) (fun answers c hc => ?_) n
  · unfold closedSetProgram
    cases hc : q (answers.map (SetAnswer.on (half succ))) with
    | none => rfl
    | some c => simp only [Option.map_some, setMoved_back hb (hq _ _ hc)]
  · unfold closedSetProgram at hc
    cases hc' : q (answers.map (SetAnswer.on (half succ))) with
    | none =>
      rw [hc'] at hc
      cases hc
    | some c' =>
      rw [hc', Option.map_some] at hc
      cases hc
      exact setMoved_above hd (hq _ _ hc')

example (n : Nat) := C116_half_open_sets_on_inclusive Demo.u8_lawful Demo.u8_antisymm succ8_next
  pred8_next (setUntilPanic askSetsQuiet askSetsLoud)
  (setUntilPanic_in (P := fun r => ∃ b, b < r.stop)
    (fun c hc r hr => ⟨⟨0⟩, (by decide : ∀ c ∈ askSetsQuiet, ∀ r ∈ setOpenRangesIn c,
      (⟨0⟩ : UIntW 8) < r.stop) c hc r hr⟩)
    (fun c hc r hr => ⟨⟨0⟩, (by decide : ∀ c ∈ askSetsLoud, ∀ r ∈ setOpenRangesIn c,
      (⟨0⟩ : UIntW 8) < r.stop) c hc r hr⟩)) n

end
end Verif.Props

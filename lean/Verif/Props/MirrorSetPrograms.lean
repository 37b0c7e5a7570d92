import Verif.Props.MirrorPrograms
import Verif.Props.TwinSetPrograms

/-!
# C118: a program on inclusive sets cannot tell up from down
-/
set_option linter.unusedSectionVars false

namespace Verif.Spec

namespace Rev
variable {K : Type}

/-- The same call in the opposite order: each range is turned around, and front and back, first and
last are exchanged. -/
def setCall : SetCall K → SetCall (Rev K)
  | .insert i r => .insert i (bounds r)
  | .remove i r => .remove i (bounds r)
  | .clear i => .clear i
  | .extend i items => .extend i (items.map bounds)
  | .collect i items => .collect i (items.map bounds)
  | .copy i j => .copy i j
  | .append i j => .append i j
  | .or i j l => .or i j l
  | .and i j l => .and i j l
  | .contains i k => .contains i ⟨k⟩
  | .get i k => .get i ⟨k⟩
  | .len i => .len i
  | .isEmpty i => .isEmpty i
  | .first i => .last i
  | .last i => .first i
  | .iter i cs => .iter i (cs.map End.other)
  | .overlapping i q cs => .overlapping i (bounds q) (cs.map End.other)
  | .overlaps i q => .overlaps i (bounds q)
  | .gaps i q n => .gaps i (bounds q) n
  | .union i j n => .union i j n
  | .intersection i j n => .intersection i j n
  | .eq i j => .eq i j

/-- The same, with iterators. -/
def setOpenCall : SetOpenCall K → SetOpenCall (Rev K)
  | .plain c => .plain (setCall c)
  | .walk h i => .walk h i
  | .walkOver h i q => .walkOver h i (bounds q)
  | .take h i => .take h i
  | .next h => .nextBack h
  | .nextBack h => .next h
  | .holes g i q => .holes g i (bounds q)
  | .both g i j => .both g i j
  | .common g i j => .common g i j
  | .nextFlow g => .nextFlow g

end Rev

/-- A call that uses no iterator with one end only. -/
def SetTwoEnded {K : Type} : SetOpenCall K → Prop
  | .plain (.gaps _ _ _) => False
  | .plain (.union _ _ _) => False
  | .plain (.intersection _ _ _) => False
  | .holes _ _ _ => False
  | .both _ _ _ => False
  | .common _ _ _ => False
  | .nextFlow _ => False
  | _ => True

end Verif.Spec

namespace Verif.Props.Inclusive
open Spec

section
variable {K : Type} [LE K] [LT K] [DecidableLE K] [DecidableLT K]
  [Std.IsLinearPreorder K] [Std.LawfulOrderLT K]

/-- Ranges in the opposite order. -/
def turnedRanges (l : List (RangeInclusive K)) : List (RangeInclusive (Rev K)) :=
  (l.map Rev.range).reverse

theorem mem_turnedRanges {l : List (RangeInclusive K)} {e : RangeInclusive (Rev K)} :
    e ∈ turnedRanges l ↔ ∃ x ∈ l, Rev.range x = e := by
  simp [turnedRanges]

theorem stretches_turned {P : K → Prop} {l : List (RangeInclusive K)} (h : IStretches P l) :
    IStretches (fun k : Rev K => P k.val) (turnedRanges l) where
  nonempty e he := by
    obtain ⟨x, hx, rfl⟩ := mem_turnedRanges.1 he
    exact h.nonempty x hx
  ordered := by
    unfold turnedRanges
    rw [List.pairwise_reverse, List.pairwise_map]
    exact h.ordered.imp fun ⟨k, h1, h2⟩ => ⟨⟨k⟩, h2, h1⟩
  exact k := by
    rw [← h.exact]
    constructor
    · rintro ⟨e, he, h1, h2⟩
      obtain ⟨x, hx, rfl⟩ := mem_turnedRanges.1 he
      exact ⟨x, hx, h2, h1⟩
    · rintro ⟨x, hx, h1, h2⟩
      exact ⟨_, mem_turnedRanges.2 ⟨x, hx, rfl⟩, h2, h1⟩

theorem filter_turnedRanges (q : Range K) (l : List (RangeInclusive K)) :
    ((turnedRanges l).filter fun e => decide ((Rev.bounds q).start ≤ e.stop) &&
      decide (e.start ≤ (Rev.bounds q).stop)) =
    turnedRanges (l.filter fun e => decide (q.start ≤ e.stop) && decide (e.start ≤ q.stop)) := by
  unfold turnedRanges
  rw [List.filter_reverse, List.filter_map]
  congr 2
  refine List.filter_congr fun e _ => ?_
  exact Bool.and_comm ..

theorem within_bounds (r : Range K) (k : Rev K) :
    decide ((Rev.bounds r).start ≤ k ∧ k ≤ (Rev.bounds r).stop) =
      decide (r.start ≤ k.val ∧ k.val ≤ r.stop) := decide_eq_decide.2 And.comm

theorem all_set_bounds_valid (items : List (Range K)) :
    (∀ r ∈ items.map Rev.bounds, r.start ≤ r.stop) ↔ ∀ r ∈ items, r.start ≤ r.stop := by
  constructor
  · exact fun h r hr => h _ (List.mem_map_of_mem hr)
  · intro h r hr0
    obtain ⟨r, hr, rfl⟩ := List.mem_map.1 hr0
    exact h r hr

theorem addAll_turned : ∀ (items : List (Range K)) (f : K → Bool),
    iaddAll (fun k : Rev K => f k.val) (items.map Rev.bounds) = fun k => iaddAll f items k.val
  | [], _ => rfl
  | r :: t, f => by
    have := addAll_turned t fun k => decide (r.start ≤ k ∧ k ≤ r.stop) || f k
    simp only [List.map_cons, iaddAll, bounds_valid, within_bounds, this]
    split <;> rfl

/-- Plain sets in the opposite order. -/
def turnedSets (sets : Nat → K → Bool) : Nat → Rev K → Bool := fun i k => sets i k.val

theorem store_turnedSets (sets : Nat → K → Bool) (i : Nat) (f : K → Bool) :
    store (turnedSets sets) i (fun k => f k.val) = turnedSets (store sets i f) := by
  funext j k
  unfold turnedSets store
  split <;> rfl

theorem setEffect_turned (sets : Nat → K → Bool) (c : SetCall K) :
    isetEffect (turnedSets sets) (Rev.setCall c) = turnedSets (isetEffect sets c) := by
  cases c with
  | insert i r =>
    have := store_turnedSets sets i fun k => decide (r.start ≤ k ∧ k ≤ r.stop) || sets i k
    simp only [Rev.setCall, isetEffect, bounds_valid, within_bounds]
    split
    · exact this
    · rfl
  | remove i r =>
    have := store_turnedSets sets i fun k => !decide (r.start ≤ k ∧ k ≤ r.stop) && sets i k
    simp only [Rev.setCall, isetEffect, bounds_valid, within_bounds]
    split
    · exact this
    · rfl
  | clear i => exact store_turnedSets sets i fun _ => false
  | extend i items =>
    have : iaddAll (turnedSets sets i) (items.map Rev.bounds) =
        fun k => iaddAll (sets i) items k.val := addAll_turned items (sets i)
    simp only [Rev.setCall, isetEffect, this, store_turnedSets]
  | collect i items =>
    have := addAll_turned items fun _ : K => false
    simp only [Rev.setCall, isetEffect, all_set_bounds_valid, this, store_turnedSets]
    split <;> rfl
  | copy i j => exact store_turnedSets sets i (sets j)
  | append i j => exact store_turnedSets sets i fun k => sets j k || sets i k
  | or i j l => exact store_turnedSets sets i fun k => sets j k || sets l k
  | and i j l => exact store_turnedSets sets i fun k => sets j k && sets l k
  | _ => rfl

theorem setSays_turned {sets : Nat → K → Bool} {c : SetCall K}
    (hc : SetTwoEnded (.plain c)) {a : SetAnswer (RangeInclusive K)} (h : ISetSays sets c a) :
    ISetSays (turnedSets sets) (Rev.setCall c) (a.on Rev.range) := by
  cases c with
  | insert i r | remove i r =>
    simp only [ISetSays] at h
    simp only [Rev.setCall, ISetSays, bounds_valid, h]
    split <;> rfl
  | extend i items | collect i items =>
    simp only [ISetSays] at h
    simp only [Rev.setCall, ISetSays, all_set_bounds_valid, h]
    split <;> rfl
  | clear | copy | append | or | and | contains =>
    simp only [ISetSays] at h
    simp only [Rev.setCall, ISetSays, h, SetAnswer.on, turnedSets]
  | get i k =>
    obtain ⟨l, h1, rfl⟩ := h
    refine ⟨_, stretches_turned h1, ?_⟩
    simp only [SetAnswer.on]
    congr 1
    unfold turnedRanges
    rw [find_reverse, List.find?_map]
    · congr 1
      refine find_congr fun e he => ?_
      exact decide_eq_decide.2 And.comm
    · rw [List.pairwise_map]
      refine h1.ordered.imp fun {a b} hab ha => ?_
      obtain ⟨d, h2, h3⟩ := hab
      simp only [decide_eq_true_eq, decide_eq_false_iff_not, Rev.range, Rev.le_def] at ha ⊢
      grind
  | len i =>
    obtain ⟨l, h1, rfl⟩ := h
    exact ⟨_, stretches_turned h1, by simp [SetAnswer.on, turnedRanges]⟩
  | first i =>
    obtain ⟨l, h1, rfl⟩ := h
    exact ⟨_, stretches_turned h1, by simp [SetAnswer.on, turnedRanges]⟩
  | last i =>
    obtain ⟨l, h1, rfl⟩ := h
    exact ⟨_, stretches_turned h1, by simp [SetAnswer.on, turnedRanges]⟩
  | iter i cs =>
    obtain ⟨l, h1, rfl⟩ := h
    refine ⟨_, stretches_turned h1, ?_⟩
    simp only [turnedRanges, dequeScript_other, dequeScript_map, SetAnswer.on]
  | overlapping i q cs =>
    obtain ⟨l, h1, rfl⟩ := h
    refine ⟨_, stretches_turned h1, ?_⟩
    rw [filter_turnedRanges]
    simp only [turnedRanges, dequeScript_other, dequeScript_map, SetAnswer.on]
  | overlaps i q =>
    obtain ⟨l, b, h1, rfl, h2⟩ := h
    refine ⟨_, b, stretches_turned h1, rfl, h2.trans ?_⟩
    constructor
    · rintro ⟨e, he, h3, h4⟩
      exact ⟨_, mem_turnedRanges.2 ⟨e, he, rfl⟩, h4, h3⟩
    · rintro ⟨e, he0, h3, h4⟩
      obtain ⟨e, he, rfl⟩ := mem_turnedRanges.1 he0
      exact ⟨e, he, h4, h3⟩
  | gaps | union | intersection => exact hc.elim
  | isEmpty i =>
    obtain ⟨b, rfl, h1⟩ := h
    exact ⟨b, rfl, h1.trans ⟨fun h k => h k.val, fun h k => h ⟨k⟩⟩⟩
  | eq i j =>
    obtain ⟨b, rfl, h1⟩ := h
    exact ⟨b, rfl, h1.trans ⟨fun h k => h k.val, fun h k => h ⟨k⟩⟩⟩

/-- The same world in the opposite order. -/
def turnedSetWorld (w : SetWorld (RangeInclusive K) K) :
    SetWorld (RangeInclusive (Rev K)) (Rev K) where
  sets := turnedSets w.sets
  walks h := turnedRanges (w.walks h)
  flows _ := []

theorem turnedSetWorld_walk (w : SetWorld (RangeInclusive K) K) (h : Nat)
    (l : List (RangeInclusive K)) :
    turnedSetWorld (w.walk h l) = (turnedSetWorld w).walk h (turnedRanges l) := by
  simp only [turnedSetWorld, SetWorld.walk]
  congr 1
  exact store_map turnedRanges w.walks h l

theorem setTurns_turned {w w' : SetWorld (RangeInclusive K) K} {c : SetOpenCall K}
    (hc : SetTwoEnded c) {a : SetAnswer (RangeInclusive K)} (h : ISetTurns w c a w') :
    ISetTurns (turnedSetWorld w) (Rev.setOpenCall c) (a.on Rev.range) (turnedSetWorld w') := by
  cases c with
  | plain c =>
    obtain ⟨h1, rfl⟩ := h
    refine ⟨setSays_turned hc h1, ?_⟩
    simp only [turnedSetWorld, SetWorld.plain, setEffect_turned]
  | walk k i =>
    obtain ⟨rfl, l, h1, rfl⟩ := h
    exact ⟨rfl, _, stretches_turned h1, turnedSetWorld_walk ..⟩
  | walkOver k i q =>
    obtain ⟨rfl, l, h1, rfl⟩ := h
    refine ⟨rfl, _, stretches_turned h1, ?_⟩
    rw [filter_turnedRanges]
    exact turnedSetWorld_walk ..
  | take k i =>
    obtain ⟨rfl, l, h1, rfl⟩ := h
    refine ⟨rfl, _, stretches_turned h1, ?_⟩
    have h2 := turnedSetWorld_walk w k l
    have h3 := store_turnedSets w.sets i fun _ => false
    simp only [SetWorld.plain]
    rw [← h2]
    simp only [turnedSetWorld, h3]
  | next k =>
    obtain ⟨rfl, rfl⟩ := h
    refine ⟨by simp [SetAnswer.on, turnedSetWorld, turnedRanges], ?_⟩
    rw [turnedSetWorld_walk]
    simp [turnedSetWorld, turnedRanges, List.map_tail]
  | nextBack k =>
    obtain ⟨rfl, rfl⟩ := h
    refine ⟨by simp [SetAnswer.on, turnedSetWorld, turnedRanges], ?_⟩
    rw [turnedSetWorld_walk]
    simp [turnedSetWorld, turnedRanges, List.map_dropLast]
  | holes | both | common | nextFlow => exact hc.elim

variable {S : StepFns K}

/-- **C118** Two programs, one of which says upside down what the other one says, hear upside down
what the other one hears.  They may use all but `gaps`, `union` and `intersection`, which have one
end only. -/
theorem C118_set_programs (hS : LawfulSteps S) (hk : ∀ a b : K, a ≤ b → b ≤ a → a = b)
    {p : SetOpenProgram (RangeInclusive K) K}
    {q : SetOpenProgram (RangeInclusive (Rev K)) (Rev K)}
    (hpq : ∀ answers, q (answers.map (SetAnswer.on Rev.range)) = (p answers).map Rev.setOpenCall)
    (hp : ∀ answers c, p answers = some c → SetTwoEnded c) (n : Nat) :
    RangeInclusiveSet.openDialogue (Rev.steps S) q n [] {} =
      (RangeInclusiveSet.openDialogue S p n [] {}).map (SetAnswer.on Rev.range) := by
  suffices H : ∀ (n : Nat) (answers : List (SetAnswer (RangeInclusive K)))
      (w : SetWorld (RangeInclusive K) K) (all : List (SetAnswer (RangeInclusive K))),
      ISetOpenHears p n answers w all →
      ISetOpenHears q n (answers.map (SetAnswer.on Rev.range)) (turnedSetWorld w)
        (all.map (SetAnswer.on Rev.range)) from
    ((C115_exactly (Rev.lawful hS) (rev_antisymm hk) q n _).1 (H n [] {} _
      (C115_programs hS p n))).symm
  intro n
  induction n with
  | zero =>
    intro answers w all h
    rw [show all = answers from h]
    rfl
  | succ n ih =>
    intro answers w all h
    unfold ISetOpenHears at h ⊢
    rw [hpq]
    cases hc : p answers with
    | none =>
      rw [hc] at h
      rw [show all = answers from h]
      rfl
    | some c =>
      rw [hc] at h
      obtain ⟨a, w', h1, h2⟩ := h
      exact ⟨_, _, setTurns_turned (hp _ _ hc) h1, ih _ _ _ h2⟩

/-- A program run upside down. -/
def setUpsideDown (p : SetOpenProgram (RangeInclusive K) K) :
    SetOpenProgram (RangeInclusive (Rev K)) (Rev K) := fun answers =>
  (p (answers.map (SetAnswer.on Rev.unrange))).map Rev.setOpenCall

theorem set_unrange_range (a : SetAnswer (RangeInclusive K)) :
    (a.on Rev.range).on Rev.unrange = a := by
  cases a <;> simp [SetAnswer.on, Function.comp_def, Rev.range, Rev.unrange]

/-- **C118** Every program that uses no iterator with one end only can be run upside down, with the
keys in the opposite order and front and back exchanged, and hears upside down what it hears. -/
theorem C118_sets_upside_down (hS : LawfulSteps S) (hk : ∀ a b : K, a ≤ b → b ≤ a → a = b)
    (p : SetOpenProgram (RangeInclusive K) K)
    (hp : ∀ answers c, p answers = some c → SetTwoEnded c) (n : Nat) :
    (RangeInclusiveSet.openDialogue (Rev.steps S) (setUpsideDown p) n [] {}).map
      (SetAnswer.on Rev.unrange) = RangeInclusiveSet.openDialogue S p n [] {} := by
  rw [C118_set_programs hS hk (p := p) (fun answers => by
    simp [setUpsideDown, Function.comp_def, set_unrange_range]) hp]
  simp [Function.comp_def, set_unrange_range]

/-- Insert into the first set, cut off what the back is heard to be, and look at both ends of what
the set then has in common with another one. -/
def cutSetBack : SetOpenProgram (RangeInclusive (UIntW 8)) (UIntW 8)
  | [] => some (.plain (.extend 0 [⟨⟨1⟩, ⟨2⟩⟩, ⟨⟨6⟩, ⟨6⟩⟩, ⟨⟨3⟩, ⟨4⟩⟩]))
  | [_] => some (.walkOver 0 0 ⟨⟨2⟩, ⟨255⟩⟩)
  | [_, _] => some (.nextBack 0)
  | [.range (some e), _, _] => some (.plain (.remove 0 ⟨e.start, e.stop⟩))
  | [_, _, _, _] => some (.plain (.insert 1 ⟨⟨2⟩, ⟨9⟩⟩))
  | [_, _, _, _, _] => some (.plain (.and 2 0 1))
  | [_, _, _, _, _, _] => some (.plain (.last 2))
  | [_, _, _, _, _, _, _] => some (.next 0)
  | _ => none

example : RangeInclusiveSet.openDialogue Demo.u8 cutSetBack 20 [] {} =
    [.range (some (Demo.by8 1 4)), .range (some (Demo.by8 2 4)), .done, .done, .done,
      .range (some (Demo.by8 6 6)), .done, .done] := by decide +kernel
example : RangeInclusiveSet.openDialogue (Rev.steps Demo.u8) (setUpsideDown cutSetBack) 20 [] {} =
    [.range (some (.mk' ⟨⟨4⟩⟩ ⟨⟨1⟩⟩)), .range (some (.mk' ⟨⟨4⟩⟩ ⟨⟨2⟩⟩)), .done, .done, .done,
      .range (some (.mk' ⟨⟨6⟩⟩ ⟨⟨6⟩⟩)), .done, .done] := by decide +kernel
theorem cutSetBack_ends (answers : List (SetAnswer (RangeInclusive (UIntW 8))))
    (c : SetOpenCall (UIntW 8)) (h : cutSetBack answers = some c) : SetTwoEnded c := by
  unfold cutSetBack at h
  split at h <;> first | (cases h; trivial) | cases h
example (n : Nat) := C118_sets_upside_down Demo.u8_lawful Demo.u8_antisymm cutSetBack
  cutSetBack_ends n
example (n : Nat) := C118_set_programs Demo.u8_lawful Demo.u8_antisymm
  (p := cutSetBack) (q := setUpsideDown cutSetBack)
  (fun answers => by simp [setUpsideDown, Function.comp_def, set_unrange_range]) cutSetBack_ends n

end
end Verif.Props.Inclusive

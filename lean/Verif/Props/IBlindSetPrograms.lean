import Verif.Props.BlindSetPrograms
import Verif.Props.IBlindPrograms
import Verif.Props.ISetDialogue

/-!
# C117 for inclusive sets
-/
set_option linter.unusedSectionVars false

namespace Verif.Props.Inclusive
open Spec

section
open RangeInclusiveSet
variable {K K' : Type} [LE K] [LT K] [DecidableLE K] [DecidableLT K]
  [Std.IsLinearPreorder K] [Std.LawfulOrderLT K]
  [LE K'] [LT K'] [DecidableLE K'] [DecidableLT K']
  [Std.LawfulOrderLT K'] {f : K → K'}
  {S : StepFns K} {S' : StepFns K'}

/-- `iter` with other keys. -/
def SetIter.rename (f : K → K') (i : RangeInclusiveSet.Iter K) : RangeInclusiveSet.Iter K' :=
  ⟨Iter.rename f id i.inner⟩

/-- `overlapping` with other keys. -/
def SetOverlapping.rename (f : K → K') (o : RangeInclusiveSet.Overlapping K) :
    RangeInclusiveSet.Overlapping K' :=
  ⟨o.inner.rename f id⟩

/-- `gaps` with other keys. -/
def SetGaps.rename (f : K → K') (o : RangeInclusiveSet.Gaps K) : RangeInclusiveSet.Gaps K' :=
  ⟨o.inner.rename f id⟩

theorem setIterNext_rename (i : RangeInclusiveSet.Iter K) : (SetIter.rename f i).next =
    Prod.map (Option.map (mapIRange f)) (SetIter.rename f) i.next := by
  have := iterNext_rename (f := f) (g := id) i.inner
  simp only [SetIter.rename, RangeInclusiveSet.Iter.next, this]
  rcases i.inner.next with ⟨_ | _, _⟩ <;> rfl

theorem setIterNextBack_rename (i : RangeInclusiveSet.Iter K) : (SetIter.rename f i).nextBack =
    Prod.map (Option.map (mapIRange f)) (SetIter.rename f) i.nextBack := by
  have := iterNextBack_rename (f := f) (g := id) i.inner
  simp only [SetIter.rename, RangeInclusiveSet.Iter.nextBack, this]
  rcases i.inner.nextBack with ⟨_ | _, _⟩ <;> rfl

theorem setOverNext_rename (hf : Embeds f) (i : RangeInclusiveSet.Overlapping K) :
    (SetOverlapping.rename f i).next =
      Prod.map (Option.map (mapIRange f)) (SetOverlapping.rename f) i.next := by
  have := RangeInclusiveMap.Overlapping.next_rename (f := f) (g := id) hf i.inner
  simp only [SetOverlapping.rename, RangeInclusiveSet.Overlapping.next, this]
  rcases i.inner.next with ⟨_ | _, _⟩ <;> rfl

theorem setOverNextBack_rename (hf : Embeds f) (i : RangeInclusiveSet.Overlapping K) :
    (SetOverlapping.rename f i).nextBack =
      Prod.map (Option.map (mapIRange f)) (SetOverlapping.rename f) i.nextBack := by
  have := RangeInclusiveMap.Overlapping.nextBack_rename (f := f) (g := id) hf i.inner
  simp only [SetOverlapping.rename, RangeInclusiveSet.Overlapping.nextBack, this]
  rcases i.inner.nextBack with ⟨_ | _, _⟩ <;> rfl

theorem setGapsNext_rename (hf : Embeds f) (hS : StepsMap f S S') (i : RangeInclusiveSet.Gaps K)
    (hi : i.inner.Guard) :
    (SetGaps.rename f i).next S' =
      (i.next S).map (Prod.map (Option.map (mapIRange f)) (SetGaps.rename f)) ∧
    ∀ a i', i.next S = .ok (a, i') → i'.inner.Guard := by
  obtain ⟨h1, h2⟩ := RangeInclusiveMap.Gaps.next_rename (g := id) hf hS i.inner hi
  simp only [SetGaps.rename, RangeInclusiveSet.Gaps.next, h1]
  cases h : i.inner.next S with
  | error p => exact ⟨rfl, fun _ _ h => by cases h⟩
  | ok x => exact ⟨rfl, fun a i' h' => by cases h'; exact h2 x.1 x.2 h⟩

theorem setGapsCalls_rename (hf : Embeds f) (hS : StepsMap f S S') (n : Nat)
    (i : RangeInclusiveSet.Gaps K) (hi : i.inner.Guard) :
    callsE (RangeInclusiveSet.Gaps.next S') n (SetGaps.rename f i) =
      (callsE (RangeInclusiveSet.Gaps.next S) n i).map (List.map (Option.map (mapIRange f))) := by
  induction n generalizing i with
  | zero => rfl
  | succ n ih =>
    obtain ⟨h1, h2⟩ := setGapsNext_rename hf hS i hi
    simp only [callsE, h1]
    cases h : i.next S with
    | error p => rfl
    | ok p =>
      have := ih p.2 (h2 p.1 p.2 h)
      simp only [Except.map, Prod.map]
      rw [this]
      cases callsE (RangeInclusiveSet.Gaps.next S) n p.2 <;> rfl

theorem setGaps_guard {s : RangeInclusiveSet K} (h : RangeInclusiveMap.Sep s.rm.btm)
    {q : RangeInclusive K} {o : RangeInclusiveSet.Gaps K} (ho : s.gaps q = .ok o) :
    o.inner.Guard := by
  simp only [RangeInclusiveSet.gaps] at ho
  cases h' : s.rm.gaps q with
  | error p => simp [h', bind, Except.bind] at ho
  | ok x =>
    simp only [h', bind, Except.bind, pure, Except.pure, Except.ok.injEq] at ho
    subst ho
    exact RangeInclusiveMap.gaps_guard h h'

theorem setOverlapping_rename (hf : Embeds f) (s : RangeInclusiveSet K) (q : RangeInclusive K) :
    (s.rename f).overlapping (mapIRange f q) =
      (s.overlapping q).map (SetOverlapping.rename f) := by
  simp only [RangeInclusiveSet.overlapping, RangeInclusiveSet.rename,
    RangeInclusiveMap.overlapping_rename hf]
  cases s.rm.overlapping q <;> rfl

theorem setGaps_rename (hf : Embeds f) (s : RangeInclusiveSet K) (q : RangeInclusive K) :
    (s.rename f).gaps (mapIRange f q) = (s.gaps q).map (SetGaps.rename f) := by
  simp only [RangeInclusiveSet.gaps, RangeInclusiveSet.rename, RangeInclusiveMap.gaps_rename hf]
  cases s.rm.gaps q <;> rfl

theorem closedItems_rename (items : List (Range K)) :
    (items.map (mapRange f)).map Range.closed =
      (items.map Range.closed).map (mapIRange f) := by
  simp only [List.map_map]
  rfl

theorem setPerform_rename (hf : Embeds f) (hS : StepsMap f S S')
    {sets : Nat → RangeInclusiveSet K} (hm : ∀ i, RangeInclusiveMap.Sep (sets i).rm.btm)
    (c : SetCall K) :
    RangeInclusiveSet.perform S' (fun i => (sets i).rename f) (renamedSetCall f c) =
      ((RangeInclusiveSet.perform S sets c).1.renamed (mapIRange f),
        fun i => ((RangeInclusiveSet.perform S sets c).2 i).rename f) := by
  cases c with
  | insert i r =>
    simp only [renamedSetCall, RangeInclusiveSet.perform, closed_rename, insert_rename hf hS]
    exact renew_rename ..
  | remove i r =>
    simp only [renamedSetCall, RangeInclusiveSet.perform, closed_rename, remove_rename hf hS]
    exact renew_rename ..
  | clear i => exact Prod.ext rfl (store_rename (rename f) sets i (sets i).clear)
  | extend i items =>
    simp only [renamedSetCall, RangeInclusiveSet.perform, closedItems_rename, extend_rename hf hS]
    refine Prod.ext ?_ (store_rename (rename f) sets i _)
    cases ((sets i).extend S (items.map Range.closed)).2 <;> rfl
  | collect i items =>
    simp only [renamedSetCall, RangeInclusiveSet.perform, closedItems_rename,
      RangeInclusiveSet.fromIter_rename hf hS]
    exact renew_rename ..
  | copy i j => exact Prod.ext rfl (store_rename (rename f) sets i (sets j))
  | append i j =>
    simp only [renamedSetCall, RangeInclusiveSet.perform, iter_rename, extend_rename hf hS]
    refine Prod.ext ?_ (store_rename (rename f) sets i _)
    cases ((sets i).extend S (sets j).iter).2 <;> rfl
  | or i j l =>
    simp only [renamedSetCall, RangeInclusiveSet.perform, bitOr_rename hf hS]
    exact renew_rename ..
  | and i j l =>
    simp only [renamedSetCall, RangeInclusiveSet.perform, bitAnd_rename hf hS]
    exact renew_rename ..
  | contains i k =>
    simp only [renamedSetCall, RangeInclusiveSet.perform, RangeInclusiveSet.contains,
      RangeInclusiveSet.rename,
      RangeInclusiveMap.containsKey, RangeInclusiveMap.get_rename hf]
    refine Prod.ext ?_ rfl
    cases (sets i).rm.get k with
    | ok o => cases o <;> rfl
    | error p => rfl
  | get i k =>
    simp only [renamedSetCall, RangeInclusiveSet.perform, RangeInclusiveSet.get,
      RangeInclusiveSet.rename,
      RangeInclusiveMap.getKeyValue_rename hf]
    refine Prod.ext ?_ rfl
    cases (sets i).rm.getKeyValue k with
    | ok o => cases o <;> rfl
    | error p => rfl
  | len i =>
    refine Prod.ext ?_ rfl
    simp [renamedSetCall, RangeInclusiveSet.perform, RangeInclusiveSet.len, RangeInclusiveMap.len,
      rename, RangeInclusiveMap.rename,
      SetAnswer.renamed]
  | isEmpty i =>
    refine Prod.ext ?_ rfl
    simp only [renamedSetCall, RangeInclusiveSet.perform, RangeInclusiveSet.isEmpty,
      RangeInclusiveMap.isEmpty, rename,
      RangeInclusiveMap.rename, SetAnswer.renamed]
    cases (sets i).rm.btm <;> rfl
  | first i =>
    refine Prod.ext ?_ rfl
    simp only [renamedSetCall, RangeInclusiveSet.perform, RangeInclusiveSet.first,
      RangeInclusiveMap.firstRangeValue, rename,
      RangeInclusiveMap.rename, SetAnswer.renamed]
    cases (sets i).rm.btm <;> rfl
  | last i =>
    refine Prod.ext ?_ rfl
    simp only [renamedSetCall, RangeInclusiveSet.perform, RangeInclusiveSet.last,
      RangeInclusiveMap.lastRangeValue, rename,
      RangeInclusiveMap.rename, SetAnswer.renamed, List.getLast?_map]
    cases (sets i).rm.btm.getLast? <;> rfl
  | iter i cs =>
    exact Prod.ext (congrArg SetAnswer.ranges (script_rename (ρ := SetIter.rename f)
      setIterNext_rename setIterNextBack_rename cs (sets i).iterator)) rfl
  | overlapping i q cs =>
    simp only [renamedSetCall, RangeInclusiveSet.perform, closed_rename, setOverlapping_rename hf]
    cases (sets i).overlapping q.closed with
    | ok o =>
      exact Prod.ext (congrArg SetAnswer.ranges (script_rename (setOverNext_rename hf)
        (setOverNextBack_rename hf) cs o)) rfl
    | error p => rfl
  | overlaps i q =>
    simp only [renamedSetCall, RangeInclusiveSet.perform, RangeInclusiveSet.overlaps,
      closed_rename, setOverlapping_rename hf]
    refine Prod.ext ?_ rfl
    cases (sets i).overlapping q.closed with
    | ok o =>
      have := congrArg Prod.fst (setOverNext_rename hf o)
      simp only [Except.map, bind, Except.bind, pure, Except.pure, this, SetAnswer.of,
        SetAnswer.renamed, Prod.map_fst, Option.isSome_map]
    | error p => rfl
  | gaps i q n =>
    simp only [renamedSetCall, RangeInclusiveSet.perform, closed_rename, setGaps_rename hf]
    cases ho : (sets i).gaps q.closed with
    | ok o =>
      refine Prod.ext ?_ rfl
      simp only [Except.map, bind, Except.bind,
        setGapsCalls_rename hf hS n o (setGaps_guard (hm i) ho)]
      cases callsE (RangeInclusiveSet.Gaps.next S) n o <;> rfl
    | error p => rfl
  | union i j n =>
    simp only [renamedSetCall, RangeInclusiveSet.perform, union_rename]
    exact Prod.ext (congrArg SetAnswer.ranges (calls_rename (unionNext_rename hf) n _)) rfl
  | intersection i j n =>
    simp only [renamedSetCall, RangeInclusiveSet.perform, intersection_rename]
    exact Prod.ext (congrArg SetAnswer.ranges (calls_rename (intersectionNext_rename hf) n _)) rfl
  | eq i j =>
    exact Prod.ext (congrArg SetAnswer.flag (RangeInclusiveMap.eq_rename hf
      (fun _ _ => rfl) _ _)) rfl

/-- A kept iterator with other keys. -/
def SetWalk.rename (f : K → K') : RangeInclusiveSet.Walk K → RangeInclusiveSet.Walk K'
  | .iter i => .iter (SetIter.rename f i)
  | .overlapping o => .overlapping (SetOverlapping.rename f o)

/-- A kept iterator with one end, with other keys. -/
def SetFlow.rename (f : K → K') : RangeInclusiveSet.Flow K → RangeInclusiveSet.Flow K'
  | .gaps g => .gaps (SetGaps.rename f g)
  | .union u => .union (u.map (mapIRange f))
  | .intersection u => .intersection (u.map (mapIRange f))

theorem setWalkNext_rename (hf : Embeds f) (w : RangeInclusiveSet.Walk K) :
    (SetWalk.rename f w).next =
    Prod.map (Option.map (mapIRange f)) (SetWalk.rename f) w.next := by
  cases w with
  | iter i => simp only [SetWalk.rename, RangeInclusiveSet.Walk.next, setIterNext_rename]; rfl
  | overlapping o =>
    simp only [SetWalk.rename, RangeInclusiveSet.Walk.next, setOverNext_rename hf]; rfl

theorem setWalkNextBack_rename (hf : Embeds f) (w : RangeInclusiveSet.Walk K) :
    (SetWalk.rename f w).nextBack =
      Prod.map (Option.map (mapIRange f)) (SetWalk.rename f) w.nextBack := by
  cases w with
  | iter i =>
    simp only [SetWalk.rename, RangeInclusiveSet.Walk.nextBack, setIterNextBack_rename]; rfl
  | overlapping o =>
    simp only [SetWalk.rename, RangeInclusiveSet.Walk.nextBack, setOverNextBack_rename hf]; rfl

/-- What makes `gaps` step past no greatest key. -/
def FlowGuard : RangeInclusiveSet.Flow K → Prop
  | .gaps g => g.inner.Guard
  | _ => True

theorem setFlowNext_rename (hf : Embeds f) (hS : StepsMap f S S') (w : RangeInclusiveSet.Flow K)
    (hw : FlowGuard w) :
    (SetFlow.rename f w).next S' =
      (w.next S).map (Prod.map (Option.map (mapIRange f)) (SetFlow.rename f)) ∧
    ∀ a w', w.next S = .ok (a, w') → FlowGuard w' := by
  cases w with
  | gaps g =>
    obtain ⟨h1, h2⟩ := setGapsNext_rename hf hS g hw
    simp only [SetFlow.rename, RangeInclusiveSet.Flow.next, h1]
    cases h : g.next S with
    | error p => exact ⟨rfl, fun _ _ h => by cases h⟩
    | ok x => exact ⟨rfl, fun a i' h' => by cases h'; exact h2 x.1 x.2 h⟩
  | union u =>
    simp only [SetFlow.rename, RangeInclusiveSet.Flow.next, unionNext_rename hf]
    exact ⟨rfl, fun a w' h => by cases h; trivial⟩
  | intersection u =>
    simp only [SetFlow.rename, RangeInclusiveSet.Flow.next, intersectionNext_rename hf]
    exact ⟨rfl, fun a w' h => by cases h; trivial⟩

/-- All a program holds, with other keys. -/
def SetDesk.rename (f : K → K') (d : RangeInclusiveSet.Desk K) : RangeInclusiveSet.Desk K' where
  sets i := (d.sets i).rename f
  walks h := SetWalk.rename f (d.walks h)
  flows h := SetFlow.rename f (d.flows h)

/-- What makes `gaps` step past no greatest key. -/
structure SetHeld (S : StepFns K) (d : RangeInclusiveSet.Desk K) : Prop where
  sets : ∃ plain, SetMirrors S d.sets plain
  flows : ∀ h, FlowGuard (d.flows h)

theorem setDeskPerform_rename (hL : LawfulSteps S) (hf : Embeds f) (hS : StepsMap f S S')
    {d : RangeInclusiveSet.Desk K} (hd : SetHeld S d) (c : SetOpenCall K) :
    (SetDesk.rename f d).perform S' (renamedSetOpenCall f c) =
      ((d.perform S c).1.renamed (mapIRange f), SetDesk.rename f (d.perform S c).2) ∧
    SetHeld S (d.perform S c).2 := by
  have walk : ∀ h w, store (fun j => SetWalk.rename f (d.walks j)) h (SetWalk.rename f w) =
      fun j => SetWalk.rename f (store d.walks h w j) := store_rename _ d.walks
  have flow : ∀ h w, store (fun j => SetFlow.rename f (d.flows j)) h (SetFlow.rename f w) =
      fun j => SetFlow.rename f (store d.flows h w j) := store_rename _ d.flows
  have hm : ∀ i, RangeInclusiveMap.Sep (d.sets i).rm.btm := fun i =>
    hd.sets.elim fun _ hp => ((hp i).1.wf hL).sep
  have flowed : ∀ h s, FlowGuard s → ∀ k, FlowGuard (store d.flows h s k) := by
    intro h s hs k
    unfold store
    split
    · exact hs
    · exact hd.flows k
  cases c with
  | plain c =>
    refine ⟨?_, ?_, hd.flows⟩
    · have := setPerform_rename hf hS hm c
      simp only [SetDesk.rename, renamedSetOpenCall, RangeInclusiveSet.Desk.perform, this]
    · obtain ⟨plain, hp⟩ := hd.sets
      exact ⟨_, (C112_call hL hp c).2⟩
  | walk h i =>
    refine ⟨?_, hd.sets, hd.flows⟩
    simp only [SetDesk.rename, renamedSetOpenCall, RangeInclusiveSet.Desk.perform]
    rw [← walk h (.iter (d.sets i).iterator)]
    rfl
  | walkOver h i q =>
    simp only [SetDesk.rename, renamedSetOpenCall, RangeInclusiveSet.Desk.perform, closed_rename,
      setOverlapping_rename hf]
    cases (d.sets i).overlapping q.closed with
    | ok o =>
      refine ⟨?_, hd.sets, hd.flows⟩
      simp only [Except.map]
      rw [← walk h (.overlapping o)]
      rfl
    | error p => exact ⟨rfl, hd⟩
  | take h i =>
    refine ⟨?_, ?_, hd.flows⟩
    · simp only [SetDesk.rename, renamedSetOpenCall, RangeInclusiveSet.Desk.perform]
      rw [← walk h (.iter (d.sets i).iterator),
        ← store_rename (RangeInclusiveSet.rename f) d.sets i]
      rfl
    · obtain ⟨plain, hp⟩ := hd.sets
      exact ⟨_, (C112_call hL hp (.clear i)).2⟩
  | next h =>
    refine ⟨?_, hd.sets, hd.flows⟩
    simp only [SetDesk.rename, renamedSetOpenCall, RangeInclusiveSet.Desk.perform,
      setWalkNext_rename hf, Prod.map, walk]
    rfl
  | nextBack h =>
    refine ⟨?_, hd.sets, hd.flows⟩
    simp only [SetDesk.rename, renamedSetOpenCall, RangeInclusiveSet.Desk.perform,
      setWalkNextBack_rename hf, Prod.map, walk]
    rfl
  | holes h i q =>
    simp only [SetDesk.rename, renamedSetOpenCall, RangeInclusiveSet.Desk.perform, closed_rename,
      setGaps_rename hf]
    cases ho : (d.sets i).gaps q.closed with
    | ok o =>
      refine ⟨?_, hd.sets, flowed h (.gaps o) (setGaps_guard (hm i) ho)⟩
      simp only [Except.map]
      rw [← flow h (.gaps o)]
      rfl
    | error p => exact ⟨rfl, hd⟩
  | both h i j =>
    refine ⟨?_, hd.sets, flowed h _ trivial⟩
    simp only [SetDesk.rename, renamedSetOpenCall, RangeInclusiveSet.Desk.perform, union_rename]
    rw [← flow h (.union ((d.sets i).union (d.sets j)))]
    rfl
  | common h i j =>
    refine ⟨?_, hd.sets, flowed h _ trivial⟩
    simp only [SetDesk.rename, renamedSetOpenCall, RangeInclusiveSet.Desk.perform,
      intersection_rename]
    rw [← flow h (.intersection ((d.sets i).intersection (d.sets j)))]
    rfl
  | nextFlow h =>
    obtain ⟨h1, h2⟩ := setFlowNext_rename hf hS (d.flows h) (hd.flows h)
    simp only [SetDesk.rename, renamedSetOpenCall, RangeInclusiveSet.Desk.perform, h1]
    cases ho : (d.flows h).next S with
    | ok x =>
      obtain ⟨r, o'⟩ := x
      refine ⟨?_, hd.sets, flowed h o' (h2 r o' ho)⟩
      simp only [Except.map, Prod.map]
      rw [← flow h o']
      rfl
    | error p => exact ⟨rfl, hd⟩

/-- **C117** A program run with other keys, which compare as the old ones do, hears the same answers
with the other keys in them, if each step on the new keys is a step on the old ones. -/
theorem C117_set_programs (hL : LawfulSteps S) (hf : Embeds f) (hS : StepsMap f S S')
    {p : SetOpenProgram (RangeInclusive K) K} {p' : SetOpenProgram (RangeInclusive K') K'}
    (hp : ∀ answers, p' (answers.map (SetAnswer.renamed (mapIRange f))) =
      (p answers).map (renamedSetOpenCall f)) (n : Nat) :
    RangeInclusiveSet.openDialogue S' p' n [] {} =
      (RangeInclusiveSet.openDialogue S p n [] {}).map (SetAnswer.renamed (mapIRange f)) := by
  suffices H : ∀ (n : Nat) (answers : List (SetAnswer (RangeInclusive K)))
      (d : RangeInclusiveSet.Desk K), SetHeld S d →
      RangeInclusiveSet.openDialogue S' p' n (answers.map (SetAnswer.renamed (mapIRange f)))
        (SetDesk.rename f d) =
      (RangeInclusiveSet.openDialogue S p n answers d).map (SetAnswer.renamed (mapIRange f)) from
    H n [] {} ⟨⟨fun _ _ => false, fun i => ⟨⟨[], by simp, rfl⟩, fun k => rfl⟩⟩, fun _ => trivial⟩
  intro n
  induction n with
  | zero => exact fun _ _ _ => rfl
  | succ n ih =>
    intro answers d hd
    simp only [RangeInclusiveSet.openDialogue, hp]
    cases p answers with
    | none => rfl
    | some c =>
      have h := setDeskPerform_rename hL hf hS hd c
      simp only [Option.map_some, h.1]
      exact ih ((d.perform S c).1 :: answers) (d.perform S c).2 h.2

/-- A program run on other keys: `f` translates what it says, `f'` what it hears. -/
def setElsewhere (f : K → K') (f' : K' → K) (p : SetOpenProgram (RangeInclusive K) K) :
    SetOpenProgram (RangeInclusive K') K' := fun answers =>
  (p (answers.map (SetAnswer.renamed (mapIRange f')))).map (renamedSetOpenCall f)

/-- **C117** Every program can be run on any other keys that compare and step in the same way, and
hears there, translated back, exactly what it hears on its own. -/
theorem C117_every_set_program (hL : LawfulSteps S) (hf : Embeds f) (hS : StepsMap f S S')
    {f' : K' → K} (hf' : ∀ k, f' (f k) = k) (p : SetOpenProgram (RangeInclusive K) K) (n : Nat) :
    (RangeInclusiveSet.openDialogue S' (setElsewhere f f' p) n [] {}).map
        (SetAnswer.renamed (mapIRange f')) = RangeInclusiveSet.openDialogue S p n [] {} := by
  have hb : ∀ a : SetAnswer (RangeInclusive K),
      (a.renamed (mapIRange f)).renamed (mapIRange f') = a :=
    setRenamed_back fun r => by simp [mapIRange, hf']
  rw [C117_set_programs hL hf hS (p := p) fun answers => by
    simp [setElsewhere, Function.comp_def, hb]]
  simp [Function.comp_def, hb]

end

/-- **C117** What a program hears from sets with keys of one unsigned integer type it hears from
sets with keys of a wider one. -/
theorem C117_widen_set {w w' : Nat} (h : w ≤ w') (debug debug' : Bool)
    (p : SetOpenProgram (RangeInclusive (UIntW w)) (UIntW w)) (n : Nat) :
    (RangeInclusiveSet.openDialogue (UIntW.steps w' debug')
        (setElsewhere (widen w') (widen w) p) n [] {}).map
      (SetAnswer.renamed (mapIRange (widen w))) =
    RangeInclusiveSet.openDialogue (UIntW.steps w debug) p n [] {} :=
  C117_every_set_program (UIntW.lawful w debug) (C61_widen h debug debug').1
    (C61_widen h debug debug').2 (fun k => UIntW.ext_toNat (by
      simp only [widen, BitVec.toNat_setWidth]
      have hk := k.bits.isLt
      have := Nat.pow_le_pow_right (show 0 < 2 by omega) h
      rw [Nat.mod_mod_of_dvd _ (Nat.pow_dvd_pow 2 h), Nat.mod_eq_of_lt hk])) p n

/-- Remove from the first set what both sets are heard to have in common, and hear its gaps. -/
def removeHeard : SetOpenProgram (RangeInclusive (UIntW 8)) (UIntW 8)
  | [] => some (.plain (.extend 0 [⟨⟨2⟩, ⟨8⟩⟩, ⟨⟨10⟩, ⟨255⟩⟩]))
  | [_] => some (.plain (.extend 1 [⟨⟨4⟩, ⟨10⟩⟩, ⟨⟨12⟩, ⟨255⟩⟩]))
  | [_, _] => some (.common 0 0 1)
  | .range (some r) :: _ => some (.plain (.remove 0 ⟨r.start, r.stop⟩))
  | .done :: l =>
    if l.length < 8 then some (.nextFlow 0) else some (.plain (.gaps 0 ⟨⟨0⟩, ⟨255⟩⟩ 4))
  | _ => none

example : RangeInclusiveSet.openDialogue Demo.u8 removeHeard 20 [] {} =
    [.ranges [some (Demo.by8 0 1), some (Demo.by8 4 10), some (Demo.by8 12 255), none], .done,
      .range (some (Demo.by8 12 255)), .done, .range (some (Demo.by8 10 10)), .done,
      .range (some (Demo.by8 4 8)), .done, .done, .done] := by decide +kernel
example (n : Nat) := C117_widen_set (w := 8) (w' := 16) (by decide) true false removeHeard n
example (n : Nat) := C117_every_set_program Demo.u8_lawful
  (C61_widen (w := 8) (w' := 16) (by decide) true true).1
  (C61_widen (w := 8) (w' := 16) (by decide) true true).2 (f' := widen 8)
  (fun k => UIntW.ext_toNat (by
    have := k.bits.isLt
    simp only [widen, BitVec.toNat_setWidth]
    omega)) removeHeard n

end Verif.Props.Inclusive

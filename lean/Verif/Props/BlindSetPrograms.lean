import Verif.Model.OpenSets
import Verif.Props.BlindPrograms

/-!
# C117: a program learns nothing about the keys of sets but how they compare
-/
set_option linter.unusedSectionVars false

namespace Verif.Spec
section
variable {K K' : Type}

/-- The same call about other keys. -/
def renamedSetCall (f : K → K') : SetCall K → SetCall K'
  | .insert i r => .insert i (mapRange f r)
  | .remove i r => .remove i (mapRange f r)
  | .clear i => .clear i
  | .extend i items => .extend i (items.map (mapRange f))
  | .collect i items => .collect i (items.map (mapRange f))
  | .copy i j => .copy i j
  | .append i j => .append i j
  | .or i j l => .or i j l
  | .and i j l => .and i j l
  | .contains i k => .contains i (f k)
  | .get i k => .get i (f k)
  | .len i => .len i
  | .isEmpty i => .isEmpty i
  | .first i => .first i
  | .last i => .last i
  | .iter i cs => .iter i cs
  | .overlapping i q cs => .overlapping i (mapRange f q) cs
  | .overlaps i q => .overlaps i (mapRange f q)
  | .gaps i q n => .gaps i (mapRange f q) n
  | .union i j n => .union i j n
  | .intersection i j n => .intersection i j n
  | .eq i j => .eq i j

/-- The same, with iterators. -/
def renamedSetOpenCall (f : K → K') : SetOpenCall K → SetOpenCall K'
  | .plain c => .plain (renamedSetCall f c)
  | .walk h i => .walk h i
  | .walkOver h i q => .walkOver h i (mapRange f q)
  | .take h i => .take h i
  | .next h => .next h
  | .nextBack h => .nextBack h
  | .holes h i q => .holes h i (mapRange f q)
  | .both h i j => .both h i j
  | .common h i j => .common h i j
  | .nextFlow h => .nextFlow h

/-- The same answer about other ranges. -/
def _root_.Verif.SetAnswer.renamed {R R' : Type} (f : R → R') : SetAnswer R → SetAnswer R'
  | .done => .done
  | .panicked => .panicked
  | .range r => .range (r.map f)
  | .flag b => .flag b
  | .number n => .number n
  | .ranges l => .ranges (l.map (Option.map f))

end
end Verif.Spec

namespace Verif.Props
open Spec

theorem renew_rename {R R' M M' : Type} (ρ : R → R') (h : M → M') (sets : Nat → M) (i : Nat)
    (e : Except Panic M) :
    renew (fun j => h (sets j)) i (e.map h) =
      ((renew sets i e : SetAnswer R × (Nat → M)).1.renamed ρ,
        fun j => h ((renew sets i e : SetAnswer R × (Nat → M)).2 j)) := by
  cases e with
  | ok m => exact Prod.ext rfl (store_rename h sets i m)
  | error p => rfl

section
open RangeSet
variable {K K' : Type} [LE K] [LT K] [DecidableLE K] [DecidableLT K]
  [Std.IsLinearPreorder K] [Std.LawfulOrderLT K]
  [LE K'] [LT K'] [DecidableLE K'] [DecidableLT K']
  [Std.LawfulOrderLT K'] {f : K → K'}

/-- `iter` with other keys. -/
def SetIter.rename (f : K → K') (i : RangeSet.Iter K) : RangeSet.Iter K' :=
  ⟨Iter.rename f id i.inner⟩

/-- `overlapping` with other keys. -/
def SetOverlapping.rename (f : K → K') (o : RangeSet.Overlapping K) : RangeSet.Overlapping K' :=
  ⟨o.inner.rename f id⟩

/-- `gaps` with other keys. -/
def SetGaps.rename (f : K → K') (o : RangeSet.Gaps K) : RangeSet.Gaps K' :=
  ⟨o.inner.rename f id⟩

theorem setIterNext_rename (i : RangeSet.Iter K) : (SetIter.rename f i).next =
    Prod.map (Option.map (mapRange f)) (SetIter.rename f) i.next := by
  have := iterNext_rename (f := f) (g := id) i.inner
  simp only [SetIter.rename, RangeSet.Iter.next, this]
  rcases i.inner.next with ⟨_ | _, _⟩ <;> rfl

theorem setIterNextBack_rename (i : RangeSet.Iter K) : (SetIter.rename f i).nextBack =
    Prod.map (Option.map (mapRange f)) (SetIter.rename f) i.nextBack := by
  have := iterNextBack_rename (f := f) (g := id) i.inner
  simp only [SetIter.rename, RangeSet.Iter.nextBack, this]
  rcases i.inner.nextBack with ⟨_ | _, _⟩ <;> rfl

theorem setOverNext_rename (hf : Embeds f) (i : RangeSet.Overlapping K) :
    (SetOverlapping.rename f i).next =
      Prod.map (Option.map (mapRange f)) (SetOverlapping.rename f) i.next := by
  have := RangeMap.Overlapping.next_rename (f := f) (g := id) hf i.inner
  simp only [SetOverlapping.rename, RangeSet.Overlapping.next, this]
  rcases i.inner.next with ⟨_ | _, _⟩ <;> rfl

theorem setOverNextBack_rename (hf : Embeds f) (i : RangeSet.Overlapping K) :
    (SetOverlapping.rename f i).nextBack =
      Prod.map (Option.map (mapRange f)) (SetOverlapping.rename f) i.nextBack := by
  have := RangeMap.Overlapping.nextBack_rename (f := f) (g := id) hf i.inner
  simp only [SetOverlapping.rename, RangeSet.Overlapping.nextBack, this]
  rcases i.inner.nextBack with ⟨_ | _, _⟩ <;> rfl

theorem setGapsNext_rename (hf : Embeds f) (i : RangeSet.Gaps K) : (SetGaps.rename f i).next =
    Prod.map (Option.map (mapRange f)) (SetGaps.rename f) i.next := by
  have := RangeMap.Gaps.next_rename (f := f) (g := id) hf i.inner
  simp only [SetGaps.rename, RangeSet.Gaps.next, this]
  rfl

theorem setOverlapping_rename (hf : Embeds f) (s : RangeSet K) (q : Range K) :
    (s.rename f).overlapping (mapRange f q) =
      (s.overlapping q).map (SetOverlapping.rename f) := by
  simp only [RangeSet.overlapping, RangeSet.rename, RangeMap.overlapping_rename hf]
  cases s.rm.overlapping q <;> rfl

theorem setGaps_rename (hf : Embeds f) (s : RangeSet K) (q : Range K) :
    (s.rename f).gaps (mapRange f q) = (s.gaps q).map (SetGaps.rename f) := by
  simp only [RangeSet.gaps, RangeSet.rename, RangeMap.gaps_rename hf]
  cases s.rm.gaps q <;> rfl

theorem setPerform_rename (hf : Embeds f) (sets : Nat → RangeSet K) (c : SetCall K) :
    RangeSet.perform (fun i => (sets i).rename f) (renamedSetCall f c) =
      ((RangeSet.perform sets c).1.renamed (mapRange f),
        fun i => ((RangeSet.perform sets c).2 i).rename f) := by
  cases c with
  | insert i r =>
    simp only [renamedSetCall, RangeSet.perform, insert_rename hf]
    exact renew_rename ..
  | remove i r =>
    simp only [renamedSetCall, RangeSet.perform, remove_rename hf]
    exact renew_rename ..
  | clear i => exact Prod.ext rfl (store_rename (rename f) sets i (sets i).clear)
  | extend i items =>
    simp only [renamedSetCall, RangeSet.perform, extend_rename hf]
    refine Prod.ext ?_ (store_rename (rename f) sets i _)
    cases ((sets i).extend items).2 <;> rfl
  | collect i items =>
    simp only [renamedSetCall, RangeSet.perform, RangeSet.fromIter_rename hf]
    exact renew_rename ..
  | copy i j => exact Prod.ext rfl (store_rename (rename f) sets i (sets j))
  | append i j =>
    simp only [renamedSetCall, RangeSet.perform, iter_rename, extend_rename hf]
    refine Prod.ext ?_ (store_rename (rename f) sets i _)
    cases ((sets i).extend (sets j).iter).2 <;> rfl
  | or i j l =>
    simp only [renamedSetCall, RangeSet.perform, bitOr_rename hf]
    exact renew_rename ..
  | and i j l =>
    simp only [renamedSetCall, RangeSet.perform, bitAnd_rename hf]
    exact renew_rename ..
  | contains i k =>
    simp only [renamedSetCall, RangeSet.perform, RangeSet.contains, RangeSet.rename,
      RangeMap.containsKey, RangeMap.get_rename hf]
    refine Prod.ext ?_ rfl
    cases (sets i).rm.get k with
    | ok o => cases o <;> rfl
    | error p => rfl
  | get i k =>
    simp only [renamedSetCall, RangeSet.perform, RangeSet.get, RangeSet.rename,
      RangeMap.getKeyValue_rename hf]
    refine Prod.ext ?_ rfl
    cases (sets i).rm.getKeyValue k with
    | ok o => cases o <;> rfl
    | error p => rfl
  | len i =>
    refine Prod.ext ?_ rfl
    simp [renamedSetCall, RangeSet.perform, RangeSet.len, RangeMap.len, rename, RangeMap.rename,
      SetAnswer.renamed]
  | isEmpty i =>
    refine Prod.ext ?_ rfl
    simp only [renamedSetCall, RangeSet.perform, RangeSet.isEmpty, RangeMap.isEmpty, rename,
      RangeMap.rename, SetAnswer.renamed]
    cases (sets i).rm.btm <;> rfl
  | first i =>
    refine Prod.ext ?_ rfl
    simp only [renamedSetCall, RangeSet.perform, RangeSet.first, RangeMap.firstRangeValue, rename,
      RangeMap.rename, SetAnswer.renamed]
    cases (sets i).rm.btm <;> rfl
  | last i =>
    refine Prod.ext ?_ rfl
    simp only [renamedSetCall, RangeSet.perform, RangeSet.last, RangeMap.lastRangeValue, rename,
      RangeMap.rename, SetAnswer.renamed, List.getLast?_map]
    cases (sets i).rm.btm.getLast? <;> rfl
  | iter i cs =>
    exact Prod.ext (congrArg SetAnswer.ranges (script_rename (ρ := SetIter.rename f)
      setIterNext_rename setIterNextBack_rename cs (sets i).iterator)) rfl
  | overlapping i q cs =>
    simp only [renamedSetCall, RangeSet.perform, setOverlapping_rename hf]
    cases (sets i).overlapping q with
    | ok o =>
      exact Prod.ext (congrArg SetAnswer.ranges (script_rename (setOverNext_rename hf)
        (setOverNextBack_rename hf) cs o)) rfl
    | error p => rfl
  | overlaps i q =>
    simp only [renamedSetCall, RangeSet.perform, RangeSet.overlaps, setOverlapping_rename hf]
    refine Prod.ext ?_ rfl
    cases (sets i).overlapping q with
    | ok o =>
      have := congrArg Prod.fst (setOverNext_rename hf o)
      simp only [Except.map, bind, Except.bind, pure, Except.pure, this, SetAnswer.of,
        SetAnswer.renamed, Prod.map_fst, Option.isSome_map]
    | error p => rfl
  | gaps i q n =>
    simp only [renamedSetCall, RangeSet.perform, setGaps_rename hf]
    cases (sets i).gaps q with
    | ok o =>
      exact Prod.ext (congrArg SetAnswer.ranges (calls_rename (setGapsNext_rename hf) n o)) rfl
    | error p => rfl
  | union i j n =>
    simp only [renamedSetCall, RangeSet.perform, union_rename]
    exact Prod.ext (congrArg SetAnswer.ranges (calls_rename (unionNext_rename hf) n _)) rfl
  | intersection i j n =>
    simp only [renamedSetCall, RangeSet.perform, intersection_rename]
    exact Prod.ext (congrArg SetAnswer.ranges (calls_rename (intersectionNext_rename hf) n _)) rfl
  | eq i j =>
    exact Prod.ext (congrArg SetAnswer.flag (RangeMap.eq_rename hf (fun _ _ => rfl) _ _)) rfl

/-- A kept iterator with other keys. -/
def SetWalk.rename (f : K → K') : RangeSet.Walk K → RangeSet.Walk K'
  | .iter i => .iter (SetIter.rename f i)
  | .overlapping o => .overlapping (SetOverlapping.rename f o)

/-- A kept iterator with one end, with other keys. -/
def SetFlow.rename (f : K → K') : RangeSet.Flow K → RangeSet.Flow K'
  | .gaps g => .gaps (SetGaps.rename f g)
  | .union u => .union (u.map (mapRange f))
  | .intersection u => .intersection (u.map (mapRange f))

theorem setWalkNext_rename (hf : Embeds f) (w : RangeSet.Walk K) : (SetWalk.rename f w).next =
    Prod.map (Option.map (mapRange f)) (SetWalk.rename f) w.next := by
  cases w with
  | iter i => simp only [SetWalk.rename, RangeSet.Walk.next, setIterNext_rename]; rfl
  | overlapping o => simp only [SetWalk.rename, RangeSet.Walk.next, setOverNext_rename hf]; rfl

theorem setWalkNextBack_rename (hf : Embeds f) (w : RangeSet.Walk K) :
    (SetWalk.rename f w).nextBack =
      Prod.map (Option.map (mapRange f)) (SetWalk.rename f) w.nextBack := by
  cases w with
  | iter i => simp only [SetWalk.rename, RangeSet.Walk.nextBack, setIterNextBack_rename]; rfl
  | overlapping o =>
    simp only [SetWalk.rename, RangeSet.Walk.nextBack, setOverNextBack_rename hf]; rfl

theorem setFlowNext_rename (hf : Embeds f) (w : RangeSet.Flow K) : (SetFlow.rename f w).next =
    Prod.map (Option.map (mapRange f)) (SetFlow.rename f) w.next := by
  cases w with
  | gaps g => simp only [SetFlow.rename, RangeSet.Flow.next, setGapsNext_rename hf]; rfl
  | union u => simp only [SetFlow.rename, RangeSet.Flow.next, unionNext_rename hf]; rfl
  | intersection u =>
    simp only [SetFlow.rename, RangeSet.Flow.next, intersectionNext_rename hf]; rfl

/-- All a program holds, with other keys. -/
def SetDesk.rename (f : K → K') (d : RangeSet.Desk K) : RangeSet.Desk K' where
  sets i := (d.sets i).rename f
  walks h := SetWalk.rename f (d.walks h)
  flows h := SetFlow.rename f (d.flows h)

theorem setDeskPerform_rename (hf : Embeds f) (d : RangeSet.Desk K) (c : SetOpenCall K) :
    (SetDesk.rename f d).perform (renamedSetOpenCall f c) =
      ((d.perform c).1.renamed (mapRange f), SetDesk.rename f (d.perform c).2) := by
  have walk : ∀ h w, store (fun j => SetWalk.rename f (d.walks j)) h (SetWalk.rename f w) =
      fun j => SetWalk.rename f (store d.walks h w j) := store_rename _ d.walks
  have flow : ∀ h w, store (fun j => SetFlow.rename f (d.flows j)) h (SetFlow.rename f w) =
      fun j => SetFlow.rename f (store d.flows h w j) := store_rename _ d.flows
  cases c with
  | plain c =>
    simp only [SetDesk.rename, renamedSetOpenCall, RangeSet.Desk.perform, setPerform_rename hf]
  | walk h i =>
    simp only [SetDesk.rename, renamedSetOpenCall, RangeSet.Desk.perform]
    rw [← walk h (.iter (d.sets i).iterator)]
    rfl
  | walkOver h i q =>
    simp only [SetDesk.rename, renamedSetOpenCall, RangeSet.Desk.perform, setOverlapping_rename hf]
    cases (d.sets i).overlapping q with
    | ok o =>
      simp only [Except.map]
      rw [← walk h (.overlapping o)]
      rfl
    | error p => rfl
  | take h i =>
    simp only [SetDesk.rename, renamedSetOpenCall, RangeSet.Desk.perform]
    rw [← walk h (.iter (d.sets i).iterator), ← store_rename (RangeSet.rename f) d.sets i]
    rfl
  | next h =>
    simp only [SetDesk.rename, renamedSetOpenCall, RangeSet.Desk.perform, setWalkNext_rename hf,
      Prod.map, walk]
    rfl
  | nextBack h =>
    simp only [SetDesk.rename, renamedSetOpenCall, RangeSet.Desk.perform,
      setWalkNextBack_rename hf, Prod.map, walk]
    rfl
  | holes h i q =>
    simp only [SetDesk.rename, renamedSetOpenCall, RangeSet.Desk.perform, setGaps_rename hf]
    cases (d.sets i).gaps q with
    | ok o =>
      simp only [Except.map]
      rw [← flow h (.gaps o)]
      rfl
    | error p => rfl
  | both h i j =>
    simp only [SetDesk.rename, renamedSetOpenCall, RangeSet.Desk.perform, union_rename]
    rw [← flow h (.union ((d.sets i).union (d.sets j)))]
    rfl
  | common h i j =>
    simp only [SetDesk.rename, renamedSetOpenCall, RangeSet.Desk.perform, intersection_rename]
    rw [← flow h (.intersection ((d.sets i).intersection (d.sets j)))]
    rfl
  | nextFlow h =>
    simp only [SetDesk.rename, renamedSetOpenCall, RangeSet.Desk.perform, setFlowNext_rename hf,
      Prod.map, flow]
    rfl

/-- **C117** A program run with other keys, which compare as the old ones do, hears the same answers
with the other keys in them. -/
theorem C117_set_programs (hf : Embeds f) {p : SetOpenProgram (Range K) K}
    {p' : SetOpenProgram (Range K') K'}
    (hp : ∀ answers, p' (answers.map (SetAnswer.renamed (mapRange f))) =
      (p answers).map (renamedSetOpenCall f)) (n : Nat) :
    RangeSet.openDialogue p' n [] {} =
      (RangeSet.openDialogue p n [] {}).map (SetAnswer.renamed (mapRange f)) := by
  suffices H : ∀ (n : Nat) (answers : List (SetAnswer (Range K))) (d : RangeSet.Desk K),
      RangeSet.openDialogue p' n (answers.map (SetAnswer.renamed (mapRange f)))
        (SetDesk.rename f d) =
      (RangeSet.openDialogue p n answers d).map (SetAnswer.renamed (mapRange f)) from H n [] {}
  intro n
  induction n with
  | zero => exact fun _ _ => rfl
  | succ n ih =>
    intro answers d
    simp only [RangeSet.openDialogue, hp]
    cases p answers with
    | none => rfl
    | some c =>
      simp only [Option.map_some, setDeskPerform_rename hf]
      exact ih ((d.perform c).1 :: answers) (d.perform c).2

/-- A program run on other keys: `f` translates what it says, `f'` what it hears. -/
def setElsewhere (f : K → K') (f' : K' → K) (p : SetOpenProgram (Range K) K) :
    SetOpenProgram (Range K') K' := fun answers =>
  (p (answers.map (SetAnswer.renamed (mapRange f')))).map (renamedSetOpenCall f)

theorem setRenamed_back {R R' : Type} {h : R → R'} {h' : R' → R} (hh : ∀ r, h' (h r) = r)
    (a : SetAnswer R) : (a.renamed h).renamed h' = a := by
  cases a <;> simp [SetAnswer.renamed, Function.comp_def, hh]

/-- **C117** Every program can be run on any other keys that compare in the same way, and hears
there, translated back, exactly what it hears on its own. -/
theorem C117_every_set_program (hf : Embeds f) {f' : K' → K} (hf' : ∀ k, f' (f k) = k)
    (p : SetOpenProgram (Range K) K) (n : Nat) :
    (RangeSet.openDialogue (setElsewhere f f' p) n [] {}).map
        (SetAnswer.renamed (mapRange f')) = RangeSet.openDialogue p n [] {} := by
  have hb : ∀ a : SetAnswer (Range K), (a.renamed (mapRange f)).renamed (mapRange f') = a :=
    setRenamed_back fun r => by simp [mapRange, hf']
  rw [C117_set_programs hf (p := p) fun answers => by
    simp [setElsewhere, Function.comp_def, hb]]
  simp [Function.comp_def, hb]

/-- Remove from the first set what both sets are heard to have in common. -/
def removeHeard : SetOpenProgram (Range Nat) Nat
  | [] => some (.plain (.extend 0 [⟨2, 8⟩, ⟨9, 15⟩]))
  | [_] => some (.plain (.extend 1 [⟨4, 10⟩, ⟨12, 13⟩]))
  | [_, _] => some (.common 0 0 1)
  | .range (some r) :: _ => some (.plain (.remove 0 r))
  | .done :: l => if l.length < 8 then some (.nextFlow 0) else some (.plain (.iter 0 [.back]))
  | _ => none

example : RangeSet.openDialogue removeHeard 20 [] {} =
    [.ranges [some ⟨13, 15⟩], .done, .range (some ⟨12, 13⟩), .done, .range (some ⟨9, 10⟩), .done,
      .range (some ⟨4, 8⟩), .done, .done, .done] := by decide +kernel
example : RangeSet.openDialogue (setElsewhere stretch (· / 10) removeHeard) 20 [] {} =
    [.ranges [some ⟨133, 153⟩], .done, .range (some ⟨123, 133⟩), .done, .range (some ⟨93, 103⟩),
      .done, .range (some ⟨43, 83⟩), .done, .done, .done] := by decide +kernel
example (n : Nat) := C117_every_set_program stretch_embeds (f' := (· / 10))
  (fun k => by simp only [stretch]; omega) removeHeard n

end
end Verif.Props

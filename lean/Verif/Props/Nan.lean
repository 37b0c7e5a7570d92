import Verif.Proof.Nan
import Verif.Props.Tree
import Verif.Props.Demo

/-!
# C90: keys that compare equal to everything

`Ord` asks for a total order.  The popular wrappers of `f64` that implement `cmp` by
`partial_cmp(..).unwrap_or(Equal)` do not have one: `NaN` is equal to every number and the numbers
are not equal to each other.  The B-tree may not even be modelled by the list of its entries for such
keys, so everything here is about trees of arbitrary shape.

First: keys that are not used do not matter, whatever their order.  Then: half-open maps never store
a `NaN`, because `start < end` is asserted; calls with one panic, change nothing, and otherwise the
map is correct.  Inclusive maps only assert `start <= end`.  If `<=` is false for `NaN`, they refuse
it, too.  If it is true, one `insert` of `NaN..=NaN` empties the map.
-/
set_option linter.unusedSectionVars false

namespace Verif.Spec
variable {K V : Type} {le : Bool}

/-- The call with its keys as plain numbers, if they are numbers. -/
def CrashOp.numbers : CrashOp (Range (Fl K le)) V → Option (CrashOp (Range K) V)
  | .insert p ⟨.num a, .num b⟩ v => some (.insert p ⟨a, b⟩ v)
  | .remove p ⟨.num a, .num b⟩ => some (.remove p ⟨a, b⟩)
  | _ => none

/-- The call with its keys as plain numbers, if they are numbers. -/
def CrashOp.inumbers : CrashOp (RangeInclusive (Fl K le)) V → Option (CrashOp (RangeInclusive K) V)
  | .insert p ⟨.num a, .num b, x⟩ v => some (.insert p ⟨a, b, x⟩ v)
  | .remove p ⟨.num a, .num b, x⟩ => some (.remove p ⟨a, b, x⟩)
  | _ => none

end Verif.Spec

namespace Verif.Props
open Spec
variable {K : Type} [LE K] [LT K] [DecidableLE K] [DecidableLT K]
  [Std.IsLinearPreorder K] [Std.LawfulOrderLT K] {V : Type} [BEq V] [PartialEquivBEq V]

/-! ## Keys that are not used -/

section
open RangeMap
variable {K' : Type} [LE K'] [LT K'] [DecidableLE K'] [DecidableLT K'] [Std.LawfulOrderLT K']
  {f : K → K'}

/-- C90: let the keys that are used (`f k`) be ordered as those of a lawful key type, and the others
in any way.  Then `insert` on any tree, however it is rebalanced and whichever stretch of user code
panics, ends as it does for the lawful type, and leaves the same entries. -/
theorem C90_unused_keys_insert (hf : Embeds f) {m : RangeMap K V} (hm : Reachable m)
    {t : Tree (Range K' × V)} (ht : t.toList = m.iter.map (Prod.map (mapRange f) id))
    (shapes : Tree.Shapes (Range K' × V)) (panics : Nat → Bool) (r : Range K) (v : V) :
    (treeInsert shapes panics t (mapRange f r) v).1 = (insertCrash panics m r v).1 ∧
    (treeInsert shapes panics t (mapRange f r) v).2.toList
      = (insertCrash panics m r v).2.iter.map (Prod.map (mapRange f) id) := by
  obtain ⟨h1, h2, h3⟩ := (insertProgram_rel hf r v).runTree hf (key := Range.start)
    (key' := Range.start) (fun _ => rfl) shapes panics 0 0 t m.btm ht (laid_start hm)
  refine ⟨?_, h1⟩
  show (Cr.runTree Range.start shapes panics (insertProgram (mapRange f r) v) ⟨0, 0, t⟩).1
    = (Cr.run Range.start panics (insertProgram r v) ⟨0, m.btm⟩).1
  cases ho : (Cr.run Range.start panics (insertProgram r v) ⟨0, m.btm⟩).1 with
  | error x => exact h2 x ho
  | ok a => exact (h3 a ho).choose_spec.1

/-- C90: the same for `remove`. -/
theorem C90_unused_keys_remove (hf : Embeds f) {m : RangeMap K V} (hm : Reachable m)
    {t : Tree (Range K' × V)} (ht : t.toList = m.iter.map (Prod.map (mapRange f) id))
    (shapes : Tree.Shapes (Range K' × V)) (panics : Nat → Bool) (r : Range K) :
    (treeRemove shapes panics t (mapRange f r)).1 = (removeCrash panics m r).1 ∧
    (treeRemove shapes panics t (mapRange f r)).2.toList
      = (removeCrash panics m r).2.iter.map (Prod.map (mapRange f) id) := by
  obtain ⟨h1, h2, h3⟩ := (removeProgram_rel hf r).runTree hf (key := Range.start)
    (key' := Range.start) (fun _ => rfl) shapes panics 0 0 t m.btm ht (laid_start hm)
  refine ⟨?_, h1⟩
  show (Cr.runTree Range.start shapes panics (removeProgram (mapRange f r)) ⟨0, 0, t⟩).1
    = (Cr.run Range.start panics (removeProgram r) ⟨0, m.btm⟩).1
  cases ho : (Cr.run Range.start panics (removeProgram r) ⟨0, m.btm⟩).1 with
  | error x => exact h2 x ho
  | ok a => exact (h3 a ho).choose_spec.1

/-- C90: the same for lookups, and for the state in which `overlapping` (and with it `gaps`)
starts. -/
theorem C90_unused_keys_queries (hf : Embeds f) {m : RangeMap K V} (hm : Reachable m)
    {t : Tree (Range K' × V)} (ht : t.toList = m.iter.map (Prod.map (mapRange f) id))
    (k : K) (q : Range K) :
    treeGetKeyValue t (f k)
      = (m.getKeyValue k).map (Option.map (Prod.map (mapRange f) id)) ∧
    treeOverlapping t (mapRange f q) = (m.overlapping q).map (Overlapping.rename f id) := by
  have ht : t.toList = m.btm.map (Tree.ren (mapRange f) V) := ht
  constructor
  · rw [← getKeyValue_rename hf]
    have h := Tree.range_ren hf (key' := Range.start) (fun _ => rfl) ht (laid_start hm)
      .unbounded (.included k)
    have h' := range_start_map (g := (id : V → V)) hf .unbounded (.included k) m.btm
    unfold treeGetKeyValue getKeyValue
    simp only [Bound.map] at h h'
    rw [h]
    exact congrArg (fun x => x >>= _) h'.symm
  · have h := Tree.range_ren hf (key' := Range.stop) (fun _ => rfl) ht (laid_stop hm)
      (.excluded q.start) .unbounded
    unfold treeOverlapping overlapping
    simp only [Bound.map] at h
    rw [mapRange_start, h]
    cases BTreeMap.range Range.stop (.excluded q.start) .unbounded m.btm <;> rfl

end

/-! ## Half-open maps -/

section
open RangeMap
variable {le : Bool}

theorem not_valid {r : Range (Fl K le)} (hr : r.start = .nan ∨ r.stop = .nan) :
    ¬ r.start < r.stop := by
  rcases hr with h | h <;> rw [h]
  · exact Fl.not_nan_lt _
  · exact Fl.not_lt_nan _

/-- C90: `insert` with a `NaN` at either end panics (in the comparison of the assertion, if that is
where user code panics) and leaves any tree as it is. -/
theorem C90_insert_refused (t : Tree (Range (Fl K le) × V))
    (shapes : Tree.Shapes (Range (Fl K le) × V)) (panics : Nat → Bool) {r : Range (Fl K le)}
    (hr : r.start = .nan ∨ r.stop = .nan) (v : V) :
    treeInsert shapes panics t r v
      = (.error (if panics 0 then .user else .lib .assertFailed), t) := by
  simp only [treeInsert, insertProgram, if_neg (not_valid hr)]
  show (Prod.fst (Cr.runTree _ _ _ (Cr.call _) _), (Cr.runTree _ _ _ (Cr.call _) _).2.tree) = _
  simp only [Cr.runTree]
  split <;> rfl

/-- C90: the same for `remove`. -/
theorem C90_remove_refused (t : Tree (Range (Fl K le) × V))
    (shapes : Tree.Shapes (Range (Fl K le) × V)) (panics : Nat → Bool) {r : Range (Fl K le)}
    (hr : r.start = .nan ∨ r.stop = .nan) :
    treeRemove shapes panics t r
      = (.error (if panics 0 then .user else .lib .assertFailed), t) := by
  simp only [treeRemove, removeProgram, if_neg (not_valid hr)]
  show (Prod.fst (Cr.runTree _ _ _ (Cr.call _) _), (Cr.runTree _ _ _ (Cr.call _) _).2.tree) = _
  simp only [Cr.runTree]
  split <;> rfl

/-- C90: over any history of calls with any keys, `NaN` among them, each interrupted anywhere or
nowhere, and with the tree rebalanced in any way, the tree holds what the model holds after the
calls without `NaN`, for the lawful keys. -/
theorem C90_history
    (ops : List (Tree.Shapes (Range (Fl K le) × V) × CrashOp (Range (Fl K le)) V)) :
    (ops.foldl (fun t op => op.2.run (treeInsert op.1) (treeRemove op.1) t)
      (Tree.nil : Tree (Range (Fl K le) × V))).toList
    = ((ops.filterMap (·.2.numbers)).foldl (CrashOp.run insertCrash removeCrash)
        (new : RangeMap K V)).iter.map (Prod.map (mapRange .num) id) := by
  suffices ∀ (m : RangeMap K V) (t : Tree (Range (Fl K le) × V)), Reachable m →
      t.toList = m.iter.map (Prod.map (mapRange .num) id) →
      (ops.foldl (fun t op => op.2.run (treeInsert op.1) (treeRemove op.1) t) t).toList
      = ((ops.filterMap (·.2.numbers)).foldl (CrashOp.run insertCrash removeCrash)
          m).iter.map (Prod.map (mapRange .num) id) from
    this _ _ ⟨[], rfl⟩ rfl
  induction ops with
  | nil => exact fun m t _ h => h
  | cons op ops ih =>
    intro m t hm ht
    obtain ⟨shapes, op⟩ := op
    rw [List.foldl_cons]
    cases op with
    | insert p r v =>
      have key : (r.start = .nan ∨ r.stop = .nan) → (treeInsert shapes p t r v).2 = t :=
        fun hr => by rw [C90_insert_refused t shapes p hr v]
      obtain ⟨a, b⟩ := r
      cases a with
      | nan =>
        show (List.foldl _ (treeInsert shapes p t _ v).2 _).toList = _
        rw [key (Or.inl rfl)]
        exact ih m t hm ht
      | num a =>
        cases b with
        | nan =>
          show (List.foldl _ (treeInsert shapes p t _ v).2 _).toList = _
          rw [key (Or.inr rfl)]
          exact ih m t hm ht
        | num b =>
          exact ih _ _ (C42_insert_reachable hm p ⟨a, b⟩ v)
            (C90_unused_keys_insert Fl.num_embeds hm ht shapes p ⟨a, b⟩ v).2
    | remove p r =>
      have key : (r.start = .nan ∨ r.stop = .nan) → (treeRemove shapes p t r).2 = t :=
        fun hr => by rw [C90_remove_refused t shapes p hr]
      obtain ⟨a, b⟩ := r
      cases a with
      | nan =>
        show (List.foldl _ (treeRemove shapes p t _).2 _).toList = _
        rw [key (Or.inl rfl)]
        exact ih m t hm ht
      | num a =>
        cases b with
        | nan =>
          show (List.foldl _ (treeRemove shapes p t _).2 _).toList = _
          rw [key (Or.inr rfl)]
          exact ih m t hm ht
        | num b =>
          exact ih _ _ (C42_remove_reachable hm p ⟨a, b⟩)
            (C90_unused_keys_remove Fl.num_embeds hm ht shapes p ⟨a, b⟩).2

/-- C90: looking up `NaN` finds nothing, in any tree. -/
theorem C90_lookup_nan (t : Tree (Range (Fl K le) × V)) : treeGetKeyValue t .nan = .ok none := by
  have hc : ∀ r : Range (Fl K le), r.contains .nan = false := fun r => by
    simp [Range.contains, Fl.not_nan_lt]
  unfold treeGetKeyValue
  simp only [hc, Tree.range, Bound.invalid]
  show Except.ok _ = Except.ok _
  congr 1
  generalize (Tree.between Range.start _ _ t).getLast? = o
  cases o <;> rfl

/-! Examples: `NaN` among the calls. -/

/-- A tree that is never rebalanced. -/
def still {E : Type} : Tree.Shapes E := ⟨fun _ t => t, fun _ _ => rfl⟩

abbrev F := Fl Nat true
def fr (a b : Nat) : Range F := ⟨.num a, .num b⟩

def nanOps : List (Tree.Shapes (Range F × Char) × CrashOp (Range F) Char) :=
  [(still, .insert (fun _ => false) (fr 0 10) 'a'),
    (still, .insert (fun _ => false) ⟨.num 3, .nan⟩ 'b'),
   (still, .remove (fun _ => false) ⟨.nan, .nan⟩), (still, .insert (fun _ => false) (fr 4 6) 'b'),
   (still, .remove (fun _ => false) ⟨.nan, .num 5⟩), (still, .insert (fun _ => false) (fr 6 8) 'b')]

def nanTree : Tree (Range F × Char) :=
  nanOps.foldl (fun t op => op.2.run (treeInsert op.1) (treeRemove op.1) t) .nil

example : nanTree.toList = [(fr 0 4, 'a'), (fr 4 8, 'b'), (fr 8 10, 'a')] := by decide +kernel
example : (nanOps.filterMap (·.2.numbers)).length = 3 := by decide
example := C90_history nanOps
example := C90_insert_refused nanTree still (fun _ => false) (r := ⟨.num 3, .nan⟩) (.inr rfl) 'c'
example := C90_remove_refused nanTree still (fun _ => false) (r := ⟨.nan, .num 5⟩) (.inl rfl)
theorem nanTree_numbers : nanTree.toList =
    (RangeMap.run [.insert (⟨0, 10⟩ : Range Nat) 'a', .insert ⟨4, 6⟩ 'b', .insert ⟨6, 8⟩ 'b']).iter.map
      (Prod.map (mapRange .num) id) := by decide +kernel
example := C90_unused_keys_insert Fl.num_embeds ⟨_, rfl⟩ nanTree_numbers still (fun i => i == 3)
  ⟨3, 9⟩ 'c'
example := C90_unused_keys_remove Fl.num_embeds ⟨_, rfl⟩ nanTree_numbers still (fun i => i == 3)
  ⟨3, 9⟩
example := C90_unused_keys_queries Fl.num_embeds ⟨_, rfl⟩ nanTree_numbers 5 ⟨3, 9⟩
example : (treeInsert still (fun _ => false) nanTree ⟨.num 3, .nan⟩ 'c').1
    = .error (.lib .assertFailed) := by rfl
example : treeGetKeyValue nanTree .nan = .ok none := C90_lookup_nan _
example : (treeGetKeyValue nanTree (.num 7)).toOption = some (some (fr 4 8, 'b')) := by
  decide +kernel

-- What a query that starts at `NaN` yields depends on the layout of the tree.
def spread : Tree (Range F × Char) :=
  .node (.node .nil (fr 0 4, 'a') .nil) (fr 4 8, 'b') (.node .nil (fr 8 10, 'a') .nil)
def spread' : Tree (Range F × Char) :=
  .node .nil (fr 0 4, 'a') (.node .nil (fr 4 8, 'b') (.node .nil (fr 8 10, 'a') .nil))

example : spread.toList = nanTree.toList ∧ spread'.toList = nanTree.toList := by decide +kernel
example : ((treeOverlapping spread ⟨.nan, .num 9⟩).map (·.btmRangeIter)).toOption
    = some [(fr 8 10, 'a')] := by decide +kernel
example : ((treeOverlapping spread' ⟨.nan, .num 9⟩).map (·.btmRangeIter)).toOption
    = some [(fr 4 8, 'b'), (fr 8 10, 'a')] := by decide +kernel

end

namespace Inclusive

section
open RangeInclusiveMap
variable {K' : Type} [LE K'] [LT K'] [DecidableLE K'] [DecidableLT K'] [Std.LawfulOrderLT K']
  {f : K → K'} {S : StepFns K} {S' : StepFns K'}

/-- C90: let the keys that are used (`f k`) be ordered as those of a lawful key type, and the others
in any way, and let the step functions agree on them where they are specified. Then `insert` on any
tree, however it is rebalanced and whichever stretch of user code panics, ends as it does for the
lawful type, and leaves the same entries. -/
theorem C90_unused_keys_insert (hf : Embeds f) (hS : LawfulSteps S)
    (hSS : StepsMap f S S') {m : RangeInclusiveMap K V} (hm : ReachableAny S m)
    {t : Tree (RangeInclusive K' × V)} (ht : t.toList = m.iter.map (Prod.map (mapIRange f) id))
    (shapes : Tree.Shapes (RangeInclusive K' × V)) (panics : Nat → Bool) (r : RangeInclusive K)
    (v : V) :
    (treeInsert S' shapes panics t (mapIRange f r) v).1 = (insertCrash S panics m r v).1 ∧
    (treeInsert S' shapes panics t (mapIRange f r) v).2.toList
      = (insertCrash S panics m r v).2.iter.map (Prod.map (mapIRange f) id) := by
  obtain ⟨h1, h2, h3⟩ := (insertProgram_rel hf hSS r v).runTree hf (key := RangeInclusive.start)
    (key' := RangeInclusive.start) (fun _ => rfl) shapes panics 0 0 t m.btm ht (laid_start hS hm)
  refine ⟨?_, h1⟩
  show (Cr.runTree RangeInclusive.start shapes panics (insertProgram S' (mapIRange f r) v)
    ⟨0, 0, t⟩).1
    = (Cr.run RangeInclusive.start panics (insertProgram S r v) ⟨0, m.btm⟩).1
  cases ho : (Cr.run RangeInclusive.start panics (insertProgram S r v) ⟨0, m.btm⟩).1 with
  | error x => exact h2 x ho
  | ok a => exact (h3 a ho).choose_spec.1

/-- C90: the same for `remove`. -/
theorem C90_unused_keys_remove (hf : Embeds f) (hS : LawfulSteps S)
    (hSS : StepsMap f S S') {m : RangeInclusiveMap K V} (hm : ReachableAny S m)
    {t : Tree (RangeInclusive K' × V)} (ht : t.toList = m.iter.map (Prod.map (mapIRange f) id))
    (shapes : Tree.Shapes (RangeInclusive K' × V)) (panics : Nat → Bool) (r : RangeInclusive K) :
    (treeRemove S' shapes panics t (mapIRange f r)).1 = (removeCrash S panics m r).1 ∧
    (treeRemove S' shapes panics t (mapIRange f r)).2.toList
      = (removeCrash S panics m r).2.iter.map (Prod.map (mapIRange f) id) := by
  obtain ⟨h1, h2, h3⟩ := (removeProgram_rel hf hSS r).runTree hf (key := RangeInclusive.start)
    (key' := RangeInclusive.start) (fun _ => rfl) shapes panics 0 0 t m.btm ht (laid_start hS hm)
  refine ⟨?_, h1⟩
  show (Cr.runTree RangeInclusive.start shapes panics (removeProgram S' (mapIRange f r))
    ⟨0, 0, t⟩).1
    = (Cr.run RangeInclusive.start panics (removeProgram S r) ⟨0, m.btm⟩).1
  cases ho : (Cr.run RangeInclusive.start panics (removeProgram S r) ⟨0, m.btm⟩).1 with
  | error x => exact h2 x ho
  | ok a => exact (h3 a ho).choose_spec.1

/-- C90: the same for lookups, and for the state in which `overlapping` (and with it `gaps`)
starts. -/
theorem C90_unused_keys_queries (hf : Embeds f) (hS : LawfulSteps S)
    {m : RangeInclusiveMap K V} (hm : ReachableAny S m)
    {t : Tree (RangeInclusive K' × V)} (ht : t.toList = m.iter.map (Prod.map (mapIRange f) id))
    (k : K) (q : RangeInclusive K) :
    treeGetKeyValue t (f k)
      = (m.getKeyValue k).map (Option.map (Prod.map (mapIRange f) id)) ∧
    treeOverlapping t (mapIRange f q) = (m.overlapping q).map (Overlapping.rename f id) := by
  have ht : t.toList = m.btm.map (Tree.ren (mapIRange f) V) := ht
  constructor
  · rw [← getKeyValue_rename hf]
    have h := Tree.range_ren hf (key' := RangeInclusive.start) (fun _ => rfl) ht (laid_start hS hm)
      .unbounded (.included k)
    have h' := range_start_map (g := (id : V → V)) hf .unbounded (.included k) m.btm
    unfold treeGetKeyValue getKeyValue
    simp only [Bound.map] at h h'
    rw [h]
    exact congrArg (fun x => x >>= _) h'.symm
  · have h := Tree.range_ren hf (key' := RangeInclusive.stop) (fun _ => rfl) ht (laid_stop hS hm)
      (.included q.start) .unbounded
    unfold treeOverlapping overlapping
    simp only [Bound.map] at h
    rw [mapIRange_start, h]
    cases BTreeMap.range RangeInclusive.stop (.included q.start) .unbounded m.btm <;> rfl

end

section
open RangeInclusiveMap
variable {S : StepFns K} {S' : StepFns (Fl K false)}

theorem not_valid {r : RangeInclusive (Fl K false)} (hr : r.start = .nan ∨ r.stop = .nan) :
    ¬ r.start ≤ r.stop := by
  rcases hr with h | h <;> rw [h]
  · exact Fl.not_nan_le _
  · exact Fl.not_le_nan _

/-- C90: where `<=` is false for `NaN`, `insert` with a `NaN` at either end panics (in the
comparison of the assertion, if that is where user code panics) and leaves any tree as it is. -/
theorem C90_insert_refused (t : Tree (RangeInclusive (Fl K false) × V))
    (shapes : Tree.Shapes (RangeInclusive (Fl K false) × V)) (panics : Nat → Bool)
    {r : RangeInclusive (Fl K false)}
    (hr : r.start = .nan ∨ r.stop = .nan) (v : V) :
    treeInsert S' shapes panics t r v
      = (.error (if panics 0 then .user else .lib .assertFailed), t) := by
  simp only [treeInsert, insertProgram, if_neg (not_valid hr)]
  show (Prod.fst (Cr.runTree _ _ _ (Cr.call _) _), (Cr.runTree _ _ _ (Cr.call _) _).2.tree) = _
  simp only [Cr.runTree]
  split <;> rfl

/-- C90: the same for `remove`. -/
theorem C90_remove_refused (t : Tree (RangeInclusive (Fl K false) × V))
    (shapes : Tree.Shapes (RangeInclusive (Fl K false) × V)) (panics : Nat → Bool)
    {r : RangeInclusive (Fl K false)}
    (hr : r.start = .nan ∨ r.stop = .nan) :
    treeRemove S' shapes panics t r
      = (.error (if panics 0 then .user else .lib .assertFailed), t) := by
  simp only [treeRemove, removeProgram, if_neg (not_valid hr)]
  show (Prod.fst (Cr.runTree _ _ _ (Cr.call _) _), (Cr.runTree _ _ _ (Cr.call _) _).2.tree) = _
  simp only [Cr.runTree]
  split <;> rfl

/-- C90: where `<=` is false for `NaN`: over any history of calls with any keys, `NaN` among them,
each interrupted anywhere or nowhere, and with the tree rebalanced in any way, the tree holds what
the model holds after the calls without `NaN`, for the lawful keys. -/
theorem C90_history (hS : LawfulSteps S) (up down : Except Panic (Fl K false))
    (ops : List
    (Tree.Shapes (RangeInclusive (Fl K false) × V) × CrashOp (RangeInclusive (Fl K false)) V)) :
    (ops.foldl
    (fun t op => op.2.run (treeInsert (Fl.steps S up down) op.1)
    (treeRemove (Fl.steps S up down) op.1) t)
      (Tree.nil : Tree (RangeInclusive (Fl K false) × V))).toList
    = ((ops.filterMap (·.2.inumbers)).foldl (CrashOp.run (insertCrash S) (removeCrash S))
        (new : RangeInclusiveMap K V)).iter.map (Prod.map (mapIRange .num) id) := by
  suffices ∀ (m : RangeInclusiveMap K V) (t : Tree (RangeInclusive (Fl K false) × V)),
    ReachableAny S m →
      t.toList = m.iter.map (Prod.map (mapIRange .num) id) →
      (ops.foldl
        (fun t op => op.2.run (treeInsert (Fl.steps S up down) op.1)
          (treeRemove (Fl.steps S up down) op.1) t) t).toList
      = ((ops.filterMap (·.2.inumbers)).foldl (CrashOp.run (insertCrash S) (removeCrash S))
          m).iter.map (Prod.map (mapIRange .num) id) from
    this _ _ (Reachable.new (S := S)).any rfl
  induction ops with
  | nil => exact fun m t _ h => h
  | cons op ops ih =>
    intro m t hm ht
    obtain ⟨shapes, op⟩ := op
    rw [List.foldl_cons]
    cases op with
    | insert p r v =>
      have key : (r.start = .nan ∨ r.stop = .nan) →
        (treeInsert (Fl.steps S up down) shapes p t r v).2 = t :=
        fun hr => by rw [C90_insert_refused t shapes p hr v]
      obtain ⟨a, b, x⟩ := r
      cases a with
      | nan =>
        show (List.foldl _ (treeInsert (Fl.steps S up down) shapes p t _ v).2 _).toList = _
        rw [key (Or.inl rfl)]
        exact ih m t hm ht
      | num a =>
        cases b with
        | nan =>
          show (List.foldl _ (treeInsert (Fl.steps S up down) shapes p t _ v).2 _).toList = _
          rw [key (Or.inr rfl)]
          exact ih m t hm ht
        | num b =>
          exact ih _ _ (C42_reachable_any hS hm p ⟨a, b, x⟩ v).1
            (C90_unused_keys_insert Fl.num_embeds hS (Fl.steps_map S up down) hm ht shapes p
              ⟨a, b, x⟩ v).2
    | remove p r =>
      have key : (r.start = .nan ∨ r.stop = .nan) →
        (treeRemove (Fl.steps S up down) shapes p t r).2 = t :=
        fun hr => by rw [C90_remove_refused t shapes p hr]
      obtain ⟨a, b, x⟩ := r
      cases a with
      | nan =>
        show (List.foldl _ (treeRemove (Fl.steps S up down) shapes p t _).2 _).toList = _
        rw [key (Or.inl rfl)]
        exact ih m t hm ht
      | num a =>
        cases b with
        | nan =>
          show (List.foldl _ (treeRemove (Fl.steps S up down) shapes p t _).2 _).toList = _
          rw [key (Or.inr rfl)]
          exact ih m t hm ht
        | num b =>
          exact ih _ _ (removeCrash_any hS hm p ⟨a, b, x⟩)
            (C90_unused_keys_remove Fl.num_embeds hS (Fl.steps_map S up down) hm ht shapes p
              ⟨a, b, x⟩).2

end

section
open RangeInclusiveMap
variable {S : StepFns (Fl K true)}

/-- C90: where `<=` is true for `NaN`, `insert` of `NaN..=NaN` with a new value returns, and
whatever the tree held is gone: the only entry is `NaN..=NaN`. -/
theorem C90_nan_empties_the_map (t : Tree (RangeInclusive (Fl K true) × V))
    (shapes : Tree.Shapes (RangeInclusive (Fl K true) × V)) {v : V}
    (hv : ∀ e ∈ t.toList, (e.2 == v) = false) :
    (treeInsert S shapes (fun _ => false) t (.mk' .nan .nan) v).1 = .ok () ∧
    (treeInsert S shapes (fun _ => false) t (.mk' .nan .nan) v).2.toList
      = [(.mk' .nan .nan, v)] := by
  obtain ⟨n', i', t', h, ht⟩ := insert_nan (S := S) (shapes := shapes) t hv 0 0
  unfold treeInsert
  rw [h]
  exact ⟨rfl, ht⟩

/-- C90: afterwards every lookup finds that entry. -/
theorem C90_nan_is_found_everywhere {t : Tree (RangeInclusive (Fl K true) × V)} {v : V}
    (ht : t.toList = [(.mk' .nan .nan, v)]) (k : Fl K true) :
    treeGetKeyValue t k = .ok (some (.mk' .nan .nan, v)) := by
  obtain rfl : t = .node .nil (.mk' .nan .nan, v) .nil := by
    cases t with
    | nil => cases ht
    | node l e r =>
      have hs := congrArg List.length ht
      simp only [Tree.toList, List.length_append, List.length_cons, List.length_nil] at hs
      have hl : l = .nil := by
        cases l with
        | nil => rfl
        | node => simp only [Tree.toList, List.length_append, List.length_cons] at hs; omega
      have hr : r = .nil := by
        cases r with
        | nil => rfl
        | node => simp only [Tree.toList, List.length_append, List.length_cons] at hs; omega
      subst hl hr
      simp only [Tree.toList, List.nil_append, List.cons.injEq, and_true] at ht
      rw [ht]
  simp [treeGetKeyValue, Tree.range, Bound.invalid, Tree.between, SearchBound.ofBound,
    SearchBound.lower, SearchBound.upper, Tree.fromLower, Tree.toUpper, Fl.not_lt_nan,
    Fl.not_nan_lt, bind, Except.bind, pure, Except.pure, RangeInclusive.contains, Fl.nan_le,
    Fl.le_nan]

/-! Examples: three entries, and one `NaN..=NaN`. -/

def fi (a b : Nat) : RangeInclusive F := .mk' (.num a) (.num b)

def natSteps : StepFns Nat := ⟨fun a => .ok (a + 1), fun a => .ok (a - 1)⟩

def three : Tree (RangeInclusive F × Char) :=
  .node (.node .nil (fi 0 1, 'a') .nil) (fi 10 11, 'b') (.node .nil (fi 20 21, 'c') .nil)

example : (treeInsert (Fl.steps natSteps (.ok .nan) (.ok .nan)) still (fun _ => false) three
    (.mk' .nan .nan) 'd').2.toList = [(.mk' .nan .nan, 'd')] := by decide +kernel
example : ∀ e ∈ three.toList, (e.2 == 'd') = false := by decide
example := C90_nan_empties_the_map (S := Fl.steps natSteps (.ok .nan) (.ok .nan)) three still
  (v := 'd') (by decide)
example := C90_nan_is_found_everywhere (V := Char) (v := 'd')
  (t := .node .nil (.mk' .nan .nan, 'd') .nil) rfl (.num 7 : F)
-- with a value that is there already, `0..=1` is lost and `10..=11` gets the value of `NaN..=NaN`
example : (treeInsert (Fl.steps natSteps (.ok .nan) (.ok .nan)) still (fun _ => false) three
    (.mk' .nan .nan) 'a').2.toList = [(fi 10 11, 'a'), (fi 20 21, 'c')] := by decide +kernel
-- `NaN..=15` changes the value of keys above 15
example : (treeInsert (Fl.steps natSteps (.ok .nan) (.ok .nan)) still (fun _ => false) three
    (.mk' .nan (.num 15)) 'd').2.toList = [(fi 20 21, 'd')] := by decide +kernel


/-! Examples: `<=` is false for `NaN`. -/

abbrev G := Fl Nat false
def gi (a b : Nat) : RangeInclusive G := .mk' (.num a) (.num b)

theorem natSteps_lawful : LawfulSteps natSteps where
  addOne a b h := ⟨a + 1, rfl, Nat.lt_succ_self a, fun _ h => h⟩
  subOne a b h := ⟨a - 1, rfl, by omega, fun d hd => by omega⟩

def gOps : List (Tree.Shapes (RangeInclusive G × Char) × CrashOp (RangeInclusive G) Char) :=
  [(still, .insert (fun _ => false) (gi 0 10) 'a'),
    (still, .insert (fun _ => false) (.mk' (.num 3) .nan) 'b'),
    (still, .remove (fun _ => false) (gi 4 6)), (still, .remove (fun _ => false) (.mk' .nan .nan))]
def gTree : Tree (RangeInclusive G × Char) :=
  gOps.foldl (fun t op => op.2.run (treeInsert (Fl.steps natSteps (.ok .nan) (.ok .nan)) op.1)
    (treeRemove (Fl.steps natSteps (.ok .nan) (.ok .nan)) op.1) t) .nil
example : gTree.toList = [(gi 0 3, 'a'), (gi 7 10, 'a')] := by decide +kernel
example := C90_history natSteps_lawful (.ok .nan) (.ok .nan) gOps
example := C90_insert_refused (S' := Fl.steps natSteps (.ok .nan) (.ok .nan)) gTree still
  (fun _ => false) (r := .mk' (.num 3) .nan) (.inr rfl) 'c'
example := C90_remove_refused (S' := Fl.steps natSteps (.ok .nan) (.ok .nan)) gTree still
  (fun _ => false) (r := .mk' .nan .nan) (.inl rfl)
theorem gTree_numbers : gTree.toList =
    (RangeInclusiveMap.run natSteps [.insert (.mk' 0 10) 'a', .remove (.mk' 4 6)]).iter.map
      (Prod.map (mapIRange .num) id) := by decide +kernel
example := C90_unused_keys_insert Fl.num_embeds natSteps_lawful
  (Fl.steps_map natSteps (.ok .nan) (.ok .nan)) ⟨_, rfl⟩ gTree_numbers still (fun i => i == 3)
  (.mk' 3 9) 'c'
example := C90_unused_keys_remove Fl.num_embeds natSteps_lawful
  (Fl.steps_map natSteps (.ok .nan) (.ok .nan)) ⟨_, rfl⟩ gTree_numbers still (fun i => i == 3)
  (.mk' 3 9)
example := C90_unused_keys_queries Fl.num_embeds natSteps_lawful ⟨_, rfl⟩ gTree_numbers 5 (.mk' 3 9)

end

end Inclusive
end Verif.Props

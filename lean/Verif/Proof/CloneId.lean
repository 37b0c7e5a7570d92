import Verif.SpecClone

/-!
# When clones are what was cloned
-/
set_option linter.unusedSectionVars false
namespace Verif
open Spec
variable {K V : Type} [LE K] [LT K] [DecidableLE K] [DecidableLT K]

namespace Cl
variable {α β : Type}

/-- The outcome when cloning returns its argument. -/
def eval : Cl K V α → Except Panic α
  | .ret a => .ok a
  | .panic p => .error p
  | .key k next => eval (next k)
  | .val v next => eval (next v)

theorem run_identical (x : Cl K V α) (i : Nat) : x.run identical i = x.eval := by
  induction x generalizing i with
  | ret a => rfl
  | panic p => rfl
  | key k next ih => exact ih _ _
  | val v next ih => exact ih _ _

theorem eval_bind (x : Cl K V α) (f : α → Cl K V β) :
    (x >>= f).eval = x.eval >>= fun a => (f a).eval := by
  show (x.bind f).eval = _
  induction x with
  | ret a => rfl
  | panic p => rfl
  | key k next ih => exact ih _
  | val v next ih => exact ih _

@[simp] theorem eval_pure (a : α) : (pure a : Cl K V α).eval = pure a := rfl
@[simp] theorem eval_panic (p : Panic) : (Cl.panic p : Cl K V α).eval = .error p := rfl
@[simp] theorem eval_key (k : K) : (cloneKey k : Cl K V K).eval = pure k := rfl
@[simp] theorem eval_val (v : V) : (cloneVal v : Cl K V V).eval = pure v := rfl
@[simp] theorem eval_range (r : Range K) : (cloneRange r : Cl K V _).eval = pure r := rfl
@[simp] theorem eval_irange (r : RangeInclusive K) : (cloneIRange r : Cl K V _).eval = pure r := rfl
@[simp] theorem eval_lib (x : Except Panic α) : (lib x : Cl K V α).eval = x := by
  cases x <;> rfl
theorem eval_ite (p : Prop) [Decidable p] (x y : Cl K V α) :
    (if p then x else y).eval = if p then x.eval else y.eval := by
  split <;> rfl

end Cl

namespace RangeMap
open Cl

theorem cloneL_eval (l : List (Range K × V)) : (cloneL l).eval = pure l := by
  induction l with
  | nil => rfl
  | cons e t ih => simp [cloneL, eval_bind, ih]

theorem insertLeftL_eval (l : List (Range K × V)) (r : Range K) (v : V) (c : Range K) :
    (insertLeftL l r v c).eval = pure (if r.start < c.start then
      BTreeMap.insert Range.start ⟨r.start, c.start⟩ v l else l) := by
  unfold insertLeftL
  split <;> simp [eval_bind]

theorem insertRightL_eval (l : List (Range K × V)) (r : Range K) (v : V) (c : Range K) :
    (insertRightL l r v c).eval = pure (if c.stop < r.stop then
      BTreeMap.insert Range.start ⟨c.stop, r.stop⟩ v l else l) := by
  unfold insertRightL
  split <;> simp [eval_bind]

theorem adjustInsertL_eval [BEq V] (l : List (Range K × V)) (r : Range K) (v : V) (n : Range K)
    (w : V) : (adjustTouchingRangesForInsertL l r v n w).eval
      = pure (adjustTouchingRangesForInsert l r v n w) := by
  unfold adjustTouchingRangesForInsertL adjustTouchingRangesForInsert
  split
  · simp [eval_bind]
  · split <;> simp [eval_bind, insertLeftL_eval, insertRightL_eval]

theorem insertLoopL_eval [BEq V] (hi : K) (w : V) (fuel : Nat) (l : List (Range K × V))
    (n : Range K) : (insertLoopL hi w fuel l n).eval = insertLoop hi w fuel l n := by
  induction fuel generalizing l n with
  | zero => rfl
  | succ fuel ih =>
    unfold insertLoopL insertLoop
    rw [eval_bind, eval_lib]
    congr 1
    funext t
    cases t.head? with
    | none => rfl
    | some x =>
      simp only [eval_ite, eval_bind, eval_range, eval_val, eval_pure, pure_bind,
        adjustInsertL_eval, ih]

theorem insertL_eval [BEq V] (m : RangeMap K V) (r : Range K) (v : V) :
    (m.insertL r v).eval = m.insert r v := by
  unfold insertL RangeMap.insert insertFuel insertPrefixL insertPrefix
  by_cases hr : r.start < r.stop
  · simp only [hr, not_true_eq_false, if_false, if_true, eval_bind, eval_lib, bind_assoc,
      eval_key, pure_bind, insertLoopL_eval, eval_pure]
    congr 1
    funext t
    generalize (t.reverse.take 2).filter _ = c
    rcases c with _ | ⟨a, _ | ⟨b, _⟩⟩ <;>
      simp only [eval_bind, eval_range, eval_val, eval_pure, pure_bind, adjustInsertL_eval]
  · simp only [hr, not_false_eq_true, if_false, if_true]
    rfl

theorem adjustRemoveL_eval (l : List (Range K × V)) (r : Range K) (v : V) (n : Range K) :
    (adjustOverlappingRangesForRemoveL l r v n).eval
      = pure (adjustOverlappingRangesForRemove l r v n) := by
  unfold adjustOverlappingRangesForRemoveL adjustOverlappingRangesForRemove
  simp [eval_bind, insertLeftL_eval, insertRightL_eval]

theorem removeLoopL_eval (r : Range K) (fuel : Nat) (l : List (Range K × V)) :
    (removeLoopL r r.stop fuel l).eval = removeLoop r fuel l := by
  induction fuel generalizing l with
  | zero => rfl
  | succ fuel ih =>
    unfold removeLoopL removeLoop
    rw [eval_bind, eval_lib]
    congr 1
    funext t
    cases t.head? with
    | none => rfl
    | some x =>
      simp only [eval_bind, eval_range, eval_val, pure_bind, adjustRemoveL_eval, ih]

theorem removeL_eval (m : RangeMap K V) (r : Range K) : (m.removeL r).eval = m.remove r := by
  unfold removeL RangeMap.remove removeFuel removePrefixL removePrefix
  by_cases hr : r.start < r.stop
  · simp only [hr, not_true_eq_false, if_false, if_true, eval_bind, eval_lib, bind_assoc,
      eval_key, pure_bind, removeLoopL_eval, eval_pure]
    congr 1
    funext t
    generalize t.getLast?.filter _ = c
    rcases c with _ | a <;>
      simp only [eval_bind, eval_range, eval_val, eval_pure, pure_bind, adjustRemoveL_eval]
  · simp only [hr, not_false_eq_true, if_false, if_true]
    rfl

theorem getKeyValueL_eval (m : RangeMap K V) (k : K) :
    (m.getKeyValueL k).eval = m.getKeyValue k := by
  simp [getKeyValueL, getKeyValue, eval_bind]

theorem overlappingL_eval (m : RangeMap K V) (q : Range K) :
    (m.overlappingL q).eval = m.overlapping q := by
  simp [overlappingL, overlapping, eval_bind]

theorem gapsL_eval (m : RangeMap K V) (q : Range K) : (m.gapsL q).eval = m.gaps q := by
  simp [gapsL, gaps, eval_bind, overlappingL_eval]

theorem Gaps.nextTailL_eval (a b : K) (l : List (Range K × V)) :
    (nextTailL a b l).eval = pure (nextTail a b l) := by
  unfold nextTailL nextTail
  split <;> simp [eval_bind]

theorem Gaps.nextL_eval (g : Gaps K V) : g.nextL.eval = pure g.next := by
  obtain ⟨a, b, l⟩ := g
  simp only [nextL, next]
  induction l generalizing a with
  | nil => exact nextTailL_eval a b []
  | cons x t ih =>
    unfold nextLoopL nextLoop
    split
    · exact nextTailL_eval a b t
    · split
      · simp [eval_bind]
      · exact ih _

theorem extendL_identical [BEq V] (m : RangeMap K V) (items : List (Range K × V)) :
    m.extendL (fun _ => identical) items = m.extend items := by
  induction items generalizing m with
  | nil => rfl
  | cons e t ih =>
    obtain ⟨r, v⟩ := e
    unfold extendL extend
    rw [run_identical, insertL_eval]
    cases m.insert r v with
    | error p => rfl
    | ok a => exact ih a

theorem applyL_identical [BEq V] (m : RangeMap K V) (op : Op (Range K) V) :
    m.applyL (fun _ => identical) op = m.apply op := by
  cases op with
  | insert r v =>
    unfold applyL apply
    simp only [run_identical, insertL_eval]
    rfl
  | remove r =>
    unfold applyL apply
    simp only [run_identical, removeL_eval]
    rfl
  | clear => rfl
  | extend items => exact extendL_identical m items

theorem runL_identical [BEq V] (ops : List (Op (Range K) V)) :
    runL (ops.map fun op => (fun _ => identical, op)) = run ops := by
  unfold runL run
  rw [List.foldl_map]
  simp only [applyL_identical]

end RangeMap

namespace RangeInclusiveMap
open Cl
variable {S : StepFns K}

theorem cloneL_eval (l : List (RangeInclusive K × V)) : (cloneL l).eval = pure l := by
  induction l with
  | nil => rfl
  | cons e t ih => simp [cloneL, eval_bind, ih]

theorem touchesL_eval (r o : RangeInclusive K) :
    (touchesL S r o : Cl K V Bool).eval = r.touches S o := by
  unfold touchesL RangeInclusive.touches
  simp only [eval_ite, eval_bind, eval_lib, eval_pure, eval_key]

theorem filterL_eval {α : Type} {p : α → Cl K V Bool} {q : α → Except Panic Bool}
    (h : ∀ a, (p a).eval = q a) (l : List α) : (filterL p l).eval = filterE q l := by
  induction l with
  | nil => rfl
  | cons a t ih => simp [filterL, filterE, eval_bind, h, ih]

theorem insertLeftL_eval (l : List (RangeInclusive K × V)) (r : RangeInclusive K) (v : V)
    (c : RangeInclusive K) : (insertLeftL S l r v c).eval = insertLeft S l r v c := by
  unfold insertLeftL insertLeft
  split <;> simp [eval_bind]

theorem insertRightL_eval (l : List (RangeInclusive K × V)) (r : RangeInclusive K) (v : V)
    (c : RangeInclusive K) : (insertRightL S l r v c).eval = insertRight S l r v c := by
  unfold insertRightL insertRight
  split <;> simp [eval_bind]

theorem adjustInsertL_eval [BEq V] (l : List (RangeInclusive K × V)) (r : RangeInclusive K) (v : V)
    (n : RangeInclusive K) (w : V) : (adjustTouchingRangesForInsertL S l r v n w).eval
      = adjustTouchingRangesForInsert S l r v n w := by
  unfold adjustTouchingRangesForInsertL adjustTouchingRangesForInsert
  split
  · simp [eval_bind]
  · split <;> simp [eval_bind, insertLeftL_eval, insertRightL_eval]

theorem insertLoopL_eval [BEq V] (hi : K) (w : V) (fuel : Nat) (l : List (RangeInclusive K × V))
    (n : RangeInclusive K) : (insertLoopL S hi w fuel l n).eval = insertLoop S hi w fuel l n := by
  induction fuel generalizing l n with
  | zero => rfl
  | succ fuel ih =>
    unfold insertLoopL insertLoop
    rw [eval_bind, eval_lib]
    congr 1
    funext t
    cases t.head? with
    | none => rfl
    | some x =>
      simp only [eval_ite, eval_bind, eval_lib, eval_irange, eval_val, eval_pure, pure_bind,
        adjustInsertL_eval, ih]

theorem insertL_eval [BEq V] (m : RangeInclusiveMap K V) (r : RangeInclusive K) (v : V) :
    (m.insertL S r v).eval = m.insert S r v := by
  unfold insertL RangeInclusiveMap.insert insertFuel insertPrefixL insertPrefix
  by_cases hr : r.start ≤ r.stop
  · simp only [hr, not_true_eq_false, if_false, if_true, eval_bind, eval_lib, bind_assoc,
      eval_key, pure_bind, insertLoopL_eval, eval_pure]
    congr 1
    funext t
    rw [filterL_eval fun a : RangeInclusive K × V => touchesL_eval (S := S) a.1 r]
    congr 1
    funext c
    rcases c with _ | ⟨a, _ | ⟨b, _⟩⟩ <;>
      simp only [eval_bind, eval_irange, eval_val, eval_pure, pure_bind, adjustInsertL_eval]
  · simp only [hr, not_false_eq_true, if_false, if_true]
    rfl

theorem adjustRemoveL_eval (l : List (RangeInclusive K × V)) (r : RangeInclusive K) (v : V)
    (n : RangeInclusive K) : (adjustOverlappingRangesForRemoveL S l r v n).eval
      = adjustOverlappingRangesForRemove S l r v n := by
  unfold adjustOverlappingRangesForRemoveL adjustOverlappingRangesForRemove
  simp [eval_bind, insertLeftL_eval, insertRightL_eval]

theorem removeLoopL_eval (r : RangeInclusive K) (fuel : Nat) (l : List (RangeInclusive K × V)) :
    (removeLoopL S r r.stop fuel l).eval = removeLoop S r fuel l := by
  induction fuel generalizing l with
  | zero => rfl
  | succ fuel ih =>
    unfold removeLoopL removeLoop
    rw [eval_bind, eval_lib]
    congr 1
    funext t
    cases t.head? with
    | none => rfl
    | some x =>
      simp only [eval_bind, eval_irange, eval_val, pure_bind, adjustRemoveL_eval, ih]

theorem removeL_eval (m : RangeInclusiveMap K V) (r : RangeInclusive K) : (m.removeL S r).eval = m.remove S r := by
  unfold removeL RangeInclusiveMap.remove removeFuel removePrefixL removePrefix
  by_cases hr : r.start ≤ r.stop
  · simp only [hr, not_true_eq_false, if_false, if_true, eval_bind, eval_lib, bind_assoc,
      eval_key, pure_bind, removeLoopL_eval, eval_pure]
    congr 1
    funext t
    generalize t.getLast?.filter _ = c
    rcases c with _ | a <;>
      simp only [eval_bind, eval_irange, eval_val, eval_pure, pure_bind, adjustRemoveL_eval]
  · simp only [hr, not_false_eq_true, if_false, if_true]
    rfl

theorem getKeyValueL_eval (m : RangeInclusiveMap K V) (k : K) :
    (m.getKeyValueL k).eval = m.getKeyValue k := by
  simp [getKeyValueL, getKeyValue, eval_bind]

theorem overlappingL_eval (m : RangeInclusiveMap K V) (q : RangeInclusive K) :
    (m.overlappingL q).eval = m.overlapping q := by
  simp [overlappingL, overlapping, eval_bind]

theorem gapsL_eval (m : RangeInclusiveMap K V) (q : RangeInclusive K) : (m.gapsL q).eval = m.gaps q := by
  simp [gapsL, gaps, eval_bind, overlappingL_eval]

theorem Gaps.nextTailL_eval (p : Bool) (a b : K) (l : List (RangeInclusive K × V)) :
    (nextTailL S p a b l).eval = nextTail S p a b l := by
  unfold nextTailL nextTail
  split <;> split <;> simp [eval_bind]

theorem Gaps.nextL_eval (g : Gaps K V) : (g.nextL S).eval = g.next S := by
  obtain ⟨p, a, b, l⟩ := g
  simp only [nextL, next]
  induction l generalizing p a with
  | nil => exact nextTailL_eval p a b []
  | cons x t ih =>
    unfold nextLoopL nextLoop
    split
    · exact nextTailL_eval p a b t
    · have : (curCandidateStartL S p a : Cl K V K).eval = curCandidateStart S p a := by
        unfold curCandidateStartL curCandidateStart
        split <;> simp
      rw [eval_bind, this]
      congr 1
      funext c
      split
      · simp [eval_bind]
      · exact ih _ _

theorem extendL_identical [BEq V] (m : RangeInclusiveMap K V) (items : List (RangeInclusive K × V)) :
    m.extendL S (fun _ => identical) items = m.extend S items := by
  induction items generalizing m with
  | nil => rfl
  | cons e t ih =>
    obtain ⟨r, v⟩ := e
    unfold extendL extend
    rw [run_identical, insertL_eval]
    cases m.insert S r v with
    | error p => rfl
    | ok a => exact ih a

theorem applyL_identical [BEq V] (m : RangeInclusiveMap K V) (op : Op (RangeInclusive K) V) :
    m.applyL S (fun _ => identical) op = m.apply S op := by
  cases op with
  | insert r v =>
    unfold applyL apply
    simp only [run_identical, insertL_eval]
    rfl
  | remove r =>
    unfold applyL apply
    simp only [run_identical, removeL_eval]
    rfl
  | clear => rfl
  | extend items => exact extendL_identical m items

theorem runL_identical [BEq V] (ops : List (Op (RangeInclusive K) V)) :
    runL S (ops.map fun op => (fun _ => identical, op)) = run S ops := by
  unfold runL run
  rw [List.foldl_map]
  simp only [applyL_identical]

end RangeInclusiveMap
end Verif

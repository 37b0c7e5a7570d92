import Verif.Props.Demo
import Verif.Proof.Tree
import Verif.Props.Crash
import Verif.Props.Map
import Verif.Props.IMap

/-!
# C52: the layout of the B-tree cannot be observed, even though it is searched in two orders
-/
set_option linter.unusedSectionVars false

namespace Verif.Props
open Spec
variable {K : Type} [LE K] [LT K] [DecidableLE K] [DecidableLT K]
  [Std.IsLinearPreorder K] [Std.LawfulOrderLT K] {V : Type} [BEq V] [PartialEquivBEq V]

/-! ## Half-open maps -/

section
open RangeMap

theorem laid_start {m : RangeMap K V} (hm : Reachable m) : Laid Range.start m.btm :=
  (C04_starts_and_ends_strictly_increase hm).1

theorem laid_stop {m : RangeMap K V} (hm : Reachable m) : Laid Range.stop m.btm :=
  (C04_starts_and_ends_strictly_increase hm).2

/-- **C52** However the entries of a map are laid out in a tree, the search for the stored range that
may contain a key gives the same result. -/
theorem C52_get_key_value {m : RangeMap K V} (hm : Reachable m) {t : Tree (Range K × V)}
    (ht : t.toList = m.iter) (k : K) : treeGetKeyValue t k = m.getKeyValue k := by
  have ht : t.toList = m.btm := ht
  unfold treeGetKeyValue getKeyValue
  rw [Tree.range_eq (by rw [ht]; exact laid_start hm), ht]

example := C52_get_key_value (K := Nat) (V := Char) (m := Demo.map) Demo.map_reachable
    (t := Demo.tree) Demo.tree_toList 7

/-- **C52** Neither does the layout matter when the tree, laid out by start, is searched by *end*
(the `Borrow` implementation of range_wrapper.rs): the iterators of `overlapping`, and so those of
`gaps`, start in the same state. -/
theorem C52_overlapping {m : RangeMap K V} (hm : Reachable m) {t : Tree (Range K × V)}
    (ht : t.toList = m.iter) (q : Range K) : treeOverlapping t q = m.overlapping q := by
  have ht : t.toList = m.btm := ht
  unfold treeOverlapping overlapping
  rw [Tree.range_eq (by rw [ht]; exact laid_stop hm), ht]

example := C52_overlapping (K := Nat) (V := Char) (m := Demo.map) Demo.map_reachable
    (t := Demo.tree) Demo.tree_toList ⟨2, 22⟩

/-- **C52** `insert` on a tree ends in the same way, with the same entries, as on the list of its
entries: whatever the layout, however the tree is rebalanced by each of its changes (`shapes`), and
whichever stretch of user code panics. -/
theorem C52_insert {m : RangeMap K V} (hm : Reachable m) {t : Tree (Range K × V)}
    (ht : t.toList = m.iter) (shapes : Tree.Shapes (Range K × V)) (panics : Nat → Bool)
    (r : Range K) (v : V) :
    (treeInsert shapes panics t r v).1 = (insertCrash panics m r v).1 ∧
    (treeInsert shapes panics t r v).2.toList = (insertCrash panics m r v).2.iter := by
  have ht : t.toList = m.btm := ht
  obtain ⟨n, i, t', h1, h2, -⟩ := Cr.runTree_eq Range.start shapes panics (insertProgram r v) 0 0 t
    (by rw [ht]; exact laid_start hm)
  unfold treeInsert insertCrash
  rw [h1, ← ht, h2]
  exact ⟨rfl, rfl⟩

example := C52_insert (K := Nat) (V := Char) (m := Demo.map) Demo.map_reachable (t := Demo.tree)
    Demo.tree_toList Demo.still (· == 2) ⟨2, 22⟩ 'q'

/-- **C52** The same for `remove`. -/
theorem C52_remove {m : RangeMap K V} (hm : Reachable m) {t : Tree (Range K × V)}
    (ht : t.toList = m.iter) (shapes : Tree.Shapes (Range K × V)) (panics : Nat → Bool)
    (r : Range K) :
    (treeRemove shapes panics t r).1 = (removeCrash panics m r).1 ∧
    (treeRemove shapes panics t r).2.toList = (removeCrash panics m r).2.iter := by
  have ht : t.toList = m.btm := ht
  obtain ⟨n, i, t', h1, h2, -⟩ := Cr.runTree_eq Range.start shapes panics (removeProgram r) 0 0 t
    (by rw [ht]; exact laid_start hm)
  unfold treeRemove removeCrash
  rw [h1, ← ht, h2]
  exact ⟨rfl, rfl⟩

example := C52_remove (K := Nat) (V := Char) (m := Demo.map) Demo.map_reachable (t := Demo.tree)
    Demo.tree_toList Demo.still (· == 2) ⟨2, 22⟩

/-- **C52** When no user code panics: `insert` and `remove` on a tree return exactly if the range is
valid, and then leave the entries that the main model says. -/
theorem C52_insert_remove_plain {m : RangeMap K V} (hm : Reachable m) {t : Tree (Range K × V)}
    (ht : t.toList = m.iter) (shapes : Tree.Shapes (Range K × V)) (r : Range K) (v : V) :
    (∀ m', m.insert r v = .ok m' →
      (treeInsert shapes (fun _ => false) t r v).1 = .ok () ∧
      (treeInsert shapes (fun _ => false) t r v).2.toList = m'.iter) ∧
    (∀ m', m.remove r = .ok m' →
      (treeRemove shapes (fun _ => false) t r).1 = .ok () ∧
      (treeRemove shapes (fun _ => false) t r).2.toList = m'.iter) ∧
    (∀ p, m.insert r v = .error p →
      (treeInsert shapes (fun _ => false) t r v).1 = .error (.lib p) ∧
      (treeInsert shapes (fun _ => false) t r v).2.toList = m.iter) ∧
    (∀ p, m.remove r = .error p →
      (treeRemove shapes (fun _ => false) t r).1 = .error (.lib p) ∧
      (treeRemove shapes (fun _ => false) t r).2.toList = m.iter) := by
  obtain ⟨h1, h2⟩ := C42_no_panic hm (panics := fun _ => false) (fun _ => rfl) r v
  obtain ⟨i1, i2⟩ := C52_insert hm ht shapes (fun _ => false) r v
  obtain ⟨r1, r2⟩ := C52_remove hm ht shapes (fun _ => false) r
  rw [i1, i2, r1, r2, h1, h2]
  refine ⟨?_, ?_, ?_, ?_⟩ <;> intro _ h <;> rw [h] <;> exact ⟨rfl, rfl⟩

example := C52_insert_remove_plain (K := Nat) (V := Char) (m := Demo.map) Demo.map_reachable
    (t := Demo.tree) Demo.tree_toList Demo.still ⟨2, 22⟩ 'q'

/-- **C52** Over any history of calls, each interrupted anywhere or nowhere, and with the tree
rebalanced in any way: the tree holds the entries of the model. -/
theorem C52_history (ops : List (Tree.Shapes (Range K × V) × CrashOp (Range K) V)) :
    (ops.foldl (fun t op =>
      op.2.run (treeInsert op.1) (treeRemove op.1) t) (Tree.nil : Tree (Range K × V))).toList =
    ((ops.map (·.2)).foldl (CrashOp.run insertCrash removeCrash) (new : RangeMap K V)).iter := by
  suffices ∀ (m : RangeMap K V) (t : Tree (Range K × V)), Reachable m → t.toList = m.iter →
      (ops.foldl (fun t op => op.2.run (treeInsert op.1) (treeRemove op.1) t) t).toList =
      ((ops.map (·.2)).foldl (CrashOp.run insertCrash removeCrash) m).iter from
    this _ _ ⟨[], rfl⟩ rfl
  induction ops with
  | nil => exact fun m t _ h => h
  | cons op ops ih =>
    intro m t hm ht
    obtain ⟨shapes, op⟩ := op
    refine ih _ _ ?_ ?_
    · cases op with
      | insert p r v => exact C42_insert_reachable hm p r v
      | remove p r => exact C42_remove_reachable hm p r
    · cases op with
      | insert p r v => exact (C52_insert hm ht shapes p r v).2
      | remove p r => exact (C52_remove hm ht shapes p r).2

example := C52_history (K := Nat) (V := Char) [(Demo.still, .insert (fun _ => false) ⟨2, 22⟩ 'q'),
    (Demo.still, .insert (· == 2) ⟨6, 30⟩ 'z')]

/-- the entries of `Demo.map` as a chain, a bushy tree, and the other chain -/
def layouts : List (Tree (Range Nat × Char)) :=
  let a := (⟨0, 3⟩, 'a')
  let b := (⟨5, 15⟩, 'a')
  let c := (⟨20, 25⟩, 'b')
  let d := (⟨25, 40⟩, 'c')
  [.node .nil a (.node .nil b (.node .nil c (.node .nil d .nil))),
   .node (.node .nil a .nil) b (.node .nil c (.node .nil d .nil)),
   .node (.node (.node (.node .nil a .nil) b .nil) c .nil) d .nil]

example : Reachable Demo.map ∧ ∀ t ∈ layouts, t.toList = Demo.map.iter :=
  ⟨Demo.map_reachable, by decide⟩
example : ∀ t ∈ layouts, (treeOverlapping t ⟨10, 22⟩).toOption.map (·.btmRangeIter) =
    some [(⟨5, 15⟩, 'a'), (⟨20, 25⟩, 'b'), (⟨25, 40⟩, 'c')] := by decide
/-- a tree that turns itself inside out at every change -/
def chainUp : Tree.Shapes (Range Nat × Char) where
  reshape i t := if i % 2 = 0 then t.toList.foldr (fun e t => .node .nil e t) .nil
    else t.toList.foldl (fun t e => .node t e .nil) .nil
  keeps i t := by
    have h1 : ∀ l : List (Range Nat × Char),
        (l.foldr (fun e t => Tree.node .nil e t) .nil).toList = l := by
      intro l; induction l with
      | nil => rfl
      | cons a l ih => simp [Tree.toList, ih]
    have h2 : ∀ (l : List (Range Nat × Char)) (t : Tree (Range Nat × Char)),
        (l.foldl (fun t e => Tree.node t e .nil) t).toList = t.toList ++ l := by
      intro l; induction l with
      | nil => intro t; simp
      | cons a l ih => intro t; simp [ih, Tree.toList]
    split
    · exact h1 _
    · exact h2 _ _
example : ∀ t ∈ layouts, (treeInsert chainUp (fun _ => false) t ⟨2, 22⟩ 'a').2.toList =
    [(⟨0, 22⟩, 'a'), (⟨22, 25⟩, 'b'), (⟨25, 40⟩, 'c')] := by decide +kernel
-- The order of the ends does matter.  If the map could hold these two ranges (ordered by start), what
-- a search by end finds would depend on the layout.
example : let a : Range Nat × Char := (⟨0, 10⟩, 'a')
    let b : Range Nat × Char := (⟨2, 3⟩, 'b')
    (Tree.node .nil a (.node .nil b .nil)).range Range.stop (.excluded 5) .unbounded
      = .ok [a, b] ∧
    (Tree.node (.node .nil a .nil) b .nil).range Range.stop (.excluded 5) .unbounded
      = .ok [] ∧
    BTreeMap.range Range.stop (.excluded 5) .unbounded [a, b] = .ok [a] := ⟨rfl, rfl, rfl⟩

end

/-! ## Inclusive maps -/

namespace Inclusive

section
variable {S : StepFns K}
open RangeInclusiveMap

theorem laid_start (hS : LawfulSteps S) {m : RangeInclusiveMap K V} (hm : ReachableAny S m) :
    Laid RangeInclusive.start m.btm := by
  have h := C26_sorted_disjoint hS hm
  refine h.2.imp_of_mem fun {a b} ha _ hab => ?_
  have := h.1 a ha
  grind

theorem laid_stop (hS : LawfulSteps S) {m : RangeInclusiveMap K V} (hm : ReachableAny S m) :
    Laid RangeInclusive.stop m.btm := by
  have h := C26_sorted_disjoint hS hm
  refine h.2.imp_of_mem fun {a b} _ hb hab => ?_
  have := h.1 b hb
  grind

/-- **C52** However the entries of a map are laid out in a tree, the search for the stored range that
may contain a key gives the same result. -/
theorem C52_get_key_value (hS : LawfulSteps S) {m : RangeInclusiveMap K V} (hm : ReachableAny S m)
    {t : Tree (RangeInclusive K × V)} (ht : t.toList = m.iter) (k : K) :
    treeGetKeyValue t k = m.getKeyValue k := by
  have ht : t.toList = m.btm := ht
  unfold treeGetKeyValue getKeyValue
  rw [Tree.range_eq (by rw [ht]; exact laid_start hS hm), ht]

example := Inclusive.C52_get_key_value (K := UIntW 8) (V := Char) (S := Demo.u8) Demo.u8_lawful
    (m := Demo.imap) Demo.imap_reachable.any (t := Demo.itree) Demo.itree_toList ⟨7⟩

/-- **C52** Neither does the layout matter when the tree, laid out by start, is searched by *end*. -/
theorem C52_overlapping (hS : LawfulSteps S) {m : RangeInclusiveMap K V} (hm : ReachableAny S m)
    {t : Tree (RangeInclusive K × V)} (ht : t.toList = m.iter) (q : RangeInclusive K) :
    treeOverlapping t q = m.overlapping q := by
  have ht : t.toList = m.btm := ht
  unfold treeOverlapping overlapping
  rw [Tree.range_eq (by rw [ht]; exact laid_stop hS hm), ht]

example := Inclusive.C52_overlapping (K := UIntW 8) (V := Char) (S := Demo.u8) Demo.u8_lawful
    (m := Demo.imap) Demo.imap_reachable.any (t := Demo.itree) Demo.itree_toList (Demo.by8 2 22)

/-- **C52** `insert` on a tree ends in the same way, with the same entries, as on the list of its
entries. -/
theorem C52_insert (hS : LawfulSteps S) {m : RangeInclusiveMap K V} (hm : ReachableAny S m)
    {t : Tree (RangeInclusive K × V)} (ht : t.toList = m.iter)
    (shapes : Tree.Shapes (RangeInclusive K × V)) (panics : Nat → Bool)
    (r : RangeInclusive K) (v : V) :
    (treeInsert S shapes panics t r v).1 = (insertCrash S panics m r v).1 ∧
    (treeInsert S shapes panics t r v).2.toList = (insertCrash S panics m r v).2.iter := by
  have ht : t.toList = m.btm := ht
  obtain ⟨n, i, t', h1, h2, -⟩ := Cr.runTree_eq RangeInclusive.start shapes panics
    (insertProgram S r v) 0 0 t (by rw [ht]; exact laid_start hS hm)
  unfold treeInsert insertCrash
  rw [h1, ← ht, h2]
  exact ⟨rfl, rfl⟩

example := Inclusive.C52_insert (K := UIntW 8) (V := Char) (S := Demo.u8) Demo.u8_lawful
    (m := Demo.imap) Demo.imap_reachable.any (t := Demo.itree) Demo.itree_toList Demo.still
    (· == 2) (Demo.by8 2 22) 'q'

/-- **C52** The same for `remove`. -/
theorem C52_remove (hS : LawfulSteps S) {m : RangeInclusiveMap K V} (hm : ReachableAny S m)
    {t : Tree (RangeInclusive K × V)} (ht : t.toList = m.iter)
    (shapes : Tree.Shapes (RangeInclusive K × V)) (panics : Nat → Bool) (r : RangeInclusive K) :
    (treeRemove S shapes panics t r).1 = (removeCrash S panics m r).1 ∧
    (treeRemove S shapes panics t r).2.toList = (removeCrash S panics m r).2.iter := by
  have ht : t.toList = m.btm := ht
  obtain ⟨n, i, t', h1, h2, -⟩ := Cr.runTree_eq RangeInclusive.start shapes panics
    (removeProgram S r) 0 0 t (by rw [ht]; exact laid_start hS hm)
  unfold treeRemove removeCrash
  rw [h1, ← ht, h2]
  exact ⟨rfl, rfl⟩

example := Inclusive.C52_remove (K := UIntW 8) (V := Char) (S := Demo.u8) Demo.u8_lawful
    (m := Demo.imap) Demo.imap_reachable.any (t := Demo.itree) Demo.itree_toList Demo.still
    (· == 2) (Demo.by8 2 22)

/-- **C52** When no user code panics: `insert` and `remove` on a tree return exactly if the range is
valid, and then leave the entries that the main model says. -/
theorem C52_insert_remove_plain (hS : LawfulSteps S) {m : RangeInclusiveMap K V}
    (hm : ReachableAny S m) {t : Tree (RangeInclusive K × V)} (ht : t.toList = m.iter)
    (shapes : Tree.Shapes (RangeInclusive K × V)) (r : RangeInclusive K) (v : V) :
    (∀ m', m.insert S r v = .ok m' →
      (treeInsert S shapes (fun _ => false) t r v).1 = .ok () ∧
      (treeInsert S shapes (fun _ => false) t r v).2.toList = m'.iter) ∧
    (∀ m', m.remove S r = .ok m' →
      (treeRemove S shapes (fun _ => false) t r).1 = .ok () ∧
      (treeRemove S shapes (fun _ => false) t r).2.toList = m'.iter) ∧
    (∀ p, m.insert S r v = .error p →
      (treeInsert S shapes (fun _ => false) t r v).1 = .error (.lib p) ∧
      (treeInsert S shapes (fun _ => false) t r v).2.toList = m.iter) ∧
    (∀ p, m.remove S r = .error p →
      (treeRemove S shapes (fun _ => false) t r).1 = .error (.lib p) ∧
      (treeRemove S shapes (fun _ => false) t r).2.toList = m.iter) := by
  obtain ⟨h1, h2⟩ := C42_no_panic hS hm (panics := fun _ => false) (fun _ => rfl) r v
  obtain ⟨i1, i2⟩ := C52_insert hS hm ht shapes (fun _ => false) r v
  obtain ⟨r1, r2⟩ := C52_remove hS hm ht shapes (fun _ => false) r
  rw [i1, i2, r1, r2, h1, h2]
  refine ⟨?_, ?_, ?_, ?_⟩ <;> intro _ h <;> rw [h] <;> exact ⟨rfl, rfl⟩

example := Inclusive.C52_insert_remove_plain (K := UIntW 8) (V := Char) (S := Demo.u8)
    Demo.u8_lawful (m := Demo.imap) Demo.imap_reachable.any (t := Demo.itree) Demo.itree_toList
    Demo.still (Demo.by8 2 22) 'q'

theorem removeCrash_any (hS : LawfulSteps S) {m : RangeInclusiveMap K V} (hm : ReachableAny S m)
    (panics : Nat → Bool) (r : RangeInclusive K) : ReachableAny S (removeCrash S panics m r).2 := by
  by_cases hv : Nonempty V
  · obtain ⟨v⟩ := hv
    exact (C42_reachable_any hS hm panics r v).2
  · have : ∀ m' : RangeInclusiveMap K V, m' = ⟨[]⟩ := by
      rintro ⟨l⟩
      cases l with
      | nil => rfl
      | cons e t => exact absurd ⟨e.2⟩ hv
    rw [this (removeCrash S panics m r).2, ← this m]
    exact hm

/-- **C52** Over any history of calls, each interrupted anywhere or nowhere, and with the tree
rebalanced in any way: the tree holds the entries of the model. -/
theorem C52_history (hS : LawfulSteps S)
    (ops : List (Tree.Shapes (RangeInclusive K × V) × CrashOp (RangeInclusive K) V)) :
    (ops.foldl (fun t op => op.2.run (treeInsert S op.1) (treeRemove S op.1) t)
      (Tree.nil : Tree (RangeInclusive K × V))).toList =
    ((ops.map (·.2)).foldl (CrashOp.run (insertCrash S) (removeCrash S))
      (new : RangeInclusiveMap K V)).iter := by
  suffices ∀ (m : RangeInclusiveMap K V) (t : Tree (RangeInclusive K × V)), ReachableAny S m →
      t.toList = m.iter →
      (ops.foldl (fun t op => op.2.run (treeInsert S op.1) (treeRemove S op.1) t) t).toList =
      ((ops.map (·.2)).foldl (CrashOp.run (insertCrash S) (removeCrash S)) m).iter from
    this _ _ ⟨[], rfl⟩ rfl
  induction ops with
  | nil => exact fun m t _ h => h
  | cons op ops ih =>
    intro m t hm ht
    obtain ⟨shapes, op⟩ := op
    refine ih _ _ ?_ ?_
    · cases op with
      | insert p r v => exact (C42_reachable_any hS hm p r v).1
      | remove p r => exact removeCrash_any hS hm p r
    · cases op with
      | insert p r v => exact (C52_insert hS hm ht shapes p r v).2
      | remove p r => exact (C52_remove hS hm ht shapes p r).2

example := Inclusive.C52_history (K := UIntW 8) (V := Char) (S := Demo.u8) Demo.u8_lawful
    [(Demo.still, .insert (fun _ => false) (Demo.by8 2 22) 'q'),
    (Demo.still, .insert (· == 2) (Demo.by8 6 30) 'z')]

/-- the entries of `Demo.imap` laid out in two ways -/
def layouts : List (Tree (RangeInclusive (UIntW 8) × Char)) :=
  let a := (Demo.by8 0 2, 'a')
  let b := (Demo.by8 5 15, 'a')
  let c := (Demo.by8 20 24, 'b')
  let d := (Demo.by8 25 255, 'c')
  [.node .nil a (.node .nil b (.node .nil c (.node .nil d .nil))),
   .node (.node .nil a .nil) b (.node .nil c (.node .nil d .nil))]

example : ReachableAny Demo.u8 Demo.imap ∧ ∀ t ∈ layouts, t.toList = Demo.imap.iter :=
  ⟨Demo.imap_reachable.any, by decide⟩
example : ∀ t ∈ layouts,
    (treeOverlapping t (Demo.by8 15 22)).toOption.map (·.btmRangeIter) =
      some [(Demo.by8 5 15, 'a'), (Demo.by8 20 24, 'b'), (Demo.by8 25 255, 'c')] := by decide
example : ∀ t ∈ layouts,
    (treeInsert Demo.u8 ⟨fun _ t => t, fun _ _ => rfl⟩ (fun _ => false) t (Demo.by8 2 21)
      'a').2.toList =
    [(Demo.by8 0 21, 'a'), (Demo.by8 22 24, 'b'), (Demo.by8 25 255, 'c')] := by decide +kernel

end
end Inclusive
end Verif.Props

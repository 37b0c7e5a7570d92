import Verif.Proof.TreeCmp
import Verif.Props.Tree
import Verif.Props.Cost
import Verif.Props.Build
import Verif.Props.IBuild

/-!
# C87: the number of comparisons inside the B-tree grows with the logarithm of the number of ranges
-/
set_option linter.unusedSectionVars false
set_option linter.unusedVariables false
namespace Verif.Props
open Spec

/-- **C87** The shapes assumed below exist: every list of entries can be laid out as std lays out a
B-tree, so there are ways of rebalancing that keep every tree one. -/
theorem C87_layouts_exist {E : Type} :
    (∀ l : List E, ∃ t : Tree E, t.IsBTree ∧ t.toList = l) ∧
    ∃ shapes : Tree.Shapes E, ∀ i t, (shapes.reshape i t).IsBTree :=
  ⟨Tree.IsBTree.exists, Tree.Shapes.balanced_exists⟩

/-- **C87** A path from the root of a B-tree of fewer than `2 * 6 ^ h - 1` entries meets at most
`11 * h` keys. -/
theorem C87_height {E : Type} {t : Tree E} (ht : t.IsBTree) {h : Nat}
    (hs : t.toList.length + 1 < 2 * 6 ^ h) : t.depth ≤ 11 * h :=
  ht.depth_le (by rw [Tree.size_eq]; exact hs)

variable {K : Type} [LE K] [LT K] [DecidableLE K] [DecidableLT K]
  [Std.IsLinearPreorder K] [Std.LawfulOrderLT K] {V : Type} [BEq V] [PartialEquivBEq V]

section
open RangeMap

/-- **C87** In a map of fewer than `2 * 6 ^ h - 1` ranges `get_key_value` (and so `get` and
`contains_key`) compares keys at most `11 * h + 2` times. -/
theorem C87_get {m : RangeMap K V} (hm : Reachable m) {t : Tree (Range K × V)}
    (ht : t.toList = m.iter) (hb : t.IsBTree) {h : Nat} (hl : m.len + 1 < 2 * 6 ^ h) (k : K) :
    ∃ n, treeGetKeyValueC t k = (m.getKeyValue k, n) ∧ n ≤ 11 * h + 2 := by
  have hd := hb.depth_le (h := h) (by rw [Tree.size_eq, ht]; exact hl)
  have h1 := (Tree.rangeC_eq Range.start .unbounded (.included k) t).1
  have h2 := (Tree.rangeC_unbounded Range.start (.included k) t).1
  refine ⟨(treeGetKeyValueC t k).2, ?_⟩
  rw [← C52_get_key_value hm ht]
  unfold treeGetKeyValueC treeGetKeyValue
  rw [← h1]
  generalize t.rangeC Range.start .unbounded (.included k) = p at h2
  obtain ⟨o, n⟩ := p
  cases o with
  | error p => exact ⟨rfl, by simp only at h2 ⊢; omega⟩
  | ok l =>
    simp only [bind, Except.bind, pure, Except.pure] at h2 ⊢
    cases l.getLast? with
    | none => exact ⟨rfl, by simp only; omega⟩
    | some e =>
      refine ⟨by simp only [Option.filter], ?_⟩
      simp only
      split <;> omega

/-- **C87** ... and calling `overlapping` or `gaps` at most `11 * h` times. -/
theorem C87_overlapping {m : RangeMap K V} (hm : Reachable m) {t : Tree (Range K × V)}
    (ht : t.toList = m.iter) (hb : t.IsBTree) {h : Nat} (hl : m.len + 1 < 2 * 6 ^ h) (q : Range K) :
    ∃ n, treeOverlappingC t q = (m.overlapping q, n) ∧ n ≤ 11 * h := by
  have hd := hb.depth_le (h := h) (by rw [Tree.size_eq, ht]; exact hl)
  have h1 := (Tree.rangeC_eq Range.stop (.excluded q.start) .unbounded t).1
  have h2 := (Tree.rangeC_unbounded Range.stop (.excluded q.start) t).2
  refine ⟨(treeOverlappingC t q).2, ?_⟩
  rw [← C52_overlapping hm ht]
  unfold treeOverlappingC treeOverlapping
  rw [← h1]
  generalize t.rangeC Range.stop (.excluded q.start) .unbounded = p at h2
  obtain ⟨o, n⟩ := p
  cases o <;> exact ⟨rfl, by simp only at h2 ⊢; omega⟩

/-- **C87** `insert` compares keys inside the B-tree at most `22 * h + 2` times for each of the
stored ranges touching the given one and twice more, and `11 * h` times for each of these ranges and
three times more. -/
theorem C87_insert {m : RangeMap K V} (hm : Reachable m) {t : Tree (Range K × V)}
    (ht : t.toList = m.iter) (hb : t.IsBTree) {shapes : Tree.Shapes (Range K × V)}
    (hs : ∀ i t, (shapes.reshape i t).IsBTree) {h : Nat} (hl : m.len + 4 < 2 * 6 ^ h)
    (r : Range K) (v : V) :
    insertCmps shapes t r v ≤ (22 * h + 2) * (howMany (Touch r) m.iter + 2) +
      11 * h * (howMany (Touch r) m.iter + 3) := by
  have ht' : t.toList = m.btm := ht
  obtain ⟨h1, h2, h3⟩ := C59_insert_cost hm r v
  unfold insertCost at h1 h2 h3
  have h4 := Cr.cmps_le Range.start shapes hs h (insertProgram r v) 0 t
    (by rw [ht']; exact laid_start hm) hb (by
      have : m.btm.length + 4 < 2 * 6 ^ h := hl
      rw [ht']; omega)
  rw [ht'] at h4
  exact Nat.le_trans h4
    (Nat.add_le_add (Nat.mul_le_mul_left _ h1) (Nat.mul_le_mul_left _ (by omega)))

/-- **C87** The same for `remove` and the stored ranges overlapping the given one. -/
theorem C87_remove {m : RangeMap K V} (hm : Reachable m) {t : Tree (Range K × V)}
    (ht : t.toList = m.iter) (hb : t.IsBTree) {shapes : Tree.Shapes (Range K × V)}
    (hs : ∀ i t, (shapes.reshape i t).IsBTree) {h : Nat} (hl : m.len + 3 < 2 * 6 ^ h)
    (r : Range K) :
    removeCmps shapes t r ≤ (22 * h + 2) * (howMany (Common covers r) m.iter + 2) +
      11 * h * (howMany (Common covers r) m.iter + 2) := by
  have ht' : t.toList = m.btm := ht
  obtain ⟨h1, h2, h3⟩ := C59_remove_cost hm r
  unfold removeCost at h1 h2 h3
  have h4 := Cr.cmps_le Range.start shapes hs h (removeProgram r) 0 t
    (by rw [ht']; exact laid_start hm) hb (by
      have : m.btm.length + 3 < 2 * 6 ^ h := hl
      rw [ht']; omega)
  rw [ht'] at h4
  exact Nat.le_trans h4
    (Nat.add_le_add (Nat.mul_le_mul_left _ h1) (Nat.mul_le_mul_left _ (by omega)))

theorem insert_step {m : RangeMap K V} (hm : Reachable m) {t : Tree (Range K × V)}
    (ht : t.toList = m.iter) (hb : t.IsBTree) {shapes : Tree.Shapes (Range K × V)}
    (hs : ∀ i t, (shapes.reshape i t).IsBTree) {h : Nat} (hl : m.len + 4 < 2 * 6 ^ h)
    (r : Range K) (v : V) :
    insertCmps shapes t r v ≤ (22 * h + 2) * (m.insertCost r v).total ∧
    (treeInsert shapes (fun _ => false) t r v).2.IsBTree := by
  have ht' : t.toList = m.btm := ht
  obtain ⟨h1, h2, h3⟩ := C59_insert_cost hm r v
  unfold insertCost at h1 h2 h3
  have h4 := Cr.cmps_le_total Range.start shapes hs h (insertProgram r v) 0 t
    (by rw [ht']; exact laid_start hm) hb (by
      have : m.btm.length + 4 < 2 * 6 ^ h := hl
      rw [ht']; omega)
  rw [ht'] at h4
  exact ⟨h4, Cr.runTree_isBTree Range.start shapes hs _ _ _ hb⟩

theorem remove_step {m : RangeMap K V} (hm : Reachable m) {t : Tree (Range K × V)}
    (ht : t.toList = m.iter) (hb : t.IsBTree) {shapes : Tree.Shapes (Range K × V)}
    (hs : ∀ i t, (shapes.reshape i t).IsBTree) {h : Nat} (hl : m.len + 4 < 2 * 6 ^ h)
    (r : Range K) :
    removeCmps shapes t r ≤ (22 * h + 2) * (m.removeCost r).total ∧
    (treeRemove shapes (fun _ => false) t r).2.IsBTree := by
  have ht' : t.toList = m.btm := ht
  obtain ⟨h1, h2, h3⟩ := C59_remove_cost hm r
  unfold removeCost at h1 h2 h3
  have h4 := Cr.cmps_le_total Range.start shapes hs h (removeProgram r) 0 t
    (by rw [ht']; exact laid_start hm) hb (by
      have : m.btm.length + 4 < 2 * 6 ^ h := hl
      rw [ht']; omega)
  rw [ht'] at h4
  exact ⟨h4, Cr.runTree_isBTree Range.start shapes hs _ _ _ hb⟩

theorem extend_step {shapes : Tree.Shapes (Range K × V)} (hs : ∀ i t, (shapes.reshape i t).IsBTree)
    {h : Nat} (items : List (Range K × V)) : ∀ {m : RangeMap K V} (hm : Reachable m)
    {t : Tree (Range K × V)} (ht : t.toList = m.iter) (hb : t.IsBTree)
    (hl : m.len + 2 * items.length + 2 < 2 * 6 ^ h),
    (extendCmps shapes t items).1 ≤ (22 * h + 2) * (m.extendCost items).total ∧
    (extendCmps shapes t items).2.IsBTree ∧
    (extendCmps shapes t items).2.toList = (m.extend items).1.iter ∧
    (m.extend items).1.len ≤ m.len + 2 * items.length := by
  induction items with
  | nil => intro m hm t ht hb hl; exact ⟨Nat.zero_le _, hb, ht, Nat.le_refl _⟩
  | cons e items ih =>
    obtain ⟨r, v⟩ := e
    intro m hm t ht hb hl
    simp only [List.length_cons] at hl ⊢
    obtain ⟨h1, h2⟩ := insert_step hm ht hb hs (h := h) (by omega) r v
    obtain ⟨h3, -, h4, -⟩ := C52_insert_remove_plain hm ht shapes r v
    unfold extendCmps extendCost RangeMap.extend
    generalize treeInsert shapes (fun _ => false) t r v = p at h2 h3 h4
    obtain ⟨o, t'⟩ := p
    cases hi : m.insert r v with
    | error p =>
      obtain ⟨h5, h6⟩ := h4 p hi
      simp only at h5 h6
      subst h5
      simp only
      refine ⟨?_, h2, h6, by omega⟩
      rw [Cost.add_zero]
      exact h1
    | ok m' =>
      obtain ⟨h5, h6⟩ := h3 m' hi
      simp only at h5 h6 h2
      subst h5
      have h7 := C22_insert_growth hm hi
      obtain ⟨i1, i2, i3, i4⟩ := ih (hm.insert hi) h6 h2 (by omega)
      simp only
      refine ⟨?_, i2, i3, by omega⟩
      have : (m.insertCost r v + m'.extendCost items).total =
        (m.insertCost r v).total + (m'.extendCost items).total := by
        simp only [Cost.total, Cost.add_searches, Cost.add_puts, Cost.add_deletes]; omega
      rw [this, Nat.mul_add]
      omega

theorem op_step {m : RangeMap K V} (hm : Reachable m) {t : Tree (Range K × V)}
    (ht : t.toList = m.iter) (hb : t.IsBTree) {shapes : Tree.Shapes (Range K × V)}
    (hs : ∀ i t, (shapes.reshape i t).IsBTree) {h : Nat} (op : Op (Range K) V)
    (hl : m.len + 2 * op.count + 2 < 2 * 6 ^ h) :
    (opCmps shapes t op).1 ≤ (22 * h + 2) * (m.opCost op).total ∧
    (opCmps shapes t op).2.IsBTree ∧
    (opCmps shapes t op).2.toList = (m.apply op).1.iter ∧
    (m.apply op).1.len ≤ m.len + 2 * op.count := by
  cases op with
  | insert r v =>
    simp only [Op.count] at hl ⊢
    obtain ⟨h1, h2⟩ := insert_step hm ht hb hs (h := h) (by omega) r v
    obtain ⟨h3, -, h4, -⟩ := C52_insert_remove_plain hm ht shapes r v
    refine ⟨h1, h2, ?_⟩
    simp only [apply, opCmps]
    cases hi : m.insert r v with
    | error p => exact ⟨(h4 p hi).2, by simp only; omega⟩
    | ok m' =>
      have := C22_insert_growth hm hi
      exact ⟨(h3 m' hi).2, by simp only; omega⟩
  | remove r =>
    simp only [Op.count] at hl ⊢
    obtain ⟨h1, h2⟩ := remove_step hm ht hb hs (h := h) (by omega) r
    refine ⟨h1, h2, ?_⟩
    simp only [apply, opCmps]
    by_cases hv : Nonempty V
    · obtain ⟨v⟩ := hv
      obtain ⟨-, h3, -, h4⟩ := C52_insert_remove_plain hm ht shapes r v
      cases hi : m.remove r with
      | error p => exact ⟨(h4 p hi).2, by simp only; omega⟩
      | ok m' =>
        have := C22_remove_growth hm hi
        exact ⟨(h3 m' hi).2, by simp only; omega⟩
    · have hnil : ∀ l : List (Range K × V), l = []
        | [] => rfl
        | e :: _ => (hv ⟨e.2⟩).elim
      exact ⟨(hnil _).trans (hnil _).symm, by
        rw [len, hnil (RangeMap.btm _)]; exact Nat.zero_le _⟩
  | clear => exact ⟨Nat.zero_le _, .inl rfl, rfl, Nat.zero_le _⟩
  | extend items => exact extend_step hs items hm ht hb hl

/-- **C87** A history of calls makes, inside the B-tree, at most `22 * h + 2` comparisons of keys
for each of the calls of `BTreeMap`'s methods counted by C59: `n` insertions and removals on an
empty map make O(n log n) comparisons, however many ranges the single calls touch. -/
theorem C87_history (ops : List (Tree.Shapes (Range K × V) × Op (Range K) V))
    (hs : ∀ p ∈ ops, ∀ i t, (p.1.reshape i t).IsBTree) {m : RangeMap K V} (hm : Reachable m)
    {t : Tree (Range K × V)} (ht : t.toList = m.iter) (hb : t.IsBTree) {h : Nat}
    (hl : m.len + 2 * ((ops.map (·.2)).map Op.count).sum + 2 < 2 * 6 ^ h) :
    historyCmps t ops ≤
      (22 * h + 2) * (11 * ((ops.map (·.2)).map Op.count).sum + 2 * m.len) := by
  refine Nat.le_trans ?_ (Nat.mul_le_mul_left _ (C59_history_cost (ops.map (·.2)) hm))
  induction ops generalizing m t with
  | nil => exact Nat.zero_le _
  | cons p ops ih =>
    obtain ⟨shapes, op⟩ := p
    simp only [List.map_cons, List.sum_cons] at hl ⊢
    obtain ⟨h1, h2, h3, h4⟩ := op_step hm ht hb (hs (shapes, op) (by simp)) (h := h) op (by omega)
    have h5 := ih (fun p hp => hs p (by simp [hp])) (hm.apply op) h3 h2 (by omega)
    simp only [historyCmps, historyCost]
    have : (m.opCost op + (m.apply op).1.historyCost (ops.map (·.2))).total =
        (m.opCost op).total + ((m.apply op).1.historyCost (ops.map (·.2))).total := by
      simp only [Cost.total, Cost.add_searches, Cost.add_puts, Cost.add_deletes]; omega
    rw [this, Nat.mul_add]
    exact Nat.add_le_add h1 h5


/-- one leaf -/
def oneLeaf : Tree (Range Nat × Char) :=
  Demo.map.iter.foldr (fun e t => .node .nil e t) .nil
theorem oneLeaf_isBTree : oneLeaf.IsBTree :=
  .inr ⟨0, 4, by decide, by decide, rfl, rfl, rfl, rfl, rfl⟩
example : oneLeaf.toList = Demo.map.iter := rfl
-- at most `11 + 2` comparisons by C87; really two in the leaf, and two in `contains`
example : ∃ n, treeGetKeyValueC oneLeaf 4 = (Demo.map.getKeyValue 4, n) ∧ n ≤ 11 * 1 + 2 :=
  C87_get Demo.map_reachable rfl oneLeaf_isBTree (by decide) 4
example : treeGetKeyValueC oneLeaf 4 = (.ok none, 4) := by rfl
example : treeGetKeyValueC oneLeaf 39 = (.ok (some (⟨25, 40⟩, 'c')), 6) := by rfl
example : (treeOverlappingC oneLeaf ⟨10, 22⟩).2 = 2 := by rfl
/-- small trees stay one leaf -/
def leaves : Tree.Shapes (Range Nat × Char) where
  reshape _ t := t.toList.foldr (fun e t => .node .nil e t) .nil
  keeps _ t := by
    generalize t.toList = l
    induction l with
    | nil => rfl
    | cons e l ih => simp [Tree.toList, ih]
example : insertCmps leaves oneLeaf ⟨1, 30⟩ 'x' = 32 := by rfl
example : removeCmps leaves oneLeaf ⟨1, 30⟩ = 34 := by rfl
example : ∃ shapes : Tree.Shapes (Range Nat × Char),
    (∀ i t, (shapes.reshape i t).IsBTree) ∧
    ∀ r v, insertCmps shapes oneLeaf r v ≤ (22 * 1 + 2) * (howMany (Touch r) Demo.map.iter + 2) +
      11 * 1 * (howMany (Touch r) Demo.map.iter + 3) := by
  obtain ⟨shapes, hs⟩ := (C87_layouts_exist (E := Range Nat × Char)).2
  exact ⟨shapes, hs, C87_insert Demo.map_reachable rfl oneLeaf_isBTree hs (by decide)⟩
-- a thousand insertions and removals: fewer than a million comparisons
example (ops : List (Tree.Shapes (Range Nat × Char) × Op (Range Nat) Char))
    (hs : ∀ p ∈ ops, ∀ i t, (p.1.reshape i t).IsBTree)
    (hn : ((ops.map (·.2)).map Op.count).sum = 1000) :
    historyCmps (.nil : Tree (Range Nat × Char)) ops ≤ 1000000 := by
  have := C87_history ops hs (m := RangeMap.new) ⟨[], rfl⟩ (t := .nil) rfl (.inl rfl) (h := 4)
    (by rw [hn, show (RangeMap.new : RangeMap Nat Char).len = 0 from rfl]; omega)
  rw [hn] at this
  exact Nat.le_trans this (by decide)

end

namespace Inclusive
open RangeInclusiveMap
variable {S : StepFns K}

/-- **C87** In a map of fewer than `2 * 6 ^ h - 1` ranges `get_key_value` (and so `get` and
`contains_key`) compares keys at most `11 * h + 2` times. -/
theorem C87_get (hS : LawfulSteps S) {m : RangeInclusiveMap K V} (hm : ReachableAny S m)
    {t : Tree (RangeInclusive K × V)}
    (ht : t.toList = m.iter) (hb : t.IsBTree) {h : Nat} (hl : m.len + 1 < 2 * 6 ^ h) (k : K) :
    ∃ n, treeGetKeyValueC t k = (m.getKeyValue k, n) ∧ n ≤ 11 * h + 2 := by
  have hd := hb.depth_le (h := h) (by rw [Tree.size_eq, ht]; exact hl)
  have h1 := (Tree.rangeC_eq RangeInclusive.start .unbounded (.included k) t).1
  have h2 := (Tree.rangeC_unbounded RangeInclusive.start (.included k) t).1
  refine ⟨(treeGetKeyValueC t k).2, ?_⟩
  rw [← C52_get_key_value hS hm ht]
  unfold treeGetKeyValueC treeGetKeyValue
  rw [← h1]
  generalize t.rangeC RangeInclusive.start .unbounded (.included k) = p at h2
  obtain ⟨o, n⟩ := p
  cases o with
  | error p => exact ⟨rfl, by simp only at h2 ⊢; omega⟩
  | ok l =>
    simp only [bind, Except.bind, pure, Except.pure] at h2 ⊢
    cases l.getLast? with
    | none => exact ⟨rfl, by simp only; omega⟩
    | some e =>
      refine ⟨by simp only [Option.filter], ?_⟩
      simp only
      split <;> omega

/-- **C87** ... and calling `overlapping` or `gaps` at most `11 * h` times. -/
theorem C87_overlapping (hS : LawfulSteps S) {m : RangeInclusiveMap K V} (hm : ReachableAny S m)
    {t : Tree (RangeInclusive K × V)}
    (ht : t.toList = m.iter) (hb : t.IsBTree) {h : Nat} (hl : m.len + 1 < 2 * 6 ^ h)
    (q : RangeInclusive K) :
    ∃ n, treeOverlappingC t q = (m.overlapping q, n) ∧ n ≤ 11 * h := by
  have hd := hb.depth_le (h := h) (by rw [Tree.size_eq, ht]; exact hl)
  have h1 := (Tree.rangeC_eq RangeInclusive.stop (.included q.start) .unbounded t).1
  have h2 := (Tree.rangeC_unbounded RangeInclusive.stop (.included q.start) t).2
  refine ⟨(treeOverlappingC t q).2, ?_⟩
  rw [← C52_overlapping hS hm ht]
  unfold treeOverlappingC treeOverlapping
  rw [← h1]
  generalize t.rangeC RangeInclusive.stop (.included q.start) .unbounded = p at h2
  obtain ⟨o, n⟩ := p
  cases o <;> exact ⟨rfl, by simp only at h2 ⊢; omega⟩

/-- **C87** `insert` compares keys inside the B-tree at most `22 * h + 2` times for each of the
stored ranges touching the given one and twice more, and `11 * h` times for each of these ranges and
three times more. -/
theorem C87_insert (hS : LawfulSteps S) {m : RangeInclusiveMap K V} (hm : ReachableAny S m)
    {t : Tree (RangeInclusive K × V)}
    (ht : t.toList = m.iter) (hb : t.IsBTree) {shapes : Tree.Shapes (RangeInclusive K × V)}
    (hs : ∀ i t, (shapes.reshape i t).IsBTree) {h : Nat} (hl : m.len + 4 < 2 * 6 ^ h)
    (r : RangeInclusive K) (v : V) :
    insertCmps S shapes t r v ≤ (22 * h + 2) * (howMany (ITouch r) m.iter + 2) +
      11 * h * (howMany (ITouch r) m.iter + 3) := by
  have ht' : t.toList = m.btm := ht
  obtain ⟨h1, h2, h3⟩ := C59_insert_cost hS hm r v
  unfold insertCost at h1 h2 h3
  have h4 := Cr.cmps_le RangeInclusive.start shapes hs h (insertProgram S r v) 0 t
    (by rw [ht']; exact laid_start hS hm) hb (by
      have : m.btm.length + 4 < 2 * 6 ^ h := hl
      rw [ht']; omega)
  rw [ht'] at h4
  exact Nat.le_trans h4
    (Nat.add_le_add (Nat.mul_le_mul_left _ h1) (Nat.mul_le_mul_left _ (by omega)))

/-- **C87** The same for `remove` and the stored ranges overlapping the given one. -/
theorem C87_remove (hS : LawfulSteps S) {m : RangeInclusiveMap K V} (hm : ReachableAny S m)
    {t : Tree (RangeInclusive K × V)}
    (ht : t.toList = m.iter) (hb : t.IsBTree) {shapes : Tree.Shapes (RangeInclusive K × V)}
    (hs : ∀ i t, (shapes.reshape i t).IsBTree) {h : Nat} (hl : m.len + 3 < 2 * 6 ^ h)
    (r : RangeInclusive K) :
    removeCmps S shapes t r ≤ (22 * h + 2) * (howMany (Common icovers r) m.iter + 2) +
      11 * h * (howMany (Common icovers r) m.iter + 2) := by
  have ht' : t.toList = m.btm := ht
  obtain ⟨h1, h2, h3⟩ := C59_remove_cost hS hm r
  unfold removeCost at h1 h2 h3
  have h4 := Cr.cmps_le RangeInclusive.start shapes hs h (removeProgram S r) 0 t
    (by rw [ht']; exact laid_start hS hm) hb (by
      have : m.btm.length + 3 < 2 * 6 ^ h := hl
      rw [ht']; omega)
  rw [ht'] at h4
  exact Nat.le_trans h4
    (Nat.add_le_add (Nat.mul_le_mul_left _ h1) (Nat.mul_le_mul_left _ (by omega)))

theorem insert_step (hS : LawfulSteps S) {m : RangeInclusiveMap K V} (hm : ReachableAny S m)
    {t : Tree (RangeInclusive K × V)}
    (ht : t.toList = m.iter) (hb : t.IsBTree) {shapes : Tree.Shapes (RangeInclusive K × V)}
    (hs : ∀ i t, (shapes.reshape i t).IsBTree) {h : Nat} (hl : m.len + 4 < 2 * 6 ^ h)
    (r : RangeInclusive K) (v : V) :
    insertCmps S shapes t r v ≤ (22 * h + 2) * (m.insertCost S r v).total ∧
    (treeInsert S shapes (fun _ => false) t r v).2.IsBTree := by
  have ht' : t.toList = m.btm := ht
  obtain ⟨h1, h2, h3⟩ := C59_insert_cost hS hm r v
  unfold insertCost at h1 h2 h3
  have h4 := Cr.cmps_le_total RangeInclusive.start shapes hs h (insertProgram S r v) 0 t
    (by rw [ht']; exact laid_start hS hm) hb (by
      have : m.btm.length + 4 < 2 * 6 ^ h := hl
      rw [ht']; omega)
  rw [ht'] at h4
  exact ⟨h4, Cr.runTree_isBTree RangeInclusive.start shapes hs _ _ _ hb⟩

theorem remove_step (hS : LawfulSteps S) {m : RangeInclusiveMap K V} (hm : ReachableAny S m)
    {t : Tree (RangeInclusive K × V)}
    (ht : t.toList = m.iter) (hb : t.IsBTree) {shapes : Tree.Shapes (RangeInclusive K × V)}
    (hs : ∀ i t, (shapes.reshape i t).IsBTree) {h : Nat} (hl : m.len + 4 < 2 * 6 ^ h)
    (r : RangeInclusive K) :
    removeCmps S shapes t r ≤ (22 * h + 2) * (m.removeCost S r).total ∧
    (treeRemove S shapes (fun _ => false) t r).2.IsBTree := by
  have ht' : t.toList = m.btm := ht
  obtain ⟨h1, h2, h3⟩ := C59_remove_cost hS hm r
  unfold removeCost at h1 h2 h3
  have h4 := Cr.cmps_le_total RangeInclusive.start shapes hs h (removeProgram S r) 0 t
    (by rw [ht']; exact laid_start hS hm) hb (by
      have : m.btm.length + 4 < 2 * 6 ^ h := hl
      rw [ht']; omega)
  rw [ht'] at h4
  exact ⟨h4, Cr.runTree_isBTree RangeInclusive.start shapes hs _ _ _ hb⟩

theorem extend_step {shapes : Tree.Shapes (RangeInclusive K × V)}
    (hs : ∀ i t, (shapes.reshape i t).IsBTree)
    {h : Nat} (hS : LawfulSteps S) (items : List (RangeInclusive K × V)) : ∀
    {m : RangeInclusiveMap K V} (hm : ReachableAny S m)
    {t : Tree (RangeInclusive K × V)} (ht : t.toList = m.iter) (hb : t.IsBTree)
    (hl : m.len + 2 * items.length + 2 < 2 * 6 ^ h),
    (extendCmps S shapes t items).1 ≤ (22 * h + 2) * (m.extendCost S items).total ∧
    (extendCmps S shapes t items).2.IsBTree ∧
    (extendCmps S shapes t items).2.toList = (m.extend S items).1.iter ∧
    (m.extend S items).1.len ≤ m.len + 2 * items.length := by
  induction items with
  | nil => intro m hm t ht hb hl; exact ⟨Nat.zero_le _, hb, ht, Nat.le_refl _⟩
  | cons e items ih =>
    obtain ⟨r, v⟩ := e
    intro m hm t ht hb hl
    simp only [List.length_cons] at hl ⊢
    obtain ⟨h1, h2⟩ := insert_step hS hm ht hb hs (h := h) (by omega) r v
    obtain ⟨h3, -, h4, -⟩ := C52_insert_remove_plain hS hm ht shapes r v
    unfold extendCmps extendCost RangeInclusiveMap.extend
    generalize treeInsert S shapes (fun _ => false) t r v = p at h2 h3 h4
    obtain ⟨o, t'⟩ := p
    cases hi : m.insert S r v with
    | error p =>
      obtain ⟨h5, h6⟩ := h4 p hi
      simp only at h5 h6
      subst h5
      simp only
      refine ⟨?_, h2, h6, by omega⟩
      rw [Cost.add_zero]
      exact h1
    | ok m' =>
      obtain ⟨h5, h6⟩ := h3 m' hi
      simp only at h5 h6 h2
      subst h5
      have h7 := C22_insert_growth hS hm hi
      obtain ⟨i1, i2, i3, i4⟩ := ih
        (show ReachableAny S m' from by simpa [apply, hi] using hm.apply (.insert r v)) h6 h2
          (by omega)
      simp only
      refine ⟨?_, i2, i3, by omega⟩
      have : (m.insertCost S r v + m'.extendCost S items).total =
        (m.insertCost S r v).total + (m'.extendCost S items).total := by
        simp only [Cost.total, Cost.add_searches, Cost.add_puts, Cost.add_deletes]; omega
      rw [this, Nat.mul_add]
      omega

theorem op_step (hS : LawfulSteps S) {m : RangeInclusiveMap K V} (hm : ReachableAny S m)
    {t : Tree (RangeInclusive K × V)}
    (ht : t.toList = m.iter) (hb : t.IsBTree) {shapes : Tree.Shapes (RangeInclusive K × V)}
    (hs : ∀ i t, (shapes.reshape i t).IsBTree) {h : Nat} (op : Op (RangeInclusive K) V)
    (hl : m.len + 2 * op.count + 2 < 2 * 6 ^ h) :
    (opCmps S shapes t op).1 ≤ (22 * h + 2) * (m.opCost S op).total ∧
    (opCmps S shapes t op).2.IsBTree ∧
    (opCmps S shapes t op).2.toList = (m.apply S op).1.iter ∧
    (m.apply S op).1.len ≤ m.len + 2 * op.count := by
  cases op with
  | insert r v =>
    simp only [Op.count] at hl ⊢
    obtain ⟨h1, h2⟩ := insert_step hS hm ht hb hs (h := h) (by omega) r v
    obtain ⟨h3, -, h4, -⟩ := C52_insert_remove_plain hS hm ht shapes r v
    refine ⟨h1, h2, ?_⟩
    simp only [apply, opCmps]
    cases hi : m.insert S r v with
    | error p => exact ⟨(h4 p hi).2, by simp only; omega⟩
    | ok m' =>
      have := C22_insert_growth hS hm hi
      exact ⟨(h3 m' hi).2, by simp only; omega⟩
  | remove r =>
    simp only [Op.count] at hl ⊢
    obtain ⟨h1, h2⟩ := remove_step hS hm ht hb hs (h := h) (by omega) r
    refine ⟨h1, h2, ?_⟩
    simp only [apply, opCmps]
    by_cases hv : Nonempty V
    · obtain ⟨v⟩ := hv
      obtain ⟨-, h3, -, h4⟩ := C52_insert_remove_plain hS hm ht shapes r v
      cases hi : m.remove S r with
      | error p => exact ⟨(h4 p hi).2, by simp only; omega⟩
      | ok m' =>
        have := C22_remove_growth hS hm hi
        exact ⟨(h3 m' hi).2, by simp only; omega⟩
    · have hnil : ∀ l : List (RangeInclusive K × V), l = []
        | [] => rfl
        | e :: _ => (hv ⟨e.2⟩).elim
      exact ⟨(hnil _).trans (hnil _).symm, by
        rw [len, hnil (RangeInclusiveMap.btm _)]; exact Nat.zero_le _⟩
  | clear => exact ⟨Nat.zero_le _, .inl rfl, rfl, Nat.zero_le _⟩
  | extend items => exact extend_step hs hS items hm ht hb hl

/-- **C87** A history of calls makes, inside the B-tree, at most `22 * h + 2` comparisons of keys
for each of the calls of `BTreeMap`'s methods counted by C59: `n` insertions and removals on an
empty map make O(n log n) comparisons, however many ranges the single calls touch. -/
theorem C87_history (ops : List (Tree.Shapes (RangeInclusive K × V) × Op (RangeInclusive K) V))
    (hs : ∀ p ∈ ops, ∀ i t, (p.1.reshape i t).IsBTree) (hS : LawfulSteps S)
    {m : RangeInclusiveMap K V} (hm : ReachableAny S m)
    {t : Tree (RangeInclusive K × V)} (ht : t.toList = m.iter) (hb : t.IsBTree) {h : Nat}
    (hl : m.len + 2 * ((ops.map (·.2)).map Op.count).sum + 2 < 2 * 6 ^ h) :
    historyCmps S t ops ≤
      (22 * h + 2) * (11 * ((ops.map (·.2)).map Op.count).sum + 2 * m.len) := by
  refine Nat.le_trans ?_ (Nat.mul_le_mul_left _ (C59_history_cost hS (ops.map (·.2)) hm))
  induction ops generalizing m t with
  | nil => exact Nat.zero_le _
  | cons p ops ih =>
    obtain ⟨shapes, op⟩ := p
    simp only [List.map_cons, List.sum_cons] at hl ⊢
    obtain ⟨h1, h2, h3, h4⟩ := op_step hS hm ht hb (hs (shapes, op) (by simp)) (h := h) op
      (by omega)
    have h5 := ih (fun p hp => hs p (by simp [hp])) (hm.apply op) h3 h2 (by omega)
    simp only [historyCmps, historyCost]
    have : (m.opCost S op + (m.apply S op).1.historyCost S (ops.map (·.2))).total =
        (m.opCost S op).total + ((m.apply S op).1.historyCost S (ops.map (·.2))).total := by
      simp only [Cost.total, Cost.add_searches, Cost.add_puts, Cost.add_deletes]; omega
    rw [this, Nat.mul_add]
    exact Nat.add_le_add h1 h5

/-- one leaf -/
def oneLeaf : Tree (RangeInclusive (UIntW 8) × Char) :=
  Demo.imap.iter.foldr (fun e t => .node .nil e t) .nil
theorem oneLeaf_isBTree : oneLeaf.IsBTree :=
  .inr ⟨0, 4, by decide, by decide, rfl, rfl, rfl, rfl, rfl⟩
example : oneLeaf.toList = Demo.imap.iter := rfl
example (k : UIntW 8) :
    ∃ n, treeGetKeyValueC oneLeaf k = (Demo.imap.getKeyValue k, n) ∧ n ≤ 11 * 1 + 2 :=
  C87_get Demo.u8_lawful Demo.imap_reachable.any rfl oneLeaf_isBTree (by decide) k

end Inclusive

example := C87_height oneLeaf_isBTree (h := 1) (by decide)
example := C87_overlapping Demo.map_reachable rfl oneLeaf_isBTree (h := 1) (by decide) ⟨2, 22⟩
example := C87_remove Demo.map_reachable rfl oneLeaf_isBTree
  (C87_layouts_exist (E := Range Nat × Char)).2.choose_spec (h := 1) (by decide) ⟨2, 22⟩
example := Inclusive.C87_overlapping Demo.u8_lawful Demo.imap_reachable.any rfl
  Inclusive.oneLeaf_isBTree (h := 1) (by decide) (Demo.by8 2 22)
example := Inclusive.C87_insert Demo.u8_lawful Demo.imap_reachable.any rfl
  Inclusive.oneLeaf_isBTree (C87_layouts_exist (E := RangeInclusive (UIntW 8) × Char)).2.choose_spec
  (h := 1) (by decide) (Demo.by8 2 22) 'x'
example := Inclusive.C87_remove Demo.u8_lawful Demo.imap_reachable.any rfl
  Inclusive.oneLeaf_isBTree (C87_layouts_exist (E := RangeInclusive (UIntW 8) × Char)).2.choose_spec
  (h := 1) (by decide) (Demo.by8 2 22)
example := Inclusive.C87_history (Demo.iops.map fun op =>
    ((C87_layouts_exist (E := RangeInclusive (UIntW 8) × Char)).2.choose, op))
  (by
    simp only [List.mem_map, forall_exists_index, and_imp]
    rintro _ _ _ rfl
    exact (C87_layouts_exist (E := RangeInclusive (UIntW 8) × Char)).2.choose_spec)
  Demo.u8_lawful Demo.imap_reachable.any rfl Inclusive.oneLeaf_isBTree (h := 2) (by decide)

end Verif.Props

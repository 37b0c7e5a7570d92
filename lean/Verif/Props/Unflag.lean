import Verif.Props.Demo
import Verif.Proof.IFlags
import Verif.Props.Exhausted
import Verif.Props.ISet
import Verif.Proof.SetRename

/-!
# C84: the hidden `exhausted` flag of `RangeInclusive` changes lookups only

C41 shows what an exhausted range does to a lookup.  Here: it does nothing else.  A history whose
ranges carry flags stores the same starts, ends and values, panics at the same calls, and answers
`overlapping`, `overlaps`, `gaps`, `first`/`last`, `len`, `cmp` and `serialize` in the same way as
the history with the flags cleared.
-/
set_option linter.unusedSectionVars false

namespace Verif.Props.Inclusive
open RangeInclusiveMap Spec
variable {K : Type} [LE K] [LT K] [DecidableLE K] [DecidableLT K]
  [Std.IsLinearPreorder K] [Std.LawfulOrderLT K] {V : Type} [BEq V] {S : StepFns K}

/-- **C84** Clearing the flags of all ranges of a history changes neither what is stored, apart from
the flags, nor which calls panic, nor how. -/
theorem C84_history (ops : List (Op (RangeInclusive K) V)) (op : Op (RangeInclusive K) V) :
    (run S (ops.map unflagOp)).iter = (run S ops).iter.map (fun e => (unflag e.1, e.2)) ∧
    ((run S (ops.map unflagOp)).apply S (unflagOp op)).2 = ((run S ops).apply S op).2 := by
  rw [run_unflag, apply_unflag]
  exact ⟨rfl, rfl⟩

example := Inclusive.C84_history (K := UIntW 8) (V := Char) (S := Demo.u8) Demo.iops
    (.insert (Demo.by8 2 22) 'q')

/-- **C84** `overlapping` and `overlaps`, for any sequence of `next` and `next_back` calls. -/
theorem C84_overlapping (ops : List (Op (RangeInclusive K) V)) (q : RangeInclusive K) :
    (∃ o o', (run S ops).overlapping q = .ok o ∧
      (run S (ops.map unflagOp)).overlapping (unflag q) = .ok o' ∧
      ∀ cs, script Overlapping.next Overlapping.nextBack cs o'
        = (script Overlapping.next Overlapping.nextBack cs o).map
            (Option.map fun e => (unflag e.1, e.2))) ∧
    (run S (ops.map unflagOp)).overlaps (unflag q) = (run S ops).overlaps q := by
  have h := overlapping_unflag (run S ops) q
  have ho : ∃ o, (run S ops).overlapping q = .ok o := ⟨_, rfl⟩
  obtain ⟨o, ho⟩ := ho
  rw [ho] at h
  refine ⟨⟨o, o.clearFlags, ho, by rw [run_unflag, h]; rfl, fun cs =>
    script_rename Overlapping.next_unflag Overlapping.nextBack_unflag cs o⟩, ?_⟩
  rw [run_unflag, overlaps, overlaps, h, ho]
  show Except.ok _ = Except.ok _
  rw [Overlapping.next_unflag]
  simp

example := Inclusive.C84_overlapping (K := UIntW 8) (V := Char) (S := Demo.u8) Demo.iops
    (Demo.by8 2 22)

/-- **C84** `gaps`, for any number of `next` calls, including the calls that panic. -/
theorem C84_gaps (ops : List (Op (RangeInclusive K) V)) (q : RangeInclusive K) :
    ∃ g g', (run S ops).gaps q = .ok g ∧
      (run S (ops.map unflagOp)).gaps (unflag q) = .ok g' ∧
      ∀ n, callsE (Gaps.next S) n g' = callsE (Gaps.next S) n g := by
  have h := gaps_unflag (run S ops) q
  obtain ⟨g, hg⟩ : ∃ g, (run S ops).gaps q = .ok g := ⟨_, rfl⟩
  rw [hg] at h
  exact ⟨g, g.clearFlags, hg, by rw [run_unflag, h]; rfl, fun n => Gaps.calls_unflag n g⟩

example := Inclusive.C84_gaps (K := UIntW 8) (V := Char) (S := Demo.u8) Demo.iops (Demo.by8 2 22)

theorem expandedIter_unflag (m : RangeInclusiveMap K V) :
    m.clearFlags.expandedIter = m.expandedIter := by
  simp [expandedIter, clearFlags, uf, unflag]

/-- **C84** `len`, `is_empty`, `first_range_value`, `last_range_value`, `cmp`, `partial_cmp` and
`serialize`. -/
theorem C84_summary (vcmp : V → V → Ordering) (vpcmp : V → V → Option Ordering)
    (ops ops' : List (Op (RangeInclusive K) V)) :
    (run S (ops.map unflagOp)).len = (run S ops).len ∧
    (run S (ops.map unflagOp)).isEmpty = (run S ops).isEmpty ∧
    (run S (ops.map unflagOp)).firstRangeValue
      = (run S ops).firstRangeValue.map (fun e => (unflag e.1, e.2)) ∧
    (run S (ops.map unflagOp)).lastRangeValue
      = (run S ops).lastRangeValue.map (fun e => (unflag e.1, e.2)) ∧
    (run S (ops.map unflagOp)).cmp vcmp (run S ops') = (run S ops).cmp vcmp (run S ops') ∧
    (run S ops').cmp vcmp (run S (ops.map unflagOp)) = (run S ops').cmp vcmp (run S ops) ∧
    (run S (ops.map unflagOp)).partialCmp vpcmp (run S ops')
      = (run S ops).partialCmp vpcmp (run S ops') ∧
    (run S ops').partialCmp vpcmp (run S (ops.map unflagOp))
      = (run S ops').partialCmp vpcmp (run S ops) ∧
    (run S (ops.map unflagOp)).serialize = (run S ops).serialize := by
  rw [run_unflag]
  refine ⟨by simp [len, clearFlags], by simp [isEmpty, clearFlags], ?_, ?_, ?_, ?_, ?_, ?_, ?_⟩
  · simp [firstRangeValue, clearFlags]; rfl
  · simp [lastRangeValue, clearFlags]; rfl
  · rw [cmp, cmp, expandedIter_unflag]
  · rw [cmp, cmp, expandedIter_unflag]
  · rw [partialCmp, partialCmp, expandedIter_unflag]
  · rw [partialCmp, partialCmp, expandedIter_unflag]
  · simp [serialize, clearFlags, RangeInclusiveMap.iter, uf, unflag]

/-- **C84** A flag that is stored belongs to a range stored just as it was inserted. -/
theorem C84_flag_source (ops : List (Op (RangeInclusive K) V)) :
    ∀ e ∈ (run S ops).iter, e.1.exhausted = true → ∃ op ∈ ops, e.1 ∈ op.inserted :=
  fun e he hx => List.mem_flatMap.1 (FlagsIn.run ops e he hx)

/-- **C84** The only effect on lookups: where the history without flags finds an entry, the history
with flags finds the entry with the same ends and value, unless it carries a flag and the key is not
below its end. -/
theorem C84_lookup [PartialEquivBEq V] (hS : LawfulSteps S)
    (ops : List (Op (RangeInclusive K) V)) (k : K) :
    ((run S (ops.map unflagOp)).getKeyValue k = .ok none ∧
      (run S ops).getKeyValue k = .ok none) ∨
    ∃ e ∈ (run S ops).iter,
      (run S (ops.map unflagOp)).getKeyValue k = .ok (some (unflag e.1, e.2)) ∧
      (run S ops).getKeyValue k
        = .ok (if e.1.exhausted ∧ ¬ k < e.1.stop then none else some e) := by
  have hm : ReachableAny S (run S ops) := ⟨ops, rfl⟩
  have hm' : ReachableAny S (run S (ops.map unflagOp)) := ⟨_, rfl⟩
  have hi := (C84_history (S := S) ops .clear).1
  obtain ⟨o, h1, -⟩ := C30_projections (run S ops) k
  obtain ⟨o', h1', -⟩ := C30_projections (run S (ops.map unflagOp)) k
  have key := C41_get_key_value_any hS hm k
  have key' := C41_get_key_value_any hS hm' k
  rw [h1] at key ⊢
  rw [h1'] at key' ⊢
  simp only [Except.ok.injEq, hi, List.mem_map] at key key' ⊢
  cases o' with
  | none =>
    refine .inl ⟨rfl, ?_⟩
    cases o with
    | none => rfl
    | some e =>
      have h := (key e).1 rfl
      cases (key' (unflag e.1, e.2)).2 ⟨⟨e, h.1, rfl⟩, h.2.1, h.2.2.1, fun h => by cases h⟩
  | some e' =>
    obtain ⟨⟨e, he, rfl⟩, h2, h3, -⟩ := (key' e').1 rfl
    refine .inr ⟨e, he, rfl, ?_⟩
    by_cases hx : e.1.exhausted = true ∧ ¬ k < e.1.stop
    · rw [if_pos hx]
      cases o with
      | none => rfl
      | some a =>
        exfalso
        have ha := (key a).1 rfl
        obtain rfl := (hm.sc hS).sep.unique (k := k) ha.1 he ⟨ha.2.1, ha.2.2.1⟩ ⟨h2, h3⟩
        exact hx.2 (ha.2.2.2 hx.1)
    · rw [if_neg hx]
      exact (key e).2 ⟨he, h2, h3, fun h => Decidable.byContradiction fun hn => hx ⟨h, hn⟩⟩

example := Inclusive.C84_lookup (K := UIntW 8) (V := Char) (S := Demo.u8) Demo.u8_lawful
    Demo.iops ⟨7⟩

/-! ### Sets -/

section
variable {K : Type} [LE K] [LT K] [DecidableLE K] [DecidableLT K]
  [Std.IsLinearPreorder K] [Std.LawfulOrderLT K] {S : StepFns K}

/-- The set with all flags cleared. -/
def unflagSet (s : RangeInclusiveSet K) : RangeInclusiveSet K := ⟨s.rm.clearFlags⟩

theorem unflagSet_iter (s : RangeInclusiveSet K) : (unflagSet s).iter = s.iter.map unflag := by
  simp [unflagSet, RangeInclusiveSet.iter, RangeInclusiveMap.iter, clearFlags, uf]

theorem setOp_unflag (op : SetOp (RangeInclusive K)) :
    setOpToOp (unflagSetOp op) = unflagOp (setOpToOp op) := by
  cases op <;> simp [unflagSetOp, unflagOp, setOpToOp]

theorem setApply_unflag (s : RangeInclusiveSet K) (op : SetOp (RangeInclusive K)) :
    (unflagSet s).apply S (unflagSetOp op)
      = (unflagSet (s.apply S op).1, (s.apply S op).2) := by
  rw [RangeInclusiveSet.apply_rm, RangeInclusiveSet.apply_rm, setOp_unflag]
  simp only [unflagSet, apply_unflag]

theorem setRun_unflag (ops : List (SetOp (RangeInclusive K))) :
    RangeInclusiveSet.run S (ops.map unflagSetOp) = unflagSet (RangeInclusiveSet.run S ops) := by
  suffices ∀ s : RangeInclusiveSet K,
      (ops.map unflagSetOp).foldl (fun m op => (m.apply S op).1) (unflagSet s)
        = unflagSet (ops.foldl (fun m op => (m.apply S op).1) s) from this .new
  induction ops with
  | nil => exact fun m => rfl
  | cons op ops ih =>
    intro m
    simp only [List.map_cons, List.foldl_cons, setApply_unflag, ih]

/-- **C84** Histories of sets. -/
theorem C84_set_history (ops : List (SetOp (RangeInclusive K))) (op : SetOp (RangeInclusive K)) :
    (RangeInclusiveSet.run S (ops.map unflagSetOp)).iter
      = (RangeInclusiveSet.run S ops).iter.map unflag ∧
    ((RangeInclusiveSet.run S (ops.map unflagSetOp)).apply S (unflagSetOp op)).2
      = ((RangeInclusiveSet.run S ops).apply S op).2 := by
  rw [setRun_unflag, setApply_unflag]
  exact ⟨unflagSet_iter _, rfl⟩

theorem intersection_unflag : ∀ (n : Nat) (l r : List (RangeInclusive K)),
    l.length + r.length = n →
    Intersection.nextLoop (l.map unflag) (r.map unflag)
      = Prod.map id (fun i => ⟨i.left.map unflag, i.right.map unflag⟩)
          (Intersection.nextLoop l r) := by
  intro n
  induction n using Nat.strongRecOn with
  | _ n ih =>
    intro l r hn
    match l, r with
    | [], r => simp [Intersection.nextLoop]
    | a :: l, [] => simp [Intersection.nextLoop]
    | a :: l, b :: r =>
      have e1 : RangeOrder.orderEnd (unflag a) (unflag b) = RangeOrder.orderEnd a b := rfl
      have e2 : RangeIntersect.intersect (unflag a) (unflag b) = RangeIntersect.intersect a b := rfl
      simp only [List.map_cons, Intersection.nextLoop, e1, e2]
      simp only [List.length_cons] at hn
      by_cases h : (RangeOrder.orderEnd a b).isLT = true
      · simp only [h, if_true]
        cases RangeIntersect.intersect a b with
        | none => exact ih (l.length + (b :: r).length) (by simp; omega) l (b :: r) rfl
        | some i => rfl
      · simp only [h]
        cases RangeIntersect.intersect a b with
        | none => exact ih ((a :: l).length + r.length) (by simp; omega) (a :: l) r rfl
        | some i => rfl

/-- **C84** `intersection` yields the very same (unflagged) ranges, and `&` builds the very same
set. -/
theorem C84_intersection (ops ops' : List (SetOp (RangeInclusive K))) :
    (∀ n, calls Intersection.next n ((RangeInclusiveSet.run S (ops.map unflagSetOp)).intersection
        (RangeInclusiveSet.run S (ops'.map unflagSetOp)))
      = calls Intersection.next n
        ((RangeInclusiveSet.run S ops).intersection (RangeInclusiveSet.run S ops'))) ∧
    (RangeInclusiveSet.run S (ops.map unflagSetOp)).bitAnd S
        (RangeInclusiveSet.run S (ops'.map unflagSetOp))
      = (RangeInclusiveSet.run S ops).bitAnd S (RangeInclusiveSet.run S ops') := by
  rw [setRun_unflag, setRun_unflag]
  generalize RangeInclusiveSet.run S ops = a
  generalize RangeInclusiveSet.run S ops' = b
  have hn : ∀ i : Intersection (RangeInclusive K),
      Intersection.next (⟨i.left.map unflag, i.right.map unflag⟩ : Intersection _)
        = Prod.map id (fun i => ⟨i.left.map unflag, i.right.map unflag⟩) (Intersection.next i) :=
    fun i => intersection_unflag _ i.left i.right rfl
  have hi : (unflagSet a).intersection (unflagSet b)
      = ⟨(a.intersection b).left.map unflag, (a.intersection b).right.map unflag⟩ := by
    simp only [RangeInclusiveSet.intersection, unflagSet_iter]
  refine ⟨fun n => ?_, ?_⟩
  · rw [hi]
    generalize a.intersection b = i
    induction n generalizing i with
    | zero => rfl
    | succ n ih => simp only [calls, hn, Prod.map_fst, Prod.map_snd, ih, id]
  · have hl : ∀ s : RangeInclusiveSet K, (unflagSet s).len = s.len := fun s => by
      simp [RangeInclusiveSet.len, unflagSet, len, clearFlags]
    have hd : ∀ n (i : Intersection (RangeInclusive K)),
        drain Intersection.next n (⟨i.left.map unflag, i.right.map unflag⟩ : Intersection _)
          = drain Intersection.next n i := by
      intro n
      induction n with
      | zero => intro i; rfl
      | succ n ih =>
        intro i
        simp only [drain, hn]
        cases h : Intersection.next i with
        | mk o i' =>
          cases o with
          | none => rfl
          | some x => simp only [Prod.map, id, ih]
    simp only [RangeInclusiveSet.bitAnd, hl, hi, hd]

example := Inclusive.C84_intersection (K := UIntW 8) (S := Demo.u8) Demo.isops Demo.isops

theorem merge_covers {r o r' : RangeInclusive K} (h : RangeMerge.merge r o = some r') :
    (∀ k, icovers r' k = (icovers r k || icovers o k)) ∧
      r'.start = r.start ∧ r.stop ≤ r'.stop := by
  have hm : RangeInclusive.merge r o = some r' := h
  rw [RangeInclusive.merge] at hm
  by_cases hc : r.contains o.start = true
  · have hc' : r.start ≤ o.start ∧ o.start ≤ r.stop := by
      simp only [RangeInclusive.contains] at hc
      by_cases hx : r.exhausted = true <;> simp [hx] at hc <;> grind
    simp only [hc, Bool.not_true, Bool.false_eq_true, if_false] at hm
    split at hm
    · obtain rfl := Option.some.inj hm
      refine ⟨fun k => ?_, rfl, by simp only [RangeInclusive.mk'_stop]; grind⟩
      rw [Bool.eq_iff_iff]
      simp [icovers]
      grind
    · obtain rfl := Option.some.inj hm
      refine ⟨fun k => ?_, rfl, by grind⟩
      rw [Bool.eq_iff_iff]
      simp [icovers]
      grind
  · simp [hc] at hm

theorem mergeLoop_covers : ∀ (n : Nat) (r : RangeInclusive K) (left right : List (RangeInclusive K)),
    left.length + right.length = n → r.start ≤ r.stop →
    ∃ r' left' right', Union.mergeLoop r left right = (r', ⟨left', right'⟩) ∧
      left' <:+ left ∧ right' <:+ right ∧ r'.start = r.start ∧ r'.start ≤ r'.stop ∧
      ∀ k, (icovers r' k || left'.any (icovers · k) || right'.any (icovers · k))
        = (icovers r k || left.any (icovers · k) || right.any (icovers · k)) := by
  intro n
  induction n using Nat.strongRecOn with
  | _ n ih =>
    intro r left right hn hr
    rw [Union.mergeLoop.eq_def]
    have key : ∀ {l : List (RangeInclusive K)} {p : RangeInclusive K × List (RangeInclusive K)},
        Union.join r l = some p → p.2 <:+ l ∧ p.2.length < l.length ∧ p.1.start = r.start ∧
          p.1.start ≤ p.1.stop ∧
          ∀ k, (icovers p.1 k || p.2.any (icovers · k)) = (icovers r k || l.any (icovers · k)) := by
      intro l p hp
      cases l with
      | nil => cases hp
      | cons a t =>
        simp only [Union.join, Option.map_eq_some_iff] at hp
        obtain ⟨r', h1, rfl⟩ := hp
        obtain ⟨h2, h3, h4⟩ := merge_covers h1
        refine ⟨List.suffix_cons a t, by simp, h3, by rw [h3]; grind, fun k => ?_⟩
        simp only [h2, List.any_cons, Bool.or_assoc]
    split
    · rename_i r' left' h
      obtain ⟨k1, k2, k3, k4, k5⟩ := key h
      obtain ⟨r2, l2, rr2, g1, g2, g3, g4, g5, g6⟩ :=
        ih (left'.length + right.length) (by simp only at k2; omega) r' left' right rfl k4
      refine ⟨r2, l2, rr2, g1, g2.trans k1, g3, g4.trans k3, g5, fun k => ?_⟩
      rw [g6, k5]
    · split
      · rename_i r' right' h
        obtain ⟨k1, k2, k3, k4, k5⟩ := key h
        obtain ⟨r2, l2, rr2, g1, g2, g3, g4, g5, g6⟩ :=
          ih (left.length + right'.length) (by simp only at k2; omega) r' left right' rfl k4
        refine ⟨r2, l2, rr2, g1, g2, g3.trans k1, g4.trans k3, g5, fun k => ?_⟩
        have := k5 k
        rw [g6]
        simp only at this
        grind
      · exact ⟨r, left, right, rfl, List.suffix_refl _, List.suffix_refl _, rfl, hr, fun k => rfl⟩

theorem union_covers : ∀ (n : Nat) (left right : List (RangeInclusive K)),
    left.length + right.length ≤ n → (∀ r ∈ left, r.start ≤ r.stop) →
    (∀ r ∈ right, r.start ≤ r.stop) →
    ∃ l, Yields Union.next (⟨left, right⟩ : Union (RangeInclusive K)) l ∧
      l.length ≤ left.length + right.length ∧ (∀ r ∈ l, r.start ≤ r.stop) ∧
      ∀ k, l.any (icovers · k) = (left.any (icovers · k) || right.any (icovers · k)) := by
  intro n
  induction n with
  | zero =>
    intro left right hn _ _
    obtain ⟨rfl, rfl⟩ : left = [] ∧ right = [] := by
      constructor <;> apply List.eq_nil_of_length_eq_zero <;> omega
    refine ⟨[], Yields.nil (fun s => s = (⟨[], []⟩ : Union (RangeInclusive K))) ?_ rfl, by simp,
      by simp, by simp⟩
    rintro s rfl
    exact ⟨rfl, rfl⟩
  | succ n ih =>
    intro left right hn hl hr
    have step : ∀ (x : RangeInclusive K) (l1 r1 : List (RangeInclusive K)), x.start ≤ x.stop →
        l1.length + r1.length ≤ n → (∀ r ∈ l1, r.start ≤ r.stop) → (∀ r ∈ r1, r.start ≤ r.stop) →
        (⟨left, right⟩ : Union _).first = some (x, ⟨l1, r1⟩) →
        (∀ k, (icovers x k || l1.any (icovers · k) || r1.any (icovers · k))
          = (left.any (icovers · k) || right.any (icovers · k))) →
        l1.length + r1.length + 1 = left.length + right.length →
        ∃ l, Yields Union.next (⟨left, right⟩ : Union (RangeInclusive K)) l ∧
          l.length ≤ left.length + right.length ∧ (∀ r ∈ l, r.start ≤ r.stop) ∧
          ∀ k, l.any (icovers · k) = (left.any (icovers · k) || right.any (icovers · k)) := by
      intro x l1 r1 hx hlen h1 h2 hf hc hlen'
      obtain ⟨x', l2, r2, g1, g2, g3, g4, g5, g6⟩ := mergeLoop_covers _ x l1 r1 rfl hx
      have e1 := g2.length_le
      have e2 := g3.length_le
      obtain ⟨l, i1, i2, i3, i4⟩ := ih l2 r2 (by omega) (fun r h => h1 r (g2.subset h))
        (fun r h => h2 r (g3.subset h))
      refine ⟨x' :: l, Yields.cons (by simp [Union.next, hf, g1]) i1, by simp; omega, ?_, ?_⟩
      · intro r h
        rcases List.mem_cons.1 h with rfl | h
        · exact g5
        · exact i3 r h
      · intro k
        rw [List.any_cons, i4, ← hc, ← g6, Bool.or_assoc]
    match left, right with
    | [], [] => exact ih [] [] (by simp) (by simp) (by simp)
    | a :: l, [] =>
      exact step a l [] (hl a (by simp)) (by simpa using hn) (fun r h => hl r (by simp [h]))
        (by simp) rfl (by simp) (by simp)
    | [], b :: r =>
      exact step b [] r (hr b (by simp)) (by simpa using hn) (by simp)
        (fun x h => hr x (by simp [h])) rfl (by simp) (by simp)
    | a :: l, b :: r =>
      simp only [List.length_cons] at hn
      by_cases h : (RangeOrder.orderStart a b).isLT = true
      · exact step a l (b :: r) (hl a (by simp)) (by simp; omega) (fun r h => hl r (by simp [h])) hr
          (by simp [Union.first, h]) (fun k => by simp) (by simp; omega)
      · exact step b (a :: l) r (hr b (by simp)) (by simp; omega) hl (fun r h => hr r (by simp [h]))
          (by simp [Union.first, h]) (fun k => by simp; grind) (by simp; omega)

theorem setFromIter_unflag (items : List (RangeInclusive K)) :
    RangeInclusiveSet.fromIter S (items.map unflag)
      = (RangeInclusiveSet.fromIter S items).map unflagSet := by
  have := setApply_unflag (S := S) (RangeInclusiveSet.new : RangeInclusiveSet K) (.extend items)
  have h : unflagSet (RangeInclusiveSet.new : RangeInclusiveSet K) = .new := rfl
  simp only [unflagSetOp, RangeInclusiveSet.apply, h] at this
  simp only [RangeInclusiveSet.fromIter, this]
  cases ((RangeInclusiveSet.new : RangeInclusiveSet K).extend S items).2 <;> rfl

theorem run_valid (hS : LawfulSteps S) (ops : List (SetOp (RangeInclusive K))) :
    ∀ r ∈ (RangeInclusiveSet.run S ops).iter, r.start ≤ r.stop := by
  intro r hr
  obtain ⟨e, he, rfl⟩ := List.mem_map.1 hr
  have : ReachableAny S (RangeInclusiveSet.run S ops).rm := ⟨_, (RangeInclusiveSet.run_rm ops).symm⟩
  exact (this.sc hS).sep.ne e he

theorem unflag_reachable (ops : List (SetOp (RangeInclusive K))) :
    RangeInclusiveSet.Reachable S (RangeInclusiveSet.run S (ops.map unflagSetOp)) := by
  refine ⟨_, fun op ho r hr => ?_, rfl⟩
  obtain ⟨o, -, rfl⟩ := List.mem_map.1 ho
  cases o with
  | insert x => obtain rfl : r = unflag x := by simpa [unflagSetOp, SetOp.inserted] using hr
                rfl
  | remove x => simp [unflagSetOp, SetOp.inserted] at hr
  | clear => simp [unflagSetOp, SetOp.inserted] at hr
  | extend items =>
    obtain ⟨x, -, rfl⟩ : ∃ x ∈ items, unflag x = r := by
      simpa [unflagSetOp, SetOp.inserted] using hr
    rfl

theorem any_unflag (l : List (RangeInclusive K)) (k : K) :
    (l.map unflag).any (icovers · k) = l.any (icovers · k) := by
  simp only [List.any_map]
  rfl

/-- **C84** `union` of sets that hold flagged ranges may yield overlapping ranges, but they still
cover exactly the keys of both sets; and `|` builds, apart from flags, the set that it builds from
the unflagged sets. -/
theorem C84_union (hS : LawfulSteps S) (ops ops' : List (SetOp (RangeInclusive K))) :
    ∃ l c c' d, Yields Union.next
        ((RangeInclusiveSet.run S ops).union (RangeInclusiveSet.run S ops')) l ∧
      (∀ r ∈ l, r.start ≤ r.stop) ∧
      (∀ k, (∃ r ∈ l, r.start ≤ k ∧ k ≤ r.stop) ↔
        (∃ r ∈ (RangeInclusiveSet.run S ops).iter, r.start ≤ k ∧ k ≤ r.stop) ∨
        ∃ r ∈ (RangeInclusiveSet.run S ops').iter, r.start ≤ k ∧ k ≤ r.stop) ∧
      (RangeInclusiveSet.run S ops).bitOr S (RangeInclusiveSet.run S ops') = .ok c ∧
      (RangeInclusiveSet.run S (ops.map unflagSetOp)).bitOr S
        (RangeInclusiveSet.run S (ops'.map unflagSetOp)) = .ok c' ∧
      RangeInclusiveSet.fromIter S (c.iter.map unflag) = .ok d ∧
      d.iter = c.iter.map unflag ∧ d.eq c' = true := by
  have v1 := run_valid hS ops
  have v2 := run_valid hS ops'
  have ra := unflag_reachable (S := S) ops
  have rb := unflag_reachable (S := S) ops'
  rw [setRun_unflag] at ra rb
  rw [setRun_unflag, setRun_unflag]
  generalize RangeInclusiveSet.run S ops = a at *
  generalize RangeInclusiveSet.run S ops' = b at *
  obtain ⟨l, l1, l2, l3, l4⟩ := union_covers _ a.iter b.iter (Nat.le_refl _) v1 v2
  obtain ⟨x, x1, x2, x3⟩ := RangeInclusiveSet.fromIter_has hS (items := l.map unflag) (by
    intro r hr
    obtain ⟨y, hy, rfl⟩ := List.mem_map.1 hr
    exact ⟨l3 y hy, rfl⟩)
  rw [setFromIter_unflag] at x1
  obtain ⟨c, hc⟩ : ∃ c, RangeInclusiveSet.fromIter S l = .ok c := by
    cases h : RangeInclusiveSet.fromIter S l with
    | error p => rw [h] at x1; cases x1
    | ok c => exact ⟨c, rfl⟩
  rw [hc] at x1
  obtain rfl : unflagSet c = x := Except.ok.inj x1
  have hor : a.bitOr S b = .ok c := by
    have hlen : a.iter.length + b.iter.length = a.len + b.len := by
      simp [RangeInclusiveSet.iter, RangeInclusiveSet.len, RangeInclusiveMap.iter, len]
    rw [RangeInclusiveSet.bitOr, RangeInclusiveSet.union, Yields.drain l1 (by omega)]
    exact hc
  obtain ⟨c', c1, -⟩ := C39_bitor hS ra rb
  obtain ⟨r1, e1⟩ := or_has hS ra rb c1
  have hrx : RangeInclusiveSet.Reachable S (unflagSet c) := .of_wf hS x2
  have hfi : RangeInclusiveSet.fromIter S (c.iter.map unflag) = .ok (unflagSet c) := by
    have h := RangeInclusiveSet.run_iter hS x2.sc
    rw [← unflagSet_iter]
    have h2 : RangeInclusiveSet.extend S .new (unflagSet c).iter = (unflagSet c, .ok ()) := by
      have h3 := RangeInclusiveSet.extend_has hS (unflagSet c).iter (s := .new) WF.nil
        (((RangeInclusiveSet.wf_iff _).1 x2).1)
      exact Prod.ext h h3.1
    simp only [RangeInclusiveSet.fromIter, h2]
    rfl
  refine ⟨l, c, c', unflagSet c, l1, l3, fun k => ?_, hor, c1, hfi, unflagSet_iter c,
    eq_has hS hrx r1 fun k => ?_⟩
  · have := l4 k
    rw [Bool.eq_iff_iff] at this
    simpa [icovers] using this
  · rw [x3, any_unflag, l4, e1, RangeInclusiveSet.has, RangeInclusiveSet.has, unflagSet_iter,
      unflagSet_iter, any_unflag, any_unflag]

end

-- a flagged range between plain ones: the history without the flag stores the same ends, and the
-- lookup of the end of the flagged range is the only difference
example :
    let ops : List (Op (RangeInclusive (UIntW 8)) Char) :=
      [.insert (Demo.by8 0 9) 'a', .insert ⟨⟨3⟩, ⟨4⟩, true⟩ 'b', .remove ⟨⟨7⟩, ⟨7⟩, true⟩]
    ((run Demo.u8 ops).iter,
      (run Demo.u8 (ops.map unflagOp)).iter,
      ((run Demo.u8 ops).get ⟨4⟩).toOption, ((run Demo.u8 (ops.map unflagOp)).get ⟨4⟩).toOption) =
    ([(Demo.by8 0 2, 'a'), (⟨⟨3⟩, ⟨4⟩, true⟩, 'b'), (Demo.by8 5 6, 'a'), (Demo.by8 8 9, 'a')],
      [(Demo.by8 0 2, 'a'), (Demo.by8 3 4, 'b'), (Demo.by8 5 6, 'a'), (Demo.by8 8 9, 'a')],
      some none, some (some 'b')) := by rfl

-- the union of the flagged 3..=7 with 7..=9 yields two overlapping ranges, and `|` still joins them
example :
    let a := RangeInclusiveSet.run Demo.u8 [.insert ⟨⟨3⟩, ⟨7⟩, true⟩]
    let b := RangeInclusiveSet.run Demo.u8 [.insert (Demo.by8 7 9)]
    (calls Union.next 3 (a.union b), (a.bitOr Demo.u8 b).toOption.map (·.iter)) =
    ([some ⟨⟨3⟩, ⟨7⟩, true⟩, some (Demo.by8 7 9), none], some [Demo.by8 3 9]) := by decide +kernel


example := C84_summary (S := Demo.u8) (fun a b : Char => compare a b) (fun a b => some (compare a b))
  [.insert ⟨⟨3⟩, ⟨7⟩, true⟩ 'a', .insert (Demo.by8 7 9) 'b'] Demo.iops
example := C84_flag_source (S := Demo.u8) [.insert ⟨⟨3⟩, ⟨7⟩, true⟩ 'a', .insert (Demo.by8 9 9) 'b']
example := C84_set_history (S := Demo.u8) [.insert ⟨⟨3⟩, ⟨7⟩, true⟩, .insert (Demo.by8 7 9)]
  (.remove ⟨⟨4⟩, ⟨5⟩, true⟩)

end Verif.Props.Inclusive

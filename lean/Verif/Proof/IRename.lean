import Verif.Proof.Rename
import Verif.Proof.IIter

/-!
# Renaming keys and values commutes with everything `RangeInclusiveMap` does
-/
set_option linter.unusedSectionVars false
set_option linter.unusedVariables false

namespace Verif
open Spec
variable {K K' : Type} [LE K] [LT K] [DecidableLE K] [DecidableLT K]
  [Std.IsLinearPreorder K] [Std.LawfulOrderLT K]
  [LE K'] [LT K'] [DecidableLE K'] [DecidableLT K']
  [Std.LawfulOrderLT K'] {V V' : Type} {f : K → K'} {g : V → V'}
  {S : StepFns K} {S' : StepFns K'}

theorem mapIRange_start (r : RangeInclusive K) : (mapIRange f r).start = f r.start := rfl

theorem mapIRange_stop (r : RangeInclusive K) : (mapIRange f r).stop = f r.stop := rfl

theorem mapIRange_mk' (a b : K) : RangeInclusive.mk' (f a) (f b) = mapIRange f (.mk' a b) := rfl

theorem filterE_map {α β : Type} {p : α → Except Panic Bool} {p' : β → Except Panic Bool}
    {h : α → β} (hp : ∀ a, p' (h a) = p a) (l : List α) :
    filterE p' (l.map h) = (filterE p l).map (List.map h) := by
  induction l with
  | nil => rfl
  | cons a t ih =>
    simp only [List.map_cons, filterE, hp, ih]
    cases p a with
    | error e => rfl
    | ok b =>
      cases filterE p t with
      | error e => rfl
      | ok l =>
        cases b <;> rfl

namespace RangeInclusive

theorem contains_map (hf : Embeds f) (r : RangeInclusive K) (k : K) :
    (mapIRange f r).contains (f k) = r.contains k := by
  simp [contains, mapIRange, hf.le, hf.lt]

theorem overlaps_map (hf : Embeds f) (r o : RangeInclusive K) :
    (mapIRange f r).overlaps (mapIRange f o) = r.overlaps o := by
  simp [overlaps, mapIRange, hf.rmax, hf.rmin, hf.le]

theorem touches_map (hf : Embeds f) (hS : StepsMap f S S') (r o : RangeInclusive K) :
    (mapIRange f r).touches S' (mapIRange f o) = r.touches S o := by
  simp only [touches, mapIRange_start, mapIRange_stop, hf.rmax, hf.rmin, hf.lt]
  split
  · rename_i h
    rw [hS.addOne _ _ h]
    cases S.addOne (rmin r.stop o.stop) with
    | error p => rfl
    | ok c => simp [Except.map, bind, Except.bind, hf.le]
  · simp [pure, Except.pure, bind, Except.bind, hf.le]

end RangeInclusive

namespace RangeInclusiveMap

/-- The map with its keys and values renamed. -/
def rename (f : K → K') (g : V → V') (m : RangeInclusiveMap K V) : RangeInclusiveMap K' V' :=
  ⟨m.btm.map (Prod.map (mapIRange f) g)⟩

theorem range_start_map (hf : Embeds f) (lo hi : Bound K) (l : List (RangeInclusive K × V)) :
    BTreeMap.range RangeInclusive.start (lo.map f) (hi.map f) (l.map (Prod.map (mapIRange f) g))
      = (BTreeMap.range RangeInclusive.start lo hi l).map (List.map (Prod.map (mapIRange f) g)) :=
  BTreeMap.range_map hf mapIRange_start lo hi l

theorem getKeyValue_rename (hf : Embeds f) (m : RangeInclusiveMap K V) (k : K) :
    (m.rename f g).getKeyValue (f k)
      = (m.getKeyValue k).map (Option.map (Prod.map (mapIRange f) g)) := by
  have := range_start_map (g := g) hf .unbounded (.included k) m.btm
  simp only [Bound.map] at this
  simp only [getKeyValue, rename, this]
  cases BTreeMap.range RangeInclusive.start .unbounded (.included k) m.btm with
  | error p => rfl
  | ok r =>
    show Except.ok _ = Except.ok _
    congr 1
    simp only [List.getLast?_map]
    cases r.getLast? with
    | none => rfl
    | some e =>
      simp only [Option.map_some, Option.filter_some, Prod.map_fst, RangeInclusive.contains_map hf]
      split <;> rfl

theorem get_rename (hf : Embeds f) (m : RangeInclusiveMap K V) (k : K) :
    (m.rename f g).get (f k) = (m.get k).map (Option.map g) := by
  simp only [get, getKeyValue_rename hf]
  cases m.getKeyValue k with
  | error p => rfl
  | ok o => cases o <;> rfl

theorem insertLeft_rename (hf : Embeds f) (hS : StepsMap f S S')
    (btm : List (RangeInclusive K × V)) (stored : RangeInclusive K) (sv : V)
    (n : RangeInclusive K) :
    insertLeft S' (btm.map (Prod.map (mapIRange f) g)) (mapIRange f stored) (g sv) (mapIRange f n)
      = (insertLeft S btm stored sv n).map (List.map (Prod.map (mapIRange f) g)) := by
  simp only [insertLeft, mapIRange_start, hf.lt]
  split
  · rename_i h
    rw [hS.subOne _ _ h]
    cases S.subOne n.start with
    | error p => rfl
    | ok c =>
      simp only [Except.map, bind, Except.bind, mapIRange_mk',
        BTreeMap.insert_map hf mapIRange_start]
      rfl
  · rfl

theorem insertRight_rename (hf : Embeds f) (hS : StepsMap f S S')
    (btm : List (RangeInclusive K × V)) (stored : RangeInclusive K) (sv : V)
    (n : RangeInclusive K) :
    insertRight S' (btm.map (Prod.map (mapIRange f) g)) (mapIRange f stored) (g sv) (mapIRange f n)
      = (insertRight S btm stored sv n).map (List.map (Prod.map (mapIRange f) g)) := by
  simp only [insertRight, mapIRange_stop, hf.lt]
  split
  · rename_i h
    rw [hS.addOne _ _ h]
    cases S.addOne n.stop with
    | error p => rfl
    | ok c =>
      simp only [Except.map, bind, Except.bind, mapIRange_mk',
        BTreeMap.insert_map hf mapIRange_start]
      rfl
  · rfl

theorem adjustRemove_rename (hf : Embeds f) (hS : StepsMap f S S')
    (btm : List (RangeInclusive K × V)) (stored : RangeInclusive K) (sv : V)
    (n : RangeInclusive K) :
    adjustOverlappingRangesForRemove S' (btm.map (Prod.map (mapIRange f) g)) (mapIRange f stored)
        (g sv) (mapIRange f n)
      = (adjustOverlappingRangesForRemove S btm stored sv n).map
          (List.map (Prod.map (mapIRange f) g)) := by
  simp only [adjustOverlappingRangesForRemove, mapIRange_start,
    BTreeMap.remove_map hf mapIRange_start, insertLeft_rename hf hS]
  cases insertLeft S (BTreeMap.remove RangeInclusive.start stored.start btm) stored sv n with
  | error p => rfl
  | ok l => exact insertRight_rename hf hS l stored sv n

section
variable [BEq V] [BEq V']

theorem adjustInsert_rename (hf : Embeds f) (hS : StepsMap f S S')
    (hg : ∀ a b, (g a == g b) = (a == b))
    (btm : List (RangeInclusive K × V)) (stored : RangeInclusive K) (sv : V)
    (n : RangeInclusive K) (v : V) :
    adjustTouchingRangesForInsert S' (btm.map (Prod.map (mapIRange f) g)) (mapIRange f stored)
        (g sv) (mapIRange f n) (g v)
      = (adjustTouchingRangesForInsert S btm stored sv n v).map
          (Prod.map (List.map (Prod.map (mapIRange f) g)) (mapIRange f)) := by
  unfold adjustTouchingRangesForInsert
  rw [hg, RangeInclusive.overlaps_map hf]
  split
  · simp only [mapIRange_start, mapIRange_stop, BTreeMap.remove_map hf mapIRange_start, hf.rmin,
      hf.rmax, mapIRange_mk']
    rfl
  · split
    · simp only [mapIRange_start, BTreeMap.remove_map hf mapIRange_start,
        insertLeft_rename hf hS]
      cases insertLeft S (BTreeMap.remove RangeInclusive.start stored.start btm) stored sv n with
      | error p => rfl
      | ok l =>
        simp only [Except.map, bind, Except.bind, insertRight_rename hf hS]
        cases insertRight S l stored sv n <;> rfl
    · rfl

theorem breakCond_rename (hf : Embeds f) (hS : StepsMap f S S')
    (hg : ∀ a b, (g a == g b) = (a == b)) (hi : K) (v : V) (x : RangeInclusive K × V) :
    breakCond S' (f hi) (g v) (Prod.map (mapIRange f) g x) = breakCond S hi v x := by
  simp only [breakCond, Prod.map, mapIRange_start, hf.lt, hg]
  split
  · rename_i h
    rw [hS.addOne _ _ h]
    cases S.addOne hi with
    | error p => rfl
    | ok c =>
      simp only [Except.map, bind, Except.bind, hf.lt, hf.keq]
  · rfl

theorem insertLoop_rename (hf : Embeds f) (hS : StepsMap f S S')
    (hg : ∀ a b, (g a == g b) = (a == b)) (hi : K) (v : V)
    (fuel : Nat) (btm : List (RangeInclusive K × V)) (n : RangeInclusive K) :
    insertLoop S' (f hi) (g v) fuel (btm.map (Prod.map (mapIRange f) g)) (mapIRange f n)
      = (insertLoop S hi v fuel btm n).map
          (Prod.map (List.map (Prod.map (mapIRange f) g)) (mapIRange f)) := by
  induction fuel generalizing btm n with
  | zero => rfl
  | succ fuel ih =>
    have h := range_start_map (g := g) hf (.included n.start) .unbounded btm
    simp only [Bound.map] at h
    simp only [insertLoop, mapIRange_start, h]
    cases BTreeMap.range RangeInclusive.start (.included n.start) .unbounded btm with
    | error p => rfl
    | ok r =>
      simp only [Except.map, bind, Except.bind, List.head?_map]
      cases r.head? with
      | none => rfl
      | some e =>
        simp only [Option.map_some, breakCond_rename hf hS hg]
        cases breakCond S hi v e with
        | error p => rfl
        | ok b =>
          cases b with
          | true => rfl
          | false =>
            simp only [Prod.map_fst, Prod.map_snd, adjustInsert_rename hf hS hg]
            cases adjustTouchingRangesForInsert S btm e.1 e.2 n v with
            | error p => rfl
            | ok q => exact ih q.1 q.2

theorem insertPrefix_rename (hf : Embeds f) (hS : StepsMap f S S')
    (hg : ∀ a b, (g a == g b) = (a == b)) (v : V)
    (btm : List (RangeInclusive K × V)) (n : RangeInclusive K) :
    insertPrefix S' (btm.map (Prod.map (mapIRange f) g)) (mapIRange f n) (g v)
      = (insertPrefix S btm n v).map
          (Prod.map (List.map (Prod.map (mapIRange f) g)) (mapIRange f)) := by
  have h := range_start_map (g := g) hf .unbounded (.included n.start) btm
  simp only [Bound.map] at h
  simp only [insertPrefix, mapIRange_start, h]
  cases BTreeMap.range RangeInclusive.start .unbounded (.included n.start) btm with
  | error p => rfl
  | ok r =>
    simp only [Except.map, bind, Except.bind]
    rw [← List.map_reverse, ← List.map_take,
      filterE_map (p := fun e => e.1.touches S n) (fun e => by
        simp only [Prod.map_fst, RangeInclusive.touches_map hf hS])]
    cases filterE (fun e => e.1.touches S n) (r.reverse.take 2) with
    | error p => rfl
    | ok c =>
      cases c with
      | nil => rfl
      | cons a t =>
        cases t with
        | nil => exact adjustInsert_rename hf hS hg btm a.1 a.2 n v
        | cons b t => exact adjustInsert_rename hf hS hg btm b.1 b.2 n v

theorem insert_rename (hf : Embeds f) (hS : StepsMap f S S')
    (hg : ∀ a b, (g a == g b) = (a == b)) (m : RangeInclusiveMap K V)
    (r : RangeInclusive K) (v : V) :
    (m.rename f g).insert S' (mapIRange f r) (g v) = (m.insert S r v).map (rename f g) := by
  simp only [insert, insertFuel, mapIRange_start, mapIRange_stop, hf.le,
      show (m.rename f g).len = m.len by simp [len, rename]]
  split
  · rfl
  · simp only [rename, insertPrefix_rename hf hS hg]
    cases insertPrefix S m.btm r v with
    | error p => rfl
    | ok p =>
      simp only [Except.map, bind, Except.bind, Prod.map_fst, Prod.map_snd, pure, Except.pure,
        mapIRange_stop, insertLoop_rename hf hS hg]
      cases insertLoop S p.2.stop v (m.len + 2) p.1 p.2 with
      | error p => rfl
      | ok q =>
        simp only [Prod.map_fst, Prod.map_snd]
        rw [BTreeMap.insert_map hf mapIRange_start]
        rfl

end

theorem removeLoop_rename (hf : Embeds f) (hS : StepsMap f S S') (n : RangeInclusive K)
    (fuel : Nat) (btm : List (RangeInclusive K × V)) :
    removeLoop S' (mapIRange f n) fuel (btm.map (Prod.map (mapIRange f) g))
      = (removeLoop S n fuel btm).map (List.map (Prod.map (mapIRange f) g)) := by
  induction fuel generalizing btm with
  | zero => rfl
  | succ fuel ih =>
    have h := range_start_map (g := g) hf (.excluded n.start) (.included n.stop) btm
    simp only [Bound.map] at h
    simp only [removeLoop, mapIRange_start, mapIRange_stop, h]
    cases BTreeMap.range RangeInclusive.start (.excluded n.start) (.included n.stop) btm with
    | error p => rfl
    | ok r =>
      simp only [Except.map, bind, Except.bind, List.head?_map]
      cases r.head? with
      | none => rfl
      | some e =>
        simp only [Option.map_some, Prod.map]
        rw [adjustRemove_rename hf hS]
        cases adjustOverlappingRangesForRemove S btm e.1 e.2 n with
        | error p => rfl
        | ok l => exact ih l

theorem removePrefix_rename (hf : Embeds f) (hS : StepsMap f S S') (n : RangeInclusive K)
    (btm : List (RangeInclusive K × V)) :
    removePrefix S' (btm.map (Prod.map (mapIRange f) g)) (mapIRange f n)
      = (removePrefix S btm n).map (List.map (Prod.map (mapIRange f) g)) := by
  have h := range_start_map (g := g) hf .unbounded (.included n.start) btm
  simp only [Bound.map] at h
  simp only [removePrefix, mapIRange_start, h]
  cases BTreeMap.range RangeInclusive.start .unbounded (.included n.start) btm with
  | error p => rfl
  | ok r =>
    simp only [Except.map, bind, Except.bind, List.getLast?_map]
    cases r.getLast? with
    | none => rfl
    | some e =>
      simp only [Option.map_some, Option.filter_some, Prod.map_fst,
        RangeInclusive.overlaps_map hf]
      by_cases he : e.1.overlaps n = true
      · simp only [he, if_true, Prod.map, adjustRemove_rename hf hS]
        cases adjustOverlappingRangesForRemove S btm e.1 e.2 n <;> rfl
      · simp only [he]
        rfl

theorem remove_rename (hf : Embeds f) (hS : StepsMap f S S') (m : RangeInclusiveMap K V)
    (r : RangeInclusive K) :
    (m.rename f g).remove S' (mapIRange f r) = (m.remove S r).map (rename f g) := by
  simp only [remove, removeFuel, mapIRange_start, mapIRange_stop, hf.le,
      show (m.rename f g).len = m.len by simp [len, rename]]
  split
  · rfl
  · simp only [rename, removePrefix_rename hf hS]
    cases removePrefix S m.btm r with
    | error p => rfl
    | ok p =>
      simp only [Except.map, bind, Except.bind, pure, Except.pure]
      rw [removeLoop_rename hf hS]
      cases removeLoop S r (m.len + 2) p <;> rfl

section
variable [BEq V] [BEq V']

theorem extend_rename (hf : Embeds f) (hS : StepsMap f S S')
    (hg : ∀ a b, (g a == g b) = (a == b)) (m : RangeInclusiveMap K V)
    (items : List (RangeInclusive K × V)) :
    (m.rename f g).extend S' (items.map (Prod.map (mapIRange f) g))
      = ((m.extend S items).1.rename f g, (m.extend S items).2) := by
  induction items generalizing m with
  | nil => rfl
  | cons e t ih =>
    simp only [List.map_cons, Prod.map, extend, insert_rename hf hS hg]
    cases m.insert S e.1 e.2 with
    | error p => rfl
    | ok m' => exact ih m'

theorem apply_rename (hf : Embeds f) (hS : StepsMap f S S')
    (hg : ∀ a b, (g a == g b) = (a == b)) (m : RangeInclusiveMap K V)
    (op : Op (RangeInclusive K) V) :
    (m.rename f g).apply S' (op.map (mapIRange f) g)
      = ((m.apply S op).1.rename f g, (m.apply S op).2) := by
  cases op with
  | insert r v =>
    simp only [Op.map, apply, insert_rename hf hS hg]
    cases m.insert S r v <;> rfl
  | remove r =>
    simp only [Op.map, apply, remove_rename hf hS]
    cases m.remove S r <;> rfl
  | clear => rfl
  | extend items => exact extend_rename hf hS hg m items

theorem run_rename (hf : Embeds f) (hS : StepsMap f S S')
    (hg : ∀ a b, (g a == g b) = (a == b)) (ops : List (Op (RangeInclusive K) V)) :
    run S' (ops.map (Op.map (mapIRange f) g)) = (run S ops).rename f g := by
  unfold run
  rw [show (RangeInclusiveMap.new : RangeInclusiveMap K' V')
    = (RangeInclusiveMap.new : RangeInclusiveMap K V).rename f g from rfl]
  generalize (RangeInclusiveMap.new : RangeInclusiveMap K V) = m
  induction ops generalizing m with
  | nil => rfl
  | cons op ops ih =>
    simp only [List.map_cons, List.foldl_cons]
    rw [apply_rename hf hS hg, ih]

theorem eq_rename (hf : Embeds f) (hg : ∀ a b, (g a == g b) = (a == b))
    (m m' : RangeInclusiveMap K V) :
    (m.rename f g).eq (m'.rename f g) = m.eq m' := by
  obtain ⟨l⟩ := m
  obtain ⟨l'⟩ := m'
  simp only [RangeInclusiveMap.eq, rename, iter]
  induction l generalizing l' with
  | nil => cases l' <;> rfl
  | cons a t ih =>
    cases l' with
    | nil => rfl
    | cons b t' =>
      simp only [List.map_cons, iterEq, ih]
      congr 1
      simp [entryEq, Prod.map, mapIRange, hf.keq, hg]

end

theorem cmp_rename (hf : Embeds f) {vcmp : V → V → Ordering} {vcmp' : V' → V' → Ordering}
    (hg : ∀ a b, vcmp' (g a) (g b) = vcmp a b) (m m' : RangeInclusiveMap K V) :
    (m.rename f g).cmp vcmp' (m'.rename f g) = m.cmp vcmp m' := by
  obtain ⟨l⟩ := m
  obtain ⟨l'⟩ := m'
  simp only [RangeInclusiveMap.cmp, rename, expandedIter]
  induction l generalizing l' with
  | nil => cases l' <;> rfl
  | cons a t ih =>
    cases l' with
    | nil => rfl
    | cons b t' =>
      simp only [List.map_cons, iterCmp, ih]
      simp [tripleCmp, Prod.map, mapIRange, hf.kcmp, hg]

theorem partialCmp_rename (hf : Embeds f) {vcmp : V → V → Option Ordering}
    {vcmp' : V' → V' → Option Ordering} (hg : ∀ a b, vcmp' (g a) (g b) = vcmp a b)
    (m m' : RangeInclusiveMap K V) :
    (m.rename f g).partialCmp vcmp' (m'.rename f g) = m.partialCmp vcmp m' := by
  obtain ⟨l⟩ := m
  obtain ⟨l'⟩ := m'
  simp only [RangeInclusiveMap.partialCmp, rename, expandedIter]
  induction l generalizing l' with
  | nil => cases l' <;> rfl
  | cons a t ih =>
    cases l' with
    | nil => rfl
    | cons b t' =>
      simp only [List.map_cons, iterPartialCmp, ih]
      simp [triplePartialCmp, Prod.map, mapIRange, hf.kcmp, hg]

/-! ### iterators -/

/-- The iterator with its remaining entries renamed. -/
def Overlapping.rename (f : K → K') (g : V → V') (o : Overlapping K V) : Overlapping K' V' :=
  ⟨mapIRange f o.queryRange, o.btmRangeIter.map (Prod.map (mapIRange f) g)⟩

theorem overlapping_rename (hf : Embeds f) (m : RangeInclusiveMap K V) (q : RangeInclusive K) :
    (m.rename f g).overlapping (mapIRange f q)
      = (m.overlapping q).map (Overlapping.rename f g) := by
  have h := BTreeMap.range_map (g := g) (key := RangeInclusive.stop) (key' := RangeInclusive.stop)
    (φ := mapIRange f) hf mapIRange_stop (.included q.start) .unbounded m.btm
  simp only [Bound.map] at h
  simp only [overlapping, RangeInclusiveMap.rename, mapIRange_start, h]
  cases BTreeMap.range RangeInclusive.stop (.included q.start) .unbounded m.btm <;> rfl

theorem Overlapping.next_rename (hf : Embeds f) (o : Overlapping K V) :
    (o.rename f g).next
      = Prod.map (Option.map (Prod.map (mapIRange f) g)) (Overlapping.rename f g) o.next := by
  obtain ⟨q, l⟩ := o
  cases l with
  | nil => rfl
  | cons e t =>
    simp only [Overlapping.next, Overlapping.rename, Deque.next, List.map_cons, Prod.map_fst,
      mapIRange_start, mapIRange_stop, hf.le]
    split <;> rfl

omit [Std.IsLinearPreorder K] [Std.LawfulOrderLT K] in
theorem Overlapping.nextBack_nil (q : RangeInclusive K) :
    (⟨q, []⟩ : Overlapping K V).nextBack = (none, ⟨q, []⟩) := by
  unfold Overlapping.nextBack
  split
  · rename_i h; cases h
  · rfl

omit [Std.IsLinearPreorder K] [Std.LawfulOrderLT K] in
theorem Overlapping.nextBack_concat (q : RangeInclusive K) (t : List (RangeInclusive K × V))
    (e : RangeInclusive K × V) :
    (⟨q, t ++ [e]⟩ : Overlapping K V).nextBack
      = if e.1.start ≤ q.stop then (some e, ⟨q, t⟩) else (⟨q, t⟩ : Overlapping K V).nextBack := by
  rw [Overlapping.nextBack]
  split
  · rename_i e' h
    obtain rfl : e = e' := by simpa using h
    simp
  · rename_i h
    simp at h

theorem Overlapping.nextBack_rename (hf : Embeds f) (o : Overlapping K V) :
    (o.rename f g).nextBack
      = Prod.map (Option.map (Prod.map (mapIRange f) g)) (Overlapping.rename f g) o.nextBack := by
  obtain ⟨q, l⟩ := o
  induction hl : l.length generalizing l with
  | zero =>
    obtain rfl : l = [] := List.eq_nil_of_length_eq_zero hl
    simp only [Overlapping.rename, List.map_nil, Overlapping.nextBack_nil]
    rfl
  | succ n ih =>
    rcases List.eq_nil_or_concat l with rfl | ⟨t, e, rfl⟩
    · simp at hl
    · have ih := ih t (by simpa using hl)
      simp only [Overlapping.rename, List.concat_eq_append, List.map_append, List.map_cons,
        List.map_nil, Overlapping.nextBack_concat, Prod.map_fst, mapIRange_start, mapIRange_stop,
        hf.le] at ih ⊢
      rw [ih]
      split <;> rfl

/-- The iterator with its keys and remaining entries renamed. -/
def Gaps.rename (f : K → K') (g : V → V') (o : Gaps K V) : Gaps K' V' :=
  ⟨o.candidateNeedsPlusOne, f o.candidateStart, f o.queryEnd,
    o.btmRangeIter.map (Prod.map (mapIRange f) g)⟩

theorem gaps_rename (hf : Embeds f) (m : RangeInclusiveMap K V) (q : RangeInclusive K) :
    (m.rename f g).gaps (mapIRange f q) = (m.gaps q).map (Gaps.rename f g) := by
  simp only [gaps, overlapping_rename hf]
  cases m.overlapping q <;> rfl

theorem Gaps.nextTail_rename (hf : Embeds f) (hS : StepsMap f S S') (b : Bool) (c e : K)
    (l : List (RangeInclusive K × V)) :
    Gaps.nextTail S' b (f c) (f e) (l.map (Prod.map (mapIRange f) g))
      = (Gaps.nextTail S b c e l).map
          (Prod.map (Option.map (mapIRange f)) (Gaps.rename f g)) := by
  simp only [Gaps.nextTail, hf.lt, hf.le]
  split
  · split
    · rename_i h
      rw [hS.addOne _ _ h]
      cases S.addOne c <;> rfl
    · rfl
  · split <;> rfl

/-- What keeps `add_one` from being called at the greatest key: when the candidate start is the end
of a stored range, all remaining ranges start after it; and the remaining ranges are sorted and
disjoint. -/
def Gaps.Guard (o : Gaps K V) : Prop :=
  (o.candidateNeedsPlusOne = true → ∀ x ∈ o.btmRangeIter, o.candidateStart < x.1.start) ∧
    Sep o.btmRangeIter

theorem Gaps.nextTail_guard {b : Bool} {c e : K} {l : List (RangeInclusive K × V)}
    {a : Option (RangeInclusive K)} {o' : Gaps K V} (h : Gaps.nextTail S b c e l = .ok (a, o'))
    (hl : ∀ x ∈ l, e < x.1.start) (hs : Sep l) : o'.Guard := by
  suffices o' = ⟨true, e, e, l⟩ by
    subst this
    exact ⟨fun _ => hl, hs⟩
  simp only [Gaps.nextTail] at h
  split at h
  · split at h
    · cases hc : S.addOne c with
      | error p => simp [hc, bind, Except.bind] at h
      | ok d =>
        simp only [hc, bind, Except.bind, pure, Except.pure, Except.ok.injEq, Prod.mk.injEq] at h
        exact h.2.symm
    · simp only [pure, Except.pure, Except.ok.injEq, Prod.mk.injEq] at h
      exact h.2.symm
  · split at h <;>
    · simp only [pure, Except.pure, Except.ok.injEq, Prod.mk.injEq] at h
      exact h.2.symm

theorem Gaps.nextLoop_rename (hf : Embeds f) (hS : StepsMap f S S') (b : Bool) (c e : K)
    (l : List (RangeInclusive K × V)) (h1 : b = true → ∀ x ∈ l, c < x.1.start) (h2 : Sep l) :
    Gaps.nextLoop S' b (f c) (f e) (l.map (Prod.map (mapIRange f) g))
      = (Gaps.nextLoop S b c e l).map
          (Prod.map (Option.map (mapIRange f)) (Gaps.rename f g)) ∧
    ∀ a o', Gaps.nextLoop S b c e l = .ok (a, o') → o'.Guard := by
  induction l generalizing b c with
  | nil =>
    exact ⟨Gaps.nextTail_rename hf hS b c e [], fun a o' h =>
      Gaps.nextTail_guard (h : Gaps.nextTail S b c e [] = _) (by simp) h2⟩
  | cons x t ih =>
    have hs : Sep t := ⟨(List.pairwise_cons.1 h2.pw).2, fun y hy => h2.ne y (by simp [hy])⟩
    have hx : ∀ y ∈ t, x.1.start ≤ x.1.stop ∧ x.1.stop < y.1.start := fun y hy =>
      ⟨h2.ne x (by simp), by have := (List.pairwise_cons.1 h2.pw).1 y hy; grind [Before]⟩
    simp only [List.map_cons, Gaps.nextLoop, Prod.map_fst, mapIRange_start, mapIRange_stop, hf.lt]
    split
    · rename_i hb
      exact ⟨Gaps.nextTail_rename hf hS b c e t, fun a o' h =>
        Gaps.nextTail_guard h (fun y hy => by have := hx y hy; grind) hs⟩
    · have hcur : Gaps.curCandidateStart S' b (f c) = (Gaps.curCandidateStart S b c).map f := by
        simp only [Gaps.curCandidateStart]
        split
        · rename_i hb
          exact hS.addOne _ _ (h1 hb x (by simp))
        · rfl
      rw [hcur]
      cases Gaps.curCandidateStart S b c with
      | error p => exact ⟨rfl, fun a o' h => by cases h⟩
      | ok cur =>
        simp only [Except.map, bind, Except.bind, hf.lt]
        split
        · rename_i hc
          rw [hS.subOne _ _ hc]
          cases S.subOne x.1.start with
          | error p => exact ⟨rfl, fun a o' h => by cases h⟩
          | ok d =>
            refine ⟨rfl, fun a o' h => ?_⟩
            simp only [pure, Except.pure, Except.ok.injEq, Prod.mk.injEq] at h
            obtain ⟨-, rfl⟩ := h
            exact ⟨fun _ y hy => (hx y hy).2, hs⟩
        · exact ih true x.1.stop (fun _ y hy => (hx y hy).2) hs

theorem Gaps.next_rename (hf : Embeds f) (hS : StepsMap f S S') (o : Gaps K V)
    (ho : o.Guard) :
    (o.rename f g).next S'
      = (o.next S).map (Prod.map (Option.map (mapIRange f)) (Gaps.rename f g)) ∧
    ∀ a o', o.next S = .ok (a, o') → o'.Guard :=
  Gaps.nextLoop_rename hf hS _ _ _ _ ho.1 ho.2

theorem Gaps.calls_rename (hf : Embeds f) (hS : StepsMap f S S') (n : Nat) (o : Gaps K V)
    (ho : o.Guard) :
    callsE (Gaps.next S') n (o.rename f g)
      = (callsE (Gaps.next S) n o).map (List.map (Option.map (mapIRange f))) := by
  induction n generalizing o with
  | zero => rfl
  | succ n ih =>
    obtain ⟨h1, h2⟩ := Gaps.next_rename (g := g) hf hS o ho
    simp only [callsE, h1]
    cases h : o.next S with
    | error p => rfl
    | ok p =>
      have := ih p.2 (h2 p.1 p.2 h)
      simp only [Except.map, Prod.map]
      rw [this]
      cases callsE (Gaps.next S) n p.2 <;> rfl

theorem gaps_guard {m : RangeInclusiveMap K V} (h : Sep m.btm) {q : RangeInclusive K}
    {o : Gaps K V} (ho : m.gaps q = .ok o) : o.Guard := by
  simp only [gaps, overlapping, BTreeMap.range, Bound.invalid] at ho
  simp only [bind, Except.bind, pure, Except.pure, Bool.false_eq_true, if_false,
    Except.ok.injEq] at ho
  subst ho
  exact ⟨(fun h => by cases h), ⟨h.pw.sublist List.filter_sublist,
    fun x hx => h.ne x (List.mem_filter.1 hx).1⟩⟩

end RangeInclusiveMap
end Verif

import Verif.Proof.Iter
import Verif.Model.Cmp

/-!
# Renaming keys and values commutes with everything `RangeMap` does
-/
set_option linter.unusedSectionVars false
set_option linter.unusedVariables false

namespace Verif
open Spec
variable {K K' : Type} [LE K] [LT K] [DecidableLE K] [DecidableLT K]
  [Std.IsLinearPreorder K] [Std.LawfulOrderLT K]
  [LE K'] [LT K'] [DecidableLE K'] [DecidableLT K']
  [Std.LawfulOrderLT K'] {V V' : Type} {f : K → K'} {g : V → V'}

theorem Spec.Embeds.le (hf : Embeds f) (a b : K) : (f a ≤ f b) = (a ≤ b) := propext (hf a b)

theorem Spec.Embeds.lt (hf : Embeds f) (a b : K) : (f a < f b) = (a < b) := by
  apply propext
  rw [Std.LawfulOrderLT.lt_iff, Std.LawfulOrderLT.lt_iff, hf, hf]

theorem Spec.Embeds.keq (hf : Embeds f) (a b : K) : Verif.keq (f a) (f b) = Verif.keq a b := by
  simp [Verif.keq, hf.le]

theorem Spec.Embeds.rmax (hf : Embeds f) (a b : K) : Verif.rmax (f a) (f b) = f (Verif.rmax a b) := by
  simp only [Verif.rmax, hf.lt]; split <;> rfl

theorem Spec.Embeds.rmin (hf : Embeds f) (a b : K) : Verif.rmin (f a) (f b) = f (Verif.rmin a b) := by
  simp only [Verif.rmin, hf.lt]; split <;> rfl

theorem Spec.Embeds.kcmp (hf : Embeds f) (a b : K) : Verif.kcmp (f a) (f b) = Verif.kcmp a b := by
  simp only [Verif.kcmp, hf.lt]

/-- The bound with its key renamed. -/
def Bound.map (f : K → K') : Bound K → Bound K'
  | .unbounded => .unbounded
  | .included k => .included (f k)
  | .excluded k => .excluded (f k)

namespace BTreeMap
variable {R R' : Type} {key : R → K} {key' : R' → K'} {φ : R → R'}

theorem insert_map (hf : Embeds f) (hk : ∀ r, key' (φ r) = f (key r)) (r : R) (v : V)
    (l : List (R × V)) :
    insert key' (φ r) (g v) (l.map (Prod.map φ g)) = (insert key r v l).map (Prod.map φ g) := by
  induction l with
  | nil => rfl
  | cons e t ih =>
    simp only [List.map_cons, insert, Prod.map_fst, hk, hf.lt, ih]
    split
    · rfl
    · split <;> rfl

theorem remove_map (hf : Embeds f) (hk : ∀ r, key' (φ r) = f (key r)) (k : K)
    (l : List (R × V)) :
    remove key' (f k) (l.map (Prod.map φ g)) = (remove key k l).map (Prod.map φ g) := by
  induction l with
  | nil => rfl
  | cons e t ih =>
    simp only [List.map_cons, remove, Prod.map_fst, hk, hf.keq, ih]
    split <;> rfl

theorem range_map (hf : Embeds f) (hk : ∀ r, key' (φ r) = f (key r)) (lo hi : Bound K)
    (l : List (R × V)) :
    range key' (lo.map f) (hi.map f) (l.map (Prod.map φ g))
      = (range key lo hi l).map (List.map (Prod.map φ g)) := by
  have h1 : Bound.invalid (lo.map f) (hi.map f) = Bound.invalid lo hi := by
    cases lo <;> cases hi <;> simp [Bound.map, Bound.invalid, hf.le, hf.lt]
  have h2 : ∀ k, (lo.map f).admitsAsLower (f k) = lo.admitsAsLower k := by
    intro k; cases lo <;> simp [Bound.map, Bound.admitsAsLower, hf.le, hf.lt]
  have h3 : ∀ k, (hi.map f).admitsAsUpper (f k) = hi.admitsAsUpper k := by
    intro k; cases hi <;> simp [Bound.map, Bound.admitsAsUpper, hf.le, hf.lt]
  unfold range
  rw [h1]
  split
  · rfl
  · simp only [Except.map, List.filter_map]
    congr 3
    funext e
    simp [Function.comp, hk, h2, h3]

end BTreeMap

theorem mapRange_start (r : Range K) : (mapRange f r).start = f r.start := rfl

theorem mapRange_stop (r : Range K) : (mapRange f r).stop = f r.stop := rfl

namespace Range

theorem contains_map (hf : Embeds f) (r : Range K) (k : K) :
    (mapRange f r).contains (f k) = r.contains k := by
  simp [contains, mapRange, hf.le, hf.lt]

theorem overlaps_map (hf : Embeds f) (r o : Range K) :
    (mapRange f r).overlaps (mapRange f o) = r.overlaps o := by
  simp [overlaps, mapRange, hf.rmax, hf.rmin, hf.lt]

theorem touches_map (hf : Embeds f) (r o : Range K) :
    (mapRange f r).touches (mapRange f o) = r.touches o := by
  simp [touches, mapRange, hf.rmax, hf.rmin, hf.le]

end Range

namespace RangeMap

/-- The map with its keys and values renamed. -/
def rename (f : K → K') (g : V → V') (m : RangeMap K V) : RangeMap K' V' :=
  ⟨m.btm.map (Prod.map (mapRange f) g)⟩

theorem range_start_map (hf : Embeds f) (lo hi : Bound K) (l : List (Range K × V)) :
    BTreeMap.range Range.start (lo.map f) (hi.map f) (l.map (Prod.map (mapRange f) g))
      = (BTreeMap.range Range.start lo hi l).map (List.map (Prod.map (mapRange f) g)) :=
  BTreeMap.range_map hf mapRange_start lo hi l

theorem getKeyValue_rename (hf : Embeds f) (m : RangeMap K V) (k : K) :
    (m.rename f g).getKeyValue (f k)
      = (m.getKeyValue k).map (Option.map (Prod.map (mapRange f) g)) := by
  have := range_start_map (g := g) hf .unbounded (.included k) m.btm
  simp only [Bound.map] at this
  simp only [getKeyValue, rename, this]
  cases BTreeMap.range Range.start .unbounded (.included k) m.btm with
  | error p => rfl
  | ok r =>
    show Except.ok _ = Except.ok _
    congr 1
    simp only [List.getLast?_map]
    cases r.getLast? with
    | none => rfl
    | some e =>
      simp only [Option.map_some, Option.filter_some, Prod.map_fst, Range.contains_map hf]
      split <;> rfl

theorem get_rename (hf : Embeds f) (m : RangeMap K V) (k : K) :
    (m.rename f g).get (f k) = (m.get k).map (Option.map g) := by
  simp only [get, getKeyValue_rename hf]
  cases m.getKeyValue k with
  | error p => rfl
  | ok o => cases o <;> rfl

section
variable [BEq V] [BEq V']

theorem adjustInsert_rename (hf : Embeds f) (hg : ∀ a b, (g a == g b) = (a == b))
    (btm : List (Range K × V)) (stored : Range K) (sv : V) (n : Range K) (v : V) :
    adjustTouchingRangesForInsert (btm.map (Prod.map (mapRange f) g)) (mapRange f stored) (g sv)
        (mapRange f n) (g v)
      = Prod.map (List.map (Prod.map (mapRange f) g)) (mapRange f)
          (adjustTouchingRangesForInsert btm stored sv n v) := by
  have hk : ∀ r : Range K, (mapRange f r).start = f r.start := fun _ => rfl
  have hk' : ∀ r : Range K, (mapRange f r).stop = f r.stop := fun _ => rfl
  have hmk : ∀ a b, (⟨f a, f b⟩ : Range K') = mapRange f ⟨a, b⟩ := fun _ _ => rfl
  unfold adjustTouchingRangesForInsert
  rw [hg, Range.overlaps_map hf]
  split
  · simp only [hk, hk', BTreeMap.remove_map hf hk, hf.rmin, hf.rmax, hmk, Prod.map]
  · split
    · simp only [hk, hk', BTreeMap.remove_map hf hk, hf.lt, hmk]
      by_cases h1 : stored.start < n.start <;> by_cases h2 : n.stop < stored.stop <;>
        simp only [h1, h2, if_true, if_false, BTreeMap.insert_map hf hk, Prod.map]
    · rfl

theorem insertLoop_rename (hf : Embeds f) (hg : ∀ a b, (g a == g b) = (a == b)) (hi : K) (v : V)
    (fuel : Nat) (btm : List (Range K × V)) (n : Range K) :
    insertLoop (f hi) (g v) fuel (btm.map (Prod.map (mapRange f) g)) (mapRange f n)
      = (insertLoop hi v fuel btm n).map
          (Prod.map (List.map (Prod.map (mapRange f) g)) (mapRange f)) := by
  induction fuel generalizing btm n with
  | zero => rfl
  | succ fuel ih =>
    have h := range_start_map (g := g) hf (.included n.start) (.included hi) btm
    simp only [Bound.map] at h
    simp only [insertLoop, show (mapRange f n).start = f n.start from rfl, h]
    cases BTreeMap.range Range.start (.included n.start) (.included hi) btm with
    | error p => rfl
    | ok r =>
      simp only [Except.map, bind, Except.bind, List.head?_map]
      cases r.head? with
      | none => rfl
      | some e =>
        simp only [Option.map_some, Prod.map,
          show (mapRange f n).stop = f n.stop from rfl,
          show (mapRange f e.1).start = f e.1.start from rfl, hf.keq, hg]
        split
        · rfl
        · rw [adjustInsert_rename hf hg]
          simp only [Prod.map]
          rw [ih]
          rfl

theorem insertPrefix_rename (hf : Embeds f) (hg : ∀ a b, (g a == g b) = (a == b)) (v : V)
    (btm : List (Range K × V)) (n : Range K) :
    insertPrefix (btm.map (Prod.map (mapRange f) g)) (mapRange f n) (g v)
      = (insertPrefix btm n v).map
          (Prod.map (List.map (Prod.map (mapRange f) g)) (mapRange f)) := by
  have h := range_start_map (g := g) hf .unbounded (.included n.start) btm
  simp only [Bound.map] at h
  simp only [insertPrefix, show (mapRange f n).start = f n.start from rfl, h]
  cases BTreeMap.range Range.start .unbounded (.included n.start) btm with
  | error p => rfl
  | ok r =>
    simp only [Except.map, bind, Except.bind]
    rw [← List.map_reverse, ← List.map_take, List.filter_map]
    have : ((fun e : Range K' × V' => e.1.touches (mapRange f n)) ∘ Prod.map (mapRange f) g)
        = fun e : Range K × V => e.1.touches n := by
      funext e
      simp [Function.comp, Range.touches_map hf]
    rw [this]
    cases (r.reverse.take 2).filter (fun e => e.1.touches n) with
    | nil => rfl
    | cons a t =>
      cases t with
      | nil =>
        simp only [List.map_cons, List.map_nil, Prod.map_fst, Prod.map_snd,
          adjustInsert_rename hf hg]
        rfl
      | cons b t =>
        simp only [List.map_cons, Prod.map_fst, Prod.map_snd, adjustInsert_rename hf hg]
        rfl

theorem insert_rename (hf : Embeds f) (hg : ∀ a b, (g a == g b) = (a == b)) (m : RangeMap K V)
    (r : Range K) (v : V) :
    (m.rename f g).insert (mapRange f r) (g v) = (m.insert r v).map (rename f g) := by
  by_cases hr : r.start < r.stop
  · have hr' : (mapRange f r).start < (mapRange f r).stop := (hf.lt _ _).mpr hr
    simp only [insert, insertFuel, hr, hr', not_true_eq_false, if_false,
      show (m.rename f g).len = m.len by simp [len, rename]]
    simp only [rename, insertPrefix_rename hf hg]
    cases insertPrefix m.btm r v with
    | error p => rfl
    | ok p =>
      simp only [Except.map, bind, Except.bind, Prod.map_fst, Prod.map_snd, pure, Except.pure]
      rw [show (mapRange f p.2).stop = f p.2.stop from rfl, insertLoop_rename hf hg]
      cases insertLoop p.2.stop v (m.len + 2) p.1 p.2 with
      | error p => rfl
      | ok q =>
        simp only [Except.map, Prod.map_fst, Prod.map_snd]
        rw [BTreeMap.insert_map hf mapRange_start]
        rfl
  · have hr' : ¬ (mapRange f r).start < (mapRange f r).stop := by
      rw [show ((mapRange f r).start < (mapRange f r).stop) = (r.start < r.stop) from hf.lt _ _]
      exact hr
    rw [insert_invalid hr, insert_invalid hr']
    rfl

end

theorem adjustRemove_rename (hf : Embeds f) (btm : List (Range K × V)) (stored : Range K) (sv : V)
    (n : Range K) :
    adjustOverlappingRangesForRemove (btm.map (Prod.map (mapRange f) g)) (mapRange f stored)
        (g sv) (mapRange f n)
      = (adjustOverlappingRangesForRemove btm stored sv n).map (Prod.map (mapRange f) g) := by
  have hk : ∀ r : Range K, (mapRange f r).start = f r.start := fun _ => rfl
  have hk' : ∀ r : Range K, (mapRange f r).stop = f r.stop := fun _ => rfl
  have hmk : ∀ a b, (⟨f a, f b⟩ : Range K') = mapRange f ⟨a, b⟩ := fun _ _ => rfl
  unfold adjustOverlappingRangesForRemove
  simp only [hk, hk', BTreeMap.remove_map hf hk, hf.lt, hmk]
  by_cases h1 : stored.start < n.start <;> by_cases h2 : n.stop < stored.stop <;>
    simp only [h1, h2, if_true, if_false, BTreeMap.insert_map hf hk]

theorem removeLoop_rename (hf : Embeds f) (n : Range K) (fuel : Nat) (btm : List (Range K × V)) :
    removeLoop (mapRange f n) fuel (btm.map (Prod.map (mapRange f) g))
      = (removeLoop n fuel btm).map (List.map (Prod.map (mapRange f) g)) := by
  induction fuel generalizing btm with
  | zero => rfl
  | succ fuel ih =>
    have h := range_start_map (g := g) hf (.excluded n.start) (.excluded n.stop) btm
    simp only [Bound.map] at h
    simp only [removeLoop, show (mapRange f n).start = f n.start from rfl,
      show (mapRange f n).stop = f n.stop from rfl, h]
    cases BTreeMap.range Range.start (.excluded n.start) (.excluded n.stop) btm with
    | error p => rfl
    | ok r =>
      simp only [Except.map, bind, Except.bind, List.head?_map]
      cases r.head? with
      | none => rfl
      | some e =>
        simp only [Option.map_some, Prod.map]
        rw [adjustRemove_rename hf, ih]
        rfl

theorem removePrefix_rename (hf : Embeds f) (n : Range K) (btm : List (Range K × V)) :
    removePrefix (btm.map (Prod.map (mapRange f) g)) (mapRange f n)
      = (removePrefix btm n).map (List.map (Prod.map (mapRange f) g)) := by
  have h := range_start_map (g := g) hf .unbounded (.included n.start) btm
  simp only [Bound.map] at h
  simp only [removePrefix, show (mapRange f n).start = f n.start from rfl, h]
  cases BTreeMap.range Range.start .unbounded (.included n.start) btm with
  | error p => rfl
  | ok r =>
    simp only [Except.map, bind, Except.bind, List.getLast?_map]
    cases r.getLast? with
    | none => rfl
    | some e =>
      simp only [Option.map_some, Option.filter_some, Prod.map_fst, Range.overlaps_map hf]
      by_cases he : e.1.overlaps n = true
      · simp only [he, if_true, Prod.map, adjustRemove_rename hf]
        rfl
      · simp only [he]
        rfl

theorem remove_rename (hf : Embeds f) (m : RangeMap K V) (r : Range K) :
    (m.rename f g).remove (mapRange f r) = (m.remove r).map (rename f g) := by
  by_cases hr : r.start < r.stop
  · have hr' : (mapRange f r).start < (mapRange f r).stop := (hf.lt _ _).mpr hr
    simp only [remove, removeFuel, hr, hr', not_true_eq_false, if_false,
      show (m.rename f g).len = m.len by simp [len, rename]]
    simp only [rename, removePrefix_rename hf]
    cases removePrefix m.btm r with
    | error p => rfl
    | ok p =>
      simp only [Except.map, bind, Except.bind, pure, Except.pure]
      rw [removeLoop_rename hf]
      cases removeLoop r (m.len + 2) p <;> rfl
  · have hr' : ¬ (mapRange f r).start < (mapRange f r).stop := by
      rw [show ((mapRange f r).start < (mapRange f r).stop) = (r.start < r.stop) from hf.lt _ _]
      exact hr
    simp [remove, removeFuel, hr, hr', bind, Except.bind, throw, throwThe, MonadExceptOf.throw,
      Except.map]

section
variable [BEq V] [BEq V']

theorem extend_rename (hf : Embeds f) (hg : ∀ a b, (g a == g b) = (a == b)) (m : RangeMap K V)
    (items : List (Range K × V)) :
    (m.rename f g).extend (items.map (Prod.map (mapRange f) g))
      = ((m.extend items).1.rename f g, (m.extend items).2) := by
  induction items generalizing m with
  | nil => rfl
  | cons e t ih =>
    simp only [List.map_cons, Prod.map, extend, insert_rename hf hg]
    cases m.insert e.1 e.2 with
    | error p => rfl
    | ok m' => exact ih m'

theorem apply_rename (hf : Embeds f) (hg : ∀ a b, (g a == g b) = (a == b)) (m : RangeMap K V)
    (op : Op (Range K) V) :
    (m.rename f g).apply (op.map (mapRange f) g)
      = ((m.apply op).1.rename f g, (m.apply op).2) := by
  cases op with
  | insert r v =>
    simp only [Op.map, apply, insert_rename hf hg]
    cases m.insert r v <;> rfl
  | remove r =>
    simp only [Op.map, apply, remove_rename hf]
    cases m.remove r <;> rfl
  | clear => rfl
  | extend items => exact extend_rename hf hg m items

theorem run_rename (hf : Embeds f) (hg : ∀ a b, (g a == g b) = (a == b))
    (ops : List (Op (Range K) V)) :
    run (ops.map (Op.map (mapRange f) g)) = (run ops).rename f g := by
  unfold run
  rw [show (RangeMap.new : RangeMap K' V') = (RangeMap.new : RangeMap K V).rename f g from rfl]
  generalize (RangeMap.new : RangeMap K V) = m
  induction ops generalizing m with
  | nil => rfl
  | cons op ops ih =>
    simp only [List.map_cons, List.foldl_cons]
    rw [apply_rename hf hg, ih]

theorem eq_rename (hf : Embeds f) (hg : ∀ a b, (g a == g b) = (a == b)) (m m' : RangeMap K V) :
    (m.rename f g).eq (m'.rename f g) = m.eq m' := by
  obtain ⟨l⟩ := m
  obtain ⟨l'⟩ := m'
  simp only [RangeMap.eq, rename, iter]
  induction l generalizing l' with
  | nil => cases l' <;> rfl
  | cons a t ih =>
    cases l' with
    | nil => rfl
    | cons b t' =>
      simp only [List.map_cons, iterEq, ih]
      congr 1
      simp [entryEq, Prod.map, mapRange, hf.keq, hg]

end

theorem cmp_rename (hf : Embeds f) {vcmp : V → V → Ordering} {vcmp' : V' → V' → Ordering}
    (hg : ∀ a b, vcmp' (g a) (g b) = vcmp a b) (m m' : RangeMap K V) :
    (m.rename f g).cmp vcmp' (m'.rename f g) = m.cmp vcmp m' := by
  obtain ⟨l⟩ := m
  obtain ⟨l'⟩ := m'
  simp only [RangeMap.cmp, rename, expandedIter]
  induction l generalizing l' with
  | nil => cases l' <;> rfl
  | cons a t ih =>
    cases l' with
    | nil => rfl
    | cons b t' =>
      simp only [List.map_cons, iterCmp, ih]
      simp [tripleCmp, Prod.map, mapRange, hf.kcmp, hg]

theorem partialCmp_rename (hf : Embeds f) {vcmp : V → V → Option Ordering}
    {vcmp' : V' → V' → Option Ordering} (hg : ∀ a b, vcmp' (g a) (g b) = vcmp a b)
    (m m' : RangeMap K V) :
    (m.rename f g).partialCmp vcmp' (m'.rename f g) = m.partialCmp vcmp m' := by
  obtain ⟨l⟩ := m
  obtain ⟨l'⟩ := m'
  simp only [RangeMap.partialCmp, rename, expandedIter]
  induction l generalizing l' with
  | nil => cases l' <;> rfl
  | cons a t ih =>
    cases l' with
    | nil => rfl
    | cons b t' =>
      simp only [List.map_cons, iterPartialCmp, ih]
      simp [triplePartialCmp, Prod.map, mapRange, hf.kcmp, hg]

/-! ### iterators -/

/-- The iterator with its remaining entries renamed. -/
def Overlapping.rename (f : K → K') (g : V → V') (o : Overlapping K V) : Overlapping K' V' :=
  ⟨mapRange f o.queryRange, o.btmRangeIter.map (Prod.map (mapRange f) g)⟩

theorem overlapping_rename (hf : Embeds f) (m : RangeMap K V) (q : Range K) :
    (m.rename f g).overlapping (mapRange f q)
      = (m.overlapping q).map (Overlapping.rename f g) := by
  have h := BTreeMap.range_map (g := g) (key := Range.stop) (key' := Range.stop)
    (φ := mapRange f) hf mapRange_stop (.excluded q.start) .unbounded m.btm
  simp only [Bound.map] at h
  simp only [overlapping, RangeMap.rename, show (mapRange f q).start = f q.start from rfl, h]
  cases BTreeMap.range Range.stop (.excluded q.start) .unbounded m.btm <;> rfl

theorem Overlapping.next_rename (hf : Embeds f) (o : Overlapping K V) :
    (o.rename f g).next
      = Prod.map (Option.map (Prod.map (mapRange f) g)) (Overlapping.rename f g) o.next := by
  obtain ⟨q, l⟩ := o
  cases l with
  | nil => rfl
  | cons e t =>
    simp only [Overlapping.next, Overlapping.rename, Deque.next, List.map_cons]
    by_cases h : e.1.start < q.stop
    · have h' : (Prod.map (mapRange f) g e).1.start < (mapRange f q).stop := (hf.lt _ _).mpr h
      simp only [h, h', if_true]
      rfl
    · have h' : ¬ (Prod.map (mapRange f) g e).1.start < (mapRange f q).stop :=
        fun hh => h ((hf.lt _ _).mp hh)
      simp only [h, h', if_false]
      rfl

omit [Std.IsLinearPreorder K] [Std.LawfulOrderLT K] in
theorem Overlapping.nextBack_nil (q : Range K) :
    (⟨q, []⟩ : Overlapping K V).nextBack = (none, ⟨q, []⟩) := by
  unfold Overlapping.nextBack
  split
  · rename_i h; cases h
  · rfl

omit [Std.IsLinearPreorder K] [Std.LawfulOrderLT K] in
theorem Overlapping.nextBack_concat (q : Range K) (t : List (Range K × V)) (e : Range K × V) :
    (⟨q, t ++ [e]⟩ : Overlapping K V).nextBack
      = if e.1.start < q.stop then (some e, ⟨q, t⟩) else (⟨q, t⟩ : Overlapping K V).nextBack := by
  rw [Overlapping.nextBack]
  split
  · rename_i e' h
    obtain rfl : e = e' := by simpa using h
    simp
  · rename_i h
    simp at h

theorem Overlapping.nextBack_rename (hf : Embeds f) (o : Overlapping K V) :
    (o.rename f g).nextBack
      = Prod.map (Option.map (Prod.map (mapRange f) g)) (Overlapping.rename f g) o.nextBack := by
  obtain ⟨q, l⟩ := o
  induction hl : l.length generalizing l with
  | zero =>
    obtain rfl : l = [] := List.eq_nil_of_length_eq_zero hl
    simp only [Overlapping.rename, List.map_nil, Overlapping.nextBack_nil]
    rfl
  | succ n ih =>
    rcases List.eq_nil_or_concat l with rfl | ⟨t, e, rfl⟩
    · simp at hl
    · have ih := ih t (by simpa using hl)
      simp only [Overlapping.rename, List.concat_eq_append, List.map_append, List.map_cons,
        List.map_nil, Overlapping.nextBack_concat, Prod.map_fst, mapRange_start, mapRange_stop,
        hf.lt] at ih ⊢
      rw [ih]
      split <;> rfl

/-- The iterator with its keys and remaining entries renamed. -/
def Gaps.rename (f : K → K') (g : V → V') (o : Gaps K V) : Gaps K' V' :=
  ⟨f o.candidateStart, f o.queryEnd, o.btmRangeIter.map (Prod.map (mapRange f) g)⟩

theorem gaps_rename (hf : Embeds f) (m : RangeMap K V) (q : Range K) :
    (m.rename f g).gaps (mapRange f q) = (m.gaps q).map (Gaps.rename f g) := by
  simp only [gaps, overlapping_rename hf]
  cases m.overlapping q <;> rfl

theorem Gaps.nextTail_rename (hf : Embeds f) (c e : K) (l : List (Range K × V)) :
    Gaps.nextTail (f c) (f e) (l.map (Prod.map (mapRange f) g))
      = Prod.map (Option.map (mapRange f)) (Gaps.rename f g) (Gaps.nextTail c e l) := by
  simp only [Gaps.nextTail, hf.lt]
  split <;> rfl

theorem Gaps.next_rename (hf : Embeds f) (o : Gaps K V) :
    (o.rename f g).next
      = Prod.map (Option.map (mapRange f)) (Gaps.rename f g) o.next := by
  obtain ⟨c, e, l⟩ := o
  simp only [Gaps.next, Gaps.rename]
  induction l generalizing c with
  | nil => exact Gaps.nextTail_rename hf c e []
  | cons a t ih =>
    simp only [List.map_cons, Gaps.nextLoop, Prod.map_fst,
      show (mapRange f a.1).start = f a.1.start from rfl,
      show (mapRange f a.1).stop = f a.1.stop from rfl, hf.le, hf.lt, ih,
      Gaps.nextTail_rename hf]
    split
    · rfl
    · split <;> rfl

end RangeMap

/-! ### sequences of calls -/

theorem calls_rename {S S' α α' : Type} {next : S → Option α × S} {next' : S' → Option α' × S'}
    {ρ : S → S'} {h : α → α'} (hn : ∀ s, next' (ρ s) = Prod.map (Option.map h) ρ (next s))
    (n : Nat) (s : S) : calls next' n (ρ s) = (calls next n s).map (Option.map h) := by
  induction n generalizing s with
  | zero => rfl
  | succ n ih => simp only [calls, hn, Prod.map_fst, Prod.map_snd, ih, List.map_cons]

theorem script_rename {S S' α α' : Type} {next nextBack : S → Option α × S}
    {next' nextBack' : S' → Option α' × S'} {ρ : S → S'} {h : α → α'}
    (hn : ∀ s, next' (ρ s) = Prod.map (Option.map h) ρ (next s))
    (hb : ∀ s, nextBack' (ρ s) = Prod.map (Option.map h) ρ (nextBack s))
    (cs : List End) (s : S) :
    script next' nextBack' cs (ρ s) = (script next nextBack cs s).map (Option.map h) := by
  induction cs generalizing s with
  | nil => rfl
  | cons c cs ih =>
    cases c <;> simp only [script, hn, hb, Prod.map_fst, Prod.map_snd, ih, List.map_cons]

end Verif

import Verif.Proof.IRename

/-!
# What `RangeInclusiveMap` does does not depend on the hidden `exhausted` flags

`unflag` clears the flag that std sets when a range has been iterated to its end.  Every function
that changes a map, and every query except the ones that call `RangeInclusive::contains`, reads
`start` and `end` only, so it commutes with clearing the flags.
-/
set_option linter.unusedSectionVars false
set_option linter.unusedVariables false

namespace Verif
namespace Spec
variable {K V : Type}

/-- The same range as written in the source: `start..=end`. -/
def unflag (r : RangeInclusive K) : RangeInclusive K := .mk' r.start r.stop

/-- A step of a history with the flags of its ranges cleared. -/
def unflagOp : Op (RangeInclusive K) V → Op (RangeInclusive K) V
  | .insert r v => .insert (unflag r) v
  | .remove r => .remove (unflag r)
  | .clear => .clear
  | .extend items => .extend (items.map fun e => (unflag e.1, e.2))

/-- A step of a set history with the flags of its ranges cleared. -/
def unflagSetOp : SetOp (RangeInclusive K) → SetOp (RangeInclusive K)
  | .insert r => .insert (unflag r)
  | .remove r => .remove (unflag r)
  | .clear => .clear
  | .extend items => .extend (items.map unflag)

end Spec

open Spec
variable {K : Type} [LE K] [LT K] [DecidableLE K] [DecidableLT K]
  [Std.IsLinearPreorder K] [Std.LawfulOrderLT K] {V : Type} {S : StepFns K}

theorem unflag_start (r : RangeInclusive K) : (unflag r).start = r.start := rfl

theorem unflag_stop (r : RangeInclusive K) : (unflag r).stop = r.stop := rfl

theorem unflag_mk' (a b : K) : RangeInclusive.mk' a b = unflag (.mk' a b) := rfl

namespace RangeInclusive

theorem overlaps_unflag (r o : RangeInclusive K) :
    (unflag r).overlaps (unflag o) = r.overlaps o := rfl

theorem touches_unflag (r o : RangeInclusive K) :
    (unflag r).touches S (unflag o) = r.touches S o := rfl

end RangeInclusive

namespace RangeInclusiveMap

/-- An entry with the flag of its range cleared. -/
def uf (e : RangeInclusive K × V) : RangeInclusive K × V := (unflag e.1, e.2)

theorem uf_fst (e : RangeInclusive K × V) : (uf e).1 = unflag e.1 := rfl

theorem uf_snd (e : RangeInclusive K × V) : (uf e).2 = e.2 := rfl

/-- The map with all flags cleared. -/
def clearFlags (m : RangeInclusiveMap K V) : RangeInclusiveMap K V := ⟨m.btm.map uf⟩

theorem insert_uf (r : RangeInclusive K) (v : V) (l : List (RangeInclusive K × V)) :
    BTreeMap.insert RangeInclusive.start (unflag r) v (l.map uf)
      = (BTreeMap.insert RangeInclusive.start r v l).map uf := by
  induction l with
  | nil => rfl
  | cons e t ih =>
    simp only [List.map_cons, BTreeMap.insert, uf_fst, unflag_start, ih]
    split
    · rfl
    · split <;> rfl

theorem remove_uf (k : K) (l : List (RangeInclusive K × V)) :
    BTreeMap.remove RangeInclusive.start k (l.map uf)
      = (BTreeMap.remove RangeInclusive.start k l).map uf := by
  induction l with
  | nil => rfl
  | cons e t ih =>
    simp only [List.map_cons, BTreeMap.remove, uf_fst, unflag_start, ih]
    split <;> rfl

theorem range_uf' {key : RangeInclusive K → K} (hk : ∀ r, key (unflag r) = key r)
    (lo hi : Bound K) (l : List (RangeInclusive K × V)) :
    BTreeMap.range key lo hi (l.map uf) = (BTreeMap.range key lo hi l).map (List.map uf) := by
  simp only [BTreeMap.range]
  split
  · rfl
  · simp only [Except.map, List.filter_map, Function.comp_def, uf_fst, hk]
    try rfl

theorem range_uf (lo hi : Bound K) (l : List (RangeInclusive K × V)) :
    BTreeMap.range RangeInclusive.start lo hi (l.map uf)
      = (BTreeMap.range RangeInclusive.start lo hi l).map (List.map uf) :=
  range_uf' unflag_start lo hi l

theorem insertLeft_unflag (btm : List (RangeInclusive K × V)) (stored : RangeInclusive K) (sv : V)
    (n : RangeInclusive K) :
    insertLeft S (btm.map uf) (unflag stored) sv (unflag n)
      = (insertLeft S btm stored sv n).map (List.map uf) := by
  simp only [insertLeft, unflag_start]
  by_cases h : stored.start < n.start
  · simp only [h, if_true]
    cases S.subOne n.start with
    | error p => rfl
    | ok c => exact congrArg Except.ok (insert_uf (.mk' _ _) sv btm)
  · simp only [h, if_false]
    rfl

theorem insertRight_unflag (btm : List (RangeInclusive K × V)) (stored : RangeInclusive K) (sv : V)
    (n : RangeInclusive K) :
    insertRight S (btm.map uf) (unflag stored) sv (unflag n)
      = (insertRight S btm stored sv n).map (List.map uf) := by
  simp only [insertRight, unflag_stop]
  by_cases h : n.stop < stored.stop
  · simp only [h, if_true]
    cases S.addOne n.stop with
    | error p => rfl
    | ok c => exact congrArg Except.ok (insert_uf (.mk' _ _) sv btm)
  · simp only [h, if_false]
    rfl

theorem adjustRemove_unflag (btm : List (RangeInclusive K × V)) (stored : RangeInclusive K) (sv : V)
    (n : RangeInclusive K) :
    adjustOverlappingRangesForRemove S (btm.map uf) (unflag stored)
        sv (unflag n)
      = (adjustOverlappingRangesForRemove S btm stored sv n).map
          (List.map uf) := by
  simp only [adjustOverlappingRangesForRemove, unflag_start,
    remove_uf, insertLeft_unflag]
  cases insertLeft S (BTreeMap.remove RangeInclusive.start stored.start btm) stored sv n with
  | error p => rfl
  | ok l => exact insertRight_unflag l stored sv n

section
variable [BEq V]

theorem adjustInsert_unflag (btm : List (RangeInclusive K × V)) (stored : RangeInclusive K) (sv : V)
    (n : RangeInclusive K) (v : V) :
    adjustTouchingRangesForInsert S (btm.map uf) (unflag stored)
        sv (unflag n) v
      = (adjustTouchingRangesForInsert S btm stored sv n v).map
          (Prod.map (List.map uf) unflag) := by
  unfold adjustTouchingRangesForInsert
  rw [RangeInclusive.overlaps_unflag]
  by_cases hv : sv == v
  · simp only [hv, if_true, unflag_start, unflag_stop, remove_uf]
    rfl
  · by_cases ho : n.overlaps stored
    · simp only [hv, ho, if_true, unflag_start, remove_uf, insertLeft_unflag]
      cases insertLeft S (BTreeMap.remove RangeInclusive.start stored.start btm) stored sv n with
      | error p => rfl
      | ok l =>
        simp only [Except.map, bind, Except.bind, insertRight_unflag]
        cases insertRight S l stored sv n <;> rfl
    · simp only [hv, ho]
      rfl

theorem breakCond_unflag (hi : K) (v : V) (x : RangeInclusive K × V) :
    breakCond S hi v (uf x) = breakCond S hi v x := by
  rfl

theorem insertLoop_unflag (hi : K) (v : V)
    (fuel : Nat) (btm : List (RangeInclusive K × V)) (n : RangeInclusive K) :
    insertLoop S hi v fuel (btm.map uf) (unflag n)
      = (insertLoop S hi v fuel btm n).map
          (Prod.map (List.map uf) unflag) := by
  induction fuel generalizing btm n with
  | zero => rfl
  | succ fuel ih =>
    have h := range_uf (.included n.start) .unbounded btm
    simp only [insertLoop, unflag_start, h]
    cases BTreeMap.range RangeInclusive.start (.included n.start) .unbounded btm with
    | error p => rfl
    | ok r =>
      simp only [Except.map, bind, Except.bind, List.head?_map]
      cases r.head? with
      | none => rfl
      | some e =>
        simp only [Option.map_some, breakCond_unflag]
        cases breakCond S hi v e with
        | error p => rfl
        | ok b =>
          cases b with
          | true => rfl
          | false =>
            simp only [uf_fst, uf_snd, adjustInsert_unflag]
            cases adjustTouchingRangesForInsert S btm e.1 e.2 n v with
            | error p => rfl
            | ok q => exact ih q.1 q.2

theorem insertPrefix_unflag (v : V)
    (btm : List (RangeInclusive K × V)) (n : RangeInclusive K) :
    insertPrefix S (btm.map uf) (unflag n) v
      = (insertPrefix S btm n v).map
          (Prod.map (List.map uf) unflag) := by
  have h := range_uf .unbounded (.included n.start) btm
  simp only [insertPrefix, unflag_start, h]
  cases BTreeMap.range RangeInclusive.start .unbounded (.included n.start) btm with
  | error p => rfl
  | ok r =>
    simp only [Except.map, bind, Except.bind]
    rw [← List.map_reverse, ← List.map_take,
      filterE_map (p := fun e => e.1.touches S n) (fun e => by
        simp only [uf_fst, RangeInclusive.touches_unflag])]
    cases filterE (fun e => e.1.touches S n) (r.reverse.take 2) with
    | error p => rfl
    | ok c =>
      cases c with
      | nil => rfl
      | cons a t =>
        cases t with
        | nil => exact adjustInsert_unflag btm a.1 a.2 n v
        | cons b t => exact adjustInsert_unflag btm b.1 b.2 n v

theorem insert_unflag (m : RangeInclusiveMap K V)
    (r : RangeInclusive K) (v : V) :
    m.clearFlags.insert S (unflag r) v = (m.insert S r v).map clearFlags := by
  simp only [insert, insertFuel, unflag_start, unflag_stop,
      show m.clearFlags.len = m.len by simp [len, clearFlags]]
  split
  · rfl
  · simp only [clearFlags, insertPrefix_unflag]
    cases insertPrefix S m.btm r v with
    | error p => rfl
    | ok p =>
      simp only [Except.map, bind, Except.bind, Prod.map_fst, Prod.map_snd, pure, Except.pure,
        unflag_stop, insertLoop_unflag]
      cases insertLoop S p.2.stop v (m.len + 2) p.1 p.2 with
      | error p => rfl
      | ok q =>
        simp only [Prod.map_fst, Prod.map_snd]
        rw [insert_uf]
        rfl

end

theorem removeLoop_unflag (n : RangeInclusive K)
    (fuel : Nat) (btm : List (RangeInclusive K × V)) :
    removeLoop S (unflag n) fuel (btm.map uf)
      = (removeLoop S n fuel btm).map (List.map uf) := by
  induction fuel generalizing btm with
  | zero => rfl
  | succ fuel ih =>
    have h := range_uf (.excluded n.start) (.included n.stop) btm
    simp only [removeLoop, unflag_start, unflag_stop, h]
    cases BTreeMap.range RangeInclusive.start (.excluded n.start) (.included n.stop) btm with
    | error p => rfl
    | ok r =>
      simp only [Except.map, bind, Except.bind, List.head?_map]
      cases r.head? with
      | none => rfl
      | some e =>
        simp only [Option.map_some, uf_fst, uf_snd]
        rw [adjustRemove_unflag]
        cases adjustOverlappingRangesForRemove S btm e.1 e.2 n with
        | error p => rfl
        | ok l => exact ih l

theorem removePrefix_unflag (n : RangeInclusive K)
    (btm : List (RangeInclusive K × V)) :
    removePrefix S (btm.map uf) (unflag n)
      = (removePrefix S btm n).map (List.map uf) := by
  have h := range_uf .unbounded (.included n.start) btm
  simp only [removePrefix, unflag_start, h]
  cases BTreeMap.range RangeInclusive.start .unbounded (.included n.start) btm with
  | error p => rfl
  | ok r =>
    simp only [Except.map, bind, Except.bind, List.getLast?_map]
    cases r.getLast? with
    | none => rfl
    | some e =>
      simp only [Option.map_some, Option.filter_some, uf_fst,
        RangeInclusive.overlaps_unflag]
      by_cases he : e.1.overlaps n = true
      · simp only [he, if_true, uf_fst, uf_snd, adjustRemove_unflag]
        cases adjustOverlappingRangesForRemove S btm e.1 e.2 n <;> rfl
      · simp only [he]
        rfl

theorem remove_unflag (m : RangeInclusiveMap K V)
    (r : RangeInclusive K) :
    m.clearFlags.remove S (unflag r) = (m.remove S r).map clearFlags := by
  simp only [remove, removeFuel, unflag_start, unflag_stop,
      show m.clearFlags.len = m.len by simp [len, clearFlags]]
  split
  · rfl
  · simp only [clearFlags, removePrefix_unflag]
    cases removePrefix S m.btm r with
    | error p => rfl
    | ok p =>
      simp only [Except.map, bind, Except.bind, pure, Except.pure]
      rw [removeLoop_unflag]
      cases removeLoop S r (m.len + 2) p <;> rfl

section
variable [BEq V]

theorem extend_unflag (m : RangeInclusiveMap K V)
    (items : List (RangeInclusive K × V)) :
    m.clearFlags.extend S (items.map uf)
      = ((m.extend S items).1.clearFlags, (m.extend S items).2) := by
  induction items generalizing m with
  | nil => rfl
  | cons e t ih =>
    simp only [List.map_cons, uf_fst, uf_snd, extend, insert_unflag]
    cases m.insert S e.1 e.2 with
    | error p => rfl
    | ok m' => exact ih m'

theorem apply_unflag (m : RangeInclusiveMap K V)
    (op : Op (RangeInclusive K) V) :
    m.clearFlags.apply S (unflagOp op)
      = ((m.apply S op).1.clearFlags, (m.apply S op).2) := by
  cases op with
  | insert r v =>
    simp only [unflagOp, apply, insert_unflag]
    cases m.insert S r v <;> rfl
  | remove r =>
    simp only [unflagOp, apply, remove_unflag]
    cases m.remove S r <;> rfl
  | clear => rfl
  | extend items => exact extend_unflag m items

theorem run_unflag (ops : List (Op (RangeInclusive K) V)) :
    run S (ops.map unflagOp) = (run S ops).clearFlags := by
  suffices ∀ m : RangeInclusiveMap K V,
      (ops.map unflagOp).foldl (fun m op => (m.apply S op).1) m.clearFlags
        = (ops.foldl (fun m op => (m.apply S op).1) m).clearFlags from this .new
  induction ops with
  | nil => exact fun m => rfl
  | cons op ops ih =>
    intro m
    simp only [List.map_cons, List.foldl_cons, apply_unflag, ih]

end

/-- The iterator with the flags of its query and remaining entries cleared. -/
def Overlapping.clearFlags (o : Overlapping K V) : Overlapping K V :=
  ⟨unflag o.queryRange, o.btmRangeIter.map uf⟩

theorem overlapping_unflag (m : RangeInclusiveMap K V) (q : RangeInclusive K) :
    m.clearFlags.overlapping (unflag q) = (m.overlapping q).map Overlapping.clearFlags := by
  simp only [overlapping, RangeInclusiveMap.clearFlags, unflag_start, range_uf' unflag_stop]
  cases BTreeMap.range RangeInclusive.stop (.included q.start) .unbounded m.btm <;> rfl

theorem Overlapping.next_unflag (o : Overlapping K V) :
    o.clearFlags.next = Prod.map (Option.map uf) Overlapping.clearFlags o.next := by
  obtain ⟨q, l⟩ := o
  cases l with
  | nil => rfl
  | cons e t =>
    by_cases h : e.1.start ≤ q.stop <;>
      simp [Overlapping.next, Overlapping.clearFlags, Deque.next, uf_fst, unflag_start,
        unflag_stop, h]

theorem Overlapping.nextBack_unflag (o : Overlapping K V) :
    o.clearFlags.nextBack = Prod.map (Option.map uf) Overlapping.clearFlags o.nextBack := by
  obtain ⟨q, l⟩ := o
  induction hl : l.length generalizing l with
  | zero =>
    obtain rfl : l = [] := List.eq_nil_of_length_eq_zero hl
    simp only [Overlapping.clearFlags, List.map_nil, Overlapping.nextBack_nil]
    rfl
  | succ n ih =>
    rcases List.eq_nil_or_concat l with rfl | ⟨t, e, rfl⟩
    · simp at hl
    · have ih := ih t (by simpa using hl)
      simp only [Overlapping.clearFlags, List.concat_eq_append, List.map_append, List.map_cons,
        List.map_nil, Overlapping.nextBack_concat, uf_fst, unflag_start, unflag_stop] at ih ⊢
      rw [ih]
      by_cases h : e.1.start ≤ q.stop <;> simp [h, Overlapping.clearFlags]

/-- The iterator with the flags of its remaining entries cleared. -/
def Gaps.clearFlags (o : Gaps K V) : Gaps K V :=
  ⟨o.candidateNeedsPlusOne, o.candidateStart, o.queryEnd, o.btmRangeIter.map uf⟩

theorem gaps_unflag (m : RangeInclusiveMap K V) (q : RangeInclusive K) :
    m.clearFlags.gaps (unflag q) = (m.gaps q).map Gaps.clearFlags := by
  simp only [gaps, overlapping_unflag]
  cases m.overlapping q <;> rfl

theorem Gaps.nextTail_unflag (b : Bool) (c e : K) (l : List (RangeInclusive K × V)) :
    Gaps.nextTail S b c e (l.map uf)
      = (Gaps.nextTail S b c e l).map (Prod.map id Gaps.clearFlags) := by
  simp only [Gaps.nextTail]
  split
  · by_cases h : c < e
    · simp only [h, if_true]
      cases S.addOne c <;> rfl
    · simp only [h, if_false]
      rfl
  · by_cases h : c ≤ e <;> simp only [h, if_true, if_false] <;> rfl

theorem Gaps.nextLoop_unflag (b : Bool) (c e : K) (l : List (RangeInclusive K × V)) :
    Gaps.nextLoop S b c e (l.map uf)
      = (Gaps.nextLoop S b c e l).map (Prod.map id Gaps.clearFlags) := by
  induction l generalizing b c with
  | nil => exact Gaps.nextTail_unflag b c e []
  | cons x t ih =>
    simp only [List.map_cons, Gaps.nextLoop, uf_fst, unflag_start, unflag_stop]
    by_cases h : e < x.1.start
    · simp only [h, if_true]
      exact Gaps.nextTail_unflag b c e t
    · simp only [h, if_false]
      cases Gaps.curCandidateStart S b c with
      | error p => rfl
      | ok cur =>
        simp only [bind, Except.bind]
        by_cases hc : cur < x.1.start
        · simp only [hc, if_true]
          cases S.subOne x.1.start <;> rfl
        · simp only [hc, if_false]
          exact ih true x.1.stop

theorem Gaps.next_unflag (o : Gaps K V) :
    o.clearFlags.next S = (o.next S).map (Prod.map id Gaps.clearFlags) :=
  Gaps.nextLoop_unflag _ _ _ _

theorem Gaps.calls_unflag (n : Nat) (o : Gaps K V) :
    callsE (Gaps.next S) n o.clearFlags = callsE (Gaps.next S) n o := by
  induction n generalizing o with
  | zero => rfl
  | succ n ih =>
    simp only [callsE, Gaps.next_unflag]
    cases h : o.next S with
    | error p => rfl
    | ok p =>
      simp only [Except.map, Prod.map, id]
      rw [ih]

end RangeInclusiveMap
end Verif

import Verif.Proof.Rename
import Verif.Proof.IRename
import Verif.Model.Set
import Verif.Model.ISet

/-!
# Renaming keys commutes with the set operations
-/
set_option linter.unusedSectionVars false
set_option linter.unusedVariables false

namespace Verif
open Spec

namespace Union
variable {R R' : Type} [RangeOrder R] [RangeMerge R] [RangeOrder R'] [RangeMerge R'] {φ : R → R'}

/-- The iterator with its remaining ranges renamed. -/
def map (φ : R → R') (u : Union R) : Union R' := ⟨u.left.map φ, u.right.map φ⟩

theorem join_map (hm : ∀ a b : R, RangeMerge.merge (φ a) (φ b) = (RangeMerge.merge a b).map φ)
    (r : R) (l : List R) :
    join (φ r) (l.map φ) = (join r l).map (Prod.map φ (List.map φ)) := by
  cases l with
  | nil => rfl
  | cons a t =>
    simp only [List.map_cons, join, hm]
    cases RangeMerge.merge r a <;> rfl

theorem mergeLoop_map (hm : ∀ a b : R, RangeMerge.merge (φ a) (φ b) = (RangeMerge.merge a b).map φ)
    (r : R) (l l' : List R) :
    mergeLoop (φ r) (l.map φ) (l'.map φ) = Prod.map φ (map φ) (mergeLoop r l l') := by
  fun_induction mergeLoop r l l' with
  | case1 r l l' r' left' h ih =>
    rw [mergeLoop]
    have := join_map hm r l
    rw [h] at this
    split
    · rename_i a b h'
      rw [this] at h'
      simp only [Option.map_some, Prod.map, Option.some.injEq, Prod.mk.injEq] at h'
      rw [← h'.1, ← h'.2]
      exact ih
    · rename_i h'
      rw [this] at h'
      cases h'
  | case2 r l l' h r' right' h2 ih =>
    rw [mergeLoop]
    have e1 := join_map hm r l
    have e2 := join_map hm r l'
    rw [h] at e1
    rw [h2] at e2
    split
    · rename_i a b h'
      rw [e1] at h'
      cases h'
    · split
      · rename_i a b h'
        rw [e2] at h'
        simp only [Option.map_some, Prod.map, Option.some.injEq, Prod.mk.injEq] at h'
        rw [← h'.1, ← h'.2]
        exact ih
      · rename_i h'
        rw [e2] at h'
        cases h'
  | case3 r l l' h h2 =>
    rw [mergeLoop]
    have e1 := join_map hm r l
    have e2 := join_map hm r l'
    rw [h] at e1
    rw [h2] at e2
    split
    · rename_i a b h'
      rw [e1] at h'
      cases h'
    · split
      · rename_i a b h'
        rw [e2] at h'
        cases h'
      · rfl

theorem first_map (ho : ∀ a b : R, RangeOrder.orderStart (φ a) (φ b) = RangeOrder.orderStart a b)
    (u : Union R) : (u.map φ).first = u.first.map (Prod.map φ (map φ)) := by
  obtain ⟨l, r⟩ := u
  cases l <;> cases r <;> simp only [map, List.map_nil, List.map_cons, first, ho] <;> try rfl
  split <;> rfl

theorem next_map (ho : ∀ a b : R, RangeOrder.orderStart (φ a) (φ b) = RangeOrder.orderStart a b)
    (hm : ∀ a b : R, RangeMerge.merge (φ a) (φ b) = (RangeMerge.merge a b).map φ)
    (u : Union R) : (u.map φ).next = Prod.map (Option.map φ) (map φ) u.next := by
  simp only [next, first_map ho]
  cases u.first with
  | none => rfl
  | some p =>
    simp only [Option.map_some, Prod.map, map, mergeLoop_map hm]

end Union

namespace Intersection
variable {R R' : Type} [RangeOrder R] [RangeIntersect R] [RangeOrder R'] [RangeIntersect R']
  {φ : R → R'}

/-- The iterator with its remaining ranges renamed. -/
def map (φ : R → R') (u : Intersection R) : Intersection R' := ⟨u.left.map φ, u.right.map φ⟩

theorem next_map (ho : ∀ a b : R, RangeOrder.orderEnd (φ a) (φ b) = RangeOrder.orderEnd a b)
    (hm : ∀ a b : R, RangeIntersect.intersect (φ a) (φ b) = (RangeIntersect.intersect a b).map φ)
    (u : Intersection R) : (u.map φ).next = Prod.map (Option.map φ) (map φ) u.next := by
  obtain ⟨l, r⟩ := u
  simp only [next, map]
  fun_induction nextLoop l r with
  | case1 l left r right h i hi =>
    simp only [List.map_cons, nextLoop, ho, h, if_true, hm, hi]
    rfl
  | case2 l left r right h hi ih =>
    simp only [List.map_cons] at ih ⊢
    simp only [nextLoop, ho, h, if_true, hm, hi]
    exact ih
  | case3 l left r right h i hi =>
    simp only [List.map_cons, nextLoop, ho, h, hm, hi]
    rfl
  | case4 l left r right h hi ih =>
    simp only [List.map_cons] at ih ⊢
    simp only [nextLoop, ho, h, hm, hi]
    exact ih
  | case5 l r h =>
    cases l with
    | nil => cases r <;> simp only [List.map_nil, List.map_cons, nextLoop] <;> rfl
    | cons a l =>
      cases r with
      | nil => simp only [List.map_nil, List.map_cons, nextLoop]; rfl
      | cons b r => exact absurd rfl (h a l b r rfl)

end Intersection

variable {K K' : Type} [LE K] [LT K] [DecidableLE K] [DecidableLT K]
  [Std.IsLinearPreorder K] [Std.LawfulOrderLT K]
  [LE K'] [LT K'] [DecidableLE K'] [DecidableLT K']
  [Std.LawfulOrderLT K'] {f : K → K'}
  {S : StepFns K} {S' : StepFns K'}

theorem Range.merge_map (hf : Embeds f) (a b : Range K) :
    (mapRange f a).merge (mapRange f b) = (a.merge b).map (mapRange f) := by
  simp only [Range.merge, mapRange_start, mapRange_stop, Range.contains_map hf, hf.lt]
  split
  · rfl
  · split <;> rfl

theorem Range.intersect_map (hf : Embeds f) (a b : Range K) :
    (mapRange f a).intersect (mapRange f b) = (a.intersect b).map (mapRange f) := by
  simp only [Range.intersect, mapRange_start, mapRange_stop, hf.rmin, hf.rmax, hf.le]
  split <;> rfl

theorem RangeInclusive.merge_map (hf : Embeds f) (a b : RangeInclusive K) :
    (mapIRange f a).merge (mapIRange f b) = (a.merge b).map (mapIRange f) := by
  simp only [RangeInclusive.merge, mapIRange_start, mapIRange_stop,
    RangeInclusive.contains_map hf, hf.lt]
  split
  · rfl
  · split <;> rfl

theorem RangeInclusive.intersect_map (hf : Embeds f) (a b : RangeInclusive K) :
    (mapIRange f a).intersect (mapIRange f b) = (a.intersect b).map (mapIRange f) := by
  simp only [RangeInclusive.intersect, mapIRange_start, mapIRange_stop, hf.rmin, hf.rmax, hf.lt]
  split <;> rfl

theorem drain_rename {S S' α α' : Type} {next : S → Option α × S} {next' : S' → Option α' × S'}
    {ρ : S → S'} {h : α → α'} (hn : ∀ s, next' (ρ s) = Prod.map (Option.map h) ρ (next s))
    (n : Nat) (s : S) : drain next' n (ρ s) = (drain next n s).map (List.map h) := by
  induction n generalizing s with
  | zero => rfl
  | succ n ih =>
    simp only [drain, hn]
    cases h1 : next s with
    | mk o s' =>
      cases o with
      | none => rfl
      | some a =>
        simp only [Prod.map, Option.map_some, ih]
        cases drain next n s' <;> rfl

namespace RangeSet

/-- The set with its keys renamed. -/
def rename (f : K → K') (s : RangeSet K) : RangeSet K' := ⟨s.rm.rename f id⟩

theorem iter_rename (s : RangeSet K) : (s.rename f).iter = s.iter.map (mapRange f) := by
  simp [iter, rename, RangeMap.rename, RangeMap.iter]

theorem insert_rename (hf : Embeds f) (s : RangeSet K) (r : Range K) :
    (s.rename f).insert (mapRange f r) = (s.insert r).map (rename f) := by
  have := RangeMap.insert_rename (g := id) hf (fun a b : Unit => rfl) s.rm r ()
  simp only [insert, rename]
  rw [show (() : Unit) = id () from rfl, this]
  cases s.rm.insert r () <;> rfl

theorem remove_rename (hf : Embeds f) (s : RangeSet K) (r : Range K) :
    (s.rename f).remove (mapRange f r) = (s.remove r).map (rename f) := by
  have := RangeMap.remove_rename (g := id) hf s.rm r
  simp only [remove, rename, this]
  cases s.rm.remove r <;> rfl

theorem extend_rename (hf : Embeds f) (s : RangeSet K) (items : List (Range K)) :
    (s.rename f).extend (items.map (mapRange f))
      = ((s.extend items).1.rename f, (s.extend items).2) := by
  induction items generalizing s with
  | nil => rfl
  | cons e t ih =>
    simp only [List.map_cons, extend, insert_rename hf]
    cases s.insert e with
    | error p => rfl
    | ok m' => exact ih m'

theorem fromIter_rename (hf : Embeds f) (items : List (Range K)) :
    fromIter (items.map (mapRange f)) = (fromIter items).map (rename f) := by
  simp only [fromIter]
  rw [show (new : RangeSet K') = (new : RangeSet K).rename f from rfl, extend_rename hf]
  cases ((new : RangeSet K).extend items).2 <;> rfl

theorem apply_rename (hf : Embeds f) (s : RangeSet K) (op : SetOp (Range K)) :
    (s.rename f).apply (op.map (mapRange f)) = ((s.apply op).1.rename f, (s.apply op).2) := by
  cases op with
  | insert r =>
    simp only [SetOp.map, apply, insert_rename hf]
    cases s.insert r <;> rfl
  | remove r =>
    simp only [SetOp.map, apply, remove_rename hf]
    cases s.remove r <;> rfl
  | clear => rfl
  | extend items => exact extend_rename hf s items

theorem run_rename (hf : Embeds f) (ops : List (SetOp (Range K))) :
    run (ops.map (SetOp.map (mapRange f))) = (run ops).rename f := by
  unfold run
  rw [show (RangeSet.new : RangeSet K') = (RangeSet.new : RangeSet K).rename f from rfl]
  generalize (RangeSet.new : RangeSet K) = m
  induction ops generalizing m with
  | nil => rfl
  | cons op ops ih =>
    simp only [List.map_cons, List.foldl_cons]
    rw [apply_rename hf, ih]

theorem union_rename (s t : RangeSet K) :
    (s.rename f).union (t.rename f) = (s.union t).map (mapRange f) := by
  simp only [union, iter_rename, Union.map]

theorem intersection_rename (s t : RangeSet K) :
    (s.rename f).intersection (t.rename f) = (s.intersection t).map (mapRange f) := by
  simp only [intersection, iter_rename, Intersection.map]

theorem unionNext_rename (hf : Embeds f) (u : Union (Range K)) :
    (u.map (mapRange f)).next = Prod.map (Option.map (mapRange f)) (Union.map (mapRange f)) u.next :=
  Union.next_map (fun _ _ => hf.kcmp _ _) (Range.merge_map hf) u

theorem intersectionNext_rename (hf : Embeds f) (u : Intersection (Range K)) :
    (u.map (mapRange f)).next
      = Prod.map (Option.map (mapRange f)) (Intersection.map (mapRange f)) u.next :=
  Intersection.next_map (fun _ _ => hf.kcmp _ _) (Range.intersect_map hf) u

theorem bitOr_rename (hf : Embeds f) (s t : RangeSet K) :
    (s.rename f).bitOr (t.rename f) = (s.bitOr t).map (rename f) := by
  simp only [bitOr, union_rename, drain_rename (unionNext_rename hf),
    show ∀ s : RangeSet K, (s.rename f).len = s.len by
      intro s; simp [len, rename, RangeMap.rename, RangeMap.len]]
  cases drain Union.next (s.len + t.len + 1) (s.union t) with
  | error p => rfl
  | ok l => exact fromIter_rename hf l

theorem bitAnd_rename (hf : Embeds f) (s t : RangeSet K) :
    (s.rename f).bitAnd (t.rename f) = (s.bitAnd t).map (rename f) := by
  simp only [bitAnd, intersection_rename, drain_rename (intersectionNext_rename hf),
    show ∀ s : RangeSet K, (s.rename f).len = s.len by
      intro s; simp [len, rename, RangeMap.rename, RangeMap.len]]
  cases drain Intersection.next (s.len + t.len + 1) (s.intersection t) with
  | error p => rfl
  | ok l => exact fromIter_rename hf l

end RangeSet

namespace RangeInclusiveSet

/-- The set with its keys renamed. -/
def rename (f : K → K') (s : RangeInclusiveSet K) : RangeInclusiveSet K' := ⟨s.rm.rename f id⟩

theorem iter_rename (s : RangeInclusiveSet K) : (s.rename f).iter = s.iter.map (mapIRange f) := by
  simp [iter, rename, RangeInclusiveMap.rename, RangeInclusiveMap.iter]

theorem insert_rename (hf : Embeds f) (hS : StepsMap f S S') (s : RangeInclusiveSet K)
    (r : RangeInclusive K) :
    (s.rename f).insert S' (mapIRange f r) = (s.insert S r).map (rename f) := by
  have := RangeInclusiveMap.insert_rename (g := id) hf hS (fun a b : Unit => rfl) s.rm r ()
  simp only [insert, rename]
  rw [show (() : Unit) = id () from rfl, this]
  cases s.rm.insert S r () <;> rfl

theorem remove_rename (hf : Embeds f) (hS : StepsMap f S S') (s : RangeInclusiveSet K)
    (r : RangeInclusive K) :
    (s.rename f).remove S' (mapIRange f r) = (s.remove S r).map (rename f) := by
  have := RangeInclusiveMap.remove_rename (g := id) hf hS s.rm r
  simp only [remove, rename, this]
  cases s.rm.remove S r <;> rfl

theorem extend_rename (hf : Embeds f) (hS : StepsMap f S S') (s : RangeInclusiveSet K)
    (items : List (RangeInclusive K)) :
    (s.rename f).extend S' (items.map (mapIRange f))
      = ((s.extend S items).1.rename f, (s.extend S items).2) := by
  induction items generalizing s with
  | nil => rfl
  | cons e t ih =>
    simp only [List.map_cons, extend, insert_rename hf hS]
    cases s.insert S e with
    | error p => rfl
    | ok m' => exact ih m'

theorem fromIter_rename (hf : Embeds f) (hS : StepsMap f S S')
    (items : List (RangeInclusive K)) :
    fromIter S' (items.map (mapIRange f)) = (fromIter S items).map (rename f) := by
  simp only [fromIter]
  rw [show (new : RangeInclusiveSet K') = (new : RangeInclusiveSet K).rename f from rfl,
    extend_rename hf hS]
  cases ((new : RangeInclusiveSet K).extend S items).2 <;> rfl

theorem apply_rename (hf : Embeds f) (hS : StepsMap f S S') (s : RangeInclusiveSet K)
    (op : SetOp (RangeInclusive K)) :
    (s.rename f).apply S' (op.map (mapIRange f))
      = ((s.apply S op).1.rename f, (s.apply S op).2) := by
  cases op with
  | insert r =>
    simp only [SetOp.map, apply, insert_rename hf hS]
    cases s.insert S r <;> rfl
  | remove r =>
    simp only [SetOp.map, apply, remove_rename hf hS]
    cases s.remove S r <;> rfl
  | clear => rfl
  | extend items => exact extend_rename hf hS s items

theorem run_rename (hf : Embeds f) (hS : StepsMap f S S')
    (ops : List (SetOp (RangeInclusive K))) :
    run S' (ops.map (SetOp.map (mapIRange f))) = (run S ops).rename f := by
  unfold run
  rw [show (RangeInclusiveSet.new : RangeInclusiveSet K')
    = (RangeInclusiveSet.new : RangeInclusiveSet K).rename f from rfl]
  generalize (RangeInclusiveSet.new : RangeInclusiveSet K) = m
  induction ops generalizing m with
  | nil => rfl
  | cons op ops ih =>
    simp only [List.map_cons, List.foldl_cons]
    rw [apply_rename hf hS, ih]

theorem union_rename (s t : RangeInclusiveSet K) :
    (s.rename f).union (t.rename f) = (s.union t).map (mapIRange f) := by
  simp only [union, iter_rename, Union.map]

theorem intersection_rename (s t : RangeInclusiveSet K) :
    (s.rename f).intersection (t.rename f) = (s.intersection t).map (mapIRange f) := by
  simp only [intersection, iter_rename, Intersection.map]

theorem unionNext_rename (hf : Embeds f) (u : Union (RangeInclusive K)) :
    (u.map (mapIRange f)).next
      = Prod.map (Option.map (mapIRange f)) (Union.map (mapIRange f)) u.next :=
  Union.next_map (fun _ _ => hf.kcmp _ _) (RangeInclusive.merge_map hf) u

theorem intersectionNext_rename (hf : Embeds f) (u : Intersection (RangeInclusive K)) :
    (u.map (mapIRange f)).next
      = Prod.map (Option.map (mapIRange f)) (Intersection.map (mapIRange f)) u.next :=
  Intersection.next_map (fun _ _ => hf.kcmp _ _) (RangeInclusive.intersect_map hf) u

theorem bitOr_rename (hf : Embeds f) (hS : StepsMap f S S') (s t : RangeInclusiveSet K) :
    (s.rename f).bitOr S' (t.rename f) = (s.bitOr S t).map (rename f) := by
  simp only [bitOr, union_rename, drain_rename (unionNext_rename hf),
    show ∀ s : RangeInclusiveSet K, (s.rename f).len = s.len by
      intro s; simp [len, rename, RangeInclusiveMap.rename, RangeInclusiveMap.len]]
  cases drain Union.next (s.len + t.len + 1) (s.union t) with
  | error p => rfl
  | ok l => exact fromIter_rename hf hS l

theorem bitAnd_rename (hf : Embeds f) (hS : StepsMap f S S') (s t : RangeInclusiveSet K) :
    (s.rename f).bitAnd S' (t.rename f) = (s.bitAnd S t).map (rename f) := by
  simp only [bitAnd, intersection_rename, drain_rename (intersectionNext_rename hf),
    show ∀ s : RangeInclusiveSet K, (s.rename f).len = s.len by
      intro s; simp [len, rename, RangeInclusiveMap.rename, RangeInclusiveMap.len]]
  cases drain Intersection.next (s.len + t.len + 1) (s.intersection t) with
  | error p => rfl
  | ok l => exact fromIter_rename hf hS l

end RangeInclusiveSet
end Verif

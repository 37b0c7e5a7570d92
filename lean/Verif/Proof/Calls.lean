import Verif.Model.Calls
import Verif.Proof.Cost
import Verif.Proof.ICost

/-!
# Counting the calls of comparisons and step functions
-/
set_option linter.unusedSectionVars false
set_option linter.unusedVariables false
namespace Verif

namespace Calls

@[simp] theorem add_cmps (a b : Calls) : (a + b).cmps = a.cmps + b.cmps := rfl
@[simp] theorem add_eqs (a b : Calls) : (a + b).eqs = a.eqs + b.eqs := rfl
@[simp] theorem add_steps (a b : Calls) : (a + b).steps = a.steps + b.steps := rfl

theorem add_assoc (a b c : Calls) : a + b + c = a + (b + c) := by
  show Calls.mk _ _ _ = Calls.mk _ _ _
  simp only [add_cmps, add_eqs, add_steps, Nat.add_assoc]

end Calls

namespace Counted
variable {α β : Type}

/-- The metered computation `x` ends as `y` does, having moved the meter by at most so much. -/
def Runs (x : Counted α) (y : Except Panic α) (a b c : Nat) : Prop :=
  ∃ d : Calls, (∀ w, x w = (y, w + d)) ∧ d.cmps ≤ a ∧ d.eqs ≤ b ∧ d.steps ≤ c

namespace Runs
variable {a b c a' b' c' : Nat}

theorem mono {x : Counted α} {y : Except Panic α} (h : Runs x y a b c) (h1 : a ≤ a') (h2 : b ≤ b')
    (h3 : c ≤ c') : Runs x y a' b' c' := by
  obtain ⟨d, h, k1, k2, k3⟩ := h
  exact ⟨d, h, Nat.le_trans k1 h1, Nat.le_trans k2 h2, Nat.le_trans k3 h3⟩

theorem lib (y : Except Panic α) : Runs (Counted.lib y) y 0 0 0 :=
  ⟨⟨0, 0, 0⟩, fun _ => rfl, Nat.le_refl _, Nat.le_refl _, Nat.le_refl _⟩

theorem pure (v : α) : Runs (Pure.pure v) (Pure.pure v) 0 0 0 := lib (.ok v)

theorem bind {x : Counted α} {y : Except Panic α} {f : α → Counted β} {g : α → Except Panic β}
    (h : Runs x y a b c) (hf : ∀ v, y = .ok v → Runs (f v) (g v) a' b' c') :
    Runs (x >>= f) (y >>= g) (a + a') (b + b') (c + c') := by
  obtain ⟨d, h, k1, k2, k3⟩ := h
  cases y with
  | error p =>
    refine ⟨d, fun w => ?_, by omega, by omega, by omega⟩
    show (match x w with
      | (.ok a, w') => f a w'
      | (.error p, w') => (.error p, w')) = _
    rw [h]
    rfl
  | ok v =>
    obtain ⟨e, h', l1, l2, l3⟩ := hf v rfl
    refine ⟨d + e, fun w => ?_, Nat.add_le_add k1 l1, Nat.add_le_add k2 l2, Nat.add_le_add k3 l3⟩
    show (match x w with
      | (.ok a, w') => f a w'
      | (.error p, w') => (.error p, w')) = _
    rw [h]
    show f v (w + d) = _
    rw [h', Calls.add_assoc]
    rfl

/-- A call of user code that returns `v`, followed by more. -/
theorem step {x : Counted α} {v : α} {f : α → Counted β} {y : Except Panic β}
    (h : Runs x (.ok v) a b c) (hf : Runs (f v) y a' b' c') :
    Runs (x >>= f) y (a + a') (b + b') (c + c') :=
  bind (g := fun _ => y) h fun u hu => by cases hu; exact hf

variable {K V : Type} [LE K] [LT K] [DecidableLE K] [DecidableLT K]

theorem lt (k l : K) : Runs (Counted.lt k l) (.ok (decide (k < l))) 1 0 0 :=
  ⟨⟨1, 0, 0⟩, fun _ => rfl, Nat.le_refl _, Nat.le_refl _, Nat.le_refl _⟩

theorem le (k l : K) : Runs (Counted.le k l) (.ok (decide (k ≤ l))) 1 0 0 :=
  ⟨⟨1, 0, 0⟩, fun _ => rfl, Nat.le_refl _, Nat.le_refl _, Nat.le_refl _⟩

theorem keyEq (k l : K) : Runs (Counted.keyEq k l) (.ok (keq k l)) 1 0 0 :=
  ⟨⟨1, 0, 0⟩, fun _ => rfl, Nat.le_refl _, Nat.le_refl _, Nat.le_refl _⟩

theorem max (k l : K) : Runs (Counted.max k l) (.ok (rmax k l)) 1 0 0 :=
  ⟨⟨1, 0, 0⟩, fun _ => rfl, Nat.le_refl _, Nat.le_refl _, Nat.le_refl _⟩

theorem min (k l : K) : Runs (Counted.min k l) (.ok (rmin k l)) 1 0 0 :=
  ⟨⟨1, 0, 0⟩, fun _ => rfl, Nat.le_refl _, Nat.le_refl _, Nat.le_refl _⟩

theorem valEq [BEq V] (v w : V) : Runs (Counted.valEq v w) (.ok (v == w)) 0 1 0 :=
  ⟨⟨0, 1, 0⟩, fun _ => rfl, Nat.le_refl _, Nat.le_refl _, Nat.le_refl _⟩

theorem addOne (S : StepFns K) (k : K) : Runs (Counted.addOne S k) (S.addOne k) 0 0 1 :=
  ⟨⟨0, 0, 1⟩, fun _ => rfl, Nat.le_refl _, Nat.le_refl _, Nat.le_refl _⟩

theorem subOne (S : StepFns K) (k : K) : Runs (Counted.subOne S k) (S.subOne k) 0 0 1 :=
  ⟨⟨0, 0, 1⟩, fun _ => rfl, Nat.le_refl _, Nat.le_refl _, Nat.le_refl _⟩

theorem overlaps (r o : Range K) : Runs (r.overlapsN o) (.ok (r.overlaps o)) 3 0 0 :=
  ⟨⟨3, 0, 0⟩, fun _ => rfl, Nat.le_refl _, Nat.le_refl _, Nat.le_refl _⟩

theorem touches (r o : Range K) : Runs (r.touchesN o) (.ok (r.touches o)) 3 0 0 :=
  ⟨⟨3, 0, 0⟩, fun _ => rfl, Nat.le_refl _, Nat.le_refl _, Nat.le_refl _⟩

theorem ioverlaps (r o : RangeInclusive K) : Runs (r.overlapsN o) (.ok (r.overlaps o)) 3 0 0 :=
  ⟨⟨3, 0, 0⟩, fun _ => rfl, Nat.le_refl _, Nat.le_refl _, Nat.le_refl _⟩

theorem itouches (S : StepFns K) (r o : RangeInclusive K) :
    Runs (r.touchesN S o) (r.touches S o) 4 0 1 := by
  unfold RangeInclusive.touchesN RangeInclusive.touches
  refine mono (step (max _ _) (step (min _ _) (step (lt _ _) (a' := 1) (b' := 0) (c' := 1) ?_)))
    (by omega) (by omega) (by omega)
  by_cases h : rmin r.stop o.stop < rmax r.start o.start
  · simp only [h, decide_true, if_true]
    exact mono (bind (addOne S _) fun v _ => le _ _) (by omega) (by omega) (by omega)
  · simp only [h, decide_false, if_false]
    exact mono (step (pure _) (le _ _)) (by omega) (by omega) (by omega)

theorem and {x z : Counted Bool} {u v : Bool} (h : Runs x (.ok u) a b c)
    (h' : Runs z (.ok v) a' b' c') :
    Runs (Counted.and x z) (.ok (u && v)) (a + a') (b + b') (c + c') := by
  unfold Counted.and
  refine step h ?_
  cases u with
  | true => exact h'
  | false => exact mono (pure false) (by omega) (by omega) (by omega)

theorem not {x : Counted Bool} {u : Bool} (h : Runs x (.ok u) a b c) :
    Runs (do return !(← x)) (.ok (!u)) a b c :=
  step (f := fun b => Pure.pure (!b)) h (pure _)

theorem filter {p : α → Counted Bool} {q : α → Except Panic Bool}
    (h : ∀ e, Runs (p e) (q e) a b c) : ∀ l : List α,
    Runs (Counted.filter p l) (filterE q l) (a * l.length) (b * l.length) (c * l.length)
  | [] => mono (pure []) (by simp) (by simp) (by simp)
  | e :: l => by
    unfold Counted.filter filterE
    refine mono (bind (h e) fun v _ => bind (filter h l) fun t _ => pure _) ?_ ?_ ?_ <;>
      simp only [List.length_cons, Nat.mul_add] <;> omega

end Runs
end Counted

theorem filterE_ok {α : Type} (p : α → Bool) :
    ∀ l : List α, filterE (fun e => .ok (p e)) l = .ok (l.filter p)
  | [] => rfl
  | e :: l => by
    unfold filterE
    rw [filterE_ok p l, List.filter_cons]
    rfl

section
variable {K : Type} [LE K] [LT K] [DecidableLE K] [DecidableLT K] {R V α β : Type}

/-- Started on the B-tree `m` the program returns `a` and leaves `m'`. -/
def Ends (key : R → K) (c : Cr K R V α) (m : List (R × V)) (a : α) (m' : List (R × V)) : Prop :=
  ∀ n, ∃ n', c.run key (fun _ => false) ⟨n, m⟩ = (.ok a, ⟨n', m'⟩)

namespace Ends
variable {key : R → K}

theorem pure (a : α) (m : List (R × V)) : Ends key (Pure.pure a) m a m := fun n => ⟨n, rfl⟩

theorem bind {c : Cr K R V α} {f : α → Cr K R V β} {m m1 m2 : List (R × V)} {a : α} {b : β}
    (h1 : Ends key c m a m1) (h2 : Ends key (f a) m1 b m2) : Ends key (c >>= f) m b m2 := by
  intro n
  obtain ⟨n1, h⟩ := h1 n
  rw [Cr.run_bind, h]
  exact h2 n1

theorem user (m : List (R × V)) : Ends key Cr.user m () m := fun n => ⟨n + 1, rfl⟩

theorem lib {x : Except Panic α} {a : α} (h : x = .ok a) (m : List (R × V)) :
    Ends key (Cr.lib x) m a m := by subst h; exact fun n => ⟨n, rfl⟩

theorem remove (k : K) (m : List (R × V)) :
    Ends key (Cr.remove k) m () (BTreeMap.remove key k m) := fun n => ⟨n + 1 + 1, rfl⟩

theorem insert (r : R) (v : V) (m : List (R × V)) :
    Ends key (Cr.insert r v) m () (BTreeMap.insert key r v m) := by
  intro n
  show ∃ n', Cr.run key (fun _ => false)
    (if (m.any fun e => keq (key e.1) (key r)) then Cr.call (.ret ()) else .ret ())
    ⟨n + 1, BTreeMap.insert key r v m⟩ = _
  split
  · exact ⟨n + 1 + 1, rfl⟩
  · exact ⟨n + 1, rfl⟩

theorem cost_bind {c : Cr K R V α} {m m' : List (R × V)} {a : α} (h : Ends key c m a m')
    (f : α → Cr K R V β) : (c >>= f).cost key m = c.cost key m + (f a).cost key m' := by
  rw [Cr.cost_bind key f c 0 m]
  obtain ⟨n, h⟩ := h 0
  rw [h]

end Ends
end

open Counted

namespace RangeMap
variable {K : Type} [LE K] [LT K] [DecidableLE K] [DecidableLT K] {V : Type}

theorem insertLeft_ends (m : List (Range K × V)) (x : Range K) (w : V) (n : Range K) :
    Ends Range.start (insertLeftC x w n) m () (if x.start < n.start then
      BTreeMap.insert Range.start ⟨x.start, n.start⟩ w m else m) := by
  unfold insertLeftC
  refine (Ends.user _).bind ?_
  split
  · exact (Ends.user _).bind (Ends.insert _ _ _)
  · exact Ends.pure _ _

theorem insertRight_ends (m : List (Range K × V)) (x : Range K) (w : V) (n : Range K) :
    Ends Range.start (insertRightC x w n) m () (if n.stop < x.stop then
      BTreeMap.insert Range.start ⟨n.stop, x.stop⟩ w m else m) := by
  unfold insertRightC
  refine (Ends.user _).bind ?_
  split
  · exact (Ends.user _).bind (Ends.insert _ _ _)
  · exact Ends.pure _ _

theorem insertPiecesN_runs (m : List (Range K × V)) (x : Range K) (w : V) (n : Range K) :
    Counted.Runs (insertPiecesN m x w n)
      (.ok (let m := if x.start < n.start then BTreeMap.insert Range.start ⟨x.start, n.start⟩ w m
          else m
        if n.stop < x.stop then BTreeMap.insert Range.start ⟨n.stop, x.stop⟩ w m else m)) 2 0 0 :=
          by
  unfold insertPiecesN
  refine Counted.Runs.mono (.step (.lt _ _) (a' := 1) (b' := 0) (c' := 0) ?_) (by omega) (by omega)
    (by omega)
  by_cases h : x.start < n.start <;> by_cases h2 : n.stop < x.stop <;>
    simp only [h, h2, decide_true, decide_false, if_true, if_false, Bool.false_eq_true] <;>
    exact ⟨⟨1, 0, 0⟩, fun w => by simp [h2, bind, Counted.bind, pure, Counted.pure, lt, tick],
      Nat.le_refl _, Nat.le_refl _, Nat.le_refl _⟩

section
variable [BEq V]

theorem adjustInsert_ends (m : List (Range K × V)) (x : Range K) (w : V) (n : Range K) (v : V) :
    Ends Range.start (adjustTouchingRangesForInsertC x w n v) m
      (adjustTouchingRangesForInsert m x w n v).2 (adjustTouchingRangesForInsert m x w n v).1 := by
  unfold adjustTouchingRangesForInsertC adjustTouchingRangesForInsert
  refine (Ends.user _).bind ?_
  split
  · exact (Ends.user _).bind ((Ends.remove _ _).bind ((Ends.user _).bind (Ends.pure _ _)))
  · refine (Ends.user _).bind ?_
    split
    · exact (Ends.remove _ _).bind ((insertLeft_ends _ _ _ _).bind
        ((insertRight_ends _ _ _ _).bind ((Ends.user _).bind (Ends.pure _ _))))
    · exact (Ends.user _).bind (Ends.pure _ _)

theorem adjustInsertN_runs (m : List (Range K × V)) (x : Range K) (w : V) (n : Range K) (v : V) :
    Counted.Runs (adjustTouchingRangesForInsertN m x w n v)
      (.ok (adjustTouchingRangesForInsert m x w n v)) 5 1 0 := by
  unfold adjustTouchingRangesForInsertN adjustTouchingRangesForInsert
  refine Counted.Runs.mono (.step (.valEq _ _) (a' := 5) (b' := 0) (c' := 0) ?_) (by omega) (by omega)
    (by omega)
  split
  · exact Counted.Runs.mono (.step (.min _ _) (.step (.max _ _) (.pure _))) (by omega) (by omega) (by omega)
  · refine Counted.Runs.mono (.step (.overlaps _ _) (a' := 2) (b' := 0) (c' := 0) ?_) (by omega) (by omega)
      (by omega)
    split
    · exact Counted.Runs.mono (.step (insertPiecesN_runs _ _ _ _) (.pure _)) (by omega) (by omega)
        (by omega)
    · exact Counted.Runs.mono (.pure _) (by omega) (by omega) (by omega)

theorem insertLoopN_runs (hi : K) (v : V) : ∀ (fuel : Nat) (m : List (Range K × V)) (n : Range K)
    (s : Nat), ((insertLoopC hi v fuel n).cost Range.start m).searches = s →
    Counted.Runs (insertLoopN hi v fuel m n) (insertLoop hi v fuel m n) (6 * s) (2 * s) 0
  | 0, m, n, s, hs => Counted.Runs.mono (.lib _) (by omega) (by omega) (by omega)
  | fuel + 1, m, n, s, hs => by
    unfold insertLoopN insertLoop
    unfold insertLoopC at hs
    refine Counted.Runs.mono (a := 0 + 6 * s) (b := 0 + 2 * s) (c := 0 + 0) (.bind (.lib _) fun l hl => ?_)
      (by omega) (by omega) (by omega)
    rw [Cr.cost_range_bind hl] at hs
    cases hd : l.head? with
    | none => exact Counted.Runs.mono (.pure _) (by omega) (by omega) (by omega)
    | some x =>
      simp only [hd, Cr.cost_user_bind] at hs ⊢
      by_cases hb : (keq x.1.start n.stop && !(x.2 == v)) = true
      · have h1 := Counted.Runs.and (.keyEq x.1.start n.stop) (Counted.Runs.not (.valEq x.2 v))
        rw [hb] at h1
        rw [if_pos hb] at hs ⊢
        have hs : 1 = s := hs
        exact Counted.Runs.mono (.step h1 (.pure _)) (by omega) (by omega) (by omega)
      · rw [if_neg hb, Cr.cost_user_bind, (adjustInsert_ends m x.1 x.2 n v).cost_bind] at hs
        simp only [Cost.add_searches] at hs
        have h1 := Counted.Runs.and (.keyEq x.1.start n.stop) (Counted.Runs.not (.valEq x.2 v))
        rw [Bool.not_eq_true] at hb
        rw [hb] at h1 ⊢
        have h2 := insertLoopN_runs hi v fuel (adjustTouchingRangesForInsert m x.1 x.2 n v).1
          (adjustTouchingRangesForInsert m x.1 x.2 n v).2 _ rfl
        refine Counted.Runs.mono (.step h1 (.step (adjustInsertN_runs m x.1 x.2 n v) h2)) ?_ ?_ ?_ <;> omega

theorem insertPrefix_searches (m : List (Range K × V)) (n : Range K) (v : V) :
    1 ≤ ((insertPrefixC n v).cost Range.start m).searches := by
  unfold insertPrefixC
  show 1 ≤ (Cr.cost Range.start (.call (.search _ _ _)) m).searches
  simp only [Cr.cost, Cost.add_searches]
  omega

theorem insertPrefix_ends {m : List (Range K × V)} {n : Range K} {v : V}
    {p : List (Range K × V) × Range K} (h : insertPrefix m n v = .ok p) :
    Ends Range.start (insertPrefixC n v) m p.2 p.1 := by
  unfold insertPrefix at h
  unfold insertPrefixC
  cases hrg : BTreeMap.range Range.start .unbounded (.included n.start) m with
  | error e => rw [hrg] at h; cases h
  | ok l =>
    rw [hrg] at h
    refine Ends.bind (a := l) (m1 := m) (fun k => ⟨k + 1, by
      show (Cr.search _ _ _).run Range.start _ ⟨k + 1, m⟩ = _
      simp only [Cr.run, hrg]⟩) ((Ends.user _).bind ?_)
    simp only [bind, Except.bind] at h
    generalize (l.reverse.take 2).filter _ = cs at h ⊢
    match cs, h with
    | [], h => cases h; exact Ends.pure _ _
    | [x], h => cases h; exact (Ends.user _).bind (adjustInsert_ends _ _ _ _ _)
    | _ :: x :: t, h => cases h; exact (Ends.user _).bind (adjustInsert_ends _ _ _ _ _)

theorem insertPrefixN_runs (m : List (Range K × V)) (n : Range K) (v : V) :
    Counted.Runs (insertPrefixN m n v) (insertPrefix m n v) 11 1 0 := by
  unfold insertPrefixN insertPrefix
  refine Counted.Runs.mono (a := 0 + 11) (b := 0 + 1) (c := 0 + 0) (.bind (.lib _) fun l hl => ?_)
    (by omega) (by omega) (by omega)
  have h1 := Counted.Runs.filter (fun e : Range K × V => Counted.Runs.touches e.1 n) (l.reverse.take 2)
  rw [filterE_ok] at h1
  have h2 : (l.reverse.take 2).length ≤ 2 := by rw [List.length_take]; omega
  refine Counted.Runs.mono (.step h1 (a' := 5) (b' := 1) (c' := 0) ?_) (by omega) (by omega) (by omega)
  generalize (l.reverse.take 2).filter _ = cs
  match cs with
  | [] => exact Counted.Runs.mono (.pure _) (by omega) (by omega) (by omega)
  | [x] => exact adjustInsertN_runs _ _ _ _ _
  | _ :: x :: t => exact adjustInsertN_runs _ _ _ _ _

/-- The calls of a whole `insert`, by the number of searches it makes. -/
theorem insertN_runs (m : RangeMap K V) (r : Range K) (v : V) :
    Counted.Runs (m.insertN r v) (m.insert r v) (6 * (m.insertCost r v).searches + 6)
      (2 * (m.insertCost r v).searches) 0 := by
  unfold insertN insert insertFuel
  by_cases hr : r.start < r.stop
  · have hc : m.insertCost r v = (insertPrefixC r v >>= fun n => (do
        Cr.user
        let n ← insertLoopC n.stop v (m.len + 2) n
        Cr.insert n v
        Cr.user) : Cr K (Range K) V Unit).cost Range.start m.btm := by
      unfold insertCost insertProgram
      rw [Cr.cost_user_bind, if_pos hr]
      rfl
    have h1 := insertPrefix_searches m.btm r v
    have h2 : 1 ≤ (m.insertCost r v).searches := by
      rw [hc, Cr.cost_bind _ _ _ 0]
      simp only [Cost.add_searches]
      omega
    generalize hs : (m.insertCost r v).searches = s at h2 ⊢
    refine Counted.Runs.mono (.step (.lt _ _) (a' := 11 + 6 * (s - 1)) (b' := 1 + 2 * (s - 1))
      (c' := 0 + 0) ?_) (by omega) (by omega) (by omega)
    simp only [hr, not_true_eq_false, decide_true, if_true, if_false]
    refine .bind (insertPrefixN_runs _ _ _) fun p hp => ?_
    rw [hc, (insertPrefix_ends hp).cost_bind, Cr.cost_user_bind, Cr.cost_bind _ _ _ 0] at hs
    simp only [Cost.add_searches] at hs
    have h3 := insertLoopN_runs p.2.stop v (m.len + 2) p.1 p.2 _ rfl
    refine Counted.Runs.mono (.bind h3 fun q _ => .pure _) ?_ ?_ ?_ <;> omega
  · simp only [hr, not_false_eq_true, if_true]
    refine Counted.Runs.mono (a := 1 + 0) (b := 0 + 0) (c := 0 + 0) (.step (.lt _ _) ?_) (by omega)
      (by omega) (by omega)
    simp only [hr, decide_false, Bool.false_eq_true, if_false]
    exact .lib _

end

theorem adjustRemove_ends (m : List (Range K × V)) (x : Range K) (w : V) (n : Range K) :
    Ends Range.start (adjustOverlappingRangesForRemoveC x w n) m ()
      (adjustOverlappingRangesForRemove m x w n) := by
  unfold adjustOverlappingRangesForRemoveC adjustOverlappingRangesForRemove
  exact (Ends.remove _ _).bind ((insertLeft_ends _ _ _ _).bind
    ((insertRight_ends _ _ _ _).bind (Ends.user _)))

theorem adjustRemoveN_runs (m : List (Range K × V)) (x : Range K) (w : V) (n : Range K) :
    Counted.Runs (adjustOverlappingRangesForRemoveN m x w n)
      (.ok (adjustOverlappingRangesForRemove m x w n)) 2 0 0 := insertPiecesN_runs _ _ _ _

theorem removeLoopN_runs (r : Range K) : ∀ (fuel : Nat) (m : List (Range K × V))
    (s : Nat), ((removeLoopC r fuel : Cr K (Range K) V Unit).cost Range.start m).searches = s →
    Counted.Runs (removeLoopN r fuel m) (removeLoop r fuel m) (2 * s) 0 0
  | 0, m, s, hs => Counted.Runs.mono (.lib _) (by omega) (by omega) (by omega)
  | fuel + 1, m, s, hs => by
    unfold removeLoopN removeLoop
    unfold removeLoopC at hs
    refine Counted.Runs.mono (a := 0 + 2 * s) (b := 0 + 0) (c := 0 + 0) (.bind (.lib _) fun l hl => ?_)
      (by omega) (by omega) (by omega)
    rw [Cr.cost_range_bind hl] at hs
    cases hd : l.head? with
    | none => exact Counted.Runs.mono (.pure _) (by omega) (by omega) (by omega)
    | some x =>
      simp only [hd, Cr.cost_user_bind] at hs ⊢
      rw [(adjustRemove_ends m x.1 x.2 r).cost_bind] at hs
      simp only [Cost.add_searches] at hs
      have h2 := removeLoopN_runs r fuel (adjustOverlappingRangesForRemove m x.1 x.2 r) _ rfl
      refine Counted.Runs.mono (.step (adjustRemoveN_runs m x.1 x.2 r) h2) ?_ ?_ ?_ <;> omega

theorem removePrefix_searches (m : List (Range K × V)) (n : Range K) :
    1 ≤ ((removePrefixC n : Cr K (Range K) V Unit).cost Range.start m).searches := by
  unfold removePrefixC
  show 1 ≤ (Cr.cost Range.start (.call (.search _ _ _)) m).searches
  simp only [Cr.cost, Cost.add_searches]
  omega

theorem removePrefix_ends {m : List (Range K × V)} {n : Range K} {p : List (Range K × V)}
    (h : removePrefix m n = .ok p) : Ends Range.start (removePrefixC n) m () p := by
  unfold removePrefix at h
  unfold removePrefixC
  cases hrg : BTreeMap.range Range.start .unbounded (.included n.start) m with
  | error e => rw [hrg] at h; cases h
  | ok l =>
    rw [hrg] at h
    refine Ends.bind (a := l) (m1 := m) (fun k => ⟨k + 1, by
      show (Cr.search _ _ _).run Range.start _ ⟨k + 1, m⟩ = _
      simp only [Cr.run, hrg]⟩) ((Ends.user _).bind ?_)
    simp only [bind, Except.bind] at h
    generalize l.getLast?.filter _ = cs at h ⊢
    match cs, h with
    | none, h => cases h; exact Ends.pure _ _
    | some x, h => cases h; exact (Ends.user _).bind (adjustRemove_ends _ _ _ _)

theorem removePrefixN_runs (m : List (Range K × V)) (n : Range K) :
    Counted.Runs (removePrefixN m n) (removePrefix m n) 5 0 0 := by
  unfold removePrefixN removePrefix
  refine Counted.Runs.mono (a := 0 + 5) (b := 0 + 0) (c := 0 + 0) (.bind (.lib _) fun l hl => ?_)
    (by omega) (by omega) (by omega)
  cases l.getLast? with
  | none => exact Counted.Runs.mono (.pure _) (by omega) (by omega) (by omega)
  | some x =>
    refine Counted.Runs.mono (.step (.overlaps _ _) (a' := 2) (b' := 0) (c' := 0) ?_) (by omega) (by omega)
      (by omega)
    rw [Option.filter_some]
    cases x.1.overlaps n with
    | true => exact adjustRemoveN_runs _ _ _ _
    | false => exact Counted.Runs.mono (.pure _) (by omega) (by omega) (by omega)

/-- The calls of a whole `remove`, by the number of searches it makes. -/
theorem removeN_runs (m : RangeMap K V) (r : Range K) :
    Counted.Runs (m.removeN r) (m.remove r) (2 * (m.removeCost r).searches + 4) 0 0 := by
  unfold removeN remove removeFuel
  by_cases hr : r.start < r.stop
  · have hc : m.removeCost r = (removePrefixC r >>= fun _ => (do
        Cr.user
        removeLoopC r (m.len + 2)
        Cr.user) : Cr K (Range K) V Unit).cost Range.start m.btm := by
      unfold removeCost removeProgram
      rw [Cr.cost_user_bind, if_pos hr]
      rfl
    have h1 := removePrefix_searches m.btm r
    have h2 : 1 ≤ (m.removeCost r).searches := by
      rw [hc, Cr.cost_bind _ _ _ 0]
      simp only [Cost.add_searches]
      omega
    generalize hs : (m.removeCost r).searches = s at h2 ⊢
    refine Counted.Runs.mono (.step (.lt _ _) (a' := 5 + 2 * (s - 1)) (b' := 0 + 0)
      (c' := 0 + 0) ?_) (by omega) (by omega) (by omega)
    simp only [hr, not_true_eq_false, decide_true, if_true, if_false]
    refine .bind (removePrefixN_runs _ _) fun p hp => ?_
    rw [hc, (removePrefix_ends hp).cost_bind, Cr.cost_user_bind, Cr.cost_bind _ _ _ 0] at hs
    simp only [Cost.add_searches] at hs
    have h3 := removeLoopN_runs r (m.len + 2) p _ rfl
    refine Counted.Runs.mono (.bind h3 fun q _ => .pure _) ?_ ?_ ?_ <;> omega
  · simp only [hr, not_false_eq_true, if_true]
    refine Counted.Runs.mono (a := 1 + 0) (b := 0 + 0) (c := 0 + 0) (.step (.lt _ _) ?_) (by omega)
      (by omega) (by omega)
    simp only [hr, decide_false, Bool.false_eq_true, if_false]
    exact .lib _

end RangeMap

namespace RangeInclusiveMap
variable {K : Type} [LE K] [LT K] [DecidableLE K] [DecidableLT K] {V : Type} (S : StepFns K)

theorem insertLeft_ends {m m' : List (RangeInclusive K × V)} {x : RangeInclusive K} {w : V}
    {n : RangeInclusive K} (h : insertLeft S m x w n = .ok m') :
    Ends RangeInclusive.start (insertLeftC S x w n) m () m' := by
  unfold insertLeft at h
  unfold insertLeftC
  refine (Ends.user _).bind ?_
  split
  · next hc =>
    rw [if_pos hc] at h
    cases hp : S.subOne n.start with
    | error e => rw [hp] at h; cases h
    | ok q =>
      rw [hp] at h
      cases h
      exact (Ends.user _).bind ((Ends.lib rfl _).bind ((Ends.user _).bind (Ends.insert _ _ _)))
  · next hc =>
    rw [if_neg hc] at h
    cases h
    exact Ends.pure _ _

theorem insertRight_ends {m m' : List (RangeInclusive K × V)} {x : RangeInclusive K} {w : V}
    {n : RangeInclusive K} (h : insertRight S m x w n = .ok m') :
    Ends RangeInclusive.start (insertRightC S x w n) m () m' := by
  unfold insertRight at h
  unfold insertRightC
  refine (Ends.user _).bind ?_
  split
  · next hc =>
    rw [if_pos hc] at h
    cases hp : S.addOne n.stop with
    | error e => rw [hp] at h; cases h
    | ok q =>
      rw [hp] at h
      cases h
      exact (Ends.user _).bind ((Ends.lib rfl _).bind ((Ends.user _).bind (Ends.insert _ _ _)))
  · next hc =>
    rw [if_neg hc] at h
    cases h
    exact Ends.pure _ _

theorem insertRightN_runs (m : List (RangeInclusive K × V)) (x : RangeInclusive K) (w : V)
    (n : RangeInclusive K) :
    Counted.Runs (do
      if ← Counted.lt n.stop x.stop then do
        let s ← Counted.addOne S n.stop
        pure (BTreeMap.insert RangeInclusive.start (RangeInclusive.mk' s x.stop) w m)
      else pure m) (insertRight S m x w n) 1 0 1 := by
  unfold insertRight
  refine Counted.Runs.mono (.step (.lt _ _) (a' := 0) (b' := 0) (c' := 1) ?_) (by omega) (by omega)
    (by omega)
  by_cases h : n.stop < x.stop <;>
    simp only [h, decide_true, decide_false, if_true, if_false, Bool.false_eq_true]
  · exact Counted.Runs.mono (.bind (.addOne S _) fun q _ => .pure _) (by omega) (by omega) (by omega)
  · exact Counted.Runs.mono (.pure _) (by omega) (by omega) (by omega)

theorem insertPiecesN_runs (m : List (RangeInclusive K × V)) (x : RangeInclusive K) (w : V)
    (n : RangeInclusive K) :
    Counted.Runs (insertPiecesN S m x w n)
      (do let m ← insertLeft S m x w n; insertRight S m x w n) 2 0 2 := by
  unfold insertPiecesN insertLeft
  refine Counted.Runs.mono (.step (.lt _ _) (a' := 1) (b' := 0) (c' := 2) ?_) (by omega)
    (by omega) (by omega)
  by_cases h : x.start < n.start <;>
    simp only [h, decide_true, decide_false, if_true, if_false, Bool.false_eq_true]
  · have := Counted.Runs.bind (Counted.Runs.subOne S n.start) fun q _ => insertRightN_runs S
      (BTreeMap.insert RangeInclusive.start (RangeInclusive.mk' x.start q) w m) x w n
    rw [bind_assoc]
    exact Counted.Runs.mono this (by omega) (by omega) (by omega)
  · exact Counted.Runs.mono (insertRightN_runs S m x w n) (by omega) (by omega) (by omega)

section
variable [BEq V]

theorem adjustInsert_ends {m : List (RangeInclusive K × V)} {x : RangeInclusive K} {w : V}
    {n : RangeInclusive K} {v : V} {p : List (RangeInclusive K × V) × RangeInclusive K}
    (h : adjustTouchingRangesForInsert S m x w n v = .ok p) :
    Ends RangeInclusive.start (adjustTouchingRangesForInsertC S x w n v) m p.2 p.1 := by
  unfold adjustTouchingRangesForInsert at h
  unfold adjustTouchingRangesForInsertC
  refine (Ends.user _).bind ?_
  split
  · next hc =>
    rw [if_pos hc] at h
    cases h
    exact (Ends.user _).bind ((Ends.remove _ _).bind ((Ends.user _).bind (Ends.pure _ _)))
  · next hc =>
    rw [if_neg hc] at h
    refine (Ends.user _).bind ?_
    split
    · next ho =>
      rw [if_pos ho] at h
      cases h1 : insertLeft S (BTreeMap.remove RangeInclusive.start x.start m) x w n with
      | error e => simp only [h1, bind, Except.bind] at h; cases h
      | ok m1 =>
        cases h2 : insertRight S m1 x w n with
        | error e => simp only [h1, h2, bind, Except.bind] at h; cases h
        | ok m2 =>
          simp only [h1, h2, bind, Except.bind] at h
          cases h
          exact (Ends.remove _ _).bind ((insertLeft_ends S h1).bind
            ((insertRight_ends S h2).bind ((Ends.user _).bind (Ends.pure _ _))))
    · next ho =>
      rw [if_neg ho] at h
      cases h
      exact (Ends.user _).bind (Ends.pure _ _)

theorem adjustInsertN_runs (m : List (RangeInclusive K × V)) (x : RangeInclusive K) (w : V)
    (n : RangeInclusive K) (v : V) :
    Counted.Runs (adjustTouchingRangesForInsertN S m x w n v)
      (adjustTouchingRangesForInsert S m x w n v) 5 1 2 := by
  unfold adjustTouchingRangesForInsertN adjustTouchingRangesForInsert
  refine Counted.Runs.mono (.step (.valEq _ _) (a' := 5) (b' := 0) (c' := 2) ?_) (by omega) (by omega)
    (by omega)
  split
  · exact Counted.Runs.mono (.step (.min _ _) (.step (.max _ _) (.pure _))) (by omega) (by omega) (by omega)
  · refine Counted.Runs.mono (.step (.ioverlaps _ _) (a' := 2) (b' := 0) (c' := 2) ?_) (by omega) (by omega)
      (by omega)
    split
    · have := Counted.Runs.bind (g := fun m => .ok (m, n))
        (insertPiecesN_runs S (BTreeMap.remove RangeInclusive.start x.start m) x w n)
        fun m _ => Counted.Runs.pure (m, n)
      rw [bind_assoc] at this
      exact this
    · exact Counted.Runs.mono (.pure _) (by omega) (by omega) (by omega)

theorem breakCond_ends {hi : K} {v : V} {x : RangeInclusive K × V} {b : Bool}
    (m : List (RangeInclusive K × V)) (h : breakCond S hi v x = .ok b) :
    Ends RangeInclusive.start (breakCondC S hi v x) m b m := by
  unfold breakCond at h
  unfold breakCondC
  refine (Ends.user _).bind ?_
  split
  · next hc =>
    rw [if_pos hc] at h
    cases hp : S.addOne hi with
    | error e => rw [hp] at h; cases h
    | ok q =>
      rw [hp] at h
      refine (Ends.user _).bind ((Ends.lib rfl _).bind ((Ends.user _).bind ?_))
      simp only [bind, Except.bind] at h
      split
      · next hq => rw [if_pos hq] at h; cases h; exact Ends.pure _ _
      · next hq => rw [if_neg hq] at h; cases h; exact Ends.pure _ _
  · next hc =>
    rw [if_neg hc] at h
    cases h
    exact Ends.pure _ _

theorem breakCondN_runs (hi : K) (v : V) (x : RangeInclusive K × V) :
    Counted.Runs (breakCondN S hi v x) (breakCond S hi v x) 3 1 1 := by
  unfold breakCondN breakCond
  refine Counted.Runs.mono (.step (.lt _ _) (a' := 2) (b' := 1) (c' := 1) ?_) (by omega) (by omega)
    (by omega)
  by_cases h : hi < x.1.start <;>
    simp only [h, decide_true, decide_false, if_true, if_false, Bool.false_eq_true]
  · refine Counted.Runs.mono (a := 0 + 2) (b := 0 + 1) (c := 1 + 0) (.bind (.addOne S _) fun q _ => ?_)
      (by omega) (by omega) (by omega)
    refine Counted.Runs.mono (.step (.lt _ _) (a' := 1) (b' := 1) (c' := 0) ?_) (by omega) (by omega)
      (by omega)
    by_cases h2 : q < x.1.start <;>
      simp only [h2, decide_true, decide_false, if_true, if_false, Bool.false_eq_true]
    · exact Counted.Runs.mono (.pure _) (by omega) (by omega) (by omega)
    · exact Counted.Runs.mono (.and (.keyEq _ _) (.not (.valEq _ _))) (by omega) (by omega) (by omega)
  · exact Counted.Runs.mono (.pure _) (by omega) (by omega) (by omega)

theorem insertLoopN_runs (hi : K) (v : V) : ∀ (fuel : Nat) (m : List (RangeInclusive K × V))
    (n : RangeInclusive K) (s : Nat),
    ((insertLoopC S hi v fuel n).cost RangeInclusive.start m).searches = s →
    Counted.Runs (insertLoopN S hi v fuel m n) (insertLoop S hi v fuel m n) (8 * s) (2 * s) (3 * s)
  | 0, m, n, s, hs => Counted.Runs.mono (.lib _) (by omega) (by omega) (by omega)
  | fuel + 1, m, n, s, hs => by
    unfold insertLoopN insertLoop
    unfold insertLoopC at hs
    refine Counted.Runs.mono (a := 0 + 8 * s) (b := 0 + 2 * s) (c := 0 + 3 * s)
      (.bind (.lib _) fun l hl => ?_)
      (by omega) (by omega) (by omega)
    rw [Cr.cost_range_bind hl] at hs
    have h0 : 1 ≤ s := by simp only [Cost.add_searches] at hs; omega
    cases hd : l.head? with
    | none => exact Counted.Runs.mono (.pure _) (by omega) (by omega) (by omega)
    | some x =>
      simp only [hd] at hs ⊢
      refine Counted.Runs.mono (a := 3 + (8 * s - 3)) (b := 1 + (2 * s - 1)) (c := 1 + (3 * s - 1))
        (.bind (breakCondN_runs S hi v x) fun b hb => ?_) (by omega) (by omega) (by omega)
      rw [(breakCond_ends S m hb).cost_bind] at hs
      cases b with
      | true => exact Counted.Runs.mono (.pure _) (by omega) (by omega) (by omega)
      | false =>
        simp only [Bool.false_eq_true, if_false, Cr.cost_user_bind] at hs ⊢
        refine Counted.Runs.mono (a := 5 + (8 * s - 8)) (b := 1 + (2 * s - 2)) (c := 2 + (3 * s - 3))
          (.bind (adjustInsertN_runs S m x.1 x.2 n v) fun p hp => ?_) (by omega) (by omega)
          (by omega)
        rw [(adjustInsert_ends S hp).cost_bind] at hs
        simp only [Cost.add_searches] at hs
        refine Counted.Runs.mono (insertLoopN_runs hi v fuel p.1 p.2 _ rfl) ?_ ?_ ?_ <;> omega

theorem insertPrefix_searches (m : List (RangeInclusive K × V)) (n : RangeInclusive K) (v : V) :
    1 ≤ ((insertPrefixC S n v).cost RangeInclusive.start m).searches := by
  unfold insertPrefixC
  show 1 ≤ (Cr.cost RangeInclusive.start (.call (.search _ _ _)) m).searches
  simp only [Cr.cost, Cost.add_searches]
  omega

theorem insertPrefix_ends {m : List (RangeInclusive K × V)} {n : RangeInclusive K} {v : V}
    {p : List (RangeInclusive K × V) × RangeInclusive K} (h : insertPrefix S m n v = .ok p) :
    Ends RangeInclusive.start (insertPrefixC S n v) m p.2 p.1 := by
  unfold insertPrefix at h
  unfold insertPrefixC
  cases hrg : BTreeMap.range RangeInclusive.start .unbounded (.included n.start) m with
  | error e => rw [hrg] at h; cases h
  | ok l =>
    rw [hrg] at h
    refine Ends.bind (a := l) (m1 := m) (fun k => ⟨k + 1, by
      show (Cr.search _ _ _).run RangeInclusive.start _ ⟨k + 1, m⟩ = _
      simp only [Cr.run, hrg]⟩) ((Ends.user _).bind ?_)
    simp only [bind, Except.bind] at h
    cases hf : filterE (fun e => e.1.touches S n) (l.reverse.take 2) with
    | error e => rw [hf] at h; cases h
    | ok cs =>
      rw [hf] at h
      refine (Ends.lib rfl _).bind ?_
      match cs, h with
      | [], h => cases h; exact Ends.pure _ _
      | [x], h => exact (Ends.user _).bind (adjustInsert_ends S h)
      | _ :: x :: t, h => exact (Ends.user _).bind (adjustInsert_ends S h)

theorem insertPrefixN_runs (m : List (RangeInclusive K × V)) (n : RangeInclusive K) (v : V) :
    Counted.Runs (insertPrefixN S m n v) (insertPrefix S m n v) 13 1 4 := by
  unfold insertPrefixN insertPrefix
  refine Counted.Runs.mono (a := 0 + 13) (b := 0 + 1) (c := 0 + 4) (.bind (.lib _) fun l hl => ?_)
    (by omega) (by omega) (by omega)
  have h1 := Counted.Runs.filter (fun e : RangeInclusive K × V => Counted.Runs.itouches S e.1 n) (l.reverse.take 2)
  have h2 : (l.reverse.take 2).length ≤ 2 := by rw [List.length_take]; omega
  refine Counted.Runs.mono (.bind h1 (a' := 5) (b' := 1) (c' := 2) fun cs _ => ?_) (by omega) (by omega)
    (by omega)
  match cs with
  | [] => exact Counted.Runs.mono (.pure _) (by omega) (by omega) (by omega)
  | [x] => exact adjustInsertN_runs S _ _ _ _ _
  | _ :: x :: t => exact adjustInsertN_runs S _ _ _ _ _

/-- The calls of a whole `insert`, by the number of searches it makes. -/
theorem insertN_runs (m : RangeInclusiveMap K V) (r : RangeInclusive K) (v : V) :
    Counted.Runs (m.insertN S r v) (m.insert S r v) (8 * (m.insertCost S r v).searches + 6)
      (2 * (m.insertCost S r v).searches) (3 * (m.insertCost S r v).searches + 1) := by
  unfold insertN insert insertFuel
  by_cases hr : r.start ≤ r.stop
  · have hc : m.insertCost S r v = (insertPrefixC S r v >>= fun n => (do
        Cr.user
        let n ← insertLoopC S n.stop v (m.len + 2) n
        Cr.insert n v
        Cr.user) : Cr K (RangeInclusive K) V Unit).cost RangeInclusive.start m.btm := by
      unfold insertCost insertProgram
      rw [Cr.cost_user_bind, if_pos hr]
      rfl
    have h1 := insertPrefix_searches S m.btm r v
    have h2 : 1 ≤ (m.insertCost S r v).searches := by
      rw [hc, Cr.cost_bind _ _ _ 0]
      simp only [Cost.add_searches]
      omega
    generalize hs : (m.insertCost S r v).searches = s at h2 ⊢
    refine Counted.Runs.mono (.step (.le _ _) (a' := 13 + 8 * (s - 1)) (b' := 1 + 2 * (s - 1))
      (c' := 4 + 3 * (s - 1)) ?_) (by omega) (by omega) (by omega)
    simp only [hr, not_true_eq_false, decide_true, if_true, if_false]
    refine .bind (insertPrefixN_runs S _ _ _) fun p hp => ?_
    rw [hc, (insertPrefix_ends S hp).cost_bind, Cr.cost_user_bind, Cr.cost_bind _ _ _ 0] at hs
    simp only [Cost.add_searches] at hs
    have h3 := insertLoopN_runs S p.2.stop v (m.len + 2) p.1 p.2 _ rfl
    refine Counted.Runs.mono (.bind h3 fun q _ => .pure _) ?_ ?_ ?_ <;> omega
  · simp only [hr, not_false_eq_true, if_true]
    refine Counted.Runs.mono (a := 1 + 0) (b := 0 + 0) (c := 0 + 0) (.step (.le _ _) ?_) (by omega)
      (by omega) (by omega)
    simp only [hr, decide_false, Bool.false_eq_true, if_false]
    exact .lib _

end

theorem adjustRemove_ends {m : List (RangeInclusive K × V)} {x : RangeInclusive K} {w : V}
    {n : RangeInclusive K} {p : List (RangeInclusive K × V)}
    (h : adjustOverlappingRangesForRemove S m x w n = .ok p) :
    Ends RangeInclusive.start (adjustOverlappingRangesForRemoveC S x w n) m () p := by
  unfold adjustOverlappingRangesForRemove at h
  unfold adjustOverlappingRangesForRemoveC
  cases h1 : insertLeft S (BTreeMap.remove RangeInclusive.start x.start m) x w n with
  | error e => simp only [h1, bind, Except.bind] at h; cases h
  | ok m1 =>
    simp only [h1, bind, Except.bind] at h
    exact (Ends.remove _ _).bind ((insertLeft_ends S h1).bind
      ((insertRight_ends S h).bind (Ends.user _)))

theorem adjustRemoveN_runs (m : List (RangeInclusive K × V)) (x : RangeInclusive K) (w : V)
    (n : RangeInclusive K) :
    Counted.Runs (adjustOverlappingRangesForRemoveN S m x w n)
      (adjustOverlappingRangesForRemove S m x w n) 2 0 2 := insertPiecesN_runs S _ _ _ _

theorem removeLoopN_runs (r : RangeInclusive K) : ∀ (fuel : Nat) (m : List (RangeInclusive K × V))
    (s : Nat),
    ((removeLoopC S r fuel : Cr K (RangeInclusive K) V Unit).cost RangeInclusive.start m).searches
      = s →
    Counted.Runs (removeLoopN S r fuel m) (removeLoop S r fuel m) (2 * s) 0 (2 * s)
  | 0, m, s, hs => Counted.Runs.mono (.lib _) (by omega) (by omega) (by omega)
  | fuel + 1, m, s, hs => by
    unfold removeLoopN removeLoop
    unfold removeLoopC at hs
    refine Counted.Runs.mono (a := 0 + 2 * s) (b := 0 + 0) (c := 0 + 2 * s) (.bind (.lib _) fun l hl => ?_)
      (by omega) (by omega) (by omega)
    rw [Cr.cost_range_bind hl] at hs
    have h0 : 1 ≤ s := by simp only [Cost.add_searches] at hs; omega
    cases hd : l.head? with
    | none => exact Counted.Runs.mono (.pure _) (by omega) (by omega) (by omega)
    | some x =>
      simp only [hd, Cr.cost_user_bind] at hs ⊢
      refine Counted.Runs.mono (a := 2 + (2 * s - 2)) (b := 0 + 0) (c := 2 + (2 * s - 2))
        (.bind (adjustRemoveN_runs S m x.1 x.2 r) fun p hp => ?_) (by omega) (by omega) (by omega)
      rw [(adjustRemove_ends S hp).cost_bind] at hs
      simp only [Cost.add_searches] at hs
      refine Counted.Runs.mono (removeLoopN_runs r fuel p _ rfl) ?_ ?_ ?_ <;> omega

theorem removePrefix_searches (m : List (RangeInclusive K × V)) (n : RangeInclusive K) :
    1 ≤ ((removePrefixC S n : Cr K (RangeInclusive K) V Unit).cost
      RangeInclusive.start m).searches := by
  unfold removePrefixC
  show 1 ≤ (Cr.cost RangeInclusive.start (.call (.search _ _ _)) m).searches
  simp only [Cr.cost, Cost.add_searches]
  omega

theorem removePrefix_ends {m : List (RangeInclusive K × V)} {n : RangeInclusive K}
    {p : List (RangeInclusive K × V)}
    (h : removePrefix S m n = .ok p) : Ends RangeInclusive.start (removePrefixC S n) m () p := by
  unfold removePrefix at h
  unfold removePrefixC
  cases hrg : BTreeMap.range RangeInclusive.start .unbounded (.included n.start) m with
  | error e => rw [hrg] at h; cases h
  | ok l =>
    rw [hrg] at h
    refine Ends.bind (a := l) (m1 := m) (fun k => ⟨k + 1, by
      show (Cr.search _ _ _).run RangeInclusive.start _ ⟨k + 1, m⟩ = _
      simp only [Cr.run, hrg]⟩) ((Ends.user _).bind ?_)
    simp only [bind, Except.bind] at h
    generalize l.getLast?.filter _ = cs at h ⊢
    match cs, h with
    | none, h => cases h; exact Ends.pure _ _
    | some x, h => exact (Ends.user _).bind (adjustRemove_ends S h)

theorem removePrefixN_runs (m : List (RangeInclusive K × V)) (n : RangeInclusive K) :
    Counted.Runs (removePrefixN S m n) (removePrefix S m n) 5 0 2 := by
  unfold removePrefixN removePrefix
  refine Counted.Runs.mono (a := 0 + 5) (b := 0 + 0) (c := 0 + 2) (.bind (.lib _) fun l hl => ?_)
    (by omega) (by omega) (by omega)
  cases l.getLast? with
  | none => exact Counted.Runs.mono (.pure _) (by omega) (by omega) (by omega)
  | some x =>
    refine Counted.Runs.mono (.step (.ioverlaps _ _) (a' := 2) (b' := 0) (c' := 2) ?_) (by omega) (by omega)
      (by omega)
    rw [Option.filter_some]
    cases x.1.overlaps n with
    | true => exact adjustRemoveN_runs S _ _ _ _
    | false => exact Counted.Runs.mono (.pure _) (by omega) (by omega) (by omega)

/-- The calls of a whole `remove`, by the number of searches it makes. -/
theorem removeN_runs (m : RangeInclusiveMap K V) (r : RangeInclusive K) :
    Counted.Runs (m.removeN S r) (m.remove S r) (2 * (m.removeCost S r).searches + 4) 0
      (2 * (m.removeCost S r).searches) := by
  unfold removeN remove removeFuel
  by_cases hr : r.start ≤ r.stop
  · have hc : m.removeCost S r = (removePrefixC S r >>= fun _ => (do
        Cr.user
        removeLoopC S r (m.len + 2)
        Cr.user) : Cr K (RangeInclusive K) V Unit).cost RangeInclusive.start m.btm := by
      unfold removeCost removeProgram
      rw [Cr.cost_user_bind, if_pos hr]
      rfl
    have h1 := removePrefix_searches S m.btm r
    have h2 : 1 ≤ (m.removeCost S r).searches := by
      rw [hc, Cr.cost_bind _ _ _ 0]
      simp only [Cost.add_searches]
      omega
    generalize hs : (m.removeCost S r).searches = s at h2 ⊢
    refine Counted.Runs.mono (.step (.le _ _) (a' := 5 + 2 * (s - 1)) (b' := 0 + 0)
      (c' := 2 + 2 * (s - 1)) ?_) (by omega) (by omega) (by omega)
    simp only [hr, not_true_eq_false, decide_true, if_true, if_false]
    refine .bind (removePrefixN_runs S _ _) fun p hp => ?_
    rw [hc, (removePrefix_ends S hp).cost_bind, Cr.cost_user_bind, Cr.cost_bind _ _ _ 0] at hs
    simp only [Cost.add_searches] at hs
    have h3 := removeLoopN_runs S r (m.len + 2) p _ rfl
    refine Counted.Runs.mono (.bind h3 fun q _ => .pure _) ?_ ?_ ?_ <;> omega
  · simp only [hr, not_false_eq_true, if_true]
    refine Counted.Runs.mono (a := 1 + 0) (b := 0 + 0) (c := 0 + 0) (.step (.le _ _) ?_) (by omega)
      (by omega) (by omega)
    simp only [hr, decide_false, Bool.false_eq_true, if_false]
    exact .lib _

end RangeInclusiveMap
end Verif

import Verif.Props.Demo
import Verif.Props.Provenance
import Verif.Props.IIter
import Verif.Props.PropTests
import Verif.Proof.SetRename

/-!
# C80, continued: sets, `union`, `intersection`, `|`, `&`, and `gaps`
-/
set_option linter.unusedSectionVars false

namespace Verif.Props
open Spec

/-! ## Sets -/

theorem insertions_map {R : Type} (valid : R → Bool) (ops : List (SetOp R)) :
    insertions valid (ops.map setOpToOp) = (setInsertions valid ops).map fun r => (r, ()) := by
  induction ops with
  | nil => rfl
  | cons op ops ih =>
    cases op with
    | insert r =>
      simp only [List.map_cons, setOpToOp, insertions, setInsertions, ih]
      split <;> rfl
    | remove r => simpa only [List.map_cons, setOpToOp, insertions, setInsertions] using ih
    | clear => rfl
    | extend items =>
      simp only [List.map_cons, setOpToOp, insertions, setInsertions, ih, List.map_append,
        List.takeWhile_map]
      rfl

theorem removals_map {R : Type} (valid : R → Bool) (ops : List (SetOp R)) :
    removals valid (ops.map setOpToOp) = setRemovals valid ops := by
  induction ops with
  | nil => rfl
  | cons op ops ih => cases op <;> simp [setOpToOp, removals, setRemovals, ih]

section
variable {K : Type} [LE K] [LT K] [DecidableLE K] [DecidableLT K]
  [Std.IsLinearPreorder K] [Std.LawfulOrderLT K]

section
open RangeSet

/-- **C80** After any history of calls on a `RangeSet` every stored start is literally the start
of an inserted range or the end of a removed one, and every stored end is literally the end of an
inserted range or the start of a removed one. -/
theorem C80_set_stored_from_history (ops : List (SetOp (Range K))) : ∀ e ∈ (run ops).iter,
    ((∃ x ∈ setInsertions valid ops.reverse, e.start = x.start) ∨
      ∃ x ∈ setRemovals valid ops.reverse, e.start = x.stop) ∧
    ((∃ x ∈ setInsertions valid ops.reverse, e.stop = x.stop) ∨
      ∃ x ∈ setRemovals valid ops.reverse, e.stop = x.start) := by
  intro e he
  unfold iter at he
  rw [run_rm] at he
  obtain ⟨y, hy, rfl⟩ := List.mem_map.1 he
  have h := C80_stored_from_history _ y hy
  rw [← List.map_reverse, insertions_map, removals_map] at h
  constructor
  · rcases h.start with ⟨x, hx, -, h⟩ | ⟨x, -, h, -⟩ | h
    · obtain ⟨z, hz, rfl⟩ := List.mem_map.1 hx
      exact Or.inl ⟨z, hz, h⟩
    · exact absurd h (by simp)
    · exact Or.inr h
  · rcases h.stop with ⟨x, hx, -, h⟩ | ⟨x, -, h, -⟩ | h
    · obtain ⟨z, hz, rfl⟩ := List.mem_map.1 hx
      exact Or.inl ⟨z, hz, h⟩
    · exact absurd h (by simp)
    · exact Or.inr h

theorem fromIter_run {l : List (Range K)} {c : RangeSet K} (h : fromIter l = .ok c) :
    c = run [.extend l] := by
  unfold fromIter at h
  simp only [run, List.foldl_cons, List.foldl_nil, apply]
  revert h
  cases (new : RangeSet K).extend l with
  | mk m o => cases o <;> simp [Except.map]; rintro rfl; rfl

/-- what `from_iter` stores -/
theorem fromIter_from {l : List (Range K)} {c : RangeSet K} (h : fromIter l = .ok c) :
    ∀ e ∈ c.iter, (∃ x ∈ l, e.start = x.start) ∧ ∃ x ∈ l, e.stop = x.stop := by
  rw [fromIter_run h]
  intro e he
  have := C80_set_stored_from_history _ e he
  simp only [List.reverse_cons, List.reverse_nil, List.nil_append, setInsertions, setRemovals,
    List.append_nil, List.not_mem_nil, false_and, exists_false, or_false] at this
  obtain ⟨⟨x, hx, h1⟩, y, hy, h2⟩ := this
  exact ⟨⟨x, List.takeWhile_subset _ hx, h1⟩, y, List.takeWhile_subset _ hy, h2⟩

end

/-! ## `union` and `intersection` -/

section
variable {R : Type} (start stop : R → K)

/-- the ends of `r` are ends of some of the ranges `l` -/
def EndsFrom (l : List R) (r : R) : Prop :=
  (∃ x ∈ l, start r = start x) ∧ ∃ x ∈ l, stop r = stop x

variable {start stop}

theorem mergeLoop_from [RangeMerge R]
    (hm : ∀ {r s t : R}, RangeMerge.merge r s = some t →
      start t = start r ∧ (stop t = stop r ∨ stop t = stop s))
    (range : R) (left right : List R) {l : List R} (hr : EndsFrom start stop l range)
    (hl : ∀ x ∈ left, x ∈ l) (hr' : ∀ x ∈ right, x ∈ l) :
    EndsFrom start stop l (Union.mergeLoop range left right).1 ∧
    (∀ x ∈ (Union.mergeLoop range left right).2.left, x ∈ l) ∧
    ∀ x ∈ (Union.mergeLoop range left right).2.right, x ∈ l := by
  have step : ∀ {range range' : R} {a a' : List R}, EndsFrom start stop l range →
      (∀ x ∈ a, x ∈ l) → Union.join range a = some (range', a') →
      EndsFrom start stop l range' ∧ ∀ x ∈ a', x ∈ l := by
    intro range range' a a' h ha hj
    cases a with
    | nil => cases hj
    | cons x t =>
      simp only [Union.join, Option.map_eq_some_iff, Prod.mk.injEq] at hj
      obtain ⟨r', h1, rfl, rfl⟩ := hj
      obtain ⟨h2, h3⟩ := hm h1
      refine ⟨⟨?_, ?_⟩, fun y hy => ha y (List.mem_cons_of_mem _ hy)⟩
      · rw [h2]; exact h.1
      · rcases h3 with h3 | h3
        · rw [h3]; exact h.2
        · exact ⟨x, ha x (List.mem_cons_self ..), h3⟩
  fun_induction Union.mergeLoop range left right with
  | case1 range left right range' left' h ih =>
    have := step hr hl h
    exact ih this.1 this.2 hr'
  | case2 range left right h range' right' h' ih =>
    have := step hr hr' h'
    exact ih this.1 hl this.2
  | case3 => exact ⟨hr, hl, hr'⟩

theorem union_next_from [RangeOrder R] [RangeMerge R]
    (hm : ∀ {r s t : R}, RangeMerge.merge r s = some t →
      start t = start r ∧ (stop t = stop r ∨ stop t = stop s))
    {l : List R} {u : Union R} (hl : ∀ x ∈ u.left, x ∈ l) (hr : ∀ x ∈ u.right, x ∈ l) :
    (∀ r, u.next.1 = some r → EndsFrom start stop l r) ∧
    (∀ x ∈ u.next.2.left, x ∈ l) ∧ ∀ x ∈ u.next.2.right, x ∈ l := by
  have hf : ∀ {r u'}, u.first = some (r, u') → r ∈ l ∧ (∀ x ∈ u'.left, x ∈ l) ∧
      ∀ x ∈ u'.right, x ∈ l := by
    obtain ⟨left, right⟩ := u
    intro r u' h
    cases left with
    | nil =>
      cases right with
      | nil => cases h
      | cons b right =>
        cases h
        exact ⟨hr _ (by simp), by simp, fun x hx => hr x (by simp [hx])⟩
    | cons a left =>
      cases right with
      | nil =>
        cases h
        exact ⟨hl _ (by simp), fun x hx => hl x (by simp [hx]), by simp⟩
      | cons b right =>
        simp only [Union.first] at h
        split at h
        · cases h
          exact ⟨hl _ (by simp), fun x hx => hl x (by simp [hx]), hr⟩
        · cases h
          exact ⟨hr _ (by simp), hl, fun x hx => hr x (by simp [hx])⟩
  unfold Union.next
  cases h : u.first with
  | none => exact ⟨by simp, hl, hr⟩
  | some p =>
    obtain ⟨r, u'⟩ := p
    obtain ⟨h1, h2, h3⟩ := hf h
    have := mergeLoop_from hm r u'.left u'.right ⟨⟨r, h1, rfl⟩, r, h1, rfl⟩ h2 h3
    refine ⟨?_, this.2⟩
    rintro _ ⟨⟩
    exact this.1

theorem nextLoop_from [RangeOrder R] [RangeIntersect R]
    (hi : ∀ {r s t : R}, RangeIntersect.intersect r s = some t →
      (start t = start r ∨ start t = start s) ∧ (stop t = stop r ∨ stop t = stop s))
    (left right : List R) {l : List R} (hl : ∀ x ∈ left, x ∈ l) (hr : ∀ x ∈ right, x ∈ l) :
    (∀ r, (Intersection.nextLoop left right).1 = some r → EndsFrom start stop l r) ∧
    (∀ x ∈ (Intersection.nextLoop left right).2.left, x ∈ l) ∧
    ∀ x ∈ (Intersection.nextLoop left right).2.right, x ∈ l := by
  have step : ∀ {a b r : R}, a ∈ l → b ∈ l → RangeIntersect.intersect a b = some r →
      EndsFrom start stop l r := by
    intro a b r ha hb h
    obtain ⟨h1, h2⟩ := hi h
    refine ⟨?_, ?_⟩
    · rcases h1 with h1 | h1
      · exact ⟨a, ha, h1⟩
      · exact ⟨b, hb, h1⟩
    · rcases h2 with h1 | h1
      · exact ⟨a, ha, h1⟩
      · exact ⟨b, hb, h1⟩
  fun_induction Intersection.nextLoop left right with
  | case1 a left b right h i hi' =>
    refine ⟨?_, fun x hx => hl x (by simp [hx]), hr⟩
    rintro _ ⟨⟩
    exact step (hl _ (by simp)) (hr _ (by simp)) hi'
  | case2 a left b right h hi' ih => exact ih (fun x hx => hl x (by simp [hx])) hr
  | case3 a left b right h i hi' =>
    refine ⟨?_, hl, fun x hx => hr x (by simp [hx])⟩
    rintro _ ⟨⟩
    exact step (hl _ (by simp)) (hr _ (by simp)) hi'
  | case4 a left b right h hi' ih => exact ih hl (fun x hx => hr x (by simp [hx]))
  | case5 => exact ⟨by simp, hl, hr⟩

end

/-- everything an iterator yields satisfies `P`, if every call keeps an invariant -/
theorem calls_forall {σ α : Type} {next : σ → Option α × σ} {Inv : σ → Prop} {P : α → Prop}
    (h : ∀ s, Inv s → (∀ a, (next s).1 = some a → P a) ∧ Inv (next s).2) :
    ∀ (n : Nat) (s : σ), Inv s → ∀ a, some a ∈ calls next n s → P a := by
  intro n
  induction n with
  | zero => intro s _ a ha; cases ha
  | succ n ih =>
    intro s hs a ha
    rcases List.mem_cons.1 ha with ha | ha
    · exact (h s hs).1 a ha.symm
    · exact ih _ (h s hs).2 a ha

theorem drain_forall {σ α : Type} {next : σ → Option α × σ} {Inv : σ → Prop} {P : α → Prop}
    (h : ∀ s, Inv s → (∀ a, (next s).1 = some a → P a) ∧ Inv (next s).2) :
    ∀ (n : Nat) (s : σ) (l : List α), Inv s → drain next n s = .ok l → ∀ a ∈ l, P a := by
  intro n
  induction n with
  | zero => intro s l _ h; cases h
  | succ n ih =>
    intro s l hs hd a ha
    have h1 := h s hs
    unfold drain at hd
    revert hd h1
    cases next s with
    | mk o s' =>
      cases o with
      | none => intro _ hd; cases hd; cases ha
      | some b =>
        intro h1 hd
        cases h2 : drain next n s' with
        | error p => simp [h2, Except.map] at hd
        | ok l' =>
          simp only [h2, Except.map, Except.ok.injEq] at hd
          subst hd
          rcases List.mem_cons.1 ha with rfl | ha
          · exact h1.1 _ rfl
          · exact ih s' l' h1.2 h2 a ha

section
open RangeSet

theorem merge_from {r s t : Range K} (h : RangeMerge.merge r s = some t) :
    t.start = r.start ∧ (t.stop = r.stop ∨ t.stop = s.stop) := by
  simp only [RangeMerge.merge, Range.merge] at h
  split at h
  · cases h
  · split at h <;> cases h <;> simp

theorem intersect_from {r s t : Range K} (h : RangeIntersect.intersect r s = some t) :
    (t.start = r.start ∨ t.start = s.start) ∧ (t.stop = r.stop ∨ t.stop = s.stop) := by
  simp only [RangeIntersect.intersect, Range.intersect] at h
  split at h
  · cases h
  · cases h
    simp only [rmax, rmin]
    grind

theorem union_inv (a b : RangeSet K) : ∀ u : Union (Range K),
    ((∀ x ∈ u.left, x ∈ a.iter ++ b.iter) ∧ ∀ x ∈ u.right, x ∈ a.iter ++ b.iter) →
    (∀ r, u.next.1 = some r → EndsFrom Range.start Range.stop (a.iter ++ b.iter) r) ∧
    (∀ x ∈ u.next.2.left, x ∈ a.iter ++ b.iter) ∧ ∀ x ∈ u.next.2.right, x ∈ a.iter ++ b.iter :=
  fun _ h => union_next_from merge_from h.1 h.2

theorem intersection_inv (a b : RangeSet K) : ∀ u : Intersection (Range K),
    ((∀ x ∈ u.left, x ∈ a.iter ++ b.iter) ∧ ∀ x ∈ u.right, x ∈ a.iter ++ b.iter) →
    (∀ r, u.next.1 = some r → EndsFrom Range.start Range.stop (a.iter ++ b.iter) r) ∧
    (∀ x ∈ u.next.2.left, x ∈ a.iter ++ b.iter) ∧ ∀ x ∈ u.next.2.right, x ∈ a.iter ++ b.iter :=
  fun _ h => nextLoop_from intersect_from _ _ h.1 h.2

/-- **C80** Every range that `union` ever yields starts literally where one of the stored ranges
of the two sets starts, and ends literally where one of them ends. -/
theorem C80_union_ends (a b : RangeSet K) (n : Nat) :
    ∀ r, some r ∈ calls Union.next n (a.union b) →
      (∃ x ∈ a.iter ++ b.iter, r.start = x.start) ∧ ∃ x ∈ a.iter ++ b.iter, r.stop = x.stop :=
  calls_forall (union_inv a b) n _
    ⟨fun _ hx => List.mem_append_left _ hx, fun _ hx => List.mem_append_right _ hx⟩

/-- **C80** Every range that `intersection` ever yields starts literally where one of the stored
ranges of the two sets starts, and ends literally where one of them ends. -/
theorem C80_intersection_ends (a b : RangeSet K) (n : Nat) :
    ∀ r, some r ∈ calls Intersection.next n (a.intersection b) →
      (∃ x ∈ a.iter ++ b.iter, r.start = x.start) ∧ ∃ x ∈ a.iter ++ b.iter, r.stop = x.stop :=
  calls_forall (intersection_inv a b) n _
    ⟨fun _ hx => List.mem_append_left _ hx, fun _ hx => List.mem_append_right _ hx⟩

theorem EndsFrom.trans {l l' : List (Range K)} {e : Range K}
    (h : (∃ x ∈ l, e.start = x.start) ∧ ∃ x ∈ l, e.stop = x.stop)
    (hl : ∀ x ∈ l, EndsFrom Range.start Range.stop l' x) :
    (∃ x ∈ l', e.start = x.start) ∧ ∃ x ∈ l', e.stop = x.stop := by
  obtain ⟨⟨x, hx, h1⟩, y, hy, h2⟩ := h
  obtain ⟨z, hz, h3⟩ := (hl x hx).1
  obtain ⟨w, hw, h4⟩ := (hl y hy).2
  exact ⟨⟨z, hz, h1.trans h3⟩, w, hw, h2.trans h4⟩

/-- **C80** The ends of the ranges stored by `a | b` are literally ends of ranges stored in `a`
or `b`. -/
theorem C80_bitor_ends {a b c : RangeSet K} (h : a.bitOr b = .ok c) : ∀ e ∈ c.iter,
    (∃ x ∈ a.iter ++ b.iter, e.start = x.start) ∧ ∃ x ∈ a.iter ++ b.iter, e.stop = x.stop := by
  unfold bitOr at h
  cases hd : drain Union.next (a.len + b.len + 1) (a.union b) with
  | error p => simp [hd, bind, Except.bind] at h
  | ok l =>
    simp only [hd, bind, Except.bind] at h
    exact fun e he => EndsFrom.trans (fromIter_from h e he)
      (drain_forall (union_inv a b) _ _ l
        ⟨fun _ hx => List.mem_append_left _ hx, fun _ hx => List.mem_append_right _ hx⟩ hd)

/-- **C80** The ends of the ranges stored by `a & b` are literally ends of ranges stored in `a`
or `b`. -/
theorem C80_bitand_ends {a b c : RangeSet K} (h : a.bitAnd b = .ok c) : ∀ e ∈ c.iter,
    (∃ x ∈ a.iter ++ b.iter, e.start = x.start) ∧ ∃ x ∈ a.iter ++ b.iter, e.stop = x.stop := by
  unfold bitAnd at h
  cases hd : drain Intersection.next (a.len + b.len + 1) (a.intersection b) with
  | error p => simp [hd, bind, Except.bind] at h
  | ok l =>
    simp only [hd, bind, Except.bind] at h
    exact fun e he => EndsFrom.trans (fromIter_from h e he)
      (drain_forall (intersection_inv a b) _ _ l
        ⟨fun _ hx => List.mem_append_left _ hx, fun _ hx => List.mem_append_right _ hx⟩ hd)

-- a history with a removal; what it stores
example : (run [.insert ⟨0, 10⟩, .insert ⟨8, 12⟩, .remove ⟨3, 5⟩, .remove ⟨4, 4⟩] :
    RangeSet Nat).iter = [⟨0, 3⟩, ⟨5, 12⟩] := rfl
example : ∃ c, Demo.set.bitOr Demo.set' = .ok c := by
  obtain ⟨c, h, _⟩ := C39_bitor Demo.set_reachable Demo.set'_reachable
  exact ⟨c, h⟩
example : ∃ c, Demo.set.bitAnd Demo.set' = .ok c := by
  obtain ⟨c, h, _⟩ := C39_bitand Demo.set_reachable Demo.set'_reachable
  exact ⟨c, h⟩

end

/-! ## `gaps` -/

section
open RangeMap
variable {V : Type} [BEq V] [PartialEquivBEq V]

/-- **C80** Every gap starts literally at the start of the outer range or where a stored range
ends, and ends literally at the end of the outer range or where a stored range starts. -/
theorem C80_gaps_ends {m : RangeMap K V} (hm : Reachable m) (q : Range K) :
    ∃ g l, m.gaps q = .ok g ∧ Yields Gaps.next g l ∧ ∀ r ∈ l,
      (r.start = q.start ∨ ∃ e ∈ m.iter, e.1.stop = r.start) ∧
      (r.stop = q.stop ∨ ∃ e ∈ m.iter, e.1.start = r.stop) := by
  obtain ⟨g, l, h1, h2, -, -, -, h3⟩ := gaps_yields_list hm q
  exact ⟨g, l, h1, h2, h3⟩

example := C80_gaps_ends (K := Nat) (V := Char) (m := Demo.map) Demo.map_reachable ⟨2, 22⟩

end

namespace Inclusive

section
open RangeInclusiveMap
variable {V : Type} [BEq V] [PartialEquivBEq V]

/-- the invariant of `Gaps::next` -/
structure GapsInv (q : RangeInclusive K) (l : List (RangeInclusive K × V)) (g : Gaps K V) :
    Prop where
  sep : Sep g.btmRangeIter
  sub : ∀ e ∈ g.btmRangeIter, e ∈ l
  qe : g.queryEnd = q.stop
  cand : (g.candidateNeedsPlusOne = false ∧ g.candidateStart = q.start) ∨
    (g.candidateNeedsPlusOne = true ∧ ∃ e ∈ l, g.candidateStart = e.1.stop) ∨
    (g.candidateNeedsPlusOne = true ∧ ¬ g.candidateStart < g.queryEnd ∧
      ∀ e ∈ g.btmRangeIter, g.queryEnd < e.1.start)

/-- where the ends of a gap come from -/
def GapFrom (S : StepFns K) (q : RangeInclusive K) (l : List (RangeInclusive K × V))
    (r : RangeInclusive K) : Prop :=
  (r.start = q.start ∨ ∃ e ∈ l, S.addOne e.1.stop = .ok r.start) ∧
  (r.stop = q.stop ∨ ∃ e ∈ l, S.subOne e.1.start = .ok r.stop)

theorem nextTail_from {S : StepFns K} {q : RangeInclusive K} {l : List (RangeInclusive K × V)}
    {f : Bool} {c qe : K} {rest : List (RangeInclusive K × V)} (hs : Sep rest)
    (hsub : ∀ e ∈ rest, e ∈ l) (hq : qe = q.stop)
    (hc : (f = false ∧ c = q.start) ∨ (f = true ∧ ∃ e ∈ l, c = e.1.stop) ∨
      (f = true ∧ ¬ c < qe))
    (hlt : ∀ e ∈ rest, qe < e.1.start) {o : Option (RangeInclusive K)} {g : Gaps K V}
    (h : Gaps.nextTail S f c qe rest = .ok (o, g)) :
    (∀ r, o = some r → GapFrom S q l r) ∧ GapsInv q l g := by
  have hdead : GapsInv q l (⟨true, qe, qe, rest⟩ : Gaps K V) :=
    ⟨hs, hsub, hq, Or.inr (Or.inr ⟨rfl, by grind, hlt⟩)⟩
  unfold Gaps.nextTail at h
  split at h
  · split at h
    · next hf hlt' =>
      cases ha : S.addOne c with
      | error p => simp [ha, bind, Except.bind] at h
      | ok a =>
        simp only [ha, bind, Except.bind, pure, Except.pure, Except.ok.injEq, Prod.mk.injEq] at h
        obtain ⟨rfl, rfl⟩ := h
        refine ⟨?_, hdead⟩
        rintro _ ⟨⟩
        refine ⟨Or.inr ?_, Or.inl hq⟩
        rcases hc with ⟨h, -⟩ | ⟨-, e, he, rfl⟩ | ⟨-, h⟩
        · simp [h] at hf
        · exact ⟨e, he, ha⟩
        · exact absurd hlt' h
    · cases h; exact ⟨by simp, hdead⟩
  · next hf =>
    split at h
    · cases h
      refine ⟨?_, hdead⟩
      rintro _ ⟨⟩
      rcases hc with ⟨-, h⟩ | ⟨h, -⟩ | ⟨h, -⟩
      · exact ⟨Or.inl h, Or.inl hq⟩
      · exact absurd h hf
      · exact absurd h hf
    · cases h; exact ⟨by simp, hdead⟩

theorem nextLoop_gap_from {S : StepFns K} {q : RangeInclusive K}
    {l : List (RangeInclusive K × V)} {qe : K} (hq : qe = q.stop) :
    ∀ (rest : List (RangeInclusive K × V)) (f : Bool) (c : K), Sep rest → (∀ e ∈ rest, e ∈ l) →
    ((f = false ∧ c = q.start) ∨ (f = true ∧ ∃ e ∈ l, c = e.1.stop) ∨
      (f = true ∧ ¬ c < qe ∧ ∀ e ∈ rest, qe < e.1.start)) →
    ∀ {o : Option (RangeInclusive K)} {g : Gaps K V},
      Gaps.nextLoop S f c qe rest = .ok (o, g) →
    (∀ r, o = some r → GapFrom S q l r) ∧ GapsInv q l g := by
  intro rest
  induction rest with
  | nil =>
    intro f c hs hsub hc o g h
    exact nextTail_from hs hsub hq (by grind) (by simp) h
  | cons e t ih =>
    intro f c hs hsub hc o g h
    have hp := List.pairwise_cons.1 hs.pw
    have hst : Sep t := ⟨hp.2, fun x hx => hs.ne x (by simp [hx])⟩
    have hsubt : ∀ x ∈ t, x ∈ l := fun x hx => hsub x (by simp [hx])
    have he : e ∈ l := hsub e (by simp)
    unfold Gaps.nextLoop at h
    split at h
    · next hlt =>
      refine nextTail_from hst hsubt hq ?_ ?_ h
      · rcases hc with h | h | h
        · exact Or.inl h
        · exact Or.inr (Or.inl h)
        · exact Or.inr (Or.inr ⟨h.1, h.2.1⟩)
      · intro x hx
        have := (hp.1 x hx).1
        grind
    · next hlt =>
      replace hc : (f = false ∧ c = q.start) ∨ (f = true ∧ ∃ e ∈ l, c = e.1.stop) := by
        rcases hc with h | h | ⟨-, -, h⟩
        · exact Or.inl h
        · exact Or.inr h
        · exact absurd (h e (by simp)) hlt
      cases hcur : Gaps.curCandidateStart S f c with
      | error p => simp [hcur, bind, Except.bind] at h
      | ok cur =>
        have hcur' : cur = q.start ∨ ∃ e ∈ l, S.addOne e.1.stop = .ok cur := by
          unfold Gaps.curCandidateStart at hcur
          rcases hc with ⟨rfl, rfl⟩ | ⟨rfl, x, hx, rfl⟩
          · cases hcur; exact Or.inl rfl
          · exact Or.inr ⟨x, hx, hcur⟩
        simp only [hcur, bind, Except.bind] at h
        split at h
        · cases hsub' : S.subOne e.1.start with
          | error p => simp [hsub'] at h
          | ok b =>
            simp only [hsub', pure, Except.pure, Except.ok.injEq, Prod.mk.injEq] at h
            obtain ⟨rfl, rfl⟩ := h
            refine ⟨?_, hst, hsubt, hq, Or.inr (Or.inl ⟨rfl, e, he, rfl⟩)⟩
            rintro _ ⟨⟩
            exact ⟨hcur', Or.inr ⟨e, he, hsub'⟩⟩
        · exact ih true e.1.stop hst hsubt (Or.inr (Or.inl ⟨rfl, e, he, rfl⟩)) h

theorem callsE_forall {σ α : Type} {next : σ → Except Panic (Option α × σ)} {Inv : σ → Prop}
    {P : α → Prop}
    (h : ∀ s o s', Inv s → next s = .ok (o, s') → (∀ a, o = some a → P a) ∧ Inv s') :
    ∀ (n : Nat) (s : σ) (l : List (Option α)), Inv s → callsE next n s = .ok l →
      ∀ a, some a ∈ l → P a := by
  intro n
  induction n with
  | zero => intro s l _ hl a ha; cases hl; cases ha
  | succ n ih =>
    intro s l hs hl a ha
    unfold callsE at hl
    split at hl
    · cases hl
    · next o s' hn =>
      obtain ⟨h1, h2⟩ := h s o s' hs hn
      cases hc : callsE next n s' with
      | error p => simp [hc, Except.map] at hl
      | ok t =>
        simp only [hc, Except.map, Except.ok.injEq] at hl
        subst hl
        rcases List.mem_cons.1 ha with ha | ha
        · exact h1 a ha.symm
        · exact ih s' t h2 hc a ha

/-- **C80** Every gap starts literally at the start of the outer range or at `add_one` of the end
of a stored range, and ends literally at the end of the outer range or at `sub_one` of the start
of a stored range. -/
theorem C80_gaps_ends {S : StepFns K} (hS : LawfulSteps S) {m : RangeInclusiveMap K V}
    (hm : ReachableAny S m) (q : RangeInclusive K) :
    ∃ g l, m.gaps q = .ok g ∧ YieldsE (Gaps.next S) g l ∧ ∀ r ∈ l,
      (r.start = q.start ∨ ∃ e ∈ m.iter, S.addOne e.1.stop = .ok r.start) ∧
      (r.stop = q.stop ∨ ∃ e ∈ m.iter, S.subOne e.1.start = .ok r.stop) := by
  have hs := (hm.sc hS).sep
  obtain ⟨g, l, h1, h2, -⟩ := gaps_spec hS hs q
  refine ⟨g, l, h1, h2, fun r hr => ?_⟩
  have hg := h1
  rw [gaps_ok] at hg
  cases hg
  refine callsE_forall (Inv := GapsInv q m.iter) (P := GapFrom S q m.iter) ?_ l.length _ _ ?_
    (h2 l.length) r ?_
  · rintro ⟨f, c, qe, rest⟩ o s' hi hn
    exact nextLoop_gap_from hi.qe rest f c hi.sep hi.sub hi.cand hn
  · exact ⟨⟨hs.pw.filter _, fun e he => hs.ne e (List.mem_filter.1 he).1⟩,
      fun e he => (List.mem_filter.1 he).1, rfl, Or.inl ⟨rfl, rfl⟩⟩
  · simp [hr]

example := Inclusive.C80_gaps_ends (K := UIntW 8) (V := Char) (S := Demo.u8) Demo.u8_lawful
    (m := Demo.imap) Demo.imap_reachable.any (Demo.by8 2 22)

end
section
open RangeInclusiveSet

/-- **C80** After any history of calls on a `RangeInclusiveSet` every stored start is literally
the start
of an inserted range or `add_one` of the end of a removed one, and every stored end is literally
the end of an inserted range or `sub_one` of the start of a removed one. -/
theorem C80_set_stored_from_history {S : StepFns K} (hS : LawfulSteps S)
    (ops : List (SetOp (RangeInclusive K))) : ∀ e ∈ (run S ops).iter,
    ((∃ x ∈ setInsertions ivalid ops.reverse, e.start = x.start) ∨
      ∃ x ∈ setRemovals ivalid ops.reverse, S.addOne x.stop = .ok e.start) ∧
    ((∃ x ∈ setInsertions ivalid ops.reverse, e.stop = x.stop) ∨
      ∃ x ∈ setRemovals ivalid ops.reverse, S.subOne x.start = .ok e.stop) := by
  intro e he
  unfold iter at he
  rw [run_rm] at he
  obtain ⟨y, hy, rfl⟩ := List.mem_map.1 he
  have h := C80_stored_from_history hS _ y hy
  rw [← List.map_reverse, insertions_map, removals_map] at h
  constructor
  · rcases h.start with ⟨x, hx, -, h⟩ | ⟨x, -, h, -⟩ | h
    · obtain ⟨z, hz, rfl⟩ := List.mem_map.1 hx
      exact Or.inl ⟨z, hz, h⟩
    · exact absurd h (by simp)
    · exact Or.inr h
  · rcases h.stop with ⟨x, hx, -, h⟩ | ⟨x, -, h, -⟩ | h
    · obtain ⟨z, hz, rfl⟩ := List.mem_map.1 hx
      exact Or.inl ⟨z, hz, h⟩
    · exact absurd h (by simp)
    · exact Or.inr h

theorem fromIter_run {S : StepFns K} {l : List (RangeInclusive K)} {c : RangeInclusiveSet K}
    (h : fromIter S l = .ok c) :
    c = run S [.extend l] := by
  unfold fromIter at h
  simp only [run, List.foldl_cons, List.foldl_nil, apply]
  revert h
  cases (new : RangeInclusiveSet K).extend S l with
  | mk m o => cases o <;> simp [Except.map]; rintro rfl; rfl

/-- what `from_iter` stores -/
theorem fromIter_from {S : StepFns K} (hS : LawfulSteps S) {l : List (RangeInclusive K)}
    {c : RangeInclusiveSet K} (h : fromIter S l = .ok c) :
    ∀ e ∈ c.iter, (∃ x ∈ l, e.start = x.start) ∧ ∃ x ∈ l, e.stop = x.stop := by
  rw [fromIter_run h]
  intro e he
  have := C80_set_stored_from_history hS _ e he
  simp only [List.reverse_cons, List.reverse_nil, List.nil_append, setInsertions, setRemovals,
    List.append_nil, List.not_mem_nil, false_and, exists_false, or_false] at this
  obtain ⟨⟨x, hx, h1⟩, y, hy, h2⟩ := this
  exact ⟨⟨x, List.takeWhile_subset _ hx, h1⟩, y, List.takeWhile_subset _ hy, h2⟩

theorem merge_from {r s t : RangeInclusive K} (h : RangeMerge.merge r s = some t) :
    t.start = r.start ∧ (t.stop = r.stop ∨ t.stop = s.stop) := by
  simp only [RangeMerge.merge, RangeInclusive.merge] at h
  split at h
  · cases h
  · split at h <;> cases h <;> simp

theorem intersect_from {r s t : RangeInclusive K} (h : RangeIntersect.intersect r s = some t) :
    (t.start = r.start ∨ t.start = s.start) ∧ (t.stop = r.stop ∨ t.stop = s.stop) := by
  simp only [RangeIntersect.intersect, RangeInclusive.intersect] at h
  split at h
  · cases h
  · cases h
    simp only [rmax, rmin, RangeInclusive.mk']
    grind

theorem union_inv (a b : RangeInclusiveSet K) : ∀ u : Union (RangeInclusive K),
    ((∀ x ∈ u.left, x ∈ a.iter ++ b.iter) ∧ ∀ x ∈ u.right, x ∈ a.iter ++ b.iter) →
    (∀ r, u.next.1 = some r → EndsFrom RangeInclusive.start RangeInclusive.stop (a.iter ++ b.iter)
    r) ∧
    (∀ x ∈ u.next.2.left, x ∈ a.iter ++ b.iter) ∧ ∀ x ∈ u.next.2.right, x ∈ a.iter ++ b.iter :=
  fun _ h => union_next_from merge_from h.1 h.2

theorem intersection_inv (a b : RangeInclusiveSet K) : ∀ u : Intersection (RangeInclusive K),
    ((∀ x ∈ u.left, x ∈ a.iter ++ b.iter) ∧ ∀ x ∈ u.right, x ∈ a.iter ++ b.iter) →
    (∀ r, u.next.1 = some r → EndsFrom RangeInclusive.start RangeInclusive.stop (a.iter ++ b.iter)
    r) ∧
    (∀ x ∈ u.next.2.left, x ∈ a.iter ++ b.iter) ∧ ∀ x ∈ u.next.2.right, x ∈ a.iter ++ b.iter :=
  fun _ h => nextLoop_from intersect_from _ _ h.1 h.2

/-- **C80** Every range that `union` ever yields starts literally where one of the stored ranges
of the two sets starts, and ends literally where one of them ends. -/
theorem C80_union_ends (a b : RangeInclusiveSet K) (n : Nat) :
    ∀ r, some r ∈ calls Union.next n (a.union b) →
      (∃ x ∈ a.iter ++ b.iter, r.start = x.start) ∧ ∃ x ∈ a.iter ++ b.iter, r.stop = x.stop :=
  calls_forall (union_inv a b) n _
    ⟨fun _ hx => List.mem_append_left _ hx, fun _ hx => List.mem_append_right _ hx⟩

/-- **C80** Every range that `intersection` ever yields starts literally where one of the stored
ranges of the two sets starts, and ends literally where one of them ends. -/
theorem C80_intersection_ends (a b : RangeInclusiveSet K) (n : Nat) :
    ∀ r, some r ∈ calls Intersection.next n (a.intersection b) →
      (∃ x ∈ a.iter ++ b.iter, r.start = x.start) ∧ ∃ x ∈ a.iter ++ b.iter, r.stop = x.stop :=
  calls_forall (intersection_inv a b) n _
    ⟨fun _ hx => List.mem_append_left _ hx, fun _ hx => List.mem_append_right _ hx⟩

theorem EndsFrom.trans {l l' : List (RangeInclusive K)} {e : RangeInclusive K}
    (h : (∃ x ∈ l, e.start = x.start) ∧ ∃ x ∈ l, e.stop = x.stop)
    (hl : ∀ x ∈ l, EndsFrom RangeInclusive.start RangeInclusive.stop l' x) :
    (∃ x ∈ l', e.start = x.start) ∧ ∃ x ∈ l', e.stop = x.stop := by
  obtain ⟨⟨x, hx, h1⟩, y, hy, h2⟩ := h
  obtain ⟨z, hz, h3⟩ := (hl x hx).1
  obtain ⟨w, hw, h4⟩ := (hl y hy).2
  exact ⟨⟨z, hz, h1.trans h3⟩, w, hw, h2.trans h4⟩

/-- **C80** The ends of the ranges stored by `a | b` are literally ends of ranges stored in `a`
or `b`. -/
theorem C80_bitor_ends {S : StepFns K} (hS : LawfulSteps S) {a b c : RangeInclusiveSet K}
    (h : a.bitOr S b = .ok c) : ∀ e ∈ c.iter,
    (∃ x ∈ a.iter ++ b.iter, e.start = x.start) ∧ ∃ x ∈ a.iter ++ b.iter, e.stop = x.stop := by
  unfold bitOr at h
  cases hd : drain Union.next (a.len + b.len + 1) (a.union b) with
  | error p => simp [hd, bind, Except.bind] at h
  | ok l =>
    simp only [hd, bind, Except.bind] at h
    exact fun e he => EndsFrom.trans (fromIter_from hS h e he)
      (drain_forall (union_inv a b) _ _ l
        ⟨fun _ hx => List.mem_append_left _ hx, fun _ hx => List.mem_append_right _ hx⟩ hd)

/-- **C80** The ends of the ranges stored by `a & b` are literally ends of ranges stored in `a`
or `b`. -/
theorem C80_bitand_ends {S : StepFns K} (hS : LawfulSteps S) {a b c : RangeInclusiveSet K}
    (h : a.bitAnd S b = .ok c) : ∀ e ∈ c.iter,
    (∃ x ∈ a.iter ++ b.iter, e.start = x.start) ∧ ∃ x ∈ a.iter ++ b.iter, e.stop = x.stop := by
  unfold bitAnd at h
  cases hd : drain Intersection.next (a.len + b.len + 1) (a.intersection b) with
  | error p => simp [hd, bind, Except.bind] at h
  | ok l =>
    simp only [hd, bind, Except.bind] at h
    exact fun e he => EndsFrom.trans (fromIter_from hS h e he)
      (drain_forall (intersection_inv a b) _ _ l
        ⟨fun _ hx => List.mem_append_left _ hx, fun _ hx => List.mem_append_right _ hx⟩ hd)

-- a history with a removal; what it stores
example : (run Demo.u8 [.insert (Demo.by8 0 10), .insert (Demo.by8 8 12),
    .remove (Demo.by8 3 5)]).iter = [Demo.by8 0 2, Demo.by8 6 12] := rfl
example : ∃ c, Demo.iset.bitOr Demo.u8 Demo.iset = .ok c := by
  obtain ⟨c, h, _⟩ := C39_bitor Demo.u8_lawful Demo.iset_reachable Demo.iset_reachable
  exact ⟨c, h⟩
example : ∃ c, Demo.iset.bitAnd Demo.u8 Demo.iset = .ok c := by
  obtain ⟨c, h, _⟩ := C39_bitand Demo.u8_lawful Demo.iset_reachable Demo.iset_reachable
  exact ⟨c, h⟩

end
end Inclusive
end

example := C80_set_stored_from_history Demo.sops
example := C80_union_ends Demo.set Demo.set' 9
example := C80_intersection_ends Demo.set Demo.set' 9
example := C80_bitor_ends (C39_bitor Demo.set_reachable Demo.set'_reachable).choose_spec.1
example := Inclusive.C80_set_stored_from_history Demo.u8_lawful Demo.isops
example := Inclusive.C80_union_ends Demo.iset Demo.iset' 9
example := Inclusive.C80_intersection_ends Demo.iset Demo.iset' 9
example := Inclusive.C80_bitor_ends Demo.u8_lawful
  (Inclusive.C39_bitor Demo.u8_lawful Demo.iset_reachable Demo.iset'_reachable).choose_spec.1

end Verif.Props

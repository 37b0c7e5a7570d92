import Verif.Props.Demo
import Verif.Model.OpsCrash
import Verif.Props.IterCrash
import Verif.Props.Set
import Verif.Props.ISet

/-!
# C73: union and intersection interrupted by a panic of user code
-/
set_option linter.unusedSectionVars false

namespace Verif.Props
open Spec

/-! ### Intersection -/

section
variable {R : Type} [RangeOrder R] [RangeIntersect R]

/-- One call: what the uninterrupted call returns and leaves; or a panic, after which a new call
does what the interrupted one would have done. -/
theorem intersectionP_step (panics : Nat → Bool) (n : Nat) (left right : List R) :
    let p := IntersectionP.nextLoop panics n left right
    match p.1 with
    | none => Intersection.next p.2.it = Intersection.nextLoop left right
    | some r => Intersection.nextLoop left right = (r, p.2.it) := by
  fun_induction IntersectionP.nextLoop panics n left right with
  | case1 => rfl
  | case2 => rfl
  | case3 n l left r right _ _ h i hi =>
    simp only
    rw [Intersection.nextLoop, if_pos h, hi]
  | case4 n l left r right _ _ h hi ih =>
    rw [Intersection.nextLoop, if_pos h, hi]
    exact ih
  | case5 n l left r right _ _ h i hi =>
    simp only
    rw [Intersection.nextLoop, if_neg h, hi]
  | case6 n l left r right _ _ h hi ih =>
    rw [Intersection.nextLoop, if_neg h, hi]
    exact ih
  | case7 n left right h =>
    simp only
    rw [Intersection.nextLoop]
    exact h

theorem intersectionP_calls (panics : Nat → Bool) (n : Nat) : ∀ (i : IntersectionP R) (l : List R),
    Yields Intersection.next i.it l →
    (∃ j, got (calls (IntersectionP.next panics) n i) = l.take j) ∧
    (some none ∈ calls (IntersectionP.next panics) n i →
      got (calls (IntersectionP.next panics) n i) = l) := by
  induction n with
  | zero => intro i l _; exact ⟨⟨0, rfl⟩, by simp [calls]⟩
  | succ n ih =>
    intro i l hl
    have hs := intersectionP_step panics i.calls i.it.left i.it.right
    rw [← IntersectionP.next, ← Intersection.next] at hs
    simp only [] at hs
    rw [calls, got_cons]
    rcases hr : (i.next panics).1 with _ | _ | x <;> rw [hr] at hs <;> simp only at hs
    · have : Yields Intersection.next (i.next panics).2.it l := by
        intro k
        have := hl k
        cases k with
        | zero => exact this
        | succ k =>
          rw [calls] at this ⊢
          rw [hs]
          exact this
      obtain ⟨h1, h2⟩ := ih _ l this
      refine ⟨h1, fun h => h2 ?_⟩
      simpa using h
    · cases l with
      | cons a t => have := (Yields.cons_inv hl).1; rw [hs] at this; cases this
      | nil =>
        have hn : Yields Intersection.next (i.next panics).2.it [] := by
          intro k
          have := hl (k + 1)
          rw [calls, hs] at this
          simp only [List.map_nil, List.nil_append, List.replicate_succ, List.take_succ_cons,
            List.cons.injEq, true_and] at this
          rw [this]
          simp [List.take_replicate]
        obtain ⟨⟨j, h1⟩, h2⟩ := ih _ [] hn
        have : got (calls (IntersectionP.next panics) n (i.next panics).2) = [] := by
          rw [h1]; simp
        exact ⟨⟨0, by simpa [item] using this⟩, fun _ => by simpa [item] using this⟩
    · cases l with
      | nil =>
        have := hl 1
        simp [calls, hs] at this
      | cons a t =>
        obtain ⟨h3, h4⟩ := Yields.cons_inv hl
        rw [hs] at h3 h4
        cases h3
        obtain ⟨⟨j, h1⟩, h2⟩ := ih _ t h4
        refine ⟨⟨j + 1, by simp [item, h1]⟩, fun h => ?_⟩
        have h : some none ∈ calls (IntersectionP.next panics) n (i.next panics).2 := by
          simpa using h
        simp [item, h2 h]

end

/-! ### Union -/

namespace UnionCrash
variable {R K : Type} [LE K] [LT K] [Std.IsLinearPreorder K]
  [Std.LawfulOrderLT K] [RangeOrder R] [RangeMerge R] [RangeIntersect R] {L : OpsLaws R K}

omit [RangeOrder R] [RangeIntersect R] in
theorem merge_left {range l range' : R} {left right : List R}
    (h : RangeMerge.merge range l = some range') :
    Union.mergeLoop range (l :: left) right = Union.mergeLoop range' left right := by
  have hj : Union.join range (l :: left) = some (range', left) := by simp [Union.join, h]
  rw [Union.mergeLoop]
  split <;> simp_all

omit [RangeOrder R] [RangeIntersect R] in
theorem merge_right {range r range' : R} {left right : List R}
    (hl : Union.join range left = none) (h : RangeMerge.merge range r = some range') :
    Union.mergeLoop range left (r :: right) = Union.mergeLoop range' left right := by
  have hj : Union.join range (r :: right) = some (range', right) := by simp [Union.join, h]
  rw [Union.mergeLoop]
  split
  · simp_all
  · split <;> simp_all

omit [RangeOrder R] [RangeIntersect R] in
theorem merge_none {range : R} {left right : List R}
    (hl : Union.join range left = none) (hr : Union.join range right = none) :
    Union.mergeLoop range left right = (range, ⟨left, right⟩) := by
  rw [Union.mergeLoop]
  split
  · simp_all
  · split <;> simp_all

omit [RangeOrder R] [RangeIntersect R] in
/-- The loop: the result of the uninterrupted loop, or a panic that leaves the rest of both sides. -/
theorem mergeLoop_cases (panics : Nat → Bool) (n : Nat) (range : R) (left right : List R) :
    ((UnionP.mergeLoop panics n range left right).1 = none ∧
      (UnionP.mergeLoop panics n range left right).2.it.left <:+ left ∧
      (UnionP.mergeLoop panics n range left right).2.it.right <:+ right) ∨
      ∃ r, (UnionP.mergeLoop panics n range left right).1 = some (some r) ∧
        Union.mergeLoop range left right =
          (r, (UnionP.mergeLoop panics n range left right).2.it) := by
  fun_induction UnionP.mergeLoop panics n range left right with
  | case1 => exact Or.inl ⟨rfl, List.suffix_rfl, List.suffix_rfl⟩
  | case2 n range l left right _ range' h ih =>
    rw [merge_left h]
    rcases ih with ⟨i1, i2, i3⟩ | ih
    · exact Or.inl ⟨i1, i2.trans (List.suffix_cons _ _), i3⟩
    · exact Or.inr ih
  | case3 n range l left _ h =>
    exact Or.inr ⟨range, rfl, merge_none (by simp [Union.join, h]) rfl⟩
  | case4 => exact Or.inl ⟨rfl, List.suffix_rfl, List.suffix_rfl⟩
  | case5 n range l left _ h r right _ range' h' ih =>
    rw [merge_right (by simp [Union.join, h]) h']
    rcases ih with ⟨i1, i2, i3⟩ | ih
    · exact Or.inl ⟨i1, i2, i3.trans (List.suffix_cons _ _)⟩
    · exact Or.inr ih
  | case6 n range l left _ h r right _ h' =>
    exact Or.inr ⟨range, rfl, merge_none (by simp [Union.join, h]) (by simp [Union.join, h'])⟩
  | case7 => exact Or.inl ⟨rfl, List.suffix_rfl, List.suffix_rfl⟩
  | case8 n range r right _ range' h' ih =>
    rw [merge_right rfl h']
    rcases ih with ⟨i1, i2, i3⟩ | ih
    · exact Or.inl ⟨i1, i2, i3.trans (List.suffix_cons _ _)⟩
    · exact Or.inr ih
  | case9 n range r right _ h' =>
    exact Or.inr ⟨range, rfl, merge_none rfl (by simp [Union.join, h'])⟩
  | case10 => exact Or.inr ⟨_, rfl, merge_none rfl rfl⟩

/-- A whole call: what the uninterrupted call does, or a panic that leaves the rest of both sides. -/
theorem next_cases (panics : Nat → Bool) (u : UnionP R) :
    ((u.next panics).1 = none ∧ (u.next panics).2.it.left <:+ u.it.left ∧
      (u.next panics).2.it.right <:+ u.it.right) ∨
    ∃ r, (u.next panics).1 = some r ∧ u.it.next = (r, (u.next panics).2.it) := by
  have hstart : ∀ n (range : R) left right,
      ((UnionP.start panics n range left right).1 = none ∧
        (UnionP.start panics n range left right).2.it.left <:+ left ∧
        (UnionP.start panics n range left right).2.it.right <:+ right) ∨
      ∃ r, (UnionP.start panics n range left right).1 = some (some r) ∧
        Union.mergeLoop range left right = (r, (UnionP.start panics n range left right).2.it) := by
    intro n range left right
    unfold UnionP.start
    split
    · exact Or.inl ⟨rfl, List.suffix_rfl, List.suffix_rfl⟩
    · exact mergeLoop_cases panics (n + 1) range left right
  obtain ⟨n, left, right⟩ := u
  match left, right with
  | [], [] => exact Or.inr ⟨none, rfl, rfl⟩
  | l :: left, [] =>
    rcases hstart n l left [] with ⟨h1, h2, h3⟩ | ⟨r, h1, h2⟩
    · exact Or.inl ⟨h1, h2.trans (List.suffix_cons _ _), h3⟩
    · refine Or.inr ⟨some r, h1, ?_⟩
      simp only [Union.next, Union.first, h2]
      rfl
  | [], r :: right =>
    rcases hstart n r [] right with ⟨h1, h2, h3⟩ | ⟨x, h1, h2⟩
    · exact Or.inl ⟨h1, h2, h3.trans (List.suffix_cons _ _)⟩
    · refine Or.inr ⟨some x, h1, ?_⟩
      simp only [Union.next, Union.first, h2]
      rfl
  | l :: left, r :: right =>
    simp only [UnionP.next]
    by_cases hp : panics n = true
    · simp only [hp, if_true]
      exact Or.inl ⟨trivial, List.suffix_rfl, List.suffix_rfl⟩
    · simp only [hp, Bool.false_eq_true, if_false]
      by_cases hlt : (RangeOrder.orderStart l r).isLT = true
      · simp only [hlt, if_true]
        rcases hstart (n + 1) l left (r :: right) with ⟨h1, h2, h3⟩ | ⟨x, h1, h2⟩
        · exact Or.inl ⟨h1, h2.trans (List.suffix_cons _ _), h3⟩
        · refine Or.inr ⟨some x, h1, ?_⟩
          simp only [Union.next, Union.first, hlt, if_true, h2]
      · simp only [hlt, Bool.false_eq_true, if_false]
        rcases hstart (n + 1) r (l :: left) right with ⟨h1, h2, h3⟩ | ⟨x, h1, h2⟩
        · exact Or.inl ⟨h1, h2, h3.trans (List.suffix_cons _ _)⟩
        · refine Or.inr ⟨some x, h1, ?_⟩
          simp only [Union.next, Union.first, hlt, Bool.false_eq_true, if_false, h2]

theorem sorted_suffix {l l' : List R} (h : L.Sorted l) (hs : l' <:+ l) : L.Sorted l' :=
  ⟨fun r hr => h.good r (hs.subset hr), fun r hr => h.valid r (hs.subset hr),
    h.sorted.sublist hs.sublist⟩

theorem unionP_calls (panics : Nat → Bool) (n : Nat) : ∀ u : UnionP R,
    L.Sorted u.it.left → L.Sorted u.it.right →
    L.Sorted (got (calls (UnionP.next panics) n u)) ∧
    (∀ r ∈ got (calls (UnionP.next panics) n u), ∃ x ∈ u.it.left ++ u.it.right,
      L.start r = L.start x) ∧
    ∀ k, (∃ r ∈ got (calls (UnionP.next panics) n u), L.mem r k) →
      (∃ x ∈ u.it.left, L.mem x k) ∨ ∃ x ∈ u.it.right, L.mem x k := by
  induction n with
  | zero => intro u _ _; exact ⟨.nil, by simp [calls, got], by simp [calls, got]⟩
  | succ n ih =>
    intro u hl hr
    rw [calls, got_cons]
    rcases next_cases panics u with ⟨h1, h2, h3⟩ | ⟨r, h1, h2⟩
    · rw [h1]
      obtain ⟨i1, i2, i3⟩ := ih (u.next panics).2 (sorted_suffix hl h2) (sorted_suffix hr h3)
      refine ⟨i1, fun r hr' => ?_, fun k hk => ?_⟩
      · obtain ⟨x, hx, he⟩ := i2 r hr'
        refine ⟨x, ?_, he⟩
        rcases List.mem_append.1 hx with hx | hx
        · exact List.mem_append_left _ (h2.subset hx)
        · exact List.mem_append_right _ (h3.subset hx)
      · rcases i3 k hk with ⟨x, hx, hk⟩ | ⟨x, hx, hk⟩
        · exact Or.inl ⟨x, h2.subset hx, hk⟩
        · exact Or.inr ⟨x, h3.subset hx, hk⟩
    · rw [h1]
      generalize hu' : (u.next panics).2 = u' at *
      rcases OpsLaws.first_spec hl hr with ⟨e1, e2, e3⟩ | ⟨range, left', right', f1, f2, f3, f4,
        f5, f6, f7, f8, f9, f10, f11, f12⟩
      · have : u.it.next = (none, u.it) := by
          rw [Union.next]
          rw [e3]
        rw [this] at h2
        obtain rfl := (Prod.mk.inj h2).1
        replace h2 := (Prod.mk.inj h2).2
        obtain ⟨i1, i2, i3⟩ := ih u' (h2 ▸ hl) (h2 ▸ hr)
        rw [← h2] at i2 i3
        exact ⟨i1, i2, i3⟩
      · obtain ⟨r1, l1, l2, g1, g2, g3, g4, g5, g6, g7, g8, g9, g10, g11⟩ :=
          OpsLaws.mergeLoop_spec _ range left' right' rfl f4 f5 f2 f3 f10 f11
        have hn : u.it.next = (some r1, ⟨l1, l2⟩) := by
          rw [Union.next]
          rw [f1]
          simp only [g1]
        rw [hn] at h2
        obtain rfl := (Prod.mk.inj h2).1
        replace h2 := (Prod.mk.inj h2).2
        have e1 : u'.it.left = l1 := by rw [← h2]
        have e2 : u'.it.right = l2 := by rw [← h2]
        obtain ⟨i2, i4, i5⟩ := ih u' (e1 ▸ g4) (e2 ▸ g5)
        rw [e1, e2] at i4 i5
        refine ⟨⟨?_, ?_, ?_⟩, ?_, ?_⟩
        · intro r hr'
          rcases List.mem_cons.1 hr' with rfl | hr'
          · exact g6
          · exact i2.good r hr'
        · intro r hr'
          rcases List.mem_cons.1 hr' with rfl | hr'
          · exact g7
          · exact i2.valid r hr'
        · refine List.pairwise_cons.2 ⟨fun s hs => ?_, i2.sorted⟩
          obtain ⟨x, hx, he⟩ := i4 s hs
          rw [he]
          rcases List.mem_append.1 hx with hx | hx
          · exact g9 x hx
          · exact g10 x hx
        · intro r hr'
          rcases List.mem_cons.1 hr' with rfl | hr'
          · obtain ⟨x, hx, rfl⟩ := f7
            exact ⟨x, hx, g8⟩
          · obtain ⟨x, hx, he⟩ := i4 r hr'
            refine ⟨x, ?_, he⟩
            rcases List.mem_append.1 hx with hx | hx
            · exact List.mem_append_left _ (f8 x (g2.subset hx))
            · exact List.mem_append_right _ (f9 x (g3.subset hx))
        · rintro k ⟨r, hr', hk⟩
          rw [← f12, ← g11]
          rcases List.mem_cons.1 hr' with rfl | hr'
          · exact Or.inl hk
          · exact Or.inr (i5 k ⟨r, hr', hk⟩)

end UnionCrash

/-- **C73** A call of `Union::next` that is not interrupted returns what it would return otherwise,
and leaves the iterator as it would otherwise be; the same holds of `Intersection::next`. -/
theorem C73_not_interrupted {R : Type} [RangeOrder R] [RangeMerge R] [RangeIntersect R]
    (panics : Nat → Bool) (n : Nat) :
    (∀ u : UnionP R, none ∉ calls (UnionP.next panics) n u →
      calls (UnionP.next panics) n u = (calls Union.next n u.it).map some) ∧
    ∀ i : IntersectionP R, none ∉ calls (IntersectionP.next panics) n i →
      calls (IntersectionP.next panics) n i = (calls Intersection.next n i.it).map some := by
  induction n with
  | zero => exact ⟨fun _ _ => rfl, fun _ _ => rfl⟩
  | succ n ih =>
    constructor
    · intro u h
      simp only [calls, List.mem_cons, not_or] at h
      rcases UnionCrash.next_cases panics u with ⟨h1, -⟩ | ⟨r, h1, h2⟩
      · exact absurd h1.symm h.1
      · simp only [calls, h1, h2, List.map_cons, ih.1 _ h.2]
    · intro i h
      simp only [calls, List.mem_cons, not_or] at h
      have hs := intersectionP_step panics i.calls i.it.left i.it.right
      rw [← IntersectionP.next, ← Intersection.next] at hs
      simp only [] at hs
      cases hr : (i.next panics).1 with
      | none => exact absurd hr.symm h.1
      | some r =>
        rw [hr] at hs
        simp only at hs
        simp only [calls, hr, hs, List.map_cons, ih.2 _ h.2]

section
open RangeSet
variable {K : Type} [LE K] [LT K] [DecidableLE K] [DecidableLT K]
  [Std.IsLinearPreorder K] [Std.LawfulOrderLT K]

/-- **C73** If user code panics (at whichever points of whichever calls) and the caller goes on with
the `Intersection` iterator, nothing is lost: what it gets is the beginning of what the
uninterrupted iterator yields, and all of it once a call has returned `None`. -/
theorem C73_intersection {a b : RangeSet K} (ha : Reachable a) (hb : Reachable b) :
    ∃ l, Yields Intersection.next (a.intersection b) l ∧ ∀ (panics : Nat → Bool) (n : Nat),
      let rs := calls (IntersectionP.next panics) n ⟨0, a.intersection b⟩
      (∃ j, got rs = l.take j) ∧ (some none ∈ rs → got rs = l) := by
  obtain ⟨l, h1, -⟩ := intersection_spec ha.wf hb.wf
  exact ⟨l, h1, fun panics n => intersectionP_calls panics n ⟨0, _⟩ l h1⟩

example := C73_intersection (K := Nat) (a := Demo.set) (b := Demo.set') Demo.set_reachable
    Demo.set'_reachable

/-- **C73** If user code panics and the caller goes on with the `Union` iterator, the ranges it gets
are not empty, in ascending order, do not overlap, and contain only keys of the two sets (keys may
be missing). -/
theorem C73_union {a b : RangeSet K} (ha : Reachable a) (hb : Reachable b) (panics : Nat → Bool)
    (n : Nat) :
    let rs := got (calls (UnionP.next panics) n ⟨0, a.union b⟩)
    (∀ r ∈ rs, r.start < r.stop) ∧ rs.Pairwise (fun r r' => r.stop ≤ r'.start) ∧
    ∀ k, (∃ r ∈ rs, r.start ≤ k ∧ k < r.stop) →
      a.contains k = .ok true ∨ b.contains k = .ok true := by
  have sorted : ∀ {s : RangeSet K}, Reachable s → Range.laws.Sorted s.iter := by
    intro s hs
    have := (wf_iff s).1 hs.wf
    exact ⟨fun _ _ => trivial, this.1,
      this.2.imp fun {a b} h (hb : b.start < a.stop) => by grind⟩
  obtain ⟨h1, -, h2⟩ := UnionCrash.unionP_calls (L := Range.laws) panics n ⟨0, a.union b⟩
    (sorted ha) (sorted hb)
  refine ⟨h1.valid, h1.sorted.imp fun {a b} (h : ¬ b.start < a.stop) => by grind, fun k hk => ?_⟩
  rw [contains_eq ha.wf, contains_eq hb.wf]
  simp only [Except.ok.injEq]
  rcases h2 k hk with h | h
  · exact Or.inl ((any_iff _ _).2 h)
  · exact Or.inr ((any_iff _ _).2 h)

/-- Two of six calls are interrupted; all three ranges are returned. -/
example : calls (IntersectionP.next fun i => i == 0 || i == 4) 6
    ⟨0, Demo.set.intersection Demo.set'⟩ =
    [none, some (some ⟨1, 3⟩), none, some (some ⟨22, 24⟩), some (some ⟨39, 40⟩), some none] := by
  simp [calls, IntersectionP.next, IntersectionP.nextLoop, RangeIntersect.intersect,
    Range.intersect, RangeOrder.orderEnd, kcmp, Ordering.isLT, rmax, rmin, RangeSet.intersection,
    Demo.set, Demo.set', RangeSet.iter, RangeMap.iter]

/-- The first call is interrupted while it clones `0..3`: of the range `0..4`, only `1..4` is
returned. -/
example : calls (UnionP.next fun i => i == 1) 3 ⟨0, Demo.set.union Demo.set'⟩ =
    [none, some (some ⟨1, 4⟩), some (some ⟨5, 15⟩)] := by
  simp [calls, UnionP.next, UnionP.start, UnionP.mergeLoop, RangeMerge.merge,
    Range.merge, RangeOrder.orderStart, kcmp, Ordering.isLT, Range.contains, RangeSet.union,
    Demo.set, Demo.set', RangeSet.iter, RangeMap.iter]

end

namespace Inclusive
open RangeInclusiveSet
variable {K : Type} [LE K] [LT K] [DecidableLE K] [DecidableLT K]
  [Std.IsLinearPreorder K] [Std.LawfulOrderLT K] {S : StepFns K}

/-- **C73** If user code panics (at whichever points of whichever calls) and the caller goes on with
the `Intersection` iterator, nothing is lost: what it gets is the beginning of what the
uninterrupted iterator yields, and all of it once a call has returned `None`. -/
theorem C73_intersection (hS : LawfulSteps S) {a b : RangeInclusiveSet K} (ha : Reachable S a)
    (hb : Reachable S b) :
    ∃ l, Yields Intersection.next (a.intersection b) l ∧ ∀ (panics : Nat → Bool) (n : Nat),
      let rs := calls (IntersectionP.next panics) n ⟨0, a.intersection b⟩
      (∃ j, got rs = l.take j) ∧ (some none ∈ rs → got rs = l) := by
  obtain ⟨l, h1, -⟩ := intersection_spec (ha.wf hS) (hb.wf hS)
  exact ⟨l, h1, fun panics n => intersectionP_calls panics n ⟨0, _⟩ l h1⟩

example := Inclusive.C73_intersection (K := UIntW 8) (S := Demo.u8) Demo.u8_lawful
    (a := Demo.iset) (b := Demo.iset') Demo.iset_reachable Demo.iset'_reachable

/-- **C73** If user code panics and the caller goes on with the `Union` iterator, the ranges it gets
are not empty, in ascending order, do not overlap, and contain only keys of the two sets (keys may
be missing). -/
theorem C73_union (hS : LawfulSteps S) {a b : RangeInclusiveSet K} (ha : Reachable S a)
    (hb : Reachable S b) (panics : Nat → Bool) (n : Nat) :
    let rs := got (calls (UnionP.next panics) n ⟨0, a.union b⟩)
    (∀ r ∈ rs, r.start ≤ r.stop ∧ r.exhausted = false) ∧
    rs.Pairwise (fun r r' => r.stop < r'.start) ∧
    ∀ k, (∃ r ∈ rs, r.start ≤ k ∧ k ≤ r.stop) →
      a.contains k = .ok true ∨ b.contains k = .ok true := by
  have sorted : ∀ {s : RangeInclusiveSet K}, Reachable S s → RangeInclusive.laws.Sorted s.iter := by
    intro s hs
    have := (wf_iff s).1 (hs.wf hS)
    exact ⟨fun r hr => (this.1 r hr).2, fun r hr => (this.1 r hr).1,
      this.2.imp fun {a b} h (hb : b.start ≤ a.stop) => by grind⟩
  obtain ⟨h1, -, h2⟩ := UnionCrash.unionP_calls (L := RangeInclusive.laws) panics n ⟨0, a.union b⟩
    (sorted ha) (sorted hb)
  refine ⟨fun r hr => ⟨h1.valid r hr, h1.good r hr⟩,
    h1.sorted.imp fun {a b} (h : ¬ b.start ≤ a.stop) => by grind, fun k hk => ?_⟩
  rw [contains_eq (ha.wf hS), contains_eq (hb.wf hS)]
  simp only [Except.ok.injEq]
  rcases h2 k hk with h | h
  · exact Or.inl ((any_iff _ _).2 h)
  · exact Or.inr ((any_iff _ _).2 h)

/-- Two of six calls are interrupted; all three ranges are returned. -/
example : calls (IntersectionP.next fun i => i == 0 || i == 4) 6
    ⟨0, Demo.iset.intersection Demo.iset'⟩ =
    [none, some (some (Demo.by8 1 2)), none, some (some (Demo.by8 22 23)),
      some (some (Demo.by8 39 49)), some none] := by
  simp [calls, IntersectionP.next, IntersectionP.nextLoop, RangeIntersect.intersect,
    RangeInclusive.intersect, RangeOrder.orderEnd, kcmp, Ordering.isLT, rmax, rmin,
    RangeInclusiveSet.intersection, Demo.iset, Demo.iset', RangeInclusiveSet.iter,
    RangeInclusiveMap.iter, Demo.by8, RangeInclusive.mk', UIntW.lt_def]

/-- The first call is interrupted while it clones `0..=2`: of the range `0..=3`, only `1..=3` is
returned. -/
example : calls (UnionP.next fun i => i == 1) 3 ⟨0, Demo.iset.union Demo.iset'⟩ =
    [none, some (some (Demo.by8 1 3)), some (some (Demo.by8 5 14))] := by
  simp [calls, UnionP.next, UnionP.start, UnionP.mergeLoop, RangeMerge.merge,
    RangeInclusive.merge, RangeOrder.orderStart, kcmp, Ordering.isLT, RangeInclusive.contains,
    RangeInclusiveSet.union, Demo.iset, Demo.iset', RangeInclusiveSet.iter,
    RangeInclusiveMap.iter, Demo.by8, RangeInclusive.mk', UIntW.le_def, UIntW.lt_def]

end Inclusive

-- code that panics later than the calls made
example : calls (UnionP.next (fun i => i == 1000)) 3 ⟨0, Demo.set.union Demo.set'⟩ =
    (calls Union.next 3 (Demo.set.union Demo.set')).map some :=
  (C73_not_interrupted _ 3).1 _ (by decide +kernel)

end Verif.Props

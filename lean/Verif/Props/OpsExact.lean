import Verif.Props.Demo
import Verif.Proof.OpsExact
import Verif.Props.Set
import Verif.Props.ISet
import Verif.Proof.SetRename

/-!
# C81: exactly which ranges `union` and `intersection` yield

C37 says which keys the yielded ranges cover and that they are in order; but `union` does not join
ranges that merely touch, so that does not yet say which ranges they are.
-/
set_option linter.unusedSectionVars false

namespace Verif.Spec

/-- `l` divides the keys of the ranges `xs` into ranges, in order: as finely as is possible
without cutting any of the `xs`.  Two consecutive ranges of `l` may thus touch. -/
structure Division {K : Type} [LE K] [LT K] (xs l : List (Range K)) : Prop where
  nonempty : ∀ r ∈ l, r.start < r.stop
  ordered : l.Pairwise fun r r' => r.stop ≤ r'.start
  /-- nothing but the keys of the `xs` -/
  covered : ∀ r ∈ l, ∀ k, r.start ≤ k → k < r.stop → ∃ x ∈ xs, x.start ≤ k ∧ k < x.stop
  /-- none of the `xs` is cut -/
  uncut : ∀ x ∈ xs, ∃ r ∈ l, r.start ≤ x.start ∧ x.stop ≤ r.stop
  /-- wherever a range of `l` could be cut in two, one of the `xs` is in the way -/
  finest : ∀ r ∈ l, ∀ p, r.start < p → p < r.stop → ∃ x ∈ xs, x.start < p ∧ p < x.stop

/-- `l` divides the keys of the ranges `xs` into ranges, in order: as finely as is possible
without cutting any of the `xs`.  Two consecutive ranges of `l` may thus be adjacent. -/
structure IDivision {K : Type} [LE K] [LT K] (xs l : List (RangeInclusive K)) : Prop where
  nonempty : ∀ r ∈ l, r.start ≤ r.stop
  ordered : l.Pairwise fun r r' => r.stop < r'.start
  /-- nothing but the keys of the `xs` -/
  covered : ∀ r ∈ l, ∀ k, r.start ≤ k → k ≤ r.stop → ∃ x ∈ xs, x.start ≤ k ∧ k ≤ x.stop
  /-- none of the `xs` is cut -/
  uncut : ∀ x ∈ xs, ∃ r ∈ l, r.start ≤ x.start ∧ x.stop ≤ r.stop
  /-- wherever a range of `l` could be cut in two (just before `p`), one of the `xs` is in the
  way -/
  finest : ∀ r ∈ l, ∀ p, r.start < p → p ≤ r.stop → ∃ x ∈ xs, x.start < p ∧ p ≤ x.stop

end Verif.Spec

namespace Verif.Props
open Spec

section
variable {K : Type} [LE K] [LT K] [DecidableLE K] [DecidableLT K]
  [Std.IsLinearPreorder K] [Std.LawfulOrderLT K]

/-- two lists of ranges in order, each range of either being matched in the other -/
theorem zip_of_match {R : Type} (start : R → K) (same : R → R → Prop)
    (hs : ∀ {a b}, same a b → start a ≤ start b ∧ start b ≤ start a) :
    ∀ (l l' : List R), l.Pairwise (fun a b => start a < start b) →
      l'.Pairwise (fun a b => start a < start b) → (∀ r ∈ l, ∃ r' ∈ l', same r r') →
      (∀ r' ∈ l', ∃ r ∈ l, same r r') →
      l.length = l'.length ∧ ∀ p ∈ l.zip l', same p.1 p.2 := by
  intro l
  induction l with
  | nil =>
    intro l' _ _ _ h
    cases l' with
    | nil => simp
    | cons a l' => obtain ⟨r, hr, -⟩ := h a (by simp); cases hr
  | cons a l ih =>
    intro l' hl hl' h h'
    cases l' with
    | nil => obtain ⟨r, hr, -⟩ := h a (by simp); cases hr
    | cons a' l' =>
      have p := List.pairwise_cons.1 hl
      have p' := List.pairwise_cons.1 hl'
      have hhead : same a a' := by
        obtain ⟨r', hr', h1⟩ := h a (by simp)
        obtain ⟨r, hr, h2⟩ := h' a' (by simp)
        have e1 := hs h1
        have e2 := hs h2
        rcases List.mem_cons.1 hr' with rfl | hr'
        · exact h1
        · rcases List.mem_cons.1 hr with rfl | hr
          · exact h2
          · have := p'.1 r' hr'
            have := p.1 r hr
            grind
      have e := hs hhead
      obtain ⟨i1, i2⟩ := ih l' p.2 p'.2
        (fun r hr => by
          obtain ⟨r', hr', h1⟩ := h r (by simp [hr])
          rcases List.mem_cons.1 hr' with rfl | hr'
          · have := p.1 r hr
            have := hs h1
            grind
          · exact ⟨r', hr', h1⟩)
        (fun r' hr' => by
          obtain ⟨r, hr, h1⟩ := h' r' (by simp [hr'])
          rcases List.mem_cons.1 hr with rfl | hr
          · have := p'.1 r' hr'
            have := hs h1
            grind
          · exact ⟨r, hr, h1⟩)
      refine ⟨by simp [i1], fun q hq => ?_⟩
      simp only [List.zip_cons_cons, List.mem_cons] at hq
      rcases hq with rfl | hq
      · exact hhead
      · exact i2 q hq

section
open RangeSet

/-- the ranges of a list in order: two of them that share a key are the same -/
theorem _root_.Verif.Spec.Division.eq {xs l : List (Range K)} (h : Division xs l) {r r' : Range K}
    (hr : r ∈ l)
    (hr' : r' ∈ l) (h1 : r.start < r'.stop) (h2 : r'.start < r.stop) : r = r' := by
  have := h.ordered
  rw [List.pairwise_iff_getElem] at this
  obtain ⟨i, hi, rfl⟩ := List.mem_iff_getElem.1 hr
  obtain ⟨j, hj, rfl⟩ := List.mem_iff_getElem.1 hr'
  rcases Nat.lt_trichotomy i j with hij | rfl | hij
  · have := this i j hi hj hij
    grind
  · rfl
  · have := this j i hj hi hij
    grind

theorem _root_.Verif.Spec.Division.same {xs l l' : List (Range K)} (h : Division xs l)
    (h' : Division xs l')
    {r : Range K} (hr : r ∈ l) :
    ∃ r' ∈ l', (r.start ≤ r'.start ∧ r'.start ≤ r.start) ∧ r.stop ≤ r'.stop ∧
      r'.stop ≤ r.stop := by
  have hv := h.nonempty r hr
  obtain ⟨x, hx, x1, x2⟩ := h.covered r hr r.start (by grind) (by grind)
  obtain ⟨r', hr', y1, y2⟩ := h'.uncut x hx
  -- no range of either list spans the start or the end of one of the other
  have cut : ∀ {l l'}, Division xs l → Division xs l' → ∀ {r r' : Range K}, r ∈ l → r' ∈ l' →
      (¬ (r'.start < r.start ∧ r.start < r'.stop)) ∧
      ¬ (r'.start < r.stop ∧ r.stop < r'.stop) := by
    intro l l' h h' r r' hr hr'
    have hv := h.nonempty r hr
    refine ⟨fun hc => ?_, fun hc => ?_⟩
    · obtain ⟨x, hx, x1, x2⟩ := h'.finest r' hr' r.start (by grind) (by grind)
      obtain ⟨s, hs, y1, y2⟩ := h.uncut x hx
      have : s = r := h.eq hs hr (by grind) (by grind)
      subst this
      grind
    · obtain ⟨x, hx, x1, x2⟩ := h'.finest r' hr' r.stop (by grind) (by grind)
      obtain ⟨s, hs, y1, y2⟩ := h.uncut x hx
      have : s = r := h.eq hs hr (by grind) (by grind)
      subst this
      grind
  have c1 := cut h h' hr hr'
  have c2 := cut h' h hr' hr
  exact ⟨r', hr', by grind, by grind, by grind⟩

/-- **C81** There is only one way to divide the keys of some ranges as finely as possible (up to
keys that compare equal). -/
theorem C81_division_unique {xs l l' : List (Range K)} (h : Division xs l)
    (h' : Division xs l') : l.length = l'.length ∧
      ∀ p ∈ l.zip l', keq p.1.start p.2.start = true ∧ keq p.1.stop p.2.stop = true := by
  have srt : ∀ {l}, Division xs l → l.Pairwise fun a b : Range K => a.start < b.start := by
    intro l h
    refine h.ordered.imp_of_mem fun {a b} ha _ hab => ?_
    have := h.nonempty a ha
    grind
  obtain ⟨h1, h2⟩ := zip_of_match Range.start
    (fun r r' => (r.start ≤ r'.start ∧ r'.start ≤ r.start) ∧ r.stop ≤ r'.stop ∧
      r'.stop ≤ r.stop) (fun h => h.1) l l' (srt h) (srt h') (fun r hr => h.same h' hr)
    (fun r' hr' => by
      obtain ⟨r, hr, h1⟩ := h'.same h hr'
      exact ⟨r, hr, by grind, by grind, by grind⟩)
  refine ⟨h1, fun p hp => ?_⟩
  rw [keq_iff, keq_iff]
  exact h2 p hp

/-- **C81** `union` divides the keys of the two sets into ranges as finely as is possible without
cutting a stored range: it joins two ranges exactly if they share a key. -/
theorem C81_union_division {a b : RangeSet K} (ha : Reachable a) (hb : Reachable b) :
    ∃ l, Yields Union.next (a.union b) l ∧ Division (a.iter ++ b.iter) l := by
  have hs := (wf_iff a).1 ha.wf
  have hs' := (wf_iff b).1 hb.wf
  have sorted : ∀ {l : List (Range K)}, (∀ r ∈ l, r.start < r.stop) →
      l.Pairwise (fun a b => a.stop < b.start) → Range.laws.Sorted l := fun h1 h2 =>
    ⟨fun _ _ => trivial, h1, h2.imp fun {a b} h (hb : b.start < a.stop) => by grind⟩
  obtain ⟨l, l1, l2, l3, _, l5⟩ := OpsLaws.union_spec _ a.iter b.iter (Nat.le_refl _)
    (sorted hs.1 hs.2) (sorted hs'.1 hs'.2)
  obtain ⟨l', m1, m2, m3⟩ := OpsLaws.union_exact _ a.iter b.iter (Nat.le_refl _)
    (sorted hs.1 hs.2) (sorted hs'.1 hs'.2)
  obtain rfl := Yields.unique l1 m1
  refine ⟨l, l1, l2.valid, l2.sorted.imp fun {a b} (h : ¬ b.start < a.stop) => by grind, ?_, ?_,
    m2⟩
  · intro r hr k h1 h2
    rcases (l5 k).1 ⟨r, hr, h1, h2⟩ with ⟨x, hx, h⟩ | ⟨x, hx, h⟩
    · exact ⟨x, List.mem_append_left _ hx, h⟩
    · exact ⟨x, List.mem_append_right _ hx, h⟩
  · intro x hx
    obtain ⟨r, hr, h1, h2⟩ := m3 x hx
    refine ⟨r, hr, h1, ?_⟩
    have : r.stop < x.stop → r.stop < r.stop := h2 r.stop
    grind

example := C81_union_division (K := Nat) (a := Demo.set) (b := Demo.set') Demo.set_reachable
    Demo.set'_reachable

/-- **C81** `intersection` yields, in order, exactly the non-empty intersections of a range of the
left with a range of the right set.  Of two ends that compare equal it takes the right one's start
and the left one's end. -/
theorem C81_intersection_pieces {a b : RangeSet K} (ha : Reachable a) (hb : Reachable b) :
    ∃ l, Yields Intersection.next (a.intersection b) l ∧
      l.Pairwise (fun r r' => r.stop < r'.start) ∧
      ∀ r, r ∈ l ↔ ∃ x ∈ a.iter, ∃ y ∈ b.iter, r.start < r.stop ∧
        r.start = (if x.start ≤ y.start then y.start else x.start) ∧
        r.stop = (if x.stop ≤ y.stop then x.stop else y.stop) := by
  have hs := (wf_iff a).1 ha.wf
  have hs' := (wf_iff b).1 hb.wf
  obtain ⟨l, h1, -, -, h2, -⟩ := intersection_spec ha.wf hb.wf
  obtain ⟨l', m1, m2⟩ := OpsLaws.intersection_exact (L := Range.laws) _ a.iter b.iter
    (Nat.le_refl _) ⟨hs.1, hs.2⟩ ⟨hs'.1, hs'.2⟩
  obtain rfl := Yields.unique h1 m1
  refine ⟨l, h1, h2, fun r => ?_⟩
  rw [m2]
  refine exists_congr fun x => and_congr_right fun hx => exists_congr fun y =>
    and_congr_right fun hy => ?_
  have e1 : (if x.start ≤ y.start then y.start else x.start) = rmax x.start y.start := by
    unfold rmax; grind
  have e2 : (if x.stop ≤ y.stop then x.stop else y.stop) = rmin x.stop y.stop := by
    unfold rmin; grind
  rw [e1, e2]
  simp only [RangeIntersect.intersect, Range.intersect]
  split
  · simp only [reduceCtorEq, false_iff]
    rintro ⟨h1, h2, h3⟩
    grind
  · obtain ⟨s, t⟩ := r
    simp only [Option.some.injEq, Range.mk.injEq]
    grind

-- `union` of two sets that overlap, touch and are nested yields what is listed here; the list
-- with the touching ranges joined is not a `Division`
example : Division (Demo.set.iter ++ Demo.set'.iter)
    [⟨0, 4⟩, ⟨5, 15⟩, ⟨15, 20⟩, ⟨20, 50⟩] := by
  constructor <;> simp [Demo.set, Demo.set', iter, RangeMap.iter] <;>
    refine ⟨?_, ?_, ?_, ?_⟩ <;> intros <;> omega
example : ¬ Division (Demo.set.iter ++ Demo.set'.iter) [⟨0, 4⟩, ⟨5, 50⟩] := by
  intro h
  have := h.finest ⟨5, 50⟩ (by simp) 15 (by decide) (by decide)
  simp [Demo.set, Demo.set', iter, RangeMap.iter] at this
example : ∃ l, Yields Intersection.next (Demo.set.intersection Demo.set') l ∧
    (⟨22, 24⟩ : Range Nat) ∈ l := by
  obtain ⟨l, h1, -, h2⟩ := C81_intersection_pieces Demo.set_reachable Demo.set'_reachable
  exact ⟨l, h1, (h2 _).2 ⟨⟨20, 40⟩, by decide, ⟨22, 24⟩, by decide, by decide, by decide,
    by decide⟩⟩

end

namespace Inclusive

section
open RangeInclusiveSet

/-- the ranges of a list in order: two of them that share a key are the same -/
theorem _root_.Verif.Spec.IDivision.eq {xs l : List (RangeInclusive K)} (h : IDivision xs l)
    {r r' : RangeInclusive K} (hr : r ∈ l)
    (hr' : r' ∈ l) (h1 : r.start ≤ r'.stop) (h2 : r'.start ≤ r.stop) : r = r' := by
  have := h.ordered
  rw [List.pairwise_iff_getElem] at this
  obtain ⟨i, hi, rfl⟩ := List.mem_iff_getElem.1 hr
  obtain ⟨j, hj, rfl⟩ := List.mem_iff_getElem.1 hr'
  rcases Nat.lt_trichotomy i j with hij | rfl | hij
  · have := this i j hi hj hij
    grind
  · rfl
  · have := this j i hj hi hij
    grind

theorem _root_.Verif.Spec.IDivision.same {xs l l' : List (RangeInclusive K)} (h : IDivision xs l)
    (h' : IDivision xs l')
    {r : RangeInclusive K} (hr : r ∈ l) :
    ∃ r' ∈ l', (r.start ≤ r'.start ∧ r'.start ≤ r.start) ∧ r.stop ≤ r'.stop ∧
      r'.stop ≤ r.stop := by
  have hv := h.nonempty r hr
  obtain ⟨x, hx, x1, x2⟩ := h.covered r hr r.start (by grind) (by grind)
  obtain ⟨r', hr', y1, y2⟩ := h'.uncut x hx
  -- no range of either list spans the start of one of the other
  have cut1 : ∀ {l l'}, IDivision xs l → IDivision xs l' → ∀ {r r' : RangeInclusive K}, r ∈ l →
      r' ∈ l' → ¬ (r'.start < r.start ∧ r.start ≤ r'.stop) := by
    intro l l' h h' r r' hr hr' hc
    have hv := h.nonempty r hr
    obtain ⟨x, hx, x1, x2⟩ := h'.finest r' hr' r.start (by grind) (by grind)
    obtain ⟨s, hs, y1, y2⟩ := h.uncut x hx
    have : s = r := h.eq hs hr (by grind) (by grind)
    subst this
    grind
  -- nor the end
  have cut : ∀ {l l'}, IDivision xs l → IDivision xs l' → ∀ {r r' : RangeInclusive K}, r ∈ l → r'
    ∈ l' →
      (¬ (r'.start < r.start ∧ r.start ≤ r'.stop)) ∧
      ¬ (r'.start ≤ r.stop ∧ r.stop < r'.stop) := by
    intro l l' h h' r r' hr hr'
    have hv := h.nonempty r hr
    refine ⟨cut1 h h' hr hr', fun hc => ?_⟩
    · -- the last key of `r'` is in a range `s` of `l` after `r`; so `r'` spans the start of `s`
      obtain ⟨x, hx, x1, x2⟩ := h'.covered r' hr' r'.stop (h'.nonempty r' hr') (by grind)
      obtain ⟨s, hs, y1, y2⟩ := h.uncut x hx
      have hsr : ¬ s.start ≤ r.stop := fun hle => by
        have : s = r := h.eq hs hr hle (by grind)
        subst this
        grind
      exact cut1 h h' hs hr' ⟨by grind, by grind⟩
  have c1 := cut h h' hr hr'
  have c2 := cut h' h hr' hr
  exact ⟨r', hr', by grind, by grind, by grind⟩

/-- **C81** There is only one way to divide the keys of some ranges as finely as possible (up to
keys that compare equal). -/
theorem C81_division_unique {xs l l' : List (RangeInclusive K)} (h : IDivision xs l)
    (h' : IDivision xs l') : l.length = l'.length ∧
      ∀ p ∈ l.zip l', keq p.1.start p.2.start = true ∧ keq p.1.stop p.2.stop = true := by
  have srt : ∀ {l}, IDivision xs l → l.Pairwise fun a b : RangeInclusive K => a.start < b.start :=
    by
    intro l h
    refine h.ordered.imp_of_mem fun {a b} ha _ hab => ?_
    have := h.nonempty a ha
    grind
  obtain ⟨h1, h2⟩ := zip_of_match RangeInclusive.start
    (fun r r' => (r.start ≤ r'.start ∧ r'.start ≤ r.start) ∧ r.stop ≤ r'.stop ∧
      r'.stop ≤ r.stop) (fun h => h.1) l l' (srt h) (srt h') (fun r hr => h.same h' hr)
    (fun r' hr' => by
      obtain ⟨r, hr, h1⟩ := h'.same h hr'
      exact ⟨r, hr, by grind, by grind, by grind⟩)
  refine ⟨h1, fun p hp => ?_⟩
  rw [keq_iff, keq_iff]
  exact h2 p hp

/-- **C81** `union` divides the keys of the two sets into ranges as finely as is possible without
cutting a stored range: it joins two ranges exactly if they share a key. -/
theorem C81_union_division {S : StepFns K} (hS : LawfulSteps S)
    {a b : RangeInclusiveSet K} (ha : Reachable S a) (hb : Reachable S b) :
    ∃ l, Yields Union.next (a.union b) l ∧ IDivision (a.iter ++ b.iter) l := by
  have hs := (wf_iff a).1 (ha.wf hS)
  have hs' := (wf_iff b).1 (hb.wf hS)
  have sorted : ∀ {l : List (RangeInclusive K)},
      (∀ r ∈ l, r.start ≤ r.stop ∧ r.exhausted = false) →
      l.Pairwise (fun a b => a.stop < b.start ∧ ¬ Next a.stop b.start) →
      RangeInclusive.laws.Sorted l := fun h1 h2 =>
    ⟨fun r hr => (h1 r hr).2, fun r hr => (h1 r hr).1,
      h2.imp fun {a b} h (hb : b.start ≤ a.stop) => by grind⟩
  obtain ⟨l, l1, l2, l3, _, l5⟩ := OpsLaws.union_spec _ a.iter b.iter (Nat.le_refl _)
    (sorted hs.1 hs.2) (sorted hs'.1 hs'.2)
  obtain ⟨l', m1, m2, m3⟩ := OpsLaws.union_exact _ a.iter b.iter (Nat.le_refl _)
    (sorted hs.1 hs.2) (sorted hs'.1 hs'.2)
  obtain rfl := Yields.unique l1 m1
  refine ⟨l, l1, l2.valid, l2.sorted.imp fun {a b} (h : ¬ b.start ≤ a.stop) => by grind, ?_, ?_,
    m2⟩
  · intro r hr k h1 h2
    rcases (l5 k).1 ⟨r, hr, h1, h2⟩ with ⟨x, hx, h⟩ | ⟨x, hx, h⟩
    · exact ⟨x, List.mem_append_left _ hx, h⟩
    · exact ⟨x, List.mem_append_right _ hx, h⟩
  · intro x hx
    obtain ⟨r, hr, h1, h2⟩ := m3 x hx
    exact ⟨r, hr, h1, h2 x.stop (by show x.stop ≤ x.stop; grind)⟩

/-- **C81** `intersection` yields, in order, exactly the non-empty intersections of a range of the
left with a range of the right set.  Of two ends that compare equal it takes the right one's start
and the left one's end. -/
theorem C81_intersection_pieces {S : StepFns K} (hS : LawfulSteps S)
    {a b : RangeInclusiveSet K} (ha : Reachable S a) (hb : Reachable S b) :
    ∃ l, Yields Intersection.next (a.intersection b) l ∧
      l.Pairwise (fun r r' => r.stop < r'.start ∧ ¬ Next r.stop r'.start) ∧
      ∀ r, r ∈ l ↔ ∃ x ∈ a.iter, ∃ y ∈ b.iter, r.start ≤ r.stop ∧ r.exhausted = false ∧
        r.start = (if x.start ≤ y.start then y.start else x.start) ∧
        r.stop = (if x.stop ≤ y.stop then x.stop else y.stop) := by
  have hs := (wf_iff a).1 (ha.wf hS)
  have hs' := (wf_iff b).1 (hb.wf hS)
  obtain ⟨l, h1, -, -, h2, -⟩ := intersection_spec (ha.wf hS) (hb.wf hS)
  obtain ⟨l', m1, m2⟩ := OpsLaws.intersection_exact (L := RangeInclusive.laws) _
    a.iter b.iter (Nat.le_refl _) ⟨fun r hr => (hs.1 r hr).1, hs.2⟩
    ⟨fun r hr => (hs'.1 r hr).1, hs'.2⟩
  obtain rfl := Yields.unique h1 m1
  refine ⟨l, h1, h2, fun r => ?_⟩
  rw [m2]
  refine exists_congr fun x => and_congr_right fun hx => exists_congr fun y =>
    and_congr_right fun hy => ?_
  have e1 : (if x.start ≤ y.start then y.start else x.start) = rmax x.start y.start := by
    unfold rmax; grind
  have e2 : (if x.stop ≤ y.stop then x.stop else y.stop) = rmin x.stop y.stop := by
    unfold rmin; grind
  rw [e1, e2]
  simp only [RangeIntersect.intersect, RangeInclusive.intersect]
  split
  · simp only [reduceCtorEq, false_iff]
    rintro ⟨h1, _, h2, h3⟩
    grind
  · obtain ⟨s, t, f⟩ := r
    simp only [Option.some.injEq, RangeInclusive.mk', RangeInclusive.mk.injEq]
    grind

-- `union` of two sets that overlap, are adjacent and nested yields what is listed here; the list
-- with the adjacent ranges joined is not a division
example : IDivision [Demo.by8 0 2, Demo.by8 3 5, Demo.by8 4 9] [Demo.by8 0 2, Demo.by8 3 9] := by
  refine ⟨by decide, by decide, ?_, by decide, ?_⟩
  · intro r hr k h1 h2
    simp only [List.mem_cons, List.not_mem_nil, or_false] at hr
    rcases hr with rfl | rfl
    · exact ⟨_, by simp, h1, h2⟩
    · by_cases h : k ≤ (Demo.by8 3 5).stop
      · exact ⟨Demo.by8 3 5, by simp, h1, h⟩
      · refine ⟨Demo.by8 4 9, by simp, ?_, h2⟩
        have : (Demo.by8 4 9).start ≤ (Demo.by8 3 5).stop := by decide
        grind
  · intro r hr k h1 h2
    simp only [List.mem_cons, List.not_mem_nil, or_false] at hr
    rcases hr with rfl | rfl
    · exact ⟨_, by simp, h1, h2⟩
    · by_cases h : k ≤ (Demo.by8 3 5).stop
      · exact ⟨Demo.by8 3 5, by simp, h1, h⟩
      · refine ⟨Demo.by8 4 9, by simp, ?_, h2⟩
        have : (Demo.by8 4 9).start < (Demo.by8 3 5).stop := by decide
        grind
example : ¬ IDivision [Demo.by8 0 2, Demo.by8 3 5, Demo.by8 4 9] [Demo.by8 0 9] := by
  intro h
  obtain ⟨x, hx, h1, h2⟩ := h.finest (Demo.by8 0 9) (by simp) (Demo.by8 3 3).start (by decide)
    (by decide)
  simp only [List.mem_cons, List.not_mem_nil, or_false] at hx
  rcases hx with rfl | rfl | rfl <;> revert h1 h2 <;> decide
example : ∃ l, Yields Union.next (Demo.iset.union Demo.iset') l ∧
    IDivision (Demo.iset.iter ++ Demo.iset'.iter) l :=
  C81_union_division Demo.u8_lawful Demo.iset_reachable Demo.iset'_reachable
example : ∃ l, Yields Intersection.next (Demo.iset.intersection Demo.iset') l ∧
    Demo.by8 22 23 ∈ l := by
  obtain ⟨l, h1, -, h2⟩ := C81_intersection_pieces Demo.u8_lawful Demo.iset_reachable
    Demo.iset'_reachable
  exact ⟨l, h1, (h2 _).2 ⟨Demo.by8 20 255, by decide, Demo.by8 22 23, by decide, by decide,
    by decide, by decide, by decide⟩⟩

end

end Inclusive
end

-- the same keys in two guises
example := C81_division_unique (K := Demo.TagKey)
  (xs := [⟨⟨1, true⟩, ⟨4, false⟩⟩, ⟨⟨1, false⟩, ⟨4, true⟩⟩])
  (l := [⟨⟨1, true⟩, ⟨4, false⟩⟩]) (l' := [⟨⟨1, false⟩, ⟨4, true⟩⟩])
  ⟨by decide, by simp, by simp +contextual, by decide, by simp +contextual⟩
  ⟨by decide, by simp, by simp +contextual, by decide, by simp +contextual⟩
example := Inclusive.C81_division_unique
  (Inclusive.C81_union_division Demo.u8_lawful Demo.iset_reachable Demo.iset'_reachable).choose_spec.2
  (Inclusive.C81_union_division Demo.u8_lawful Demo.iset_reachable Demo.iset'_reachable).choose_spec.2

end Verif.Props

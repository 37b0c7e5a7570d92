import Verif.Proof.ISet
import Verif.Props.IIter
import Verif.Props.IBuild
import Verif.Props.Demo

/-!
# `RangeInclusiveSet`: C36, C37, C38, C39, C48–C50
-/
set_option linter.unusedSectionVars false

namespace Verif.Props.Inclusive
open RangeInclusiveSet Spec
open RangeMap (DeError)
variable {K : Type} [LE K] [LT K] [DecidableLE K] [DecidableLT K]
  [Std.IsLinearPreorder K] [Std.LawfulOrderLT K] {S : StepFns K}

/-! ## C36 -/

/-- **C36** A valid insert adds exactly the keys of the range. -/
theorem C36_insert (hS : LawfulSteps S) {s : RangeInclusiveSet K} (hs : Reachable S s)
    {r : RangeInclusive K} (hr : r.start ≤ r.stop) (hx : r.exhausted = false) :
    ∃ s', s.insert S r = .ok s' ∧ Reachable S s' ∧ ∀ k, ∃ b, s.contains k = .ok b ∧
      s'.contains k = .ok (decide (r.start ≤ k ∧ k ≤ r.stop) || b) := by
  obtain ⟨s', h⟩ := insert_ok hS (hs.wf hS).sc hr
  have hs' := hs.insert hS hx h
  refine ⟨s', h, hs', fun k => ⟨_, contains_eq (hs.wf hS) k, ?_⟩⟩
  rw [contains_eq (hs'.wf hS), (insert_has hS (hs.wf hS) hx h k).2.2]
  rfl

example := Inclusive.C36_insert (K := UIntW 8) (S := Demo.u8) Demo.u8_lawful (s := Demo.iset)
    Demo.iset_reachable (r := Demo.by8 2 22) (by decide) (by decide)

/-- **C36** A valid remove erases exactly the keys of the range. -/
theorem C36_remove (hS : LawfulSteps S) {s : RangeInclusiveSet K} (hs : Reachable S s)
    {r : RangeInclusive K} (hr : r.start ≤ r.stop) :
    ∃ s', s.remove S r = .ok s' ∧ Reachable S s' ∧ ∀ k, ∃ b, s.contains k = .ok b ∧
      s'.contains k = .ok (!decide (r.start ≤ k ∧ k ≤ r.stop) && b) := by
  obtain ⟨s', h⟩ := remove_ok hS (hs.wf hS).sc hr
  have hs' := hs.remove hS h
  refine ⟨s', h, hs', fun k => ⟨_, contains_eq (hs.wf hS) k, ?_⟩⟩
  rw [contains_eq (hs'.wf hS), (remove_has hS (hs.wf hS) h k).2.2]
  rfl

example := Inclusive.C36_remove (K := UIntW 8) (S := Demo.u8) Demo.u8_lawful (s := Demo.iset)
    Demo.iset_reachable (r := Demo.by8 2 22) (by decide)

/-- **C36** After any history, `contains` is what the specification says. -/
theorem C36_refinement (hS : LawfulSteps S) (ops : List (SetOp (RangeInclusive K)))
    (hx : ∀ op ∈ ops, ∀ r ∈ op.inserted, r.exhausted = false) (k : K) :
    (run S ops).contains k = .ok (member icovers ivalid ops.reverse k) := by
  have hs : Reachable S (run S ops) := ⟨ops, hx, rfl⟩
  have hw := hs.wf hS
  rw [contains_eq hw, has_look hw, run_rm, ← lastWrite_member, List.map_reverse]
  have := RangeInclusiveMap.run_look hS (ops.map setOpToOp) (fun op hop => by
    obtain ⟨o, h1, rfl⟩ := List.mem_map.1 hop
    rw [setOpToOp_inserted]
    exact hx o h1) k
  rw [RangeSet.agree_unit] at this
  rw [this]

example := Inclusive.C36_refinement (K := UIntW 8) (S := Demo.u8) Demo.u8_lawful Demo.isops
    (by decide) ⟨7⟩

/-- **C36** `insert` and `remove` panic exactly on an inverted range, and then leave the set
alone. -/
theorem C36_panics (hS : LawfulSteps S) {s : RangeInclusiveSet K} (hs : ReachableAny S s)
    (r : RangeInclusive K) :
    ((∃ p, s.insert S r = .error p) ↔ r.stop < r.start) ∧
    ((∃ p, s.remove S r = .error p) ↔ r.stop < r.start) ∧
    (r.stop < r.start → s.apply S (.insert r) = (s, .error .assertFailed) ∧
      s.apply S (.remove r) = (s, .error .assertFailed)) := by
  by_cases hr : r.start ≤ r.stop
  · obtain ⟨s1, h1⟩ := insert_ok hS (hs.map.sc hS) hr
    obtain ⟨s2, h2⟩ := remove_ok hS (hs.map.sc hS) hr
    have : ¬ r.stop < r.start := by grind
    simp [h1, h2, this]
  · have h1 : s.insert S r = .error .assertFailed := by
      rw [insert_rm, RangeInclusiveMap.insert_invalid hr]; rfl
    have h2 : s.remove S r = .error .assertFailed := by
      rw [remove_rm, RangeInclusiveMap.remove_invalid hr]; rfl
    have : r.stop < r.start := by grind
    simp [h1, h2, this, RangeInclusiveSet.apply]

example := Inclusive.C36_panics (K := UIntW 8) (S := Demo.u8) Demo.u8_lawful (s := Demo.iset)
    Demo.iset_reachable.any (Demo.by8 2 22)

/-- **C36** `get(k)` returns the one stored range that contains `k`, and `None` iff there is
none. -/
theorem C36_get (hS : LawfulSteps S) {s : RangeInclusiveSet K} (hs : Reachable S s) (k : K) :
    ∃ o, s.get k = .ok o ∧ s.contains k = .ok o.isSome ∧
      ∀ r, o = some r ↔ r ∈ s.iter ∧ r.start ≤ k ∧ k ≤ r.stop := by
  obtain ⟨o, h1, h2, h3⟩ := C30_projections s.rm k
  refine ⟨o.map (·.1), by rw [RangeInclusiveSet.get, h1]; rfl, by rw [contains, h3]; simp,
    fun r => ?_⟩
  have h4 := C30_get_key_value hS hs.map k (r, ())
  rw [h1] at h4
  simp only [Except.ok.injEq] at h4
  constructor
  · intro h
    obtain ⟨e, rfl, rfl⟩ := Option.map_eq_some_iff.1 h
    have := h4.1 rfl
    exact ⟨List.mem_map.2 ⟨_, this.1, rfl⟩, this.2⟩
  · rintro ⟨hr, hk⟩
    obtain ⟨e, he, rfl⟩ := List.mem_map.1 hr
    rw [h4.2 ⟨he, hk⟩]
    rfl

example := Inclusive.C36_get (K := UIntW 8) (S := Demo.u8) Demo.u8_lawful (s := Demo.iset)
    Demo.iset_reachable ⟨7⟩

/-- **C36** Stored ranges are maximal: any range around `k` all of whose keys are in the set lies
within `get(k)`. -/
theorem C36_get_maximal (hS : LawfulSteps S) {s : RangeInclusiveSet K} (hs : Reachable S s)
    {k : K} {r r' : RangeInclusive K}
    (h : s.get k = .ok (some r)) (h1 : r'.start ≤ k) (h2 : k ≤ r'.stop)
    (hall : ∀ j, r'.start ≤ j → j ≤ r'.stop → s.contains j = .ok true) :
    r.start ≤ r'.start ∧ r'.stop ≤ r.stop := by
  obtain ⟨hne, hpw⟩ := (reachable_iff hS s).1 hs
  obtain ⟨o, g1, _, g2⟩ := C36_get hS hs k
  rw [h] at g1
  cases g1
  obtain ⟨m1, m2, m3⟩ := (g2 r).1 rfl
  have hmem : ∀ j, r'.start ≤ j → j ≤ r'.stop → ∃ p ∈ s.iter, p.start ≤ j ∧ j ≤ p.stop := by
    intro j hj1 hj2
    have := hall j hj1 hj2
    rw [contains_eq (hs.wf hS)] at this
    exact (has_iff s j).1 (by simpa using this)
  have htri := RangeMap.pw_tri hpw
  constructor
  · apply Decidable.byContradiction
    intro hlt
    obtain ⟨c, _, c1, c2⟩ := hS.subOne r.start r'.start (by grind)
    have := c2 r'.start
    obtain ⟨p, p1, p2, p3⟩ := hmem c (by grind) (by grind)
    have t1 := htri p p1 r m1
    have := hne p p1
    have hn : p.stop < r.start → Next p.stop r.start := fun hp =>
      ⟨hp, fun d hd => c2 d (by grind)⟩
    grind
  · apply Decidable.byContradiction
    intro hlt
    obtain ⟨c, _, c1, c2⟩ := hS.addOne r.stop r'.stop (by grind)
    have := c2 r'.stop
    obtain ⟨p, p1, p2, p3⟩ := hmem c (by grind) (by grind)
    have t1 := htri p p1 r m1
    have := hne p p1
    have hn : r.stop < p.start → Next r.stop p.start := fun hp =>
      ⟨hp, fun d hd => by have := c2 d hd; grind⟩
    grind

/-- **C36** The reachable sets are exactly the ordered lists of non-empty ranges that neither
overlap nor are adjacent. -/
theorem C36_reachable_iff (hS : LawfulSteps S) (s : RangeInclusiveSet K) : Reachable S s ↔
    (∀ r ∈ s.iter, r.start ≤ r.stop ∧ r.exhausted = false) ∧
    s.iter.Pairwise fun a b => a.stop < b.start ∧ ¬ Next a.stop b.start :=
  reachable_iff hS s

example := Inclusive.C36_reachable_iff (K := UIntW 8) (S := Demo.u8) Demo.u8_lawful Demo.iset

/-- **C36** Two sets are `==` iff they contain the same keys. -/
theorem C36_eq_iff (hS : LawfulSteps S) {s s' : RangeInclusiveSet K} (hs : Reachable S s)
    (hs' : Reachable S s') : s.eq s' = true ↔ ∀ k, s.contains k = s'.contains k := by
  rw [eq_iff_has hS (hs.wf hS) (hs'.wf hS)]
  simp only [contains_eq (hs.wf hS), contains_eq (hs'.wf hS), Except.ok.injEq]

example : LawfulSteps Demo.u8 ∧ Reachable Demo.u8 Demo.iset ∧ 2 ≤ Demo.iset.iter.length :=
  ⟨Demo.u8_lawful, Demo.iset_reachable, by decide⟩
example : (Demo.iset.get ⟨7⟩).toOption = some (some (Demo.by8 5 14)) ∧
    (Demo.iset.contains ⟨3⟩).toOption = some false ∧
    (Demo.iset.contains ⟨255⟩).toOption = some true := ⟨by rfl, by rfl, by rfl⟩
-- adjacent ranges coalesce
example : (Demo.iset.insert Demo.u8 (Demo.by8 3 4)).toOption.map (·.iter) =
    some [Demo.by8 0 14, Demo.by8 20 255] := by rfl
example : member icovers ivalid Demo.isops.reverse ⟨12⟩ = true ∧
    member icovers ivalid Demo.isops.reverse ⟨4⟩ = false := by decide

/-! ## C37 -/

/-- **C37** `union(a, b)` yields non-empty ranges in increasing order, without overlaps, covering
exactly the keys in `a` or in `b`, and then `None` forever. -/
theorem C37_union (hS : LawfulSteps S) {a b : RangeInclusiveSet K} (ha : Reachable S a)
    (hb : Reachable S b) :
    ∃ l, Yields Union.next (a.union b) l ∧
      (∀ r ∈ l, r.start ≤ r.stop ∧ r.exhausted = false) ∧
      l.Pairwise (fun r r' => r.stop < r'.start) ∧
      ∀ k, (∃ r ∈ l, r.start ≤ k ∧ k ≤ r.stop) ↔
        a.contains k = .ok true ∨ b.contains k = .ok true := by
  obtain ⟨l, h1, _, h2, h3, h4⟩ := union_spec (ha.wf hS) (hb.wf hS)
  refine ⟨l, h1, h2, h3, fun k => ?_⟩
  have := h4 k
  rw [Bool.eq_iff_iff, any_iff] at this
  rw [contains_eq (ha.wf hS), contains_eq (hb.wf hS)]
  simpa [OpsLaws.mem, RangeInclusive.laws] using this

-- adjacent ranges are not merged by `union` itself
example : ∃ l, Yields Union.next (Demo.iset.union Demo.iset') l ∧
    l = [Demo.by8 0 3, Demo.by8 5 14, Demo.by8 15 19, Demo.by8 20 255] := by
  obtain ⟨l, h, _, _⟩ := C37_union Demo.u8_lawful Demo.iset_reachable Demo.iset'_reachable
  refine ⟨l, h, ?_⟩
  have h5 := h 5
  have : calls Union.next 5 (Demo.iset.union Demo.iset') =
      [some (Demo.by8 0 3), some (Demo.by8 5 14), some (Demo.by8 15 19), some (Demo.by8 20 255),
        none] := by
    simp [calls, Union.next, Union.first, Union.mergeLoop, Union.join, RangeMerge.merge,
      RangeInclusive.merge, RangeOrder.orderStart, kcmp, Ordering.isLT, RangeInclusive.contains,
      RangeInclusiveSet.union, Demo.iset, Demo.iset', RangeInclusiveSet.iter,
      RangeInclusiveMap.iter, Demo.by8, RangeInclusive.mk', UIntW.le_def, UIntW.lt_def]
  rw [this] at h5
  rcases l with _ | ⟨x1, _ | ⟨x2, _ | ⟨x3, _ | ⟨x4, _ | ⟨x5, l⟩⟩⟩⟩⟩ <;> simp_all

/-! ## C38 -/

/-- **C38** `intersection(a, b)` yields non-empty ranges in increasing order that neither overlap
nor are adjacent, covering exactly the keys in both `a` and `b`, and then `None` forever. -/
theorem C38_intersection (hS : LawfulSteps S) {a b : RangeInclusiveSet K} (ha : Reachable S a)
    (hb : Reachable S b) :
    ∃ l, Yields Intersection.next (a.intersection b) l ∧
      (∀ r ∈ l, r.start ≤ r.stop ∧ r.exhausted = false) ∧
      l.Pairwise (fun r r' => r.stop < r'.start ∧ ¬ Next r.stop r'.start) ∧
      ∀ k, (∃ r ∈ l, r.start ≤ k ∧ k ≤ r.stop) ↔
        a.contains k = .ok true ∧ b.contains k = .ok true := by
  obtain ⟨l, h1, _, h2, h3, h4⟩ := intersection_spec (ha.wf hS) (hb.wf hS)
  refine ⟨l, h1, h2, h3, fun k => ?_⟩
  have := h4 k
  rw [Bool.eq_iff_iff, any_iff] at this
  rw [contains_eq (ha.wf hS), contains_eq (hb.wf hS)]
  simpa [OpsLaws.mem, RangeInclusive.laws] using this

example : calls Intersection.next 4 (Demo.iset.intersection Demo.iset') =
    [some (Demo.by8 1 2), some (Demo.by8 22 23), some (Demo.by8 39 49), none] := by
  simp [calls, Intersection.next, Intersection.nextLoop, RangeIntersect.intersect,
    RangeInclusive.intersect, RangeOrder.orderEnd, kcmp, Ordering.isLT, rmax, rmin,
    RangeInclusiveSet.intersection, Demo.iset, Demo.iset', RangeInclusiveSet.iter,
    RangeInclusiveMap.iter, Demo.by8, RangeInclusive.mk', UIntW.lt_def]

/-! ## C39 -/

/-- **C39** `|` never panics and is set union. -/
theorem C39_bitor (hS : LawfulSteps S) {a b : RangeInclusiveSet K} (ha : Reachable S a)
    (hb : Reachable S b) :
    ∃ c, a.bitOr S b = .ok c ∧ Reachable S c ∧ ∀ k, ∃ x y, a.contains k = .ok x ∧
      b.contains k = .ok y ∧ c.contains k = .ok (x || y) := by
  obtain ⟨c, h1, h2, h3⟩ := bitOr_spec hS (ha.wf hS) (hb.wf hS)
  refine ⟨c, h1, .of_wf hS h2,
    fun k => ⟨_, _, contains_eq (ha.wf hS) k, contains_eq (hb.wf hS) k, ?_⟩⟩
  rw [contains_eq h2, h3]

example := Inclusive.C39_bitor (K := UIntW 8) (S := Demo.u8) Demo.u8_lawful (a := Demo.iset)
    (b := Demo.iset') Demo.iset_reachable Demo.iset'_reachable

/-- **C39** `&` never panics, is set intersection, and holds exactly the ranges that
`intersection` yields. -/
theorem C39_bitand (hS : LawfulSteps S) {a b : RangeInclusiveSet K} (ha : Reachable S a)
    (hb : Reachable S b) :
    ∃ c, a.bitAnd S b = .ok c ∧ Reachable S c ∧
      Yields Intersection.next (a.intersection b) c.iter ∧
      ∀ k, ∃ x y, a.contains k = .ok x ∧
      b.contains k = .ok y ∧ c.contains k = .ok (x && y) := by
  obtain ⟨c, h1, h2, h3, h4⟩ := bitAnd_spec hS (ha.wf hS) (hb.wf hS)
  refine ⟨c, h1, .of_wf hS h2, h3,
    fun k => ⟨_, _, contains_eq (ha.wf hS) k, contains_eq (hb.wf hS) k, ?_⟩⟩
  rw [contains_eq h2, h4]

example := Inclusive.C39_bitand (K := UIntW 8) (S := Demo.u8) Demo.u8_lawful (a := Demo.iset)
    (b := Demo.iset') Demo.iset_reachable Demo.iset'_reachable

theorem or_has (hS : LawfulSteps S) {a b c : RangeInclusiveSet K} (ha : Reachable S a)
    (hb : Reachable S b) (h : a.bitOr S b = .ok c) :
    Reachable S c ∧ ∀ k, c.has k = (a.has k || b.has k) := by
  obtain ⟨c', h1, h2, h3⟩ := bitOr_spec hS (ha.wf hS) (hb.wf hS)
  rw [h] at h1
  cases h1
  exact ⟨.of_wf hS h2, h3⟩

theorem and_has (hS : LawfulSteps S) {a b c : RangeInclusiveSet K} (ha : Reachable S a)
    (hb : Reachable S b) (h : a.bitAnd S b = .ok c) :
    Reachable S c ∧ ∀ k, c.has k = (a.has k && b.has k) := by
  obtain ⟨c', h1, h2, _, h3⟩ := bitAnd_spec hS (ha.wf hS) (hb.wf hS)
  rw [h] at h1
  cases h1
  exact ⟨.of_wf hS h2, h3⟩

theorem eq_has (hS : LawfulSteps S) {a b : RangeInclusiveSet K} (ha : Reachable S a)
    (hb : Reachable S b) (h : ∀ k, a.has k = b.has k) : a.eq b = true :=
  (eq_iff_has hS (ha.wf hS) (hb.wf hS)).2 h

/-- **C39** `|` is commutative, associative and idempotent up to `==`. -/
theorem C39_or_laws (hS : LawfulSteps S) {a b c ab ba ab_c bc a_bc aa : RangeInclusiveSet K}
    (ha : Reachable S a) (hb : Reachable S b) (hc : Reachable S c)
    (h1 : a.bitOr S b = .ok ab) (h2 : b.bitOr S a = .ok ba) (h3 : ab.bitOr S c = .ok ab_c)
    (h4 : b.bitOr S c = .ok bc) (h5 : a.bitOr S bc = .ok a_bc) (h6 : a.bitOr S a = .ok aa) :
    ab.eq ba = true ∧ ab_c.eq a_bc = true ∧ aa.eq a = true := by
  obtain ⟨r1, e1⟩ := or_has hS ha hb h1
  obtain ⟨r2, e2⟩ := or_has hS hb ha h2
  obtain ⟨r3, e3⟩ := or_has hS r1 hc h3
  obtain ⟨r4, e4⟩ := or_has hS hb hc h4
  obtain ⟨r5, e5⟩ := or_has hS ha r4 h5
  obtain ⟨r6, e6⟩ := or_has hS ha ha h6
  refine ⟨eq_has hS r1 r2 fun k => ?_, eq_has hS r3 r5 fun k => ?_, eq_has hS r6 ha fun k => ?_⟩
  · rw [e1, e2, Bool.or_comm]
  · rw [e3, e1, e5, e4, Bool.or_assoc]
  · rw [e6, Bool.or_self]

example := Inclusive.C39_or_laws Demo.u8_lawful Demo.iset_reachable Demo.iset'_reachable
    Demo.iset_reachable
  (Inclusive.C39_bitor Demo.u8_lawful Demo.iset_reachable Demo.iset'_reachable).choose_spec.1
  (Inclusive.C39_bitor Demo.u8_lawful Demo.iset'_reachable Demo.iset_reachable).choose_spec.1
  (Inclusive.C39_bitor Demo.u8_lawful (Inclusive.C39_bitor Demo.u8_lawful Demo.iset_reachable
    Demo.iset'_reachable).choose_spec.2.1 Demo.iset_reachable).choose_spec.1
  (Inclusive.C39_bitor Demo.u8_lawful Demo.iset'_reachable Demo.iset_reachable).choose_spec.1
  (Inclusive.C39_bitor Demo.u8_lawful Demo.iset_reachable
    (Inclusive.C39_bitor Demo.u8_lawful Demo.iset'_reachable
    Demo.iset_reachable).choose_spec.2.1).choose_spec.1
  (Inclusive.C39_bitor Demo.u8_lawful Demo.iset_reachable Demo.iset_reachable).choose_spec.1

/-- **C39** `&` is commutative, associative and idempotent up to `==`. -/
theorem C39_and_laws (hS : LawfulSteps S) {a b c ab ba ab_c bc a_bc aa : RangeInclusiveSet K}
    (ha : Reachable S a) (hb : Reachable S b) (hc : Reachable S c)
    (h1 : a.bitAnd S b = .ok ab) (h2 : b.bitAnd S a = .ok ba) (h3 : ab.bitAnd S c = .ok ab_c)
    (h4 : b.bitAnd S c = .ok bc) (h5 : a.bitAnd S bc = .ok a_bc) (h6 : a.bitAnd S a = .ok aa) :
    ab.eq ba = true ∧ ab_c.eq a_bc = true ∧ aa.eq a = true := by
  obtain ⟨r1, e1⟩ := and_has hS ha hb h1
  obtain ⟨r2, e2⟩ := and_has hS hb ha h2
  obtain ⟨r3, e3⟩ := and_has hS r1 hc h3
  obtain ⟨r4, e4⟩ := and_has hS hb hc h4
  obtain ⟨r5, e5⟩ := and_has hS ha r4 h5
  obtain ⟨r6, e6⟩ := and_has hS ha ha h6
  refine ⟨eq_has hS r1 r2 fun k => ?_, eq_has hS r3 r5 fun k => ?_, eq_has hS r6 ha fun k => ?_⟩
  · rw [e1, e2, Bool.and_comm]
  · rw [e3, e1, e5, e4, Bool.and_assoc]
  · rw [e6, Bool.and_self]

example := Inclusive.C39_and_laws Demo.u8_lawful Demo.iset_reachable Demo.iset'_reachable
    Demo.iset_reachable
  (Inclusive.C39_bitand Demo.u8_lawful Demo.iset_reachable Demo.iset'_reachable).choose_spec.1
  (Inclusive.C39_bitand Demo.u8_lawful Demo.iset'_reachable Demo.iset_reachable).choose_spec.1
  (Inclusive.C39_bitand Demo.u8_lawful (Inclusive.C39_bitand Demo.u8_lawful Demo.iset_reachable
    Demo.iset'_reachable).choose_spec.2.1 Demo.iset_reachable).choose_spec.1
  (Inclusive.C39_bitand Demo.u8_lawful Demo.iset'_reachable Demo.iset_reachable).choose_spec.1
  (Inclusive.C39_bitand Demo.u8_lawful Demo.iset_reachable
    (Inclusive.C39_bitand Demo.u8_lawful Demo.iset'_reachable
    Demo.iset_reachable).choose_spec.2.1).choose_spec.1
  (Inclusive.C39_bitand Demo.u8_lawful Demo.iset_reachable Demo.iset_reachable).choose_spec.1

/-- **C39** Absorption: `a | (a & b) == a` and `a & (a | b) == a`. -/
theorem C39_absorption (hS : LawfulSteps S) {a b ab x ab' y : RangeInclusiveSet K}
    (ha : Reachable S a) (hb : Reachable S b)
    (h1 : a.bitAnd S b = .ok ab) (h2 : a.bitOr S ab = .ok x)
    (h3 : a.bitOr S b = .ok ab') (h4 : a.bitAnd S ab' = .ok y) :
    x.eq a = true ∧ y.eq a = true := by
  obtain ⟨r1, e1⟩ := and_has hS ha hb h1
  obtain ⟨r2, e2⟩ := or_has hS ha r1 h2
  obtain ⟨r3, e3⟩ := or_has hS ha hb h3
  obtain ⟨r4, e4⟩ := and_has hS ha r3 h4
  refine ⟨eq_has hS r2 ha fun k => ?_, eq_has hS r4 ha fun k => ?_⟩
  · rw [e2, e1]; cases a.has k <;> simp
  · rw [e4, e3]; cases a.has k <;> simp

example := Inclusive.C39_absorption Demo.u8_lawful Demo.iset_reachable Demo.iset'_reachable
  (Inclusive.C39_bitand Demo.u8_lawful Demo.iset_reachable Demo.iset'_reachable).choose_spec.1
  (Inclusive.C39_bitor Demo.u8_lawful Demo.iset_reachable
    (Inclusive.C39_bitand Demo.u8_lawful Demo.iset_reachable
    Demo.iset'_reachable).choose_spec.2.1).choose_spec.1
  (Inclusive.C39_bitor Demo.u8_lawful Demo.iset_reachable Demo.iset'_reachable).choose_spec.1
  (Inclusive.C39_bitand Demo.u8_lawful Demo.iset_reachable
    (Inclusive.C39_bitor Demo.u8_lawful Demo.iset_reachable
    Demo.iset'_reachable).choose_spec.2.1).choose_spec.1

/-- **C39** Distributivity: `a & (b | c) == (a & b) | (a & c)` and dually. -/
theorem C39_distributivity (hS : LawfulSteps S)
    {a b c bc x ab ac y bc' x' ab' ac' y' : RangeInclusiveSet K}
    (ha : Reachable S a) (hb : Reachable S b) (hc : Reachable S c)
    (h1 : b.bitOr S c = .ok bc) (h2 : a.bitAnd S bc = .ok x)
    (h3 : a.bitAnd S b = .ok ab) (h4 : a.bitAnd S c = .ok ac) (h5 : ab.bitOr S ac = .ok y)
    (h1' : b.bitAnd S c = .ok bc') (h2' : a.bitOr S bc' = .ok x')
    (h3' : a.bitOr S b = .ok ab') (h4' : a.bitOr S c = .ok ac') (h5' : ab'.bitAnd S ac' = .ok y') :
    x.eq y = true ∧ x'.eq y' = true := by
  obtain ⟨r1, e1⟩ := or_has hS hb hc h1
  obtain ⟨r2, e2⟩ := and_has hS ha r1 h2
  obtain ⟨r3, e3⟩ := and_has hS ha hb h3
  obtain ⟨r4, e4⟩ := and_has hS ha hc h4
  obtain ⟨r5, e5⟩ := or_has hS r3 r4 h5
  obtain ⟨r1', e1'⟩ := and_has hS hb hc h1'
  obtain ⟨r2', e2'⟩ := or_has hS ha r1' h2'
  obtain ⟨r3', e3'⟩ := or_has hS ha hb h3'
  obtain ⟨r4', e4'⟩ := or_has hS ha hc h4'
  obtain ⟨r5', e5'⟩ := and_has hS r3' r4' h5'
  refine ⟨eq_has hS r2 r5 fun k => ?_, eq_has hS r2' r5' fun k => ?_⟩
  · rw [e2, e1, e5, e3, e4]; cases a.has k <;> simp
  · rw [e2', e1', e5', e3', e4']; cases a.has k <;> simp

-- `|` coalesces what `union` leaves adjacent
example : ∃ c, Demo.iset.bitOr Demo.u8 Demo.iset' = .ok c ∧
    c.iter = [Demo.by8 0 3, Demo.by8 5 255] := by
  refine ⟨⟨⟨[(Demo.by8 0 3, ()), (Demo.by8 5 255, ())]⟩⟩, ?_, rfl⟩
  rw [bitOr]
  simp only [Demo.iset, Demo.iset', RangeInclusiveSet.len, RangeInclusiveMap.len,
    List.length_cons, List.length_nil]
  simp [drain, Union.next, Union.first, Union.mergeLoop, Union.join, RangeMerge.merge,
      RangeInclusive.merge, RangeOrder.orderStart, kcmp, Ordering.isLT, RangeInclusive.contains,
      RangeInclusiveSet.union, RangeInclusiveSet.iter, RangeInclusiveMap.iter, Except.map,
      Demo.by8, RangeInclusive.mk', UIntW.le_def, UIntW.lt_def]
  rfl

/-! ## C48: the set's iterators and accessors -/

/-- **C48** `iter()`/`into_iter()` behave as a double-ended queue of the stored ranges, with an
exact size hint. -/
theorem C48_iter (s : RangeInclusiveSet K) (cs : List End) :
    script RangeInclusiveSet.Iter.next RangeInclusiveSet.Iter.nextBack cs s.iterator =
      dequeScript cs s.iter ∧
    s.iterator.sizeHint = (s.len, some s.len) ∧ s.len = s.iter.length ∧
    (s.isEmpty = true ↔ s.iter = []) ∧ s.first = s.iter.head? ∧ s.last = s.iter.getLast? := by
  refine ⟨?_, (C46_size_hint s.rm s.rm.iterator).1, by simp [RangeInclusiveSet.iter,
    RangeInclusiveSet.len, RangeInclusiveMap.iter, RangeInclusiveMap.len],
    by simp [RangeInclusiveSet.isEmpty, RangeInclusiveMap.isEmpty, RangeInclusiveSet.iter,
    RangeInclusiveMap.iter], ?_, ?_⟩
  · rw [RangeInclusiveSet.iter, dequeScript_map, ← C46_iter_double_ended s.rm cs]
    exact script_wrap RangeInclusiveSet.Iter.mk (fun e : RangeInclusive K × Unit => e.1)
      (next' := RangeInclusiveSet.Iter.next) (back' := RangeInclusiveSet.Iter.nextBack)
      (next := RangeInclusiveMap.Iter.next) (back := RangeInclusiveMap.Iter.nextBack)
      (fun _ => rfl) (fun _ => rfl) cs s.rm.iterator
  · simp [RangeInclusiveSet.first, RangeInclusiveMap.firstRangeValue, RangeInclusiveSet.iter,
      RangeInclusiveMap.iter]
  · simp [RangeInclusiveSet.last, RangeInclusiveMap.lastRangeValue, RangeInclusiveSet.iter,
      RangeInclusiveMap.iter]

example := Inclusive.C48_iter (K := UIntW 8) Demo.iset [.back, .front, .front]

/-- **C48** `overlapping(q)`: for any interleaving of `next` and `next_back`, a double-ended queue
of exactly the stored ranges overlapping `q`; `overlaps(q)` iff there is one. -/
theorem C48_overlapping (hS : LawfulSteps S) {s : RangeInclusiveSet K} (hs : ReachableAny S s)
    (q : RangeInclusive K) (cs : List End) :
    ∃ o, s.overlapping q = .ok o ∧ script RangeInclusiveSet.Overlapping.next
      RangeInclusiveSet.Overlapping.nextBack cs o = dequeScript cs
        (s.iter.filter fun r => decide (q.start ≤ r.stop) && decide (r.start ≤ q.stop)) ∧
      ∃ b, s.overlaps q = .ok b ∧
        (b = true ↔ ∃ r ∈ s.iter, q.start ≤ r.stop ∧ r.start ≤ q.stop) := by
  obtain ⟨o, h1, h2⟩ := C14_overlapping_double_ended_inclusive hS hs.map q cs
  obtain ⟨o', h1', h2'⟩ := C14_overlapping_double_ended_inclusive hS hs.map q [.front]
  rw [h1] at h1'
  cases h1'
  have h3 := script_wrap RangeInclusiveSet.Overlapping.mk (·.1)
    (next := RangeInclusiveMap.Overlapping.next) (back := RangeInclusiveMap.Overlapping.nextBack)
    (next' := RangeInclusiveSet.Overlapping.next)
    (back' := RangeInclusiveSet.Overlapping.nextBack) (fun _ => rfl) (fun _ => rfl) cs o
  have ho : s.overlapping q = .ok ⟨o⟩ := by rw [RangeInclusiveSet.overlapping, h1]; rfl
  refine ⟨⟨o⟩, ho, ?_, ?_⟩
  · rw [h3, h2, ← dequeScript_map, RangeInclusiveSet.iter, List.filter_map]
    rfl
  · refine ⟨_, by rw [RangeInclusiveSet.overlaps, ho]; rfl, ?_⟩
    simp only [script, dequeScript, List.cons.injEq, and_true] at h2'
    show ((RangeInclusiveMap.Overlapping.next o).1.map (·.1)).isSome = true ↔ _
    rw [h2', Option.isSome_map, List.isSome_head?]
    simp [RangeInclusiveSet.iter]

example := Inclusive.C48_overlapping (K := UIntW 8) (S := Demo.u8) Demo.u8_lawful
    (s := Demo.iset) Demo.iset_reachable.any (Demo.by8 2 22) [.back, .front, .front]

/-- **C48** `gaps(outer)` yields non-empty ranges within `outer` in increasing order, separated by
keys of the set, covering exactly the keys of `outer` that are not in the set, and then `None`
forever, without any call panicking. -/
theorem C48_gaps (hS : LawfulSteps S) {s : RangeInclusiveSet K} (hs : Reachable S s)
    (outer : RangeInclusive K) :
    ∃ g l, s.gaps outer = .ok g ∧ YieldsE (RangeInclusiveSet.Gaps.next S) g l ∧
      (∀ r ∈ l, r.start ≤ r.stop ∧ r.exhausted = false ∧ outer.start ≤ r.start ∧
        r.stop ≤ outer.stop) ∧
      l.Pairwise (fun r r' => r.stop < r'.start ∧ ¬ Next r.stop r'.start) ∧
      ∀ k, (∃ r ∈ l, r.start ≤ k ∧ k ≤ r.stop) ↔
        outer.start ≤ k ∧ k ≤ outer.stop ∧ s.contains k = .ok false := by
  obtain ⟨g, l, h1, h2, h3⟩ := C31_gaps_exact hS hs.map outer
  obtain ⟨g', l', h1', h2', h3', h4'⟩ := C31_gaps_ordered hS hs.any.map outer
  rw [h1] at h1'
  cases h1'
  have : l = l' := Verif.YieldsE.unique h2 h2'
  subst this
  refine ⟨⟨g⟩, l, by rw [RangeInclusiveSet.gaps, h1]; rfl, ?_, h3', h4'.imp ?_, fun k => ?_⟩
  · have := YieldsE.wrap RangeInclusiveSet.Gaps.mk id
      (next' := RangeInclusiveSet.Gaps.next S) (fun s => by
        simp only [RangeInclusiveSet.Gaps.next]
        cases RangeInclusiveMap.Gaps.next S s <;> simp [bind, Except.bind, Except.map, pure,
          Except.pure]) h2
    rwa [List.map_id] at this
  · rintro a b ⟨e, _, x1, x2, x3⟩
    have := x1.1
    exact ⟨by grind, fun hn => by have := hn.2 e.1.start; grind⟩
  · rw [h3]
    have : s.rm.get k = .ok none ↔ s.contains k = .ok false := by
      obtain ⟨o, _, p1, p2⟩ := C30_projections s.rm k
      rw [RangeInclusiveSet.contains, p1, p2]
      cases o <;> simp
    rw [this]

example : ∃ g, Demo.iset.gaps (Demo.by8 1 45) = .ok g ∧
    (callsE (RangeInclusiveSet.Gaps.next Demo.u8) 3 g).toOption =
      some [some (Demo.by8 3 4), some (Demo.by8 15 19), none] := ⟨_, rfl, rfl⟩
example : ∃ o, Demo.iset.overlapping (Demo.by8 2 5) = .ok o ∧
    calls RangeInclusiveSet.Overlapping.next 3 o =
      [some (Demo.by8 0 2), some (Demo.by8 5 14), none] := ⟨_, rfl, rfl⟩

/-! ## C49: construction and serde of sets -/

/-- **C49** `from_iter`, `From<[_; N]>` and the macro agree; they panic iff some range is inverted,
and otherwise give the set of all covered keys. -/
theorem C49_from_iter (hS : LawfulSteps S) (items : List (RangeInclusive K)) :
    fromIter S items = fromArray S items ∧
    ((∃ p, fromIter S items = .error p) ↔ ∃ r ∈ items, r.stop < r.start) ∧
    ((∀ r ∈ items, r.exhausted = false) →
      ∀ s, fromIter S items = .ok s → Reachable S s ∧ ∀ k, s.contains k =
      .ok (items.any fun r => decide (r.start ≤ k ∧ k ≤ r.stop))) := by
  have hfold : ∀ (items : List (RangeInclusive K)) (s : RangeInclusiveSet K),
      items.foldlM (fun s r => s.insert S r) s =
        (s.extend S items).2.map (fun _ => (s.extend S items).1) := by
    intro items
    induction items with
    | nil => intro s; rfl
    | cons r t ih =>
      intro s
      rw [List.foldlM_cons, RangeInclusiveSet.extend]
      cases h : s.insert S r with
      | error p => rfl
      | ok s' =>
        simp only [bind, Except.bind]
        exact ih s'
  have hpan := C19_extend_panics_iff hS (m := RangeInclusiveMap.new)
    (RangeInclusiveMap.Reachable.new (S := S)).any (items.map fun r => (r, ()))
  refine ⟨by rw [fromArray, hfold]; rfl, ?_, ?_⟩
  · rw [fromIter, extend_rm]
    constructor
    · rintro ⟨p, hp⟩
      have : ∃ p, (RangeInclusiveMap.new.extend S (items.map fun r => (r, ()))).2 = .error p := by
        refine ⟨p, ?_⟩
        revert hp
        generalize hq : (RangeInclusiveMap.new.extend S (items.map fun r => (r, ()))).2 = q
        rw [show (new : RangeInclusiveSet K).rm = RangeInclusiveMap.new from rfl, hq]
        cases q <;> simp [Except.map]
      obtain ⟨e, he, h⟩ := hpan.1 this
      obtain ⟨r, hr, rfl⟩ := List.mem_map.1 he
      exact ⟨r, hr, h⟩
    · rintro ⟨r, hr, h⟩
      obtain ⟨p, hp⟩ := hpan.2 ⟨(r, ()), List.mem_map.2 ⟨r, hr, rfl⟩, h⟩
      refine ⟨p, ?_⟩
      rw [show (new : RangeInclusiveSet K).rm = RangeInclusiveMap.new from rfl, hp]
      rfl
  · intro hx s hs
    have hv : ∀ r ∈ items, r.start ≤ r.stop := by
      intro r hr
      apply Decidable.byContradiction
      intro hn
      obtain ⟨p, hp⟩ := hpan.2 ⟨(r, ()), List.mem_map.2 ⟨r, hr, rfl⟩, by grind⟩
      rw [fromIter, extend_rm, show (new : RangeInclusiveSet K).rm = RangeInclusiveMap.new from rfl,
        hp] at hs
      cases hs
    obtain ⟨s', h1, h2, h3⟩ := fromIter_has hS fun r hr => ⟨hv r hr, hx r hr⟩
    rw [hs] at h1
    cases h1
    refine ⟨.of_wf hS h2, fun k => ?_⟩
    rw [contains_eq h2, h3]
    rfl

example := Inclusive.C49_from_iter (K := UIntW 8) (S := Demo.u8) Demo.u8_lawful
    [Demo.by8 2 9, Demo.by8 20 22]

theorem set_visitSeq {E : Type} (items : List (RangeInclusive K))
    (hx : ∀ r ∈ items, r.exhausted = false) : ∀ s : RangeInclusiveSet K,
    visitSeq (E := E) S s (items.map fun r => .ok (r.start, r.stop)) =
      match (s.extend S items).2 with
      | .ok () => .ok (s.extend S items).1
      | .error p => .error (.panic p) := by
  induction items with
  | nil => intro s; rfl
  | cons r t ih =>
    intro s
    have hr : RangeInclusive.mk' r.start r.stop = r := by
      have := hx r (by simp)
      cases r
      simp_all [RangeInclusive.mk']
    rw [List.map_cons, visitSeq, RangeInclusiveSet.extend, hr]
    cases h : s.insert S r with
    | error p => rfl
    | ok s' => exact ih (fun x h => hx x (by simp [h])) s'

/-- **C49** Deserialising the serialised form of a set gives back exactly that set, and the
declared length is right. -/
theorem C49_serde_round_trip (hS : LawfulSteps S) {E : Type} {s : RangeInclusiveSet K}
    (hs : Reachable S s) :
    deserialize (E := E) S (s.serialize.2.map .ok) = .ok s ∧
      s.serialize.1 = some s.serialize.2.length := by
  refine ⟨?_, by simp [RangeInclusiveSet.serialize, RangeInclusiveSet.iter,
    RangeInclusiveMap.iter]⟩
  obtain ⟨h1, h2⟩ := (reachable_iff hS s).1 hs
  have h := set_visitSeq (E := E) (S := S) s.iter (fun r hr => (h1 r hr).2) new
  have h3 := RangeInclusiveMap.extend_rest hS s.rm.btm [] (by simpa using (hs.wf hS).sc)
  have h4 : (s.iter.map fun r => (r, ())) = s.rm.btm := by
    simp only [RangeInclusiveSet.iter, RangeInclusiveMap.iter, List.map_map]
    exact List.map_id _
  rw [extend_rm, h4, show (new : RangeInclusiveSet K).rm = ⟨[]⟩ from rfl, h3] at h
  rw [deserialize, RangeInclusiveSet.serialize, List.map_map]
  exact h

example := Inclusive.C49_serde_round_trip (K := UIntW 8) (S := Demo.u8) Demo.u8_lawful
    (E := String) (s := Demo.iset) Demo.iset_reachable

/-- **C49** Whatever a deserialiser delivers, `deserialize` yields
- the set that collecting the delivered ranges gives, when the deserialiser delivers no error and
  all ranges are valid;
- the deserialiser's error, if that comes before any invalid range;
- a panic exactly when an inverted range comes first. -/
theorem C49_deserialize_any (hS : LawfulSteps S) {E : Type} (access : List (Except E (K × K))) :
    (∃ items : List (RangeInclusive K), (∀ r ∈ items, r.start ≤ r.stop ∧ r.exhausted = false) ∧
      access = items.map (fun r => .ok (r.start, r.stop)) ∧
      ∃ s, deserialize S access = .ok s ∧ Reachable S s ∧ fromIter S items = .ok s) ∨
    (∃ items : List (RangeInclusive K), (∀ r ∈ items, r.start ≤ r.stop ∧ r.exhausted = false) ∧
      ∃ e rest, access = items.map (fun r => .ok (r.start, r.stop)) ++ .error e :: rest ∧
      deserialize S access = .error (.de e)) ∨
    (∃ items : List (RangeInclusive K), (∀ r ∈ items, r.start ≤ r.stop ∧ r.exhausted = false) ∧
      ∃ a b rest, b < a ∧
      access = items.map (fun r => .ok (r.start, r.stop)) ++ .ok (a, b) :: rest ∧
      deserialize S access = .error (.panic .assertFailed)) := by
  suffices H : ∀ (s : RangeInclusiveSet K), Reachable S s →
      (∃ items : List (RangeInclusive K), (∀ r ∈ items, r.start ≤ r.stop ∧ r.exhausted = false) ∧
        access = items.map (fun r => .ok (r.start, r.stop)) ∧
        ∃ s', visitSeq S s access = .ok s' ∧ Reachable S s' ∧ s.extend S items = (s', .ok ())) ∨
      (∃ items : List (RangeInclusive K), (∀ r ∈ items, r.start ≤ r.stop ∧ r.exhausted = false) ∧
        ∃ e rest, access = items.map (fun r => .ok (r.start, r.stop)) ++ .error e :: rest ∧
        visitSeq S s access = .error (.de e)) ∨
      (∃ items : List (RangeInclusive K), (∀ r ∈ items, r.start ≤ r.stop ∧ r.exhausted = false) ∧
        ∃ a b rest, b < a ∧
        access = items.map (fun r => .ok (r.start, r.stop)) ++ .ok (a, b) :: rest ∧
        visitSeq S s access = .error (.panic .assertFailed)) by
    rcases H new ⟨[], by simp, rfl⟩ with ⟨items, h1, h2, s, h3, h4, h5⟩ | h | h
    · exact Or.inl ⟨items, h1, h2, s, h3, h4, by simp [fromIter, h5, Except.map]⟩
    · exact Or.inr (Or.inl h)
    · exact Or.inr (Or.inr h)
  induction access with
  | nil => intro s hs; exact Or.inl ⟨[], by simp, rfl, s, rfl, hs, rfl⟩
  | cons x access ih =>
    intro s hs
    match x with
    | .error e => exact Or.inr (Or.inl ⟨[], by simp, e, access, rfl, rfl⟩)
    | .ok (a, b) =>
      by_cases hab : a ≤ b
      · obtain ⟨s', h⟩ := insert_ok hS (hs.wf hS).sc (r := .mk' a b) hab
        have hv : ∀ l : List (RangeInclusive K),
            (∀ r ∈ l, r.start ≤ r.stop ∧ r.exhausted = false) →
            ∀ r ∈ RangeInclusive.mk' a b :: l, r.start ≤ r.stop ∧ r.exhausted = false := by
          intro l hl r hr
          rcases List.mem_cons.1 hr with rfl | hr
          · exact ⟨hab, rfl⟩
          · exact hl r hr
        rw [visitSeq, h]
        rcases ih s' (hs.insert hS rfl h) with ⟨items, h1, h2, s'', h3, h4, h5⟩ |
            ⟨items, h1, e, rest, h2, h3⟩ | ⟨items, h1, a', b', rest, h2, h3, h4⟩
        · exact Or.inl ⟨.mk' a b :: items, hv _ h1, by rw [h2]; rfl, s'', h3, h4,
            by rw [RangeInclusiveSet.extend, h]; exact h5⟩
        · exact Or.inr (Or.inl ⟨.mk' a b :: items, hv _ h1, e, rest, by rw [h2]; rfl, h3⟩)
        · exact Or.inr (Or.inr ⟨.mk' a b :: items, hv _ h1, a', b', rest, h2, by rw [h3]; rfl, h4⟩)
      · refine Or.inr (Or.inr ⟨[], by simp, a, b, access, by grind, rfl, ?_⟩)
        have : s.insert S (.mk' a b) = .error .assertFailed := by
          rw [insert_rm, RangeInclusiveMap.insert_invalid (r := .mk' a b) hab]; rfl
        rw [visitSeq, this]

example : (deserialize (E := String) Demo.u8 (Demo.iset.serialize.2.map .ok)).toOption.map
    (·.iter) = some Demo.iset.iter ∧ Demo.iset.serialize.2 =
      [(⟨0⟩, ⟨2⟩), (⟨5⟩, ⟨14⟩), (⟨20⟩, ⟨255⟩)] := ⟨by rfl, by rfl⟩
example : (fromIter Demo.u8 [Demo.by8 5 9, Demo.by8 0 4, Demo.by8 12 13]).toOption.map (·.iter) =
    some [Demo.by8 0 9, Demo.by8 12 13] := by rfl

/-! ## C50: comparison traits of sets -/

/-- **C50** `==` on sets is an equivalence, `cmp` is a total order, `partial_cmp` is `Some(cmp)`,
and equal sets hash the same. -/
theorem C50_comparison (s s' s'' : RangeInclusiveSet K) :
    s.eq s = true ∧ (s.eq s' = true → s'.eq s = true) ∧
    (s.eq s' = true → s'.eq s'' = true → s.eq s'' = true) ∧
    s'.cmp s = (s.cmp s').swap ∧
    (s.cmp s' ≠ .gt → s'.cmp s'' ≠ .gt → s.cmp s'' ≠ .gt) ∧
    s.partialCmp s' = some (s.cmp s') ∧
    ∀ (H : Type) (hk : K → List H), (∀ a b, keq a b = true → hk a = hk b) →
      s.eq s' = true → s.hash hk = s'.hash hk := by
  obtain ⟨h1, h2, h3⟩ := C17_eq_equivalence (m := s.rm) (m' := s'.rm) (m'' := s''.rm)
  obtain ⟨h4, h5⟩ := C18_cmp_total (vcmp := fun _ _ => .eq) (fun _ _ => rfl)
    (fun _ _ _ _ _ => by simp) s.rm s'.rm s''.rm
  exact ⟨h3, h1, h2, h4, h5, C18_partial_cmp (fun _ _ => .eq) s.rm s'.rm,
    fun H hk hkc h => C17_hash_eq hkc (fun _ _ _ => rfl) h⟩

example := Inclusive.C50_comparison (K := UIntW 8) Demo.iset Demo.iset' Demo.iset'

/-- **C50** `cmp` returns `Equal` exactly when `==`, for histories without `exhausted` ranges. -/
theorem C50_cmp_eq_iff (hS : LawfulSteps S) {s s' : RangeInclusiveSet K} (hs : Reachable S s)
    (hs' : Reachable S s') : s.cmp s' = .eq ↔ s.eq s' = true :=
  C18_cmp_eq_iff hS (fun _ _ => by simp) hs.map hs'.map

example : Demo.iset.cmp Demo.iset' = .lt ∧ Demo.iset.eq Demo.iset' = false ∧
    Demo.iset.partialCmp Demo.iset = some .eq := by decide


-- `20..=255` within which `25..=255` lies
example : (Demo.by8 20 255).start ≤ (Demo.by8 25 255).start ∧
    (Demo.by8 25 255).stop ≤ (Demo.by8 20 255).stop :=
  C36_get_maximal (k := ⟨30⟩) Demo.u8_lawful Demo.iset_reachable rfl (by decide) (by decide)
    (fun j h1 h2 => Demo.ok_of (Demo.forall8 (P := fun j => (Demo.by8 25 255).start ≤ j →
      j ≤ (Demo.by8 25 255).stop → (Demo.iset.contains j).toOption = some true)
      (by decide +kernel) j h1 h2))

end Verif.Props.Inclusive

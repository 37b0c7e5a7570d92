import Verif.Proof.Set
import Verif.Props.Iter
import Verif.Props.Build
import Verif.Props.Demo

/-!
# `RangeSet`: C35, C37, C38, C39 (and C14–C20 for sets: C48–C50)
-/
set_option linter.unusedSectionVars false

namespace Verif.Props
open RangeSet Spec
open RangeMap (DeError)
variable {K : Type} [LE K] [LT K] [DecidableLE K] [DecidableLT K]
  [Std.IsLinearPreorder K] [Std.LawfulOrderLT K]

/-! ## C35 -/

/-- **C35** A valid insert adds exactly the keys of the range. -/
theorem C35_insert {s : RangeSet K} (hs : Reachable s) {r : Range K} (hr : r.start < r.stop) :
    ∃ s', s.insert r = .ok s' ∧ Reachable s' ∧ ∀ k, ∃ b, s.contains k = .ok b ∧
      s'.contains k = .ok (decide (r.start ≤ k ∧ k < r.stop) || b) := by
  obtain ⟨s', h⟩ := insert_ok hs.wf hr
  refine ⟨s', h, hs.insert h, fun k => ⟨_, contains_eq hs.wf k, ?_⟩⟩
  rw [contains_eq (hs.insert h).wf, (insert_has hs.wf h k).2.2]
  rfl

example := C35_insert (K := Nat) (s := Demo.set) Demo.set_reachable (r := ⟨2, 22⟩) (by decide)

/-- **C35** A valid remove erases exactly the keys of the range. -/
theorem C35_remove {s : RangeSet K} (hs : Reachable s) {r : Range K} (hr : r.start < r.stop) :
    ∃ s', s.remove r = .ok s' ∧ Reachable s' ∧ ∀ k, ∃ b, s.contains k = .ok b ∧
      s'.contains k = .ok (!decide (r.start ≤ k ∧ k < r.stop) && b) := by
  obtain ⟨s', h⟩ := remove_ok hs.wf hr
  refine ⟨s', h, hs.remove h, fun k => ⟨_, contains_eq hs.wf k, ?_⟩⟩
  rw [contains_eq (hs.remove h).wf, (remove_has hs.wf h k).2.2]
  rfl

example := C35_remove (K := Nat) (s := Demo.set) Demo.set_reachable (r := ⟨2, 22⟩) (by decide)

/-- **C35** After any history, `contains` is what the specification says. -/
theorem C35_refinement (ops : List (SetOp (Range K))) (k : K) :
    (run ops).contains k = .ok (member covers valid ops.reverse k) := by
  have hs : Reachable (run ops) := ⟨ops, rfl⟩
  rw [contains_eq hs.wf, has_look hs.wf, run_rm, ← lastWrite_member, List.map_reverse]
  have := RangeMap.run_look (ops.map setOpToOp) k
  rw [agree_unit] at this
  rw [this]

example := C35_refinement (K := Nat) Demo.sops 7

/-- **C35** `insert` and `remove` panic exactly on an empty or inverted range, and then leave the
set alone. -/
theorem C35_panics {s : RangeSet K} (hs : Reachable s) (r : Range K) :
    ((∃ p, s.insert r = .error p) ↔ r.stop ≤ r.start) ∧
    ((∃ p, s.remove r = .error p) ↔ r.stop ≤ r.start) ∧
    (r.stop ≤ r.start → s.apply (.insert r) = (s, .error .assertFailed) ∧
      s.apply (.remove r) = (s, .error .assertFailed)) := by
  by_cases hr : r.start < r.stop
  · obtain ⟨s1, h1⟩ := insert_ok hs.wf hr
    obtain ⟨s2, h2⟩ := remove_ok hs.wf hr
    have : ¬ r.stop ≤ r.start := by grind
    simp [h1, h2, this]
  · have h1 : s.insert r = .error .assertFailed := by
      rw [insert_rm, RangeMap.insert_invalid hr]; rfl
    have h2 : s.remove r = .error .assertFailed := by
      rw [remove_rm, RangeMap.remove_invalid hr]; rfl
    have : r.stop ≤ r.start := by grind
    simp [h1, h2, this, RangeSet.apply]

example := C35_panics (K := Nat) (s := Demo.set) Demo.set_reachable ⟨2, 22⟩

/-- **C35** `get(k)` returns the one stored range that contains `k`, and `None` iff there is
none. -/
theorem C35_get {s : RangeSet K} (hs : Reachable s) (k : K) :
    ∃ o, s.get k = .ok o ∧ s.contains k = .ok o.isSome ∧
      ∀ r, o = some r ↔ r ∈ s.iter ∧ r.start ≤ k ∧ k < r.stop := by
  obtain ⟨o, h1, h2, h3⟩ := C09_projections hs.map k
  refine ⟨o.map (·.1), by rw [RangeSet.get, h1]; rfl, by rw [contains, h3]; simp, fun r => ?_⟩
  have h4 := C09_get_key_value hs.map k (r, ())
  rw [h1] at h4
  simp only [Except.ok.injEq] at h4
  constructor
  · intro h
    obtain ⟨e, rfl, rfl⟩ := Option.map_eq_some_iff.1 h
    have := h4.1 rfl
    exact ⟨List.mem_map.2 ⟨_, this.1, rfl⟩, this.2⟩
  · rintro ⟨hr, hk⟩
    obtain ⟨e, he, rfl⟩ := List.mem_map.1 hr
    rw [h4.2 ⟨he, hk⟩]
    rfl

example := C35_get (K := Nat) (s := Demo.set) Demo.set_reachable 7

/-- **C35** Stored ranges are maximal: any range around `k` all of whose keys are in the set lies
within `get(k)`. -/
theorem C35_get_maximal {s : RangeSet K} (hs : Reachable s) {k : K} {r r' : Range K}
    (h : s.get k = .ok (some r)) (h1 : r'.start ≤ k) (h2 : k < r'.stop)
    (hall : ∀ j, r'.start ≤ j → j < r'.stop → s.contains j = .ok true) :
    r.start ≤ r'.start ∧ r'.stop ≤ r.stop := by
  obtain ⟨hne, hpw⟩ := (reachable_iff s).1 hs
  obtain ⟨o, g1, _, g2⟩ := C35_get hs k
  rw [h] at g1
  cases g1
  obtain ⟨m1, m2, m3⟩ := (g2 r).1 rfl
  have hmem : ∀ j, r'.start ≤ j → j < r'.stop → ∃ p ∈ s.iter, p.start ≤ j ∧ j < p.stop := by
    intro j hj1 hj2
    have := hall j hj1 hj2
    rw [contains_eq hs.wf] at this
    exact (has_iff s j).1 (by simpa using this)
  have htri := RangeMap.pw_tri hpw
  constructor
  · apply Decidable.byContradiction
    intro hlt
    obtain ⟨p, p1, p2, p3⟩ := hmem r'.start (by grind) (by grind)
    have t1 := htri p p1 r m1
    have := hne p p1
    obtain ⟨q, q1, q2, q3⟩ := hmem p.stop (by grind) (by grind)
    have t2 := htri p p1 q q1
    have := hne q q1
    grind
  · apply Decidable.byContradiction
    intro hlt
    obtain ⟨q, q1, q2, q3⟩ := hmem r.stop (by grind) (by grind)
    have t2 := htri r m1 q q1
    have := hne q q1
    grind

/-- **C35** The reachable sets are exactly the ordered lists of non-empty ranges that neither
overlap nor touch. -/
theorem C35_reachable_iff (s : RangeSet K) : Reachable s ↔
    (∀ r ∈ s.iter, r.start < r.stop) ∧ s.iter.Pairwise fun a b => a.stop < b.start :=
  reachable_iff s

example := C35_reachable_iff (K := Nat) Demo.set

/-- **C35** Two sets are `==` iff they contain the same keys. -/
theorem C35_eq_iff {s s' : RangeSet K} (hs : Reachable s) (hs' : Reachable s') :
    s.eq s' = true ↔ ∀ k, s.contains k = s'.contains k := by
  rw [eq_iff_has hs.wf hs'.wf]
  simp only [contains_eq hs.wf, contains_eq hs'.wf, Except.ok.injEq]

example : Reachable Demo.set ∧ 2 ≤ Demo.set.iter.length := ⟨Demo.set_reachable, by decide⟩
example : (Demo.set.get 7).toOption = some (some ⟨5, 15⟩) ∧
    (Demo.set.contains 3).toOption = some false ∧ (Demo.set.contains 39).toOption = some true :=
  ⟨by rfl, by rfl, by rfl⟩
-- touching ranges coalesce
example : (Demo.set.insert ⟨3, 5⟩).toOption.map (·.iter) = some [⟨0, 15⟩, ⟨20, 40⟩] := by rfl
example : member covers valid Demo.sops.reverse 12 = true ∧
    member covers valid Demo.sops.reverse 4 = false := by decide

/-! ## C37 -/

/-- **C37** `union(a, b)` yields non-empty ranges in increasing order, without overlaps, covering
exactly the keys in `a` or in `b`, and then `None` forever. -/
theorem C37_union {a b : RangeSet K} (ha : Reachable a) (hb : Reachable b) :
    ∃ l, Yields Union.next (a.union b) l ∧ (∀ r ∈ l, r.start < r.stop) ∧
      l.Pairwise (fun r r' => r.stop ≤ r'.start) ∧
      ∀ k, (∃ r ∈ l, r.start ≤ k ∧ k < r.stop) ↔
        a.contains k = .ok true ∨ b.contains k = .ok true := by
  obtain ⟨l, h1, _, h2, h3, h4⟩ := union_spec ha.wf hb.wf
  refine ⟨l, h1, h2, h3, fun k => ?_⟩
  have := h4 k
  rw [Bool.eq_iff_iff, any_iff] at this
  rw [contains_eq ha.wf, contains_eq hb.wf]
  simpa [OpsLaws.mem, Range.laws] using this

example : Yields Union.next (Demo.set.union Demo.set')
    [⟨0, 4⟩, ⟨5, 15⟩, ⟨15, 20⟩, ⟨20, 50⟩] := by
  obtain ⟨l, h, _, _⟩ := C37_union Demo.set_reachable Demo.set'_reachable
  have h5 := h 5
  have hl : l = [⟨0, 4⟩, ⟨5, 15⟩, ⟨15, 20⟩, ⟨20, 50⟩] := by
    simp [calls, Union.next, Union.first, Union.mergeLoop, Union.join, RangeMerge.merge,
      Range.merge, RangeOrder.orderStart, kcmp, Ordering.isLT, Range.contains, RangeSet.union,
      Demo.set, Demo.set', RangeSet.iter, RangeMap.iter] at h5
    rcases l with _ | ⟨x1, _ | ⟨x2, _ | ⟨x3, _ | ⟨x4, _ | ⟨x5, l⟩⟩⟩⟩⟩ <;>
      simp_all
  rwa [hl] at h

/-! ## C38 -/

/-- **C38** `intersection(a, b)` yields non-empty ranges in increasing order that neither overlap
nor touch, covering exactly the keys in both `a` and `b`, and then `None` forever. -/
theorem C38_intersection {a b : RangeSet K} (ha : Reachable a) (hb : Reachable b) :
    ∃ l, Yields Intersection.next (a.intersection b) l ∧ (∀ r ∈ l, r.start < r.stop) ∧
      l.Pairwise (fun r r' => r.stop < r'.start) ∧
      ∀ k, (∃ r ∈ l, r.start ≤ k ∧ k < r.stop) ↔
        a.contains k = .ok true ∧ b.contains k = .ok true := by
  obtain ⟨l, h1, _, h2, h3, h4⟩ := intersection_spec ha.wf hb.wf
  refine ⟨l, h1, h2, h3, fun k => ?_⟩
  have := h4 k
  rw [Bool.eq_iff_iff, any_iff] at this
  rw [contains_eq ha.wf, contains_eq hb.wf]
  simpa [OpsLaws.mem, Range.laws] using this

example : calls Intersection.next 4 (Demo.set.intersection Demo.set') =
    [some ⟨1, 3⟩, some ⟨22, 24⟩, some ⟨39, 40⟩, none] := by
  simp [calls, Intersection.next, Intersection.nextLoop, RangeIntersect.intersect, Range.intersect,
    RangeOrder.orderEnd, kcmp, Ordering.isLT, rmax, rmin, RangeSet.intersection,
    Demo.set, Demo.set', RangeSet.iter, RangeMap.iter]

/-! ## C39 -/

/-- **C39** `|` never panics and is set union. -/
theorem C39_bitor {a b : RangeSet K} (ha : Reachable a) (hb : Reachable b) :
    ∃ c, a.bitOr b = .ok c ∧ Reachable c ∧ ∀ k, ∃ x y, a.contains k = .ok x ∧
      b.contains k = .ok y ∧ c.contains k = .ok (x || y) := by
  obtain ⟨c, h1, h2, h3⟩ := bitOr_spec ha.wf hb.wf
  refine ⟨c, h1, .of_wf h2, fun k => ⟨_, _, contains_eq ha.wf k, contains_eq hb.wf k, ?_⟩⟩
  rw [contains_eq h2, h3]

example := C39_bitor (K := Nat) (a := Demo.set) (b := Demo.set') Demo.set_reachable
    Demo.set'_reachable

/-- **C39** `&` never panics, is set intersection, and holds exactly the ranges that
`intersection` yields. -/
theorem C39_bitand {a b : RangeSet K} (ha : Reachable a) (hb : Reachable b) :
    ∃ c, a.bitAnd b = .ok c ∧ Reachable c ∧ Yields Intersection.next (a.intersection b) c.iter ∧
      ∀ k, ∃ x y, a.contains k = .ok x ∧
      b.contains k = .ok y ∧ c.contains k = .ok (x && y) := by
  obtain ⟨c, h1, h2, h3, h4⟩ := bitAnd_spec ha.wf hb.wf
  refine ⟨c, h1, .of_wf h2, h3, fun k => ⟨_, _, contains_eq ha.wf k, contains_eq hb.wf k, ?_⟩⟩
  rw [contains_eq h2, h4]

example := C39_bitand (K := Nat) (a := Demo.set) (b := Demo.set') Demo.set_reachable
    Demo.set'_reachable

theorem or_has {a b c : RangeSet K} (ha : Reachable a) (hb : Reachable b)
    (h : a.bitOr b = .ok c) : Reachable c ∧ ∀ k, c.has k = (a.has k || b.has k) := by
  obtain ⟨c', h1, h2, h3⟩ := bitOr_spec ha.wf hb.wf
  rw [h] at h1
  cases h1
  exact ⟨.of_wf h2, h3⟩

theorem and_has {a b c : RangeSet K} (ha : Reachable a) (hb : Reachable b)
    (h : a.bitAnd b = .ok c) : Reachable c ∧ ∀ k, c.has k = (a.has k && b.has k) := by
  obtain ⟨c', h1, h2, _, h3⟩ := bitAnd_spec ha.wf hb.wf
  rw [h] at h1
  cases h1
  exact ⟨.of_wf h2, h3⟩

/-- **C39** `|` is commutative, associative and idempotent up to `==`. -/
theorem C39_or_laws {a b c ab ba ab_c bc a_bc aa : RangeSet K}
    (ha : Reachable a) (hb : Reachable b) (hc : Reachable c)
    (h1 : a.bitOr b = .ok ab) (h2 : b.bitOr a = .ok ba) (h3 : ab.bitOr c = .ok ab_c)
    (h4 : b.bitOr c = .ok bc) (h5 : a.bitOr bc = .ok a_bc) (h6 : a.bitOr a = .ok aa) :
    ab.eq ba = true ∧ ab_c.eq a_bc = true ∧ aa.eq a = true := by
  obtain ⟨r1, e1⟩ := or_has ha hb h1
  obtain ⟨r2, e2⟩ := or_has hb ha h2
  obtain ⟨r3, e3⟩ := or_has r1 hc h3
  obtain ⟨r4, e4⟩ := or_has hb hc h4
  obtain ⟨r5, e5⟩ := or_has ha r4 h5
  obtain ⟨r6, e6⟩ := or_has ha ha h6
  refine ⟨(eq_iff_has r1.wf r2.wf).2 fun k => ?_, (eq_iff_has r3.wf r5.wf).2 fun k => ?_,
    (eq_iff_has r6.wf ha.wf).2 fun k => ?_⟩
  · rw [e1, e2, Bool.or_comm]
  · rw [e3, e1, e5, e4, Bool.or_assoc]
  · rw [e6, Bool.or_self]

example := C39_or_laws Demo.set_reachable Demo.set'_reachable Demo.set_reachable
  (C39_bitor Demo.set_reachable Demo.set'_reachable).choose_spec.1
  (C39_bitor Demo.set'_reachable Demo.set_reachable).choose_spec.1
  (C39_bitor (C39_bitor Demo.set_reachable Demo.set'_reachable).choose_spec.2.1
    Demo.set_reachable).choose_spec.1
  (C39_bitor Demo.set'_reachable Demo.set_reachable).choose_spec.1
  (C39_bitor Demo.set_reachable (C39_bitor Demo.set'_reachable
    Demo.set_reachable).choose_spec.2.1).choose_spec.1
  (C39_bitor Demo.set_reachable Demo.set_reachable).choose_spec.1

/-- **C39** `&` is commutative, associative and idempotent up to `==`. -/
theorem C39_and_laws {a b c ab ba ab_c bc a_bc aa : RangeSet K}
    (ha : Reachable a) (hb : Reachable b) (hc : Reachable c)
    (h1 : a.bitAnd b = .ok ab) (h2 : b.bitAnd a = .ok ba) (h3 : ab.bitAnd c = .ok ab_c)
    (h4 : b.bitAnd c = .ok bc) (h5 : a.bitAnd bc = .ok a_bc) (h6 : a.bitAnd a = .ok aa) :
    ab.eq ba = true ∧ ab_c.eq a_bc = true ∧ aa.eq a = true := by
  obtain ⟨r1, e1⟩ := and_has ha hb h1
  obtain ⟨r2, e2⟩ := and_has hb ha h2
  obtain ⟨r3, e3⟩ := and_has r1 hc h3
  obtain ⟨r4, e4⟩ := and_has hb hc h4
  obtain ⟨r5, e5⟩ := and_has ha r4 h5
  obtain ⟨r6, e6⟩ := and_has ha ha h6
  refine ⟨(eq_iff_has r1.wf r2.wf).2 fun k => ?_, (eq_iff_has r3.wf r5.wf).2 fun k => ?_,
    (eq_iff_has r6.wf ha.wf).2 fun k => ?_⟩
  · rw [e1, e2, Bool.and_comm]
  · rw [e3, e1, e5, e4, Bool.and_assoc]
  · rw [e6, Bool.and_self]

example := C39_and_laws Demo.set_reachable Demo.set'_reachable Demo.set_reachable
  (C39_bitand Demo.set_reachable Demo.set'_reachable).choose_spec.1
  (C39_bitand Demo.set'_reachable Demo.set_reachable).choose_spec.1
  (C39_bitand (C39_bitand Demo.set_reachable Demo.set'_reachable).choose_spec.2.1
    Demo.set_reachable).choose_spec.1
  (C39_bitand Demo.set'_reachable Demo.set_reachable).choose_spec.1
  (C39_bitand Demo.set_reachable (C39_bitand Demo.set'_reachable
    Demo.set_reachable).choose_spec.2.1).choose_spec.1
  (C39_bitand Demo.set_reachable Demo.set_reachable).choose_spec.1

/-- **C39** Absorption: `a | (a & b) == a` and `a & (a | b) == a`. -/
theorem C39_absorption {a b ab x ab' y : RangeSet K} (ha : Reachable a) (hb : Reachable b)
    (h1 : a.bitAnd b = .ok ab) (h2 : a.bitOr ab = .ok x)
    (h3 : a.bitOr b = .ok ab') (h4 : a.bitAnd ab' = .ok y) :
    x.eq a = true ∧ y.eq a = true := by
  obtain ⟨r1, e1⟩ := and_has ha hb h1
  obtain ⟨r2, e2⟩ := or_has ha r1 h2
  obtain ⟨r3, e3⟩ := or_has ha hb h3
  obtain ⟨r4, e4⟩ := and_has ha r3 h4
  refine ⟨(eq_iff_has r2.wf ha.wf).2 fun k => ?_, (eq_iff_has r4.wf ha.wf).2 fun k => ?_⟩
  · rw [e2, e1]; cases a.has k <;> simp
  · rw [e4, e3]; cases a.has k <;> simp

example := C39_absorption Demo.set_reachable Demo.set'_reachable
  (C39_bitand Demo.set_reachable Demo.set'_reachable).choose_spec.1
  (C39_bitor Demo.set_reachable (C39_bitand Demo.set_reachable
    Demo.set'_reachable).choose_spec.2.1).choose_spec.1
  (C39_bitor Demo.set_reachable Demo.set'_reachable).choose_spec.1
  (C39_bitand Demo.set_reachable (C39_bitor Demo.set_reachable
    Demo.set'_reachable).choose_spec.2.1).choose_spec.1

/-- **C39** Distributivity: `a & (b | c) == (a & b) | (a & c)` and dually. -/
theorem C39_distributivity {a b c bc x ab ac y bc' x' ab' ac' y' : RangeSet K}
    (ha : Reachable a) (hb : Reachable b) (hc : Reachable c)
    (h1 : b.bitOr c = .ok bc) (h2 : a.bitAnd bc = .ok x)
    (h3 : a.bitAnd b = .ok ab) (h4 : a.bitAnd c = .ok ac) (h5 : ab.bitOr ac = .ok y)
    (h1' : b.bitAnd c = .ok bc') (h2' : a.bitOr bc' = .ok x')
    (h3' : a.bitOr b = .ok ab') (h4' : a.bitOr c = .ok ac') (h5' : ab'.bitAnd ac' = .ok y') :
    x.eq y = true ∧ x'.eq y' = true := by
  obtain ⟨r1, e1⟩ := or_has hb hc h1
  obtain ⟨r2, e2⟩ := and_has ha r1 h2
  obtain ⟨r3, e3⟩ := and_has ha hb h3
  obtain ⟨r4, e4⟩ := and_has ha hc h4
  obtain ⟨r5, e5⟩ := or_has r3 r4 h5
  obtain ⟨r1', e1'⟩ := and_has hb hc h1'
  obtain ⟨r2', e2'⟩ := or_has ha r1' h2'
  obtain ⟨r3', e3'⟩ := or_has ha hb h3'
  obtain ⟨r4', e4'⟩ := or_has ha hc h4'
  obtain ⟨r5', e5'⟩ := and_has r3' r4' h5'
  refine ⟨(eq_iff_has r2.wf r5.wf).2 fun k => ?_, (eq_iff_has r2'.wf r5'.wf).2 fun k => ?_⟩
  · rw [e2, e1, e5, e3, e4]; cases a.has k <;> simp
  · rw [e2', e1', e5', e3', e4']; cases a.has k <;> simp

-- `|` coalesces what `union` leaves touching
example : ∃ c, Demo.set.bitOr Demo.set' = .ok c ∧ c.iter = [⟨0, 4⟩, ⟨5, 50⟩] := by
  refine ⟨⟨⟨[(⟨0, 4⟩, ()), (⟨5, 50⟩, ())]⟩⟩, ?_, rfl⟩
  rw [bitOr]
  simp only [Demo.set, Demo.set', RangeSet.len, RangeMap.len, List.length_cons, List.length_nil]
  simp [drain, Union.next, Union.first, Union.mergeLoop, Union.join, RangeMerge.merge,
      Range.merge, RangeOrder.orderStart, kcmp, Ordering.isLT, Range.contains, RangeSet.union,
      RangeSet.iter, RangeMap.iter, Except.map]
  rfl

/-! ## C48: the set's iterators and accessors -/

/-- **C48** `iter()`/`into_iter()` behave as a double-ended queue of the stored ranges, with an
exact size hint. -/
theorem C48_iter (s : RangeSet K) (cs : List End) :
    script RangeSet.Iter.next RangeSet.Iter.nextBack cs s.iterator = dequeScript cs s.iter ∧
    s.iterator.sizeHint = (s.len, some s.len) ∧ s.len = s.iter.length ∧
    (s.isEmpty = true ↔ s.iter = []) ∧ s.first = s.iter.head? ∧ s.last = s.iter.getLast? := by
  refine ⟨?_, (C16_size_hint s.rm s.rm.iterator).1, by simp [RangeSet.iter, RangeSet.len,
    RangeMap.iter, RangeMap.len], by simp [RangeSet.isEmpty, RangeMap.isEmpty, RangeSet.iter,
    RangeMap.iter], ?_, ?_⟩
  · rw [RangeSet.iter, dequeScript_map, ← C16_iter_double_ended s.rm cs]
    exact script_wrap RangeSet.Iter.mk (fun e : Range K × Unit => e.1)
      (next' := RangeSet.Iter.next) (back' := RangeSet.Iter.nextBack)
      (next := RangeMap.Iter.next) (back := RangeMap.Iter.nextBack)
      (fun _ => rfl) (fun _ => rfl) cs s.rm.iterator
  · simp [RangeSet.first, RangeMap.firstRangeValue, RangeSet.iter, RangeMap.iter]
  · simp [RangeSet.last, RangeMap.lastRangeValue, RangeSet.iter, RangeMap.iter]

example := C48_iter (K := Nat) Demo.set [.back, .front, .front]

/-- **C48** `overlapping(q)`: for any interleaving of `next` and `next_back`, a double-ended queue
of exactly the stored ranges overlapping `q`; `overlaps(q)` iff there is one. -/
theorem C48_overlapping {s : RangeSet K} (hs : Reachable s) (q : Range K) (cs : List End) :
    ∃ o, s.overlapping q = .ok o ∧ script RangeSet.Overlapping.next RangeSet.Overlapping.nextBack
      cs o = dequeScript cs
        (s.iter.filter fun r => decide (q.start < r.stop) && decide (r.start < q.stop)) ∧
      ∃ b, s.overlaps q = .ok b ∧
        (b = true ↔ ∃ r ∈ s.iter, q.start < r.stop ∧ r.start < q.stop) := by
  obtain ⟨o, h1, h2⟩ := C14_overlapping_double_ended hs.map q cs
  obtain ⟨o', h1', h2'⟩ := C14_overlapping_double_ended hs.map q [.front]
  rw [h1] at h1'
  cases h1'
  have h3 := script_wrap RangeSet.Overlapping.mk (·.1) (next := RangeMap.Overlapping.next)
    (back := RangeMap.Overlapping.nextBack) (next' := RangeSet.Overlapping.next)
    (back' := RangeSet.Overlapping.nextBack) (fun _ => rfl) (fun _ => rfl) cs o
  have ho : s.overlapping q = .ok ⟨o⟩ := by rw [RangeSet.overlapping, h1]; rfl
  refine ⟨⟨o⟩, ho, ?_, ?_⟩
  · rw [h3, h2, ← dequeScript_map, RangeSet.iter, List.filter_map]
    rfl
  · refine ⟨_, by rw [RangeSet.overlaps, ho]; rfl, ?_⟩
    simp only [script, dequeScript, List.cons.injEq, and_true] at h2'
    show ((RangeMap.Overlapping.next o).1.map (·.1)).isSome = true ↔ _
    rw [h2', Option.isSome_map, List.isSome_head?]
    simp [RangeSet.iter]

example := C48_overlapping (K := Nat) (s := Demo.set) Demo.set_reachable ⟨2, 22⟩
    [.back, .front, .front]

/-- **C48** `gaps(outer)` yields non-empty ranges within `outer` in increasing order, not touching
each other, covering exactly the keys of `outer` that are not in the set, and then `None` forever.
-/
theorem C48_gaps {s : RangeSet K} (hs : Reachable s) (outer : Range K) :
    ∃ g l, s.gaps outer = .ok g ∧ Yields RangeSet.Gaps.next g l ∧
      (∀ r ∈ l, r.start < r.stop ∧ outer.start ≤ r.start ∧ r.stop ≤ outer.stop) ∧
      l.Pairwise (fun r r' => r.stop < r'.start) ∧
      ∀ k, (∃ r ∈ l, r.start ≤ k ∧ k < r.stop) ↔
        outer.start ≤ k ∧ k < outer.stop ∧ s.contains k = .ok false := by
  obtain ⟨g, l, h1, h2, h3⟩ := C10_gaps_exact hs.map outer
  obtain ⟨g', l', h1', h2', h3', h4'⟩ := C11_gaps_ordered hs.map outer
  rw [h1] at h1'
  cases h1'
  have : l = l' := Verif.Yields.unique h2 h2'
  subst this
  refine ⟨⟨g⟩, l, by rw [RangeSet.gaps, h1]; rfl, ?_, h3', h4'.imp (·.1), fun k => ?_⟩
  · have := Yields.wrap RangeSet.Gaps.mk id (next' := RangeSet.Gaps.next)
      (fun s => by simp [RangeSet.Gaps.next]) h2
    rwa [List.map_id] at this
  · rw [h3]
    have : s.rm.get k = .ok none ↔ s.contains k = .ok false := by
      obtain ⟨o, _, p1, p2⟩ := C09_projections hs.map k
      rw [RangeSet.contains, p1, p2]
      cases o <;> simp
    rw [this]

example : ∃ g, Demo.set.gaps ⟨1, 45⟩ = .ok g ∧
    calls RangeSet.Gaps.next 4 g = [some ⟨3, 5⟩, some ⟨15, 20⟩, some ⟨40, 45⟩, none] :=
  ⟨_, rfl, rfl⟩
example : ∃ o, Demo.set.overlapping ⟨2, 6⟩ = .ok o ∧
    calls RangeSet.Overlapping.next 3 o = [some ⟨0, 3⟩, some ⟨5, 15⟩, none] := ⟨_, rfl, rfl⟩

/-! ## C49: construction and serde of sets -/

/-- **C49** `from_iter`, `From<[_; N]>` and the macro agree; they panic iff some range is empty or
inverted, and otherwise give the set of all covered keys. -/
theorem C49_from_iter (items : List (Range K)) :
    (fromIter items : Except Panic (RangeSet K)) = fromArray items ∧
    ((∃ p, (fromIter items : Except Panic (RangeSet K)) = .error p) ↔
      ∃ r ∈ items, r.stop ≤ r.start) ∧
    ∀ s, fromIter items = .ok s → Reachable s ∧ ∀ k, s.contains k =
      .ok (items.any fun r => decide (r.start ≤ k ∧ k < r.stop)) := by
  have hfold : ∀ (items : List (Range K)) (s : RangeSet K),
      items.foldlM (fun s r => s.insert r) s =
        (s.extend items).2.map (fun _ => (s.extend items).1) := by
    intro items
    induction items with
    | nil => intro s; rfl
    | cons r t ih =>
      intro s
      rw [List.foldlM_cons, RangeSet.extend]
      cases h : s.insert r with
      | error p => rfl
      | ok s' =>
        simp only [bind, Except.bind]
        exact ih s'
  have hpan := C19_extend_panics_iff (m := RangeMap.new) RangeMap.Reachable.new
    (items.map fun r => (r, ()))
  refine ⟨by rw [fromArray, hfold]; rfl, ?_, ?_⟩
  · rw [fromIter, extend_rm]
    constructor
    · rintro ⟨p, hp⟩
      have : ∃ p, (RangeMap.new.extend (items.map fun r => (r, ()))).2 = .error p := by
        refine ⟨p, ?_⟩
        revert hp
        generalize hq : (RangeMap.new.extend (items.map fun r => (r, ()))).2 = q
        rw [show (new : RangeSet K).rm = RangeMap.new from rfl, hq]
        cases q <;> simp [Except.map]
      obtain ⟨e, he, h⟩ := hpan.1 this
      obtain ⟨r, hr, rfl⟩ := List.mem_map.1 he
      exact ⟨r, hr, h⟩
    · rintro ⟨r, hr, h⟩
      obtain ⟨p, hp⟩ := hpan.2 ⟨(r, ()), List.mem_map.2 ⟨r, hr, rfl⟩, h⟩
      refine ⟨p, ?_⟩
      rw [show (new : RangeSet K).rm = RangeMap.new from rfl, hp]
      rfl
  · intro s hs
    have hv : ∀ r ∈ items, r.start < r.stop := by
      intro r hr
      apply Decidable.byContradiction
      intro hn
      obtain ⟨p, hp⟩ := hpan.2 ⟨(r, ()), List.mem_map.2 ⟨r, hr, rfl⟩, by grind⟩
      rw [fromIter, extend_rm, show (new : RangeSet K).rm = RangeMap.new from rfl, hp] at hs
      cases hs
    obtain ⟨s', h1, h2, h3⟩ := fromIter_has hv
    rw [hs] at h1
    cases h1
    refine ⟨.of_wf h2, fun k => ?_⟩
    rw [contains_eq h2, h3]
    rfl

example := C49_from_iter (K := Nat) [⟨2, 9⟩, ⟨20, 22⟩]

theorem set_visitSeq {E : Type} (items : List (Range K)) : ∀ s : RangeSet K,
    visitSeq (E := E) s (items.map fun r => .ok (r.start, r.stop)) =
      match (s.extend items).2 with
      | .ok () => .ok (s.extend items).1
      | .error p => .error (.panic p) := by
  induction items with
  | nil => intro s; rfl
  | cons r t ih =>
    intro s
    rw [List.map_cons, visitSeq, RangeSet.extend]
    cases h : s.insert r with
    | error p => rfl
    | ok s' => exact ih s'

/-- **C49** Deserialising the serialised form of a set gives back exactly that set, and the
declared length is right. -/
theorem C49_serde_round_trip {E : Type} {s : RangeSet K} (hs : Reachable s) :
    deserialize (E := E) (s.serialize.2.map .ok) = .ok s ∧
      s.serialize.1 = some s.serialize.2.length := by
  refine ⟨?_, by simp [RangeSet.serialize, RangeSet.iter, RangeMap.iter]⟩
  have h := set_visitSeq (E := E) s.iter new
  obtain ⟨h1, h2⟩ := (reachable_iff s).1 hs
  have h3 := RangeMap.extend_rest s.rm.btm [] (by simpa using hs.wf)
  have h4 : (s.iter.map fun r => (r, ())) = s.rm.btm := by
    simp only [RangeSet.iter, RangeMap.iter, List.map_map]
    exact List.map_id _
  rw [extend_rm, h4, show (new : RangeSet K).rm = ⟨[]⟩ from rfl, h3] at h
  rw [deserialize, RangeSet.serialize, List.map_map]
  exact h

example := C49_serde_round_trip (K := Nat) (E := String) (s := Demo.set) Demo.set_reachable

/-- **C49** Whatever a deserialiser delivers, `deserialize` yields
- the set that collecting the delivered ranges gives, when the deserialiser delivers no error and
  all ranges are valid;
- the deserialiser's error, if that comes before any invalid range;
- a panic exactly when an empty or inverted range comes first. -/
theorem C49_deserialize_any {E : Type} (access : List (Except E (K × K))) :
    (∃ items : List (Range K), (∀ r ∈ items, r.start < r.stop) ∧
      access = items.map (fun r => .ok (r.start, r.stop)) ∧
      ∃ s, deserialize access = .ok s ∧ Reachable s ∧ fromIter items = .ok s) ∨
    (∃ items : List (Range K), (∀ r ∈ items, r.start < r.stop) ∧ ∃ e rest,
      access = items.map (fun r => .ok (r.start, r.stop)) ++ .error e :: rest ∧
      deserialize access = .error (.de e)) ∨
    (∃ items : List (Range K), (∀ r ∈ items, r.start < r.stop) ∧ ∃ a b rest, b ≤ a ∧
      access = items.map (fun r => .ok (r.start, r.stop)) ++ .ok (a, b) :: rest ∧
      deserialize access = .error (.panic .assertFailed)) := by
  suffices H : ∀ (s : RangeSet K), Reachable s →
      (∃ items : List (Range K), (∀ r ∈ items, r.start < r.stop) ∧
        access = items.map (fun r => .ok (r.start, r.stop)) ∧
        ∃ s', visitSeq s access = .ok s' ∧ Reachable s' ∧ s.extend items = (s', .ok ())) ∨
      (∃ items : List (Range K), (∀ r ∈ items, r.start < r.stop) ∧ ∃ e rest,
        access = items.map (fun r => .ok (r.start, r.stop)) ++ .error e :: rest ∧
        visitSeq s access = .error (.de e)) ∨
      (∃ items : List (Range K), (∀ r ∈ items, r.start < r.stop) ∧ ∃ a b rest, b ≤ a ∧
        access = items.map (fun r => .ok (r.start, r.stop)) ++ .ok (a, b) :: rest ∧
        visitSeq s access = .error (.panic .assertFailed)) by
    rcases H new ⟨[], rfl⟩ with ⟨items, h1, h2, s, h3, h4, h5⟩ | h | h
    · exact Or.inl ⟨items, h1, h2, s, h3, h4, by simp [fromIter, h5, Except.map]⟩
    · exact Or.inr (Or.inl h)
    · exact Or.inr (Or.inr h)
  induction access with
  | nil => intro s hs; exact Or.inl ⟨[], by simp, rfl, s, rfl, hs, rfl⟩
  | cons x access ih =>
    intro s hs
    match x with
    | .error e => exact Or.inr (Or.inl ⟨[], by simp, e, access, rfl, rfl⟩)
    | .ok (a, b) =>
      by_cases hab : a < b
      · obtain ⟨s', h⟩ := insert_ok hs.wf (r := ⟨a, b⟩) hab
        have hv : ∀ l : List (Range K), (∀ r ∈ l, r.start < r.stop) →
            ∀ r ∈ (⟨a, b⟩ : Range K) :: l, r.start < r.stop := by
          intro l hl r hr
          rcases List.mem_cons.1 hr with rfl | hr
          · exact hab
          · exact hl r hr
        rw [visitSeq, h]
        rcases ih s' (hs.insert h) with ⟨items, h1, h2, s'', h3, h4, h5⟩ |
            ⟨items, h1, e, rest, h2, h3⟩ | ⟨items, h1, a', b', rest, h2, h3, h4⟩
        · exact Or.inl ⟨⟨a, b⟩ :: items, hv _ h1, by rw [h2]; rfl, s'', h3, h4,
            by rw [RangeSet.extend, h]; exact h5⟩
        · exact Or.inr (Or.inl ⟨⟨a, b⟩ :: items, hv _ h1, e, rest, by rw [h2]; rfl, h3⟩)
        · exact Or.inr (Or.inr ⟨⟨a, b⟩ :: items, hv _ h1, a', b', rest, h2, by rw [h3]; rfl, h4⟩)
      · refine Or.inr (Or.inr ⟨[], by simp, a, b, access, by grind, rfl, ?_⟩)
        have : s.insert ⟨a, b⟩ = .error .assertFailed := by
          rw [insert_rm, RangeMap.insert_invalid (r := ⟨a, b⟩) hab]; rfl
        rw [visitSeq, this]

example : (deserialize (E := String) (Demo.set.serialize.2.map .ok)).toOption.map (·.iter) =
    some Demo.set.iter ∧ Demo.set.serialize = (some 3, [(0, 3), (5, 15), (20, 40)]) :=
  ⟨by rfl, by rfl⟩
example : (fromIter [⟨5, 9⟩, ⟨0, 5⟩, ⟨12, 13⟩] : Except Panic (RangeSet Nat)).toOption.map (·.iter) =
    some [⟨0, 9⟩, ⟨12, 13⟩] := by rfl

/-! ## C50: comparison traits of sets -/

/-- **C50** `==` on sets is an equivalence, `cmp` is a total order that returns `Equal` exactly
when `==`, `partial_cmp` is `Some(cmp)`, and equal sets hash the same. -/
theorem C50_comparison (s s' s'' : RangeSet K) :
    s.eq s = true ∧ (s.eq s' = true → s'.eq s = true) ∧
    (s.eq s' = true → s'.eq s'' = true → s.eq s'' = true) ∧
    s'.cmp s = (s.cmp s').swap ∧
    (s.cmp s' ≠ .gt → s'.cmp s'' ≠ .gt → s.cmp s'' ≠ .gt) ∧
    (s.cmp s' = .eq ↔ s.eq s' = true) ∧
    s.partialCmp s' = some (s.cmp s') ∧
    ∀ (H : Type) (hk : K → List H), (∀ a b, keq a b = true → hk a = hk b) →
      s.eq s' = true → s.hash hk = s'.hash hk := by
  obtain ⟨h1, h2, h3⟩ := C17_eq_equivalence (m := s.rm) (m' := s'.rm) (m'' := s''.rm)
  obtain ⟨h4, h5⟩ := C18_cmp_total (vcmp := fun _ _ => .eq) (fun _ _ => rfl)
    (fun _ _ _ _ _ => by simp) s.rm s'.rm s''.rm
  exact ⟨h3, h1, h2, h4, h5, C18_cmp_eq_iff (fun _ _ => by simp) s.rm s'.rm,
    C18_partial_cmp (fun _ _ => .eq) s.rm s'.rm,
    fun H hk hkc h => C17_hash_eq hkc (fun _ _ _ => rfl) h⟩

example : Demo.set.cmp Demo.set' = .lt ∧ Demo.set.eq Demo.set' = false ∧
    Demo.set.partialCmp Demo.set = some .eq := by decide


-- `20..40` within which `25..35` lies
example : (⟨20, 40⟩ : Range Nat).start ≤ 25 ∧ 35 ≤ (⟨20, 40⟩ : Range Nat).stop :=
  C35_get_maximal (k := 30) (r' := ⟨25, 35⟩) Demo.set_reachable rfl (by decide) (by decide)
    fun j h1 h2 => by
      rw [contains_eq Demo.set_reachable.wf]
      simp only at h1 h2
      simp [has, Demo.set, iter, RangeMap.iter, covers]
      omega

end Verif.Props

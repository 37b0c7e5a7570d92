import Verif.Props.Set
import Verif.Props.ISet

/-!
# C56: gaps as relative complements of sets
-/
set_option linter.unusedSectionVars false

namespace Verif.Props
open Spec
variable {K : Type} [LE K] [LT K] [DecidableLE K] [DecidableLT K]
  [Std.IsLinearPreorder K] [Std.LawfulOrderLT K]

section
open RangeSet

/-- `c` is what collecting the gaps of `s` in `outer` gives. -/
def Complement (s : RangeSet K) (outer : Range K) (c : RangeSet K) : Prop :=
  ∃ g l, s.gaps outer = .ok g ∧ Yields RangeSet.Gaps.next g l ∧ RangeSet.fromIter l = .ok c

theorem Complement.of {s : RangeSet K} (hs : Reachable s) {outer : Range K} {g l c}
    (h1 : s.gaps outer = .ok g) (h2 : Yields RangeSet.Gaps.next g l)
    (h3 : RangeSet.fromIter l = .ok c) : Reachable c ∧ c.iter = l ∧
      ∀ k, c.has k = (covers outer k && !s.has k) := by
  obtain ⟨g', l', p1, p2, p3, p4, p5⟩ := C48_gaps hs outer
  rw [h1] at p1
  cases p1
  have := Verif.Yields.unique h2 p2
  subst this
  obtain ⟨c', q1, q2, q3⟩ := RangeSet.fromIter_exact (fun r hr => (p3 r hr).1) p4
  rw [h3] at q1
  cases q1
  refine ⟨.of_wf q2, q3, fun k => ?_⟩
  have h4 := p5 k
  rw [contains_eq hs.wf] at h4
  rw [Bool.eq_iff_iff, RangeSet.has_iff, q3, h4]
  simp [covers, and_assoc]

theorem Complement.spec {s c : RangeSet K} (hs : Reachable s) {outer : Range K}
    (h : Complement s outer c) : Reachable c ∧ ∀ k, c.has k = (covers outer k && !s.has k) := by
  obtain ⟨g, l, h1, h2, h3⟩ := h
  obtain ⟨r, -, h4⟩ := Complement.of hs h1 h2 h3
  exact ⟨r, h4⟩

/-- **C56** Collecting the gaps of `s` in `outer` never panics; the result stores exactly the yielded
ranges and contains exactly the keys of `outer` that `s` does not contain. -/
theorem C56_complement {s : RangeSet K} (hs : Reachable s) (outer : Range K) :
    ∃ g l c, s.gaps outer = .ok g ∧ Yields RangeSet.Gaps.next g l ∧ RangeSet.fromIter l = .ok c ∧
      c.iter = l ∧ Reachable c ∧ ∀ k, ∃ x, s.contains k = .ok x ∧
        c.contains k = .ok (decide (outer.start ≤ k ∧ k < outer.stop) && !x) := by
  obtain ⟨g, l, p1, p2, p3, p4, p5⟩ := C48_gaps hs outer
  obtain ⟨c, q1, q2, q3⟩ := RangeSet.fromIter_exact (fun r hr => (p3 r hr).1) p4
  obtain ⟨r, -, h4⟩ := Complement.of hs p1 p2 q1
  refine ⟨g, l, c, p1, p2, q1, q3, r, fun k => ⟨_, contains_eq hs.wf k, ?_⟩⟩
  rw [contains_eq r.wf, h4]
  rfl

/-- **C56** The complement of the complement is the part of the set within `outer`, in particular the set
itself if it lies within `outer`. -/
theorem C56_double {s c d o so : RangeSet K} (hs : Reachable s) {outer : Range K}
    (hc : Complement s outer c) (hd : Complement c outer d)
    (ho : RangeSet.fromIter [outer] = .ok o) (hso : s.bitAnd o = .ok so) :
    d.eq so = true ∧
    ((∀ r ∈ s.iter, outer.start ≤ r.start ∧ r.stop ≤ outer.stop) → d.eq s = true) := by
  obtain ⟨r1, e1⟩ := hc.spec hs
  obtain ⟨r2, e2⟩ := hd.spec r1
  obtain ⟨r3, e3⟩ : Reachable o ∧ ∀ k, o.has k = covers outer k := by
    obtain ⟨-, h1, h2⟩ := C49_from_iter [outer]
    obtain ⟨r, h3⟩ := h2 o ho
    refine ⟨r, fun k => ?_⟩
    have := h3 k
    rw [contains_eq r.wf] at this
    simpa [covers] using this
  obtain ⟨r4, e4⟩ := and_has hs r3 hso
  refine ⟨(eq_iff_has r2.wf r4.wf).2 fun k => ?_, fun hin => (eq_iff_has r2.wf hs.wf).2 fun k => ?_⟩
  · rw [e2, e1, e4, e3]
    cases covers outer k <;> cases s.has k <;> rfl
  · rw [e2, e1]
    cases h : s.has k
    · simp
    · obtain ⟨r, hr, h1, h2⟩ := (RangeSet.has_iff s k).1 h
      have := hin r hr
      have : covers outer k = true := by
        simp only [covers, decide_eq_true_eq]
        grind
      simp [this]

/-- **C56** De Morgan's laws. -/
theorem C56_de_morgan {a b ab aab ca cb cab caab x y : RangeSet K} (ha : Reachable a)
    (hb : Reachable b) {outer : Range K}
    (h1 : a.bitOr b = .ok ab) (h2 : a.bitAnd b = .ok aab)
    (hca : Complement a outer ca) (hcb : Complement b outer cb)
    (hcab : Complement ab outer cab) (hcaab : Complement aab outer caab)
    (hx : ca.bitAnd cb = .ok x) (hy : ca.bitOr cb = .ok y) :
    cab.eq x = true ∧ caab.eq y = true := by
  obtain ⟨r1, e1⟩ := or_has ha hb h1
  obtain ⟨r2, e2⟩ := and_has ha hb h2
  obtain ⟨r3, e3⟩ := hca.spec ha
  obtain ⟨r4, e4⟩ := hcb.spec hb
  obtain ⟨r5, e5⟩ := hcab.spec r1
  obtain ⟨r6, e6⟩ := hcaab.spec r2
  obtain ⟨r7, e7⟩ := and_has r3 r4 hx
  obtain ⟨r8, e8⟩ := or_has r3 r4 hy
  refine ⟨(eq_iff_has r5.wf r7.wf).2 fun k => ?_, (eq_iff_has r6.wf r8.wf).2 fun k => ?_⟩
  · rw [e5, e1, e7, e3, e4]
    cases covers outer k <;> cases a.has k <;> cases b.has k <;> rfl
  · rw [e6, e2, e8, e3, e4]
    cases covers outer k <;> cases a.has k <;> cases b.has k <;> rfl

/-- **C56** The complement is `outer` with every range of the set removed. -/
theorem C56_remove_all {s c o d : RangeSet K} (hs : Reachable s) {outer : Range K}
    (hc : Complement s outer c) (ho : RangeSet.fromIter [outer] = .ok o)
    (hd : s.iter.foldlM (fun t r => t.remove r) o = .ok d) : c.eq d = true := by
  obtain ⟨r1, e1⟩ := hc.spec hs
  obtain ⟨r3, e3⟩ : Reachable o ∧ ∀ k, o.has k = covers outer k := by
    obtain ⟨-, h1, h2⟩ := C49_from_iter [outer]
    obtain ⟨r, h3⟩ := h2 o ho
    refine ⟨r, fun k => ?_⟩
    have := h3 k
    rw [contains_eq r.wf] at this
    simpa [covers] using this
  have key : ∀ (l : List (Range K)) (t : RangeSet K), Reachable t → l.foldlM (fun t r => t.remove r) t = .ok d →
      Reachable d ∧ ∀ k, d.has k = (t.has k && !l.any (covers · k)) := by
    intro l
    induction l with
    | nil =>
      intro t ht h
      cases h
      exact ⟨ht, fun k => by simp⟩
    | cons r l ih =>
      intro t ht h
      rw [List.foldlM_cons] at h
      cases h1 : t.remove r with
      | error p => rw [h1] at h; cases h
      | ok t' =>
        rw [h1] at h
        obtain ⟨r4, e4⟩ := ih t' (ht.remove h1) h
        refine ⟨r4, fun k => ?_⟩
        rw [e4, (remove_has ht.wf h1 k).2.2, List.any_cons]
        cases covers r k <;> cases t.has k <;> simp
  obtain ⟨r4, e4⟩ := key _ _ r3 hd
  refine (eq_iff_has r1.wf r4.wf).2 fun k => ?_
  rw [e1, e4, e3]
  rfl

/-- the complement of `set` in `1..45` -/
def setGaps : RangeSet Nat := ⟨⟨[(⟨3, 5⟩, ()), (⟨15, 20⟩, ()), (⟨40, 45⟩, ())]⟩⟩
example : ∃ g, Demo.set.gaps ⟨1, 45⟩ = .ok g ∧
    calls RangeSet.Gaps.next 4 g = setGaps.iter.map some ++ [none] := ⟨_, rfl, rfl⟩
example : ∃ c, Complement Demo.set ⟨1, 45⟩ c := by
  obtain ⟨g, l, c, h1, h2, h3, -⟩ := C56_complement Demo.set_reachable ⟨1, 45⟩
  exact ⟨c, g, l, h1, h2, h3⟩
/-- and back: `set` clipped to `1..45` -/
example : ∃ g, setGaps.gaps ⟨1, 45⟩ = .ok g ∧ calls RangeSet.Gaps.next 4 g =
    [some ⟨1, 3⟩, some ⟨5, 15⟩, some ⟨20, 40⟩, none] := ⟨_, rfl, rfl⟩
example : calls Intersection.next 4 (Demo.set.intersection ⟨⟨[(⟨1, 45⟩, ())]⟩⟩) =
    [some ⟨1, 3⟩, some ⟨5, 15⟩, some ⟨20, 40⟩, none] := by
  simp [calls, Intersection.next, Intersection.nextLoop, RangeIntersect.intersect, Range.intersect,
    RangeOrder.orderEnd, kcmp, Ordering.isLT, rmax, rmin, RangeSet.intersection,
    Demo.set, RangeSet.iter, RangeMap.iter]
example : (Demo.set.iter.foldlM (fun (t : RangeSet Nat) r => t.remove r) (⟨⟨[(⟨1, 45⟩, ())]⟩⟩ : RangeSet Nat)).toOption.map
    (·.iter) = some setGaps.iter := by decide

theorem complement_exists {s : RangeSet K} (hs : Reachable s) (outer : Range K) :
    ∃ c, Complement s outer c := by
  obtain ⟨g, l, c, h1, h2, h3, -⟩ := C56_complement hs outer
  exact ⟨c, g, l, h1, h2, h3⟩
-- the hypotheses of `C56_double`, `C56_de_morgan` and `C56_remove_all` met by the demo sets
example : ∃ c d so : RangeSet Nat, d.eq so = true ∧ Complement Demo.set ⟨1, 45⟩ c ∧
    Complement c ⟨1, 45⟩ d := by
  obtain ⟨c, hc⟩ := complement_exists Demo.set_reachable ⟨1, 45⟩
  obtain ⟨d, hd⟩ := complement_exists (hc.spec Demo.set_reachable).1 ⟨1, 45⟩
  obtain ⟨so, h, -⟩ := C39_bitand Demo.set_reachable (b := ⟨⟨[(⟨1, 45⟩, ())]⟩⟩)
    ⟨[.insert ⟨1, 45⟩], rfl⟩
  exact ⟨c, d, so, (C56_double Demo.set_reachable hc hd rfl h).1, hc, hd⟩
example : ∃ ab aab ca cb cab caab x y : RangeSet Nat, Demo.set.bitOr Demo.set' = .ok ab ∧
    Demo.set.bitAnd Demo.set' = .ok aab ∧ Complement Demo.set ⟨1, 45⟩ ca ∧
    Complement Demo.set' ⟨1, 45⟩ cb ∧ Complement ab ⟨1, 45⟩ cab ∧ Complement aab ⟨1, 45⟩ caab ∧
    ca.bitAnd cb = .ok x ∧ ca.bitOr cb = .ok y ∧ cab.eq x = true ∧ caab.eq y = true := by
  have ra := Demo.set_reachable
  have rb := Demo.set'_reachable
  obtain ⟨ab, h1, r1, -⟩ := C39_bitor ra rb
  obtain ⟨aab, h2, r2, -⟩ := C39_bitand ra rb
  obtain ⟨ca, hca⟩ := complement_exists ra ⟨1, 45⟩
  obtain ⟨cb, hcb⟩ := complement_exists rb ⟨1, 45⟩
  obtain ⟨cab, hcab⟩ := complement_exists r1 ⟨1, 45⟩
  obtain ⟨caab, hcaab⟩ := complement_exists r2 ⟨1, 45⟩
  obtain ⟨x, hx, -⟩ := C39_bitand (hca.spec ra).1 (hcb.spec rb).1
  obtain ⟨y, hy, -⟩ := C39_bitor (hca.spec ra).1 (hcb.spec rb).1
  exact ⟨ab, aab, ca, cb, cab, caab, x, y, h1, h2, hca, hcb, hcab, hcaab, hx, hy,
    C56_de_morgan ra rb h1 h2 hca hcb hcab hcaab hx hy⟩
example : ∃ c, Complement Demo.set ⟨1, 45⟩ c ∧ c.eq setGaps = true := by
  obtain ⟨c, hc⟩ := complement_exists Demo.set_reachable ⟨1, 45⟩
  exact ⟨c, hc, C56_remove_all Demo.set_reachable hc rfl rfl⟩

end

namespace Inclusive
open RangeInclusiveSet
variable {S : StepFns K}

/-- `c` is what collecting the gaps of `s` in `outer` gives. -/
def Complement (S : StepFns K) (s : RangeInclusiveSet K) (outer : RangeInclusive K) (c : RangeInclusiveSet K) : Prop :=
  ∃ g l, s.gaps outer = .ok g ∧ YieldsE (RangeInclusiveSet.Gaps.next S) g l ∧ RangeInclusiveSet.fromIter S l = .ok c

theorem Complement.of (hS : LawfulSteps S) {s : RangeInclusiveSet K} (hs : Reachable S s) {outer : RangeInclusive K} {g l c}
    (h1 : s.gaps outer = .ok g) (h2 : YieldsE (RangeInclusiveSet.Gaps.next S) g l)
    (h3 : RangeInclusiveSet.fromIter S l = .ok c) : Reachable S c ∧ c.iter = l ∧
      ∀ k, c.has k = (icovers outer k && !s.has k) := by
  obtain ⟨g', l', p1, p2, p3, p4, p5⟩ := C48_gaps hS hs outer
  rw [h1] at p1
  cases p1
  have := Verif.YieldsE.unique h2 p2
  subst this
  obtain ⟨c', q1, q2, q3⟩ := RangeInclusiveSet.fromIter_exact hS (fun r hr => ⟨(p3 r hr).1, (p3 r hr).2.1⟩) p4
  rw [h3] at q1
  cases q1
  refine ⟨.of_wf hS q2, q3, fun k => ?_⟩
  have h4 := p5 k
  rw [contains_eq (hs.wf hS)] at h4
  rw [Bool.eq_iff_iff, RangeInclusiveSet.has_iff, q3, h4]
  simp [icovers, and_assoc]

theorem Complement.spec (hS : LawfulSteps S) {s c : RangeInclusiveSet K} (hs : Reachable S s) {outer : RangeInclusive K}
    (h : Complement S s outer c) : Reachable S c ∧ ∀ k, c.has k = (icovers outer k && !s.has k) := by
  obtain ⟨g, l, h1, h2, h3⟩ := h
  obtain ⟨r, -, h4⟩ := Complement.of hS hs h1 h2 h3
  exact ⟨r, h4⟩

/-- **C56** Collecting the gaps of `s` in `outer` never panics; the result stores exactly the yielded
ranges and contains exactly the keys of `outer` that `s` does not contain. -/
theorem C56_complement (hS : LawfulSteps S) {s : RangeInclusiveSet K} (hs : Reachable S s) (outer : RangeInclusive K) :
    ∃ g l c, s.gaps outer = .ok g ∧ YieldsE (RangeInclusiveSet.Gaps.next S) g l ∧ RangeInclusiveSet.fromIter S l = .ok c ∧
      c.iter = l ∧ Reachable S c ∧ ∀ k, ∃ x, s.contains k = .ok x ∧
        c.contains k = .ok (decide (outer.start ≤ k ∧ k ≤ outer.stop) && !x) := by
  obtain ⟨g, l, p1, p2, p3, p4, p5⟩ := C48_gaps hS hs outer
  obtain ⟨c, q1, q2, q3⟩ := RangeInclusiveSet.fromIter_exact hS (fun r hr => ⟨(p3 r hr).1, (p3 r hr).2.1⟩) p4
  obtain ⟨r, -, h4⟩ := Complement.of hS hs p1 p2 q1
  refine ⟨g, l, c, p1, p2, q1, q3, r, fun k => ⟨_, contains_eq (hs.wf hS) k, ?_⟩⟩
  rw [contains_eq (r.wf hS), h4]
  rfl

/-- **C56** The complement of the complement is the part of the set within `outer`, in particular the set
itself if it lies within `outer`. -/
theorem C56_double (hS : LawfulSteps S) {s c d o so : RangeInclusiveSet K} (hs : Reachable S s) {outer : RangeInclusive K}
    (hc : Complement S s outer c) (hd : Complement S c outer d)
    (ho : RangeInclusiveSet.fromIter S [outer] = .ok o) (hx : outer.exhausted = false) (hso : s.bitAnd S o = .ok so) :
    d.eq so = true ∧
    ((∀ r ∈ s.iter, outer.start ≤ r.start ∧ r.stop ≤ outer.stop) → d.eq s = true) := by
  obtain ⟨r1, e1⟩ := hc.spec hS hs
  obtain ⟨r2, e2⟩ := hd.spec hS r1
  obtain ⟨r3, e3⟩ : Reachable S o ∧ ∀ k, o.has k = icovers outer k := by
    obtain ⟨-, h1, h2⟩ := C49_from_iter hS [outer]
    obtain ⟨r, h3⟩ := h2 (by simpa using hx) o ho
    refine ⟨r, fun k => ?_⟩
    have := h3 k
    rw [contains_eq (r.wf hS)] at this
    simpa [icovers] using this
  obtain ⟨r4, e4⟩ := and_has hS hs r3 hso
  refine ⟨(eq_iff_has hS (r2.wf hS) (r4.wf hS)).2 fun k => ?_, fun hin => (eq_iff_has hS (r2.wf hS) (hs.wf hS)).2 fun k => ?_⟩
  · rw [e2, e1, e4, e3]
    cases icovers outer k <;> cases s.has k <;> rfl
  · rw [e2, e1]
    cases h : s.has k
    · simp
    · obtain ⟨r, hr, h1, h2⟩ := (RangeInclusiveSet.has_iff s k).1 h
      have := hin r hr
      have : icovers outer k = true := by
        simp only [icovers, decide_eq_true_eq]
        grind
      simp [this]

/-- **C56** De Morgan's laws. -/
theorem C56_de_morgan (hS : LawfulSteps S) {a b ab aab ca cb cab caab x y : RangeInclusiveSet K} (ha : Reachable S a)
    (hb : Reachable S b) {outer : RangeInclusive K}
    (h1 : a.bitOr S b = .ok ab) (h2 : a.bitAnd S b = .ok aab)
    (hca : Complement S a outer ca) (hcb : Complement S b outer cb)
    (hcab : Complement S ab outer cab) (hcaab : Complement S aab outer caab)
    (hx : ca.bitAnd S cb = .ok x) (hy : ca.bitOr S cb = .ok y) :
    cab.eq x = true ∧ caab.eq y = true := by
  obtain ⟨r1, e1⟩ := or_has hS ha hb h1
  obtain ⟨r2, e2⟩ := and_has hS ha hb h2
  obtain ⟨r3, e3⟩ := hca.spec hS ha
  obtain ⟨r4, e4⟩ := hcb.spec hS hb
  obtain ⟨r5, e5⟩ := hcab.spec hS r1
  obtain ⟨r6, e6⟩ := hcaab.spec hS r2
  obtain ⟨r7, e7⟩ := and_has hS r3 r4 hx
  obtain ⟨r8, e8⟩ := or_has hS r3 r4 hy
  refine ⟨(eq_iff_has hS (r5.wf hS) (r7.wf hS)).2 fun k => ?_, (eq_iff_has hS (r6.wf hS) (r8.wf hS)).2 fun k => ?_⟩
  · rw [e5, e1, e7, e3, e4]
    cases icovers outer k <;> cases a.has k <;> cases b.has k <;> rfl
  · rw [e6, e2, e8, e3, e4]
    cases icovers outer k <;> cases a.has k <;> cases b.has k <;> rfl

/-- **C56** The complement is `outer` with every range of the set removed. -/
theorem C56_remove_all (hS : LawfulSteps S) {s c o d : RangeInclusiveSet K} (hs : Reachable S s) {outer : RangeInclusive K}
    (hc : Complement S s outer c) (ho : RangeInclusiveSet.fromIter S [outer] = .ok o) (hx : outer.exhausted = false)
    (hd : s.iter.foldlM (fun t r => t.remove S r) o = .ok d) : c.eq d = true := by
  obtain ⟨r1, e1⟩ := hc.spec hS hs
  obtain ⟨r3, e3⟩ : Reachable S o ∧ ∀ k, o.has k = icovers outer k := by
    obtain ⟨-, h1, h2⟩ := C49_from_iter hS [outer]
    obtain ⟨r, h3⟩ := h2 (by simpa using hx) o ho
    refine ⟨r, fun k => ?_⟩
    have := h3 k
    rw [contains_eq (r.wf hS)] at this
    simpa [icovers] using this
  have key : ∀ (l : List (RangeInclusive K)) (t : RangeInclusiveSet K), Reachable S t → l.foldlM (fun t r => t.remove S r) t = .ok d →
      Reachable S d ∧ ∀ k, d.has k = (t.has k && !l.any (icovers · k)) := by
    intro l
    induction l with
    | nil =>
      intro t ht h
      cases h
      exact ⟨ht, fun k => by simp⟩
    | cons r l ih =>
      intro t ht h
      rw [List.foldlM_cons] at h
      cases h1 : t.remove S r with
      | error p => rw [h1] at h; cases h
      | ok t' =>
        rw [h1] at h
        obtain ⟨r4, e4⟩ := ih t' (ht.remove hS h1) h
        refine ⟨r4, fun k => ?_⟩
        rw [e4, (remove_has hS (ht.wf hS) h1 k).2.2, List.any_cons]
        cases icovers r k <;> cases t.has k <;> simp
  obtain ⟨r4, e4⟩ := key _ _ r3 hd
  refine (eq_iff_has hS (r1.wf hS) (r4.wf hS)).2 fun k => ?_
  rw [e1, e4, e3]
  rfl

/-- the complement of `iset` in `1..=255`, the end of the key domain -/
def isetGaps : RangeInclusiveSet (UIntW 8) := ⟨⟨[(Demo.by8 3 4, ()), (Demo.by8 15 19, ())]⟩⟩
example : ∃ g, Demo.iset.gaps (Demo.by8 1 255) = .ok g ∧
    callsE (RangeInclusiveSet.Gaps.next Demo.u8) 3 g = .ok (isetGaps.iter.map some ++ [none]) :=
  ⟨_, rfl, rfl⟩
example : ∃ c, Complement Demo.u8 Demo.iset (Demo.by8 1 255) c := by
  obtain ⟨g, l, c, h1, h2, h3, -⟩ :=
    C56_complement Demo.u8_lawful Demo.iset_reachable (Demo.by8 1 255)
  exact ⟨c, g, l, h1, h2, h3⟩
example : ∃ g, isetGaps.gaps (Demo.by8 1 255) = .ok g ∧
    callsE (RangeInclusiveSet.Gaps.next Demo.u8) 4 g =
      .ok [some (Demo.by8 1 2), some (Demo.by8 5 14), some (Demo.by8 20 255), none] := ⟨_, rfl, rfl⟩
example : (Demo.iset.iter.foldlM (fun (t : RangeInclusiveSet (UIntW 8)) r => t.remove Demo.u8 r)
    (⟨⟨[(Demo.by8 1 255, ())]⟩⟩ : RangeInclusiveSet (UIntW 8))).toOption.map (·.iter) =
      some isetGaps.iter := by decide


theorem complement_exists (hS : LawfulSteps S) {s : RangeInclusiveSet K} (hs : Reachable S s)
    (outer : RangeInclusive K) : ∃ c, Complement S s outer c := by
  obtain ⟨g, l, c, h1, h2, h3, -⟩ := C56_complement hS hs outer
  exact ⟨c, g, l, h1, h2, h3⟩
-- the hypotheses of `C56_double`, `C56_de_morgan` and `C56_remove_all` met by the demo sets
example : ∃ c d so : RangeInclusiveSet (UIntW 8), d.eq so = true ∧
    Complement Demo.u8 Demo.iset (Demo.by8 1 255) c ∧ Complement Demo.u8 c (Demo.by8 1 255) d := by
  have hS := Demo.u8_lawful
  obtain ⟨c, hc⟩ := complement_exists hS Demo.iset_reachable (Demo.by8 1 255)
  obtain ⟨d, hd⟩ := complement_exists hS (hc.spec hS Demo.iset_reachable).1 (Demo.by8 1 255)
  obtain ⟨so, h, -⟩ := C39_bitand hS Demo.iset_reachable (b := ⟨⟨[(Demo.by8 1 255, ())]⟩⟩)
    ⟨[.insert (Demo.by8 1 255)], by decide, rfl⟩
  exact ⟨c, d, so, (C56_double hS Demo.iset_reachable hc hd rfl rfl h).1, hc, hd⟩
example : ∃ ab aab ca cb cab caab x y : RangeInclusiveSet (UIntW 8),
    Demo.iset.bitOr Demo.u8 Demo.iset' = .ok ab ∧
    Demo.iset.bitAnd Demo.u8 Demo.iset' = .ok aab ∧
    Complement Demo.u8 Demo.iset (Demo.by8 1 255) ca ∧
    Complement Demo.u8 Demo.iset' (Demo.by8 1 255) cb ∧
    Complement Demo.u8 ab (Demo.by8 1 255) cab ∧ Complement Demo.u8 aab (Demo.by8 1 255) caab ∧
    ca.bitAnd Demo.u8 cb = .ok x ∧ ca.bitOr Demo.u8 cb = .ok y ∧
    cab.eq x = true ∧ caab.eq y = true := by
  have hS := Demo.u8_lawful
  have ra := Demo.iset_reachable
  have rb := Demo.iset'_reachable
  obtain ⟨ab, h1, r1, -⟩ := C39_bitor hS ra rb
  obtain ⟨aab, h2, r2, -⟩ := C39_bitand hS ra rb
  obtain ⟨ca, hca⟩ := complement_exists hS ra (Demo.by8 1 255)
  obtain ⟨cb, hcb⟩ := complement_exists hS rb (Demo.by8 1 255)
  obtain ⟨cab, hcab⟩ := complement_exists hS r1 (Demo.by8 1 255)
  obtain ⟨caab, hcaab⟩ := complement_exists hS r2 (Demo.by8 1 255)
  obtain ⟨x, hx, -⟩ := C39_bitand hS (hca.spec hS ra).1 (hcb.spec hS rb).1
  obtain ⟨y, hy, -⟩ := C39_bitor hS (hca.spec hS ra).1 (hcb.spec hS rb).1
  exact ⟨ab, aab, ca, cb, cab, caab, x, y, h1, h2, hca, hcb, hcab, hcaab, hx, hy,
    C56_de_morgan hS ra rb h1 h2 hca hcb hcab hcaab hx hy⟩
example : ∃ c, Complement Demo.u8 Demo.iset (Demo.by8 1 255) c ∧ c.eq isetGaps = true := by
  obtain ⟨c, hc⟩ := complement_exists Demo.u8_lawful Demo.iset_reachable (Demo.by8 1 255)
  exact ⟨c, hc, C56_remove_all Demo.u8_lawful Demo.iset_reachable hc rfl rfl rfl⟩

end Inclusive
end Verif.Props

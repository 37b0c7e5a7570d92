import Verif.Props.Correspond
import Verif.Props.Iter
import Verif.Props.IIter
import Verif.Props.OpsExact

/-!
# C89: half-open and inclusive containers agree in their queries and set operations
-/
set_option linter.unusedSectionVars false
set_option linter.unusedVariables false

namespace Verif.Props
open Spec
variable {K : Type} [LE K] [LT K] [DecidableLE K] [DecidableLT K]
  [Std.IsLinearPreorder K] [Std.LawfulOrderLT K] {V : Type} [BEq V] [PartialEquivBEq V]

/-- The half-open map stores the ranges of the inclusive one, `a..b+1` for `a..=b`, with the same
values; none of them ends at the greatest key. -/
structure Twins (succ : K → K) (m : RangeInclusiveMap K V) (m' : RangeMap K V) : Prop where
  entries : m'.iter = m.iter.map fun e => (half succ e.1, e.2)
  stops : ∀ e ∈ m.iter, ∃ b, e.1.stop < b

/-- The same for sets. -/
structure SetTwins (succ : K → K) (s : RangeInclusiveSet K) (s' : RangeSet K) : Prop where
  ranges : s'.iter = s.iter.map (half succ)
  stops : ∀ r ∈ s.iter, ∃ b, r.stop < b

/-- The same ranges in the same order, up to keys that compare equal. -/
def SameRanges (l l' : List (Range K)) : Prop :=
  l.length = l'.length ∧
    ∀ p ∈ l.zip l', keq p.1.start p.2.start = true ∧ keq p.1.stop p.2.stop = true

/-- When keys that compare equal are equal, they are the same lists. -/
theorem SameRanges.eq (hk : ∀ a b : K, a ≤ b → b ≤ a → a = b) : ∀ {l l' : List (Range K)},
    SameRanges l l' → l = l'
  | [], [], _ => rfl
  | [], _ :: _, h => by cases h.1
  | _ :: _, [], h => by cases h.1
  | ⟨a, b⟩ :: t, ⟨a', b'⟩ :: t', h => by
    have h1 := h.2 (⟨a, b⟩, ⟨a', b'⟩) (by simp)
    simp only [keq, Bool.and_eq_true, decide_eq_true_eq] at h1
    have := SameRanges.eq hk (l := t) (l' := t')
      ⟨by simpa using h.1, fun p hp => h.2 p (by simp [hp])⟩
    rw [hk a a' h1.1.1 h1.1.2, hk b b' h1.2.1 h1.2.2, this]

theorem sameRanges_of_iterEq : ∀ {l l' : List (Range K × Unit)},
    iterEq RangeMap.entryEq l l' = true → SameRanges (l.map (·.1)) (l'.map (·.1))
  | [], [], _ => ⟨rfl, by simp⟩
  | [], _ :: _, h => by simp [iterEq] at h
  | _ :: _, [], h => by simp [iterEq] at h
  | a :: t, a' :: t', h => by
    simp only [iterEq, RangeMap.entryEq, Bool.and_eq_true] at h
    obtain ⟨h1, h2⟩ := sameRanges_of_iterEq h.2
    refine ⟨by simpa using h1, fun p hp => ?_⟩
    simp only [List.map_cons, List.zip_cons_cons, List.mem_cons] at hp
    rcases hp with rfl | hp
    · exact h.1.1
    · exact h2 p hp

/-- Separated ranges are determined by the keys they cover. -/
theorem sameRanges_of_cover {l l' : List (Range K)} (h1 : ∀ r ∈ l, r.start < r.stop)
    (h2 : l.Pairwise fun r r' => r.stop < r'.start) (h3 : ∀ r ∈ l', r.start < r.stop)
    (h4 : l'.Pairwise fun r r' => r.stop < r'.start)
    (h : ∀ k, (∃ r ∈ l, r.start ≤ k ∧ k < r.stop) ↔ ∃ r ∈ l', r.start ≤ k ∧ k < r.stop) :
    SameRanges l l' := by
  have hi : ∀ l : List (Range K), RangeSet.iter ⟨⟨l.map fun r => (r, ())⟩⟩ = l := by
    intro l
    simp [RangeSet.iter, RangeMap.iter, Function.comp_def]
  have hw := (RangeSet.wf_iff ⟨⟨l.map fun r => (r, ())⟩⟩).2 (by rw [hi]; exact ⟨h1, h2⟩)
  have hw' := (RangeSet.wf_iff ⟨⟨l'.map fun r => (r, ())⟩⟩).2 (by rw [hi]; exact ⟨h3, h4⟩)
  have he := (RangeSet.eq_iff_has hw hw').2 fun k => by
    rw [Bool.eq_iff_iff, RangeSet.has_iff, RangeSet.has_iff, hi, hi]
    exact h k
  have := sameRanges_of_iterEq he
  simpa [RangeMap.iter, Function.comp_def] using this

section
variable {succ : K → K} (hsucc : ∀ a b, a < b → Next a (succ a))
include hsucc

theorem half_cover_iff {l : List (RangeInclusive K)} (hl : ∀ r ∈ l, ∃ b, r.stop < b) (k : K) :
    (∃ r ∈ l.map (half succ), r.start ≤ k ∧ k < r.stop) ↔ ∃ r ∈ l, r.start ≤ k ∧ k ≤ r.stop := by
  constructor
  · rintro ⟨r, hr, h⟩
    obtain ⟨x, hx, rfl⟩ := List.mem_map.1 hr
    obtain ⟨b, hb⟩ := hl x hx
    have h1 := (hsucc _ _ hb).2 k
    refine ⟨x, hx, h.1, ?_⟩
    have h2 : k < succ x.stop := h.2
    grind
  · rintro ⟨x, hx, h⟩
    obtain ⟨b, hb⟩ := hl x hx
    have h1 := (hsucc _ _ hb).1
    refine ⟨_, List.mem_map.2 ⟨x, hx, rfl⟩, h.1, ?_⟩
    show k < succ x.stop
    grind

theorem half_separated {l : List (RangeInclusive K)} (hl : ∀ r ∈ l, ∃ b, r.stop < b)
    (h1 : ∀ r ∈ l, r.start ≤ r.stop)
    (h2 : l.Pairwise fun r r' => r.stop < r'.start ∧ ¬ Next r.stop r'.start) :
    (∀ r ∈ l.map (half succ), r.start < r.stop) ∧
      (l.map (half succ)).Pairwise fun r r' => r.stop < r'.start := by
  constructor
  · intro r hr
    obtain ⟨x, hx, rfl⟩ := List.mem_map.1 hr
    obtain ⟨b, hb⟩ := hl x hx
    have h3 := (hsucc _ _ hb).1
    have h4 := h1 x hx
    show x.start < succ x.stop
    grind
  · rw [List.pairwise_map]
    refine h2.imp_of_mem fun {a b} ha hb h => ?_
    obtain ⟨c, hc⟩ := hl a ha
    have h3 := hsucc _ _ hc
    have h4 := h3.2 b.start h.1
    show succ a.stop < b.start
    refine Classical.byContradiction fun hn => h.2 ⟨h.1, fun c hc => ?_⟩
    have := h3.2 c hc
    grind

theorem same_half {l : List (RangeInclusive K)} {l' : List (Range K)}
    (hl : ∀ r ∈ l, ∃ b, r.stop < b) (h1 : ∀ r ∈ l, r.start ≤ r.stop)
    (h2 : l.Pairwise fun r r' => r.stop < r'.start ∧ ¬ Next r.stop r'.start)
    (h3 : ∀ r ∈ l', r.start < r.stop) (h4 : l'.Pairwise fun r r' => r.stop < r'.start)
    (h : ∀ k, (∃ r ∈ l', r.start ≤ k ∧ k < r.stop) ↔ ∃ r ∈ l, r.start ≤ k ∧ k ≤ r.stop) :
    SameRanges l' (l.map (half succ)) := by
  obtain ⟨h5, h6⟩ := half_separated hsucc hl h1 h2
  exact sameRanges_of_cover h3 h4 h5 h6 fun k => by rw [h, half_cover_iff hsucc hl]

variable {S : StepFns K} (hS : LawfulSteps S)
include hS

/-- **C89** The maps left by a history and by the same history with half-open ranges (C44) are
twins, if `==` on keys and values is equality. -/
theorem C89_history [LawfulBEq V] (hk : ∀ a b : K, a ≤ b → b ≤ a → a = b)
    (ops : List (Op (RangeInclusive K) V))
    (hx : ∀ op ∈ ops, ∀ r ∈ op.inserted, r.exhausted = false)
    (hn : ∀ op ∈ ops, ∀ r ∈ opRanges op, ∃ b, r.stop < b) :
    Twins succ (RangeInclusiveMap.run S ops) (RangeMap.run (ops.map (halfOp succ))) :=
  ⟨C44_entries_equal hS hsucc hk ops hx hn,
    fun e he => ⟨_, (half_stored hS hsucc ops hx hn e he).1⟩⟩

/-- **C89** Twins answer `get` alike. -/
theorem C89_get {m : RangeInclusiveMap K V} {m' : RangeMap K V}
    (hm : RangeInclusiveMap.Reachable S m)
    (hm' : RangeMap.Reachable m') (h : Twins succ m m') (k : K) : m'.get k = m.get k := by
  have hw := hm.wf hS
  have hst : ∀ e ∈ m.iter, Next e.1.stop (succ e.1.stop) := fun e he => by
    obtain ⟨b, hb⟩ := h.stops e he
    exact hsucc _ _ hb
  have h1 : m'.look k = m.look k := by
    apply Option.ext
    intro w
    have h2 := RangeMap.look_eq_some (m := m') hm'.wf.sep k w
    have h3 := RangeInclusiveMap.look_eq_some (m := m) hw k w
    have h4 : m'.btm = m.btm.map fun e => (half succ e.1, e.2) := h.entries
    rw [h2, h3, h4]
    exact half_maps hst k w
  rw [RangeMap.get_look hm'.wf.sep, RangeInclusiveMap.get_look hw, h1]

/-- **C89** Twins have as many ranges, and the same first and last one. -/
theorem C89_ends {m : RangeInclusiveMap K V} {m' : RangeMap K V} (h : Twins succ m m') :
    m'.len = m.len ∧ m'.isEmpty = m.isEmpty ∧
    m'.firstRangeValue = m.firstRangeValue.map (fun e => (half succ e.1, e.2)) ∧
    m'.lastRangeValue = m.lastRangeValue.map (fun e => (half succ e.1, e.2)) := by
  have h4 : m'.btm = m.btm.map fun e => (half succ e.1, e.2) := h.entries
  refine ⟨?_, ?_, ?_, ?_⟩
  · simp [RangeMap.len, RangeInclusiveMap.len, h4]
  · cases hb : m.btm <;> simp [RangeMap.isEmpty, RangeInclusiveMap.isEmpty, h4, hb]
  · simp [RangeMap.firstRangeValue, RangeInclusiveMap.firstRangeValue, h4]
  · simp [RangeMap.lastRangeValue, RangeInclusiveMap.lastRangeValue, h4]

/-- **C89** `overlapping` yields the same entries of twins, in the same order; `overlaps` agrees. -/
theorem C89_overlapping {m : RangeInclusiveMap K V} {m' : RangeMap K V}
    (hm : RangeInclusiveMap.ReachableAny S m)
    (hm' : RangeMap.Reachable m') (h : Twins succ m m') (q : RangeInclusive K)
    (hq : ∃ b, q.stop < b) :
    (∃ o o' l, m.overlapping q = .ok o ∧ Yields RangeInclusiveMap.Overlapping.next o l ∧
      m'.overlapping (half succ q) = .ok o' ∧
      Yields RangeMap.Overlapping.next o' (l.map fun e => (half succ e.1, e.2))) ∧
    m'.overlaps (half succ q) = m.overlaps q := by
  have hf : (m'.iter.filter fun e => decide ((half succ q).start < e.1.stop) &&
        decide (e.1.start < (half succ q).stop)) =
      (m.iter.filter fun e => decide (q.start ≤ e.1.stop) && decide (e.1.start ≤ q.stop)).map
        fun e => (half succ e.1, e.2) := by
    rw [h.entries, List.filter_map]
    congr 1
    apply List.filter_congr
    intro e he
    obtain ⟨b, hb⟩ := h.stops e he
    obtain ⟨b', hb'⟩ := hq
    have h1 := hsucc _ _ hb
    have h2 := hsucc _ _ hb'
    have h3 := h1.1
    have h4 := h2.1
    have h5 := h1.2 q.start
    have h6 := h2.2 e.1.start
    simp only [Function.comp, half]
    congr 1 <;> apply decide_eq_decide.2 <;> grind
  obtain ⟨o, o1, o2⟩ := C32_overlapping_exact hS hm q
  obtain ⟨o', p1, p2⟩ := C13_overlapping_exact hm' (half succ q)
  refine ⟨⟨o, o', _, o1, o2, p1, ?_⟩, ?_⟩
  · rw [← hf]; exact p2
  · obtain ⟨b, b1, b2⟩ := C32_overlaps hS hm q
    obtain ⟨b', c1, c2⟩ := C13_overlaps hm' (half succ q)
    rw [b1, c1]
    congr 1
    rw [Bool.eq_iff_iff, b2, c2]
    have e1 : (∃ e ∈ m'.iter, (half succ q).start < e.1.stop ∧ e.1.start < (half succ q).stop) ↔
        (m'.iter.filter fun e => decide ((half succ q).start < e.1.stop) &&
        decide (e.1.start < (half succ q).stop)) ≠ [] := by
      simp
    rw [e1, hf]
    simp

/-- **C89** `gaps` yields the same ranges for twins. -/
theorem C89_gaps {m : RangeInclusiveMap K V} {m' : RangeMap K V}
    (hm : RangeInclusiveMap.Reachable S m)
    (hm' : RangeMap.Reachable m') (h : Twins succ m m') (q : RangeInclusive K)
    (hq : ∃ b, q.stop < b) :
    ∃ g g' l l', m.gaps q = .ok g ∧ YieldsE (RangeInclusiveMap.Gaps.next S) g l ∧
      m'.gaps (half succ q) = .ok g' ∧ Yields RangeMap.Gaps.next g' l' ∧
      SameRanges l' (l.map (half succ)) := by
  obtain ⟨b, hb⟩ := hq
  obtain ⟨g, l, a1, a2, a3⟩ := C31_gaps_exact hS hm q
  obtain ⟨g0, l0, b1, b2, b3, b4⟩ := C31_gaps_ordered hS hm.any q
  obtain ⟨g', l', c1, c2, c3⟩ := C10_gaps_exact hm' (half succ q)
  obtain ⟨g1, l1, d1, d2, d3, d4⟩ := C11_gaps_ordered hm' (half succ q)
  obtain rfl : g0 = g := Except.ok.inj (b1.symm.trans a1)
  obtain rfl : g1 = g' := Except.ok.inj (d1.symm.trans c1)
  obtain rfl : l0 = l := YieldsE.unique b2 a2
  obtain rfl : l1 = l' := Yields.unique d2 c2
  refine ⟨_, _, _, _, a1, a2, c1, c2, same_half hsucc ?_ (fun r hr => (b3 r hr).1) ?_
    (fun r hr => (d3 r hr).1) (d4.imp fun h => h.1) ?_⟩
  · intro r hr
    exact ⟨b, by have := (b3 r hr).2.2.2; grind⟩
  · refine b4.imp ?_
    rintro r r' ⟨e, he, h1, h2, h3⟩
    refine ⟨by have := h1.1; grind, fun hn => ?_⟩
    have := hn.2 e.1.start h1.1
    grind
  · intro k
    rw [c3, a3, C89_get hsucc hS hm hm' h]
    have h1 := (hsucc _ _ hb).1
    have h2 := (hsucc _ _ hb).2 k
    show q.start ≤ k ∧ k < succ q.stop ∧ _ ↔ _
    constructor
    · rintro ⟨x, y, z⟩; exact ⟨x, by grind, z⟩
    · rintro ⟨x, y, z⟩; exact ⟨x, by grind, z⟩

/-! ## Sets -/

/-- The same call on a set of the other kind. -/
def halfSetOp (succ : K → K) : SetOp (RangeInclusive K) → SetOp (Range K)
  | .insert r => .insert (half succ r)
  | .remove r => .remove (half succ r)
  | .clear => .clear
  | .extend items => .extend (items.map (half succ))

/-- The ranges a call mentions. -/
def setOpRanges : SetOp (RangeInclusive K) → List (RangeInclusive K)
  | .insert r => [r]
  | .remove r => [r]
  | .clear => []
  | .extend items => items

omit hsucc hS in
theorem SetTwins.maps {s : RangeInclusiveSet K} {s' : RangeSet K} :
    SetTwins succ s s' ↔ Twins succ s.rm s'.rm := by
  have hi : ∀ l : List (Range K × Unit), l = (l.map (·.1)).map fun r => (r, ()) := by
    intro l; simp [Function.comp_def]
  constructor
  · rintro ⟨h1, h2⟩
    refine ⟨?_, fun e he => h2 e.1 (List.mem_map.2 ⟨e, he, rfl⟩)⟩
    rw [hi s'.rm.iter]
    simp only [RangeSet.iter, RangeInclusiveSet.iter] at h1
    rw [h1]
    simp [Function.comp_def]
  · rintro ⟨h1, h2⟩
    refine ⟨?_, fun r hr => ?_⟩
    · simp only [RangeSet.iter, RangeInclusiveSet.iter, h1]
      simp [Function.comp_def]
    · obtain ⟨e, he, rfl⟩ := List.mem_map.1 hr
      exact h2 e he

/-- **C89** The sets left by a history and by the same history with half-open ranges are twins, if
keys that compare equal are equal. -/
theorem C89_set_history (hk : ∀ a b : K, a ≤ b → b ≤ a → a = b)
    (ops : List (SetOp (RangeInclusive K)))
    (hx : ∀ op ∈ ops, ∀ r ∈ op.inserted, r.exhausted = false)
    (hn : ∀ op ∈ ops, ∀ r ∈ setOpRanges op, ∃ b, r.stop < b) :
    SetTwins succ (RangeInclusiveSet.run S ops) (RangeSet.run (ops.map (halfSetOp succ))) := by
  rw [SetTwins.maps, RangeInclusiveSet.run_rm, RangeSet.run_rm]
  have : (ops.map (halfSetOp succ)).map setOpToOp =
      (ops.map setOpToOp).map (halfOp succ) := by
    rw [List.map_map, List.map_map]
    apply List.map_congr_left
    intro op _
    cases op <;> simp [halfSetOp, halfOp, setOpToOp, setOpToOp,
      Function.comp_def]
  rw [this]
  refine C89_history hsucc hS hk _ ?_ ?_
  · intro op hop
    obtain ⟨o, ho, rfl⟩ := List.mem_map.1 hop
    rw [setOpToOp_inserted]
    exact hx o ho
  · intro op hop r hr
    obtain ⟨o, ho, rfl⟩ := List.mem_map.1 hop
    refine hn o ho r ?_
    cases o <;> simpa [opRanges, setOpRanges, setOpToOp, Function.comp_def] using hr

/-- **C89** Twins contain the same keys. -/
theorem C89_contains {s : RangeInclusiveSet K} {s' : RangeSet K}
    (hs : RangeInclusiveSet.Reachable S s) (hs' : RangeSet.Reachable s')
    (h : SetTwins succ s s') (k : K) : s'.contains k = s.contains k := by
  have := C89_get hsucc hS hs.map hs'.map (SetTwins.maps.1 h) k
  simp only [RangeSet.contains, RangeInclusiveSet.contains, RangeMap.containsKey,
    RangeInclusiveMap.containsKey, this]

theorem twins_has {s : RangeInclusiveSet K} {s' : RangeSet K}
    (h : SetTwins succ s s') (k : K) : s'.has k = s.has k := by
  rw [Bool.eq_iff_iff, RangeSet.has_iff, RangeInclusiveSet.has_iff, h.ranges]
  exact half_cover_iff hsucc h.stops k

/-- **C89** `intersection` of twins yields the same ranges. -/
theorem C89_intersection {a b : RangeInclusiveSet K} {a' b' : RangeSet K}
    (ha : RangeInclusiveSet.Reachable S a) (hb : RangeInclusiveSet.Reachable S b)
    (ha' : RangeSet.Reachable a') (hb' : RangeSet.Reachable b')
    (ta : SetTwins succ a a') (tb : SetTwins succ b b') :
    ∃ l l', Yields Intersection.next (a.intersection b) l ∧
      Yields Intersection.next (a'.intersection b') l' ∧
      SameRanges l' (l.map (half succ)) := by
  obtain ⟨l, h1, h2, h3, h4⟩ := Inclusive.C38_intersection hS ha hb
  obtain ⟨l', k1, k2, k3, k4⟩ := C38_intersection ha' hb'
  refine ⟨l, l', h1, k1, same_half hsucc ?_ (fun r hr => (h2 r hr).1) h3 k2 k3 fun k => ?_⟩
  · intro r hr
    have := (h4 r.stop).1 ⟨r, hr, (h2 r hr).1, by grind⟩
    have h5 := this.1
    rw [RangeInclusiveSet.contains_eq (ha.wf hS)] at h5
    obtain ⟨x, hx, h6⟩ := (RangeInclusiveSet.has_iff _ _).1 (Except.ok.inj h5)
    obtain ⟨c, hc⟩ := ta.stops x hx
    exact ⟨c, by grind⟩
  · rw [k4, h4, C89_contains hsucc hS ha ha' ta, C89_contains hsucc hS hb hb' tb]

/-- **C89** `union` of twins yields the same ranges. -/
theorem C89_union {a b : RangeInclusiveSet K} {a' b' : RangeSet K}
    (ha : RangeInclusiveSet.Reachable S a) (hb : RangeInclusiveSet.Reachable S b)
    (ha' : RangeSet.Reachable a') (hb' : RangeSet.Reachable b')
    (ta : SetTwins succ a a') (tb : SetTwins succ b b') :
    ∃ l l', Yields Union.next (a.union b) l ∧
      Yields Union.next (a'.union b') l' ∧
      SameRanges l' (l.map (half succ)) := by
  obtain ⟨l, h1, h2⟩ := Inclusive.C81_union_division hS ha hb
  obtain ⟨l', k1, k2⟩ := C81_union_division ha' hb'
  refine ⟨l, l', h1, k1, C81_division_unique k2 ?_⟩
  have hx : ∀ x ∈ a.iter ++ b.iter, ∃ c, x.stop < c := by
    intro x hx
    rcases List.mem_append.1 hx with hx | hx
    · exact ta.stops x hx
    · exact tb.stops x hx
  have hr : ∀ r ∈ l, ∃ c, r.stop < c := by
    intro r hr
    obtain ⟨x, x1, x2⟩ := h2.covered r hr r.stop (h2.nonempty r hr) (by grind)
    obtain ⟨c, hc⟩ := hx x x1
    exact ⟨c, by grind⟩
  have e : a'.iter ++ b'.iter = (a.iter ++ b.iter).map (half succ) := by
    rw [ta.ranges, tb.ranges, List.map_append]
  rw [e]
  refine ⟨?_, ?_, ?_, ?_, ?_⟩
  · intro r hr'
    obtain ⟨x, hx', rfl⟩ := List.mem_map.1 hr'
    obtain ⟨c, hc⟩ := hr x hx'
    have h3 := (hsucc _ _ hc).1
    have h4 := h2.nonempty x hx'
    show x.start < succ x.stop
    grind
  · rw [List.pairwise_map]
    refine h2.ordered.imp_of_mem fun {p q} hp hq h => ?_
    obtain ⟨c, hc⟩ := hr p hp
    exact (hsucc _ _ hc).2 _ h
  · intro r hr' k k1 k2
    obtain ⟨x, hx', rfl⟩ := List.mem_map.1 hr'
    have h3 := (half_cover_iff hsucc hr k).1 ⟨_, hr', k1, k2⟩
    obtain ⟨y, hy, y1, y2⟩ := h3
    exact (half_cover_iff hsucc hx k).2 (h2.covered y hy k y1 y2)
  · intro r hr'
    obtain ⟨x, hx', rfl⟩ := List.mem_map.1 hr'
    obtain ⟨y, hy, y1, y2⟩ := h2.uncut x hx'
    refine ⟨_, List.mem_map.2 ⟨y, hy, rfl⟩, y1, ?_⟩
    obtain ⟨c, hc⟩ := hx x hx'
    obtain ⟨d, hd⟩ := hr y hy
    have h3 := (hsucc _ _ hc).2 (succ y.stop)
    have h4 := (hsucc _ _ hd).1
    show succ x.stop ≤ succ y.stop
    grind
  · intro r hr' p p1 p2
    obtain ⟨x, hx', rfl⟩ := List.mem_map.1 hr'
    obtain ⟨d, hd⟩ := hr x hx'
    have h3 := (hsucc _ _ hd).2 p
    have p2 : p < succ x.stop := p2
    obtain ⟨y, hy, y1, y2⟩ := h2.finest x hx' p p1 (by grind)
    obtain ⟨c, hc⟩ := hx y hy
    have h4 := (hsucc _ _ hc).1
    refine ⟨_, List.mem_map.2 ⟨y, hy, rfl⟩, y1, ?_⟩
    show p < succ y.stop
    grind

/-- **C89** `|` and `&` of twins never panic and store the same ranges. -/
theorem C89_bitops {a b : RangeInclusiveSet K} {a' b' : RangeSet K}
    (ha : RangeInclusiveSet.Reachable S a) (hb : RangeInclusiveSet.Reachable S b)
    (ha' : RangeSet.Reachable a') (hb' : RangeSet.Reachable b')
    (ta : SetTwins succ a a') (tb : SetTwins succ b b') :
    (∃ c c', a.bitOr S b = .ok c ∧ a'.bitOr b' = .ok c' ∧
      SameRanges c'.iter (c.iter.map (half succ))) ∧
    (∃ c c', a.bitAnd S b = .ok c ∧ a'.bitAnd b' = .ok c' ∧
      SameRanges c'.iter (c.iter.map (half succ))) := by
  have key : ∀ {c : RangeInclusiveSet K} {c' : RangeSet K},
      RangeInclusiveSet.Reachable S c → RangeSet.Reachable c' →
      (∀ k, c'.has k = c.has k) → (∀ k, c.has k = true → a.has k = true ∨ b.has k = true) →
      SameRanges c'.iter (c.iter.map (half succ)) := by
    intro c c' hc hc' h hs
    obtain ⟨w1, w2⟩ := (RangeInclusiveSet.wf_iff c).1 (hc.wf hS)
    obtain ⟨v1, v2⟩ := (RangeSet.wf_iff c').1 hc'.wf
    refine same_half hsucc ?_ (fun r hr => (w1 r hr).1) w2 v1 v2 fun k => ?_
    · intro r hr
      have h1 := hs r.stop ((RangeInclusiveSet.has_iff _ _).2 ⟨r, hr, (w1 r hr).1, by grind⟩)
      rcases h1 with h1 | h1
      · obtain ⟨x, hx, h6⟩ := (RangeInclusiveSet.has_iff _ _).1 h1
        obtain ⟨d, hd⟩ := ta.stops x hx
        exact ⟨d, by grind⟩
      · obtain ⟨x, hx, h6⟩ := (RangeInclusiveSet.has_iff _ _).1 h1
        obtain ⟨d, hd⟩ := tb.stops x hx
        exact ⟨d, by grind⟩
    · rw [← RangeSet.has_iff, ← RangeInclusiveSet.has_iff, h]
  constructor
  · obtain ⟨c, h1, -⟩ := Inclusive.C39_bitor hS ha hb
    obtain ⟨c', k1, -⟩ := C39_bitor ha' hb'
    obtain ⟨h2, h3⟩ := Inclusive.or_has hS ha hb h1
    obtain ⟨k2, k3⟩ := or_has ha' hb' k1
    refine ⟨c, c', h1, k1, key h2 k2 (fun k => ?_) fun k hk => ?_⟩
    · rw [h3, k3, twins_has hsucc hS ta, twins_has hsucc hS tb]
    · simpa [h3] using hk
  · obtain ⟨c, h1, -⟩ := Inclusive.C39_bitand hS ha hb
    obtain ⟨c', k1, -⟩ := C39_bitand ha' hb'
    obtain ⟨h2, h3⟩ := Inclusive.and_has hS ha hb h1
    obtain ⟨k2, k3⟩ := and_has ha' hb' k1
    refine ⟨c, c', h1, k1, key h2 k2 (fun k => ?_) fun k hk => ?_⟩
    · rw [h3, k3, twins_has hsucc hS ta, twins_has hsucc hS tb]
    · rw [h3, Bool.and_eq_true] at hk
      exact .inl hk.1

end

theorem u8_antisymm (a b : UIntW 8) (h1 : a ≤ b) (h2 : b ≤ a) : a = b := by
  have h1 : a.val ≤ b.val := h1
  have h2 : b.val ≤ a.val := h2
  obtain ⟨a⟩ := a
  obtain ⟨b⟩ := b
  simp only [UIntW.val] at h1 h2
  congr 1
  exact BitVec.eq_of_toNat_eq (by omega)

/-- The history of C44's example leaves twins. -/
theorem corr_twins : Twins succ8 (RangeInclusiveMap.run Demo.u8 corrOps)
    (RangeMap.run (corrOps.map (halfOp succ8))) :=
  C89_history succ8_next Demo.u8_lawful u8_antisymm corrOps (by decide)
    (fun op hop r hr => ⟨⟨255⟩, (by decide : ∀ op ∈ corrOps, ∀ r ∈ opRanges op,
      r.stop < (⟨255⟩ : UIntW 8)) op hop r hr⟩)

-- `5..=30` overlaps three of its five ranges
example : ((RangeInclusiveMap.run Demo.u8 corrOps).overlapping (Demo.by8 5 30)).toOption.bind
    (fun o => (drain RangeInclusiveMap.Overlapping.next 9 o).toOption) =
      some ((RangeInclusiveMap.run Demo.u8 corrOps).iter.tail.take 3) := by rfl
example : ∃ g g' l l', (RangeInclusiveMap.run Demo.u8 corrOps).gaps (Demo.by8 0 60) = .ok g ∧
      YieldsE (RangeInclusiveMap.Gaps.next Demo.u8) g l ∧
      (RangeMap.run (corrOps.map (halfOp succ8))).gaps (half succ8 (Demo.by8 0 60)) = .ok g' ∧
      Yields RangeMap.Gaps.next g' l' ∧ SameRanges l' (l.map (half succ8)) :=
  C89_gaps succ8_next Demo.u8_lawful ⟨corrOps, by decide, rfl⟩ ⟨_, rfl⟩ corr_twins _
    ⟨⟨61⟩, by decide⟩
example : ((RangeInclusiveMap.run Demo.u8 corrOps).gaps (Demo.by8 0 60)).toOption.bind
    (fun g => (drainE (RangeInclusiveMap.Gaps.next Demo.u8) 9 g).toOption) =
      some [Demo.by8 3 4, Demo.by8 15 19] := by rfl
example : ((RangeMap.run (corrOps.map (halfOp succ8))).gaps ⟨⟨0⟩, ⟨61⟩⟩).toOption.bind
    (fun g => (drain RangeMap.Gaps.next 9 g).toOption) =
      some [⟨⟨3⟩, ⟨5⟩⟩, ⟨⟨15⟩, ⟨20⟩⟩] := by rfl

/-- A history of a set. -/
def corrSetA : List (SetOp (RangeInclusive (UIntW 8))) :=
  [.insert (Demo.by8 0 9), .extend [Demo.by8 20 99, Demo.by8 120 130], .remove (Demo.by8 40 50)]

/-- Another one. -/
def corrSetB : List (SetOp (RangeInclusive (UIntW 8))) :=
  [.insert (Demo.by8 5 25), .insert (Demo.by8 45 47), .insert (Demo.by8 131 254)]

theorem corrSet_twins : SetTwins succ8 (RangeInclusiveSet.run Demo.u8 corrSetA)
      (RangeSet.run (corrSetA.map (halfSetOp succ8))) ∧
    SetTwins succ8 (RangeInclusiveSet.run Demo.u8 corrSetB)
      (RangeSet.run (corrSetB.map (halfSetOp succ8))) :=
  ⟨C89_set_history succ8_next Demo.u8_lawful u8_antisymm _ (by decide)
    (fun op hop r hr => ⟨⟨255⟩, (by decide : ∀ op ∈ corrSetA, ∀ r ∈ setOpRanges op,
      r.stop < (⟨255⟩ : UIntW 8)) op hop r hr⟩),
   C89_set_history succ8_next Demo.u8_lawful u8_antisymm _ (by decide)
    (fun op hop r hr => ⟨⟨255⟩, (by decide : ∀ op ∈ corrSetB, ∀ r ∈ setOpRanges op,
      r.stop < (⟨255⟩ : UIntW 8)) op hop r hr⟩)⟩

example : ∃ l l', Yields Union.next
        ((RangeInclusiveSet.run Demo.u8 corrSetA).union (RangeInclusiveSet.run Demo.u8 corrSetB))
          l ∧
      Yields Union.next ((RangeSet.run (corrSetA.map (halfSetOp succ8))).union
        (RangeSet.run (corrSetB.map (halfSetOp succ8)))) l' ∧
      SameRanges l' (l.map (half succ8)) :=
  C89_union succ8_next Demo.u8_lawful ⟨corrSetA, by decide, rfl⟩ ⟨corrSetB, by decide, rfl⟩
    ⟨_, rfl⟩ ⟨_, rfl⟩ corrSet_twins.1 corrSet_twins.2


example : ((RangeMap.run (corrOps.map (halfOp succ8))).get ⟨7⟩) =
    (RangeInclusiveMap.run Demo.u8 corrOps).get ⟨7⟩ :=
  C89_get succ8_next Demo.u8_lawful ⟨corrOps, by decide, rfl⟩ ⟨_, rfl⟩ corr_twins ⟨7⟩
example := C89_ends succ8_next Demo.u8_lawful corr_twins
example := C89_overlapping succ8_next Demo.u8_lawful ⟨corrOps, rfl⟩ ⟨_, rfl⟩ corr_twins
  (Demo.by8 5 30) ⟨⟨31⟩, by decide⟩
example := C89_contains succ8_next Demo.u8_lawful ⟨corrSetA, by decide, rfl⟩ ⟨_, rfl⟩ corrSet_twins.1
  ⟨7⟩
example := C89_intersection succ8_next Demo.u8_lawful ⟨corrSetA, by decide, rfl⟩
  ⟨corrSetB, by decide, rfl⟩ ⟨_, rfl⟩ ⟨_, rfl⟩ corrSet_twins.1 corrSet_twins.2
example := C89_bitops succ8_next Demo.u8_lawful ⟨corrSetA, by decide, rfl⟩
  ⟨corrSetB, by decide, rfl⟩ ⟨_, rfl⟩ ⟨_, rfl⟩ corrSet_twins.1 corrSet_twins.2

end Verif.Props

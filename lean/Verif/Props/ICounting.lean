import Verif.Props.Counting
import Verif.Props.IIter

/-!
# C98: how many ranges there are (inclusive ranges)
-/
set_option linter.unusedSectionVars false

namespace Verif.Spec
variable {K V : Type} [LE K] [LT K] [DecidableLE K] [DecidableLT K]

/-- the two ranges share a key (for non-empty ranges) -/
def ishares (x y : RangeInclusive K) : Bool := decide (x.start ≤ y.stop ∧ y.start ≤ x.stop)

/-- `y` starts at the key right after the end of `x` -/
def follows (S : StepFns K) (x y : RangeInclusive K) : Bool :=
  decide (x.stop < y.start) &&
    match S.addOne x.stop with
    | .ok s => decide (s ≤ y.start ∧ y.start ≤ s)
    | .error _ => false

/-- the two ranges share a key or there is no key between them (for non-empty ranges) -/
def inears (S : StepFns K) (x y : RangeInclusive K) : Bool :=
  ishares x y || follows S x y || follows S y x

/-- into how many ranges `x` falls if the keys of `r` are taken away -/
def ileftover (r x : RangeInclusive K) : Nat :=
  if ishares r x then (if x.start < r.start then 1 else 0) + (if r.stop < x.stop then 1 else 0)
  else 1

/-- none of the entries covers the key -/
def ifree (l : List (RangeInclusive K × V)) (k : K) : Bool :=
  !l.any fun e => decide (e.1.start ≤ k ∧ k ≤ e.1.stop)

/-- none of the entries covers the key after `k` -/
def ifreeAfter (S : StepFns K) (l : List (RangeInclusive K × V)) (k : K) : Bool :=
  match S.addOne k with
  | .ok s => ifree l s
  | .error _ => false

end Verif.Spec

namespace Verif.Props.Inclusive
open Spec

variable {K : Type} [LE K] [LT K] [DecidableLE K] [DecidableLT K]
  [Std.IsLinearPreorder K] [Std.LawfulOrderLT K] {S : StepFns K}

theorem follows_iff (hS : LawfulSteps S) (x y : RangeInclusive K) :
    follows S x y = true ↔ Next x.stop y.start := by
  unfold follows
  rw [Bool.and_eq_true, decide_eq_true_eq]
  constructor
  · rintro ⟨h1, h2⟩
    obtain ⟨c, h3, h4⟩ := hS.addOne _ _ h1
    rw [h3] at h2
    simp only [decide_eq_true_eq] at h2
    exact ⟨h1, fun d hd => by have := h4.2 d hd; grind⟩
  · intro h
    obtain ⟨c, h3, h4⟩ := hS.addOne _ _ h.1
    refine ⟨h.1, ?_⟩
    rw [h3]
    simp only [decide_eq_true_eq]
    exact ⟨h4.2 _ h.1, h.2 _ h4.1⟩

section
open RangeInclusiveSet

theorem meet_eq_shares (x y : RangeInclusive K) (hx : x.start ≤ x.stop) (hy : y.start ≤ y.stop) :
    OpsLaws.meet x y = ishares x y := by
  rw [Bool.eq_iff_iff, OpsLaws.meet_iff (L := RangeInclusive.laws) hx hy, ishares,
    decide_eq_true_eq]
  simp only [RangeInclusive.laws]
  grind

theorem set_sorted (hS : LawfulSteps S) {a : RangeInclusiveSet K} (ha : Reachable S a) :
    RangeInclusive.laws.Sorted a.iter := by
  have hs := (wf_iff a).1 (ha.wf hS)
  exact ⟨fun r hr => (hs.1 r hr).2, fun r hr => (hs.1 r hr).1,
    hs.2.imp fun {a b} h (hb : b.start ≤ a.stop) => by grind⟩

theorem set_len (a : RangeInclusiveSet K) : a.len = a.iter.length := by
  simp [iter, RangeInclusiveMap.iter, len, RangeInclusiveMap.len]

/-- **C98** `union` yields as many ranges as the two sets have, less one for every pair of a range
of the one and a range of the other that share a key. -/
theorem C98_union (hS : LawfulSteps S) {a b : RangeInclusiveSet K} (ha : Reachable S a)
    (hb : Reachable S b) : ∃ u, Yields Union.next (a.union b) u ∧
      u.length + pairs ishares a.iter b.iter = a.len + b.len := by
  have hs := (wf_iff a).1 (ha.wf hS)
  have hs' := (wf_iff b).1 (hb.wf hS)
  obtain ⟨u, h1, h2⟩ := OpsLaws.union_count (set_sorted hS ha) (set_sorted hS hb)
  refine ⟨u, h1, ?_⟩
  rw [set_len, set_len, ← h2, pairs_congr fun x hx y hy => meet_eq_shares x y (hs.1 x hx).1
    (hs'.1 y hy).1]

/-- **C98** `intersection` yields exactly one range for every pair of a range of the one set and a
range of the other that share a key. -/
theorem C98_intersection (hS : LawfulSteps S) {a b : RangeInclusiveSet K} (ha : Reachable S a)
    (hb : Reachable S b) : ∃ i, Yields Intersection.next (a.intersection b) i ∧
      i.length = pairs ishares a.iter b.iter := by
  have hs := (wf_iff a).1 (ha.wf hS)
  have hs' := (wf_iff b).1 (hb.wf hS)
  obtain ⟨i, h1, h2⟩ := OpsLaws.intersection_count (L := RangeInclusive.laws) _ a.iter b.iter
    (Nat.le_refl _) ⟨fun r hr => (hs.1 r hr).1, hs.2⟩ ⟨fun r hr => (hs'.1 r hr).1, hs'.2⟩
  exact ⟨i, h1, by rw [h2, pairs_congr fun x hx y hy => meet_eq_shares x y (hs.1 x hx).1
    (hs'.1 y hy).1]⟩

/-- **C98** `union` and `intersection` together yield as many ranges as the two sets have.
Hence, unless both sets are empty, `intersection` yields fewer than that. -/
theorem C98_union_intersection (hS : LawfulSteps S) {a b : RangeInclusiveSet K}
    (ha : Reachable S a) (hb : Reachable S b) :
    ∃ u i, Yields Union.next (a.union b) u ∧ Yields Intersection.next (a.intersection b) i ∧
      u.length + i.length = a.len + b.len ∧ (0 < a.len + b.len → i.length < a.len + b.len) := by
  obtain ⟨u, h1, h2⟩ := C98_union hS ha hb
  obtain ⟨i, h3, h4⟩ := C98_intersection hS ha hb
  refine ⟨u, i, h1, h3, by omega, fun hpos => ?_⟩
  have : 0 < u.length := by
    obtain ⟨u', h5, h6⟩ := C81_union_division hS ha hb
    obtain rfl := Yields.unique h1 h5
    obtain ⟨x, hx⟩ : ∃ x, x ∈ a.iter ++ b.iter := by
      apply List.exists_mem_of_length_pos
      rw [List.length_append, ← set_len, ← set_len]
      exact hpos
    obtain ⟨r, hr, -⟩ := h6.uncut x hx
    exact List.length_pos_of_mem hr
  omega

/-- **C98** `a & b` has exactly as many ranges as there are pairs that share a key. -/
theorem C98_bitand (hS : LawfulSteps S) {a b : RangeInclusiveSet K} (ha : Reachable S a)
    (hb : Reachable S b) : ∃ t, a.bitAnd S b = .ok t ∧ t.len = pairs ishares a.iter b.iter := by
  obtain ⟨t, h1, -, h3, -⟩ := bitAnd_spec hS (ha.wf hS) (hb.wf hS)
  obtain ⟨i, h4, h5⟩ := C98_intersection hS ha hb
  obtain rfl := Yields.unique h3 h4
  exact ⟨t, h1, by rw [set_len, h5]⟩

/-- `k` is not beyond the key after the end of `r` -/
def Reaches (r : RangeInclusive K) (k : K) : Prop := k ≤ r.stop ∨ Next r.stop k

theorem Reaches.mono {r : RangeInclusive K} {j k : K} (h : Reaches r k) (hj : j ≤ k) :
    Reaches r j := by
  rcases h with h | h
  · exact Or.inl (by grind)
  · by_cases hle : j ≤ r.stop
    · exact Or.inl hle
    · exact Or.inr ⟨by grind, fun d hd => by have := h.2 d hd; grind⟩

/-- the ranges of a set, of which none reaches the next -/
theorem set_inOrder (hS : LawfulSteps S) {a : RangeInclusiveSet K} (ha : Reachable S a) :
    InOrder RangeInclusive.start Reaches a.iter := by
  have hs := (wf_iff a).1 (ha.wf hS)
  refine ⟨fun r j k h1 h2 => h1.mono h2, fun r hr => Or.inl (hs.1 r hr).1,
    hs.2.imp fun {a b} h hc => ?_⟩
  rcases hc with hc | hc
  · grind
  · exact h.2 hc

/-- **C98** `a | b` has as many ranges as the two sets, less one for every pair of a range of the
one and a range of the other that share a key or have no key between them. -/
theorem C98_bitor (hS : LawfulSteps S) {a b : RangeInclusiveSet K} (ha : Reachable S a)
    (hb : Reachable S b) :
    ∃ t, a.bitOr S b = .ok t ∧ t.len + pairs (inears S) a.iter b.iter = a.len + b.len := by
  obtain ⟨t, t1, t2, t3⟩ := bitOr_spec hS (ha.wf hS) (hb.wf hS)
  have hs := (wf_iff a).1 (ha.wf hS)
  have hs' := (wf_iff b).1 (hb.wf hS)
  have ht := (wf_iff t).1 t2
  refine ⟨t, t1, ?_⟩
  rw [set_len, set_len, set_len]
  have cover : ∀ k, (∃ u ∈ t.iter, u.start ≤ k ∧ k ≤ u.stop) ↔
      ∃ x ∈ a.iter ++ b.iter, x.start ≤ k ∧ k ≤ x.stop := by
    intro k
    rw [← has_iff, t3, Bool.or_eq_true, has_iff, has_iff]
    simp only [List.mem_append]
    grind
  have ne : ∀ x ∈ a.iter ++ b.iter, x.start ≤ x.stop := by
    intro x hx
    rcases List.mem_append.1 hx with hx | hx
    · exact (hs.1 x hx).1
    · exact (hs'.1 x hx).1
  have same : ∀ u ∈ t.iter, ∀ u' ∈ t.iter, Reaches u' u.start → Reaches u u'.start →
      u = u' := by
    intro u hu u' hu' h1 h2
    have h3 := (ht.1 u hu).1
    have h4 := (ht.1 u' hu').1
    rcases RangeMap.pw_tri ht.2 u hu u' hu' with h | h | h
    · exact h
    · rcases h2 with h2 | h2
      · grind
      · exact absurd h2 h.2
    · rcases h1 with h2 | h2
      · grind
      · exact absurd h2 h.2
  have inside : ∀ x ∈ a.iter ++ b.iter, ∃ u ∈ t.iter, u.start ≤ x.start ∧ x.stop ≤ u.stop := by
    intro x hx
    have hne := ne x hx
    obtain ⟨u, hu, h1, h2⟩ := (cover x.start).2 ⟨x, hx, by grind, hne⟩
    refine ⟨u, hu, h1, ?_⟩
    apply Decidable.byContradiction
    intro hlt
    obtain ⟨c, -, hc⟩ := hS.addOne u.stop x.stop (by grind)
    have hcx : c ≤ x.stop := hc.2 _ (by grind)
    have hlt' := hc.1
    obtain ⟨u', hu', h3, h4⟩ := (cover c).2 ⟨x, hx, by grind, hcx⟩
    have := (ht.1 u hu).1
    have e := same u hu u' hu' (Or.inl (by grind)) (Reaches.mono (Or.inr hc) h3)
    subst e
    grind
  have begins : ∀ u ∈ t.iter, ∃ x ∈ a.iter ++ b.iter, x.start ≤ u.start ∧ u.start ≤ x.start := by
    intro u hu
    have hne := (ht.1 u hu).1
    obtain ⟨x, hx, h1, h2⟩ := (cover u.start).1 ⟨u, hu, by grind, hne⟩
    obtain ⟨u', hu', h3, h5⟩ := inside x hx
    have e := same u hu u' hu' (Or.inl (by grind)) (Or.inl (by grind))
    subst e
    exact ⟨x, hx, h1, h3⟩
  refine components_count (set_inOrder hS ha) (set_inOrder hS hb)
    (set_inOrder hS (.of_wf hS t2)) (fun x hx y hy => ?_) (fun x hx => ?_) begins
    (fun z hz u hu h1 h2 => ?_)
  · have h1 := (hs.1 x hx).1
    have h2 := (hs'.1 y hy).1
    have h3 := follows_iff hS x y
    have h4 := follows_iff hS y x
    simp only [inears, Bool.or_eq_true, h3, h4, ishares, decide_eq_true_eq, Reaches]
    constructor
    · rintro ((⟨h5, h6⟩ | h5) | h5)
      · grind
      · have := h5.1
        exact Or.inl ⟨by grind, Or.inr h5⟩
      · have := h5.1
        exact Or.inr ⟨by grind, Or.inr h5⟩
    · rintro (⟨h5, h6 | h6⟩ | ⟨h5, h6 | h6⟩)
      · exact Or.inl (Or.inl ⟨by grind, h6⟩)
      · exact Or.inl (Or.inr h6)
      · exact Or.inl (Or.inl ⟨h6, by grind⟩)
      · exact Or.inr h6
  · obtain ⟨u, hu, h1, h2⟩ := inside x hx
    refine ⟨u, hu, h1, fun k hk => ?_⟩
    rcases hk with hk | hk
    · exact Or.inl (by grind)
    · by_cases hle : k ≤ u.stop
      · exact Or.inl hle
      · exact Or.inr ⟨by grind, fun d hd => hk.2 d (by grind)⟩
  · -- of the ranges that start before `z` take the one that reaches furthest
    obtain ⟨x, hx, b1, b2⟩ := begins u hu
    obtain ⟨w, hw, hmax⟩ := exists_greatest RangeInclusive.stop (a := x)
      (l := (a.iter ++ b.iter).filter fun w => decide (w.start < z.start))
      (List.mem_filter.2 ⟨hx, by grind⟩)
    simp only [List.mem_filter, decide_eq_true_eq] at hw hmax
    refine ⟨w, hw.1, hw.2, ?_⟩
    apply Classical.byContradiction
    intro hlt
    simp only [Reaches, not_or] at hlt
    have hz' := ne z hz
    obtain ⟨u', hu', i1, i3⟩ := inside z hz
    have e := same u hu u' hu' (Or.inl (by grind)) (h2.mono i1)
    subst e
    have hxs := ne x hx
    have hx2 := hmax x ⟨hx, by grind⟩
    -- the key after the end of that range is in the set
    obtain ⟨c, -, hc⟩ := hS.addOne w.stop z.start (by grind)
    have hcz : c ≤ z.start := hc.2 _ (by grind)
    have hcz' : c < z.start := by
      apply Decidable.byContradiction
      intro hn
      exact hlt.2 ⟨by grind, fun d hd => by have := hc.2 d hd; grind⟩
    have hc1 := hc.1
    obtain ⟨y, hy, y1, y2⟩ := (cover c).1 ⟨u, hu, by grind, by grind⟩
    have := hmax y ⟨hy, by grind⟩
    grind

example := C98_union Demo.u8_lawful Demo.iset_reachable Demo.iset'_reachable
example := C98_intersection Demo.u8_lawful Demo.iset_reachable Demo.iset'_reachable
example := C98_union_intersection Demo.u8_lawful Demo.iset_reachable Demo.iset'_reachable
example := C98_bitand Demo.u8_lawful Demo.iset_reachable Demo.iset'_reachable
example := C98_bitor Demo.u8_lawful Demo.iset_reachable Demo.iset'_reachable
-- two sets of three ranges, interleaved: the most that `intersection` can yield
example : pairs ishares [Demo.by8 0 2, Demo.by8 4 6, Demo.by8 8 10]
    [Demo.by8 2 4, Demo.by8 6 8, Demo.by8 10 12] = 5 := by decide
-- nothing in common, but no key between them
example : pairs ishares [Demo.by8 0 2, Demo.by8 6 8] [Demo.by8 3 4, Demo.by8 10 12] = 0 ∧
    pairs (inears Demo.u8) [Demo.by8 0 2, Demo.by8 6 8] [Demo.by8 3 4, Demo.by8 10 12] = 1 := by
  decide

end

section
open RangeInclusiveMap
variable {V : Type} [BEq V] [PartialEquivBEq V]

/-- what is left of an entry if the keys of `r` are taken away -/
def piecesOf (S : StepFns K) (r : RangeInclusive K) (x : RangeInclusive K × V) :
    List (RangeInclusive K × V) :=
  if ishares r x.1 then
    (if x.1.start < r.start then
      match S.subOne r.start with
      | .ok p => [(.mk' x.1.start p, x.2)]
      | .error _ => [] else []) ++
    (if r.stop < x.1.stop then
      match S.addOne r.stop with
      | .ok s => [(.mk' s x.1.stop, x.2)]
      | .error _ => [] else [])
  else [x]

theorem piecesOf_length (hS : LawfulSteps S) (r : RangeInclusive K) (x : RangeInclusive K × V) :
    (piecesOf S r x).length = ileftover r x.1 := by
  unfold piecesOf ileftover
  split
  · rw [List.length_append]
    congr 1
    · split
      · rename_i h
        obtain ⟨c, h1, -⟩ := hS.subOne _ _ h
        rw [h1]; rfl
      · rfl
    · split
      · rename_i h
        obtain ⟨c, h1, -⟩ := hS.addOne _ _ h
        rw [h1]; rfl
      · rfl
  · rfl

theorem mem_piecesOf (hS : LawfulSteps S) {r : RangeInclusive K} {x y : RangeInclusive K × V}
    (hr : r.start ≤ r.stop) (hx : x.1.start ≤ x.1.stop) :
    y ∈ piecesOf S r x ↔ IAfterRemove S r x y := by
  rw [afterRemove_iff hr hx]
  unfold piecesOf Piece Ovl ishares
  split
  · rename_i h
    rw [decide_eq_true_eq] at h
    rw [List.mem_append]
    have h' : x.1.start ≤ r.stop ∧ r.start ≤ x.1.stop := ⟨h.2, h.1⟩
    constructor
    · rintro (h1 | h1)
      · split at h1
        · rename_i h2
          obtain ⟨c, h3, -⟩ := hS.subOne _ _ h2
          rw [h3] at h1
          exact Or.inr ⟨h', Or.inl ⟨h2, c, h3, by simpa using h1⟩⟩
        · cases h1
      · split at h1
        · rename_i h2
          obtain ⟨c, h3, -⟩ := hS.addOne _ _ h2
          rw [h3] at h1
          exact Or.inr ⟨h', Or.inr ⟨h2, c, h3, by simpa using h1⟩⟩
        · cases h1
    · rintro (⟨h1, -⟩ | ⟨-, ⟨h1, c, h3, rfl⟩ | ⟨h1, c, h3, rfl⟩⟩)
      · exact absurd h' h1
      · exact Or.inl (by simp [h1, h3])
      · exact Or.inr (by simp [h1, h3])
  · rename_i h
    rw [decide_eq_true_eq] at h
    rw [List.mem_singleton]
    constructor
    · intro h1
      exact Or.inl ⟨fun h2 => h ⟨h2.2, h2.1⟩, h1⟩
    · rintro (⟨-, h1⟩ | ⟨h1, -⟩)
      · exact h1
      · exact absurd ⟨h1.2, h1.1⟩ h

/-- the pieces are parts of the entry -/
theorem piecesOf_inside (hS : LawfulSteps S) {r : RangeInclusive K} {x y : RangeInclusive K × V}
    (hr : r.start ≤ r.stop) (hx : x.1.start ≤ x.1.stop) (h : y ∈ piecesOf S r x) :
    x.1.start ≤ y.1.start ∧ y.1.start ≤ y.1.stop ∧ y.1.stop ≤ x.1.stop ∧
      (y.1.stop < r.start ∨ r.stop < y.1.start) := by
  rcases (afterRemove_iff hr hx).1 ((mem_piecesOf hS hr hx).1 h) with
    ⟨h1, rfl⟩ | ⟨h1, h2⟩
  · unfold Ovl at h1
    grind
  · unfold Ovl at h1
    obtain ⟨-, ⟨h3, h4, h5⟩ | ⟨h3, h4, h5⟩⟩ := h2.facts hS
    · have h6 := h5.1
      have h7 := h5.2 y.1.start
      have : ¬ y.1.stop < x.1.start := fun hc => by
        have := h5.2 x.1.start hc
        grind
      grind
    · have h6 := h5.1
      have h7 := h5.2 x.1.stop h3
      grind

theorem piecesOf_nodup (hS : LawfulSteps S) {r : RangeInclusive K} {x : RangeInclusive K × V}
    (hr : r.start ≤ r.stop) : (piecesOf S r x).Nodup := by
  unfold piecesOf
  by_cases hsh : ishares r x.1 = true
  · rw [if_pos hsh]
    by_cases h1 : x.1.start < r.start
    · obtain ⟨c, h2, h3⟩ := hS.subOne _ _ h1
      rw [if_pos h1, h2]
      by_cases h4 : r.stop < x.1.stop
      · obtain ⟨c', h5, h6⟩ := hS.addOne _ _ h4
        rw [if_pos h4, h5]
        simp [RangeInclusive.mk']
        rintro rfl
        have := h6.1
        grind
      · rw [if_neg h4]; simp
    · rw [if_neg h1]
      split
      · split <;> simp
      · simp
  · rw [if_neg hsh]; simp

theorem reachable_insert {m m' : RangeInclusiveMap K V} (hm : ReachableAny S m)
    {r : RangeInclusive K} {v : V} (h : m.insert S r v = .ok m') : ReachableAny S m' := by
  have := hm.apply (.insert r v)
  simpa [RangeInclusiveMap.apply, h] using this

theorem reachable_remove {m m' : RangeInclusiveMap K V} (hm : ReachableAny S m)
    {r : RangeInclusive K} (h : m.remove S r = .ok m') : ReachableAny S m' := by
  have := hm.apply (.remove r)
  simpa [RangeInclusiveMap.apply, h] using this

theorem map_nodup (hS : LawfulSteps S) {m : RangeInclusiveMap K V} (hm : ReachableAny S m) :
    m.iter.Nodup := by
  refine (hm.sc hS).sep.pw.imp_of_mem fun {a b} ha _ hab => ?_
  have := (hm.sc hS).sep.ne a ha
  rintro rfl
  grind [Before]

theorem pieces_apart (hS : LawfulSteps S) {m : RangeInclusiveMap K V} (hm : ReachableAny S m)
    {r : RangeInclusive K} (hr : r.start ≤ r.stop) :
    m.iter.Pairwise fun x x' => ∀ y ∈ piecesOf S r x, ∀ y' ∈ piecesOf S r x', y ≠ y' := by
  refine (hm.sc hS).sep.pw.imp_of_mem fun {a b} ha hb hab y hy y' hy' => ?_
  have h1 := piecesOf_inside hS hr ((hm.sc hS).sep.ne a ha) hy
  have h2 := piecesOf_inside hS hr ((hm.sc hS).sep.ne b hb) hy'
  rintro rfl
  grind [Before]

/-- **C98** How many ranges a map has after `remove(r)`: every range that shares a key with `r`
leaves a range for each side on which it reaches beyond `r`; the others stay. -/
theorem C98_remove (hS : LawfulSteps S) {m m' : RangeInclusiveMap K V} (hm : ReachableAny S m)
    {r : RangeInclusive K} (h : m.remove S r = .ok m') :
    m'.len = (m.iter.map fun x => ileftover r x.1).sum := by
  have hr : r.start ≤ r.stop := by
    apply Decidable.byContradiction
    intro hr
    simp [remove_invalid hr] at h
  have he := C51_remove_entries hS hm h
  have hsep := (hm.sc hS).sep
  have := length_of_pieces (f := piecesOf S r) (fun y => (he y).trans (exists_congr fun x =>
    and_congr_right fun hx => (mem_piecesOf hS hr (hsep.ne x hx)).symm))
    (map_nodup hS (reachable_remove hm h)) (fun x _ => piecesOf_nodup hS hr) (pieces_apart hS hm hr)
  rw [show m'.len = m'.iter.length from rfl, this]
  exact sum_map_congr fun x _ => piecesOf_length hS r x

/-- **C98** How many ranges a map has after `insert(r, v)`: one for `r`; none for a range with a
value equal to `v` that shares a key with `r` or is next to it; and what `remove(r)` would leave
of the others. -/
theorem C98_insert (hS : LawfulSteps S) {m m' : RangeInclusiveMap K V} (hm : ReachableAny S m)
    {r : RangeInclusive K} {v : V} (h : m.insert S r v = .ok m') :
    m'.len = 1 + (m.iter.map fun x =>
      if x.2 == v then (if inears S r x.1 then 0 else 1) else ileftover r x.1).sum := by
  have hr : r.start ≤ r.stop := by
    apply Decidable.byContradiction
    intro hr
    simp [insert_invalid hr] at h
  have hsep := (hm.sc hS).sep
  obtain ⟨n, -, n1, n2, he⟩ := C51_insert_entries hS hm h
  let f : RangeInclusive K × V → List (RangeInclusive K × V) := fun x =>
    if x.2 == v then (if inears S r x.1 then [] else [x]) else piecesOf S r x
  have hf : ∀ x ∈ m.iter, ∀ y, y ∈ f x ↔ IAfterInsert S r v x y := by
    intro x hx y
    have hne := hsep.ne x hx
    simp only [f]
    cases hv : x.2 == v with
    | true =>
      have ht : inears S r x.1 = true ↔ ITouch r x.1 := by
        unfold ITouch
        rw [common_iff hr hne]
        simp only [inears, Bool.or_eq_true, follows_iff hS, ishares, decide_eq_true_eq, Ovl]
        grind
      simp only [if_true]
      split
      · rename_i hn
        constructor
        · intro h; cases h
        · rintro (⟨-, h2⟩ | ⟨h1, -⟩)
          · exact absurd (ht.1 hn) h2
          · rw [hv] at h1; cases h1
      · rename_i hn
        rw [List.mem_singleton]
        constructor
        · rintro rfl
          exact .equal hv fun h => hn (ht.2 h)
        · rintro (⟨-, -⟩ | ⟨h1, -⟩)
          · rfl
          · rw [hv] at h1; cases h1
    | false =>
      simp only [Bool.false_eq_true, if_false]
      rw [mem_piecesOf hS hr hne]
      constructor
      · exact .other hv
      · rintro (⟨h1, -⟩ | ⟨-, h2⟩)
        · rw [hv] at h1; cases h1
        · exact h2
  have sub : ∀ x ∈ m.iter, ∀ y ∈ f x, y ∈ piecesOf S r x := by
    intro x hx y hy
    have hne := hsep.ne x hx
    rcases (hf x hx y).1 hy with ⟨-, h2⟩ | ⟨-, h2⟩
    · refine (mem_piecesOf hS hr hne).2 (.keep fun hc => h2 (Or.inl hc))
    · exact (mem_piecesOf hS hr hne).2 h2
  have l1 := n1.le r.start (Or.inl rfl)
  have l2 := n2.le r.stop (Or.inl rfl)
  have hnd := map_nodup hS (reachable_insert hm h)
  have hfn : (m.iter.flatMap f).Nodup := by
    refine List.pairwise_flatMap.2 ⟨fun x hx => ?_, ?_⟩
    · simp only [f]
      split
      · split <;> simp
      · exact piecesOf_nodup hS hr
    · refine (pieces_apart hS hm hr).imp_of_mem fun {a b} ha hb hab y hy y' hy' => ?_
      exact hab y (sub a ha y hy) y' (sub b hb y' hy')
  have hcons : ((n, v) :: m.iter.flatMap f).Nodup := by
    refine List.nodup_cons.2 ⟨fun hmem => ?_, hfn⟩
    obtain ⟨x, hx, hy⟩ := List.mem_flatMap.1 hmem
    have := piecesOf_inside hS hr (hsep.ne x hx) (sub x hx _ hy)
    simp only at this
    grind
  have hp : m'.iter.Perm ((n, v) :: m.iter.flatMap f) := by
    refine (List.perm_ext_iff_of_nodup hnd hcons).2 fun y => ?_
    rw [he, List.mem_cons, List.mem_flatMap]
    exact or_congr Iff.rfl (exists_congr fun x => and_congr_right fun hx => (hf x hx y).symm)
  rw [show m'.len = m'.iter.length from rfl, hp.length_eq, List.length_cons, List.length_flatMap,
    Nat.add_comm]
  congr 1
  refine sum_map_congr fun x _ => ?_
  simp only [f]
  split
  · split <;> rfl
  · exact piecesOf_length hS r x

/-- **C98** `remove` balances: what it adds is one range, if `r` lies strictly inside of a stored
range; what it takes away are the ranges that lie in `r`. -/
theorem C98_remove_balance (hS : LawfulSteps S) {m m' : RangeInclusiveMap K V}
    (hm : ReachableAny S m) {r : RangeInclusive K} (h : m.remove S r = .ok m') :
    m'.len + m.iter.countP (fun x => decide (r.start ≤ x.1.start ∧ x.1.stop ≤ r.stop)) =
      m.len + m.iter.countP (fun x => decide (x.1.start < r.start ∧ r.stop < x.1.stop)) := by
  have hr : r.start ≤ r.stop := by
    apply Decidable.byContradiction
    intro hr
    simp [remove_invalid hr] at h
  rw [C98_remove hS hm h, show m.len = m.iter.length from rfl]
  have hne := (hm.sc hS).sep.ne
  revert hne
  show (∀ e ∈ m.iter, _) → _
  generalize m.iter = l
  intro hne
  induction l with
  | nil => rfl
  | cons x l ih =>
    have ih := ih fun e he => hne e (by simp [he])
    have hx := hne x (by simp)
    simp only [List.map_cons, List.sum_cons, List.countP_cons, List.length_cons]
    have : ileftover r x.1 + (if decide (r.start ≤ x.1.start ∧ x.1.stop ≤ r.stop) then 1 else 0) =
        1 + if decide (x.1.start < r.start ∧ r.stop < x.1.stop) then 1 else 0 := by
      simp only [ileftover, ishares, decide_eq_true_eq]
      grind
    omega

/-- **C98** How many gaps there are in `q`: one that starts where `q` starts, if that key is free;
and one for every stored range that ends within `q`, short of its end, and is followed by a free
key. -/
theorem C98_gaps (hS : LawfulSteps S) {m : RangeInclusiveMap K V} (hm : ReachableAny S m)
    {q : RangeInclusive K} (hq : q.start ≤ q.stop) :
    ∃ g gs, m.gaps q = .ok g ∧ YieldsE (Gaps.next S) g gs ∧
      gs.length = (if ifree m.iter q.start then 1 else 0) +
        m.iter.countP fun e => decide (q.start ≤ e.1.stop ∧ e.1.stop < q.stop) &&
          ifreeAfter S m.iter e.1.stop := by
  have hs := (hm.sc hS).sep
  obtain ⟨g, gs, h1, h2, h3⟩ := C31_gaps_exact_any hS hm q
  obtain ⟨g', gs', h1', h2', h4, h5⟩ := C31_gaps_ordered hS hm q
  rw [h1] at h1'
  cases h1'
  obtain rfl := YieldsE.unique h2 h2'
  obtain ⟨g', gs', h1', h2', h6, -⟩ := gaps_spec hS hs q
  rw [h1] at h1'
  cases h1'
  obtain rfl := YieldsE.unique h2 h2'
  have h6 : ∀ g ∈ gs, (q.start ≤ g.start ∧ g.start ≤ q.start) ∨
      ∃ e ∈ m.iter, q.start ≤ e.1.stop ∧ Next e.1.stop g.start := by
    intro g hg
    rcases (h6.shape g hg).2.2.2.2.1 with h7 | ⟨e, he, h7⟩
    · exact Or.inl h7
    · have := List.mem_filter.1 he
      exact Or.inr ⟨e, this.1, by simpa using this.2, h7⟩
  refine ⟨g, gs, h1, h2, ?_⟩
  have hfree : ∀ k, ifree m.iter k = true ↔ ∀ e ∈ m.iter, ¬ (e.1.start ≤ k ∧ k ≤ e.1.stop) := by
    intro k
    simp only [ifree, Bool.not_eq_true', List.any_eq_false, decide_eq_true_eq]
  have hafter : ∀ {k k'}, Next k k' → (ifreeAfter S m.iter k = true ↔
      ∀ e ∈ m.iter, ¬ (e.1.start ≤ k' ∧ k' ≤ e.1.stop)) := by
    intro k k' hn
    obtain ⟨c, h7, h8⟩ := hS.addOne _ _ hn.1
    have c1 := h8.2 _ hn.1
    have c2 := hn.2 _ h8.1
    unfold ifreeAfter
    rw [h7]
    simp only [hfree]
    refine forall_congr' fun e => forall_congr' fun _ => ?_
    grind
  let ps := m.iter.filter fun e => decide (q.start ≤ e.1.stop ∧ e.1.stop < q.stop) &&
    ifreeAfter S m.iter e.1.stop
  -- where the gaps start: `none` for the start of `q`, `some e` for the key after `e`
  let ks : List (Option (RangeInclusive K × V)) :=
    (if ifree m.iter q.start then [none] else []) ++ ps.map some
  have hlen : ks.length = (if ifree m.iter q.start then 1 else 0) +
      m.iter.countP fun e => decide (q.start ≤ e.1.stop ∧ e.1.stop < q.stop) &&
        ifreeAfter S m.iter e.1.stop := by
    simp only [ks, ps, List.length_append, List.length_map, List.countP_eq_length_filter]
    split <;> rfl
  rw [← hlen]
  have hps : ∀ e, e ∈ ps ↔ e ∈ m.iter ∧ q.start ≤ e.1.stop ∧ e.1.stop < q.stop ∧
      ifreeAfter S m.iter e.1.stop = true := by
    intro e
    simp only [ps, List.mem_filter, Bool.and_eq_true, decide_eq_true_eq]
    grind
  let rel : RangeInclusive K → Option (RangeInclusive K × V) → Prop := fun g k => match k with
    | none => q.start ≤ g.start ∧ g.start ≤ q.start
    | some e => q.start ≤ e.1.stop ∧ Next e.1.stop g.start
  apply Nat.le_antisymm
  · refine length_le_of_partners (rel := rel) ?_ fun g hg => ?_
    · refine h5.imp_of_mem fun {a b} ha _ hab k hc => ?_
      obtain ⟨e, he, a1, a2, a3⟩ := hab
      have a4 := (h4 a ha).1
      have a5 := a1.1
      cases k with
      | none =>
        simp only [rel] at hc
        grind
      | some e' =>
        obtain ⟨⟨-, c1⟩, -, c2⟩ := hc
        have := c2.2 a.start c1.1
        grind
    · obtain ⟨a1, -, a2, a3⟩ := h4 g hg
      have hfr := ((h3 g.start).1 ⟨g, hg, by grind, a1⟩).2.2
      rcases h6 g hg with h7 | ⟨e, he, h7, h8⟩
      · refine ⟨none, ?_, h7⟩
        have : ifree m.iter q.start = true := (hfree _).2 fun e he hc => hfr e he (by grind)
        simp [ks, this]
      · refine ⟨some e, ?_, h7, h8⟩
        have h9 := h8.1
        refine List.mem_append_right _ (List.mem_map.2 ⟨e, (hps e).2 ⟨he, h7, by grind,
          (hafter h8).2 hfr⟩, rfl⟩)
  · refine length_le_of_partners (rel := fun k g => rel g k) ?_ fun k hk => ?_
    · refine List.pairwise_append.2 ⟨?_, ?_, ?_⟩
      · split <;> simp
      · refine List.pairwise_map.2 ((hs.pw.filter _).imp_of_mem fun {a b} _ hb hab g hc => ?_)
        have hb' := hs.ne b (List.mem_filter.1 hb).1
        obtain ⟨⟨-, c1⟩, -, c2⟩ := hc
        have c3 := c1.2 b.1.stop (by grind [Before])
        have c4 := c2.1
        grind
      · intro k hk k' hk' g hc
        have e1 : k = none := by
          split at hk
          · simpa using hk
          · cases hk
        subst e1
        obtain ⟨e, he, rfl⟩ := List.mem_map.1 hk'
        obtain ⟨⟨c1, c2⟩, c3, c4⟩ := hc
        have := c4.1
        grind
    · rcases List.mem_append.1 hk with hk | hk
      · have hk : k = none ∧ ifree m.iter q.start = true := by
          split at hk
          · exact ⟨by simpa using hk, by assumption⟩
          · cases hk
        obtain ⟨g, hg, a, b⟩ := (h3 q.start).2 ⟨by grind, hq, (hfree _).1 hk.2⟩
        rw [hk.1]
        exact ⟨g, hg, (h4 g hg).2.2.1, a⟩
      · obtain ⟨e, he, rfl⟩ := List.mem_map.1 hk
        obtain ⟨he, p1, p2, p3⟩ := (hps e).1 he
        obtain ⟨c, -, hc⟩ := hS.addOne _ _ p2
        have c1 := hc.1
        have c2 := hc.2 _ p2
        obtain ⟨g, hg, a, b⟩ := (h3 c).2 ⟨by grind, c2, (hafter hc).1 p3⟩
        refine ⟨g, hg, p1, ?_⟩
        -- the end of `e` is not in the gap
        have hgc : c ≤ g.start := by
          apply Decidable.byContradiction
          intro hlt
          have hge : g.start ≤ e.1.stop := by
            apply Decidable.byContradiction
            intro hn
            have := hc.2 g.start (by grind)
            grind
          have hne := hs.ne e he
          exact ((h3 e.1.stop).1 ⟨g, hg, hge, by grind⟩).2.2 e he ⟨hne, by grind⟩
        exact ⟨by grind, fun d hd => by have := hc.2 d hd; grind⟩

example := C98_insert Demo.u8_lawful (V := Char) (m := Demo.imap) Demo.imap_reachable.any
    (r := Demo.by8 2 22) (v := 'q') rfl
example := C98_remove Demo.u8_lawful (V := Char) (m := Demo.imap) Demo.imap_reachable.any
    (r := Demo.by8 2 22) rfl
example := C98_remove_balance Demo.u8_lawful (V := Char) (m := Demo.imap)
    Demo.imap_reachable.any (r := Demo.by8 2 22) rfl
example := C98_gaps Demo.u8_lawful (V := Char) (m := Demo.imap) Demo.imap_reachable.any
    (q := Demo.by8 1 50) (by decide)

end

section
open RangeInclusiveSet

/-- **C98** A set has after `insert(r)` one range more than before, less one for every range that
shares a key with `r` or is next to it. -/
theorem C98_set_insert (hS : LawfulSteps S) {s s' : RangeInclusiveSet K} (hs : ReachableAny S s)
    {r : RangeInclusive K} (h : s.insert S r = .ok s') :
    s'.len + s.iter.countP (inears S r) = s.len + 1 := by
  rw [insert_rm] at h
  cases hi : s.rm.insert S r () with
  | error p => rw [hi] at h; cases h
  | ok m' =>
    rw [hi] at h
    cases h
    have := C98_insert hS hs.map hi
    rw [show RangeInclusiveSet.len (⟨m'⟩ : RangeInclusiveSet K) = m'.len from rfl, this, set_len]
    simp only [iter]
    generalize s.rm.iter = l
    clear this hi
    induction l with
    | nil => rfl
    | cons x l ih =>
      simp only [List.map_cons, List.sum_cons, List.countP_cons, List.length_cons] at ih ⊢
      have hu : (x.2 == ()) = true := by cases x.2; rfl
      rw [if_pos hu]
      cases inears S r x.1 <;> simp only [Bool.false_eq_true, if_true, if_false] <;> omega

/-- **C98** `remove` on a set balances like on a map. -/
theorem C98_set_remove (hS : LawfulSteps S) {s s' : RangeInclusiveSet K} (hs : ReachableAny S s)
    {r : RangeInclusive K} (h : s.remove S r = .ok s') :
    s'.len + s.iter.countP (fun x => decide (r.start ≤ x.start ∧ x.stop ≤ r.stop)) =
      s.len + s.iter.countP (fun x => decide (x.start < r.start ∧ r.stop < x.stop)) := by
  rw [remove_rm] at h
  cases hi : s.rm.remove S r with
  | error p => rw [hi] at h; cases h
  | ok m' =>
    rw [hi] at h
    cases h
    have := C98_remove_balance hS hs.map hi
    simp only [iter, List.countP_map, Function.comp_def]
    exact this

example := C98_set_insert Demo.u8_lawful (s := Demo.iset) Demo.iset_reachable.any
    (r := Demo.by8 3 22) rfl
example := C98_set_remove Demo.u8_lawful (s := Demo.iset) Demo.iset_reachable.any
    (r := Demo.by8 2 22) rfl

end
end Verif.Props.Inclusive

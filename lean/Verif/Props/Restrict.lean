import Verif.Props.Iter
import Verif.Props.IIter
import Verif.Proof.Set
import Verif.Proof.ISet
import Verif.Props.Demo

/-!
# C77: queries of parts of a range
-/
set_option linter.unusedSectionVars false

namespace Verif.Spec
variable {K : Type} [LE K] [LT K] [DecidableLE K] [DecidableLT K]

/-- The part of `r` inside `q`, if not empty. (Where an end of `r` and one of `q` compare equal, that
of `q` is taken.) -/
def clip (q r : Range K) : Option (Range K) :=
  let start := if q.start < r.start then r.start else q.start
  let stop := if r.stop < q.stop then r.stop else q.stop
  if start < stop then some ⟨start, stop⟩ else none

/-- `l` is `l₁` followed by `l₂`, but an element at the seam that both have occurs once. -/
def Overlay {α : Type} (l₁ l₂ l : List α) : Prop :=
  l = l₁ ++ l₂ ∨ ∃ xs x ys, l₁ = xs ++ [x] ∧ l₂ = x :: ys ∧ l = xs ++ x :: ys

/-- `l` is `l₁` followed by `l₂`, but two ranges that meet at `b` are one. -/
def Joined (b : K) (l₁ l₂ l : List (Range K)) : Prop :=
  l = l₁ ++ l₂ ∨ ∃ xs s t ys, l₁ = xs ++ [⟨s, b⟩] ∧ l₂ = ⟨b, t⟩ :: ys ∧ l = xs ++ ⟨s, t⟩ :: ys

/-- The part of `r` inside `q`, if not empty. -/
def iclip (q r : RangeInclusive K) : Option (RangeInclusive K) :=
  let start := if q.start < r.start then r.start else q.start
  let stop := if r.stop < q.stop then r.stop else q.stop
  if start ≤ stop then some (.mk' start stop) else none

/-- `l` is `l₁` followed by `l₂`, but two ranges of which the one ends at `b` and the other begins at
`b'` are one. -/
def IJoined (b b' : K) (l₁ l₂ l : List (RangeInclusive K)) : Prop :=
  l = l₁ ++ l₂ ∨ ∃ xs s t ys, l₁ = xs ++ [.mk' s b] ∧ l₂ = .mk' b' t :: ys ∧
    l = xs ++ .mk' s t :: ys

end Verif.Spec

namespace Verif.Props
open Spec RangeMap
variable {K : Type} [LE K] [LT K] [DecidableLE K] [DecidableLT K]
  [Std.IsLinearPreorder K] [Std.LawfulOrderLT K] {V : Type}

theorem gapsList_nil_of_past {qe : K} {l : List (Range K × V)} {cand : K} (h : GapsOk cand l)
    (hc : qe ≤ cand) : gapsList qe cand l = [] := by
  rw [List.eq_nil_iff_forall_not_mem]
  intro g hg
  obtain ⟨h1, h2, h3, -⟩ := (gapsList_shape qe l cand h).1 g hg
  grind

/-- Restricting the query clips the gaps. -/
theorem gapsList_clip (qo : K) (q : Range K) (hq : q.stop ≤ qo) : ∀ (l : List (Range K × V)) (c : K),
    GapsOk c l → (∀ e ∈ l, c ≤ e.1.start ∨ c ≤ q.start) →
    gapsList q.stop (if q.start < c then c else q.start)
        (l.filter fun e => decide (q.start < e.1.stop)) =
      (gapsList qo c l).filterMap (clip q) := by
  intro l
  induction l with
  | nil =>
    intro c _ _
    simp only [List.filter_nil, gapsList]
    by_cases h1 : q.start < c <;> by_cases h2 : c < qo <;> by_cases h3 : qo < q.stop <;>
      simp only [h1, h2, if_true, if_false, List.filterMap_cons, List.filterMap_nil, clip, h3] <;>
      split <;> grind
  | cons e t ih =>
    intro c h hc
    have h1 := h.1.ne e (by simp)
    have h2 := h.2 e (by simp)
    have hp := List.pairwise_cons.1 h.1.pw
    have ih := ih e.1.stop h.tail (by
      intro x hx
      have := hp.1 x hx
      left
      grind [Before])
    have hpast : q.stop ≤ e.1.stop → (gapsList qo e.1.stop t).filterMap (clip q) = [] := by
      intro hle
      rw [← ih]
      refine gapsList_nil_of_past ⟨⟨h.tail.1.pw.filter _, fun x hx =>
        h.tail.1.ne x (List.mem_filter.1 hx).1⟩, fun x hx => ?_⟩ ?_
      · have h3 := h.tail.2 x (List.mem_filter.1 hx).1
        have h4 := of_decide_eq_true (List.mem_filter.1 hx).2
        split <;> grind
      · split <;> grind
    by_cases hk : q.start < e.1.stop
    · rw [List.filter_cons_of_pos (by simpa using hk)]
      rw [if_pos hk] at ih
      simp only [gapsList]
      by_cases hA : qo ≤ e.1.start
      · rw [if_pos hA, if_pos (by grind)]
        by_cases h3 : c < qo
        · rw [if_pos h3]
          simp only [List.filterMap_cons, List.filterMap_nil, clip]
          have : ¬ qo < q.stop := by grind
          rw [if_neg this]
          split <;> split <;> simp_all
        · rw [if_neg h3, if_neg (by split <;> grind)]
          rfl
      · rw [if_neg hA]
        by_cases hB : q.stop ≤ e.1.start
        · rw [if_pos hB]
          by_cases h3 : c < e.1.start
          · rw [if_pos h3, List.filterMap_cons, hpast (by grind)]
            simp only [clip]
            rw [if_neg (show ¬ e.1.start < q.stop by grind)]
            split <;> split <;> simp_all
          · rw [if_neg h3, hpast (by grind), if_neg (by split <;> grind)]
        · rw [if_neg hB, ih]
          by_cases h3 : c < e.1.start
          · rw [if_pos h3, List.filterMap_cons]
            simp only [clip]
            rw [if_pos (show e.1.start < q.stop by grind)]
            split <;> split <;> simp_all
          · rw [if_neg h3, if_neg (by
              have := hc e (by simp)
              split <;> grind)]
    · rw [List.filter_cons_of_neg (by simpa using hk)]
      rw [if_neg hk] at ih
      rw [if_neg (show ¬ q.start < c by grind), ih]
      simp only [gapsList]
      by_cases hA : qo ≤ e.1.start
      · rw [if_pos hA, hpast (by grind)]
        split
        · simp only [List.filterMap_cons, List.filterMap_nil, clip]
          rw [if_neg (show ¬ q.start < c by grind), if_neg (show ¬ qo < q.stop by grind),
            if_neg (by grind)]
        · rfl
      · rw [if_neg hA]
        by_cases h3 : c < e.1.start
        · rw [if_pos h3, List.filterMap_cons]
          simp only [clip]
          rw [if_neg (show ¬ q.start < c by grind)]
          rw [if_neg (show ¬ q.start < if e.1.start < q.stop then e.1.start else q.stop by
            split <;> grind)]
        · rw [if_neg h3]

/-- **C77** The gaps in a part of a range are the parts inside it of the gaps in the range. -/
theorem C77_gaps_restrict {m : RangeMap K V} [BEq V] [PartialEquivBEq V] (hm : Reachable m)
    (outer inner : Range K) (h1 : outer.start ≤ inner.start) (h2 : inner.stop ≤ outer.stop) :
    ∃ g l g', m.gaps outer = .ok g ∧ Yields Gaps.next g l ∧ m.gaps inner = .ok g' ∧
      Yields Gaps.next g' (l.filterMap (clip inner)) := by
  obtain ⟨g, i1, i2, i3⟩ := gaps_spec hm.wf.sep outer
  obtain ⟨g', j1, j2, -⟩ := gaps_spec hm.wf.sep inner
  refine ⟨g, _, g', i1, i2, j1, ?_⟩
  have := gapsList_clip outer.stop inner h2 _ outer.start i3 fun _ _ => Or.inr h1
  rw [if_neg (by grind), List.filter_filter] at this
  rw [← this]
  have hf : (m.btm.filter fun a => decide (inner.start < a.1.stop) && decide (outer.start < a.1.stop)) =
      m.btm.filter fun e => decide (inner.start < e.1.stop) := by
    refine List.filter_congr fun e _ => ?_
    by_cases h : inner.start < e.1.stop
    · simp only [h, decide_true, Bool.true_and, decide_eq_true_eq]
      grind
    · simp [h]
  rw [hf]
  exact j2

example := C77_gaps_restrict (K := Nat) (V := Char) (m := Demo.map) Demo.map_reachable ⟨2, 22⟩
    ⟨6, 9⟩ (by decide) (by decide)

/-- **C77** The entries overlapping a part of a range are those entries overlapping the range that
overlap the part. -/
theorem C77_overlapping_restrict {m : RangeMap K V} [BEq V] [PartialEquivBEq V] (hm : Reachable m)
    (outer inner : Range K) (h1 : outer.start ≤ inner.start) (h2 : inner.stop ≤ outer.stop) :
    ∃ o l o', m.overlapping outer = .ok o ∧ Yields Overlapping.next o l ∧
      m.overlapping inner = .ok o' ∧ Yields Overlapping.next o'
        (l.filter fun e => decide (inner.start < e.1.stop) && decide (e.1.start < inner.stop)) := by
  obtain ⟨o, i1, i2⟩ := C13_overlapping_exact hm outer
  obtain ⟨o', j1, j2⟩ := C13_overlapping_exact hm inner
  refine ⟨o, _, o', i1, i2, j1, ?_⟩
  rw [List.filter_filter]
  have hf : (m.iter.filter fun e => (decide (inner.start < e.1.stop) && decide (e.1.start < inner.stop)) &&
      (decide (outer.start < e.1.stop) && decide (e.1.start < outer.stop))) =
      m.iter.filter fun e => decide (inner.start < e.1.stop) && decide (e.1.start < inner.stop) := by
    refine List.filter_congr fun e _ => ?_
    rw [Bool.eq_iff_iff]
    simp only [Bool.and_eq_true, decide_eq_true_eq]
    grind
  rw [hf]
  exact j2

example := C77_overlapping_restrict (K := Nat) (V := Char) (m := Demo.map) Demo.map_reachable
    ⟨2, 22⟩ ⟨6, 9⟩ (by decide) (by decide)

theorem overlay_of {a b c : K} (hab : a ≤ b) (hbc : b ≤ c) : ∀ l : List (Range K × V), Sep l →
    Overlay (l.filter fun e => decide (a < e.1.stop) && decide (e.1.start < b))
      (l.filter fun e => decide (b < e.1.stop) && decide (e.1.start < c))
      (l.filter fun e => decide (a < e.1.stop) && decide (e.1.start < c)) := by
  intro l
  induction l with
  | nil => intro _; exact Or.inl rfl
  | cons e t ih =>
    intro h
    have hp := List.pairwise_cons.1 h.pw
    have ht : Sep t := ⟨hp.2, fun x hx => h.ne x (by simp [hx])⟩
    have hne := h.ne e (by simp)
    have ih := ih ht
    by_cases h1 : e.1.stop ≤ b
    · -- not in the second part
      rw [List.filter_cons_of_neg (p := fun e : Range K × V => decide (b < e.1.stop) && decide (e.1.start < c))
        (by simp; grind)]
      by_cases h2 : a < e.1.stop
      · rw [List.filter_cons_of_pos (by simp; grind), List.filter_cons_of_pos (by simp; grind)]
        rcases ih with ih | ⟨xs, x, ys, i1, i2, i3⟩
        · exact Or.inl (by rw [ih]; rfl)
        · exact Or.inr ⟨e :: xs, x, ys, by rw [i1]; rfl, i2, by rw [i3]; rfl⟩
      · rw [List.filter_cons_of_neg (by simp; grind), List.filter_cons_of_neg (by simp; grind)]
        exact ih
    · -- the entries after `e` are in the second part only
      have h3 : ∀ x ∈ t, b < x.1.start := by
        intro x hx
        have := hp.1 x hx
        grind [Before]
      have h4 : (t.filter fun e => decide (a < e.1.stop) && decide (e.1.start < b)) = [] := by
        rw [List.filter_eq_nil_iff]
        intro x hx
        have := h3 x hx
        simp only [Bool.and_eq_true, decide_eq_true_eq]
        grind
      have h5 : (t.filter fun e => decide (a < e.1.stop) && decide (e.1.start < c)) =
          t.filter fun e => decide (b < e.1.stop) && decide (e.1.start < c) := by
        refine List.filter_congr fun x hx => ?_
        have := h3 x hx
        have := ht.ne x hx
        rw [Bool.eq_iff_iff]
        simp only [Bool.and_eq_true, decide_eq_true_eq]
        grind
      by_cases h6 : e.1.start < b
      · rw [List.filter_cons_of_pos (by simp; grind), List.filter_cons_of_pos (by simp; grind),
          List.filter_cons_of_pos (by simp; grind), h4, h5]
        exact Or.inr ⟨[], e, _, rfl, rfl, rfl⟩
      · rw [List.filter_cons_of_neg (p := fun e : Range K × V => decide (a < e.1.stop) && decide (e.1.start < b))
          (by simp; grind), h4]
        by_cases h7 : e.1.start < c
        · rw [List.filter_cons_of_pos (by simp; grind), List.filter_cons_of_pos (by simp; grind), h5]
          exact Or.inl rfl
        · rw [List.filter_cons_of_neg (by simp; grind), List.filter_cons_of_neg (by simp; grind), h5]
          exact Or.inl rfl

/-- **C77** `overlapping(a..c)` is `overlapping(a..b)` followed by `overlapping(b..c)`, an entry that
lies across `b` being yielded once. -/
theorem C77_overlapping_split {m : RangeMap K V} [BEq V] [PartialEquivBEq V] (hm : Reachable m)
    {a b c : K} (hab : a ≤ b) (hbc : b ≤ c) :
    ∃ o₁ l₁ o₂ l₂ o l, m.overlapping ⟨a, b⟩ = .ok o₁ ∧ Yields Overlapping.next o₁ l₁ ∧
      m.overlapping ⟨b, c⟩ = .ok o₂ ∧ Yields Overlapping.next o₂ l₂ ∧
      m.overlapping ⟨a, c⟩ = .ok o ∧ Yields Overlapping.next o l ∧ Overlay l₁ l₂ l := by
  obtain ⟨o₁, i1, i2⟩ := C13_overlapping_exact hm ⟨a, b⟩
  obtain ⟨o₂, j1, j2⟩ := C13_overlapping_exact hm ⟨b, c⟩
  obtain ⟨o, k1, k2⟩ := C13_overlapping_exact hm ⟨a, c⟩
  exact ⟨o₁, _, o₂, _, o, _, i1, i2, j1, j2, k1, k2, overlay_of hab hbc _ hm.wf.sep⟩

example := C77_overlapping_split (K := Nat) (V := Char) (m := Demo.map) Demo.map_reachable
    (a := 7) (b := 12) (c := 23) (by decide) (by decide)

section
variable {K : Type} [LE K] [LT K] [DecidableLE K] [DecidableLT K]
  [Std.IsLinearOrder K] [Std.LawfulOrderLT K] {V : Type}

theorem filterMap_self {α : Type} {f : α → Option α} : ∀ {l : List α}, (∀ x ∈ l, f x = some x) →
    l.filterMap f = l
  | [], _ => rfl
  | x :: l, h => by
    rw [List.filterMap_cons_some (h x (by simp)), filterMap_self fun y hy => h y (by simp [hy])]

theorem ite_lt_of_ge {x y : K} (h : y ≤ x) : (if y < x then x else y) = x := by
  split
  · rfl
  · exact Std.le_antisymm h (Std.not_lt.1 ‹_›)

theorem ite_lt_of_le {x y : K} (h : x ≤ y) : (if x < y then x else y) = x := by
  split
  · rfl
  · exact Std.le_antisymm (Std.not_lt.1 ‹_›) h

theorem clip_self {q r : Range K} (h : r.start < r.stop) (h1 : q.start ≤ r.start)
    (h2 : r.stop ≤ q.stop) : clip q r = some r := by
  simp only [clip, ite_lt_of_ge h1, ite_lt_of_le h2, if_pos h]

theorem clip_left {q r : Range K} (h : r.stop ≤ q.start) : clip q r = none := by
  unfold clip
  refine if_neg ?_
  split <;> split <;> grind

theorem clip_right {q r : Range K} (h : q.stop ≤ r.start) : clip q r = none := by
  unfold clip
  refine if_neg ?_
  split <;> split <;> grind

/-- Splitting a list of separate ranges. -/
theorem joined_of {a b c : K} :
    ∀ l : List (Range K), (∀ g ∈ l, g.start < g.stop ∧ a ≤ g.start ∧ g.stop ≤ c) →
      l.Pairwise (fun g g' => g.stop < g'.start) →
      Joined b (l.filterMap (clip ⟨a, b⟩)) (l.filterMap (clip ⟨b, c⟩)) l := by
  intro l
  induction l with
  | nil => intro _ _; exact Or.inl rfl
  | cons g t ih =>
    intro h hp
    obtain ⟨h1, h2, h3⟩ := h g (by simp)
    have hp := List.pairwise_cons.1 hp
    have ih := ih (fun x hx => h x (by simp [hx])) hp.2
    by_cases h4 : g.stop ≤ b
    · rw [List.filterMap_cons_some (clip_self h1 h2 h4),
        List.filterMap_cons_none (clip_left (q := ⟨b, c⟩) h4)]
      rcases ih with ih | ⟨xs, s, u, ys, i1, i2, i3⟩
      · exact Or.inl (by rw [List.cons_append, ← ih])
      · exact Or.inr ⟨g :: xs, s, u, ys, by rw [i1]; rfl, i2, by rw [i3]; rfl⟩
    · have h4 := Std.not_le.1 h4
      have h5 : ∀ x ∈ t, b < x.start := fun x hx => Std.lt_trans h4 (hp.1 x hx)
      have h6 : t.filterMap (clip ⟨a, b⟩) = [] := by
        rw [List.filterMap_eq_nil_iff]
        exact fun x hx => clip_right (Std.le_of_lt (h5 x hx))
      have h7 : t.filterMap (clip ⟨b, c⟩) = t := by
        exact filterMap_self fun x hx => clip_self (q := ⟨b, c⟩) (h x (by simp [hx])).1
          (Std.le_of_lt (h5 x hx)) (h x (by simp [hx])).2.2
      by_cases h8 : g.start < b
      · have e1 : clip ⟨a, b⟩ g = some ⟨g.start, b⟩ := by
          simp only [clip, ite_lt_of_ge h2, if_neg (Std.not_lt.2 (Std.le_of_lt h4)), if_pos h8]
        have e2 : clip ⟨b, c⟩ g = some ⟨b, g.stop⟩ := by
          simp only [clip, ite_lt_of_le h3, if_neg (Std.not_lt.2 (Std.le_of_lt h8)), if_pos h4]
        rw [List.filterMap_cons_some e1, List.filterMap_cons_some e2, h6, h7]
        exact Or.inr ⟨[], g.start, g.stop, t, rfl, rfl, rfl⟩
      · have h8 := Std.not_lt.1 h8
        rw [List.filterMap_cons_none (clip_right (q := ⟨a, b⟩) h8),
          List.filterMap_cons_some (clip_self (q := ⟨b, c⟩) h1 h8 h3), h6, h7]
        exact Or.inl rfl

/-- **C77** `gaps(a..c)` is `gaps(a..b)` followed by `gaps(b..c)`, the two parts of a gap that lies
across `b` being one. -/
theorem C77_gaps_split {m : RangeMap K V} [BEq V] [PartialEquivBEq V] (hm : Reachable m)
    {a b c : K} (hab : a ≤ b) (hbc : b ≤ c) :
    ∃ g₁ l₁ g₂ l₂ g l, m.gaps ⟨a, b⟩ = .ok g₁ ∧ Yields Gaps.next g₁ l₁ ∧
      m.gaps ⟨b, c⟩ = .ok g₂ ∧ Yields Gaps.next g₂ l₂ ∧
      m.gaps ⟨a, c⟩ = .ok g ∧ Yields Gaps.next g l ∧ Joined b l₁ l₂ l := by
  obtain ⟨g, i1, i2, hg⟩ := gaps_spec hm.wf.sep ⟨a, c⟩
  obtain ⟨g₀, l₀, g₁, k1, k2, i3, i4⟩ := C77_gaps_restrict hm ⟨a, c⟩ ⟨a, b⟩ (Std.le_refl a) hbc
  obtain ⟨g', l', g₂, j1, j2, j3, j4⟩ := C77_gaps_restrict hm ⟨a, c⟩ ⟨b, c⟩ hab (Std.le_refl c)
  rw [i1] at j1 k1
  cases j1
  cases k1
  rw [Yields.unique j2 i2] at j4
  rw [Yields.unique k2 i2] at i4
  have hs := gapsList_shape c _ a hg
  refine ⟨g₁, _, g₂, _, g, _, i3, i4, j3, j4, i1, i2, joined_of _ ?_ ?_⟩
  · exact fun x hx => ⟨(hs.1 x hx).1, (hs.1 x hx).2.1, (hs.1 x hx).2.2.1⟩
  · exact hs.2.imp fun h => h.1

-- a part of a range, and a range split inside a gap
example : (Demo.map.gaps ⟨1, 50⟩).toOption.bind (fun g => (drain Gaps.next 9 g).toOption) =
    some [⟨3, 5⟩, ⟨15, 20⟩, ⟨40, 50⟩] := by rfl
example : (Demo.map.gaps ⟨4, 18⟩).toOption.bind (fun g => (drain Gaps.next 9 g).toOption) =
    some ([⟨3, 5⟩, ⟨15, 20⟩, ⟨40, 50⟩].filterMap (clip ⟨4, 18⟩)) := by rfl
example : [(⟨3, 5⟩ : Range Nat), ⟨15, 20⟩, ⟨40, 50⟩].filterMap (clip ⟨4, 18⟩) = [⟨4, 5⟩, ⟨15, 18⟩] := by
  rfl
example : Joined 18 [⟨4, 5⟩, ⟨15, 18⟩] [⟨18, 20⟩] [(⟨4, 5⟩ : Range Nat), ⟨15, 20⟩] :=
  Or.inr ⟨[⟨4, 5⟩], 15, 20, [], rfl, rfl, rfl⟩
example : Overlay [1, 2] [2, 3] [1, 2, 3] := Or.inr ⟨[1], 2, [3], rfl, rfl, rfl⟩
example : Reachable Demo.map ∧ (4 : Nat) ≤ 18 ∧ (18 : Nat) ≤ 22 :=
  ⟨Demo.map_reachable, by decide, by decide⟩

end

end Verif.Props

namespace Verif.Props.Inclusive
open Spec RangeInclusiveMap
variable {K : Type} [LE K] [LT K] [DecidableLE K] [DecidableLT K]
  [Std.IsLinearPreorder K] [Std.LawfulOrderLT K] {V : Type} {S : StepFns K}

/-- **C77** The entries overlapping a part of a range are those entries overlapping the range that
overlap the part. -/
theorem C77_overlapping_restrict [BEq V] [PartialEquivBEq V] (hS : LawfulSteps S)
    {m : RangeInclusiveMap K V} (hm : ReachableAny S m)
    (outer inner : RangeInclusive K) (h1 : outer.start ≤ inner.start)
    (h2 : inner.stop ≤ outer.stop) :
    ∃ o l o', m.overlapping outer = .ok o ∧ Yields Overlapping.next o l ∧
      m.overlapping inner = .ok o' ∧ Yields Overlapping.next o'
        (l.filter fun e => decide (inner.start ≤ e.1.stop) && decide (e.1.start ≤ inner.stop)) := by
  obtain ⟨o, i1, i2, i3⟩ := overlapping_items (hm.sc hS).sep outer
  obtain ⟨o', j1, j2, j3⟩ := overlapping_items (hm.sc hS).sep inner
  refine ⟨o, _, o', i1, Overlapping.yields o i2, j1, ?_⟩
  have hf : o'.items = o.items.filter fun e =>
      decide (inner.start ≤ e.1.stop) && decide (e.1.start ≤ inner.stop) := by
    rw [i3, j3, List.filter_filter]
    refine List.filter_congr fun e _ => ?_
    rw [Bool.eq_iff_iff]
    simp only [Bool.and_eq_true, decide_eq_true_eq]
    grind
  rw [← hf]
  exact Overlapping.yields o' j2

example := Inclusive.C77_overlapping_restrict (K := UIntW 8) (V := Char) (S := Demo.u8)
    Demo.u8_lawful (m := Demo.imap) Demo.imap_reachable.any (Demo.by8 2 22) (Demo.by8 6 9)
    (by decide) (by decide)

theorem overlay_of {a b b' c : K} (hab : a ≤ b) (hb : Next b b') (hbc : b' ≤ c) :
    ∀ l : List (RangeInclusive K × V), Sep l →
    Overlay (l.filter fun e => decide (a ≤ e.1.stop) && decide (e.1.start ≤ b))
      (l.filter fun e => decide (b' ≤ e.1.stop) && decide (e.1.start ≤ c))
      (l.filter fun e => decide (a ≤ e.1.stop) && decide (e.1.start ≤ c)) := by
  have hn := fun k => (Next.iff hb k).1
  have hlt := hb.1
  intro l
  induction l with
  | nil => intro _; exact Or.inl rfl
  | cons e t ih =>
    intro h
    have hp := List.pairwise_cons.1 h.pw
    have ht : Sep t := ⟨hp.2, fun x hx => h.ne x (by simp [hx])⟩
    have hne := h.ne e (by simp)
    have ih := ih ht
    have hn1 := hn e.1.stop
    have hn2 := hn e.1.start
    by_cases h1 : e.1.stop ≤ b
    · -- not in the second part
      rw [List.filter_cons_of_neg
        (p := fun e : RangeInclusive K × V => decide (b' ≤ e.1.stop) && decide (e.1.start ≤ c))
        (by simp; grind)]
      by_cases h2 : a ≤ e.1.stop
      · rw [List.filter_cons_of_pos (by simp; grind), List.filter_cons_of_pos (by simp; grind)]
        rcases ih with ih | ⟨xs, x, ys, i1, i2, i3⟩
        · exact Or.inl (by rw [ih]; rfl)
        · exact Or.inr ⟨e :: xs, x, ys, by rw [i1]; rfl, i2, by rw [i3]; rfl⟩
      · rw [List.filter_cons_of_neg (by simp; grind), List.filter_cons_of_neg (by simp; grind)]
        exact ih
    · -- the entries after `e` are in the second part only
      have h3 : ∀ x ∈ t, b < x.1.start := by
        intro x hx
        have := hp.1 x hx
        grind [Before]
      have h4 : (t.filter fun e => decide (a ≤ e.1.stop) && decide (e.1.start ≤ b)) = [] := by
        rw [List.filter_eq_nil_iff]
        intro x hx
        have := h3 x hx
        simp only [Bool.and_eq_true, decide_eq_true_eq]
        grind
      have h5 : (t.filter fun e => decide (a ≤ e.1.stop) && decide (e.1.start ≤ c)) =
          t.filter fun e => decide (b' ≤ e.1.stop) && decide (e.1.start ≤ c) := by
        refine List.filter_congr fun x hx => ?_
        have := (hn _).1 (h3 x hx)
        have := ht.ne x hx
        rw [Bool.eq_iff_iff]
        simp only [Bool.and_eq_true, decide_eq_true_eq]
        grind
      by_cases h6 : e.1.start ≤ b
      · rw [List.filter_cons_of_pos (by simp; grind), List.filter_cons_of_pos (by simp; grind),
          List.filter_cons_of_pos (by simp; grind), h4, h5]
        exact Or.inr ⟨[], e, _, rfl, rfl, rfl⟩
      · rw [List.filter_cons_of_neg
          (p := fun e : RangeInclusive K × V => decide (a ≤ e.1.stop) && decide (e.1.start ≤ b))
          (by simp; grind), h4]
        by_cases h7 : e.1.start ≤ c
        · rw [List.filter_cons_of_pos (by simp; grind), List.filter_cons_of_pos (by simp; grind), h5]
          exact Or.inl rfl
        · rw [List.filter_cons_of_neg (by simp; grind), List.filter_cons_of_neg (by simp; grind), h5]
          exact Or.inl rfl

/-- **C77** With `b'` next after `b`, `overlapping(a..=c)` is `overlapping(a..=b)` followed by
`overlapping(b'..=c)`, an entry that lies across being yielded once. -/
theorem C77_overlapping_split [BEq V] [PartialEquivBEq V] (hS : LawfulSteps S)
    {m : RangeInclusiveMap K V} (hm : ReachableAny S m)
    {a b b' c : K} (hab : a ≤ b) (hb : Next b b') (hbc : b' ≤ c) :
    ∃ o₁ l₁ o₂ l₂ o l, m.overlapping (.mk' a b) = .ok o₁ ∧ Yields Overlapping.next o₁ l₁ ∧
      m.overlapping (.mk' b' c) = .ok o₂ ∧ Yields Overlapping.next o₂ l₂ ∧
      m.overlapping (.mk' a c) = .ok o ∧ Yields Overlapping.next o l ∧ Overlay l₁ l₂ l := by
  have hs := (hm.sc hS).sep
  obtain ⟨o₁, i1, i2, i3⟩ := overlapping_items hs (.mk' a b)
  obtain ⟨o₂, j1, j2, j3⟩ := overlapping_items hs (.mk' b' c)
  obtain ⟨o, k1, k2, k3⟩ := overlapping_items hs (.mk' a c)
  refine ⟨o₁, _, o₂, _, o, _, i1, Overlapping.yields o₁ i2, j1, Overlapping.yields o₂ j2,
    k1, Overlapping.yields o k2, ?_⟩
  rw [i3, j3, k3]
  exact overlay_of hab hb hbc _ hs

section
variable {K : Type} [LE K] [LT K] [DecidableLE K] [DecidableLT K]
  [Std.IsLinearOrder K] [Std.LawfulOrderLT K] {V : Type} {S : StepFns K}

/-- `l` is made of the maximal runs of `P`, in order. -/
structure Runs (P : K → Prop) (l : List (RangeInclusive K)) : Prop where
  mem : ∀ k, (∃ r ∈ l, r.start ≤ k ∧ k ≤ r.stop) ↔ P k
  ne : ∀ r ∈ l, r.start ≤ r.stop ∧ r.exhausted = false
  pw : l.Pairwise fun r r' => ∃ k, r.stop < k ∧ k < r'.start ∧ ¬ P k

theorem Runs.tail {P : K → Prop} {g : RangeInclusive K} {t : List (RangeInclusive K)}
    (h : Runs P (g :: t)) : Runs (fun k => P k ∧ g.stop < k) t := by
  have hp := List.pairwise_cons.1 h.pw
  refine ⟨fun k => ?_, fun r hr => h.ne r (by simp [hr]), hp.2.imp ?_⟩
  · rw [← h.mem]
    constructor
    · rintro ⟨r, hr, h1, h2⟩
      obtain ⟨k', h3, h4, -⟩ := hp.1 r hr
      exact ⟨⟨r, by simp [hr], h1, h2⟩, Std.lt_of_lt_of_le (Std.lt_trans h3 h4) h1⟩
    · rintro ⟨⟨r, hr, h1, h2⟩, h3⟩
      rcases List.mem_cons.1 hr with rfl | hr
      · exact absurd h3 (Std.not_lt.2 h2)
      · exact ⟨r, hr, h1, h2⟩
  · rintro r r' ⟨k, h1, h2, h3⟩
    exact ⟨k, h1, h2, fun h => h3 h.1⟩

theorem Runs.first {P : K → Prop} {g : RangeInclusive K} {t : List (RangeInclusive K)}
    (h : Runs P (g :: t)) : P g.start ∧ ∀ k, P k → g.start ≤ k := by
  have hg := (h.ne g (by simp)).1
  refine ⟨(h.mem _).1 ⟨g, by simp, Std.le_refl _, hg⟩, fun k hk => ?_⟩
  obtain ⟨r, hr, h1, h2⟩ := (h.mem k).2 hk
  rcases List.mem_cons.1 hr with rfl | hr
  · exact h1
  · obtain ⟨k', h3, h4, -⟩ := (List.pairwise_cons.1 h.pw).1 r hr
    grind

/-- The first run ends where `P` first fails. -/
theorem Runs.stop_le {P : K → Prop} {g g' : RangeInclusive K} {t t' : List (RangeInclusive K)}
    (h : Runs P (g :: t)) (h' : Runs P (g' :: t')) : g'.stop ≤ g.stop := by
  have hg := (h.ne g (by simp)).1
  have hg' := (h'.ne g' (by simp)).1
  have h1 := h'.first.2 _ h.first.1
  refine Std.not_lt.1 fun hlt => ?_
  obtain ⟨r, hr, h2, h3⟩ := (h.mem g'.stop).2 ((h'.mem _).1 ⟨g', by simp, hg', Std.le_refl _⟩)
  rcases List.mem_cons.1 hr with rfl | hr
  · grind
  · obtain ⟨k, h4, h5, h6⟩ := (List.pairwise_cons.1 h.pw).1 r hr
    exact h6 ((h'.mem k).1 ⟨g', by simp, by grind, by grind⟩)

theorem Runs.unique : ∀ {P : K → Prop} {l l' : List (RangeInclusive K)}, Runs P l → Runs P l' →
    l = l' := by
  intro P l
  induction l generalizing P with
  | nil =>
    intro l' h h'
    cases l' with
    | nil => rfl
    | cons g t => exact absurd ((h.mem _).2 h'.first.1) (by simp)
  | cons g t ih =>
    intro l' h h'
    cases l' with
    | nil => exact absurd ((h'.mem _).2 h.first.1) (by simp)
    | cons g' t' =>
      have e1 : g.start = g'.start :=
        Std.le_antisymm (h.first.2 _ h'.first.1) (h'.first.2 _ h.first.1)
      have e2 : g.stop = g'.stop := Std.le_antisymm (h'.stop_le h) (h.stop_le h')
      have e3 := (h.ne g (by simp)).2
      have e4 := (h'.ne g' (by simp)).2
      have e : g = g' := by
        cases g
        cases g'
        simp_all
      subst e
      rw [ih h.tail h'.tail]

theorem iclip_some {q r x : RangeInclusive K} (h : iclip q r = some x) :
    x.start ≤ x.stop ∧ x.exhausted = false ∧
      (∀ k, x.start ≤ k ↔ q.start ≤ k ∧ r.start ≤ k) ∧ ∀ k, k ≤ x.stop ↔ k ≤ q.stop ∧ k ≤ r.stop := by
  unfold iclip at h
  obtain ⟨hc, h⟩ := Option.ite_none_right_eq_some.1 h
  cases h
  refine ⟨hc, rfl, fun k => ?_, fun k => ?_⟩
  · simp only [RangeInclusive.mk'_start]
    split <;> grind
  · simp only [RangeInclusive.mk'_stop]
    split <;> grind

theorem iclip_of {q r : RangeInclusive K} {k : K} (h1 : q.start ≤ k) (h2 : k ≤ q.stop)
    (h3 : r.start ≤ k) (h4 : k ≤ r.stop) : ∃ x, iclip q r = some x := by
  unfold iclip
  have : (if q.start < r.start then r.start else q.start) ≤
      (if r.stop < q.stop then r.stop else q.stop) := by
    split <;> split <;> grind
  exact ⟨_, if_pos this⟩

theorem Runs.clip {P : K → Prop} {l : List (RangeInclusive K)} (h : Runs P l)
    (q : RangeInclusive K) :
    Runs (fun k => P k ∧ q.start ≤ k ∧ k ≤ q.stop) (l.filterMap (iclip q)) := by
  refine ⟨fun k => ?_, fun x hx => ?_, ?_⟩
  · simp only [List.mem_filterMap, ← h.mem]
    constructor
    · rintro ⟨x, ⟨r, hr, hx⟩, h1, h2⟩
      obtain ⟨-, -, h3, h4⟩ := iclip_some hx
      have h3 := (h3 k).1 h1
      have h4 := (h4 k).1 h2
      exact ⟨⟨r, hr, h3.2, h4.2⟩, h3.1, h4.1⟩
    · rintro ⟨⟨r, hr, h1, h2⟩, h3, h4⟩
      obtain ⟨x, hx⟩ := iclip_of h3 h4 h1 h2
      obtain ⟨-, -, h5, h6⟩ := iclip_some hx
      exact ⟨x, ⟨r, hr, hx⟩, (h5 k).2 ⟨h3, h1⟩, (h6 k).2 ⟨h4, h2⟩⟩
  · obtain ⟨r, hr, hx⟩ := List.mem_filterMap.1 hx
    exact ⟨(iclip_some hx).1, (iclip_some hx).2.1⟩
  · refine List.Pairwise.filterMap _ ?_ h.pw
    rintro r r' ⟨k, h1, h2, h3⟩ x hx x' hx'
    obtain ⟨-, -, h5, h6⟩ := iclip_some hx
    obtain ⟨-, -, h5', h6'⟩ := iclip_some hx'
    refine ⟨k, ?_, ?_, fun h => h3 h.1⟩
    · have := (h6 x.stop).1 (Std.le_refl _)
      grind
    · have := (h5' x'.start).1 (Std.le_refl _)
      grind

/-- What `gaps` yields are the maximal runs of points in the outer range that no entry covers. -/
theorem gaps_runs [BEq V] [PartialEquivBEq V] (hS : LawfulSteps S) {m : RangeInclusiveMap K V}
    (hm : ReachableAny S m) (outer : RangeInclusive K) :
    ∃ g l, m.gaps outer = .ok g ∧ YieldsE (Gaps.next S) g l ∧
      Runs (fun k => outer.start ≤ k ∧ k ≤ outer.stop ∧
        ∀ e ∈ m.iter, ¬ (e.1.start ≤ k ∧ k ≤ e.1.stop)) l := by
  obtain ⟨g, l, h1, h2, h3⟩ := C31_gaps_exact_any hS hm outer
  obtain ⟨g', l', i1, i2, i3, i4⟩ := C31_gaps_ordered hS hm outer
  rw [h1] at i1
  cases i1
  rw [YieldsE.unique i2 h2] at i3 i4
  refine ⟨g, l, h1, h2, h3, fun r hr => ⟨(i3 r hr).1, (i3 r hr).2.1⟩, i4.imp ?_⟩
  rintro r r' ⟨e, he, j1, j2, j3⟩
  exact ⟨e.1.start, j1.1, Std.lt_of_le_of_lt j2 j3, fun h => h.2.2 e he ⟨Std.le_refl _, j2⟩⟩

/-- **C77** The gaps in a part of a range are the parts inside it of the gaps in the range. -/
theorem C77_gaps_restrict [BEq V] [PartialEquivBEq V] (hS : LawfulSteps S)
    {m : RangeInclusiveMap K V} (hm : ReachableAny S m)
    (outer inner : RangeInclusive K) (h1 : outer.start ≤ inner.start)
    (h2 : inner.stop ≤ outer.stop) :
    ∃ g l g', m.gaps outer = .ok g ∧ YieldsE (Gaps.next S) g l ∧ m.gaps inner = .ok g' ∧
      YieldsE (Gaps.next S) g' (l.filterMap (iclip inner)) := by
  obtain ⟨g, l, i1, i2, i3⟩ := gaps_runs hS hm outer
  obtain ⟨g', l', j1, j2, j3⟩ := gaps_runs hS hm inner
  refine ⟨g, l, g', i1, i2, j1, ?_⟩
  have := i3.clip inner
  rw [show (fun k => (outer.start ≤ k ∧ k ≤ outer.stop ∧
      ∀ e ∈ m.iter, ¬ (e.1.start ≤ k ∧ k ≤ e.1.stop)) ∧ inner.start ≤ k ∧ k ≤ inner.stop) =
      fun k => inner.start ≤ k ∧ k ≤ inner.stop ∧
        ∀ e ∈ m.iter, ¬ (e.1.start ≤ k ∧ k ≤ e.1.stop) by
    funext k
    apply propext
    constructor
    · exact fun h => ⟨h.2.1, h.2.2, h.1.2.2⟩
    · exact fun h => ⟨⟨Std.le_trans h1 h.1, Std.le_trans h.2.1 h2, h.2.2⟩, h.1, h.2.1⟩] at this
  rw [this.unique j3]
  exact j2

theorem iclip_self {q r : RangeInclusive K} (h : r.start ≤ r.stop) (hx : r.exhausted = false)
    (h1 : q.start ≤ r.start) (h2 : r.stop ≤ q.stop) : iclip q r = some r := by
  simp only [iclip, ite_lt_of_ge h1, ite_lt_of_le h2, if_pos h]
  cases r
  simp_all [RangeInclusive.mk']

theorem iclip_left {q r : RangeInclusive K} (h : r.stop < q.start) : iclip q r = none := by
  unfold iclip
  refine if_neg ?_
  split <;> split <;> grind

theorem iclip_right {q r : RangeInclusive K} (h : q.stop < r.start) : iclip q r = none := by
  unfold iclip
  refine if_neg ?_
  split <;> split <;> grind

/-- Splitting a list of separate ranges. -/
theorem joined_of {a b b' c : K} (hb : Next b b') :
    ∀ l : List (RangeInclusive K),
      (∀ g ∈ l, g.start ≤ g.stop ∧ g.exhausted = false ∧ a ≤ g.start ∧ g.stop ≤ c) →
      l.Pairwise (fun g g' => g.stop < g'.start) →
      IJoined b b' (l.filterMap (iclip (.mk' a b))) (l.filterMap (iclip (.mk' b' c))) l := by
  have hn := fun k => (Next.iff hb k).1
  have hlt := hb.1
  intro l
  induction l with
  | nil => intro _ _; exact Or.inl rfl
  | cons g t ih =>
    intro h hp
    obtain ⟨h1, hx, h2, h3⟩ := h g (by simp)
    have hp := List.pairwise_cons.1 hp
    have ih := ih (fun x hx => h x (by simp [hx])) hp.2
    by_cases h4 : g.stop ≤ b
    · rw [List.filterMap_cons_some (iclip_self (q := .mk' a b) h1 hx h2 h4),
        List.filterMap_cons_none (iclip_left (q := .mk' b' c) (Std.lt_of_le_of_lt h4 hlt))]
      rcases ih with ih | ⟨xs, s, u, ys, i1, i2, i3⟩
      · exact Or.inl (by rw [List.cons_append, ← ih])
      · exact Or.inr ⟨g :: xs, s, u, ys, by rw [i1]; rfl, i2, by rw [i3]; rfl⟩
    · have h4 := Std.not_le.1 h4
      have h5 : ∀ x ∈ t, b < x.start := fun x hx => Std.lt_trans h4 (hp.1 x hx)
      have h6 : t.filterMap (iclip (.mk' a b)) = [] := by
        rw [List.filterMap_eq_nil_iff]
        exact fun x hx => iclip_right (h5 x hx)
      have h7 : t.filterMap (iclip (.mk' b' c)) = t :=
        filterMap_self fun x hx => by
          obtain ⟨j1, j2, j3, j4⟩ := h x (by simp [hx])
          exact iclip_self (q := .mk' b' c) j1 j2 ((hn _).1 (h5 x hx)) j4
      have h9 := (hn _).1 h4
      by_cases h8 : g.start ≤ b
      · have e1 : iclip (.mk' a b) g = some (.mk' g.start b) := by
          have e3 : (if g.stop < b then g.stop else b) = b :=
            if_neg (Std.not_lt.2 (Std.le_of_lt h4))
          show (if (if a < g.start then g.start else a) ≤ (if g.stop < b then g.stop else b) then
            some (RangeInclusive.mk' (if a < g.start then g.start else a)
              (if g.stop < b then g.stop else b)) else none) = _
          rw [ite_lt_of_ge h2, e3, if_pos h8]
        have e2 : iclip (.mk' b' c) g = some (.mk' b' g.stop) := by
          have e3 : (if b' < g.start then g.start else b') = b' :=
            if_neg (Std.not_lt.2 (Std.le_of_lt (Std.lt_of_le_of_lt h8 hlt)))
          show (if (if b' < g.start then g.start else b') ≤ (if g.stop < c then g.stop else c) then
            some (RangeInclusive.mk' (if b' < g.start then g.start else b')
              (if g.stop < c then g.stop else c)) else none) = _
          rw [ite_lt_of_le h3, e3, if_pos h9]
        rw [List.filterMap_cons_some e1, List.filterMap_cons_some e2, h6, h7]
        refine Or.inr ⟨[], g.start, g.stop, t, rfl, rfl, ?_⟩
        cases g
        simp_all [RangeInclusive.mk']
      · have h8 := Std.not_le.1 h8
        rw [List.filterMap_cons_none (iclip_right (q := .mk' a b) h8),
          List.filterMap_cons_some (iclip_self (q := .mk' b' c) h1 hx ((hn _).1 h8) h3), h6, h7]
        exact Or.inl rfl

/-- **C77** With `b'` next after `b`, `gaps(a..=c)` is `gaps(a..=b)` followed by `gaps(b'..=c)`, the
two parts of a gap that lies across being one. -/
theorem C77_gaps_split [BEq V] [PartialEquivBEq V] (hS : LawfulSteps S)
    {m : RangeInclusiveMap K V} (hm : ReachableAny S m)
    {a b b' c : K} (hab : a ≤ b) (hb : Next b b') (hbc : b' ≤ c) :
    ∃ g₁ l₁ g₂ l₂ g l, m.gaps (.mk' a b) = .ok g₁ ∧ YieldsE (Gaps.next S) g₁ l₁ ∧
      m.gaps (.mk' b' c) = .ok g₂ ∧ YieldsE (Gaps.next S) g₂ l₂ ∧
      m.gaps (.mk' a c) = .ok g ∧ YieldsE (Gaps.next S) g l ∧ IJoined b b' l₁ l₂ l := by
  obtain ⟨g, l, i1, i2, hs, hp⟩ := C31_gaps_ordered hS hm (.mk' a c)
  obtain ⟨g₀, l₀, g₁, k1, k2, i3, i4⟩ := C77_gaps_restrict hS hm (.mk' a c) (.mk' a b)
    (Std.le_refl a) (Std.le_trans (Std.le_of_lt hb.1) hbc)
  obtain ⟨g', l', g₂, j1, j2, j3, j4⟩ := C77_gaps_restrict hS hm (.mk' a c) (.mk' b' c)
    (Std.le_trans hab (Std.le_of_lt hb.1)) (Std.le_refl c)
  rw [i1] at j1 k1
  cases j1
  cases k1
  rw [YieldsE.unique j2 i2] at j4
  rw [YieldsE.unique k2 i2] at i4
  refine ⟨g₁, _, g₂, _, g, _, i3, i4, j3, j4, i1, i2, joined_of hb _ hs (hp.imp ?_)⟩
  rintro r r' ⟨e, he, j1, j2, j3⟩
  exact Std.lt_trans j1.1 (Std.lt_of_le_of_lt j2 j3)

example : (Demo.imap.gaps (Demo.by8 0 255)).toOption.bind
    (fun g => (drainE (Gaps.next Demo.u8) 9 g).toOption) =
      some [Demo.by8 3 4, Demo.by8 16 19] := by rfl
example : (Demo.imap.gaps (Demo.by8 4 17)).toOption.bind
    (fun g => (drainE (Gaps.next Demo.u8) 9 g).toOption) =
      some ([Demo.by8 3 4, Demo.by8 16 19].filterMap (iclip (Demo.by8 4 17))) := by rfl
example : [Demo.by8 3 4, Demo.by8 16 19].filterMap (iclip (Demo.by8 4 17)) =
    [Demo.by8 4 4, Demo.by8 16 17] := by rfl
example : ReachableAny Demo.u8 Demo.imap ∧ Next (⟨17⟩ : UIntW 8) ⟨18⟩ := by
  refine ⟨Demo.imap_reachable.any, ?_, fun d hd => ?_⟩
  · rw [UIntW.lt_def]; decide
  · rw [UIntW.lt_def] at hd; rw [UIntW.le_def]
    exact hd

end


example := C77_overlapping_split Demo.u8_lawful Demo.imap_reachable.any (a := ⟨2⟩) (b := ⟨9⟩)
  (b' := ⟨10⟩) (c := ⟨22⟩) (by decide) (by
    obtain ⟨c, h1, h2⟩ := Demo.u8_lawful.addOne ⟨9⟩ ⟨10⟩ (by decide)
    cases h1
    exact h2) (by decide)
theorem nat_lawful :
    LawfulSteps (⟨fun a => .ok (a + 1), fun a => .ok (a - 1)⟩ : StepFns Nat) where
  addOne a b h := ⟨a + 1, rfl, Nat.lt_succ_self a, fun _ h => h⟩
  subOne a b h := ⟨a - 1, rfl, by omega, fun d hd => by omega⟩
example := C77_gaps_restrict nat_lawful (V := Char)
  (m := run _ [.insert (.mk' 3 9) 'a', .insert (.mk' 12 15) 'b', .remove (.mk' 5 5)]) ⟨_, rfl⟩
  (.mk' 1 99) (.mk' 4 17) (by decide) (by decide)

end Verif.Props.Inclusive

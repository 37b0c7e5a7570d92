import Verif.Proof.Lengths
import Verif.Props.Set
import Verif.Props.Demo
import Verif.Props.Map

/-!
# C95: lengths add up (half-open)

Place every key on a ruler: `φ` gives keys any whole numbers, equal ones for keys that compare
    equal.
`a..b` then has the length `φ b - φ a`, and the lengths of what the operations take, return and
leave behind are in balance.
-/
set_option linter.unusedSectionVars false
namespace Verif.Props
open RangeMap Spec Lengths

section
variable {K V : Type} [LE K] [LT K] [DecidableLE K] [DecidableLT K]
  [Std.IsLinearPreorder K] [Std.LawfulOrderLT K] [BEq V] [PartialEquivBEq V] {φ : K → Int}

/-- Squares, as a ruler. -/
def squares (n : Nat) : Int := n * n

theorem squares_ruler : Ruler squares := fun a b h1 h2 => by rw [Nat.le_antisymm h1 h2]

theorem squares_mono (a b : Nat) (h : a ≤ b) : squares a ≤ squares b := by
  have := Nat.mul_le_mul h h
  unfold squares
  omega

/-- Tagged keys at twice their numbers. -/
def tags (k : Demo.TagKey) : Int := 2 * k.n

theorem tags_ruler : Ruler tags := fun a b (h1 : a.n ≤ b.n) (h2 : b.n ≤ a.n) => by
  unfold tags; omega

/-- Natural numbers are numbered by themselves. -/
theorem nat_numbering : Numbering (fun n : Nat => (n : Int)) where
  order a b := by simp
  between a b n h1 h2 := ⟨n.toNat, by omega⟩

theorem ite_iff {a b : Prop} [Decidable a] [Decidable b] (h : a ↔ b) :
    (if a then 1 else 0 : Nat) = if b then 1 else 0 := by
  by_cases ha : a
  · rw [if_pos ha, if_pos (h.1 ha)]
  · rw [if_neg ha, if_neg (mt h.2 ha)]

theorem get_exists {m : RangeMap K V} (hm : Reachable m) (P : V → Bool) (k : K) :
    (∃ e ∈ m.iter, (e.1.start ≤ k ∧ k < e.1.stop) ∧ P e.2 = true) ↔
      ∃ w, m.get k = .ok (some w) ∧ P w = true := by
  obtain ⟨o, h1, h2, -⟩ := C09_projections hm k
  rw [h2]
  constructor
  · rintro ⟨e, he, hk, hP⟩
    have := (C09_get_key_value hm k e).2 ⟨he, hk⟩
    rw [h1] at this
    cases this
    exact ⟨_, rfl, hP⟩
  · rintro ⟨w, hw, hP⟩
    cases o with
    | none => cases hw
    | some e =>
      cases hw
      exact ⟨e, ((C09_get_key_value hm k e).1 h1).1, ((C09_get_key_value hm k e).1 h1).2, hP⟩

open Classical in
/-- How often the ranges with values in `P` cover a key. -/
theorem count_of {m : RangeMap K V} (hm : Reachable m) (P : V → Bool) (k : K) :
    (((m.iter.filter fun e => P e.2).map (·.1)).countP fun r => covers r k) =
      if ∃ w, m.get k = .ok (some w) ∧ P w = true then 1 else 0 := by
  have h := C04_sorted_disjoint hm
  exact (countP_of P h.2 (fun e he => by have := h.1 e he; grind) k).trans
    (ite_iff (get_exists hm P k))

open Classical in
/-- How often their parts in `q` do. -/
theorem count_clip {m : RangeMap K V} (hm : Reachable m) (P : V → Bool) (q : Range K) (k : K) :
    ((((m.iter.filter fun e => decide (q.start < e.1.stop) && decide (e.1.start < q.stop)).filter
      fun e => P e.2).map fun e => cutTo q e.1).countP fun r => covers r k) =
      if (q.start ≤ k ∧ k < q.stop) ∧ ∃ w, m.get k = .ok (some w) ∧ P w = true then 1 else 0 := by
  have h := C04_sorted_disjoint hm
  exact (countP_clip P q h.2 (fun e he => by have := h.1 e he; grind) k).trans
    (ite_iff (and_congr_right fun _ => get_exists hm P k))

theorem clip_valid {m : RangeMap K V} (hm : Reachable m) (P : V → Bool) {q : Range K}
    (hq : q.start < q.stop) : ∀ r ∈ ((m.iter.filter fun e =>
      decide (q.start < e.1.stop) && decide (e.1.start < q.stop)).filter
      fun e => P e.2).map (fun e => cutTo q e.1), r.start ≤ r.stop := by
  intro r hr
  obtain ⟨e, he, rfl⟩ := List.mem_map.1 hr
  have he := (List.mem_filter.1 he).1
  have h1 := (C04_sorted_disjoint hm).1 e (List.mem_filter.1 he).1
  have h2 := (List.mem_filter.1 he).2
  simp only [cutTo, rmax_le, le_rmin, Bool.and_eq_true, decide_eq_true_eq] at *
  grind

theorem of_valid {m : RangeMap K V} (hm : Reachable m) (P : V → Bool) :
    ∀ r ∈ (m.iter.filter fun e => P e.2).map (·.1), r.start ≤ r.stop := by
  intro r hr
  obtain ⟨e, he, rfl⟩ := List.mem_map.1 hr
  have h1 := (C04_sorted_disjoint hm).1 e (List.mem_filter.1 he).1
  grind

theorem count_one (r : Range K) (k : K) (b : Bool) :
    ((if b then [r] else []).countP fun r => covers r k) =
      if (r.start ≤ k ∧ k < r.stop) ∧ b = true then 1 else 0 := by
  cases b
  · simp
  · simp [covers]

/-- **C95** An insert adds the length of the range to the value's total, and takes from every value
what it had in that range: for any choice `P` of values, the total after, and what was there in the
range before, are together the total before and, if the value is in `P`, the length of the range. -/
theorem C95_insert (hφ : Ruler φ) {m : RangeMap K V} (hm : Reachable m) {r : Range K} (v : V)
    (hr : r.start < r.stop) (P : V → Bool) (hP : ∀ a b, (a == b) = true → P a = P b) :
    ∃ o os m', m.overlapping r = .ok o ∧ Yields Overlapping.next o os ∧ m.insert r v = .ok m' ∧
      totalOf φ P m'.iter + total φ ((os.filter fun e => P e.2).map fun e => cutTo r e.1) =
        totalOf φ P m.iter + if P v then span φ r else 0 := by
  obtain ⟨o, h1, h2⟩ := C13_overlapping_exact hm r
  obtain ⟨m', h3, h4, h5⟩ := C01_insert_inside hm v hr
  refine ⟨o, _, m', h1, h2, h3, ?_⟩
  have hlast : (if P v then span φ r else 0) = total φ (if P v then [r] else []) := by
    cases P v <;> simp [total]
  rw [hlast, totalOf, totalOf, ← total_append, ← total_append]
  refine total_eq hφ ?_ ?_ fun k => ?_
  · intro x hx
    rcases List.mem_append.1 hx with hx | hx
    · exact of_valid h4 P x hx
    · exact clip_valid hm P hr x hx
  · intro x hx
    rcases List.mem_append.1 hx with hx | hx
    · exact of_valid hm P x hx
    · cases hv : P v
      · simp [hv] at hx
      · have : x = r := by simpa [hv] using hx
        subst this
        grind
  · classical
    rw [List.countP_append, List.countP_append, count_of h4, count_of hm, count_clip hm, count_one]
    by_cases hk : r.start ≤ k ∧ k < r.stop
    · rw [h5 k hk.1 hk.2, ite_iff (and_iff_right hk), ite_iff (and_iff_right hk)]
      simp only [Except.ok.injEq, Option.some.injEq, exists_eq_left']
      omega
    · simp only [hk, false_and, if_false, Nat.add_zero]
      rcases C01_insert_outside hm h3 k hk with h | ⟨w, h6, h7, h8⟩
      · rw [h]
      · rw [h6, h8]
        simp [hP _ _ h7]

example := C95_insert squares_ruler Demo.map_reachable (r := ⟨2, 22⟩) 'b' (by decide) (· == 'b')
  fun a b h => by rw [beq_iff_eq.1 h]
example := C95_insert tags_ruler Demo.oddMap_reachable (r := ⟨⟨2, true⟩, ⟨20, false⟩⟩) .nan
  (by decide) (fun _ => true) fun _ _ _ => rfl
-- `2..22 ↦ b`: `20..25 ↦ b` becomes `2..25`, of which `20..22` was there before
example : totalOf squares (· == 'b') Demo.map.iter = 225 ∧ span squares ⟨2, 22⟩ = 480 ∧
    (Demo.map.insert ⟨2, 22⟩ 'b').toOption.map (fun m => totalOf squares (· == 'b') m.iter) =
      some (225 + 480 - (22 * 22 - 20 * 20)) := by decide

/-- **C95** A remove takes from every value what it had in the range. -/
theorem C95_remove (hφ : Ruler φ) {m : RangeMap K V} (hm : Reachable m) {r : Range K}
    (hr : r.start < r.stop) (P : V → Bool) :
    ∃ o os m', m.overlapping r = .ok o ∧ Yields Overlapping.next o os ∧ m.remove r = .ok m' ∧
      totalOf φ P m'.iter + total φ ((os.filter fun e => P e.2).map fun e => cutTo r e.1) =
        totalOf φ P m.iter := by
  obtain ⟨o, h1, h2⟩ := C13_overlapping_exact hm r
  obtain ⟨m', h3, h4, h5, h6⟩ := C02_remove_pointwise hm hr
  refine ⟨o, _, m', h1, h2, h3, ?_⟩
  rw [totalOf, totalOf, ← total_append]
  refine total_eq hφ ?_ (of_valid hm P) fun k => ?_
  · intro x hx
    rcases List.mem_append.1 hx with hx | hx
    · exact of_valid h4 P x hx
    · exact clip_valid hm P hr x hx
  · classical
    rw [List.countP_append, count_of h4, count_of hm, count_clip hm]
    by_cases hk : r.start ≤ k ∧ k < r.stop
    · rw [h5 k hk.1 hk.2, ite_iff (and_iff_right hk)]
      simp
    · rw [h6 k hk]
      simp [hk]

example := C95_remove squares_ruler Demo.map_reachable (r := ⟨2, 22⟩) (by decide) (· == 'b')
example := C95_remove tags_ruler Demo.oddMap_reachable (r := ⟨⟨2, true⟩, ⟨20, false⟩⟩)
  (by decide) fun _ => true

theorem all_eq (es : List (Range K × V)) : (es.filter fun e => (fun _ => true) e.2) = es := by simp

/-- **C95** The gaps in a range, and what `overlapping` finds there, cut to the range, are together
as long as the range. -/
theorem C95_gaps (hφ : Ruler φ) {m : RangeMap K V} (hm : Reachable m) {q : Range K}
    (hq : q.start < q.stop) :
    ∃ o os g gs, m.overlapping q = .ok o ∧ Yields Overlapping.next o os ∧ m.gaps q = .ok g ∧
      Yields Gaps.next g gs ∧ total φ gs + total φ (os.map fun e => cutTo q e.1) = span φ q := by
  obtain ⟨o, h1, h2⟩ := C13_overlapping_exact hm q
  obtain ⟨g, gs, h3, h4, h5⟩ := C10_gaps_exact hm q
  obtain ⟨g', gs', h3', h4', h6, h7⟩ := C11_gaps_ordered hm q
  cases h3.symm.trans h3'
  cases Yields.unique h4 h4'
  refine ⟨o, _, g, gs, h1, h2, h3, h4, ?_⟩
  rw [show span φ q = total φ [q] by simp [total], ← total_append]
  refine total_eq hφ ?_ ?_ fun k => ?_
  · intro x hx
    rcases List.mem_append.1 hx with hx | hx
    · have := (h6 x hx).1
      grind
    · have := clip_valid hm (fun _ => true) hq
      rw [all_eq] at this
      exact this x hx
  · simp only [List.mem_singleton]
    rintro x rfl
    grind
  · have hc := count_clip hm (fun _ => true) q k
    rw [all_eq] at hc
    classical
    rw [List.countP_append, hc, (countP_covers (h7.imp fun h => by grind)
      (fun r hr => by have := (h6 r hr).1; grind) k).trans (ite_iff (h5 k))]
    obtain ⟨w, hw⟩ := (C07_lookups_never_panic hm k).2.1
    rw [hw, List.countP_singleton]
    by_cases hk : q.start ≤ k ∧ k < q.stop
    · cases w <;> simp [covers, hk]
    · have : ¬ (q.start ≤ k ∧ k < q.stop ∧ (Except.ok w : Except Panic _) = .ok none) :=
        fun h => hk ⟨h.1, h.2.1⟩
      rw [if_neg this]
      simp [covers, hk]

example := C95_gaps squares_ruler Demo.map_reachable (q := ⟨2, 22⟩) (by decide)

/-- **C95** An insert makes the whole as much longer as there were gaps in the range. -/
theorem C95_insert_gaps (hφ : Ruler φ) {m : RangeMap K V} (hm : Reachable m) {r : Range K} (v : V)
    (hr : r.start < r.stop) :
    ∃ g gs m', m.gaps r = .ok g ∧ Yields Gaps.next g gs ∧ m.insert r v = .ok m' ∧
      totalOf φ (fun _ => true) m'.iter = totalOf φ (fun _ => true) m.iter + total φ gs := by
  obtain ⟨o, os, m', h1, h2, h3, h4⟩ := C95_insert hφ hm v hr (fun _ => true) (fun _ _ _ => rfl)
  obtain ⟨o', os', g, gs, h5, h6, h7, h8, h9⟩ := C95_gaps hφ hm hr
  cases h1.symm.trans h5
  cases Yields.unique h2 h6
  refine ⟨g, gs, m', h7, h8, h3, ?_⟩
  rw [all_eq, if_pos rfl] at h4
  omega

example := C95_insert_gaps squares_ruler Demo.map_reachable (r := ⟨2, 22⟩) 'b' (by decide)

/-- **C95** From the start of the first range to the end of the last is as long as all the ranges
and the gaps between them. -/
theorem C95_hull (hφ : Ruler φ) {m : RangeMap K V} (hm : Reachable m) {a b : Range K × V}
    (ha : m.firstRangeValue = some a) (hb : m.lastRangeValue = some b) :
    ∃ g gs, m.gaps ⟨a.1.start, b.1.stop⟩ = .ok g ∧ Yields Gaps.next g gs ∧
      totalOf φ (fun _ => true) m.iter + total φ gs = φ b.1.stop - φ a.1.start := by
  have hs := C04_sorted_disjoint hm
  have ha' : a ∈ m.iter := List.mem_of_mem_head? ha
  have hb' : b ∈ m.iter := List.mem_of_mem_getLast? hb
  have hmin : ∀ e ∈ m.iter, a.1.start ≤ e.1.start := by
    unfold firstRangeValue at ha
    unfold RangeMap.iter at hs ⊢
    generalize m.btm = l at *
    intro e he
    cases l with
    | nil => cases he
    | cons x l =>
      cases ha
      rcases List.mem_cons.1 he with rfl | he
      · exact Std.le_refl _
      · have := List.rel_of_pairwise_cons hs.2 he
        have := hs.1 a (by simp)
        grind
  have hmax : ∀ e ∈ m.iter, e.1.stop ≤ b.1.stop := by
    intro e he
    unfold lastRangeValue at hb
    obtain ⟨l, hl⟩ := List.getLast?_eq_some_iff.1 hb
    have he' : e ∈ l ++ [b] := by rw [← hl]; exact he
    rcases List.mem_append.1 he' with he' | he'
    · have h1 : (l ++ [b]).Pairwise fun a b => a.1.stop ≤ b.1.start := by
        rw [← hl]; exact hs.2
      have := (List.pairwise_append.1 h1).2.2 e he' b (by simp)
      have := hs.1 b hb'
      grind
    · rw [List.mem_singleton.1 he']
      exact Std.le_refl _
  have hq : a.1.start < b.1.stop := by
    have := hs.1 a ha'
    have := hmax a ha'
    grind
  obtain ⟨o, os, g, gs, h1, h2, h3, h4, h5⟩ := C95_gaps hφ hm (q := ⟨a.1.start, b.1.stop⟩) hq
  refine ⟨g, gs, h3, h4, ?_⟩
  obtain ⟨o', h1', h2'⟩ := C13_overlapping_exact hm ⟨a.1.start, b.1.stop⟩
  cases h1.symm.trans h1'
  cases Yields.unique h2 h2'
  have : total φ ((m.iter.filter fun e => decide (a.1.start < e.1.stop) &&
      decide (e.1.start < b.1.stop)).map fun e => cutTo ⟨a.1.start, b.1.stop⟩ e.1) =
      totalOf φ (fun _ => true) m.iter := by
    rw [List.filter_eq_self.2 fun e he => by
      have h1 := hmin e he
      have h2 := hmax e he
      have h3 := hs.1 e he
      simp only [Bool.and_eq_true, decide_eq_true_eq]
      grind]
    rw [totalOf, all_eq]
    refine congrArg List.sum ?_
    rw [List.map_map, List.map_map]
    refine List.map_congr_left fun e he => ?_
    have h1 := hmin e he
    have h2 := hmax e he
    have e1 : φ (rmax a.1.start e.1.start) = φ e.1.start := by
      refine hφ _ _ ?_ ?_
      · rw [rmax_le]; exact ⟨h1, Std.le_refl _⟩
      · rw [le_rmax]; exact .inr (Std.le_refl _)
    have e2 : φ (rmin b.1.stop e.1.stop) = φ e.1.stop := by
      refine hφ _ _ ?_ ?_
      · rw [rmin_le]; exact .inr (Std.le_refl _)
      · rw [le_rmin]; exact ⟨h2, Std.le_refl _⟩
    simp [span, cutTo, e1, e2]
  rw [← this]
  simp only [span] at h5
  omega

example := C95_hull squares_ruler Demo.map_reachable (a := (⟨0, 3⟩, 'a')) (b := (⟨25, 40⟩, 'c'))
  rfl rfl

/-- **C95** On a ruler that goes up with the keys, no total is negative, and a map whose keys are
    all
in another has at most the other's total. -/
theorem C95_monotone (hφ : ∀ a b : K, a ≤ b → φ a ≤ φ b) {m m' : RangeMap K V} (hm : Reachable m)
    (hm' : Reachable m') (h : ∀ k, m.containsKey k = .ok true → m'.containsKey k = .ok true) :
    0 ≤ totalOf φ (fun _ => true) m.iter ∧
      totalOf φ (fun _ => true) m.iter ≤ totalOf φ (fun _ => true) m'.iter := by
  have hr : Ruler φ := fun a b h1 h2 => Int.le_antisymm (hφ _ _ h1) (hφ _ _ h2)
  constructor
  · have := total_le hr (l := []) (fun a b _ _ h => hφ a b h) (by simp)
      (of_valid hm fun _ => true) (by simp)
    exact this
  · refine total_le hr (fun a b _ _ h => hφ a b h) (of_valid hm fun _ => true)
      (of_valid hm' fun _ => true) fun k => ?_
    have c1 := count_of hm (fun _ => true) k
    have c2 := count_of hm' (fun _ => true) k
    rw [c1, c2]
    have hk := h k
    obtain ⟨o, -, h2, h3⟩ := C09_projections hm k
    obtain ⟨o', -, h2', h3'⟩ := C09_projections hm' k
    rw [h3, h3'] at hk
    rw [h2, h2']
    cases o with
    | none => simp
    | some e =>
      cases o' with
      | none => simp at hk
      | some e' => simp

example := C95_monotone squares_mono (m' := RangeMap.run [.insert ⟨0, 60⟩ 'x'])
  Demo.map_reachable ⟨_, rfl⟩ fun k hk => by
    obtain ⟨o, h1, -, h3⟩ := C09_projections Demo.map_reachable k
    obtain ⟨w, hw⟩ : ∃ w, o = some w := by
      rw [h3] at hk
      cases o
      · cases hk
      · exact ⟨_, rfl⟩
    subst hw
    have := (C09_get_key_value Demo.map_reachable k w).1 h1
    have hk : k < 60 := by
      obtain ⟨h1, h2, h3⟩ := this
      simp only [Demo.map, RangeMap.iter, List.mem_cons, List.not_mem_nil, or_false] at h1
      rcases h1 with rfl | rfl | rfl | rfl <;> simp only at h3 <;> omega
    obtain ⟨o, h1, -, h3⟩ := C09_projections (m := RangeMap.run [.insert (⟨0, 60⟩ : Range Nat) 'x'])
      ⟨_, rfl⟩ k
    rw [(C09_get_key_value ⟨_, rfl⟩ k (⟨0, 60⟩, 'x')).2 ⟨by decide, Nat.zero_le _, hk⟩] at h1
    cases h1
    exact h3

/-- **C95** Where keys are numbered like integers, the total is the number of keys that have a value
in `P`. -/
theorem C95_count (hφ : Numbering φ) {m : RangeMap K V} (hm : Reachable m) (P : V → Bool) :
    ∃ ns, Lists φ (fun k => ∃ w, m.get k = .ok (some w) ∧ P w = true) ns ∧
      totalOf φ P m.iter = ns.length := by
  obtain ⟨ns, h1, h2⟩ := total_count hφ (List.pairwise_map.2 ((C04_sorted_disjoint hm).2.filter _))
    (of_valid hm P)
  refine ⟨ns, ⟨h1.once, fun n => ?_⟩, h2⟩
  rw [h1.every]
  refine exists_congr fun k => and_congr_right fun _ => ?_
  rw [← get_exists hm P k]
  simp only [List.mem_map, List.mem_filter]
  constructor
  · rintro ⟨r, ⟨e, ⟨h1, h2⟩, rfl⟩, h3⟩
    exact ⟨e, h1, h3, h2⟩
  · rintro ⟨e, h1, h3, h2⟩
    exact ⟨e.1, ⟨e, ⟨h1, h2⟩, rfl⟩, h3⟩

example := C95_count nat_numbering Demo.map_reachable (· == 'a')
-- 13 keys have the value `a`: 0, 1, 2 and 5 to 14
example : totalOf (fun n : Nat => (n : Int)) (· == 'a') Demo.map.iter = 13 := by decide

end

section
variable {K : Type} [LE K] [LT K] [DecidableLE K] [DecidableLT K]
  [Std.IsLinearPreorder K] [Std.LawfulOrderLT K] {φ : K → Int}

open Classical in
theorem set_count {s : RangeSet K} (hs : RangeSet.Reachable s) (k : K) :
    (s.iter.countP fun r => covers r k) = if s.contains k = .ok true then 1 else 0 := by
  have h := (C35_reachable_iff s).1 hs
  rw [countP_covers (h.2.imp fun h => by grind) (fun r hr => by have := h.1 r hr; grind)]
  obtain ⟨o, -, h2, h3⟩ := C35_get hs k
  rw [h2]
  refine ite_iff ⟨?_, ?_⟩
  · rintro ⟨r, hr, hk⟩
    rw [(h3 r).2 ⟨hr, hk⟩]
    rfl
  · intro ho
    cases o with
    | none => cases ho
    | some r => exact ⟨r, (h3 r).1 rfl⟩

theorem set_valid {s : RangeSet K} (hs : RangeSet.Reachable s) : ∀ r ∈ s.iter, r.start ≤ r.stop :=
  fun r hr => by have := ((C35_reachable_iff s).1 hs).1 r hr; grind

/-- **C95** What `union` yields and what `intersection` yields are together as long as the two
sets. -/
theorem C95_union_intersection (hφ : Ruler φ) {a b : RangeSet K} (ha : RangeSet.Reachable a)
    (hb : RangeSet.Reachable b) :
    ∃ u i, Yields Union.next (a.union b) u ∧ Yields Intersection.next (a.intersection b) i ∧
      total φ u + total φ i = total φ a.iter + total φ b.iter := by
  obtain ⟨u, h1, h2, h3, h4⟩ := C37_union ha hb
  obtain ⟨i, h1', h2', h3', h4'⟩ := C38_intersection ha hb
  refine ⟨u, i, h1, h1', ?_⟩
  rw [← total_append, ← total_append]
  refine total_eq hφ ?_ ?_ fun k => ?_
  · intro r hr
    rcases List.mem_append.1 hr with hr | hr
    · have := h2 r hr; grind
    · have := h2' r hr; grind
  · intro r hr
    rcases List.mem_append.1 hr with hr | hr
    · exact set_valid ha r hr
    · exact set_valid hb r hr
  · classical
    rw [List.countP_append, List.countP_append, set_count ha, set_count hb,
      (countP_covers h3 (fun r hr => by have := h2 r hr; grind) k).trans (ite_iff (h4 k)),
      (countP_covers (h3'.imp fun h => by grind) (fun r hr => by have := h2' r hr; grind) k).trans
        (ite_iff (h4' k))]
    by_cases h : a.contains k = .ok true <;> by_cases h' : b.contains k = .ok true <;> simp [h, h']

example := C95_union_intersection squares_ruler Demo.set_reachable Demo.set'_reachable

/-- **C95** The same for `|` and `&`. -/
theorem C95_operators (hφ : Ruler φ) {a b : RangeSet K} (ha : RangeSet.Reachable a)
    (hb : RangeSet.Reachable b) :
    ∃ u i, a.bitOr b = .ok u ∧ a.bitAnd b = .ok i ∧
      total φ u.iter + total φ i.iter = total φ a.iter + total φ b.iter := by
  obtain ⟨u, h1, h2, h3⟩ := C39_bitor ha hb
  obtain ⟨i, h1', h2', -, h3'⟩ := C39_bitand ha hb
  refine ⟨u, i, h1, h1', ?_⟩
  rw [← total_append, ← total_append]
  refine total_eq hφ ?_ ?_ fun k => ?_
  · intro r hr
    rcases List.mem_append.1 hr with hr | hr
    · exact set_valid h2 r hr
    · exact set_valid h2' r hr
  · intro r hr
    rcases List.mem_append.1 hr with hr | hr
    · exact set_valid ha r hr
    · exact set_valid hb r hr
  · rw [List.countP_append, List.countP_append, set_count ha, set_count hb, set_count h2,
      set_count h2']
    obtain ⟨x, y, e1, e2, e3⟩ := h3 k
    obtain ⟨x', y', e1', e2', e3'⟩ := h3' k
    rw [e3, e3', e1, e2]
    rw [e1] at e1'
    rw [e2] at e2'
    cases e1'
    cases e2'
    cases x <;> cases y <;> simp

example := C95_operators squares_ruler Demo.set_reachable Demo.set'_reachable

/-- **C95** Where keys are numbered like integers, a set's total is the number of its keys. -/
theorem C95_set_count (hφ : Numbering φ) {s : RangeSet K} (hs : RangeSet.Reachable s) :
    ∃ ns, Lists φ (fun k => s.contains k = .ok true) ns ∧ total φ s.iter = ns.length := by
  have h := (C35_reachable_iff s).1 hs
  obtain ⟨ns, h1, h2⟩ := total_count hφ (h.2.imp fun h => by grind) (set_valid hs)
  refine ⟨ns, ⟨h1.once, fun n => ?_⟩, h2⟩
  rw [h1.every]
  refine exists_congr fun k => and_congr_right fun _ => ?_
  obtain ⟨o, -, h2, h3⟩ := C35_get hs k
  rw [h2]
  constructor
  · rintro ⟨r, hr, hk⟩
    rw [(h3 r).2 ⟨hr, hk⟩]
    rfl
  · intro ho
    cases o with
    | none => cases ho
    | some r => exact ⟨r, (h3 r).1 rfl⟩

example := C95_set_count nat_numbering Demo.set_reachable
example : total (fun n : Nat => (n : Int)) Demo.set.iter = 33 := by decide

end
end Verif.Props

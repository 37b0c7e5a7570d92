import Verif.Proof.Lengths
import Verif.Props.Lengths
import Verif.Props.ISet
import Verif.Props.IMap

/-!
# C95: lengths add up (inclusive)

Each key `k` takes up a piece of a ruler, from `φ k` to `ψ k`, where the next key begins.  `a..=b`
then has the length `ψ b - φ a`, and the lengths of what the operations take, return and
leave behind are in balance.
-/
set_option linter.unusedSectionVars false
namespace Verif.Props.Inclusive
open RangeInclusiveMap Spec Lengths

section
variable {K V : Type} [LE K] [LT K] [DecidableLE K] [DecidableLT K]
  [Std.IsLinearPreorder K] [Std.LawfulOrderLT K] [BEq V] [PartialEquivBEq V] {S : StepFns K}
  {φ ψ : K → Int}

/-- `u8` numbered by their values. -/
theorem u8_numbering : Numbering (UIntW.val (w := 8)) where
  order a b := .rfl
  between a b n h1 h2 := by
    refine ⟨⟨.ofNat 8 n.toNat⟩, ?_⟩
    have h3 : b.val < 256 := by
      have := b.bits.isLt
      unfold UIntW.val
      omega
    have h4 : 0 ≤ a.val := by unfold UIntW.val; omega
    simp only [UIntW.val, BitVec.toNat_ofNat] at *
    omega

/-- A ruler on which a key takes up its square. -/
theorem squares_iruler : IRuler (fun k : UIntW 8 => Props.squares k.bits.toNat)
    (fun k => Props.squares (k.bits.toNat + 1)) where
  starts a b h1 h2 := by rw [Demo.u8_antisymm a b h1 h2]
  ends a b h1 h2 := by rw [Demo.u8_antisymm a b h1 h2]
  next a b hn := by
    have := u8_numbering.iruler.next a b hn
    simp only [UIntW.val] at this
    have : a.bits.toNat + 1 = b.bits.toNat := by omega
    simp only [this]

theorem get_exists (hS : LawfulSteps S) {m : RangeInclusiveMap K V} (hm : Reachable S m)
    (P : V → Bool) (k : K) :
    (∃ e ∈ m.iter, (e.1.start ≤ k ∧ k ≤ e.1.stop) ∧ P e.2 = true) ↔
      ∃ w, m.get k = .ok (some w) ∧ P w = true := by
  obtain ⟨o, h1, h2, -⟩ := C30_projections m k
  rw [h2]
  constructor
  · rintro ⟨e, he, hk, hP⟩
    have := (C30_get_key_value hS hm k e).2 ⟨he, hk⟩
    rw [h1] at this
    cases this
    exact ⟨_, rfl, hP⟩
  · rintro ⟨w, hw, hP⟩
    cases o with
    | none => cases hw
    | some e =>
      cases hw
      exact ⟨e, ((C30_get_key_value hS hm k e).1 h1).1, ((C30_get_key_value hS hm k e).1 h1).2, hP⟩

open Classical in
/-- How often the ranges with values in `P` cover a key. -/
theorem count_of (hS : LawfulSteps S) {m : RangeInclusiveMap K V} (hm : Reachable S m)
    (P : V → Bool) (k : K) :
    (((m.iter.filter fun e => P e.2).map (·.1)).countP fun r => icovers r k) =
      if ∃ w, m.get k = .ok (some w) ∧ P w = true then 1 else 0 := by
  have h := C26_sorted_disjoint hS hm.any
  exact (countP_iof P h.2 (fun e he => by have := h.1 e he; grind) k).trans
    (ite_iff (get_exists hS hm P k))

open Classical in
/-- How often their parts in `q` do. -/
theorem count_clip (hS : LawfulSteps S) {m : RangeInclusiveMap K V} (hm : Reachable S m)
    (P : V → Bool) (q : RangeInclusive K) (k : K) :
    ((((m.iter.filter fun e => decide (q.start ≤ e.1.stop) && decide (e.1.start ≤ q.stop)).filter
      fun e => P e.2).map fun e => icutTo q e.1).countP fun r => icovers r k) =
      if (q.start ≤ k ∧ k ≤ q.stop) ∧ ∃ w, m.get k = .ok (some w) ∧ P w = true then 1 else 0 := by
  have h := C26_sorted_disjoint hS hm.any
  exact (countP_iclip P q h.2 (fun e he => by have := h.1 e he; grind) k).trans
    (ite_iff (and_congr_right fun _ => get_exists hS hm P k))

theorem clip_valid (hS : LawfulSteps S) {m : RangeInclusiveMap K V} (hm : Reachable S m)
    (P : V → Bool) {q : RangeInclusive K}
    (hq : q.start ≤ q.stop) : ∀ r ∈ ((m.iter.filter fun e =>
      decide (q.start ≤ e.1.stop) && decide (e.1.start ≤ q.stop)).filter
      fun e => P e.2).map (fun e => icutTo q e.1), r.start ≤ r.stop := by
  intro r hr
  obtain ⟨e, he, rfl⟩ := List.mem_map.1 hr
  have he := (List.mem_filter.1 he).1
  have h1 := (C26_sorted_disjoint hS hm.any).1 e (List.mem_filter.1 he).1
  have h2 := (List.mem_filter.1 he).2
  simp only [icutTo, RangeInclusive.mk', rmax_le, le_rmin, Bool.and_eq_true, decide_eq_true_eq] at *
  grind

theorem of_valid (hS : LawfulSteps S) {m : RangeInclusiveMap K V} (hm : Reachable S m)
    (P : V → Bool) :
    ∀ r ∈ (m.iter.filter fun e => P e.2).map (·.1), r.start ≤ r.stop := by
  intro r hr
  obtain ⟨e, he, rfl⟩ := List.mem_map.1 hr
  have h1 := (C26_sorted_disjoint hS hm.any).1 e (List.mem_filter.1 he).1
  grind

theorem count_one (r : RangeInclusive K) (k : K) (b : Bool) :
    ((if b then [r] else []).countP fun r => icovers r k) =
      if (r.start ≤ k ∧ k ≤ r.stop) ∧ b = true then 1 else 0 := by
  cases b
  · simp
  · simp [icovers]

/-- **C95** An insert adds the length of the range to the value's total, and takes from every value
what it had in that range: for any choice `P` of values, the total after, and what was there in the
range before, are together the total before and, if the value is in `P`, the length of the range. -/
theorem C95_insert (hS : LawfulSteps S) (hφ : IRuler φ ψ) {m : RangeInclusiveMap K V}
    (hm : Reachable S m) {r : RangeInclusive K} (v : V)
    (hx : r.exhausted = false) (hr : r.start ≤ r.stop) (P : V → Bool)
    (hP : ∀ a b, (a == b) = true → P a = P b) :
    ∃ o os m', m.overlapping r = .ok o ∧ Yields Overlapping.next o os ∧ m.insert S r v = .ok m' ∧
      itotalOf φ ψ P m'.iter + itotal φ ψ ((os.filter fun e => P e.2).map fun e => icutTo r e.1) =
        itotalOf φ ψ P m.iter + if P v then ispan φ ψ r else 0 := by
  obtain ⟨o, h1, h2⟩ := C32_overlapping_exact hS hm.any r
  obtain ⟨m', h3, h4, h5⟩ := C23_insert_inside hS hm v hx hr
  refine ⟨o, _, m', h1, h2, h3, ?_⟩
  have hlast : (if P v then ispan φ ψ r else 0) = itotal φ ψ (if P v then [r] else []) := by
    cases P v <;> simp [itotal]
  rw [hlast, itotalOf, itotalOf, ← itotal_append, ← itotal_append]
  refine itotal_eq hS hφ ?_ ?_ fun k => ?_
  · intro x hx
    rcases List.mem_append.1 hx with hx | hx
    · exact of_valid hS h4 P x hx
    · exact clip_valid hS hm P hr x hx
  · intro x hx
    rcases List.mem_append.1 hx with hx | hx
    · exact of_valid hS hm P x hx
    · cases hv : P v
      · simp [hv] at hx
      · have : x = r := by simpa [hv] using hx
        subst this
        grind
  · classical
    rw [List.countP_append, List.countP_append, count_of hS h4, count_of hS hm, count_clip hS hm,
      count_one]
    by_cases hk : r.start ≤ k ∧ k ≤ r.stop
    · rw [h5 k hk.1 hk.2, ite_iff (and_iff_right hk), ite_iff (and_iff_right hk)]
      simp only [Except.ok.injEq, Option.some.injEq, exists_eq_left']
      omega
    · simp only [hk, false_and, if_false, Nat.add_zero]
      rcases C23_insert_outside hS hm hx h3 k hk with h | ⟨w, h6, h7, h8⟩
      · rw [h]
      · rw [h6, h8]
        simp [hP _ _ h7]

example := C95_insert Demo.u8_lawful squares_iruler Demo.imap_reachable (r := Demo.by8 2 22) 'b' rfl
  (by decide) (· == 'b') fun a b h => by rw [beq_iff_eq.1 h]
example := C95_insert Demo.u8_lawful squares_iruler Demo.imap_reachable (r := Demo.by8 2 255) 'b'
    rfl
  (by decide) (fun _ => true) fun _ _ _ => rfl
-- `2..=22 ↦ b`: 5 keys had `b`, 3 of them in `2..=22`, which has 21
example : itotalOf UIntW.val (fun k => k.val + 1) (· == 'b') Demo.imap.iter = 5 ∧
    (Demo.imap.insert Demo.u8 (Demo.by8 2 22) 'b').toOption.map
      (fun m => itotalOf UIntW.val (fun k => k.val + 1) (· == 'b') m.iter) =
      some (5 + 21 - 3) := by decide +kernel

/-- **C95** A remove takes from every value what it had in the range. -/
theorem C95_remove (hS : LawfulSteps S) (hφ : IRuler φ ψ) {m : RangeInclusiveMap K V}
    (hm : Reachable S m) {r : RangeInclusive K}
    (hr : r.start ≤ r.stop) (P : V → Bool) :
    ∃ o os m', m.overlapping r = .ok o ∧ Yields Overlapping.next o os ∧ m.remove S r = .ok m' ∧
      itotalOf φ ψ P m'.iter + itotal φ ψ ((os.filter fun e => P e.2).map fun e => icutTo r e.1) =
        itotalOf φ ψ P m.iter := by
  obtain ⟨o, h1, h2⟩ := C32_overlapping_exact hS hm.any r
  obtain ⟨m', h3, h4, h5, h6⟩ := C24_remove_pointwise hS hm hr
  refine ⟨o, _, m', h1, h2, h3, ?_⟩
  rw [itotalOf, itotalOf, ← itotal_append]
  refine itotal_eq hS hφ ?_ (of_valid hS hm P) fun k => ?_
  · intro x hx
    rcases List.mem_append.1 hx with hx | hx
    · exact of_valid hS h4 P x hx
    · exact clip_valid hS hm P hr x hx
  · classical
    rw [List.countP_append, count_of hS h4, count_of hS hm, count_clip hS hm]
    by_cases hk : r.start ≤ k ∧ k ≤ r.stop
    · rw [h5 k hk.1 hk.2, ite_iff (and_iff_right hk)]
      simp
    · rw [h6 k hk]
      simp [hk]

example := C95_remove Demo.u8_lawful squares_iruler Demo.imap_reachable (r := Demo.by8 2 22)
    (by decide) (· == 'b')

theorem all_eq (es : List (RangeInclusive K × V)) : (es.filter fun e => (fun _ => true) e.2) = es
    := by simp

/-- **C95** The gaps in a range, and what `overlapping` finds there, cut to the range, are together
as long as the range. -/
theorem C95_gaps (hS : LawfulSteps S) (hφ : IRuler φ ψ) {m : RangeInclusiveMap K V}
    (hm : Reachable S m) {q : RangeInclusive K}
    (hq : q.start ≤ q.stop) :
    ∃ o os g gs, m.overlapping q = .ok o ∧ Yields Overlapping.next o os ∧ m.gaps q = .ok g ∧
      YieldsE (Gaps.next S) g gs ∧ itotal φ ψ gs + itotal φ ψ (os.map fun e => icutTo q e.1) =
        ispan φ ψ q := by
  obtain ⟨o, h1, h2⟩ := C32_overlapping_exact hS hm.any q
  obtain ⟨g, gs, h3, h4, h5⟩ := C31_gaps_exact hS hm q
  obtain ⟨g', gs', h3', h4', h6, h7⟩ := C31_gaps_ordered hS hm.any q
  cases h3.symm.trans h3'
  cases YieldsE.unique h4 h4'
  refine ⟨o, _, g, gs, h1, h2, h3, h4, ?_⟩
  rw [show ispan φ ψ q = itotal φ ψ [q] by simp [itotal], ← itotal_append]
  refine itotal_eq hS hφ ?_ ?_ fun k => ?_
  · intro x hx
    rcases List.mem_append.1 hx with hx | hx
    · have := (h6 x hx).1
      grind
    · have := clip_valid hS hm (fun _ => true) hq
      rw [all_eq] at this
      exact this x hx
  · simp only [List.mem_singleton]
    rintro x rfl
    grind
  · have hc := count_clip hS hm (fun _ => true) q k
    rw [all_eq] at hc
    classical
    rw [List.countP_append, hc, (countP_icovers (h7.imp fun ⟨e, _, h1, h2, h3⟩ =>
        Std.lt_of_lt_of_le h1.1 (Std.le_trans h2 (Std.le_of_lt h3)))
      (fun r hr => by have := (h6 r hr).1; grind) k).trans (ite_iff (h5 k))]
    obtain ⟨w, hw⟩ := (C28_lookups_never_panic m k).2.1
    rw [hw, List.countP_singleton]
    by_cases hk : q.start ≤ k ∧ k ≤ q.stop
    · cases w <;> simp [icovers, hk]
    · have : ¬ (q.start ≤ k ∧ k ≤ q.stop ∧ (Except.ok w : Except Panic _) = .ok none) :=
        fun h => hk ⟨h.1, h.2.1⟩
      rw [if_neg this]
      simp [icovers, hk]

example := C95_gaps Demo.u8_lawful squares_iruler Demo.imap_reachable (q := Demo.by8 2 255)
    (by decide)

/-- **C95** An insert makes the whole as much longer as there were gaps in the range. -/
theorem C95_insert_gaps (hS : LawfulSteps S) (hφ : IRuler φ ψ) {m : RangeInclusiveMap K V}
    (hm : Reachable S m) {r : RangeInclusive K} (v : V)
    (hx : r.exhausted = false) (hr : r.start ≤ r.stop) :
    ∃ g gs m', m.gaps r = .ok g ∧ YieldsE (Gaps.next S) g gs ∧ m.insert S r v = .ok m' ∧
      itotalOf φ ψ (fun _ => true) m'.iter = itotalOf φ ψ (fun _ => true) m.iter + itotal φ ψ gs
        := by
  obtain ⟨o, os, m', h1, h2, h3, h4⟩ := C95_insert hS hφ hm v hx hr (fun _ => true)
    (fun _ _ _ => rfl)
  obtain ⟨o', os', g, gs, h5, h6, h7, h8, h9⟩ := C95_gaps hS hφ hm hr
  cases h1.symm.trans h5
  cases Yields.unique h2 h6
  refine ⟨g, gs, m', h7, h8, h3, ?_⟩
  rw [all_eq, if_pos rfl] at h4
  omega

example := C95_insert_gaps Demo.u8_lawful squares_iruler Demo.imap_reachable (r := Demo.by8 2 255)
    'b' rfl (by decide)

/-- **C95** From the start of the first range to the end of the last is as long as all the ranges
and the gaps between them. -/
theorem C95_hull (hS : LawfulSteps S) (hφ : IRuler φ ψ) {m : RangeInclusiveMap K V}
    (hm : Reachable S m) {a b : RangeInclusive K × V}
    (ha : m.firstRangeValue = some a) (hb : m.lastRangeValue = some b) :
    ∃ g gs, m.gaps (.mk' a.1.start b.1.stop) = .ok g ∧ YieldsE (Gaps.next S) g gs ∧
      itotalOf φ ψ (fun _ => true) m.iter + itotal φ ψ gs = ψ b.1.stop - φ a.1.start := by
  have hs := C26_sorted_disjoint hS hm.any
  have ha' : a ∈ m.iter := List.mem_of_mem_head? ha
  have hb' : b ∈ m.iter := List.mem_of_mem_getLast? hb
  have hmin : ∀ e ∈ m.iter, a.1.start ≤ e.1.start := by
    unfold firstRangeValue at ha
    unfold RangeInclusiveMap.iter at hs ⊢
    generalize m.btm = l at *
    intro e he
    cases l with
    | nil => cases he
    | cons x l =>
      cases ha
      rcases List.mem_cons.1 he with rfl | he
      · exact Std.le_refl _
      · have := List.rel_of_pairwise_cons hs.2 he
        have := hs.1 a (by simp)
        grind
  have hmax : ∀ e ∈ m.iter, e.1.stop ≤ b.1.stop := by
    intro e he
    unfold lastRangeValue at hb
    obtain ⟨l, hl⟩ := List.getLast?_eq_some_iff.1 hb
    have he' : e ∈ l ++ [b] := by rw [← hl]; exact he
    rcases List.mem_append.1 he' with he' | he'
    · have h1 : (l ++ [b]).Pairwise fun a b => a.1.stop < b.1.start := by
        rw [← hl]; exact hs.2
      have := (List.pairwise_append.1 h1).2.2 e he' b (by simp)
      have := hs.1 b hb'
      grind
    · rw [List.mem_singleton.1 he']
      exact Std.le_refl _
  have hq : a.1.start ≤ b.1.stop := by
    have := hs.1 a ha'
    have := hmax a ha'
    grind
  obtain ⟨o, os, g, gs, h1, h2, h3, h4, h5⟩ := C95_gaps hS hφ hm (q := (.mk' a.1.start b.1.stop)) hq
  refine ⟨g, gs, h3, h4, ?_⟩
  obtain ⟨o', h1', h2'⟩ := C32_overlapping_exact hS hm.any (.mk' a.1.start b.1.stop)
  cases h1.symm.trans h1'
  cases Yields.unique h2 h2'
  have : itotal φ ψ ((m.iter.filter fun e => decide (a.1.start ≤ e.1.stop) &&
      decide (e.1.start ≤ b.1.stop)).map fun e => icutTo (.mk' a.1.start b.1.stop) e.1) =
      itotalOf φ ψ (fun _ => true) m.iter := by
    rw [List.filter_eq_self.2 fun e he => by
      have h1 := hmin e he
      have h2 := hmax e he
      have h3 := hs.1 e he
      simp only [Bool.and_eq_true, decide_eq_true_eq]
      grind]
    rw [itotalOf, all_eq]
    refine congrArg List.sum ?_
    rw [List.map_map, List.map_map]
    refine List.map_congr_left fun e he => ?_
    have h1 := hmin e he
    have h2 := hmax e he
    have e1 : φ (rmax a.1.start e.1.start) = φ e.1.start := by
      refine hφ.starts _ _ ?_ ?_
      · rw [rmax_le]; exact ⟨h1, Std.le_refl _⟩
      · rw [le_rmax]; exact .inr (Std.le_refl _)
    have e2 : ψ (rmin b.1.stop e.1.stop) = ψ e.1.stop := by
      refine hφ.ends _ _ ?_ ?_
      · rw [rmin_le]; exact .inr (Std.le_refl _)
      · rw [le_rmin]; exact ⟨h2, Std.le_refl _⟩
    simp [ispan, icutTo, RangeInclusive.mk', e1, e2]
  rw [← this]
  exact (Int.add_comm _ _).trans h5

example := C95_hull Demo.u8_lawful squares_iruler Demo.imap_reachable (a := (Demo.by8 0 2, 'a'))
    (b := (Demo.by8 25 255, 'c'))
  rfl rfl

/-- **C95** If `φ` goes up with the keys and no key takes up less than nothing, no total is
    negative, and a map whose keys are all
in another has at most the other's total. -/
theorem C95_monotone (hS : LawfulSteps S) (hr : IRuler φ ψ)
    (hφ : ∀ a b : K, a ≤ b → φ a ≤ φ b) (hψ : ∀ a : K, φ a ≤ ψ a) {m m' : RangeInclusiveMap K V}
    (hm : Reachable S m)
    (hm' : Reachable S m') (h : ∀ k, m.containsKey k = .ok true → m'.containsKey k = .ok true) :
    0 ≤ itotalOf φ ψ (fun _ => true) m.iter ∧
      itotalOf φ ψ (fun _ => true) m.iter ≤ itotalOf φ ψ (fun _ => true) m'.iter := by
  constructor
  · have := itotal_le hS hr (l := []) hφ hψ (by simp)
      (of_valid hS hm fun _ => true) (by simp)
    exact this
  · refine itotal_le hS hr hφ hψ (of_valid hS hm fun _ => true)
      (of_valid hS hm' fun _ => true) fun k => ?_
    have c1 := count_of hS hm (fun _ => true) k
    have c2 := count_of hS hm' (fun _ => true) k
    rw [c1, c2]
    have hk := h k
    obtain ⟨o, -, h2, h3⟩ := C30_projections m k
    obtain ⟨o', -, h2', h3'⟩ := C30_projections m' k
    rw [h3, h3'] at hk
    rw [h2, h2']
    cases o with
    | none => simp
    | some e =>
      cases o' with
      | none => simp at hk
      | some e' => simp

example := C95_monotone Demo.u8_lawful u8_numbering.iruler (fun _ _ h => h)
  (fun a => by omega) (m := Demo.imap')
  (m' := RangeInclusiveMap.run Demo.u8 [.insert (Demo.by8 0 60) 'x'])
  Demo.imap'_reachable ⟨_, by decide, rfl⟩ fun k hk => Demo.ok_of
    ((Demo.forall8 (P := fun k => (Demo.imap'.containsKey k).toOption = some true →
      ((RangeInclusiveMap.run Demo.u8 [.insert (Demo.by8 0 60) 'x']).containsKey k).toOption =
        some true) (by decide +kernel) k) (by rw [hk]; rfl))

/-- **C95** Where keys are numbered like integers, the total is the number of keys that have a value
in `P`. -/
theorem C95_count (hS : LawfulSteps S) (hφ : Numbering φ) {m : RangeInclusiveMap K V}
    (hm : Reachable S m) (P : V → Bool) :
    ∃ ns, Lists φ (fun k => ∃ w, m.get k = .ok (some w) ∧ P w = true) ns ∧
      itotalOf φ (fun k => φ k + 1) P m.iter = ns.length := by
  obtain ⟨ns, h1, h2⟩ := itotal_count hφ
    (List.pairwise_map.2 ((C26_sorted_disjoint hS hm.any).2.filter _))
    (of_valid hS hm P)
  refine ⟨ns, ⟨h1.once, fun n => ?_⟩, h2⟩
  rw [h1.every]
  refine exists_congr fun k => and_congr_right fun _ => ?_
  rw [← get_exists hS hm P k]
  simp only [List.mem_map, List.mem_filter]
  constructor
  · rintro ⟨r, ⟨e, ⟨h1, h2⟩, rfl⟩, h3⟩
    exact ⟨e, h1, h3, h2⟩
  · rintro ⟨e, h1, h3, h2⟩
    exact ⟨e.1, ⟨e, ⟨h1, h2⟩, rfl⟩, h3⟩

example := C95_count Demo.u8_lawful u8_numbering Demo.imap_reachable (· == 'a')
-- 14 keys have the value `a`: 0, 1, 2 and 5 to 15
example : itotalOf UIntW.val (fun k => k.val + 1) (· == 'a') Demo.imap.iter = 14 := by decide

end

section
variable {K : Type} [LE K] [LT K] [DecidableLE K] [DecidableLT K]
  [Std.IsLinearPreorder K] [Std.LawfulOrderLT K] {S : StepFns K}
  {φ ψ : K → Int}

open Classical in
theorem set_count (hS : LawfulSteps S) {s : RangeInclusiveSet K}
    (hs : RangeInclusiveSet.Reachable S s) (k : K) :
    (s.iter.countP fun r => icovers r k) = if s.contains k = .ok true then 1 else 0 := by
  have h := (C36_reachable_iff hS s).1 hs
  rw [countP_icovers (h.2.imp fun h => by grind) (fun r hr => by have := h.1 r hr; grind)]
  obtain ⟨o, -, h2, h3⟩ := C36_get hS hs k
  rw [h2]
  refine ite_iff ⟨?_, ?_⟩
  · rintro ⟨r, hr, hk⟩
    rw [(h3 r).2 ⟨hr, hk⟩]
    rfl
  · intro ho
    cases o with
    | none => cases ho
    | some r => exact ⟨r, (h3 r).1 rfl⟩

theorem set_valid (hS : LawfulSteps S) {s : RangeInclusiveSet K}
    (hs : RangeInclusiveSet.Reachable S s) : ∀ r ∈ s.iter, r.start ≤ r.stop :=
  fun r hr => by have := ((C36_reachable_iff hS s).1 hs).1 r hr; grind

/-- **C95** What `union` yields and what `intersection` yields are together as long as the two
sets. -/
theorem C95_union_intersection (hS : LawfulSteps S) (hφ : IRuler φ ψ) {a b : RangeInclusiveSet K}
    (ha : RangeInclusiveSet.Reachable S a)
    (hb : RangeInclusiveSet.Reachable S b) :
    ∃ u i, Yields Union.next (a.union b) u ∧ Yields Intersection.next (a.intersection b) i ∧
      itotal φ ψ u + itotal φ ψ i = itotal φ ψ a.iter + itotal φ ψ b.iter := by
  obtain ⟨u, h1, h2, h3, h4⟩ := C37_union hS ha hb
  obtain ⟨i, h1', h2', h3', h4'⟩ := C38_intersection hS ha hb
  refine ⟨u, i, h1, h1', ?_⟩
  rw [← itotal_append, ← itotal_append]
  refine itotal_eq hS hφ ?_ ?_ fun k => ?_
  · intro r hr
    rcases List.mem_append.1 hr with hr | hr
    · have := h2 r hr; grind
    · have := h2' r hr; grind
  · intro r hr
    rcases List.mem_append.1 hr with hr | hr
    · exact set_valid hS ha r hr
    · exact set_valid hS hb r hr
  · classical
    rw [List.countP_append, List.countP_append, set_count hS ha, set_count hS hb,
      (countP_icovers h3 (fun r hr => by have := h2 r hr; grind) k).trans (ite_iff (h4 k)),
      (countP_icovers (h3'.imp fun h => by grind) (fun r hr => by have := h2' r hr; grind) k).trans
        (ite_iff (h4' k))]
    by_cases h : a.contains k = .ok true <;> by_cases h' : b.contains k = .ok true <;> simp [h, h']

example := C95_union_intersection Demo.u8_lawful squares_iruler Demo.iset_reachable
    Demo.iset'_reachable

/-- **C95** The same for `|` and `&`. -/
theorem C95_operators (hS : LawfulSteps S) (hφ : IRuler φ ψ) {a b : RangeInclusiveSet K}
    (ha : RangeInclusiveSet.Reachable S a)
    (hb : RangeInclusiveSet.Reachable S b) :
    ∃ u i, a.bitOr S b = .ok u ∧ a.bitAnd S b = .ok i ∧
      itotal φ ψ u.iter + itotal φ ψ i.iter = itotal φ ψ a.iter + itotal φ ψ b.iter := by
  obtain ⟨u, h1, h2, h3⟩ := C39_bitor hS ha hb
  obtain ⟨i, h1', h2', -, h3'⟩ := C39_bitand hS ha hb
  refine ⟨u, i, h1, h1', ?_⟩
  rw [← itotal_append, ← itotal_append]
  refine itotal_eq hS hφ ?_ ?_ fun k => ?_
  · intro r hr
    rcases List.mem_append.1 hr with hr | hr
    · exact set_valid hS h2 r hr
    · exact set_valid hS h2' r hr
  · intro r hr
    rcases List.mem_append.1 hr with hr | hr
    · exact set_valid hS ha r hr
    · exact set_valid hS hb r hr
  · rw [List.countP_append, List.countP_append, set_count hS ha, set_count hS hb, set_count hS h2,
      set_count hS h2']
    obtain ⟨x, y, e1, e2, e3⟩ := h3 k
    obtain ⟨x', y', e1', e2', e3'⟩ := h3' k
    rw [e3, e3', e1, e2]
    rw [e1] at e1'
    rw [e2] at e2'
    cases e1'
    cases e2'
    cases x <;> cases y <;> simp

example := C95_operators Demo.u8_lawful squares_iruler Demo.iset_reachable Demo.iset'_reachable

/-- **C95** Where keys are numbered like integers, a set's total is the number of its keys. -/
theorem C95_set_count (hS : LawfulSteps S) (hφ : Numbering φ) {s : RangeInclusiveSet K}
    (hs : RangeInclusiveSet.Reachable S s) :
    ∃ ns, Lists φ (fun k => s.contains k = .ok true) ns ∧ itotal φ (fun k => φ k + 1) s.iter =
      ns.length := by
  have h := (C36_reachable_iff hS s).1 hs
  obtain ⟨ns, h1, h2⟩ := itotal_count hφ (h.2.imp fun h => by grind) (set_valid hS hs)
  refine ⟨ns, ⟨h1.once, fun n => ?_⟩, h2⟩
  rw [h1.every]
  refine exists_congr fun k => and_congr_right fun _ => ?_
  obtain ⟨o, -, h2, h3⟩ := C36_get hS hs k
  rw [h2]
  constructor
  · rintro ⟨r, hr, hk⟩
    rw [(h3 r).2 ⟨hr, hk⟩]
    rfl
  · intro ho
    cases o with
    | none => cases ho
    | some r => exact ⟨r, (h3 r).1 rfl⟩

example := C95_set_count Demo.u8_lawful u8_numbering Demo.iset_reachable
example : itotal UIntW.val (fun k => k.val + 1) Demo.iset.iter = 249 := by decide

end
end Verif.Props.Inclusive

import Verif.Props.Demo
import Verif.Props.Overlay

/-!
# C82 for inclusive maps
-/
set_option linter.unusedSectionVars false

namespace Verif.Props.Inclusive
open Spec RangeInclusiveMap
variable {K : Type} [LE K] [LT K] [DecidableLE K] [DecidableLT K]
  [Std.IsLinearPreorder K] [Std.LawfulOrderLT K] {V : Type} [BEq V] [PartialEquivBEq V]
  {S : StepFns K}

/-- **C82** Extending `a` by the entries of `b`: where `b` has a value that value, else the value
of `a`. -/
theorem C82_overlay (hS : LawfulSteps S) {a b : RangeInclusiveMap K V}
    (ha : Reachable S a) (hb : Reachable S b) :
    ∃ m, a.extend S b.iter = (m, .ok ()) ∧ Reachable S m ∧
      ∀ k, ∃ o p w, a.get k = .ok o ∧ b.get k = .ok p ∧ m.get k = .ok w ∧ Agree w (p.or o) := by
  have hs := (hb.wf hS).sep
  have hfr := (hb.wf hS).fresh
  have hv : ∀ e ∈ b.iter, e.1.start ≤ e.1.stop := hs.ne
  have hx : ∀ e ∈ b.iter, e.1.exhausted = false := hfr
  refine ⟨(a.extend S b.iter).1, ?_, ha.apply (.extend _) (by
    intro r hr
    obtain ⟨e, he, rfl⟩ := List.mem_map.1 hr
    exact hx e he), fun k => ?_⟩
  · cases h : a.extend S b.iter with
    | mk m x =>
      cases x with
      | ok u => rfl
      | error p =>
        obtain ⟨e, he, h1⟩ := (C19_extend_panics_iff hS ha.any b.iter).1 ⟨p, by rw [h]⟩
        have := hv e he
        grind
  obtain ⟨-, w, o, i1, i2, i3⟩ := C19_extend_last_wins hS ha _ hv hx k
  refine ⟨o, _, w, i2, get_look (hb.wf hS) k, i1, ?_⟩
  have hg := get_look (hb.wf hS) k
  cases hf : b.iter.reverse.find? (fun e => icovers e.1 k) with
  | some e =>
    rw [hf] at i3
    have he := List.mem_reverse.1 (List.mem_of_find?_eq_some hf)
    have hc := (icovers_eq e.1 k).1 (by simpa using List.find?_some hf)
    rw [(get_eq_some hs hfr k e.2).2 ⟨e, he, hc.1, hc.2, rfl⟩] at hg
    rw [show b.look k = some e.2 from (Except.ok.inj hg).symm]
    exact i3
  | none =>
    rw [hf] at i3
    cases hl : b.look k with
    | none => exact i3
    | some v =>
      rw [hl] at hg
      obtain ⟨e, he, h3, h4, -⟩ := (get_eq_some hs hfr k v).1 hg
      exact absurd ((icovers_eq e.1 k).2 ⟨h3, h4⟩)
        (List.find?_eq_none.1 hf e (List.mem_reverse.2 he))

example := Inclusive.C82_overlay (K := UIntW 8) (V := Char) (S := Demo.u8) Demo.u8_lawful
    (a := Demo.imap) (b := Demo.imap') Demo.imap_reachable Demo.imap'_reachable

theorem overlay_look (hS : LawfulSteps S) {a b m : RangeInclusiveMap K V} (ha : Reachable S a)
    (hb : Reachable S b)
    (h : a.extend S b.iter = (m, .ok ())) :
    Reachable S m ∧ ∀ k, Agree (m.look k) ((b.look k).or (a.look k)) := by
  obtain ⟨m', h1, h2, h3⟩ := C82_overlay hS ha hb
  rw [h] at h1
  cases h1
  refine ⟨h2, fun k => ?_⟩
  obtain ⟨o, p, w, i1, i2, i3, i4⟩ := h3 k
  rw [get_look (ha.wf hS)] at i1
  rw [get_look (hb.wf hS)] at i2
  rw [get_look (h2.wf hS)] at i3
  cases i1; cases i2; cases i3
  exact i4

/-- **C82** A copy of the part of `m` inside `q`, laid over `n`. -/
theorem C82_paste (hS : LawfulSteps S) {m n : RangeInclusiveMap K V} (hm : Reachable S m)
    (hn : Reachable S n) {q : RangeInclusive K}
    (hq : q.start ≤ q.stop) :
    ∃ o l n', m.overlapping q = .ok o ∧ Yields Overlapping.next o l ∧
      n.extend S (l.map fun e => (.mk' (rmax q.start e.1.start) (rmin q.stop e.1.stop), e.2)) =
        (n', .ok ()) ∧ Reachable S n' ∧
      ∀ k, ∃ w u w', m.get k = .ok w ∧ n.get k = .ok u ∧ n'.get k = .ok w' ∧
        Agree w' (if q.start ≤ k ∧ k ≤ q.stop then w.or u else u) := by
  obtain ⟨o, h1, h2⟩ := C32_overlapping_exact hS hm.any q
  have hs := (hm.wf hS).sep
  have hfr := (hm.wf hS).fresh
  have hmem : ∀ e ∈ m.iter.filter
      (fun e => decide (q.start ≤ e.1.stop) && decide (e.1.start ≤ q.stop)),
      e ∈ m.btm ∧ q.start ≤ e.1.stop ∧ e.1.start ≤ q.stop := by
    intro e he
    have := List.mem_filter.1 he
    simp only [Bool.and_eq_true, decide_eq_true_eq] at this
    exact ⟨this.1, this.2⟩
  generalize hl : m.iter.filter
    (fun e => decide (q.start ≤ e.1.stop) && decide (e.1.start ≤ q.stop)) = l at h2 hmem
  generalize hitems :
    (l.map fun e => (RangeInclusive.mk' (rmax q.start e.1.start) (rmin q.stop e.1.stop),
    e.2)) = items
  have hi : ∀ x ∈ items, ∃ e ∈ l, x.2 = e.2 ∧
      ∀ k, x.1.start ≤ k ∧ k ≤ x.1.stop ↔
        (q.start ≤ k ∧ k ≤ q.stop) ∧ e.1.start ≤ k ∧ k ≤ e.1.stop := by
    intro x hx
    rw [← hitems] at hx
    obtain ⟨e, he, rfl⟩ := List.mem_map.1 hx
    refine ⟨e, he, rfl, fun k => ?_⟩
    show rmax q.start e.1.start ≤ k ∧ k ≤ rmin q.stop e.1.stop ↔ _
    rw [rmax_le, le_rmin]
    grind
  have hv : ∀ x ∈ items, x.1.start ≤ x.1.stop := by
    intro x hx
    rw [← hitems] at hx
    obtain ⟨e, he, rfl⟩ := List.mem_map.1 hx
    obtain ⟨h3, h4, h5⟩ := hmem e he
    have := hs.ne e h3
    show rmax q.start e.1.start ≤ rmin q.stop e.1.stop
    rw [le_rmin, rmax_le, rmax_le]
    grind
  have hx : ∀ x ∈ items, x.1.exhausted = false := by
    intro x hx
    rw [← hitems] at hx
    obtain ⟨e, he, rfl⟩ := List.mem_map.1 hx
    rfl
  refine ⟨o, l, (n.extend S items).1, h1, h2, ?_, hn.apply (.extend items) (by
    intro r hr
    obtain ⟨e, he, rfl⟩ := List.mem_map.1 hr
    exact hx e he), fun k => ?_⟩
  · obtain ⟨i1, -⟩ := C19_extend_last_wins hS hn _ hv hx q.start
    rw [hitems, ← i1]
  obtain ⟨-, w', u, i1, i2, i3⟩ := C19_extend_last_wins hS hn _ hv hx k
  have hg := get_look (hm.wf hS) k
  refine ⟨_, u, w', hg, i2, i1, ?_⟩
  cases hf : items.reverse.find? (fun e => icovers e.1 k) with
  | some x =>
    rw [hf] at i3
    have hx := List.mem_reverse.1 (List.mem_of_find?_eq_some hf)
    have hc := (icovers_eq x.1 k).1 (by simpa using List.find?_some hf)
    obtain ⟨e, he, h3, h4⟩ := hi x hx
    obtain ⟨h5, h6⟩ := (h4 k).1 hc
    rw [(get_eq_some hs hfr k e.2).2 ⟨e, (hmem e he).1, h6.1, h6.2, rfl⟩] at hg
    rw [show m.look k = some e.2 from (Except.ok.inj hg).symm]
    rw [if_pos h5, ← h3]
    exact i3
  | none =>
    rw [hf] at i3
    have i3 : Agree w' u := i3
    split
    · rename_i hk
      cases hw : m.look k with
      | none => exact i3
      | some w =>
        rw [hw] at hg
        obtain ⟨e, he, h3, h4, -⟩ := (get_eq_some hs hfr k w).1 hg
        have hel : e ∈ l := by
          rw [← hl]
          refine List.mem_filter.2 ⟨he, ?_⟩
          simp only [Bool.and_eq_true, decide_eq_true_eq]
          grind
        have := List.find?_eq_none.1 hf _
          (List.mem_reverse.2 (hitems ▸ List.mem_map.2 ⟨e, hel, rfl⟩))
        refine absurd ((icovers_eq _ k).2 ?_) this
        show rmax q.start e.1.start ≤ k ∧ k ≤ rmin q.stop e.1.stop
        rw [rmax_le, le_rmin]
        grind
    · exact i3

example := Inclusive.C82_paste (K := UIntW 8) (V := Char) (S := Demo.u8) Demo.u8_lawful
    (m := Demo.imap) (n := Demo.imap') Demo.imap_reachable Demo.imap'_reachable
    (q := Demo.by8 2 22) (by decide)

section
variable [ReflBEq V]

/-- **C82** Overlaying is associative. -/
theorem C82_overlay_assoc (hS : LawfulSteps S) {a b c ab bc x y : RangeInclusiveMap K V}
    (ha : Reachable S a) (hb : Reachable S b)
    (hc : Reachable S c) (h1 : a.extend S b.iter = (ab, .ok ()))
    (h2 : ab.extend S c.iter = (x, .ok ()))
    (h3 : b.extend S c.iter = (bc, .ok ())) (h4 : a.extend S bc.iter = (y, .ok ())) :
    x.eq y = true := by
  obtain ⟨r1, a1⟩ := overlay_look hS ha hb h1
  obtain ⟨r2, a2⟩ := overlay_look hS r1 hc h2
  obtain ⟨r3, a3⟩ := overlay_look hS hb hc h3
  obtain ⟨r4, a4⟩ := overlay_look hS ha r3 h4
  refine eq_of_look hS r2 r4 fun k => ?_
  refine RangeMap.Agree.trans
    (RangeMap.Agree.trans (a2 k) (or_agree (RangeMap.Agree.refl _) (a1 k)))
    (RangeMap.Agree.symm (RangeMap.Agree.trans (a4 k) ?_))
  rw [← Option.or_assoc]
  exact or_agree (a3 k) (RangeMap.Agree.refl _)

example := Inclusive.C82_overlay_assoc (K := UIntW 8) (V := Char) (S := Demo.u8) Demo.u8_lawful
    (a := Demo.imap) (b := Demo.imap') (c := Demo.imap) Demo.imap_reachable Demo.imap'_reachable
    Demo.imap_reachable rfl rfl rfl rfl

/-- **C82** The empty map is neutral on either side: exactly, not only up to `==`. -/
theorem C82_overlay_empty (hS : LawfulSteps S) {a : RangeInclusiveMap K V} (ha : Reachable S a) :
    a.extend S (new : RangeInclusiveMap K V).iter = (a, .ok ()) ∧
      (new : RangeInclusiveMap K V).extend S a.iter = (a, .ok ()) := by
  refine ⟨rfl, ?_⟩
  have := extend_rest hS a.btm [] (by simpa using (ha.wf hS).sc)
  rw [List.nil_append] at this
  exact this

example := Inclusive.C82_overlay_empty (K := UIntW 8) (V := Char) (S := Demo.u8) Demo.u8_lawful
    (a := Demo.imap) Demo.imap_reachable

/-- **C82** Of the same map laid on twice only the upper one counts: `a`, then `b`, then `a` is
`b`, then `a`; with `b` empty, `a` over `a` is `a`. -/
theorem C82_overlay_again (hS : LawfulSteps S) {a b ab x ba : RangeInclusiveMap K V}
    (ha : Reachable S a) (hb : Reachable S b)
    (h1 : a.extend S b.iter = (ab, .ok ())) (h2 : ab.extend S a.iter = (x, .ok ()))
    (h3 : b.extend S a.iter = (ba, .ok ())) : x.eq ba = true := by
  obtain ⟨r1, a1⟩ := overlay_look hS ha hb h1
  obtain ⟨r2, a2⟩ := overlay_look hS r1 ha h2
  obtain ⟨r3, a3⟩ := overlay_look hS hb ha h3
  refine eq_of_look hS r2 r3 fun k => ?_
  refine RangeMap.Agree.trans
    (RangeMap.Agree.trans (a2 k) (or_agree (RangeMap.Agree.refl _) (a1 k)))
    (RangeMap.Agree.symm (a3 k) |>
    fun h => RangeMap.Agree.trans ?_ h)
  cases a.look k
  · simpa using RangeMap.Agree.refl _
  · simpa using RangeMap.Agree.refl _

example := Inclusive.C82_overlay_again (K := UIntW 8) (V := Char) (S := Demo.u8) Demo.u8_lawful
    (a := Demo.imap) (b := Demo.imap') Demo.imap_reachable Demo.imap'_reachable rfl rfl rfl

/-- **C82** Maps without a common key commute. -/
theorem C82_overlay_comm (hS : LawfulSteps S) {a b ab ba : RangeInclusiveMap K V}
    (ha : Reachable S a) (hb : Reachable S b)
    (hd : ∀ k, a.get k = .ok none ∨ b.get k = .ok none)
    (h1 : a.extend S b.iter = (ab, .ok ())) (h2 : b.extend S a.iter = (ba, .ok ())) :
    ab.eq ba = true := by
  obtain ⟨r1, a1⟩ := overlay_look hS ha hb h1
  obtain ⟨r2, a2⟩ := overlay_look hS hb ha h2
  refine eq_of_look hS r1 r2 fun k => RangeMap.Agree.trans (a1 k)
    (RangeMap.Agree.symm (RangeMap.Agree.trans (a2 k) ?_))
  have hd := hd k
  rw [get_look (ha.wf hS), get_look (hb.wf hS)] at hd
  rcases hd with hd | hd <;> injection hd with hd <;> rw [hd] <;> simpa using RangeMap.Agree.refl _

theorem paste_look (hS : LawfulSteps S) {m n : RangeInclusiveMap K V} (hm : Reachable S m)
    (hn : Reachable S n) {q : RangeInclusive K}
    (hq : q.start ≤ q.stop) {o : Overlapping K V} {l : List (RangeInclusive K × V)}
    (h1 : m.overlapping q = .ok o) (h2 : Yields Overlapping.next o l) :
    ∃ n', n.extend S (l.map fun e => (.mk' (rmax q.start e.1.start) (rmin q.stop e.1.stop), e.2)) =
        (n', .ok ()) ∧ Reachable S n' ∧
      ∀ k, Agree (n'.look k)
        (if q.start ≤ k ∧ k ≤ q.stop then (m.look k).or (n.look k) else n.look k) := by
  obtain ⟨o', l', n', i1, i2, i3, i4, i5⟩ := C82_paste hS hm hn hq
  rw [h1] at i1
  cases i1
  rw [Yields.unique i2 h2] at i3
  refine ⟨n', i3, i4, fun k => ?_⟩
  obtain ⟨w, u, w', j1, j2, j3, j4⟩ := i5 k
  rw [get_look (hm.wf hS)] at j1
  rw [get_look (hn.wf hS)] at j2
  rw [get_look (i4.wf hS)] at j3
  cases j1; cases j2; cases j3
  exact j4

/-- **C82** Undoing an `insert`: with a copy taken before, `remove` of the same range and putting
the copy back gives the map there was. -/
theorem C82_undo_insert (hS : LawfulSteps S) {m m1 : RangeInclusiveMap K V} (hm : Reachable S m)
    {q : RangeInclusive K} {v : V}
    (hx : q.exhausted = false) (h : m.insert S q v = .ok m1) :
    ∃ o l m2 m3, m.overlapping q = .ok o ∧ Yields Overlapping.next o l ∧ m1.remove S q = .ok m2 ∧
      m2.extend S (l.map fun e => (.mk' (rmax q.start e.1.start) (rmin q.stop e.1.stop), e.2)) =
        (m3, .ok ()) ∧ m3.eq m = true := by
  obtain ⟨r1, hq, a1⟩ := ins hS hm hx h
  obtain ⟨o, h1, h2⟩ := C32_overlapping_exact hS hm.any q
  obtain ⟨m2, h3, -⟩ := C24_remove_pointwise hS r1 hq
  obtain ⟨r2, -, a2⟩ := rem hS r1 h3
  obtain ⟨m3, h4, r3, a3⟩ := paste_look hS hm r2 hq h1 h2
  refine ⟨o, _, m2, m3, h1, h2, h3, h4, eq_of_look hS r3 hm fun k => RangeMap.Agree.trans (a3 k) ?_⟩
  rw [a2 k]
  have := a1 k
  by_cases hk : q.start ≤ k ∧ k ≤ q.stop
  · simp only [if_pos hk, Option.or_none]
    exact RangeMap.Agree.refl _
  · simp only [if_neg hk] at this ⊢
    exact this

example := Inclusive.C82_undo_insert (K := UIntW 8) (V := Char) (S := Demo.u8) Demo.u8_lawful
    (m := Demo.imap) Demo.imap_reachable (q := Demo.by8 2 22) (v := 'q') (by decide) rfl

/-- **C82** Undoing a `remove`. -/
theorem C82_undo_remove (hS : LawfulSteps S) {m m1 : RangeInclusiveMap K V} (hm : Reachable S m)
    {q : RangeInclusive K}
    (h : m.remove S q = .ok m1) :
    ∃ o l m2, m.overlapping q = .ok o ∧ Yields Overlapping.next o l ∧
      m1.extend S (l.map fun e => (.mk' (rmax q.start e.1.start) (rmin q.stop e.1.stop), e.2)) =
        (m2, .ok ()) ∧ m2.eq m = true := by
  obtain ⟨r1, hq, a1⟩ := rem hS hm h
  obtain ⟨o, h1, h2⟩ := C32_overlapping_exact hS hm.any q
  obtain ⟨m2, h4, r3, a3⟩ := paste_look hS hm r1 hq h1 h2
  refine ⟨o, _, m2, h1, h2, h4, eq_of_look hS r3 hm fun k => RangeMap.Agree.trans (a3 k) ?_⟩
  rw [a1 k]
  by_cases hk : q.start ≤ k ∧ k ≤ q.stop
  · simp only [if_pos hk, Option.or_none]
    exact RangeMap.Agree.refl _
  · simp only [if_neg hk]
    exact RangeMap.Agree.refl _

end

-- an insert over three entries of the demo map (0..=2, 5..=15, 20..=24, 25..=255), undone
example : Reachable Demo.u8 Demo.imap := Demo.imap_reachable
example : (Demo.imap.insert Demo.u8 (Demo.by8 2 22) 'z').toOption.bind
    (fun m => (m.remove Demo.u8 (Demo.by8 2 22)).toOption.map fun m =>
      (m.iter, (m.extend Demo.u8 [(Demo.by8 2 2, 'a'), (Demo.by8 5 15, 'a'),
        (Demo.by8 20 22, 'b')]).1.iter)) =
    some ([(Demo.by8 0 1, 'a'), (Demo.by8 23 24, 'b'), (Demo.by8 25 255, 'c')],
      Demo.imap.iter) := by rfl


-- two maps without a common key
example := C82_overlay_comm (V := Char) Demo.u8_lawful Demo.imap_reachable
  (b := ⟨[(Demo.by8 3 4, 'x'), (Demo.by8 16 19, 'y')]⟩)
  ⟨[.insert (Demo.by8 3 4) 'x', .insert (Demo.by8 16 19) 'y'], by decide, rfl⟩
  (fun k => (Demo.forall8 (P := fun k => (Demo.imap.get k).toOption = some none ∨
    ((⟨[(Demo.by8 3 4, 'x'), (Demo.by8 16 19, 'y')]⟩ : RangeInclusiveMap _ _).get k).toOption =
      some none) (by decide +kernel) k).imp Demo.ok_of Demo.ok_of) rfl rfl

end Verif.Props.Inclusive

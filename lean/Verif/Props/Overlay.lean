import Verif.Props.Demo
import Verif.Props.Recipes

/-!
# C82: one map laid over another, and undoing an update

`a.extend(b)` puts the map `b` over the map `a`.  The entries `overlapping(q)` yields, cut to `q`,
are a copy of the part of a map inside `q`; putting the copy back undoes an `insert` or `remove`.
-/
set_option linter.unusedSectionVars false

namespace Verif.Props
open Spec RangeMap
variable {K : Type} [LE K] [LT K] [DecidableLE K] [DecidableLT K]
  [Std.IsLinearPreorder K] [Std.LawfulOrderLT K] {V : Type} [BEq V] [PartialEquivBEq V]

/-- **C82** Extending `a` by the entries of `b`: where `b` has a value that value, else the value
of `a`. -/
theorem C82_overlay {a b : RangeMap K V} (ha : Reachable a) (hb : Reachable b) :
    ∃ m, a.extend b.iter = (m, .ok ()) ∧ Reachable m ∧
      ∀ k, ∃ o p w, a.get k = .ok o ∧ b.get k = .ok p ∧ m.get k = .ok w ∧ Agree w (p.or o) := by
  have hs := hb.wf.sep
  have hv : ∀ e ∈ b.iter, e.1.start < e.1.stop := hs.ne
  refine ⟨(a.extend b.iter).1, ?_, ha.apply (.extend _), fun k => ?_⟩
  · cases h : a.extend b.iter with
    | mk m x =>
      cases x with
      | ok u => rfl
      | error p =>
        obtain ⟨e, he, h1⟩ := (C19_extend_panics_iff ha b.iter).1 ⟨p, by rw [h]⟩
        have := hv e he
        grind
  obtain ⟨-, w, o, i1, i2, i3⟩ := C19_extend_last_wins ha _ hv k
  refine ⟨o, _, w, i2, get_look hs k, i1, ?_⟩
  have hg := get_look hs k
  cases hf : b.iter.reverse.find? (fun e => covers e.1 k) with
  | some e =>
    rw [hf] at i3
    have he := List.mem_reverse.1 (List.mem_of_find?_eq_some hf)
    have hc := (covers_eq e.1 k).1 (by simpa using List.find?_some hf)
    rw [(get_eq_some hs k e.2).2 ⟨e, he, hc.1, hc.2, rfl⟩] at hg
    rw [show b.look k = some e.2 from (Except.ok.inj hg).symm]
    exact i3
  | none =>
    rw [hf] at i3
    cases hl : b.look k with
    | none => exact i3
    | some v =>
      rw [hl] at hg
      obtain ⟨e, he, h3, h4, -⟩ := (get_eq_some hs k v).1 hg
      exact absurd ((covers_eq e.1 k).2 ⟨h3, h4⟩)
        (List.find?_eq_none.1 hf e (List.mem_reverse.2 he))

example := C82_overlay (K := Nat) (V := Char) (a := Demo.map) (b := Demo.map') Demo.map_reachable
    Demo.map'_reachable

theorem overlay_look {a b m : RangeMap K V} (ha : Reachable a) (hb : Reachable b)
    (h : a.extend b.iter = (m, .ok ())) :
    Reachable m ∧ ∀ k, Agree (m.look k) ((b.look k).or (a.look k)) := by
  obtain ⟨m', h1, h2, h3⟩ := C82_overlay ha hb
  rw [h] at h1
  cases h1
  refine ⟨h2, fun k => ?_⟩
  obtain ⟨o, p, w, i1, i2, i3, i4⟩ := h3 k
  rw [get_look ha.wf.sep] at i1
  rw [get_look hb.wf.sep] at i2
  rw [get_look h2.wf.sep] at i3
  cases i1; cases i2; cases i3
  exact i4

theorem or_agree {a b x y : Option V} (h1 : Agree a x) (h2 : Agree b y) :
    Agree (a.or b) (x.or y) := by
  cases a <;> cases x <;> simp_all [Agree]

/-- **C82** A copy of the part of `m` inside `q`, laid over `n`. -/
theorem C82_paste {m n : RangeMap K V} (hm : Reachable m) (hn : Reachable n) {q : Range K}
    (hq : q.start < q.stop) :
    ∃ o l n', m.overlapping q = .ok o ∧ Yields Overlapping.next o l ∧
      n.extend (l.map fun e => (⟨rmax q.start e.1.start, rmin q.stop e.1.stop⟩, e.2)) =
        (n', .ok ()) ∧ Reachable n' ∧
      ∀ k, ∃ w u w', m.get k = .ok w ∧ n.get k = .ok u ∧ n'.get k = .ok w' ∧
        Agree w' (if q.start ≤ k ∧ k < q.stop then w.or u else u) := by
  obtain ⟨o, h1, h2⟩ := C13_overlapping_exact hm q
  have hs := hm.wf.sep
  have hmem : ∀ e ∈ m.iter.filter
      (fun e => decide (q.start < e.1.stop) && decide (e.1.start < q.stop)),
      e ∈ m.btm ∧ q.start < e.1.stop ∧ e.1.start < q.stop := by
    intro e he
    have := List.mem_filter.1 he
    simp only [Bool.and_eq_true, decide_eq_true_eq] at this
    exact ⟨this.1, this.2⟩
  generalize hl : m.iter.filter
    (fun e => decide (q.start < e.1.stop) && decide (e.1.start < q.stop)) = l at h2 hmem
  generalize hitems : (l.map fun e => ((⟨rmax q.start e.1.start, rmin q.stop e.1.stop⟩ : Range K),
    e.2)) = items
  have hi : ∀ x ∈ items, ∃ e ∈ l, x.2 = e.2 ∧
      ∀ k, x.1.start ≤ k ∧ k < x.1.stop ↔
        (q.start ≤ k ∧ k < q.stop) ∧ e.1.start ≤ k ∧ k < e.1.stop := by
    intro x hx
    rw [← hitems] at hx
    obtain ⟨e, he, rfl⟩ := List.mem_map.1 hx
    refine ⟨e, he, rfl, fun k => ?_⟩
    show rmax q.start e.1.start ≤ k ∧ k < rmin q.stop e.1.stop ↔ _
    rw [rmax_le, lt_rmin]
    grind
  have hv : ∀ x ∈ items, x.1.start < x.1.stop := by
    intro x hx
    rw [← hitems] at hx
    obtain ⟨e, he, rfl⟩ := List.mem_map.1 hx
    obtain ⟨h3, h4, h5⟩ := hmem e he
    have := hs.ne e h3
    show rmax q.start e.1.start < rmin q.stop e.1.stop
    rw [lt_rmin, rmax_lt, rmax_lt]
    grind
  refine ⟨o, l, (n.extend items).1, h1, h2, ?_, hn.apply (.extend items), fun k => ?_⟩
  · obtain ⟨i1, -⟩ := C19_extend_last_wins hn _ hv q.start
    rw [hitems, ← i1]
  obtain ⟨-, w', u, i1, i2, i3⟩ := C19_extend_last_wins hn _ hv k
  have hg := get_look hs k
  refine ⟨_, u, w', hg, i2, i1, ?_⟩
  cases hf : items.reverse.find? (fun e => covers e.1 k) with
  | some x =>
    rw [hf] at i3
    have hx := List.mem_reverse.1 (List.mem_of_find?_eq_some hf)
    have hc := (covers_eq x.1 k).1 (by simpa using List.find?_some hf)
    obtain ⟨e, he, h3, h4⟩ := hi x hx
    obtain ⟨h5, h6⟩ := (h4 k).1 hc
    rw [(get_eq_some hs k e.2).2 ⟨e, (hmem e he).1, h6.1, h6.2, rfl⟩] at hg
    rw [show m.look k = some e.2 from (Except.ok.inj hg).symm]
    rw [if_pos h5, ← h3]
    exact i3
  | none =>
    rw [hf] at i3
    have i3 : Agree w' u := i3
    split
    · rename_i hk
      cases hw : m.look k with
      | none => exact i3
      | some w =>
        rw [hw] at hg
        obtain ⟨e, he, h3, h4, -⟩ := (get_eq_some hs k w).1 hg
        have hel : e ∈ l := by
          rw [← hl]
          refine List.mem_filter.2 ⟨he, ?_⟩
          simp only [Bool.and_eq_true, decide_eq_true_eq]
          grind
        have := List.find?_eq_none.1 hf _
          (List.mem_reverse.2 (hitems ▸ List.mem_map.2 ⟨e, hel, rfl⟩))
        refine absurd ((covers_eq _ k).2 ?_) this
        show rmax q.start e.1.start ≤ k ∧ k < rmin q.stop e.1.stop
        rw [rmax_le, lt_rmin]
        grind
    · exact i3

example := C82_paste (K := Nat) (V := Char) (m := Demo.map) (n := Demo.map') Demo.map_reachable
    Demo.map'_reachable (q := ⟨2, 22⟩) (by decide)

section
variable [ReflBEq V]

/-- **C82** Overlaying is associative. -/
theorem C82_overlay_assoc {a b c ab bc x y : RangeMap K V} (ha : Reachable a) (hb : Reachable b)
    (hc : Reachable c) (h1 : a.extend b.iter = (ab, .ok ())) (h2 : ab.extend c.iter = (x, .ok ()))
    (h3 : b.extend c.iter = (bc, .ok ())) (h4 : a.extend bc.iter = (y, .ok ())) :
    x.eq y = true := by
  obtain ⟨r1, a1⟩ := overlay_look ha hb h1
  obtain ⟨r2, a2⟩ := overlay_look r1 hc h2
  obtain ⟨r3, a3⟩ := overlay_look hb hc h3
  obtain ⟨r4, a4⟩ := overlay_look ha r3 h4
  refine eq_of_look r2 r4 fun k => ?_
  refine Agree.trans (Agree.trans (a2 k) (or_agree (Agree.refl _) (a1 k)))
    (Agree.symm (Agree.trans (a4 k) ?_))
  rw [← Option.or_assoc]
  exact or_agree (a3 k) (Agree.refl _)

example := C82_overlay_assoc (K := Nat) (V := Char) (a := Demo.map) (b := Demo.map')
    (c := Demo.map) Demo.map_reachable Demo.map'_reachable Demo.map_reachable rfl rfl rfl rfl

/-- **C82** The empty map is neutral on either side: exactly, not only up to `==`. -/
theorem C82_overlay_empty {a : RangeMap K V} (ha : Reachable a) :
    a.extend (RangeMap.new : RangeMap K V).iter = (a, .ok ()) ∧
      (RangeMap.new : RangeMap K V).extend a.iter = (a, .ok ()) := by
  refine ⟨rfl, ?_⟩
  have := extend_rest a.btm [] (by simpa using ha.wf)
  rw [List.nil_append] at this
  exact this

example := C82_overlay_empty (K := Nat) (V := Char) (a := Demo.map) Demo.map_reachable

/-- **C82** Of the same map laid on twice only the upper one counts: `a`, then `b`, then `a` is
`b`, then `a`; with `b` empty, `a` over `a` is `a`. -/
theorem C82_overlay_again {a b ab x ba : RangeMap K V} (ha : Reachable a) (hb : Reachable b)
    (h1 : a.extend b.iter = (ab, .ok ())) (h2 : ab.extend a.iter = (x, .ok ()))
    (h3 : b.extend a.iter = (ba, .ok ())) : x.eq ba = true := by
  obtain ⟨r1, a1⟩ := overlay_look ha hb h1
  obtain ⟨r2, a2⟩ := overlay_look r1 ha h2
  obtain ⟨r3, a3⟩ := overlay_look hb ha h3
  refine eq_of_look r2 r3 fun k => ?_
  refine Agree.trans (Agree.trans (a2 k) (or_agree (Agree.refl _) (a1 k))) (Agree.symm (a3 k) |>
    fun h => Agree.trans ?_ h)
  cases a.look k
  · simpa using Agree.refl _
  · simpa using Agree.refl _

example := C82_overlay_again (K := Nat) (V := Char) (a := Demo.map) (b := Demo.map')
    Demo.map_reachable Demo.map'_reachable rfl rfl rfl

/-- **C82** Maps without a common key commute. -/
theorem C82_overlay_comm {a b ab ba : RangeMap K V} (ha : Reachable a) (hb : Reachable b)
    (hd : ∀ k, a.get k = .ok none ∨ b.get k = .ok none)
    (h1 : a.extend b.iter = (ab, .ok ())) (h2 : b.extend a.iter = (ba, .ok ())) :
    ab.eq ba = true := by
  obtain ⟨r1, a1⟩ := overlay_look ha hb h1
  obtain ⟨r2, a2⟩ := overlay_look hb ha h2
  refine eq_of_look r1 r2 fun k => Agree.trans (a1 k) (Agree.symm (Agree.trans (a2 k) ?_))
  have hd := hd k
  rw [get_look ha.wf.sep, get_look hb.wf.sep] at hd
  rcases hd with hd | hd <;> injection hd with hd <;> rw [hd] <;> simpa using Agree.refl _

theorem paste_look {m n : RangeMap K V} (hm : Reachable m) (hn : Reachable n) {q : Range K}
    (hq : q.start < q.stop) {o : Overlapping K V} {l : List (Range K × V)}
    (h1 : m.overlapping q = .ok o) (h2 : Yields Overlapping.next o l) :
    ∃ n', n.extend (l.map fun e => (⟨rmax q.start e.1.start, rmin q.stop e.1.stop⟩, e.2)) =
        (n', .ok ()) ∧ Reachable n' ∧
      ∀ k, Agree (n'.look k)
        (if q.start ≤ k ∧ k < q.stop then (m.look k).or (n.look k) else n.look k) := by
  obtain ⟨o', l', n', i1, i2, i3, i4, i5⟩ := C82_paste hm hn hq
  rw [h1] at i1
  cases i1
  rw [Yields.unique i2 h2] at i3
  refine ⟨n', i3, i4, fun k => ?_⟩
  obtain ⟨w, u, w', j1, j2, j3, j4⟩ := i5 k
  rw [get_look hm.wf.sep] at j1
  rw [get_look hn.wf.sep] at j2
  rw [get_look i4.wf.sep] at j3
  cases j1; cases j2; cases j3
  exact j4

/-- **C82** Undoing an `insert`: with a copy taken before, `remove` of the same range and putting
the copy back gives the map there was. -/
theorem C82_undo_insert {m m1 : RangeMap K V} (hm : Reachable m) {q : Range K} {v : V}
    (h : m.insert q v = .ok m1) :
    ∃ o l m2 m3, m.overlapping q = .ok o ∧ Yields Overlapping.next o l ∧ m1.remove q = .ok m2 ∧
      m2.extend (l.map fun e => (⟨rmax q.start e.1.start, rmin q.stop e.1.stop⟩, e.2)) =
        (m3, .ok ()) ∧ m3.eq m = true := by
  obtain ⟨r1, hq, a1⟩ := ins hm h
  obtain ⟨o, h1, h2⟩ := C13_overlapping_exact hm q
  obtain ⟨m2, h3, -⟩ := C02_remove_pointwise r1 hq
  obtain ⟨r2, -, a2⟩ := rem r1 h3
  obtain ⟨m3, h4, r3, a3⟩ := paste_look hm r2 hq h1 h2
  refine ⟨o, _, m2, m3, h1, h2, h3, h4, eq_of_look r3 hm fun k => Agree.trans (a3 k) ?_⟩
  rw [a2 k]
  have := a1 k
  by_cases hk : q.start ≤ k ∧ k < q.stop
  · simp only [if_pos hk, Option.or_none]
    exact Agree.refl _
  · simp only [if_neg hk] at this ⊢
    exact this

example := C82_undo_insert (K := Nat) (V := Char) (m := Demo.map) Demo.map_reachable
    (q := ⟨2, 22⟩) (v := 'q') rfl

/-- **C82** Undoing a `remove`. -/
theorem C82_undo_remove {m m1 : RangeMap K V} (hm : Reachable m) {q : Range K}
    (h : m.remove q = .ok m1) :
    ∃ o l m2, m.overlapping q = .ok o ∧ Yields Overlapping.next o l ∧
      m1.extend (l.map fun e => (⟨rmax q.start e.1.start, rmin q.stop e.1.stop⟩, e.2)) =
        (m2, .ok ()) ∧ m2.eq m = true := by
  obtain ⟨r1, hq, a1⟩ := rem hm h
  obtain ⟨o, h1, h2⟩ := C13_overlapping_exact hm q
  obtain ⟨m2, h4, r3, a3⟩ := paste_look hm r1 hq h1 h2
  refine ⟨o, _, m2, h1, h2, h4, eq_of_look r3 hm fun k => Agree.trans (a3 k) ?_⟩
  rw [a1 k]
  by_cases hk : q.start ≤ k ∧ k < q.stop
  · simp only [if_pos hk, Option.or_none]
    exact Agree.refl _
  · simp only [if_neg hk]
    exact Agree.refl _

end

-- an insert over three entries of the demo map, undone; the remove alone would not do
example : (Demo.map.insert ⟨10, 30⟩ 'z').toOption.bind
    (fun m => (m.remove ⟨10, 30⟩).toOption.map fun m =>
      (m.iter, (m.extend [(⟨10, 15⟩, 'a'), (⟨20, 25⟩, 'b'), (⟨25, 30⟩, 'c')]).1.iter)) =
    some ([(⟨0, 3⟩, 'a'), (⟨5, 10⟩, 'a'), (⟨30, 40⟩, 'c')],
      [(⟨0, 3⟩, 'a'), (⟨5, 15⟩, 'a'), (⟨20, 25⟩, 'b'), (⟨25, 40⟩, 'c')]) := by rfl
-- overlaying does not commute
example :
    let n : RangeMap Nat Char := (new.extend [(⟨2, 22⟩, 'c')]).1
    (Demo.map.extend n.iter).1.iter = [(⟨0, 2⟩, 'a'), (⟨2, 22⟩, 'c'), (⟨22, 25⟩, 'b'),
      (⟨25, 40⟩, 'c')] ∧
    (n.extend Demo.map.iter).1.iter = [(⟨0, 3⟩, 'a'), (⟨3, 5⟩, 'c'), (⟨5, 15⟩, 'a'),
      (⟨15, 20⟩, 'c'), (⟨20, 25⟩, 'b'), (⟨25, 40⟩, 'c')] := ⟨by rfl, by rfl⟩


-- two maps without a common key
example : (Demo.map.extend [(⟨3, 5⟩, 'x'), (⟨40, 50⟩, 'c')]).1.eq
    ((RangeMap.new.extend [(⟨3, 5⟩, 'x'), (⟨40, 50⟩, 'c')]).1.extend Demo.map.iter).1 = true := by
  have hb : Reachable (⟨[(⟨3, 5⟩, 'x'), (⟨40, 50⟩, 'c')]⟩ : RangeMap Nat Char) :=
    ⟨[.insert ⟨3, 5⟩ 'x', .insert ⟨40, 50⟩ 'c'], rfl⟩
  refine C82_overlay_comm Demo.map_reachable hb (fun k => ?_) rfl rfl
  cases h : Demo.map.get k with
  | error p => simp [get_look Demo.map_reachable.wf.sep] at h
  | ok w =>
    cases w with
    | none => exact .inl rfl
    | some w =>
      cases h' : RangeMap.get (⟨[(⟨3, 5⟩, 'x'), (⟨40, 50⟩, 'c')]⟩ : RangeMap Nat Char) k with
      | error p => simp [get_look hb.wf.sep] at h'
      | ok w' =>
        cases w' with
        | none => exact .inr rfl
        | some w' =>
          obtain ⟨e, he, h1, h2, -⟩ := (get_eq_some Demo.map_reachable.wf.sep _ _).1 h
          obtain ⟨e', he', h1', h2', -⟩ := (get_eq_some hb.wf.sep _ _).1 h'
          simp only [Demo.map, List.mem_cons, List.not_mem_nil, or_false] at he he'
          rcases he with rfl | rfl | rfl | rfl <;> rcases he' with rfl | rfl <;>
            simp only at h1 h2 h1' h2' <;> omega

end Verif.Props

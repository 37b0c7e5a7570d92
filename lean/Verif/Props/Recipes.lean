import Verif.Props.Iter
import Verif.Props.IIter
import Verif.Props.Build
import Verif.Props.IBuild
import Verif.Props.Exact
import Verif.Proof.ISet
import Verif.Props.Demo

/-!
# C78: programs made of queries and updates

What users of the crate write because there is no method for it: fill the gaps of a range, put one
map under another, apply a function to the values in a range, drop the entries that a range meets.
-/
set_option linter.unusedSectionVars false

namespace Verif.Spec
variable {K : Type} [LE K] [LT K] [DecidableLE K] [DecidableLT K] {V : Type} [BEq V]

/-- ```
for (r, v) in items {
    let gaps: Vec<_> = m.gaps(&r).collect();
    m.extend(gaps.into_iter().map(|g| (g, v.clone())));
}
```
runs from `m` to `m'` without a panic. -/
inductive Underlay : RangeMap K V → List (Range K × V) → RangeMap K V → Prop
  | nil {m} : Underlay m [] m
  | cons {m m' m'' : RangeMap K V} {r : Range K} {v : V} {t : List (Range K × V)}
      {g : RangeMap.Gaps K V} {l : List (Range K)} : m.gaps r = .ok g →
      Yields RangeMap.Gaps.next g l → m.extend (l.map fun x => (x, v)) = (m', .ok ()) →
      Underlay m' t m'' → Underlay m ((r, v) :: t) m''

/-- `for r in rs { m.remove(r); }` runs from `m` to `m'` without a panic. -/
inductive RemoveAll : RangeMap K V → List (Range K) → RangeMap K V → Prop
  | nil {m} : RemoveAll m [] m
  | cons {m m' m'' : RangeMap K V} {r : Range K} {t : List (Range K)} : m.remove r = .ok m' →
      RemoveAll m' t m'' → RemoveAll m (r :: t) m''

/-- `Underlay` for inclusive maps. -/
inductive IUnderlay (S : StepFns K) :
    RangeInclusiveMap K V → List (RangeInclusive K × V) → RangeInclusiveMap K V → Prop
  | nil {m} : IUnderlay S m [] m
  | cons {m m' m'' : RangeInclusiveMap K V} {r : RangeInclusive K} {v : V}
      {t : List (RangeInclusive K × V)} {g : RangeInclusiveMap.Gaps K V}
      {l : List (RangeInclusive K)} : m.gaps r = .ok g →
      YieldsE (RangeInclusiveMap.Gaps.next S) g l →
      m.extend S (l.map fun x => (x, v)) = (m', .ok ()) →
      IUnderlay S m' t m'' → IUnderlay S m ((r, v) :: t) m''

/-- `RemoveAll` for inclusive maps. -/
inductive IRemoveAll (S : StepFns K) :
    RangeInclusiveMap K V → List (RangeInclusive K) → RangeInclusiveMap K V → Prop
  | nil {m} : IRemoveAll S m [] m
  | cons {m m' m'' : RangeInclusiveMap K V} {r : RangeInclusive K} {t : List (RangeInclusive K)} :
      m.remove S r = .ok m' → IRemoveAll S m' t m'' → IRemoveAll S m (r :: t) m''

end Verif.Spec

namespace Verif.Props
open Spec RangeMap
variable {K : Type} [LE K] [LT K] [DecidableLE K] [DecidableLT K]
  [Std.IsLinearPreorder K] [Std.LawfulOrderLT K] {V : Type} [BEq V] [PartialEquivBEq V]

theorem covers_eq (r : Range K) (k : K) : covers r k = true ↔ r.start ≤ k ∧ k < r.stop := by
  simp [covers]

/-- **C78** Inserting `v` over each of the gaps in `outer`: what was mapped stays as it was (up to
`==`), the rest of `outer` is mapped to `v`, nothing else changes, and no gap is left. -/
theorem C78_fill_gaps {m : RangeMap K V} (hm : Reachable m) (outer : Range K) (v : V) :
    ∃ g l m', m.gaps outer = .ok g ∧ Yields Gaps.next g l ∧
      m.extend (l.map fun x => (x, v)) = (m', .ok ()) ∧ Reachable m' ∧
      (∀ k, ∃ o o', m.get k = .ok o ∧ m'.get k = .ok o' ∧
        Agree o' (o.or (if outer.start ≤ k ∧ k < outer.stop then some v else none))) ∧
      ∃ g', m'.gaps outer = .ok g' ∧ Yields Gaps.next g' [] := by
  obtain ⟨g, l, h1, h2, h3, h4, -⟩ := gaps_yields_list hm outer
  have hv : ∀ e ∈ l.map (fun x => (x, v)), e.1.start < e.1.stop := by
    intro e he
    obtain ⟨x, hx, rfl⟩ := List.mem_map.1 he
    exact (h4 x hx).1
  have hm' : Reachable (m.extend (l.map fun x => (x, v))).1 := hm.apply (.extend _)
  have hget : ∀ k, ∃ o o', m.get k = .ok o ∧ (m.extend (l.map fun x => (x, v))).1.get k = .ok o' ∧
        Agree o' (o.or (if outer.start ≤ k ∧ k < outer.stop then some v else none)) := by
    intro k
    obtain ⟨-, o', o, i1, i2, i3⟩ := C19_extend_last_wins hm _ hv k
    refine ⟨o, o', i2, i1, ?_⟩
    cases hf : (l.map fun x => (x, v)).reverse.find? (fun e => covers e.1 k) with
    | some e =>
      rw [hf] at i3
      have he := List.mem_reverse.1 (List.mem_of_find?_eq_some hf)
      obtain ⟨x, hx, rfl⟩ := List.mem_map.1 he
      have hc := (covers_eq x k).1 (by simpa using List.find?_some hf)
      obtain ⟨j1, j2, j3⟩ := (h3 k).1 ⟨x, hx, hc⟩
      rw [i2] at j3
      cases j3
      rw [if_pos ⟨j1, j2⟩]
      exact i3
    | none =>
      rw [hf] at i3
      have i3 : Agree o' o := i3
      cases o with
      | some w => exact i3
      | none =>
        rw [if_neg]
        · exact i3
        · intro hk
          obtain ⟨x, hx, hc⟩ := (h3 k).2 ⟨hk.1, hk.2, i2⟩
          have := List.find?_eq_none.1 hf (x, v) (by
            rw [List.mem_reverse]
            exact List.mem_map.2 ⟨x, hx, rfl⟩)
          exact this ((covers_eq x k).2 hc)
  refine ⟨g, l, _, h1, h2, ?_, hm', hget, ?_⟩
  · obtain ⟨i1, -⟩ := C19_extend_last_wins hm _ hv outer.start
    rw [← i1]
  · obtain ⟨g', l', j1, j2, j3, j4, -⟩ := gaps_yields_list hm' outer
    have : l' = [] := by
      rw [List.eq_nil_iff_forall_not_mem]
      intro x hx
      have h5 := j4 x hx
      obtain ⟨k1, k2, k3⟩ := (j3 x.start).1 ⟨x, hx, Std.le_refl _, h5.1⟩
      obtain ⟨o, o', i1, i2, i3⟩ := hget x.start
      rw [k3] at i2
      cases i2
      rw [if_pos ⟨k1, k2⟩] at i3
      cases o <;> simp [Agree] at i3
    exact ⟨g', j1, this ▸ j2⟩

example := C78_fill_gaps (K := Nat) (V := Char) (m := Demo.map) Demo.map_reachable ⟨2, 22⟩ 'q'

/-- **C78** Putting `items` under `m`: a key that `m` maps keeps its value, any other key gets the
value of the first pair that covers it. -/
theorem C78_underlay : ∀ (items : List (Range K × V)) {m : RangeMap K V}, Reachable m →
    ∃ m', Underlay m items m' ∧ Reachable m' ∧
      ∀ k, ∃ o o', m.get k = .ok o ∧ m'.get k = .ok o' ∧
        Agree o' (o.or ((items.find? fun e => covers e.1 k).map (·.2))) := by
  intro items
  induction items with
  | nil =>
    intro m hm
    refine ⟨m, .nil, hm, fun k => ⟨_, _, get_look hm.wf.sep k, get_look hm.wf.sep k, ?_⟩⟩
    simpa using Agree.refl _
  | cons e t ih =>
    intro m hm
    obtain ⟨g, l, m', h1, h2, h3, h4, h5, -⟩ := C78_fill_gaps hm e.1 e.2
    obtain ⟨m'', h6, h7, h8⟩ := ih h4
    refine ⟨m'', .cons h1 h2 h3 h6, h7, fun k => ?_⟩
    obtain ⟨o, o', i1, i2, i3⟩ := h5 k
    obtain ⟨p, p', j1, j2, j3⟩ := h8 k
    rw [i2] at j1
    cases j1
    refine ⟨o, p', i1, j2, Agree.trans j3 ?_⟩
    rw [List.find?_cons]
    by_cases hc : e.1.start ≤ k ∧ k < e.1.stop
    · rw [(covers_eq e.1 k).2 hc]
      rw [if_pos hc] at i3
      cases o <;> cases o' <;> simp_all [Agree]
    · rw [Bool.eq_false_iff.2 (fun h => hc ((covers_eq e.1 k).1 h))]
      rw [if_neg hc] at i3
      cases o <;> cases o' <;> simp_all [Agree]
      exact Agree.refl _

example := C78_underlay (K := Nat) (V := Char) Demo.items (m := Demo.map) Demo.map_reachable

/-- **C78** Applying `f` to the values in a range: inserting, for each overlapping entry, its part
inside the range with the new value. -/
theorem C78_update {m : RangeMap K V} (hm : Reachable m) {q : Range K} (hq : q.start < q.stop)
    (f : V → V) :
    ∃ o l m', m.overlapping q = .ok o ∧ Yields Overlapping.next o l ∧
      m.extend (l.map fun e => (⟨rmax q.start e.1.start, rmin q.stop e.1.stop⟩, f e.2)) =
        (m', .ok ()) ∧ Reachable m' ∧
      ∀ k, ∃ w w', m.get k = .ok w ∧ m'.get k = .ok w' ∧
        Agree w' (if q.start ≤ k ∧ k < q.stop then w.map f else w) := by
  obtain ⟨o, h1, h2⟩ := C13_overlapping_exact hm q
  have hs := hm.wf.sep
  have hmem : ∀ e ∈ m.iter.filter
      (fun e => decide (q.start < e.1.stop) && decide (e.1.start < q.stop)),
      e ∈ m.btm ∧ q.start < e.1.stop ∧ e.1.start < q.stop := by
    intro e he
    have := List.mem_filter.1 he
    simp only [Bool.and_eq_true, decide_eq_true_eq] at this
    exact ⟨this.1, this.2⟩
  generalize hl : m.iter.filter
    (fun e => decide (q.start < e.1.stop) && decide (e.1.start < q.stop)) = l at h2 hmem
  generalize hitems : (l.map fun e => ((⟨rmax q.start e.1.start, rmin q.stop e.1.stop⟩ : Range K),
    f e.2)) = items
  have hi : ∀ x ∈ items, ∃ e ∈ l, x.2 = f e.2 ∧
      ∀ k, x.1.start ≤ k ∧ k < x.1.stop ↔
        (q.start ≤ k ∧ k < q.stop) ∧ e.1.start ≤ k ∧ k < e.1.stop := by
    intro x hx
    rw [← hitems] at hx
    obtain ⟨e, he, rfl⟩ := List.mem_map.1 hx
    refine ⟨e, he, rfl, fun k => ?_⟩
    show rmax q.start e.1.start ≤ k ∧ k < rmin q.stop e.1.stop ↔ _
    rw [rmax_le, lt_rmin]
    grind
  have hv : ∀ x ∈ items, x.1.start < x.1.stop := by
    intro x hx
    rw [← hitems] at hx
    obtain ⟨e, he, rfl⟩ := List.mem_map.1 hx
    obtain ⟨h3, h4, h5⟩ := hmem e he
    have := hs.ne e h3
    show rmax q.start e.1.start < rmin q.stop e.1.stop
    rw [lt_rmin, rmax_lt, rmax_lt]
    grind
  refine ⟨o, l, (m.extend items).1, h1, h2, ?_, hm.apply (.extend items), fun k => ?_⟩
  · obtain ⟨i1, -⟩ := C19_extend_last_wins hm _ hv q.start
    rw [hitems, ← i1]
  obtain ⟨-, w', w, i1, i2, i3⟩ := C19_extend_last_wins hm _ hv k
  refine ⟨w, w', i2, i1, ?_⟩
  cases hf : items.reverse.find? (fun e => covers e.1 k) with
  | some x =>
    rw [hf] at i3
    have hx := List.mem_reverse.1 (List.mem_of_find?_eq_some hf)
    have hc := (covers_eq x.1 k).1 (by simpa using List.find?_some hf)
    obtain ⟨e, he, h3, h4⟩ := hi x hx
    obtain ⟨h5, h6⟩ := (h4 k).1 hc
    rw [(get_eq_some hs k e.2).2 ⟨e, (hmem e he).1, h6.1, h6.2, rfl⟩] at i2
    cases i2
    rw [if_pos h5, Option.map_some, ← h3]
    exact i3
  | none =>
    rw [hf] at i3
    have i3 : Agree w' w := i3
    split
    · rename_i hk
      cases w with
      | none => exact i3
      | some w =>
        obtain ⟨e, he, h3, h4, -⟩ := (get_eq_some hs k w).1 i2
        have hel : e ∈ l := by
          rw [← hl]
          refine List.mem_filter.2 ⟨he, ?_⟩
          simp only [Bool.and_eq_true, decide_eq_true_eq]
          grind
        have := List.find?_eq_none.1 hf _ (List.mem_reverse.2 (hitems ▸ List.mem_map.2 ⟨e, hel, rfl⟩))
        refine absurd ((covers_eq _ k).2 ?_) this
        show rmax q.start e.1.start ≤ k ∧ k < rmin q.stop e.1.stop
        rw [rmax_le, lt_rmin]
        grind
    · exact i3

theorem sep_ext {l l' : List (Range K × V)} (h : Sep l) (h' : Sep l') (hm : ∀ y, y ∈ l ↔ y ∈ l') :
    l = l' := by
  have hnd : ∀ {l : List (Range K × V)}, Sep l → l.Nodup := fun hl =>
    hl.pw.imp_of_mem fun {a b} ha hb hab => by
      rintro rfl
      have := hab.1
      grind
  exact ((List.perm_ext_iff_of_nodup (hnd h) (hnd h')).2 hm).eq_of_pairwise
    (fun a b _ _ h1 h2 => by exfalso; have := h1.1; have := h2.1; grind) h.pw h'.pw

/-- Removing a stored range removes that entry. -/
theorem remove_stored {m : RangeMap K V} (hm : Reachable m) {e : Range K × V} (he : e ∈ m.iter) :
    ∃ m', m.remove e.1 = .ok m' ∧ Reachable m' ∧ ∀ y, y ∈ m'.iter ↔ y ∈ m.iter ∧ y ≠ e := by
  have hs := hm.wf.sep
  have hne := hs.ne e he
  obtain ⟨m', h1, h2, -⟩ := C02_remove_pointwise hm hne
  refine ⟨m', h1, h2, fun y => ?_⟩
  rw [C51_remove_entries hm h1]
  constructor
  · rintro ⟨x, hx, h3⟩
    have hxe := hs.ne x hx
    cases h3 with
    | keep h3 =>
      refine ⟨hx, ?_⟩
      rintro rfl
      rw [common_iff hne hxe] at h3
      exact h3 (by unfold Ovl; grind)
    | left h3 h4 =>
      rw [common_iff hne hxe] at h3
      have := hs.tri x hx e he
      unfold Ovl at h3
      grind
    | right h3 h4 =>
      rw [common_iff hne hxe] at h3
      have := hs.tri x hx e he
      unfold Ovl at h3
      grind
  · rintro ⟨hy, h3⟩
    refine ⟨y, hy, .keep ?_⟩
    rw [common_iff hne (hs.ne y hy)]
    have := hs.tri y hy e he
    unfold Ovl
    grind

theorem removeAll_stored : ∀ {l : List (Range K × V)} {m : RangeMap K V}, Reachable m →
    (∀ e ∈ l, e ∈ m.iter) → l.Nodup →
    ∃ m', RemoveAll m (l.map (·.1)) m' ∧ Reachable m' ∧ ∀ y, y ∈ m'.iter ↔ y ∈ m.iter ∧ y ∉ l := by
  intro l
  induction l with
  | nil => intro m hm _ _; exact ⟨m, .nil, hm, by simp⟩
  | cons e t ih =>
    intro m hm h hn
    rw [List.nodup_cons] at hn
    obtain ⟨m₁, h1, h2, h3⟩ := remove_stored hm (h e (by simp))
    obtain ⟨m', h4, h5, h6⟩ := ih h2 (fun x hx => (h3 x).2 ⟨h x (by simp [hx]), by
      rintro rfl; exact hn.1 hx⟩) hn.2
    refine ⟨m', .cons h1 h4, h5, fun y => ?_⟩
    rw [h6, h3, List.mem_cons, not_or]
    exact and_assoc

/-- **C78** Removing each of the ranges that overlap `q` leaves exactly the entries that do not. -/
theorem C78_drop_overlapping {m : RangeMap K V} (hm : Reachable m) (q : Range K) :
    ∃ o l m', m.overlapping q = .ok o ∧ Yields Overlapping.next o l ∧
      RemoveAll m (l.map (·.1)) m' ∧ Reachable m' ∧
      m'.iter = m.iter.filter fun e =>
        !(decide (q.start < e.1.stop) && decide (e.1.start < q.stop)) := by
  obtain ⟨o, h1, h2⟩ := C13_overlapping_exact hm q
  have hs := hm.wf.sep
  have hnd : m.iter.Nodup := hs.pw.imp_of_mem fun {a b} ha hb hab => by
    rintro rfl
    have := hab.1
    grind
  obtain ⟨m', h3, h4, h5⟩ := removeAll_stored hm (fun e he => (List.mem_filter.1 he).1)
    (hnd.filter fun e => decide (q.start < e.1.stop) && decide (e.1.start < q.stop))
  refine ⟨o, _, m', h1, h2, h3, h4, ?_⟩
  refine sep_ext h4.wf.sep ⟨hs.pw.filter _, fun e he => hs.ne e (List.mem_filter.1 he).1⟩ fun y => ?_
  refine (h5 y).trans ?_
  rw [List.mem_filter, List.mem_filter, Bool.not_eq_true', Bool.eq_false_iff, not_and]
  exact ⟨fun h => ⟨h.1, h.2 h.1⟩, fun h => ⟨h.1, fun _ => h.2⟩⟩

-- the four programs on the demo map
example : (Demo.map.extend [(⟨3, 5⟩, 'z'), (⟨15, 20⟩, 'z'), (⟨40, 50⟩, 'z')]).1.iter =
    [(⟨0, 3⟩, 'a'), (⟨3, 5⟩, 'z'), (⟨5, 15⟩, 'a'), (⟨15, 20⟩, 'z'), (⟨20, 25⟩, 'b'), (⟨25, 40⟩, 'c'),
      (⟨40, 50⟩, 'z')] := by rfl
example : Demo.map.iter = [(⟨0, 3⟩, 'a'), (⟨5, 15⟩, 'a'), (⟨20, 25⟩, 'b'), (⟨25, 40⟩, 'c')] ∧
    Reachable Demo.map := ⟨by rfl, Demo.map_reachable⟩
-- every 'a' in 2..22 becomes 'b', coalescing with what follows
example : (Demo.map.extend [(⟨2, 3⟩, 'b'), (⟨5, 15⟩, 'b'), (⟨20, 22⟩, 'c')]).1.iter =
    [(⟨0, 2⟩, 'a'), (⟨2, 3⟩, 'b'), (⟨5, 15⟩, 'b'), (⟨20, 22⟩, 'c'), (⟨22, 25⟩, 'b'),
      (⟨25, 40⟩, 'c')] := by rfl

end Verif.Props

namespace Verif.Props.Inclusive
open Spec RangeInclusiveMap
variable {K : Type} [LE K] [LT K] [DecidableLE K] [DecidableLT K]
  [Std.IsLinearPreorder K] [Std.LawfulOrderLT K] {V : Type} [BEq V] [PartialEquivBEq V]
  {S : StepFns K}

theorem icovers_eq (r : RangeInclusive K) (k : K) :
    icovers r k = true ↔ r.start ≤ k ∧ k ≤ r.stop := by
  simp [icovers]

/-- C31 in one statement. -/
theorem gaps_facts (hS : LawfulSteps S) {m : RangeInclusiveMap K V} (hm : Reachable S m)
    (outer : RangeInclusive K) :
    ∃ g l, m.gaps outer = .ok g ∧ YieldsE (Gaps.next S) g l ∧
      (∀ k, (∃ r ∈ l, r.start ≤ k ∧ k ≤ r.stop) ↔
        outer.start ≤ k ∧ k ≤ outer.stop ∧ m.get k = .ok none) ∧
      ∀ r ∈ l, r.start ≤ r.stop ∧ r.exhausted = false := by
  obtain ⟨g, l, h1, h2, h3⟩ := C31_gaps_exact hS hm outer
  obtain ⟨g', l', i1, i2, i3, -⟩ := C31_gaps_ordered hS hm.any outer
  rw [h1] at i1
  cases i1
  rw [YieldsE.unique i2 h2] at i3
  exact ⟨g, l, h1, h2, h3, fun r hr => ⟨(i3 r hr).1, (i3 r hr).2.1⟩⟩

/-- **C78** Inserting `v` over each of the gaps in `outer`: what was mapped stays as it was (up to
`==`), the rest of `outer` is mapped to `v`, nothing else changes, and no gap is left. -/
theorem C78_fill_gaps (hS : LawfulSteps S) {m : RangeInclusiveMap K V} (hm : Reachable S m)
    (outer : RangeInclusive K) (v : V) :
    ∃ g l m', m.gaps outer = .ok g ∧ YieldsE (Gaps.next S) g l ∧
      m.extend S (l.map fun x => (x, v)) = (m', .ok ()) ∧ Reachable S m' ∧
      (∀ k, ∃ o o', m.get k = .ok o ∧ m'.get k = .ok o' ∧
        Agree o' (o.or (if outer.start ≤ k ∧ k ≤ outer.stop then some v else none))) ∧
      ∃ g', m'.gaps outer = .ok g' ∧ YieldsE (Gaps.next S) g' [] := by
  obtain ⟨g, l, h1, h2, h3, h4⟩ := gaps_facts hS hm outer
  have hv : ∀ e ∈ l.map (fun x => (x, v)), e.1.start ≤ e.1.stop := by
    intro e he
    obtain ⟨x, hx, rfl⟩ := List.mem_map.1 he
    exact (h4 x hx).1
  have hx : ∀ e ∈ l.map (fun x => (x, v)), e.1.exhausted = false := by
    intro e he
    obtain ⟨x, hx, rfl⟩ := List.mem_map.1 he
    exact (h4 x hx).2
  have hm' : Reachable S (m.extend S (l.map fun x => (x, v))).1 := hm.apply (.extend _) (by
    intro r hr
    obtain ⟨e, he, rfl⟩ := List.mem_map.1 hr
    exact hx e he)
  have hget : ∀ k, ∃ o o', m.get k = .ok o ∧
      (m.extend S (l.map fun x => (x, v))).1.get k = .ok o' ∧
        Agree o' (o.or (if outer.start ≤ k ∧ k ≤ outer.stop then some v else none)) := by
    intro k
    obtain ⟨-, o', o, i1, i2, i3⟩ := C19_extend_last_wins hS hm _ hv hx k
    refine ⟨o, o', i2, i1, ?_⟩
    cases hf : (l.map fun x => (x, v)).reverse.find? (fun e => icovers e.1 k) with
    | some e =>
      rw [hf] at i3
      have he := List.mem_reverse.1 (List.mem_of_find?_eq_some hf)
      obtain ⟨x, hx, rfl⟩ := List.mem_map.1 he
      have hc := (icovers_eq x k).1 (by simpa using List.find?_some hf)
      obtain ⟨j1, j2, j3⟩ := (h3 k).1 ⟨x, hx, hc⟩
      rw [i2] at j3
      cases j3
      rw [if_pos ⟨j1, j2⟩]
      exact i3
    | none =>
      rw [hf] at i3
      have i3 : Agree o' o := i3
      cases o with
      | some w => exact i3
      | none =>
        rw [if_neg]
        · exact i3
        · intro hk
          obtain ⟨x, hx, hc⟩ := (h3 k).2 ⟨hk.1, hk.2, i2⟩
          have := List.find?_eq_none.1 hf (x, v) (by
            rw [List.mem_reverse]
            exact List.mem_map.2 ⟨x, hx, rfl⟩)
          exact this ((icovers_eq x k).2 hc)
  refine ⟨g, l, _, h1, h2, ?_, hm', hget, ?_⟩
  · obtain ⟨i1, -⟩ := C19_extend_last_wins hS hm _ hv hx outer.start
    rw [← i1]
  · obtain ⟨g', l', j1, j2, j3, j4⟩ := gaps_facts hS hm' outer
    have : l' = [] := by
      rw [List.eq_nil_iff_forall_not_mem]
      intro x hx
      have h5 := j4 x hx
      obtain ⟨k1, k2, k3⟩ := (j3 x.start).1 ⟨x, hx, Std.le_refl _, h5.1⟩
      obtain ⟨o, o', i1, i2, i3⟩ := hget x.start
      rw [k3] at i2
      cases i2
      rw [if_pos ⟨k1, k2⟩] at i3
      cases o <;> simp [Agree] at i3
    exact ⟨g', j1, this ▸ j2⟩

example := Inclusive.C78_fill_gaps (K := UIntW 8) (V := Char) (S := Demo.u8) Demo.u8_lawful
    (m := Demo.imap) Demo.imap_reachable (Demo.by8 2 22) 'q'

/-- **C78** Putting `items` under `m`: a key that `m` maps keeps its value, any other key gets the
value of the first pair that covers it. -/
theorem C78_underlay (hS : LawfulSteps S) : ∀ (items : List (RangeInclusive K × V))
    {m : RangeInclusiveMap K V}, Reachable S m →
    ∃ m', IUnderlay S m items m' ∧ Reachable S m' ∧
      ∀ k, ∃ o o', m.get k = .ok o ∧ m'.get k = .ok o' ∧
        Agree o' (o.or ((items.find? fun e => icovers e.1 k).map (·.2))) := by
  intro items
  induction items with
  | nil =>
    intro m hm
    have hw := hm.wf hS
    refine ⟨m, .nil, hm, fun k => ⟨_, _, get_look hw k, get_look hw k, ?_⟩⟩
    simpa using RangeMap.Agree.refl _
  | cons e t ih =>
    intro m hm
    obtain ⟨g, l, m', h1, h2, h3, h4, h5, -⟩ := C78_fill_gaps hS hm e.1 e.2
    obtain ⟨m'', h6, h7, h8⟩ := ih h4
    refine ⟨m'', .cons h1 h2 h3 h6, h7, fun k => ?_⟩
    obtain ⟨o, o', i1, i2, i3⟩ := h5 k
    obtain ⟨p, p', j1, j2, j3⟩ := h8 k
    rw [i2] at j1
    cases j1
    refine ⟨o, p', i1, j2, RangeMap.Agree.trans j3 ?_⟩
    rw [List.find?_cons]
    by_cases hc : e.1.start ≤ k ∧ k ≤ e.1.stop
    · rw [(icovers_eq e.1 k).2 hc]
      rw [if_pos hc] at i3
      cases o <;> cases o' <;> simp_all [Agree]
    · rw [Bool.eq_false_iff.2 (fun h => hc ((icovers_eq e.1 k).1 h))]
      rw [if_neg hc] at i3
      cases o <;> cases o' <;> simp_all [Agree]
      exact RangeMap.Agree.refl _

example := Inclusive.C78_underlay (K := UIntW 8) (V := Char) (S := Demo.u8) Demo.u8_lawful
    Demo.iitems (m := Demo.imap) Demo.imap_reachable

/-- **C78** Applying `f` to the values in a range: inserting, for each overlapping entry, its part
inside the range with the new value. -/
theorem C78_update (hS : LawfulSteps S) {m : RangeInclusiveMap K V} (hm : Reachable S m)
    {q : RangeInclusive K} (hq : q.start ≤ q.stop) (f : V → V) :
    ∃ o l m', m.overlapping q = .ok o ∧ Yields Overlapping.next o l ∧
      m.extend S (l.map fun e => (.mk' (rmax q.start e.1.start) (rmin q.stop e.1.stop), f e.2)) =
        (m', .ok ()) ∧ Reachable S m' ∧
      ∀ k, ∃ w w', m.get k = .ok w ∧ m'.get k = .ok w' ∧
        Agree w' (if q.start ≤ k ∧ k ≤ q.stop then w.map f else w) := by
  obtain ⟨o, h1, h2⟩ := C32_overlapping_exact hS hm.any q
  have hs := (hm.wf hS).sep
  have hfr := (hm.wf hS).fresh
  have hmem : ∀ e ∈ m.iter.filter
      (fun e => decide (q.start ≤ e.1.stop) && decide (e.1.start ≤ q.stop)),
      e ∈ m.btm ∧ q.start ≤ e.1.stop ∧ e.1.start ≤ q.stop := by
    intro e he
    have := List.mem_filter.1 he
    simp only [Bool.and_eq_true, decide_eq_true_eq] at this
    exact ⟨this.1, this.2⟩
  generalize hl : m.iter.filter
    (fun e => decide (q.start ≤ e.1.stop) && decide (e.1.start ≤ q.stop)) = l at h2 hmem
  generalize hitems : (l.map fun e =>
    (RangeInclusive.mk' (rmax q.start e.1.start) (rmin q.stop e.1.stop), f e.2)) = items
  have hi : ∀ x ∈ items, ∃ e ∈ l, x.2 = f e.2 ∧
      ∀ k, x.1.start ≤ k ∧ k ≤ x.1.stop ↔
        (q.start ≤ k ∧ k ≤ q.stop) ∧ e.1.start ≤ k ∧ k ≤ e.1.stop := by
    intro x hx
    rw [← hitems] at hx
    obtain ⟨e, he, rfl⟩ := List.mem_map.1 hx
    refine ⟨e, he, rfl, fun k => ?_⟩
    show rmax q.start e.1.start ≤ k ∧ k ≤ rmin q.stop e.1.stop ↔ _
    rw [rmax_le, le_rmin]
    grind
  have hv : ∀ x ∈ items, x.1.start ≤ x.1.stop := by
    intro x hx
    rw [← hitems] at hx
    obtain ⟨e, he, rfl⟩ := List.mem_map.1 hx
    obtain ⟨h3, h4, h5⟩ := hmem e he
    have := hs.ne e h3
    show rmax q.start e.1.start ≤ rmin q.stop e.1.stop
    rw [le_rmin, rmax_le, rmax_le]
    grind
  have hx : ∀ x ∈ items, x.1.exhausted = false := by
    intro x hx
    rw [← hitems] at hx
    obtain ⟨e, he, rfl⟩ := List.mem_map.1 hx
    rfl
  refine ⟨o, l, (m.extend S items).1, h1, h2, ?_, hm.apply (.extend items) (by
    intro r hr
    obtain ⟨e, he, rfl⟩ := List.mem_map.1 hr
    exact hx e he), fun k => ?_⟩
  · obtain ⟨i1, -⟩ := C19_extend_last_wins hS hm _ hv hx q.start
    rw [hitems, ← i1]
  obtain ⟨-, w', w, i1, i2, i3⟩ := C19_extend_last_wins hS hm _ hv hx k
  refine ⟨w, w', i2, i1, ?_⟩
  cases hf : items.reverse.find? (fun e => icovers e.1 k) with
  | some x =>
    rw [hf] at i3
    have hx := List.mem_reverse.1 (List.mem_of_find?_eq_some hf)
    have hc := (icovers_eq x.1 k).1 (by simpa using List.find?_some hf)
    obtain ⟨e, he, h3, h4⟩ := hi x hx
    obtain ⟨h5, h6⟩ := (h4 k).1 hc
    rw [(get_eq_some hs hfr k e.2).2 ⟨e, (hmem e he).1, h6.1, h6.2, rfl⟩] at i2
    cases i2
    rw [if_pos h5, Option.map_some, ← h3]
    exact i3
  | none =>
    rw [hf] at i3
    have i3 : Agree w' w := i3
    split
    · rename_i hk
      cases w with
      | none => exact i3
      | some w =>
        obtain ⟨e, he, h3, h4, -⟩ := (get_eq_some hs hfr k w).1 i2
        have hel : e ∈ l := by
          rw [← hl]
          refine List.mem_filter.2 ⟨he, ?_⟩
          simp only [Bool.and_eq_true, decide_eq_true_eq]
          grind
        have := List.find?_eq_none.1 hf _ (List.mem_reverse.2 (hitems ▸ List.mem_map.2 ⟨e, hel, rfl⟩))
        refine absurd ((icovers_eq _ k).2 ?_) this
        show rmax q.start e.1.start ≤ k ∧ k ≤ rmin q.stop e.1.stop
        rw [rmax_le, le_rmin]
        grind
    · exact i3

theorem sep_ext {l l' : List (RangeInclusive K × V)} (h : Sep l) (h' : Sep l')
    (hm : ∀ y, y ∈ l ↔ y ∈ l') : l = l' := by
  have hnd : ∀ {l : List (RangeInclusive K × V)}, Sep l → l.Nodup := fun hl =>
    hl.pw.imp_of_mem fun {a b} ha hb hab => by
      rintro rfl
      have := hab.1
      grind
  exact ((List.perm_ext_iff_of_nodup (hnd h) (hnd h')).2 hm).eq_of_pairwise
    (fun a b _ _ h1 h2 => by exfalso; have := h1.1; have := h2.1; grind) h.pw h'.pw

/-- Removing a stored range removes that entry. -/
theorem remove_stored (hS : LawfulSteps S) {m : RangeInclusiveMap K V} (hm : Reachable S m)
    {e : RangeInclusive K × V} (he : e ∈ m.iter) :
    ∃ m', m.remove S e.1 = .ok m' ∧ Reachable S m' ∧ ∀ y, y ∈ m'.iter ↔ y ∈ m.iter ∧ y ≠ e := by
  have hs := (hm.wf hS).sep
  have hne := hs.ne e he
  obtain ⟨m', h1, h2, -⟩ := C24_remove_pointwise hS hm hne
  refine ⟨m', h1, h2, fun y => ?_⟩
  rw [C51_remove_entries hS hm.any h1]
  constructor
  · rintro ⟨x, hx, h3⟩
    have hxe := hs.ne x hx
    cases h3 with
    | keep h3 =>
      refine ⟨hx, ?_⟩
      rintro rfl
      rw [common_iff hne hxe] at h3
      exact h3 (by unfold Ovl; grind)
    | left h3 h4 =>
      rw [common_iff hne hxe] at h3
      have := hs.tri x hx e he
      unfold Ovl at h3
      grind
    | right h3 h4 =>
      rw [common_iff hne hxe] at h3
      have := hs.tri x hx e he
      unfold Ovl at h3
      grind
  · rintro ⟨hy, h3⟩
    refine ⟨y, hy, .keep ?_⟩
    rw [common_iff hne (hs.ne y hy)]
    have := hs.tri y hy e he
    unfold Ovl
    grind

theorem removeAll_stored (hS : LawfulSteps S) : ∀ {l : List (RangeInclusive K × V)}
    {m : RangeInclusiveMap K V}, Reachable S m → (∀ e ∈ l, e ∈ m.iter) → l.Nodup →
    ∃ m', IRemoveAll S m (l.map (·.1)) m' ∧ Reachable S m' ∧
      ∀ y, y ∈ m'.iter ↔ y ∈ m.iter ∧ y ∉ l := by
  intro l
  induction l with
  | nil => intro m hm _ _; exact ⟨m, .nil, hm, by simp⟩
  | cons e t ih =>
    intro m hm h hn
    rw [List.nodup_cons] at hn
    obtain ⟨m₁, h1, h2, h3⟩ := remove_stored hS hm (h e (by simp))
    obtain ⟨m', h4, h5, h6⟩ := ih h2 (fun x hx => (h3 x).2 ⟨h x (by simp [hx]), by
      rintro rfl; exact hn.1 hx⟩) hn.2
    refine ⟨m', .cons h1 h4, h5, fun y => ?_⟩
    rw [h6, h3, List.mem_cons, not_or]
    exact and_assoc

/-- **C78** Removing each of the ranges that overlap `q` leaves exactly the entries that do not. -/
theorem C78_drop_overlapping (hS : LawfulSteps S) {m : RangeInclusiveMap K V} (hm : Reachable S m)
    (q : RangeInclusive K) :
    ∃ o l m', m.overlapping q = .ok o ∧ Yields Overlapping.next o l ∧
      IRemoveAll S m (l.map (·.1)) m' ∧ Reachable S m' ∧
      m'.iter = m.iter.filter fun e =>
        !(decide (q.start ≤ e.1.stop) && decide (e.1.start ≤ q.stop)) := by
  obtain ⟨o, h1, h2⟩ := C32_overlapping_exact hS hm.any q
  have hs := (hm.wf hS).sep
  have hnd : m.iter.Nodup := hs.pw.imp_of_mem fun {a b} ha hb hab => by
    rintro rfl
    have := hab.1
    grind
  obtain ⟨m', h3, h4, h5⟩ := removeAll_stored hS hm (fun e he => (List.mem_filter.1 he).1)
    (hnd.filter fun e : RangeInclusive K × V => decide (q.start ≤ e.1.stop) && decide (e.1.start ≤ q.stop))
  refine ⟨o, _, m', h1, h2, h3, h4, ?_⟩
  refine sep_ext (h4.wf hS).sep ⟨hs.pw.filter _, fun e he => hs.ne e (List.mem_filter.1 he).1⟩
    fun y => ?_
  refine (h5 y).trans ?_
  rw [List.mem_filter, List.mem_filter, Bool.not_eq_true', Bool.eq_false_iff, not_and]
  exact ⟨fun h => ⟨h.1, h.2 h.1⟩, fun h => ⟨h.1, fun _ => h.2⟩⟩

example : Reachable Demo.u8 Demo.imap ∧ LawfulSteps Demo.u8 := ⟨Demo.imap_reachable, Demo.u8_lawful⟩
example : ((Demo.imap.extend Demo.u8 [(Demo.by8 3 4, 'z'), (Demo.by8 16 19, 'z')]).1.gaps
    (Demo.by8 0 255)).toOption.bind (fun g => (drainE (Gaps.next Demo.u8) 9 g).toOption) =
      some [] := by rfl


example := C78_update Demo.u8_lawful Demo.imap_reachable (q := Demo.by8 2 22) (by decide) Char.toUpper
example := Props.C78_update Demo.map_reachable (q := ⟨2, 22⟩) (by decide) Char.toUpper

end Verif.Props.Inclusive

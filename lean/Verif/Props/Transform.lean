import Verif.Props.Demo
import Verif.Props.Counting
import Verif.Props.Minimal
import Verif.Props.PropTests
import Verif.Props.Permute
import Verif.Props.Recipes

/-!
# C100: maps made from the entries of maps

What users of the crate write because there is no method for it: apply a function to all values, keep
some of the entries, the set of the keys that have a value, or a given value, and two maps joined into
one with pairs for values.
-/
set_option linter.unusedSectionVars false

namespace Verif.Spec
variable {K V W : Type} [LE K] [LT K] [DecidableLE K] [DecidableLT K]

/-- the common part of two ranges -/
def common (r s : Range K) : Range K := ⟨rmax r.start s.start, rmin r.stop s.stop⟩

/-- both values -/
def both : Option V → Option W → Option (V × W)
  | some v, some w => some (v, w)
  | _, _ => none

/-- What is collected by
```
for (r, v) in a.iter() {
    for (s, w) in b.overlapping(r) {
        out.push((max(r.start, s.start)..min(r.end, s.end), (v, w)));
    }
}
```
if `b.overlapping` of the range of `e` yields `rows e`. -/
def joined (a : List (Range K × V)) (rows : Range K × V → List (Range K × W)) :
    List (Range K × (V × W)) :=
  a.flatMap fun e => (rows e).map fun f => (common e.1 f.1, (e.2, f.2))

end Verif.Spec

namespace Verif.Props
open Spec RangeMap
variable {K : Type} [LE K] [LT K] [DecidableLE K] [DecidableLT K]
  [Std.IsLinearPreorder K] [Std.LawfulOrderLT K] {V W : Type} [BEq V] [PartialEquivBEq V]
  [BEq W] [PartialEquivBEq W]

/-- A well-formed list is collected into the map that has exactly these entries. -/
theorem collect_wf {l : List (Range K × V)} (h : WF l) :
    fromIter l = .ok (⟨l⟩ : RangeMap K V) ∧ Reachable (⟨l⟩ : RangeMap K V) :=
  ⟨fromIter_iter (m := ⟨l⟩) (WF.reachable h), WF.reachable h⟩

/-- Collecting non-empty ranges of which no two share a key. -/
theorem collect_sep {l : List (Range K × V)} (h : Sep l) :
    ∃ m, fromIter l = .ok m ∧ Reachable m ∧
      ∀ k, Agree (m.look k) ((⟨l⟩ : RangeMap K V).look k) := by
  have hv : ∀ e ∈ l, e.1.start < e.1.stop := h.ne
  have hr : Reachable ((new : RangeMap K V).extend l).1 := Reachable.new.apply (.extend l)
  refine ⟨((new : RangeMap K V).extend l).1, ?_, hr, fun k => ?_⟩
  · rcases extend_ok_iff (Reachable.new (K := K) (V := V)).wf l with h1 | ⟨-, e, he, h1⟩
    · simp [fromIter, h1, Except.map]
    · have := hv e he
      grind
  · obtain ⟨-, o, o', i1, i2, i3⟩ := C19_extend_last_wins (Reachable.new (K := K) (V := V)) l hv k
    rw [get_look hr.wf.sep] at i1
    cases i1
    cases i2
    cases hf : l.reverse.find? (fun e => covers e.1 k) with
    | some e =>
      rw [hf] at i3
      have he := List.mem_reverse.1 (List.mem_of_find?_eq_some hf)
      have hc := (covers_eq e.1 k).1 (by simpa using List.find?_some hf)
      rw [(look_eq_some (m := ⟨l⟩) h k e.2).2 ⟨e, he, hc.1, hc.2, rfl⟩]
      exact i3
    | none =>
      rw [hf] at i3
      rw [(look_eq_none (m := ⟨l⟩) h k).2]
      · exact i3
      · rintro w ⟨e, he, h3, h4, -⟩
        exact absurd ((covers_eq e.1 k).2 ⟨h3, h4⟩)
          (List.find?_eq_none.1 hf e (List.mem_reverse.2 he))

theorem sep_mapValues {l : List (Range K × V)} (h : Sep l) (f : V → W) :
    Sep (l.map fun e => (e.1, f e.2)) :=
  ⟨List.pairwise_map.2 (h.pw.imp fun h => h), by
    intro e he
    obtain ⟨x, hx, rfl⟩ := List.mem_map.1 he
    exact h.ne x hx⟩

theorem look_mapValues {l : List (Range K × V)} (h : Sep l) (f : V → W) (k : K) :
    (⟨l.map fun e => (e.1, f e.2)⟩ : RangeMap K W).look k = ((⟨l⟩ : RangeMap K V).look k).map f := by
  have hs := sep_mapValues h f
  cases hl : (⟨l⟩ : RangeMap K V).look k with
  | some v =>
    obtain ⟨e, he, h1, h2, rfl⟩ := (look_eq_some (m := ⟨l⟩) h k v).1 hl
    exact (look_eq_some (m := ⟨_⟩) hs k _).2 ⟨_, List.mem_map.2 ⟨e, he, rfl⟩, h1, h2, rfl⟩
  | none =>
    refine (look_eq_none (m := ⟨_⟩) hs k).2 ?_
    rintro w ⟨e, he, h1, h2, -⟩
    obtain ⟨x, hx, rfl⟩ := List.mem_map.1 he
    exact (look_eq_none (m := ⟨l⟩) h k).1 hl x.2 ⟨x, hx, h1, h2, rfl⟩

/-- **C100** `m.iter().map(|(r, v)| (r.clone(), f(v))).collect()` maps every key to `f` of its
value. -/
theorem C100_map_values {m : RangeMap K V} (hm : Reachable m) (f : V → W) :
    ∃ m' : RangeMap K W, fromIter (m.iter.map fun e => (e.1, f e.2)) = .ok m' ∧ Reachable m' ∧
      ∀ k, ∃ o w, m.get k = .ok o ∧ m'.get k = .ok w ∧ Agree w (o.map f) := by
  obtain ⟨m', h1, h2, h3⟩ := collect_sep (sep_mapValues hm.wf.sep f)
  refine ⟨m', h1, h2, fun k => ⟨_, _, get_look hm.wf.sep k, get_look h2.wf.sep k, ?_⟩⟩
  have := h3 k
  rwa [look_mapValues hm.wf.sep] at this

example := C100_map_values (K := Nat) (V := Char) (m := Demo.map) Demo.map_reachable (W := Bool)
    (· == 'a')
example := C100_map_values (m := Demo.oddMap) Demo.oddMap_reachable (W := Bool) (· == .num 3)

/-- **C100** This changes the value of each entry and nothing else exactly if no two entries that touch
get values that are equal. -/
theorem C100_map_values_exact {m : RangeMap K V} {m' : RangeMap K W} (hm : Reachable m) (f : V → W)
    (h : fromIter (m.iter.map fun e => (e.1, f e.2)) = .ok m') :
    (m'.iter = m.iter.map fun e => (e.1, f e.2)) ↔
      ∀ x ∈ m.iter, ∀ y ∈ m.iter, keq x.1.stop y.1.start = true → (f x.2 == f y.2) = false := by
  constructor
  · intro h' x hx y hy hk
    obtain ⟨m'', h1, h2, -⟩ := C100_map_values hm f
    rw [h] at h1
    cases h1
    have hk := keq_iff.1 hk
    have hmem : ∀ x ∈ m.iter, (x.1, f x.2) ∈ m'.btm := fun x hx => by
      rw [show m'.btm = _ from h']
      exact List.mem_map.2 ⟨x, hx, rfl⟩
    exact h2.wf.coal _ (hmem x hx) _ (hmem y hy) hk.1 hk.2
  · intro hc
    have hw : WF (m.iter.map fun e => (e.1, f e.2)) := by
      refine ⟨sep_mapValues hm.wf.sep f, fun a ha b hb h1 h2 => ?_⟩
      obtain ⟨x, hx, rfl⟩ := List.mem_map.1 ha
      obtain ⟨y, hy, rfl⟩ := List.mem_map.1 hb
      exact hc x hx y hy (keq_iff.2 ⟨h1, h2⟩)
    rw [(collect_wf hw).1] at h
    cases h
    rfl

/-- `b` and `c` touch, `a` and `a` do not. -/
example : ∃ m', fromIter (Demo.map.iter.map fun e => (e.1, e.2 == 'b')) = .ok m' ∧
    m'.iter = Demo.map.iter.map fun e => (e.1, e.2 == 'b') :=
  have ⟨m', h1, _⟩ := C100_map_values (K := Nat) Demo.map_reachable (W := Bool) (· == 'b')
  ⟨m', h1, (C100_map_values_exact Demo.map_reachable _ h1).2 (by decide)⟩

/-- **C100** So it does if `f` takes no two values that differ to values that are equal. -/
theorem C100_map_values_injective {m : RangeMap K V} (hm : Reachable m) (f : V → W)
    (hf : ∀ v w, (f v == f w) = true → (v == w) = true) :
    ∃ m' : RangeMap K W, fromIter (m.iter.map fun e => (e.1, f e.2)) = .ok m' ∧ Reachable m' ∧
      m'.iter = m.iter.map fun e => (e.1, f e.2) := by
  obtain ⟨m', h1, h2, -⟩ := C100_map_values hm f
  refine ⟨m', h1, h2, (C100_map_values_exact hm f h1).2 fun x hx y hy hk => ?_⟩
  have hk := keq_iff.1 hk
  have := hm.wf.coal x hx y hy hk.1 hk.2
  cases h : f x.2 == f y.2 with
  | false => rfl
  | true => rw [hf _ _ h] at this; cases this

example := C100_map_values_injective (K := Nat) (V := Char) (m := Demo.map) Demo.map_reachable
    (W := Nat) Char.toNat (fun v w h => by
      have : v.toNat = w.toNat := by simpa using h
      have := Char.toNat_inj.1 this
      simpa using this)

/-- **C100** In any case it leaves at most as many entries as there were. -/
theorem C100_map_values_len [ReflBEq W] {m : RangeMap K V} {m' : RangeMap K W} (hm : Reachable m)
    (f : V → W) (h : fromIter (m.iter.map fun e => (e.1, f e.2)) = .ok m') : m'.len ≤ m.len := by
  obtain ⟨m'', h1, h2, h3⟩ := C100_map_values hm f
  rw [h] at h1
  cases h1
  have := C55_fewest h2 (m.iter.map fun e => (e.1, f e.2)) ?_ ?_
  · simpa [RangeMap.len, RangeMap.iter] using this
  · intro e he k hk1 hk2
    obtain ⟨x, hx, rfl⟩ := List.mem_map.1 he
    obtain ⟨o, w, i1, i2, i3⟩ := h3 k
    rw [(get_eq_some hm.wf.sep k x.2).2 ⟨x, hx, hk1, hk2, rfl⟩] at i1
    cases i1
    cases w with
    | none => exact i3.elim
    | some w =>
      refine ⟨w, i2, ?_⟩
      rcases i3 with rfl | i3
      · exact BEq.rfl
      · exact i3
  · intro k v hv
    obtain ⟨o, w, i1, i2, i3⟩ := h3 k
    rw [i2] at hv
    cases hv
    cases o with
    | none => exact i3.elim
    | some u =>
      obtain ⟨x, hx, h4, h5, -⟩ := (get_eq_some hm.wf.sep k u).1 i1
      exact ⟨_, List.mem_map.2 ⟨x, hx, rfl⟩, h4, h5⟩

example := C100_map_values_len (K := Nat) (V := Char) (m := Demo.map) Demo.map_reachable (W := Bool)
    (fun _ => true) rfl

theorem wf_sublist {l l' : List (Range K × V)} (h : WF l) (hs : l'.Sublist l) : WF l' :=
  ⟨⟨h.sep.pw.sublist hs, fun e he => h.sep.ne e (hs.subset he)⟩,
    fun a ha b hb => h.coal a (hs.subset ha) b (hs.subset hb)⟩

/-- **C100** Collecting some of the entries, in the order in which they are stored, gives the map that
has exactly these. -/
theorem C100_some_entries {m : RangeMap K V} (hm : Reachable m) {l : List (Range K × V)}
    (hl : l.Sublist m.iter) :
    ∃ m', fromIter l = .ok m' ∧ Reachable m' ∧ m'.iter = l :=
  ⟨_, (collect_wf (wf_sublist hm.wf hl)).1, (collect_wf (wf_sublist hm.wf hl)).2, rfl⟩

example := C100_some_entries (K := Nat) (V := Char) (m := Demo.map) Demo.map_reachable
    (l := [(⟨5, 15⟩, 'a'), (⟨25, 40⟩, 'c')]) (by decide)

/-- **C100** `m.iter().filter(|(_, v)| p(v))...collect()` keeps the keys whose value `p` accepts. -/
theorem C100_retain {m : RangeMap K V} (hm : Reachable m) (p : V → Bool) :
    ∃ m', fromIter (m.iter.filter fun e => p e.2) = .ok m' ∧ Reachable m' ∧
      m'.iter = m.iter.filter (fun e => p e.2) ∧
      ∀ k, ∃ o, m.get k = .ok o ∧ m'.get k = .ok (o.filter p) := by
  obtain ⟨m', h1, h2, h3⟩ := C100_some_entries hm (List.filter_sublist (p := fun e => p e.2))
  refine ⟨m', h1, h2, h3, fun k => ⟨_, get_look hm.wf.sep k, ?_⟩⟩
  have hm' : ∀ e, e ∈ m'.btm ↔ e ∈ m.btm ∧ p e.2 = true := fun e => by
    rw [show m'.btm = m.btm.filter (fun e => p e.2) from h3, List.mem_filter]
  cases hl : m.look k with
  | none =>
    rw [Option.filter_none, get_eq_none h2.wf.sep]
    rintro w ⟨e, he, h4⟩
    exact (look_eq_none hm.wf.sep k).1 hl w ⟨e, ((hm' e).1 he).1, h4⟩
  | some v =>
    have hv := (look_eq_some hm.wf.sep k v).1 hl
    cases hp : p v with
    | true =>
      rw [Option.filter_some_pos hp, get_eq_some h2.wf.sep]
      obtain ⟨e, he, h4, h5, rfl⟩ := hv
      exact ⟨e, (hm' e).2 ⟨he, hp⟩, h4, h5, rfl⟩
    | false =>
      rw [Option.filter_some_neg (by simp [hp]), get_eq_none h2.wf.sep]
      rintro w ⟨e, he, h4, h5, rfl⟩
      have := Maps.unique hm.wf.sep hv ⟨e, ((hm' e).1 he).1, h4, h5, rfl⟩
      rw [this, ((hm' e).1 he).2] at hp
      cases hp

example := C100_retain (K := Nat) (V := Char) (m := Demo.map) Demo.map_reachable (· != 'b')

/-- **C100** `m.iter().map(|(r, _)| r.clone()).collect::<RangeSet<_>>()` is the set of the keys that
have a value: it contains them, has at most as many ranges, and meets the same ranges. -/
theorem C100_keys {m : RangeMap K V} (hm : Reachable m) :
    ∃ s, RangeSet.fromIter (m.iter.map (·.1)) = .ok s ∧ RangeSet.Reachable s ∧ s.len ≤ m.len ∧
      (∀ k, ∃ x, m.containsKey k = .ok x ∧ s.contains k = .ok x) ∧
      ∀ q, q.start < q.stop → ∃ x, m.overlaps q = .ok x ∧ s.overlaps q = .ok x := by
  obtain ⟨s, h1, h2, h3⟩ := RangeSet.fromIter_has (items := m.iter.map (·.1)) (by
    intro r hr
    obtain ⟨e, he, rfl⟩ := List.mem_map.1 hr
    exact hm.wf.sep.ne e he)
  have h2' : RangeSet.Reachable s := .of_wf h2
  have hc : ∀ k, s.contains k = .ok ((m.iter.map (·.1)).any fun r => covers r k) := fun k => by
    rw [RangeSet.contains_eq h2, h3]
  have hany : ∀ k, m.containsKey k = .ok ((m.iter.map (·.1)).any fun r => covers r k) := fun k => by
    rw [RangeMap.containsKey, get_look hm.wf.sep]
    refine congrArg Except.ok ?_
    rw [Bool.eq_iff_iff, Option.isSome_iff_exists]
    simp only [look_eq_some hm.wf.sep, Maps, List.any_map, List.any_eq_true, Function.comp_apply,
      covers, decide_eq_true_eq]
    constructor
    · rintro ⟨v, e, he, h4, h5, -⟩
      exact ⟨e, he, h4, h5⟩
    · rintro ⟨e, he, h4, h5⟩
      exact ⟨_, e, he, h4, h5, rfl⟩
  refine ⟨s, h1, h2', ?_, fun k => ⟨_, hany k, hc k⟩, fun q hq => ?_⟩
  · have := C55_set_fewest h2' _ hc
    simpa [RangeMap.len, RangeMap.iter] using this
  · obtain ⟨x, i1, i2⟩ := C13_overlaps hm q
    obtain ⟨-, -, -, y, i3, i4⟩ := C48_overlapping h2' q []
    refine ⟨x, i1, ?_⟩
    rw [i3]
    refine congrArg Except.ok ?_
    rw [Bool.eq_iff_iff, i2, i4]
    have hkeys : ∀ k, (∃ r ∈ s.iter, r.start ≤ k ∧ k < r.stop) ↔
        ∃ e ∈ m.iter, e.1.start ≤ k ∧ k < e.1.stop := by
      intro k
      rw [← RangeSet.has_iff, h3]
      simp [covers]
    have hne := ((RangeSet.reachable_iff s).1 h2').1
    have hme := hm.wf.sep.ne
    constructor
    · rintro ⟨r, hr, h5, h6⟩
      have := hne r hr
      rcases Std.le_total (a := q.start) (b := r.start) with h7 | h7
      · obtain ⟨e, he, h8, h9⟩ := (hkeys r.start).1 ⟨r, hr, by grind, by grind⟩
        exact ⟨e, he, by grind, by grind⟩
      · obtain ⟨e, he, h8, h9⟩ := (hkeys q.start).1 ⟨r, hr, by grind, by grind⟩
        exact ⟨e, he, by grind, by grind⟩
    · rintro ⟨e, he, h5, h6⟩
      have := hme e he
      rcases Std.le_total (a := q.start) (b := e.1.start) with h7 | h7
      · obtain ⟨r, hr, h8, h9⟩ := (hkeys e.1.start).2 ⟨e, he, by grind, by grind⟩
        exact ⟨r, hr, by grind, by grind⟩
      · obtain ⟨r, hr, h8, h9⟩ := (hkeys q.start).2 ⟨e, he, by grind, by grind⟩
        exact ⟨r, hr, by grind, by grind⟩

example := C100_keys (K := Nat) (V := Char) (m := Demo.map) Demo.map_reachable

/-- `b` and `c` touch, so there are fewer ranges. -/
example : (RangeSet.fromIter (Demo.map.iter.map (·.1))).toOption.map (·.iter) =
    some [⟨0, 3⟩, ⟨5, 15⟩, ⟨20, 40⟩] := by rfl

/-- Separated ranges are determined by the keys in them. -/
theorem separated_unique (hk : ∀ a b : K, a ≤ b → b ≤ a → a = b) {l l' : List (Range K)}
    (hl : ∀ r ∈ l, r.start < r.stop) (hp : l.Pairwise fun a b => a.stop < b.start)
    (hl' : ∀ r ∈ l', r.start < r.stop) (hp' : l'.Pairwise fun a b => a.stop < b.start)
    (h : ∀ k, (∃ r ∈ l, r.start ≤ k ∧ k < r.stop) ↔ ∃ r ∈ l', r.start ≤ k ∧ k < r.stop) :
    l = l' := by
  obtain ⟨s, h1, h2, rfl⟩ := RangeSet.fromIter_exact hl hp
  obtain ⟨s', h1', h2', rfl⟩ := RangeSet.fromIter_exact hl' hp'
  have : s.eq s' = true := (RangeSet.eq_iff_has h2 h2').2 fun k => by
    rw [Bool.eq_iff_iff, RangeSet.has_iff, RangeSet.has_iff]
    exact h k
  exact congrArg (List.map (·.1)) (iterEq_eq_of_lawful hk this)

/-- **C100** That set has the same gaps as the map. -/
theorem C100_keys_gaps (hk : ∀ a b : K, a ≤ b → b ≤ a → a = b) {m : RangeMap K V} (hm : Reachable m)
    {s : RangeSet K} (h : RangeSet.fromIter (m.iter.map (·.1)) = .ok s) (outer : Range K) :
    ∃ g g' l, m.gaps outer = .ok g ∧ Yields Gaps.next g l ∧ s.gaps outer = .ok g' ∧
      Yields RangeSet.Gaps.next g' l := by
  obtain ⟨s', h1, h2, -, h3, -⟩ := C100_keys hm
  rw [h] at h1
  cases h1
  obtain ⟨g, l, i1, i2, i3, i4, i5, -⟩ := gaps_yields_list hm outer
  obtain ⟨g', l', j1, j2, j3, j4, j5⟩ := C48_gaps h2 outer
  refine ⟨g, g', l, i1, i2, j1, ?_⟩
  rw [separated_unique hk (fun r hr => (i4 r hr).1) (i5.imp fun h => h.1) (fun r hr => (j3 r hr).1) j4
    fun k => ?_]
  · exact j2
  · rw [i3, j5]
    obtain ⟨x, k1, k2⟩ := h3 k
    rw [k2]
    rw [RangeMap.containsKey, get_look hm.wf.sep] at k1
    rw [get_look hm.wf.sep]
    cases hx : m.look k <;> rw [hx] at k1 <;> cases k1 <;> simp

example := C100_keys_gaps (K := Nat) (V := Char) (fun _ _ => Nat.le_antisymm) (m := Demo.map)
    Demo.map_reachable rfl ⟨1, 50⟩

/-- **C100** `m.iter().filter(|(_, w)| *w == v).map(|(r, _)| r.clone()).collect::<RangeSet<_>>()` is
the set of the keys whose value is `v`, and has exactly the ranges that have this value in the map. -/
theorem C100_keys_of {m : RangeMap K V} (hm : Reachable m) (v : V) :
    ∃ s, RangeSet.fromIter ((m.iter.filter fun e => e.2 == v).map (·.1)) = .ok s ∧
      RangeSet.Reachable s ∧ s.iter = (m.iter.filter fun e => e.2 == v).map (·.1) ∧
      ∀ k, ∃ o, m.get k = .ok o ∧ s.contains k = .ok (o.any (· == v)) := by
  obtain ⟨m', h1, h2, h3, h4⟩ := C100_retain hm (fun w => w == v)
  have hs := h2.wf.sep
  have hv' : ∀ e ∈ m'.btm, (e.2 == v) = true := by
    intro e he
    rw [show m'.btm = _ from h3] at he
    exact (List.mem_filter.1 he).2
  obtain ⟨s, i1, i2, i3⟩ := RangeSet.fromIter_exact (items := m'.iter.map (·.1)) (by
      intro r hr
      obtain ⟨e, he, rfl⟩ := List.mem_map.1 hr
      exact hs.ne e he) (by
      rw [List.pairwise_map]
      refine (List.Pairwise.imp_of_mem (fun {a b} ha hb h => ?_) hs.pw)
      apply Classical.byContradiction
      intro hn
      have := h2.wf.coal a ha b hb h.2 (by grind)
      rw [PartialEquivBEq.trans (hv' a ha) (PartialEquivBEq.symm (hv' b hb))] at this
      cases this)
  rw [h3] at i1 i3
  refine ⟨s, i1, .of_wf i2, i3, fun k => ?_⟩
  obtain ⟨o, j1, j2⟩ := h4 k
  refine ⟨o, j1, ?_⟩
  rw [RangeSet.contains_eq i2]
  refine congrArg Except.ok ?_
  rw [Bool.eq_iff_iff, RangeSet.has_iff, i3, ← h3]
  constructor
  · rintro ⟨r, hr, h5, h6⟩
    obtain ⟨e, he, rfl⟩ := List.mem_map.1 hr
    rw [(get_eq_some hs k e.2).2 ⟨e, he, h5, h6, rfl⟩] at j2
    cases o with
    | none => cases j2
    | some w =>
      cases hw : w == v with
      | true => simpa using hw
      | false => rw [Option.filter_some_neg (p := fun w => w == v) (by simp [hw])] at j2; cases j2
  · intro h
    cases o with
    | none => cases h
    | some w =>
      have hw : (w == v) = true := by simpa using h
      rw [Option.filter_some_pos (p := fun w => w == v) hw] at j2
      obtain ⟨e, he, h5, h6, -⟩ := (get_eq_some hs k w).1 j2
      exact ⟨e.1, List.mem_map.2 ⟨e, he, rfl⟩, h5, h6⟩

example := C100_keys_of (K := Nat) (V := Char) (m := Demo.map) Demo.map_reachable 'a'

/-! ### two maps joined -/

theorem pair_beq (x y : V × W) : (x == y) = (x.1 == y.1 && x.2 == y.2) := rfl

instance : PartialEquivBEq (V × W) where
  symm {a b} h := by
    rw [pair_beq, Bool.and_eq_true] at *
    exact ⟨PartialEquivBEq.symm h.1, PartialEquivBEq.symm h.2⟩
  trans {a b c} h h' := by
    rw [pair_beq, Bool.and_eq_true] at *
    exact ⟨PartialEquivBEq.trans h.1 h'.1, PartialEquivBEq.trans h.2 h'.2⟩

theorem in_common {r s : Range K} {k : K} : (common r s).start ≤ k ∧ k < (common r s).stop ↔
    (r.start ≤ k ∧ k < r.stop) ∧ s.start ≤ k ∧ k < s.stop := by
  show rmax r.start s.start ≤ k ∧ k < rmin r.stop s.stop ↔ _
  rw [rmax_le, lt_rmin]
  grind

theorem mem_joined {a : List (Range K × V)} {rows : Range K × V → List (Range K × W)}
    {x : Range K × (V × W)} : x ∈ joined a rows ↔
      ∃ e ∈ a, ∃ f ∈ rows e, (common e.1 f.1, (e.2, f.2)) = x := by
  simp only [joined, List.mem_flatMap, List.mem_map]

/-- what `overlapping` yields -/
def rowsOf (b : List (Range K × W)) (e : Range K × V) : List (Range K × W) :=
  b.filter fun f => decide (e.1.start < f.1.stop) && decide (f.1.start < e.1.stop)

theorem mem_rowsOf {b : List (Range K × W)} {e : Range K × V} {f : Range K × W} :
    f ∈ rowsOf b e ↔ f ∈ b ∧ e.1.start < f.1.stop ∧ f.1.start < e.1.stop := by
  simp [rowsOf]

theorem common_ends {r s : Range K} :
    r.start ≤ (common r s).start ∧ s.start ≤ (common r s).start ∧
    ((common r s).start = r.start ∨ (common r s).start = s.start) ∧
    (common r s).stop ≤ r.stop ∧ (common r s).stop ≤ s.stop ∧
    ((common r s).stop = r.stop ∨ (common r s).stop = s.stop) := by
  simp only [common, rmax, rmin]
  grind

theorem joined_wf {a : RangeMap K V} {b : RangeMap K W} (ha : Reachable a) (hb : Reachable b) :
    WF (joined a.btm (rowsOf b.btm)) := by
  have hsa := ha.wf.sep
  have hsb := hb.wf.sep
  refine ⟨⟨?_, ?_⟩, ?_⟩
  · rw [joined, List.pairwise_flatMap]
    constructor
    · intro e he
      rw [List.pairwise_map]
      refine List.Pairwise.imp_of_mem (fun {f g} hf hg h => ?_)
        (hsb.pw.sublist (List.filter_sublist (p := _)))
      have h1 := mem_rowsOf.1 hf
      have h2 := mem_rowsOf.1 hg
      have h3 := common_ends (r := e.1) (s := f.1)
      have h4 := common_ends (r := e.1) (s := g.1)
      have h5 := hsa.ne e he
      have h6 := hsb.ne f h1.1
      have h7 := hsb.ne g h2.1
      simp only [Before] at h ⊢
      clear ha hb hsa hsb hf hg
      constructor <;> grind
    · refine List.Pairwise.imp_of_mem (fun {e e'} he he' h => ?_) hsa.pw
      intro x hx y hy
      obtain ⟨f, hf, rfl⟩ := List.mem_map.1 hx
      obtain ⟨g, hg, rfl⟩ := List.mem_map.1 hy
      have h1 := mem_rowsOf.1 hf
      have h2 := mem_rowsOf.1 hg
      have h3 := common_ends (r := e.1) (s := f.1)
      have h4 := common_ends (r := e'.1) (s := g.1)
      have h5 := hsa.ne e he
      have h6 := hsb.ne f h1.1
      have h7 := hsb.ne g h2.1
      simp only [Before] at h ⊢
      clear ha hb hsa hsb hf hg hx hy
      constructor <;> grind
  · intro x hx
    obtain ⟨e, he, f, hf, rfl⟩ := mem_joined.1 hx
    have h1 := mem_rowsOf.1 hf
    have h3 := common_ends (r := e.1) (s := f.1)
    have h5 := hsa.ne e he
    have h6 := hsb.ne f h1.1
    simp only
    clear ha hb hsa hsb hf hx
    grind
  · intro x hx y hy h1 h2
    obtain ⟨e, he, f, hf, rfl⟩ := mem_joined.1 hx
    obtain ⟨e', he', f', hf', rfl⟩ := mem_joined.1 hy
    have i1 := mem_rowsOf.1 hf
    have i2 := mem_rowsOf.1 hf'
    have i3 := common_ends (r := e.1) (s := f.1)
    have i4 := common_ends (r := e'.1) (s := f'.1)
    have i5 := hsa.ne e he
    have i6 := hsb.ne f i1.1
    have i7 := hsa.ne e' he'
    have i8 := hsb.ne f' i2.1
    simp only at h1 h2
    rw [pair_beq]
    -- at the end of the one either the first or the second map has a border
    by_cases hc : e.1.stop ≤ e'.1.start ∧ e'.1.start ≤ e.1.stop
    · rw [ha.wf.coal e he e' he' hc.1 hc.2]
      rfl
    · by_cases hd : f.1.stop ≤ f'.1.start ∧ f'.1.start ≤ f.1.stop
      · rw [hb.wf.coal f i1.1 f' i2.1 hd.1 hd.2, Bool.and_false]
      · exfalso
        have j1 := hsa.tri e he e' he'
        have j2 := hsb.tri f i1.1 f' i2.1
        clear ha hb hsa hsb hf hf' hx hy
        have k1 : (common e.1 f.1).start < (common e.1 f.1).stop := by grind
        have k2 : (common e'.1 f'.1).start < (common e'.1 f'.1).stop := by grind
        have j1 : e = e' := by
          rcases j1 with j1 | j1 | j1
          · exact j1
          · exact absurd (show _ ∧ _ by constructor <;> grind) hc
          · exfalso; grind
        have j2 : f = f' := by
          rcases j2 with j2 | j2 | j2
          · exact j2
          · exact absurd (show _ ∧ _ by constructor <;> grind) hd
          · exfalso; grind
        subst j1 j2
        grind

/-- **C100** Two maps joined, as in `Spec.joined`: a key that has a value in both gets both values, no
other key gets any.  The entries are exactly the common parts of the entries of the two, in the order in
which they are collected, and as many as there are pairs of entries that share a key. -/
theorem C100_join {a : RangeMap K V} {b : RangeMap K W} (ha : Reachable a) (hb : Reachable b) :
    ∃ (rows : Range K × V → List (Range K × W)) (m : RangeMap K (V × W)),
      (∀ e ∈ a.iter, ∃ o, b.overlapping e.1 = .ok o ∧ Yields Overlapping.next o (rows e)) ∧
      fromIter (joined a.iter rows) = .ok m ∧ Reachable m ∧ m.iter = joined a.iter rows ∧
      m.len = pairs (fun e f => shares e.1 f.1) a.iter b.iter ∧
      ∀ k, ∃ v w, a.get k = .ok v ∧ b.get k = .ok w ∧ m.get k = .ok (both v w) := by
  have hw := joined_wf ha hb
  have hsa := ha.wf.sep
  have hsb := hb.wf.sep
  refine ⟨rowsOf b.btm, _, fun e he => C13_overlapping_exact hb e.1, (collect_wf hw).1,
    (collect_wf hw).2, rfl, ?_, fun k => ⟨_, _, get_look hsa k, get_look hsb k, ?_⟩⟩
  · simp only [RangeMap.len, RangeMap.iter, joined, List.length_flatMap, List.length_map, pairs,
      rowsOf, List.countP_eq_length_filter]
    refine sum_map_congr fun e _ => ?_
    congr 2
    funext f
    simp [shares]
  · cases hv : a.look k with
    | none =>
      refine (get_eq_none (m := ⟨_⟩) hw.sep k).2 ?_
      rintro _ ⟨x, hx, h1, h2, -⟩
      obtain ⟨e, he, f, hf, rfl⟩ := mem_joined.1 hx
      have := (in_common.1 ⟨h1, h2⟩).1
      exact (look_eq_none hsa k).1 hv _ ⟨e, he, this.1, this.2, rfl⟩
    | some v =>
      cases hw' : b.look k with
      | none =>
        refine (get_eq_none (m := ⟨_⟩) hw.sep k).2 ?_
        rintro _ ⟨x, hx, h1, h2, -⟩
        obtain ⟨e, he, f, hf, rfl⟩ := mem_joined.1 hx
        have := (in_common.1 ⟨h1, h2⟩).2
        exact (look_eq_none hsb k).1 hw' _ ⟨f, (mem_rowsOf.1 hf).1, this.1, this.2, rfl⟩
      | some w =>
        obtain ⟨e, he, h1, h2, rfl⟩ := (look_eq_some hsa k v).1 hv
        obtain ⟨f, hf, h3, h4, rfl⟩ := (look_eq_some hsb k w).1 hw'
        have hc := in_common.2 ⟨⟨h1, h2⟩, h3, h4⟩
        refine (get_eq_some (m := ⟨_⟩) hw.sep k _).2 ⟨_, mem_joined.2 ⟨e, he, f, mem_rowsOf.2 ⟨hf, ?_, ?_⟩,
          rfl⟩, hc.1, hc.2, rfl⟩
        · clear hc hw; grind
        · clear hc hw; grind

example := C100_join (K := Nat) (V := Char) (W := Char) (a := Demo.map) (b := Demo.map')
    Demo.map_reachable Demo.map'_reachable

example : (fromIter (joined Demo.map.iter (rowsOf Demo.map'.btm))).toOption.map (·.iter) =
    some [(⟨2, 3⟩, ('a', 'x')), (⟨5, 7⟩, ('a', 'x')), (⟨30, 40⟩, ('c', 'y'))] := by rfl

end Verif.Props

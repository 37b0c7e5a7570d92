import Verif.Props.Transform
import Verif.Props.ICounting
import Verif.Props.IPropTests
import Verif.Props.ISet
import Verif.Props.IOverlay
import Verif.Proof.IWeak

/-!
# C100: maps made from the entries of maps (inclusive ranges)
-/
set_option linter.unusedSectionVars false

namespace Verif.Spec
variable {K V W : Type} [LE K] [LT K] [DecidableLE K] [DecidableLT K]

/-- the common part of two ranges -/
def icommon (r s : RangeInclusive K) : RangeInclusive K :=
  .mk' (rmax r.start s.start) (rmin r.stop s.stop)

/-- `joined` for inclusive ranges. -/
def ijoined (a : List (RangeInclusive K × V))
    (rows : RangeInclusive K × V → List (RangeInclusive K × W)) :
    List (RangeInclusive K × (V × W)) :=
  a.flatMap fun e => (rows e).map fun f => (icommon e.1 f.1, (e.2, f.2))

end Verif.Spec

namespace Verif.Props.Inclusive
open Spec RangeInclusiveMap
variable {K : Type} [LE K] [LT K] [DecidableLE K] [DecidableLT K]
  [Std.IsLinearPreorder K] [Std.LawfulOrderLT K] {S : StepFns K} {V W : Type}
  [BEq V] [PartialEquivBEq V] [BEq W] [PartialEquivBEq W]

/-- A well-formed list is collected into the map that has exactly these entries. -/
theorem collect_wf (hS : LawfulSteps S) {l : List (RangeInclusive K × V)} (h : WF l) :
    fromIter S l = .ok (⟨l⟩ : RangeInclusiveMap K V) ∧
      Reachable S (⟨l⟩ : RangeInclusiveMap K V) :=
  ⟨fromIter_iter hS (m := ⟨l⟩) (WF.reachable hS h), WF.reachable hS h⟩

/-- Collecting non-empty ranges of which no two share a key. -/
theorem collect_sep (hS : LawfulSteps S) {l : List (RangeInclusive K × V)} (h : Sep l)
    (hf : Fresh l) :
    ∃ m, fromIter S l = .ok m ∧ Reachable S m ∧
      ∀ k, Agree (m.look k) ((⟨l⟩ : RangeInclusiveMap K V).look k) := by
  have hv : ∀ e ∈ l, e.1.start ≤ e.1.stop := h.ne
  have hr : Reachable S ((new : RangeInclusiveMap K V).extend S l).1 :=
    Reachable.new.apply (.extend l) (by
      intro r hr
      obtain ⟨e, he, rfl⟩ := List.mem_map.1 hr
      exact hf e he)
  refine ⟨((new : RangeInclusiveMap K V).extend S l).1, ?_, hr, fun k => ?_⟩
  · rcases extend_ok_iff hS (Reachable.new (S := S) (K := K) (V := V) |>.wf hS).sc l
      with h1 | ⟨-, e, he, h1⟩
    · simp [fromIter, h1, Except.map]
    · have := hv e he
      grind
  · obtain ⟨-, o, o', i1, i2, i3⟩ :=
      C19_extend_last_wins hS (Reachable.new (S := S) (K := K) (V := V)) l hv hf k
    rw [get_look (hr.wf hS)] at i1
    cases i1
    cases i2
    cases hf' : l.reverse.find? (fun e => icovers e.1 k) with
    | some e =>
      rw [hf'] at i3
      have he := List.mem_reverse.1 (List.mem_of_find?_eq_some hf')
      have hc := (icovers_eq e.1 k).1 (by simpa using List.find?_some hf')
      rw [(Weak.look_eq_some (m := ⟨l⟩) h hf k e.2).2 ⟨e, he, hc.1, hc.2, rfl⟩]
      exact i3
    | none =>
      rw [hf'] at i3
      rw [(Weak.look_eq_none (m := ⟨l⟩) h hf k).2]
      · exact i3
      · rintro w ⟨e, he, h3, h4, -⟩
        exact absurd ((icovers_eq e.1 k).2 ⟨h3, h4⟩)
          (List.find?_eq_none.1 hf' e (List.mem_reverse.2 he))

theorem sep_mapValues {l : List (RangeInclusive K × V)} (h : Sep l) (f : V → W) :
    Sep (l.map fun e => (e.1, f e.2)) :=
  ⟨List.pairwise_map.2 (h.pw.imp fun h => h), by
    intro e he
    obtain ⟨x, hx, rfl⟩ := List.mem_map.1 he
    exact h.ne x hx⟩

theorem fresh_mapValues {l : List (RangeInclusive K × V)} (h : Fresh l) (f : V → W) :
    Fresh (l.map fun e => (e.1, f e.2)) := by
  intro e he
  obtain ⟨x, hx, rfl⟩ := List.mem_map.1 he
  exact h x hx

theorem look_mapValues {l : List (RangeInclusive K × V)} (h : Sep l) (hf : Fresh l) (f : V → W)
    (k : K) : (⟨l.map fun e => (e.1, f e.2)⟩ : RangeInclusiveMap K W).look k =
      ((⟨l⟩ : RangeInclusiveMap K V).look k).map f := by
  have hs := sep_mapValues h f
  have hf' := fresh_mapValues hf f
  cases hl : (⟨l⟩ : RangeInclusiveMap K V).look k with
  | some v =>
    obtain ⟨e, he, h1, h2, rfl⟩ := (Weak.look_eq_some (m := ⟨l⟩) h hf k v).1 hl
    exact (Weak.look_eq_some (m := ⟨_⟩) hs hf' k _).2
      ⟨_, List.mem_map.2 ⟨e, he, rfl⟩, h1, h2, rfl⟩
  | none =>
    refine (Weak.look_eq_none (m := ⟨_⟩) hs hf' k).2 ?_
    rintro w ⟨e, he, h1, h2, -⟩
    obtain ⟨x, hx, rfl⟩ := List.mem_map.1 he
    exact (Weak.look_eq_none (m := ⟨l⟩) h hf k).1 hl x.2 ⟨x, hx, h1, h2, rfl⟩

/-- **C100** `m.iter().map(|(r, v)| (r.clone(), f(v))).collect()` maps every key to `f` of its
value. -/
theorem C100_map_values (hS : LawfulSteps S) {m : RangeInclusiveMap K V} (hm : Reachable S m)
    (f : V → W) :
    ∃ m' : RangeInclusiveMap K W, fromIter S (m.iter.map fun e => (e.1, f e.2)) = .ok m' ∧
      Reachable S m' ∧
      ∀ k, ∃ o w, m.get k = .ok o ∧ m'.get k = .ok w ∧ Agree w (o.map f) := by
  have hw := hm.wf hS
  obtain ⟨m', h1, h2, h3⟩ := collect_sep hS (sep_mapValues hw.sep f) (fresh_mapValues hw.fresh f)
  refine ⟨m', h1, h2, fun k => ⟨_, _, get_look hw k, get_look (h2.wf hS) k, ?_⟩⟩
  have := h3 k
  rwa [look_mapValues hw.sep hw.fresh] at this

example := C100_map_values (V := Char) Demo.u8_lawful (m := Demo.imap) Demo.imap_reachable
    (W := Bool) (· == 'a')
example := C100_map_values Demo.tagSteps_lawful (m := Demo.ioddMap) Demo.ioddMap_reachable
    (W := Bool) (· == .num 3)

/-- **C100** This changes the value of each entry and nothing else exactly if no two entries with no
key between them get values that are equal. -/
theorem C100_map_values_exact (hS : LawfulSteps S) {m : RangeInclusiveMap K V}
    {m' : RangeInclusiveMap K W} (hm : Reachable S m) (f : V → W)
    (h : fromIter S (m.iter.map fun e => (e.1, f e.2)) = .ok m') :
    (m'.iter = m.iter.map fun e => (e.1, f e.2)) ↔
      ∀ x ∈ m.iter, ∀ y ∈ m.iter, Next x.1.stop y.1.start → (f x.2 == f y.2) = false := by
  have hw := hm.wf hS
  constructor
  · intro h' x hx y hy hk
    obtain ⟨m'', h1, h2, -⟩ := C100_map_values hS hm f
    rw [h] at h1
    cases h1
    have hmem : ∀ x ∈ m.iter, (x.1, f x.2) ∈ m'.btm := fun x hx => by
      rw [show m'.btm = _ from h']
      exact List.mem_map.2 ⟨x, hx, rfl⟩
    exact (h2.wf hS).coal _ (hmem x hx) _ (hmem y hy) hk
  · intro hc
    have hw : WF (m.iter.map fun e => (e.1, f e.2)) := by
      refine ⟨sep_mapValues hw.sep f, fun a ha b hb h1 => ?_, fresh_mapValues hw.fresh f⟩
      obtain ⟨x, hx, rfl⟩ := List.mem_map.1 ha
      obtain ⟨y, hy, rfl⟩ := List.mem_map.1 hb
      exact hc x hx y hy h1
    rw [(collect_wf hS hw).1] at h
    cases h
    rfl

/-- **C100** So it does if `f` takes no two values that differ to values that are equal. -/
theorem C100_map_values_injective (hS : LawfulSteps S) {m : RangeInclusiveMap K V}
    (hm : Reachable S m) (f : V → W)
    (hf : ∀ v w, (f v == f w) = true → (v == w) = true) :
    ∃ m' : RangeInclusiveMap K W, fromIter S (m.iter.map fun e => (e.1, f e.2)) = .ok m' ∧
      Reachable S m' ∧ m'.iter = m.iter.map fun e => (e.1, f e.2) := by
  obtain ⟨m', h1, h2, -⟩ := C100_map_values hS hm f
  refine ⟨m', h1, h2, (C100_map_values_exact hS hm f h1).2 fun x hx y hy hk => ?_⟩
  have := (hm.wf hS).coal x hx y hy hk
  cases h : f x.2 == f y.2 with
  | false => rfl
  | true => rw [hf _ _ h] at this; cases this

theorem char_toNat {v w : Char} (h : (v.toNat == w.toNat) = true) : (v == w) = true := by
  have : v.toNat = w.toNat := by simpa using h
  have := Char.toNat_inj.1 this
  simpa using this

example := C100_map_values_injective (V := Char) Demo.u8_lawful (m := Demo.imap)
    Demo.imap_reachable (W := Nat) Char.toNat fun _ _ => char_toNat

/-- `b` and `c` touch, `a` and `a` do not. -/
example : ∃ m', fromIter Demo.u8 (Demo.imap.iter.map fun e => (e.1, e.2.toNat)) = .ok m' ∧
    ∀ x ∈ Demo.imap.iter, ∀ y ∈ Demo.imap.iter, Next x.1.stop y.1.start →
      (x.2.toNat == y.2.toNat) = false :=
  have ⟨m', h1, _, h2⟩ := C100_map_values_injective Demo.u8_lawful Demo.imap_reachable (W := Nat)
    Char.toNat fun _ _ => char_toNat
  ⟨m', h1, (C100_map_values_exact Demo.u8_lawful Demo.imap_reachable _ h1).1 h2⟩

/-- **C100** In any case it leaves at most as many entries as there were. -/
theorem C100_map_values_len [ReflBEq W] (hS : LawfulSteps S) {m : RangeInclusiveMap K V}
    {m' : RangeInclusiveMap K W} (hm : Reachable S m) (f : V → W)
    (h : fromIter S (m.iter.map fun e => (e.1, f e.2)) = .ok m') : m'.len ≤ m.len := by
  obtain ⟨m'', h1, h2, h3⟩ := C100_map_values hS hm f
  rw [h] at h1
  cases h1
  have hw := hm.wf hS
  have := C55_fewest hS h2 (m.iter.map fun e => (e.1, f e.2)) ?_ ?_
  · simpa [RangeInclusiveMap.len, RangeInclusiveMap.iter] using this
  · intro e he k hk1 hk2
    obtain ⟨x, hx, rfl⟩ := List.mem_map.1 he
    obtain ⟨o, w, i1, i2, i3⟩ := h3 k
    rw [(get_eq_some hw.sep hw.fresh k x.2).2 ⟨x, hx, hk1, hk2, rfl⟩] at i1
    cases i1
    cases w with
    | none => exact i3.elim
    | some w =>
      refine ⟨w, i2, ?_⟩
      rcases i3 with rfl | i3
      · exact BEq.rfl
      · exact i3
  · intro k v hv
    obtain ⟨o, w, i1, i2, i3⟩ := h3 k
    rw [i2] at hv
    cases hv
    cases o with
    | none => exact i3.elim
    | some u =>
      obtain ⟨x, hx, h4, h5, -⟩ := (get_eq_some hw.sep hw.fresh k u).1 i1
      exact ⟨_, List.mem_map.2 ⟨x, hx, rfl⟩, h4, h5⟩

example : ∃ m', fromIter Demo.u8 (Demo.imap.iter.map fun e => (e.1, true)) = .ok m' ∧
    m'.len ≤ Demo.imap.len :=
  have ⟨m', h1, _⟩ := C100_map_values Demo.u8_lawful Demo.imap_reachable (W := Bool) fun _ => true
  ⟨m', h1, C100_map_values_len Demo.u8_lawful Demo.imap_reachable (fun _ => true) h1⟩

theorem wf_sublist {l l' : List (RangeInclusive K × V)} (h : WF l) (hs : l'.Sublist l) : WF l' :=
  ⟨⟨h.sep.pw.sublist hs, fun e he => h.sep.ne e (hs.subset he)⟩,
    fun a ha b hb => h.coal a (hs.subset ha) b (hs.subset hb), fun e he => h.fresh e (hs.subset he)⟩

/-- **C100** Collecting some of the entries, in the order in which they are stored, gives the map that
has exactly these. -/
theorem C100_some_entries (hS : LawfulSteps S) {m : RangeInclusiveMap K V} (hm : Reachable S m)
    {l : List (RangeInclusive K × V)} (hl : l.Sublist m.iter) :
    ∃ m', fromIter S l = .ok m' ∧ Reachable S m' ∧ m'.iter = l :=
  have h := collect_wf hS (wf_sublist (hm.wf hS) hl)
  ⟨_, h.1, h.2, rfl⟩

example := C100_some_entries (V := Char) Demo.u8_lawful (m := Demo.imap) Demo.imap_reachable
    (l := [(Demo.by8 5 15, 'a'), (Demo.by8 25 255, 'c')])
    (.cons _ (.cons_cons _ (.cons _ (.cons_cons _ .slnil))))

/-- **C100** `m.iter().filter(|(_, v)| p(v))...collect()` keeps the keys whose value `p` accepts. -/
theorem C100_retain (hS : LawfulSteps S) {m : RangeInclusiveMap K V} (hm : Reachable S m)
    (p : V → Bool) :
    ∃ m', fromIter S (m.iter.filter fun e => p e.2) = .ok m' ∧ Reachable S m' ∧
      m'.iter = m.iter.filter (fun e => p e.2) ∧
      ∀ k, ∃ o, m.get k = .ok o ∧ m'.get k = .ok (o.filter p) := by
  obtain ⟨m', h1, h2, h3⟩ := C100_some_entries hS hm (List.filter_sublist (p := fun e => p e.2))
  have hw := hm.wf hS
  have hw' := h2.wf hS
  refine ⟨m', h1, h2, h3, fun k => ⟨_, get_look hw k, ?_⟩⟩
  have hm' : ∀ e, e ∈ m'.btm ↔ e ∈ m.btm ∧ p e.2 = true := fun e => by
    rw [show m'.btm = m.btm.filter (fun e => p e.2) from h3, List.mem_filter]
  cases hl : m.look k with
  | none =>
    rw [Option.filter_none, get_eq_none hw'.sep hw'.fresh]
    rintro w ⟨e, he, h4⟩
    exact (look_eq_none hw k).1 hl w ⟨e, ((hm' e).1 he).1, h4⟩
  | some v =>
    have hv := (look_eq_some hw k v).1 hl
    cases hp : p v with
    | true =>
      rw [Option.filter_some_pos hp, get_eq_some hw'.sep hw'.fresh]
      obtain ⟨e, he, h4, h5, rfl⟩ := hv
      exact ⟨e, (hm' e).2 ⟨he, hp⟩, h4, h5, rfl⟩
    | false =>
      rw [Option.filter_some_neg (by simp [hp]), get_eq_none hw'.sep hw'.fresh]
      rintro w ⟨e, he, h4, h5, rfl⟩
      have := Maps.unique hw.sep hv ⟨e, ((hm' e).1 he).1, h4, h5, rfl⟩
      rw [this, ((hm' e).1 he).2] at hp
      cases hp

example := C100_retain (V := Char) Demo.u8_lawful (m := Demo.imap) Demo.imap_reachable (· != 'b')

/-- **C100** `m.iter().map(|(r, _)| r.clone()).collect::<RangeInclusiveSet<_>>()` is the set of the
keys that have a value: it contains them, has at most as many ranges, and meets the same ranges. -/
theorem C100_keys (hS : LawfulSteps S) {m : RangeInclusiveMap K V} (hm : Reachable S m) :
    ∃ s, RangeInclusiveSet.fromIter S (m.iter.map (·.1)) = .ok s ∧
      RangeInclusiveSet.Reachable S s ∧ s.len ≤ m.len ∧
      (∀ k, ∃ x, m.containsKey k = .ok x ∧ s.contains k = .ok x) ∧
      ∀ q, q.start ≤ q.stop → ∃ x, m.overlaps q = .ok x ∧ s.overlaps q = .ok x := by
  have hw := hm.wf hS
  obtain ⟨s, h1, h2, h3⟩ := RangeInclusiveSet.fromIter_has hS (items := m.iter.map (·.1)) (by
    intro r hr
    obtain ⟨e, he, rfl⟩ := List.mem_map.1 hr
    exact ⟨hw.sep.ne e he, hw.fresh e he⟩)
  have h2' : RangeInclusiveSet.Reachable S s := .of_wf hS h2
  have hc : ∀ k, s.contains k = .ok ((m.iter.map (·.1)).any fun r => icovers r k) := fun k => by
    rw [RangeInclusiveSet.contains_eq h2, h3]
  have hany : ∀ k, m.containsKey k = .ok ((m.iter.map (·.1)).any fun r => icovers r k) := fun k => by
    rw [RangeInclusiveMap.containsKey, get_look hw]
    refine congrArg Except.ok ?_
    rw [Bool.eq_iff_iff, Option.isSome_iff_exists]
    simp only [look_eq_some hw, Maps, List.any_map, List.any_eq_true, Function.comp_apply,
      icovers, decide_eq_true_eq]
    constructor
    · rintro ⟨v, e, he, h4, h5, -⟩
      exact ⟨e, he, h4, h5⟩
    · rintro ⟨e, he, h4, h5⟩
      exact ⟨_, e, he, h4, h5, rfl⟩
  refine ⟨s, h1, h2', ?_, fun k => ⟨_, hany k, hc k⟩, fun q hq => ?_⟩
  · have := C55_set_fewest hS h2' _ hc
    simpa [RangeInclusiveMap.len, RangeInclusiveMap.iter] using this
  · obtain ⟨x, i1, i2⟩ := C32_overlaps hS hm.any q
    obtain ⟨-, -, -, y, i3, i4⟩ := C48_overlapping hS h2'.any q []
    refine ⟨x, i1, ?_⟩
    rw [i3]
    refine congrArg Except.ok ?_
    rw [Bool.eq_iff_iff, i2, i4]
    have hkeys : ∀ k, (∃ r ∈ s.iter, r.start ≤ k ∧ k ≤ r.stop) ↔
        ∃ e ∈ m.iter, e.1.start ≤ k ∧ k ≤ e.1.stop := by
      intro k
      rw [← RangeInclusiveSet.has_iff, h3]
      simp [icovers]
    have hne := ((RangeInclusiveSet.reachable_iff hS s).1 h2').1
    have hme := hw.sep.ne
    constructor
    · rintro ⟨r, hr, h5, h6⟩
      have := hne r hr
      rcases Std.le_total (a := q.start) (b := r.start) with h7 | h7
      · obtain ⟨e, he, h8, h9⟩ := (hkeys r.start).1 ⟨r, hr, by grind, by grind⟩
        exact ⟨e, he, by grind, by grind⟩
      · obtain ⟨e, he, h8, h9⟩ := (hkeys q.start).1 ⟨r, hr, by grind, by grind⟩
        exact ⟨e, he, by grind, by grind⟩
    · rintro ⟨e, he, h5, h6⟩
      have := hme e he
      rcases Std.le_total (a := q.start) (b := e.1.start) with h7 | h7
      · obtain ⟨r, hr, h8, h9⟩ := (hkeys e.1.start).2 ⟨e, he, by grind, by grind⟩
        exact ⟨r, hr, by grind, by grind⟩
      · obtain ⟨r, hr, h8, h9⟩ := (hkeys q.start).2 ⟨e, he, by grind, by grind⟩
        exact ⟨r, hr, by grind, by grind⟩

example := C100_keys (V := Char) Demo.u8_lawful (m := Demo.imap) Demo.imap_reachable

/-- `b` and `c` touch, so there are fewer ranges. -/
example : (RangeInclusiveSet.fromIter Demo.u8 (Demo.imap.iter.map (·.1))).toOption.map (·.iter) =
    some [Demo.by8 0 2, Demo.by8 5 15, Demo.by8 20 255] := by decide +kernel

/-- Separated ranges are determined by the keys in them. -/
theorem separated_unique (hS : LawfulSteps S) (hk : ∀ a b : K, a ≤ b → b ≤ a → a = b)
    {l l' : List (RangeInclusive K)} (hl : ∀ r ∈ l, r.start ≤ r.stop ∧ r.exhausted = false)
    (hp : l.Pairwise fun a b => a.stop < b.start ∧ ¬ Next a.stop b.start)
    (hl' : ∀ r ∈ l', r.start ≤ r.stop ∧ r.exhausted = false)
    (hp' : l'.Pairwise fun a b => a.stop < b.start ∧ ¬ Next a.stop b.start)
    (h : ∀ k, (∃ r ∈ l, r.start ≤ k ∧ k ≤ r.stop) ↔ ∃ r ∈ l', r.start ≤ k ∧ k ≤ r.stop) :
    l = l' := by
  obtain ⟨s, h1, h2, rfl⟩ := RangeInclusiveSet.fromIter_exact hS hl hp
  obtain ⟨s', h1', h2', rfl⟩ := RangeInclusiveSet.fromIter_exact hS hl' hp'
  have : s.eq s' = true := (RangeInclusiveSet.eq_iff_has hS h2 h2').2 fun k => by
    rw [Bool.eq_iff_iff, RangeInclusiveSet.has_iff, RangeInclusiveSet.has_iff]
    exact h k
  exact congrArg (List.map (·.1)) (iterEq_eq_of_lawful_inclusive hk this)

/-- **C100** That set has the same gaps as the map. -/
theorem C100_keys_gaps (hS : LawfulSteps S) (hk : ∀ a b : K, a ≤ b → b ≤ a → a = b)
    {m : RangeInclusiveMap K V} (hm : Reachable S m) {s : RangeInclusiveSet K}
    (h : RangeInclusiveSet.fromIter S (m.iter.map (·.1)) = .ok s) (outer : RangeInclusive K) :
    ∃ g g' l, m.gaps outer = .ok g ∧ YieldsE (Gaps.next S) g l ∧ s.gaps outer = .ok g' ∧
      YieldsE (RangeInclusiveSet.Gaps.next S) g' l := by
  obtain ⟨s', h1, h2, -, h3, -⟩ := C100_keys hS hm
  rw [h] at h1
  cases h1
  obtain ⟨g, l, i1, i2, i3⟩ := C31_gaps_exact hS hm outer
  obtain ⟨g2, l2, i1', i2', i4, i5⟩ := C31_gaps_ordered hS hm.any outer
  rw [i1] at i1'
  cases i1'
  have : l = l2 := Verif.YieldsE.unique i2 i2'
  subst this
  obtain ⟨g', l', j1, j2, j3, j4, j5⟩ := C48_gaps hS h2 outer
  refine ⟨g, g', l, i1, i2, j1, ?_⟩
  rw [separated_unique hS hk (fun r hr => ⟨(i4 r hr).1, (i4 r hr).2.1⟩) (i5.imp ?_)
    (fun r hr => ⟨(j3 r hr).1, (j3 r hr).2.1⟩) j4 fun k => ?_]
  · exact j2
  · rintro a b ⟨e, _, x1, x2, x3⟩
    have := x1.1
    exact ⟨by grind, fun hn => by have := hn.2 e.1.start; grind⟩
  · rw [i3, j5]
    obtain ⟨x, k1, k2⟩ := h3 k
    rw [k2]
    rw [RangeInclusiveMap.containsKey, get_look (hm.wf hS)] at k1
    rw [get_look (hm.wf hS)]
    cases hx : m.look k <;> rw [hx] at k1 <;> cases k1 <;> simp

example : ∃ s, RangeInclusiveSet.fromIter Demo.u8 (Demo.imap.iter.map (·.1)) = .ok s ∧
    ∃ g g' l, Demo.imap.gaps (Demo.by8 1 50) = .ok g ∧ YieldsE (Gaps.next Demo.u8) g l ∧
      s.gaps (Demo.by8 1 50) = .ok g' ∧ YieldsE (RangeInclusiveSet.Gaps.next Demo.u8) g' l :=
  have ⟨s, h, _⟩ := C100_keys Demo.u8_lawful Demo.imap_reachable
  ⟨s, h, C100_keys_gaps Demo.u8_lawful Demo.u8_antisymm Demo.imap_reachable h _⟩

/-- **C100** `m.iter().filter(|(_, w)| *w == v).map(|(r, _)| r.clone()).collect()` is the set of the
keys whose value is `v`, and has exactly the ranges that have this value in the map. -/
theorem C100_keys_of (hS : LawfulSteps S) {m : RangeInclusiveMap K V} (hm : Reachable S m) (v : V) :
    ∃ s, RangeInclusiveSet.fromIter S ((m.iter.filter fun e => e.2 == v).map (·.1)) = .ok s ∧
      RangeInclusiveSet.Reachable S s ∧ s.iter = (m.iter.filter fun e => e.2 == v).map (·.1) ∧
      ∀ k, ∃ o, m.get k = .ok o ∧ s.contains k = .ok (o.any (· == v)) := by
  obtain ⟨m', h1, h2, h3, h4⟩ := C100_retain hS hm (fun w => w == v)
  have hw := h2.wf hS
  have hs := hw.sep
  have hv' : ∀ e ∈ m'.btm, (e.2 == v) = true := by
    intro e he
    rw [show m'.btm = _ from h3] at he
    exact (List.mem_filter.1 he).2
  obtain ⟨s, i1, i2, i3⟩ := RangeInclusiveSet.fromIter_exact hS (items := m'.iter.map (·.1)) (by
      intro r hr
      obtain ⟨e, he, rfl⟩ := List.mem_map.1 hr
      exact ⟨hs.ne e he, hw.fresh e he⟩) (by
      rw [List.pairwise_map]
      refine (List.Pairwise.imp_of_mem (fun {a b} ha hb h => ⟨h.2, fun hn => ?_⟩) hs.pw)
      have := hw.coal a ha b hb hn
      rw [PartialEquivBEq.trans (hv' a ha) (PartialEquivBEq.symm (hv' b hb))] at this
      cases this)
  rw [h3] at i1 i3
  refine ⟨s, i1, .of_wf hS i2, i3, fun k => ?_⟩
  obtain ⟨o, j1, j2⟩ := h4 k
  refine ⟨o, j1, ?_⟩
  rw [RangeInclusiveSet.contains_eq i2]
  refine congrArg Except.ok ?_
  rw [Bool.eq_iff_iff, RangeInclusiveSet.has_iff, i3, ← h3]
  constructor
  · rintro ⟨r, hr, h5, h6⟩
    obtain ⟨e, he, rfl⟩ := List.mem_map.1 hr
    rw [(get_eq_some hs hw.fresh k e.2).2 ⟨e, he, h5, h6, rfl⟩] at j2
    cases o with
    | none => cases j2
    | some w =>
      cases hw : w == v with
      | true => simpa using hw
      | false => rw [Option.filter_some_neg (p := fun w => w == v) (by simp [hw])] at j2; cases j2
  · intro h
    cases o with
    | none => cases h
    | some w =>
      have hw' : (w == v) = true := by simpa using h
      rw [Option.filter_some_pos (p := fun w => w == v) hw'] at j2
      obtain ⟨e, he, h5, h6, -⟩ := (get_eq_some hs hw.fresh k w).1 j2
      exact ⟨e.1, List.mem_map.2 ⟨e, he, rfl⟩, h5, h6⟩

example := C100_keys_of (V := Char) Demo.u8_lawful (m := Demo.imap) Demo.imap_reachable 'a'

/-! ### two maps joined -/

theorem in_common {r s : RangeInclusive K} {k : K} :
    (icommon r s).start ≤ k ∧ k ≤ (icommon r s).stop ↔
      (r.start ≤ k ∧ k ≤ r.stop) ∧ s.start ≤ k ∧ k ≤ s.stop := by
  simp only [icommon, RangeInclusive.mk', rmax, rmin]
  grind

theorem mem_joined {a : List (RangeInclusive K × V)}
    {rows : RangeInclusive K × V → List (RangeInclusive K × W)}
    {x : RangeInclusive K × (V × W)} : x ∈ ijoined a rows ↔
      ∃ e ∈ a, ∃ f ∈ rows e, (icommon e.1 f.1, (e.2, f.2)) = x := by
  simp only [ijoined, List.mem_flatMap, List.mem_map]

/-- what `overlapping` yields -/
def rowsOf (b : List (RangeInclusive K × W)) (e : RangeInclusive K × V) :
    List (RangeInclusive K × W) :=
  b.filter fun f => decide (e.1.start ≤ f.1.stop) && decide (f.1.start ≤ e.1.stop)

theorem mem_rowsOf {b : List (RangeInclusive K × W)} {e : RangeInclusive K × V}
    {f : RangeInclusive K × W} :
    f ∈ rowsOf b e ↔ f ∈ b ∧ e.1.start ≤ f.1.stop ∧ f.1.start ≤ e.1.stop := by
  simp [rowsOf]

theorem common_ends {r s : RangeInclusive K} :
    r.start ≤ (icommon r s).start ∧ s.start ≤ (icommon r s).start ∧
    ((icommon r s).start = r.start ∨ (icommon r s).start = s.start) ∧
    (icommon r s).stop ≤ r.stop ∧ (icommon r s).stop ≤ s.stop ∧
    ((icommon r s).stop = r.stop ∨ (icommon r s).stop = s.stop) := by
  simp only [icommon, RangeInclusive.mk', rmax, rmin]
  grind

theorem joined_wf (hS : LawfulSteps S) {a : RangeInclusiveMap K V} {b : RangeInclusiveMap K W}
    (ha : Reachable S a) (hb : Reachable S b) : WF (ijoined a.btm (rowsOf b.btm)) := by
  have hsa := (ha.wf hS).sep
  have hsb := (hb.wf hS).sep
  refine ⟨⟨?_, ?_⟩, ?_, ?_⟩
  · rw [ijoined, List.pairwise_flatMap]
    constructor
    · intro e he
      rw [List.pairwise_map]
      refine List.Pairwise.imp_of_mem (fun {f g} hf hg h => ?_)
        (hsb.pw.sublist (List.filter_sublist (p := _)))
      have h1 := mem_rowsOf.1 hf
      have h2 := mem_rowsOf.1 hg
      have h3 := common_ends (r := e.1) (s := f.1)
      have h4 := common_ends (r := e.1) (s := g.1)
      have h5 := hsa.ne e he
      have h6 := hsb.ne f h1.1
      have h7 := hsb.ne g h2.1
      simp only [Before] at h ⊢
      clear ha hb hsa hsb hf hg hS
      constructor <;> grind
    · refine List.Pairwise.imp_of_mem (fun {e e'} he he' h => ?_) hsa.pw
      intro x hx y hy
      obtain ⟨f, hf, rfl⟩ := List.mem_map.1 hx
      obtain ⟨g, hg, rfl⟩ := List.mem_map.1 hy
      have h1 := mem_rowsOf.1 hf
      have h2 := mem_rowsOf.1 hg
      have h3 := common_ends (r := e.1) (s := f.1)
      have h4 := common_ends (r := e'.1) (s := g.1)
      have h5 := hsa.ne e he
      have h6 := hsb.ne f h1.1
      have h7 := hsb.ne g h2.1
      simp only [Before] at h ⊢
      clear ha hb hsa hsb hf hg hx hy hS
      constructor <;> grind
  · intro x hx
    obtain ⟨e, he, f, hf, rfl⟩ := mem_joined.1 hx
    have h1 := mem_rowsOf.1 hf
    have h3 := common_ends (r := e.1) (s := f.1)
    have h5 := hsa.ne e he
    have h6 := hsb.ne f h1.1
    simp only
    clear ha hb hsa hsb hf hx hS
    grind
  · intro x hx y hy hn
    obtain ⟨e, he, f, hf, rfl⟩ := mem_joined.1 hx
    obtain ⟨e', he', f', hf', rfl⟩ := mem_joined.1 hy
    have i1 := mem_rowsOf.1 hf
    have i2 := mem_rowsOf.1 hf'
    have i3 := common_ends (r := e.1) (s := f.1)
    have i4 := common_ends (r := e'.1) (s := f'.1)
    have i5 := hsa.ne e he
    have i6 := hsb.ne f i1.1
    have i7 := hsa.ne e' he'
    have i8 := hsb.ne f' i2.1
    simp only at hn
    rw [pair_beq]
    obtain ⟨n1, n2⟩ := hn
    -- after the end of the one either the first or the second map has a border
    by_cases hc : Next e.1.stop e'.1.start
    · rw [(ha.wf hS).coal e he e' he' hc]
      rfl
    · by_cases hd : Next f.1.stop f'.1.start
      · rw [(hb.wf hS).coal f i1.1 f' i2.1 hd, Bool.and_false]
      · exfalso
        have j1 := hsa.tri e he e' he'
        have j2 := hsb.tri f i1.1 f' i2.1
        clear ha hb hsa hsb hf hf' hx hy hS
        have k1 : (icommon e.1 f.1).start ≤ (icommon e.1 f.1).stop := by grind
        have k2 : (icommon e'.1 f'.1).start ≤ (icommon e'.1 f'.1).stop := by grind
        have j1 : e = e' := by
          rcases j1 with j1 | j1 | j1
          · exact j1
          · refine absurd ⟨j1, fun d hd => ?_⟩ hc
            have := n2 d
            grind
          · exfalso; grind
        have j2 : f = f' := by
          rcases j2 with j2 | j2 | j2
          · exact j2
          · refine absurd ⟨j2, fun d hd => ?_⟩ hd
            have := n2 d
            grind
          · exfalso; grind
        subst j1 j2
        grind
  · intro x hx
    obtain ⟨e, he, f, hf, rfl⟩ := mem_joined.1 hx
    rfl

/-- **C100** Two maps joined, as in `Spec.joined`: a key that has a value in both gets both values, no
other key gets any.  The entries are exactly the common parts of the entries of the two, in the order in
which they are collected, and as many as there are pairs of entries that share a key. -/
theorem C100_join (hS : LawfulSteps S) {a : RangeInclusiveMap K V} {b : RangeInclusiveMap K W}
    (ha : Reachable S a) (hb : Reachable S b) :
    ∃ (rows : RangeInclusive K × V → List (RangeInclusive K × W)) (m : RangeInclusiveMap K (V × W)),
      (∀ e ∈ a.iter, ∃ o, b.overlapping e.1 = .ok o ∧ Yields Overlapping.next o (rows e)) ∧
      fromIter S (ijoined a.iter rows) = .ok m ∧ Reachable S m ∧ m.iter = ijoined a.iter rows ∧
      m.len = pairs (fun e f => ishares e.1 f.1) a.iter b.iter ∧
      ∀ k, ∃ v w, a.get k = .ok v ∧ b.get k = .ok w ∧ m.get k = .ok (both v w) := by
  have hw := joined_wf hS ha hb
  have hwa := ha.wf hS
  have hwb := hb.wf hS
  refine ⟨rowsOf b.btm, _, fun e he => C32_overlapping_exact hS hb.any e.1, (collect_wf hS hw).1,
    (collect_wf hS hw).2, rfl, ?_, fun k => ⟨_, _, get_look hwa k, get_look hwb k, ?_⟩⟩
  · simp only [RangeInclusiveMap.len, RangeInclusiveMap.iter, ijoined, List.length_flatMap,
      List.length_map, pairs, rowsOf, List.countP_eq_length_filter]
    refine sum_map_congr fun e _ => ?_
    congr 2
    funext f
    simp [ishares]
  · cases hv : a.look k with
    | none =>
      refine (get_eq_none (m := ⟨_⟩) hw.sep hw.fresh k).2 ?_
      rintro _ ⟨x, hx, h1, h2, -⟩
      obtain ⟨e, he, f, hf, rfl⟩ := mem_joined.1 hx
      have := (in_common.1 ⟨h1, h2⟩).1
      exact (look_eq_none hwa k).1 hv _ ⟨e, he, this.1, this.2, rfl⟩
    | some v =>
      cases hw' : b.look k with
      | none =>
        refine (get_eq_none (m := ⟨_⟩) hw.sep hw.fresh k).2 ?_
        rintro _ ⟨x, hx, h1, h2, -⟩
        obtain ⟨e, he, f, hf, rfl⟩ := mem_joined.1 hx
        have := (in_common.1 ⟨h1, h2⟩).2
        exact (look_eq_none hwb k).1 hw' _ ⟨f, (mem_rowsOf.1 hf).1, this.1, this.2, rfl⟩
      | some w =>
        obtain ⟨e, he, h1, h2, rfl⟩ := (look_eq_some hwa k v).1 hv
        obtain ⟨f, hf, h3, h4, rfl⟩ := (look_eq_some hwb k w).1 hw'
        have hc := in_common.2 ⟨⟨h1, h2⟩, h3, h4⟩
        refine (get_eq_some (m := ⟨_⟩) hw.sep hw.fresh k _).2 ⟨_, mem_joined.2 ⟨e, he, f,
          mem_rowsOf.2 ⟨hf, ?_, ?_⟩, rfl⟩, hc.1, hc.2, rfl⟩
        · clear hc hw hwa hwb; grind
        · clear hc hw hwa hwb; grind

example := C100_join (V := Char) (W := Char) Demo.u8_lawful (a := Demo.imap) (b := Demo.imap')
    Demo.imap_reachable Demo.imap'_reachable

example : (fromIter Demo.u8 (ijoined Demo.imap.iter (rowsOf Demo.imap'.btm))).toOption.map
    (·.iter) = some [(Demo.by8 2 2, ('a', 'x')), (Demo.by8 5 7, ('a', 'x')),
      (Demo.by8 30 50, ('c', 'y'))] := by decide +kernel

end Verif.Props.Inclusive

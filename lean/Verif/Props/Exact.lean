import Verif.Proof.Exact
import Verif.Proof.IExact
import Verif.Proof.Append
import Verif.Proof.IAppend
import Verif.Props.Demo

/-!
# C51: the exact effect of `insert` and `remove` on the stored entries
-/
set_option linter.unusedSectionVars false

namespace Verif.Spec
variable {K R V : Type}

/-- Two ranges have a key in common. -/
def Common (covers : R → K → Bool) (a b : R) : Prop := ∃ k, covers a k = true ∧ covers b k = true

variable [LE K] [LT K] [DecidableLE K] [DecidableLT K]

/-- Two half-open ranges overlap, or one ends where the other starts. -/
def Touch (a b : Range K) : Prop :=
  Common covers a b ∨ (a.stop ≤ b.start ∧ b.start ≤ a.stop) ∨ (b.stop ≤ a.start ∧ a.start ≤ b.stop)

/-- Two inclusive ranges overlap, or there is no key between them. -/
def ITouch (a b : RangeInclusive K) : Prop :=
  Common icovers a b ∨ Next a.stop b.start ∨ Next b.stop a.start

/-- What `remove(r)` turns a stored entry into (possibly nothing, one, or two entries). -/
inductive AfterRemove (r : Range K) : Range K × V → Range K × V → Prop
  | keep {x} : ¬ Common covers r x.1 → AfterRemove r x x
  | left {x} : Common covers r x.1 → x.1.start < r.start →
      AfterRemove r x (⟨x.1.start, r.start⟩, x.2)
  | right {x} : Common covers r x.1 → r.stop < x.1.stop →
      AfterRemove r x (⟨r.stop, x.1.stop⟩, x.2)

/-- What `insert(r, v)` turns a stored entry into, apart from the entry for `v` itself: an entry
with an equal value disappears if it touches `r`; one with another value is cut. -/
inductive AfterInsert [BEq V] (r : Range K) (v : V) : Range K × V → Range K × V → Prop
  | equal {x} : (x.2 == v) = true → ¬ Touch r x.1 → AfterInsert r v x x
  | other {x y} : (x.2 == v) = false → AfterRemove r x y → AfterInsert r v x y

/-- What `remove(r)` turns a stored entry into (inclusive ranges). -/
inductive IAfterRemove (S : StepFns K) (r : RangeInclusive K) :
    RangeInclusive K × V → RangeInclusive K × V → Prop
  | keep {x} : ¬ Common icovers r x.1 → IAfterRemove S r x x
  | left {x p} : Common icovers r x.1 → x.1.start < r.start → S.subOne r.start = .ok p →
      IAfterRemove S r x (.mk' x.1.start p, x.2)
  | right {x s} : Common icovers r x.1 → r.stop < x.1.stop → S.addOne r.stop = .ok s →
      IAfterRemove S r x (.mk' s x.1.stop, x.2)

/-- What `insert(r, v)` turns a stored entry into, apart from the entry for `v` itself (inclusive
ranges). -/
inductive IAfterInsert [BEq V] (S : StepFns K) (r : RangeInclusive K) (v : V) :
    RangeInclusive K × V → RangeInclusive K × V → Prop
  | equal {x} : (x.2 == v) = true → ¬ ITouch r x.1 → IAfterInsert S r v x x
  | other {x y} : (x.2 == v) = false → IAfterRemove S r x y → IAfterInsert S r v x y

/-- `b` is one of the keys `P` and none of them is below it. -/
structure IsLeast (P : K → Prop) (b : K) : Prop where
  mem : P b
  le : ∀ k, P k → b ≤ k

/-- `b` is one of the keys `P` and none of them is above it. -/
structure IsGreatest (P : K → Prop) (b : K) : Prop where
  mem : P b
  le : ∀ k, P k → k ≤ b

end Verif.Spec

namespace Verif.Props
open Spec
variable {K : Type} [LE K] [LT K] [DecidableLE K] [DecidableLT K]
  [Std.IsLinearPreorder K] [Std.LawfulOrderLT K] {V : Type} [BEq V] [PartialEquivBEq V]

/-! ## Half-open maps -/

section
open RangeMap

theorem common_iff {r x : Range K} (hr : r.start < r.stop) (hx : x.start < x.stop) :
    Common covers r x ↔ Ovl r x := by
  unfold Common covers Ovl
  simp only [decide_eq_true_eq]
  constructor
  · rintro ⟨k, h1, h2⟩; grind
  · intro h
    by_cases hle : r.start ≤ x.start
    · exact ⟨x.start, by grind⟩
    · exact ⟨r.start, by grind⟩

theorem touch_iff {r x : Range K} (hr : r.start < r.stop) (hx : x.start < x.stop) :
    Touch r x ↔ Tch r x := by
  unfold Touch
  rw [common_iff hr hx]
  grind [Ovl, Tch]

theorem afterRemove_iff {r : Range K} {x y : Range K × V} (hr : r.start < r.stop)
    (hx : x.1.start < x.1.stop) : AfterRemove r x y ↔
      (¬ Ovl r x.1 ∧ y = x) ∨ (Ovl r x.1 ∧ Piece r x y) := by
  rw [← common_iff hr hx]
  unfold Piece
  constructor
  · rintro (h | ⟨h1, h2⟩ | ⟨h1, h2⟩)
    · exact Or.inl ⟨h, rfl⟩
    · exact Or.inr ⟨h1, Or.inl ⟨h2, rfl⟩⟩
    · exact Or.inr ⟨h1, Or.inr ⟨h2, rfl⟩⟩
  · rintro (⟨h1, rfl⟩ | ⟨h1, ⟨h2, rfl⟩ | ⟨h2, rfl⟩⟩)
    · exact .keep h1
    · exact .left h1 h2
    · exact .right h1 h2

theorem afterInsert_iff {r : Range K} {v : V} {x y : Range K × V} (hr : r.start < r.stop)
    (hx : x.1.start < x.1.stop) : AfterInsert r v x y ↔ Survives r v x y := by
  unfold Survives
  constructor
  · rintro (⟨h1, h2⟩ | ⟨h1, h2⟩)
    · exact Or.inl ⟨h1, by rwa [touch_iff hr hx] at h2, rfl⟩
    · rcases (afterRemove_iff hr hx).1 h2 with h3 | h3
      · exact Or.inr (Or.inl ⟨h1, h3⟩)
      · exact Or.inr (Or.inr ⟨h1, h3⟩)
  · rintro (⟨h1, h2, rfl⟩ | ⟨h1, h2⟩ | ⟨h1, h2⟩)
    · exact .equal h1 (by rwa [touch_iff hr hx])
    · exact .other h1 ((afterRemove_iff hr hx).2 (Or.inl h2))
    · exact .other h1 ((afterRemove_iff hr hx).2 (Or.inr h2))

/-- **C51** After `insert(r, v)` the map holds the entry `n ↦ v`, where `n` runs from the least
start to the greatest end among `r` and the stored ranges with a value equal to `v` that touch
`r`; and what is left of the other entries; and nothing else. -/
theorem C51_insert_entries {m m' : RangeMap K V} (hm : Reachable m) {r : Range K} {v : V}
    (h : m.insert r v = .ok m') :
    ∃ n : Range K,
      IsLeast (fun k => k = r.start ∨ ∃ x ∈ m.iter, (x.2 == v) = true ∧ Touch r x.1 ∧
        k = x.1.start) n.start ∧
      IsGreatest (fun k => k = r.stop ∨ ∃ x ∈ m.iter, (x.2 == v) = true ∧ Touch r x.1 ∧
        k = x.1.stop) n.stop ∧
      ∀ y, y ∈ m'.iter ↔ y = (n, v) ∨ ∃ x ∈ m.iter, AfterInsert r v x y := by
  have hr : r.start < r.stop := by
    apply Decidable.byContradiction
    intro hr
    simp [insert_invalid hr] at h
  have hw := hm.wf
  obtain ⟨m'', n, h1, h2, h3, h4, h5, h6, h7⟩ := insert_exact hw v hr
  rw [h] at h1
  obtain rfl := Except.ok.inj h1
  refine ⟨n, ⟨?_, ?_⟩, ⟨?_, ?_⟩, ?_⟩
  · rcases h5 with h5 | ⟨a, ha, hv, ht, -, h5⟩
    · exact Or.inl h5
    · exact Or.inr ⟨a, ha, hv, (touch_iff hr (hw.sep.ne a ha)).2 ht, h5⟩
  · rintro k (rfl | ⟨a, ha, hv, ht, rfl⟩)
    · exact h2
    · exact (h4 a ha hv ((touch_iff hr (hw.sep.ne a ha)).1 ht)).1
  · rcases h6 with h5 | ⟨a, ha, hv, ht, -, h5⟩
    · exact Or.inl h5
    · exact Or.inr ⟨a, ha, hv, (touch_iff hr (hw.sep.ne a ha)).2 ht, h5⟩
  · rintro k (rfl | ⟨a, ha, hv, ht, rfl⟩)
    · exact h3
    · exact (h4 a ha hv ((touch_iff hr (hw.sep.ne a ha)).1 ht)).2
  · intro y
    refine (h7 y).trans (or_congr Iff.rfl ?_)
    constructor
    · rintro ⟨x, hx, hs⟩
      exact ⟨x, hx, (afterInsert_iff hr (hw.sep.ne x hx)).2 hs⟩
    · rintro ⟨x, hx, hs⟩
      exact ⟨x, hx, (afterInsert_iff hr (hw.sep.ne x hx)).1 hs⟩

example := C51_insert_entries (K := Nat) (V := Char) (m := Demo.map) Demo.map_reachable
    (r := ⟨2, 22⟩) (v := 'q') rfl

/-- **C51** After `remove(r)` the map holds what is left of the entries, and nothing else. -/
theorem C51_remove_entries {m m' : RangeMap K V} (hm : Reachable m) {r : Range K}
    (h : m.remove r = .ok m') :
    ∀ y, y ∈ m'.iter ↔ ∃ x ∈ m.iter, AfterRemove r x y := by
  have hr : r.start < r.stop := by
    apply Decidable.byContradiction
    intro hr
    simp [remove_invalid hr] at h
  have hw := hm.wf
  obtain ⟨m'', h1, h7⟩ := remove_exact hw hr
  rw [h] at h1
  obtain rfl := Except.ok.inj h1
  intro y
  refine (h7 y).trans ?_
  constructor
  · rintro ⟨x, hx, hs⟩
    exact ⟨x, hx, (afterRemove_iff hr (hw.sep.ne x hx)).2 hs⟩
  · rintro ⟨x, hx, hs⟩
    exact ⟨x, hx, (afterRemove_iff hr (hw.sep.ne x hx)).1 hs⟩

example := C51_remove_entries (K := Nat) (V := Char) (m := Demo.map) Demo.map_reachable
    (r := ⟨2, 22⟩) rfl (⟨5, 15⟩, 'a')

/-- **C51** The entries determine the map: two maps that hold the same entries are identical (so
the two theorems above say everything about the results). -/
theorem C51_entries_determine {m m' : RangeMap K V} (hm : Reachable m) (hm' : Reachable m')
    (h : ∀ y, y ∈ m.iter ↔ y ∈ m'.iter) : m = m' := by
  have hnd : ∀ {l : List (Range K × V)}, Sep l → l.Nodup := fun hl =>
    hl.pw.imp_of_mem fun {a b} ha hb hab => by
      rintro rfl
      have := hab.1
      grind
  have hp : m.btm.Perm m'.btm := by
    rw [List.perm_ext_iff_of_nodup (hnd hm.wf.sep) (hnd hm'.wf.sep)]
    exact h
  have : m.btm = m'.btm :=
    hp.eq_of_pairwise (fun a b _ _ h1 h2 => by
      exfalso; have := h1.1; have := h2.1; grind) hm.wf.sep.pw hm'.wf.sep.pw
  cases m; cases m'; simp_all

example := C51_entries_determine (K := Nat) (V := Char) (m := Demo.map) (m' := Demo.map)
    Demo.map_reachable Demo.map_reachable (fun _ => .rfl)

/-- **C51** A value that is not even equal to itself (like NaN) is stored under exactly the range
given, never coalesced with anything. -/
theorem C51_insert_unequal_verbatim {m m' : RangeMap K V} (hm : Reachable m) {r : Range K} {v : V}
    (h : m.insert r v = .ok m') (hv : (v == v) = false) :
    ∀ y, y ∈ m'.iter ↔ y = (r, v) ∨ ∃ x ∈ m.iter, AfterRemove r x y := by
  have hno : ∀ x : Range K × V, (x.2 == v) = false := by
    intro x
    cases hx : x.2 == v with
    | false => rfl
    | true =>
      have := PartialEquivBEq.trans (PartialEquivBEq.symm hx) hx
      simp [hv] at this
  obtain ⟨n, h1, h2, h3⟩ := C51_insert_entries hm h
  have e1 : n.start = r.start := by
    rcases h1.mem with h | ⟨x, -, h, -⟩
    · exact h
    · simp [hno] at h
  have e2 : n.stop = r.stop := by
    rcases h2.mem with h | ⟨x, -, h, -⟩
    · exact h
    · simp [hno] at h
  have en : n = r := by cases n; cases r; simp_all
  subst en
  intro y
  rw [h3 y]
  refine or_congr Iff.rfl (exists_congr fun x => and_congr_right fun hx => ?_)
  exact ⟨fun h => by cases h with | equal h => simp [hno] at h | other _ h => exact h,
    fun h => .other (hno x) h⟩

example := C51_insert_unequal_verbatim (K := Demo.TagKey) (V := Demo.Flo) (m := Demo.oddMap)
    Demo.oddMap_reachable (r := ⟨⟨3, true⟩, ⟨8, true⟩⟩) (v := .nan) rfl (by decide)
    (⟨⟨3, true⟩, ⟨8, true⟩⟩, .nan)

/-- **C51** An entry that does not touch `r` is still there after `insert(r, v)`, the very same. -/
theorem C51_insert_keeps_untouched {m m' : RangeMap K V} (hm : Reachable m) {r : Range K} {v : V}
    (h : m.insert r v = .ok m') {x : Range K × V} (hx : x ∈ m.iter) (ht : ¬ Touch r x.1) :
    x ∈ m'.iter := by
  obtain ⟨n, -, -, h3⟩ := C51_insert_entries hm h
  rw [h3]
  refine Or.inr ⟨x, hx, ?_⟩
  cases hv : x.2 == v with
  | true => exact .equal hv ht
  | false => exact .other hv (.keep fun h => ht (Or.inl h))

/-- **C51** Every value and every range end in the map afterwards is literally one that was there
before or was passed to `insert`. -/
theorem C51_insert_provenance {m m' : RangeMap K V} (hm : Reachable m) {r : Range K} {v : V}
    (h : m.insert r v = .ok m') {y : Range K × V} (hy : y ∈ m'.iter) :
    (y.2 = v ∨ ∃ x ∈ m.iter, y.2 = x.2) ∧
    ∀ k, k = y.1.start ∨ k = y.1.stop →
      k = r.start ∨ k = r.stop ∨ ∃ x ∈ m.iter, k = x.1.start ∨ k = x.1.stop := by
  obtain ⟨n, h1, h2, h3⟩ := C51_insert_entries hm h
  rcases (h3 y).1 hy with rfl | ⟨x, hx, ha⟩
  · refine ⟨Or.inl rfl, ?_⟩
    rintro k (rfl | rfl)
    · rcases h1.mem with h | ⟨x, hx, -, -, h⟩
      · exact Or.inl h
      · exact Or.inr (Or.inr ⟨x, hx, Or.inl h⟩)
    · rcases h2.mem with h | ⟨x, hx, -, -, h⟩
      · exact Or.inr (Or.inl h)
      · exact Or.inr (Or.inr ⟨x, hx, Or.inr h⟩)
  · rcases ha with ⟨_, _⟩ | ⟨_, _ | _ | _⟩
    · exact ⟨Or.inr ⟨_, hx, rfl⟩, fun k hk => Or.inr (Or.inr ⟨_, hx, hk⟩)⟩
    · exact ⟨Or.inr ⟨_, hx, rfl⟩, fun k hk => Or.inr (Or.inr ⟨_, hx, hk⟩)⟩
    · refine ⟨Or.inr ⟨_, hx, rfl⟩, ?_⟩
      rintro k (rfl | rfl)
      · exact Or.inr (Or.inr ⟨x, hx, Or.inl rfl⟩)
      · exact Or.inl rfl
    · refine ⟨Or.inr ⟨_, hx, rfl⟩, ?_⟩
      rintro k (rfl | rfl)
      · exact Or.inr (Or.inl rfl)
      · exact Or.inr (Or.inr ⟨x, hx, Or.inr rfl⟩)

-- a map and an insertion that merges on the left, swallows, and cuts on the right
example : Reachable Demo.map ∧ ∃ m', Demo.map.insert ⟨3, 22⟩ 'a' = .ok m' ∧
    m'.iter = [(⟨0, 22⟩, 'a'), (⟨22, 25⟩, 'b'), (⟨25, 40⟩, 'c')] :=
  ⟨Demo.map_reachable, _, rfl, rfl⟩
-- NaN next to NaN
example : Reachable Demo.oddMap ∧ (Demo.Flo.nan == Demo.Flo.nan) = false ∧
    ∃ m', Demo.oddMap.insert ⟨⟨4, true⟩, ⟨9, true⟩⟩ .nan = .ok m' ∧
      m'.iter = [(⟨⟨0, true⟩, ⟨4, true⟩⟩, .nan), (⟨⟨4, true⟩, ⟨9, true⟩⟩, .nan),
        (⟨⟨9, false⟩, ⟨12, true⟩⟩, .num 3)] :=
  ⟨Demo.oddMap_reachable, rfl, _, rfl, rfl⟩
example : ¬ Touch (⟨3, 22⟩ : Range Nat) ⟨25, 40⟩ := by
  rw [touch_iff (by decide) (by decide)]
  simp [Tch]

end

/-! ## Inclusive maps -/

namespace Inclusive
section
open RangeInclusiveMap

theorem common_iff {r x : RangeInclusive K} (hr : r.start ≤ r.stop) (hx : x.start ≤ x.stop) :
    Common icovers r x ↔ Ovl r x := by
  unfold Common icovers Ovl
  simp only [decide_eq_true_eq]
  constructor
  · rintro ⟨k, h1, h2⟩; grind
  · intro h
    by_cases hle : r.start ≤ x.start
    · exact ⟨x.start, by grind⟩
    · exact ⟨r.start, by grind⟩

theorem touch_iff {r x : RangeInclusive K} (hr : r.start ≤ r.stop) (hx : x.start ≤ x.stop) :
    ITouch r x ↔ Tch r x := by
  unfold ITouch
  rw [common_iff hr hx]
  unfold Ovl Tch
  constructor
  · rintro (h | h | h)
    · exact ⟨Or.inl h.1, Or.inl h.2⟩
    · have := h.1
      exact ⟨Or.inr h, Or.inl (by grind)⟩
    · have := h.1
      exact ⟨Or.inl (by grind), Or.inr h⟩
  · rintro ⟨h1 | h1, h2 | h2⟩
    · exact Or.inl ⟨h1, h2⟩
    · exact Or.inr (Or.inr h2)
    · exact Or.inr (Or.inl h1)
    · exact Or.inr (Or.inl h1)

theorem afterRemove_iff {S : StepFns K} {r : RangeInclusive K} {x y : RangeInclusive K × V}
    (hr : r.start ≤ r.stop) (hx : x.1.start ≤ x.1.stop) : IAfterRemove S r x y ↔
      (¬ Ovl r x.1 ∧ y = x) ∨ (Ovl r x.1 ∧ Piece S r x y) := by
  rw [← common_iff hr hx]
  unfold Piece
  constructor
  · rintro (h | ⟨h1, h2, h3⟩ | ⟨h1, h2, h3⟩)
    · exact Or.inl ⟨h, rfl⟩
    · exact Or.inr ⟨h1, Or.inl ⟨h2, _, h3, rfl⟩⟩
    · exact Or.inr ⟨h1, Or.inr ⟨h2, _, h3, rfl⟩⟩
  · rintro (⟨h1, rfl⟩ | ⟨h1, ⟨h2, _, h3, rfl⟩ | ⟨h2, _, h3, rfl⟩⟩)
    · exact .keep h1
    · exact .left h1 h2 h3
    · exact .right h1 h2 h3

theorem afterInsert_iff {S : StepFns K} {r : RangeInclusive K} {v : V}
    {x y : RangeInclusive K × V} (hr : r.start ≤ r.stop)
    (hx : x.1.start ≤ x.1.stop) : IAfterInsert S r v x y ↔ Survives S r v x y := by
  unfold Survives
  constructor
  · rintro (⟨h1, h2⟩ | ⟨h1, h2⟩)
    · exact Or.inl ⟨h1, by rwa [touch_iff hr hx] at h2, rfl⟩
    · rcases (afterRemove_iff hr hx).1 h2 with h3 | h3
      · exact Or.inr (Or.inl ⟨h1, h3⟩)
      · exact Or.inr (Or.inr ⟨h1, h3⟩)
  · rintro (⟨h1, h2, rfl⟩ | ⟨h1, h2⟩ | ⟨h1, h2⟩)
    · exact .equal h1 (by rwa [touch_iff hr hx])
    · exact .other h1 ((afterRemove_iff hr hx).2 (Or.inl h2))
    · exact .other h1 ((afterRemove_iff hr hx).2 (Or.inr h2))

/-- **C51** After `insert(r, v)` the map holds the entry `n ↦ v`, where `n` runs from the least
start to the greatest end among `r` and the stored ranges with a value equal to `v` that touch
`r`; and what is left of the other entries; and nothing else.  This includes maps and arguments
with exhausted ranges (`ReachableAny`). -/
theorem C51_insert_entries {S : StepFns K} (hS : LawfulSteps S) {m m' : RangeInclusiveMap K V}
    (hm : ReachableAny S m) {r : RangeInclusive K} {v : V} (h : m.insert S r v = .ok m') :
    ∃ n : RangeInclusive K, (n = r ∨ n.exhausted = false) ∧
      IsLeast (fun k => k = r.start ∨ ∃ x ∈ m.iter, (x.2 == v) = true ∧ ITouch r x.1 ∧
        k = x.1.start) n.start ∧
      IsGreatest (fun k => k = r.stop ∨ ∃ x ∈ m.iter, (x.2 == v) = true ∧ ITouch r x.1 ∧
        k = x.1.stop) n.stop ∧
      ∀ y, y ∈ m'.iter ↔ y = (n, v) ∨ ∃ x ∈ m.iter, IAfterInsert S r v x y := by
  have hr : r.start ≤ r.stop := by
    apply Decidable.byContradiction
    intro hr
    simp [insert_invalid hr] at h
  have hw := (reachableAny_iff hS).1 hm
  obtain ⟨m'', n, h1, h2, h3, hex, h4, h5, h6, h7⟩ := insert_exact hS hw v hr
  rw [h] at h1
  obtain rfl := Except.ok.inj h1
  refine ⟨n, hex.symm, ⟨?_, ?_⟩, ⟨?_, ?_⟩, ?_⟩
  · rcases h5 with h5 | ⟨a, ha, hv, ht, -, h5⟩
    · exact Or.inl h5
    · exact Or.inr ⟨a, ha, hv, (touch_iff hr (hw.sep.ne a ha)).2 ht, h5⟩
  · rintro k (rfl | ⟨a, ha, hv, ht, rfl⟩)
    · exact h2
    · exact (h4 a ha hv ((touch_iff hr (hw.sep.ne a ha)).1 ht)).1
  · rcases h6 with h5 | ⟨a, ha, hv, ht, -, h5⟩
    · exact Or.inl h5
    · exact Or.inr ⟨a, ha, hv, (touch_iff hr (hw.sep.ne a ha)).2 ht, h5⟩
  · rintro k (rfl | ⟨a, ha, hv, ht, rfl⟩)
    · exact h3
    · exact (h4 a ha hv ((touch_iff hr (hw.sep.ne a ha)).1 ht)).2
  · intro y
    refine (h7 y).trans (or_congr Iff.rfl ?_)
    constructor
    · rintro ⟨x, hx, hs⟩
      exact ⟨x, hx, (afterInsert_iff hr (hw.sep.ne x hx)).2 hs⟩
    · rintro ⟨x, hx, hs⟩
      exact ⟨x, hx, (afterInsert_iff hr (hw.sep.ne x hx)).1 hs⟩

example := Inclusive.C51_insert_entries (K := UIntW 8) (V := Char) (S := Demo.u8) Demo.u8_lawful
    (m := Demo.imap) Demo.imap_reachable.any (r := Demo.by8 2 22) (v := 'q') rfl

/-- **C51** After `remove(r)` the map holds what is left of the entries, and nothing else. -/
theorem C51_remove_entries {S : StepFns K} (hS : LawfulSteps S) {m m' : RangeInclusiveMap K V}
    (hm : ReachableAny S m) {r : RangeInclusive K} (h : m.remove S r = .ok m') :
    ∀ y, y ∈ m'.iter ↔ ∃ x ∈ m.iter, IAfterRemove S r x y := by
  have hr : r.start ≤ r.stop := by
    apply Decidable.byContradiction
    intro hr
    simp [remove_invalid hr] at h
  have hw := (reachableAny_iff hS).1 hm
  obtain ⟨m'', h1, h7⟩ := remove_exact hS hw hr
  rw [h] at h1
  obtain rfl := Except.ok.inj h1
  intro y
  refine (h7 y).trans ?_
  constructor
  · rintro ⟨x, hx, hs⟩
    exact ⟨x, hx, (afterRemove_iff hr (hw.sep.ne x hx)).2 hs⟩
  · rintro ⟨x, hx, hs⟩
    exact ⟨x, hx, (afterRemove_iff hr (hw.sep.ne x hx)).1 hs⟩

example := Inclusive.C51_remove_entries (K := UIntW 8) (V := Char) (S := Demo.u8) Demo.u8_lawful
    (m := Demo.imap) Demo.imap_reachable.any (r := Demo.by8 2 22) rfl (Demo.by8 5 15, 'a')

/-- **C51** The entries determine the map. -/
theorem C51_entries_determine {S : StepFns K} (hS : LawfulSteps S) {m m' : RangeInclusiveMap K V}
    (hm : ReachableAny S m) (hm' : ReachableAny S m')
    (h : ∀ y, y ∈ m.iter ↔ y ∈ m'.iter) : m = m' := by
  have hw := (reachableAny_iff hS).1 hm
  have hw' := (reachableAny_iff hS).1 hm'
  have hnd : ∀ {l : List (RangeInclusive K × V)}, Sep l → l.Nodup := fun hl =>
    hl.pw.imp_of_mem fun {a b} ha hb hab => by
      rintro rfl
      have := hab.1
      grind
  have hp : m.btm.Perm m'.btm := by
    rw [List.perm_ext_iff_of_nodup (hnd hw.sep) (hnd hw'.sep)]
    exact h
  have : m.btm = m'.btm :=
    hp.eq_of_pairwise (fun a b _ _ h1 h2 => by
      exfalso; have := h1.1; have := h2.1; grind) hw.sep.pw hw'.sep.pw
  cases m; cases m'; simp_all

example := Inclusive.C51_entries_determine (K := UIntW 8) (V := Char) (S := Demo.u8)
    Demo.u8_lawful (m := Demo.imap) (m' := Demo.imap) Demo.imap_reachable.any
    Demo.imap_reachable.any (fun _ => .rfl)

/-- **C51** A value that is not even equal to itself (like NaN) is stored under exactly the range
given, never coalesced with anything. -/
theorem C51_insert_unequal_verbatim {S : StepFns K} (hS : LawfulSteps S)
    {m m' : RangeInclusiveMap K V} (hm : ReachableAny S m) {r : RangeInclusive K} {v : V}
    (h : m.insert S r v = .ok m') (hv : (v == v) = false) (hx : r.exhausted = false) :
    ∀ y, y ∈ m'.iter ↔ y = (r, v) ∨ ∃ x ∈ m.iter, IAfterRemove S r x y := by
  have hno : ∀ x : RangeInclusive K × V, (x.2 == v) = false := by
    intro x
    cases hx : x.2 == v with
    | false => rfl
    | true =>
      have := PartialEquivBEq.trans (PartialEquivBEq.symm hx) hx
      simp [hv] at this
  obtain ⟨n, h0, h1, h2, h3⟩ := C51_insert_entries hS hm h
  have e1 : n.start = r.start := by
    rcases h1.mem with h | ⟨x, -, h, -⟩
    · exact h
    · simp [hno] at h
  have e2 : n.stop = r.stop := by
    rcases h2.mem with h | ⟨x, -, h, -⟩
    · exact h
    · simp [hno] at h
  have en : n = r := by
    rcases h0 with h0 | h0
    · exact h0
    · cases n; cases r; simp_all
  subst en
  intro y
  rw [h3 y]
  refine or_congr Iff.rfl (exists_congr fun x => and_congr_right fun hx => ?_)
  exact ⟨fun h => by cases h with | equal h => simp [hno] at h | other _ h => exact h,
    fun h => .other (hno x) h⟩

example := Inclusive.C51_insert_unequal_verbatim (K := Demo.TagKey) (V := Demo.Flo)
    (S := Demo.tagSteps) Demo.tagSteps_lawful (m := Demo.ioddMap) Demo.ioddMap_reachable.any
    (r := (.mk' ⟨3, true⟩ ⟨8, true⟩)) (v := .nan) rfl (by decide) (by decide)
    (.mk' ⟨3, true⟩ ⟨8, true⟩, .nan)

/-- **C51** An entry that does not touch `r` is still there after `insert(r, v)`, the very same. -/
theorem C51_insert_keeps_untouched {S : StepFns K} (hS : LawfulSteps S)
    {m m' : RangeInclusiveMap K V} (hm : ReachableAny S m) {r : RangeInclusive K} {v : V}
    (h : m.insert S r v = .ok m') {x : RangeInclusive K × V} (hx : x ∈ m.iter)
    (ht : ¬ ITouch r x.1) : x ∈ m'.iter := by
  obtain ⟨n, -, -, -, h3⟩ := C51_insert_entries hS hm h
  rw [h3]
  refine Or.inr ⟨x, hx, ?_⟩
  cases hv : x.2 == v with
  | true => exact .equal hv ht
  | false => exact .other hv (.keep fun h => ht (Or.inl h))

-- merges on the left, swallows, and cuts on the right; the pieces' ends come from `add_one`
example : ReachableAny Demo.u8 Demo.imap ∧
    ∃ m', Demo.imap.insert Demo.u8 (Demo.by8 3 21) 'a' = .ok m' ∧
      m'.iter = [(Demo.by8 0 21, 'a'), (Demo.by8 22 24, 'b'), (Demo.by8 25 255, 'c')] :=
  ⟨(reachableAny_iff Demo.u8_lawful).2 (Demo.imap_reachable.wf Demo.u8_lawful).sc, _, rfl, rfl⟩
example : ReachableAny Demo.tagSteps Demo.ioddMap ∧ (Demo.Flo.nan == Demo.Flo.nan) = false ∧
    ∃ m', Demo.ioddMap.insert Demo.tagSteps (.mk' ⟨4, true⟩ ⟨8, true⟩) .nan = .ok m' ∧
      m'.iter = [(.mk' ⟨0, true⟩ ⟨3, true⟩, .nan), (.mk' ⟨4, true⟩ ⟨8, true⟩, .nan),
        (.mk' ⟨9, false⟩ ⟨11, true⟩, .num 3)] :=
  ⟨(reachableAny_iff Demo.tagSteps_lawful).2
    (Demo.ioddMap_reachable.wf Demo.tagSteps_lawful).sc, rfl, _, rfl, rfl⟩

end
end Inclusive

/-! ### Cases that meet the hypotheses -/

example := C51_insert_keeps_untouched (K := Nat) (V := Char) (m := Demo.map) Demo.map_reachable
    (r := ⟨30, 35⟩) (v := 'q') rfl (x := (⟨5, 15⟩, 'a')) (by decide)
    (by simp [Touch, Common, covers]; omega)

end Verif.Props

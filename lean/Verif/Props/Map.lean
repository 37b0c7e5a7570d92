import Verif.Proof.Canon
import Verif.Props.Demo

/-!
# Properties C01–C09 of `RangeMap`

Every theorem is for an arbitrary key type whose `Ord` is a total preorder and (unless it says
otherwise) an arbitrary value type whose `==` is symmetric and transitive.
-/
set_option linter.unusedSectionVars false

namespace Verif.Props
open RangeMap Spec
variable {K : Type} [LE K] [LT K] [DecidableLE K] [DecidableLT K]
  [Std.IsLinearPreorder K] [Std.LawfulOrderLT K] {V : Type} [BEq V] [PartialEquivBEq V]

/-! ## C01 -/

/-- **C01** `insert(a..b, v)` succeeds, and afterwards every key of `a..b` maps to exactly `v`. -/
theorem C01_insert_inside {m : RangeMap K V} (hm : Reachable m) {r : Range K} (v : V)
    (hr : r.start < r.stop) :
    ∃ m', m.insert r v = .ok m' ∧ Reachable m' ∧
      ∀ k, r.start ≤ k → k < r.stop → m'.get k = .ok (some v) := by
  obtain ⟨m', h1, h2⟩ := insert_ok hm.wf v hr
  refine ⟨m', h1, hm.insert h1, fun k hk hk' => ?_⟩
  rw [get_look h2.sep, (insert_look hm.wf hr h1 k).1 hk hk']

/-- **C01** Outside `a..b`, `get` is what it was before, except that a value `w == v` whose range
was coalesced with the new one may have been replaced by `v`. -/
theorem C01_insert_outside {m m' : RangeMap K V} (hm : Reachable m) {r : Range K} {v : V}
    (h : m.insert r v = .ok m') (k : K) (hk : ¬ (r.start ≤ k ∧ k < r.stop)) :
    m'.get k = m.get k ∨
      ∃ w, m.get k = .ok (some w) ∧ (w == v) = true ∧ m'.get k = .ok (some v) := by
  have hr : r.start < r.stop := by
    apply Decidable.byContradiction
    intro hr
    simp [insert_invalid hr] at h
  have h2 := (hm.insert h).wf
  rw [get_look h2.sep, get_look hm.wf.sep]
  rcases (insert_look hm.wf hr h k).2 hk with h | ⟨w, h1, h2, h3⟩
  · left; rw [h]
  · right; exact ⟨w, by rw [h1], h2, by rw [h3]⟩

example := C01_insert_outside (K := Nat) (V := Char) (m := Demo.map) Demo.map_reachable
    (r := ⟨2, 22⟩) (v := 'q') rfl 25 (by decide)

/-- **C01** When `==` on values is equality, `get` outside the range is unchanged. -/
theorem C01_insert_outside_exact [LawfulBEq V] {m m' : RangeMap K V} (hm : Reachable m)
    {r : Range K} {v : V} (h : m.insert r v = .ok m') (k : K)
    (hk : ¬ (r.start ≤ k ∧ k < r.stop)) : m'.get k = m.get k := by
  rcases C01_insert_outside hm h k hk with h | ⟨w, h1, h2, h3⟩
  · exact h
  · rw [h1, h3, eq_of_beq h2]

-- insert 4..22 over "a a b c": coalesces with both 'a' ranges
example : (Demo.map.insert ⟨3, 22⟩ 'a').toOption.map (·.btm) =
    some [(⟨0, 22⟩, 'a'), (⟨22, 25⟩, 'b'), (⟨25, 40⟩, 'c')] := by rfl
example : ∃ m', Demo.map.insert ⟨3, 22⟩ 'a' = .ok m' ∧ Reachable m' ∧
    ∀ k, 3 ≤ k → k < 22 → m'.get k = .ok (some 'a') :=
  C01_insert_inside Demo.map_reachable 'a' (by decide)

/-! ## C02 -/

/-- **C02** `remove(a..b)` succeeds; afterwards no key of `a..b` is mapped and every other key is
mapped as before (exactly). -/
theorem C02_remove_pointwise {m : RangeMap K V} (hm : Reachable m) {r : Range K}
    (hr : r.start < r.stop) :
    ∃ m', m.remove r = .ok m' ∧ Reachable m' ∧
      (∀ k, r.start ≤ k → k < r.stop → m'.get k = .ok none) ∧
      (∀ k, ¬ (r.start ≤ k ∧ k < r.stop) → m'.get k = m.get k) := by
  obtain ⟨m', h1, h2, _⟩ := remove_spec hm.wf hr
  have h1 : m.remove r = .ok m' := h1 _ (Nat.le_refl _)
  refine ⟨m', h1, hm.remove h1, fun k hk hk' => ?_, fun k hk => ?_⟩
  · rw [get_look h2.sep, remove_look hm.wf hr h1 k, if_pos ⟨hk, hk'⟩]
  · rw [get_look h2.sep, get_look hm.wf.sep, remove_look hm.wf hr h1 k, if_neg hk]

example : (Demo.map.remove ⟨2, 30⟩).toOption.map (·.btm) =
    some [(⟨0, 2⟩, 'a'), (⟨30, 40⟩, 'c')] := by rfl
example : Reachable Demo.map ∧ (⟨2, 30⟩ : Range Nat).start < 30 := ⟨Demo.map_reachable, by decide⟩

/-! ## C03 -/

/-- **C03** After any history of `insert`/`remove`/`clear`/`extend` calls (invalid ones panic and
are caught), `get(k)` agrees with what the last operation covering `k` wrote. -/
theorem C03_refinement (ops : List (Op (Range K) V)) (k : K) :
    ∃ o, (run ops).get k = .ok o ∧ Agree o (lastWrite covers valid ops.reverse k) :=
  ⟨_, get_look (Reachable.wf ⟨ops, rfl⟩).sep k, run_look ops k⟩

example := C03_refinement (K := Nat) (V := Char) Demo.ops 7

/-- **C03** ... and is exactly that when `==` on values is equality. -/
theorem C03_refinement_exact [LawfulBEq V] (ops : List (Op (Range K) V)) (k : K) :
    (run ops).get k = .ok (lastWrite covers valid ops.reverse k) := by
  obtain ⟨o, h1, h2⟩ := C03_refinement ops k
  rw [h1, Agree.eq h2]

example : (run Demo.ops).btm = Demo.map.btm := by rfl
example : lastWrite covers valid Demo.ops.reverse 4 = (none : Option Char) ∧
    lastWrite covers valid Demo.ops.reverse 26 = some 'c' ∧
    lastWrite covers valid Demo.ops.reverse 14 = some 'a' := by decide

/-! ## C04, C05 -/

/-- **C04** The ranges of `iter()` are non-empty, and each ends at or before the start of any later
one. -/
theorem C04_sorted_disjoint {m : RangeMap K V} (hm : Reachable m) :
    (∀ e ∈ m.iter, e.1.start < e.1.stop) ∧
    m.iter.Pairwise (fun a b => a.1.stop ≤ b.1.start) :=
  ⟨hm.wf.sep.ne, hm.wf.sep.pw.imp fun h => h.2⟩

example := C04_sorted_disjoint (K := Nat) (V := Char) (m := Demo.map) Demo.map_reachable

/-- **C04** Hence both the starts and the ends are strictly increasing: ordering the tree by end
(as the `Borrow` trick of range_wrapper.rs does) is the same as ordering it by start. -/
theorem C04_starts_and_ends_strictly_increase {m : RangeMap K V} (hm : Reachable m) :
    m.iter.Pairwise (fun a b => a.1.start < b.1.start) ∧
    m.iter.Pairwise (fun a b => a.1.stop < b.1.stop) := by
  have hs := hm.wf.sep
  refine ⟨hs.pw.imp fun h => h.1, ?_⟩
  refine hs.pw.imp_of_mem fun {a b} _ hb h => ?_
  have := hs.ne b hb
  have := h.2
  grind

example := C04_starts_and_ends_strictly_increase (K := Nat) (V := Char) (m := Demo.map)
    Demo.map_reachable

/-- **C05** Ranges that touch carry values that do not compare `==`. -/
theorem C05_coalesced {m : RangeMap K V} (hm : Reachable m) :
    ∀ a ∈ m.iter, ∀ b ∈ m.iter, keq a.1.stop b.1.start = true → (a.2 == b.2) = false := by
  intro a ha b hb h
  rw [keq_iff] at h
  exact hm.wf.coal a ha b hb h.1 h.2

example : Reachable Demo.map ∧ 2 ≤ Demo.map.iter.length := ⟨Demo.map_reachable, by decide⟩
-- two touching NaN ranges stay separate, in a map with keys that compare equal but differ
example : Reachable Demo.oddMap ∧ Demo.oddMap.iter.length = 3 :=
  ⟨Demo.oddMap_reachable, by decide⟩

/-! ## C06 -/

/-- **C06** Two maps are `==` exactly when `get` agrees on every key. -/
theorem C06_canonical [ReflBEq V] {m m' : RangeMap K V} (hm : Reachable m)
    (hm' : Reachable m') :
    m.eq m' = true ↔
      ∀ k, ∃ o o', m.get k = .ok o ∧ m'.get k = .ok o' ∧ Agree o o' := by
  have : EquivBEq V := {}
  rw [eq_iff_look hm.wf hm'.wf]
  constructor
  · intro h k
    exact ⟨_, _, get_look hm.wf.sep k, get_look hm'.wf.sep k, h k⟩
  · intro h k
    obtain ⟨o, o', h1, h2, h3⟩ := h k
    rw [get_look hm.wf.sep] at h1
    rw [get_look hm'.wf.sep] at h2
    cases h1; cases h2
    exact h3

example := C06_canonical (K := Nat) (V := Char) (m := Demo.map) (m' := Demo.map')
    Demo.map_reachable Demo.map'_reachable

theorem iterEq_eq_of_lawful [LawfulBEq V] (hk : ∀ a b : K, a ≤ b → b ≤ a → a = b) :
    ∀ {l l' : List (Range K × V)}, iterEq entryEq l l' = true → l = l'
  | [], [], _ => rfl
  | _ :: _, [], h => by simp [iterEq] at h
  | [], _ :: _, h => by simp [iterEq] at h
  | ⟨⟨a, b⟩, v⟩ :: t, ⟨⟨a', b'⟩, v'⟩ :: t', h => by
    simp only [iterEq, entryEq, keq, Bool.and_eq_true, decide_eq_true_eq] at h
    have ih := iterEq_eq_of_lawful hk h.2
    have h1 := hk a a' h.1.1.1.1 h.1.1.1.2
    have h2 := hk b b' h.1.1.2.1 h.1.1.2.2
    have h3 := eq_of_beq h.1.2
    subst h1 h2 h3 ih
    rfl

/-- **C06** For keys without distinct equal elements and exact value equality: the stored entries
are a function of the contents, whatever history led there. -/
theorem C06_history_independent [LawfulBEq V] (hk : ∀ a b : K, a ≤ b → b ≤ a → a = b)
    (ops ops' : List (Op (Range K) V))
    (h : ∀ k, lastWrite covers valid ops.reverse k = lastWrite covers valid ops'.reverse k) :
    (run ops).iter = (run ops').iter := by
  apply iterEq_eq_of_lawful hk
  refine (C06_canonical ⟨ops, rfl⟩ ⟨ops', rfl⟩).2 fun k => ?_
  exact ⟨_, _, C03_refinement_exact ops k, C03_refinement_exact ops' k, by
    rw [h]; exact Agree.refl _⟩

example : (run Demo.ops).iter = (run [.insert ⟨25, 40⟩ 'c', .insert ⟨12, 15⟩ 'a',
    .insert ⟨20, 25⟩ 'b', .insert ⟨5, 12⟩ 'a', .insert ⟨0, 3⟩ 'a']).iter := by rfl
example : Demo.map.eq (run [.insert ⟨0, 4⟩ 'a']) = false := by decide

/-! ## C07 -/

/-- **C07** `insert` panics exactly when `start >= end`, with the assertion, and then the map is
unchanged. -/
theorem C07_insert_panics {m : RangeMap K V} (hm : Reachable m) (r : Range K) (v : V) :
    ((∃ p, m.insert r v = .error p) ↔ r.stop ≤ r.start) ∧
    (∀ p, m.insert r v = .error p → p = .assertFailed ∧ (m.apply (.insert r v)).1 = m) := by
  by_cases hr : r.start < r.stop
  · obtain ⟨m', h1, _⟩ := insert_ok hm.wf v hr
    simp [h1]
    grind
  · simp [insert_invalid hr, RangeMap.apply]
    grind

example := C07_insert_panics (K := Nat) (V := Char) (m := Demo.map) Demo.map_reachable ⟨2, 22⟩ 'q'

/-- **C07** Likewise for `remove`. -/
theorem C07_remove_panics {m : RangeMap K V} (hm : Reachable m) (r : Range K) :
    ((∃ p, m.remove r = .error p) ↔ r.stop ≤ r.start) ∧
    (∀ p, m.remove r = .error p → p = .assertFailed ∧ (m.apply (.remove r)).1 = m) := by
  by_cases hr : r.start < r.stop
  · obtain ⟨m', h1, _⟩ := remove_spec hm.wf hr
    have h1 : m.remove r = .ok m' := h1 _ (Nat.le_refl _)
    simp [h1]
    grind
  · simp [remove_invalid hr, RangeMap.apply]
    grind

example := C07_remove_panics (K := Nat) (V := Char) (m := Demo.map) Demo.map_reachable ⟨2, 22⟩

/-- **C07** Lookups never panic. -/
theorem C07_lookups_never_panic {m : RangeMap K V} (hm : Reachable m) (k : K) :
    (∃ o, m.getKeyValue k = .ok o) ∧ (∃ o, m.get k = .ok o) ∧ (∃ b, m.containsKey k = .ok b) := by
  obtain ⟨o, h, _⟩ := getKeyValue_spec hm.wf.sep k
  refine ⟨⟨o, h⟩, ⟨_, get_look hm.wf.sep k⟩, ?_⟩
  simp [containsKey, get_look hm.wf.sep k, bind, Except.bind, pure, Except.pure]

example : Demo.map.insert ⟨7, 7⟩ 'x' = .error .assertFailed := by rfl
example : (Demo.map.insert ⟨7, 8⟩ 'x').toOption.isSome := by rfl

/-! ## C08 -/

/-- **C08** The loop of `insert` stops within `len + 2` iterations: whatever larger number of
iterations is allowed, the result is the same, and is never "still running". -/
theorem C08_insert_terminates {m : RangeMap K V} (hm : Reachable m) (r : Range K) (v : V)
    (fuel : Nat) (hf : m.len + 2 ≤ fuel) :
    insertFuel fuel m r v = m.insert r v ∧ m.insert r v ≠ .error .diverge := by
  by_cases hr : r.start < r.stop
  · obtain ⟨m', h1, _⟩ := insert_spec hm.wf v hr
    simp [RangeMap.insert, h1 fuel hf, h1 _ (Nat.le_refl _)]
  · simp [RangeMap.insert, insertFuel, hr, bind, Except.bind, throw, throwThe,
      MonadExceptOf.throw]

example := C08_insert_terminates (K := Nat) (V := Char) (m := Demo.map) Demo.map_reachable ⟨2, 22⟩
    'q' 9 (by decide)

/-- **C08** Likewise for `remove`. -/
theorem C08_remove_terminates {m : RangeMap K V} (hm : Reachable m) (r : Range K)
    (fuel : Nat) (hf : m.len + 2 ≤ fuel) :
    removeFuel fuel m r = m.remove r ∧ m.remove r ≠ .error .diverge := by
  by_cases hr : r.start < r.stop
  · obtain ⟨m', h1, _⟩ := remove_spec hm.wf hr
    simp [RangeMap.remove, h1 fuel hf, h1 _ (Nat.le_refl _)]
  · simp [RangeMap.remove, removeFuel, hr, bind, Except.bind, throw, throwThe,
      MonadExceptOf.throw]

-- the bound matters: with too little fuel the model does report that the loop is still running
example : insertFuel 3 Demo.map ⟨0, 40⟩ 'x' = .error .diverge := by rfl
example : (insertFuel (Demo.map.len + 2) Demo.map ⟨0, 40⟩ 'x').toOption.map (·.btm) =
    some [(⟨0, 40⟩, 'x')] := by rfl

/-! ## C09 -/

/-- **C09** `get_key_value(k)` is `Some((r, v))` iff `(r, v)` is an entry of `iter()` whose range
contains `k`. -/
theorem C09_get_key_value {m : RangeMap K V} (hm : Reachable m) (k : K) (e : Range K × V) :
    m.getKeyValue k = .ok (some e) ↔ e ∈ m.iter ∧ e.1.start ≤ k ∧ k < e.1.stop := by
  obtain ⟨o, h, hs⟩ := getKeyValue_spec hm.wf.sep k
  rw [h, RangeMap.iter, ← hs]
  simp

example := C09_get_key_value (K := Nat) (V := Char) (m := Demo.map) Demo.map_reachable 7
    (⟨5, 15⟩, 'a')

/-- **C09** At most one entry contains a key. -/
theorem C09_unique {m : RangeMap K V} (hm : Reachable m) (k : K) {a b : Range K × V}
    (ha : a ∈ m.iter) (hb : b ∈ m.iter) (hka : a.1.start ≤ k ∧ k < a.1.stop)
    (hkb : b.1.start ≤ k ∧ k < b.1.stop) : a = b :=
  hm.wf.sep.unique ha hb hka hkb

example := C09_unique (K := Nat) (V := Char) (m := Demo.map) Demo.map_reachable 7
    (a := (⟨5, 15⟩, 'a')) (b := (⟨5, 15⟩, 'a')) (by decide) (by decide) (by decide) (by decide)

/-- **C09** `get` and `contains_key` are its projections. -/
theorem C09_projections {m : RangeMap K V} (hm : Reachable m) (k : K) :
    ∃ o, m.getKeyValue k = .ok o ∧ m.get k = .ok (o.map (·.2)) ∧
      m.containsKey k = .ok o.isSome := by
  obtain ⟨o, h, _⟩ := getKeyValue_spec hm.wf.sep k
  refine ⟨o, h, ?_, ?_⟩ <;>
    simp [RangeMap.get, containsKey, h, bind, Except.bind, pure, Except.pure]

example : Demo.map.getKeyValue 14 = .ok (some (⟨5, 15⟩, 'a')) ∧
    Demo.map.getKeyValue 15 = .ok none := ⟨by rfl, by rfl⟩

end Verif.Props

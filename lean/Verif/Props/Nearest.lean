import Verif.Props.Demo
import Verif.Props.Recipes

/-!
# C107: the nearest keys with and without a value

`overlapping(&q).next()` is how a program finds the first key of `q` with a value,
`overlapping(&q).next_back()` the last, and `gaps(&q).next()` the first key of `q` without one.
With a `q` that reaches to the end of the key type these are the usual successor and predecessor
queries.  Each of them is one call on a fresh iterator; the rest of the items is never produced.
-/
set_option linter.unusedSectionVars false

namespace Verif.Props
open Spec RangeMap
variable {K : Type} [LE K] [LT K] [DecidableLE K] [DecidableLT K]
  [Std.IsLinearPreorder K] [Std.LawfulOrderLT K] {V : Type} [BEq V] [PartialEquivBEq V]

theorem mem_shared (m : RangeMap K V) (q : Range K) (e : Range K × V) :
    e ∈ m.btm.filter (fun e => decide (q.start < e.1.stop) && decide (e.1.start < q.stop)) ↔
      e ∈ m.btm ∧ q.start < e.1.stop ∧ e.1.start < q.stop := by
  rw [List.mem_filter]
  simp

/-- **C107** The first key of `q` with a value: it lies in the entry `overlapping(&q).next()`
returns, at the later of the two starts.  Nothing of `q` before it has a value, and if `None` is
returned nothing of `q` has. -/
theorem C107_first_covered {m : RangeMap K V} (hm : Reachable m) {q : Range K}
    (hq : q.start < q.stop) :
    ∃ o, m.overlapping q = .ok o ∧
      match o.next.1 with
      | none => ∀ k, q.start ≤ k → k < q.stop → m.get k = .ok none
      | some e => q.start ≤ rmax q.start e.1.start ∧ rmax q.start e.1.start < q.stop ∧
          m.get (rmax q.start e.1.start) = .ok (some e.2) ∧
          ∀ k, q.start ≤ k → k < rmax q.start e.1.start → m.get k = .ok none := by
  have hs := hm.wf.sep
  obtain ⟨o, h1, h2, h3⟩ := overlapping_items hs q
  refine ⟨o, h1, ?_⟩
  rw [(Overlapping.next_spec o h2).1, h3]
  have hmem := mem_shared m q
  have hpw := hs.pw.filter (fun e => decide (q.start < e.1.stop) && decide (e.1.start < q.stop))
  generalize m.btm.filter (fun e => decide (q.start < e.1.stop) && decide (e.1.start < q.stop)) = l
    at hmem hpw
  cases l with
  | nil =>
    intro k k1 k2
    rw [get_eq_none hs]
    rintro w ⟨x, hx, i1, i2, -⟩
    have := (hmem x).2 ⟨hx, Std.lt_of_le_of_lt k1 i2, Std.lt_of_le_of_lt i1 k2⟩
    cases this
  | cons e l =>
    obtain ⟨j1, j2, j3⟩ := (hmem e).1 (.head _)
    have hne := hs.ne e j1
    refine ⟨le_rmax.2 (.inl (Std.le_refl _)), rmax_lt.2 ⟨hq, j3⟩,
      (get_eq_some hs _ _).2 ⟨e, j1, le_rmax.2 (.inr (Std.le_refl _)), rmax_lt.2 ⟨j2, hne⟩, rfl⟩, ?_⟩
    intro k k1 k2
    rw [get_eq_none hs]
    rintro w ⟨x, hx, i1, i2, -⟩
    have k3 : k < e.1.start := by
      rcases lt_rmax.1 k2 with h | h
      · grind
      · exact h
    have : x ∈ e :: l := (hmem x).2 ⟨hx, Std.lt_of_le_of_lt k1 i2, by grind⟩
    rcases List.mem_cons.1 this with rfl | h
    · grind
    · have := (List.pairwise_cons.1 hpw).1 x h
      grind [Before]

example := C107_first_covered (K := Nat) (V := Char) (m := Demo.map) Demo.map_reachable
    (q := ⟨16, 30⟩) (by decide)

example : (Demo.map.overlapping ⟨16, 30⟩).toOption.map (·.next.1) = some (some (⟨20, 25⟩, 'b')) := by
  rfl

/-- **C107** The last keys of `q` with a value: they are those of the entry
`overlapping(&q).next_back()` returns that lie in `q`.  Nothing of `q` behind them has a value, and
if `None` is returned nothing of `q` has. -/
theorem C107_last_covered {m : RangeMap K V} (hm : Reachable m) {q : Range K}
    (hq : q.start < q.stop) :
    ∃ o, m.overlapping q = .ok o ∧
      match o.nextBack.1 with
      | none => ∀ k, q.start ≤ k → k < q.stop → m.get k = .ok none
      | some e => rmax q.start e.1.start < rmin q.stop e.1.stop ∧
          (∀ k, rmax q.start e.1.start ≤ k → k < rmin q.stop e.1.stop →
            m.get k = .ok (some e.2)) ∧
          ∀ k, rmin q.stop e.1.stop ≤ k → k < q.stop → m.get k = .ok none := by
  have hs := hm.wf.sep
  obtain ⟨o, h1, h2, h3⟩ := overlapping_items hs q
  refine ⟨o, h1, ?_⟩
  rw [(Overlapping.nextBack_spec o h2).1, h3]
  have hmem := mem_shared m q
  have hpw := hs.pw.filter (fun e => decide (q.start < e.1.stop) && decide (e.1.start < q.stop))
  generalize m.btm.filter (fun e => decide (q.start < e.1.stop) && decide (e.1.start < q.stop)) = l
    at hmem hpw
  cases hl : l.getLast? with
  | none =>
    obtain rfl := List.getLast?_eq_none_iff.1 hl
    intro k k1 k2
    rw [get_eq_none hs]
    rintro w ⟨x, hx, i1, i2, -⟩
    have := (hmem x).2 ⟨hx, Std.lt_of_le_of_lt k1 i2, Std.lt_of_le_of_lt i1 k2⟩
    cases this
  | some e =>
    obtain ⟨l', rfl⟩ := List.getLast?_eq_some_iff.1 hl
    obtain ⟨j1, j2, j3⟩ := (hmem e).1 (by simp)
    have hne := hs.ne e j1
    refine ⟨?_, ?_, ?_⟩
    · rw [lt_rmin, rmax_lt, rmax_lt]
      exact ⟨⟨hq, j3⟩, j2, hne⟩
    · intro k k1 k2
      exact (get_eq_some hs _ _).2 ⟨e, j1, (rmax_le.1 k1).2, (lt_rmin.1 k2).2, rfl⟩
    · intro k k1 k2
      rw [get_eq_none hs]
      rintro w ⟨x, hx, i1, i2, -⟩
      have k3 : e.1.stop ≤ k := by
        rcases rmin_le.1 k1 with h | h
        · grind
        · exact h
      have : x ∈ l' ++ [e] := (hmem x).2 ⟨hx, by grind, Std.lt_of_le_of_lt i1 k2⟩
      rcases List.mem_append.1 this with h | h
      · have := (List.pairwise_append.1 hpw).2.2 x h e (by simp)
        grind [Before]
      · cases List.mem_singleton.1 h
        grind

example := C107_last_covered (K := Nat) (V := Char) (m := Demo.map) Demo.map_reachable
    (q := ⟨3, 18⟩) (by decide)

/-- **C107** The first keys of `q` without a value: they are the range `gaps(&q).next()` returns.
All of `q` before it has values, and so has the key where it ends, unless `q` ends there; if `None`
is returned all of `q` has. -/
theorem C107_first_uncovered {m : RangeMap K V} (hm : Reachable m) (q : Range K) :
    ∃ g, m.gaps q = .ok g ∧
      match g.next.1 with
      | none => ∀ k, q.start ≤ k → k < q.stop → ∃ w, m.get k = .ok (some w)
      | some r => q.start ≤ r.start ∧ r.start < r.stop ∧ r.stop ≤ q.stop ∧
          (∀ k, q.start ≤ k → k < r.start → ∃ w, m.get k = .ok (some w)) ∧
          (∀ k, r.start ≤ k → k < r.stop → m.get k = .ok none) ∧
          (r.stop < q.stop → ∃ w, m.get r.stop = .ok (some w)) := by
  obtain ⟨g, l, h1, h2, h3, h4, h5, -⟩ := gaps_yields_list hm q
  have hdef : ∀ k, m.get k = .ok none ∨ ∃ w, m.get k = .ok (some w) := by
    intro k
    rw [get_look hm.wf.sep]
    cases m.look k <;> simp
  refine ⟨g, h1, ?_⟩
  have h6 := h2 1
  cases l with
  | nil =>
    rw [show g.next.1 = none by simpa [calls] using h6]
    intro k k1 k2
    rcases hdef k with h | h
    · obtain ⟨r, hr, -⟩ := (h3 k).2 ⟨k1, k2, h⟩
      cases hr
    · exact h
  | cons r l =>
    rw [show g.next.1 = some r by simpa [calls] using h6]
    obtain ⟨i1, i2, i3⟩ := h4 r (.head _)
    have hin : ∀ k, q.start ≤ k → k < q.stop → m.get k = .ok none → r.start ≤ k ∧
        (k < r.stop ∨ r.stop < k) := by
      intro k k1 k2 k3
      obtain ⟨r', hr, j1, j2⟩ := (h3 k).2 ⟨k1, k2, k3⟩
      rcases List.mem_cons.1 hr with rfl | hr
      · exact ⟨j1, .inl j2⟩
      · have := ((List.pairwise_cons.1 h5).1 r' hr).1
        grind
    refine ⟨i2, i1, i3, ?_, ?_, ?_⟩
    · intro k k1 k2
      rcases hdef k with h | h
      · have := (hin k k1 (by grind) h).1
        grind
      · exact h
    · intro k k1 k2
      exact ((h3 k).1 ⟨r, .head _, k1, k2⟩).2.2
    · intro k2
      rcases hdef r.stop with h | h
      · have := (hin r.stop (by grind) k2 h).2
        grind
      · exact h

example := C107_first_uncovered (K := Nat) (V := Char) (m := Demo.map) Demo.map_reachable ⟨7, 18⟩

/-- **C107** Where the value changes next: the entry `get_key_value(&k)` returns has `k`'s value up
to its end, and the value there, if there is one, is not `==` to it. -/
theorem C107_next_change {m : RangeMap K V} (hm : Reachable m) {k : K} {r : Range K} {v : V}
    (h : m.getKeyValue k = .ok (some (r, v))) :
    k < r.stop ∧ (∀ j, k ≤ j → j < r.stop → m.get j = .ok (some v)) ∧
      ∀ w, m.get r.stop = .ok (some w) → (v == w) = false := by
  have hs := hm.wf.sep
  obtain ⟨h1, h2, h3⟩ := (C09_get_key_value hm k (r, v)).1 h
  have h2 : r.start ≤ k := h2
  have h3 : k < r.stop := h3
  refine ⟨h3, fun j j1 j2 => (get_eq_some hs _ _).2 ⟨_, h1, Std.le_trans h2 j1, j2, rfl⟩, ?_⟩
  intro w hw
  obtain ⟨e, he, i1, i2, rfl⟩ := (get_eq_some hs _ _).1 hw
  refine hm.wf.coal (r, v) h1 e he ?_ i1
  have hne := hs.ne e he
  rcases pw_tri hs.pw (r, v) h1 e he with h | h | h
  · subst h
    exact absurd i2 (Std.lt_irrefl)
  · exact h.2
  · have h : e.1.stop ≤ r.start := h.2
    grind

example := C107_next_change (K := Nat) (V := Char) (m := Demo.map) Demo.map_reachable (k := 22)
    (r := ⟨20, 25⟩) (v := 'b') (by rfl)

end Verif.Props

namespace Verif.Props.Inclusive
open Spec RangeInclusiveMap
variable {K : Type} [LE K] [LT K] [DecidableLE K] [DecidableLT K]
  [Std.IsLinearPreorder K] [Std.LawfulOrderLT K] {V : Type} [BEq V] [PartialEquivBEq V]
  {S : StepFns K}

theorem mem_shared (m : RangeInclusiveMap K V) (q : RangeInclusive K) (e : RangeInclusive K × V) :
    e ∈ m.btm.filter (fun e => decide (q.start ≤ e.1.stop) && decide (e.1.start ≤ q.stop)) ↔
      e ∈ m.btm ∧ q.start ≤ e.1.stop ∧ e.1.start ≤ q.stop := by
  rw [List.mem_filter]
  simp

/-- **C107** The first key of `q` with a value: it lies in the entry `overlapping(&q).next()`
returns, at the later of the two starts.  Nothing of `q` before it has a value, and if `None` is
returned nothing of `q` has. -/
theorem C107_first_covered (hS : LawfulSteps S) {m : RangeInclusiveMap K V} (hm : Reachable S m)
    {q : RangeInclusive K} (hq : q.start ≤ q.stop) :
    ∃ o, m.overlapping q = .ok o ∧
      match o.next.1 with
      | none => ∀ k, q.start ≤ k → k ≤ q.stop → m.get k = .ok none
      | some e => q.start ≤ rmax q.start e.1.start ∧ rmax q.start e.1.start ≤ q.stop ∧
          m.get (rmax q.start e.1.start) = .ok (some e.2) ∧
          ∀ k, q.start ≤ k → k < rmax q.start e.1.start → m.get k = .ok none := by
  have hs := (hm.wf hS).sep
  have hfr := (hm.wf hS).fresh
  obtain ⟨o, h1, h2, h3⟩ := overlapping_items hs q
  refine ⟨o, h1, ?_⟩
  rw [(Overlapping.next_spec o h2).1, h3]
  have hmem := mem_shared m q
  have hpw := hs.pw.filter (fun e => decide (q.start ≤ e.1.stop) && decide (e.1.start ≤ q.stop))
  generalize m.btm.filter (fun e => decide (q.start ≤ e.1.stop) && decide (e.1.start ≤ q.stop)) = l
    at hmem hpw
  cases l with
  | nil =>
    intro k k1 k2
    rw [get_eq_none hs hfr]
    rintro w ⟨x, hx, i1, i2, -⟩
    have := (hmem x).2 ⟨hx, Std.le_trans k1 i2, Std.le_trans i1 k2⟩
    cases this
  | cons e l =>
    obtain ⟨j1, j2, j3⟩ := (hmem e).1 (.head _)
    have hne := hs.ne e j1
    refine ⟨le_rmax.2 (.inl (Std.le_refl _)), rmax_le.2 ⟨hq, j3⟩,
      (get_eq_some hs hfr _ _).2
        ⟨e, j1, le_rmax.2 (.inr (Std.le_refl _)), rmax_le.2 ⟨j2, hne⟩, rfl⟩, ?_⟩
    intro k k1 k2
    rw [get_eq_none hs hfr]
    rintro w ⟨x, hx, i1, i2, -⟩
    have k3 : k < e.1.start := by
      rcases lt_rmax.1 k2 with h | h
      · grind
      · exact h
    have : x ∈ e :: l := (hmem x).2 ⟨hx, Std.le_trans k1 i2, by grind⟩
    rcases List.mem_cons.1 this with rfl | h
    · grind
    · have := (List.pairwise_cons.1 hpw).1 x h
      grind [Before]

example := Inclusive.C107_first_covered (K := UIntW 8) (V := Char) (S := Demo.u8) Demo.u8_lawful
    (m := Demo.imap) Demo.imap_reachable (q := Demo.by8 16 255) (by decide)

/-- **C107** The last keys of `q` with a value: they are those of the entry
`overlapping(&q).next_back()` returns that lie in `q`; the last of all is the earlier of the two
ends.  Nothing of `q` behind them has a value, and if `None` is returned nothing of `q` has. -/
theorem C107_last_covered (hS : LawfulSteps S) {m : RangeInclusiveMap K V} (hm : Reachable S m)
    {q : RangeInclusive K} (hq : q.start ≤ q.stop) :
    ∃ o, m.overlapping q = .ok o ∧
      match o.nextBack.1 with
      | none => ∀ k, q.start ≤ k → k ≤ q.stop → m.get k = .ok none
      | some e => rmax q.start e.1.start ≤ rmin q.stop e.1.stop ∧
          (∀ k, rmax q.start e.1.start ≤ k → k ≤ rmin q.stop e.1.stop →
            m.get k = .ok (some e.2)) ∧
          ∀ k, rmin q.stop e.1.stop < k → k ≤ q.stop → m.get k = .ok none := by
  have hs := (hm.wf hS).sep
  have hfr := (hm.wf hS).fresh
  obtain ⟨o, h1, h2, h3⟩ := overlapping_items hs q
  refine ⟨o, h1, ?_⟩
  rw [(Overlapping.nextBack_spec o h2).1, h3]
  have hmem := mem_shared m q
  have hpw := hs.pw.filter (fun e => decide (q.start ≤ e.1.stop) && decide (e.1.start ≤ q.stop))
  generalize m.btm.filter (fun e => decide (q.start ≤ e.1.stop) && decide (e.1.start ≤ q.stop)) = l
    at hmem hpw
  cases hl : l.getLast? with
  | none =>
    obtain rfl := List.getLast?_eq_none_iff.1 hl
    intro k k1 k2
    rw [get_eq_none hs hfr]
    rintro w ⟨x, hx, i1, i2, -⟩
    have := (hmem x).2 ⟨hx, Std.le_trans k1 i2, Std.le_trans i1 k2⟩
    cases this
  | some e =>
    obtain ⟨l', rfl⟩ := List.getLast?_eq_some_iff.1 hl
    obtain ⟨j1, j2, j3⟩ := (hmem e).1 (by simp)
    have hne := hs.ne e j1
    refine ⟨?_, ?_, ?_⟩
    · rw [le_rmin, rmax_le, rmax_le]
      exact ⟨⟨hq, j3⟩, j2, hne⟩
    · intro k k1 k2
      exact (get_eq_some hs hfr _ _).2 ⟨e, j1, (rmax_le.1 k1).2, (le_rmin.1 k2).2, rfl⟩
    · intro k k1 k2
      rw [get_eq_none hs hfr]
      rintro w ⟨x, hx, i1, i2, -⟩
      have k3 : e.1.stop < k := by
        rcases rmin_lt.1 k1 with h | h
        · grind
        · exact h
      have : x ∈ l' ++ [e] := (hmem x).2 ⟨hx, by grind, Std.le_trans i1 k2⟩
      rcases List.mem_append.1 this with h | h
      · have := (List.pairwise_append.1 hpw).2.2 x h e (by simp)
        grind [Before]
      · cases List.mem_singleton.1 h
        grind

example := Inclusive.C107_last_covered (K := UIntW 8) (V := Char) (S := Demo.u8) Demo.u8_lawful
    (m := Demo.imap) Demo.imap_reachable (q := Demo.by8 0 18) (by decide)

/-- **C107** The first keys of `q` without a value: they are the range `gaps(&q).next()` returns.
All of `q` before it has values, and so has the key that follows it, unless `q` ends there; if
`None` is returned all of `q` has.  The call does not panic. -/
theorem C107_first_uncovered (hS : LawfulSteps S) {m : RangeInclusiveMap K V} (hm : Reachable S m)
    (q : RangeInclusive K) :
    ∃ g x g', m.gaps q = .ok g ∧ Gaps.next S g = .ok (x, g') ∧
      match x with
      | none => ∀ k, q.start ≤ k → k ≤ q.stop → ∃ w, m.get k = .ok (some w)
      | some r => q.start ≤ r.start ∧ r.start ≤ r.stop ∧ r.stop ≤ q.stop ∧
          (∀ k, q.start ≤ k → k < r.start → ∃ w, m.get k = .ok (some w)) ∧
          (∀ k, r.start ≤ k → k ≤ r.stop → m.get k = .ok none) ∧
          (∀ k, Next r.stop k → k ≤ q.stop → ∃ w, m.get k = .ok (some w)) := by
  obtain ⟨g, l, h1, h2, h3⟩ := C31_gaps_exact hS hm q
  obtain ⟨g0, l0, i1, i2, i3, i4⟩ := C31_gaps_ordered hS hm.any q
  rw [h1] at i1
  cases i1
  cases YieldsE.unique i2 h2
  have hdef : ∀ k, m.get k = .ok none ∨ ∃ w, m.get k = .ok (some w) := by
    intro k
    rw [get_look (hm.wf hS)]
    cases m.look k <;> simp
  have h6 := h2 1
  cases hn : Gaps.next S g with
  | error p => rw [callsE, hn] at h6; cases h6
  | ok y =>
    obtain ⟨x, g'⟩ := y
    rw [callsE, hn] at h6
    refine ⟨g, x, g', h1, hn, ?_⟩
    cases l with
    | nil =>
      obtain rfl : x = none := by simpa [callsE, Except.map] using h6
      intro k k1 k2
      rcases hdef k with h | h
      · obtain ⟨r, hr, -⟩ := (h3 k).2 ⟨k1, k2, h⟩
        cases hr
      · exact h
    | cons r l =>
      obtain rfl : x = some r := by simpa [callsE, Except.map] using h6
      obtain ⟨a1, -, a2, a3⟩ := i3 r (.head _)
      have hin : ∀ k, q.start ≤ k → k ≤ q.stop → m.get k = .ok none → r.start ≤ k ∧
          (k ≤ r.stop ∨ ∃ j, r.stop < j ∧ j < k) := by
        intro k k1 k2 k3
        obtain ⟨r', hr, j1, j2⟩ := (h3 k).2 ⟨k1, k2, k3⟩
        rcases List.mem_cons.1 hr with rfl | hr
        · exact ⟨j1, .inl j2⟩
        · obtain ⟨e, -, b1, b2, b3⟩ := (List.pairwise_cons.1 i4).1 r' hr
          have b1 := b1.1
          exact ⟨by grind, .inr ⟨e.1.start, b1, by grind⟩⟩
      refine ⟨a2, a1, a3, ?_, ?_, ?_⟩
      · intro k k1 k2
        rcases hdef k with h | h
        · have := (hin k k1 (by grind) h).1
          grind
        · exact h
      · intro k k1 k2
        exact ((h3 k).1 ⟨r, .head _, k1, k2⟩).2.2
      · intro k hk k2
        rcases hdef k with h | h
        · have hlt := hk.1
          rcases (hin k (by grind) k2 h).2 with c | ⟨j, c1, c2⟩
          · grind
          · have := hk.2 j c1
            grind
        · exact h

example := Inclusive.C107_first_uncovered (K := UIntW 8) (V := Char) (S := Demo.u8) Demo.u8_lawful
    (m := Demo.imap) Demo.imap_reachable (Demo.by8 7 255)

/-- **C107** Where the value changes next: the entry `get_key_value(&k)` returns has `k`'s value up
to its end, and the value of the key that follows, if it has one, is not `==` to it. -/
theorem C107_next_change (hS : LawfulSteps S) {m : RangeInclusiveMap K V} (hm : Reachable S m)
    {k : K} {r : RangeInclusive K} {v : V} (h : m.getKeyValue k = .ok (some (r, v))) :
    k ≤ r.stop ∧ (∀ j, k ≤ j → j ≤ r.stop → m.get j = .ok (some v)) ∧
      ∀ j w, Next r.stop j → m.get j = .ok (some w) → (v == w) = false := by
  have hs := (hm.wf hS).sep
  have hfr := (hm.wf hS).fresh
  obtain ⟨h1, h2, h3⟩ := (C30_get_key_value hS hm k (r, v)).1 h
  have h2 : r.start ≤ k := h2
  have h3 : k ≤ r.stop := h3
  refine ⟨h3, fun j j1 j2 => (get_eq_some hs hfr _ _).2 ⟨_, h1, Std.le_trans h2 j1, j2, rfl⟩, ?_⟩
  intro j w hj hw
  obtain ⟨e, he, i1, i2, rfl⟩ := (get_eq_some hs hfr _ _).1 hw
  have hlt := hj.1
  have hne := hs.ne e he
  refine (hm.wf hS).coal (r, v) h1 e he ⟨?_, fun x hx => ?_⟩
  · show r.stop < e.1.start
    rcases RangeMap.pw_tri hs.pw (r, v) h1 e he with h | h | h
    · subst h
      have i2 : j ≤ r.stop := i2
      grind
    · exact h.2
    · have h : e.1.stop < r.start := h.2
      grind
  · exact Std.le_trans i1 (hj.2 x hx)

example := Inclusive.C107_next_change (K := UIntW 8) (V := Char) (S := Demo.u8) Demo.u8_lawful
    (m := Demo.imap) Demo.imap_reachable (k := ⟨22⟩) (r := Demo.by8 20 24) (v := 'b') (by rfl)

end Verif.Props.Inclusive

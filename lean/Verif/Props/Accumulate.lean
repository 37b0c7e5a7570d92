import Verif.Props.Demo
import Verif.Props.Overlay

/-!
# C106: values accumulated over overlapping ranges

A program that wants to *change* the values over a range, rather than replace them, collects
`overlapping(&q)`, cuts the entries to `q`, changes their values, and inserts the results; to give
the keys without a value a first one it also collects `gaps(&q)`.  The same program, run for each
of a list of ranges, counts how many of them cover each key, or adds up their weights.
-/
set_option linter.unusedSectionVars false

namespace Verif.Spec
section Halfopen
variable {K : Type} [LE K] [LT K] [DecidableLE K] [DecidableLT K] {V W : Type} [BEq V]

/-- The calls of one update of the values over `q`: the entries of `overlapping(q)` cut to `q` with
`f` applied to their values, then, if there is a value `d` to start from, the ranges of `gaps(q)`
with that value, all put into the map by `extend`. -/
def Update (m : RangeMap K V) (q : Range K) (f : V → V) (d : Option V) (m' : RangeMap K V) :
    Prop :=
  ∃ o l g gs, m.overlapping q = .ok o ∧ Yields RangeMap.Overlapping.next o l ∧
    m.gaps q = .ok g ∧ Yields RangeMap.Gaps.next g gs ∧
    m.extend ((l.map fun e => (⟨rmax q.start e.1.start, rmin q.stop e.1.stop⟩, f e.2)) ++
      d.toList.flatMap fun w => gs.map fun x => (x, w)) = (m', .ok ())

/-- `m` was built from the empty map by one update for each pair of the list, in order: `init w` for
keys that had no value, `add v w` for those that had `v`. -/
inductive Accumulated (init : W → V) (add : V → W → V) : RangeMap K V → List (Range K × W) → Prop
  | new : Accumulated init add RangeMap.new []
  | step {m m' : RangeMap K V} {l : List (Range K × W)} (q : Range K) (w : W) :
      Accumulated init add m l → Update m q (fun v => add v w) (some (init w)) m' →
      Accumulated init add m' (l ++ [(q, w)])

end Halfopen

section Inclusive
variable {K : Type} [LE K] [LT K] [DecidableLE K] [DecidableLT K] {V W : Type} [BEq V]

/-- `Update` for inclusive maps. -/
def IUpdate (S : StepFns K) (m : RangeInclusiveMap K V) (q : RangeInclusive K) (f : V → V)
    (d : Option V) (m' : RangeInclusiveMap K V) : Prop :=
  ∃ o l g gs, m.overlapping q = .ok o ∧ Yields RangeInclusiveMap.Overlapping.next o l ∧
    m.gaps q = .ok g ∧ YieldsE (RangeInclusiveMap.Gaps.next S) g gs ∧
    m.extend S ((l.map fun e =>
        (.mk' (rmax q.start e.1.start) (rmin q.stop e.1.stop), f e.2)) ++
      d.toList.flatMap fun w => gs.map fun x => (x, w)) = (m', .ok ())

/-- `Accumulated` for inclusive maps. -/
inductive IAccumulated (S : StepFns K) (init : W → V) (add : V → W → V) :
    RangeInclusiveMap K V → List (RangeInclusive K × W) → Prop
  | new : IAccumulated S init add RangeInclusiveMap.new []
  | step {m m' : RangeInclusiveMap K V} {l : List (RangeInclusive K × W)} (q : RangeInclusive K)
      (w : W) : IAccumulated S init add m l →
      IUpdate S m q (fun v => add v w) (some (init w)) m' →
      IAccumulated S init add m' (l ++ [(q, w)])

end Inclusive

/-- What a list of weights adds up to. -/
def weigh {V W : Type} (init : W → V) (add : V → W → V) : List W → Option V
  | [] => none
  | w :: ws => some (ws.foldl add (init w))

end Verif.Spec

namespace Verif.Props
open Spec RangeMap
variable {K : Type} [LE K] [LT K] [DecidableLE K] [DecidableLT K]
  [Std.IsLinearPreorder K] [Std.LawfulOrderLT K] {V : Type} [BEq V] [PartialEquivBEq V] {W : Type}

/-- Extending by items of which all that cover `k` carry the value `val`. -/
theorem extend_val {m : RangeMap K V} (hm : Reachable m) {items : List (Range K × V)}
    (hv : ∀ e ∈ items, e.1.start < e.1.stop) (k : K) (val : Option V)
    (h1 : ∀ x ∈ items, x.1.start ≤ k → k < x.1.stop → val = some x.2)
    (h2 : ∀ v, val = some v → ∃ x ∈ items, x.1.start ≤ k ∧ k < x.1.stop) :
    ∃ o o', m.get k = .ok o ∧ (m.extend items).1.get k = .ok o' ∧ Agree o' (val.or o) := by
  obtain ⟨-, o', o, i1, i2, i3⟩ := C19_extend_last_wins hm _ hv k
  refine ⟨o, o', i2, i1, ?_⟩
  cases hf : items.reverse.find? (fun e => covers e.1 k) with
  | some e =>
    rw [hf] at i3
    have he := List.mem_reverse.1 (List.mem_of_find?_eq_some hf)
    have hc := (covers_eq e.1 k).1 (by simpa using List.find?_some hf)
    rw [h1 e he hc.1 hc.2]
    exact i3
  | none =>
    rw [hf] at i3
    cases val with
    | none => exact i3
    | some v =>
      obtain ⟨x, hx, hc⟩ := h2 v rfl
      exact absurd ((covers_eq x.1 k).2 hc)
        (List.find?_eq_none.1 hf x (List.mem_reverse.2 hx))

/-- **C106** One update of the values over a non-empty range: it never panics, and afterwards the
keys of the range that had a value `v` have `f v`, those that had none have `d` (none if there is no
`d`), and the keys outside are as they were. -/
theorem C106_update {m : RangeMap K V} (hm : Reachable m) {q : Range K} (hq : q.start < q.stop)
    (f : V → V) (d : Option V) :
    ∃ m', Update m q f d m' ∧ Reachable m' ∧
      ∀ k, ∃ x y, m.get k = .ok x ∧ m'.get k = .ok y ∧
        Agree y (if q.start ≤ k ∧ k < q.stop then (x.map f).or d else x) := by
  obtain ⟨o, h1, h2⟩ := C13_overlapping_exact hm q
  obtain ⟨g, gs, h3, h4, h5, h6, -⟩ := gaps_yields_list hm q
  have hs := hm.wf.sep
  have hmem : ∀ e, e ∈ m.iter.filter
      (fun e => decide (q.start < e.1.stop) && decide (e.1.start < q.stop)) ↔
      e ∈ m.btm ∧ q.start < e.1.stop ∧ e.1.start < q.stop := by
    intro e
    rw [List.mem_filter]
    simp only [Bool.and_eq_true, decide_eq_true_eq]
    exact Iff.rfl
  generalize m.iter.filter
    (fun e => decide (q.start < e.1.stop) && decide (e.1.start < q.stop)) = l at h2 hmem
  generalize hitems : ((l.map fun e => ((⟨rmax q.start e.1.start, rmin q.stop e.1.stop⟩ : Range K),
    f e.2)) ++ d.toList.flatMap fun w => gs.map fun x => (x, w)) = items
  have hi : ∀ x, x ∈ items ↔
      (∃ e ∈ l, x = (⟨rmax q.start e.1.start, rmin q.stop e.1.stop⟩, f e.2)) ∨
      (∃ r ∈ gs, ∃ w, d = some w ∧ x = (r, w)) := by
    intro x
    rw [← hitems, List.mem_append, List.mem_map, List.mem_flatMap]
    constructor
    · rintro (⟨e, he, rfl⟩ | ⟨w, hw, hx⟩)
      · exact .inl ⟨e, he, rfl⟩
      · obtain ⟨r, hr, rfl⟩ := List.mem_map.1 hx
        exact .inr ⟨r, hr, w, by simpa using hw, rfl⟩
    · rintro (⟨e, he, rfl⟩ | ⟨r, hr, w, hw, rfl⟩)
      · exact .inl ⟨e, he, rfl⟩
      · exact .inr ⟨w, by simp [hw], List.mem_map.2 ⟨r, hr, rfl⟩⟩
  have hv : ∀ x ∈ items, x.1.start < x.1.stop := by
    intro x hx
    rcases (hi x).1 hx with ⟨e, he, rfl⟩ | ⟨r, hr, w, -, rfl⟩
    · obtain ⟨i1, i2, i3⟩ := (hmem e).1 he
      have := hs.ne e i1
      show rmax q.start e.1.start < rmin q.stop e.1.stop
      rw [lt_rmin, rmax_lt, rmax_lt]
      grind
    · exact (h6 r hr).1
  have hcut : ∀ (e : Range K × V) k, (rmax q.start e.1.start ≤ k ∧ k < rmin q.stop e.1.stop) ↔
        (q.start ≤ k ∧ k < q.stop) ∧ e.1.start ≤ k ∧ k < e.1.stop := by
    intro e k
    rw [rmax_le, lt_rmin]
    grind
  refine ⟨(m.extend items).1, ⟨o, l, g, gs, h1, h2, h3, h4, ?_⟩, hm.apply (.extend items),
    fun k => ?_⟩
  · obtain ⟨i1, -⟩ := C19_extend_last_wins hm _ hv q.start
    rw [hitems, ← i1]
  have hg := get_look hs k
  generalize hx0 : m.look k = x0 at hg
  obtain ⟨x, y, i1, i2, i3⟩ := extend_val hm hv k
    (if q.start ≤ k ∧ k < q.stop then (x0.map f).or d else none) (by
      intro x hx j1 j2
      rcases (hi x).1 hx with ⟨e, he, rfl⟩ | ⟨r, hr, w, hw, rfl⟩
      · obtain ⟨k1, k2⟩ := (hcut e k).1 ⟨j1, j2⟩
        rw [if_pos k1]
        rw [(get_eq_some hs k e.2).2 ⟨e, ((hmem e).1 he).1, k2.1, k2.2, rfl⟩] at hg
        cases hg
        rfl
      · obtain ⟨k1, k2, k3⟩ := (h5 k).1 ⟨r, hr, j1, j2⟩
        rw [if_pos ⟨k1, k2⟩]
        rw [k3] at hg
        cases hg
        exact hw) (by
      intro v hval
      by_cases hc : q.start ≤ k ∧ k < q.stop
      · rw [if_pos hc] at hval
        cases x0 with
        | some v0 =>
          obtain ⟨e, he, k1, k2, -⟩ := (get_eq_some hs k v0).1 hg
          refine ⟨_, (hi _).2 (.inl ⟨e, (hmem e).2 ⟨he, ?_, ?_⟩, rfl⟩), (hcut e k).2 ⟨hc, k1, k2⟩⟩
          · exact Std.lt_of_le_of_lt hc.1 k2
          · exact Std.lt_of_le_of_lt k1 hc.2
        | none =>
          obtain ⟨r, hr, k1⟩ := (h5 k).2 ⟨hc.1, hc.2, hg⟩
          exact ⟨(r, v), (hi _).2 (.inr ⟨r, hr, v, by simpa using hval, rfl⟩), k1⟩
      · rw [if_neg hc] at hval
        cases hval)
  refine ⟨x, y, i1, i2, ?_⟩
  rw [i1] at hg
  obtain rfl : x = x0 := Except.ok.inj hg
  by_cases hc : q.start ≤ k ∧ k < q.stop
  · rw [if_pos hc] at i3 ⊢
    cases x <;> cases d <;> exact i3
  · rw [if_neg hc] at i3 ⊢
    exact i3

example := C106_update (K := Nat) (V := Char) (m := Demo.map) Demo.map_reachable (q := ⟨2, 22⟩)
    (by decide) Char.toUpper (some 'z')

/-- **C106** The calls of an update determine the map they end with. -/
theorem C106_update_unique {m m1 m2 : RangeMap K V} {q : Range K} {f : V → V} {d : Option V}
    (h1 : Update m q f d m1) (h2 : Update m q f d m2) : m1 = m2 := by
  obtain ⟨o, l, g, gs, a1, a2, a3, a4, a5⟩ := h1
  obtain ⟨o', l', g', gs', b1, b2, b3, b4, b5⟩ := h2
  rw [a1] at b1; cases b1
  rw [a3] at b3; cases b3
  cases Yields.unique a2 b2
  cases Yields.unique a4 b4
  rw [a5] at b5
  cases b5
  rfl

theorem accumulated_demo : ∃ m : RangeMap Nat Nat,
    Update (RangeMap.new : RangeMap Nat Nat) ⟨2, 5⟩ (· + 1) (some 1) m :=
  let ⟨m, h, _⟩ := C106_update (K := Nat) (V := Nat) (m := RangeMap.new) ⟨[], rfl⟩ (q := ⟨2, 5⟩)
    (by decide) (· + 1) (some 1)
  ⟨m, h⟩

example : ∃ m1 m2 : RangeMap Nat Nat, Update RangeMap.new ⟨2, 5⟩ (· + 1) (some 1) m1 ∧
    Update RangeMap.new ⟨2, 5⟩ (· + 1) (some 1) m2 ∧ m1 = m2 := by
  obtain ⟨m, h⟩ := accumulated_demo
  exact ⟨m, m, h, h, C106_update_unique h h⟩

theorem weigh_append (init : W → V) (add : V → W → V) (l : List W) (w : W) :
    weigh init add (l ++ [w]) =
      some (((weigh init add l).map fun v => add v w).getD (init w)) := by
  cases l <;> simp [weigh]

section
variable [LawfulBEq V]

/-- **C106** Whatever list of non-empty ranges with weights one updates an empty map by, every call
succeeds. -/
theorem C106_accumulate_total (init : W → V) (add : V → W → V) (l : List (Range K × W))
    (hl : ∀ p ∈ l, p.1.start < p.1.stop) : ∃ m : RangeMap K V, Accumulated init add m l ∧
      Reachable m := by
  suffices h : ∀ (l' l : List (Range K × W)) (m : RangeMap K V), (∀ p ∈ l', p.1.start < p.1.stop) →
      Accumulated init add m l → Reachable m →
      ∃ m', Accumulated init add m' (l ++ l') ∧ Reachable m' from
    h l [] RangeMap.new hl .new ⟨[], rfl⟩
  intro l'
  induction l' with
  | nil => intro l m _ h hm; exact ⟨m, by simpa using h, hm⟩
  | cons p l' ih =>
    intro l m hl h hm
    obtain ⟨m', h1, h2, -⟩ := C106_update hm (hl p (.head _)) (fun v => add v p.2)
      (some (init p.2))
    have := ih (l ++ [p]) m' (fun x hx => hl x (.tail _ hx)) (.step p.1 p.2 h h1) h2
    simpa using this

example := C106_accumulate_total (K := Nat) (V := Nat) (W := Nat) id (· + ·)
    [(⟨2, 9⟩, 4), (⟨5, 12⟩, 1), (⟨0, 3⟩, 7)] (by decide)

/-- **C106** Then the value of a key is what the weights of the ranges that cover it add up to, in
the order of the updates; a key no range covers has none. -/
theorem C106_accumulate {init : W → V} {add : V → W → V} {m : RangeMap K V}
    {l : List (Range K × W)} (hl : ∀ p ∈ l, p.1.start < p.1.stop) (h : Accumulated init add m l) :
    Reachable m ∧ ∀ k, m.get k = .ok (weigh init add
      ((l.filter fun p => decide (p.1.start ≤ k ∧ k < p.1.stop)).map Prod.snd)) := by
  induction h with
  | new => exact ⟨⟨[], rfl⟩, fun k => rfl⟩
  | @step m m' l q w h hu ih =>
    obtain ⟨h1, h2⟩ := ih fun p hp => hl p (List.mem_append_left _ hp)
    obtain ⟨m1, j1, j2, j3⟩ := C106_update h1 (hl (q, w) (by simp)) (fun v => add v w)
      (some (init w))
    cases C106_update_unique hu j1
    refine ⟨j2, fun k => ?_⟩
    obtain ⟨x, y, k1, k2, k3⟩ := j3 k
    rw [h2 k] at k1
    cases k1
    have k3 : Agree y (if q.start ≤ k ∧ k < q.stop then _ else _) := k3
    rw [k2, RangeMap.Agree.eq k3, List.filter_append, List.map_append]
    by_cases hc : q.start ≤ k ∧ k < q.stop
    · rw [if_pos hc, List.filter_cons_of_pos (by simpa using hc), List.filter_nil, List.map_cons,
        List.map_nil, weigh_append]
      cases weigh init add _ <;> rfl
    · rw [if_neg hc, List.filter_cons_of_neg (by simpa using hc), List.filter_nil, List.map_nil,
        List.append_nil]

example : ∃ m : RangeMap Nat Nat, Accumulated id (· + ·) m [(⟨2, 9⟩, 4), (⟨5, 12⟩, 1)] ∧
    m.get 3 = .ok (some 4) ∧ m.get 7 = .ok (some 5) ∧ m.get 9 = .ok (some 1) ∧
    m.get 12 = .ok none := by
  obtain ⟨m, h, -⟩ := C106_accumulate_total (K := Nat) (V := Nat) (W := Nat) id (· + ·)
    [(⟨2, 9⟩, 4), (⟨5, 12⟩, 1)] (by decide)
  have := (C106_accumulate (by decide) h).2
  exact ⟨m, h, this 3, this 7, this 9, this 12⟩

/-- **C106** Counting, with the value `1` for a first range and one more for each further one: the
value of a key is the number of ranges that cover it, and a key has no value iff no range covers
it. -/
theorem C106_depth {m : RangeMap K Nat} {l : List (Range K × Unit)}
    (hl : ∀ p ∈ l, p.1.start < p.1.stop)
    (h : Accumulated (fun _ => 1) (fun v _ => v + 1) m l) (k : K) :
    m.get k = .ok (if (l.countP fun p => decide (p.1.start ≤ k ∧ k < p.1.stop)) = 0 then none
      else some (l.countP fun p => decide (p.1.start ≤ k ∧ k < p.1.stop))) := by
  rw [(C106_accumulate hl h).2 k, List.countP_eq_length_filter]
  generalize l.filter (fun p => decide (p.1.start ≤ k ∧ k < p.1.stop)) = l'
  have hf : ∀ (ws : List Unit) (n : Nat), ws.foldl (fun v _ => v + 1) n = n + ws.length := by
    intro ws
    induction ws with
    | nil => intro n; rfl
    | cons w ws ih => intro n; rw [List.foldl_cons, ih, List.length_cons]; omega
  cases l' with
  | nil => rfl
  | cons p l' => simp [weigh, hf, Nat.add_comm]

example : ∃ m : RangeMap Nat Nat,
    Accumulated (fun _ => 1) (fun v _ => v + 1) m [(⟨2, 9⟩, ()), (⟨5, 12⟩, ())] ∧
    m.get 3 = .ok (some 1) ∧ m.get 7 = .ok (some 2) ∧ m.get 1 = .ok none := by
  obtain ⟨m, h, -⟩ := C106_accumulate_total (K := Nat) (V := Nat) (W := Unit) (fun _ => 1)
    (fun v _ => v + 1) [(⟨2, 9⟩, ()), (⟨5, 12⟩, ())] (by decide)
  have := C106_depth (by decide) h
  exact ⟨m, h, this 3, this 7, this 1⟩

theorem weigh_perm {init : W → V} {add : V → W → V}
    (h0 : ∀ w w', add (init w) w' = add (init w') w)
    (h1 : ∀ v w w', add (add v w) w' = add (add v w') w) {l l' : List W} (h : l.Perm l') :
    weigh init add l = weigh init add l' := by
  have : ∀ l : List W, weigh init add l =
      l.foldl (fun o w => some ((o.map fun v => add v w).getD (init w))) none := by
    intro l
    cases l with
    | nil => rfl
    | cons w ws =>
      show some _ = ws.foldl _ (some (init w))
      generalize init w = v
      induction ws generalizing v with
      | nil => rfl
      | cons w ws ih => exact ih (add v w)
  rw [this, this]
  refine h.foldl_eq' (fun x _ y _ z => ?_) none
  cases z with
  | none => exact congrArg some (h0 x y)
  | some v => exact congrArg some (h1 v x y)

/-- **C106** If the weights commute, maps updated by the same ranges and weights in any two orders
have the same values, so they are `==`. -/
theorem C106_order {init : W → V} {add : V → W → V}
    (h0 : ∀ w w', add (init w) w' = add (init w') w)
    (h1 : ∀ v w w', add (add v w) w' = add (add v w') w)
    {m m' : RangeMap K V} {l l' : List (Range K × W)} (hl : ∀ p ∈ l, p.1.start < p.1.stop)
    (h : Accumulated init add m l) (h' : Accumulated init add m' l') (hp : l.Perm l') :
    m.eq m' = true ∧ ∀ k, m.get k = m'.get k := by
  obtain ⟨i1, i2⟩ := C106_accumulate hl h
  obtain ⟨j1, j2⟩ := C106_accumulate (fun p hp' => hl p (hp.mem_iff.2 hp')) h'
  have : ∀ k, m.get k = m'.get k := fun k => by
    rw [i2, j2]
    exact congrArg Except.ok (weigh_perm h0 h1 ((hp.filter _).map _))
  refine ⟨(eq_iff_look i1.wf j1.wf).2 fun k => ?_, this⟩
  have hk := this k
  rw [get_look i1.wf.sep, get_look j1.wf.sep] at hk
  rw [Except.ok.inj hk]
  exact RangeMap.Agree.refl _

example : ∃ m m' : RangeMap Nat Nat, Accumulated id (· + ·) m [(⟨2, 9⟩, 4), (⟨5, 12⟩, 1)] ∧
    Accumulated id (· + ·) m' [(⟨5, 12⟩, 1), (⟨2, 9⟩, 4)] ∧ m.eq m' = true := by
  obtain ⟨m, h, -⟩ := C106_accumulate_total (K := Nat) (V := Nat) (W := Nat) id (· + ·)
    [(⟨2, 9⟩, 4), (⟨5, 12⟩, 1)] (by decide)
  obtain ⟨m', h', -⟩ := C106_accumulate_total (K := Nat) (V := Nat) (W := Nat) id (· + ·)
    [(⟨5, 12⟩, 1), (⟨2, 9⟩, 4)] (by decide)
  exact ⟨m, m', h, h', (C106_order (by simp; omega) (by omega) (by decide) h h'
    (List.Perm.swap _ _ _)).1⟩

end
end Verif.Props

namespace Verif.Props.Inclusive
open Spec RangeInclusiveMap
variable {K : Type} [LE K] [LT K] [DecidableLE K] [DecidableLT K]
  [Std.IsLinearPreorder K] [Std.LawfulOrderLT K] {V : Type} [BEq V] [PartialEquivBEq V] {W : Type}
  {S : StepFns K}

/-- Extending by items of which all that cover `k` carry the value `val`. -/
theorem extend_val (hS : LawfulSteps S) {m : RangeInclusiveMap K V} (hm : Reachable S m)
    {items : List (RangeInclusive K × V)} (hv : ∀ e ∈ items, e.1.start ≤ e.1.stop)
    (hf0 : ∀ e ∈ items, e.1.exhausted = false) (k : K) (val : Option V)
    (h1 : ∀ x ∈ items, x.1.start ≤ k → k ≤ x.1.stop → val = some x.2)
    (h2 : ∀ v, val = some v → ∃ x ∈ items, x.1.start ≤ k ∧ k ≤ x.1.stop) :
    ∃ o o', m.get k = .ok o ∧ (m.extend S items).1.get k = .ok o' ∧ Agree o' (val.or o) := by
  obtain ⟨-, o', o, i1, i2, i3⟩ := C19_extend_last_wins hS hm _ hv hf0 k
  refine ⟨o, o', i2, i1, ?_⟩
  cases hf : items.reverse.find? (fun e => icovers e.1 k) with
  | some e =>
    rw [hf] at i3
    have he := List.mem_reverse.1 (List.mem_of_find?_eq_some hf)
    have hc := (icovers_eq e.1 k).1 (by simpa using List.find?_some hf)
    rw [h1 e he hc.1 hc.2]
    exact i3
  | none =>
    rw [hf] at i3
    cases val with
    | none => exact i3
    | some v =>
      obtain ⟨x, hx, hc⟩ := h2 v rfl
      exact absurd ((icovers_eq x.1 k).2 hc)
        (List.find?_eq_none.1 hf x (List.mem_reverse.2 hx))

/-- **C106** One update of the values over a non-empty range: it never panics, and afterwards the
keys of the range that had a value `v` have `f v`, those that had none have `d` (none if there is no
`d`), and the keys outside are as they were. -/
theorem C106_update (hS : LawfulSteps S) {m : RangeInclusiveMap K V} (hm : Reachable S m)
    {q : RangeInclusive K} (hq : q.start ≤ q.stop)
    (f : V → V) (d : Option V) :
    ∃ m', IUpdate S m q f d m' ∧ Reachable S m' ∧
      ∀ k, ∃ x y, m.get k = .ok x ∧ m'.get k = .ok y ∧
        Agree y (if q.start ≤ k ∧ k ≤ q.stop then (x.map f).or d else x) := by
  obtain ⟨o, h1, h2⟩ := C32_overlapping_exact hS hm.any q
  obtain ⟨g, gs, h3, h4, h5, h6⟩ := gaps_facts hS hm q
  have hs := (hm.wf hS).sep
  have hfr := (hm.wf hS).fresh
  have hmem : ∀ e, e ∈ m.iter.filter
      (fun e => decide (q.start ≤ e.1.stop) && decide (e.1.start ≤ q.stop)) ↔
      e ∈ m.btm ∧ q.start ≤ e.1.stop ∧ e.1.start ≤ q.stop := by
    intro e
    rw [List.mem_filter]
    simp only [Bool.and_eq_true, decide_eq_true_eq]
    exact Iff.rfl
  generalize m.iter.filter
    (fun e => decide (q.start ≤ e.1.stop) && decide (e.1.start ≤ q.stop)) = l at h2 hmem
  generalize hitems : ((l.map fun e =>
    (RangeInclusive.mk' (rmax q.start e.1.start) (rmin q.stop e.1.stop),
    f e.2)) ++ d.toList.flatMap fun w => gs.map fun x => (x, w)) = items
  have hi : ∀ x, x ∈ items ↔
      (∃ e ∈ l, x = (.mk' (rmax q.start e.1.start) (rmin q.stop e.1.stop), f e.2)) ∨
      (∃ r ∈ gs, ∃ w, d = some w ∧ x = (r, w)) := by
    intro x
    rw [← hitems, List.mem_append, List.mem_map, List.mem_flatMap]
    constructor
    · rintro (⟨e, he, rfl⟩ | ⟨w, hw, hx⟩)
      · exact .inl ⟨e, he, rfl⟩
      · obtain ⟨r, hr, rfl⟩ := List.mem_map.1 hx
        exact .inr ⟨r, hr, w, by simpa using hw, rfl⟩
    · rintro (⟨e, he, rfl⟩ | ⟨r, hr, w, hw, rfl⟩)
      · exact .inl ⟨e, he, rfl⟩
      · exact .inr ⟨w, by simp [hw], List.mem_map.2 ⟨r, hr, rfl⟩⟩
  have hv : ∀ x ∈ items, x.1.start ≤ x.1.stop := by
    intro x hx
    rcases (hi x).1 hx with ⟨e, he, rfl⟩ | ⟨r, hr, w, -, rfl⟩
    · obtain ⟨i1, i2, i3⟩ := (hmem e).1 he
      have := hs.ne e i1
      show rmax q.start e.1.start ≤ rmin q.stop e.1.stop
      rw [le_rmin, rmax_le, rmax_le]
      grind
    · exact (h6 r hr).1
  have hf0 : ∀ x ∈ items, x.1.exhausted = false := by
    intro x hx
    rcases (hi x).1 hx with ⟨e, -, rfl⟩ | ⟨r, hr, w, -, rfl⟩
    · rfl
    · exact (h6 r hr).2
  have hcut : ∀ (e : RangeInclusive K × V) k,
      (rmax q.start e.1.start ≤ k ∧ k ≤ rmin q.stop e.1.stop) ↔
        (q.start ≤ k ∧ k ≤ q.stop) ∧ e.1.start ≤ k ∧ k ≤ e.1.stop := by
    intro e k
    rw [rmax_le, le_rmin]
    grind
  refine ⟨(m.extend S items).1, ⟨o, l, g, gs, h1, h2, h3, h4, ?_⟩, hm.apply (.extend items) (by
      intro r hr
      obtain ⟨e, he, rfl⟩ := List.mem_map.1 hr
      exact hf0 e he), fun k => ?_⟩
  · obtain ⟨i1, -⟩ := C19_extend_last_wins hS hm _ hv hf0 q.start
    rw [hitems, ← i1]
  have hg := get_look (hm.wf hS) k
  generalize hx0 : m.look k = x0 at hg
  obtain ⟨x, y, i1, i2, i3⟩ := extend_val hS hm hv hf0 k
    (if q.start ≤ k ∧ k ≤ q.stop then (x0.map f).or d else none) (by
      intro x hx j1 j2
      rcases (hi x).1 hx with ⟨e, he, rfl⟩ | ⟨r, hr, w, hw, rfl⟩
      · obtain ⟨k1, k2⟩ := (hcut e k).1 ⟨j1, j2⟩
        rw [if_pos k1]
        rw [(get_eq_some hs hfr k e.2).2 ⟨e, ((hmem e).1 he).1, k2.1, k2.2, rfl⟩] at hg
        cases hg
        rfl
      · obtain ⟨k1, k2, k3⟩ := (h5 k).1 ⟨r, hr, j1, j2⟩
        rw [if_pos ⟨k1, k2⟩]
        rw [k3] at hg
        cases hg
        exact hw) (by
      intro v hval
      by_cases hc : q.start ≤ k ∧ k ≤ q.stop
      · rw [if_pos hc] at hval
        cases x0 with
        | some v0 =>
          obtain ⟨e, he, k1, k2, -⟩ := (get_eq_some hs hfr k v0).1 hg
          refine ⟨_, (hi _).2 (.inl ⟨e, (hmem e).2 ⟨he, ?_, ?_⟩, rfl⟩), (hcut e k).2 ⟨hc, k1, k2⟩⟩
          · exact Std.le_trans hc.1 k2
          · exact Std.le_trans k1 hc.2
        | none =>
          obtain ⟨r, hr, k1⟩ := (h5 k).2 ⟨hc.1, hc.2, hg⟩
          exact ⟨((r, v) : RangeInclusive K × V),
            (hi _).2 (.inr ⟨r, hr, v, by simpa using hval, rfl⟩), k1⟩
      · rw [if_neg hc] at hval
        cases hval)
  refine ⟨x, y, i1, i2, ?_⟩
  rw [i1] at hg
  obtain rfl : x = x0 := Except.ok.inj hg
  by_cases hc : q.start ≤ k ∧ k ≤ q.stop
  · rw [if_pos hc] at i3 ⊢
    cases x <;> cases d <;> exact i3
  · rw [if_neg hc] at i3 ⊢
    exact i3

example := Inclusive.C106_update (K := UIntW 8) (V := Char) (S := Demo.u8) Demo.u8_lawful
    (m := Demo.imap) Demo.imap_reachable (q := Demo.by8 2 22) (by decide) Char.toUpper (some 'z')

/-- **C106** The calls of an update determine the map they end with. -/
theorem C106_update_unique {m m1 m2 : RangeInclusiveMap K V} {q : RangeInclusive K} {f : V → V}
    {d : Option V}
    (h1 : IUpdate S m q f d m1) (h2 : IUpdate S m q f d m2) : m1 = m2 := by
  obtain ⟨o, l, g, gs, a1, a2, a3, a4, a5⟩ := h1
  obtain ⟨o', l', g', gs', b1, b2, b3, b4, b5⟩ := h2
  rw [a1] at b1; cases b1
  rw [a3] at b3; cases b3
  cases Yields.unique a2 b2
  cases YieldsE.unique a4 b4
  rw [a5] at b5
  cases b5
  rfl

theorem accumulated_demo : ∃ m : RangeInclusiveMap (UIntW 8) Nat,
    IUpdate Demo.u8 (RangeInclusiveMap.new : RangeInclusiveMap (UIntW 8) Nat) (Demo.by8 2 5) (· + 1)
      (some 1) m :=
  let ⟨m, h, _⟩ := C106_update (K := UIntW 8) (V := Nat) (S := Demo.u8) Demo.u8_lawful
    (m := RangeInclusiveMap.new) ⟨[], by decide, rfl⟩ (q := Demo.by8 2 5) (by decide) (· + 1)
    (some 1)
  ⟨m, h⟩

example : ∃ m1 m2 : RangeInclusiveMap (UIntW 8) Nat,
    IUpdate Demo.u8 RangeInclusiveMap.new (Demo.by8 2 5) (· + 1) (some 1) m1 ∧
    IUpdate Demo.u8 RangeInclusiveMap.new (Demo.by8 2 5) (· + 1) (some 1) m2 ∧ m1 = m2 := by
  obtain ⟨m, h⟩ := accumulated_demo
  exact ⟨m, m, h, h, C106_update_unique h h⟩

section
variable [LawfulBEq V]

/-- **C106** Whatever list of non-empty ranges with weights one updates an empty map by, every call
succeeds. -/
theorem C106_accumulate_total (hS : LawfulSteps S) (init : W → V) (add : V → W → V)
    (l : List (RangeInclusive K × W)) (hl : ∀ p ∈ l, p.1.start ≤ p.1.stop) :
    ∃ m : RangeInclusiveMap K V, IAccumulated S init add m l ∧ Reachable S m := by
  suffices h : ∀ (l' l : List (RangeInclusive K × W)) (m : RangeInclusiveMap K V),
      (∀ p ∈ l', p.1.start ≤ p.1.stop) →
      IAccumulated S init add m l → Reachable S m →
      ∃ m', IAccumulated S init add m' (l ++ l') ∧ Reachable S m' from
    h l [] RangeInclusiveMap.new hl .new ⟨[], by simp, rfl⟩
  intro l'
  induction l' with
  | nil => intro l m _ h hm; exact ⟨m, by simpa using h, hm⟩
  | cons p l' ih =>
    intro l m hl h hm
    obtain ⟨m', h1, h2, -⟩ := C106_update hS hm (hl p (.head _)) (fun v => add v p.2)
      (some (init p.2))
    have := ih (l ++ [p]) m' (fun x hx => hl x (.tail _ hx)) (.step p.1 p.2 h h1) h2
    simpa using this

example := Inclusive.C106_accumulate_total (K := UIntW 8) (V := Nat) (W := Nat) (S := Demo.u8)
    Demo.u8_lawful id (· + ·) [(Demo.by8 2 9, 4), (Demo.by8 5 255, 1), (Demo.by8 0 3, 7)]
    (by decide)

/-- **C106** Then the value of a key is what the weights of the ranges that cover it add up to, in
the order of the updates; a key no range covers has none. -/
theorem C106_accumulate (hS : LawfulSteps S) {init : W → V} {add : V → W → V}
    {m : RangeInclusiveMap K V} {l : List (RangeInclusive K × W)}
    (hl : ∀ p ∈ l, p.1.start ≤ p.1.stop) (h : IAccumulated S init add m l) :
    Reachable S m ∧ ∀ k, m.get k = .ok (weigh init add
      ((l.filter fun p => decide (p.1.start ≤ k ∧ k ≤ p.1.stop)).map Prod.snd)) := by
  induction h with
  | new => exact ⟨⟨[], by simp, rfl⟩, fun k => rfl⟩
  | @step m m' l q w h hu ih =>
    obtain ⟨h1, h2⟩ := ih fun p hp => hl p (List.mem_append_left _ hp)
    obtain ⟨m1, j1, j2, j3⟩ := C106_update hS h1 (hl (q, w) (by simp)) (fun v => add v w)
      (some (init w))
    cases C106_update_unique hu j1
    refine ⟨j2, fun k => ?_⟩
    obtain ⟨x, y, k1, k2, k3⟩ := j3 k
    rw [h2 k] at k1
    cases k1
    have k3 : Agree y (if q.start ≤ k ∧ k ≤ q.stop then _ else _) := k3
    rw [k2, RangeMap.Agree.eq k3, List.filter_append, List.map_append]
    by_cases hc : q.start ≤ k ∧ k ≤ q.stop
    · rw [if_pos hc, List.filter_cons_of_pos (by simpa using hc), List.filter_nil, List.map_cons,
        List.map_nil, weigh_append]
      cases weigh init add _ <;> rfl
    · rw [if_neg hc, List.filter_cons_of_neg (by simpa using hc), List.filter_nil, List.map_nil,
        List.append_nil]

example : ∃ m : RangeInclusiveMap (UIntW 8) Nat,
    IAccumulated Demo.u8 id (· + ·) m [(Demo.by8 2 9, 4), (Demo.by8 5 255, 1)] ∧
    m.get ⟨3⟩ = .ok (some 4) ∧ m.get ⟨7⟩ = .ok (some 5) ∧ m.get ⟨255⟩ = .ok (some 1) ∧
    m.get ⟨1⟩ = .ok none := by
  obtain ⟨m, h, -⟩ := Inclusive.C106_accumulate_total (K := UIntW 8) (V := Nat) (W := Nat)
    (S := Demo.u8) Demo.u8_lawful id (· + ·) [(Demo.by8 2 9, 4), (Demo.by8 5 255, 1)] (by decide)
  have := (Inclusive.C106_accumulate Demo.u8_lawful (by decide) h).2
  exact ⟨m, h, this ⟨3⟩, this ⟨7⟩, this ⟨255⟩, this ⟨1⟩⟩

/-- **C106** Counting, with the value `1` for a first range and one more for each further one: the
value of a key is the number of ranges that cover it, and a key has no value iff no range covers
it. -/
theorem C106_depth (hS : LawfulSteps S) {m : RangeInclusiveMap K Nat}
    {l : List (RangeInclusive K × Unit)} (hl : ∀ p ∈ l, p.1.start ≤ p.1.stop)
    (h : IAccumulated S (fun _ => 1) (fun v _ => v + 1) m l) (k : K) :
    m.get k = .ok (if (l.countP fun p => decide (p.1.start ≤ k ∧ k ≤ p.1.stop)) = 0 then none
      else some (l.countP fun p => decide (p.1.start ≤ k ∧ k ≤ p.1.stop))) := by
  rw [(C106_accumulate hS hl h).2 k, List.countP_eq_length_filter]
  generalize l.filter (fun p => decide (p.1.start ≤ k ∧ k ≤ p.1.stop)) = l'
  have hf : ∀ (ws : List Unit) (n : Nat), ws.foldl (fun v _ => v + 1) n = n + ws.length := by
    intro ws
    induction ws with
    | nil => intro n; rfl
    | cons w ws ih => intro n; rw [List.foldl_cons, ih, List.length_cons]; omega
  cases l' with
  | nil => rfl
  | cons p l' => simp [weigh, hf, Nat.add_comm]

example : ∃ m : RangeInclusiveMap (UIntW 8) Nat,
    IAccumulated Demo.u8 (fun _ => 1) (fun v _ => v + 1) m
      [(Demo.by8 2 9, ()), (Demo.by8 5 255, ())] ∧
    m.get ⟨3⟩ = .ok (some 1) ∧ m.get ⟨7⟩ = .ok (some 2) ∧ m.get ⟨1⟩ = .ok none := by
  obtain ⟨m, h, -⟩ := Inclusive.C106_accumulate_total (K := UIntW 8) (V := Nat) (W := Unit)
    (S := Demo.u8) Demo.u8_lawful (fun _ => 1) (fun v _ => v + 1)
    [(Demo.by8 2 9, ()), (Demo.by8 5 255, ())] (by decide)
  have := Inclusive.C106_depth Demo.u8_lawful (by decide) h
  exact ⟨m, h, this ⟨3⟩, this ⟨7⟩, this ⟨1⟩⟩

/-- **C106** If the weights commute, maps updated by the same ranges and weights in any two orders
have the same values, so they are `==`. -/
theorem C106_order (hS : LawfulSteps S) {init : W → V} {add : V → W → V}
    (h0 : ∀ w w', add (init w) w' = add (init w') w)
    (h1 : ∀ v w w', add (add v w) w' = add (add v w') w)
    {m m' : RangeInclusiveMap K V} {l l' : List (RangeInclusive K × W)}
    (hl : ∀ p ∈ l, p.1.start ≤ p.1.stop)
    (h : IAccumulated S init add m l) (h' : IAccumulated S init add m' l') (hp : l.Perm l') :
    m.eq m' = true ∧ ∀ k, m.get k = m'.get k := by
  obtain ⟨i1, i2⟩ := C106_accumulate hS hl h
  obtain ⟨j1, j2⟩ := C106_accumulate hS (fun p hp' => hl p (hp.mem_iff.2 hp')) h'
  have : ∀ k, m.get k = m'.get k := fun k => by
    rw [i2, j2]
    exact congrArg Except.ok (weigh_perm h0 h1 ((hp.filter _).map _))
  refine ⟨(eq_iff_look hS (i1.wf hS) (j1.wf hS)).2 fun k => ?_, this⟩
  have hk := this k
  rw [get_look (i1.wf hS), get_look (j1.wf hS)] at hk
  rw [Except.ok.inj hk]
  exact RangeMap.Agree.refl _


example : ∃ m m' : RangeInclusiveMap (UIntW 8) Nat,
    IAccumulated Demo.u8 id (· + ·) m [(Demo.by8 2 9, 4), (Demo.by8 5 255, 1)] ∧
    IAccumulated Demo.u8 id (· + ·) m' [(Demo.by8 5 255, 1), (Demo.by8 2 9, 4)] ∧
    m.eq m' = true := by
  obtain ⟨m, h, -⟩ := Inclusive.C106_accumulate_total (K := UIntW 8) (V := Nat) (W := Nat)
    (S := Demo.u8) Demo.u8_lawful id (· + ·) [(Demo.by8 2 9, 4), (Demo.by8 5 255, 1)] (by decide)
  obtain ⟨m', h', -⟩ := Inclusive.C106_accumulate_total (K := UIntW 8) (V := Nat) (W := Nat)
    (S := Demo.u8) Demo.u8_lawful id (· + ·) [(Demo.by8 5 255, 1), (Demo.by8 2 9, 4)] (by decide)
  exact ⟨m, m', h, h', (Inclusive.C106_order Demo.u8_lawful (by simp; omega) (by omega) (by decide)
    h h' (List.Perm.swap _ _ _)).1⟩

end
end Verif.Props.Inclusive

import Verif.Props.Turns
import Verif.Props.Build
import Verif.Proof.Cut

/-!
# C123: a map may be kept in two pieces, cut at any key
-/
set_option linter.unusedSectionVars false

namespace Verif.Spec
variable {K : Type} [LE K] [LT K] [DecidableLE K] [DecidableLT K]

/-- The part of the range below `c`, if there is any. -/
def below (c : K) (r : Range K) : Option (Range K) :=
  if r.start < r.stop ∧ r.start < c then some ⟨r.start, if r.stop ≤ c then r.stop else c⟩ else none

/-- The part of the range from `c` on, if there is any. -/
def above (c : K) (r : Range K) : Option (Range K) :=
  if r.start < r.stop ∧ c < r.stop then some ⟨if c ≤ r.start then r.start else c, r.stop⟩ else none

end Verif.Spec

namespace Verif.Props
open Spec RangeMap Cut
section
variable {K : Type} [LE K] [LT K] [DecidableLE K] [DecidableLT K]
  [Std.IsLinearPreorder K] [Std.LawfulOrderLT K] {V : Type}

theorem below_cuts (c : K) : Cuts covers valid (fun k => decide (k < c)) (below c) where
  sound r r' h := by
    unfold below at h
    split at h <;> simp only [Option.some.injEq, reduceCtorEq] at h
    subst h
    simp only [valid, decide_eq_true_eq]
    grind
  keys r k := by
    unfold below
    split
    · simp only [valid, covers, Option.any_some, ← Bool.decide_and, decide_eq_decide]
      grind
    · simp only [valid, covers, Option.any_none, ← Bool.decide_and, decide_eq_false_iff_not]
      grind

theorem above_cuts (c : K) : Cuts covers valid (fun k => decide (c ≤ k)) (above c) where
  sound r r' h := by
    unfold above at h
    split at h <;> simp only [Option.some.injEq, reduceCtorEq] at h
    subst h
    simp only [valid, decide_eq_true_eq]
    grind
  keys r k := by
    unfold above
    split
    · simp only [valid, covers, Option.any_some, ← Bool.decide_and, decide_eq_decide]
      grind
    · simp only [valid, covers, Option.any_none, ← Bool.decide_and, decide_eq_false_iff_not]
      grind

/-- The parts of entries that lie in `P` map the keys of `P` as the entries do. -/
theorem maps_cut {P : K → Bool} {cut : Range K → Option (Range K)} (hc : Cuts covers valid P cut)
    {l : List (Range K × V)} (hl : ∀ e ∈ l, e.1.start < e.1.stop) (k : K) (w : V) :
    Maps (l.filterMap fun e => (cut e.1).map (·, e.2)) k w ↔ P k = true ∧ Maps l k w := by
  constructor
  · rintro ⟨e, he, h1, h2, rfl⟩
    obtain ⟨x, hx, h3⟩ := List.mem_filterMap.1 he
    obtain ⟨r', h4, rfl⟩ := Option.map_eq_some_iff.1 h3
    have h5 := hc.keys x.1 k
    rw [h4] at h5
    have h6 : covers r' k = true := by simpa [covers] using ⟨h1, h2⟩
    rw [Option.any_some, h6] at h5
    simp only [Bool.and_eq_true, covers, decide_eq_true_eq] at h5
    exact ⟨h5.2, x, hx, h5.1.2.1, h5.1.2.2, rfl⟩
  · rintro ⟨hP, e, he, h1, h2, rfl⟩
    have h5 := hc.keys e.1 k
    have h6 : (valid e.1 && covers e.1 k && P k) = true := by
      simp [valid, covers, hP, hl e he, h1, h2]
    rw [h6] at h5
    cases h7 : cut e.1 with
    | none => rw [h7] at h5; cases h5
    | some r' =>
      rw [h7] at h5
      have h8 : r'.start ≤ k ∧ k < r'.stop := by simpa [covers] using h5.symm
      exact ⟨(r', e.2), List.mem_filterMap.2 ⟨e, he, by simp [h7]⟩, h8.1, h8.2, rfl⟩

theorem below_wf [BEq V] {l : List (Range K × V)} (h : WF l) (c : K) :
    WF (l.filterMap fun e => (below c e.1).map (·, e.2)) := by
  have hm : ∀ e ∈ l.filterMap (fun e => (below c e.1).map (·, e.2)), ∃ x ∈ l,
      x.1.start < c ∧ e.1.start = x.1.start ∧ e.1.stop = (if x.1.stop ≤ c then x.1.stop else c) ∧
        e.2 = x.2 := by
    intro e he
    obtain ⟨x, hx, h3⟩ := List.mem_filterMap.1 he
    obtain ⟨r', h4, rfl⟩ := Option.map_eq_some_iff.1 h3
    unfold below at h4
    split at h4 <;> simp only [Option.some.injEq, reduceCtorEq] at h4
    subst h4
    exact ⟨x, hx, by grind, rfl, rfl, rfl⟩
  refine ⟨⟨?_, fun e he => ?_⟩, fun a ha b hb h1 h2 => ?_⟩
  · rw [List.pairwise_filterMap]
    refine h.sep.pw.imp fun {a b} hab a' ha' b' hb' => ?_
    obtain ⟨r, h3, rfl⟩ := Option.map_eq_some_iff.1 ha'
    obtain ⟨r', h4, rfl⟩ := Option.map_eq_some_iff.1 hb'
    unfold below at h3 h4
    split at h3 <;> simp only [Option.some.injEq, reduceCtorEq] at h3
    split at h4 <;> simp only [Option.some.injEq, reduceCtorEq] at h4
    subst h3 h4
    unfold Before at hab ⊢
    grind
  · obtain ⟨x, hx, h1, h2, h3, -⟩ := hm e he
    have := h.sep.ne x hx
    grind
  · obtain ⟨x, hx, h3, h4, h5, h6⟩ := hm a ha
    obtain ⟨y, hy, h7, h8, h9, h10⟩ := hm b hb
    rw [h6, h10]
    exact h.coal x hx y hy (by grind) (by grind)

theorem above_wf [BEq V] {l : List (Range K × V)} (h : WF l) (c : K) :
    WF (l.filterMap fun e => (above c e.1).map (·, e.2)) := by
  have hm : ∀ e ∈ l.filterMap (fun e => (above c e.1).map (·, e.2)), ∃ x ∈ l,
      c < x.1.stop ∧ e.1.start = (if c ≤ x.1.start then x.1.start else c) ∧ e.1.stop = x.1.stop ∧
        e.2 = x.2 := by
    intro e he
    obtain ⟨x, hx, h3⟩ := List.mem_filterMap.1 he
    obtain ⟨r', h4, rfl⟩ := Option.map_eq_some_iff.1 h3
    unfold above at h4
    split at h4 <;> simp only [Option.some.injEq, reduceCtorEq] at h4
    subst h4
    exact ⟨x, hx, by grind, rfl, rfl, rfl⟩
  refine ⟨⟨?_, fun e he => ?_⟩, fun a ha b hb h1 h2 => ?_⟩
  · rw [List.pairwise_filterMap]
    refine h.sep.pw.imp fun {a b} hab a' ha' b' hb' => ?_
    obtain ⟨r, h3, rfl⟩ := Option.map_eq_some_iff.1 ha'
    obtain ⟨r', h4, rfl⟩ := Option.map_eq_some_iff.1 hb'
    unfold above at h3 h4
    split at h3 <;> simp only [Option.some.injEq, reduceCtorEq] at h3
    split at h4 <;> simp only [Option.some.injEq, reduceCtorEq] at h4
    subst h3 h4
    unfold Before at hab ⊢
    grind
  · obtain ⟨x, hx, h1, h2, h3, -⟩ := hm e he
    have := h.sep.ne x hx
    grind
  · obtain ⟨x, hx, h3, h4, h5, h6⟩ := hm a ha
    obtain ⟨y, hy, h7, h8, h9, h10⟩ := hm b hb
    rw [h6, h10]
    exact h.coal x hx y hy (by grind) (by grind)

variable [BEq V] [LawfulBEq V]

theorem run_cut {P : K → Bool} {cut : Range K → Option (Range K)} (hc : Cuts covers valid P cut)
    (ops : List (Op (Range K) V)) (k : K) :
    (run (ops.flatMap (Op.cut valid cut))).get k =
      if P k then (run ops).get k else .ok none := by
  rw [C03_refinement_exact, C03_refinement_exact, List.reverse_flatMap]
  rw [show lastWrite covers valid (ops.reverse.flatMap (List.reverse ∘ Op.cut valid cut)) k = _ from
    lastWrite_cut hc k ops.reverse]
  cases P k <;> rfl

/-- **C123** Cut every call at the key `c` and make the parts below `c` on one map and the parts
from `c` on on another one.  Then the one answers for the keys below `c`, the other for the rest. -/
theorem C123_get (ops : List (Op (Range K) V)) (c k : K) :
    (run (ops.flatMap (Op.cut valid (below c)))).get k =
      (if k < c then (run ops).get k else .ok none) ∧
    (run (ops.flatMap (Op.cut valid (above c)))).get k =
      (if c ≤ k then (run ops).get k else .ok none) := by
  rw [run_cut (below_cuts c), run_cut (above_cuts c)]
  simp only [decide_eq_true_eq, and_self]

theorem iter_cut (hk : ∀ a b : K, a ≤ b → b ≤ a → a = b) {P : K → Bool}
    {cut : Range K → Option (Range K)} (hc : Cuts covers valid P cut)
    (ops : List (Op (Range K) V))
    (hw : WF ((run ops).btm.filterMap fun e => (cut e.1).map (·, e.2))) :
    (run (ops.flatMap (Op.cut valid cut))).iter =
      (run ops).iter.filterMap fun e => (cut e.1).map (·, e.2) := by
  have hr : Reachable (run ops) := ⟨ops, rfl⟩
  have := congrFun (AgreeAt.eq hk (maps := fun _ => run (ops.flatMap (Op.cut valid cut)))
    (maps' := fun _ => ⟨(run ops).btm.filterMap fun e => (cut e.1).map (·, e.2)⟩)
    (fun _ k => by
      rw [run_cut hc, get_look hr.wf.sep, get_look hw.sep]
      have key : ∀ w, (RangeMap.mk ((run ops).btm.filterMap fun e =>
          (cut e.1).map (·, e.2))).look k = some w ↔ P k = true ∧ (run ops).look k = some w := by
        intro w
        rw [look_eq_some hw.sep, look_eq_some hr.wf.sep]
        exact maps_cut hc hr.wf.sep.ne k w
      cases hP : P k with
      | true =>
        simp only [if_pos]
        refine congrArg _ (Option.ext fun w => ?_)
        rw [key, hP]
        simp
      | false =>
        simp only [Bool.false_eq_true, if_false]
        refine congrArg _ (Option.ext fun w => ?_)
        rw [key, hP]
        simp)
    (fun _ => ⟨_, rfl⟩) fun _ => reachable_iff.2 hw) 0
  exact congrArg RangeMap.iter this

/-- **C123** The ranges that the two maps store are the ranges of the whole, cut at `c`. -/
theorem C123_iter (hk : ∀ a b : K, a ≤ b → b ≤ a → a = b) (ops : List (Op (Range K) V)) (c : K) :
    (run (ops.flatMap (Op.cut valid (below c)))).iter =
      ((run ops).iter.filterMap fun e => (below c e.1).map (·, e.2)) ∧
    (run (ops.flatMap (Op.cut valid (above c)))).iter =
      (run ops).iter.filterMap fun e => (above c e.1).map (·, e.2) :=
  ⟨iter_cut hk (below_cuts c) ops (below_wf (Reachable.wf ⟨ops, rfl⟩) c),
    iter_cut hk (above_cuts c) ops (above_wf (Reachable.wf ⟨ops, rfl⟩) c)⟩

theorem cut_lengths {l : List (Range K × V)} (h : Sep l) (c : K) :
    l.length ≤ (l.filterMap fun e => (below c e.1).map (·, e.2)).length +
      (l.filterMap fun e => (above c e.1).map (·, e.2)).length ∧
    (l.filterMap fun e => (below c e.1).map (·, e.2)).length +
      (l.filterMap fun e => (above c e.1).map (·, e.2)).length ≤ l.length + 1 ∧
    ((∀ e ∈ l, c ≤ e.1.start) → (l.filterMap fun e => (below c e.1).map (·, e.2)).length = 0 ∧
      (l.filterMap fun e => (above c e.1).map (·, e.2)).length = l.length) := by
  induction l with
  | nil => simp
  | cons e l ih =>
    have hp := List.pairwise_cons.1 h.pw
    have hs : Sep l := ⟨hp.2, fun x hx => h.ne x (List.mem_cons_of_mem _ hx)⟩
    have he := h.ne e List.mem_cons_self
    obtain ⟨i1, i2, i3⟩ := ih hs
    have b1 : (below c e.1).isSome = decide (e.1.start < c) := by
      unfold below; split <;> simp <;> grind
    have b2 : (above c e.1).isSome = decide (c < e.1.stop) := by
      unfold above; split <;> simp <;> grind
    simp only [List.filterMap_cons]
    have rest : c < e.1.stop → (∀ x ∈ l, c ≤ x.1.start) := fun hc x hx => by
      have := hp.1 x hx
      unfold Before at this
      grind
    cases e1 : below c e.1 <;> cases e2 : above c e.1 <;> rw [e1] at b1 <;> rw [e2] at b2 <;>
      simp only [Option.isSome_none, Option.isSome_some, eq_comm (a := false), eq_comm (a := true),
        decide_eq_true_eq, decide_eq_false_iff_not] at b1 b2 <;>
      simp only [Option.map_none, Option.map_some, List.length_cons]
    · exact absurd he (by grind)
    · refine ⟨by omega, by omega, fun hc => ?_⟩
      have := i3 fun x hx => hc x (List.mem_cons_of_mem _ hx)
      omega
    · refine ⟨by omega, by omega, fun hc => ?_⟩
      have := hc e List.mem_cons_self
      exact absurd b1 (by grind)
    · have := i3 (rest b2)
      refine ⟨by omega, by omega, fun hc => ?_⟩
      have := hc e List.mem_cons_self
      exact absurd b1 (by grind)

/-- **C123** Together they store as many ranges as the whole, or one more. -/
theorem C123_len (hk : ∀ a b : K, a ≤ b → b ≤ a → a = b) (ops : List (Op (Range K) V)) (c : K) :
    (run ops).len ≤ (run (ops.flatMap (Op.cut valid (below c)))).len +
      (run (ops.flatMap (Op.cut valid (above c)))).len ∧
    (run (ops.flatMap (Op.cut valid (below c)))).len +
      (run (ops.flatMap (Op.cut valid (above c)))).len ≤ (run ops).len + 1 := by
  obtain ⟨h1, h2⟩ := C123_iter hk ops c
  have h := cut_lengths (Reachable.wf (m := run ops) ⟨ops, rfl⟩).sep c
  unfold RangeMap.len
  rw [show (run (ops.flatMap (Op.cut valid (below c)))).btm = _ from h1,
    show (run (ops.flatMap (Op.cut valid (above c)))).btm = _ from h2]
  exact ⟨h.1, h.2.1⟩

/-- **C123** Collecting what the two maps yield, the one after the other, gives the whole again. -/
theorem C123_join (hk : ∀ a b : K, a ≤ b → b ≤ a → a = b) (ops : List (Op (Range K) V)) (c : K) :
    fromIter ((run (ops.flatMap (Op.cut valid (below c)))).iter ++
      (run (ops.flatMap (Op.cut valid (above c)))).iter) = .ok (run ops) := by
  obtain ⟨h1, h2⟩ := C123_iter hk ops c
  have hr : Reachable (run ops) := ⟨ops, rfl⟩
  have hlow : Reachable (run (ops.flatMap (Op.cut valid (below c)))) := ⟨_, rfl⟩
  have hhigh : Reachable (run (ops.flatMap (Op.cut valid (above c)))) := ⟨_, rfl⟩
  generalize hl : (run (ops.flatMap (Op.cut valid (below c)))).iter ++
    (run (ops.flatMap (Op.cut valid (above c)))).iter = items
  have hv : ∀ e ∈ items, e.1.start < e.1.stop := by
    subst hl
    intro e he
    rcases List.mem_append.1 he with he | he
    · exact hlow.wf.sep.ne e he
    · exact hhigh.wf.sep.ne e he
  have hmaps : ∀ k w, Maps items k w ↔ Maps (run ops).btm k w := by
    intro k w
    have m1 := maps_cut (below_cuts c) hr.wf.sep.ne k w
    have m2 := maps_cut (above_cuts c) hr.wf.sep.ne k w
    rw [← show (run (ops.flatMap (Op.cut valid (below c)))).btm =
      (run ops).btm.filterMap fun e => (below c e.1).map (·, e.2) from h1] at m1
    rw [← show (run (ops.flatMap (Op.cut valid (above c)))).btm =
      (run ops).btm.filterMap fun e => (above c e.1).map (·, e.2) from h2] at m2
    have m3 : Maps items k w ↔ Maps (run (ops.flatMap (Op.cut valid (below c)))).btm k w ∨
        Maps (run (ops.flatMap (Op.cut valid (above c)))).btm k w := by
      subst hl
      constructor
      · rintro ⟨e, he, h⟩
        rcases List.mem_append.1 he with he | he
        · exact .inl ⟨e, he, h⟩
        · exact .inr ⟨e, he, h⟩
      · rintro (⟨e, he, h⟩ | ⟨e, he, h⟩)
        · exact ⟨e, List.mem_append_left _ he, h⟩
        · exact ⟨e, List.mem_append_right _ he, h⟩
    rw [m3, m1, m2]
    simp only [decide_eq_true_eq]
    constructor
    · rintro (h | h) <;> exact h.2
    · intro h
      by_cases hkc : k < c
      · exact .inl ⟨hkc, h⟩
      · exact .inr ⟨by grind, h⟩
  have hn : Reachable (new : RangeMap K V) := ⟨[], rfl⟩
  have hx : Reachable ((new : RangeMap K V).extend items).1 := ⟨[.extend items], rfl⟩
  have h5 : ((new : RangeMap K V).extend items).1 = run ops := by
    refine congrFun (AgreeAt.eq hk (maps := fun _ => ((new : RangeMap K V).extend items).1)
      (maps' := fun _ => run ops) (fun _ k => ?_) (fun _ => hx) fun _ => hr) 0
    obtain ⟨-, o, o', h6, h7, h8⟩ := C19_extend_last_wins hn items hv k
    have h9 : o' = none := by
      have : (new : RangeMap K V).get k = .ok none := rfl
      rw [this] at h7
      cases h7
      rfl
    subst h9
    rw [h6, Agree.eq h8, get_look hr.wf.sep]
    refine congrArg _ ?_
    cases hf : items.reverse.find? fun e => covers e.1 k with
    | none =>
      symm
      rw [look_eq_none hr.wf.sep]
      intro w hw
      obtain ⟨e, he, h10, h11, -⟩ := (hmaps k w).2 hw
      have := List.find?_eq_none.1 hf e (List.mem_reverse.2 he)
      exact this (by simpa [covers] using ⟨h10, h11⟩)
    | some e =>
      symm
      rw [look_eq_some hr.wf.sep]
      have := List.find?_some hf
      simp only [covers, decide_eq_true_eq] at this
      exact (hmaps k e.2).1 ⟨e, List.mem_reverse.1 (List.mem_of_find?_eq_some hf), this.1, this.2,
        rfl⟩
  have h6 := (C19_extend_last_wins hn items hv c).1
  simp only [fromIter, h6, h5]
  rfl

end

/-! ### Examples -/

/-- A history with a call that panics and an `extend` that stops in the middle. -/
def shardOps : List (Op (Range Nat) Char) :=
  [.insert ⟨0, 100⟩ 'a', .remove ⟨20, 60⟩, .insert ⟨20, 20⟩ 'a',
    .extend [(⟨45, 70⟩, 'b'), (⟨9, 9⟩, 'a'), (⟨0, 50⟩, 'a')], .insert ⟨30, 35⟩ 'b']

example : (run (shardOps.flatMap (Op.cut valid (below 50)))).iter =
    [(⟨0, 20⟩, 'a'), (⟨30, 35⟩, 'b'), (⟨45, 50⟩, 'b')] := by decide +kernel
example : (run (shardOps.flatMap (Op.cut valid (above 50)))).iter =
    [(⟨50, 70⟩, 'b'), (⟨70, 100⟩, 'a')] := by decide +kernel
example := C123_get shardOps 50 47
example := C123_iter (fun _ _ => Nat.le_antisymm) shardOps 50
example := C123_len (fun _ _ => Nat.le_antisymm) shardOps 50
example := C123_join (fun _ _ => Nat.le_antisymm) shardOps 50

end Verif.Props

import Verif.Props.ITurns
import Verif.Props.IBuild
import Verif.Proof.Cut

/-!
# C123 for inclusive maps
-/
set_option linter.unusedSectionVars false

namespace Verif.Spec
variable {K : Type} [LE K] [LT K] [DecidableLE K] [DecidableLT K]

/-- The part of the range up to `a`, if there is any. -/
def ibelow (a : K) (r : RangeInclusive K) : Option (RangeInclusive K) :=
  if r.start ≤ r.stop ∧ r.start ≤ a then
    some (RangeInclusive.mk' r.start (if r.stop ≤ a then r.stop else a))
  else none

/-- The part of the range from `b` on, if there is any. -/
def iabove (b : K) (r : RangeInclusive K) : Option (RangeInclusive K) :=
  if r.start ≤ r.stop ∧ b ≤ r.stop then
    some (RangeInclusive.mk' (if b ≤ r.start then r.start else b) r.stop)
  else none

end Verif.Spec

namespace Verif.Props.Inclusive
open Spec RangeInclusiveMap Cut
section
variable {K : Type} [LE K] [LT K] [DecidableLE K] [DecidableLT K]
  [Std.IsLinearPreorder K] [Std.LawfulOrderLT K] {V : Type} {S : StepFns K}

theorem below_cuts (a : K) : Cuts icovers ivalid (fun k => decide (k ≤ a)) (ibelow a) where
  sound r r' h := by
    unfold ibelow at h
    split at h <;> simp only [Option.some.injEq, reduceCtorEq] at h
    subst h
    simp only [ivalid, RangeInclusive.mk']
    grind
  keys r k := by
    unfold ibelow
    split
    · simp only [ivalid, icovers, RangeInclusive.mk', Option.any_some, ← Bool.decide_and,
        decide_eq_decide]
      grind
    · simp only [ivalid, icovers, Option.any_none, ← Bool.decide_and, decide_eq_false_iff_not]
      grind

theorem above_cuts (b : K) : Cuts icovers ivalid (fun k => decide (b ≤ k)) (iabove b) where
  sound r r' h := by
    unfold iabove at h
    split at h <;> simp only [Option.some.injEq, reduceCtorEq] at h
    subst h
    simp only [ivalid, RangeInclusive.mk']
    grind
  keys r k := by
    unfold iabove
    split
    · simp only [ivalid, icovers, RangeInclusive.mk', Option.any_some, ← Bool.decide_and,
        decide_eq_decide]
      grind
    · simp only [ivalid, icovers, Option.any_none, ← Bool.decide_and, decide_eq_false_iff_not]
      grind

theorem below_fresh {a : K} {r r' : RangeInclusive K} (h : ibelow a r = some r') :
    r'.exhausted = false := by
  unfold ibelow at h
  split at h <;> simp only [Option.some.injEq, reduceCtorEq] at h
  subst h
  rfl

theorem above_fresh {b : K} {r r' : RangeInclusive K} (h : iabove b r = some r') :
    r'.exhausted = false := by
  unfold iabove at h
  split at h <;> simp only [Option.some.injEq, reduceCtorEq] at h
  subst h
  rfl

/-- The parts of entries that lie in `P` map the keys of `P` as the entries do. -/
theorem maps_cut {P : K → Bool} {cut : RangeInclusive K → Option (RangeInclusive K)}
    (hc : Cuts icovers ivalid P cut)
    {l : List (RangeInclusive K × V)} (hl : ∀ e ∈ l, e.1.start ≤ e.1.stop) (k : K) (w : V) :
    Maps (l.filterMap fun e => (cut e.1).map (·, e.2)) k w ↔ P k = true ∧ Maps l k w := by
  constructor
  · rintro ⟨e, he, h1, h2, rfl⟩
    obtain ⟨x, hx, h3⟩ := List.mem_filterMap.1 he
    obtain ⟨r', h4, rfl⟩ := Option.map_eq_some_iff.1 h3
    have h5 := hc.keys x.1 k
    rw [h4] at h5
    have h6 : icovers r' k = true := by simpa [icovers] using ⟨h1, h2⟩
    rw [Option.any_some, h6] at h5
    simp only [Bool.and_eq_true, icovers, decide_eq_true_eq] at h5
    exact ⟨h5.2, x, hx, h5.1.2.1, h5.1.2.2, rfl⟩
  · rintro ⟨hP, e, he, h1, h2, rfl⟩
    have h5 := hc.keys e.1 k
    have h6 : (ivalid e.1 && icovers e.1 k && P k) = true := by
      simp [ivalid, icovers, hP, hl e he, h1, h2]
    rw [h6] at h5
    cases h7 : cut e.1 with
    | none => rw [h7] at h5; cases h5
    | some r' =>
      rw [h7] at h5
      have h8 : r'.start ≤ k ∧ k ≤ r'.stop := by simpa [icovers] using h5.symm
      exact ⟨(r', e.2), List.mem_filterMap.2 ⟨e, he, by simp [h7]⟩, h8.1, h8.2, rfl⟩

theorem below_wf [BEq V] {l : List (RangeInclusive K × V)} (h : WF l) (a : K) :
    WF (l.filterMap fun e => (ibelow a e.1).map (·, e.2)) := by
  have hm : ∀ e ∈ l.filterMap (fun e => (ibelow a e.1).map (·, e.2)), ∃ x ∈ l,
      x.1.start ≤ a ∧ e.1.start = x.1.start ∧ e.1.stop = (if x.1.stop ≤ a then x.1.stop else a) ∧
        e.2 = x.2 := by
    intro e he
    obtain ⟨x, hx, h3⟩ := List.mem_filterMap.1 he
    obtain ⟨r', h4, rfl⟩ := Option.map_eq_some_iff.1 h3
    unfold ibelow at h4
    split at h4 <;> simp only [Option.some.injEq, reduceCtorEq] at h4
    subst h4
    exact ⟨x, hx, by grind, rfl, rfl, rfl⟩
  refine ⟨⟨?_, fun e he => ?_⟩, fun p hp q hq h1 => ?_, fun e he => ?_⟩
  · rw [List.pairwise_filterMap]
    refine h.sep.pw.imp fun {p q} hab p' hp' q' hq' => ?_
    obtain ⟨r, h3, rfl⟩ := Option.map_eq_some_iff.1 hp'
    obtain ⟨r', h4, rfl⟩ := Option.map_eq_some_iff.1 hq'
    unfold ibelow at h3 h4
    split at h3 <;> simp only [Option.some.injEq, reduceCtorEq] at h3
    split at h4 <;> simp only [Option.some.injEq, reduceCtorEq] at h4
    subst h3 h4
    unfold Before at hab ⊢
    simp only [RangeInclusive.mk']
    grind
  · obtain ⟨x, hx, h1, h2, h3, -⟩ := hm e he
    have := h.sep.ne x hx
    grind
  · obtain ⟨x, hx, h3, h4, h5, h6⟩ := hm p hp
    obtain ⟨y, hy, h7, h8, h9, h10⟩ := hm q hq
    rw [h6, h10]
    refine h.coal x hx y hy ?_
    rw [h5, h8] at h1
    split at h1
    · exact h1
    · have := h1.1
      clear h1
      grind
  · obtain ⟨x, -, h3⟩ := List.mem_filterMap.1 he
    obtain ⟨r', h4, rfl⟩ := Option.map_eq_some_iff.1 h3
    exact below_fresh h4

theorem above_wf [BEq V] {l : List (RangeInclusive K × V)} (h : WF l) (b : K) :
    WF (l.filterMap fun e => (iabove b e.1).map (·, e.2)) := by
  have hm : ∀ e ∈ l.filterMap (fun e => (iabove b e.1).map (·, e.2)), ∃ x ∈ l,
      b ≤ x.1.stop ∧ e.1.start = (if b ≤ x.1.start then x.1.start else b) ∧ e.1.stop = x.1.stop ∧
        e.2 = x.2 := by
    intro e he
    obtain ⟨x, hx, h3⟩ := List.mem_filterMap.1 he
    obtain ⟨r', h4, rfl⟩ := Option.map_eq_some_iff.1 h3
    unfold iabove at h4
    split at h4 <;> simp only [Option.some.injEq, reduceCtorEq] at h4
    subst h4
    exact ⟨x, hx, by grind, rfl, rfl, rfl⟩
  refine ⟨⟨?_, fun e he => ?_⟩, fun p hp q hq h1 => ?_, fun e he => ?_⟩
  · rw [List.pairwise_filterMap]
    refine h.sep.pw.imp fun {p q} hab p' hp' q' hq' => ?_
    obtain ⟨r, h3, rfl⟩ := Option.map_eq_some_iff.1 hp'
    obtain ⟨r', h4, rfl⟩ := Option.map_eq_some_iff.1 hq'
    unfold iabove at h3 h4
    split at h3 <;> simp only [Option.some.injEq, reduceCtorEq] at h3
    split at h4 <;> simp only [Option.some.injEq, reduceCtorEq] at h4
    subst h3 h4
    unfold Before at hab ⊢
    simp only [RangeInclusive.mk']
    grind
  · obtain ⟨x, hx, h1, h2, h3, -⟩ := hm e he
    have := h.sep.ne x hx
    grind
  · obtain ⟨x, hx, h3, h4, h5, h6⟩ := hm p hp
    obtain ⟨y, hy, h7, h8, h9, h10⟩ := hm q hq
    rw [h6, h10]
    refine h.coal x hx y hy ?_
    rw [h5, h8] at h1
    split at h1
    · exact h1
    · have := h1.1
      clear h1
      grind
  · obtain ⟨x, -, h3⟩ := List.mem_filterMap.1 he
    obtain ⟨r', h4, rfl⟩ := Option.map_eq_some_iff.1 h3
    exact above_fresh h4

variable [BEq V] [LawfulBEq V]

theorem run_cut {P : K → Bool} {cut : RangeInclusive K → Option (RangeInclusive K)}
    (hS : LawfulSteps S) (hc : Cuts icovers ivalid P cut)
    (hf : ∀ r r', cut r = some r' → r'.exhausted = false) (ops : List (Op (RangeInclusive K) V))
    (hx : ∀ op ∈ ops, ∀ r ∈ op.inserted, r.exhausted = false) (k : K) :
    (run S (ops.flatMap (Op.cut ivalid cut))).get k =
      if P k then (run S ops).get k else .ok none := by
  rw [C25_refinement_exact hS _ (cut_inserted ops hf), C25_refinement_exact hS ops hx,
    List.reverse_flatMap]
  rw [show lastWrite icovers ivalid (ops.reverse.flatMap (List.reverse ∘ Op.cut ivalid cut)) k = _
    from
    lastWrite_cut hc k ops.reverse]
  cases P k <;> rfl

/-- **C123** Cut every call at the keys `a` and `b`: make the parts up to `a` on one map, the parts
  from
`b` on on another one.  Then the one answers for the keys up to `a`, the other for those from `b`
on. -/
theorem C123_get (hS : LawfulSteps S) (ops : List (Op (RangeInclusive K) V))
    (hx : ∀ op ∈ ops, ∀ r ∈ op.inserted, r.exhausted = false) (a b k : K) :
    (run S (ops.flatMap (Op.cut ivalid (ibelow a)))).get k =
      (if k ≤ a then (run S ops).get k else .ok none) ∧
    (run S (ops.flatMap (Op.cut ivalid (iabove b)))).get k =
      (if b ≤ k then (run S ops).get k else .ok none) := by
  rw [run_cut hS (below_cuts a) (fun _ _ => below_fresh) ops hx,
    run_cut hS (above_cuts b) (fun _ _ => above_fresh) ops hx]
  simp only [decide_eq_true_eq, and_self]

theorem iter_cut (hS : LawfulSteps S) (hk : ∀ a b : K, a ≤ b → b ≤ a → a = b) {P : K → Bool}
    {cut : RangeInclusive K → Option (RangeInclusive K)}
    (hc : Cuts icovers ivalid P cut) (hf : ∀ r r', cut r = some r' → r'.exhausted = false)
    (ops : List (Op (RangeInclusive K) V))
    (hx : ∀ op ∈ ops, ∀ r ∈ op.inserted, r.exhausted = false)
    (hw : WF ((run S ops).btm.filterMap fun e => (cut e.1).map (·, e.2))) :
    (run S (ops.flatMap (Op.cut ivalid cut))).iter =
      (run S ops).iter.filterMap fun e => (cut e.1).map (·, e.2) := by
  have hr : Reachable S (run S ops) := ⟨ops, hx, rfl⟩
  have hrw := hr.wf hS
  have := congrFun (AgreeAt.eq hS hk (maps := fun _ => run S (ops.flatMap (Op.cut ivalid cut)))
    (maps' := fun _ => ⟨(run S ops).btm.filterMap fun e => (cut e.1).map (·, e.2)⟩)
    (fun _ k => by
      rw [run_cut hS hc hf ops hx, get_look hrw, get_look hw]
      have key : ∀ w, (RangeInclusiveMap.mk ((run S ops).btm.filterMap fun e =>
          (cut e.1).map (·, e.2))).look k = some w ↔ P k = true ∧ (run S ops).look k = some w := by
        intro w
        rw [look_eq_some hw, look_eq_some hrw]
        exact maps_cut hc hrw.sep.ne k w
      cases hP : P k with
      | true =>
        simp only [if_pos]
        refine congrArg _ (Option.ext fun w => ?_)
        rw [key, hP]
        simp
      | false =>
        simp only [Bool.false_eq_true, if_false]
        refine congrArg _ (Option.ext fun w => ?_)
        rw [key, hP]
        simp)
    (fun _ => ⟨_, cut_inserted ops hf, rfl⟩) fun _ => (reachable_iff hS).2 hw) 0
  exact congrArg RangeInclusiveMap.iter this

/-- **C123** The ranges that the two maps store are the ranges of the whole, cut at `a` and `b`. -/
theorem C123_iter (hS : LawfulSteps S) (hk : ∀ a b : K, a ≤ b → b ≤ a → a = b)
    (ops : List (Op (RangeInclusive K) V))
    (hx : ∀ op ∈ ops, ∀ r ∈ op.inserted, r.exhausted = false) (a b : K) :
    (run S (ops.flatMap (Op.cut ivalid (ibelow a)))).iter =
      ((run S ops).iter.filterMap fun e => (ibelow a e.1).map (·, e.2)) ∧
    (run S (ops.flatMap (Op.cut ivalid (iabove b)))).iter =
      (run S ops).iter.filterMap fun e => (iabove b e.1).map (·, e.2) :=
  ⟨iter_cut hS hk (below_cuts a) (fun _ _ => below_fresh) ops hx
    (below_wf (Reachable.wf hS ⟨ops, hx, rfl⟩) a),
    iter_cut hS hk (above_cuts b) (fun _ _ => above_fresh) ops hx
    (above_wf (Reachable.wf hS ⟨ops, hx, rfl⟩) b)⟩

theorem cut_lengths {l : List (RangeInclusive K × V)} (h : Sep l) {a b : K} (hab : Next a b) :
    l.length ≤ (l.filterMap fun e => (ibelow a e.1).map (·, e.2)).length +
      (l.filterMap fun e => (iabove b e.1).map (·, e.2)).length ∧
    (l.filterMap fun e => (ibelow a e.1).map (·, e.2)).length +
      (l.filterMap fun e => (iabove b e.1).map (·, e.2)).length ≤ l.length + 1 ∧
    ((∀ e ∈ l, b ≤ e.1.start) → (l.filterMap fun e => (ibelow a e.1).map (·, e.2)).length = 0 ∧
      (l.filterMap fun e => (iabove b e.1).map (·, e.2)).length = l.length) := by
  have hab1 := hab.1
  have hab2 : ∀ d, a < d → b ≤ d := hab.2
  clear hab
  induction l with
  | nil => simp
  | cons e l ih =>
    have hp := List.pairwise_cons.1 h.pw
    have hs : Sep l := ⟨hp.2, fun x hx => h.ne x (List.mem_cons_of_mem _ hx)⟩
    have he := h.ne e List.mem_cons_self
    obtain ⟨i1, i2, i3⟩ := ih hs
    replace hab2 := hab2 e.1.start
    have b1 : (ibelow a e.1).isSome = decide (e.1.start ≤ a) := by
      unfold ibelow; split <;> simp <;> grind
    have b2 : (iabove b e.1).isSome = decide (b ≤ e.1.stop) := by
      unfold iabove; split <;> simp <;> grind
    simp only [List.filterMap_cons]
    have rest : b ≤ e.1.stop → (∀ x ∈ l, b ≤ x.1.start) := fun hc x hx => by
      have := hp.1 x hx
      unfold Before at this
      grind
    cases e1 : ibelow a e.1 <;> cases e2 : iabove b e.1 <;> rw [e1] at b1 <;> rw [e2] at b2 <;>
      simp only [Option.isSome_none, Option.isSome_some, eq_comm (a := false), eq_comm (a := true),
        decide_eq_true_eq, decide_eq_false_iff_not] at b1 b2 <;>
      simp only [Option.map_none, Option.map_some, List.length_cons]
    · exact absurd he (by grind)
    · refine ⟨by omega, by omega, fun hc => ?_⟩
      have := i3 fun x hx => hc x (List.mem_cons_of_mem _ hx)
      omega
    · refine ⟨by omega, by omega, fun hc => ?_⟩
      have := hc e List.mem_cons_self
      exact absurd b1 (by grind)
    · have := i3 (rest b2)
      refine ⟨by omega, by omega, fun hc => ?_⟩
      have := hc e List.mem_cons_self
      exact absurd b1 (by grind)

/-- **C123** If `b` follows `a`, they store together as many ranges as the whole, or one more. -/
theorem C123_len (hS : LawfulSteps S) (hk : ∀ a b : K, a ≤ b → b ≤ a → a = b)
    (ops : List (Op (RangeInclusive K) V))
    (hx : ∀ op ∈ ops, ∀ r ∈ op.inserted, r.exhausted = false) {a b : K}
    (hab : Next a b) :
    (run S ops).len ≤ (run S (ops.flatMap (Op.cut ivalid (ibelow a)))).len +
      (run S (ops.flatMap (Op.cut ivalid (iabove b)))).len ∧
    (run S (ops.flatMap (Op.cut ivalid (ibelow a)))).len +
      (run S (ops.flatMap (Op.cut ivalid (iabove b)))).len ≤ (run S ops).len + 1 := by
  obtain ⟨h1, h2⟩ := C123_iter hS hk ops hx a b
  have h := cut_lengths (Reachable.wf hS (m := run S ops) ⟨ops, hx, rfl⟩).sep hab
  unfold RangeInclusiveMap.len
  rw [show (run S (ops.flatMap (Op.cut ivalid (ibelow a)))).btm = _ from h1,
    show (run S (ops.flatMap (Op.cut ivalid (iabove b)))).btm = _ from h2]
  exact ⟨h.1, h.2.1⟩

/-- **C123** If `b` follows `a`, collecting what the two maps yield, the one after the other, gives
  the whole again. -/
theorem C123_join (hS : LawfulSteps S) (hk : ∀ a b : K, a ≤ b → b ≤ a → a = b)
    (ops : List (Op (RangeInclusive K) V))
    (hx : ∀ op ∈ ops, ∀ r ∈ op.inserted, r.exhausted = false) {a b : K}
    (hab : Next a b) :
    fromIter S ((run S (ops.flatMap (Op.cut ivalid (ibelow a)))).iter ++
      (run S (ops.flatMap (Op.cut ivalid (iabove b)))).iter) = .ok (run S ops) := by
  obtain ⟨h1, h2⟩ := C123_iter hS hk ops hx a b
  have hr : Reachable S (run S ops) := ⟨ops, hx, rfl⟩
  have hrw := hr.wf hS
  have hlow : Reachable S (run S (ops.flatMap (Op.cut ivalid (ibelow a)))) :=
    ⟨_, cut_inserted ops fun _ _ => below_fresh, rfl⟩
  have hhigh : Reachable S (run S (ops.flatMap (Op.cut ivalid (iabove b)))) :=
    ⟨_, cut_inserted ops fun _ _ => above_fresh, rfl⟩
  generalize hl : (run S (ops.flatMap (Op.cut ivalid (ibelow a)))).iter ++
    (run S (ops.flatMap (Op.cut ivalid (iabove b)))).iter = items
  have hv : ∀ e ∈ items, e.1.start ≤ e.1.stop := by
    subst hl
    intro e he
    rcases List.mem_append.1 he with he | he
    · exact (hlow.wf hS).sep.ne e he
    · exact (hhigh.wf hS).sep.ne e he
  have hfr : ∀ e ∈ items, e.1.exhausted = false := by
    subst hl
    intro e he
    rcases List.mem_append.1 he with he | he
    · exact (hlow.wf hS).fresh e he
    · exact (hhigh.wf hS).fresh e he
  have hmaps : ∀ k w, Maps items k w ↔ Maps (run S ops).btm k w := by
    intro k w
    have m1 := maps_cut (below_cuts a) hrw.sep.ne k w
    have m2 := maps_cut (above_cuts b) hrw.sep.ne k w
    rw [← show (run S (ops.flatMap (Op.cut ivalid (ibelow a)))).btm =
      (run S ops).btm.filterMap fun e => (ibelow a e.1).map (·, e.2) from h1] at m1
    rw [← show (run S (ops.flatMap (Op.cut ivalid (iabove b)))).btm =
      (run S ops).btm.filterMap fun e => (iabove b e.1).map (·, e.2) from h2] at m2
    have m3 : Maps items k w ↔ Maps (run S (ops.flatMap (Op.cut ivalid (ibelow a)))).btm k w ∨
        Maps (run S (ops.flatMap (Op.cut ivalid (iabove b)))).btm k w := by
      subst hl
      constructor
      · rintro ⟨e, he, h⟩
        rcases List.mem_append.1 he with he | he
        · exact .inl ⟨e, he, h⟩
        · exact .inr ⟨e, he, h⟩
      · rintro (⟨e, he, h⟩ | ⟨e, he, h⟩)
        · exact ⟨e, List.mem_append_left _ he, h⟩
        · exact ⟨e, List.mem_append_right _ he, h⟩
    rw [m3, m1, m2]
    simp only [decide_eq_true_eq]
    constructor
    · rintro (h | h) <;> exact h.2
    · intro h
      by_cases hkc : k ≤ a
      · exact .inl ⟨hkc, h⟩
      · exact .inr ⟨hab.2 _ (by grind), h⟩
  have hn : Reachable S (new : RangeInclusiveMap K V) := ⟨[], by simp, rfl⟩
  have hx : Reachable S ((new : RangeInclusiveMap K V).extend S items).1 :=
    ⟨[.extend items], by simpa [Op.inserted] using fun r v h => hfr (r, v) h, rfl⟩
  have h5 : ((new : RangeInclusiveMap K V).extend S items).1 = run S ops := by
    refine congrFun (AgreeAt.eq hS hk
      (maps := fun _ => ((new : RangeInclusiveMap K V).extend S items).1)
      (maps' := fun _ => run S ops) (fun _ k => ?_) (fun _ => hx) fun _ => hr) 0
    obtain ⟨-, o, o', h6, h7, h8⟩ := C19_extend_last_wins hS hn items hv hfr k
    have h9 : o' = none := by
      have : (new : RangeInclusiveMap K V).get k = .ok none := rfl
      rw [this] at h7
      cases h7
      rfl
    subst h9
    rw [h6, RangeMap.Agree.eq h8, get_look hrw]
    refine congrArg _ ?_
    cases hf : items.reverse.find? fun e => icovers e.1 k with
    | none =>
      symm
      rw [look_eq_none hrw]
      intro w hw
      obtain ⟨e, he, h10, h11, -⟩ := (hmaps k w).2 hw
      have := List.find?_eq_none.1 hf e (List.mem_reverse.2 he)
      exact this (by simpa [icovers] using ⟨h10, h11⟩)
    | some e =>
      symm
      rw [look_eq_some hrw]
      have := List.find?_some hf
      simp only [icovers, decide_eq_true_eq] at this
      exact (hmaps k e.2).1 ⟨e, List.mem_reverse.1 (List.mem_of_find?_eq_some hf), this.1, this.2,
        rfl⟩
  have h6 := (C19_extend_last_wins hS hn items hv hfr a).1
  simp only [fromIter, h6, h5]
  rfl

end

/-! ### Examples -/

/-- A history with a call that panics and an `extend` that stops in the middle. -/
def shardOps : List (Op (RangeInclusive (UIntW 8)) Char) :=
  [.insert (Demo.by8 0 255) 'a', .remove (Demo.by8 20 60), .insert (Demo.by8 20 19) 'a',
    .extend [(Demo.by8 45 70, 'b'), (Demo.by8 9 8, 'a'), (Demo.by8 0 50, 'a')],
    .insert (Demo.by8 30 35) 'b']

theorem shardOps_fresh : ∀ op ∈ shardOps, ∀ r ∈ op.inserted, r.exhausted = false := by decide

theorem next_49_50 : Next (⟨49⟩ : UIntW 8) ⟨50⟩ := by
  obtain ⟨c, h1, h2⟩ := Demo.u8_lawful.addOne (⟨49⟩ : UIntW 8) ⟨60⟩ (by decide)
  cases h1
  exact h2

example : (run Demo.u8 (shardOps.flatMap (Op.cut ivalid (ibelow ⟨49⟩)))).iter =
    [(Demo.by8 0 19, 'a'), (Demo.by8 30 35, 'b'), (Demo.by8 45 49, 'b')] := by decide +kernel
example : (run Demo.u8 (shardOps.flatMap (Op.cut ivalid (iabove ⟨50⟩)))).iter =
    [(Demo.by8 50 70, 'b'), (Demo.by8 71 255, 'a')] := by decide +kernel
example := C123_get (S := Demo.u8) Demo.u8_lawful shardOps shardOps_fresh ⟨49⟩ ⟨50⟩ ⟨47⟩
example := C123_iter (S := Demo.u8) Demo.u8_lawful Demo.u8_antisymm shardOps shardOps_fresh ⟨49⟩
  ⟨50⟩
example := C123_len (S := Demo.u8) Demo.u8_lawful Demo.u8_antisymm shardOps shardOps_fresh
  next_49_50
example := C123_join (S := Demo.u8) Demo.u8_lawful Demo.u8_antisymm shardOps shardOps_fresh
  next_49_50

end Verif.Props.Inclusive

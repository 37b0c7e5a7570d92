import Verif.Props.IShards
import Verif.Props.IZip

/-!
# C126 for inclusive maps
-/
set_option linter.unusedSectionVars false

namespace Verif.Spec
variable {K : Type} [LE K] [LT K] [DecidableLE K] [DecidableLT K]

/-- The part of the range inside `q`, if there is any. -/
def iinside (q r : RangeInclusive K) : Option (RangeInclusive K) :=
  if (q.start ≤ q.stop ∧ r.start ≤ r.stop) ∧ q.start ≤ r.stop ∧ r.start ≤ q.stop then some
    (icap q r)
  else none

end Verif.Spec

namespace Verif.Props.Inclusive
open Spec RangeInclusiveMap Cut
section
variable {K : Type} [LE K] [LT K] [DecidableLE K] [DecidableLT K]
  [Std.IsLinearPreorder K] [Std.LawfulOrderLT K] {V : Type} {S : StepFns K}

theorem inside_cuts (q : RangeInclusive K) : Cuts icovers ivalid (icovers q) (iinside q) where
  sound r r' h := by
    unfold iinside at h
    split at h <;> simp only [Option.some.injEq, reduceCtorEq] at h
    subst h
    simp only [ivalid, icap, RangeInclusive.mk']
    grind
  keys r k := by
    unfold iinside
    split
    · simp only [ivalid, icovers, icap, RangeInclusive.mk', Option.any_some, ← Bool.decide_and,
      decide_eq_decide]
      grind
    · simp only [ivalid, icovers, Option.any_none, ← Bool.decide_and, decide_eq_false_iff_not]
      grind

theorem inside_some {q r r' : RangeInclusive K} (h : iinside q r = some r') :
    q.start ≤ r.stop ∧ r.start ≤ q.stop ∧ q.start ≤ q.stop ∧ r.start ≤ r.stop ∧
      r'.exhausted = false ∧
      r'.start = (if q.start ≤ r.start then r.start else q.start) ∧
      r'.stop = (if r.stop ≤ q.stop then r.stop else q.stop) := by
  unfold iinside at h
  split at h <;> simp only [Option.some.injEq, reduceCtorEq] at h
  subst h
  exact ⟨by grind, by grind, by grind, by grind, rfl, rfl, rfl⟩

theorem inside_wf [BEq V] {l : List (RangeInclusive K × V)} (h : WF l) (q : RangeInclusive K) :
    WF (l.filterMap fun e => (iinside q e.1).map (·, e.2)) := by
  have hm : ∀ e ∈ l.filterMap (fun e => (iinside q e.1).map (·, e.2)), ∃ x ∈ l,
      iinside q x.1 = some e.1 ∧ e.2 = x.2 := by
    intro e he
    obtain ⟨x, hx, h3⟩ := List.mem_filterMap.1 he
    obtain ⟨r', h4, rfl⟩ := Option.map_eq_some_iff.1 h3
    exact ⟨x, hx, h4, rfl⟩
  refine ⟨⟨?_, fun e he => ?_⟩, fun a ha b hb h1 => ?_, fun e he => ?_⟩
  · rw [List.pairwise_filterMap]
    refine h.sep.pw.imp fun {a b} hab a' ha' b' hb' => ?_
    obtain ⟨r, h3, rfl⟩ := Option.map_eq_some_iff.1 ha'
    obtain ⟨r', h4, rfl⟩ := Option.map_eq_some_iff.1 hb'
    have h3 := inside_some h3
    have h4 := inside_some h4
    unfold Before at hab ⊢
    grind
  · obtain ⟨x, hx, h1, -⟩ := hm e he
    have := inside_some h1
    grind
  · obtain ⟨x, hx, h3, h4⟩ := hm a ha
    obtain ⟨y, hy, h5, h6⟩ := hm b hb
    have h3 := inside_some h3
    have h5 := inside_some h5
    rw [h4, h6]
    refine h.coal x hx y hy ?_
    have hlt := h1.1
    have e1 : a.1.stop = x.1.stop := by clear h1; grind
    have e2 : b.1.start = y.1.start := by clear h1; grind
    rwa [e1, e2] at h1
  · obtain ⟨x, hx, h1, -⟩ := hm e he
    exact (inside_some h1).2.2.2.2.1

variable [BEq V] [LawfulBEq V]

/-- **C126** Make of every call only the part inside the range `q`.  The map that is left answers
for the keys inside `q` as the whole map does, and has nothing outside. -/
theorem C126_get (hS : LawfulSteps S) (ops : List (Op (RangeInclusive K) V))
    (hx : ∀ op ∈ ops, ∀ r ∈ op.inserted, r.exhausted = false) (q : RangeInclusive K) (k : K) :
    (run S (ops.flatMap (Op.cut ivalid (iinside q)))).get k =
      if q.start ≤ k ∧ k ≤ q.stop then (run S ops).get k else .ok none := by
  rw [run_cut hS (inside_cuts q) (fun _ _ h => (inside_some h).2.2.2.2.1) ops hx]
  simp only [icovers, decide_eq_true_eq]

/-- **C126** The ranges of that map are what `overlapping(q)` of the whole yields, cut to `q`. -/
theorem C126_overlapping (hS : LawfulSteps S) (hk : ∀ a b : K, a ≤ b → b ≤ a → a = b)
    (ops : List (Op (RangeInclusive K) V))
    (hx : ∀ op ∈ ops, ∀ r ∈ op.inserted, r.exhausted = false)
    (q : RangeInclusive K) (hq : q.start ≤ q.stop) :
    ∃ o l, (run S ops).overlapping q = .ok o ∧ Yields Overlapping.next o l ∧
      (run S (ops.flatMap (Op.cut ivalid (iinside q)))).iter = l.map fun e => (icap q e.1, e.2) :=
        by
  have hr : Reachable S (run S ops) := ⟨ops, hx, rfl⟩
  obtain ⟨o, h1, h2⟩ := C32_overlapping_exact hS hr.any q
  refine ⟨o, _, h1, h2, ?_⟩
  rw [iter_cut hS hk (inside_cuts q) (fun _ _ h => (inside_some h).2.2.2.2.1) ops hx
    (inside_wf (hr.wf hS) q)]
  have key : ∀ l : List (RangeInclusive K × V), (∀ e ∈ l, e.1.start ≤ e.1.stop) →
      (l.filterMap fun e => (iinside q e.1).map (·, e.2)) =
        (l.filter fun e => decide (q.start ≤ e.1.stop) && decide (e.1.start ≤ q.stop)).map
          fun e => (icap q e.1, e.2) := by
    intro l
    induction l with
    | nil => intro _; rfl
    | cons e l ih =>
      intro h
      have ih := ih fun x hx => h x (List.mem_cons_of_mem _ hx)
      have he := h e List.mem_cons_self
      rw [List.filterMap_cons, List.filter_cons]
      by_cases c : q.start ≤ e.1.stop ∧ e.1.start ≤ q.stop
      · rw [iinside, if_pos ⟨⟨hq, he⟩, c⟩, if_pos (by simpa using c)]
        exact congrArg _ ih
      · rw [iinside, if_neg fun hc => c hc.2, if_neg (by simpa using c)]
        exact ih
  exact key _ (hr.wf hS).sep.ne

/-- **C126** It never has more ranges than the whole. -/
theorem C126_len (hS : LawfulSteps S) (hk : ∀ a b : K, a ≤ b → b ≤ a → a = b)
    (ops : List (Op (RangeInclusive K) V))
    (hx : ∀ op ∈ ops, ∀ r ∈ op.inserted, r.exhausted = false)
    (q : RangeInclusive K) : (run S (ops.flatMap (Op.cut ivalid (iinside q)))).len ≤
      (run S ops).len := by
  have h := iter_cut hS hk (inside_cuts q) (fun _ _ h => (inside_some h).2.2.2.2.1) ops hx
    (inside_wf (Reachable.wf hS ⟨ops, hx, rfl⟩) q)
  unfold RangeInclusiveMap.len
  rw [show (run S (ops.flatMap (Op.cut ivalid (iinside q)))).btm = _ from h]
  exact List.length_filterMap_le _ _

end

/-! ### Examples -/

example : (run Demo.u8 (shardOps.flatMap (Op.cut ivalid (iinside (Demo.by8 10 60))))).iter =
    [(Demo.by8 10 19, 'a'), (Demo.by8 30 35, 'b'), (Demo.by8 45 60, 'b')] := by decide +kernel
example := C126_get (S := Demo.u8) Demo.u8_lawful shardOps shardOps_fresh (Demo.by8 10 60) ⟨47⟩
example := C126_overlapping (S := Demo.u8) Demo.u8_lawful Demo.u8_antisymm shardOps shardOps_fresh
  (Demo.by8 10 60) (by decide)
example := C126_len (S := Demo.u8) Demo.u8_lawful Demo.u8_antisymm shardOps shardOps_fresh
  (Demo.by8 10 60)

end Verif.Props.Inclusive

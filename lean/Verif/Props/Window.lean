import Verif.Props.Shards
import Verif.Props.Zip

/-!
# C126: what `overlapping` yields, cut to the query, is a map that only got what lies inside it
-/
set_option linter.unusedSectionVars false

namespace Verif.Spec
variable {K : Type} [LE K] [LT K] [DecidableLE K] [DecidableLT K]

/-- The part of the range inside `q`, if there is any. -/
def inside (q r : Range K) : Option (Range K) :=
  if (q.start < q.stop ∧ r.start < r.stop) ∧ q.start < r.stop ∧ r.start < q.stop then some (cap q r)
  else none

end Verif.Spec

namespace Verif.Props
open Spec RangeMap Cut
section
variable {K : Type} [LE K] [LT K] [DecidableLE K] [DecidableLT K]
  [Std.IsLinearPreorder K] [Std.LawfulOrderLT K] {V : Type}

theorem inside_cuts (q : Range K) : Cuts covers valid (covers q) (inside q) where
  sound r r' h := by
    unfold inside at h
    split at h <;> simp only [Option.some.injEq, reduceCtorEq] at h
    subst h
    simp only [valid, cap]
    grind
  keys r k := by
    unfold inside
    split
    · simp only [valid, covers, cap, Option.any_some, ← Bool.decide_and, decide_eq_decide]
      grind
    · simp only [valid, covers, Option.any_none, ← Bool.decide_and, decide_eq_false_iff_not]
      grind

theorem inside_some {q r r' : Range K} (h : inside q r = some r') :
    q.start < r.stop ∧ r.start < q.stop ∧ q.start < q.stop ∧ r.start < r.stop ∧
      r'.start = (if q.start ≤ r.start then r.start else q.start) ∧
      r'.stop = (if r.stop ≤ q.stop then r.stop else q.stop) := by
  unfold inside at h
  split at h <;> simp only [Option.some.injEq, reduceCtorEq] at h
  subst h
  exact ⟨by grind, by grind, by grind, by grind, rfl, rfl⟩

theorem inside_wf [BEq V] {l : List (Range K × V)} (h : WF l) (q : Range K) :
    WF (l.filterMap fun e => (inside q e.1).map (·, e.2)) := by
  have hm : ∀ e ∈ l.filterMap (fun e => (inside q e.1).map (·, e.2)), ∃ x ∈ l,
      inside q x.1 = some e.1 ∧ e.2 = x.2 := by
    intro e he
    obtain ⟨x, hx, h3⟩ := List.mem_filterMap.1 he
    obtain ⟨r', h4, rfl⟩ := Option.map_eq_some_iff.1 h3
    exact ⟨x, hx, h4, rfl⟩
  refine ⟨⟨?_, fun e he => ?_⟩, fun a ha b hb h1 h2 => ?_⟩
  · rw [List.pairwise_filterMap]
    refine h.sep.pw.imp fun {a b} hab a' ha' b' hb' => ?_
    obtain ⟨r, h3, rfl⟩ := Option.map_eq_some_iff.1 ha'
    obtain ⟨r', h4, rfl⟩ := Option.map_eq_some_iff.1 hb'
    have h3 := inside_some h3
    have h4 := inside_some h4
    unfold Before at hab ⊢
    grind
  · obtain ⟨x, hx, h1, -⟩ := hm e he
    have := inside_some h1
    grind
  · obtain ⟨x, hx, h3, h4⟩ := hm a ha
    obtain ⟨y, hy, h5, h6⟩ := hm b hb
    have h3 := inside_some h3
    have h5 := inside_some h5
    rw [h4, h6]
    exact h.coal x hx y hy (by grind) (by grind)

variable [BEq V] [LawfulBEq V]

/-- **C126** Make of every call only the part inside the range `q`.  The map that is left answers
for the keys inside `q` as the whole map does, and has nothing outside. -/
theorem C126_get (ops : List (Op (Range K) V)) (q : Range K) (k : K) :
    (run (ops.flatMap (Op.cut valid (inside q)))).get k =
      if q.start ≤ k ∧ k < q.stop then (run ops).get k else .ok none := by
  rw [run_cut (inside_cuts q)]
  simp only [covers, decide_eq_true_eq]

/-- **C126** The ranges of that map are what `overlapping(q)` of the whole yields, cut to `q`. -/
theorem C126_overlapping (hk : ∀ a b : K, a ≤ b → b ≤ a → a = b) (ops : List (Op (Range K) V))
    (q : Range K) (hq : q.start < q.stop) :
    ∃ o l, (run ops).overlapping q = .ok o ∧ Yields Overlapping.next o l ∧
      (run (ops.flatMap (Op.cut valid (inside q)))).iter = l.map fun e => (cap q e.1, e.2) := by
  have hr : Reachable (run ops) := ⟨ops, rfl⟩
  obtain ⟨o, h1, h2⟩ := C13_overlapping_exact hr q
  refine ⟨o, _, h1, h2, ?_⟩
  rw [iter_cut hk (inside_cuts q) ops (inside_wf hr.wf q)]
  have key : ∀ l : List (Range K × V), (∀ e ∈ l, e.1.start < e.1.stop) →
      (l.filterMap fun e => (inside q e.1).map (·, e.2)) =
        (l.filter fun e => decide (q.start < e.1.stop) && decide (e.1.start < q.stop)).map
          fun e => (cap q e.1, e.2) := by
    intro l
    induction l with
    | nil => intro _; rfl
    | cons e l ih =>
      intro h
      have ih := ih fun x hx => h x (List.mem_cons_of_mem _ hx)
      have he := h e List.mem_cons_self
      rw [List.filterMap_cons, List.filter_cons]
      by_cases c : q.start < e.1.stop ∧ e.1.start < q.stop
      · rw [inside, if_pos ⟨⟨hq, he⟩, c⟩, if_pos (by simpa using c)]
        exact congrArg _ ih
      · rw [inside, if_neg fun hc => c hc.2, if_neg (by simpa using c)]
        exact ih
  exact key _ hr.wf.sep.ne

/-- **C126** It never has more ranges than the whole. -/
theorem C126_len (hk : ∀ a b : K, a ≤ b → b ≤ a → a = b) (ops : List (Op (Range K) V))
    (q : Range K) : (run (ops.flatMap (Op.cut valid (inside q)))).len ≤ (run ops).len := by
  have h := iter_cut hk (inside_cuts q) ops (inside_wf (Reachable.wf ⟨ops, rfl⟩) q)
  unfold RangeMap.len
  rw [show (run (ops.flatMap (Op.cut valid (inside q)))).btm = _ from h]
  exact List.length_filterMap_le _ _

end

/-! ### Examples -/

example : (run (shardOps.flatMap (Op.cut valid (inside ⟨10, 60⟩)))).iter =
    [(⟨10, 20⟩, 'a'), (⟨30, 35⟩, 'b'), (⟨45, 60⟩, 'b')] := by decide +kernel
example := C126_get shardOps ⟨10, 60⟩ 47
example := C126_overlapping (fun _ _ => Nat.le_antisymm) shardOps ⟨10, 60⟩ (by decide)
example := C126_len (fun _ _ => Nat.le_antisymm) shardOps ⟨10, 60⟩

end Verif.Props

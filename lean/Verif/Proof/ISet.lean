import Verif.Model.ISet
import Verif.Proof.Set
import Verif.Proof.IAppend
import Verif.Proof.ICanon
import Verif.Proof.IIter

/-!
# `RangeInclusiveSet`: reduction to `RangeInclusiveMap<T, ()>`
-/
set_option linter.unusedSectionVars false

namespace Verif
open Spec

theorem YieldsE.wrap {S S' α β : Type} {next : S → Except Panic (Option α × S)}
    {next' : S' → Except Panic (Option β × S')} (w : S → S') (f : α → β)
    (h : ∀ s, next' (w s) = (next s).map fun p => (p.1.map f, w p.2)) {s : S}
    {l : List α} (hy : YieldsE next s l) : YieldsE next' (w s) (l.map f) := by
  intro n
  have key : ∀ n s, callsE next' n (w s) = (callsE next n s).map (List.map (Option.map f)) := by
    intro n
    induction n with
    | zero => intro s; rfl
    | succ n ih =>
      intro s
      rw [callsE, callsE, h]
      cases hn : next s with
      | error p => rfl
      | ok p =>
        simp only [Except.map, ih]
        cases callsE next n p.2 <;> rfl
  rw [key, hy n]
  simp only [Except.map, List.map_take, List.map_append, List.map_map]
  simp [Function.comp_def]

theorem YieldsE.unique {S α : Type} {next : S → Except Panic (Option α × S)} {s : S}
    {l l' : List α} (h : YieldsE next s l) (h' : YieldsE next s l') : l = l' := by
  have h1 := YieldsE.drain h (fuel := l.length + l'.length + 1) (by omega)
  rw [YieldsE.drain h' (by omega)] at h1
  cases h1
  rfl

namespace RangeInclusiveSet
open RangeInclusiveMap (WF SC)
variable {K : Type} [LE K] [LT K] [DecidableLE K] [DecidableLT K]
  [Std.IsLinearPreorder K] [Std.LawfulOrderLT K] {S : StepFns K}

theorem insert_rm (s : RangeInclusiveSet K) (r : RangeInclusive K) :
    s.insert S r = (s.rm.insert S r ()).map RangeInclusiveSet.mk := by
  unfold insert
  cases s.rm.insert S r () <;> rfl

theorem remove_rm (s : RangeInclusiveSet K) (r : RangeInclusive K) :
    s.remove S r = (s.rm.remove S r).map RangeInclusiveSet.mk := by
  unfold remove
  cases s.rm.remove S r <;> rfl

theorem extend_rm (items : List (RangeInclusive K)) : ∀ s : RangeInclusiveSet K,
    s.extend S items = (⟨(s.rm.extend S (items.map fun r => (r, ()))).1⟩,
      (s.rm.extend S (items.map fun r => (r, ()))).2) := by
  induction items with
  | nil => intro s; rfl
  | cons r t ih =>
    intro s
    rw [extend, insert_rm, List.map_cons, RangeInclusiveMap.extend]
    cases s.rm.insert S r () with
    | error p => rfl
    | ok m' => exact ih ⟨m'⟩

theorem apply_rm (s : RangeInclusiveSet K) (op : SetOp (RangeInclusive K)) :
    s.apply S op = (⟨(s.rm.apply S (setOpToOp op)).1⟩, (s.rm.apply S (setOpToOp op)).2) := by
  cases op with
  | insert r =>
    simp only [apply, setOpToOp, RangeInclusiveMap.apply, insert_rm]
    cases s.rm.insert S r () <;> rfl
  | remove r =>
    simp only [apply, setOpToOp, RangeInclusiveMap.apply, remove_rm]
    cases s.rm.remove S r <;> rfl
  | clear => rfl
  | extend items => exact extend_rm items s

theorem run_rm (ops : List (SetOp (RangeInclusive K))) :
    (run S ops).rm = .run S (ops.map setOpToOp) := by
  unfold run RangeInclusiveMap.run
  suffices ∀ s : RangeInclusiveSet K, (ops.foldl (fun s op => (s.apply S op).1) s).rm =
      (ops.map setOpToOp).foldl (fun m op => (m.apply S op).1) s.rm from this new
  induction ops with
  | nil => intro s; rfl
  | cons op ops ih =>
    intro s
    simp only [List.foldl_cons, List.map_cons, ih]
    rw [apply_rm]

theorem Reachable.map {s : RangeInclusiveSet K} (h : Reachable S s) :
    RangeInclusiveMap.Reachable S s.rm := by
  obtain ⟨ops, ho, rfl⟩ := h
  refine ⟨_, ?_, (run_rm ops).symm⟩
  intro op hop
  obtain ⟨o, h1, rfl⟩ := List.mem_map.1 hop
  rw [setOpToOp_inserted]
  exact ho o h1

theorem Reachable.wf (hS : LawfulSteps S) {s : RangeInclusiveSet K} (h : Reachable S s) :
    WF s.rm.btm := h.map.wf hS

theorem Reachable.any {s : RangeInclusiveSet K} (h : Reachable S s) : ReachableAny S s := by
  obtain ⟨ops, _, h⟩ := h
  exact ⟨ops, h⟩

theorem ReachableAny.map {s : RangeInclusiveSet K} (h : ReachableAny S s) :
    RangeInclusiveMap.ReachableAny S s.rm := by
  obtain ⟨ops, rfl⟩ := h
  exact ⟨_, (run_rm ops).symm⟩

theorem run_iter (hS : LawfulSteps S) {s : RangeInclusiveSet K} (h : SC s.rm.btm) :
    run S [.extend s.iter] = s := by
  have h2 := RangeInclusiveMap.extend_rest hS s.rm.btm [] (by simpa using h)
  simp only [run, List.foldl_cons, List.foldl_nil, apply, extend_rm]
  have : (s.iter.map fun r => (r, ())) = s.rm.btm := by
    simp only [iter, RangeInclusiveMap.iter, List.map_map]
    exact List.map_id _
  rw [this, show (new : RangeInclusiveSet K).rm = ⟨[]⟩ from rfl, h2]
  rfl

theorem Reachable.of_wf (hS : LawfulSteps S) {s : RangeInclusiveSet K} (h : WF s.rm.btm) :
    Reachable S s := by
  refine ⟨[.extend s.iter], ?_, run_iter hS h.sc⟩
  intro op ho r hr
  rw [List.mem_singleton] at ho
  subst ho
  obtain ⟨e, he, rfl⟩ := List.mem_map.1 hr
  exact h.fresh e he

theorem Reachable.of_map (hS : LawfulSteps S) {s : RangeInclusiveSet K}
    (h : RangeInclusiveMap.Reachable S s.rm) : Reachable S s := .of_wf hS (h.wf hS)

theorem Reachable.insert (hS : LawfulSteps S) {s s' : RangeInclusiveSet K} (h : Reachable S s)
    {r : RangeInclusive K} (hx : r.exhausted = false)
    (hi : s.insert S r = .ok s') : Reachable S s' := by
  rw [insert_rm] at hi
  cases hm : s.rm.insert S r () with
  | error p => rw [hm] at hi; cases hi
  | ok m' => rw [hm] at hi; cases hi; exact .of_map hS (h.map.insert hx hm)

theorem Reachable.remove (hS : LawfulSteps S) {s s' : RangeInclusiveSet K} (h : Reachable S s)
    {r : RangeInclusive K} (hi : s.remove S r = .ok s') : Reachable S s' := by
  rw [remove_rm] at hi
  cases hm : s.rm.remove S r with
  | error p => rw [hm] at hi; cases hi
  | ok m' => rw [hm] at hi; cases hi; exact .of_map hS (h.map.remove hm)

/-- Sets are exactly the sorted lists of non-empty ranges with some key between any two. -/
theorem wf_iff (s : RangeInclusiveSet K) : WF s.rm.btm ↔
    (∀ r ∈ s.iter, r.start ≤ r.stop ∧ r.exhausted = false) ∧
    s.iter.Pairwise fun a b => a.stop < b.start ∧ ¬ Next a.stop b.start := by
  simp only [iter, RangeInclusiveMap.iter, List.pairwise_map]
  constructor
  · intro h
    refine ⟨?_, ?_⟩
    · intro r hr
      obtain ⟨e, he, rfl⟩ := List.mem_map.1 hr
      exact ⟨h.sep.ne e he, h.fresh e he⟩
    · refine h.sep.pw.imp_of_mem ?_
      intro a b ha hb hab
      refine ⟨hab.2, fun hn => ?_⟩
      have := h.coal a ha b hb hn
      simp at this
  · rintro ⟨h1, h2⟩
    have hne : ∀ e ∈ s.rm.btm, e.1.start ≤ e.1.stop ∧ e.1.exhausted = false :=
      fun e he => h1 e.1 (List.mem_map.2 ⟨e, he, rfl⟩)
    refine ⟨⟨?_, fun e he => (hne e he).1⟩, ?_, fun e he => (hne e he).2⟩
    · refine h2.imp_of_mem fun {a b} ha hb h => ?_
      have := hne a ha
      have := hne b hb
      exact ⟨by grind, by grind⟩
    · intro a ha b hb hn
      exfalso
      have := RangeMap.pw_tri h2 a ha b hb
      have := hne a ha
      have := hne b hb
      have := hn.1
      grind

theorem reachable_iff (hS : LawfulSteps S) (s : RangeInclusiveSet K) : Reachable S s ↔
    (∀ r ∈ s.iter, r.start ≤ r.stop ∧ r.exhausted = false) ∧
    s.iter.Pairwise fun a b => a.stop < b.start ∧ ¬ Next a.stop b.start := by
  rw [← wf_iff]
  exact ⟨Reachable.wf hS, .of_wf hS⟩

/-- The keys of the set. -/
def has (s : RangeInclusiveSet K) (k : K) : Bool := s.iter.any (icovers · k)

theorem has_iff (s : RangeInclusiveSet K) (k : K) :
    s.has k = true ↔ ∃ r ∈ s.iter, r.start ≤ k ∧ k ≤ r.stop := by
  simp [has, icovers]

theorem has_look {s : RangeInclusiveSet K} (h : WF s.rm.btm) (k : K) :
    s.has k = (s.rm.look k).isSome := by
  rw [Bool.eq_iff_iff, has_iff, Option.isSome_iff_exists]
  constructor
  · rintro ⟨r, hr, hk⟩
    obtain ⟨e, he, rfl⟩ := List.mem_map.1 hr
    exact ⟨(), (RangeInclusiveMap.look_eq_some h _ _).2 ⟨e, he, hk.1, hk.2, rfl⟩⟩
  · rintro ⟨w, hw⟩
    obtain ⟨e, he, h1, h2, _⟩ := (RangeInclusiveMap.look_eq_some h _ _).1 hw
    exact ⟨e.1, List.mem_map.2 ⟨e, he, rfl⟩, h1, h2⟩

theorem contains_eq {s : RangeInclusiveSet K} (h : WF s.rm.btm) (k : K) :
    s.contains k = .ok (s.has k) := by
  rw [contains, RangeInclusiveMap.containsKey, RangeInclusiveMap.get_look h, has_look h]
  rfl

theorem eq_iff_has (hS : LawfulSteps S) {s s' : RangeInclusiveSet K} (h : WF s.rm.btm)
    (h' : WF s'.rm.btm) : s.eq s' = true ↔ ∀ k, s.has k = s'.has k := by
  rw [eq, RangeInclusiveMap.eq_iff_look hS h h']
  simp only [RangeSet.agree_unit, has_look h, has_look h']

theorem insert_has (hS : LawfulSteps S) {s s' : RangeInclusiveSet K} (h : WF s.rm.btm)
    {r : RangeInclusive K} (hx : r.exhausted = false) (hi : s.insert S r = .ok s') (k : K) :
    WF s'.rm.btm ∧ r.start ≤ r.stop ∧ s'.has k = (icovers r k || s.has k) := by
  rw [insert_rm] at hi
  have hr : r.start ≤ r.stop := by
    apply Decidable.byContradiction
    intro hr
    rw [RangeInclusiveMap.insert_invalid hr] at hi
    cases hi
  obtain ⟨m', h1, h2, h2'⟩ := RangeInclusiveMap.insert_ok hS h.sc () hr
  have h2 := WF.mk' h2 (h2' h.fresh hx)
  rw [h1] at hi
  cases hi
  refine ⟨h2, hr, ?_⟩
  rw [has_look h2, has_look h]
  have := RangeInclusiveMap.insert_look_agree hS h hx hr h1 k
  rw [RangeSet.agree_unit] at this
  rw [this]
  simp only [icovers]
  split <;> simp_all

theorem remove_ok' (hS : LawfulSteps S) {s : RangeInclusiveSet K} (h : WF s.rm.btm)
    {r : RangeInclusive K} (hr : r.start ≤ r.stop) :
    ∃ s', s.remove S r = .ok s' ∧ s.rm.remove S r = .ok s'.rm ∧ WF s'.rm.btm := by
  obtain ⟨m', h1, h2, h3, _⟩ := RangeInclusiveMap.remove_spec hS h.sc hr
  have h1 := h1 _ (Nat.le_refl _)
  change s.rm.remove S r = _ at h1
  exact ⟨⟨m'⟩, by rw [remove_rm, h1]; rfl, h1, .mk' h2 (h3 h.fresh)⟩

theorem remove_has (hS : LawfulSteps S) {s s' : RangeInclusiveSet K} (h : WF s.rm.btm)
    {r : RangeInclusive K} (hi : s.remove S r = .ok s') (k : K) : WF s'.rm.btm ∧
    r.start ≤ r.stop ∧ s'.has k = (!icovers r k && s.has k) := by
  have hr : r.start ≤ r.stop := by
    apply Decidable.byContradiction
    intro hr
    rw [remove_rm, RangeInclusiveMap.remove_invalid hr] at hi
    cases hi
  obtain ⟨t, h0, h1, h2⟩ := remove_ok' hS h hr
  rw [h0] at hi
  cases hi
  refine ⟨h2, hr, ?_⟩
  rw [has_look h2, has_look h, RangeInclusiveMap.remove_look hS h hr h1 k]
  by_cases hk : r.start ≤ k ∧ k ≤ r.stop
  · simp [icovers, hk]
  · simp [icovers, hk]

theorem insert_ok (hS : LawfulSteps S) {s : RangeInclusiveSet K} (h : SC s.rm.btm)
    {r : RangeInclusive K} (hr : r.start ≤ r.stop) : ∃ s', s.insert S r = .ok s' := by
  obtain ⟨m', h1, _⟩ := RangeInclusiveMap.insert_ok hS h () hr
  exact ⟨⟨m'⟩, by rw [insert_rm, h1]; rfl⟩

theorem remove_ok (hS : LawfulSteps S) {s : RangeInclusiveSet K} (h : SC s.rm.btm)
    {r : RangeInclusive K} (hr : r.start ≤ r.stop) : ∃ s', s.remove S r = .ok s' := by
  obtain ⟨m', h1, _⟩ := RangeInclusiveMap.remove_spec hS h hr
  have h1 := h1 _ (Nat.le_refl _)
  change s.rm.remove S r = _ at h1
  exact ⟨⟨m'⟩, by rw [remove_rm, h1]; rfl⟩

theorem extend_has (hS : LawfulSteps S) (items : List (RangeInclusive K)) :
    ∀ {s : RangeInclusiveSet K}, WF s.rm.btm →
    (∀ r ∈ items, r.start ≤ r.stop ∧ r.exhausted = false) →
    (s.extend S items).2 = .ok () ∧ WF (s.extend S items).1.rm.btm ∧
    ∀ k, (s.extend S items).1.has k = (items.any (icovers · k) || s.has k) := by
  induction items with
  | nil => intro s h _; exact ⟨rfl, h, fun k => rfl⟩
  | cons r t ih =>
    intro s h hv
    obtain ⟨hr, hx⟩ := hv r (by simp)
    obtain ⟨s', h1⟩ := insert_ok hS h.sc hr
    rw [extend, h1]
    obtain ⟨h2, _, _⟩ := insert_has hS h hx h1 r.start
    obtain ⟨i1, i2, i3⟩ := ih h2 (fun x hx => hv x (by simp [hx]))
    refine ⟨i1, i2, fun k => ?_⟩
    simp only [i3, List.any_cons, (insert_has hS h hx h1 k).2.2]
    cases icovers r k <;> cases t.any (icovers · k) <;> simp

theorem fromIter_has (hS : LawfulSteps S) {items : List (RangeInclusive K)}
    (hv : ∀ r ∈ items, r.start ≤ r.stop ∧ r.exhausted = false) :
    ∃ s, fromIter S items = .ok s ∧ WF s.rm.btm ∧
      ∀ k, s.has k = items.any (icovers · k) := by
  obtain ⟨h1, h2, h3⟩ := extend_has hS items (s := new) RangeInclusiveMap.WF.nil hv
  refine ⟨(extend S new items).1, ?_, h2, fun k => ?_⟩
  · simp [fromIter, h1, Except.map]
  · rw [h3]
    simp [has, new, iter, RangeInclusiveMap.iter, RangeInclusiveMap.new]

/-- Collecting a sorted list of separated ranges gives exactly these. -/
theorem fromIter_exact (hS : LawfulSteps S) {items : List (RangeInclusive K)}
    (hv : ∀ r ∈ items, r.start ≤ r.stop ∧ r.exhausted = false)
    (hp : items.Pairwise fun a b => a.stop < b.start ∧ ¬ Next a.stop b.start) :
    ∃ s, fromIter S items = .ok s ∧ WF s.rm.btm ∧ s.iter = items := by
  let s : RangeInclusiveSet K := ⟨⟨items.map fun r => (r, ())⟩⟩
  have hi : s.iter = items := by simp [s, iter, RangeInclusiveMap.iter, Function.comp_def]
  have hw : WF s.rm.btm := (wf_iff s).2 (by rw [hi]; exact ⟨hv, hp⟩)
  refine ⟨s, ?_, hw, hi⟩
  have h2 := RangeInclusiveMap.extend_rest hS s.rm.btm [] (by simpa using hw.sc)
  simp only [fromIter, extend_rm]
  rw [show (items.map fun r => (r, ())) = s.rm.btm from rfl,
    show (new : RangeInclusiveSet K).rm = ⟨[]⟩ from rfl, h2]
  rfl

/-! ### union and intersection -/

theorem any_iff (l : List (RangeInclusive K)) (k : K) :
    l.any (icovers · k) = true ↔ ∃ r ∈ l, RangeInclusive.laws.mem r k := by
  simp [icovers, OpsLaws.mem, RangeInclusive.laws]

theorem union_spec {s s' : RangeInclusiveSet K} (h : WF s.rm.btm) (h' : WF s'.rm.btm) :
    ∃ l, Yields Union.next (s.union s') l ∧ l.length ≤ s.len + s'.len ∧
      (∀ r ∈ l, r.start ≤ r.stop ∧ r.exhausted = false) ∧
      l.Pairwise (fun a b => a.stop < b.start) ∧
      ∀ k, l.any (icovers · k) = (s.has k || s'.has k) := by
  have hs := (wf_iff s).1 h
  have hs' := (wf_iff s').1 h'
  have sorted : ∀ {l : List (RangeInclusive K)},
      (∀ r ∈ l, r.start ≤ r.stop ∧ r.exhausted = false) →
      l.Pairwise (fun a b => a.stop < b.start ∧ ¬ Next a.stop b.start) →
      RangeInclusive.laws.Sorted l := fun h1 h2 =>
    ⟨fun r hr => (h1 r hr).2, fun r hr => (h1 r hr).1,
      h2.imp fun {a b} h (hb : b.start ≤ a.stop) => by grind⟩
  obtain ⟨l, l1, l2, l3, _, l5⟩ := OpsLaws.union_spec _ s.iter s'.iter (Nat.le_refl _)
    (sorted hs.1 hs.2) (sorted hs'.1 hs'.2)
  refine ⟨l, l1, ?_, fun r hr => ⟨l2.valid r hr, l2.good r hr⟩, ?_, fun k => ?_⟩
  · simpa [iter, RangeInclusiveMap.iter, len, RangeInclusiveMap.len] using l3
  · exact l2.sorted.imp fun {a b} (h : ¬ b.start ≤ a.stop) => by grind
  · rw [Bool.eq_iff_iff, any_iff, l5, ← any_iff, ← any_iff, Bool.or_eq_true]
    rfl

theorem intersection_spec {s s' : RangeInclusiveSet K} (h : WF s.rm.btm)
    (h' : WF s'.rm.btm) :
    ∃ l, Yields Intersection.next (s.intersection s') l ∧ l.length ≤ s.len + s'.len ∧
      (∀ r ∈ l, r.start ≤ r.stop ∧ r.exhausted = false) ∧
      l.Pairwise (fun a b => a.stop < b.start ∧ ¬ Next a.stop b.start) ∧
      ∀ k, l.any (icovers · k) = (s.has k && s'.has k) := by
  have hs := (wf_iff s).1 h
  have hs' := (wf_iff s').1 h'
  obtain ⟨l, l1, l2, l2', l3, _, l5⟩ := OpsLaws.intersection_spec (L := RangeInclusive.laws) _
    s.iter s'.iter (Nat.le_refl _) ⟨fun r hr => (hs.1 r hr).1, hs.2⟩
    ⟨fun r hr => (hs'.1 r hr).1, hs'.2⟩
  refine ⟨l, l1, ?_, fun r hr => ⟨l2.valid r hr, l2' r hr⟩, l2.apart, fun k => ?_⟩
  · simpa [iter, RangeInclusiveMap.iter, len, RangeInclusiveMap.len] using l3
  · rw [Bool.eq_iff_iff, any_iff, l5, ← any_iff, ← any_iff, Bool.and_eq_true]
    rfl

theorem bitOr_spec (hS : LawfulSteps S) {s s' : RangeInclusiveSet K} (h : WF s.rm.btm)
    (h' : WF s'.rm.btm) : ∃ t, s.bitOr S s' = .ok t ∧ WF t.rm.btm ∧
      ∀ k, t.has k = (s.has k || s'.has k) := by
  obtain ⟨l, l1, l2, l3, _, l5⟩ := union_spec h h'
  obtain ⟨t, t1, t2, t3⟩ := fromIter_has hS l3
  refine ⟨t, ?_, t2, fun k => by rw [t3, l5]⟩
  rw [bitOr, Yields.drain l1 (by omega)]
  exact t1

theorem bitAnd_spec (hS : LawfulSteps S) {s s' : RangeInclusiveSet K} (h : WF s.rm.btm)
    (h' : WF s'.rm.btm) : ∃ t, s.bitAnd S s' = .ok t ∧ WF t.rm.btm ∧
      Yields Intersection.next (s.intersection s') t.iter ∧
      ∀ k, t.has k = (s.has k && s'.has k) := by
  obtain ⟨l, l1, l2, l3, l4, l5⟩ := intersection_spec h h'
  obtain ⟨t, t1, t2, t3⟩ := fromIter_exact hS l3 l4
  refine ⟨t, ?_, t2, by rwa [t3], fun k => by rw [has, t3, l5]⟩
  rw [bitAnd, Yields.drain l1 (by omega)]
  exact t1

end RangeInclusiveSet
end Verif

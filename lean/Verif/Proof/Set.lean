import Verif.Model.Set
import Verif.Proof.Append
import Verif.Proof.Canon
import Verif.Proof.Operations

/-!
# `RangeSet`: reduction to `RangeMap<T, ()>`
-/
set_option linter.unusedSectionVars false

namespace Verif
open Spec

/-- An iterator that only repackages another one. -/
theorem Yields.wrap {S S' α β : Type} {next : S → Option α × S} {next' : S' → Option β × S'}
    (w : S → S') (f : α → β) (h : ∀ s, next' (w s) = ((next s).1.map f, w (next s).2)) {s : S}
    {l : List α} (hy : Yields next s l) : Yields next' (w s) (l.map f) := by
  intro n
  have key : ∀ n s, calls next' n (w s) = (calls next n s).map (Option.map f) := by
    intro n
    induction n with
    | zero => intro s; rfl
    | succ n ih => intro s; simp [calls, h, ih]
  rw [key, hy n, List.map_take, List.map_append, List.map_map, List.map_map]
  simp [Function.comp_def]

theorem Yields.unique {S α : Type} {next : S → Option α × S} {s : S} {l l' : List α}
    (h : Yields next s l) (h' : Yields next s l') : l = l' := by
  have h1 := Yields.drain h (fuel := l.length + l'.length + 1) (by omega)
  rw [Yields.drain h' (by omega)] at h1
  cases h1
  rfl

theorem script_wrap {S S' α β : Type} {next back : S → Option α × S}
    {next' back' : S' → Option β × S'} (w : S → S') (f : α → β)
    (h : ∀ s, next' (w s) = ((next s).1.map f, w (next s).2))
    (h' : ∀ s, back' (w s) = ((back s).1.map f, w (back s).2)) (cs : List End) :
    ∀ s, script next' back' cs (w s) = (script next back cs s).map (Option.map f) := by
  induction cs with
  | nil => intro s; rfl
  | cons c cs ih => intro s; cases c <;> simp [script, h, h', ih]

theorem dequeScript_map {α β : Type} (f : α → β) (cs : List End) :
    ∀ l : List α, dequeScript cs (l.map f) = (dequeScript cs l).map (Option.map f) := by
  induction cs with
  | nil => intro l; rfl
  | cons c cs ih =>
    intro l
    cases c
    · simp [dequeScript, ← ih, List.map_tail]
    · simp [dequeScript, ← ih, List.map_dropLast]

/-- The call on the underlying map. -/
def setOpToOp {R : Type} : SetOp R → Op R Unit
  | .insert r => .insert r ()
  | .remove r => .remove r
  | .clear => .clear
  | .extend items => .extend (items.map fun r => (r, ()))

theorem setOpToOp_inserted {R : Type} (op : SetOp R) : (setOpToOp op).inserted = op.inserted := by
  cases op <;> simp [setOpToOp, Op.inserted, SetOp.inserted, Function.comp_def]

theorem lastWrite_member {K R : Type} (covers : R → K → Bool) (valid : R → Bool) (k : K) :
    ∀ ops : List (SetOp R),
      (lastWrite covers valid (ops.map setOpToOp) k).isSome = member covers valid ops k
  | [] => rfl
  | op :: ops => by
    have ih := lastWrite_member covers valid k ops
    cases op with
    | insert r =>
      simp only [List.map_cons, setOpToOp, lastWrite, member]
      split <;> simp_all
    | remove r =>
      simp only [List.map_cons, setOpToOp, lastWrite, member]
      split
      · simp_all
      · rename_i h
        simp only [Bool.not_eq_true] at h
        simp [h, ih]
    | clear => rfl
    | extend items =>
      simp only [List.map_cons, setOpToOp, lastWrite, member, List.takeWhile_map,
        ← List.map_reverse, List.find?_map, Function.comp_def]
      rw [← ih, ← List.any_reverse]
      cases h : List.find? (fun x => covers x k) (List.takeWhile valid items).reverse with
      | some e =>
        have h1 := List.find?_some h
        have h2 := List.mem_of_find?_eq_some h
        have : (List.takeWhile valid items).reverse.any (covers · k) = true :=
          List.any_eq_true.2 ⟨e, h2, h1⟩
        simp [this]
      | none =>
        have h1 := List.find?_eq_none.1 h
        have : (List.takeWhile valid items).reverse.any (covers · k) = false := by
          rw [List.any_eq_false]
          exact h1
        simp [this]

namespace RangeSet
variable {K : Type} [LE K] [LT K] [DecidableLE K] [DecidableLT K]
  [Std.IsLinearPreorder K] [Std.LawfulOrderLT K]

theorem insert_rm (s : RangeSet K) (r : Range K) :
    s.insert r = (s.rm.insert r ()).map RangeSet.mk := by
  unfold insert
  cases s.rm.insert r () <;> rfl

theorem remove_rm (s : RangeSet K) (r : Range K) :
    s.remove r = (s.rm.remove r).map RangeSet.mk := by
  unfold remove
  cases s.rm.remove r <;> rfl

theorem extend_rm (items : List (Range K)) : ∀ s : RangeSet K,
    s.extend items = (⟨(s.rm.extend (items.map fun r => (r, ()))).1⟩,
      (s.rm.extend (items.map fun r => (r, ()))).2) := by
  induction items with
  | nil => intro s; rfl
  | cons r t ih =>
    intro s
    rw [extend, insert_rm, List.map_cons, RangeMap.extend]
    cases s.rm.insert r () with
    | error p => rfl
    | ok m' => exact ih ⟨m'⟩

theorem apply_rm (s : RangeSet K) (op : SetOp (Range K)) :
    s.apply op = (⟨(s.rm.apply (setOpToOp op)).1⟩, (s.rm.apply (setOpToOp op)).2) := by
  cases op with
  | insert r =>
    simp only [apply, setOpToOp, RangeMap.apply, insert_rm]
    cases s.rm.insert r () <;> rfl
  | remove r =>
    simp only [apply, setOpToOp, RangeMap.apply, remove_rm]
    cases s.rm.remove r <;> rfl
  | clear => rfl
  | extend items => exact extend_rm items s

theorem run_rm (ops : List (SetOp (Range K))) : (run ops).rm = .run (ops.map setOpToOp) := by
  unfold run RangeMap.run
  suffices ∀ s : RangeSet K, (ops.foldl (fun s op => (s.apply op).1) s).rm =
      (ops.map setOpToOp).foldl (fun m op => (m.apply op).1) s.rm from this new
  induction ops with
  | nil => intro s; rfl
  | cons op ops ih =>
    intro s
    simp only [List.foldl_cons, List.map_cons, ih]
    rw [apply_rm]

theorem Reachable.map {s : RangeSet K} (h : Reachable s) : RangeMap.Reachable s.rm := by
  obtain ⟨ops, rfl⟩ := h
  exact ⟨_, (run_rm ops).symm⟩

theorem Reachable.wf {s : RangeSet K} (h : Reachable s) : RangeMap.WF s.rm.btm := h.map.wf

theorem Reachable.of_wf {s : RangeSet K} (h : RangeMap.WF s.rm.btm) : Reachable s := by
  refine ⟨[.extend s.iter], ?_⟩
  have h2 := RangeMap.extend_rest s.rm.btm [] (by simpa using h)
  simp only [run, List.foldl_cons, List.foldl_nil, apply, extend_rm]
  have : (s.iter.map fun r => (r, ())) = s.rm.btm := by
    simp only [iter, RangeMap.iter, List.map_map]
    exact List.map_id _
  rw [this, show (new : RangeSet K).rm = ⟨[]⟩ from rfl, h2]
  rfl

theorem Reachable.of_map {s : RangeSet K} (h : RangeMap.Reachable s.rm) : Reachable s :=
  .of_wf h.wf

theorem Reachable.insert {s s' : RangeSet K} (h : Reachable s) {r : Range K}
    (hi : s.insert r = .ok s') : Reachable s' := by
  rw [insert_rm] at hi
  cases hm : s.rm.insert r () with
  | error p => rw [hm] at hi; cases hi
  | ok m' => rw [hm] at hi; cases hi; exact .of_map (h.map.insert hm)

theorem Reachable.remove {s s' : RangeSet K} (h : Reachable s) {r : Range K}
    (hi : s.remove r = .ok s') : Reachable s' := by
  rw [remove_rm] at hi
  cases hm : s.rm.remove r with
  | error p => rw [hm] at hi; cases hi
  | ok m' => rw [hm] at hi; cases hi; exact .of_map (h.map.remove hm)

/-- Sets are exactly the sorted lists of non-empty ranges with room between them. -/
theorem wf_iff (s : RangeSet K) : RangeMap.WF s.rm.btm ↔
    (∀ r ∈ s.iter, r.start < r.stop) ∧ s.iter.Pairwise fun a b => a.stop < b.start := by
  simp only [iter, RangeMap.iter, List.pairwise_map]
  constructor
  · intro h
    refine ⟨?_, ?_⟩
    · intro r hr
      obtain ⟨e, he, rfl⟩ := List.mem_map.1 hr
      exact h.sep.ne e he
    · refine h.sep.pw.imp_of_mem ?_
      intro a b ha hb hab
      have := h.coal a ha b hb
      have := hab.2
      by_cases hk : b.1.start ≤ a.1.stop
      · have := h.coal a ha b hb (by grind) (by grind)
        simp at this
      · grind
  · rintro ⟨h1, h2⟩
    have hne : ∀ e ∈ s.rm.btm, e.1.start < e.1.stop :=
      fun e he => h1 e.1 (List.mem_map.2 ⟨e, he, rfl⟩)
    refine ⟨⟨?_, hne⟩, ?_⟩
    · refine h2.imp_of_mem fun {a b} ha hb h => ?_
      have := hne a ha
      exact ⟨by grind, by grind⟩
    · intro a ha b hb h3 h4
      exfalso
      have := RangeMap.pw_tri h2 a ha b hb
      have := hne a ha
      have := hne b hb
      grind

theorem reachable_iff (s : RangeSet K) : Reachable s ↔
    (∀ r ∈ s.iter, r.start < r.stop) ∧ s.iter.Pairwise fun a b => a.stop < b.start := by
  rw [← wf_iff]
  exact ⟨Reachable.wf, .of_wf⟩

/-- The keys of the set. -/
def has (s : RangeSet K) (k : K) : Bool := s.iter.any (covers · k)

theorem has_iff (s : RangeSet K) (k : K) :
    s.has k = true ↔ ∃ r ∈ s.iter, r.start ≤ k ∧ k < r.stop := by
  simp [has, covers]

theorem has_look {s : RangeSet K} (h : RangeMap.WF s.rm.btm) (k : K) :
    s.has k = (s.rm.look k).isSome := by
  rw [Bool.eq_iff_iff, has_iff, Option.isSome_iff_exists]
  constructor
  · rintro ⟨r, hr, hk⟩
    obtain ⟨e, he, rfl⟩ := List.mem_map.1 hr
    exact ⟨(), (RangeMap.look_eq_some h.sep _ _).2 ⟨e, he, hk.1, hk.2, rfl⟩⟩
  · rintro ⟨w, hw⟩
    obtain ⟨e, he, h1, h2, _⟩ := (RangeMap.look_eq_some h.sep _ _).1 hw
    exact ⟨e.1, List.mem_map.2 ⟨e, he, rfl⟩, h1, h2⟩

theorem contains_eq {s : RangeSet K} (h : RangeMap.WF s.rm.btm) (k : K) :
    s.contains k = .ok (s.has k) := by
  rw [contains, RangeMap.containsKey, RangeMap.get_look h.sep, has_look h]
  rfl

theorem agree_unit (a b : Option Unit) : Agree a b ↔ a.isSome = b.isSome := by
  cases a <;> cases b <;> simp [Agree]

theorem eq_iff_has {s s' : RangeSet K} (h : RangeMap.WF s.rm.btm) (h' : RangeMap.WF s'.rm.btm) :
    s.eq s' = true ↔ ∀ k, s.has k = s'.has k := by
  rw [eq, RangeMap.eq_iff_look h h']
  simp only [agree_unit, has_look h, has_look h']

theorem insert_has {s s' : RangeSet K} (h : RangeMap.WF s.rm.btm) {r : Range K}
    (hi : s.insert r = .ok s') (k : K) : RangeMap.WF s'.rm.btm ∧ r.start < r.stop ∧
    s'.has k = (covers r k || s.has k) := by
  rw [insert_rm] at hi
  have hr : r.start < r.stop := by
    apply Decidable.byContradiction
    intro hr
    rw [RangeMap.insert_invalid hr] at hi
    cases hi
  obtain ⟨m', h1, h2⟩ := RangeMap.insert_ok h () hr
  rw [h1] at hi
  cases hi
  refine ⟨h2, hr, ?_⟩
  rw [has_look h2, has_look h]
  have := RangeMap.insert_look_agree h hr h1 k
  rw [agree_unit] at this
  rw [this]
  simp only [covers]
  split <;> simp_all

theorem remove_has {s s' : RangeSet K} (h : RangeMap.WF s.rm.btm) {r : Range K}
    (hi : s.remove r = .ok s') (k : K) : RangeMap.WF s'.rm.btm ∧ r.start < r.stop ∧
    s'.has k = (!covers r k && s.has k) := by
  rw [remove_rm] at hi
  have hr : r.start < r.stop := by
    apply Decidable.byContradiction
    intro hr
    rw [RangeMap.remove_invalid hr] at hi
    cases hi
  obtain ⟨m', h1, h2, _⟩ := RangeMap.remove_spec h hr
  have h1 := h1 _ (Nat.le_refl _)
  change s.rm.remove r = _ at h1
  rw [h1] at hi
  cases hi
  refine ⟨h2, hr, ?_⟩
  rw [has_look h2, has_look h, RangeMap.remove_look h hr h1 k]
  by_cases hk : r.start ≤ k ∧ k < r.stop
  · simp [covers, hk]
  · simp [covers, hk]

theorem insert_ok {s : RangeSet K} (h : RangeMap.WF s.rm.btm) {r : Range K}
    (hr : r.start < r.stop) : ∃ s', s.insert r = .ok s' := by
  obtain ⟨m', h1, _⟩ := RangeMap.insert_ok h () hr
  exact ⟨⟨m'⟩, by rw [insert_rm, h1]; rfl⟩

theorem remove_ok {s : RangeSet K} (h : RangeMap.WF s.rm.btm) {r : Range K}
    (hr : r.start < r.stop) : ∃ s', s.remove r = .ok s' := by
  obtain ⟨m', h1, _⟩ := RangeMap.remove_spec h hr
  have h1 := h1 _ (Nat.le_refl _)
  change s.rm.remove r = _ at h1
  exact ⟨⟨m'⟩, by rw [remove_rm, h1]; rfl⟩

theorem extend_has (items : List (Range K)) : ∀ {s : RangeSet K}, RangeMap.WF s.rm.btm →
    (∀ r ∈ items, r.start < r.stop) →
    (s.extend items).2 = .ok () ∧ RangeMap.WF (s.extend items).1.rm.btm ∧
    ∀ k, (s.extend items).1.has k = (items.any (covers · k) || s.has k) := by
  induction items with
  | nil => intro s h _; exact ⟨rfl, h, fun k => rfl⟩
  | cons r t ih =>
    intro s h hv
    obtain ⟨s', h1⟩ := insert_ok h (hv r (by simp))
    rw [extend, h1]
    obtain ⟨h2, _, _⟩ := insert_has h h1 r.start
    obtain ⟨i1, i2, i3⟩ := ih h2 (fun x hx => hv x (by simp [hx]))
    refine ⟨i1, i2, fun k => ?_⟩
    simp only [i3, List.any_cons, (insert_has h h1 k).2.2]
    cases covers r k <;> cases t.any (covers · k) <;> simp

theorem fromIter_has {items : List (Range K)} (hv : ∀ r ∈ items, r.start < r.stop) :
    ∃ s, fromIter items = .ok s ∧ RangeMap.WF s.rm.btm ∧
      ∀ k, s.has k = items.any (covers · k) := by
  obtain ⟨h1, h2, h3⟩ := extend_has items (s := new) RangeMap.WF.nil hv
  refine ⟨(extend new items).1, ?_, h2, fun k => ?_⟩
  · simp [fromIter, h1, Except.map]
  · rw [h3]
    simp [has, new, iter, RangeMap.iter, RangeMap.new]

/-- Collecting a sorted list of separated ranges gives exactly these. -/
theorem fromIter_exact {items : List (Range K)} (hv : ∀ r ∈ items, r.start < r.stop)
    (hp : items.Pairwise fun a b => a.stop < b.start) :
    ∃ s, fromIter items = .ok s ∧ RangeMap.WF s.rm.btm ∧ s.iter = items := by
  let s : RangeSet K := ⟨⟨items.map fun r => (r, ())⟩⟩
  have hi : s.iter = items := by simp [s, iter, RangeMap.iter, Function.comp_def]
  have hw : RangeMap.WF s.rm.btm := (wf_iff s).2 (by rw [hi]; exact ⟨hv, hp⟩)
  refine ⟨s, ?_, hw, hi⟩
  have h2 := RangeMap.extend_rest s.rm.btm [] (by simpa using hw)
  simp only [fromIter, extend_rm]
  rw [show (items.map fun r => (r, ())) = s.rm.btm from rfl,
    show (new : RangeSet K).rm = ⟨[]⟩ from rfl, h2]
  rfl

/-! ### union and intersection -/

theorem any_iff (l : List (Range K)) (k : K) :
    l.any (covers · k) = true ↔ ∃ r ∈ l, Range.laws.mem r k := by
  simp [covers, OpsLaws.mem, Range.laws]

theorem union_spec {s s' : RangeSet K} (h : RangeMap.WF s.rm.btm) (h' : RangeMap.WF s'.rm.btm) :
    ∃ l, Yields Union.next (s.union s') l ∧ l.length ≤ s.len + s'.len ∧
      (∀ r ∈ l, r.start < r.stop) ∧ l.Pairwise (fun a b => a.stop ≤ b.start) ∧
      ∀ k, l.any (covers · k) = (s.has k || s'.has k) := by
  have hs := (wf_iff s).1 h
  have hs' := (wf_iff s').1 h'
  have sorted : ∀ {l : List (Range K)}, (∀ r ∈ l, r.start < r.stop) →
      l.Pairwise (fun a b => a.stop < b.start) → Range.laws.Sorted l := fun h1 h2 =>
    ⟨fun _ _ => trivial, h1, h2.imp fun {a b} h (hb : b.start < a.stop) => by grind⟩
  obtain ⟨l, l1, l2, l3, _, l5⟩ := OpsLaws.union_spec _ s.iter s'.iter (Nat.le_refl _)
    (sorted hs.1 hs.2) (sorted hs'.1 hs'.2)
  refine ⟨l, l1, ?_, l2.valid, ?_, fun k => ?_⟩
  · simpa [iter, RangeMap.iter, len, RangeMap.len] using l3
  · exact l2.sorted.imp fun {a b} (h : ¬ b.start < a.stop) => by grind
  · rw [Bool.eq_iff_iff, any_iff, l5, ← any_iff, ← any_iff, Bool.or_eq_true]
    rfl

theorem intersection_spec {s s' : RangeSet K} (h : RangeMap.WF s.rm.btm)
    (h' : RangeMap.WF s'.rm.btm) :
    ∃ l, Yields Intersection.next (s.intersection s') l ∧ l.length ≤ s.len + s'.len ∧
      (∀ r ∈ l, r.start < r.stop) ∧ l.Pairwise (fun a b => a.stop < b.start) ∧
      ∀ k, l.any (covers · k) = (s.has k && s'.has k) := by
  have hs := (wf_iff s).1 h
  have hs' := (wf_iff s').1 h'
  obtain ⟨l, l1, l2, _, l3, _, l5⟩ := OpsLaws.intersection_spec (L := Range.laws) _ s.iter s'.iter
    (Nat.le_refl _) ⟨hs.1, hs.2⟩ ⟨hs'.1, hs'.2⟩
  refine ⟨l, l1, ?_, l2.valid, l2.apart, fun k => ?_⟩
  · simpa [iter, RangeMap.iter, len, RangeMap.len] using l3
  · rw [Bool.eq_iff_iff, any_iff, l5, ← any_iff, ← any_iff, Bool.and_eq_true]
    rfl

theorem bitOr_spec {s s' : RangeSet K} (h : RangeMap.WF s.rm.btm) (h' : RangeMap.WF s'.rm.btm) :
    ∃ t, s.bitOr s' = .ok t ∧ RangeMap.WF t.rm.btm ∧ ∀ k, t.has k = (s.has k || s'.has k) := by
  obtain ⟨l, l1, l2, l3, _, l5⟩ := union_spec h h'
  obtain ⟨t, t1, t2, t3⟩ := fromIter_has l3
  refine ⟨t, ?_, t2, fun k => by rw [t3, l5]⟩
  rw [bitOr, Yields.drain l1 (by omega)]
  exact t1

theorem bitAnd_spec {s s' : RangeSet K} (h : RangeMap.WF s.rm.btm) (h' : RangeMap.WF s'.rm.btm) :
    ∃ t, s.bitAnd s' = .ok t ∧ RangeMap.WF t.rm.btm ∧
      Yields Intersection.next (s.intersection s') t.iter ∧
      ∀ k, t.has k = (s.has k && s'.has k) := by
  obtain ⟨l, l1, l2, l3, l4, l5⟩ := intersection_spec h h'
  obtain ⟨t, t1, t2, t3⟩ := fromIter_exact l3 l4
  refine ⟨t, ?_, t2, by rwa [t3], fun k => by rw [has, t3, l5]⟩
  rw [bitAnd, Yields.drain l1 (by omega)]
  exact t1

end RangeSet
end Verif

import Verif.Props.Exact
import Verif.Props.Build
import Verif.Props.IBuild
import Verif.Props.Set
import Verif.Props.ISet
import Verif.Proof.Operations

/-!
# C80: nothing is made up: where every stored value and every stored range end comes from
-/
set_option linter.unusedSectionVars false

namespace Verif.Spec
section
variable {R V : Type}

/-- The insertions of a history (latest call first) that were carried out and not wiped out by a
later `clear`.  An `extend` stops at the first invalid range. -/
def insertions (valid : R → Bool) : List (Op R V) → List (R × V)
  | [] => []
  | .insert r v :: earlier =>
    if valid r then (r, v) :: insertions valid earlier else insertions valid earlier
  | .remove _ :: earlier => insertions valid earlier
  | .clear :: _ => []
  | .extend items :: earlier =>
    (items.takeWhile fun e => valid e.1) ++ insertions valid earlier

/-- The removals of a history (latest call first) that were carried out since the last `clear`. -/
def removals (valid : R → Bool) : List (Op R V) → List R
  | [] => []
  | .insert _ _ :: earlier => removals valid earlier
  | .remove r :: earlier => if valid r then r :: removals valid earlier else removals valid earlier
  | .clear :: _ => []
  | .extend _ :: earlier => removals valid earlier

/-- As `insertions`, for sets. -/
def setInsertions (valid : R → Bool) : List (SetOp R) → List R
  | [] => []
  | .insert r :: earlier =>
    if valid r then r :: setInsertions valid earlier else setInsertions valid earlier
  | .remove _ :: earlier => setInsertions valid earlier
  | .clear :: _ => []
  | .extend items :: earlier => items.takeWhile valid ++ setInsertions valid earlier

/-- As `removals`, for sets. -/
def setRemovals (valid : R → Bool) : List (SetOp R) → List R
  | [] => []
  | .insert _ :: earlier => setRemovals valid earlier
  | .remove r :: earlier =>
    if valid r then r :: setRemovals valid earlier else setRemovals valid earlier
  | .clear :: _ => []
  | .extend _ :: earlier => setRemovals valid earlier

end

variable {K V : Type} [BEq V]

/-- Where the parts of a stored entry come from, given the insertions `I` and the removals `D`:
the value is literally an inserted one; each end is literally the same end of a range inserted
with an equal value, or the opposite end of a range that was removed or was inserted with an
unequal value. -/
structure From (I : List (Range K × V)) (D : List (Range K)) (e : Range K × V) : Prop where
  value : ∃ x ∈ I, e.2 = x.2
  start : (∃ x ∈ I, (x.2 = e.2 ∨ (x.2 == e.2) = true) ∧ e.1.start = x.1.start) ∨
    (∃ x ∈ I, (e.2 == x.2) = false ∧ e.1.start = x.1.stop) ∨ ∃ r ∈ D, e.1.start = r.stop
  stop : (∃ x ∈ I, (x.2 = e.2 ∨ (x.2 == e.2) = true) ∧ e.1.stop = x.1.stop) ∨
    (∃ x ∈ I, (e.2 == x.2) = false ∧ e.1.stop = x.1.start) ∨ ∃ r ∈ D, e.1.stop = r.start

/-- As `From`, for inclusive ranges: a piece left over by a cut starts at `add_one` of the end of
the range that cut it, or ends at `sub_one` of its start. -/
structure IFrom (S : StepFns K) (I : List (RangeInclusive K × V)) (D : List (RangeInclusive K))
    (e : RangeInclusive K × V) : Prop where
  value : ∃ x ∈ I, e.2 = x.2
  start : (∃ x ∈ I, (x.2 = e.2 ∨ (x.2 == e.2) = true) ∧ e.1.start = x.1.start) ∨
    (∃ x ∈ I, (e.2 == x.2) = false ∧ S.addOne x.1.stop = .ok e.1.start) ∨
    ∃ r ∈ D, S.addOne r.stop = .ok e.1.start
  stop : (∃ x ∈ I, (x.2 = e.2 ∨ (x.2 == e.2) = true) ∧ e.1.stop = x.1.stop) ∨
    (∃ x ∈ I, (e.2 == x.2) = false ∧ S.subOne x.1.start = .ok e.1.stop) ∨
    ∃ r ∈ D, S.subOne r.start = .ok e.1.stop

end Verif.Spec

namespace Verif.Props
open Spec
variable {K : Type} [LE K] [LT K] [DecidableLE K] [DecidableLT K]
  [Std.IsLinearPreorder K] [Std.LawfulOrderLT K] {V : Type} [BEq V] [PartialEquivBEq V]

theorem _root_.Verif.Spec.From.mono {I I' : List (Range K × V)} {D D' : List (Range K)}
    {e : Range K × V}
    (h : From I D e) (hI : ∀ x ∈ I, x ∈ I') (hD : ∀ r ∈ D, r ∈ D') : From I' D' e := by
  obtain ⟨⟨x, hx, h1⟩, h2, h3⟩ := h
  refine ⟨⟨x, hI x hx, h1⟩, ?_, ?_⟩
  · rcases h2 with ⟨y, hy, h⟩ | ⟨y, hy, h⟩ | ⟨y, hy, h⟩
    · exact Or.inl ⟨y, hI y hy, h⟩
    · exact Or.inr (Or.inl ⟨y, hI y hy, h⟩)
    · exact Or.inr (Or.inr ⟨y, hD y hy, h⟩)
  · rcases h3 with ⟨y, hy, h⟩ | ⟨y, hy, h⟩ | ⟨y, hy, h⟩
    · exact Or.inl ⟨y, hI y hy, h⟩
    · exact Or.inr (Or.inl ⟨y, hI y hy, h⟩)
    · exact Or.inr (Or.inr ⟨y, hD y hy, h⟩)

theorem beq_false_of_beq {a b c : V} (h : (a == b) = true) (h' : (a == c) = false) :
    (b == c) = false := by
  cases hb : b == c with
  | false => rfl
  | true => rw [PartialEquivBEq.trans h hb] at h'; exact h'

section
open RangeMap

theorem remove_from {m m' : RangeMap K V} (hm : Reachable m) {r : Range K}
    (h : m.remove r = .ok m') {I : List (Range K × V)} {D : List (Range K)}
    (hI : ∀ e ∈ m.iter, From I D e) : ∀ e ∈ m'.iter, From I (r :: D) e := by
  intro e he
  obtain ⟨x, hx, ha⟩ := (C51_remove_entries hm h e).1 he
  have hf : From I (r :: D) x := (hI x hx).mono (fun _ h => h) (fun _ h => List.mem_cons_of_mem _ h)
  cases ha with
  | keep => exact hf
  | left => exact ⟨hf.value, hf.start, Or.inr (Or.inr ⟨r, List.mem_cons_self .., rfl⟩)⟩
  | right => exact ⟨hf.value, Or.inr (Or.inr ⟨r, List.mem_cons_self .., rfl⟩), hf.stop⟩

theorem insert_from {m m' : RangeMap K V} (hm : Reachable m) {r : Range K} {v : V}
    (h : m.insert r v = .ok m') {I : List (Range K × V)} {D : List (Range K)}
    (hI : ∀ e ∈ m.iter, From I D e) : ∀ e ∈ m'.iter, From ((r, v) :: I) D e := by
  intro e he
  have hc : (r, v) ∈ (r, v) :: I := List.mem_cons_self ..
  have hf : ∀ x ∈ m.iter, From ((r, v) :: I) D x := fun x hx =>
    (hI x hx).mono (fun _ h => List.mem_cons_of_mem _ h) (fun _ h => h)
  obtain ⟨n, h1, h2, h3⟩ := C51_insert_entries hm h
  rcases (h3 e).1 he with rfl | ⟨x, hx, ha⟩
  · refine ⟨⟨_, hc, rfl⟩, ?_, ?_⟩
    · rcases h1.mem with h | ⟨x, hx, hv, -, h⟩
      · exact Or.inl ⟨_, hc, Or.inl rfl, h⟩
      · rcases (hf x hx).start with ⟨y, hy, h4, h5⟩ | ⟨y, hy, h4, h5⟩ | ⟨y, hy, h5⟩
        · exact Or.inl ⟨y, hy, Or.inr (by
            rcases h4 with h4 | h4
            · rw [h4]; exact hv
            · exact PartialEquivBEq.trans h4 hv), h.trans h5⟩
        · exact Or.inr (Or.inl ⟨y, hy, beq_false_of_beq hv h4, h.trans h5⟩)
        · exact Or.inr (Or.inr ⟨y, hy, h.trans h5⟩)
    · rcases h2.mem with h | ⟨x, hx, hv, -, h⟩
      · exact Or.inl ⟨_, hc, Or.inl rfl, h⟩
      · rcases (hf x hx).stop with ⟨y, hy, h4, h5⟩ | ⟨y, hy, h4, h5⟩ | ⟨y, hy, h5⟩
        · exact Or.inl ⟨y, hy, Or.inr (by
            rcases h4 with h4 | h4
            · rw [h4]; exact hv
            · exact PartialEquivBEq.trans h4 hv), h.trans h5⟩
        · exact Or.inr (Or.inl ⟨y, hy, beq_false_of_beq hv h4, h.trans h5⟩)
        · exact Or.inr (Or.inr ⟨y, hy, h.trans h5⟩)
  · have hx := hf x hx
    cases ha with
    | equal => exact hx
    | other hv ha =>
      cases ha with
      | keep => exact hx
      | left => exact ⟨hx.value, hx.start, Or.inr (Or.inl ⟨_, hc, hv, rfl⟩)⟩
      | right => exact ⟨hx.value, Or.inr (Or.inl ⟨_, hc, hv, rfl⟩), hx.stop⟩

theorem insert_ok_valid {m m' : RangeMap K V} {r : Range K} {v : V} (h : m.insert r v = .ok m') :
    valid r = true := by
  unfold valid
  apply Decidable.byContradiction
  intro hr
  simp only [decide_eq_true_eq] at hr
  simp [insert_invalid hr] at h

theorem remove_ok_valid {m m' : RangeMap K V} {r : Range K} (h : m.remove r = .ok m') :
    valid r = true := by
  unfold valid
  apply Decidable.byContradiction
  intro hr
  simp only [decide_eq_true_eq] at hr
  simp [remove_invalid hr] at h

theorem extend_from : ∀ (items : List (Range K × V)) {m : RangeMap K V}, Reachable m →
    ∀ {I : List (Range K × V)} {D : List (Range K)}, (∀ e ∈ m.iter, From I D e) →
    ∀ e ∈ (m.extend items).1.iter, From ((items.takeWhile fun e => valid e.1) ++ I) D e := by
  intro items
  induction items with
  | nil => intro m _ I D hI; exact hI
  | cons a items ih =>
    intro m hm I D hI e he
    obtain ⟨r, v⟩ := a
    unfold extend at he
    split at he
    case h_1 m' h =>
      rw [List.takeWhile_cons_of_pos (p := fun e : Range K × V => valid e.1) (insert_ok_valid h)]
      refine (ih (hm.insert h) (insert_from hm h hI) e he).mono ?_ (fun _ h => h)
      intro x hx
      simp only [List.mem_append, List.mem_cons, List.cons_append] at hx ⊢
      rcases hx with h | h | h
      · exact Or.inr (Or.inl h)
      · exact Or.inl h
      · exact Or.inr (Or.inr h)
    case h_2 =>
      exact (hI e he).mono (fun x hx => List.mem_append_right _ hx) (fun _ h => h)

/-- **C80** After any history of calls on a `RangeMap`: every stored value is literally one of the
values inserted; every stored start is literally the start of a range inserted with an equal
value, or the end of a range that was removed or inserted with an unequal value; every stored end
is the end of a range inserted with an equal value, or the start of one that was removed or
inserted with an unequal value.  Calls that panicked, calls before the last `clear`, and the items
of an `extend` from the first invalid one on contribute nothing. -/
theorem C80_stored_from_history (ops : List (Op (Range K) V)) :
    ∀ e ∈ (run ops).iter, From (insertions valid ops.reverse) (removals valid ops.reverse) e := by
  rw [← List.reverse_reverse ops]
  generalize ops.reverse = l
  rw [List.reverse_reverse]
  induction l with
  | nil => intro e he; exact absurd he (by simp [run, new, iter])
  | cons op l ih =>
    have hr : Reachable (run l.reverse : RangeMap K V) := ⟨_, rfl⟩
    have e1 : run (op :: l).reverse = ((run l.reverse : RangeMap K V).apply op).1 := by
      simp [run, List.foldl_append]
    rw [e1]
    intro e he
    cases op with
    | insert r v =>
      simp only [apply] at he
      split at he
      · next m' h =>
        rw [insertions, if_pos (insert_ok_valid h)]
        exact insert_from hr h ih e he
      · refine (ih e he).mono ?_ (fun _ h => h)
        intro x hx
        rw [insertions]; split
        · exact List.mem_cons_of_mem _ hx
        · exact hx
    | remove r =>
      simp only [apply] at he
      split at he
      · next m' h =>
        rw [removals, if_pos (remove_ok_valid h)]
        exact remove_from hr h ih e he
      · refine (ih e he).mono (fun _ h => h) ?_
        intro x hx
        rw [removals]; split
        · exact List.mem_cons_of_mem _ hx
        · exact hx
    | clear => exact absurd he (by simp [apply, clear, iter])
    | extend items => exact extend_from items hr ih e he

-- an invalid insertion that is refused, an `extend` that stops half-way, a cut, a removal
example : (run [.insert ⟨0, 9⟩ 'z', .clear, .insert ⟨0, 10⟩ 'a', .insert ⟨7, 7⟩ 'x',
      .extend [(⟨3, 5⟩, 'b'), (⟨6, 2⟩, 'c'), (⟨0, 9⟩, 'd')], .remove ⟨6, 8⟩] :
      RangeMap Nat Char).iter
    = [(⟨0, 3⟩, 'a'), (⟨3, 5⟩, 'b'), (⟨5, 6⟩, 'a'), (⟨8, 10⟩, 'a')] ∧
    insertions valid [.remove ⟨6, 8⟩, .extend [(⟨3, 5⟩, 'b'), (⟨6, 2⟩, 'c'), (⟨0, 9⟩, 'd')],
      .insert ⟨7, 7⟩ 'x', .insert ⟨0, 10⟩ 'a', .clear, .insert ⟨0, 9⟩ 'z']
      = [((⟨3, 5⟩ : Range Nat), 'b'), (⟨0, 10⟩, 'a')] := ⟨rfl, rfl⟩

end

/-! ## Inclusive maps -/

theorem _root_.Verif.Spec.IFrom.mono {I I' : List (RangeInclusive K × V)}
    {D D' : List (RangeInclusive K)} {S : StepFns K}
    {e : RangeInclusive K × V} (h : IFrom S I D e) (hI : ∀ x ∈ I, x ∈ I') (hD : ∀ r ∈ D, r ∈ D') :
    IFrom S I' D' e := by
  obtain ⟨⟨x, hx, h1⟩, h2, h3⟩ := h
  refine ⟨⟨x, hI x hx, h1⟩, ?_, ?_⟩
  · rcases h2 with ⟨y, hy, h⟩ | ⟨y, hy, h⟩ | ⟨y, hy, h⟩
    · exact Or.inl ⟨y, hI y hy, h⟩
    · exact Or.inr (Or.inl ⟨y, hI y hy, h⟩)
    · exact Or.inr (Or.inr ⟨y, hD y hy, h⟩)
  · rcases h3 with ⟨y, hy, h⟩ | ⟨y, hy, h⟩ | ⟨y, hy, h⟩
    · exact Or.inl ⟨y, hI y hy, h⟩
    · exact Or.inr (Or.inl ⟨y, hI y hy, h⟩)
    · exact Or.inr (Or.inr ⟨y, hD y hy, h⟩)

namespace Inclusive
section
open RangeInclusiveMap

theorem remove_from {S : StepFns K} (hS : LawfulSteps S) {m m' : RangeInclusiveMap K V}
    (hm : ReachableAny S m) {r : RangeInclusive K} (h : m.remove S r = .ok m')
    {I : List (RangeInclusive K × V)} {D : List (RangeInclusive K)}
    (hI : ∀ e ∈ m.iter, IFrom S I D e) : ∀ e ∈ m'.iter, IFrom S I (r :: D) e := by
  intro e he
  obtain ⟨x, hx, ha⟩ := (C51_remove_entries hS hm h e).1 he
  have hf : IFrom S I (r :: D) x := (hI x hx).mono (fun _ h => h)
    (fun _ h => List.mem_cons_of_mem _ h)
  cases ha with
  | keep => exact hf
  | left _ _ hs => exact ⟨hf.value, hf.start, Or.inr (Or.inr ⟨r, List.mem_cons_self .., hs⟩)⟩
  | right _ _ hs => exact ⟨hf.value, Or.inr (Or.inr ⟨r, List.mem_cons_self .., hs⟩), hf.stop⟩

theorem insert_from {S : StepFns K} (hS : LawfulSteps S) {m m' : RangeInclusiveMap K V}
    (hm : ReachableAny S m) {r : RangeInclusive K} {v : V} (h : m.insert S r v = .ok m')
    {I : List (RangeInclusive K × V)} {D : List (RangeInclusive K)}
    (hI : ∀ e ∈ m.iter, IFrom S I D e) : ∀ e ∈ m'.iter, IFrom S ((r, v) :: I) D e := by
  intro e he
  have hc : (r, v) ∈ (r, v) :: I := List.mem_cons_self ..
  have hf : ∀ x ∈ m.iter, IFrom S ((r, v) :: I) D x := fun x hx =>
    (hI x hx).mono (fun _ h => List.mem_cons_of_mem _ h) (fun _ h => h)
  obtain ⟨n, -, h1, h2, h3⟩ := C51_insert_entries hS hm h
  rcases (h3 e).1 he with rfl | ⟨x, hx, ha⟩
  · refine ⟨⟨_, hc, rfl⟩, ?_, ?_⟩
    · rcases h1.mem with h | ⟨x, hx, hv, -, h⟩
      · exact Or.inl ⟨_, hc, Or.inl rfl, h⟩
      · rcases (hf x hx).start with ⟨y, hy, h4, h5⟩ | ⟨y, hy, h4, h5⟩ | ⟨y, hy, h5⟩
        · exact Or.inl ⟨y, hy, Or.inr (by
            rcases h4 with h4 | h4
            · rw [h4]; exact hv
            · exact PartialEquivBEq.trans h4 hv), (h ▸ h5)⟩
        · exact Or.inr (Or.inl ⟨y, hy, beq_false_of_beq hv h4, (h ▸ h5)⟩)
        · exact Or.inr (Or.inr ⟨y, hy, (h ▸ h5)⟩)
    · rcases h2.mem with h | ⟨x, hx, hv, -, h⟩
      · exact Or.inl ⟨_, hc, Or.inl rfl, h⟩
      · rcases (hf x hx).stop with ⟨y, hy, h4, h5⟩ | ⟨y, hy, h4, h5⟩ | ⟨y, hy, h5⟩
        · exact Or.inl ⟨y, hy, Or.inr (by
            rcases h4 with h4 | h4
            · rw [h4]; exact hv
            · exact PartialEquivBEq.trans h4 hv), (h ▸ h5)⟩
        · exact Or.inr (Or.inl ⟨y, hy, beq_false_of_beq hv h4, (h ▸ h5)⟩)
        · exact Or.inr (Or.inr ⟨y, hy, (h ▸ h5)⟩)
  · have hx := hf x hx
    cases ha with
    | equal => exact hx
    | other hv ha =>
      cases ha with
      | keep => exact hx
      | left _ _ hs => exact ⟨hx.value, hx.start, Or.inr (Or.inl ⟨_, hc, hv, hs⟩)⟩
      | right _ _ hs => exact ⟨hx.value, Or.inr (Or.inl ⟨_, hc, hv, hs⟩), hx.stop⟩

theorem insert_ok_valid {S : StepFns K} {m m' : RangeInclusiveMap K V} {r : RangeInclusive K}
    {v : V} (h : m.insert S r v = .ok m') :
    ivalid r = true := by
  unfold ivalid
  apply Decidable.byContradiction
  intro hr
  simp only [decide_eq_true_eq] at hr
  simp [insert_invalid hr] at h

theorem remove_ok_valid {S : StepFns K} {m m' : RangeInclusiveMap K V} {r : RangeInclusive K}
    (h : m.remove S r = .ok m') :
    ivalid r = true := by
  unfold ivalid
  apply Decidable.byContradiction
  intro hr
  simp only [decide_eq_true_eq] at hr
  simp [remove_invalid hr] at h

theorem extend_from {S : StepFns K} (hS : LawfulSteps S) : ∀ (items : List (RangeInclusive K × V))
    {m : RangeInclusiveMap K V}, ReachableAny S m →
    ∀ {I : List (RangeInclusive K × V)} {D : List (RangeInclusive K)},
      (∀ e ∈ m.iter, IFrom S I D e) →
    ∀ e ∈ (m.extend S items).1.iter, IFrom S ((items.takeWhile fun e => ivalid e.1) ++ I) D e := by
  intro items
  induction items with
  | nil => intro m _ I D hI; exact hI
  | cons a items ih =>
    intro m hm I D hI e he
    obtain ⟨r, v⟩ := a
    unfold extend at he
    split at he
    case h_1 m' h =>
      rw [List.takeWhile_cons_of_pos (p := fun e : RangeInclusive K × V => ivalid e.1)
        (insert_ok_valid h)]
      refine (ih (by simpa [RangeInclusiveMap.apply, h] using hm.apply (.insert r v))
        (insert_from hS hm h hI) e he).mono ?_ (fun _ h => h)
      intro x hx
      simp only [List.mem_append, List.mem_cons, List.cons_append] at hx ⊢
      rcases hx with h | h | h
      · exact Or.inr (Or.inl h)
      · exact Or.inl h
      · exact Or.inr (Or.inr h)
    case h_2 =>
      exact (hI e he).mono (fun x hx => List.mem_append_right _ hx) (fun _ h => h)

/-- **C80** After any history of calls on a `RangeInclusiveMap` (exhausted ranges included): every
stored value is literally one of the values inserted; every stored start is literally the start of
a range inserted with an equal value, or `add_one` of the end of a range that was removed or
inserted with an unequal value; every stored end is the end of a range inserted with an equal
value, or `sub_one` of the start of one that was removed or inserted with an unequal value.  Calls
that panicked, calls before the last `clear`, and the items of an `extend` from the first invalid
one on contribute nothing. -/
theorem C80_stored_from_history {S : StepFns K} (hS : LawfulSteps S)
    (ops : List (Op (RangeInclusive K) V)) : ∀ e ∈ (run S ops).iter,
      IFrom S (insertions ivalid ops.reverse) (removals ivalid ops.reverse) e := by
  rw [← List.reverse_reverse ops]
  generalize ops.reverse = l
  rw [List.reverse_reverse]
  induction l with
  | nil => intro e he; exact absurd he (by simp [run, new, iter])
  | cons op l ih =>
    have hr : ReachableAny S (run S l.reverse : RangeInclusiveMap K V) := ⟨_, rfl⟩
    have e1 : run S (op :: l).reverse = ((run S l.reverse : RangeInclusiveMap K V).apply S op).1
      := by
      simp [run, List.foldl_append]
    rw [e1]
    intro e he
    cases op with
    | insert r v =>
      simp only [apply] at he
      split at he
      · next m' h =>
        rw [insertions, if_pos (insert_ok_valid h)]
        exact insert_from hS hr h ih e he
      · refine (ih e he).mono ?_ (fun _ h => h)
        intro x hx
        rw [insertions]; split
        · exact List.mem_cons_of_mem _ hx
        · exact hx
    | remove r =>
      simp only [apply] at he
      split at he
      · next m' h =>
        rw [removals, if_pos (remove_ok_valid h)]
        exact remove_from hS hr h ih e he
      · refine (ih e he).mono (fun _ h => h) ?_
        intro x hx
        rw [removals]; split
        · exact List.mem_cons_of_mem _ hx
        · exact hx
    | clear => exact absurd he (by simp [apply, clear, iter])
    | extend items => exact extend_from hS items hr ih e he

-- a cut, a refused insertion, an exhausted range, and a removal
example : (run Demo.u8 [.insert (Demo.by8 0 10) 'a', .insert (Demo.by8 7 6) 'x',
      .insert { Demo.by8 3 4 with exhausted := true } 'b', .remove (Demo.by8 6 7)]).iter
    = [(Demo.by8 0 2, 'a'), ({ Demo.by8 3 4 with exhausted := true }, 'b'), (Demo.by8 5 5, 'a'),
      (Demo.by8 8 10, 'a')] := rfl

end
end Inclusive
end Verif.Props

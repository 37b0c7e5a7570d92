import Verif.Model.Fuzz
import Verif.Proof.Reach
import Verif.Proof.Iter

/-!
# The randomised tests never fail: common lemmas and half-open maps
-/
set_option linter.unusedSectionVars false
set_option linter.unusedVariables false

namespace Verif
open Spec

@[simp] theorem check_true : check true = .ok () := rfl

/-- A permutation of the images of a list comes from a permutation of the list. -/
theorem perm_lift {α β : Type} (f : α → β) {ps l : List β} (h : ps.Perm l) :
    ∀ {L : List α}, l = L.map f → ∃ P : List α, P.Perm L ∧ P.map f = ps := by
  induction h with
  | nil =>
    intro L hL
    exact ⟨[], by cases L <;> simp_all, rfl⟩
  | cons x _ ih =>
    intro L hL
    obtain ⟨a, t, rfl, rfl, h2⟩ := List.map_eq_cons_iff.1 hL.symm
    obtain ⟨P, h3, h4⟩ := ih h2.symm
    exact ⟨a :: P, h3.cons a, by simp [h4]⟩
  | swap x y l =>
    intro L hL
    obtain ⟨a, t, rfl, rfl, h2⟩ := List.map_eq_cons_iff.1 hL.symm
    obtain ⟨b, t, rfl, rfl, rfl⟩ := List.map_eq_cons_iff.1 h2
    exact ⟨b :: a :: t, List.Perm.swap a b t, rfl⟩
  | trans _ _ ih1 ih2 =>
    intro L hL
    obtain ⟨P, h1, h2⟩ := ih2 hL
    obtain ⟨Q, h3, h4⟩ := ih1 h2.symm
    exact ⟨Q, h3.trans h1, h4⟩

section
variable {K : Type} [LE K] [LT K] [DecidableLE K] [DecidableLT K]
  [Std.IsLinearPreorder K] [Std.LawfulOrderLT K]

theorem eq_of_not_lt {α : Type} {key : α → K} {l : List α}
    (h : l.Pairwise fun x y => key x < key y) {x y : α} (hx : x ∈ l) (hy : y ∈ l)
    (h1 : key x ≤ key y) (h2 : key y ≤ key x) : x = y := by
  induction h with
  | nil => cases hx
  | cons h _ ih =>
    rcases List.mem_cons.1 hx with rfl | hx' <;> rcases List.mem_cons.1 hy with rfl | hy'
    · rfl
    · have := h _ hy'; grind
    · have := h _ hx'; grind
    · exact ih hx' hy'

/-- Sorting a list of which a permutation is strictly sorted gives that permutation. -/
theorem mergeSort_eq {α : Type} {key : α → K} {l ps : List α} (hp : ps.Perm l)
    (h : ps.Pairwise fun x y => key x < key y) :
    l.mergeSort (fun a b => decide (key a ≤ key b)) = ps := by
  refine List.Perm.eq_of_pairwise (le := fun a b => decide (key a ≤ key b) = true) ?_ ?_ ?_
    ((List.mergeSort_perm _ _).trans hp.symm)
  · intro a b ha hb h1 h2
    have ha : a ∈ ps := hp.mem_iff.2 ((List.mergeSort_perm _ _).mem_iff.1 ha)
    exact eq_of_not_lt h ha hb (of_decide_eq_true h1) (of_decide_eq_true h2)
  · refine List.pairwise_mergeSort ?_ ?_ l
    · intro a b c; simp only [decide_eq_true_eq]; grind
    · intro a b; simp only [Bool.or_eq_true, decide_eq_true_eq]; grind
  · exact h.imp fun h => by simp only [decide_eq_true_eq]; grind

/-! ### min_by_key, max_by_key -/

theorem minByKey_sorted {α : Type} {key : α → K} {l : List α}
    (h : l.Pairwise fun x y => key x < key y) : minByKey key l = l.head? := by
  cases l with
  | nil => rfl
  | cons a t =>
    replace h := (List.pairwise_cons.1 h).1
    simp only [minByKey, List.head?_cons, Option.some.injEq]
    induction t with
    | nil => rfl
    | cons b t ih =>
      have := h b (by simp)
      rw [List.foldl_cons, if_neg (by grind)]
      exact ih fun x hx => h x (by simp [hx])

theorem maxByKey_sorted {α : Type} {key : α → K} {l : List α}
    (h : l.Pairwise fun x y => key x < key y) : maxByKey key l = l.getLast? := by
  cases l with
  | nil => rfl
  | cons a t =>
    simp only [maxByKey, List.getLast?_cons, Option.some.injEq]
    induction t generalizing a with
    | nil => rfl
    | cons b t ih =>
      have h' := List.pairwise_cons.1 h
      have := h'.1 b (by simp)
      rw [List.foldl_cons, if_neg (by grind), ih b h'.2]
      simp [List.getLast?_cons]

end

namespace RangeMap
variable {K : Type} [LE K] [LT K] [DecidableLE K] [DecidableLT K]
  [Std.IsLinearPreorder K] [Std.LawfulOrderLT K] {V : Type} [BEq V]

theorem Tiles.sorted {a b : K} {ps : List (Range K)} (h : Tiles a ps b) :
    (∀ p ∈ ps, a ≤ p.start) ∧ ps.Pairwise (fun x y => x.start < y.start) := by
  induction ps generalizing a with
  | nil => simp
  | cons p ps ih =>
    obtain ⟨h1, h2, h3⟩ := h
    obtain ⟨h4, h5⟩ := ih h3
    refine ⟨?_, List.pairwise_cons.2 ⟨?_, h5⟩⟩
    · intro x hx
      rcases List.mem_cons.1 hx with rfl | hx
      · exact h1.1
      · have := h4 x hx; grind
    · intro x hx
      have := h4 x hx
      grind

theorem Tiles.windows {a b : K} {p : Range K} {ps : List (Range K)} (h : Tiles a (p :: ps) b) :
    keq p.start a = true ∧ (∃ q, (p :: ps).getLast? = some q ∧ keq q.stop b = true) ∧
      fuzzWindows (p :: ps) = .ok () := by
  induction ps generalizing a p with
  | nil =>
    obtain ⟨h1, h2, h3⟩ := h
    exact ⟨keq_iff.2 ⟨h1.2, h1.1⟩, ⟨p, rfl, keq_iff.2 h3⟩, rfl⟩
  | cons q ps ih =>
    obtain ⟨h1, h2, h3⟩ := h
    obtain ⟨h4, ⟨x, h5, h6⟩, h7⟩ := ih h3
    refine ⟨keq_iff.2 ⟨h1.2, h1.1⟩, ⟨x, by rw [List.getLast?_cons_cons]; exact h5, h6⟩, ?_⟩
    have : keq p.stop q.start = true := by rw [keq_iff] at *; exact ⟨h4.2, h4.1⟩
    simp only [fuzzWindows, this, check_true, h7]
    rfl

theorem Tiles.fuzz {outer : Range K} {ps : List (Range K)}
    (h : Tiles outer.start ps outer.stop) (ho : outer.start < outer.stop) :
    fuzzTiles outer ps = .ok () := by
  cases ps with
  | nil =>
    have : outer.stop ≤ outer.start := h.2
    exfalso; grind
  | cons p ps =>
    obtain ⟨h1, ⟨q, h2, h3⟩, h4⟩ := Tiles.windows h
    simp [fuzzTiles, Range.isEmpty, ho, h1, h2, h3, h4, bind, Except.bind]

/-- Tiling does not see which of two equal keys a piece is made of. -/
theorem Tiles.replace {a b : K} {P : List (Range K × Range K)} (h : Tiles a (P.map (·.1)) b)
    (hP : ∀ x ∈ P, keq x.1.start x.2.start = true ∧ keq x.1.stop x.2.stop = true) :
    Tiles a (P.map (·.2)) b := by
  induction P generalizing a with
  | nil => exact h
  | cons x P ih =>
    obtain ⟨h1, h2, h3⟩ := h
    have hx := hP x (by simp)
    simp only [keq_iff] at hx
    have h3 := ih h3 fun y hy => hP y (by simp [hy])
    refine ⟨by grind, by grind, tiles_congr h3 hx.2.1 hx.2.2⟩

theorem fuzzApply_ok [PartialEquivBEq V] {m : RangeMap K V} (hm : Reachable m)
    (op : FuzzOp (Range K) V) : ∃ m', m.fuzzApply op = .ok m' ∧ Reachable m' := by
  obtain ⟨ops, rfl⟩ := hm
  have hwf : WF (run ops).btm := Reachable.wf ⟨ops, rfl⟩
  cases op with
  | insert r v =>
    by_cases hr : r.start < r.stop
    · obtain ⟨m', h1, _⟩ := insert_ok hwf v hr
      refine ⟨m', by simp [fuzzApply, hr, h1], ops ++ [.insert r v], ?_⟩
      rw [run_append]
      simp [RangeMap.apply, h1]
    · exact ⟨_, by simp [fuzzApply, hr], ops, rfl⟩
  | remove r =>
    by_cases hr : r.start < r.stop
    · obtain ⟨m', h1, _⟩ := remove_spec hwf hr
      have h1 : (run ops).remove r = .ok m' := h1 _ (Nat.le_refl _)
      refine ⟨m', by simp [fuzzApply, hr, h1], ops ++ [.remove r], ?_⟩
      rw [run_append]
      simp [RangeMap.apply, h1]
    · exact ⟨_, by simp [fuzzApply, hr], ops, rfl⟩

theorem fuzzRun_ok [PartialEquivBEq V] (ops : List (FuzzOp (Range K) V)) {m : RangeMap K V}
    (hm : Reachable m) : ∃ m', ops.foldlM fuzzApply m = .ok m' ∧ Reachable m' := by
  induction ops generalizing m with
  | nil => exact ⟨m, rfl, hm⟩
  | cons op ops ih =>
    obtain ⟨m', h1, h2⟩ := fuzzApply_ok hm op
    obtain ⟨m'', h3, h4⟩ := ih h2
    exact ⟨m'', by simp [List.foldlM_cons, h1, h3, bind, Except.bind], h4⟩

theorem fuzzPeek_ok {l : List (Range K × V)} (h : ∀ a ∈ l, ∀ b ∈ l, keq a.1.stop b.1.start = true →
    (a.2 == b.2) = false) : fuzzPeek l = .ok () := by
  induction l with
  | nil => rfl
  | cons a t ih =>
    cases t with
    | nil => rfl
    | cons b t =>
      have hab := h a (by simp) b (by simp)
      rw [fuzzPeek, if_neg]
      · exact ih fun x hx y hy => h x (by simp [hx]) y (by simp [hy])
      · intro hc
        simp only [Bool.and_eq_true] at hc
        simp [hab hc.1] at hc

end RangeMap
end Verif

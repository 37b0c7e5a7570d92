import Verif.Proof.Operations
import Verif.Proof.Set

/-!
# How `Union` divides the keys into ranges; which ranges `Intersection` yields
-/
set_option linter.unusedSectionVars false

namespace Verif
open Spec

namespace OpsLaws
variable {R K : Type} [LE K] [LT K] [Std.IsLinearPreorder K]
  [Std.LawfulOrderLT K] [RangeOrder R] [RangeMerge R] [RangeIntersect R] {L : OpsLaws R K}

variable (L) in
/-- every key of `r` but the first lies in some range of `l`, and so does a key before it -/
def Bridged (l : List R) (r : R) : Prop :=
  ∀ p, L.start r < p → L.bel r p → ∃ x ∈ l, L.start x < p ∧ L.bel x p

variable (L) in
/-- all keys of `x` are in `r` -/
def Inside (x r : R) : Prop := L.start r ≤ L.start x ∧ ∀ k, L.bel x k → L.bel r k

theorem Inside.refl (x : R) : L.Inside x x := ⟨by grind, fun _ h => h⟩

theorem Inside.trans {x y z : R} (h : L.Inside x y) (h' : L.Inside y z) : L.Inside x z :=
  ⟨by have := h.1; have := h'.1; grind, fun k hk => h'.2 k (h.2 k hk)⟩

theorem Bridged.mono {l l' : List R} {r : R} (h : L.Bridged l r) (hs : ∀ x ∈ l, x ∈ l') :
    L.Bridged l' r := fun p h1 h2 =>
  let ⟨x, hx, h⟩ := h p h1 h2
  ⟨x, hs x hx, h⟩

theorem Bridged.self {l : List R} {r : R} (h : r ∈ l) : L.Bridged l r :=
  fun _ h1 h2 => ⟨r, h, h1, h2⟩

/-- one merge -/
theorem merge_bridged {l : List R} {r s t : R} (hr : L.good r) (hs : L.good s)
    (h : RangeMerge.merge r s = some t) (hb : L.Bridged l r) (hsl : s ∈ l)
    (hle : L.start r ≤ L.start s) :
    L.good t ∧ L.Bridged l t ∧ L.Inside r t ∧ L.Inside s t ∧ L.start t = L.start r := by
  obtain ⟨m1, m2, m3, m4⟩ := L.merge_some hr hs h
  refine ⟨m1, fun p h1 h2 => ?_, ⟨by grind, fun k hk => (m4 k).2 (Or.inl hk)⟩,
    ⟨by grind, fun k hk => (m4 k).2 (Or.inr hk)⟩, m2⟩
  rw [m2] at h1
  rcases (m4 p).1 h2 with h2 | h2
  · exact hb p h1 h2
  · by_cases h3 : L.start s < p
    · exact ⟨s, hsl, h3, h2⟩
    · exact hb p h1 (L.bel_mono m3 (by grind))

theorem mergeLoop_exact {l : List R} (range : R) (left right : List R) (hg : L.good range)
    (hgl : ∀ x ∈ left, L.good x) (hgr : ∀ x ∈ right, L.good x)
    (hsl : ∀ x ∈ left, L.start range ≤ L.start x) (hsr : ∀ x ∈ right, L.start range ≤ L.start x)
    (hb : L.Bridged l range) (hl : ∀ x ∈ left, x ∈ l) (hr : ∀ x ∈ right, x ∈ l) :
    L.Bridged l (Union.mergeLoop range left right).1 ∧
    L.Inside range (Union.mergeLoop range left right).1 ∧
    (∀ x ∈ left, L.Inside x (Union.mergeLoop range left right).1 ∨
      x ∈ (Union.mergeLoop range left right).2.left) ∧
    ∀ x ∈ right, L.Inside x (Union.mergeLoop range left right).1 ∨
      x ∈ (Union.mergeLoop range left right).2.right := by
  fun_induction Union.mergeLoop range left right with
  | case1 range left right range' left' h ih =>
    cases left with
    | nil => cases h
    | cons a left =>
      simp only [Union.join, Option.map_eq_some_iff, Prod.mk.injEq] at h
      obtain ⟨_, hm, rfl, rfl⟩ := h
      obtain ⟨m1, m2, m3, m4, m5⟩ := merge_bridged hg (hgl a (by simp)) hm hb (hl a (by simp))
        (hsl a (by simp))
      obtain ⟨i1, i2, i3, i4⟩ := ih m1 (fun x hx => hgl x (by simp [hx])) hgr
        (fun x hx => by rw [m5]; exact hsl x (by simp [hx])) (by rw [m5]; exact hsr) m2
        (fun x hx => hl x (by simp [hx])) hr
      refine ⟨i1, m3.trans i2, fun x hx => ?_, i4⟩
      rcases List.mem_cons.1 hx with rfl | hx
      · exact Or.inl (m4.trans i2)
      · exact i3 x hx
  | case2 range left right h0 range' right' h ih =>
    cases right with
    | nil => cases h
    | cons a right =>
      simp only [Union.join, Option.map_eq_some_iff, Prod.mk.injEq] at h
      obtain ⟨_, hm, rfl, rfl⟩ := h
      obtain ⟨m1, m2, m3, m4, m5⟩ := merge_bridged hg (hgr a (by simp)) hm hb (hr a (by simp))
        (hsr a (by simp))
      obtain ⟨i1, i2, i3, i4⟩ := ih m1 hgl (fun x hx => hgr x (by simp [hx]))
        (by rw [m5]; exact hsl) (fun x hx => by rw [m5]; exact hsr x (by simp [hx])) m2
        hl (fun x hx => hr x (by simp [hx]))
      refine ⟨i1, m3.trans i2, i3, fun x hx => ?_⟩
      rcases List.mem_cons.1 hx with rfl | hx
      · exact Or.inl (m4.trans i2)
      · exact i4 x hx
  | case3 range left right h h' =>
    exact ⟨hb, .refl _, fun x hx => Or.inr hx, fun x hx => Or.inr hx⟩

/-- what becomes of the ranges at the start of a call -/
theorem first_exact {left right : List R} {range : R} {u : Union R}
    (h : (⟨left, right⟩ : Union R).first = some (range, u)) :
    range ∈ left ++ right ∧ (∀ x ∈ left, x = range ∨ x ∈ u.left) ∧
    ∀ x ∈ right, x = range ∨ x ∈ u.right := by
  match left, right with
  | [], [] => cases h
  | l :: left, [] => cases h; simp
  | [], r :: right => cases h; simp
  | l :: left, r :: right =>
    simp only [Union.first] at h
    split at h <;> cases h <;> simp +contextual

/-- The ranges that `Union` yields are those of the finest division of the keys that does not cut
any range of the two sequences. -/
theorem union_exact : ∀ (n : Nat) (left right : List R), left.length + right.length ≤ n →
    L.Sorted left → L.Sorted right →
    ∃ l, Yields Union.next (⟨left, right⟩ : Union R) l ∧
      (∀ r ∈ l, L.Bridged (left ++ right) r) ∧ ∀ x ∈ left ++ right, ∃ r ∈ l, L.Inside x r := by
  intro n
  induction n with
  | zero =>
    intro left right hn _ _
    obtain ⟨rfl, rfl⟩ : left = [] ∧ right = [] := by
      constructor <;> apply List.eq_nil_of_length_eq_zero <;> omega
    refine ⟨[], Yields.nil (fun s => s = (⟨[], []⟩ : Union R)) ?_ rfl, by simp, by simp⟩
    rintro s rfl
    exact ⟨rfl, rfl⟩
  | succ n ih =>
    intro left right hn hl hr
    rcases first_spec hl hr with ⟨rfl, rfl, _⟩ | ⟨range, left', right', f1, f2, f3, f4, f5, f6, f7,
        f8, f9, f10, f11, f12⟩
    · exact ih [] [] (by simp) .nil .nil
    · obtain ⟨r1, l1, l2, g1, g2, g3, g4, g5, -⟩ :=
        mergeLoop_spec _ range left' right' rfl f4 f5 f2 f3 f10 f11
      obtain ⟨e1, e2, e3⟩ := first_exact f1
      have hlen1 := g2.length_le
      have hlen2 := g3.length_le
      obtain ⟨l, i1, i2, i3⟩ := ih l1 l2 (by omega) g4 g5
      have hm := mergeLoop_exact (L := L) (l := left ++ right) range left' right' f4 f2.good f3.good
        f10 f11 (.self e1) (fun x hx => List.mem_append_left _ (f8 x hx))
        (fun x hx => List.mem_append_right _ (f9 x hx))
      rw [g1] at hm
      obtain ⟨h1, h2, h3, h4⟩ := hm
      refine ⟨r1 :: l, Yields.cons ?_ i1, fun r hr' => ?_, fun x hx => ?_⟩
      · simp [Union.next, f1, g1]
      · rcases List.mem_cons.1 hr' with rfl | hr'
        · exact h1
        · refine (i2 r hr').mono fun x hx => ?_
          rcases List.mem_append.1 hx with hx | hx
          · exact List.mem_append_left _ (f8 x (g2.subset hx))
          · exact List.mem_append_right _ (f9 x (g3.subset hx))
      · have rest : ∀ x, x ∈ l1 ++ l2 → ∃ r ∈ r1 :: l, L.Inside x r := fun x hx =>
          let ⟨r, hr, h⟩ := i3 x hx
          ⟨r, by simp [hr], h⟩
        rcases List.mem_append.1 hx with hx | hx
        · rcases e2 x hx with rfl | hx
          · exact ⟨r1, by simp, h2⟩
          · rcases h3 x hx with h | h
            · exact ⟨r1, by simp, h⟩
            · exact rest x (by simp [h])
        · rcases e3 x hx with rfl | hx
          · exact ⟨r1, by simp, h2⟩
          · rcases h4 x hx with h | h
            · exact ⟨r1, by simp, h⟩
            · exact rest x (by simp [h])

/-- What `Intersection` yields are the non-empty intersections of a range of the left with one of
the right sequence. -/
theorem intersection_exact : ∀ (n : Nat) (left right : List R), left.length + right.length ≤ n →
    L.Spaced left → L.Spaced right →
    ∃ l, Yields Intersection.next (⟨left, right⟩ : Intersection R) l ∧
      ∀ r, r ∈ l ↔ ∃ x ∈ left, ∃ y ∈ right, RangeIntersect.intersect x y = some r := by
  intro n
  induction n with
  | zero =>
    intro left right hn _ _
    obtain ⟨rfl, rfl⟩ : left = [] ∧ right = [] := by
      constructor <;> apply List.eq_nil_of_length_eq_zero <;> omega
    refine ⟨[], Yields.nil (fun s => s = (⟨[], []⟩ : Intersection R)) ?_ rfl, by simp⟩
    rintro s rfl
    simp [Intersection.next, Intersection.nextLoop]
  | succ n ih =>
    intro left right hn hl hr
    match left, right with
    | [], right =>
      refine ⟨[], Yields.nil (fun s => s = (⟨[], right⟩ : Intersection R)) ?_ rfl, by simp⟩
      rintro s rfl
      simp [Intersection.next, Intersection.nextLoop]
    | l :: left, [] =>
      refine ⟨[], Yields.nil (fun s => s = (⟨l :: left, []⟩ : Intersection R)) ?_ rfl, by simp⟩
      rintro s rfl
      simp [Intersection.next, Intersection.nextLoop]
    | a :: left, b :: right =>
      have ha := List.pairwise_cons.1 hl.apart
      have hb := List.pairwise_cons.1 hr.apart
      have ho := L.order_end a b
      by_cases hlt : L.stop a < L.stop b
      · obtain ⟨l, i1, i2⟩ :=
          ih left (b :: right) (by simp only [List.length_cons] at hn ⊢; omega) hl.tail hr
        -- nothing after `b` meets `a`
        have hdis : ∀ y ∈ right, ∀ r, RangeIntersect.intersect a y ≠ some r := by
          intro y hy r h
          obtain ⟨-, c2, -, c4, c5, -, -⟩ := L.inter_some h
          exact L.apart_not_bel (hb.1 y hy)
            (L.bel_mono (L.bel_stop (by grind) (L.bel_stop c5 c2)) c4)
        have hmem : ∀ r, (∃ x ∈ a :: left, ∃ y ∈ b :: right,
            RangeIntersect.intersect x y = some r) ↔
            RangeIntersect.intersect a b = some r ∨ ∃ x ∈ left, ∃ y ∈ b :: right,
              RangeIntersect.intersect x y = some r := by
          intro r
          simp only [List.mem_cons, exists_eq_or_imp]
          have := fun y hy => hdis y hy r
          grind
        cases hi : RangeIntersect.intersect a b with
        | none =>
          refine ⟨l, ?_, fun r => by rw [i2, hmem, hi]; simp⟩
          intro m
          rw [← i1 m]
          cases m with
          | zero => rfl
          | succ m =>
            have : Intersection.next (⟨a :: left, b :: right⟩ : Intersection R) =
                Intersection.next ⟨left, b :: right⟩ := by
              simp only [Intersection.next]
              rw [Intersection.nextLoop]
              simp [ho.2 hlt, hi]
            simp [calls, this]
        | some c =>
          refine ⟨c :: l, Yields.cons ?_ i1, fun r => ?_⟩
          · simp only [Intersection.next]
            rw [Intersection.nextLoop]
            simp [ho.2 hlt, hi]
          · rw [hmem, List.mem_cons, i2, hi, Option.some.injEq, eq_comm]
      · have hge : L.stop b ≤ L.stop a := by grind
        have ho' : (RangeOrder.orderEnd a b).isLT = false := by
          exact Bool.eq_false_iff.2 fun h => hlt (ho.1 h)
        obtain ⟨l, i1, i2⟩ :=
          ih (a :: left) right (by simp only [List.length_cons] at hn ⊢; omega) hl hr.tail
        have hdis : ∀ x ∈ left, ∀ r, RangeIntersect.intersect x b ≠ some r := by
          intro x hx r h
          obtain ⟨-, c2, c3, -, -, c6, -⟩ := L.inter_some h
          exact L.apart_not_bel (ha.1 x hx)
            (L.bel_mono (L.bel_stop hge (L.bel_stop c6 c2)) c3)
        have hmem : ∀ r, (∃ x ∈ a :: left, ∃ y ∈ b :: right,
            RangeIntersect.intersect x y = some r) ↔
            RangeIntersect.intersect a b = some r ∨ ∃ x ∈ a :: left, ∃ y ∈ right,
              RangeIntersect.intersect x y = some r := by
          intro r
          simp only [List.mem_cons, exists_eq_or_imp]
          have := fun y hy => hdis y hy r
          grind
        cases hi : RangeIntersect.intersect a b with
        | none =>
          refine ⟨l, ?_, fun r => by rw [i2, hmem, hi]; simp⟩
          intro m
          rw [← i1 m]
          cases m with
          | zero => rfl
          | succ m =>
            have : Intersection.next (⟨a :: left, b :: right⟩ : Intersection R) =
                Intersection.next ⟨a :: left, right⟩ := by
              simp only [Intersection.next]
              rw [Intersection.nextLoop]
              simp [ho', hi]
            simp [calls, this]
        | some c =>
          refine ⟨c :: l, Yields.cons ?_ i1, fun r => ?_⟩
          · simp only [Intersection.next]
            rw [Intersection.nextLoop]
            simp [ho', hi]
          · rw [hmem, List.mem_cons, i2, hi, Option.some.injEq, eq_comm]

end OpsLaws
end Verif

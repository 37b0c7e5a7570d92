import Verif.Proof.BTree
import Verif.Spec

/-!
# Lengths of ranges, added up

For any assignment `φ` of whole numbers to keys, `a..b` has the length `φ b - φ a`.  What a list of
ranges has as its total depends only on how many of its ranges each key is in.
-/
set_option linter.unusedSectionVars false

namespace Verif.Spec

/-- The length of `a..b`, if keys are at the places `φ` on a ruler. -/
def span {K : Type} (φ : K → Int) (r : Range K) : Int := φ r.stop - φ r.start

/-- The lengths of a list of ranges, added up. -/
def total {K : Type} (φ : K → Int) (l : List (Range K)) : Int := (l.map (span φ)).sum

/-- Keys that compare equal are at the same place. -/
def Ruler {K : Type} [LE K] (φ : K → Int) : Prop := ∀ a b, a ≤ b → b ≤ a → φ a = φ b

/-- The part of `r` that is in `q`. -/
def cutTo {K : Type} [LE K] [LT K] [DecidableLE K] [DecidableLT K] (q r : Range K) : Range K :=
  ⟨rmax q.start r.start, rmin q.stop r.stop⟩

/-- The lengths of those ranges of a list whose values satisfy `P`, added up. -/
def totalOf {K V : Type} (φ : K → Int) (P : V → Bool) (es : List (Range K × V)) : Int :=
  total φ ((es.filter fun e => P e.2).map (·.1))

/-- `l` lists every key that satisfies `P` once, by the number it has. -/
structure Lists {K : Type} (φ : K → Int) (P : K → Prop) (l : List Int) : Prop where
  once : l.Nodup
  every : ∀ n, n ∈ l ↔ ∃ k, φ k = n ∧ P k

/-- Keys are numbered in order and without gaps, like integers are. -/
structure Numbering {K : Type} [LE K] (φ : K → Int) : Prop where
  order : ∀ a b : K, a ≤ b ↔ φ a ≤ φ b
  between : ∀ (a b : K) (n : Int), φ a ≤ n → n ≤ φ b → ∃ k : K, φ k = n

/-- The length of `a..=b`, if the key `k` takes up the ruler from `φ k` to `ψ k`. -/
def ispan {K : Type} (φ ψ : K → Int) (r : RangeInclusive K) : Int := ψ r.stop - φ r.start

/-- The lengths of a list of inclusive ranges, added up. -/
def itotal {K : Type} (φ ψ : K → Int) (l : List (RangeInclusive K)) : Int :=
  (l.map (ispan φ ψ)).sum

/-- The part of `r` that is in `q`. -/
def icutTo {K : Type} [LE K] [LT K] [DecidableLE K] [DecidableLT K] (q r : RangeInclusive K) :
    RangeInclusive K := .mk' (rmax q.start r.start) (rmin q.stop r.stop)

/-- The lengths of those ranges of a list whose values satisfy `P`, added up. -/
def itotalOf {K V : Type} (φ ψ : K → Int) (P : V → Bool) (es : List (RangeInclusive K × V)) : Int :=
  itotal φ ψ ((es.filter fun e => P e.2).map (·.1))

/-- Keys that compare equal are at the same place, and each key begins where the one before it
ends. -/
structure IRuler {K : Type} [LE K] [LT K] (φ ψ : K → Int) : Prop where
  starts : Ruler φ
  ends : Ruler ψ
  next : ∀ a b, Next a b → ψ a = φ b

end Verif.Spec

namespace Verif.Lengths
open Spec

section
variable {K : Type} [LE K] [LT K] [DecidableLE K] [DecidableLT K]
  [Std.IsLinearPreorder K] [Std.LawfulOrderLT K] {φ : K → Int}

/-- The distances from each point to the next, times `c`. -/
def cells (φ : K → Int) (c : K → Int) : List K → Int
  | p :: q :: t => c p * (φ q - φ p) + cells φ c (q :: t)
  | _ => 0

theorem cells_add (c d : K → Int) : ∀ ps, cells φ (fun p => c p + d p) ps = cells φ c ps + cells φ
    d ps
  | [] => rfl
  | [_] => rfl
  | p :: q :: t => by
    simp only [cells, cells_add c d (q :: t), Int.add_mul]
    omega

theorem cells_zero : ∀ ps, cells φ (fun _ => 0) ps = 0
  | [] => rfl
  | [_] => rfl
  | p :: q :: t => by simp [cells, cells_zero (q :: t)]

theorem cells_congr {c d : K → Int} : ∀ {ps : List K}, (∀ p, c p = d p) →
    cells φ c ps = cells φ d ps := by
  intro ps h
  rw [show c = d from funext h]

theorem cells_below_none {x : K} : ∀ {ps : List K}, (∀ p ∈ ps, x ≤ p) →
    cells φ (fun p => if p < x then 1 else 0) ps = 0
  | [], _ => rfl
  | [_], _ => rfl
  | p :: q :: t, h => by
    have hp : ¬ p < x := by have := h p (by simp); grind
    simp only [cells, if_neg hp, Int.zero_mul, Int.zero_add]
    exact cells_below_none fun p hp => h p (List.mem_cons_of_mem _ hp)

theorem cells_below (hφ : Ruler φ) {x : K} : ∀ {p : K} {ps : List K},
    (p :: ps).Pairwise (· ≤ ·) → x ∈ p :: ps →
    cells φ (fun p => if p < x then 1 else 0) (p :: ps) = φ x - φ p
  | p, [], _, hx => by
    rw [List.mem_singleton.1 hx]
    simp [cells]
  | p, q :: t, hs, hx => by
    by_cases h : p < x
    · have hx' : x ∈ q :: t := by
        rcases List.mem_cons.1 hx with rfl | hx
        · grind
        · exact hx
      simp only [cells, if_pos h, Int.one_mul, cells_below hφ hs.tail hx']
      omega
    · have hle : x ≤ p := by grind
      rw [cells_below_none (fun y hy => by
        rcases List.mem_cons.1 hy with rfl | hy
        · exact hle
        · exact Std.le_trans hle (List.rel_of_pairwise_cons hs hy))]
      rcases List.mem_cons.1 hx with rfl | hx
      · omega
      · rw [hφ x p hle (List.rel_of_pairwise_cons hs hx)]
        omega

theorem cells_range (hφ : Ruler φ) {ps : List K} (hs : ps.Pairwise (· ≤ ·)) {r : Range K}
    (h : r.start ≤ r.stop) (h1 : r.start ∈ ps) (h2 : r.stop ∈ ps) :
    cells φ (fun p => if covers r p then 1 else 0) ps = span φ r := by
  cases ps with
  | nil => cases h1
  | cons p ps =>
    have := cells_add (φ := φ) (fun p => if covers r p then (1 : Int) else 0)
      (fun p => if p < r.start then 1 else 0) (p :: ps)
    rw [cells_congr (d := fun p => if p < r.stop then 1 else 0) (fun k => by
      simp only [covers, decide_eq_true_eq]
      by_cases hk : k < r.start
      · have : k < r.stop := by grind
        have : ¬ r.start ≤ k := by grind
        simp [*]
      · have : r.start ≤ k := by grind
        simp [*]), cells_below hφ hs h2, cells_below hφ hs h1] at this
    simp only [span]
    omega

theorem total_cells (hφ : Ruler φ) {ps : List K} (hs : ps.Pairwise (· ≤ ·)) :
    ∀ {l : List (Range K)}, (∀ r ∈ l, r.start ≤ r.stop ∧ r.start ∈ ps ∧ r.stop ∈ ps) →
    total φ l = cells φ (fun p => (l.countP fun r => covers r p : Nat)) ps
  | [], _ => by simp [total, cells_zero]
  | r :: l, h => by
    have ih := total_cells hφ hs fun r hr => h r (List.mem_cons_of_mem _ hr)
    have hr := h r (by simp)
    rw [cells_congr (d := fun p => (if covers r p then (1 : Int) else 0) +
      (l.countP fun r => covers r p : Nat)) (fun p => by
        rw [List.countP_cons]
        split <;> simp <;> omega), cells_add, cells_range hφ hs hr.1 hr.2.1 hr.2.2, ← ih]
    simp [total]

/-- All the ends of a list of ranges, in order. -/
theorem exists_points (l : List (Range K)) : ∃ ps : List K, ps.Pairwise (· ≤ ·) ∧
    (∀ r ∈ l, r.start ∈ ps ∧ r.stop ∈ ps) ∧ ∀ p ∈ ps, ∃ r ∈ l, p = r.start ∨ p = r.stop := by
  refine ⟨(l.flatMap fun r => [r.start, r.stop]).mergeSort fun a b => decide (a ≤ b), ?_, ?_, ?_⟩
  · refine (List.pairwise_mergeSort (le := fun a b : K => decide (a ≤ b)) ?_ ?_ _).imp ?_
    · intro a b c h1 h2
      simp only [decide_eq_true_eq] at *
      exact Std.le_trans h1 h2
    · intro a b
      have := Std.le_total (a := a) (b := b)
      simpa using this
    · intro a b h
      simpa using h
  · intro r hr
    simp only [List.mem_mergeSort, List.mem_flatMap]
    exact ⟨⟨r, hr, by simp⟩, ⟨r, hr, by simp⟩⟩
  · intro p hp
    simp only [List.mem_mergeSort, List.mem_flatMap] at hp
    obtain ⟨r, hr, h⟩ := hp
    exact ⟨r, hr, by simpa using h⟩

/-- The total depends only on how often each key is covered. -/
theorem total_eq (hφ : Ruler φ) {l l' : List (Range K)}
    (h : ∀ r ∈ l, r.start ≤ r.stop) (h' : ∀ r ∈ l', r.start ≤ r.stop)
    (hc : ∀ k, (l.countP fun r => covers r k) = l'.countP fun r => covers r k) :
    total φ l = total φ l' := by
  obtain ⟨ps, hs, hp, -⟩ := exists_points (l ++ l')
  rw [total_cells hφ hs fun r hr => ⟨h r hr, hp r (by simp [hr])⟩,
    total_cells hφ hs fun r hr => ⟨h' r hr, hp r (by simp [hr])⟩]
  exact cells_congr fun k => by rw [hc]

theorem cells_le {c d : K → Int} (hc : ∀ k, c k ≤ d k) :
    ∀ {ps : List K}, (∀ a ∈ ps, ∀ b ∈ ps, a ≤ b → φ a ≤ φ b) → ps.Pairwise (· ≤ ·) →
    cells φ c ps ≤ cells φ d ps
  | [], _, _ => by simp [cells]
  | [_], _, _ => by simp [cells]
  | p :: q :: t, hm, hs => by
    have h1 := cells_le hc (fun a ha b hb => hm a (List.mem_cons_of_mem _ ha) b
      (List.mem_cons_of_mem _ hb)) (List.pairwise_cons.1 hs).2
    have h2 := hm p (by simp) q (by simp) (List.rel_of_pairwise_cons hs (by simp))
    have h3 := Int.mul_le_mul_of_nonneg_right (hc p) (show 0 ≤ φ q - φ p by omega)
    simp only [cells]
    omega

/-- If places go up with keys, more coverage is more length. -/
theorem total_le (hφ : Ruler φ) {l l' : List (Range K)}
    (hm : ∀ a b : K, (∃ r ∈ l ++ l', a = r.start ∨ a = r.stop) →
      (∃ r ∈ l ++ l', b = r.start ∨ b = r.stop) → a ≤ b → φ a ≤ φ b)
    (h : ∀ r ∈ l, r.start ≤ r.stop) (h' : ∀ r ∈ l', r.start ≤ r.stop)
    (hc : ∀ k, (l.countP fun r => covers r k) ≤ l'.countP fun r => covers r k) :
    total φ l ≤ total φ l' := by
  obtain ⟨ps, hs, hp, hp'⟩ := exists_points (l ++ l')
  rw [total_cells hφ hs fun r hr => ⟨h r hr, hp r (by simp [hr])⟩,
    total_cells hφ hs fun r hr => ⟨h' r hr, hp r (by simp [hr])⟩]
  exact cells_le (fun k => by have := hc k; omega)
    (fun a ha b hb hab => hm a b (hp' a ha) (hp' b hb) hab) hs

/-- At most one of disjoint ranges covers a key. -/
theorem countP_covers : ∀ {l : List (Range K)}, l.Pairwise (fun r r' => r.stop ≤ r'.start) →
    (∀ r ∈ l, r.start ≤ r.stop) → ∀ k,
    (l.countP fun r => covers r k) = if ∃ r ∈ l, r.start ≤ k ∧ k < r.stop then 1 else 0
  | [], _, _, k => by simp
  | r :: l, hp, hl, k => by
    rw [List.countP_cons, countP_covers (List.pairwise_cons.1 hp).2
      (fun r hr => hl r (List.mem_cons_of_mem _ hr)) k]
    by_cases h : r.start ≤ k ∧ k < r.stop
    · have : ¬ ∃ r ∈ l, r.start ≤ k ∧ k < r.stop := by
        rintro ⟨r', hr', h'⟩
        have := List.rel_of_pairwise_cons hp hr'
        grind
      rw [if_neg this, if_pos (show covers r k = true by simpa [covers] using h),
        if_pos ⟨r, by simp, h⟩]
    · rw [if_neg (show ¬ covers r k = true by simpa [covers] using h)]
      congr 1
      simp [h]

/-- The same for those whose values satisfy `P`. -/
theorem countP_of {V : Type} {es : List (Range K × V)} (P : V → Bool)
    (hp : es.Pairwise fun a b => a.1.stop ≤ b.1.start) (hl : ∀ e ∈ es, e.1.start ≤ e.1.stop)
    (k : K) :
    (((es.filter fun e => P e.2).map (·.1)).countP fun r => covers r k) =
      if ∃ e ∈ es, (e.1.start ≤ k ∧ k < e.1.stop) ∧ P e.2 = true then 1 else 0 := by
  rw [countP_covers]
  · congr 1
    simp only [List.mem_map, List.mem_filter, eq_iff_iff]
    constructor
    · rintro ⟨r, ⟨e, ⟨h1, h2⟩, rfl⟩, h3⟩
      exact ⟨e, h1, h3, h2⟩
    · rintro ⟨e, h1, h3, h2⟩
      exact ⟨e.1, ⟨e, ⟨h1, h2⟩, rfl⟩, h3⟩
  · exact List.pairwise_map.2 (hp.filter _)
  · intro r hr
    obtain ⟨e, he, rfl⟩ := List.mem_map.1 hr
    exact hl e (List.mem_filter.1 he).1

/-- The same for their parts in `q`. -/
theorem countP_clip {V : Type} {es : List (Range K × V)} (P : V → Bool) (q : Range K)
    (hp : es.Pairwise fun a b => a.1.stop ≤ b.1.start) (hl : ∀ e ∈ es, e.1.start ≤ e.1.stop)
    (k : K) :
    ((((es.filter fun e => decide (q.start < e.1.stop) && decide (e.1.start < q.stop)).filter
      fun e => P e.2).map fun e => cutTo q e.1).countP fun r => covers r k) =
      if (q.start ≤ k ∧ k < q.stop) ∧ ∃ e ∈ es, (e.1.start ≤ k ∧ k < e.1.stop) ∧ P e.2 = true
      then 1 else 0 := by
  have := countP_of P hp hl k
  rw [List.countP_map, List.countP_filter] at this
  rw [List.countP_map, List.filter_filter, List.countP_filter]
  have h0 : ∀ e : Range K × V, covers (cutTo q e.1) k =
      (covers e.1 k && decide (q.start ≤ k ∧ k < q.stop)) := by
    intro e
    rw [Bool.eq_iff_iff]
    simp only [covers, cutTo, rmax_le, lt_rmin, decide_eq_true_eq, Bool.and_eq_true]
    grind
  by_cases hq : q.start ≤ k ∧ k < q.stop
  · simp only [hq, true_and, and_self]
    rw [← this]
    congr 1
    funext e
    simp only [Function.comp, h0, hq]
    rw [Bool.eq_iff_iff]
    simp only [covers, Bool.and_eq_true, decide_eq_true_eq]
    grind
  · rw [if_neg (fun h => hq h.1)]
    simp [h0, hq]

theorem total_append (l l' : List (Range K)) : total φ (l ++ l') = total φ l + total φ l' := by
  simp [total]

end

/-! ### Counting keys -/
section
variable {K : Type} [LE K] [LT K] [Std.IsLinearPreorder K] [Std.LawfulOrderLT K] {φ : K → Int}

theorem _root_.Verif.Spec.Numbering.ruler (h : Numbering φ) : Ruler φ := fun a b h1 h2 =>
  Int.le_antisymm ((h.order a b).1 h1) ((h.order b a).1 h2)

theorem _root_.Verif.Spec.Numbering.lt (h : Numbering φ) (a b : K) : a < b ↔ φ a < φ b := by
  have := h.order b a
  grind

/-- The integers from `a` up to but not including `b`. -/
def ints (a b : Int) : List Int := (List.range (b - a).toNat).map fun i : Nat => a + i

theorem ints_length (a b : Int) : (ints a b).length = (b - a).toNat := by simp [ints]

theorem mem_ints {a b n : Int} : n ∈ ints a b ↔ a ≤ n ∧ n < b := by
  simp only [ints, List.mem_map, List.mem_range]
  constructor
  · rintro ⟨i, h, rfl⟩
    omega
  · rintro ⟨h1, h2⟩
    exact ⟨(n - a).toNat, by omega, by omega⟩

theorem ints_nodup (a b : Int) : (ints a b).Nodup := by
  refine List.pairwise_map.2 (List.nodup_range.imp fun h => ?_)
  omega

theorem ints_flat : ∀ {l : List (Int × Int)}, l.Pairwise (fun a b => a.2 ≤ b.1) →
    (l.flatMap fun p => ints p.1 p.2).Nodup
  | [], _ => by simp
  | p :: l, h => by
    rw [List.flatMap_cons, List.nodup_append]
    refine ⟨ints_nodup _ _, ints_flat (List.pairwise_cons.1 h).2, ?_⟩
    intro n hn n' hn' he
    obtain ⟨p', hp', hn'⟩ := List.mem_flatMap.1 hn'
    have := List.rel_of_pairwise_cons h hp'
    rw [mem_ints] at hn hn'
    omega

/-- The lengths of disjoint ranges add up to the number of keys in them. -/
theorem total_count (h : Numbering φ) {l : List (Range K)}
    (hp : l.Pairwise fun r r' => r.stop ≤ r'.start) (hl : ∀ r ∈ l, r.start ≤ r.stop) :
    ∃ ns, Lists φ (fun k => ∃ r ∈ l, r.start ≤ k ∧ k < r.stop) ns ∧ total φ l = ns.length := by
  refine ⟨(l.map fun r => (φ r.start, φ r.stop)).flatMap fun p => ints p.1 p.2, ⟨?_, ?_⟩, ?_⟩
  · exact ints_flat (List.pairwise_map.2 (hp.imp fun h' => (h.order _ _).1 h'))
  · intro n
    simp only [List.mem_flatMap, List.mem_map]
    constructor
    · rintro ⟨_, ⟨r, hr, rfl⟩, hn⟩
      rw [mem_ints] at hn
      obtain ⟨k, rfl⟩ := h.between r.start r.stop n hn.1 (by omega)
      exact ⟨k, rfl, r, hr, (h.order _ _).2 hn.1, (h.lt _ _).2 hn.2⟩
    · rintro ⟨k, rfl, r, hr, h1, h2⟩
      exact ⟨_, ⟨r, hr, rfl⟩, mem_ints.2 ⟨(h.order _ _).1 h1, (h.lt _ _).1 h2⟩⟩
  · clear hp
    induction l with
    | nil => rfl
    | cons r l ih =>
      have hr := (h.order _ _).1 (hl r (by simp))
      have ih := ih fun r hr => hl r (List.mem_cons_of_mem _ hr)
      simp only [total, List.map_cons, List.sum_cons, List.flatMap_cons, List.length_append,
        ints_length, span] at *
      omega

/-- The lengths of disjoint inclusive ranges add up to the number of keys in them. -/
theorem itotal_count (h : Numbering φ) {l : List (RangeInclusive K)}
    (hp : l.Pairwise fun r r' => r.stop < r'.start) (hl : ∀ r ∈ l, r.start ≤ r.stop) :
    ∃ ns, Lists φ (fun k => ∃ r ∈ l, r.start ≤ k ∧ k ≤ r.stop) ns ∧
      itotal φ (fun k => φ k + 1) l = ns.length := by
  refine ⟨(l.map fun r => (φ r.start, φ r.stop + 1)).flatMap fun p => ints p.1 p.2, ⟨?_, ?_⟩, ?_⟩
  · exact ints_flat (List.pairwise_map.2 (hp.imp fun h' => (h.lt _ _).1 h'))
  · intro n
    simp only [List.mem_flatMap, List.mem_map]
    constructor
    · rintro ⟨_, ⟨r, hr, rfl⟩, hn⟩
      rw [mem_ints] at hn
      obtain ⟨k, rfl⟩ := h.between r.start r.stop n hn.1 (by omega)
      exact ⟨k, rfl, r, hr, (h.order _ _).2 hn.1, (h.order _ _).2 (by omega)⟩
    · rintro ⟨k, rfl, r, hr, h1, h2⟩
      exact ⟨_, ⟨r, hr, rfl⟩, mem_ints.2 ⟨(h.order _ _).1 h1, by
        have := (h.order _ _).1 h2; simp only; omega⟩⟩
  · clear hp
    induction l with
    | nil => rfl
    | cons r l ih =>
      have hr := (h.order _ _).1 (hl r (by simp))
      have ih := ih fun r hr => hl r (List.mem_cons_of_mem _ hr)
      simp only [itotal, List.map_cons, List.sum_cons, List.flatMap_cons, List.length_append,
        ints_length, ispan] at *
      omega

theorem _root_.Verif.Spec.Numbering.iruler (h : Numbering φ) : IRuler φ fun k => φ k + 1 where
  starts := h.ruler
  ends a b h1 h2 := by have := h.ruler a b h1 h2; simp only; omega
  next a b hn := by
    have h1 := (h.lt a b).1 hn.1
    obtain ⟨k, hk⟩ := h.between a b (φ a + 1) (by omega) (by omega)
    have h2 := (h.order _ _).1 (hn.2 k ((h.lt _ _).2 (by omega)))
    omega

end

/-! ### Inclusive ranges -/

/-- The keys and a place beyond them all. -/
inductive Top (K : Type) where
  | key (k : K)
  | top

section
variable {K : Type} [LE K] [LT K] [DecidableLE K] [DecidableLT K]
  [Std.IsLinearPreorder K] [Std.LawfulOrderLT K]

instance : LE (Top K) where
  le
    | .key a, .key b => a ≤ b
    | _, .top => True
    | .top, .key _ => False

instance : LT (Top K) where
  lt
    | .key a, .key b => a < b
    | .key _, .top => True
    | .top, _ => False

theorem Top.key_le {a b : K} : Top.key a ≤ Top.key b ↔ a ≤ b := .rfl
theorem Top.key_lt {a b : K} : Top.key a < Top.key b ↔ a < b := .rfl
theorem Top.le_top {a : Top K} : a ≤ Top.top := by cases a <;> exact trivial
theorem Top.key_lt_top {a : K} : Top.key a < Top.top := trivial
theorem Top.not_top_lt {a : Top K} : ¬ Top.top < a := by cases a <;> exact id
theorem Top.not_top_le {a : K} : ¬ Top.top ≤ Top.key a := id

instance : DecidableLE (Top K)
  | .key a, .key b => inferInstanceAs (Decidable (a ≤ b))
  | .key _, .top => isTrue trivial
  | .top, .top => isTrue trivial
  | .top, .key _ => isFalse id

instance : DecidableLT (Top K)
  | .key a, .key b => inferInstanceAs (Decidable (a < b))
  | .key _, .top => isTrue trivial
  | .top, .top => isFalse id
  | .top, .key _ => isFalse id

instance : Std.IsLinearPreorder (Top K) where
  le_refl
    | .key a => Std.le_refl a
    | .top => trivial
  le_trans
    | .key _, .key _, .key _, h1, h2 => Std.le_trans (α := K) h1 h2
    | _, _, .top, _, _ => Top.le_top
    | _, .top, .key _, _, h2 => h2.elim
    | .top, .key _, _, h1, _ => h1.elim
  le_total
    | .key a, .key b => Std.le_total (a := a) (b := b)
    | _, .top => .inl Top.le_top
    | .top, _ => .inr Top.le_top

instance : Std.LawfulOrderLT (Top K) where
  lt_iff
    | .key a, .key b => Std.LawfulOrderLT.lt_iff a b
    | .key _, .top => ⟨fun _ => ⟨trivial, id⟩, fun _ => trivial⟩
    | .top, .top => ⟨fun h => h.elim, fun h => h.2 trivial⟩
    | .top, .key _ => ⟨fun h => h.elim, fun h => h.1.elim⟩

variable {φ ψ : K → Int}

open Classical in
/-- The place of a key; beyond them all, where the greatest ends. -/
noncomputable def place (φ ψ : K → Int) : Top K → Int
  | .key k => φ k
  | .top => if h : ∃ m : K, ∀ b, ¬ m < b then ψ h.choose else 0

open Classical in
/-- The place just after a key. -/
noncomputable def after (a : K) : Top K := if h : ∃ b, Next a b then .key h.choose else .top

theorem place_ruler (h : IRuler φ ψ) : Ruler (place φ ψ)
  | .key a, .key b, h1, h2 => h.starts a b h1 h2
  | .top, .top, _, _ => rfl
  | .key _, .top, _, h2 => h2.elim
  | .top, .key _, h1, _ => h1.elim

theorem place_after {S : StepFns K} (hS : LawfulSteps S) (h : IRuler φ ψ) (a : K) :
    place φ ψ (after a) = ψ a := by
  unfold after
  split
  · rename_i hn
    exact (h.next _ _ hn.choose_spec).symm
  · rename_i hn
    have hm : ∀ b, ¬ a < b := fun b hb => by
      obtain ⟨c, -, hc⟩ := hS.addOne a b hb
      exact hn ⟨c, hc⟩
    have hm' : ∃ m : K, ∀ b, ¬ m < b := ⟨a, hm⟩
    simp only [place, dif_pos hm']
    have h1 := hm hm'.choose
    have h2 := hm'.choose_spec a
    exact h.ends _ _ (by grind) (by grind)

theorem lt_after {S : StepFns K} (hS : LawfulSteps S) {k a : K} : Top.key k < after a ↔ k ≤ a := by
  unfold after
  split
  · rename_i hn
    have := hn.choose_spec
    simp only [Top.key_lt]
    constructor
    · intro h
      by_cases hk : k ≤ a
      · exact hk
      · have := this.2 k (by grind)
        grind
    · intro h
      have := this.1
      grind
  · rename_i hn
    refine ⟨fun _ => ?_, fun _ => trivial⟩
    by_cases hk : k ≤ a
    · exact hk
    · obtain ⟨c, -, hc⟩ := hS.addOne a k (by grind)
      exact absurd ⟨c, hc⟩ hn

/-- `a..=b` as a half-open range. -/
noncomputable def half (r : RangeInclusive K) : Range (Top K) := ⟨.key r.start, after r.stop⟩

theorem covers_half {S : StepFns K} (hS : LawfulSteps S) (r : RangeInclusive K) (k : K) :
    covers (half r) (.key k) = icovers r k := by
  simp [covers, icovers, half, Top.key_le, lt_after hS]

theorem covers_half_top (r : RangeInclusive K) : covers (half r) .top = false := by
  simp [covers, Top.not_top_lt]

theorem itotal_half {S : StepFns K} (hS : LawfulSteps S) (h : IRuler φ ψ)
    (l : List (RangeInclusive K)) : total (place φ ψ) (l.map half) = itotal φ ψ l := by
  simp only [total, itotal, List.map_map]
  congr 1
  refine List.map_congr_left fun r _ => ?_
  simp [span, ispan, half, place_after hS h]
  rfl

theorem half_valid {S : StepFns K} (hS : LawfulSteps S) {r : RangeInclusive K}
    (h : r.start ≤ r.stop) : (half r).start ≤ (half r).stop := by
  have := (lt_after hS).2 h
  simp only [half]
  grind

/-- The total of inclusive ranges, too, depends only on how often each key is covered. -/
theorem itotal_eq {S : StepFns K} (hS : LawfulSteps S) (h : IRuler φ ψ)
    {l l' : List (RangeInclusive K)} (hl : ∀ r ∈ l, r.start ≤ r.stop)
    (hl' : ∀ r ∈ l', r.start ≤ r.stop)
    (hc : ∀ k, (l.countP fun r => icovers r k) = l'.countP fun r => icovers r k) :
    itotal φ ψ l = itotal φ ψ l' := by
  rw [← itotal_half hS h, ← itotal_half hS h]
  refine total_eq (place_ruler h) ?_ ?_ ?_
  · simpa using fun r hr => half_valid hS (hl r hr)
  · simpa using fun r hr => half_valid hS (hl' r hr)
  · intro k
    cases k with
    | key k => simpa [List.countP_map, Function.comp_def, covers_half hS] using hc k
    | top => simp [List.countP_map, Function.comp_def, covers_half_top]

theorem itotal_le {S : StepFns K} (hS : LawfulSteps S) (h : IRuler φ ψ)
    (hm : ∀ a b : K, a ≤ b → φ a ≤ φ b) (hm' : ∀ a : K, φ a ≤ ψ a)
    {l l' : List (RangeInclusive K)} (hl : ∀ r ∈ l, r.start ≤ r.stop)
    (hl' : ∀ r ∈ l', r.start ≤ r.stop)
    (hc : ∀ k, (l.countP fun r => icovers r k) ≤ l'.countP fun r => icovers r k) :
    itotal φ ψ l ≤ itotal φ ψ l' := by
  rw [← itotal_half hS h, ← itotal_half hS h]
  refine total_le (place_ruler h) ?_ ?_ ?_ ?_
  · rintro a b ⟨r, hr, ha⟩ ⟨r', hr', hb⟩ hab
    simp only [List.mem_append, List.mem_map, ← List.map_append] at hr hr'
    obtain ⟨r, -, rfl⟩ := hr
    obtain ⟨r', -, rfl⟩ := hr'
    cases b with
    | key b =>
      cases a with
      | key a => exact hm a b hab
      | top => exact hab.elim
    | top =>
      have hb : after r'.stop = Top.top := by
        rcases hb with hb | hb
        · cases hb
        · exact hb.symm
      have hx := place_after hS h r'.stop
      have hmx : ∀ b, ¬ r'.stop < b := fun b hb' => by
        have h1 : Top.key b < after r'.stop := by rw [hb]; exact trivial
        have := (lt_after hS).1 h1
        grind
      cases a with
      | key a =>
        have h1 := hm a r'.stop (by have := hmx a; grind)
        have h2 := hm' r'.stop
        rw [hb] at hx
        simp only [place] at *
        omega
      | top => exact Int.le_refl _
  · simpa using fun r hr => half_valid hS (hl r hr)
  · simpa using fun r hr => half_valid hS (hl' r hr)
  · intro k
    cases k with
    | key k => simpa [List.countP_map, Function.comp_def, covers_half hS] using hc k
    | top => simp [List.countP_map, Function.comp_def, covers_half_top]

/-- At most one of disjoint ranges covers a key. -/
theorem countP_icovers : ∀ {l : List (RangeInclusive K)}, l.Pairwise
    (fun r r' => r.stop < r'.start) →
    (∀ r ∈ l, r.start ≤ r.stop) → ∀ k,
    (l.countP fun r => icovers r k) = if ∃ r ∈ l, r.start ≤ k ∧ k ≤ r.stop then 1 else 0
  | [], _, _, k => by simp
  | r :: l, hp, hl, k => by
    rw [List.countP_cons, countP_icovers (List.pairwise_cons.1 hp).2
      (fun r hr => hl r (List.mem_cons_of_mem _ hr)) k]
    by_cases h : r.start ≤ k ∧ k ≤ r.stop
    · have : ¬ ∃ r ∈ l, r.start ≤ k ∧ k ≤ r.stop := by
        rintro ⟨r', hr', h'⟩
        have := List.rel_of_pairwise_cons hp hr'
        grind
      rw [if_neg this, if_pos (show icovers r k = true by simpa [icovers] using h),
        if_pos ⟨r, by simp, h⟩]
    · rw [if_neg (show ¬ icovers r k = true by simpa [icovers] using h)]
      congr 1
      simp [h]

/-- The same for those whose values satisfy `P`. -/
theorem countP_iof {V : Type} {es : List (RangeInclusive K × V)} (P : V → Bool)
    (hp : es.Pairwise fun a b => a.1.stop < b.1.start) (hl : ∀ e ∈ es, e.1.start ≤ e.1.stop)
    (k : K) :
    (((es.filter fun e => P e.2).map (·.1)).countP fun r => icovers r k) =
      if ∃ e ∈ es, (e.1.start ≤ k ∧ k ≤ e.1.stop) ∧ P e.2 = true then 1 else 0 := by
  rw [countP_icovers]
  · congr 1
    simp only [List.mem_map, List.mem_filter, eq_iff_iff]
    constructor
    · rintro ⟨r, ⟨e, ⟨h1, h2⟩, rfl⟩, h3⟩
      exact ⟨e, h1, h3, h2⟩
    · rintro ⟨e, h1, h3, h2⟩
      exact ⟨e.1, ⟨e, ⟨h1, h2⟩, rfl⟩, h3⟩
  · exact List.pairwise_map.2 (hp.filter _)
  · intro r hr
    obtain ⟨e, he, rfl⟩ := List.mem_map.1 hr
    exact hl e (List.mem_filter.1 he).1

/-- The same for their parts in `q`. -/
theorem countP_iclip {V : Type} {es : List (RangeInclusive K × V)} (P : V → Bool)
    (q : RangeInclusive K)
    (hp : es.Pairwise fun a b => a.1.stop < b.1.start) (hl : ∀ e ∈ es, e.1.start ≤ e.1.stop)
    (k : K) :
    ((((es.filter fun e => decide (q.start ≤ e.1.stop) && decide (e.1.start ≤ q.stop)).filter
      fun e => P e.2).map fun e => icutTo q e.1).countP fun r => icovers r k) =
      if (q.start ≤ k ∧ k ≤ q.stop) ∧ ∃ e ∈ es, (e.1.start ≤ k ∧ k ≤ e.1.stop) ∧ P e.2 = true
      then 1 else 0 := by
  have := countP_iof P hp hl k
  rw [List.countP_map, List.countP_filter] at this
  rw [List.countP_map, List.filter_filter, List.countP_filter]
  have h0 : ∀ e : RangeInclusive K × V, icovers (icutTo q e.1) k =
      (icovers e.1 k && decide (q.start ≤ k ∧ k ≤ q.stop)) := by
    intro e
    rw [Bool.eq_iff_iff]
    simp only
      [icovers, icutTo, RangeInclusive.mk', rmax_le, le_rmin, decide_eq_true_eq, Bool.and_eq_true]
    grind
  by_cases hq : q.start ≤ k ∧ k ≤ q.stop
  · simp only [hq, true_and, and_self]
    rw [← this]
    congr 1
    funext e
    simp only [Function.comp, h0, hq]
    rw [Bool.eq_iff_iff]
    simp only [icovers, Bool.and_eq_true, decide_eq_true_eq]
    grind
  · rw [if_neg (fun h => hq h.1)]
    simp [h0, hq]

theorem itotal_append (l l' : List (RangeInclusive K)) :
    itotal φ ψ (l ++ l') = itotal φ ψ l + itotal φ ψ l' := by
  simp [itotal]

end
end Verif.Lengths

import Verif.Props.OpsExact
import Verif.Props.Exact
import Verif.Props.Iter
import Verif.Proof.OpsCount

/-!
# C98: how many ranges there are

C81 and C51 say which ranges `union`, `intersection`, `insert` and `remove` lead to.  Here they are
counted: how many ranges are yielded or stored follows exactly from how the given ranges lie.
-/
set_option linter.unusedSectionVars false

namespace Verif.Spec
variable {K V : Type} [LE K] [LT K] [DecidableLE K] [DecidableLT K]

/-- the two ranges share a key (for non-empty ranges) -/
def shares (x y : Range K) : Bool := decide (x.start < y.stop ∧ y.start < x.stop)

/-- the two ranges share a key or touch (for non-empty ranges) -/
def nears (x y : Range K) : Bool := decide (x.start ≤ y.stop ∧ y.start ≤ x.stop)

/-- into how many ranges `x` falls if the keys of `r` are taken away -/
def leftover (r x : Range K) : Nat :=
  if shares r x then (if x.start < r.start then 1 else 0) + (if r.stop < x.stop then 1 else 0)
  else 1

/-- none of the entries covers the key -/
def free (l : List (Range K × V)) (k : K) : Bool := !l.any fun e => covers e.1 k

end Verif.Spec

namespace Verif.Props
open Spec

/-- counting by members -/
theorem length_of_pieces {A B : Type} {l' : List B} {l : List A} {f : A → List B}
    (h : ∀ y, y ∈ l' ↔ ∃ x ∈ l, y ∈ f x) (hl' : l'.Nodup) (hf : ∀ x ∈ l, (f x).Nodup)
    (hd : l.Pairwise fun x x' => ∀ y ∈ f x, ∀ y' ∈ f x', y ≠ y') :
    l'.length = (l.map fun x => (f x).length).sum := by
  have hn : (l.flatMap f).Nodup := List.pairwise_flatMap.2 ⟨hf, hd⟩
  rw [((List.perm_ext_iff_of_nodup hl' hn).2 fun y => by rw [h, List.mem_flatMap]).length_eq,
    List.length_flatMap]

theorem sum_map_congr {A : Type} {f g : A → Nat} {l : List A} (h : ∀ x ∈ l, f x = g x) :
    (l.map f).sum = (l.map g).sum := by
  rw [List.map_congr_left h]

/-- a list that is not empty has a member that is greatest in some respect -/
theorem exists_greatest {K A : Type} [LE K] [LT K] [Std.IsLinearPreorder K] [Std.LawfulOrderLT K]
    (f : A → K) : ∀ {l : List A} {a : A}, a ∈ l → ∃ w ∈ l, ∀ x ∈ l, f x ≤ f w := by
  intro l
  induction l with
  | nil => intro a h; cases h
  | cons b l ih =>
    intro a _
    cases l with
    | nil => exact ⟨b, by simp, by simp⟩
    | cons c l =>
      obtain ⟨w, hw, h⟩ := ih (a := c) (by simp)
      by_cases hb : f w ≤ f b
      · refine ⟨b, by simp, fun x hx => ?_⟩
        rcases List.mem_cons.1 hx with rfl | hx
        · grind
        · have := h x hx
          grind
      · refine ⟨w, List.mem_cons_of_mem _ hw, fun x hx => ?_⟩
        rcases List.mem_cons.1 hx with rfl | hx
        · grind
        · exact h x hx

variable {K : Type} [LE K] [LT K] [DecidableLE K] [DecidableLT K]
  [Std.IsLinearPreorder K] [Std.LawfulOrderLT K]

section
open RangeSet

theorem meet_eq_shares (x y : Range K) (hx : x.start < x.stop) (hy : y.start < y.stop) :
    OpsLaws.meet x y = shares x y := by
  rw [Bool.eq_iff_iff, OpsLaws.meet_iff (L := Range.laws) hx hy, shares, decide_eq_true_eq]
  simp only [Range.laws]
  grind

theorem set_sorted {a : RangeSet K} (ha : Reachable a) : Range.laws.Sorted a.iter := by
  have hs := (wf_iff a).1 ha.wf
  exact ⟨fun _ _ => trivial, hs.1, hs.2.imp fun {a b} h (hb : b.start < a.stop) => by grind⟩

theorem set_len (a : RangeSet K) : a.len = a.iter.length := by
  simp [iter, RangeMap.iter, len, RangeMap.len]

/-- **C98** `union` yields as many ranges as the two sets have, less one for every pair of a range
of the one and a range of the other that share a key. -/
theorem C98_union {a b : RangeSet K} (ha : Reachable a) (hb : Reachable b) :
    ∃ u, Yields Union.next (a.union b) u ∧
      u.length + pairs shares a.iter b.iter = a.len + b.len := by
  have hs := (wf_iff a).1 ha.wf
  have hs' := (wf_iff b).1 hb.wf
  obtain ⟨u, h1, h2⟩ := OpsLaws.union_count (set_sorted ha) (set_sorted hb)
  refine ⟨u, h1, ?_⟩
  rw [set_len, set_len, ← h2, pairs_congr fun x hx y hy => meet_eq_shares x y (hs.1 x hx)
    (hs'.1 y hy)]

/-- **C98** `intersection` yields exactly one range for every pair of a range of the one set and a
range of the other that share a key. -/
theorem C98_intersection {a b : RangeSet K} (ha : Reachable a) (hb : Reachable b) :
    ∃ i, Yields Intersection.next (a.intersection b) i ∧
      i.length = pairs shares a.iter b.iter := by
  have hs := (wf_iff a).1 ha.wf
  have hs' := (wf_iff b).1 hb.wf
  obtain ⟨i, h1, h2⟩ := OpsLaws.intersection_count (L := Range.laws) _ a.iter b.iter
    (Nat.le_refl _) ⟨hs.1, hs.2⟩ ⟨hs'.1, hs'.2⟩
  exact ⟨i, h1, by rw [h2, pairs_congr fun x hx y hy => meet_eq_shares x y (hs.1 x hx)
    (hs'.1 y hy)]⟩

/-- **C98** `union` and `intersection` together yield as many ranges as the two sets have.
Hence, unless both sets are empty, `intersection` yields fewer than that. -/
theorem C98_union_intersection {a b : RangeSet K} (ha : Reachable a) (hb : Reachable b) :
    ∃ u i, Yields Union.next (a.union b) u ∧ Yields Intersection.next (a.intersection b) i ∧
      u.length + i.length = a.len + b.len ∧ (0 < a.len + b.len → i.length < a.len + b.len) := by
  obtain ⟨u, h1, h2⟩ := C98_union ha hb
  obtain ⟨i, h3, h4⟩ := C98_intersection ha hb
  refine ⟨u, i, h1, h3, by omega, fun hpos => ?_⟩
  have : 0 < u.length := by
    obtain ⟨u', h5, h6⟩ := C81_union_division ha hb
    obtain rfl := Yields.unique h1 h5
    obtain ⟨x, hx⟩ : ∃ x, x ∈ a.iter ++ b.iter := by
      apply List.exists_mem_of_length_pos
      rw [List.length_append, ← set_len, ← set_len]
      exact hpos
    obtain ⟨r, hr, -⟩ := h6.uncut x hx
    exact List.length_pos_of_mem hr
  omega

/-- **C98** `a & b` has exactly as many ranges as there are pairs that share a key. -/
theorem C98_bitand {a b : RangeSet K} (ha : Reachable a) (hb : Reachable b) :
    ∃ t, a.bitAnd b = .ok t ∧ t.len = pairs shares a.iter b.iter := by
  obtain ⟨t, h1, -, h3, -⟩ := bitAnd_spec ha.wf hb.wf
  obtain ⟨i, h4, h5⟩ := C98_intersection ha hb
  obtain rfl := Yields.unique h3 h4
  exact ⟨t, h1, by rw [set_len, h5]⟩

/-- the ranges of a set, of which none touches the next -/
theorem set_inOrder {a : RangeSet K} (ha : Reachable a) :
    InOrder Range.start (fun (r : Range K) k => k ≤ r.stop) a.iter := by
  have hs := (wf_iff a).1 ha.wf
  refine ⟨fun r j k h1 h2 => by grind, fun r hr => ?_, hs.2.imp fun {a b} h => by grind⟩
  have := hs.1 r hr
  grind

/-- **C98** `a | b` has as many ranges as the two sets, less one for every pair of a range of the
one and a range of the other that share a key or touch. -/
theorem C98_bitor {a b : RangeSet K} (ha : Reachable a) (hb : Reachable b) :
    ∃ t, a.bitOr b = .ok t ∧ t.len + pairs nears a.iter b.iter = a.len + b.len := by
  obtain ⟨t, t1, t2, t3⟩ := bitOr_spec ha.wf hb.wf
  have hs := (wf_iff a).1 ha.wf
  have hs' := (wf_iff b).1 hb.wf
  have ht := (wf_iff t).1 t2
  refine ⟨t, t1, ?_⟩
  rw [set_len, set_len, set_len]
  have cover : ∀ k, (∃ u ∈ t.iter, u.start ≤ k ∧ k < u.stop) ↔
      ∃ x ∈ a.iter ++ b.iter, x.start ≤ k ∧ k < x.stop := by
    intro k
    rw [← has_iff, t3, Bool.or_eq_true, has_iff, has_iff]
    simp only [List.mem_append]
    grind
  have ne : ∀ x ∈ a.iter ++ b.iter, x.start < x.stop := by
    intro x hx
    rcases List.mem_append.1 hx with hx | hx
    · exact hs.1 x hx
    · exact hs'.1 x hx
  have same : ∀ u ∈ t.iter, ∀ u' ∈ t.iter, u.start ≤ u'.stop → u'.start ≤ u.stop → u = u' := by
    intro u hu u' hu' h1 h2
    have := ht.1 u hu
    have := ht.1 u' hu'
    rcases RangeMap.pw_tri ht.2 u hu u' hu' with h | h | h
    · exact h
    · grind
    · grind
  have inside : ∀ x ∈ a.iter ++ b.iter, ∃ u ∈ t.iter, u.start ≤ x.start ∧ x.start < u.stop ∧
      x.stop ≤ u.stop := by
    intro x hx
    have hne := ne x hx
    obtain ⟨u, hu, h1, h2⟩ := (cover x.start).2 ⟨x, hx, by grind, hne⟩
    refine ⟨u, hu, h1, h2, ?_⟩
    apply Decidable.byContradiction
    intro hlt
    obtain ⟨u', hu', h3, h4⟩ := (cover u.stop).2 ⟨x, hx, by grind, by grind⟩
    have := ht.1 u hu
    have e := same u hu u' hu' (by grind) h3
    subst e
    grind
  have begins : ∀ u ∈ t.iter, ∃ x ∈ a.iter ++ b.iter, x.start ≤ u.start ∧ u.start ≤ x.start := by
    intro u hu
    have hne := ht.1 u hu
    obtain ⟨x, hx, h1, h2⟩ := (cover u.start).1 ⟨u, hu, by grind, hne⟩
    obtain ⟨u', hu', h3, h4, h5⟩ := inside x hx
    have e := same u hu u' hu' (by grind) (by grind)
    subst e
    exact ⟨x, hx, h1, h3⟩
  refine components_count (set_inOrder ha) (set_inOrder hb) (set_inOrder (.of_wf t2))
    (fun x hx y hy => ?_) (fun x hx => ?_) begins (fun z hz u hu h1 h2 => ?_)
  · have := hs.1 x hx
    have := hs'.1 y hy
    simp only [nears, decide_eq_true_eq]
    grind
  · obtain ⟨u, hu, h1, -, h2⟩ := inside x hx
    exact ⟨u, hu, h1, fun k hk => by grind⟩
  · -- of the ranges that start before `z` take the one that reaches furthest
    obtain ⟨x, hx, b1, b2⟩ := begins u hu
    obtain ⟨w, hw, hmax⟩ := exists_greatest Range.stop (a := x)
      (l := (a.iter ++ b.iter).filter fun w => decide (w.start < z.start))
      (List.mem_filter.2 ⟨hx, by grind⟩)
    simp only [List.mem_filter, decide_eq_true_eq] at hw hmax
    refine ⟨w, hw.1, hw.2, ?_⟩
    apply Decidable.byContradiction
    intro hlt
    have hz' := ne z hz
    obtain ⟨u', hu', i1, i2, i3⟩ := inside z hz
    have e := same u hu u' hu' (by grind) (by grind)
    subst e
    have hxs := ne x hx
    have := hmax x ⟨hx, by grind⟩
    obtain ⟨y, hy, y1, y2⟩ := (cover w.stop).1 ⟨u, hu, by grind, by grind⟩
    have := hmax y ⟨hy, by grind⟩
    grind

-- `0..3 5..15 20..40` and `1..4 15..20 22..24 39..50`: 3 pairs share a key, 2 more touch
example := C98_union (K := Nat) Demo.set_reachable Demo.set'_reachable
example := C98_intersection (K := Nat) Demo.set_reachable Demo.set'_reachable
example := C98_union_intersection (K := Nat) Demo.set_reachable Demo.set'_reachable
example := C98_bitand (K := Nat) Demo.set_reachable Demo.set'_reachable
example := C98_bitor (K := Nat) Demo.set_reachable Demo.set'_reachable
example : Demo.set.len = 3 ∧ Demo.set'.len = 4 ∧ pairs shares Demo.set.iter Demo.set'.iter = 3 ∧
    pairs nears Demo.set.iter Demo.set'.iter = 5 := by decide
-- two sets of three ranges, interleaved: the most that `intersection` can yield
example : pairs shares [⟨0, 3⟩, ⟨4, 7⟩, ⟨8, 11⟩] [(⟨2, 5⟩ : Range Nat), ⟨6, 9⟩, ⟨10, 13⟩] = 5 := by
  decide

end

section
open RangeMap
variable {V : Type} [BEq V] [PartialEquivBEq V]

/-- what is left of an entry if the keys of `r` are taken away -/
def piecesOf (r : Range K) (x : Range K × V) : List (Range K × V) :=
  if shares r x.1 then (if x.1.start < r.start then [(⟨x.1.start, r.start⟩, x.2)] else []) ++
    (if r.stop < x.1.stop then [(⟨r.stop, x.1.stop⟩, x.2)] else [])
  else [x]

theorem piecesOf_length (r : Range K) (x : Range K × V) :
    (piecesOf r x).length = leftover r x.1 := by
  unfold piecesOf leftover
  split
  · rw [List.length_append]
    split <;> split <;> rfl
  · rfl

theorem mem_piecesOf {r : Range K} {x y : Range K × V} (hr : r.start < r.stop)
    (hx : x.1.start < x.1.stop) : y ∈ piecesOf r x ↔ AfterRemove r x y := by
  rw [afterRemove_iff hr hx]
  unfold piecesOf Piece Ovl shares
  split
  · rename_i h
    rw [decide_eq_true_eq] at h
    rw [List.mem_append]
    have h' : x.1.start < r.stop ∧ r.start < x.1.stop := ⟨h.2, h.1⟩
    constructor
    · rintro (h1 | h1)
      · split at h1
        · exact Or.inr ⟨h', Or.inl ⟨by assumption, by simpa using h1⟩⟩
        · cases h1
      · split at h1
        · exact Or.inr ⟨h', Or.inr ⟨by assumption, by simpa using h1⟩⟩
        · cases h1
    · rintro (⟨h1, -⟩ | ⟨-, ⟨h1, rfl⟩ | ⟨h1, rfl⟩⟩)
      · exact absurd h' h1
      · exact Or.inl (by simp [h1])
      · exact Or.inr (by simp [h1])
  · rename_i h
    rw [decide_eq_true_eq] at h
    rw [List.mem_singleton]
    constructor
    · intro h1
      exact Or.inl ⟨fun h2 => h ⟨h2.2, h2.1⟩, h1⟩
    · rintro (⟨-, h1⟩ | ⟨h1, -⟩)
      · exact h1
      · exact absurd ⟨h1.2, h1.1⟩ h

/-- the pieces are parts of the entry -/
theorem piecesOf_inside {r : Range K} {x y : Range K × V} (hr : r.start < r.stop)
    (hx : x.1.start < x.1.stop) (h : y ∈ piecesOf r x) :
    x.1.start ≤ y.1.start ∧ y.1.start < y.1.stop ∧ y.1.stop ≤ x.1.stop ∧
      (y.1.stop ≤ r.start ∨ r.stop ≤ y.1.start) := by
  rcases (afterRemove_iff hr hx).1 ((mem_piecesOf hr hx).1 h) with
    ⟨h1, rfl⟩ | ⟨h1, ⟨h2, rfl⟩ | ⟨h2, rfl⟩⟩
  · unfold Ovl at h1
    grind
  · unfold Ovl at h1
    simp only
    grind
  · unfold Ovl at h1
    simp only
    grind

theorem piecesOf_nodup {r : Range K} {x : Range K × V} (hr : r.start < r.stop) :
    (piecesOf r x).Nodup := by
  unfold piecesOf
  split
  · split <;> split <;> simp
    grind
  · simp

theorem map_nodup {m : RangeMap K V} (hm : Reachable m) : m.iter.Nodup := by
  refine hm.wf.sep.pw.imp_of_mem fun {a b} ha _ hab => ?_
  have := hm.wf.sep.ne a ha
  rintro rfl
  grind [Before]

theorem pieces_apart {m : RangeMap K V} (hm : Reachable m) {r : Range K} (hr : r.start < r.stop) :
    m.iter.Pairwise fun x x' => ∀ y ∈ piecesOf r x, ∀ y' ∈ piecesOf r x', y ≠ y' := by
  refine hm.wf.sep.pw.imp_of_mem fun {a b} ha hb hab y hy y' hy' => ?_
  have h1 := piecesOf_inside hr (hm.wf.sep.ne a ha) hy
  have h2 := piecesOf_inside hr (hm.wf.sep.ne b hb) hy'
  rintro rfl
  grind [Before]

/-- **C98** How many ranges a map has after `remove(r)`: every range that shares a key with `r`
leaves a range for each side on which it reaches beyond `r`; the others stay. -/
theorem C98_remove {m m' : RangeMap K V} (hm : Reachable m) {r : Range K}
    (h : m.remove r = .ok m') : m'.len = (m.iter.map fun x => leftover r x.1).sum := by
  have hr : r.start < r.stop := by
    apply Decidable.byContradiction
    intro hr
    simp [remove_invalid hr] at h
  have he := C51_remove_entries hm h
  have := length_of_pieces (f := piecesOf r) (fun y => (he y).trans (exists_congr fun x =>
    and_congr_right fun hx => (mem_piecesOf hr (hm.wf.sep.ne x hx)).symm))
    (map_nodup (hm.remove h)) (fun x _ => piecesOf_nodup hr) (pieces_apart hm hr)
  rw [show m'.len = m'.iter.length from rfl, this]
  exact sum_map_congr fun x _ => piecesOf_length r x

/-- **C98** How many ranges a map has after `insert(r, v)`: one for `r`; none for a range with a
value equal to `v` that shares a key with `r` or touches it; and what `remove(r)` would leave of
the others. -/
theorem C98_insert {m m' : RangeMap K V} (hm : Reachable m) {r : Range K} {v : V}
    (h : m.insert r v = .ok m') :
    m'.len = 1 + (m.iter.map fun x =>
      if x.2 == v then (if nears r x.1 then 0 else 1) else leftover r x.1).sum := by
  have hr : r.start < r.stop := by
    apply Decidable.byContradiction
    intro hr
    simp [insert_invalid hr] at h
  obtain ⟨n, n1, n2, he⟩ := C51_insert_entries hm h
  let f : Range K × V → List (Range K × V) := fun x =>
    if x.2 == v then (if nears r x.1 then [] else [x]) else piecesOf r x
  have hf : ∀ x ∈ m.iter, ∀ y, y ∈ f x ↔ AfterInsert r v x y := by
    intro x hx y
    have hne := hm.wf.sep.ne x hx
    simp only [f]
    cases hv : x.2 == v with
    | true =>
      have ht : nears r x.1 = true ↔ Touch r x.1 := by
        rw [touch_iff hr hne, nears, decide_eq_true_eq, Tch]
        grind
      simp only [if_true]
      split
      · rename_i hn
        constructor
        · intro h; cases h
        · rintro (⟨-, h2⟩ | ⟨h1, -⟩)
          · exact absurd (ht.1 hn) h2
          · rw [hv] at h1; cases h1
      · rename_i hn
        rw [List.mem_singleton]
        constructor
        · rintro rfl
          exact .equal hv fun h => hn (ht.2 h)
        · rintro (⟨-, -⟩ | ⟨h1, -⟩)
          · rfl
          · rw [hv] at h1; cases h1
    | false =>
      simp only [Bool.false_eq_true, if_false]
      rw [mem_piecesOf hr hne]
      constructor
      · exact .other hv
      · rintro (⟨h1, -⟩ | ⟨-, h2⟩)
        · rw [hv] at h1; cases h1
        · exact h2
  have sub : ∀ x ∈ m.iter, ∀ y ∈ f x, y ∈ piecesOf r x := by
    intro x hx y hy
    have hne := hm.wf.sep.ne x hx
    rcases (hf x hx y).1 hy with ⟨-, h2⟩ | ⟨-, h2⟩
    · refine (mem_piecesOf hr hne).2 (.keep fun hc => h2 (Or.inl hc))
    · exact (mem_piecesOf hr hne).2 h2
  have l1 := n1.le r.start (Or.inl rfl)
  have l2 := n2.le r.stop (Or.inl rfl)
  have hnd := map_nodup (hm.insert h)
  have hfn : (m.iter.flatMap f).Nodup := by
    refine List.pairwise_flatMap.2 ⟨fun x hx => ?_, ?_⟩
    · simp only [f]
      split
      · split <;> simp
      · exact piecesOf_nodup hr
    · refine (pieces_apart hm hr).imp_of_mem fun {a b} ha hb hab y hy y' hy' => ?_
      exact hab y (sub a ha y hy) y' (sub b hb y' hy')
  have hcons : ((n, v) :: m.iter.flatMap f).Nodup := by
    refine List.nodup_cons.2 ⟨fun hmem => ?_, hfn⟩
    obtain ⟨x, hx, hy⟩ := List.mem_flatMap.1 hmem
    have := piecesOf_inside hr (hm.wf.sep.ne x hx) (sub x hx _ hy)
    simp only at this
    grind
  have hp : m'.iter.Perm ((n, v) :: m.iter.flatMap f) := by
    refine (List.perm_ext_iff_of_nodup hnd hcons).2 fun y => ?_
    rw [he, List.mem_cons, List.mem_flatMap]
    exact or_congr Iff.rfl (exists_congr fun x => and_congr_right fun hx => (hf x hx y).symm)
  rw [show m'.len = m'.iter.length from rfl, hp.length_eq, List.length_cons, List.length_flatMap,
    Nat.add_comm]
  congr 1
  refine sum_map_congr fun x _ => ?_
  simp only [f]
  split
  · split <;> rfl
  · exact piecesOf_length r x

/-- **C98** `remove` balances: what it adds is one range, if `r` lies strictly inside of a stored
range; what it takes away are the ranges that lie in `r`. -/
theorem C98_remove_balance {m m' : RangeMap K V} (hm : Reachable m) {r : Range K}
    (h : m.remove r = .ok m') :
    m'.len + m.iter.countP (fun x => decide (r.start ≤ x.1.start ∧ x.1.stop ≤ r.stop)) =
      m.len + m.iter.countP (fun x => decide (x.1.start < r.start ∧ r.stop < x.1.stop)) := by
  have hr : r.start < r.stop := by
    apply Decidable.byContradiction
    intro hr
    simp [remove_invalid hr] at h
  rw [C98_remove hm h, show m.len = m.iter.length from rfl]
  have hne := hm.wf.sep.ne
  revert hne
  show (∀ e ∈ m.iter, _) → _
  generalize m.iter = l
  intro hne
  induction l with
  | nil => rfl
  | cons x l ih =>
    have ih := ih fun e he => hne e (by simp [he])
    have hx := hne x (by simp)
    simp only [List.map_cons, List.sum_cons, List.countP_cons, List.length_cons]
    have : leftover r x.1 + (if decide (r.start ≤ x.1.start ∧ x.1.stop ≤ r.stop) then 1 else 0) =
        1 + if decide (x.1.start < r.start ∧ r.stop < x.1.stop) then 1 else 0 := by
      simp only [leftover, shares, decide_eq_true_eq]
      grind
    omega

example := C98_insert (K := Nat) (V := Char) (m := Demo.map) Demo.map_reachable
    (r := ⟨2, 22⟩) (v := 'q') rfl
example := C98_remove (K := Nat) (V := Char) (m := Demo.map) Demo.map_reachable
    (r := ⟨2, 22⟩) rfl
example := C98_remove_balance (K := Nat) (V := Char) (m := Demo.map) Demo.map_reachable
    (r := ⟨2, 22⟩) rfl

/-- **C98** How many gaps there are in `q`: one that starts where `q` starts, if that key is free;
and one for every stored range that ends within `q` at a free key. -/
theorem C98_gaps {m : RangeMap K V} (hm : Reachable m) {q : Range K} (hq : q.start < q.stop) :
    ∃ g gs, m.gaps q = .ok g ∧ Yields Gaps.next g gs ∧
      gs.length = (if free m.iter q.start then 1 else 0) +
        m.iter.countP fun e => decide (q.start < e.1.stop ∧ e.1.stop < q.stop) &&
          free m.iter e.1.stop := by
  have hs := hm.wf.sep
  obtain ⟨g, gs, h1, h2, h3, h4, h5, h6⟩ := gaps_yields_list hm q
  refine ⟨g, gs, h1, h2, ?_⟩
  have hfree : ∀ k, free m.iter k = true ↔ m.get k = .ok none := by
    intro k
    rw [get_eq_none hs]
    simp only [free, covers, Bool.not_eq_true', List.any_eq_false, decide_eq_true_eq]
    constructor
    · rintro h w ⟨e, he, a, b, -⟩
      exact h e he ⟨a, b⟩
    · rintro h e he ⟨a, b⟩
      exact h e.2 ⟨e, he, a, b, rfl⟩
  let ks : List K := (if free m.iter q.start then [q.start] else []) ++
    ((m.iter.filter fun e => decide (q.start < e.1.stop ∧ e.1.stop < q.stop) &&
      free m.iter e.1.stop).map fun e => e.1.stop)
  have hlen : ks.length = (if free m.iter q.start then 1 else 0) +
      m.iter.countP fun e => decide (q.start < e.1.stop ∧ e.1.stop < q.stop) &&
        free m.iter e.1.stop := by
    simp only [ks, List.length_append, List.length_map, List.countP_eq_length_filter]
    split <;> rfl
  rw [← hlen]
  have hks : ∀ k, k ∈ ks ↔ (k = q.start ∧ free m.iter q.start = true) ∨
      ∃ e ∈ m.iter, e.1.stop = k ∧ q.start < k ∧ k < q.stop ∧ free m.iter k = true := by
    intro k
    simp only [ks, List.mem_append, List.mem_map, List.mem_filter, Bool.and_eq_true,
      decide_eq_true_eq]
    refine or_congr ?_ ?_
    · split <;> simp_all
    · constructor
      · rintro ⟨e, ⟨he, ⟨a, b⟩, c⟩, rfl⟩
        exact ⟨e, he, rfl, a, b, c⟩
      · rintro ⟨e, he, rfl, a, b, c⟩
        exact ⟨e, ⟨he, ⟨a, b⟩, c⟩, rfl⟩
  apply Nat.le_antisymm
  · refine length_le_of_partners (rel := fun g k => g.start ≤ k ∧ k ≤ g.start) ?_ fun g hg => ?_
    · refine h5.imp_of_mem fun {a b} ha _ hab k hc => ?_
      have := h4 a ha
      grind
    · obtain ⟨a1, a2, a3⟩ := h4 g hg
      have hfr : m.get g.start = .ok none := ((h3 g.start).1 ⟨g, hg, by grind, a1⟩).2.2
      rcases (h6 g hg).1 with h7 | ⟨e, he, h7⟩
      · exact ⟨q.start, (hks _).2 (Or.inl ⟨rfl, (hfree _).2 (h7 ▸ hfr)⟩), by grind⟩
      · by_cases hlt : q.start < g.start
        · exact ⟨g.start, (hks _).2 (Or.inr ⟨e, he, h7, hlt, by grind, (hfree _).2 hfr⟩),
            by grind⟩
        · have hq0 : m.get q.start = .ok none := by
            rw [get_eq_none hs] at hfr ⊢
            rintro w ⟨e, he, a, b, c⟩
            exact hfr w ⟨e, he, by grind, by grind, c⟩
          exact ⟨q.start, (hks _).2 (Or.inl ⟨rfl, (hfree _).2 hq0⟩), by grind⟩
  · refine length_le_of_partners (rel := fun k (g : Range K) => g.start ≤ k ∧ k ≤ g.start) ?_
      fun k hk => ?_
    · refine List.pairwise_append.2 ⟨?_, ?_, ?_⟩
      · split <;> simp
      · refine List.pairwise_map.2 ((hs.pw.filter _).imp_of_mem fun {a b} _ hb hab g hc => ?_)
        have := hs.ne b (List.mem_filter.1 hb).1
        clear h3 h4 h5 h6 hfree hks hlen
        grind [Before]
      · intro k hk k' hk' g hc
        have e1 : k = q.start := by
          split at hk
          · simpa using hk
          · cases hk
        obtain ⟨e, he, rfl⟩ := List.mem_map.1 hk'
        have := (List.mem_filter.1 he).2
        simp only [Bool.and_eq_true, decide_eq_true_eq] at this
        grind
    · rcases (hks k).1 hk with ⟨rfl, hf⟩ | ⟨e, he, rfl, hlt, hlt', hf⟩
      · obtain ⟨g, hg, a, b⟩ := (h3 q.start).2 ⟨by grind, hq, (hfree _).1 hf⟩
        exact ⟨g, hg, a, (h4 g hg).2.1⟩
      · obtain ⟨g, hg, a, b⟩ := (h3 e.1.stop).2 ⟨by grind, hlt', (hfree _).1 hf⟩
        refine ⟨g, hg, a, ?_⟩
        apply Decidable.byContradiction
        intro hc
        have hne := hs.ne e he
        -- the later of the two starts is in the gap and in the range
        have key : ∀ k, g.start ≤ k → k < g.stop → e.1.start ≤ k → k < e.1.stop → False :=
          fun k k1 k2 k3 k4 => (get_eq_none hs k).1 ((h3 k).1 ⟨g, hg, k1, k2⟩).2.2 e.2
            ⟨e, he, k3, k4, rfl⟩
        have hg1 := (h4 g hg).1
        by_cases hle : g.start ≤ e.1.start
        · exact key e.1.start hle (by grind) (by grind) hne
        · exact key g.start (by grind) hg1 (by grind) (by grind)

-- the gaps of the demo map in 1..50 are 3..5, 15..20 and 40..50
example := C98_gaps (K := Nat) (V := Char) (m := Demo.map) Demo.map_reachable (q := ⟨1, 50⟩)
    (by decide)

end

section
open RangeSet

/-- **C98** A set has after `insert(r)` one range more than before, less one for every range that
shares a key with `r` or touches it. -/
theorem C98_set_insert {s s' : RangeSet K} (hs : Reachable s) {r : Range K}
    (h : s.insert r = .ok s') : s'.len + s.iter.countP (nears r) = s.len + 1 := by
  rw [insert_rm] at h
  cases hi : s.rm.insert r () with
  | error p => rw [hi] at h; cases h
  | ok m' =>
    rw [hi] at h
    cases h
    have := C98_insert hs.map hi
    rw [show RangeSet.len (⟨m'⟩ : RangeSet K) = m'.len from rfl, this, set_len]
    simp only [iter]
    generalize s.rm.iter = l
    clear this hi
    induction l with
    | nil => rfl
    | cons x l ih =>
      simp only [List.map_cons, List.sum_cons, List.countP_cons, List.length_cons] at ih ⊢
      have hu : (x.2 == ()) = true := by cases x.2; rfl
      rw [if_pos hu]
      cases nears r x.1 <;> simp only [Bool.false_eq_true, if_true, if_false] <;> omega

/-- **C98** `remove` on a set balances like on a map. -/
theorem C98_set_remove {s s' : RangeSet K} (hs : Reachable s) {r : Range K}
    (h : s.remove r = .ok s') :
    s'.len + s.iter.countP (fun x => decide (r.start ≤ x.start ∧ x.stop ≤ r.stop)) =
      s.len + s.iter.countP (fun x => decide (x.start < r.start ∧ r.stop < x.stop)) := by
  rw [remove_rm] at h
  cases hi : s.rm.remove r with
  | error p => rw [hi] at h; cases h
  | ok m' =>
    rw [hi] at h
    cases h
    have := C98_remove_balance hs.map hi
    simp only [iter, List.countP_map, Function.comp_def]
    exact this

example := C98_set_insert (K := Nat) (s := Demo.set) Demo.set_reachable (r := ⟨3, 22⟩) rfl
example := C98_set_remove (K := Nat) (s := Demo.set) Demo.set_reachable (r := ⟨2, 22⟩) rfl

end
end Verif.Props

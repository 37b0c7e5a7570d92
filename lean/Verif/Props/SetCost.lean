import Verif.Model.SetCost
import Verif.Proof.EndCost
import Verif.Props.Counting
import Verif.Props.Cost
import Verif.Props.Calls
import Verif.Props.TreeCmp
import Verif.Props.OpsWork

/-!
# C99: what collecting ranges that come in order costs, and `|` and `&`
-/
set_option linter.unusedSectionVars false

namespace Verif.Props
open Spec
variable {K : Type} [LE K] [LT K] [DecidableLE K] [DecidableLT K]
  [Std.IsLinearPreorder K] [Std.LawfulOrderLT K]

/-! ## Maps -/

section
open RangeMap
variable {V : Type} [BEq V] [PartialEquivBEq V]

/-- after inserting behind all stored ranges, no stored range ends behind the inserted one -/
theorem insert_end_stops {m m' : RangeMap K V} (h : WF m.btm) {r : Range K} {v : V}
    (hr : r.start < r.stop) (hl : ∀ x ∈ m.btm, x.1.stop ≤ r.start) (hi : m.insert r v = .ok m') :
    ∀ x ∈ m'.btm, x.1.stop ≤ r.stop := by
  intro x hx
  obtain ⟨m'', h1, h2, -, n, h3, h4, h5, h6, h7⟩ := insert_spec h v hr
  have h1 : m.insert r v = .ok m'' := h1 _ (by omega)
  rw [hi] at h1
  cases h1
  apply Decidable.byContradiction
  intro hc
  have hxn := h2.sep.ne x hx
  -- a key of `x` that is behind `r`
  have hk : ∃ k, x.1.start ≤ k ∧ k < x.1.stop ∧ r.stop ≤ k := by
    by_cases h : x.1.start ≤ r.stop
    · exact ⟨r.stop, h, by grind, by grind⟩
    · exact ⟨x.1.start, by grind, hxn, by grind⟩
  obtain ⟨k, k1, k2, k3⟩ := hk
  have hno : ∀ w, ¬ Maps m.btm k w := by
    rintro w ⟨e, he, e1, e2, -⟩
    have := hl e he
    grind
  by_cases hn : n.start ≤ k ∧ k < n.stop
  · obtain ⟨w, hw, -⟩ := h5 k hn.1 hn.2 (by grind)
    exact hno w hw
  · exact hno x.2 ((h7 k hn x.2).1 ⟨x, hx, k1, k2, rfl⟩)

theorem extend_end (items : List (Range K × V)) : ∀ {m : RangeMap K V}, WF m.btm →
    (∀ e ∈ items, e.1.start < e.1.stop) → (items.Pairwise fun a b => a.1.stop ≤ b.1.start) →
    (∀ x ∈ m.btm, ∀ e ∈ items, x.1.stop ≤ e.1.start) →
    ∃ m', m.extend items = (m', .ok ()) ∧
      (m.extendCost items).searches = 2 * items.length ∧
      (m.extendCost items).puts = items.length ∧
      (m.extendCost items).deletes + m'.len = m.len + items.length := by
  induction items with
  | nil =>
    intro m _ _ _ _
    refine ⟨m, rfl, rfl, rfl, ?_⟩
    show 0 + m.len = m.len + 0
    omega
  | cons e t ih =>
    intro m hm hv hp hl
    obtain ⟨r, v⟩ := e
    have hr : r.start < r.stop := hv _ List.mem_cons_self
    have hlr : ∀ x ∈ m.btm, x.1.stop ≤ r.start := fun x hx => hl x hx _ List.mem_cons_self
    obtain ⟨m1, h1, h2⟩ := insert_ok hm v hr
    obtain ⟨c1, c2⟩ := insert_end v hm hr hlr
    have c3 := (insert_count hm v hr (fun _ => true) fun _ _ _ => rfl).2.2.2.2 m1 h1
    have hs := insert_end_stops hm hr hlr h1
    have hp' := List.pairwise_cons.1 hp
    obtain ⟨m', e1, e2, e3, e4⟩ := ih h2 (fun e he => hv e (List.mem_cons_of_mem _ he)) hp'.2
      fun x hx e he => by
        have a := hs x hx
        have b : r.stop ≤ e.1.start := hp'.1 e he
        grind
    refine ⟨m', ?_, ?_, ?_, ?_⟩
    · simp only [extend, h1, e1]
    all_goals
      simp only [extendCost, h1, Cost.add_searches, Cost.add_puts, Cost.add_deletes,
        List.length_cons]
      omega

/-- **C99** Extending a map by ranges that come in ascending order, do not overlap each other and
    lie
behind everything stored takes exactly two searches and one stored entry for each, and one
    deletion for
each of them that is merged with the one before it. -/
theorem C99_extend {m : RangeMap K V} (hm : Reachable m) {items : List (Range K × V)}
    (hv : ∀ e ∈ items, valid e.1 = true) (hp : items.Pairwise fun a b => a.1.stop ≤ b.1.start)
    (hl : ∀ x ∈ m.iter, ∀ e ∈ items, x.1.stop ≤ e.1.start) :
    ∃ m', m.extend items = (m', .ok ()) ∧
      (m.extendCost items).searches = 2 * items.length ∧
      (m.extendCost items).puts = items.length ∧
      (m.extendCost items).deletes + m'.len = m.len + items.length :=
  extend_end items hm.wf (fun e he => by simpa [valid] using hv e he) hp hl

example := C99_extend (K := Nat) (V := Char) (m := Demo.map) Demo.map_reachable
  (items := [(⟨50, 55⟩, 'a'), (⟨55, 60⟩, 'a'), (⟨60, 61⟩, 'b')]) (by decide) (by simp) (by decide)

/-- Two touching items with equal values are merged. -/
example : Demo.map.extendCost [(⟨50, 55⟩, 'a'), (⟨55, 60⟩, 'a'), (⟨60, 61⟩, 'b')] = ⟨6, 3, 1⟩ := by
  rfl

/-- **C99** Collecting what a map's iterator yields
    (as cloning through `iter` or deserialising does)
takes exactly two searches and one stored entry for every range, deletes nothing, and gives the same
map. -/
theorem C99_rebuild {m : RangeMap K V} (hm : Reachable m) :
    (RangeMap.new : RangeMap K V).extend m.iter = (m, .ok ()) ∧
      (RangeMap.new : RangeMap K V).extendCost m.iter = ⟨2 * m.len, m.len, 0⟩ := by
  obtain ⟨m', h1, h2, h3, h4⟩ := extend_end m.btm (m := (RangeMap.new : RangeMap K V)) WF.nil
    hm.wf.sep.ne (hm.wf.sep.pw.imp fun h => h.2) (by simp [RangeMap.new])
  have h5 := extend_rest m.btm [] (by simpa using hm.wf)
  rw [List.nil_append] at h5
  have h6 : (RangeMap.new : RangeMap K V) = ⟨[]⟩ := rfl
  rw [h6, h5] at h1
  cases h1
  refine ⟨h5, Cost.ext h2 h3 ?_⟩
  have h7 : (RangeMap.new.extendCost m.btm).deletes + m.btm.length = 0 + m.btm.length := h4
  show (RangeMap.new.extendCost m.btm).deletes = 0
  omega

example := C99_rebuild (K := Nat) (V := Char) (m := Demo.map) Demo.map_reachable

end

/-! ## Sets -/

section
open RangeSet

theorem extendCost_rm (items : List (Range K)) : ∀ s : RangeSet K,
    s.extendCost items = s.rm.extendCost (items.map fun r => (r, ())) := by
  induction items with
  | nil => intro s; rfl
  | cons r t ih =>
    intro s
    rw [extendCost, List.map_cons, RangeMap.extendCost, insert_rm]
    unfold insertCost
    congr 1
    cases s.rm.insert r () with
    | ok m => exact ih ⟨m⟩
    | error p => rfl

/-- **C99** `insert` and `remove` of a set cost what they cost in a map (C59): they depend on the
stored ranges touching resp. overlapping the given one only. -/
theorem C99_set_insert_remove {s : RangeSet K} (hs : Reachable s) (r : Range K) :
    (s.insertCost r).searches ≤ howMany (Touch r) s.rm.iter + 2 ∧ (s.insertCost r).puts ≤ 3 ∧
    (s.insertCost r).deletes ≤ howMany (Touch r) s.rm.iter ∧
    (s.removeCost r).searches ≤ howMany (Common covers r) s.rm.iter + 2 ∧
    (s.removeCost r).puts ≤ 2 ∧
    (s.removeCost r).deletes ≤ howMany (Common covers r) s.rm.iter := by
  have hm : RangeMap.Reachable s.rm := hs.wf.reachable
  obtain ⟨h1, h2, h3⟩ := C59_insert_cost hm r ()
  obtain ⟨h4, h5, h6⟩ := C59_remove_cost hm r
  exact ⟨h1, h2, h3, h4, h5, h6⟩

example := C99_set_insert_remove (K := Nat) (s := Demo.set) Demo.set_reachable ⟨2, 22⟩

/-- collecting ranges that come in order -/
theorem fromIter_end {items : List (Range K)} (hv : ∀ r ∈ items, r.start < r.stop)
    (hp : items.Pairwise fun a b => a.stop ≤ b.start) :
    ∃ s, fromIter items = .ok s ∧ (fromIterCost items).searches = 2 * items.length ∧
      (fromIterCost items).puts = items.length ∧
      (fromIterCost items).deletes + s.len = items.length := by
  obtain ⟨m', h1, h2, h3, h4⟩ := extend_end (items.map fun r => (r, ()))
    (m := (RangeMap.new : RangeMap K Unit)) RangeMap.WF.nil
    (by
      intro e he
      obtain ⟨r, hr, rfl⟩ := List.mem_map.1 he
      exact hv r hr) (List.pairwise_map.2 hp) (by simp [RangeMap.new])
  rw [List.length_map] at h2 h3 h4
  have h5 : fromIterCost items = RangeMap.new.extendCost (items.map fun r => (r, ())) :=
    extendCost_rm items _
  refine ⟨⟨m'⟩, ?_, by rw [h5]; exact h2, by rw [h5]; exact h3, ?_⟩
  · unfold fromIter
    rw [extend_rm]
    have h6 : (new : RangeSet K).rm.extend (items.map fun r => (r, ())) = (m', .ok ()) := h1
    rw [h6]
    rfl
  · rw [h5]
    have : (RangeMap.new : RangeMap K Unit).len = 0 := rfl
    show _ + m'.len = _
    omega

/-- **C99** `a | b`: two searches and one stored entry for every range that `union` yields, which
    are
as many as `a` and `b` have less one for every pair sharing a key; and one deletion for every pair
    of a
range of `a` and a range of `b` that touch without sharing a key. -/
theorem C99_bitor {a b : RangeSet K} (ha : Reachable a) (hb : Reachable b) :
    ∃ c, a.bitOrCost b = .ok c ∧ c.searches = 2 * c.puts ∧
      c.puts + pairs shares a.iter b.iter = a.len + b.len ∧
      c.deletes + pairs shares a.iter b.iter = pairs nears a.iter b.iter := by
  obtain ⟨l, l1, l2, l3, l4, -⟩ := union_spec ha.wf hb.wf
  obtain ⟨u, u1, u2⟩ := C98_union ha hb
  obtain rfl := Yields.unique l1 u1
  obtain ⟨t, t1, t2⟩ := C98_bitor ha hb
  obtain ⟨s, s1, s2, s3, s4⟩ := fromIter_end l3 l4
  have hd := Yields.drain l1 (show _ ≤ a.len + b.len + 1 by omega)
  rw [bitOr, hd] at t1
  obtain rfl := Except.ok.inj (s1.symm.trans t1)
  refine ⟨fromIterCost l, by rw [bitOrCost, hd]; rfl, by omega, by omega, by omega⟩

example := C99_bitor (K := Nat) (a := Demo.set) (b := Demo.set') Demo.set_reachable
  Demo.set'_reachable

/-- **C99** `a & b`: two searches and one stored entry for every range of the result; nothing is
    ever
deleted. -/
theorem C99_bitand {a b : RangeSet K} (ha : Reachable a) (hb : Reachable b) :
    a.bitAndCost b = .ok ⟨2 * pairs shares a.iter b.iter, pairs shares a.iter b.iter, 0⟩ := by
  obtain ⟨l, l1, l2, l3, l4, -⟩ := intersection_spec ha.wf hb.wf
  obtain ⟨u, u1, u2⟩ := C98_intersection ha hb
  obtain rfl := Yields.unique l1 u1
  obtain ⟨s, s1, s2, s3, s4⟩ := fromIter_end l3 (l4.imp fun h => by grind)
  obtain ⟨s', e1, -, e2⟩ := fromIter_exact l3 l4
  obtain rfl := Except.ok.inj (s1.symm.trans e1)
  have hd := Yields.drain l1 (show _ ≤ a.len + b.len + 1 by omega)
  have hlen := set_len s
  rw [e2] at hlen
  rw [bitAndCost, hd, ← u2]
  refine congrArg Except.ok (Cost.ext s2 s3 ?_)
  show (fromIterCost l).deletes = 0
  omega

example := C99_bitand (K := Nat) (a := Demo.set) (b := Demo.set') Demo.set_reachable
  Demo.set'_reachable

/-- comparisons of keys made by collecting into a set -/
theorem fromIterCmps_le {shapes : Tree.Shapes (Range K × Unit)}
    (hs : ∀ i t, (shapes.reshape i t).IsBTree) (items : List (Range K)) {h : Nat}
    (hl : 2 * items.length + 2 < 2 * 6 ^ h) :
    fromIterCmps shapes items ≤ (242 * h + 94) * items.length := by
  have hnew : RangeMap.Reachable (RangeMap.new : RangeMap K Unit) := RangeMap.WF.nil.reachable
  obtain ⟨c, h1, h2, -⟩ := C88_history [.extend (items.map fun r => (r, ()))] hnew ⟨0, 0, 0⟩
  have h3 := C87_history [(shapes, .extend (items.map fun r => (r, ())))]
    (by simpa using hs) hnew (t := .nil) rfl (.inl rfl) (h := h)
    (by simpa [Op.count, RangeMap.new, RangeMap.len] using hl)
  have h4 : fromIterCalls items = (⟨0, 0, 0⟩ : Calls) + c := congrArg Prod.snd h1
  have h5 : (fromIterCalls items).cmps = c.cmps := by
    rw [h4]
    exact Nat.zero_add _
  have hn : (RangeMap.new : RangeMap K Unit).len = 0 := rfl
  have h3 : (RangeMap.extendCmps shapes .nil (items.map fun r => (r, ()))).1 + 0 ≤ _ := h3
  simp only [List.map_cons, List.map_nil, Op.count, List.length_map, List.sum_cons, List.sum_nil,
    Nat.add_zero, hn, Nat.mul_zero] at h2 h3
  have h6 : (242 * h + 94) * items.length =
      72 * items.length + (22 * h + 2) * (11 * items.length) := by
    rw [← Nat.mul_assoc, ← Nat.add_mul]
    congr 1
    omega
  unfold fromIterCmps
  omega

/-- **C99** All comparisons of keys made by `a | b` — by `union`, by the insertions, and inside the
B-tree of the result: `O(n log n)`, `n` being the number of ranges in `a` and `b`. -/
theorem C99_bitor_comparisons {a b : RangeSet K} (ha : Reachable a) (hb : Reachable b)
    {shapes : Tree.Shapes (Range K × Unit)} (hs : ∀ i t, (shapes.reshape i t).IsBTree) {h : Nat}
    (hl : a.len + b.len + 1 < 6 ^ h) :
    ∃ n, a.bitOrCmps shapes b = .ok n ∧ n ≤ (242 * h + 101) * (a.len + b.len) := by
  obtain ⟨l, l1, l2, -⟩ := union_spec ha.wf hb.wf
  have hd := Yields.drain l1 (show _ ≤ a.len + b.len + 1 by omega)
  have h1 := (C74_union a b (l.length + 1)).2.1
  have h2 := fromIterCmps_le hs l (h := h) (by omega)
  refine ⟨_, by rw [bitOrCmps, hd]; rfl, ?_⟩
  have h3 := Nat.mul_le_mul_left (242 * h + 94) l2
  have h4 : (242 * h + 101) * (a.len + b.len) =
      (242 * h + 94) * (a.len + b.len) + 7 * (a.len + b.len) := by
    rw [← Nat.add_mul]
  simp only at h1
  omega

/-- Two sets of at most a hundred ranges each: at most some two hundred thousand comparisons. -/
example {a b : RangeSet Nat} (ha : Reachable a) (hb : Reachable b) (h : a.len ≤ 100)
    (h' : b.len ≤ 100) : ∃ (shapes : Tree.Shapes (Range Nat × Unit)) (n : Nat),
    a.bitOrCmps shapes b = .ok n ∧ n ≤ 213800 := by
  obtain ⟨shapes, hs⟩ := (C87_layouts_exist (E := Range Nat × Unit)).2
  obtain ⟨n, h1, h2⟩ := C99_bitor_comparisons ha hb hs (h := 4) (by omega)
  exact ⟨shapes, n, h1, by omega⟩

/-- **C99** All comparisons of keys made by `a & b`, likewise. -/
theorem C99_bitand_comparisons {a b : RangeSet K} (ha : Reachable a) (hb : Reachable b)
    {shapes : Tree.Shapes (Range K × Unit)} (hs : ∀ i t, (shapes.reshape i t).IsBTree) {h : Nat}
    (hl : a.len + b.len + 1 < 6 ^ h) :
    ∃ n, a.bitAndCmps shapes b = .ok n ∧ n ≤ (242 * h + 98) * (a.len + b.len) := by
  obtain ⟨l, l1, l2, -⟩ := intersection_spec ha.wf hb.wf
  have hd := Yields.drain l1 (show _ ≤ a.len + b.len + 1 by omega)
  have h1 := (C74_intersection a b (l.length + 1)).2.1
  have h2 := fromIterCmps_le hs l (h := h) (by omega)
  refine ⟨_, by rw [bitAndCmps, hd]; rfl, ?_⟩
  have h3 := Nat.mul_le_mul_left (242 * h + 94) l2
  have h4 : (242 * h + 98) * (a.len + b.len) =
      (242 * h + 94) * (a.len + b.len) + 4 * (a.len + b.len) := by
    rw [← Nat.add_mul]
  simp only at h1
  omega

example : ∃ (shapes : Tree.Shapes (Range Nat × Unit)) (n : Nat),
    Demo.set.bitAndCmps shapes Demo.set' = .ok n ∧ n ≤ 4074 := by
  obtain ⟨shapes, hs⟩ := (C87_layouts_exist (E := Range Nat × Unit)).2
  obtain ⟨n, h1, h2⟩ := C99_bitand_comparisons Demo.set_reachable Demo.set'_reachable hs (h := 2)
    (by decide)
  exact ⟨shapes, n, h1, h2⟩

end
end Verif.Props

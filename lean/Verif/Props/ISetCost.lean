import Verif.Model.SetCost
import Verif.Proof.EndCost
import Verif.Props.ICounting
import Verif.Props.SetCost
import Verif.Props.Cost
import Verif.Props.Calls
import Verif.Props.TreeCmp
import Verif.Props.OpsWork

/-!
# C99, inclusive: what collecting ranges that come in order costs, and `|` and `&`
-/
set_option linter.unusedSectionVars false

namespace Verif.Props.Inclusive
open Spec
variable {K : Type} [LE K] [LT K] [DecidableLE K] [DecidableLT K]
  [Std.IsLinearPreorder K] [Std.LawfulOrderLT K] {S : StepFns K}

/-! ## Maps -/

section
open RangeInclusiveMap
variable {V : Type} [BEq V] [PartialEquivBEq V]

/-- after inserting behind all stored ranges, no stored range ends behind the inserted one -/
theorem insert_end_stops (hS : LawfulSteps S) {m m' : RangeInclusiveMap K V} (h : SC m.btm)
    {r : RangeInclusive K}
    {v : V}
    (hr : r.start ≤ r.stop) (hl : ∀ x ∈ m.btm, x.1.stop < r.start) (hi : m.insert S r v = .ok m') :
    ∀ x ∈ m'.btm, x.1.stop ≤ r.stop := by
  intro x hx
  obtain ⟨m'', h1, h2, -, -, n, h3, h4, h5, h6, h7⟩ := insert_spec hS h v hr
  have h1 : m.insert S r v = .ok m'' := h1 _ (by omega)
  rw [hi] at h1
  cases h1
  apply Decidable.byContradiction
  intro hc
  have hxn := h2.sep.ne x hx
  -- a key of `x` that is behind `r`
  have hk : ∃ k, x.1.start ≤ k ∧ k ≤ x.1.stop ∧ r.stop < k := by
    exact ⟨x.1.stop, hxn, by grind, by grind⟩
  obtain ⟨k, k1, k2, k3⟩ := hk
  have hno : ∀ w, ¬ Maps m.btm k w := by
    rintro w ⟨e, he, e1, e2, -⟩
    have := hl e he
    grind
  by_cases hn : n.start ≤ k ∧ k ≤ n.stop
  · obtain ⟨w, hw, -⟩ := h5 k hn.1 hn.2 (by grind)
    exact hno w hw
  · exact hno x.2 ((h7 k hn x.2).1 ⟨x, hx, k1, k2, rfl⟩)

theorem extend_end (hS : LawfulSteps S) (items : List (RangeInclusive K × V)) : ∀
    {m : RangeInclusiveMap K V}, SC m.btm →
    (∀ e ∈ items, e.1.start ≤ e.1.stop) → (items.Pairwise fun a b => a.1.stop < b.1.start) →
    (∀ x ∈ m.btm, ∀ e ∈ items, x.1.stop < e.1.start) →
    ∃ m', m.extend S items = (m', .ok ()) ∧
      (m.extendCost S items).searches = 2 * items.length ∧
      (m.extendCost S items).puts = items.length ∧
      (m.extendCost S items).deletes + m'.len = m.len + items.length := by
  induction items with
  | nil =>
    intro m _ _ _ _
    refine ⟨m, rfl, rfl, rfl, ?_⟩
    show 0 + m.len = m.len + 0
    omega
  | cons e t ih =>
    intro m hm hv hp hl
    obtain ⟨r, v⟩ := e
    have hr : r.start ≤ r.stop := hv _ List.mem_cons_self
    have hlr : ∀ x ∈ m.btm, x.1.stop < r.start := fun x hx => hl x hx _ List.mem_cons_self
    obtain ⟨m1, h1, h2⟩ := insert_ok hS hm v hr
    obtain ⟨c1, c2⟩ := insert_end hS v hm hr hlr
    have c3 := (insert_count hS hm v hr (fun _ => true) fun _ _ _ => rfl).2.2.2.2 m1 h1
    have hs := insert_end_stops hS hm hr hlr h1
    have hp' := List.pairwise_cons.1 hp
    obtain ⟨m', e1, e2, e3, e4⟩ := ih h2.1 (fun e he => hv e (List.mem_cons_of_mem _ he)) hp'.2
      fun x hx e he => by
        have a := hs x hx
        have b : r.stop < e.1.start := hp'.1 e he
        grind
    refine ⟨m', ?_, ?_, ?_, ?_⟩
    · simp only [extend, h1, e1]
    all_goals
      simp only [extendCost, h1, Cost.add_searches, Cost.add_puts, Cost.add_deletes,
        List.length_cons]
      omega

/-- **C99** Extending a map by ranges that come in ascending order, do not overlap each other and
    lie
behind everything stored takes exactly two searches and one stored entry for each, and one
    deletion for
each of them that is merged with the one before it. -/
theorem C99_extend (hS : LawfulSteps S) {m : RangeInclusiveMap K V} (hm : ReachableAny S m)
    {items : List (RangeInclusive K × V)}
    (hv : ∀ e ∈ items, ivalid e.1 = true) (hp : items.Pairwise fun a b => a.1.stop < b.1.start)
    (hl : ∀ x ∈ m.iter, ∀ e ∈ items, x.1.stop < e.1.start) :
    ∃ m', m.extend S items = (m', .ok ()) ∧
      (m.extendCost S items).searches = 2 * items.length ∧
      (m.extendCost S items).puts = items.length ∧
      (m.extendCost S items).deletes + m'.len = m.len + items.length :=
  extend_end hS items (hm.sc hS) (fun e he => by simpa [ivalid] using hv e he) hp hl

example := C99_extend (S := Demo.u8) (V := Char) Demo.u8_lawful (m := Demo.imap')
    Demo.imap'_reachable.any
  (items := [(Demo.by8 51 55, 'a'), (Demo.by8 56 60, 'a'), (Demo.by8 61 61, 'b')]) (by decide)
  (by simp [Demo.by8, RangeInclusive.mk']; decide) (by decide)

/-- Two adjacent items with equal values are merged. -/
example : Demo.imap'.extendCost Demo.u8
    [(Demo.by8 51 55, 'a'), (Demo.by8 56 60, 'a'), (Demo.by8 61 61, 'b')] = ⟨6, 3, 1⟩ := by
  decide +kernel

/-- **C99** Collecting what a map's iterator yields takes exactly two searches and one stored entry
for every range, deletes nothing, and gives the same map. -/
theorem C99_rebuild (hS : LawfulSteps S) {m : RangeInclusiveMap K V} (hm : ReachableAny S m) :
    (RangeInclusiveMap.new : RangeInclusiveMap K V).extend S m.iter = (m, .ok ()) ∧
      (RangeInclusiveMap.new : RangeInclusiveMap K V).extendCost S m.iter =
        ⟨2 * m.len, m.len, 0⟩ := by
  obtain ⟨m', h1, h2, h3, h4⟩ := extend_end hS m.btm
    (m := (RangeInclusiveMap.new : RangeInclusiveMap K V)) WF.nil.sc
    (hm.sc hS).sep.ne ((hm.sc hS).sep.pw.imp fun h => h.2) (by simp [RangeInclusiveMap.new])
  have h5 := extend_rest hS m.btm [] (by simpa using hm.sc hS)
  rw [List.nil_append] at h5
  have h6 : (RangeInclusiveMap.new : RangeInclusiveMap K V) = ⟨[]⟩ := rfl
  rw [h6, h5] at h1
  cases h1
  refine ⟨h5, Cost.ext h2 h3 ?_⟩
  have h7 : (RangeInclusiveMap.new.extendCost S m.btm).deletes + m.btm.length =
    0 + m.btm.length := h4
  show (RangeInclusiveMap.new.extendCost S m.btm).deletes = 0
  omega

example := C99_rebuild Demo.u8_lawful (m := Demo.imap) Demo.imap_reachable.any

end

/-! ## Sets -/

section
open RangeInclusiveSet

theorem extendCost_rm (items : List (RangeInclusive K)) : ∀ s : RangeInclusiveSet K,
    s.extendCost S items = s.rm.extendCost S (items.map fun r => (r, ())) := by
  induction items with
  | nil => intro s; rfl
  | cons r t ih =>
    intro s
    rw [extendCost, List.map_cons, RangeInclusiveMap.extendCost, insert_rm]
    unfold insertCost
    congr 1
    cases s.rm.insert S r () with
    | ok m => exact ih ⟨m⟩
    | error p => rfl

/-- **C99** `insert` and `remove` of a set cost what they cost in a map (C59): they depend on the
stored ranges touching resp. overlapping the given one only. -/
theorem C99_set_insert_remove (hS : LawfulSteps S) {s : RangeInclusiveSet K}
    (hs : ReachableAny S s) (r : RangeInclusive K) :
    (s.insertCost S r).searches ≤ howMany (ITouch r) s.rm.iter + 2 ∧ (s.insertCost S r).puts ≤ 3 ∧
    (s.insertCost S r).deletes ≤ howMany (ITouch r) s.rm.iter ∧
    (s.removeCost S r).searches ≤ howMany (Common icovers r) s.rm.iter + 2 ∧
    (s.removeCost S r).puts ≤ 2 ∧
    (s.removeCost S r).deletes ≤ howMany (Common icovers r) s.rm.iter := by
  have hm : RangeInclusiveMap.ReachableAny S s.rm := hs.map
  obtain ⟨h1, h2, h3⟩ := C59_insert_cost hS hm r ()
  obtain ⟨h4, h5, h6⟩ := C59_remove_cost hS hm r
  exact ⟨h1, h2, h3, h4, h5, h6⟩

example := C99_set_insert_remove Demo.u8_lawful (s := Demo.iset) Demo.iset_reachable.any
  (Demo.by8 2 22)

/-- collecting ranges that come in order -/
theorem fromIter_end (hS : LawfulSteps S) {items : List (RangeInclusive K)}
    (hv : ∀ r ∈ items, r.start ≤ r.stop)
    (hp : items.Pairwise fun a b => a.stop < b.start) :
    ∃ s, fromIter S items = .ok s ∧ (fromIterCost S items).searches = 2 * items.length ∧
      (fromIterCost S items).puts = items.length ∧
      (fromIterCost S items).deletes + s.len = items.length := by
  obtain ⟨m', h1, h2, h3, h4⟩ := extend_end hS (items.map fun r => (r, ()))
    (m := (RangeInclusiveMap.new : RangeInclusiveMap K Unit)) RangeInclusiveMap.WF.nil.sc
    (by
      intro e he
      obtain ⟨r, hr, rfl⟩ := List.mem_map.1 he
      exact hv r hr) (List.pairwise_map.2 hp) (by simp [RangeInclusiveMap.new])
  rw [List.length_map] at h2 h3 h4
  have h5 : fromIterCost S items = RangeInclusiveMap.new.extendCost S (items.map fun r => (r, ()))
    :=
    extendCost_rm items _
  refine ⟨⟨m'⟩, ?_, by rw [h5]; exact h2, by rw [h5]; exact h3, ?_⟩
  · unfold fromIter
    rw [extend_rm]
    have h6 : (new : RangeInclusiveSet K).rm.extend S (items.map fun r => (r, ())) = (m', .ok ())
      := h1
    rw [h6]
    rfl
  · rw [h5]
    have : (RangeInclusiveMap.new : RangeInclusiveMap K Unit).len = 0 := rfl
    show _ + m'.len = _
    omega

/-- **C99** `a | b`: two searches and one stored entry for every range that `union` yields, which
    are
as many as `a` and `b` have less one for every pair sharing a key; and one deletion for every pair
    of a
range of `a` and a range of `b` that touch without sharing a key. -/
theorem C99_bitor (hS : LawfulSteps S) {a b : RangeInclusiveSet K} (ha : Reachable S a)
    (hb : Reachable S b) :
    ∃ c, a.bitOrCost S b = .ok c ∧ c.searches = 2 * c.puts ∧
      c.puts + pairs ishares a.iter b.iter = a.len + b.len ∧
      c.deletes + pairs ishares a.iter b.iter = pairs (inears S) a.iter b.iter := by
  obtain ⟨l, l1, l2, l3, l4, -⟩ := union_spec (ha.wf hS) (hb.wf hS)
  obtain ⟨u, u1, u2⟩ := C98_union hS ha hb
  obtain rfl := Yields.unique l1 u1
  obtain ⟨t, t1, t2⟩ := C98_bitor hS ha hb
  obtain ⟨s, s1, s2, s3, s4⟩ := fromIter_end hS (fun r hr => (l3 r hr).1) l4
  have hd := Yields.drain l1 (show _ ≤ a.len + b.len + 1 by omega)
  rw [bitOr, hd] at t1
  obtain rfl := Except.ok.inj (s1.symm.trans t1)
  refine ⟨fromIterCost S l, by rw [bitOrCost, hd]; rfl, by omega, by omega, by omega⟩

example := C99_bitor Demo.u8_lawful Demo.iset_reachable Demo.iset'_reachable

/-- **C99** `a & b`: two searches and one stored entry for every range of the result; nothing is
    ever
deleted. -/
theorem C99_bitand (hS : LawfulSteps S) {a b : RangeInclusiveSet K} (ha : Reachable S a)
    (hb : Reachable S b) :
    a.bitAndCost S b = .ok ⟨2 * pairs ishares a.iter b.iter, pairs ishares a.iter b.iter, 0⟩ := by
  obtain ⟨l, l1, l2, l3, l4, -⟩ := intersection_spec (ha.wf hS) (hb.wf hS)
  obtain ⟨u, u1, u2⟩ := C98_intersection hS ha hb
  obtain rfl := Yields.unique l1 u1
  obtain ⟨s, s1, s2, s3, s4⟩ := fromIter_end hS (fun r hr => (l3 r hr).1) (l4.imp fun h => h.1)
  obtain ⟨s', e1, -, e2⟩ := fromIter_exact hS l3 l4
  obtain rfl := Except.ok.inj (s1.symm.trans e1)
  have hd := Yields.drain l1 (show _ ≤ a.len + b.len + 1 by omega)
  have hlen := set_len s
  rw [e2] at hlen
  rw [bitAndCost, hd, ← u2]
  refine congrArg Except.ok (Cost.ext s2 s3 ?_)
  show (fromIterCost S l).deletes = 0
  omega

example := C99_bitand Demo.u8_lawful Demo.iset_reachable Demo.iset'_reachable

/-- comparisons of keys and calls of step functions made by collecting into a set -/
theorem fromIterCmps_le (hS : LawfulSteps S) {shapes : Tree.Shapes (RangeInclusive K × Unit)}
    (hs : ∀ i t, (shapes.reshape i t).IsBTree) (items : List (RangeInclusive K)) {h : Nat}
    (hl : 2 * items.length + 2 < 2 * 6 ^ h) :
    fromIterCmps S shapes items ≤ (242 * h + 116) * items.length ∧
      (fromIterCalls S items).steps ≤ 34 * items.length := by
  have hnew : RangeInclusiveMap.ReachableAny S (RangeInclusiveMap.new : RangeInclusiveMap K Unit) :=
    ⟨[], rfl⟩
  obtain ⟨c, h1, h2, -, h2'⟩ :=
    C88_history [.extend (items.map fun r => (r, ()))] hS hnew ⟨0, 0, 0⟩
  have h3 := C87_history [(shapes, .extend (items.map fun r => (r, ())))]
    (by simpa using hs) hS hnew (t := .nil) rfl (.inl rfl) (h := h)
    (by simpa [Op.count, RangeInclusiveMap.new, RangeInclusiveMap.len] using hl)
  have h4 : fromIterCalls S items = (⟨0, 0, 0⟩ : Calls) + c := congrArg Prod.snd h1
  have h5 : (fromIterCalls S items).cmps = c.cmps := by
    rw [h4]
    exact Nat.zero_add _
  have h5' : (fromIterCalls S items).steps = c.steps := by
    rw [h4]
    exact Nat.zero_add _
  have hn : (RangeInclusiveMap.new : RangeInclusiveMap K Unit).len = 0 := rfl
  have h3 : (RangeInclusiveMap.extendCmps S shapes .nil (items.map fun r => (r, ()))).1 + 0 ≤ _ :=
    h3
  simp only [List.map_cons, List.map_nil, Op.count, List.length_map, List.sum_cons, List.sum_nil,
    Nat.add_zero, hn, Nat.mul_zero] at h2 h2' h3
  have h6 : (242 * h + 116) * items.length =
      94 * items.length + (22 * h + 2) * (11 * items.length) := by
    rw [← Nat.mul_assoc, ← Nat.add_mul]
    congr 1
    omega
  refine ⟨?_, by omega⟩
  unfold fromIterCmps
  omega

/-- **C99** All comparisons of keys made by `a | b` — by `union`, by the insertions, and inside the
B-tree of the result — are `O(n log n)`, `n` being the number of ranges in `a` and `b`; the calls of
step functions are `O(n)`. -/
theorem C99_bitor_comparisons (hS : LawfulSteps S) {a b : RangeInclusiveSet K}
    (ha : Reachable S a) (hb : Reachable S b)
    {shapes : Tree.Shapes (RangeInclusive K × Unit)} (hs : ∀ i t, (shapes.reshape i t).IsBTree)
    {h : Nat} (hl : a.len + b.len + 1 < 6 ^ h) :
    ∃ n s, a.bitOrCmps S shapes b = .ok n ∧ n ≤ (242 * h + 123) * (a.len + b.len) ∧
      a.bitOrSteps S b = .ok s ∧ s ≤ 34 * (a.len + b.len) := by
  obtain ⟨l, l1, l2, -⟩ := union_spec (ha.wf hS) (hb.wf hS)
  have hd := Yields.drain l1 (show _ ≤ a.len + b.len + 1 by omega)
  have h1 := C74_union a b (l.length + 1)
  obtain ⟨h2, h2'⟩ := fromIterCmps_le hS hs l (h := h) (by omega)
  refine ⟨_, _, by rw [bitOrCmps, hd]; rfl, ?_, by rw [bitOrSteps, hd]; rfl, ?_⟩
  · have h3 := Nat.mul_le_mul_left (242 * h + 116) l2
    have h4 : (242 * h + 123) * (a.len + b.len) =
        (242 * h + 116) * (a.len + b.len) + 7 * (a.len + b.len) := by
      rw [← Nat.add_mul]
    have h5 := h1.2.1
    simp only at h5
    omega
  · have h5 := h1.2.2
    simp only at h5
    omega

/-- Two sets of at most a hundred ranges each. -/
example {a b : RangeInclusiveSet (UIntW 8)} (ha : Reachable Demo.u8 a) (hb : Reachable Demo.u8 b)
    (h : a.len ≤ 100) (h' : b.len ≤ 100) :
    ∃ (shapes : Tree.Shapes (RangeInclusive (UIntW 8) × Unit)) (n : Nat),
      a.bitOrCmps Demo.u8 shapes b = .ok n ∧ n ≤ 218200 := by
  obtain ⟨shapes, hs⟩ := (C87_layouts_exist (E := RangeInclusive (UIntW 8) × Unit)).2
  obtain ⟨n, _, h1, h2, _⟩ := C99_bitor_comparisons Demo.u8_lawful ha hb hs (h := 4) (by omega)
  exact ⟨shapes, n, h1, by omega⟩

/-- **C99** All comparisons of keys and calls of step functions made by `a & b`, likewise. -/
theorem C99_bitand_comparisons (hS : LawfulSteps S) {a b : RangeInclusiveSet K}
    (ha : Reachable S a) (hb : Reachable S b)
    {shapes : Tree.Shapes (RangeInclusive K × Unit)} (hs : ∀ i t, (shapes.reshape i t).IsBTree)
    {h : Nat} (hl : a.len + b.len + 1 < 6 ^ h) :
    ∃ n s, a.bitAndCmps S shapes b = .ok n ∧ n ≤ (242 * h + 120) * (a.len + b.len) ∧
      a.bitAndSteps S b = .ok s ∧ s ≤ 34 * (a.len + b.len) := by
  obtain ⟨l, l1, l2, -⟩ := intersection_spec (ha.wf hS) (hb.wf hS)
  have hd := Yields.drain l1 (show _ ≤ a.len + b.len + 1 by omega)
  have h1 := C74_intersection a b (l.length + 1)
  obtain ⟨h2, h2'⟩ := fromIterCmps_le hS hs l (h := h) (by omega)
  refine ⟨_, _, by rw [bitAndCmps, hd]; rfl, ?_, by rw [bitAndSteps, hd]; rfl, ?_⟩
  · have h3 := Nat.mul_le_mul_left (242 * h + 116) l2
    have h4 : (242 * h + 120) * (a.len + b.len) =
        (242 * h + 116) * (a.len + b.len) + 4 * (a.len + b.len) := by
      rw [← Nat.add_mul]
    have h5 := h1.2.1
    simp only at h5
    omega
  · have h5 := h1.2.2
    simp only at h5
    omega

example : ∃ (shapes : Tree.Shapes (RangeInclusive (UIntW 8) × Unit)) (n : Nat),
    Demo.iset.bitAndCmps Demo.u8 shapes Demo.iset' = .ok n ∧ n ≤ 4228 := by
  obtain ⟨shapes, hs⟩ := (C87_layouts_exist (E := RangeInclusive (UIntW 8) × Unit)).2
  obtain ⟨n, _, h1, h2, _⟩ := C99_bitand_comparisons Demo.u8_lawful Demo.iset_reachable
    Demo.iset'_reachable hs (h := 2) (by decide)
  exact ⟨shapes, n, h1, h2⟩

end
end Verif.Props.Inclusive

import Verif.Props.Mirror
import Verif.Props.OpsExact
import Verif.Props.ITransform

/-!
# C102: inclusive sets have no preferred direction

`union` and `intersection` walk through both sets from the front and decide by comparing starts
first and ends second.  Still, in the opposite order of the keys they yield the reflected ranges,
in the opposite order; and so do histories, `|`, `&`, `gaps` and the other queries of sets (for
maps see C69).
-/
set_option linter.unusedSectionVars false

namespace Verif.Spec.Rev
variable {K : Type}

/-- The set that holds the reflected ranges. -/
def set (s : RangeInclusiveSet K) : RangeInclusiveSet (Rev K) := ⟨map s.rm⟩

/-- The calls with every range seen in the opposite order. -/
def setOp : SetOp (RangeInclusive K) → SetOp (RangeInclusive (Rev K)) := SetOp.map range

end Verif.Spec.Rev

namespace Verif.Props.Inclusive
open Spec RangeInclusiveSet
variable {K : Type} [LE K] [LT K] [DecidableLE K] [DecidableLT K]
  [Std.IsLinearPreorder K] [Std.LawfulOrderLT K] {S : StepFns K}

theorem rev_set_iter (s : RangeInclusiveSet K) :
    (Rev.set s).iter = (s.iter.map Rev.range).reverse := by
  simp only [Rev.set, RangeInclusiveSet.iter, Rev.map, RangeInclusiveMap.iter, List.map_reverse,
    List.map_map]
  rfl

theorem rev_mem {l : List (RangeInclusive K)} {y : RangeInclusive (Rev K)} :
    y ∈ (l.map Rev.range).reverse ↔ ∃ x ∈ l, Rev.range x = y := by
  rw [List.mem_reverse, List.mem_map]

theorem rev_keys {l : List (RangeInclusive K)} {k : Rev K} :
    (∃ r ∈ (l.map Rev.range).reverse, r.start ≤ k ∧ k ≤ r.stop) ↔
      ∃ r ∈ l, r.start ≤ k.val ∧ k.val ≤ r.stop := by
  constructor
  · rintro ⟨r, hr, h1, h2⟩
    obtain ⟨x, hx, rfl⟩ := rev_mem.1 hr
    exact ⟨x, hx, h2, h1⟩
  · rintro ⟨x, hx, h1, h2⟩
    exact ⟨_, rev_mem.2 ⟨x, hx, rfl⟩, h2, h1⟩

theorem rev_separated {l : List (RangeInclusive K)}
    (h : ∀ r ∈ l, r.start ≤ r.stop ∧ r.exhausted = false)
    (hp : l.Pairwise fun a b => a.stop < b.start ∧ ¬ Next a.stop b.start) :
    (∀ r ∈ (l.map Rev.range).reverse, r.start ≤ r.stop ∧ r.exhausted = false) ∧
    (l.map Rev.range).reverse.Pairwise fun a b => a.stop < b.start ∧ ¬ Next a.stop b.start := by
  constructor
  · intro r hr
    obtain ⟨x, hx, rfl⟩ := rev_mem.1 hr
    exact h x hx
  · rw [List.pairwise_reverse, List.pairwise_map]
    exact hp.imp fun {a b} hab => ⟨hab.1, fun hn => hab.2 (Rev.next_iff.1 hn)⟩

theorem rev_antisymm (hk : ∀ a b : K, a ≤ b → b ≤ a → a = b) :
    ∀ a b : Rev K, a ≤ b → b ≤ a → a = b := fun _ _ h1 h2 => congrArg Rev.of (hk _ _ h2 h1)

/-- **C102** The reflected set is one that the operations of the opposite order can reach. -/
theorem C102_reachable (hS : LawfulSteps S) {s : RangeInclusiveSet K} (hs : Reachable S s) :
    Reachable (Rev.steps S) (Rev.set s) := by
  obtain ⟨h1, h2⟩ := (reachable_iff hS s).1 hs
  rw [reachable_iff (Rev.lawful hS), rev_set_iter]
  exact rev_separated h1 h2

example := Inclusive.C102_reachable (K := UIntW 8) (S := Demo.u8) Demo.u8_lawful
    (s := Demo.iset) Demo.iset_reachable

/-- **C102** The reflected calls give the reflected set, and the next call panics likewise. -/
theorem C102_history (hk : ∀ a b : K, a ≤ b → b ≤ a → a = b) (hS : LawfulSteps S)
    (ops : List (SetOp (RangeInclusive K)))
    (hx : ∀ op ∈ ops, ∀ r ∈ op.inserted, r.exhausted = false)
    (op : SetOp (RangeInclusive K)) (ho : ∀ r ∈ op.inserted, r.exhausted = false) :
    run (Rev.steps S) (ops.map Rev.setOp) = Rev.set (run S ops) ∧
    ((run (Rev.steps S) (ops.map Rev.setOp)).apply (Rev.steps S) (Rev.setOp op)).2
      = ((run S ops).apply S op).2 := by
  have hop : ∀ op : SetOp (RangeInclusive K), setOpToOp (Rev.setOp op) = Rev.op (setOpToOp op) := by
    intro op
    cases op with
    | extend items =>
      simp only [Rev.setOp, SetOp.map, setOpToOp, Rev.op, Op.map, List.map_map]
      rfl
    | _ => rfl
  have hins : ∀ op : SetOp (RangeInclusive K), (∀ r ∈ op.inserted, r.exhausted = false) →
      ∀ r ∈ (setOpToOp op).inserted, r.exhausted = false := by
    intro op h r hr
    cases op with
    | insert x => exact h r hr
    | remove x => cases hr
    | clear => cases hr
    | extend items =>
      simp only [setOpToOp, Op.inserted, List.map_map, List.mem_map] at hr
      obtain ⟨x, hx, rfl⟩ := hr
      exact h x hx
  have h1 : run (Rev.steps S) (ops.map Rev.setOp) = Rev.set (run S ops) := by
    have h := C69_run (V := Unit) hk hS (ops.map setOpToOp) fun o ho => by
      obtain ⟨o', ho', rfl⟩ := List.mem_map.1 ho
      exact hins o' (hx o' ho')
    have e : (ops.map setOpToOp).map Rev.op = (ops.map Rev.setOp).map setOpToOp := by
      rw [List.map_map, List.map_map]
      exact List.map_congr_left fun o _ => (hop o).symm
    rw [e, ← run_rm, ← run_rm] at h
    generalize run (Rev.steps S) (ops.map Rev.setOp) = t at h
    cases t with | mk m => cases m with | mk b =>
    exact congrArg (fun b => (⟨⟨b⟩⟩ : RangeInclusiveSet (Rev K))) h
  refine ⟨h1, ?_⟩
  have hs : Reachable S (run S ops) := ⟨ops, hx, rfl⟩
  rw [h1, apply_rm, apply_rm, hop, show (Rev.set (run S ops)).rm = Rev.map (run S ops).rm from rfl,
    C69_apply hk hS hs.map _ (hins op ho)]

example := Inclusive.C102_history (K := UIntW 8) (S := Demo.u8) Demo.u8_antisymm Demo.u8_lawful
    Demo.isops (by decide) (.insert (Demo.by8 2 22)) (by decide)

/-- **C102** `contains`, `first`, `last` and `overlaps`. -/
theorem C102_queries (hS : LawfulSteps S) {s : RangeInclusiveSet K} (hs : Reachable S s)
    (k : K) (q : RangeInclusive K) :
    (Rev.set s).contains ⟨k⟩ = s.contains k ∧
    (Rev.set s).first = s.last.map Rev.range ∧
    (Rev.set s).last = s.first.map Rev.range ∧
    (Rev.set s).overlaps (Rev.range q) = s.overlaps q := by
  refine ⟨?_, ?_, ?_, ?_⟩
  · rw [contains_eq ((C102_reachable hS hs).wf (Rev.lawful hS)), contains_eq (hs.wf hS)]
    congr 1
    rw [Bool.eq_iff_iff, has_iff, has_iff, rev_set_iter, rev_keys]
  · show (Rev.map s.rm).firstRangeValue.map (·.1) = _
    rw [(C69_first_last s.rm).1, last]
    cases s.rm.lastRangeValue <;> rfl
  · show (Rev.map s.rm).lastRangeValue.map (·.1) = _
    rw [(C69_first_last s.rm).2, first]
    cases s.rm.firstRangeValue <;> rfl
  · have key : ∀ {K : Type} [LE K] [LT K] [DecidableLE K] [DecidableLT K]
        (s : RangeInclusiveSet K) (q : RangeInclusive K), s.overlaps q = s.rm.overlaps q := by
      intro K _ _ _ _ s q
      simp only [overlaps, overlapping, RangeInclusiveMap.overlaps]
      cases s.rm.overlapping q with
      | error p => rfl
      | ok o =>
        simp only [bind, Except.bind, pure, Except.pure, Overlapping.next]
        cases o.next.1 <;> rfl
    rw [key, key]
    obtain ⟨b, h1, h2⟩ := C32_overlaps hS hs.any.map q
    obtain ⟨b', h1', h2'⟩ := C32_overlaps (Rev.lawful hS) (C102_reachable hS hs).any.map (Rev.range q)
    rw [h1, h1']
    congr 1
    rw [Bool.eq_iff_iff, h2, h2']
    constructor
    · rintro ⟨e, he, e1, e2⟩
      obtain ⟨x, rfl⟩ := Rev.entry_surj e
      exact ⟨x, Rev.mem_map.1 he, e2, e1⟩
    · rintro ⟨x, hx, e1, e2⟩
      exact ⟨_, Rev.mem_map.2 hx, e2, e1⟩

example := Inclusive.C102_queries (K := UIntW 8) (S := Demo.u8) Demo.u8_lawful
    (s := Demo.iset) Demo.iset_reachable ⟨7⟩ (Demo.by8 2 22)

/-- **C102** `gaps` yields the reflected ranges in the opposite order. -/
theorem C102_gaps (hk : ∀ a b : K, a ≤ b → b ≤ a → a = b) (hS : LawfulSteps S)
    {s : RangeInclusiveSet K} (hs : Reachable S s) (outer : RangeInclusive K) :
    ∃ g g' l, s.gaps outer = .ok g ∧ YieldsE (Gaps.next S) g l ∧
      (Rev.set s).gaps (Rev.range outer) = .ok g' ∧
      YieldsE (Gaps.next (Rev.steps S)) g' (l.map Rev.range).reverse := by
  obtain ⟨g, l, h1, h2, h3, h4, h5⟩ := C48_gaps hS hs outer
  obtain ⟨g', l', h1', h2', h3', h4', h5'⟩ :=
    C48_gaps (Rev.lawful hS) (C102_reachable hS hs) (Rev.range outer)
  refine ⟨g, g', l, h1, h2, h1', ?_⟩
  obtain ⟨m1, m2⟩ := rev_separated (fun r hr => ⟨(h3 r hr).1, (h3 r hr).2.1⟩) h4
  rw [separated_unique (Rev.lawful hS) (rev_antisymm hk) m1 m2
    (fun r hr => ⟨(h3' r hr).1, (h3' r hr).2.1⟩) h4' fun k => ?_]
  · exact h2'
  · rw [rev_keys, h5, h5', (C102_queries hS hs k.val outer).1]
    exact ⟨fun h => ⟨h.2.1, h.1, h.2.2⟩, fun h => ⟨h.2.1, h.1, h.2.2⟩⟩

example := Inclusive.C102_gaps (K := UIntW 8) (S := Demo.u8) Demo.u8_antisymm Demo.u8_lawful
    (s := Demo.iset) Demo.iset_reachable (Demo.by8 2 22)

/-- **C102** `intersection` yields the reflected ranges in the opposite order. -/
theorem C102_intersection (hk : ∀ a b : K, a ≤ b → b ≤ a → a = b) (hS : LawfulSteps S)
    {a b : RangeInclusiveSet K} (ha : Reachable S a) (hb : Reachable S b) :
    ∃ l, Yields Intersection.next (a.intersection b) l ∧
      Yields Intersection.next ((Rev.set a).intersection (Rev.set b))
        (l.map Rev.range).reverse := by
  obtain ⟨l, h2, h3, h4, h5⟩ := C38_intersection hS ha hb
  obtain ⟨l', h2', h3', h4', h5'⟩ :=
    C38_intersection (Rev.lawful hS) (C102_reachable hS ha) (C102_reachable hS hb)
  refine ⟨l, h2, ?_⟩
  obtain ⟨m1, m2⟩ := rev_separated h3 h4
  rw [separated_unique (Rev.lawful hS) (rev_antisymm hk) m1 m2 h3' h4' fun k => ?_]
  · exact h2'
  · rw [rev_keys, h5, h5', (C102_queries hS ha k.val (.mk' k.val k.val)).1,
      (C102_queries hS hb k.val (.mk' k.val k.val)).1]

example := Inclusive.C102_intersection (K := UIntW 8) (S := Demo.u8) Demo.u8_antisymm
    Demo.u8_lawful (a := Demo.iset) Demo.iset_reachable (b := Demo.iset') Demo.iset'_reachable

/-- **C102** `union` yields the reflected ranges in the opposite order: that ranges which are merely
adjacent stay apart does not depend on the direction either. -/
theorem C102_union (hk : ∀ a b : K, a ≤ b → b ≤ a → a = b) (hS : LawfulSteps S)
    {a b : RangeInclusiveSet K} (ha : Reachable S a) (hb : Reachable S b) :
    ∃ l, Yields Union.next (a.union b) l ∧
      Yields Union.next ((Rev.set a).union (Rev.set b)) (l.map Rev.range).reverse := by
  obtain ⟨l, h1, h2⟩ := C81_union_division hS ha hb
  obtain ⟨l', h1', h2'⟩ :=
    C81_union_division (Rev.lawful hS) (C102_reachable hS ha) (C102_reachable hS hb)
  obtain ⟨_, u1, u2, -, -⟩ := C37_union hS ha hb
  obtain rfl := Yields.unique h1 u1
  obtain ⟨_, u1', u2', -, -⟩ :=
    C37_union (Rev.lawful hS) (C102_reachable hS ha) (C102_reachable hS hb)
  obtain rfl := Yields.unique h1' u1'
  refine ⟨l, h1, ?_⟩
  have hm : ∀ {y}, y ∈ (Rev.set a).iter ++ (Rev.set b).iter ↔
      ∃ x ∈ a.iter ++ b.iter, Rev.range x = y := by
    intro y
    rw [rev_set_iter, rev_set_iter, List.mem_append, rev_mem, rev_mem]
    grind
  have hd : IDivision ((Rev.set a).iter ++ (Rev.set b).iter) (l.map Rev.range).reverse := by
    refine ⟨?_, ?_, ?_, ?_, ?_⟩
    · intro r hr
      obtain ⟨x, hx, rfl⟩ := rev_mem.1 hr
      exact h2.nonempty x hx
    · rw [List.pairwise_reverse, List.pairwise_map]
      exact h2.ordered.imp fun h => h
    · intro r hr k k1 k2
      obtain ⟨x, hx, rfl⟩ := rev_mem.1 hr
      obtain ⟨y, hy, y1, y2⟩ := h2.covered x hx k.val k2 k1
      exact ⟨_, hm.2 ⟨y, hy, rfl⟩, y2, y1⟩
    · intro x hx
      obtain ⟨y, hy, rfl⟩ := hm.1 hx
      obtain ⟨r, hr, r1, r2⟩ := h2.uncut y hy
      exact ⟨_, rev_mem.2 ⟨r, hr, rfl⟩, r2, r1⟩
    · -- to cut just after `p` is to cut just before its successor
      intro r hr p p1 p2
      obtain ⟨x, hx, rfl⟩ := rev_mem.1 hr
      have p1 : p.val < x.stop := p1
      have p2 : x.start ≤ p.val := p2
      obtain ⟨c, -, c1, c2⟩ := hS.addOne p.val x.stop p1
      obtain ⟨y, hy, y1, y2⟩ := h2.finest x hx c (by grind) (by have := c2 x.stop; grind)
      refine ⟨_, hm.2 ⟨y, hy, rfl⟩, ?_, ?_⟩
      · show p.val < y.stop
        grind
      · show y.start ≤ p.val
        have := c2 y.start
        grind
  obtain ⟨e1, e2⟩ := C81_division_unique hd h2'
  have : (l.map Rev.range).reverse = l' := by
    refine List.ext_getElem e1 fun i i1 i2 => ?_
    have hz : ((l.map Rev.range).reverse[i], l'[i]) ∈ (l.map Rev.range).reverse.zip l' := by
      rw [List.mem_iff_getElem]
      exact ⟨i, by rw [List.length_zip]; omega, List.getElem_zip⟩
    obtain ⟨z1, z2⟩ := e2 _ hz
    have f1 : ((l.map Rev.range).reverse[i]).exhausted = false := by
      obtain ⟨x, hx, h⟩ := rev_mem.1 (List.getElem_mem i1)
      rw [← h]
      exact (u2 x hx).2
    have f2 := (u2' _ (List.getElem_mem i2)).2
    rw [keq_iff] at z1 z2
    have z1 := rev_antisymm hk _ _ z1.1 z1.2
    have z2 := rev_antisymm hk _ _ z2.1 z2.2
    generalize (l.map Rev.range).reverse[i] = x at *
    generalize l'[i] = y at *
    cases x; cases y
    simp_all
  rw [this]
  exact h1'

example := Inclusive.C102_union (K := UIntW 8) (S := Demo.u8) Demo.u8_antisymm
    Demo.u8_lawful (a := Demo.iset) Demo.iset_reachable (b := Demo.iset') Demo.iset'_reachable

theorem rev_set_eq (hk : ∀ a b : K, a ≤ b → b ≤ a → a = b) (hS : LawfulSteps S)
    {c : RangeInclusiveSet K} {d : RangeInclusiveSet (Rev K)} (hc : Reachable S c)
    (hd : Reachable (Rev.steps S) d) (h : ∀ k, d.contains ⟨k⟩ = c.contains k) : d = Rev.set c := by
  have hc' := C102_reachable hS hc
  have he : d.eq (Rev.set c) = true := eq_has (Rev.lawful hS) hd hc' fun k => by
    have h1 := h k.val
    have h2 := (C102_queries hS hc k.val (.mk' k.val k.val)).1
    rw [contains_eq (hd.wf (Rev.lawful hS))] at h1
    rw [← h2, contains_eq (hc'.wf (Rev.lawful hS))] at h1
    exact Except.ok.inj h1
  have := iterEq_eq_of_lawful_inclusive (rev_antisymm hk) he
  cases d with | mk m => cases m with | mk b => exact congrArg (fun b => (⟨⟨b⟩⟩ : RangeInclusiveSet (Rev K))) this

/-- **C102** `|` and `&` of the reflected sets are the reflected results. -/
theorem C102_operators (hk : ∀ a b : K, a ≤ b → b ≤ a → a = b) (hS : LawfulSteps S)
    {a b : RangeInclusiveSet K} (ha : Reachable S a) (hb : Reachable S b) :
    (Rev.set a).bitOr (Rev.steps S) (Rev.set b) = (a.bitOr S b).map Rev.set ∧
    (Rev.set a).bitAnd (Rev.steps S) (Rev.set b) = (a.bitAnd S b).map Rev.set := by
  have q := fun k => (C102_queries hS ha k (.mk' k k)).1
  have q' := fun k => (C102_queries hS hb k (.mk' k k)).1
  constructor
  · obtain ⟨c, h1, h2, h3⟩ := C39_bitor hS ha hb
    obtain ⟨d, d1, d2, d3⟩ :=
      C39_bitor (Rev.lawful hS) (C102_reachable hS ha) (C102_reachable hS hb)
    rw [d1, h1, rev_set_eq hk hS h2 d2 fun k => ?_]
    · rfl
    · obtain ⟨x, y, x1, x2, x3⟩ := h3 k
      obtain ⟨x', y', y1, y2, y3⟩ := d3 ⟨k⟩
      rw [q, x1] at y1
      rw [q', x2] at y2
      cases y1; cases y2
      rw [x3, y3]
  · obtain ⟨c, h1, h2, -, h3⟩ := C39_bitand hS ha hb
    obtain ⟨d, d1, d2, -, d3⟩ :=
      C39_bitand (Rev.lawful hS) (C102_reachable hS ha) (C102_reachable hS hb)
    rw [d1, h1, rev_set_eq hk hS h2 d2 fun k => ?_]
    · rfl
    · obtain ⟨x, y, x1, x2, x3⟩ := h3 k
      obtain ⟨x', y', y1, y2, y3⟩ := d3 ⟨k⟩
      rw [q, x1] at y1
      rw [q', x2] at y2
      cases y1; cases y2
      rw [x3, y3]

example := Inclusive.C102_operators (K := UIntW 8) (S := Demo.u8) Demo.u8_antisymm
    Demo.u8_lawful (a := Demo.iset) Demo.iset_reachable (b := Demo.iset') Demo.iset'_reachable

end Verif.Props.Inclusive

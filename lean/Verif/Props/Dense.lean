import Verif.Props.Demo
import Verif.Proof.Dense
import Verif.Proof.IAppend
import Verif.Props.Correspond

/-!
# C43: the crate's dense reference map

`/repo/src/dense.rs` is what the crate's tests compare the range maps against; the theorems say
that it does tell right from wrong.  The key type is `u32` in the crate, `uw` for any `w` here.
-/
set_option linter.unusedSectionVars false

namespace Verif.Props
open Spec DenseMap
variable {w : Nat} {V : Type}

/-- `for (range, value) in items { dense.insert(range, value) }` on an empty dense map. -/
def denseRun (items : List (RangeInclusive (UIntW w) × V)) : DenseMap w V :=
  items.foldl (fun d e => d.insert e.1 e.2) .new

theorem denseRun_spec (items : List (RangeInclusive (UIntW w) × V))
    (hx : ∀ e ∈ items, e.1.exhausted = false) :
    Sorted (denseRun items).btm ∧ ∀ k v, (k, v) ∈ (denseRun items).btm ↔
      lastWrite icovers ivalid (items.map fun e => Op.insert e.1 e.2).reverse k = some v := by
  suffices ∀ l : List (RangeInclusive (UIntW w) × V), (∀ e ∈ l, e.1.exhausted = false) →
      Sorted (denseRun l.reverse).btm ∧ ∀ k v, (k, v) ∈ (denseRun l.reverse).btm ↔
        lastWrite icovers ivalid (l.map fun e => Op.insert e.1 e.2) k = some v by
    have := this items.reverse (fun e he => hx e (List.mem_reverse.1 he))
    rw [List.reverse_reverse, List.map_reverse] at this
    exact this
  intro l
  induction l with
  | nil => intro _; exact ⟨List.Pairwise.nil, by simp [denseRun, DenseMap.new, lastWrite]⟩
  | cons e t ih =>
    intro hl
    obtain ⟨i1, i2⟩ := ih fun e he => hl e (by simp [he])
    have he := hl e (by simp)
    have hr : denseRun (e :: t).reverse = (denseRun t.reverse).insert e.1 e.2 := by
      simp [denseRun, List.foldl_append]
    obtain ⟨j1, j2⟩ := insert_mem e.2 _ (denseRun t.reverse) e.1 rfl i1
    rw [hr]
    refine ⟨j1, fun k v => ?_⟩
    rw [j2]
    simp only [List.map_cons, lastWrite, icovers, ivalid, he, i2, true_and]
    by_cases hk : e.1.start ≤ k ∧ k ≤ e.1.stop
    · have h0 : e.1.start ≤ e.1.stop := by grind
      simp [hk, h0, eq_comm]
    · simp only [hk, decide_false, Bool.and_false, Bool.false_eq_true, if_false,
        not_false_eq_true, and_true]
      constructor
      · rintro (h | h)
        · exact absurd ⟨h.1, h.2.1⟩ hk
        · exact h
      · exact Or.inr

variable [BEq V]

/-- Each item an `insert` call of its own. -/
def insertOps {R : Type} (items : List (R × V)) : List (Op R V) :=
  items.map fun e => .insert e.1 e.2

theorem insertOps_fresh {items : List (RangeInclusive (UIntW w) × V)}
    (hx : ∀ e ∈ items, e.1.exhausted = false) :
    ∀ op ∈ insertOps items, ∀ r ∈ op.inserted, r.exhausted = false := by
  intro op hop r hr
  obtain ⟨e, he, rfl⟩ := List.mem_map.1 hop
  simp only [Op.inserted, List.mem_singleton] at hr
  subst hr
  exact hx e he

/-- **C43** Insert any sequence of (non-exhausted) ranges into a dense map and into a
`RangeInclusiveMap` (calls with `start > end` panic there and do nothing here): iterating the dense
map never overflows and yields entries that compare `==` to those of the `RangeInclusiveMap`. -/
theorem C43_inclusive [EquivBEq V] (debug : Bool)
    (items : List (RangeInclusive (UIntW w) × V)) (hx : ∀ e ∈ items, e.1.exhausted = false) :
    ∃ l, YieldsE (Iter.next debug) (denseRun items).iter l ∧
      iterEq RangeInclusiveMap.entryEq l
        (RangeInclusiveMap.run (UIntW.steps w debug) (insertOps items)).iter = true := by
  have hS := UIntW.lawful w debug
  have hx' := insertOps_fresh hx
  have hw : RangeInclusiveMap.WF
      (RangeInclusiveMap.run (UIntW.steps w debug) (insertOps items)).btm :=
    RangeInclusiveMap.Reachable.wf hS ⟨_, hx', rfl⟩
  obtain ⟨d1, d2⟩ := denseRun_spec items hx
  refine ⟨_, iter_yields _ d1, iterEq_of_contents d1 hw ?_ ?_⟩
  · intro k v hv
    rw [d2] at hv
    have := RangeInclusiveMap.run_look hS _ hx' k
    rw [insertOps, hv] at this
    cases hl : (RangeInclusiveMap.run (UIntW.steps w debug) (insertOps items)).look k with
    | none => rw [insertOps] at hl; simp [hl, Agree] at this
    | some v' =>
      refine ⟨v', (RangeInclusiveMap.look_eq_some hw k v').1 hl, ?_⟩
      rw [insertOps] at hl
      rw [hl] at this
      rcases this with rfl | h
      · exact BEq.rfl
      · exact BEq.symm h
  · intro k v hv
    rw [← RangeInclusiveMap.look_eq_some hw] at hv
    have := RangeInclusiveMap.run_look hS _ hx' k
    rw [hv] at this
    cases hl : lastWrite icovers ivalid (insertOps items).reverse k with
    | none => simp [hl, Agree] at this
    | some v' =>
      refine ⟨v', (d2 k v').2 hl, ?_⟩
      rw [hl] at this
      rcases this with rfl | h
      · exact BEq.rfl
      · exact h

example := C43_inclusive (w := 8) (V := Char) true Demo.iitems (by decide)

/-- **C43** When `==` on values is equality, it yields exactly those entries. -/
theorem C43_inclusive_exact [LawfulBEq V] (debug : Bool)
    (items : List (RangeInclusive (UIntW w) × V)) (hx : ∀ e ∈ items, e.1.exhausted = false) :
    YieldsE (Iter.next debug) (denseRun items).iter
      (RangeInclusiveMap.run (UIntW.steps w debug) (insertOps items)).iter := by
  obtain ⟨l, h1, h2⟩ := C43_inclusive debug items hx
  rw [← iterEq_eq_of_lawful_inclusive (fun _ _ => antisymm) h2]
  exact h1

theorem run_insertOps [PartialEquivBEq V] {S : StepFns (UIntW w)} (hS : LawfulSteps S)
    {m : RangeInclusiveMap (UIntW w) V} (h : RangeInclusiveMap.SC m.btm) :
    RangeInclusiveMap.run S (insertOps m.iter) = m := by
  suffices ∀ l' l : List (RangeInclusive (UIntW w) × V), RangeInclusiveMap.SC (l ++ l') →
      (insertOps l').foldl (fun m op => (RangeInclusiveMap.apply S m op).1) ⟨l⟩ = ⟨l ++ l'⟩ by
    exact this m.btm [] (by simpa using h)
  intro l'
  induction l' with
  | nil => intro l _; simp [insertOps]
  | cons e t ih =>
    intro l hl
    have hl' : RangeInclusiveMap.SC (l ++ [e] ++ t) := by simpa using hl
    have h1 := RangeInclusiveMap.insert_append hS (RangeInclusiveMap.SC.prefix hl')
    have h2 := ih (l ++ [e]) hl'
    simp only [insertOps, List.map_cons, List.foldl_cons, RangeInclusiveMap.apply, h1] at h2 ⊢
    simpa using h2

theorem run_insertOps_half [PartialEquivBEq V] {m : RangeMap (UIntW w) V}
    (h : RangeMap.WF m.btm) : RangeMap.run (insertOps m.iter) = m := by
  suffices ∀ l' l : List (Range (UIntW w) × V), RangeMap.WF (l ++ l') →
      (insertOps l').foldl (fun m op => (RangeMap.apply m op).1) ⟨l⟩ = ⟨l ++ l'⟩ by
    exact this m.btm [] (by simpa using h)
  intro l'
  induction l' with
  | nil => intro l _; simp [insertOps]
  | cons e t ih =>
    intro l hl
    have hl' : RangeMap.WF (l ++ [e] ++ t) := by simpa using hl
    have h1 := RangeMap.insert_append (RangeMap.WF.prefix hl')
    have h2 := ih (l ++ [e]) hl'
    simp only [insertOps, List.map_cons, List.foldl_cons, RangeMap.apply, h1] at h2 ⊢
    simpa using h2

/-- **C43** Converting a `RangeInclusiveMap` to a dense map and iterating gives its entries back. -/
theorem C43_from_inclusive [LawfulBEq V] (debug : Bool) {m : RangeInclusiveMap (UIntW w) V}
    (hm : RangeInclusiveMap.Reachable (UIntW.steps w debug) m) :
    YieldsE (Iter.next debug) (fromRangeInclusiveMap m).iter m.iter := by
  have hS := UIntW.lawful w debug
  have hw := hm.wf hS
  have := C43_inclusive_exact debug m.iter hw.fresh
  rw [run_insertOps hS hw.sc] at this
  exact this

example := C43_from_inclusive (w := 8) (V := Char) true (m := Demo.imap) Demo.imap_reachable

/-- Successor in the key type, where there is one. -/
def succW (a : UIntW w) : UIntW w := ⟨a.bits + 1⟩

theorem succW_next {a b : UIntW w} (h : a < b) : Next a (succW a) := (add_one (debug := false) h).2

theorem callsE_mapM {σ α β : Type} {next : σ → Except Panic (Option α × σ)}
    {next' : σ → Except Panic (Option β × σ)} {g : α → Except Panic β} {f : α → β}
    (hn : ∀ s s', next s = .ok (none, s') → next' s = .ok (none, s'))
    (hs : ∀ s s' a b, next s = .ok (some a, s') → g a = .ok b → next' s = .ok (some b, s')) :
    ∀ (n : Nat) (s : σ) (l : List (Option α)), callsE next n s = .ok l →
      (∀ a, some a ∈ l → g a = .ok (f a)) → callsE next' n s = .ok (l.map (Option.map f))
  | 0, s, l, h, _ => by
    simp only [callsE, Except.ok.injEq] at h
    subst h
    rfl
  | n + 1, s, l, h, hg => by
    simp only [callsE] at h ⊢
    cases h1 : next s with
    | error p => simp [h1] at h
    | ok x =>
      obtain ⟨o, s'⟩ := x
      simp only [h1] at h
      cases h2 : callsE next n s' with
      | error p => simp [h2, Except.map] at h
      | ok l' =>
        simp only [h2, Except.map, Except.ok.injEq] at h
        subst h
        have ih := callsE_mapM hn hs n s' l' h2 fun a ha => hg a (by simp [ha])
        cases o with
        | none => simp [hn s s' h1, ih, Except.map]
        | some a =>
          have := hs s s' a (f a) h1 (hg a (by simp))
          simp [this, ih, Except.map]

theorem yields_endExclusive {debug : Bool} {s : Iter w V}
    {l : List (RangeInclusive (UIntW w) × V)} (h : YieldsE (Iter.next debug) s l)
    (hl : ∀ e ∈ l, ∃ b, e.1.stop < b) :
    YieldsE (EndExclusiveIter.next debug) s (l.map fun e => (half succW e.1, e.2)) := by
  intro n
  have := callsE_mapM (next := Iter.next debug) (next' := EndExclusiveIter.next (V := V) debug)
    (g := fun e => (UIntW.add debug e.1.stop ⟨1⟩).map fun b => (⟨e.1.start, b⟩, e.2))
    (f := fun e => (half succW e.1, e.2))
    (by
      intro s s' h
      simp [EndExclusiveIter.next, h, bind, Except.bind, pure, Except.pure])
    (by
      intro s s' a b h hg
      cases ha : UIntW.add debug a.1.stop ⟨1⟩ with
      | error p => simp only [ha, Except.map, reduceCtorEq] at hg
      | ok c =>
        simp only [ha, Except.map, Except.ok.injEq] at hg
        subst hg
        simp only [EndExclusiveIter.next, h, ha, bind, Except.bind, pure, Except.pure])
    n s _ (h n) (by
      intro a ha
      have ha : a ∈ l := by
        have := (List.take_sublist _ _).subset ha
        simp only [List.mem_append, List.mem_map, Option.some.injEq, exists_eq_right,
          List.mem_replicate, reduceCtorEq, and_false, or_false] at this
        exact this
      obtain ⟨b, hb⟩ := hl a ha
      simp only [(add_one (debug := debug) hb).1, Except.map, half, succW])
  rw [this, List.map_take, List.map_append, List.map_map, List.map_replicate, List.map_map]
  rfl

/-- **C43** The same for a `RangeMap` and the end-exclusive iterator of the dense map, when no range
ends at the greatest key (`end + 1` overflows there). -/
theorem C43_half_open_exact [LawfulBEq V] (debug : Bool)
    (items : List (RangeInclusive (UIntW w) × V)) (hx : ∀ e ∈ items, e.1.exhausted = false)
    (hn : ∀ e ∈ items, ∃ b, e.1.stop < b) :
    YieldsE (EndExclusiveIter.next debug) (denseRun items).iter
      (RangeMap.run (insertOps (items.map fun e => (half succW e.1, e.2)))).iter := by
  have hS := UIntW.lawful w debug
  have hx' := insertOps_fresh hx
  have hn' : ∀ op ∈ insertOps items, ∀ r ∈ opRanges op, ∃ b, r.stop < b := by
    intro op hop r hr
    obtain ⟨e, he, rfl⟩ := List.mem_map.1 hop
    simp only [opRanges, List.mem_singleton] at hr
    subst hr
    exact hn e he
  have hsucc : ∀ a b : UIntW w, a < b → Next a (succW a) := fun a b => succW_next
  have h1 := C44_entries_equal hS hsucc (fun _ _ => antisymm) (insertOps items) hx' hn'
  have h2 : (insertOps items).map (halfOp succW) =
      insertOps (items.map fun e => (half succW e.1, e.2)) := by
    simp [insertOps, halfOp]
  rw [← h2, h1]
  refine yields_endExclusive (C43_inclusive_exact debug items hx) fun e he => ?_
  exact ⟨_, (half_stored hS hsucc _ hx' hn' e he).1⟩

example := C43_half_open_exact (w := 8) (V := Char) true Demo.iitems (by decide)
    (fun e he => ⟨⟨255⟩, by revert e; decide⟩)

theorem sub_one_of_lt {debug : Bool} {a b : UIntW w} (h : a < b) :
    ∃ c, UIntW.sub debug b ⟨1⟩ = .ok c ∧ a ≤ c ∧ c < b ∧ succW c = b := by
  rw [UIntW.lt_def] at h
  obtain ⟨c, h1, h2⟩ := UIntW.sub_one_ok debug b (by omega)
  have hc : c < b := by rw [UIntW.lt_def]; omega
  refine ⟨c, h1, by rw [UIntW.le_def]; omega, hc, ?_⟩
  have h3 := succW_next hc
  have h4 := h3.2 b hc
  refine antisymm h4 ?_
  have := h3.1
  rw [UIntW.lt_def] at this
  rw [UIntW.le_def]
  omega

/-- **C43** Converting a `RangeMap` to a dense map never overflows, and its end-exclusive iterator
gives the entries back. -/
theorem C43_from_half_open [LawfulBEq V] (debug : Bool) {m : RangeMap (UIntW w) V}
    (hm : RangeMap.Reachable m) :
    ∃ d, fromRangeMap debug m = .ok d ∧ YieldsE (EndExclusiveIter.next debug) d.iter m.iter := by
  have hne := hm.wf.sep.ne
  have hp : ∀ e : Range (UIntW w) × V, ∃ c, e.1.start < e.1.stop →
      UIntW.sub debug e.1.stop ⟨1⟩ = .ok c ∧ e.1.start ≤ c ∧ c < e.1.stop ∧
        succW c = e.1.stop := by
    intro e
    by_cases h : e.1.start < e.1.stop
    · obtain ⟨c, hc⟩ := sub_one_of_lt (debug := debug) h
      exact ⟨c, fun _ => hc⟩
    · exact ⟨e.1.start, fun h' => absurd h' h⟩
  obtain ⟨pred, hpred⟩ := Classical.axiomOfChoice hp
  let items : List (RangeInclusive (UIntW w) × V) :=
    m.iter.map fun e => (.mk' e.1.start (pred e), e.2)
  have hd : fromRangeMap debug m = .ok (denseRun items) := by
    unfold fromRangeMap denseRun
    simp only [items]
    suffices ∀ (l : List (Range (UIntW w) × V)) (d : DenseMap w V),
        (∀ e ∈ l, e.1.start < e.1.stop) →
        l.foldlM (fun d e => do
          let stop ← UIntW.sub debug e.1.stop ⟨1⟩
          pure (d.insert (.mk' e.1.start stop) e.2)) d =
        (.ok ((l.map fun e => (RangeInclusive.mk' e.1.start (pred e), e.2)).foldl
          (fun d e => d.insert e.1 e.2) d) : Except Panic (DenseMap w V)) by
      exact this _ _ hne
    intro l
    induction l with
    | nil => intro d _; rfl
    | cons e t ih =>
      intro d hl
      simp only [List.foldlM_cons, List.map_cons, List.foldl_cons]
      rw [(hpred e (hl e (by simp))).1]
      exact ih _ fun e he => hl e (by simp [he])
  refine ⟨_, hd, ?_⟩
  have h1 := C43_half_open_exact debug items
    (by intro e he; obtain ⟨x, _, rfl⟩ := List.mem_map.1 he; rfl)
    (by
      intro e he
      obtain ⟨x, hx, rfl⟩ := List.mem_map.1 he
      exact ⟨_, (hpred x (hne x hx)).2.2.1⟩)
  have h2 : (items.map fun e => (half succW e.1, e.2)) = m.iter := by
    simp only [items, List.map_map]
    refine (List.map_congr_left (g := id) fun e he => ?_).trans (List.map_id _)
    have := (hpred e (hne e he)).2.2.2
    simp only [Function.comp, half, RangeInclusive.mk'_start, RangeInclusive.mk'_stop, this, id]
  rw [h2, run_insertOps_half hm.wf] at h1
  exact h1

example := C43_from_half_open (w := 8) (V := Char) true
    (m := (RangeMap.run [.insert ⟨⟨2⟩, ⟨9⟩⟩ 'a', .insert ⟨⟨20⟩, ⟨22⟩⟩ 'b'])) ⟨_, rfl⟩

/-- **C43** The comparison the crate's tests make, `Dense::from(m) == Dense::from(m')`, holds exactly
when `m == m'`. -/
theorem C43_from_inclusive_eq [LawfulBEq V] (debug : Bool)
    {m m' : RangeInclusiveMap (UIntW w) V}
    (hm : RangeInclusiveMap.Reachable (UIntW.steps w debug) m)
    (hm' : RangeInclusiveMap.Reachable (UIntW.steps w debug) m') :
    (fromRangeInclusiveMap m).eq (fromRangeInclusiveMap m') = m.eq m' := by
  have hself : ∀ l : List (UIntW w × V),
      iterEq (fun a b : UIntW w × V => keq a.1 b.1 && a.2 == b.2) l l = true := by
    intro l
    induction l with
    | nil => rfl
    | cons e t ih =>
      have : keq e.1 e.1 = true := by simp [keq]
      simp [iterEq, ih, this]
  have hexact : ∀ l l' : List (UIntW w × V),
      iterEq (fun a b : UIntW w × V => keq a.1 b.1 && a.2 == b.2) l l' = true → l = l' := by
    intro l
    induction l with
    | nil => intro l' h; cases l' with
      | nil => rfl
      | cons e t => simp [iterEq] at h
    | cons e t ih => intro l' h; cases l' with
      | nil => simp [iterEq] at h
      | cons e' t' =>
        simp only [iterEq, Bool.and_eq_true, keq_iff, beq_iff_eq] at h
        rw [ih t' h.2]
        obtain ⟨⟨h1, h2⟩, _⟩ := h
        obtain ⟨a, b⟩ := e
        obtain ⟨a', b'⟩ := e'
        simp only at h1 h2
        rw [antisymm h1.1 h1.2, h2]
  have hiself : ∀ l : List (RangeInclusive (UIntW w) × V),
      iterEq RangeInclusiveMap.entryEq l l = true := by
    intro l
    induction l with
    | nil => rfl
    | cons e t ih =>
      have : ∀ k : UIntW w, keq k k = true := by simp [keq]
      simp [iterEq, ih, this, RangeInclusiveMap.entryEq]
  have h1 := C43_from_inclusive debug hm
  have h2 := C43_from_inclusive debug hm'
  apply Bool.eq_iff_iff.2
  constructor
  · intro h
    have := hexact _ _ h
    simp only [DenseMap.iter] at h1 h2
    rw [this] at h1
    have := Verif.YieldsE.unique h1 h2
    show iterEq _ _ _ = true
    rw [this]
    exact hiself _
  · intro h
    have : m.iter = m'.iter := iterEq_eq_of_lawful_inclusive (fun _ _ => antisymm) h
    unfold fromRangeInclusiveMap
    rw [this]
    exact hself _

-- u32, the crate's own key type
example : YieldsE (Iter.next true)
    (denseRun (w := 32) [(.mk' ⟨1⟩ ⟨9⟩, 'a'), (.mk' ⟨4⟩ ⟨0xffffffff⟩, 'b'),
      (.mk' ⟨7⟩ ⟨3⟩, 'z')]).iter
    (RangeInclusiveMap.run (UIntW.steps 32 true) (insertOps [(.mk' ⟨1⟩ ⟨9⟩, 'a'),
      (.mk' ⟨4⟩ ⟨0xffffffff⟩, 'b'), (.mk' ⟨7⟩ ⟨3⟩, 'z')])).iter :=
  C43_inclusive_exact true _ (by decide)
example : (RangeInclusiveMap.run (UIntW.steps 32 true) (insertOps [(.mk' ⟨1⟩ ⟨9⟩, 'a'),
    (.mk' ⟨4⟩ ⟨0xffffffff⟩, 'b'), (.mk' ⟨7⟩ ⟨3⟩, 'z')])).iter =
    [(.mk' ⟨1⟩ ⟨3⟩, 'a'), (.mk' ⟨4⟩ ⟨0xffffffff⟩, 'b')] := by decide +kernel
example : RangeInclusiveMap.Reachable (UIntW.steps 8 true) Demo.imap := Demo.imap_reachable

end Verif.Props

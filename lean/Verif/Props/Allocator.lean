import Verif.Props.Iter
import Verif.Props.IIter
import Verif.Props.Exact
import Verif.Props.Recipes
import Verif.Proof.Cost
import Verif.Proof.ICost
import Verif.Props.Demo

/-!
# C105: a first-fit allocator

A program users write with the API: blocks are allocated in the first gap that is long enough,

    let r = m.gaps(&outer).find_map(|g| {
        let end = fin(&g.start)?;
        (end <= g.end).then(|| g.start..end)
    })?;
    m.insert(r.clone(), id);

and released by `m.remove(r)`.  `fin a` is the end of a block of the wanted size that starts at `a`
(`checked_add`: there may be none).
-/
set_option linter.unusedSectionVars false

namespace Verif.Spec
variable {K V : Type} [LE K] [LT K] [DecidableLE K] [DecidableLT K]

/-- Blocks of a size: not empty, and a block that starts earlier ends earlier. -/
structure Blocks (fin : K → Option K) : Prop where
  pos : ∀ a b, fin a = some b → a < b
  mono : ∀ a a' b', a ≤ a' → fin a' = some b' → ∃ b, fin a = some b ∧ b ≤ b'

/-- The same for inclusive ranges: `fin a` is the last key of the block. -/
structure IBlocks (fin : K → Option K) : Prop where
  pos : ∀ a b, fin a = some b → a ≤ b
  mono : ∀ a a' b', a ≤ a' → fin a' = some b' → ∃ b, fin a = some b ∧ b ≤ b'

/-- The block at the beginning of a gap, if it is long enough. -/
def place (fin : K → Option K) (g : Range K) : Option (Range K) :=
  match fin g.start with
  | some b => if b ≤ g.stop then some ⟨g.start, b⟩ else none
  | none => none

/-- The block at the beginning of a gap, if it is long enough. -/
def iplace (fin : K → Option K) (g : RangeInclusive K) : Option (RangeInclusive K) :=
  match fin g.start with
  | some b => if b ≤ g.stop then some (.mk' g.start b) else none
  | none => none

/-- `r` is a block within `outer`. -/
def BlockIn (outer : Range K) (fin : K → Option K) (r : Range K) : Prop :=
  fin r.start = some r.stop ∧ outer.start ≤ r.start ∧ r.stop ≤ outer.stop

/-- `r` is a block within `outer`. -/
def IBlockIn (outer : RangeInclusive K) (fin : K → Option K) (r : RangeInclusive K) : Prop :=
  fin r.start = some r.stop ∧ outer.start ≤ r.start ∧ r.stop ≤ outer.stop

/-- No key of `r` has a value. -/
def Unused (m : RangeMap K V) (r : Range K) : Prop :=
  ∀ k, r.start ≤ k → k < r.stop → m.get k = .ok none

/-- No key of `r` has a value. -/
def IUnused (m : RangeInclusiveMap K V) (r : RangeInclusive K) : Prop :=
  ∀ k, r.start ≤ k → k ≤ r.stop → m.get k = .ok none

/-- A run of the allocator on `outer`, each block with a value of its own, and the blocks that are
allocated at its end. -/
inductive Heap [BEq V] (outer : Range K) : RangeMap K V → List (Range K × V) → Prop
  | new : Heap outer .new []
  | allocate {m live fin v g l r m'} : Heap outer m live → Blocks fin →
      (∀ e ∈ live, (e.2 == v) = false) → m.gaps outer = .ok g → Yields RangeMap.Gaps.next g l →
      l.findSome? (place fin) = some r → m.insert r v = .ok m' → Heap outer m' ((r, v) :: live)
  | release {m a r v b m'} : Heap outer m (a ++ (r, v) :: b) → m.remove r = .ok m' →
      Heap outer m' (a ++ b)

/-- The same with inclusive ranges. -/
inductive IHeap [BEq V] (S : StepFns K) (outer : RangeInclusive K) :
    RangeInclusiveMap K V → List (RangeInclusive K × V) → Prop
  | new : IHeap S outer .new []
  | allocate {m live fin v g l r m'} : IHeap S outer m live → IBlocks fin →
      (∀ e ∈ live, (e.2 == v) = false) → m.gaps outer = .ok g →
      YieldsE (RangeInclusiveMap.Gaps.next S) g l →
      l.findSome? (iplace fin) = some r → m.insert S r v = .ok m' →
      IHeap S outer m' ((r, v) :: live)
  | release {m a r v b m'} : IHeap S outer m (a ++ (r, v) :: b) → m.remove S r = .ok m' →
      IHeap S outer m' (a ++ b)

theorem place_eq_some {fin : K → Option K} {g r : Range K} (h : place fin g = some r) :
    r.start = g.start ∧ fin r.start = some r.stop ∧ r.stop ≤ g.stop := by
  unfold place at h
  cases hf : fin g.start with
  | none => rw [hf] at h; cases h
  | some b =>
    rw [hf] at h
    simp only at h
    by_cases hb : b ≤ g.stop
    · rw [if_pos hb] at h
      cases h
      exact ⟨rfl, hf, hb⟩
    · rw [if_neg hb] at h
      cases h

theorem iplace_eq_some {fin : K → Option K} {g r : RangeInclusive K} (h : iplace fin g = some r) :
    r.start = g.start ∧ fin r.start = some r.stop ∧ r.stop ≤ g.stop ∧ r.exhausted = false := by
  unfold iplace at h
  cases hf : fin g.start with
  | none => rw [hf] at h; cases h
  | some b =>
    rw [hf] at h
    simp only at h
    by_cases hb : b ≤ g.stop
    · rw [if_pos hb] at h
      cases h
      exact ⟨rfl, hf, hb, rfl⟩
    · rw [if_neg hb] at h
      cases h

end Verif.Spec

namespace Verif.Props
open Verif.Spec

/-- Blocks of `n + 1` keys, in `usize` without bound. -/
theorem blocks_nat (n : Nat) : Blocks (K := Nat) (fun a => some (a + (n + 1))) :=
  ⟨by rintro a b ⟨⟩; omega, by rintro a a' b' h ⟨⟩; exact ⟨_, rfl, by omega⟩⟩

/-- `a.checked_add(n)` of `u8`: the last key of a block of `n + 1` keys. -/
def checked8 (n : Nat) (a : UIntW 8) : Option (UIntW 8) :=
  if a.bits.toNat + n < 256 then some ⟨.ofNat 8 (a.bits.toNat + n)⟩ else none

theorem blocks_u8 (n : Nat) : IBlocks (checked8 n) := by
  have hle : ∀ a b : UIntW 8, a ≤ b ↔ a.bits.toNat ≤ b.bits.toNat := fun a b =>
    Int.ofNat_le
  constructor
  · intro a b h
    unfold checked8 at h
    split at h
    · cases h
      rw [hle]
      simp only [BitVec.toNat_ofNat]
      omega
    · cases h
  · intro a a' b' hl h
    rw [hle] at hl
    unfold checked8 at h ⊢
    split at h
    · cases h
      refine ⟨_, if_pos (by omega), ?_⟩
      rw [hle]
      simp only [BitVec.toNat_ofNat]
      omega
    · cases h

/-- An iterator that has ended. -/
theorem ended {S α : Type} {next : S → Option α × S} {s s' : S} (h : next s = (none, s'))
    (h' : next s' = (none, s')) : Yields next s [] :=
  Yields.nil (fun x => x = s ∨ x = s') (by rintro x (rfl | rfl) <;> simp [h, h']) (Or.inl rfl)

theorem endedE {S α : Type} {next : S → Except Panic (Option α × S)} {s s' : S}
    (h : next s = .ok (none, s')) (h' : next s' = .ok (none, s')) : YieldsE next s [] :=
  YieldsE.nil (fun x => x = s ∨ x = s') (by
    rintro x (rfl | rfl)
    · exact ⟨_, h, Or.inr rfl⟩
    · exact ⟨_, h', Or.inr rfl⟩) (Or.inl rfl)

section
open RangeMap
variable {K V : Type} [LE K] [LT K] [DecidableLE K] [DecidableLT K]
  [Std.IsLinearPreorder K] [Std.LawfulOrderLT K] [BEq V] [PartialEquivBEq V]

/-- **C105** The allocator fails exactly if no block within `outer` is unused; otherwise it takes
the first that is. -/
theorem C105_allocate {m : RangeMap K V} (hm : Reachable m) (outer : Range K) {fin : K → Option K}
    (hf : Blocks fin) :
    ∃ g l, m.gaps outer = .ok g ∧ Yields Gaps.next g l ∧
      match l.findSome? (place fin) with
      | none => ∀ r, BlockIn outer fin r → ¬ Unused m r
      | some r => BlockIn outer fin r ∧ Unused m r ∧
          ∀ r', BlockIn outer fin r' → Unused m r' → r.start ≤ r'.start := by
  obtain ⟨g, l, h1, h2, h3, h4, h5, h6⟩ := gaps_yields_list hm outer
  refine ⟨g, l, h1, h2, ?_⟩
  have hin : ∀ r, BlockIn outer fin r → Unused m r →
      ∃ x ∈ l, x.start ≤ r.start ∧ ∃ b, place fin x = some b := by
    rintro r ⟨f1, f2, f3⟩ hu
    have hr := hf.pos _ _ f1
    obtain ⟨x, hx, x1, x2⟩ := (h3 r.start).2 ⟨f2, by grind, hu r.start (by grind) hr⟩
    have hb : r.stop ≤ x.stop := by
      rcases (h6 x hx).2 with h | ⟨e, he, h⟩
      · rw [h]; exact f3
      · apply Classical.byContradiction
        intro hn
        have := hu x.stop (by grind) (by grind)
        rw [get_eq_none hm.wf.sep] at this
        have hne := hm.wf.sep.ne e he
        exact this e.2 ⟨e, he, by rw [h]; grind, by rw [← h]; exact hne, rfl⟩
    obtain ⟨b, b1, b2⟩ := hf.mono _ _ _ x1 f1
    exact ⟨x, hx, x1, _, by unfold place; rw [b1]; exact if_pos (by grind)⟩
  cases hl : l.findSome? (place fin) with
  | none =>
    intro r hr hu
    obtain ⟨x, hx, -, b, hb⟩ := hin r hr hu
    rw [List.findSome?_eq_none_iff.1 hl x hx] at hb
    cases hb
  | some r =>
    obtain ⟨l1, x, l2, rfl, hx, hl1⟩ := List.findSome?_eq_some_iff.1 hl
    obtain ⟨e1, e2, e3⟩ := place_eq_some hx
    obtain ⟨s1, s2, s3⟩ := h4 x (by simp)
    refine ⟨⟨e2, by rw [e1]; exact s2, by grind⟩, fun k k1 k2 => ?_, fun r' f' u' => ?_⟩
    · exact ((h3 k).1 ⟨x, by simp, by rw [← e1]; exact k1, by grind⟩).2.2
    · obtain ⟨y, hy, y1, b, hb⟩ := hin r' f' u'
      rcases List.mem_append.1 hy with hy | hy
      · rw [hl1 y hy] at hb
        cases hb
      · rcases List.mem_cons.1 hy with rfl | hy
        · rw [e1]; exact y1
        · have := (List.pairwise_cons.1 (List.pairwise_append.1 h5).2.1).1 y hy
          have := this.1
          grind

example := C105_allocate Demo.map_reachable ⟨1, 60⟩ (blocks_nat 3)
-- the gap 3..5 is too short for four keys
example : (Demo.map.gaps ⟨1, 60⟩).toOption.bind (fun g =>
    (drain Gaps.next 9 g).toOption.map (List.findSome? (place fun a => some (a + 4)))) =
      some (some ⟨15, 19⟩) := by rfl
-- and so is 15..18
example : (Demo.map.gaps ⟨1, 18⟩).toOption.bind (fun g =>
    (drain Gaps.next 9 g).toOption.map (List.findSome? (place fun a => some (a + 4)))) =
      some none := by rfl

/-- **C105** Storing the block gives its keys the value and changes no other. -/
theorem C105_store {m : RangeMap K V} (hm : Reachable m) {r : Range K} (hr : r.start < r.stop)
    (hu : Unused m r) (v : V) :
    ∃ m', m.insert r v = .ok m' ∧ Reachable m' ∧
      ∀ k, ∃ o o', m.get k = .ok o ∧ m'.get k = .ok o' ∧
        Agree o' (o.or (if r.start ≤ k ∧ k < r.stop then some v else none)) := by
  obtain ⟨m', h1, h2, h3⟩ := C01_insert_inside hm v hr
  refine ⟨m', h1, h2, fun k => ?_⟩
  by_cases hk : r.start ≤ k ∧ k < r.stop
  · exact ⟨_, _, hu k hk.1 hk.2, h3 k hk.1 hk.2, by rw [if_pos hk]; exact Agree.refl _⟩
  · rw [if_neg hk]
    rcases C01_insert_outside hm h1 k hk with h | ⟨w, w1, w2, w3⟩
    · refine ⟨_, _, get_look hm.wf.sep k, by rw [h]; exact get_look hm.wf.sep k, ?_⟩
      rw [Option.or_none]
      exact Agree.refl _
    · exact ⟨_, _, w1, w3, Or.inr (PartialEquivBEq.symm w2)⟩

theorem unused_demo : Unused Demo.map ⟨15, 19⟩ := fun k h1 h2 => by
  have h1 : 15 ≤ k := h1
  have h2 : k < 19 := h2
  obtain rfl | rfl | rfl | rfl : k = 15 ∨ k = 16 ∨ k = 17 ∨ k = 18 := by omega
  all_goals rfl

example := C105_store Demo.map_reachable (r := ⟨15, 19⟩) (by decide) unused_demo 'z'

/-- **C105** Releasing it gives back a map `==` to the one before. -/
theorem C105_release [ReflBEq V] {m m' : RangeMap K V} (hm : Reachable m) {r : Range K}
    (hr : r.start < r.stop) (hu : Unused m r) {v : V} (h : m.insert r v = .ok m') :
    ∃ m'', m'.remove r = .ok m'' ∧ m''.eq m = true := by
  obtain ⟨n, n1, n2, n3⟩ := C105_store hm hr hu v
  rw [h] at n1
  cases n1
  obtain ⟨m'', h1, h2, h3, h4⟩ := C02_remove_pointwise n2 hr
  refine ⟨m'', h1, (C06_canonical h2 hm).2 fun k => ?_⟩
  by_cases hk : r.start ≤ k ∧ k < r.stop
  · exact ⟨_, _, h3 k hk.1 hk.2, hu k hk.1 hk.2, trivial⟩
  · obtain ⟨o, o', o1, o2, o3⟩ := n3 k
    rw [if_neg hk, Option.or_none] at o3
    exact ⟨_, _, by rw [h4 k hk]; exact o2, o1, o3⟩

-- the block is stored with a value of its neighbour, so it is not an entry of its own
example := C105_release Demo.map_reachable (r := ⟨15, 19⟩) (by decide) unused_demo (v := 'a')
  (m' := ⟨[(⟨0, 3⟩, 'a'), (⟨5, 19⟩, 'a'), (⟨20, 25⟩, 'b'), (⟨25, 40⟩, 'c')]⟩) (by rfl)

theorem heap_disjoint {l : List (Range K × V)} (hs : Sep l) {x y : Range K × V} (hx : x ∈ l)
    (hy : y ∈ l) (h : Common covers x.1 y.1) : x = y := by
  obtain ⟨k, h1, h2⟩ := h
  exact hs.unique hx hy (by simpa [covers] using h1) (by simpa [covers] using h2)

/-- **C105** Whatever is allocated and released, the map stores exactly the blocks that are allocated
at the time, each under its own range (blocks that touch stay apart, as their values differ), within
`outer` and without a common key. -/
theorem C105_live {outer : Range K} {m : RangeMap K V} {live : List (Range K × V)}
    (h : Heap outer m live) :
    Reachable m ∧ m.iter.Perm live ∧
      (∀ e ∈ live, e.1.start < e.1.stop ∧ outer.start ≤ e.1.start ∧ e.1.stop ≤ outer.stop) ∧
      live.Pairwise fun x y => ¬ Common covers x.1 y.1 := by
  have main : Reachable m ∧ m.iter.Perm live ∧
      ∀ e ∈ live, e.1.start < e.1.stop ∧ outer.start ≤ e.1.start ∧ e.1.stop ≤ outer.stop := by
    induction h with
    | new => exact ⟨⟨[], rfl⟩, .refl _, by simp⟩
    | @allocate m live fin v g l r m' _ hf hv hg hy hp hi ih =>
      obtain ⟨i1, i2, i3⟩ := ih
      obtain ⟨g', l', a1, a2, a3⟩ := C105_allocate i1 outer hf
      rw [hg] at a1
      cases a1
      obtain rfl := Yields.unique a2 hy
      rw [hp] at a3
      obtain ⟨⟨f1, f2, f3⟩, hu, -⟩ := a3
      have hr := hf.pos _ _ f1
      have hd : ∀ x ∈ m.iter, ¬ Common covers r x.1 := by
        rintro x hx ⟨k, k1, k2⟩
        simp only [covers, decide_eq_true_eq] at k1 k2
        exact (get_eq_none i1.wf.sep k).1 (hu k k1.1 k1.2) x.2 ⟨x, hx, k2.1, k2.2, rfl⟩
      have hne : ∀ x ∈ m.iter, (x.2 == v) = false := fun x hx => hv x (i2.subset hx)
      have hm' : Reachable m' := i1.insert hi
      obtain ⟨n, n1, n2, n3⟩ := C51_insert_entries i1 hi
      have hn : n = r := by
        have e1 : n.start = r.start := by
          rcases n1.mem with h | ⟨x, hx, h, -⟩
          · exact h
          · rw [hne x hx] at h; cases h
        have e2 : n.stop = r.stop := by
          rcases n2.mem with h | ⟨x, hx, h, -⟩
          · exact h
          · rw [hne x hx] at h; cases h
        cases n; cases r; simp_all
      subst hn
      refine ⟨hm', ?_, fun e he => ?_⟩
      · have hnd' : m'.iter.Nodup := hm'.wf.sep.nodup
        rw [List.perm_ext_iff_of_nodup hnd']
        · intro y
          rw [n3, List.mem_cons, ← i2.mem_iff]
          refine or_congr .rfl ⟨?_, fun hy => ⟨y, hy, .other (hne y hy) (.keep (hd y hy))⟩⟩
          rintro ⟨x, hx, ha⟩
          cases ha with
          | equal h _ => rw [hne _ hx] at h; cases h
          | other _ ha =>
            cases ha with
            | keep _ => exact hx
            | left h _ => exact absurd h (hd x hx)
            | right h _ => exact absurd h (hd x hx)
        · refine List.nodup_cons.2 ⟨fun hmem => ?_, i2.nodup_iff.1 i1.wf.sep.nodup⟩
          exact hd _ (i2.mem_iff.2 hmem) ⟨n.start, by simp [covers, hr], by
            simp [covers, hr]⟩
      · rcases List.mem_cons.1 he with rfl | he
        · exact ⟨hr, f2, f3⟩
        · exact i3 e he
    | @release m a r v b m' _ hrem ih =>
      obtain ⟨i1, i2, i3⟩ := ih
      have hm' : Reachable m' := i1.remove hrem
      have hnd := i2.nodup_iff.1 i1.wf.sep.nodup
      have hsub : (a ++ b).Sublist (a ++ (r, v) :: b) :=
        (List.Sublist.refl a).append (List.sublist_cons_self _ _)
      have hrv : (r, v) ∈ m.iter := i2.mem_iff.2 (by simp)
      have hr := (i3 (r, v) (by simp)).1
      refine ⟨hm', ?_, fun e he => i3 e (hsub.subset he)⟩
      have hnd' : m'.iter.Nodup := hm'.wf.sep.nodup
      rw [List.perm_ext_iff_of_nodup hnd' (hnd.sublist hsub)]
      intro y
      have hy : y ∈ a ++ b ↔ y ∈ m.iter ∧ y ≠ (r, v) := by
        rw [i2.mem_iff]
        obtain ⟨-, h2, h3⟩ := List.nodup_append.1 hnd
        have h2 := (List.nodup_cons.1 h2).1
        simp only [List.mem_append, List.mem_cons]
        constructor
        · rintro (h | h)
          · exact ⟨Or.inl h, fun e => h3 y h (r, v) (by simp) e⟩
          · exact ⟨Or.inr (Or.inr h), fun e => h2 (e ▸ h)⟩
        · rintro ⟨h | h | h, hn⟩
          · exact Or.inl h
          · exact absurd h hn
          · exact Or.inr h
      rw [hy, C51_remove_entries i1 hrem]
      have hself : ∀ x ∈ m.iter, Common covers r x.1 → x = (r, v) := fun x hx hc =>
        (heap_disjoint i1.wf.sep hrv hx hc).symm
      constructor
      · rintro ⟨x, hx, ha⟩
        cases ha with
        | keep hn =>
          refine ⟨hx, ?_⟩
          rintro rfl
          exact hn ⟨r.start, by simp [covers, hr], by simp [covers, hr]⟩
        | left hc hlt =>
          rw [hself x hx hc] at hlt
          exact absurd hlt (by grind)
        | right hc hlt =>
          rw [hself x hx hc] at hlt
          exact absurd hlt (by grind)
      · rintro ⟨hy, hn⟩
        exact ⟨y, hy, .keep fun hc => hn (hself y hy hc)⟩
  obtain ⟨h1, h2, h3⟩ := main
  refine ⟨h1, h2, h3, ?_⟩
  refine h2.pairwise (R := fun x y => ¬ Common covers x.1 y.1) ?_ fun {x y} h hc => ?_
  · refine h1.wf.sep.nodup.imp_of_mem fun {x y} hx hy hn hc => ?_
    exact hn (heap_disjoint h1.wf.sep hx hy hc)
  · obtain ⟨k, k1, k2⟩ := hc
    exact h ⟨k, k2, k1⟩

-- four keys, three keys, the four released, two keys in their place
example := C105_live (outer := ⟨0, 10⟩) (m := ⟨[(⟨0, 2⟩, 'c'), (⟨4, 7⟩, 'b')]⟩)
  (live := [(⟨0, 2⟩, 'c'), (⟨4, 7⟩, 'b')])
  (.allocate
    (.release (a := [(⟨4, 7⟩, 'b')]) (r := ⟨0, 4⟩) (v := 'a') (b := [])
      (.allocate
        (.allocate .new (blocks_nat 3) (by simp) rfl (Yields.cons rfl (ended rfl rfl)) rfl rfl)
        (blocks_nat 2) (by simp) rfl (Yields.cons rfl (ended rfl rfl)) rfl rfl)
      rfl)
    (blocks_nat 1) (by simp) rfl
    (Yields.cons rfl (Yields.cons rfl (ended rfl rfl))) rfl rfl)

end

namespace Inclusive
section
open RangeInclusiveMap
variable {K V : Type} [LE K] [LT K] [DecidableLE K] [DecidableLT K]
  [Std.IsLinearPreorder K] [Std.LawfulOrderLT K] [BEq V] [PartialEquivBEq V] {S : StepFns K}

/-- **C105** The allocator fails exactly if no block within `outer` is unused; otherwise it takes
the first that is. -/
theorem C105_allocate (hS : LawfulSteps S) {m : RangeInclusiveMap K V} (hm : Reachable S m)
    (outer : RangeInclusive K) {fin : K → Option K} (hf : IBlocks fin) :
    ∃ g l, m.gaps outer = .ok g ∧ YieldsE (Gaps.next S) g l ∧
      match l.findSome? (iplace fin) with
      | none => ∀ r, IBlockIn outer fin r → ¬ IUnused m r
      | some r => IBlockIn outer fin r ∧ r.exhausted = false ∧ IUnused m r ∧
          ∀ r', IBlockIn outer fin r' → IUnused m r' → r.start ≤ r'.start := by
  have hw := hm.wf hS
  obtain ⟨g, l, h1, h2, h3⟩ := C31_gaps_exact hS hm outer
  obtain ⟨g', l', j1, j2, h4, h5⟩ := C31_gaps_ordered hS hm.any outer
  rw [h1] at j1
  cases j1
  obtain rfl := YieldsE.unique h2 j2
  refine ⟨g, l, h1, h2, ?_⟩
  have hcov : ∀ e ∈ m.iter, ∀ k, e.1.start ≤ k → k ≤ e.1.stop → ¬ m.get k = .ok none :=
    fun e he k k1 k2 h => (get_eq_none hw.sep hw.fresh k).1 h e.2 ⟨e, he, k1, k2, rfl⟩
  have hbet : ∀ r, IUnused m r → ∀ e ∈ m.iter, e.1.start ≤ e.1.stop → r.start < e.1.start →
      e.1.start ≤ r.stop → False := fun r hu e he hne h h' =>
    hcov e he e.1.start (by grind) hne (hu _ (by grind) h')
  have hin : ∀ r, IBlockIn outer fin r → IUnused m r →
      ∃ x ∈ l, x.start ≤ r.start ∧ ∃ b, iplace fin x = some b := by
    rintro r ⟨f1, f2, f3⟩ hu
    have hr := hf.pos _ _ f1
    obtain ⟨x, hx, x1, x2⟩ := (h3 r.start).2 ⟨f2, by grind, hu r.start (by grind) hr⟩
    obtain ⟨y, hy, y1, y2⟩ := (h3 r.stop).2 ⟨by grind, f3, hu r.stop hr (by grind)⟩
    have hb : r.stop ≤ x.stop := by
      rcases RangeMap.pw_tri h5 x hx y hy with rfl | ⟨e, he, e1, e2, e3⟩ | ⟨e, he, e1, e2, e3⟩
      · exact y2
      · exfalso
        have := e1.1
        exact hbet r hu e he e2 (by grind) (by grind)
      · exfalso
        have := e1.1
        grind
    obtain ⟨b, b1, b2⟩ := hf.mono _ _ _ x1 f1
    exact ⟨x, hx, x1, _, by unfold iplace; rw [b1]; exact if_pos (by grind)⟩
  cases hl : l.findSome? (iplace fin) with
  | none =>
    intro r hr hu
    obtain ⟨x, hx, -, b, hb⟩ := hin r hr hu
    rw [List.findSome?_eq_none_iff.1 hl x hx] at hb
    cases hb
  | some r =>
    obtain ⟨l1, x, l2, rfl, hx, hl1⟩ := List.findSome?_eq_some_iff.1 hl
    obtain ⟨e1, e2, e3, e4⟩ := iplace_eq_some hx
    obtain ⟨s1, s2, s3, s4⟩ := h4 x (by simp)
    refine ⟨⟨e2, by rw [e1]; exact s3, by grind⟩, e4, fun k k1 k2 => ?_, fun r' f' u' => ?_⟩
    · exact ((h3 k).1 ⟨x, by simp, by rw [← e1]; exact k1, by grind⟩).2.2
    · obtain ⟨y, hy, y1, b, hb⟩ := hin r' f' u'
      rcases List.mem_append.1 hy with hy | hy
      · rw [hl1 y hy] at hb
        cases hb
      · rcases List.mem_cons.1 hy with rfl | hy
        · rw [e1]; exact y1
        · obtain ⟨e, -, n1, n2, n3⟩ :=
            (List.pairwise_cons.1 (List.pairwise_append.1 h5).2.1).1 y hy
          have := n1.1
          grind

example := C105_allocate Demo.u8_lawful Demo.imap_reachable (Demo.by8 1 255) (blocks_u8 3)
example : (Demo.imap.gaps (Demo.by8 1 255)).toOption.bind (fun g =>
    (drainE (Gaps.next Demo.u8) 9 g).toOption.map (List.findSome? (iplace (checked8 3)))) =
      some (some (Demo.by8 16 19)) := by rfl
example : (Demo.imap.gaps (Demo.by8 1 255)).toOption.bind (fun g =>
    (drainE (Gaps.next Demo.u8) 9 g).toOption.map (List.findSome? (iplace (checked8 4)))) =
      some none := by rfl

/-- **C105** Storing the block gives its keys the value and changes no other. -/
theorem C105_store (hS : LawfulSteps S) {m : RangeInclusiveMap K V} (hm : Reachable S m)
    {r : RangeInclusive K} (hx : r.exhausted = false) (hr : r.start ≤ r.stop) (hu : IUnused m r)
    (v : V) :
    ∃ m', m.insert S r v = .ok m' ∧ Reachable S m' ∧
      ∀ k, ∃ o o', m.get k = .ok o ∧ m'.get k = .ok o' ∧
        Agree o' (o.or (if r.start ≤ k ∧ k ≤ r.stop then some v else none)) := by
  obtain ⟨m', h1, h2, h3⟩ := C23_insert_inside hS hm v hx hr
  refine ⟨m', h1, h2, fun k => ?_⟩
  by_cases hk : r.start ≤ k ∧ k ≤ r.stop
  · exact ⟨_, _, hu k hk.1 hk.2, h3 k hk.1 hk.2, by rw [if_pos hk]; exact RangeMap.Agree.refl _⟩
  · rw [if_neg hk]
    rcases C23_insert_outside hS hm hx h1 k hk with h | ⟨w, w1, w2, w3⟩
    · refine ⟨_, _, get_look (hm.wf hS) k, by rw [h]; exact get_look (hm.wf hS) k, ?_⟩
      rw [Option.or_none]
      exact RangeMap.Agree.refl _
    · exact ⟨_, _, w1, w3, Or.inr (PartialEquivBEq.symm w2)⟩

theorem unused_demo : IUnused Demo.imap (Demo.by8 16 19) := fun k => by
  refine Demo.forall8 (P := fun k => (Demo.by8 16 19).start ≤ k → k ≤ (Demo.by8 16 19).stop →
    Demo.imap.get k = .ok none) (fun k hk h1 h2 => Demo.ok_of ?_) k
  revert k
  decide +kernel

example := C105_store Demo.u8_lawful Demo.imap_reachable rfl (by decide) unused_demo 'z'

/-- **C105** Releasing it gives back a map `==` to the one before. -/
theorem C105_release [ReflBEq V] (hS : LawfulSteps S) {m m' : RangeInclusiveMap K V}
    (hm : Reachable S m) {r : RangeInclusive K} (hx : r.exhausted = false) (hr : r.start ≤ r.stop)
    (hu : IUnused m r) {v : V} (h : m.insert S r v = .ok m') :
    ∃ m'', m'.remove S r = .ok m'' ∧ m''.eq m = true := by
  obtain ⟨n, n1, n2, n3⟩ := C105_store hS hm hx hr hu v
  rw [h] at n1
  cases n1
  obtain ⟨m'', h1, h2, h3, h4⟩ := C24_remove_pointwise hS n2 hr
  refine ⟨m'', h1, (C27_canonical hS h2 hm).2 fun k => ?_⟩
  by_cases hk : r.start ≤ k ∧ k ≤ r.stop
  · exact ⟨_, _, h3 k hk.1 hk.2, hu k hk.1 hk.2, trivial⟩
  · obtain ⟨o, o', o1, o2, o3⟩ := n3 k
    rw [if_neg hk, Option.or_none] at o3
    exact ⟨_, _, by rw [h4 k hk]; exact o2, o1, o3⟩

-- the block is joined with its neighbours
example := C105_release Demo.u8_lawful Demo.imap_reachable rfl (by decide) unused_demo (v := 'a')
  (m' := ⟨[(Demo.by8 0 2, 'a'), (Demo.by8 5 19, 'a'), (Demo.by8 20 24, 'b'),
    (Demo.by8 25 255, 'c')]⟩) (by rfl)

theorem heap_disjoint {l : List (RangeInclusive K × V)} (hs : Sep l) {x y : RangeInclusive K × V}
    (hx : x ∈ l) (hy : y ∈ l) (h : Common icovers x.1 y.1) : x = y := by
  obtain ⟨k, h1, h2⟩ := h
  exact hs.unique hx hy (by simpa [icovers] using h1) (by simpa [icovers] using h2)

/-- **C105** Whatever is allocated and released, the map stores exactly the blocks that are allocated
at the time, each under its own range (blocks that touch stay apart, as their values differ), within
`outer` and without a common key. -/
theorem C105_live (hS : LawfulSteps S) {outer : RangeInclusive K} {m : RangeInclusiveMap K V}
    {live : List (RangeInclusive K × V)} (h : IHeap S outer m live) :
    Reachable S m ∧ m.iter.Perm live ∧
      (∀ e ∈ live, e.1.start ≤ e.1.stop ∧ outer.start ≤ e.1.start ∧ e.1.stop ≤ outer.stop) ∧
      live.Pairwise fun x y => ¬ Common icovers x.1 y.1 := by
  have main : Reachable S m ∧ m.iter.Perm live ∧
      ∀ e ∈ live, e.1.start ≤ e.1.stop ∧ outer.start ≤ e.1.start ∧ e.1.stop ≤ outer.stop := by
    induction h with
    | new => exact ⟨⟨[], by simp, rfl⟩, .refl _, by simp⟩
    | @allocate m live fin v g l r m' _ hf hv hg hy hp hi ih =>
      obtain ⟨i1, i2, i3⟩ := ih
      obtain ⟨g', l', a1, a2, a3⟩ := Inclusive.C105_allocate hS i1 outer hf
      rw [hg] at a1
      cases a1
      obtain rfl := YieldsE.unique a2 hy
      rw [hp] at a3
      obtain ⟨⟨f1, f2, f3⟩, fx, hu, -⟩ := a3
      have hr := hf.pos _ _ f1
      have hd : ∀ x ∈ m.iter, ¬ Common icovers r x.1 := by
        rintro x hx ⟨k, k1, k2⟩
        simp only [icovers, decide_eq_true_eq] at k1 k2
        exact (get_eq_none (i1.wf hS).sep (i1.wf hS).fresh k).1 (hu k k1.1 k1.2) x.2
          ⟨x, hx, k2.1, k2.2, rfl⟩
      have hne : ∀ x ∈ m.iter, (x.2 == v) = false := fun x hx => hv x (i2.subset hx)
      have hm' : Reachable S m' := i1.insert fx hi
      obtain ⟨n, n0, n1, n2, n3⟩ := C51_insert_entries hS i1.any hi
      have hn : n = r := by
        have e1 : n.start = r.start := by
          rcases n1.mem with h | ⟨x, hx, h, -⟩
          · exact h
          · rw [hne x hx] at h; cases h
        have e2 : n.stop = r.stop := by
          rcases n2.mem with h | ⟨x, hx, h, -⟩
          · exact h
          · rw [hne x hx] at h; cases h
        rcases n0 with h | h
        · exact h
        · cases n; cases r; simp_all
      subst hn
      refine ⟨hm', ?_, fun e he => ?_⟩
      · have hnd' : m'.iter.Nodup := (hm'.wf hS).sep.nodup
        rw [List.perm_ext_iff_of_nodup hnd']
        · intro y
          rw [n3, List.mem_cons, ← i2.mem_iff]
          refine or_congr .rfl ⟨?_, fun hy => ⟨y, hy, .other (hne y hy) (.keep (hd y hy))⟩⟩
          rintro ⟨x, hx, ha⟩
          cases ha with
          | equal h _ => rw [hne _ hx] at h; cases h
          | other _ ha =>
            cases ha with
            | keep _ => exact hx
            | left h _ _ => exact absurd h (hd x hx)
            | right h _ _ => exact absurd h (hd x hx)
        · refine List.nodup_cons.2 ⟨fun hmem => ?_, i2.nodup_iff.1 (i1.wf hS).sep.nodup⟩
          exact hd _ (i2.mem_iff.2 hmem) ⟨n.start, by simp [icovers, hr], by
            simp [icovers, hr]⟩
      · rcases List.mem_cons.1 he with rfl | he
        · exact ⟨hr, f2, f3⟩
        · exact i3 e he
    | @release m a r v b m' _ hrem ih =>
      obtain ⟨i1, i2, i3⟩ := ih
      have hm' : Reachable S m' := i1.remove hrem
      have hnd := i2.nodup_iff.1 (i1.wf hS).sep.nodup
      have hsub : (a ++ b).Sublist (a ++ (r, v) :: b) :=
        (List.Sublist.refl a).append (List.sublist_cons_self _ _)
      have hrv : (r, v) ∈ m.iter := i2.mem_iff.2 (by simp)
      have hr := (i3 (r, v) (by simp)).1
      refine ⟨hm', ?_, fun e he => i3 e (hsub.subset he)⟩
      have hnd' : m'.iter.Nodup := (hm'.wf hS).sep.nodup
      rw [List.perm_ext_iff_of_nodup hnd' (hnd.sublist hsub)]
      intro y
      have hy : y ∈ a ++ b ↔ y ∈ m.iter ∧ y ≠ (r, v) := by
        rw [i2.mem_iff]
        obtain ⟨-, h2, h3⟩ := List.nodup_append.1 hnd
        have h2 := (List.nodup_cons.1 h2).1
        simp only [List.mem_append, List.mem_cons]
        constructor
        · rintro (h | h)
          · exact ⟨Or.inl h, fun e => h3 y h (r, v) (by simp) e⟩
          · exact ⟨Or.inr (Or.inr h), fun e => h2 (e ▸ h)⟩
        · rintro ⟨h | h | h, hn⟩
          · exact Or.inl h
          · exact absurd h hn
          · exact Or.inr h
      rw [hy, C51_remove_entries hS i1.any hrem]
      have hself : ∀ x ∈ m.iter, Common icovers r x.1 → x = (r, v) := fun x hx hc =>
        (heap_disjoint (i1.wf hS).sep hrv hx hc).symm
      constructor
      · rintro ⟨x, hx, ha⟩
        cases ha with
        | keep hn =>
          refine ⟨hx, ?_⟩
          rintro rfl
          exact hn ⟨r.start, by simp [icovers, hr], by simp [icovers, hr]⟩
        | left hc hlt _ =>
          rw [hself x hx hc] at hlt
          exact absurd hlt (by grind)
        | right hc hlt _ =>
          rw [hself x hx hc] at hlt
          exact absurd hlt (by grind)
      · rintro ⟨hy, hn⟩
        exact ⟨y, hy, .keep fun hc => hn (hself y hy hc)⟩
  obtain ⟨h1, h2, h3⟩ := main
  refine ⟨h1, h2, h3, ?_⟩
  refine h2.pairwise (R := fun x y => ¬ Common icovers x.1 y.1) ?_ fun {x y} h hc => ?_
  · refine (h1.wf hS).sep.nodup.imp_of_mem fun {x y} hx hy hn hc => ?_
    exact hn (heap_disjoint (h1.wf hS).sep hx hy hc)
  · obtain ⟨k, k1, k2⟩ := hc
    exact h ⟨k, k2, k1⟩

-- the whole domain of `u8` is allocated, and a part of it given back and allocated again
example := C105_live Demo.u8_lawful (outer := Demo.by8 0 255)
  (m := ⟨[(Demo.by8 0 1, 'c'), (Demo.by8 200 255, 'b')]⟩)
  (live := [(Demo.by8 0 1, 'c'), (Demo.by8 200 255, 'b')])
  (.allocate
    (.release (a := [(Demo.by8 200 255, 'b')]) (r := Demo.by8 0 199) (v := 'a') (b := [])
      (.allocate
        (.allocate .new (blocks_u8 199) (by simp) rfl (YieldsE.cons rfl (endedE rfl rfl)) rfl rfl)
        (blocks_u8 55) (by simp) rfl (YieldsE.cons rfl (endedE rfl rfl)) rfl rfl)
      rfl)
    (blocks_u8 1) (by simp) rfl (YieldsE.cons rfl (endedE rfl rfl)) rfl rfl)

end
end Inclusive
end Verif.Props

import Verif.Proof.IAppend
import Verif.Proof.IExt
import Verif.Props.Demo

/-!
# Properties C23–C30 of `RangeInclusiveMap`

Every theorem is for an arbitrary key type whose `Ord` is a total preorder, arbitrary lawful step
functions `S` (which at the extremes of the key domain may do anything) and (unless it says
otherwise) an arbitrary value type whose `==` is symmetric and transitive.

`Reachable S m`: `m` results from a history that inserts no `RangeInclusive` whose hidden `exhausted`
flag is set (no literal `a..=b` has it set; see C41).  `ReachableAny S m`: from any history.
-/
set_option linter.unusedSectionVars false

namespace Verif.Props
open RangeInclusiveMap Spec
open RangeMap (Agree.refl Agree.eq)
variable {K : Type} [LE K] [LT K] [DecidableLE K] [DecidableLT K]
  [Std.IsLinearPreorder K] [Std.LawfulOrderLT K] {V : Type} [BEq V] [PartialEquivBEq V]
  {S : StepFns K}

/-! ## C23 -/

/-- **C23** `insert(a..=b, v)` succeeds, and afterwards every key of `a..=b` maps to exactly `v`. -/
theorem C23_insert_inside (hS : LawfulSteps S) {m : RangeInclusiveMap K V} (hm : Reachable S m)
    {r : RangeInclusive K} (v : V) (hx : r.exhausted = false) (hr : r.start ≤ r.stop) :
    ∃ m', m.insert S r v = .ok m' ∧ Reachable S m' ∧
      ∀ k, r.start ≤ k → k ≤ r.stop → m'.get k = .ok (some v) := by
  obtain ⟨m', h1, h2, _⟩ := insert_ok hS (hm.wf hS).sc v hr
  have hm' := hm.insert hx h1
  refine ⟨m', h1, hm', fun k hk hk' => ?_⟩
  rw [get_look (hm'.wf hS), (insert_look hS (hm.wf hS) hx hr h1 k).1 hk hk']

/-- **C23** Outside `a..=b`, `get` is what it was before, except that a value `w == v` whose range
was coalesced with the new one may have been replaced by `v`. -/
theorem C23_insert_outside (hS : LawfulSteps S) {m m' : RangeInclusiveMap K V}
    (hm : Reachable S m) {r : RangeInclusive K} {v : V} (hx : r.exhausted = false)
    (h : m.insert S r v = .ok m') (k : K) (hk : ¬ (r.start ≤ k ∧ k ≤ r.stop)) :
    m'.get k = m.get k ∨
      ∃ w, m.get k = .ok (some w) ∧ (w == v) = true ∧ m'.get k = .ok (some v) := by
  have hr : r.start ≤ r.stop := by
    apply Decidable.byContradiction
    intro hr
    simp [insert_invalid hr] at h
  have h2 := (hm.insert hx h).wf hS
  rw [get_look h2, get_look (hm.wf hS)]
  rcases (insert_look hS (hm.wf hS) hx hr h k).2 hk with h | ⟨w, h1, h2, h3⟩
  · left; rw [h]
  · right; exact ⟨w, by rw [h1], h2, by rw [h3]⟩

example := C23_insert_outside (K := UIntW 8) (V := Char) (S := Demo.u8) Demo.u8_lawful
    (m := Demo.imap) Demo.imap_reachable (r := Demo.by8 2 22) (v := 'q') (by decide) rfl ⟨25⟩
    (by decide)

/-- **C23** When `==` on values is equality, `get` outside the range is unchanged. -/
theorem C23_insert_outside_exact [LawfulBEq V] (hS : LawfulSteps S)
    {m m' : RangeInclusiveMap K V} (hm : Reachable S m) {r : RangeInclusive K} {v : V}
    (hx : r.exhausted = false) (h : m.insert S r v = .ok m') (k : K)
    (hk : ¬ (r.start ≤ k ∧ k ≤ r.stop)) : m'.get k = m.get k := by
  rcases C23_insert_outside hS hm hx h k hk with h | ⟨w, h1, h2, h3⟩
  · exact h
  · rw [h1, h3, eq_of_beq h2]

-- over u8 in a debug build: coalesces with both 'a' ranges, swallows a 'b', stops before 'c'
example : (Demo.imap.insert Demo.u8 (Demo.by8 3 24) 'a').toOption.map (·.btm) =
    some [(Demo.by8 0 24, 'a'), (Demo.by8 25 255, 'c')] := by rfl
-- inserting the whole key domain needs no neighbour of 0 or 255
example : (Demo.imap.insert Demo.u8 (Demo.by8 0 255) 'x').toOption.map (·.btm) =
    some [(Demo.by8 0 255, 'x')] := by rfl
example : ∃ m', Demo.imap.insert Demo.u8 (Demo.by8 3 24) 'a' = .ok m' ∧ Reachable Demo.u8 m' ∧
    ∀ k, (Demo.by8 3 24).start ≤ k → k ≤ (Demo.by8 3 24).stop → m'.get k = .ok (some 'a') :=
  C23_insert_inside Demo.u8_lawful Demo.imap_reachable 'a' rfl (by decide)

/-! ## C24 -/

/-- **C24** `remove(a..=b)` succeeds; afterwards no key of `a..=b` is mapped and every other key is
mapped as before (exactly). -/
theorem C24_remove_pointwise (hS : LawfulSteps S) {m : RangeInclusiveMap K V}
    (hm : Reachable S m) {r : RangeInclusive K} (hr : r.start ≤ r.stop) :
    ∃ m', m.remove S r = .ok m' ∧ Reachable S m' ∧
      (∀ k, r.start ≤ k → k ≤ r.stop → m'.get k = .ok none) ∧
      (∀ k, ¬ (r.start ≤ k ∧ k ≤ r.stop) → m'.get k = m.get k) := by
  obtain ⟨m', h1, _⟩ := remove_spec hS (hm.wf hS).sc hr
  have h1 : m.remove S r = .ok m' := h1 _ (Nat.le_refl _)
  have hm' := hm.remove h1
  have h2 := hm'.wf hS
  have h0 := hm.wf hS
  refine ⟨m', h1, hm', fun k hk hk' => ?_, fun k hk => ?_⟩
  · rw [get_look h2, remove_look hS h0 hr h1 k, if_pos ⟨hk, hk'⟩]
  · rw [get_look h2, get_look h0, remove_look hS h0 hr h1 k, if_neg hk]

example : (Demo.imap.remove Demo.u8 (Demo.by8 2 254)).toOption.map (·.btm) =
    some [(Demo.by8 0 1, 'a'), (Demo.by8 255 255, 'c')] := by rfl
example : (Demo.imap.remove Demo.u8 (Demo.by8 0 255)).toOption.map (·.btm) = some [] := by rfl

/-! ## C25 -/

/-- **C25** After any history of `insert`/`remove`/`clear`/`extend` calls (invalid ones panic and
are caught), `get(k)` agrees with what the last operation covering `k` wrote. -/
theorem C25_refinement (hS : LawfulSteps S) (ops : List (Op (RangeInclusive K) V))
    (hx : ∀ op ∈ ops, ∀ r ∈ op.inserted, r.exhausted = false) (k : K) :
    ∃ o, (run S ops).get k = .ok o ∧ Agree o (lastWrite icovers ivalid ops.reverse k) :=
  ⟨_, get_look (Reachable.wf hS ⟨ops, hx, rfl⟩) k, run_look hS ops hx k⟩

example := C25_refinement (K := UIntW 8) (V := Char) (S := Demo.u8) Demo.u8_lawful Demo.iops
    (by decide) ⟨7⟩

/-- **C25** ... and is exactly that when `==` on values is equality. -/
theorem C25_refinement_exact [LawfulBEq V] (hS : LawfulSteps S)
    (ops : List (Op (RangeInclusive K) V))
    (hx : ∀ op ∈ ops, ∀ r ∈ op.inserted, r.exhausted = false) (k : K) :
    (run S ops).get k = .ok (lastWrite icovers ivalid ops.reverse k) := by
  obtain ⟨o, h1, h2⟩ := C25_refinement hS ops hx k
  rw [h1, Agree.eq h2]

example : (∀ op ∈ Demo.iops, ∀ r ∈ op.inserted, r.exhausted = false) ∧
    (run Demo.u8 Demo.iops).btm = Demo.imap.btm := ⟨by decide, by rfl⟩
example : lastWrite icovers ivalid Demo.iops.reverse ⟨4⟩ = (none : Option Char) ∧
    lastWrite icovers ivalid Demo.iops.reverse ⟨255⟩ = some 'c' ∧
    lastWrite icovers ivalid Demo.iops.reverse ⟨15⟩ = some 'a' := by decide

/-! ## C26 -/

/-- **C26** The ranges of `iter()` have start `<=` end, and each ends strictly before the start of
any later one.  (Whether or not `exhausted` ranges have been inserted.) -/
theorem C26_sorted_disjoint (hS : LawfulSteps S) {m : RangeInclusiveMap K V}
    (hm : ReachableAny S m) :
    (∀ e ∈ m.iter, e.1.start ≤ e.1.stop) ∧
    m.iter.Pairwise (fun a b => a.1.stop < b.1.start) :=
  ⟨(hm.sc hS).sep.ne, (hm.sc hS).sep.pw.imp fun h => h.2⟩

example := C26_sorted_disjoint (K := UIntW 8) (V := Char) (S := Demo.u8) Demo.u8_lawful
    (m := Demo.imap) Demo.imap_reachable.any

/-- **C26** Ranges that touch (one starts at the least key above the other's end) carry values that
do not compare `==`. -/
theorem C26_coalesced (hS : LawfulSteps S) {m : RangeInclusiveMap K V} (hm : ReachableAny S m) :
    ∀ a ∈ m.iter, ∀ b ∈ m.iter, Next a.1.stop b.1.start → (a.2 == b.2) = false :=
  (hm.sc hS).coal

example := C26_coalesced Demo.u8_lawful Demo.imap_reachable.any (Demo.by8 20 24, 'b') (by decide)
    (Demo.by8 25 255, 'c') (by decide)

/-- **C26** The same in terms of `add_one`. -/
theorem C26_coalesced_addOne (hS : LawfulSteps S) {m : RangeInclusiveMap K V}
    (hm : ReachableAny S m) :
    ∀ a ∈ m.iter, ∀ b ∈ m.iter, a.1.stop < b.1.start →
      ∃ c, S.addOne a.1.stop = .ok c ∧ (keq c b.1.start = true → (a.2 == b.2) = false) := by
  intro a ha b hb h
  obtain ⟨c, hc, hn⟩ := hS.addOne _ _ h
  refine ⟨c, hc, fun hk => C26_coalesced hS hm a ha b hb ?_⟩
  rw [keq_iff] at hk
  exact ⟨h, fun d hd => by have := hn.2 d hd; grind⟩

example := C26_coalesced_addOne Demo.u8_lawful Demo.imap_reachable.any (Demo.by8 20 24, 'b')
    (by decide)
    (Demo.by8 25 255, 'c') (by decide) (by decide)

/-- **C26** Unless an `exhausted` range was inserted, no stored range is `exhausted`. -/
theorem C26_not_exhausted (hS : LawfulSteps S) {m : RangeInclusiveMap K V} (hm : Reachable S m) :
    ∀ e ∈ m.iter, e.1.exhausted = false := (hm.wf hS).fresh

example : ReachableAny Demo.u8 Demo.imap ∧ 2 ≤ Demo.imap.iter.length :=
  ⟨Demo.imap_reachable.any, by decide⟩
-- adjacent ranges with NaN values stay separate
example : Reachable Demo.tagSteps Demo.ioddMap ∧ Demo.ioddMap.iter.length = 3 :=
  ⟨Demo.ioddMap_reachable, by decide⟩

/-! ## C27 -/

/-- **C27** Two maps are `==` exactly when `get` agrees on every key. -/
theorem C27_canonical [ReflBEq V] (hS : LawfulSteps S) {m m' : RangeInclusiveMap K V}
    (hm : Reachable S m) (hm' : Reachable S m') :
    m.eq m' = true ↔
      ∀ k, ∃ o o', m.get k = .ok o ∧ m'.get k = .ok o' ∧ Agree o o' := by
  have : EquivBEq V := {}
  have h := hm.wf hS
  have h' := hm'.wf hS
  rw [eq_iff_look hS h h']
  constructor
  · intro hl k
    exact ⟨_, _, get_look h k, get_look h' k, hl k⟩
  · intro hl k
    obtain ⟨o, o', h1, h2, h3⟩ := hl k
    rw [get_look h] at h1
    rw [get_look h'] at h2
    cases h1; cases h2
    exact h3

example := C27_canonical (K := UIntW 8) (V := Char) (S := Demo.u8) Demo.u8_lawful
    (m := Demo.imap) (m' := Demo.imap') Demo.imap_reachable Demo.imap'_reachable

theorem iterEq_eq_of_lawful_inclusive [LawfulBEq V] (hk : ∀ a b : K, a ≤ b → b ≤ a → a = b) :
    ∀ {l l' : List (RangeInclusive K × V)}, iterEq entryEq l l' = true → l = l'
  | [], [], _ => rfl
  | _ :: _, [], h => by simp [iterEq] at h
  | [], _ :: _, h => by simp [iterEq] at h
  | ⟨⟨a, b, x⟩, v⟩ :: t, ⟨⟨a', b', x'⟩, v'⟩ :: t', h => by
    simp only [iterEq, entryEq, keq, Bool.and_eq_true, decide_eq_true_eq] at h
    have ih := iterEq_eq_of_lawful_inclusive hk h.2
    have h1 := hk a a' h.1.1.1.1.1 h.1.1.1.1.2
    have h2 := hk b b' h.1.1.1.2.1 h.1.1.1.2.2
    have h3 := eq_of_beq h.1.2
    have h4 := eq_of_beq h.1.1.2
    subst h1 h2 h3 h4 ih
    rfl

/-- **C27** For keys without distinct equal elements and exact value equality: the stored entries
are a function of the contents, whatever history led there. -/
theorem C27_history_independent [LawfulBEq V] (hS : LawfulSteps S)
    (hk : ∀ a b : K, a ≤ b → b ≤ a → a = b) (ops ops' : List (Op (RangeInclusive K) V))
    (hx : ∀ op ∈ ops, ∀ r ∈ op.inserted, r.exhausted = false)
    (hx' : ∀ op ∈ ops', ∀ r ∈ op.inserted, r.exhausted = false)
    (h : ∀ k, lastWrite icovers ivalid ops.reverse k = lastWrite icovers ivalid ops'.reverse k) :
    (run S ops).iter = (run S ops').iter := by
  apply iterEq_eq_of_lawful_inclusive hk
  refine (C27_canonical hS ⟨ops, hx, rfl⟩ ⟨ops', hx', rfl⟩).2 fun k => ?_
  exact ⟨_, _, C25_refinement_exact hS ops hx k, C25_refinement_exact hS ops' hx' k, by
    rw [h]; exact Agree.refl _⟩

/-- **C27** The maps that can be reached are exactly those with sorted, disjoint, coalesced, not
`exhausted` entries: the representation invariant is tight. -/
theorem C27_reachable_iff (hS : LawfulSteps S) (m : RangeInclusiveMap K V) :
    Reachable S m ↔
      (∀ e ∈ m.iter, e.1.start ≤ e.1.stop ∧ e.1.exhausted = false) ∧
      m.iter.Pairwise (fun a b => a.1.stop < b.1.start) ∧
      (∀ a ∈ m.iter, ∀ b ∈ m.iter, Next a.1.stop b.1.start → (a.2 == b.2) = false) := by
  rw [reachable_iff hS]
  constructor
  · intro h
    exact ⟨fun e he => ⟨h.sep.ne e he, h.fresh e he⟩, h.sep.pw.imp fun h => h.2, h.coal⟩
  · rintro ⟨h1, h2, h3⟩
    refine ⟨⟨?_, fun e he => (h1 e he).1⟩, h3, fun e he => (h1 e he).2⟩
    refine h2.imp_of_mem fun {a b} ha hb h => ⟨?_, h⟩
    have := (h1 a ha).1
    grind

example : (run Demo.u8 Demo.iops).iter = (run Demo.u8 [.insert (Demo.by8 25 255) 'c',
    .insert (Demo.by8 13 15) 'a', .insert (Demo.by8 20 24) 'b', .insert (Demo.by8 5 12) 'a',
    .insert (Demo.by8 0 2) 'a']).iter := by rfl
example : Demo.imap.eq (run Demo.u8 [.insert (Demo.by8 0 2) 'a']) = false := by decide

/-! ## C28 -/

/-- **C28** `insert` panics exactly when `start > end`, with the assertion, and then the map is
unchanged.  Since `S` may panic at the extremes, this includes that `add_one` is not called at the
greatest key nor `sub_one` at the least. -/
theorem C28_insert_panics (hS : LawfulSteps S) {m : RangeInclusiveMap K V}
    (hm : ReachableAny S m) (r : RangeInclusive K) (v : V) :
    ((∃ p, m.insert S r v = .error p) ↔ r.stop < r.start) ∧
    (∀ p, m.insert S r v = .error p → p = .assertFailed ∧ (m.apply S (.insert r v)).1 = m) := by
  by_cases hr : r.start ≤ r.stop
  · obtain ⟨m', h1, _⟩ := insert_ok hS (hm.sc hS) v hr
    simp [h1]
    grind
  · simp [insert_invalid hr, RangeInclusiveMap.apply]
    grind

example := C28_insert_panics (K := UIntW 8) (V := Char) (S := Demo.u8) Demo.u8_lawful
    (m := Demo.imap) Demo.imap_reachable.any (Demo.by8 2 22) 'q'

/-- **C28** Likewise for `remove`. -/
theorem C28_remove_panics (hS : LawfulSteps S) {m : RangeInclusiveMap K V}
    (hm : ReachableAny S m) (r : RangeInclusive K) :
    ((∃ p, m.remove S r = .error p) ↔ r.stop < r.start) ∧
    (∀ p, m.remove S r = .error p → p = .assertFailed ∧ (m.apply S (.remove r)).1 = m) := by
  by_cases hr : r.start ≤ r.stop
  · obtain ⟨m', h1, _⟩ := remove_spec hS (hm.sc hS) hr
    have h1 : m.remove S r = .ok m' := h1 _ (Nat.le_refl _)
    simp [h1]
    grind
  · simp [remove_invalid hr, RangeInclusiveMap.apply]
    grind

example := C28_remove_panics (K := UIntW 8) (V := Char) (S := Demo.u8) Demo.u8_lawful
    (m := Demo.imap) Demo.imap_reachable.any (Demo.by8 2 22)

/-- **C28** Lookups never panic, on any map. -/
theorem C28_lookups_never_panic (m : RangeInclusiveMap K V) (k : K) :
    (∃ o, m.getKeyValue k = .ok o) ∧ (∃ o, m.get k = .ok o) ∧ (∃ b, m.containsKey k = .ok b) := by
  have : ∃ o, m.getKeyValue k = .ok o := by
    unfold getKeyValue
    rw [BTreeMap.range_ok rfl]
    exact ⟨_, rfl⟩
  obtain ⟨o, h⟩ := this
  simp [RangeInclusiveMap.get, containsKey, h, bind, Except.bind, pure, Except.pure]

example := C28_lookups_never_panic (K := UIntW 8) (V := Char) Demo.imap ⟨7⟩

/-- **C28** Whatever the step functions do at the extremes (panic, wrap, saturate, ...), the result
of any history is the same. -/
theorem C28_extremes_irrelevant (hS : LawfulSteps S) {S' : StepFns K}
    (ha : ∀ a b, a < b → S.addOne a = S'.addOne a) (hb : ∀ a b, b < a → S.subOne a = S'.subOne a)
    (ops : List (Op (RangeInclusive K) V)) : run S ops = run S' ops := by
  have h0 := strict_lawful hS
  have hle := strict_le ha hb
  have hle' := strict_le (S := S) (S' := S) (fun _ _ _ => rfl) (fun _ _ _ => rfl)
  have hins : ∀ (m : RangeInclusiveMap K V) r v, SC m.btm → m.insert S r v = m.insert S' r v := by
    intro m r v hm
    by_cases hr : r.start ≤ r.stop
    · obtain ⟨m', h, _⟩ := insert_ok h0 hm v hr
      rw [(insertFuel_le hle _ m r v).ok _ h |> id (α := m.insert S' r v = _),
        (insertFuel_le hle' _ m r v).ok _ h |> id (α := m.insert S r v = _)]
    · rw [insert_invalid hr, insert_invalid hr]
  have hrem : ∀ (m : RangeInclusiveMap K V) r, SC m.btm → m.remove S r = m.remove S' r := by
    intro m r hm
    by_cases hr : r.start ≤ r.stop
    · obtain ⟨m', h, _⟩ := remove_spec h0 hm hr
      have h := h _ (Nat.le_refl _)
      rw [(removeFuel_le hle _ m r).ok _ h |> id (α := m.remove S' r = _),
        (removeFuel_le hle' _ m r).ok _ h |> id (α := m.remove S r = _)]
    · rw [remove_invalid hr, remove_invalid hr]
  have hext : ∀ items (m : RangeInclusiveMap K V), SC m.btm →
      m.extend S items = m.extend S' items := by
    intro items
    induction items with
    | nil => intro m _; rfl
    | cons e t ih =>
      intro m hm
      unfold RangeInclusiveMap.extend
      rw [← hins m e.1 e.2 hm]
      cases h : m.insert S e.1 e.2 with
      | error p => rfl
      | ok m' =>
        apply ih
        have := (hm.apply hS (.insert e.1 e.2)).1
        simpa [RangeInclusiveMap.apply, h] using this
  suffices ∀ m : RangeInclusiveMap K V, SC m.btm →
      ops.foldl (fun m op => (m.apply S op).1) m = ops.foldl (fun m op => (m.apply S' op).1) m from
    this _ SC.nil
  induction ops with
  | nil => intro m _; rfl
  | cons op ops ih =>
    intro m hm
    have : m.apply S op = m.apply S' op := by
      cases op with
      | insert r v => simp only [RangeInclusiveMap.apply, hins m r v hm]
      | remove r => simp only [RangeInclusiveMap.apply, hrem m r hm]
      | clear => rfl
      | extend items => exact hext items m hm
    simp only [List.foldl_cons, ← this]
    exact ih _ (hm.apply hS op).1

example : Demo.imap.insert Demo.u8 (Demo.by8 8 7) 'x' = .error .assertFailed := by rfl
example : (Demo.imap.insert Demo.u8 (Demo.by8 7 7) 'x').toOption.isSome := by rfl
-- `add_one(255)` does panic
example : Demo.u8.addOne ⟨255⟩ = .error .stepOverflow ∧
    Demo.u8.subOne ⟨0⟩ = .error .stepOverflow := ⟨by rfl, by rfl⟩
-- debug (panicking) and release (wrapping) step functions differ, but only at the extremes
example : run Demo.u8 Demo.iops = run (UIntW.steps 8 false) Demo.iops :=
  C28_extremes_irrelevant Demo.u8_lawful
    (fun a b h => by
      have := b.bits.isLt
      rw [UIntW.lt_def] at h
      simp [UIntW.steps, UIntW.add]
      omega)
    (fun a b h => by
      rw [UIntW.lt_def] at h
      simp [UIntW.steps, UIntW.sub]
      omega) _

/-! ## C29 -/

/-- **C29** The loop of `insert` stops within `len + 2` iterations: whatever larger number of
iterations is allowed, the result is the same, and is never "still running". -/
theorem C29_insert_terminates (hS : LawfulSteps S) {m : RangeInclusiveMap K V}
    (hm : ReachableAny S m) (r : RangeInclusive K) (v : V)
    (fuel : Nat) (hf : m.len + 2 ≤ fuel) :
    insertFuel S fuel m r v = m.insert S r v ∧ m.insert S r v ≠ .error .diverge := by
  by_cases hr : r.start ≤ r.stop
  · obtain ⟨m', h1, _⟩ := insert_spec hS (hm.sc hS) v hr
    simp [RangeInclusiveMap.insert, h1 fuel hf, h1 _ (Nat.le_refl _)]
  · simp [RangeInclusiveMap.insert, insertFuel, hr, bind, Except.bind, throw, throwThe,
      MonadExceptOf.throw]

example := C29_insert_terminates (K := UIntW 8) (V := Char) (S := Demo.u8) Demo.u8_lawful
    (m := Demo.imap) Demo.imap_reachable.any (Demo.by8 2 22) 'q' 9 (by decide)

/-- **C29** Likewise for `remove`. -/
theorem C29_remove_terminates (hS : LawfulSteps S) {m : RangeInclusiveMap K V}
    (hm : ReachableAny S m) (r : RangeInclusive K) (fuel : Nat) (hf : m.len + 2 ≤ fuel) :
    removeFuel S fuel m r = m.remove S r ∧ m.remove S r ≠ .error .diverge := by
  by_cases hr : r.start ≤ r.stop
  · obtain ⟨m', h1, _⟩ := remove_spec hS (hm.sc hS) hr
    simp [RangeInclusiveMap.remove, h1 fuel hf, h1 _ (Nat.le_refl _)]
  · simp [RangeInclusiveMap.remove, removeFuel, hr, bind, Except.bind, throw, throwThe,
      MonadExceptOf.throw]

example : insertFuel Demo.u8 3 Demo.imap (Demo.by8 0 255) 'x' = .error .diverge := by rfl
example : (insertFuel Demo.u8 (Demo.imap.len + 2) Demo.imap (Demo.by8 0 255) 'x').toOption.map
    (·.btm) = some [(Demo.by8 0 255, 'x')] := by rfl

/-! ## C30 -/

/-- **C30** `get_key_value(k)` is `Some((r, v))` iff `(r, v)` is an entry of `iter()` whose range
contains `k`. -/
theorem C30_get_key_value (hS : LawfulSteps S) {m : RangeInclusiveMap K V} (hm : Reachable S m)
    (k : K) (e : RangeInclusive K × V) :
    m.getKeyValue k = .ok (some e) ↔ e ∈ m.iter ∧ e.1.start ≤ k ∧ k ≤ e.1.stop := by
  obtain ⟨o, h, hs⟩ := getKeyValue_spec (hm.wf hS).sep (hm.wf hS).fresh k
  rw [h, RangeInclusiveMap.iter, ← hs]
  simp

example := C30_get_key_value (K := UIntW 8) (V := Char) (S := Demo.u8) Demo.u8_lawful
    (m := Demo.imap) Demo.imap_reachable ⟨7⟩ (Demo.by8 5 15, 'a')

/-- **C30** At most one entry contains a key. -/
theorem C30_unique (hS : LawfulSteps S) {m : RangeInclusiveMap K V} (hm : ReachableAny S m) (k : K)
    {a b : RangeInclusive K × V} (ha : a ∈ m.iter) (hb : b ∈ m.iter)
    (hka : a.1.start ≤ k ∧ k ≤ a.1.stop) (hkb : b.1.start ≤ k ∧ k ≤ b.1.stop) : a = b :=
  (hm.sc hS).sep.unique ha hb hka hkb

example := C30_unique (K := UIntW 8) (V := Char) (S := Demo.u8) Demo.u8_lawful (m := Demo.imap)
    Demo.imap_reachable.any ⟨7⟩ (a := (Demo.by8 5 15, 'a')) (b := (Demo.by8 5 15, 'a'))
    (by decide) (by decide) (by decide) (by decide)

/-- **C30** `get` and `contains_key` are its projections. -/
theorem C30_projections (m : RangeInclusiveMap K V) (k : K) :
    ∃ o, m.getKeyValue k = .ok o ∧ m.get k = .ok (o.map (·.2)) ∧
      m.containsKey k = .ok o.isSome := by
  obtain ⟨o, h⟩ := (C28_lookups_never_panic m k).1
  refine ⟨o, h, ?_, ?_⟩ <;>
    simp [RangeInclusiveMap.get, containsKey, h, bind, Except.bind, pure, Except.pure]

example : Demo.imap.getKeyValue ⟨255⟩ = .ok (some (Demo.by8 25 255, 'c')) ∧
    Demo.imap.getKeyValue ⟨16⟩ = .ok none := ⟨by rfl, by rfl⟩

/-! ### Cases that meet the hypotheses -/

example := C27_history_independent (K := UIntW 8) (V := Char) (S := Demo.u8) Demo.u8_lawful
    Demo.u8_antisymm Demo.iops ([.insert (Demo.by8 2 3) 'z', .remove (Demo.by8 2 3)] ++ Demo.iops)
    (by decide) (by decide) (Demo.forall8 (by decide +kernel))

end Verif.Props

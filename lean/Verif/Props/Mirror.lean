import Verif.Props.Exact
import Verif.Props.IMap
import Verif.Props.IIter
import Verif.Proof.ISet
import Verif.Props.Demo

/-!
# C69: inclusive maps have no preferred direction

The code looks at the entries before a range and at those after it by different means (a reverse
scan from the start, a forward scan, a look-up of the end), and steps down in one case and up in
the other.  Turning the key order around, swapping `add_one` with `sub_one`, and reflecting every
range, gives the reflected results.
-/
set_option linter.unusedSectionVars false

namespace Verif.Spec

/-- The keys in the opposite order (`std::cmp::Reverse`). -/
structure Rev (K : Type) where
  of ::
  val : K
  deriving DecidableEq

namespace Rev
variable {K V : Type}

instance [LE K] : LE (Rev K) := ⟨fun a b => b.val ≤ a.val⟩
instance [LT K] : LT (Rev K) := ⟨fun a b => b.val < a.val⟩
instance [LE K] [DecidableLE K] : DecidableLE (Rev K) :=
  fun a b => inferInstanceAs (Decidable (b.val ≤ a.val))
instance [LT K] [DecidableLT K] : DecidableLT (Rev K) :=
  fun a b => inferInstanceAs (Decidable (b.val < a.val))

theorem le_def [LE K] {a b : Rev K} : a ≤ b ↔ b.val ≤ a.val := Iff.rfl
theorem lt_def [LT K] {a b : Rev K} : a < b ↔ b.val < a.val := Iff.rfl

instance [LE K] [LT K] [Std.IsLinearPreorder K] : Std.IsLinearPreorder (Rev K) where
  le_refl a := by rw [le_def]; grind
  le_trans a b c h1 h2 := by rw [le_def] at *; grind
  le_total a b := by rw [le_def, le_def]; grind

instance [LE K] [LT K] [Std.IsLinearPreorder K] [Std.LawfulOrderLT K] :
    Std.LawfulOrderLT (Rev K) where
  lt_iff a b := by rw [le_def, le_def, lt_def]; grind

/-- A range seen in the opposite order. -/
def range (r : RangeInclusive K) : RangeInclusive (Rev K) := ⟨⟨r.stop⟩, ⟨r.start⟩, r.exhausted⟩

/-- An entry seen in the opposite order. -/
def entry (e : RangeInclusive K × V) : RangeInclusive (Rev K) × V := (range e.1, e.2)

/-- In the opposite order, the successor is the predecessor. -/
def steps (S : StepFns K) : StepFns (Rev K) where
  addOne a := (S.subOne a.val).map of
  subOne a := (S.addOne a.val).map of

/-- The calls with every range seen in the opposite order. -/
def op : Op (RangeInclusive K) V → Op (RangeInclusive (Rev K)) V := Op.map range id

/-- The map that holds the reflected entries. -/
def map (m : RangeInclusiveMap K V) : RangeInclusiveMap (Rev K) V := ⟨(m.iter.map entry).reverse⟩

theorem entry_surj (y : RangeInclusive (Rev K) × V) : ∃ x, entry x = y :=
  ⟨(⟨y.1.stop.val, y.1.start.val, y.1.exhausted⟩, y.2), rfl⟩

theorem range_surj (y : RangeInclusive (Rev K)) : ∃ x, range x = y :=
  ⟨⟨y.stop.val, y.start.val, y.exhausted⟩, rfl⟩

theorem range_inj {x y : RangeInclusive K} (h : range x = range y) : x = y := by
  cases x; cases y
  simp only [range, RangeInclusive.mk.injEq, of.injEq] at h
  simp [h]

theorem entry_inj {x y : RangeInclusive K × V} (h : entry x = entry y) : x = y := by
  cases x; cases y
  simp only [entry, Prod.mk.injEq] at h
  simp [range_inj h.1, h.2]

theorem mem_map {m : RangeInclusiveMap K V} {x : RangeInclusive K × V} :
    entry x ∈ (map m).iter ↔ x ∈ m.iter := by
  simp only [map, RangeInclusiveMap.iter, List.mem_reverse, List.mem_map]
  constructor
  · rintro ⟨y, hy, h⟩
    rwa [← entry_inj h]
  · exact fun h => ⟨x, h, rfl⟩

variable [LE K] [LT K] [DecidableLE K] [DecidableLT K]
  [Std.IsLinearPreorder K] [Std.LawfulOrderLT K]

theorem next_iff {a b : K} : Next (⟨b⟩ : Rev K) ⟨a⟩ ↔ Next a b := by
  unfold Next
  constructor
  · rintro ⟨h1, h2⟩
    refine ⟨h1, fun d hd => ?_⟩
    have := h2 ⟨d⟩
    simp only [le_def, lt_def] at this
    grind
  · rintro ⟨h1, h2⟩
    refine ⟨h1, fun d hd => ?_⟩
    have := h2 d.val
    simp only [le_def, lt_def] at *
    grind

theorem lawful {S : StepFns K} (hS : LawfulSteps S) : LawfulSteps (steps S) where
  addOne a b h := by
    obtain ⟨c, h1, h2⟩ := hS.subOne a.val b.val h
    exact ⟨⟨c⟩, by simp [steps, h1, Except.map], next_iff.2 h2⟩
  subOne a b h := by
    obtain ⟨c, h1, h2⟩ := hS.addOne a.val b.val h
    exact ⟨⟨c⟩, by simp [steps, h1, Except.map], next_iff.2 h2⟩

theorem icovers_iff {r : RangeInclusive K} {k : Rev K} :
    icovers (range r) k = icovers r k.val := by
  simp only [icovers, range, le_def]
  apply decide_eq_decide.2
  grind

theorem common_iff {a b : RangeInclusive K} :
    Common icovers (range a) (range b) ↔ Common icovers a b := by
  constructor
  · rintro ⟨k, h⟩
    exact ⟨k.val, by rw [icovers_iff, icovers_iff] at h; exact h⟩
  · rintro ⟨k, h⟩
    exact ⟨⟨k⟩, by rwa [icovers_iff, icovers_iff]⟩

theorem touch_iff {a b : RangeInclusive K} : ITouch (range a) (range b) ↔ ITouch a b := by
  unfold ITouch
  rw [common_iff]
  refine or_congr Iff.rfl ?_
  rw [or_comm]
  exact or_congr next_iff next_iff

theorem afterRemove_iff {S : StepFns K} {r : RangeInclusive K} {x y : RangeInclusive K × V} :
    IAfterRemove (steps S) (range r) (entry x) (entry y) ↔ IAfterRemove S r x y := by
  constructor
  · intro h
    generalize hx : entry x = x' at h
    generalize hy : entry y = y' at h
    cases h with
    | keep h =>
      subst hx
      obtain rfl := entry_inj hy
      exact .keep fun hc => h (common_iff.2 hc)
    | left h1 h2 h3 =>
      rename_i p
      subst hx
      obtain ⟨q, hq, rfl⟩ : ∃ q, S.addOne r.stop = .ok q ∧ p = ⟨q⟩ := by
        change (S.addOne r.stop).map of = .ok p at h3
        cases hs : S.addOne r.stop with
        | error e => simp [hs, Except.map] at h3
        | ok q => simp [hs, Except.map] at h3; exact ⟨q, rfl, h3.symm⟩
      obtain rfl : y = (.mk' q x.1.stop, x.2) := entry_inj hy
      exact .right (common_iff.1 h1) h2 hq
    | right h1 h2 h3 =>
      rename_i p
      subst hx
      obtain ⟨q, hq, rfl⟩ : ∃ q, S.subOne r.start = .ok q ∧ p = ⟨q⟩ := by
        change (S.subOne r.start).map of = .ok p at h3
        cases hs : S.subOne r.start with
        | error e => simp [hs, Except.map] at h3
        | ok q => simp [hs, Except.map] at h3; exact ⟨q, rfl, h3.symm⟩
      obtain rfl : y = (.mk' x.1.start q, x.2) := entry_inj hy
      exact .left (common_iff.1 h1) h2 hq
  · rintro (h | ⟨h1, h2, h3⟩ | ⟨h1, h2, h3⟩)
    · exact .keep fun hc => h (common_iff.1 hc)
    · exact IAfterRemove.right (S := steps S) (r := range r) (x := entry x)
        (common_iff.2 h1) h2 (by simp [steps, range, h3, Except.map])
    · exact IAfterRemove.left (S := steps S) (r := range r) (x := entry x)
        (common_iff.2 h1) h2 (by simp [steps, range, h3, Except.map])

theorem afterInsert_iff [BEq V] {S : StepFns K} {r : RangeInclusive K} {v : V}
    {x y : RangeInclusive K × V} :
    IAfterInsert (steps S) (range r) v (entry x) (entry y) ↔ IAfterInsert S r v x y := by
  constructor
  · intro h
    generalize hx : entry x = x' at h
    generalize hy : entry y = y' at h
    cases h with
    | equal h1 h2 =>
      subst hx
      obtain rfl := entry_inj hy
      exact .equal h1 fun hc => h2 (touch_iff.2 hc)
    | other h1 h2 =>
      subst hx hy
      exact .other h1 (afterRemove_iff.1 h2)
  · rintro (⟨h1, h2⟩ | ⟨h1, h2⟩)
    · exact .equal h1 fun hc => h2 (touch_iff.1 hc)
    · exact .other h1 (afterRemove_iff.2 h2)

end Rev

variable {K V : Type} [LE K] [LT K] [DecidableLE K] [DecidableLT K]

/-- `r` is a largest range within `outer` that has no key in common with any of the entries. -/
structure IsGap (es : List (RangeInclusive K × V)) (outer r : RangeInclusive K) : Prop where
  fresh : r.exhausted = false
  ne : r.start ≤ r.stop
  lo : outer.start ≤ r.start
  hi : r.stop ≤ outer.stop
  free : ∀ e ∈ es, ¬ Common icovers e.1 r
  max : ∀ r' : RangeInclusive K, outer.start ≤ r'.start → r'.stop ≤ outer.stop →
    r'.start ≤ r.start → r.stop ≤ r'.stop → (∀ e ∈ es, ¬ Common icovers e.1 r') →
    r.start ≤ r'.start ∧ r'.stop ≤ r.stop

end Verif.Spec

namespace Verif.Props.Inclusive
open Spec RangeInclusiveMap
variable {K : Type} [LE K] [LT K] [DecidableLE K] [DecidableLT K]
  [Std.IsLinearPreorder K] [Std.LawfulOrderLT K] {V : Type} [BEq V] [PartialEquivBEq V]
  {S : StepFns K}

/-- **C69** The reflected map is one that the operations of the opposite order can reach. -/
theorem C69_reachable (hS : LawfulSteps S) {m : RangeInclusiveMap K V} (hm : Reachable S m) :
    Reachable (Rev.steps S) (Rev.map m) := by
  rw [C27_reachable_iff (Rev.lawful hS)]
  obtain ⟨h1, h2, h3⟩ := (C27_reachable_iff hS m).1 hm
  refine ⟨fun e he => ?_, ?_, fun a ha b hb hn => ?_⟩
  · obtain ⟨x, rfl⟩ := Rev.entry_surj e
    exact h1 x (Rev.mem_map.1 he)
  · show (List.reverse _).Pairwise _
    rw [List.pairwise_reverse, List.pairwise_map]
    exact h2
  · obtain ⟨x, rfl⟩ := Rev.entry_surj a
    obtain ⟨y, rfl⟩ := Rev.entry_surj b
    have := h3 y (Rev.mem_map.1 hb) x (Rev.mem_map.1 ha) (Rev.next_iff.1 hn)
    show (x.2 == y.2) = false
    cases hxy : x.2 == y.2 with
    | false => rfl
    | true => rw [PartialEquivBEq.symm hxy] at this; cases this

example := Inclusive.C69_reachable (K := UIntW 8) (V := Char) (S := Demo.u8) Demo.u8_lawful
    (m := Demo.imap) Demo.imap_reachable

/-- **C69** `insert` of the reflected range into the reflected map gives the reflected result, or
panics likewise. -/
theorem C69_insert (hk : ∀ a b : K, a ≤ b → b ≤ a → a = b) (hS : LawfulSteps S)
    {m : RangeInclusiveMap K V} (hm : Reachable S m) {r : RangeInclusive K}
    (hr : r.exhausted = false) (v : V) :
    (Rev.map m).insert (Rev.steps S) (Rev.range r) v = (m.insert S r v).map Rev.map := by
  have hm' := C69_reachable hS hm
  obtain ⟨p1, p2⟩ := C28_insert_panics hS hm.any r v
  obtain ⟨q1, q2⟩ := C28_insert_panics (Rev.lawful hS) hm'.any (Rev.range r) v
  cases h : m.insert S r v with
  | error p =>
    obtain ⟨p', hp'⟩ := q1.2 (p1.1 ⟨p, h⟩ : r.stop < r.start)
    rw [hp', (p2 p h).1, (q2 p' hp').1]
    rfl
  | ok n =>
    cases h' : (Rev.map m).insert (Rev.steps S) (Rev.range r) v with
    | error p' =>
      obtain ⟨p, hp⟩ := p1.2 (q1.1 ⟨p', h'⟩ : r.stop < r.start)
      simp [h] at hp
    | ok n' =>
      obtain ⟨a, a1, a2, a3, a4⟩ := C51_insert_entries hS hm.any h
      obtain ⟨b, b1, b2, b3, b4⟩ := C51_insert_entries (Rev.lawful hS) hm'.any h'
      obtain ⟨b, rfl⟩ := Rev.range_surj b
      have e1 : a.exhausted = false := by rcases a1 with rfl | a1 <;> assumption
      have e2 : b.exhausted = false := by
        rcases b1 with b1 | b1
        · rwa [Rev.range_inj b1]
        · exact b1
      -- the least start on one side is the greatest end on the other
      have key : ∀ {x}, x ∈ m.iter → (x.2 == v) = true → ITouch r x.1 →
          Rev.entry x ∈ (Rev.map m).iter ∧ ((Rev.entry x).2 == v) = true ∧
            ITouch (Rev.range r) (Rev.entry x).1 :=
        fun h1 h2 h3 => ⟨Rev.mem_map.2 h1, h2, Rev.touch_iff.2 h3⟩
      have key' : ∀ {x}, Rev.entry x ∈ (Rev.map m).iter → ((Rev.entry x).2 == v) = true →
          ITouch (Rev.range r) (Rev.entry x).1 → x ∈ m.iter ∧ (x.2 == v) = true ∧ ITouch r x.1 :=
        fun h1 h2 h3 => ⟨Rev.mem_map.1 h1, h2, Rev.touch_iff.1 h3⟩
      have hstart : a.start = b.start := by
        apply hk
        · refine a2.le _ ?_
          rcases b3.mem with h | ⟨y, hy, hv, ht, h⟩
          · exact Or.inl (congrArg Rev.val h)
          · obtain ⟨x, rfl⟩ := Rev.entry_surj y
            obtain ⟨k1, k2, k3⟩ := key' hy hv ht
            exact Or.inr ⟨x, k1, k2, k3, congrArg Rev.val h⟩
        · refine b3.le ⟨a.start⟩ ?_
          rcases a2.mem with h | ⟨x, hx, hv, ht, h⟩
          · exact Or.inl (congrArg Rev.of h)
          · obtain ⟨k1, k2, k3⟩ := key hx hv ht
            exact Or.inr ⟨_, k1, k2, k3, congrArg Rev.of h⟩
      have hstop : a.stop = b.stop := by
        apply hk
        · refine b2.le ⟨a.stop⟩ ?_
          rcases a3.mem with h | ⟨x, hx, hv, ht, h⟩
          · exact Or.inl (congrArg Rev.of h)
          · obtain ⟨k1, k2, k3⟩ := key hx hv ht
            exact Or.inr ⟨_, k1, k2, k3, congrArg Rev.of h⟩
        · refine a3.le _ ?_
          rcases b2.mem with h | ⟨y, hy, hv, ht, h⟩
          · exact Or.inl (congrArg Rev.val h)
          · obtain ⟨x, rfl⟩ := Rev.entry_surj y
            obtain ⟨k1, k2, k3⟩ := key' hy hv ht
            exact Or.inr ⟨x, k1, k2, k3, congrArg Rev.val h⟩
      have hab : a = b := by cases a; cases b; simp_all
      subst hab
      have hn : Reachable S n := hm.insert hr h
      have hn' : Reachable (Rev.steps S) n' := hm'.insert hr h'
      refine congrArg Except.ok
        (C51_entries_determine (Rev.lawful hS) hn'.any (C69_reachable hS hn).any fun y => ?_)
      obtain ⟨y, rfl⟩ := Rev.entry_surj y
      rw [Rev.mem_map, b4, a4]
      refine or_congr ⟨fun h => Rev.entry_inj h, fun h => congrArg Rev.entry h⟩ ?_
      constructor
      · rintro ⟨x, hx, h⟩
        obtain ⟨x, rfl⟩ := Rev.entry_surj x
        exact ⟨x, Rev.mem_map.1 hx, Rev.afterInsert_iff.1 h⟩
      · rintro ⟨x, hx, h⟩
        exact ⟨_, Rev.mem_map.2 hx, Rev.afterInsert_iff.2 h⟩

example := Inclusive.C69_insert (K := UIntW 8) (V := Char) (S := Demo.u8) Demo.u8_antisymm
    Demo.u8_lawful (m := Demo.imap) Demo.imap_reachable (r := Demo.by8 2 22) (by decide) 'q'

/-- **C69** The same for `remove` (of any range, `exhausted` or not). -/
theorem C69_remove (hS : LawfulSteps S)
    {m : RangeInclusiveMap K V} (hm : Reachable S m) (r : RangeInclusive K) :
    (Rev.map m).remove (Rev.steps S) (Rev.range r) = (m.remove S r).map Rev.map := by
  have hm' := C69_reachable hS hm
  obtain ⟨p1, p2⟩ := C28_remove_panics hS hm.any r
  obtain ⟨q1, q2⟩ := C28_remove_panics (Rev.lawful hS) hm'.any (Rev.range r)
  cases h : m.remove S r with
  | error p =>
    obtain ⟨p', hp'⟩ := q1.2 (p1.1 ⟨p, h⟩ : r.stop < r.start)
    rw [hp', (p2 p h).1, (q2 p' hp').1]
    rfl
  | ok n =>
    cases h' : (Rev.map m).remove (Rev.steps S) (Rev.range r) with
    | error p' =>
      obtain ⟨p, hp⟩ := p1.2 (q1.1 ⟨p', h'⟩ : r.stop < r.start)
      simp [h] at hp
    | ok n' =>
      have a4 := C51_remove_entries hS hm.any h
      have b4 := C51_remove_entries (Rev.lawful hS) hm'.any h'
      have hn : Reachable S n := hm.remove h
      have hn' : Reachable (Rev.steps S) n' := hm'.remove h'
      refine congrArg Except.ok
        (C51_entries_determine (Rev.lawful hS) hn'.any (C69_reachable hS hn).any fun y => ?_)
      obtain ⟨y, rfl⟩ := Rev.entry_surj y
      rw [Rev.mem_map, b4, a4]
      constructor
      · rintro ⟨x, hx, h⟩
        obtain ⟨x, rfl⟩ := Rev.entry_surj x
        exact ⟨x, Rev.mem_map.1 hx, Rev.afterRemove_iff.1 h⟩
      · rintro ⟨x, hx, h⟩
        exact ⟨_, Rev.mem_map.2 hx, Rev.afterRemove_iff.2 h⟩

example := Inclusive.C69_remove (K := UIntW 8) (V := Char) (S := Demo.u8) Demo.u8_lawful
    (m := Demo.imap) Demo.imap_reachable (Demo.by8 2 22)

/-- **C69** The same for every call, including `extend`; the outcome (normal or panic) is the same. -/
theorem C69_apply (hk : ∀ a b : K, a ≤ b → b ≤ a → a = b) (hS : LawfulSteps S)
    {m : RangeInclusiveMap K V} (hm : Reachable S m) (op : Op (RangeInclusive K) V)
    (hx : ∀ r ∈ op.inserted, r.exhausted = false) :
    (Rev.map m).apply (Rev.steps S) (Rev.op op) = ((m.apply S op).1 |> Rev.map, (m.apply S op).2) := by
  cases op with
  | insert r v =>
    have := C69_insert hk hS hm (hx r (by simp [Op.inserted])) v
    simp only [Rev.op, Op.map, RangeInclusiveMap.apply, id, this]
    cases m.insert S r v <;> rfl
  | remove r =>
    have := C69_remove hS hm r
    simp only [Rev.op, Op.map, RangeInclusiveMap.apply, this]
    cases m.remove S r <;> rfl
  | clear => rfl
  | extend items =>
    simp only [Rev.op, Op.map, RangeInclusiveMap.apply]
    simp only [Op.inserted] at hx
    induction items generalizing m with
    | nil => rfl
    | cons e t ih =>
      have hr : e.1.exhausted = false := hx _ (by simp)
      have := C69_insert hk hS hm hr e.2
      simp only [List.map_cons, Prod.map, id, RangeInclusiveMap.extend, this]
      cases h : m.insert S e.1 e.2 with
      | error p => rfl
      | ok m' => exact ih (hm.insert hr h) fun r h => hx r (by simp at h ⊢; exact Or.inr h)

example := Inclusive.C69_apply (K := UIntW 8) (V := Char) (S := Demo.u8) Demo.u8_antisymm
    Demo.u8_lawful (m := Demo.imap) Demo.imap_reachable (.insert (Demo.by8 2 22) 'q') (by decide)

/-- **C69** Hence the same for whole histories: the entries are the reflected ones, in the opposite
order. -/
theorem C69_run (hk : ∀ a b : K, a ≤ b → b ≤ a → a = b) (hS : LawfulSteps S)
    (ops : List (Op (RangeInclusive K) V))
    (hx : ∀ op ∈ ops, ∀ r ∈ op.inserted, r.exhausted = false) :
    (run (Rev.steps S) (ops.map Rev.op)).iter = ((run S ops).iter.map Rev.entry).reverse := by
  suffices h : ∀ (m : RangeInclusiveMap K V), Reachable S m →
      (ops.map Rev.op).foldl (fun m op => (m.apply (Rev.steps S) op).1) (Rev.map m) =
        Rev.map (ops.foldl (fun m op => (m.apply S op).1) m) by
    exact congrArg RangeInclusiveMap.iter (h _ Reachable.new)
  induction ops with
  | nil => exact fun _ _ => rfl
  | cons op t ih =>
    intro m hm
    have ho : ∀ r ∈ op.inserted, r.exhausted = false := hx op (by simp)
    simp only [List.map_cons, List.foldl_cons, C69_apply hk hS hm op ho]
    exact ih (fun o h => hx o (by simp [h])) _ (hm.apply op ho)

example := Inclusive.C69_run (K := UIntW 8) (V := Char) (S := Demo.u8) Demo.u8_antisymm
    Demo.u8_lawful Demo.iops (by decide)

/-- **C69** Look-ups find the reflected entry. -/
theorem C69_get_key_value (hS : LawfulSteps S) {m : RangeInclusiveMap K V} (hm : Reachable S m)
    (k : K) :
    (Rev.map m).getKeyValue ⟨k⟩ = (m.getKeyValue k).map (Option.map Rev.entry) ∧
      (Rev.map m).get ⟨k⟩ = m.get k ∧ (Rev.map m).containsKey ⟨k⟩ = m.containsKey k := by
  have hm' := C69_reachable hS hm
  obtain ⟨o, h1, h2, h3⟩ := C30_projections m k
  obtain ⟨o', q1, q2, q3⟩ := C30_projections (Rev.map m) ⟨k⟩
  have hex : o' = o.map Rev.entry := by
    cases o with
    | some e =>
      obtain ⟨a, b, c⟩ := (C30_get_key_value hS hm k e).1 h1
      have := (C30_get_key_value (Rev.lawful hS) hm' ⟨k⟩ (Rev.entry e)).2 ⟨Rev.mem_map.2 a, c, b⟩
      rw [q1] at this
      exact Except.ok.inj this
    | none =>
      cases o' with
      | none => rfl
      | some e =>
        obtain ⟨e, rfl⟩ := Rev.entry_surj e
        obtain ⟨a, b, c⟩ := (C30_get_key_value (Rev.lawful hS) hm' ⟨k⟩ _).1 q1
        have := (C30_get_key_value hS hm k e).2 ⟨Rev.mem_map.1 a, c, b⟩
        simp [h1] at this
  subst hex
  rw [h1, q1, h2, q2, h3, q3]
  refine ⟨rfl, ?_, ?_⟩
  · cases o <;> rfl
  · cases o <;> rfl

example := Inclusive.C69_get_key_value (K := UIntW 8) (V := Char) (S := Demo.u8) Demo.u8_lawful
    (m := Demo.imap) Demo.imap_reachable ⟨7⟩

/-- **C69** First and last entry are exchanged. -/
theorem C69_first_last (m : RangeInclusiveMap K V) :
    (Rev.map m).firstRangeValue = m.lastRangeValue.map Rev.entry ∧
      (Rev.map m).lastRangeValue = m.firstRangeValue.map Rev.entry := by
  simp [firstRangeValue, lastRangeValue, Rev.map, RangeInclusiveMap.iter]

example := Inclusive.C69_first_last (K := UIntW 8) (V := Char) Demo.imap

/-- **C69** `overlapping` yields the reflected entries, in the opposite order. -/
theorem C69_overlapping (hS : LawfulSteps S) {m : RangeInclusiveMap K V} (hm : Reachable S m)
    (q : RangeInclusive K) :
    ∃ o o' l, m.overlapping q = .ok o ∧ Yields Overlapping.next o l ∧
      (Rev.map m).overlapping (Rev.range q) = .ok o' ∧
      Yields Overlapping.next o' (l.map Rev.entry).reverse := by
  obtain ⟨o, h1, h2⟩ := C32_overlapping_exact hS hm.any q
  obtain ⟨o', q1, q2⟩ := C32_overlapping_exact (Rev.lawful hS) (C69_reachable hS hm).any (Rev.range q)
  refine ⟨o, o', _, h1, h2, q1, ?_⟩
  refine cast (congrArg _ ?_) q2
  show List.filter _ (List.reverse (List.map _ _)) = _
  rw [List.filter_reverse, List.filter_map]
  congr 3
  funext e
  exact Bool.and_comm _ _

example := Inclusive.C69_overlapping (K := UIntW 8) (V := Char) (S := Demo.u8) Demo.u8_lawful
    (m := Demo.imap) Demo.imap_reachable (Demo.by8 2 22)

/-- **C69** What `gaps` yields: exactly the largest free ranges within `outer`. -/
theorem C69_gaps_iff (hk : ∀ a b : K, a ≤ b → b ≤ a → a = b) (hS : LawfulSteps S)
    {m : RangeInclusiveMap K V} (hm : Reachable S m) (outer : RangeInclusive K) :
    ∃ g l, m.gaps outer = .ok g ∧ YieldsE (Gaps.next S) g l ∧
      l.Pairwise (fun r r' => r.stop < r'.start) ∧ ∀ r, r ∈ l ↔ IsGap m.iter outer r := by
  obtain ⟨g, l, g1, g2, g3⟩ := C31_gaps_exact_any hS hm.any outer
  obtain ⟨_, _, p1, p2, p3, p4⟩ := C31_gaps_ordered hS hm.any outer
  obtain rfl := Except.ok.inj (g1.symm.trans p1)
  obtain rfl := YieldsE.unique g2 p2
  obtain ⟨_, _, q1, q2, q3⟩ := C31_gaps_maximal hS hm outer
  obtain rfl := Except.ok.inj (g1.symm.trans q1)
  obtain rfl := YieldsE.unique g2 q2
  have hget : ∀ k, (∀ e ∈ m.iter, ¬ (e.1.start ≤ k ∧ k ≤ e.1.stop)) → m.get k = .ok none := by
    intro k h
    obtain ⟨o, h1, h2, -⟩ := C30_projections m k
    cases o with
    | none => exact h2
    | some e =>
      obtain ⟨a, b⟩ := (C30_get_key_value hS hm k e).1 h1
      exact absurd b (h e a)
  have hfree : ∀ r : RangeInclusive K, (∀ e ∈ m.iter, ¬ Common icovers e.1 r) →
      ∀ k, r.start ≤ k → k ≤ r.stop → ∀ e ∈ m.iter, ¬ (e.1.start ≤ k ∧ k ≤ e.1.stop) :=
    fun r h k h1 h2 e he hc => h e he ⟨k, by simpa [icovers] using hc, by simp [icovers, h1, h2]⟩
  have hgap : ∀ r ∈ l, IsGap m.iter outer r := by
    intro r hr
    obtain ⟨a1, a2, a3, a4⟩ := p3 r hr
    refine ⟨a2, a1, a3, a4, ?_, ?_⟩
    · rintro e he ⟨k, h1, h2⟩
      simp only [icovers, decide_eq_true_eq] at h1 h2
      exact ((g3 k).1 ⟨r, hr, h2⟩).2.2 e he h1
    · intro r' o1 o2 s1 s2 hf
      have := q3 r hr r' o1 o2 s1 s2 fun k h1 h2 => hget k (hfree r' hf k h1 h2)
      simp only [keq_iff] at this
      grind
  refine ⟨g, l, g1, g2, ?_, fun r => ⟨hgap r, fun h => ?_⟩⟩
  · refine p4.imp ?_
    rintro r r' ⟨e, -, h1, h2, h3⟩
    have := h1.1
    grind
  · obtain ⟨r', hr', h1, h2⟩ := (g3 r.start).2 ⟨h.lo, by have := h.ne; have := h.hi; grind,
      hfree r h.free r.start (by grind) h.ne⟩
    have h' := hgap r' hr'
    have hlo := h.lo
    have hhi := h.hi
    have hlo' := h'.lo
    have hhi' := h'.hi
    have hne := h.ne
    have hne' := h'.ne
    -- the union of the two
    have hu : ∀ e ∈ m.iter, ¬ Common icovers e.1 (.mk' r'.start (rmax r.stop r'.stop)) := by
      rintro e he ⟨k, c1, c2⟩
      simp only [icovers, RangeInclusive.mk', decide_eq_true_eq, le_rmax] at c1 c2
      by_cases hc : k ≤ r'.stop
      · exact hfree r' h'.free k c2.1 hc e he c1
      · exact hfree r h.free k (by grind) (by grind) e he c1
    have u1 := h.max (.mk' r'.start (rmax r.stop r'.stop)) hlo' (rmax_le.2 ⟨hhi, hhi'⟩) h1 (le_rmax.2 (Or.inl (Std.le_refl _))) hu
    have u2 := h'.max (.mk' r'.start (rmax r.stop r'.stop)) hlo' (rmax_le.2 ⟨hhi, hhi'⟩) (Std.le_refl _)
      (le_rmax.2 (Or.inr (Std.le_refl _))) hu
    simp only [RangeInclusive.mk', rmax_le] at u1 u2
    have e1 := hk _ _ u1.1 h1
    have e2 := hk _ _ u2.2.1 u1.2.2
    have e3 := h.fresh
    have e4 := h'.fresh
    obtain rfl : r = r' := by cases r; cases r'; simp_all
    exact hr'

example := Inclusive.C69_gaps_iff (K := UIntW 8) (V := Char) (S := Demo.u8) Demo.u8_antisymm
    Demo.u8_lawful (m := Demo.imap) Demo.imap_reachable (Demo.by8 2 22)

/-- **C69** `gaps` yields the reflected gaps, in the opposite order. -/
theorem C69_gaps (hk : ∀ a b : K, a ≤ b → b ≤ a → a = b) (hS : LawfulSteps S)
    {m : RangeInclusiveMap K V} (hm : Reachable S m) (outer : RangeInclusive K) :
    ∃ g g' l, m.gaps outer = .ok g ∧ YieldsE (Gaps.next S) g l ∧
      (Rev.map m).gaps (Rev.range outer) = .ok g' ∧
      YieldsE (Gaps.next (Rev.steps S)) g' (l.map Rev.range).reverse := by
  have hk' : ∀ a b : Rev K, a ≤ b → b ≤ a → a = b := fun a b h1 h2 =>
    congrArg Rev.of (hk _ _ h2 h1)
  obtain ⟨g, l, h1, h2, h3, h4⟩ := C69_gaps_iff hk hS hm outer
  obtain ⟨g', l', q1, q2, q3, q4⟩ :=
    C69_gaps_iff hk' (Rev.lawful hS) (C69_reachable hS hm) (Rev.range outer)
  refine ⟨g, g', l, h1, h2, q1, ?_⟩
  have hgap : ∀ r, IsGap (Rev.map m).iter (Rev.range outer) (Rev.range r) ↔ IsGap m.iter outer r := by
    have hf : ∀ r, (∀ e ∈ (Rev.map m).iter, ¬ Common icovers e.1 (Rev.range r)) ↔
        ∀ e ∈ m.iter, ¬ Common icovers e.1 r := by
      intro r
      constructor
      · exact fun h e he hc => h _ (Rev.mem_map.2 he) (Rev.common_iff.2 hc)
      · intro h e he hc
        obtain ⟨e, rfl⟩ := Rev.entry_surj e
        exact h e (Rev.mem_map.1 he) (Rev.common_iff.1 hc)
    intro r
    constructor
    · intro h
      refine ⟨h.fresh, h.ne, h.hi, h.lo, (hf r).1 h.free, fun r' o1 o2 s1 s2 hc => ?_⟩
      exact (h.max (Rev.range r') o2 o1 s2 s1 ((hf r').2 hc)).symm
    · intro h
      refine ⟨h.fresh, h.ne, h.hi, h.lo, (hf r).2 h.free, fun r' o1 o2 s1 s2 hc => ?_⟩
      obtain ⟨r', rfl⟩ := Rev.range_surj r'
      exact (h.max r' o2 o1 s2 s1 ((hf r').1 hc)).symm
  refine cast (congrArg _ ?_) q2
  have nd : ∀ {K : Type} [LE K] [LT K] [Std.IsLinearPreorder K] [Std.LawfulOrderLT K]
      {l : List (RangeInclusive K)},
      l.Pairwise (fun r r' => r.stop < r'.start) → (∀ r ∈ l, r.start ≤ r.stop) → l.Nodup := by
    intro K _ _ _ _ l hp hn
    refine hp.imp_of_mem fun {a b} ha hb h => ?_
    rintro rfl
    have := hn a ha
    grind
  have hn' : ∀ r ∈ l', r.start ≤ r.stop := fun r hr => ((q4 r).1 hr).ne
  have pr : (l.map Rev.range).reverse.Pairwise (fun r r' => r.stop < r'.start) := by
    rw [List.pairwise_reverse, List.pairwise_map]
    exact h3
  have hnr : ∀ r ∈ (l.map Rev.range).reverse, r.start ≤ r.stop := by
    intro r hr
    obtain ⟨x, hx, rfl⟩ := List.mem_map.1 (List.mem_reverse.1 hr)
    exact ((h4 x).1 hx).ne
  refine List.Perm.eq_of_pairwise (le := fun r r' => r.stop < r'.start) ?_ q3 pr ?_
  · intro a b ha hb h1 h2
    have := hn' a ha
    have := hnr b hb
    exfalso
    grind
  · rw [List.perm_ext_iff_of_nodup (nd q3 hn') (nd pr hnr)]
    intro r
    obtain ⟨r, rfl⟩ := Rev.range_surj r
    rw [q4, hgap, ← h4]
    simp only [List.mem_reverse, List.mem_map]
    exact ⟨fun h => ⟨r, h, rfl⟩, fun ⟨x, hx, h⟩ => Rev.range_inj h ▸ hx⟩

example := Inclusive.C69_gaps (K := UIntW 8) (V := Char) (S := Demo.u8) Demo.u8_antisymm
    Demo.u8_lawful (m := Demo.imap) Demo.imap_reachable (Demo.by8 2 22)

/-! a `u8` map, and one history on `Reverse<u8>` -/

theorem u8_antisymm (a b : UIntW 8) (h1 : a ≤ b) (h2 : b ≤ a) : a = b := by
  rw [UIntW.le_def] at h1 h2
  cases a; cases b
  exact congrArg UIntW.mk (BitVec.eq_of_toNat_eq (Nat.le_antisymm h1 h2))

example : LawfulSteps Demo.u8 ∧ Reachable Demo.u8 Demo.imap ∧
    (∀ op ∈ Demo.iops, ∀ r ∈ op.inserted, r.exhausted = false) ∧
    (run (Rev.steps Demo.u8) (Demo.iops.map Rev.op)).iter =
      [(Rev.range (Demo.by8 25 255), 'c'), (Rev.range (Demo.by8 20 24), 'b'),
       (Rev.range (Demo.by8 5 15), 'a'), (Rev.range (Demo.by8 0 2), 'a')] :=
  ⟨Demo.u8_lawful, Demo.imap_reachable, by decide, rfl⟩
example : ((Rev.map Demo.imap).gaps (Rev.range (Demo.by8 0 255))).toOption.bind
    (fun g => (drainE (Gaps.next (Rev.steps Demo.u8)) 9 g).toOption) =
      some [Rev.range (Demo.by8 16 19), Rev.range (Demo.by8 3 4)] := by rfl

end Verif.Props.Inclusive

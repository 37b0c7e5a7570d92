import Verif.Props.Demo
import Verif.Proof.IAppend
import Verif.Proof.ICmp
import Verif.Props.IMap
import Verif.Props.Build

/-!
# Properties C17–C20, C22 and C47 of `RangeInclusiveMap`: comparison traits, construction, serde,
growth, algebra
-/
set_option linter.unusedSectionVars false

namespace Verif.Props.Inclusive
open RangeInclusiveMap Spec
open RangeMap (Agree.refl Agree.eq Agree.symm Agree.trans DeError)
variable {K : Type} [LE K] [LT K] [DecidableLE K] [DecidableLT K]
  [Std.IsLinearPreorder K] [Std.LawfulOrderLT K] {V : Type} [BEq V] [PartialEquivBEq V]
  {S : StepFns K}

/-! ## C17 -/

/-- **C17** Equal maps feed the same data to the hasher, provided equal keys and equal values do. -/
theorem C17_hash_eq {H : Type} {hk : K → List H} {hv : V → List H}
    (hkc : ∀ a b, keq a b = true → hk a = hk b) (hvc : ∀ a b, (a == b) = true → hv a = hv b)
    {m m' : RangeInclusiveMap K V} (h : m.eq m' = true) : m.hash hk hv = m'.hash hk hv := by
  obtain ⟨h1, h2⟩ := hash_congr hkc hvc h
  unfold RangeInclusiveMap.hash
  rw [← h2]
  exact congrArg (fun n => HashToken.writeUsize n :: _) h1

/-- **C17** `==` on maps is symmetric and transitive, and reflexive when `==` on values is. -/
theorem C17_eq_equivalence {m m' m'' : RangeInclusiveMap K V} :
    (m.eq m' = true → m'.eq m = true) ∧
    (m.eq m' = true → m'.eq m'' = true → m.eq m'' = true) ∧
    (∀ [ReflBEq V], m.eq m = true) :=
  ⟨iterEq_symm, iterEq_trans, iterEq_refl⟩

example := Inclusive.C17_eq_equivalence (K := UIntW 8) (V := Char) (m := Demo.imap)
    (m' := Demo.imap') (m'' := Demo.imap)

/-- two different representations of the same map, with keys that are equal but not identical -/
def tagA : RangeInclusiveMap Demo.TagKey Nat := ⟨[(.mk' ⟨1, true⟩ ⟨4, true⟩, 7)]⟩
def tagB : RangeInclusiveMap Demo.TagKey Nat := ⟨[(.mk' ⟨1, false⟩ ⟨4, true⟩, 7)]⟩
example : tagA.eq tagB = true ∧ tagA.btm ≠ tagB.btm := by decide
example : tagA.hash (fun k => [k.n]) (fun v => [v]) = tagB.hash (fun k => [k.n]) (fun v => [v]) ∧
    tagA.hash (fun k => [k.n]) (fun v => [v]) =
      [.writeUsize 1, .data 1, .data 4, .bool false, .data 7] := ⟨by rfl, by rfl⟩

/-! ## C18 -/

/-- **C18** `cmp` on maps is a total order if `cmp` on values is: swapping the arguments swaps the
result, and "not greater" is transitive. -/
theorem C18_cmp_total {vcmp : V → V → Ordering}
    (hswap : ∀ a b, vcmp b a = (vcmp a b).swap)
    (htrans : ∀ a b c, vcmp a b ≠ .gt → vcmp b c ≠ .gt → vcmp a c ≠ .gt)
    (m m' m'' : RangeInclusiveMap K V) :
    m'.cmp vcmp m = (m.cmp vcmp m').swap ∧
    (m.cmp vcmp m' ≠ .gt → m'.cmp vcmp m'' ≠ .gt → m.cmp vcmp m'' ≠ .gt) := by
  have h := (totalCmp_triple (K := K) ⟨hswap, htrans⟩).iterCmp
  exact ⟨h.swap _ _, h.trans _ _ _⟩

example := Inclusive.C18_cmp_total (K := Demo.TagKey) (V := Nat) (vcmp := compare)
    (fun _ _ => (Nat.compare_swap _ _).symm) (by grind [Nat.compare_eq_gt]) Inclusive.tagA
    Inclusive.tagB Inclusive.tagA

/-- **C18** `cmp` is `Equal` exactly when `==`, for histories without `exhausted` ranges (see C41
for the other case). -/
theorem C18_cmp_eq_iff (hS : LawfulSteps S) {vcmp : V → V → Ordering}
    (hv : ∀ a b, vcmp a b = .eq ↔ (a == b) = true) {m m' : RangeInclusiveMap K V}
    (hm : Reachable S m) (hm' : Reachable S m') :
    m.cmp vcmp m' = .eq ↔ m.eq m' = true := cmp_eq_iff hv (hm.wf hS).fresh (hm'.wf hS).fresh

example := Inclusive.C18_cmp_eq_iff (K := UIntW 8) (V := Char) (S := Demo.u8) Demo.u8_lawful
    (vcmp := compare) (by simp) (m := Demo.imap) (m' := Demo.imap') Demo.imap_reachable
    Demo.imap'_reachable

/-- **C18** `partial_cmp` is `Some(cmp)` when it is for values. -/
theorem C18_partial_cmp (vcmp : V → V → Ordering) (m m' : RangeInclusiveMap K V) :
    m.partialCmp (fun a b => some (vcmp a b)) m' = some (m.cmp vcmp m') :=
  partialCmp_some vcmp m m'

example : tagA.cmp compare ⟨[(.mk' ⟨1, true⟩ ⟨4, true⟩, 8)]⟩ = .lt ∧
    tagA.cmp compare ⟨[]⟩ = .gt ∧ tagA.cmp compare tagB = .eq := by decide
example : Reachable Demo.tagSteps tagA ∧ Reachable Demo.tagSteps tagB :=
  ⟨⟨[.insert (.mk' ⟨1, true⟩ ⟨4, true⟩) 7], by decide, rfl⟩,
    ⟨[.insert (.mk' ⟨1, false⟩ ⟨4, true⟩) 7], by decide, rfl⟩⟩

/-! ## C19 -/

theorem extend_ok_iff (hS : LawfulSteps S) {m : RangeInclusiveMap K V} (h : SC m.btm)
    (items : List (RangeInclusive K × V)) :
    (m.extend S items).2 = .ok () ∨
      ((m.extend S items).2 = .error .assertFailed ∧ ∃ e ∈ items, e.1.stop < e.1.start) := by
  induction items generalizing m with
  | nil => exact Or.inl rfl
  | cons e t ih =>
    unfold RangeInclusiveMap.extend
    by_cases he : e.1.start ≤ e.1.stop
    · obtain ⟨m', h1, h2, _⟩ := insert_ok hS h e.2 he
      rw [h1]
      rcases ih h2 with h3 | ⟨h3, x, hx, h4⟩
      · exact Or.inl h3
      · exact Or.inr ⟨h3, x, by simp [hx], h4⟩
    · rw [insert_invalid he]
      exact Or.inr ⟨rfl, e, by simp, by grind⟩

theorem extend_panics (hS : LawfulSteps S) {m : RangeInclusiveMap K V} (h : SC m.btm)
    (items : List (RangeInclusive K × V))
    (hb : ∃ e ∈ items, e.1.stop < e.1.start) : (m.extend S items).2 = .error .assertFailed := by
  induction items generalizing m with
  | nil => simp at hb
  | cons e t ih =>
    unfold RangeInclusiveMap.extend
    by_cases he : e.1.start ≤ e.1.stop
    · obtain ⟨m', h1, h2, _⟩ := insert_ok hS h e.2 he
      rw [h1]
      refine ih h2 ?_
      obtain ⟨x, hx, h3⟩ := hb
      rcases List.mem_cons.1 hx with rfl | hx
      · exfalso; grind
      · exact ⟨x, hx, h3⟩
    · rw [insert_invalid he]

/-- **C19** `extend` panics iff some range in the sequence is inverted. -/
theorem C19_extend_panics_iff (hS : LawfulSteps S) {m : RangeInclusiveMap K V}
    (hm : ReachableAny S m) (items : List (RangeInclusive K × V)) :
    (∃ p, (m.extend S items).2 = .error p) ↔ ∃ e ∈ items, e.1.stop < e.1.start := by
  constructor
  · rintro ⟨p, hp⟩
    rcases extend_ok_iff hS (hm.sc hS) items with h | ⟨_, h⟩
    · rw [h] at hp; cases hp
    · exact h
  · intro h
    exact ⟨_, extend_panics hS (hm.sc hS) items h⟩

example := Inclusive.C19_extend_panics_iff (K := UIntW 8) (V := Char) (S := Demo.u8)
    Demo.u8_lawful (m := Demo.imap) Demo.imap_reachable.any Demo.iitems

/-- **C19** After a successful `extend` the last pair covering a key wins, and other keys are as
before (up to `==`, because of coalescing). -/
theorem C19_extend_last_wins (hS : LawfulSteps S) {m : RangeInclusiveMap K V}
    (hm : Reachable S m) (items : List (RangeInclusive K × V))
    (hv : ∀ e ∈ items, e.1.start ≤ e.1.stop) (hx : ∀ e ∈ items, e.1.exhausted = false) (k : K) :
    (m.extend S items).2 = .ok () ∧
    ∃ o o', (m.extend S items).1.get k = .ok o ∧ m.get k = .ok o' ∧
      Agree o (match items.reverse.find? (fun e => icovers e.1 k) with
        | some e => some e.2
        | none => o') := by
  have hw := hm.wf hS
  constructor
  · rcases extend_ok_iff hS hw.sc items with h | ⟨_, e, he, h⟩
    · exact h
    · have := hv e he
      exfalso; grind
  · have := extend_look hS hw items hx k
    rw [C19_extend_last_wins.List.takeWhile_eq_self
      (fun e he => by simpa [ivalid] using hv e he)] at this
    have hw' := WF.mk' (hw.sc.extend hS items).1 ((hw.sc.extend hS items).2 hw.fresh hx)
    exact ⟨_, _, get_look hw' k, get_look hw k, this⟩

example := Inclusive.C19_extend_last_wins (K := UIntW 8) (V := Char) (S := Demo.u8)
    Demo.u8_lawful (m := Demo.imap) Demo.imap_reachable Demo.iitems (by decide) (by decide) ⟨7⟩

theorem foldlM_extend (items : List (RangeInclusive K × V)) : ∀ m : RangeInclusiveMap K V,
    items.foldlM (fun m e => m.insert S e.1 e.2) m =
      (m.extend S items).2.map (fun _ => (m.extend S items).1) := by
  induction items with
  | nil => intro m; rfl
  | cons e t ih =>
    intro m
    rw [List.foldlM_cons, RangeInclusiveMap.extend]
    cases h : m.insert S e.1 e.2 with
    | error p => rfl
    | ok m' =>
      simp only [bind, Except.bind]
      exact ih m'

/-- **C19** `from_iter`, `From<[_; N]>` (and the macro) and repeated `insert` on an empty map are
all the same. -/
theorem C19_from_iter_from_array (items : List (RangeInclusive K × V)) :
    (fromIter S items : Except Panic (RangeInclusiveMap K V)) = fromArray S items ∧
    (∀ m : RangeInclusiveMap K V, fromIter S items = .ok m ↔
      (new : RangeInclusiveMap K V).extend S items = (m, .ok ())) ∧
    (∀ (m : RangeInclusiveMap K V) (e : RangeInclusive K × V), m.extend S (e :: items) =
      match m.insert S e.1 e.2 with
      | .ok m' => m'.extend S items
      | .error p => (m, .error p)) := by
  refine ⟨?_, ?_, ?_⟩
  · rw [fromArray, foldlM_extend]; rfl
  · intro m
    unfold fromIter
    generalize (new : RangeInclusiveMap K V).extend S items = p
    obtain ⟨m', o⟩ := p
    cases o <;> simp [Except.map]
  · intro m e; rfl

example : (fromIter Demo.u8 [(Demo.by8 0 10, 'a'), (Demo.by8 5 20, 'b'), (Demo.by8 21 255, 'b')] :
    Except Panic (RangeInclusiveMap (UIntW 8) Char)).toOption.map (·.btm) =
    some [(Demo.by8 0 4, 'a'), (Demo.by8 5 255, 'b')] := by rfl
example : ∀ e ∈ [(Demo.by8 0 10, 'a'), (Demo.by8 5 20, 'b')],
    e.1.start ≤ e.1.stop ∧ e.1.exhausted = false := by decide

/-! ## C20 -/

theorem visitSeq_extend {E : Type} (items : List (RangeInclusive K × V))
    (hx : ∀ e ∈ items, e.1.exhausted = false) : ∀ m : RangeInclusiveMap K V,
    visitSeq (E := E) S m (items.map fun e => .ok ((e.1.start, e.1.stop), e.2)) =
      match (m.extend S items).2 with
      | .ok () => .ok (m.extend S items).1
      | .error p => .error (.panic p) := by
  induction items with
  | nil => intro m; rfl
  | cons e t ih =>
    intro m
    have he : RangeInclusive.mk' e.1.start e.1.stop = e.1 := by
      have := hx e (by simp)
      ext <;> simp [this]
    rw [List.map_cons, visitSeq, RangeInclusiveMap.extend, he]
    cases h : m.insert S e.1 e.2 with
    | error p => rfl
    | ok m' => exact ih (fun x hx' => hx x (by simp [hx'])) m'

/-- **C20** Deserialising the serialised form of a map gives back exactly that map (identical
entries, even for values with a non-reflexive `==`), and the declared length is right. -/
theorem C20_round_trip (hS : LawfulSteps S) {E : Type} {m : RangeInclusiveMap K V}
    (hm : Reachable S m) :
    deserialize (E := E) S (m.serialize.2.map .ok) = .ok m ∧
      m.serialize.1 = some m.serialize.2.length := by
  refine ⟨?_, by simp [serialize, RangeInclusiveMap.iter]⟩
  have hw := hm.wf hS
  have h := visitSeq_extend (E := E) (S := S) m.btm hw.fresh new
  have h2 := extend_rest hS m.btm [] (by simpa using hw.sc)
  rw [List.nil_append] at h2
  rw [show (new : RangeInclusiveMap K V) = ⟨[]⟩ from rfl, h2] at h
  rw [deserialize, serialize, List.map_map]
  exact h

example := Inclusive.C20_round_trip (K := UIntW 8) (V := Char) (S := Demo.u8) Demo.u8_lawful
    (E := String) (m := Demo.imap) Demo.imap_reachable

/-- **C20** Deserialising arbitrary data: whatever the deserialiser delivers, the outcome is
- a map reachable through the API, namely the in-order `extend`, if all elements are delivered and
  all their ranges are valid;
- the deserialiser's error, if that comes before any invalid range;
- a panic exactly when an inverted range comes first. -/
theorem C20_deserialize_any (hS : LawfulSteps S) {E : Type}
    (access : List (Except E ((K × K) × V))) :
    (∃ items : List (RangeInclusive K × V),
      (∀ e ∈ items, e.1.start ≤ e.1.stop ∧ e.1.exhausted = false) ∧
      access = items.map (fun e => .ok ((e.1.start, e.1.stop), e.2)) ∧
      ∃ m, deserialize S access = .ok m ∧ Reachable S m ∧ fromIter S items = .ok m) ∨
    (∃ items : List (RangeInclusive K × V),
      (∀ e ∈ items, e.1.start ≤ e.1.stop ∧ e.1.exhausted = false) ∧ ∃ e rest,
      access = items.map (fun e => .ok ((e.1.start, e.1.stop), e.2)) ++ .error e :: rest ∧
      deserialize S access = .error (.de e)) ∨
    (∃ items : List (RangeInclusive K × V),
      (∀ e ∈ items, e.1.start ≤ e.1.stop ∧ e.1.exhausted = false) ∧ ∃ a b v rest, b < a ∧
      access = items.map (fun e => .ok ((e.1.start, e.1.stop), e.2)) ++ .ok ((a, b), v) :: rest ∧
      deserialize S access = .error (.panic .assertFailed)) := by
  suffices H : ∀ (access : List (Except E ((K × K) × V))) (m : RangeInclusiveMap K V), SC m.btm →
      (∃ items : List (RangeInclusive K × V),
        (∀ e ∈ items, e.1.start ≤ e.1.stop ∧ e.1.exhausted = false) ∧
        access = items.map (fun e => .ok ((e.1.start, e.1.stop), e.2)) ∧
        visitSeq S m access = .ok (m.extend S items).1 ∧ (m.extend S items).2 = .ok ()) ∨
      (∃ items : List (RangeInclusive K × V),
        (∀ e ∈ items, e.1.start ≤ e.1.stop ∧ e.1.exhausted = false) ∧ ∃ e rest,
        access = items.map (fun e => .ok ((e.1.start, e.1.stop), e.2)) ++ .error e :: rest ∧
        visitSeq S m access = .error (.de e)) ∨
      (∃ items : List (RangeInclusive K × V),
        (∀ e ∈ items, e.1.start ≤ e.1.stop ∧ e.1.exhausted = false) ∧ ∃ a b v rest, b < a ∧
        access = items.map (fun e => .ok ((e.1.start, e.1.stop), e.2)) ++ .ok ((a, b), v) :: rest ∧
        visitSeq S m access = .error (.panic .assertFailed)) by
    rcases H access new SC.nil with ⟨items, h1, h2, h3, h4⟩ | h | h
    · left
      refine ⟨items, h1, h2, _, h3, ?_, ?_⟩
      · refine Reachable.apply Reachable.new (.extend items) ?_
        intro r hr
        simp only [Op.inserted, List.mem_map] at hr
        obtain ⟨e, he, rfl⟩ := hr
        exact (h1 e he).2
      · simp [fromIter, h4, Except.map]
    · exact Or.inr (Or.inl h)
    · exact Or.inr (Or.inr h)
  intro access
  induction access with
  | nil => intro m _; exact Or.inl ⟨[], by simp, rfl, rfl, rfl⟩
  | cons x access ih =>
    intro m hm
    match x with
    | .error e => exact Or.inr (Or.inl ⟨[], by simp, e, access, rfl, rfl⟩)
    | .ok ((a, b), v) =>
      by_cases hab : a ≤ b
      · obtain ⟨m', h1, h2, _⟩ := insert_ok hS hm (r := .mk' a b) v hab
        have hv : ∀ l : List (RangeInclusive K × V),
            (∀ e ∈ l, e.1.start ≤ e.1.stop ∧ e.1.exhausted = false) →
            ∀ e ∈ (RangeInclusive.mk' a b, v) :: l,
              e.1.start ≤ e.1.stop ∧ e.1.exhausted = false := by
          intro l hl e he
          rcases List.mem_cons.1 he with rfl | he
          · exact ⟨hab, rfl⟩
          · exact hl e he
        have hunf : visitSeq S m (.ok ((a, b), v) :: access) = visitSeq S m' access := by
          rw [visitSeq, h1]
        rcases ih m' h2 with ⟨items, h3, h4, h5, h6⟩ | ⟨items, h3, e, rest, h4, h5⟩ |
            ⟨items, h3, a', b', v', rest, h4, h5, h6⟩
        · refine Or.inl ⟨(.mk' a b, v) :: items, hv _ h3, by rw [h4]; rfl, ?_, ?_⟩
          · rw [hunf, h5, RangeInclusiveMap.extend, h1]
          · rw [RangeInclusiveMap.extend, h1]; exact h6
        · exact Or.inr (Or.inl ⟨(.mk' a b, v) :: items, hv _ h3, e, rest, by rw [h4]; rfl,
            by rw [hunf, h5]⟩)
        · exact Or.inr (Or.inr ⟨(.mk' a b, v) :: items, hv _ h3, a', b', v', rest, h4,
            by rw [h5]; rfl, by rw [hunf, h6]⟩)
      · refine Or.inr (Or.inr ⟨[], by simp, a, b, v, access, by grind, rfl, ?_⟩)
        rw [visitSeq, insert_invalid (show ¬ (RangeInclusive.mk' a b).start ≤ _ from hab)]

example : (deserialize (E := String) Demo.u8 (Demo.imap.serialize.2.map .ok)).toOption.map (·.btm) =
    some Demo.imap.btm := by rfl
example : (deserialize (E := String) Demo.u8 [.ok ((⟨1⟩, ⟨5⟩), 'a'), .ok ((⟨5⟩, ⟨4⟩), 'b')] :
    Except (DeError String) (RangeInclusiveMap (UIntW 8) Char)) =
      .error (.panic .assertFailed) := by rfl

/-! ## C47 -/

section
variable [ReflBEq V]

/-- contents after an `insert` -/
theorem ins (hS : LawfulSteps S) {m m' : RangeInclusiveMap K V} (hm : Reachable S m)
    {r : RangeInclusive K} {v : V} (hx : r.exhausted = false)
    (h : m.insert S r v = .ok m') : Reachable S m' ∧ r.start ≤ r.stop ∧
    ∀ k, Agree (m'.look k) (if r.start ≤ k ∧ k ≤ r.stop then some v else m.look k) := by
  have hr : r.start ≤ r.stop := by
    apply Decidable.byContradiction
    intro hr
    simp [insert_invalid hr] at h
  exact ⟨hm.insert hx h, hr, insert_look_agree hS (hm.wf hS) hx hr h⟩

/-- contents after a `remove` -/
theorem rem (hS : LawfulSteps S) {m m' : RangeInclusiveMap K V} (hm : Reachable S m)
    {r : RangeInclusive K}
    (h : m.remove S r = .ok m') : Reachable S m' ∧ r.start ≤ r.stop ∧
    ∀ k, m'.look k = if r.start ≤ k ∧ k ≤ r.stop then none else m.look k := by
  have hr : r.start ≤ r.stop := by
    apply Decidable.byContradiction
    intro hr
    simp [remove_invalid hr] at h
  exact ⟨hm.remove h, hr, remove_look hS (hm.wf hS) hr h⟩

theorem eq_of_look (hS : LawfulSteps S) {m m' : RangeInclusiveMap K V} (hm : Reachable S m)
    (hm' : Reachable S m') (h : ∀ k, Agree (m.look k) (m'.look k)) : m.eq m' = true := by
  have : EquivBEq V := {}
  exact (eq_iff_look hS (hm.wf hS) (hm'.wf hS)).2 h

/-- **C47** A later insert over the same or a larger range hides an earlier one (in particular,
with the same arguments, insert is idempotent). -/
theorem C47_insert_hides (hS : LawfulSteps S) {m m1 m2 m3 : RangeInclusiveMap K V}
    (hm : Reachable S m) {r r' : RangeInclusive K} {v v' : V}
    (hr1 : r'.start ≤ r.start) (hr2 : r.stop ≤ r'.stop)
    (hx : r.exhausted = false) (hx' : r'.exhausted = false)
    (h1 : m.insert S r v = .ok m1) (h2 : m1.insert S r' v' = .ok m2)
    (h3 : m.insert S r' v' = .ok m3) :
    m2.eq m3 = true := by
  obtain ⟨a1, a2, a3⟩ := ins hS hm hx h1
  obtain ⟨b1, b2, b3⟩ := ins hS a1 hx' h2
  obtain ⟨c1, c2, c3⟩ := ins hS hm hx' h3
  refine eq_of_look hS b1 c1 fun k => ?_
  refine Agree.trans (b3 k) (Agree.trans (ite_agree (fun _ => Agree.refl _) fun h => ?_)
    (Agree.symm (c3 k)))
  have := a3 k
  rwa [if_neg (by grind)] at this

example := Inclusive.C47_insert_hides (K := UIntW 8) (V := Char) (S := Demo.u8) Demo.u8_lawful
    (m := Demo.imap) Demo.imap_reachable (r := Demo.by8 6 9) (r' := Demo.by8 2 22) (v := 'q')
    (v' := 'q') (by decide) (by decide) (by decide) (by decide) rfl rfl rfl

/-- **C47** `insert` is idempotent. -/
theorem C47_insert_idempotent (hS : LawfulSteps S) {m m1 m2 : RangeInclusiveMap K V}
    (hm : Reachable S m) {r : RangeInclusive K} {v : V}
    (hx : r.exhausted = false)
    (h1 : m.insert S r v = .ok m1) (h2 : m1.insert S r v = .ok m2) : m2.eq m1 = true :=
  C47_insert_hides hS hm (by grind) (by grind) hx hx h1 h2 h1

example := Inclusive.C47_insert_idempotent (K := UIntW 8) (V := Char) (S := Demo.u8)
    Demo.u8_lawful (m := Demo.imap) Demo.imap_reachable (r := Demo.by8 2 22) (v := 'q')
    (by decide) rfl rfl

/-- **C47** Inserts on disjoint ranges commute. -/
theorem C47_insert_insert_comm (hS : LawfulSteps S) {m m1 m2 m3 m4 : RangeInclusiveMap K V}
    (hm : Reachable S m) {r r' : RangeInclusive K}
    {v v' : V} (hd : r.stop < r'.start ∨ r'.stop < r.start)
    (hx : r.exhausted = false) (hx' : r'.exhausted = false)
    (h1 : m.insert S r v = .ok m1) (h2 : m1.insert S r' v' = .ok m2)
    (h3 : m.insert S r' v' = .ok m3) (h4 : m3.insert S r v = .ok m4) : m2.eq m4 = true := by
  obtain ⟨a1, a2, a3⟩ := ins hS hm hx h1
  obtain ⟨b1, b2, b3⟩ := ins hS a1 hx' h2
  obtain ⟨c1, c2, c3⟩ := ins hS hm hx' h3
  obtain ⟨d1, d2, d3⟩ := ins hS c1 hx h4
  refine eq_of_look hS b1 d1 fun k => ?_
  have e1 := a3 k
  have e2 := b3 k
  have e3 := c3 k
  have e4 := d3 k
  by_cases x : r.start ≤ k ∧ k ≤ r.stop
  · rw [if_neg (by grind)] at e2 e3
    rw [if_pos x] at e1 e4
    exact Agree.trans (Agree.trans e2 e1) (Agree.symm e4)
  · by_cases y : r'.start ≤ k ∧ k ≤ r'.stop
    · rw [if_pos y] at e2 e3
      rw [if_neg x] at e1 e4
      exact Agree.trans e2 (Agree.symm (Agree.trans e4 e3))
    · rw [if_neg y] at e2 e3
      rw [if_neg x] at e1 e4
      exact Agree.trans (Agree.trans e2 e1) (Agree.symm (Agree.trans e4 e3))

example := Inclusive.C47_insert_insert_comm (K := UIntW 8) (V := Char) (S := Demo.u8)
    Demo.u8_lawful (m := Demo.imap) Demo.imap_reachable (r := Demo.by8 2 22)
    (r' := Demo.by8 30 35) (v := 'q') (v' := 'q') (by decide) (by decide) (by decide) rfl rfl
    rfl rfl

/-- **C47** An insert and a remove on disjoint ranges commute. -/
theorem C47_insert_remove_comm (hS : LawfulSteps S) {m m1 m2 m3 m4 : RangeInclusiveMap K V}
    (hm : Reachable S m) {r r' : RangeInclusive K}
    {v : V} (hd : r.stop < r'.start ∨ r'.stop < r.start)
    (hx : r.exhausted = false)
    (h1 : m.insert S r v = .ok m1) (h2 : m1.remove S r' = .ok m2)
    (h3 : m.remove S r' = .ok m3) (h4 : m3.insert S r v = .ok m4) : m2.eq m4 = true := by
  obtain ⟨a1, a2, a3⟩ := ins hS hm hx h1
  obtain ⟨b1, b2, b3⟩ := rem hS a1 h2
  obtain ⟨c1, c2, c3⟩ := rem hS hm h3
  obtain ⟨d1, d2, d3⟩ := ins hS c1 hx h4
  refine eq_of_look hS b1 d1 fun k => ?_
  have e1 := a3 k
  have e2 := b3 k
  have e3 := c3 k
  have e4 := d3 k
  by_cases x : r.start ≤ k ∧ k ≤ r.stop
  · rw [if_neg (by grind)] at e2 e3
    rw [if_pos x] at e1 e4
    rw [e2]
    exact Agree.trans e1 (Agree.symm e4)
  · by_cases y : r'.start ≤ k ∧ k ≤ r'.stop
    · rw [if_pos y] at e2 e3
      rw [if_neg x, e3] at e4
      rw [e2]
      exact Agree.symm e4
    · rw [if_neg y] at e2 e3
      rw [if_neg x] at e1 e4
      rw [e3] at e4
      rw [e2]
      exact Agree.trans e1 (Agree.symm e4)

example := Inclusive.C47_insert_remove_comm (K := UIntW 8) (V := Char) (S := Demo.u8)
    Demo.u8_lawful (m := Demo.imap) Demo.imap_reachable (r := Demo.by8 2 22)
    (r' := Demo.by8 30 35) (v := 'q') (by decide) (by decide) rfl rfl rfl rfl

/-- **C47** Removes commute, whatever their ranges. -/
theorem C47_remove_remove_comm (hS : LawfulSteps S) {m m1 m2 m3 m4 : RangeInclusiveMap K V}
    (hm : Reachable S m) {r r' : RangeInclusive K}
    (h1 : m.remove S r = .ok m1) (h2 : m1.remove S r' = .ok m2)
    (h3 : m.remove S r' = .ok m3) (h4 : m3.remove S r = .ok m4) : m2.eq m4 = true := by
  obtain ⟨a1, a2, a3⟩ := rem hS hm h1
  obtain ⟨b1, b2, b3⟩ := rem hS a1 h2
  obtain ⟨c1, c2, c3⟩ := rem hS hm h3
  obtain ⟨d1, d2, d3⟩ := rem hS c1 h4
  refine eq_of_look hS b1 d1 fun k => ?_
  rw [b3, a3, d3, c3]
  split <;> split <;> exact Agree.refl _

example := Inclusive.C47_remove_remove_comm (K := UIntW 8) (V := Char) (S := Demo.u8)
    Demo.u8_lawful (m := Demo.imap) Demo.imap_reachable (r := Demo.by8 2 22) (r' := Demo.by8 6 9)
    rfl rfl rfl rfl

/-- **C47** Removing a range right after inserting into it (or into a part of it) is the same as
just removing it. -/
theorem C47_remove_after_insert (hS : LawfulSteps S) {m m1 m2 m3 : RangeInclusiveMap K V}
    (hm : Reachable S m) {r r' : RangeInclusive K}
    {v : V} (hr1 : r'.start ≤ r.start) (hr2 : r.stop ≤ r'.stop)
    (hx : r.exhausted = false)
    (h1 : m.insert S r v = .ok m1) (h2 : m1.remove S r' = .ok m2) (h3 : m.remove S r' = .ok m3) :
    m2.eq m3 = true := by
  obtain ⟨a1, a2, a3⟩ := ins hS hm hx h1
  obtain ⟨b1, b2, b3⟩ := rem hS a1 h2
  obtain ⟨c1, c2, c3⟩ := rem hS hm h3
  refine eq_of_look hS b1 c1 fun k => ?_
  rw [b3 k, c3 k]
  refine ite_agree (fun _ => Agree.refl _) fun h => ?_
  have := a3 k
  rwa [if_neg (by grind)] at this

example := Inclusive.C47_remove_after_insert (K := UIntW 8) (V := Char) (S := Demo.u8)
    Demo.u8_lawful (m := Demo.imap) Demo.imap_reachable (r := Demo.by8 6 9)
    (r' := Demo.by8 2 22) (v := 'q') (by decide) (by decide) (by decide) rfl rfl rfl

/-- **C47** Inserting over a range that has just been removed (or a part of which has) is the same
as just inserting. -/
theorem C47_insert_after_remove (hS : LawfulSteps S) {m m1 m2 m3 : RangeInclusiveMap K V}
    (hm : Reachable S m) {r r' : RangeInclusive K}
    {v : V} (hr1 : r'.start ≤ r.start) (hr2 : r.stop ≤ r'.stop)
    (hx' : r'.exhausted = false)
    (h1 : m.remove S r = .ok m1) (h2 : m1.insert S r' v = .ok m2)
    (h3 : m.insert S r' v = .ok m3) :
    m2.eq m3 = true := by
  obtain ⟨a1, a2, a3⟩ := rem hS hm h1
  obtain ⟨b1, b2, b3⟩ := ins hS a1 hx' h2
  obtain ⟨c1, c2, c3⟩ := ins hS hm hx' h3
  refine eq_of_look hS b1 c1 fun k => ?_
  refine Agree.trans (b3 k) (Agree.trans (ite_agree (fun _ => Agree.refl _) fun h => ?_)
    (Agree.symm (c3 k)))
  rw [a3 k, if_neg (by grind)]
  exact Agree.refl _

example := Inclusive.C47_insert_after_remove (K := UIntW 8) (V := Char) (S := Demo.u8)
    Demo.u8_lawful (m := Demo.imap) Demo.imap_reachable (r := Demo.by8 6 9)
    (r' := Demo.by8 2 22) (v := 'q') (by decide) (by decide) (by decide) rfl rfl rfl

/-- **C47** Inserting a stored entry (or any part of it, with an equal value) is a no-op. -/
theorem C47_insert_stored (hS : LawfulSteps S) {m m1 : RangeInclusiveMap K V}
    (hm : Reachable S m) {r : RangeInclusive K} {v : V}
    {e : RangeInclusive K × V} (he : e ∈ m.iter)
    (hr1 : e.1.start ≤ r.start) (hr2 : r.stop ≤ e.1.stop)
    (hv : (e.2 == v) = true) (hx : r.exhausted = false)
    (h1 : m.insert S r v = .ok m1) : m1.eq m = true := by
  obtain ⟨a1, a2, a3⟩ := ins hS hm hx h1
  refine eq_of_look hS a1 hm fun k => ?_
  have e1 := a3 k
  by_cases x : r.start ≤ k ∧ k ≤ r.stop
  · rw [if_pos x] at e1
    have : m.look k = some e.2 := (look_eq_some (hm.wf hS) _ _).2 ⟨e, he, by grind, by grind, rfl⟩
    rw [this]
    exact Agree.trans e1 (Or.inr (PartialEquivBEq.symm hv))
  · rwa [if_neg x] at e1

example := Inclusive.C47_insert_stored (K := UIntW 8) (V := Char) (S := Demo.u8) Demo.u8_lawful
    (m := Demo.imap) Demo.imap_reachable (r := Demo.by8 6 9) (v := 'a')
    (e := (Demo.by8 5 15, 'a')) (by decide) (by decide) (by decide) (by decide) (by decide) rfl

/-- **C47** Removing a range without mapped keys is a no-op. -/
theorem C47_remove_uncovered (hS : LawfulSteps S) {m m1 : RangeInclusiveMap K V}
    (hm : Reachable S m) {r : RangeInclusive K}
    (hu : ∀ k, r.start ≤ k → k ≤ r.stop → m.get k = .ok none)
    (h1 : m.remove S r = .ok m1) : m1.eq m = true := by
  obtain ⟨a1, a2, a3⟩ := rem hS hm h1
  refine eq_of_look hS a1 hm fun k => ?_
  rw [a3]
  split
  · rename_i h
    have := hu k h.1 h.2
    rw [get_look (hm.wf hS)] at this
    cases h : m.look k with
    | none => trivial
    | some w => rw [h] at this; cases this
  · exact Agree.refl _

end

-- a case of the commutation laws: disjoint but touching ranges
example : ∃ m1 m2 m3 m4, Demo.imap.insert Demo.u8 (Demo.by8 2 9) 'q' = .ok m1 ∧
    m1.insert Demo.u8 (Demo.by8 10 21) 'r' = .ok m2 ∧
    Demo.imap.insert Demo.u8 (Demo.by8 10 21) 'r' = .ok m3 ∧
    m3.insert Demo.u8 (Demo.by8 2 9) 'q' = .ok m4 ∧
    m2.btm = [(Demo.by8 0 1, 'a'), (Demo.by8 2 9, 'q'), (Demo.by8 10 21, 'r'),
      (Demo.by8 22 24, 'b'), (Demo.by8 25 255, 'c')] :=
  ⟨_, _, _, _, rfl, rfl, rfl, rfl, rfl⟩
example : ∃ m1, Demo.imap.insert Demo.u8 (Demo.by8 7 9) 'a' = .ok m1 ∧ m1.btm = Demo.imap.btm :=
  ⟨_, rfl, rfl⟩

/-! ## C22 -/

/-- **C22** One insert adds at most 2 entries. -/
theorem C22_insert_growth (hS : LawfulSteps S) {m m' : RangeInclusiveMap K V}
    (hm : ReachableAny S m) {r : RangeInclusive K} {v : V}
    (h : m.insert S r v = .ok m') : m'.len ≤ m.len + 2 := by
  have hr : r.start ≤ r.stop := by
    apply Decidable.byContradiction
    intro hr
    simp [insert_invalid hr] at h
  obtain ⟨m'', h1, _, _, h2, _⟩ := insert_spec hS (hm.sc hS) v hr
  have := h1 _ (Nat.le_refl _)
  rw [RangeInclusiveMap.insert, this] at h
  cases h
  exact h2

example := Inclusive.C22_insert_growth (K := UIntW 8) (V := Char) (S := Demo.u8) Demo.u8_lawful
    (m := Demo.imap) Demo.imap_reachable.any (r := Demo.by8 2 22) (v := 'q') rfl

/-- **C22** One remove adds at most 1 entry. -/
theorem C22_remove_growth (hS : LawfulSteps S) {m m' : RangeInclusiveMap K V}
    (hm : ReachableAny S m) {r : RangeInclusive K}
    (h : m.remove S r = .ok m') : m'.len ≤ m.len + 1 := by
  have hr : r.start ≤ r.stop := by
    apply Decidable.byContradiction
    intro hr
    simp [remove_invalid hr] at h
  obtain ⟨m'', h1, _, _, h2, _⟩ := remove_spec hS (hm.sc hS) hr
  have := h1 _ (Nat.le_refl _)
  rw [RangeInclusiveMap.remove, this] at h
  cases h
  exact h2

example := Inclusive.C22_remove_growth (K := UIntW 8) (V := Char) (S := Demo.u8) Demo.u8_lawful
    (m := Demo.imap) Demo.imap_reachable.any (r := Demo.by8 2 22) rfl

/-- How many entries an operation can add: 2 per inserted pair, 1 per removal. -/
def weight : Op (RangeInclusive K) V → Nat
  | .insert _ _ => 2
  | .remove _ => 1
  | .clear => 0
  | .extend items => 2 * items.length

theorem extend_growth (hS : LawfulSteps S) (items : List (RangeInclusive K × V)) :
    ∀ {m : RangeInclusiveMap K V}, ReachableAny S m →
    (m.extend S items).1.len ≤ m.len + 2 * items.length := by
  induction items with
  | nil => intro m _; exact Nat.le_refl _
  | cons e t ih =>
    intro m hm
    rw [RangeInclusiveMap.extend]
    cases h : m.insert S e.1 e.2 with
    | error p => simp
    | ok m' =>
      have hm' : ReachableAny S m' := by
        have := hm.apply (.insert e.1 e.2)
        simpa [RangeInclusiveMap.apply, h] using this
      have := ih hm'
      have := C22_insert_growth hS hm h
      simp only [List.length_cons]
      omega

/-- **C22** After any history, `len()` is at most twice the number of inserted pairs plus the number
of removals. -/
theorem C22_history_growth (hS : LawfulSteps S) (ops : List (Op (RangeInclusive K) V)) :
    (run S ops).len ≤ (ops.map weight).sum := by
  suffices ∀ rops : List (Op (RangeInclusive K) V),
      (run S rops.reverse).len ≤ (rops.map weight).sum by
    have := this ops.reverse
    rwa [List.reverse_reverse, List.map_reverse, List.sum_reverse] at this
  intro rops
  induction rops with
  | nil => simp [run, RangeInclusiveMap.new, len]
  | cons op rops ih =>
    rw [List.reverse_cons, run_append]
    have hm : ReachableAny S (run S rops.reverse) := ⟨_, rfl⟩
    simp only [List.map_cons, List.sum_cons]
    cases op with
    | insert r v =>
      simp only [RangeInclusiveMap.apply, weight]
      cases h : (run S rops.reverse).insert S r v with
      | error p => simp only; omega
      | ok m' => have := C22_insert_growth hS hm h; simp only; omega
    | remove r =>
      simp only [RangeInclusiveMap.apply, weight]
      cases h : (run S rops.reverse).remove S r with
      | error p => simp only; omega
      | ok m' => have := C22_remove_growth hS hm h; simp only; omega
    | clear => simp [RangeInclusiveMap.apply, RangeInclusiveMap.clear, len]
    | extend items =>
      have := extend_growth hS items hm
      simp only [RangeInclusiveMap.apply, weight]
      omega

-- the bounds are attained
example : (Demo.imap.insert Demo.u8 (Demo.by8 7 9) 'z').toOption.map (·.len) =
    some (Demo.imap.len + 2) := by rfl
example : (Demo.imap.remove Demo.u8 (Demo.by8 7 9)).toOption.map (·.len) =
    some (Demo.imap.len + 1) := by rfl

/-! ### Cases that meet the hypotheses -/

example := Inclusive.C17_hash_eq (K := Demo.TagKey) (V := Nat) (H := Nat) (hk := fun k => [k.n])
    (hv := fun v => [v]) (fun _ _ h => congrArg (fun n => [n])
    (Nat.le_antisymm (keq_iff.1 h).1 (keq_iff.1 h).2)) (fun _ _ h => by
    simp_all) (m := Inclusive.tagA) (m' := Inclusive.tagB) (by decide)

end Verif.Props.Inclusive

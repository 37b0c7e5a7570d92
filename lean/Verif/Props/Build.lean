import Verif.Props.Demo
import Verif.Proof.Append
import Verif.Proof.Cmp
import Verif.Model.Serde
import Verif.Props.Map

/-!
# Properties C17–C22 of `RangeMap`: comparison traits, construction, serde, algebra, growth
-/
set_option linter.unusedSectionVars false

namespace Verif.Props
open RangeMap Spec
variable {K : Type} [LE K] [LT K] [DecidableLE K] [DecidableLT K]
  [Std.IsLinearPreorder K] [Std.LawfulOrderLT K] {V : Type} [BEq V] [PartialEquivBEq V]

/-! ## C17 -/

/-- **C17** Equal maps feed the same data to the hasher, provided equal keys and equal values do. -/
theorem C17_hash_eq {H : Type} {hk : K → List H} {hv : V → List H}
    (hkc : ∀ a b, keq a b = true → hk a = hk b) (hvc : ∀ a b, (a == b) = true → hv a = hv b)
    {m m' : RangeMap K V} (h : m.eq m' = true) : m.hash hk hv = m'.hash hk hv := by
  obtain ⟨h1, h2⟩ := hash_congr hkc hvc h
  unfold RangeMap.hash
  rw [← h2]
  exact congrArg (fun n => HashToken.writeUsize n :: _) h1

/-- **C17** `==` on maps is symmetric and transitive, and reflexive when `==` on values is. -/
theorem C17_eq_equivalence {m m' m'' : RangeMap K V} :
    (m.eq m' = true → m'.eq m = true) ∧
    (m.eq m' = true → m'.eq m'' = true → m.eq m'' = true) ∧
    (∀ [ReflBEq V], m.eq m = true) :=
  ⟨iterEq_symm, iterEq_trans, iterEq_refl⟩

example := C17_eq_equivalence (K := Nat) (V := Char) (m := Demo.map) (m' := Demo.map')
    (m'' := Demo.map)

/-- two different representations of the same map, with keys that are equal but not identical -/
def tagA : RangeMap Demo.TagKey Nat := ⟨[(⟨⟨1, true⟩, ⟨4, true⟩⟩, 7)]⟩
def tagB : RangeMap Demo.TagKey Nat := ⟨[(⟨⟨1, false⟩, ⟨4, true⟩⟩, 7)]⟩
example : tagA.eq tagB = true ∧ tagA.btm ≠ tagB.btm := by decide
example : tagA.hash (fun k => [k.n]) (fun v => [v]) = tagB.hash (fun k => [k.n]) (fun v => [v]) ∧
    tagA.hash (fun k => [k.n]) (fun v => [v]) =
      [.writeUsize 1, .data 1, .data 4, .data 7] := ⟨by rfl, by rfl⟩

/-! ## C18 -/

/-- **C18** `cmp` on maps is a total order if `cmp` on values is: swapping the arguments swaps the
result, and "not greater" is transitive. -/
theorem C18_cmp_total {vcmp : V → V → Ordering}
    (hswap : ∀ a b, vcmp b a = (vcmp a b).swap)
    (htrans : ∀ a b c, vcmp a b ≠ .gt → vcmp b c ≠ .gt → vcmp a c ≠ .gt)
    (m m' m'' : RangeMap K V) :
    m'.cmp vcmp m = (m.cmp vcmp m').swap ∧
    (m.cmp vcmp m' ≠ .gt → m'.cmp vcmp m'' ≠ .gt → m.cmp vcmp m'' ≠ .gt) := by
  have h := (totalCmp_triple (K := K) ⟨hswap, htrans⟩).iterCmp
  exact ⟨h.swap _ _, h.trans _ _ _⟩

example := C18_cmp_total (K := Demo.TagKey) (V := Nat) (vcmp := compare)
    (fun _ _ => (Nat.compare_swap _ _).symm) (by grind [Nat.compare_eq_gt]) tagA tagB tagA

/-- **C18** `cmp` is `Equal` exactly when `==`. -/
theorem C18_cmp_eq_iff {vcmp : V → V → Ordering}
    (hv : ∀ a b, vcmp a b = .eq ↔ (a == b) = true) (m m' : RangeMap K V) :
    m.cmp vcmp m' = .eq ↔ m.eq m' = true := cmp_eq_iff hv m m'

example := C18_cmp_eq_iff (K := Nat) (V := Char) (vcmp := compare) (by simp) Demo.map Demo.map'

/-- **C18** `partial_cmp` is `Some(cmp)` when it is for values. -/
theorem C18_partial_cmp (vcmp : V → V → Ordering) (m m' : RangeMap K V) :
    m.partialCmp (fun a b => some (vcmp a b)) m' = some (m.cmp vcmp m') :=
  partialCmp_some vcmp m m'

example : (∀ a b : Nat, compare b a = (compare a b).swap) ∧
    (∀ a b : Nat, compare a b = .eq ↔ (a == b) = true) := by
  constructor
  · intro a b; rw [Nat.compare_swap]
  · intro a b; rw [Nat.compare_eq_eq, beq_iff_eq]
example : tagA.cmp compare ⟨[(⟨⟨1, true⟩, ⟨4, true⟩⟩, 8)]⟩ = .lt ∧
    tagA.cmp compare ⟨[]⟩ = .gt ∧ tagA.cmp compare tagB = .eq := by decide

/-! ## C19 -/

theorem extend_ok_iff {m : RangeMap K V} (h : WF m.btm) (items : List (Range K × V)) :
    (m.extend items).2 = .ok () ∨
      ((m.extend items).2 = .error .assertFailed ∧ ∃ e ∈ items, e.1.stop ≤ e.1.start) := by
  induction items generalizing m with
  | nil => exact Or.inl rfl
  | cons e t ih =>
    unfold RangeMap.extend
    by_cases he : e.1.start < e.1.stop
    · obtain ⟨m', h1, h2⟩ := insert_ok h e.2 he
      rw [h1]
      rcases ih h2 with h3 | ⟨h3, x, hx, h4⟩
      · exact Or.inl h3
      · exact Or.inr ⟨h3, x, by simp [hx], h4⟩
    · rw [insert_invalid he]
      exact Or.inr ⟨rfl, e, by simp, by grind⟩

theorem extend_panics {m : RangeMap K V} (h : WF m.btm) (items : List (Range K × V))
    (hb : ∃ e ∈ items, e.1.stop ≤ e.1.start) : (m.extend items).2 = .error .assertFailed := by
  induction items generalizing m with
  | nil => simp at hb
  | cons e t ih =>
    unfold RangeMap.extend
    by_cases he : e.1.start < e.1.stop
    · obtain ⟨m', h1, h2⟩ := insert_ok h e.2 he
      rw [h1]
      refine ih h2 ?_
      obtain ⟨x, hx, h3⟩ := hb
      rcases List.mem_cons.1 hx with rfl | hx
      · exfalso; grind
      · exact ⟨x, hx, h3⟩
    · rw [insert_invalid he]

/-- **C19** `extend` panics iff some range in the sequence is empty or inverted. -/
theorem C19_extend_panics_iff {m : RangeMap K V} (hm : Reachable m) (items : List (Range K × V)) :
    (∃ p, (m.extend items).2 = .error p) ↔ ∃ e ∈ items, e.1.stop ≤ e.1.start := by
  constructor
  · rintro ⟨p, hp⟩
    rcases extend_ok_iff hm.wf items with h | ⟨_, h⟩
    · rw [h] at hp; cases hp
    · exact h
  · intro h
    exact ⟨_, extend_panics hm.wf items h⟩

example := C19_extend_panics_iff (K := Nat) (V := Char) (m := Demo.map) Demo.map_reachable
    Demo.items

/-- **C19** After a successful `extend` the last pair covering a key wins, and other keys are as
before (up to `==`, because of coalescing). -/
theorem C19_extend_last_wins {m : RangeMap K V} (hm : Reachable m) (items : List (Range K × V))
    (hv : ∀ e ∈ items, e.1.start < e.1.stop) (k : K) :
    (m.extend items).2 = .ok () ∧
    ∃ o o', (m.extend items).1.get k = .ok o ∧ m.get k = .ok o' ∧
      Agree o (match items.reverse.find? (fun e => covers e.1 k) with
        | some e => some e.2
        | none => o') := by
  constructor
  · rcases extend_ok_iff hm.wf items with h | ⟨_, e, he, h⟩
    · exact h
    · have := hv e he
      exfalso; grind
  · have := extend_look hm.wf items k
    rw [List.takeWhile_eq_self (fun e he => by simpa [valid] using hv e he)] at this
    exact ⟨_, _, get_look (hm.wf.extend items).sep k, get_look hm.wf.sep k, this⟩
where
  List.takeWhile_eq_self {α : Type} {p : α → Bool} {l : List α} (h : ∀ a ∈ l, p a = true) :
      l.takeWhile p = l := by
    induction l with
    | nil => rfl
    | cons a t ih =>
      rw [List.takeWhile_cons, if_pos (h a (by simp)), ih (fun b hb => h b (by simp [hb]))]

example := C19_extend_last_wins (K := Nat) (V := Char) (m := Demo.map) Demo.map_reachable
    Demo.items (by decide) 7

theorem foldlM_extend (items : List (Range K × V)) : ∀ m : RangeMap K V,
    items.foldlM (fun m e => m.insert e.1 e.2) m =
      (m.extend items).2.map (fun _ => (m.extend items).1) := by
  induction items with
  | nil => intro m; rfl
  | cons e t ih =>
    intro m
    rw [List.foldlM_cons, RangeMap.extend]
    cases h : m.insert e.1 e.2 with
    | error p => rfl
    | ok m' =>
      simp only [bind, Except.bind]
      exact ih m'

/-- **C19** `from_iter`, `From<[_; N]>` (and the macro) and repeated `insert` on an empty map are
all the same. -/
theorem C19_from_iter_from_array (items : List (Range K × V)) :
    (fromIter items : Except Panic (RangeMap K V)) = fromArray items ∧
    (∀ m : RangeMap K V, fromIter items = .ok m ↔
      (new : RangeMap K V).extend items = (m, .ok ())) ∧
    (∀ (m : RangeMap K V) (e : Range K × V), m.extend (e :: items) =
      match m.insert e.1 e.2 with
      | .ok m' => m'.extend items
      | .error p => (m, .error p)) := by
  refine ⟨?_, ?_, ?_⟩
  · rw [fromArray, foldlM_extend]; rfl
  · intro m
    unfold fromIter
    generalize (new : RangeMap K V).extend items = p
    obtain ⟨m', o⟩ := p
    cases o <;> simp [Except.map]
  · intro m e; rfl

example : (fromIter [(⟨0, 10⟩, 'a'), (⟨5, 20⟩, 'b'), (⟨20, 25⟩, 'b')] :
    Except Panic (RangeMap Nat Char)).toOption.map (·.btm) =
    some [(⟨0, 5⟩, 'a'), (⟨5, 25⟩, 'b')] := by rfl
example : ∀ e ∈ [((⟨0, 10⟩ : Range Nat), 'a'), (⟨5, 20⟩, 'b')], e.1.start < e.1.stop := by decide

/-! ## C20 -/

theorem visitSeq_extend {E : Type} (items : List (Range K × V)) : ∀ m : RangeMap K V,
    visitSeq (E := E) m (items.map fun e => .ok ((e.1.start, e.1.stop), e.2)) =
      match (m.extend items).2 with
      | .ok () => .ok (m.extend items).1
      | .error p => .error (.panic p) := by
  induction items with
  | nil => intro m; rfl
  | cons e t ih =>
    intro m
    rw [List.map_cons, visitSeq, RangeMap.extend]
    cases h : m.insert e.1 e.2 with
    | error p => rfl
    | ok m' => exact ih m'

/-- **C20** Deserialising the serialised form of a map gives back exactly that map (identical
entries, even for values with a non-reflexive `==`), and the declared length is right. -/
theorem C20_round_trip {E : Type} {m : RangeMap K V} (hm : Reachable m) :
    deserialize (E := E) (m.serialize.2.map .ok) = .ok m ∧
      m.serialize.1 = some m.serialize.2.length := by
  refine ⟨?_, by simp [serialize, RangeMap.iter]⟩
  have h := visitSeq_extend (E := E) m.btm new
  have h2 := extend_rest m.btm [] (by simpa using hm.wf)
  rw [List.nil_append] at h2
  rw [show (new : RangeMap K V) = ⟨[]⟩ from rfl, h2] at h
  rw [deserialize, serialize, List.map_map]
  exact h

example := C20_round_trip (K := Nat) (V := Char) (E := String) (m := Demo.map) Demo.map_reachable

/-- **C20** Deserialising arbitrary data: whatever the deserialiser delivers, the outcome is
- a map reachable through the API, namely the in-order `extend`, if all elements are delivered and
  all their ranges are valid;
- the deserialiser's error, if that comes before any invalid range;
- a panic exactly when an empty/inverted range comes first. -/
theorem C20_deserialize_any {E : Type} (access : List (Except E ((K × K) × V))) :
    (∃ items : List (Range K × V), (∀ e ∈ items, e.1.start < e.1.stop) ∧
      access = items.map (fun e => .ok ((e.1.start, e.1.stop), e.2)) ∧
      ∃ m, deserialize access = .ok m ∧ Reachable m ∧ fromIter items = .ok m) ∨
    (∃ items : List (Range K × V), (∀ e ∈ items, e.1.start < e.1.stop) ∧ ∃ e rest,
      access = items.map (fun e => .ok ((e.1.start, e.1.stop), e.2)) ++ .error e :: rest ∧
      deserialize access = .error (.de e)) ∨
    (∃ items : List (Range K × V), (∀ e ∈ items, e.1.start < e.1.stop) ∧ ∃ a b v rest, b ≤ a ∧
      access = items.map (fun e => .ok ((e.1.start, e.1.stop), e.2)) ++ .ok ((a, b), v) :: rest ∧
      deserialize access = .error (.panic .assertFailed)) := by
  suffices H : ∀ (access : List (Except E ((K × K) × V))) (m : RangeMap K V), WF m.btm →
      (∃ items : List (Range K × V), (∀ e ∈ items, e.1.start < e.1.stop) ∧
        access = items.map (fun e => .ok ((e.1.start, e.1.stop), e.2)) ∧
        visitSeq m access = .ok (m.extend items).1 ∧ (m.extend items).2 = .ok ()) ∨
      (∃ items : List (Range K × V), (∀ e ∈ items, e.1.start < e.1.stop) ∧ ∃ e rest,
        access = items.map (fun e => .ok ((e.1.start, e.1.stop), e.2)) ++ .error e :: rest ∧
        visitSeq m access = .error (.de e)) ∨
      (∃ items : List (Range K × V), (∀ e ∈ items, e.1.start < e.1.stop) ∧ ∃ a b v rest, b ≤ a ∧
        access = items.map (fun e => .ok ((e.1.start, e.1.stop), e.2)) ++ .ok ((a, b), v) :: rest ∧
        visitSeq m access = .error (.panic .assertFailed)) by
    rcases H access new WF.nil with ⟨items, h1, h2, h3, h4⟩ | h | h
    · left
      refine ⟨items, h1, h2, _, h3, ?_, ?_⟩
      · exact Reachable.apply Reachable.new (.extend items)
      · simp [fromIter, h4, Except.map]
    · exact Or.inr (Or.inl h)
    · exact Or.inr (Or.inr h)
  intro access
  induction access with
  | nil => intro m _; exact Or.inl ⟨[], by simp, rfl, rfl, rfl⟩
  | cons x access ih =>
    intro m hm
    match x with
    | .error e => exact Or.inr (Or.inl ⟨[], by simp, e, access, rfl, rfl⟩)
    | .ok ((a, b), v) =>
      by_cases hab : a < b
      · obtain ⟨m', h1, h2⟩ := insert_ok hm (r := ⟨a, b⟩) v hab
        have hv : ∀ l : List (Range K × V), (∀ e ∈ l, e.1.start < e.1.stop) →
            ∀ e ∈ ((⟨a, b⟩ : Range K), v) :: l, e.1.start < e.1.stop := by
          intro l hl e he
          rcases List.mem_cons.1 he with rfl | he
          · exact hab
          · exact hl e he
        have hunf : visitSeq m (.ok ((a, b), v) :: access) = visitSeq m' access := by
          rw [visitSeq, h1]
        rcases ih m' h2 with ⟨items, h3, h4, h5, h6⟩ | ⟨items, h3, e, rest, h4, h5⟩ |
            ⟨items, h3, a', b', v', rest, h4, h5, h6⟩
        · refine Or.inl ⟨(⟨a, b⟩, v) :: items, hv _ h3, by rw [h4]; rfl, ?_, ?_⟩
          · rw [hunf, h5, RangeMap.extend, h1]
          · rw [RangeMap.extend, h1]; exact h6
        · exact Or.inr (Or.inl ⟨(⟨a, b⟩, v) :: items, hv _ h3, e, rest, by rw [h4]; rfl,
            by rw [hunf, h5]⟩)
        · exact Or.inr (Or.inr ⟨(⟨a, b⟩, v) :: items, hv _ h3, a', b', v', rest, h4,
            by rw [h5]; rfl, by rw [hunf, h6]⟩)
      · refine Or.inr (Or.inr ⟨[], by simp, a, b, v, access, by grind, rfl, ?_⟩)
        rw [visitSeq, insert_invalid (show ¬ (⟨a, b⟩ : Range K).start < _ from hab)]

example : (deserialize (E := String) (Demo.map.serialize.2.map .ok)).toOption.map (·.btm) =
    some Demo.map.btm := by rfl
example : (deserialize (E := String) [.ok ((1, 5), 'a'), .ok ((5, 5), 'b')] :
    Except (DeError String) (RangeMap Nat Char)) = .error (.panic .assertFailed) := by rfl

/-! ## C21 -/

section
variable [ReflBEq V]

theorem ite_agree {c : Prop} [Decidable c] {a b x y : Option V} (h1 : c → Agree a x)
    (h2 : ¬ c → Agree b y) : Agree (if c then a else b) (if c then x else y) := by
  split
  · rename_i h; exact h1 h
  · rename_i h; exact h2 h

/-- contents after an `insert` -/
theorem ins {m m' : RangeMap K V} (hm : Reachable m) {r : Range K} {v : V}
    (h : m.insert r v = .ok m') : Reachable m' ∧ r.start < r.stop ∧
    ∀ k, Agree (m'.look k) (if r.start ≤ k ∧ k < r.stop then some v else m.look k) := by
  have hr : r.start < r.stop := by
    apply Decidable.byContradiction
    intro hr
    simp [insert_invalid hr] at h
  exact ⟨hm.insert h, hr, insert_look_agree hm.wf hr h⟩

/-- contents after a `remove` -/
theorem rem {m m' : RangeMap K V} (hm : Reachable m) {r : Range K}
    (h : m.remove r = .ok m') : Reachable m' ∧ r.start < r.stop ∧
    ∀ k, m'.look k = if r.start ≤ k ∧ k < r.stop then none else m.look k := by
  have hr : r.start < r.stop := by
    apply Decidable.byContradiction
    intro hr
    simp [remove_invalid hr] at h
  exact ⟨hm.remove h, hr, remove_look hm.wf hr h⟩

theorem eq_of_look {m m' : RangeMap K V} (hm : Reachable m) (hm' : Reachable m')
    (h : ∀ k, Agree (m.look k) (m'.look k)) : m.eq m' = true := by
  have : EquivBEq V := {}
  exact (eq_iff_look hm.wf hm'.wf).2 h

/-- **C21** A later insert over the same or a larger range hides an earlier one (in particular,
with the same arguments, insert is idempotent). -/
theorem C21_insert_hides {m m1 m2 m3 : RangeMap K V} (hm : Reachable m) {r r' : Range K} {v v' : V}
    (hr1 : r'.start ≤ r.start) (hr2 : r.stop ≤ r'.stop)
    (h1 : m.insert r v = .ok m1) (h2 : m1.insert r' v' = .ok m2) (h3 : m.insert r' v' = .ok m3) :
    m2.eq m3 = true := by
  obtain ⟨a1, a2, a3⟩ := ins hm h1
  obtain ⟨b1, b2, b3⟩ := ins a1 h2
  obtain ⟨c1, c2, c3⟩ := ins hm h3
  refine eq_of_look b1 c1 fun k => ?_
  refine Agree.trans (b3 k) (Agree.trans (ite_agree (fun _ => Agree.refl _) fun h => ?_)
    (Agree.symm (c3 k)))
  have := a3 k
  rwa [if_neg (by grind)] at this

example := C21_insert_hides (K := Nat) (V := Char) (m := Demo.map) Demo.map_reachable
    (r := ⟨6, 9⟩) (r' := ⟨2, 22⟩) (v := 'q') (v' := 'q') (by decide) (by decide) rfl rfl rfl

/-- **C21** `insert` is idempotent. -/
theorem C21_insert_idempotent {m m1 m2 : RangeMap K V} (hm : Reachable m) {r : Range K} {v : V}
    (h1 : m.insert r v = .ok m1) (h2 : m1.insert r v = .ok m2) : m2.eq m1 = true :=
  C21_insert_hides hm (by grind) (by grind) h1 h2 h1

example := C21_insert_idempotent (K := Nat) (V := Char) (m := Demo.map) Demo.map_reachable
    (r := ⟨2, 22⟩) (v := 'q') rfl rfl

/-- **C21** Inserts on disjoint ranges commute. -/
theorem C21_insert_insert_comm {m m1 m2 m3 m4 : RangeMap K V} (hm : Reachable m) {r r' : Range K}
    {v v' : V} (hd : r.stop ≤ r'.start ∨ r'.stop ≤ r.start)
    (h1 : m.insert r v = .ok m1) (h2 : m1.insert r' v' = .ok m2)
    (h3 : m.insert r' v' = .ok m3) (h4 : m3.insert r v = .ok m4) : m2.eq m4 = true := by
  obtain ⟨a1, a2, a3⟩ := ins hm h1
  obtain ⟨b1, b2, b3⟩ := ins a1 h2
  obtain ⟨c1, c2, c3⟩ := ins hm h3
  obtain ⟨d1, d2, d3⟩ := ins c1 h4
  refine eq_of_look b1 d1 fun k => ?_
  have e1 := a3 k
  have e2 := b3 k
  have e3 := c3 k
  have e4 := d3 k
  by_cases x : r.start ≤ k ∧ k < r.stop
  · rw [if_neg (by grind)] at e2 e3
    rw [if_pos x] at e1 e4
    exact Agree.trans (Agree.trans e2 e1) (Agree.symm e4)
  · by_cases y : r'.start ≤ k ∧ k < r'.stop
    · rw [if_pos y] at e2 e3
      rw [if_neg x] at e1 e4
      exact Agree.trans e2 (Agree.symm (Agree.trans e4 e3))
    · rw [if_neg y] at e2 e3
      rw [if_neg x] at e1 e4
      exact Agree.trans (Agree.trans e2 e1) (Agree.symm (Agree.trans e4 e3))

example := C21_insert_insert_comm (K := Nat) (V := Char) (m := Demo.map) Demo.map_reachable
    (r := ⟨2, 22⟩) (r' := ⟨30, 35⟩) (v := 'q') (v' := 'q') (by decide) rfl rfl rfl rfl

/-- **C21** An insert and a remove on disjoint ranges commute. -/
theorem C21_insert_remove_comm {m m1 m2 m3 m4 : RangeMap K V} (hm : Reachable m) {r r' : Range K}
    {v : V} (hd : r.stop ≤ r'.start ∨ r'.stop ≤ r.start)
    (h1 : m.insert r v = .ok m1) (h2 : m1.remove r' = .ok m2)
    (h3 : m.remove r' = .ok m3) (h4 : m3.insert r v = .ok m4) : m2.eq m4 = true := by
  obtain ⟨a1, a2, a3⟩ := ins hm h1
  obtain ⟨b1, b2, b3⟩ := rem a1 h2
  obtain ⟨c1, c2, c3⟩ := rem hm h3
  obtain ⟨d1, d2, d3⟩ := ins c1 h4
  refine eq_of_look b1 d1 fun k => ?_
  have e1 := a3 k
  have e2 := b3 k
  have e3 := c3 k
  have e4 := d3 k
  by_cases x : r.start ≤ k ∧ k < r.stop
  · rw [if_neg (by grind)] at e2 e3
    rw [if_pos x] at e1 e4
    rw [e2]
    exact Agree.trans e1 (Agree.symm e4)
  · by_cases y : r'.start ≤ k ∧ k < r'.stop
    · rw [if_pos y] at e2 e3
      rw [if_neg x, e3] at e4
      rw [e2]
      exact Agree.symm e4
    · rw [if_neg y] at e2 e3
      rw [if_neg x] at e1 e4
      rw [e3] at e4
      rw [e2]
      exact Agree.trans e1 (Agree.symm e4)

example := C21_insert_remove_comm (K := Nat) (V := Char) (m := Demo.map) Demo.map_reachable
    (r := ⟨2, 22⟩) (r' := ⟨30, 35⟩) (v := 'q') (by decide) rfl rfl rfl rfl

/-- **C21** Removes commute, whatever their ranges. -/
theorem C21_remove_remove_comm {m m1 m2 m3 m4 : RangeMap K V} (hm : Reachable m) {r r' : Range K}
    (h1 : m.remove r = .ok m1) (h2 : m1.remove r' = .ok m2)
    (h3 : m.remove r' = .ok m3) (h4 : m3.remove r = .ok m4) : m2.eq m4 = true := by
  obtain ⟨a1, a2, a3⟩ := rem hm h1
  obtain ⟨b1, b2, b3⟩ := rem a1 h2
  obtain ⟨c1, c2, c3⟩ := rem hm h3
  obtain ⟨d1, d2, d3⟩ := rem c1 h4
  refine eq_of_look b1 d1 fun k => ?_
  rw [b3, a3, d3, c3]
  split <;> split <;> exact Agree.refl _

example := C21_remove_remove_comm (K := Nat) (V := Char) (m := Demo.map) Demo.map_reachable
    (r := ⟨2, 22⟩) (r' := ⟨6, 9⟩) rfl rfl rfl rfl

/-- **C21** Removing a range right after inserting into it (or into a part of it) is the same as
just removing it. -/
theorem C21_remove_after_insert {m m1 m2 m3 : RangeMap K V} (hm : Reachable m) {r r' : Range K}
    {v : V} (hr1 : r'.start ≤ r.start) (hr2 : r.stop ≤ r'.stop)
    (h1 : m.insert r v = .ok m1) (h2 : m1.remove r' = .ok m2) (h3 : m.remove r' = .ok m3) :
    m2.eq m3 = true := by
  obtain ⟨a1, a2, a3⟩ := ins hm h1
  obtain ⟨b1, b2, b3⟩ := rem a1 h2
  obtain ⟨c1, c2, c3⟩ := rem hm h3
  refine eq_of_look b1 c1 fun k => ?_
  rw [b3 k, c3 k]
  refine ite_agree (fun _ => Agree.refl _) fun h => ?_
  have := a3 k
  rwa [if_neg (by grind)] at this

example := C21_remove_after_insert (K := Nat) (V := Char) (m := Demo.map) Demo.map_reachable
    (r := ⟨6, 9⟩) (r' := ⟨2, 22⟩) (v := 'q') (by decide) (by decide) rfl rfl rfl

/-- **C21** Inserting over a range that has just been removed (or a part of which has) is the same
as just inserting. -/
theorem C21_insert_after_remove {m m1 m2 m3 : RangeMap K V} (hm : Reachable m) {r r' : Range K}
    {v : V} (hr1 : r'.start ≤ r.start) (hr2 : r.stop ≤ r'.stop)
    (h1 : m.remove r = .ok m1) (h2 : m1.insert r' v = .ok m2) (h3 : m.insert r' v = .ok m3) :
    m2.eq m3 = true := by
  obtain ⟨a1, a2, a3⟩ := rem hm h1
  obtain ⟨b1, b2, b3⟩ := ins a1 h2
  obtain ⟨c1, c2, c3⟩ := ins hm h3
  refine eq_of_look b1 c1 fun k => ?_
  refine Agree.trans (b3 k) (Agree.trans (ite_agree (fun _ => Agree.refl _) fun h => ?_)
    (Agree.symm (c3 k)))
  rw [a3 k, if_neg (by grind)]
  exact Agree.refl _

example := C21_insert_after_remove (K := Nat) (V := Char) (m := Demo.map) Demo.map_reachable
    (r := ⟨6, 9⟩) (r' := ⟨2, 22⟩) (v := 'q') (by decide) (by decide) rfl rfl rfl

/-- **C21** Inserting a stored entry (or any part of it, with an equal value) is a no-op. -/
theorem C21_insert_stored {m m1 : RangeMap K V} (hm : Reachable m) {r : Range K} {v : V}
    {e : Range K × V} (he : e ∈ m.iter) (hr1 : e.1.start ≤ r.start) (hr2 : r.stop ≤ e.1.stop)
    (hv : (e.2 == v) = true) (h1 : m.insert r v = .ok m1) : m1.eq m = true := by
  obtain ⟨a1, a2, a3⟩ := ins hm h1
  refine eq_of_look a1 hm fun k => ?_
  have e1 := a3 k
  by_cases x : r.start ≤ k ∧ k < r.stop
  · rw [if_pos x] at e1
    have : m.look k = some e.2 := (look_eq_some hm.wf.sep _ _).2 ⟨e, he, by grind, by grind, rfl⟩
    rw [this]
    exact Agree.trans e1 (Or.inr (PartialEquivBEq.symm hv))
  · rwa [if_neg x] at e1

example := C21_insert_stored (K := Nat) (V := Char) (m := Demo.map) Demo.map_reachable
    (r := ⟨6, 9⟩) (v := 'a') (e := (⟨5, 15⟩, 'a')) (by decide) (by decide) (by decide) (by decide)
    rfl

/-- **C21** Removing a range without mapped keys is a no-op. -/
theorem C21_remove_uncovered {m m1 : RangeMap K V} (hm : Reachable m) {r : Range K}
    (hu : ∀ k, r.start ≤ k → k < r.stop → m.get k = .ok none)
    (h1 : m.remove r = .ok m1) : m1.eq m = true := by
  obtain ⟨a1, a2, a3⟩ := rem hm h1
  refine eq_of_look a1 hm fun k => ?_
  rw [a3]
  split
  · rename_i h
    have := hu k h.1 h.2
    rw [get_look hm.wf.sep] at this
    cases h : m.look k with
    | none => trivial
    | some w => rw [h] at this; cases this
  · exact Agree.refl _

end

-- a case of the commutation laws: disjoint but touching ranges
example : ∃ m1 m2 m3 m4, Demo.map.insert ⟨2, 10⟩ 'q' = .ok m1 ∧ m1.insert ⟨10, 22⟩ 'r' = .ok m2 ∧
    Demo.map.insert ⟨10, 22⟩ 'r' = .ok m3 ∧ m3.insert ⟨2, 10⟩ 'q' = .ok m4 ∧
    (10 ≤ 10 ∨ 22 ≤ 2) ∧ m2.btm = [(⟨0, 2⟩, 'a'), (⟨2, 10⟩, 'q'), (⟨10, 22⟩, 'r'), (⟨22, 25⟩, 'b'),
      (⟨25, 40⟩, 'c')] :=
  ⟨_, _, _, _, rfl, rfl, rfl, rfl, by decide, rfl⟩
example : ∃ m1, Demo.map.insert ⟨7, 9⟩ 'a' = .ok m1 ∧ m1.btm = Demo.map.btm := ⟨_, rfl, rfl⟩

/-! ## C22 -/

/-- **C22** One insert adds at most 2 entries. -/
theorem C22_insert_growth {m m' : RangeMap K V} (hm : Reachable m) {r : Range K} {v : V}
    (h : m.insert r v = .ok m') : m'.len ≤ m.len + 2 := by
  have hr : r.start < r.stop := by
    apply Decidable.byContradiction
    intro hr
    simp [insert_invalid hr] at h
  obtain ⟨m'', h1, _, h2, _⟩ := insert_spec hm.wf v hr
  have := h1 _ (Nat.le_refl _)
  rw [RangeMap.insert, this] at h
  cases h
  exact h2

example := C22_insert_growth (K := Nat) (V := Char) (m := Demo.map) Demo.map_reachable
    (r := ⟨2, 22⟩) (v := 'q') rfl

/-- **C22** One remove adds at most 1 entry. -/
theorem C22_remove_growth {m m' : RangeMap K V} (hm : Reachable m) {r : Range K}
    (h : m.remove r = .ok m') : m'.len ≤ m.len + 1 := by
  have hr : r.start < r.stop := by
    apply Decidable.byContradiction
    intro hr
    simp [remove_invalid hr] at h
  obtain ⟨m'', h1, _, h2, _⟩ := remove_spec hm.wf hr
  have := h1 _ (Nat.le_refl _)
  rw [RangeMap.remove, this] at h
  cases h
  exact h2

example := C22_remove_growth (K := Nat) (V := Char) (m := Demo.map) Demo.map_reachable
    (r := ⟨2, 22⟩) rfl

/-- How many entries an operation can add: 2 per inserted pair, 1 per removal. -/
def weight : Op (Range K) V → Nat
  | .insert _ _ => 2
  | .remove _ => 1
  | .clear => 0
  | .extend items => 2 * items.length

theorem extend_growth (items : List (Range K × V)) : ∀ {m : RangeMap K V}, Reachable m →
    (m.extend items).1.len ≤ m.len + 2 * items.length := by
  induction items with
  | nil => intro m _; exact Nat.le_refl _
  | cons e t ih =>
    intro m hm
    rw [RangeMap.extend]
    cases h : m.insert e.1 e.2 with
    | error p => simp
    | ok m' =>
      have := ih (hm.insert h)
      have := C22_insert_growth hm h
      simp only [List.length_cons]
      omega

/-- **C22** After any history, `len()` is at most twice the number of inserted pairs plus the number
of removals. -/
theorem C22_history_growth (ops : List (Op (Range K) V)) :
    (run ops).len ≤ (ops.map weight).sum := by
  suffices ∀ rops : List (Op (Range K) V), (run rops.reverse).len ≤ (rops.map weight).sum by
    have := this ops.reverse
    rwa [List.reverse_reverse, List.map_reverse, List.sum_reverse] at this
  intro rops
  induction rops with
  | nil => simp [run, RangeMap.new, len]
  | cons op rops ih =>
    rw [List.reverse_cons, run_append]
    have hm : Reachable (run rops.reverse) := ⟨_, rfl⟩
    simp only [List.map_cons, List.sum_cons]
    cases op with
    | insert r v =>
      simp only [RangeMap.apply, weight]
      cases h : (run rops.reverse).insert r v with
      | error p => simp only; omega
      | ok m' => have := C22_insert_growth hm h; simp only; omega
    | remove r =>
      simp only [RangeMap.apply, weight]
      cases h : (run rops.reverse).remove r with
      | error p => simp only; omega
      | ok m' => have := C22_remove_growth hm h; simp only; omega
    | clear => simp [RangeMap.apply, RangeMap.clear, len]
    | extend items =>
      have := extend_growth items hm
      simp only [RangeMap.apply, weight]
      omega

-- the bound of 2 is attained: an insert into the middle of a range
example : (Demo.map.insert ⟨7, 9⟩ 'z').toOption.map (·.len) = some (Demo.map.len + 2) := by rfl
example : (Demo.map.remove ⟨7, 9⟩).toOption.map (·.len) = some (Demo.map.len + 1) := by rfl

/-! ### Cases that meet the hypotheses -/

example := C17_hash_eq (K := Demo.TagKey) (V := Nat) (H := Nat) (hk := fun k => [k.n])
    (hv := fun v => [v]) (fun _ _ h => congrArg (fun n => [n])
    (Nat.le_antisymm (keq_iff.1 h).1 (keq_iff.1 h).2)) (fun _ _ h => by
    simp_all) (m := tagA) (m' := tagB) (by decide)

end Verif.Props

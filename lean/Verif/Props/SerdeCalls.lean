import Verif.Model.SerdeCalls
import Verif.Props.Set
import Verif.Props.ISet
import Verif.Props.Build
import Verif.Props.IBuild
import Verif.Props.Demo

/-!
# C76: serde with serialisers and deserialisers that may fail
-/
set_option linter.unusedSectionVars false

namespace Verif.Spec

/-- A call that `serialize` makes. -/
inductive SerCall (X : Type) where
  | seq (len : Option Nat)
  | element (x : X)
  | finish

/-- The serialiser has accepted these calls, one after the other, and is in state `q`. -/
inductive Accepts {E Q X D : Type} (z : Serializer E Q X D) : List (SerCall X) → Q → Prop where
  | seq {n q} : z.serializeSeq n = .ok q → Accepts z [.seq n] q
  | element {l q x q'} : Accepts z l q → z.serializeElement q x = .ok q' →
      Accepts z (l ++ [.element x]) q'

/-- The serialiser has accepted the calls `l`, and the next one, `c`, returns the error `e`. -/
inductive Rejects {E Q X D : Type} (z : Serializer E Q X D) :
    List (SerCall X) → SerCall X → E → Prop where
  | seq {n e} : z.serializeSeq n = .error e → Rejects z [] (.seq n) e
  | element {l q x e} : Accepts z l q → z.serializeElement q x = .error e → Rejects z l (.element x) e
  | finish {l q e} : Accepts z l q → z.finish q = .error e → Rejects z l .finish e

/-- Successive calls of `next_element` on `a` return `Ok(Some(x))` for each `x` of the list, and
leave `a'`. -/
inductive Delivers {E A X : Type} (next : SeqAccess E A X) : A → List X → A → Prop where
  | nil {a} : Delivers next a [] a
  | cons {a x a₁ xs a'} : next a = (.ok (some x), a₁) → Delivers next a₁ xs a' →
      Delivers next a (x :: xs) a'

/-- A data format: `next` reads what `z` has written, element by element, if the length `z` was told
was the right one. -/
def Reads {E E' Q D X : Type} (z : Serializer E Q X D) (next : SeqAccess E' D X) : Prop :=
  ∀ xs q d, Accepts z (.seq (some xs.length) :: xs.map .element) q → z.finish q = .ok d →
    ∃ a a', Delivers next d xs a ∧ next a = (.ok none, a')

end Verif.Spec

namespace Verif.Props
open Spec

section
variable {E Q X D : Type} (z : Serializer E Q X D)

theorem elements_ok : ∀ (xs : List X) (l : List (SerCall X)) (q : Q), Accepts z l q → ∀ q',
    z.elements q xs = .ok q' → Accepts z (l ++ xs.map .element) q' := by
  intro xs
  induction xs with
  | nil =>
    intro l q h q' he
    cases he
    simpa using h
  | cons x xs ih =>
    intro l q h q' he
    unfold Serializer.elements at he
    cases hx : z.serializeElement q x with
    | error e => rw [hx] at he; cases he
    | ok q₁ =>
      rw [hx] at he
      have := ih _ _ (h.element hx) q' he
      simpa using this

theorem elements_error : ∀ (xs : List X) (l : List (SerCall X)) (q : Q), Accepts z l q → ∀ e,
    z.elements q xs = .error e → ∃ done x rest, xs = done ++ x :: rest ∧
      Rejects z (l ++ done.map .element) (.element x) e := by
  intro xs
  induction xs with
  | nil => intro l q h e he; cases he
  | cons x xs ih =>
    intro l q h e he
    unfold Serializer.elements at he
    cases hx : z.serializeElement q x with
    | error e' =>
      rw [hx] at he
      cases he
      exact ⟨[], x, xs, rfl, by simpa using Rejects.element h hx⟩
    | ok q₁ =>
      rw [hx] at he
      obtain ⟨done, y, rest, h1, h2⟩ := ih _ _ (h.element hx) e he
      exact ⟨x :: done, y, rest, by rw [h1]; rfl, by simpa using h2⟩

/-- What the three statements of `serialize` do. -/
theorem serialize_calls (n : Option Nat) (xs : List X) :
    match (do
      let seq ← z.serializeSeq n
      let seq ← z.elements seq xs
      z.finish seq : Except E D) with
    | .ok d => ∃ q, Accepts z (.seq n :: xs.map .element) q ∧ z.finish q = .ok d
    | .error e => ∃ l c, (l ++ [c]) <+: (.seq n :: xs.map .element ++ [.finish]) ∧
        Rejects z l c e := by
  cases h1 : z.serializeSeq n with
  | error e => exact ⟨[], .seq n, ⟨_, rfl⟩, .seq h1⟩
  | ok q =>
    simp only [bind, Except.bind]
    cases h2 : z.elements q xs with
    | error e =>
      obtain ⟨done, x, rest, h3, h4⟩ := elements_error z xs _ _ (.seq h1) e h2
      refine ⟨_, _, ⟨rest.map .element ++ [.finish], ?_⟩, h4⟩
      rw [h3]
      simp
    | ok q' =>
      have h3 := elements_ok z xs _ _ (.seq h1) q' h2
      simp only []
      cases h4 : z.finish q' with
      | ok d => exact ⟨q', h3, h4⟩
      | error e => exact ⟨_, _, List.prefix_refl _, .finish h3 h4⟩

end

/-- A serialiser with room for `n` elements; `end` insists on as many as were announced. -/
def Demo.limited (X : Type) (n : Nat) : Serializer String (Nat × List X) X (List X) where
  serializeSeq
    | some k => .ok (k, [])
    | none => .error "length unknown"
  serializeElement q x := if q.2.length < n then .ok (q.1, q.2 ++ [x]) else .error "full"
  finish q := if q.1 = q.2.length then .ok q.2 else .error "wrong length"

/-- Reading a list. -/
def Demo.listAccess (X : Type) : SeqAccess String (List X) X
  | [] => (.ok none, [])
  | x :: xs => (.ok (some x), xs)

/-- It reads what the serialiser has written. -/
theorem Demo.limited_reads (X : Type) (n : Nat) : Reads (Demo.limited X n) (Demo.listAccess X) := by
  have key : ∀ l q, Accepts (Demo.limited X n) l q → l = .seq (some q.1) :: q.2.map .element := by
    intro l q h
    induction h with
    | @seq k q h =>
      cases k with
      | none => simp [Demo.limited] at h
      | some k =>
        simp only [Demo.limited, Except.ok.injEq] at h
        rw [← h]
        rfl
    | @element l q x q' h1 h2 ih =>
      simp only [Demo.limited] at h2
      split at h2
      · obtain rfl := Except.ok.inj h2
        rw [ih]
        simp
      · cases h2
  have del : ∀ xs, Delivers (Demo.listAccess X) xs xs [] := by
    intro xs
    induction xs with
    | nil => exact .nil
    | cons x xs ih => exact .cons rfl ih
  intro xs q d h1 h2
  have h3 := key _ _ h1
  have h4 : xs = q.2 := by
    have h5 := (List.cons.inj h3).2
    have inj : ∀ a b : X, SerCall.element a = SerCall.element b → a = b := fun a b h => by
      injection h
    exact (List.map_inj_right inj).1 h5
  have h5 : q.2 = d := by
    simp only [Demo.limited] at h2
    split at h2
    · exact Except.ok.inj h2
    · cases h2
  subst h4 h5
  exact ⟨[], [], del _, rfl⟩

section
open RangeMap
variable {K : Type} [LE K] [LT K] [DecidableLE K] [DecidableLT K]
  [Std.IsLinearPreorder K] [Std.LawfulOrderLT K] {V : Type} [BEq V] [PartialEquivBEq V]

/-- The calls a complete serialisation of a map consists of, but the last. -/
def mapCalls (entries : List (Range K × V)) : List (SerCall ((K × K) × V)) :=
  .seq (some entries.length) :: entries.map fun e => .element ((e.1.start, e.1.stop), e.2)

/-- **C76** Serialising a map with any serialiser: if it succeeds, the serialiser has accepted, in
this order, `serialize_seq` with the number of entries, one `serialize_element` per entry, ascending,
and `end`; the result is that of `end`. -/
theorem C76_serialize {E Q D : Type} (m : RangeMap K V) (z : Serializer E Q ((K × K) × V) D) (d : D)
    (h : m.serializeWith z = .ok d) : ∃ q, Accepts z (mapCalls m.iter) q ∧ z.finish q = .ok d := by
  have := serialize_calls z (some m.btm.length)
    (m.iter.map fun e => ((e.1.start, e.1.stop), e.2))
  rw [← serializeWith.eq_def, h] at this
  simpa [mapCalls, RangeMap.iter, Function.comp_def] using this

/-- **C76** If serialising fails, the error is that of the first of these calls that was rejected;
all before were accepted. -/
theorem C76_serialize_error {E Q D : Type} (m : RangeMap K V) (z : Serializer E Q ((K × K) × V) D)
    (e : E) (h : m.serializeWith z = .error e) :
    ∃ l c, (l ++ [c]) <+: (mapCalls m.iter ++ [.finish]) ∧ Rejects z l c e := by
  have := serialize_calls z (some m.btm.length)
    (m.iter.map fun e => ((e.1.start, e.1.stop), e.2))
  rw [← serializeWith.eq_def, h] at this
  simpa [mapCalls, RangeMap.iter, Function.comp_def] using this

/-- Elements with valid ranges are inserted one after the other. -/
theorem visitSeqWith_delivers {E A : Type} {next : SeqAccess E A ((K × K) × V)} {a a' : A}
    {xs : List ((K × K) × V)} (h : Delivers next a xs a') : ∀ {m : RangeMap K V}, WF m.btm →
    (∀ x ∈ xs, x.1.1 < x.1.2) → ∃ m', m.extend (xs.map fun x => (⟨x.1.1, x.1.2⟩, x.2)) = (m', .ok ()) ∧
      WF m'.btm ∧ ∀ fuel, visitSeqWith next (xs.length + fuel) m a = visitSeqWith next fuel m' a' := by
  induction h with
  | nil => intro m hm _; exact ⟨m, rfl, hm, fun fuel => by simp⟩
  | @cons a x a₁ xs a' h1 h2 ih =>
    intro m hm hv
    obtain ⟨m₁, i1, i2⟩ := insert_ok hm x.2 (r := ⟨x.1.1, x.1.2⟩) (hv x (by simp))
    obtain ⟨m', j1, j2, j3⟩ := ih i2 fun y hy => hv y (by simp [hy])
    refine ⟨m', ?_, j2, fun fuel => ?_⟩
    · rw [List.map_cons, RangeMap.extend, i1]
      exact j1
    · rw [List.length_cons, Nat.add_right_comm, visitSeqWith, h1]
      obtain ⟨⟨x1, x2⟩, v⟩ := x
      simp only [] at i1 ⊢
      rw [i1]
      exact j3 fuel

/-- **C76** Deserialising with any `SeqAccess` that first delivers elements with valid ranges: these
are inserted in order; then `Ok(None)` ends it with that map, an error is returned as it is, and an
empty or inverted range panics.  In each case `next_element` is not called again (`a'` is the state
the `SeqAccess` is left in). -/
theorem C76_deserialize {E A : Type} {next : SeqAccess E A ((K × K) × V)} {a b : A}
    {xs : List ((K × K) × V)} (h : Delivers next a xs b) (hv : ∀ x ∈ xs, x.1.1 < x.1.2)
    {fuel : Nat} (hf : xs.length < fuel) :
    ∃ m : RangeMap K V, fromIter (xs.map fun x => (⟨x.1.1, x.1.2⟩, x.2)) = .ok m ∧
      (∀ a', next b = (.ok none, a') → visitSeqWith next fuel new a = (.ok m, a')) ∧
      (∀ e a', next b = (.error e, a') →
        visitSeqWith next fuel (new : RangeMap K V) a = (.error (.de e), a')) ∧
      (∀ x y v a', y ≤ x → next b = (.ok (some ((x, y), v)), a') →
        visitSeqWith next fuel (new : RangeMap K V) a = (.error (.panic .assertFailed), a')) := by
  obtain ⟨m, h1, h2, h3⟩ := visitSeqWith_delivers h (m := new) (Reachable.new).wf hv
  obtain ⟨f, rfl⟩ : ∃ f, fuel = xs.length + (f + 1) := ⟨fuel - xs.length - 1, by omega⟩
  rw [h3]
  refine ⟨m, by simp [fromIter, h1, Except.map], fun a' ha => ?_, fun e a' ha => ?_,
    fun x y v a' hyx ha => ?_⟩
  · rw [visitSeqWith, ha]
  · rw [visitSeqWith, ha]
  · have : m.insert ⟨x, y⟩ v = .error .assertFailed := by
      exact insert_invalid (by simp only []; grind)
    rw [visitSeqWith, ha]
    simp only []
    rw [this]

/-- **C76** Round trip through any format that can read what it has written, if told the right
length: if writing succeeds, reading gives back the map. -/
theorem C76_round_trip {E E' Q D : Type} {m : RangeMap K V} (hm : Reachable m)
    {z : Serializer E Q ((K × K) × V) D} {next : SeqAccess E' D ((K × K) × V)} (hr : Reads z next)
    {d : D} (h : m.serializeWith z = .ok d) :
    ∃ a, visitSeqWith next (m.len + 1) new d = (.ok m, a) := by
  obtain ⟨q, h1, h2⟩ := C76_serialize m z d h
  obtain ⟨b, a, h3, h4⟩ := hr (m.iter.map fun e => ((e.1.start, e.1.stop), e.2)) q d
    (by simpa [mapCalls, Function.comp_def] using h1) h2
  obtain ⟨m', i1, i2, -, -⟩ := C76_deserialize h3 (by
    intro x hx
    obtain ⟨e, he, rfl⟩ := List.mem_map.1 hx
    exact hm.wf.sep.ne e he) (fuel := m.len + 1) (by simp [RangeMap.iter, RangeMap.len])
  refine ⟨a, ?_⟩
  rw [i2 a h4]
  have h5 := extend_rest m.btm [] (by simpa using hm.wf)
  have h6 : (m.iter.map fun e => ((e.1.start, e.1.stop), e.2)).map
      (fun x => ((⟨x.1.1, x.1.2⟩ : Range K), x.2)) = m.btm := by
    simp [RangeMap.iter, Function.comp_def]
  rw [h6, fromIter, show (new : RangeMap K V) = ⟨[]⟩ from rfl, h5] at i1
  simpa [Except.map] using i1.symm

/-- Room for three elements is not enough, for ten it is. -/
example : (Demo.map.serializeWith (Demo.limited _ 3)).toOption = none ∧
    (Demo.map.serializeWith (Demo.limited _ 10)).toOption.map (·.length) = some 4 := ⟨rfl, rfl⟩

/-- The third element has an empty range: the fourth is not read. -/
example : ∃ p : Panic, visitSeqWith (Demo.listAccess ((Nat × Nat) × Char)) 10 (new : RangeMap Nat Char)
    [((0, 3), 'a'), ((5, 9), 'b'), ((4, 4), 'c'), ((1, 2), 'd')] =
      (.error (.panic p), [((1, 2), 'd')]) := ⟨_, rfl⟩
theorem _root_.Verif.Props.Demo.delivers {X : Type} : ∀ xs : List X,
    Delivers (Demo.listAccess X) xs xs []
  | [] => .nil
  | _ :: xs => .cons rfl (Demo.delivers xs)
example := C76_serialize Demo.map (Demo.limited _ 10) _ rfl
example := C76_serialize_error Demo.map (Demo.limited _ 3) _ rfl
example := C76_deserialize (Demo.delivers [((5, 9), 'a'), ((0, 5), 'a'), ((2, 3), 'b')]) (by decide)
  (fuel := 4) (by decide)
example := C76_round_trip Demo.map_reachable (Demo.limited_reads _ 10) (d := _) rfl

end

section
open RangeSet
variable {K : Type} [LE K] [LT K] [DecidableLE K] [DecidableLT K]
  [Std.IsLinearPreorder K] [Std.LawfulOrderLT K]

/-- The calls a complete serialisation of a set consists of, but the last. -/
def setCalls (ranges : List (Range K)) : List (SerCall (K × K)) :=
  .seq (some ranges.length) :: ranges.map fun r => .element (r.start, r.stop)

/-- **C76** Serialising a set with any serialiser: if it succeeds, the serialiser has accepted, in
this order, `serialize_seq` with the number of ranges, one `serialize_element` per range, ascending,
and `end`; the result is that of `end`. -/
theorem C76_set_serialize {E Q D : Type} (s : RangeSet K) (z : Serializer E Q (K × K) D) (d : D)
    (h : s.serializeWith z = .ok d) : ∃ q, Accepts z (setCalls s.iter) q ∧ z.finish q = .ok d := by
  have := serialize_calls z (some s.rm.btm.length) (s.iter.map fun r => (r.start, r.stop))
  rw [← RangeSet.serializeWith.eq_def, h] at this
  simpa [setCalls, RangeSet.iter, RangeMap.iter, Function.comp_def] using this

/-- **C76** If serialising fails, the error is that of the first of these calls that was rejected;
all before were accepted. -/
theorem C76_set_serialize_error {E Q D : Type} (s : RangeSet K) (z : Serializer E Q (K × K) D)
    (e : E) (h : s.serializeWith z = .error e) :
    ∃ l c, (l ++ [c]) <+: (setCalls s.iter ++ [.finish]) ∧ Rejects z l c e := by
  have := serialize_calls z (some s.rm.btm.length) (s.iter.map fun r => (r.start, r.stop))
  rw [← RangeSet.serializeWith.eq_def, h] at this
  simpa [setCalls, RangeSet.iter, RangeMap.iter, Function.comp_def] using this

/-- Valid ranges are inserted one after the other. -/
theorem set_visitSeqWith_delivers {E A : Type} {next : SeqAccess E A (K × K)} {a a' : A}
    {xs : List (K × K)} (h : Delivers next a xs a') : ∀ {s : RangeSet K}, RangeMap.WF s.rm.btm →
    (∀ x ∈ xs, x.1 < x.2) → ∃ s', s.extend (xs.map fun x => ⟨x.1, x.2⟩) = (s', .ok ()) ∧
      RangeMap.WF s'.rm.btm ∧
      ∀ fuel, visitSeqWith next (xs.length + fuel) s a = visitSeqWith next fuel s' a' := by
  induction h with
  | nil => intro s hs _; exact ⟨s, rfl, hs, fun fuel => by simp⟩
  | @cons a x a₁ xs a' h1 h2 ih =>
    intro s hs hv
    obtain ⟨m₁, i1, i2⟩ := RangeMap.insert_ok hs () (r := ⟨x.1, x.2⟩) (hv x (by simp))
    have i1' : s.insert ⟨x.1, x.2⟩ = .ok ⟨m₁⟩ := by rw [insert_rm, i1]; rfl
    obtain ⟨s', j1, j2, j3⟩ := ih (s := ⟨m₁⟩) i2 fun y hy => hv y (by simp [hy])
    refine ⟨s', ?_, j2, fun fuel => ?_⟩
    · rw [List.map_cons, RangeSet.extend, i1']
      exact j1
    · rw [List.length_cons, Nat.add_right_comm, visitSeqWith, h1]
      obtain ⟨x1, x2⟩ := x
      simp only [] at i1' ⊢
      rw [i1']
      exact j3 fuel

/-- **C76** Deserialising with any `SeqAccess` that first delivers valid ranges: these are inserted in
order; then `Ok(None)` ends it with that set, an error is returned as it is, and an empty or inverted
range panics.  In each case `next_element` is not called again (`a'` is the state the `SeqAccess` is
left in). -/
theorem C76_set_deserialize {E A : Type} {next : SeqAccess E A (K × K)} {a b : A}
    {xs : List (K × K)} (h : Delivers next a xs b) (hv : ∀ x ∈ xs, x.1 < x.2)
    {fuel : Nat} (hf : xs.length < fuel) :
    ∃ s : RangeSet K, fromIter (xs.map fun x => ⟨x.1, x.2⟩) = .ok s ∧
      (∀ a', next b = (.ok none, a') → visitSeqWith next fuel new a = (.ok s, a')) ∧
      (∀ e a', next b = (.error e, a') →
        visitSeqWith next fuel (new : RangeSet K) a = (.error (.de e), a')) ∧
      (∀ x y a', y ≤ x → next b = (.ok (some (x, y)), a') →
        visitSeqWith next fuel (new : RangeSet K) a = (.error (.panic .assertFailed), a')) := by
  obtain ⟨s, h1, h2, h3⟩ := set_visitSeqWith_delivers h (s := new) RangeMap.Reachable.new.wf hv
  obtain ⟨f, rfl⟩ : ∃ f, fuel = xs.length + (f + 1) := ⟨fuel - xs.length - 1, by omega⟩
  rw [h3]
  refine ⟨s, by simp [fromIter, h1, Except.map], fun a' ha => ?_, fun e a' ha => ?_,
    fun x y a' hyx ha => ?_⟩
  · rw [visitSeqWith, ha]
  · rw [visitSeqWith, ha]
  · have : s.insert ⟨x, y⟩ = .error .assertFailed := by
      rw [insert_rm, RangeMap.insert_invalid (r := ⟨x, y⟩) (by simp only []; grind)]
      rfl
    rw [visitSeqWith, ha]
    simp only []
    rw [this]

/-- **C76** Round trip through any format that can read what it has written, if told the right
length: if writing succeeds, reading gives back the set. -/
theorem C76_set_round_trip {E E' Q D : Type} {s : RangeSet K} (hs : Reachable s)
    {z : Serializer E Q (K × K) D} {next : SeqAccess E' D (K × K)} (hr : Reads z next)
    {d : D} (h : s.serializeWith z = .ok d) :
    ∃ a, visitSeqWith next (s.len + 1) new d = (.ok s, a) := by
  obtain ⟨q, h1, h2⟩ := C76_set_serialize s z d h
  obtain ⟨b, a, h3, h4⟩ := hr (s.iter.map fun r => (r.start, r.stop)) q d
    (by simpa [setCalls, Function.comp_def] using h1) h2
  obtain ⟨s', i1, i2, -, -⟩ := C76_set_deserialize h3 (by
    intro x hx
    obtain ⟨r, hr, rfl⟩ := List.mem_map.1 hx
    obtain ⟨e, he, rfl⟩ := List.mem_map.1 hr
    exact hs.wf.sep.ne e he) (fuel := s.len + 1)
    (by simp [RangeSet.iter, RangeMap.iter, RangeSet.len, RangeMap.len])
  refine ⟨a, ?_⟩
  rw [i2 a h4]
  have h5 := RangeMap.extend_rest s.rm.btm [] (by simpa using hs.wf)
  have h6 : (((s.iter.map fun r => (r.start, r.stop)).map
      (fun x => (⟨x.1, x.2⟩ : Range K))).map fun r => (r, ())) = s.rm.btm := by
    simp [RangeSet.iter, RangeMap.iter, Function.comp_def]
  rw [fromIter, extend_rm, h6, show (new : RangeSet K).rm = ⟨[]⟩ from rfl, h5] at i1
  simpa [Except.map] using i1.symm

/-- Room for two ranges is not enough, for three it is. -/
example : (Demo.set.serializeWith (Demo.limited _ 2)).toOption = none ∧
    (Demo.set.serializeWith (Demo.limited _ 3)).toOption = some [(0, 3), (5, 15), (20, 40)] :=
  ⟨rfl, rfl⟩
example := C76_set_serialize Demo.set (Demo.limited _ 3) _ rfl
example := C76_set_serialize_error Demo.set (Demo.limited _ 2) _ rfl
example := C76_set_deserialize (Demo.delivers [(5, 9), (0, 5), (2, 3)]) (by decide)
  (fuel := 4) (by decide)
example := C76_set_round_trip Demo.set_reachable (Demo.limited_reads _ 3) (d := _) rfl

end
end Verif.Props

namespace Verif.Props.Inclusive
open Spec

section
open RangeInclusiveMap
variable {K : Type} [LE K] [LT K] [DecidableLE K] [DecidableLT K]
  [Std.IsLinearPreorder K] [Std.LawfulOrderLT K] {V : Type} [BEq V] [PartialEquivBEq V] {S : StepFns K}

/-- The calls a complete serialisation of a map consists of, but the last. -/
def mapCalls (entries : List (RangeInclusive K × V)) : List (SerCall ((K × K) × V)) :=
  .seq (some entries.length) :: entries.map fun e => .element ((e.1.start, e.1.stop), e.2)

/-- **C76** Serialising a map with any serialiser: if it succeeds, the serialiser has accepted, in
this order, `serialize_seq` with the number of entries, one `serialize_element` per entry, ascending,
and `end`; the result is that of `end`. -/
theorem C76_serialize {E Q D : Type} (m : RangeInclusiveMap K V) (z : Serializer E Q ((K × K) × V) D) (d : D)
    (h : m.serializeWith z = .ok d) : ∃ q, Accepts z (mapCalls m.iter) q ∧ z.finish q = .ok d := by
  have := serialize_calls z (some m.btm.length)
    (m.iter.map fun e => ((e.1.start, e.1.stop), e.2))
  rw [← serializeWith.eq_def, h] at this
  simpa [mapCalls, RangeInclusiveMap.iter, Function.comp_def] using this

/-- **C76** If serialising fails, the error is that of the first of these calls that was rejected;
all before were accepted. -/
theorem C76_serialize_error {E Q D : Type} (m : RangeInclusiveMap K V) (z : Serializer E Q ((K × K) × V) D)
    (e : E) (h : m.serializeWith z = .error e) :
    ∃ l c, (l ++ [c]) <+: (mapCalls m.iter ++ [.finish]) ∧ Rejects z l c e := by
  have := serialize_calls z (some m.btm.length)
    (m.iter.map fun e => ((e.1.start, e.1.stop), e.2))
  rw [← serializeWith.eq_def, h] at this
  simpa [mapCalls, RangeInclusiveMap.iter, Function.comp_def] using this

/-- Elements with valid ranges are inserted one after the other. -/
theorem visitSeqWith_delivers (hS : LawfulSteps S) {E A : Type} {next : SeqAccess E A ((K × K) × V)} {a a' : A}
    {xs : List ((K × K) × V)} (h : Delivers next a xs a') : ∀ {m : RangeInclusiveMap K V}, SC m.btm →
    (∀ x ∈ xs, x.1.1 ≤ x.1.2) → ∃ m', m.extend S (xs.map fun x => (RangeInclusive.mk' x.1.1 x.1.2, x.2)) = (m', .ok ()) ∧
      SC m'.btm ∧ ∀ fuel, visitSeqWith S next (xs.length + fuel) m a = visitSeqWith S next fuel m' a' := by
  induction h with
  | nil => intro m hm _; exact ⟨m, rfl, hm, fun fuel => by simp⟩
  | @cons a x a₁ xs a' h1 h2 ih =>
    intro m hm hv
    obtain ⟨m₁, i1, i2, -⟩ := insert_ok hS hm x.2 (r := .mk' x.1.1 x.1.2) (hv x (by simp))
    obtain ⟨m', j1, j2, j3⟩ := ih i2 fun y hy => hv y (by simp [hy])
    refine ⟨m', ?_, j2, fun fuel => ?_⟩
    · rw [List.map_cons, RangeInclusiveMap.extend, i1]
      exact j1
    · rw [List.length_cons, Nat.add_right_comm, visitSeqWith, h1]
      obtain ⟨⟨x1, x2⟩, v⟩ := x
      simp only [] at i1 ⊢
      rw [i1]
      exact j3 fuel

/-- **C76** Deserialising with any `SeqAccess` that first delivers elements with valid ranges: these
are inserted in order; then `Ok(None)` ends it with that map, an error is returned as it is, and an
inverted range panics.  In each case `next_element` is not called again (`a'` is the state
the `SeqAccess` is left in). -/
theorem C76_deserialize (hS : LawfulSteps S) {E A : Type} {next : SeqAccess E A ((K × K) × V)} {a b : A}
    {xs : List ((K × K) × V)} (h : Delivers next a xs b) (hv : ∀ x ∈ xs, x.1.1 ≤ x.1.2)
    {fuel : Nat} (hf : xs.length < fuel) :
    ∃ m : RangeInclusiveMap K V, fromIter S (xs.map fun x => (RangeInclusive.mk' x.1.1 x.1.2, x.2)) = .ok m ∧
      (∀ a', next b = (.ok none, a') → visitSeqWith S next fuel new a = (.ok m, a')) ∧
      (∀ e a', next b = (.error e, a') →
        visitSeqWith S next fuel (new : RangeInclusiveMap K V) a = (.error (.de e), a')) ∧
      (∀ x y v a', y < x → next b = (.ok (some ((x, y), v)), a') →
        visitSeqWith S next fuel (new : RangeInclusiveMap K V) a = (.error (.panic .assertFailed), a')) := by
  obtain ⟨m, h1, h2, h3⟩ := visitSeqWith_delivers hS h (m := new) (Reachable.new.any.sc hS) hv
  obtain ⟨f, rfl⟩ : ∃ f, fuel = xs.length + (f + 1) := ⟨fuel - xs.length - 1, by omega⟩
  rw [h3]
  refine ⟨m, by simp [fromIter, h1, Except.map], fun a' ha => ?_, fun e a' ha => ?_,
    fun x y v a' hyx ha => ?_⟩
  · rw [visitSeqWith, ha]
  · rw [visitSeqWith, ha]
  · have : m.insert S (.mk' x y) v = .error .assertFailed := by
      exact insert_invalid (by simp only [RangeInclusive.mk']; grind)
    rw [visitSeqWith, ha]
    simp only []
    rw [this]

/-- **C76** Round trip through any format that can read what it has written, if told the right
length: if writing succeeds, reading gives back the map. -/
theorem C76_round_trip (hS : LawfulSteps S) {E E' Q D : Type} {m : RangeInclusiveMap K V} (hm : Reachable S m)
    {z : Serializer E Q ((K × K) × V) D} {next : SeqAccess E' D ((K × K) × V)} (hr : Reads z next)
    {d : D} (h : m.serializeWith z = .ok d) :
    ∃ a, visitSeqWith S next (m.len + 1) new d = (.ok m, a) := by
  obtain ⟨q, h1, h2⟩ := C76_serialize m z d h
  obtain ⟨b, a, h3, h4⟩ := hr (m.iter.map fun e => ((e.1.start, e.1.stop), e.2)) q d
    (by simpa [mapCalls, Function.comp_def] using h1) h2
  obtain ⟨m', i1, i2, -, -⟩ := C76_deserialize hS h3 (by
    intro x hx
    obtain ⟨e, he, rfl⟩ := List.mem_map.1 hx
    exact (hm.wf hS).sep.ne e he) (fuel := m.len + 1) (by simp [RangeInclusiveMap.iter, RangeInclusiveMap.len])
  refine ⟨a, ?_⟩
  rw [i2 a h4]
  have h5 := extend_rest hS m.btm [] (by simpa using (hm.wf hS).sc)
  have h6 : (m.iter.map fun e => ((e.1.start, e.1.stop), e.2)).map
      (fun x => (RangeInclusive.mk' x.1.1 x.1.2, x.2)) = m.btm := by
    rw [List.map_map]
    refine (List.map_congr_left fun e he => ?_).trans (List.map_id _)
    have := (hm.wf hS).fresh e he
    obtain ⟨⟨x, y, b⟩, v⟩ := e
    simp only [] at this
    rw [this]
    rfl
  rw [h6, fromIter, show (new : RangeInclusiveMap K V) = ⟨[]⟩ from rfl, h5] at i1
  simpa [Except.map] using i1.symm

end

section
open RangeInclusiveSet
variable {K : Type} [LE K] [LT K] [DecidableLE K] [DecidableLT K]
  [Std.IsLinearPreorder K] [Std.LawfulOrderLT K] {S : StepFns K}

/-- The calls a complete serialisation of a set consists of, but the last. -/
def setCalls (ranges : List (RangeInclusive K)) : List (SerCall (K × K)) :=
  .seq (some ranges.length) :: ranges.map fun r => .element (r.start, r.stop)

/-- **C76** Serialising a set with any serialiser: if it succeeds, the serialiser has accepted, in
this order, `serialize_seq` with the number of ranges, one `serialize_element` per range, ascending,
and `end`; the result is that of `end`. -/
theorem C76_set_serialize {E Q D : Type} (s : RangeInclusiveSet K) (z : Serializer E Q (K × K) D) (d : D)
    (h : s.serializeWith z = .ok d) : ∃ q, Accepts z (setCalls s.iter) q ∧ z.finish q = .ok d := by
  have := serialize_calls z (some s.rm.btm.length) (s.iter.map fun r => (r.start, r.stop))
  rw [← RangeInclusiveSet.serializeWith.eq_def, h] at this
  simpa [setCalls, RangeInclusiveSet.iter, RangeInclusiveMap.iter, Function.comp_def] using this

/-- **C76** If serialising fails, the error is that of the first of these calls that was rejected;
all before were accepted. -/
theorem C76_set_serialize_error {E Q D : Type} (s : RangeInclusiveSet K) (z : Serializer E Q (K × K) D)
    (e : E) (h : s.serializeWith z = .error e) :
    ∃ l c, (l ++ [c]) <+: (setCalls s.iter ++ [.finish]) ∧ Rejects z l c e := by
  have := serialize_calls z (some s.rm.btm.length) (s.iter.map fun r => (r.start, r.stop))
  rw [← RangeInclusiveSet.serializeWith.eq_def, h] at this
  simpa [setCalls, RangeInclusiveSet.iter, RangeInclusiveMap.iter, Function.comp_def] using this

/-- Valid ranges are inserted one after the other. -/
theorem set_visitSeqWith_delivers (hS : LawfulSteps S) {E A : Type} {next : SeqAccess E A (K × K)} {a a' : A}
    {xs : List (K × K)} (h : Delivers next a xs a') : ∀ {s : RangeInclusiveSet K}, RangeInclusiveMap.SC s.rm.btm →
    (∀ x ∈ xs, x.1 ≤ x.2) → ∃ s', s.extend S (xs.map fun x => RangeInclusive.mk' x.1 x.2) = (s', .ok ()) ∧
      RangeInclusiveMap.SC s'.rm.btm ∧
      ∀ fuel, visitSeqWith S next (xs.length + fuel) s a = visitSeqWith S next fuel s' a' := by
  induction h with
  | nil => intro s hs _; exact ⟨s, rfl, hs, fun fuel => by simp⟩
  | @cons a x a₁ xs a' h1 h2 ih =>
    intro s hs hv
    obtain ⟨m₁, i1, i2, -⟩ := RangeInclusiveMap.insert_ok hS hs () (r := .mk' x.1 x.2) (hv x (by simp))
    have i1' : s.insert S (.mk' x.1 x.2) = .ok ⟨m₁⟩ := by rw [insert_rm, i1]; rfl
    obtain ⟨s', j1, j2, j3⟩ := ih (s := ⟨m₁⟩) i2 fun y hy => hv y (by simp [hy])
    refine ⟨s', ?_, j2, fun fuel => ?_⟩
    · rw [List.map_cons, RangeInclusiveSet.extend, i1']
      exact j1
    · rw [List.length_cons, Nat.add_right_comm, visitSeqWith, h1]
      obtain ⟨x1, x2⟩ := x
      simp only [] at i1' ⊢
      rw [i1']
      exact j3 fuel

/-- **C76** Deserialising with any `SeqAccess` that first delivers valid ranges: these are inserted in
order; then `Ok(None)` ends it with that set, an error is returned as it is, and an inverted
range panics.  In each case `next_element` is not called again (`a'` is the state the `SeqAccess` is
left in). -/
theorem C76_set_deserialize (hS : LawfulSteps S) {E A : Type} {next : SeqAccess E A (K × K)} {a b : A}
    {xs : List (K × K)} (h : Delivers next a xs b) (hv : ∀ x ∈ xs, x.1 ≤ x.2)
    {fuel : Nat} (hf : xs.length < fuel) :
    ∃ s : RangeInclusiveSet K, fromIter S (xs.map fun x => RangeInclusive.mk' x.1 x.2) = .ok s ∧
      (∀ a', next b = (.ok none, a') → visitSeqWith S next fuel new a = (.ok s, a')) ∧
      (∀ e a', next b = (.error e, a') →
        visitSeqWith S next fuel (new : RangeInclusiveSet K) a = (.error (.de e), a')) ∧
      (∀ x y a', y < x → next b = (.ok (some (x, y)), a') →
        visitSeqWith S next fuel (new : RangeInclusiveSet K) a = (.error (.panic .assertFailed), a')) := by
  obtain ⟨s, h1, h2, h3⟩ := set_visitSeqWith_delivers hS h (s := new) (RangeInclusiveMap.Reachable.new.any.sc hS) hv
  obtain ⟨f, rfl⟩ : ∃ f, fuel = xs.length + (f + 1) := ⟨fuel - xs.length - 1, by omega⟩
  rw [h3]
  refine ⟨s, by simp [fromIter, h1, Except.map], fun a' ha => ?_, fun e a' ha => ?_,
    fun x y a' hyx ha => ?_⟩
  · rw [visitSeqWith, ha]
  · rw [visitSeqWith, ha]
  · have : s.insert S (.mk' x y) = .error .assertFailed := by
      rw [insert_rm, RangeInclusiveMap.insert_invalid (r := .mk' x y) (by simp only [RangeInclusive.mk']; grind)]
      rfl
    rw [visitSeqWith, ha]
    simp only []
    rw [this]

/-- **C76** Round trip through any format that can read what it has written, if told the right
length: if writing succeeds, reading gives back the set. -/
theorem C76_set_round_trip (hS : LawfulSteps S) {E E' Q D : Type} {s : RangeInclusiveSet K} (hs : Reachable S s)
    {z : Serializer E Q (K × K) D} {next : SeqAccess E' D (K × K)} (hr : Reads z next)
    {d : D} (h : s.serializeWith z = .ok d) :
    ∃ a, visitSeqWith S next (s.len + 1) new d = (.ok s, a) := by
  obtain ⟨q, h1, h2⟩ := C76_set_serialize s z d h
  obtain ⟨b, a, h3, h4⟩ := hr (s.iter.map fun r => (r.start, r.stop)) q d
    (by simpa [setCalls, Function.comp_def] using h1) h2
  obtain ⟨s', i1, i2, -, -⟩ := C76_set_deserialize hS h3 (by
    intro x hx
    obtain ⟨r, hr, rfl⟩ := List.mem_map.1 hx
    obtain ⟨e, he, rfl⟩ := List.mem_map.1 hr
    exact (hs.wf hS).sep.ne e he) (fuel := s.len + 1)
    (by simp [RangeInclusiveSet.iter, RangeInclusiveMap.iter, RangeInclusiveSet.len, RangeInclusiveMap.len])
  refine ⟨a, ?_⟩
  rw [i2 a h4]
  have h5 := RangeInclusiveMap.extend_rest hS s.rm.btm [] (by simpa using (hs.wf hS).sc)
  have h6 : (((s.iter.map fun r => (r.start, r.stop)).map
      (fun x => RangeInclusive.mk' x.1 x.2)).map fun r => (r, ())) = s.rm.btm := by
    rw [RangeInclusiveSet.iter, List.map_map, List.map_map, List.map_map]
    refine (List.map_congr_left fun e he => ?_).trans (List.map_id _)
    have := (hs.wf hS).fresh e he
    obtain ⟨⟨x, y, b⟩, v⟩ := e
    simp only [] at this
    rw [this]
    rfl
  rw [fromIter, extend_rm, h6, show (new : RangeInclusiveSet K).rm = ⟨[]⟩ from rfl, h5] at i1
  simpa [Except.map] using i1.symm

/-- Room for two ranges is not enough, for three it is. -/
example : (Demo.iset.serializeWith (Demo.limited _ 2)).toOption.isSome = false ∧
    (Demo.iset.serializeWith (Demo.limited _ 3)).toOption.map (·.length) = some 3 := ⟨rfl, rfl⟩
example := C76_set_serialize Demo.iset (Demo.limited _ 3) _ rfl
example := C76_set_serialize_error Demo.iset (Demo.limited _ 2) _ rfl
example := C76_set_deserialize (K := UIntW 8) Demo.u8_lawful
  (Demo.delivers [(⟨5⟩, ⟨9⟩), (⟨0⟩, ⟨4⟩), (⟨2⟩, ⟨2⟩)]) (by decide) (fuel := 4) (by decide)
example := C76_set_round_trip Demo.u8_lawful Demo.iset_reachable (Demo.limited_reads _ 3) (d := _) rfl
example := C76_serialize Demo.imap (Demo.limited _ 10) _ rfl
example := C76_serialize_error Demo.imap (Demo.limited _ 2) _ rfl
example := C76_deserialize (K := UIntW 8) Demo.u8_lawful
  (Demo.delivers [((⟨5⟩, ⟨9⟩), 'a'), ((⟨0⟩, ⟨4⟩), 'a'), ((⟨2⟩, ⟨2⟩), 'b')]) (by decide) (fuel := 4)
  (by decide)
example := C76_round_trip Demo.u8_lawful Demo.imap_reachable (Demo.limited_reads _ 10) (d := _) rfl

end
end Verif.Props.Inclusive

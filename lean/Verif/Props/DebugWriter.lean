import Verif.Proof.DebugWriter
import Verif.Props.Demo

/-!
# C110: `Debug` with a writer that may fail

`Spec.inTurn`, `Spec.oneLine`, `Spec.manyLines` say what is written in which order;
`Spec.Prints f text` says that `f` writes the pieces of `text` up to the first that is refused.
-/
set_option linter.unusedSectionVars false
set_option linter.unusedVariables false
namespace Verif
namespace Spec

/-- A writer whose text so far is `out`: it may take only a beginning of what it is given, but if it
returns `Ok`, it has taken all. -/
def Honest {σ : Type} (w : Writer σ) (out : σ → Text) : Prop :=
  ∀ s t, ∃ p, p <+: t ∧ out (w s t).1 = out s ++ p ∧ ((w s t).2 = true → p = t)

/-- `String` as a writer. -/
def string : Writer Text := fun s t => (s ++ t, true)

/-- A buffer of `n` characters that takes a piece if there is room for it. -/
def buffer (n : Nat) : Writer Text := fun s t =>
  if (s ++ t).length ≤ n then (s ++ t, true) else (s, false)

/-- `w`, with a list of what it was asked to write and what it returned. -/
def recorded {σ : Type} (w : Writer σ) : Writer (σ × List (Text × Bool)) := fun s t =>
  (((w s.1 t).1, s.2 ++ [(t, (w s.1 t).2)]), (w s.1 t).2)

end Spec

namespace Props
open Spec

/-! ## What follows from `Prints` -/

section
variable {f : ∀ σ : Type, Writer σ → σ → Except Panic (σ × Bool)} {text : Text}

/-- **C110** `format!` gives the text. -/
theorem C110_string (h : Prints f text) : f Text string [] = .ok (text, true) := by
  obtain ⟨ps, rfl, h⟩ := h
  rw [h]
  have : ∀ (ps : List Text) (s : Text), emit string ps s = (s ++ ps.flatten, true) := by
    intro ps
    induction ps with
    | nil => exact fun s => by rw [List.flatten_nil, List.append_nil]; rfl
    | cons p ps ih =>
      intro s
      show emit string ps (s ++ p) = _
      rw [ih, List.append_assoc]
      rfl
  rw [this]
  rfl

/-- **C110** What has been written is a beginning of the text, and all of it if `Ok` is returned. -/
theorem C110_prefix (h : Prints f text) {σ : Type} {w : Writer σ} {out : σ → Text}
    (hw : Honest w out) (s : σ) :
    ∃ s' ok, f σ w s = .ok (s', ok) ∧ ∃ p, p <+: text ∧ out s' = out s ++ p ∧
      (ok = true → p = text) := by
  obtain ⟨ps, rfl, h⟩ := h
  refine ⟨_, _, h σ w s, ?_⟩
  clear h
  induction ps generalizing s with
  | nil => exact ⟨[], List.prefix_rfl, (List.append_nil _).symm, fun _ => rfl⟩
  | cons t ps ih =>
    obtain ⟨p, hp, ho, hall⟩ := hw s t
    show ∃ p, _ ∧ out (if (w s t).2 then emit w ps (w s t).1 else w s t).1 = _ ∧
      ((if (w s t).2 then emit w ps (w s t).1 else w s t).2 = true → _)
    cases hb : (w s t).2 with
    | false =>
      rw [if_neg nofun]
      refine ⟨p, hp.trans ?_, ho, fun h => ?_⟩
      · exact List.prefix_append _ _
      · rw [hb] at h
        cases h
    | true =>
      obtain rfl := hall hb
      rw [if_pos rfl]
      obtain ⟨q, ⟨z, hz⟩, ho', hall'⟩ := ih (w s p).1
      refine ⟨p ++ q, ⟨z, ?_⟩, ?_, fun h => ?_⟩
      · rw [List.append_assoc, hz]
        rfl
      · rw [ho', ho, List.append_assoc]
      · rw [hall' h]
        rfl

/-- **C110** Writing to a buffer succeeds if and only if there is room for the text. -/
theorem C110_buffer (h : Prints f text) (n : Nat) :
    ∃ s ok, f Text (buffer n) [] = .ok (s, ok) ∧ (ok = true ↔ text.length ≤ n) ∧ s <+: text ∧
      (ok = true → s = text) := by
  have hw : Honest (buffer n) id := by
    intro s t
    unfold buffer
    by_cases hb : (s ++ t).length ≤ n
    · rw [if_pos hb]
      exact ⟨t, List.prefix_rfl, rfl, fun _ => rfl⟩
    · rw [if_neg hb]
      exact ⟨[], List.nil_prefix, (List.append_nil _).symm, nofun⟩
  obtain ⟨s, ok, h1, p, hp, h2, h3⟩ := C110_prefix h hw []
  obtain rfl : s = p := h2
  refine ⟨s, ok, h1, ?_, hp, h3⟩
  obtain ⟨ps, rfl, h⟩ := h
  have e := h _ (buffer n) []
  rw [h1] at e
  have e := Except.ok.inj e
  have : ∀ (ps : List Text) (s : Text), s.length ≤ n →
      ((emit (buffer n) ps s).2 = true ↔ (s ++ ps.flatten).length ≤ n) := by
    intro ps
    induction ps with
    | nil =>
      intro s hs
      rw [List.flatten_nil, List.append_nil]
      exact ⟨fun _ => hs, fun _ => rfl⟩
    | cons p ps ih =>
      intro s hs
      show (if (buffer n s p).2 then emit (buffer n) ps (buffer n s p).1 else _).2 = true ↔ _
      unfold buffer
      by_cases hb : (s ++ p).length ≤ n
      · rw [if_pos hb]
        rw [List.flatten_cons, ← List.append_assoc]
        exact ih (s ++ p) hb
      · rw [if_neg hb]
        refine ⟨nofun, fun h => absurd ?_ hb⟩
        rw [List.flatten_cons, ← List.append_assoc, List.length_append] at h
        omega
  have := this ps [] (Nat.zero_le _)
  rw [← e] at this
  exact this

/-- **C110** The writer is asked for a beginning of the text; every answer but the last was `Ok`; and the
result is `Ok` if and only if no answer was an error.  So nothing is written after an error, and no
error is lost. -/
theorem C110_asked (h : Prints f text) {σ : Type} (w : Writer σ) (s : σ) :
    ∃ s' asked ok, f _ (recorded w) (s, []) = .ok ((s', asked), ok) ∧ f σ w s = .ok (s', ok) ∧
      (asked.map (·.1)).flatten <+: text ∧ asked.dropLast.all (·.2) = true ∧
      ok = asked.all (·.2) ∧ (ok = true → (asked.map (·.1)).flatten = text) := by
  obtain ⟨ps, rfl, h⟩ := h
  rw [h, h]
  have : ∀ (ps : List Text) (s : σ) (l : List (Text × Bool)), ∃ s' asked ok,
      emit (recorded w) ps (s, l) = ((s', l ++ asked), ok) ∧ emit w ps s = (s', ok) ∧
      (asked.map (·.1)).flatten <+: ps.flatten ∧ asked.dropLast.all (·.2) = true ∧
      ok = asked.all (·.2) ∧ (ok = true → (asked.map (·.1)).flatten = ps.flatten) := by
    intro ps
    induction ps with
    | nil =>
      exact fun s l => ⟨s, [], true, by rw [List.append_nil]; rfl, rfl, List.prefix_rfl, rfl, rfl,
        fun _ => rfl⟩
    | cons p ps ih =>
      intro s l
      obtain ⟨s', asked, ok, h1, h2, h3, h4, h5, h6⟩ := ih (w s p).1 (l ++ [(p, (w s p).2)])
      have e1 : emit (recorded w) (p :: ps) (s, l) = if (w s p).2 then
        emit (recorded w) ps ((w s p).1, l ++ [(p, (w s p).2)])
        else (((w s p).1, l ++ [(p, (w s p).2)]), (w s p).2) := rfl
      have e2 : emit w (p :: ps) s = if (w s p).2 then emit w ps (w s p).1 else w s p := rfl
      rw [e1, e2]
      cases hb : (w s p).2 with
      | false =>
        refine ⟨(w s p).1, [(p, false)], false, rfl, ?_, ?_, rfl, rfl, nofun⟩
        · rw [if_neg nofun]
          exact Prod.ext rfl hb
        · show p ++ [] <+: p ++ ps.flatten
          rw [List.append_nil]
          exact List.prefix_append _ _
      | true =>
        rw [hb] at h1
        refine ⟨s', (p, true) :: asked, ok, ?_, ?_, ?_, ?_, ?_, ?_⟩
        · rw [if_pos rfl, h1, List.append_assoc]
          rfl
        · rw [if_pos rfl, h2]
        · obtain ⟨z, hz⟩ := h3
          exact ⟨z, by rw [List.flatten_cons, ← hz]; exact List.append_assoc ..⟩
        · cases asked with
          | nil => rfl
          | cons a asked =>
            show (true && (a :: asked).dropLast.all (·.2)) = true
            rw [h4]
            rfl
        · rw [List.all_cons, ← h5]
          rfl
        · intro h
          show p ++ _ = p ++ ps.flatten
          rw [← h6 h]
  obtain ⟨s', asked, ok, h1, h2, h3⟩ := this ps s []
  exact ⟨s', asked, ok, by rw [h1, List.nil_append], by rw [h2], h3⟩

end

/-! ## Half-open ranges -/

section
variable {K V : Type}

/-- **C110** `{:?}` and `{:#?}` of a map never panic, and with any writer and any `Debug` of keys and values
write the opening brace, the entries with what separates them, and the closing brace in turn, until
something fails. -/
theorem C110_map_fmt (dk : K → Fmt) (dv : V → Fmt) (m : RangeMap K V) {σ : Type} (w : Writer σ)
    (s : σ) :
    let es := m.iter.map fun e =>
      inTurn [inTurn [dk e.1.start, lit "..", dk e.1.stop], lit ": ", dv e.2]
    m.fmt false dk dv σ w s = .ok (oneLine es σ w s) ∧
      m.fmt true dk dv σ w s = .ok (manyLines es σ w s) := by
  have h : ∀ r : Range K, r.fmt dk = inTurn [dk r.start, lit "..", dk r.stop] := by
    intro r
    funext τ w s
    rw [Range.fmt, andThen_assoc, inTurn_cons]
    congr 1
    funext s
    rw [inTurn_cons]
    congr 1
    funext s
    exact (andThen_pure _).symm
  simp only [← h]
  exact ⟨DebugWriter.map_fmt false (fun e : Range K × V => e.1.fmt dk) (fun e => dv e.2) m.iter s,
    DebugWriter.map_fmt true (fun e : Range K × V => e.1.fmt dk) (fun e => dv e.2) m.iter s⟩

/-- **C110** The same for sets. -/
theorem C110_set_fmt (dk : K → Fmt) (x : RangeSet K) {σ : Type} (w : Writer σ) (s : σ) :
    let es := x.iter.map fun r => inTurn [dk r.start, lit "..", dk r.stop]
    x.fmt false dk σ w s = .ok (oneLine es σ w s) ∧
      x.fmt true dk σ w s = .ok (manyLines es σ w s) := by
  have h : ∀ r : Range K, r.fmt dk = inTurn [dk r.start, lit "..", dk r.stop] := by
    intro r
    funext τ w s
    rw [Range.fmt, andThen_assoc, inTurn_cons]
    congr 1
    funext s
    rw [inTurn_cons]
    congr 1
    funext s
    exact (andThen_pure _).symm
  simp only [← h]
  refine ⟨?_, ?_⟩
  · rw [RangeSet.fmt, ← List.foldl_map (f := fun r : Range K => r.fmt dk)
      (g := fun b f => DebugWriter.item w false b f), DebugWriter.set_fmt]
    rfl
  · rw [RangeSet.fmt, ← List.foldl_map (f := fun r : Range K => r.fmt dk)
      (g := fun b f => DebugWriter.item w true b f), DebugWriter.set_fmt]
    rfl

theorem range_saying (pk : K → List Text) (a b : K) (sep : String) :
    inTurn [saying (pk a), lit sep, saying (pk b)] = saying (pk a ++ sep.toList :: pk b) := by
  rw [lit_eq, show [saying (pk a), saying [sep.toList], saying (pk b)] =
    [pk a, [sep.toList], pk b].map saying from rfl, inTurn_saying']
  simp

theorem entry_saying (ps qs : List Text) :
    inTurn [saying ps, lit ": ", saying qs] = saying (ps ++ ": ".toList :: qs) := by
  rw [lit_eq, show [saying ps, saying [": ".toList], saying qs] =
    [ps, [": ".toList], qs].map saying from rfl, inTurn_saying']
  simp

/-- **C110** If keys and values write pieces, `{:?}` and `{:#?}` of a map give every writer the same pieces,
together the text of C58 and C93, until it refuses one. -/
theorem C110_map_debug (pk : K → List Text) (pv : V → List Text) (m : RangeMap K V) :
    Prints (m.fmt false (fun k => saying (pk k)) fun v => saying (pv v))
      (m.debug (fun k => (pk k).flatten) fun v => (pv v).flatten) ∧
    Prints (m.fmt true (fun k => saying (pk k)) fun v => saying (pv v))
      (m.pretty (fun k => (pk k).flatten) fun v => (pv v).flatten) := by
  have he : (m.iter.map fun e : Range K × V => inTurn [inTurn [saying (pk e.1.start), lit "..",
      saying (pk e.1.stop)], lit ": ", saying (pv e.2)]) =
      (m.iter.map fun e : Range K × V => (pk e.1.start ++ "..".toList :: pk e.1.stop) ++
        ": ".toList :: pv e.2).map saying := by
    rw [List.map_map]
    congr 1
    funext e
    rw [range_saying, entry_saying]
    rfl
  have ht : (m.iter.map fun e : Range K × V => (pk e.1.start ++ "..".toList :: pk e.1.stop) ++
        ": ".toList :: pv e.2).map List.flatten =
      m.iter.map (entryText (fun k => (pk k).flatten) fun v => (pv v).flatten) := by
    rw [List.map_map]
    congr 1
    funext e
    simp [entryText]
  refine ⟨?_, ?_⟩
  · obtain ⟨ps, h1, h2⟩ := oneLine_saying (m.iter.map fun e : Range K × V =>
      (pk e.1.start ++ "..".toList :: pk e.1.stop) ++ ": ".toList :: pv e.2)
    refine ⟨ps, ?_, fun σ w s => ?_⟩
    · rw [h1, ht, debug_eq_braces]
    · rw [(C110_map_fmt _ _ m w s).1, he, h2]
      rfl
  · obtain ⟨ps, h1, h2⟩ := manyLines_saying (m.iter.map fun e : Range K × V =>
      (pk e.1.start ++ "..".toList :: pk e.1.stop) ++ ": ".toList :: pv e.2)
    refine ⟨ps, ?_, fun σ w s => ?_⟩
    · rw [h1, ht, pretty_eq_items]
    · rw [(C110_map_fmt _ _ m w s).2, he, h2]
      rfl

/-- **C110** The same for sets. -/
theorem C110_set_debug (pk : K → List Text) (x : RangeSet K) :
    Prints (x.fmt false fun k => saying (pk k)) (x.debug fun k => (pk k).flatten) ∧
    Prints (x.fmt true fun k => saying (pk k)) (x.pretty fun k => (pk k).flatten) := by
  have he : (x.iter.map fun r : Range K => inTurn [saying (pk r.start), lit "..",
      saying (pk r.stop)]) =
      (x.iter.map fun r : Range K => pk r.start ++ "..".toList :: pk r.stop).map saying := by
    rw [List.map_map]
    congr 1
    funext e
    rw [range_saying]
    rfl
  have ht : (x.iter.map fun r : Range K => pk r.start ++ "..".toList :: pk r.stop).map
      List.flatten =
      x.iter.map (rangeText fun k => (pk k).flatten) := by
    rw [List.map_map]
    congr 1
    funext e
    simp [rangeText]
  refine ⟨?_, ?_⟩
  · obtain ⟨ps, h1, h2⟩ := oneLine_saying (x.iter.map fun r : Range K =>
      pk r.start ++ "..".toList :: pk r.stop)
    refine ⟨ps, ?_, fun σ w s => ?_⟩
    · rw [h1, ht, RangeSet.debug, braces_items]
      rfl
    · rw [(C110_set_fmt _ x w s).1, he, h2]
      rfl
  · obtain ⟨ps, h1, h2⟩ := manyLines_saying (x.iter.map fun r : Range K =>
      pk r.start ++ "..".toList :: pk r.stop)
    refine ⟨ps, ?_, fun σ w s => ?_⟩
    · rw [h1, ht, set_pretty_eq_items]
    · rw [(C110_set_fmt _ x w s).2, he, h2]
      rfl

end

-- a writer that refuses the sixth piece; keys write their digits one by one
namespace Demo110
/-- The digits of a key. -/
def digits (k : Nat) : List Text := (Nat.toDigits 10 k).map fun c => [c]
/-- The digits of a key. -/
def digits8 (k : UIntW 8) : List Text := (decimal k).map fun c => [c]
/-- A character between quotes. -/
def quoted (c : Char) : List Text := ["'".toList, [c], "'".toList]
/-- Takes five pieces, of the sixth only the first character. -/
def five : Writer (Text × Nat) := fun s t =>
  if s.2 < 5 then ((s.1 ++ t, s.2 + 1), true) else ((s.1 ++ t.take 1, s.2 + 1), false)
theorem five_honest : Honest five (·.1) := by
  intro s t
  unfold five
  by_cases h : s.2 < 5
  · rw [if_pos h]
    exact ⟨t, List.prefix_rfl, rfl, fun _ => rfl⟩
  · rw [if_neg h]
    exact ⟨t.take 1, List.take_prefix _ _, rfl, nofun⟩
/-- A `Debug` that ignores errors. -/
def careless (ps : List Text) : Fmt := fun _ w s => (ps.foldl (fun s p => (w s p).1) s, true)
end Demo110
open Demo110

example := C110_string (C110_map_debug digits quoted Demo.map).1
example := C110_prefix (C110_map_debug digits quoted Demo.map).2 five_honest ([], 0)
example := C110_buffer (C110_set_debug digits Demo.set).1 20
example := C110_asked (C110_set_debug digits Demo.set).2 five ([], 0)
example := C110_map_fmt (fun k => careless (digits k)) (fun v => saying (quoted v)) Demo.map five
  ([], 0)
example := C110_set_fmt (fun k => careless (digits k)) Demo.set five ([], 0)
example := C110_map_debug digits quoted Demo.map
example := C110_set_debug digits Demo.set
example : (Demo.map.fmt false (fun k => saying (digits k)) (fun v => saying (quoted v)) _ five
    ([], 0)).toOption = some (("{0..3: '".toList, 6), false) := by rfl
example : (Demo.set.fmt false (fun k => saying (digits k)) _ (buffer 18) []).toOption =
    some ("{0..3, 5..15, 20..".toList, false) := by decide
example : (Demo.set.fmt false (fun k => saying (digits k)) _ (buffer 21) []).toOption =
    some ("{0..3, 5..15, 20..40}".toList, true) := by decide

namespace Inclusive

/-! ## Inclusive ranges -/

section
variable {K V : Type}

/-- `a..=b`, or `a..=b@exhausted`. -/
def shown (dk : K → Fmt) (r : RangeInclusive K) : Fmt :=
  inTurn ([dk r.start, lit "..=", dk r.stop] ++ if r.exhausted then [lit "@exhausted"] else [])

theorem fmt_shown (dk : K → Fmt) (r : RangeInclusive K) : r.fmt dk = shown dk r := by
  funext τ w s
  have h : andThen (andThen (dk r.start τ w s) (lit "..=" τ w)) (dk r.stop τ w) =
      inTurn [dk r.start, lit "..=", dk r.stop] τ w s := by
    rw [andThen_assoc, inTurn_cons]
    congr 1
    funext s
    rw [inTurn_cons]
    congr 1
    funext s
    exact (andThen_pure _).symm
  unfold RangeInclusive.fmt shown
  rw [inTurn_append, h]
  cases r.exhausted with
  | false => exact (andThen_pure _).symm
  | true =>
    show andThen _ _ = andThen _ _
    congr 1
    funext s
    exact (andThen_pure _).symm

/-- The pieces of a range. -/
def rangePieces (pk : K → List Text) (r : RangeInclusive K) : List Text :=
  pk r.start ++ "..=".toList :: pk r.stop ++ if r.exhausted then ["@exhausted".toList] else []

/-- **C110** `{:?}` and `{:#?}` of a map never panic, and with any writer and any `Debug` of keys and values
write the opening brace, the entries with what separates them, and the closing brace in turn, until
something fails. -/
theorem C110_map_fmt (dk : K → Fmt) (dv : V → Fmt) (m : RangeInclusiveMap K V) {σ : Type}
    (w : Writer σ) (s : σ) :
    let es := m.iter.map fun e =>
      inTurn [shown dk e.1, lit ": ", dv e.2]
    m.fmt false dk dv σ w s = .ok (oneLine es σ w s) ∧
      m.fmt true dk dv σ w s = .ok (manyLines es σ w s) := by
  simp only [← fmt_shown]
  exact ⟨DebugWriter.map_fmt false (fun e : RangeInclusive K × V => e.1.fmt dk)
      (fun e => dv e.2) m.iter s,
    DebugWriter.map_fmt true (fun e : RangeInclusive K × V => e.1.fmt dk)
      (fun e => dv e.2) m.iter s⟩

/-- **C110** The same for sets. -/
theorem C110_set_fmt (dk : K → Fmt) (x : RangeInclusiveSet K) {σ : Type} (w : Writer σ) (s : σ) :
    let es := x.iter.map fun r => shown dk r
    x.fmt false dk σ w s = .ok (oneLine es σ w s) ∧
      x.fmt true dk σ w s = .ok (manyLines es σ w s) := by
  simp only [← fmt_shown]
  refine ⟨?_, ?_⟩
  · rw [RangeInclusiveSet.fmt, ← List.foldl_map (f := fun r : RangeInclusive K => r.fmt dk)
      (g := fun b f => DebugWriter.item w false b f), DebugWriter.set_fmt]
    rfl
  · rw [RangeInclusiveSet.fmt, ← List.foldl_map (f := fun r : RangeInclusive K => r.fmt dk)
      (g := fun b f => DebugWriter.item w true b f), DebugWriter.set_fmt]
    rfl

theorem range_saying (pk : K → List Text) (r : RangeInclusive K) :
    shown (fun k => saying (pk k)) r = saying (rangePieces pk r) := by
  unfold shown rangePieces
  rw [lit_eq, lit_eq]
  cases r.exhausted with
  | false =>
    rw [show [saying (pk r.start), saying ["..=".toList], saying (pk r.stop)] ++
      (if false then [saying ["@exhausted".toList]] else []) =
      [pk r.start, ["..=".toList], pk r.stop].map saying from rfl, inTurn_saying']
    simp
  | true =>
    rw [show [saying (pk r.start), saying ["..=".toList], saying (pk r.stop)] ++
      (if true then [saying ["@exhausted".toList]] else []) =
      [pk r.start, ["..=".toList], pk r.stop, ["@exhausted".toList]].map saying from rfl,
      inTurn_saying']
    simp

/-- **C110** If keys and values write pieces, `{:?}` and `{:#?}` of a map give every writer the same pieces,
together the text of C58 and C93, until it refuses one. -/
theorem C110_map_debug (pk : K → List Text) (pv : V → List Text) (m : RangeInclusiveMap K V) :
    Prints (m.fmt false (fun k => saying (pk k)) fun v => saying (pv v))
      (m.debug (fun k => (pk k).flatten) fun v => (pv v).flatten) ∧
    Prints (m.fmt true (fun k => saying (pk k)) fun v => saying (pv v))
      (m.pretty (fun k => (pk k).flatten) fun v => (pv v).flatten) := by
  have he : (m.iter.map fun e : RangeInclusive K × V =>
      inTurn [shown (fun k => saying (pk k)) e.1, lit ": ", saying (pv e.2)]) =
      (m.iter.map fun e : RangeInclusive K × V => rangePieces pk e.1 ++
        ": ".toList :: pv e.2).map saying := by
    rw [List.map_map]
    congr 1
    funext e
    rw [range_saying, entry_saying]
    rfl
  have ht : (m.iter.map fun e : RangeInclusive K × V => rangePieces pk e.1 ++
        ": ".toList :: pv e.2).map List.flatten =
      m.iter.map (entryText (fun k => (pk k).flatten) fun v => (pv v).flatten) := by
    rw [List.map_map]
    congr 1
    funext e
    unfold entryText rangePieces
    cases hx : e.1.exhausted <;>
      simp only [hx, Function.comp_apply, List.flatten_append, List.flatten_cons, List.flatten_nil,
        List.append_nil, List.nil_append, List.append_assoc, Bool.false_eq_true,
        if_true, if_false]
  refine ⟨?_, ?_⟩
  · obtain ⟨ps, h1, h2⟩ := oneLine_saying (m.iter.map fun e : RangeInclusive K × V =>
      rangePieces pk e.1 ++ ": ".toList :: pv e.2)
    refine ⟨ps, ?_, fun σ w s => ?_⟩
    · rw [h1, ht, debug_eq_braces]
    · rw [(C110_map_fmt _ _ m w s).1, he, h2]
      rfl
  · obtain ⟨ps, h1, h2⟩ := manyLines_saying (m.iter.map fun e : RangeInclusive K × V =>
      rangePieces pk e.1 ++ ": ".toList :: pv e.2)
    refine ⟨ps, ?_, fun σ w s => ?_⟩
    · rw [h1, ht, pretty_eq_items]
    · rw [(C110_map_fmt _ _ m w s).2, he, h2]
      rfl

/-- **C110** The same for sets. -/
theorem C110_set_debug (pk : K → List Text) (x : RangeInclusiveSet K) :
    Prints (x.fmt false fun k => saying (pk k)) (x.debug fun k => (pk k).flatten) ∧
    Prints (x.fmt true fun k => saying (pk k)) (x.pretty fun k => (pk k).flatten) := by
  have he : (x.iter.map fun r : RangeInclusive K => shown (fun k => saying (pk k)) r) =
      (x.iter.map fun r : RangeInclusive K => rangePieces pk r).map saying := by
    rw [List.map_map]
    congr 1
    funext e
    rw [range_saying]
    rfl
  have ht : (x.iter.map fun r : RangeInclusive K => rangePieces pk r).map List.flatten =
      x.iter.map (rangeText fun k => (pk k).flatten) := by
    rw [List.map_map]
    congr 1
    funext e
    unfold rangeText rangePieces
    cases hx : e.exhausted <;>
      simp only [hx, Function.comp_apply, List.flatten_append, List.flatten_cons, List.flatten_nil,
        List.append_nil, List.append_assoc, Bool.false_eq_true,
        if_true, if_false]
  refine ⟨?_, ?_⟩
  · obtain ⟨ps, h1, h2⟩ := oneLine_saying (x.iter.map fun r : RangeInclusive K =>
      rangePieces pk r)
    refine ⟨ps, ?_, fun σ w s => ?_⟩
    · rw [h1, ht, RangeInclusiveSet.debug, braces_items]
      rfl
    · rw [(C110_set_fmt _ x w s).1, he, h2]
      rfl
  · obtain ⟨ps, h1, h2⟩ := manyLines_saying (x.iter.map fun r : RangeInclusive K =>
      rangePieces pk r)
    refine ⟨ps, ?_, fun σ w s => ?_⟩
    · rw [h1, ht, set_pretty_eq_items]
    · rw [(C110_set_fmt _ x w s).2, he, h2]
      rfl

end

example := Inclusive.C110_map_fmt (fun k => careless (digits8 k)) (fun v => saying (quoted v))
  Demo.imap five ([], 0)
example := Inclusive.C110_set_fmt (fun k => careless (digits8 k)) Demo.iset five ([], 0)
example := Inclusive.C110_map_debug digits8 quoted Demo.imap
example := Inclusive.C110_set_debug digits8 Demo.iset
example := C110_prefix (Inclusive.C110_map_debug digits8 quoted Demo.imap).2 five_honest ([], 0)
example := C110_buffer (Inclusive.C110_set_debug digits8 Demo.iset).1 20

end Inclusive

end Props
end Verif

import Verif.Proof.DebugText
import Verif.Model.Step

/-!
# C93: the text of `{:#?}`, and what the texts tell

`dk` and `dv` are the texts of keys and values.
-/
set_option linter.unusedSectionVars false
set_option linter.unusedVariables false
namespace Verif.Props
open Verif.Spec

/-- Decimal digits, as `Debug` of Rust's unsigned integers writes them. -/
def decimal {w : Nat} (n : UIntW w) : Text := Nat.toDigits 10 n.bits.toNat

theorem decimal_inj {w : Nat} {a b : UIntW w} (h : decimal a = decimal b) : a = b := by
  have h1 := congrArg (fun t => Nat.ofDigitChars 10 t 0) h
  simp only [decimal, Nat.ofDigitChars_ten_toDigits] at h1
  cases a
  cases b
  congr
  exact BitVec.eq_of_toNat_eq h1

/-- Digits are no separators. -/
theorem decimal_delimited {w : Nat} {seps : List Text}
    (hs : ∀ p ∈ seps, ∃ c ∈ ['.', ':', ',', '}', '@'], p.head? = some c) :
    Delimited seps (decimal (w := w)) := by
  refine .of_not_mem hs fun a c hc h => ?_
  have h := Nat.isDigit_of_mem_toDigits (by decide) (by decide) h
  simp only [List.mem_cons, List.not_mem_nil, or_false] at hc
  rcases hc with rfl | rfl | rfl | rfl | rfl <;> exact absurd h (by decide)

theorem decimal_no_newline {w : Nat} (a : UIntW w) : '\n' ∉ decimal a := fun h =>
  absurd (Nat.isDigit_of_mem_toDigits (by decide) (by decide) h) (by decide)

section
variable {K V : Type} {dk : K → Text} {dv : V → Text}

/-- The text of an entry. -/
def entryText (dk : K → Text) (dv : V → Text) (e : Range K × V) : Text :=
  dk e.1.start ++ "..".toList ++ dk e.1.stop ++ ": ".toList ++ dv e.2

/-- The text of a range. -/
def rangeText (dk : K → Text) (r : Range K) : Text :=
  dk r.start ++ "..".toList ++ dk r.stop

theorem entry_parts (h1 : Delimited ["..".toList] dk) (h2 : Delimited [": ".toList] dk)
    {seps : List Text} (h3 : Delimited seps dv) {a b : Range K × V} {s t : Text}
    (hs : ∃ p ∈ seps, p <+: s) (ht : ∃ p ∈ seps, p <+: t)
    (h : entryText dk dv a ++ s = entryText dk dv b ++ t) :
    dk a.1.start = dk b.1.start ∧ dk a.1.stop = dk b.1.stop ∧ dv a.2 = dv b.2 := by
  unfold entryText at h
  simp only [List.append_assoc] at h
  have e1 := h1 a.1.start b.1.start _ _ ⟨_, .head _, List.prefix_append _ _⟩
    ⟨_, .head _, List.prefix_append _ _⟩ h
  rw [e1] at h
  have h := List.append_cancel_left (List.append_cancel_left h)
  have e2 := h2 a.1.stop b.1.stop _ _ ⟨_, .head _, List.prefix_append _ _⟩
    ⟨_, .head _, List.prefix_append _ _⟩ h
  rw [e2] at h
  have h := List.append_cancel_left (List.append_cancel_left h)
  exact ⟨e1, e2, h3 _ _ _ _ hs ht h⟩

theorem range_parts (h1 : Delimited ["..".toList] dk) {seps : List Text}
    (h2 : Delimited seps dk) {a b : Range K} {s t : Text}
    (hs : ∃ p ∈ seps, p <+: s) (ht : ∃ p ∈ seps, p <+: t)
    (h : rangeText dk a ++ s = rangeText dk b ++ t) :
    dk a.start = dk b.start ∧ dk a.stop = dk b.stop := by
  unfold rangeText at h
  simp only [List.append_assoc] at h
  have e1 := h1 a.start b.start _ _ ⟨_, .head _, List.prefix_append _ _⟩
    ⟨_, .head _, List.prefix_append _ _⟩ h
  rw [e1] at h
  have h := List.append_cancel_left (List.append_cancel_left h)
  exact ⟨e1, h2 _ _ _ _ hs ht h⟩

theorem entry_delimited (h1 : Delimited ["..".toList] dk) (h2 : Delimited [": ".toList] dk)
    {seps : List Text} (h3 : Delimited seps dv) : Delimited seps (entryText dk dv) := by
  intro a b s t hs ht h
  obtain ⟨e1, e2, e3⟩ := entry_parts h1 h2 h3 hs ht h
  simp only [entryText, e1, e2, e3]

theorem range_delimited (h1 : Delimited ["..".toList] dk) {seps : List Text}
    (h2 : Delimited seps dk) : Delimited seps (rangeText dk) := by
  intro a b s t hs ht h
  obtain ⟨e1, e2⟩ := range_parts h1 h2 hs ht h
  simp only [rangeText, e1, e2]

theorem pretty_eq_items (m : RangeMap K V) : m.pretty dk dv =
    ((m.iter.map (entryText dk dv)).foldl DebugBuilder.prettyItem DebugBuilder.new).finish := by
  rw [RangeMap.pretty, List.foldl_map]
  simp only [prettyEntry_eq]
  rfl

theorem set_pretty_eq_items (s : RangeSet K) : s.pretty dk =
    ((s.iter.map (rangeText dk)).foldl DebugBuilder.prettyItem DebugBuilder.new).finish := by
  rw [RangeSet.pretty, List.foldl_map]
  rfl

/-- **C93** With `{:#?}`, and if no key or value writes a line feed, a map with entries is written
with an entry a line: four blanks, the range, a colon and a blank, the value, a comma. The empty map
is `{}`. -/
theorem C93_map_pretty (hk : ∀ k, '\n' ∉ dk k) (hv : ∀ v, '\n' ∉ dv v) (m : RangeMap K V) :
    m.pretty dk dv = if m.iter = [] then "{}".toList else
      "{\n".toList ++ m.iter.flatMap (fun e => "    ".toList ++
        (dk e.1.start ++ "..".toList ++ dk e.1.stop ++ ": ".toList ++ dv e.2) ++
        ",\n".toList) ++ "}".toList := by
  rw [pretty_eq_items, pretty_items]
  cases hm : m.iter with
  | nil => rfl
  | cons e l =>
    rw [if_neg (by simp), if_neg (by simp), List.flatMap_map]
    congr 2
    congr 1
    funext e
    have hline := PadAdapter.write_line (entryText dk dv e ++ ",".toList) (by
      simp [entryText, hk, hv]) true
    have h2 : entryText dk dv e ++ ",\n".toList =
        entryText dk dv e ++ ",".toList ++ "\n".toList := by simp
    rw [h2, hline]
    show _ = "    ".toList ++ entryText dk dv e ++ ",\n".toList
    rw [if_pos rfl]
    simp only [List.append_assoc]
    rfl

/-- **C93** The same for sets. -/
theorem C93_set_pretty (hk : ∀ k, '\n' ∉ dk k) (s : RangeSet K) :
    s.pretty dk = if s.iter = [] then "{}".toList else
      "{\n".toList ++ s.iter.flatMap (fun r => "    ".toList ++
        (dk r.start ++ "..".toList ++ dk r.stop) ++ ",\n".toList) ++ "}".toList := by
  rw [set_pretty_eq_items, pretty_items]
  cases hs : s.iter with
  | nil => rfl
  | cons r l =>
    rw [if_neg (by simp), if_neg (by simp), List.flatMap_map]
    congr 2
    congr 1
    funext r
    have hline := PadAdapter.write_line (rangeText dk r ++ ",".toList) (by
      simp [rangeText, hk]) true
    have h2 : rangeText dk r ++ ",\n".toList = rangeText dk r ++ ",".toList ++ "\n".toList := by
      simp
    rw [h2, hline]
    show _ = "    ".toList ++ rangeText dk r ++ ",\n".toList
    rw [if_pos rfl]
    simp only [List.append_assoc]
    rfl

/-- **C93** Whatever keys and values write: if the text of each entry, with the comma and the line
feed after it, consists of the lines `lines e`, then these lines are written indented by four
blanks. -/
theorem C93_map_pretty_lines (m : RangeMap K V) (lines : Range K × V → List Text)
    (hl : ∀ e ∈ m.iter, (∀ l ∈ lines e, '\n' ∉ l) ∧
      dk e.1.start ++ "..".toList ++ dk e.1.stop ++ ": ".toList ++ dv e.2 ++ ",\n".toList =
        (lines e).flatMap (· ++ "\n".toList)) :
    m.pretty dk dv = "{".toList ++ (if m.iter = [] then [] else "\n".toList) ++
      m.iter.flatMap (fun e => indented (lines e)) ++ "}".toList := by
  rw [pretty_eq_items, pretty_items]
  simp only [List.map_eq_nil_iff, List.flatMap_map]
  congr 2
  generalize m.iter = l at hl
  induction l with
  | nil => rfl
  | cons e l ih =>
    rw [List.flatMap_cons, List.flatMap_cons, ih fun e he => hl e (.tail _ he)]
    have h2 : entryText dk dv e ++ ",\n".toList = (lines e).flatMap (· ++ "\n".toList) := by
      rw [← (hl e (.head _)).2]
      rfl
    rw [h2, PadAdapter.write_lines _ (hl e (.head _)).1]

/-- **C93** The same for sets. -/
theorem C93_set_pretty_lines (s : RangeSet K) (lines : Range K → List Text)
    (hl : ∀ r ∈ s.iter, (∀ l ∈ lines r, '\n' ∉ l) ∧
      dk r.start ++ "..".toList ++ dk r.stop ++ ",\n".toList =
        (lines r).flatMap (· ++ "\n".toList)) :
    s.pretty dk = "{".toList ++ (if s.iter = [] then [] else "\n".toList) ++
      s.iter.flatMap (fun r => indented (lines r)) ++ "}".toList := by
  rw [set_pretty_eq_items, pretty_items]
  simp only [List.map_eq_nil_iff, List.flatMap_map]
  congr 2
  generalize s.iter = l at hl
  induction l with
  | nil => rfl
  | cons r l ih =>
    rw [List.flatMap_cons, List.flatMap_cons, ih fun r hr => hl r (.tail _ hr)]
    have h2 : rangeText dk r ++ ",\n".toList = (lines r).flatMap (· ++ "\n".toList) := by
      rw [← (hl r (.head _)).2]
      rfl
    rw [h2, PadAdapter.write_lines _ (hl r (.head _)).1]

theorem map_parts {l l' : List (Range K × V)} (h1 : Delimited ["..".toList] dk)
    (h2 : Delimited [": ".toList] dk) {seps : List Text} (h3 : Delimited seps dv)
    (hne : ∃ p, p ∈ seps) (h : l.map (entryText dk dv) = l'.map (entryText dk dv)) :
    l.map (fun e => (dk e.1.start, dk e.1.stop, dv e.2)) =
      l'.map fun e => (dk e.1.start, dk e.1.stop, dv e.2) := by
  obtain ⟨p, hp⟩ := hne
  induction l generalizing l' with
  | nil =>
    cases l' with
    | nil => rfl
    | cons b l' => cases h
  | cons a l ih =>
    cases l' with
    | nil => cases h
    | cons b l' =>
      rw [List.map_cons, List.map_cons, List.cons.injEq] at h
      obtain ⟨e1, e2, e3⟩ := entry_parts (a := a) (b := b) h1 h2 h3 (s := p) (t := p)
        ⟨p, hp, List.prefix_refl _⟩ ⟨p, hp, List.prefix_refl _⟩ (by rw [h.1])
      rw [List.map_cons, List.map_cons, ih h.2, e1, e2, e3]

theorem set_parts {l l' : List (Range K)} (h1 : Delimited ["..".toList] dk) {seps : List Text}
    (h2 : Delimited seps dk) (hne : ∃ p, p ∈ seps)
    (h : l.map (rangeText dk) = l'.map (rangeText dk)) :
    l.map (fun r => (dk r.start, dk r.stop)) = l'.map fun r => (dk r.start, dk r.stop) := by
  obtain ⟨p, hp⟩ := hne
  induction l generalizing l' with
  | nil =>
    cases l' with
    | nil => rfl
    | cons b l' => cases h
  | cons a l ih =>
    cases l' with
    | nil => cases h
    | cons b l' =>
      rw [List.map_cons, List.map_cons, List.cons.injEq] at h
      obtain ⟨e1, e2⟩ := range_parts (a := a) (b := b) h1 h2 (s := p) (t := p)
        ⟨p, hp, List.prefix_refl _⟩ ⟨p, hp, List.prefix_refl _⟩ (by rw [h.1])
      rw [List.map_cons, List.map_cons, ih h.2, e1, e2]

theorem debug_eq_braces (m : RangeMap K V) :
    m.debug dk dv = braces (m.iter.map (entryText dk dv)) := by
  rw [RangeMap.debug]
  simp only [entry_eq_item, braces_items]
  rfl

/-- **C93** If the texts of keys and values can be told from the separators `{:?}` puts after them,
the text of a map tells the texts of all keys and values in it. -/
theorem C93_map_debug_tells (h1 : Delimited ["..".toList] dk)
    (h2 : Delimited [": ".toList] dk) (h3 : Delimited [", ".toList, "}".toList] dv)
    {m m' : RangeMap K V} (h : m.debug dk dv = m'.debug dk dv) :
    m.iter.map (fun e => (dk e.1.start, dk e.1.stop, dv e.2)) =
      m'.iter.map fun e => (dk e.1.start, dk e.1.stop, dv e.2) := by
  rw [debug_eq_braces, debug_eq_braces] at h
  exact map_parts h1 h2 h3 ⟨_, .head _⟩
    (braces_inj (entry_delimited h1 h2 h3) (fun a => by
      have : "..".toList.length = 2 := rfl
      simp only [entryText, List.length_append]; omega) h)

/-- **C93** The same with `{:#?}`. -/
theorem C93_map_pretty_tells (h1 : Delimited ["..".toList] dk)
    (h2 : Delimited [": ".toList] dk) (h3 : Delimited [",\n".toList] dv)
    {m m' : RangeMap K V} (h : m.pretty dk dv = m'.pretty dk dv) :
    m.iter.map (fun e => (dk e.1.start, dk e.1.stop, dv e.2)) =
      m'.iter.map fun e => (dk e.1.start, dk e.1.stop, dv e.2) := by
  rw [pretty_eq_items, pretty_eq_items] at h
  exact map_parts h1 h2 h3 ⟨_, .head _⟩ (pretty_inj (entry_delimited h1 h2 h3) h)

/-- **C93** The same for sets. -/
theorem C93_set_debug_tells (h1 : Delimited ["..".toList] dk)
    (h2 : Delimited [", ".toList, "}".toList] dk) {s s' : RangeSet K}
    (h : s.debug dk = s'.debug dk) :
    s.iter.map (fun r => (dk r.start, dk r.stop)) =
      s'.iter.map fun r => (dk r.start, dk r.stop) := by
  have he : ∀ s : RangeSet K, s.debug dk = braces (s.iter.map (rangeText dk)) := fun s => by
    rw [RangeSet.debug, braces_items]
    rfl
  rw [he, he] at h
  exact set_parts h1 (seps := [", ".toList, "}".toList]) h2 ⟨_, .head _⟩
    (braces_inj (range_delimited h1 h2) (fun a => by
      have : "..".toList.length = 2 := rfl
      simp only [rangeText, List.length_append]; omega) h)

/-- **C93** And with `{:#?}`. -/
theorem C93_set_pretty_tells (h1 : Delimited ["..".toList] dk) (h2 : Delimited [",\n".toList] dk)
    {s s' : RangeSet K} (h : s.pretty dk = s'.pretty dk) :
    s.iter.map (fun r => (dk r.start, dk r.stop)) =
      s'.iter.map fun r => (dk r.start, dk r.stop) := by
  rw [set_pretty_eq_items, set_pretty_eq_items] at h
  exact set_parts h1 (seps := [",\n".toList]) h2 ⟨_, .head _⟩
    (pretty_inj (range_delimited h1 h2) h)

end

section
variable {K : Type} [LE K] [LT K] [DecidableLE K] [DecidableLT K]
  [Std.IsLinearPreorder K] [Std.LawfulOrderLT K] {V : Type} [BEq V] [PartialEquivBEq V]
  {dk : K → Text} {dv : V → Text}

/-- **C93** If moreover keys compare equal, and values are `==`, exactly when their texts are the
same, then maps are `==` exactly when their texts are. -/
theorem C93_map_debug_iff (h1 : Delimited ["..".toList] dk) (h2 : Delimited [": ".toList] dk)
    (h3 : Delimited [", ".toList, "}".toList] dv) (hk : ∀ a b, keq a b = true ↔ dk a = dk b)
    (hv : ∀ a b, (a == b) = true ↔ dv a = dv b) (m m' : RangeMap K V) :
    m.debug dk dv = m'.debug dk dv ↔ m.eq m' = true := by
  refine ⟨fun h => ?_, C58_map_debug_eq (fun a b => (hk a b).1) fun a b => (hv a b).1⟩
  have h := C93_map_debug_tells h1 h2 h3 h
  unfold RangeMap.eq
  generalize m.iter = l at h ⊢
  generalize m'.iter = l' at h ⊢
  induction l generalizing l' with
  | nil =>
    cases l' with
    | nil => rfl
    | cons b l' => cases h
  | cons a l ih =>
    cases l' with
    | nil => cases h
    | cons b l' =>
      simp only [List.map_cons, List.cons.injEq, Prod.mk.injEq] at h
      obtain ⟨⟨e1, e2, e3⟩, h⟩ := h
      simp only [iterEq, Bool.and_eq_true, RangeMap.entryEq, hk, hv]
      exact ⟨⟨⟨e1, e2⟩, e3⟩, ih _ h⟩

end

section
variable {w w' : Nat}

/-- **C93** Two maps from unsigned integers to unsigned integers whose texts are the same have the
same entries, whether written with `{:?}` or `{:#?}`. -/
theorem C93_map_integers {m m' : RangeMap (UIntW w) (UIntW w')}
    (h : m.debug decimal decimal = m'.debug decimal decimal ∨
      m.pretty decimal decimal = m'.pretty decimal decimal) : m.iter = m'.iter := by
  have h : m.iter.map (fun e => (decimal e.1.start, decimal e.1.stop, decimal e.2)) =
      m'.iter.map fun e => (decimal e.1.start, decimal e.1.stop, decimal e.2) := by
    rcases h with h | h
    · exact C93_map_debug_tells (decimal_delimited (by decide)) (decimal_delimited (by decide))
        (decimal_delimited (by decide)) h
    · exact C93_map_pretty_tells (decimal_delimited (by decide)) (decimal_delimited (by decide))
        (decimal_delimited (by decide)) h
  refine List.map_inj_right (fun a b hab => ?_) |>.1 h
  simp only [Prod.mk.injEq] at hab
  obtain ⟨⟨s, e⟩, v⟩ := a
  obtain ⟨⟨s', e'⟩, v'⟩ := b
  obtain ⟨e1, e2, e3⟩ := hab
  simp only at e1 e2 e3
  rw [decimal_inj e1, decimal_inj e2, decimal_inj e3]

/-- **C93** The same for sets. -/
theorem C93_set_integers {s s' : RangeSet (UIntW w)}
    (h : s.debug decimal = s'.debug decimal ∨ s.pretty decimal = s'.pretty decimal) :
    s.iter = s'.iter := by
  have h : s.iter.map (fun r => (decimal r.start, decimal r.stop)) =
      s'.iter.map fun r => (decimal r.start, decimal r.stop) := by
    rcases h with h | h
    · exact C93_set_debug_tells (decimal_delimited (by decide)) (decimal_delimited (by decide)) h
    · exact C93_set_pretty_tells (decimal_delimited (by decide)) (decimal_delimited (by decide)) h
  refine List.map_inj_right (fun a b hab => ?_) |>.1 h
  simp only [Prod.mk.injEq] at hab
  obtain ⟨s, e⟩ := a
  obtain ⟨s', e'⟩ := b
  obtain ⟨e1, e2⟩ := hab
  simp only at e1 e2
  rw [decimal_inj e1, decimal_inj e2]

end

/-- the text of a map over `u8`, as `{:#?}` writes it -/
example : (⟨[(⟨⟨2⟩, ⟨5⟩⟩, ⟨7⟩), (⟨⟨10⟩, ⟨200⟩⟩, ⟨0⟩)]⟩ : RangeMap (UIntW 8) (UIntW 8)).pretty
    decimal decimal = "{\n    2..5: 7,\n    10..200: 0,\n}".toList := by decide
example : (⟨[]⟩ : RangeMap (UIntW 8) (UIntW 8)).pretty decimal decimal = "{}".toList := by decide

/-- values that are written on several lines, as structs are -/
example : (⟨[(⟨⟨2⟩, ⟨5⟩⟩, ())]⟩ : RangeMap (UIntW 8) Unit).pretty decimal
    (fun _ => "P {\n    x: 1,\n}".toList) =
      "{\n    2..5: P {\n        x: 1,\n    },\n}".toList := by decide

/-- without the hypotheses the texts may be the same: a value that writes `, 6..7: ` -/
example : (⟨[(⟨⟨2⟩, ⟨5⟩⟩, ", 6..7: ".toList)]⟩ : RangeMap (UIntW 8) Text).debug decimal id =
    (⟨[(⟨⟨2⟩, ⟨5⟩⟩, []), (⟨⟨6⟩, ⟨7⟩⟩, [])]⟩ : RangeMap (UIntW 8) Text).debug decimal id := by decide

/-- the hypotheses of `C93_map_debug_iff` can be met -/
example (m m' : RangeMap (UIntW 8) (UIntW 8)) := C93_map_debug_iff (dk := decimal) (dv := decimal)
  (decimal_delimited (by decide)) (decimal_delimited (by decide)) (decimal_delimited (by decide))
  (fun a b => by
    simp only [keq, Bool.and_eq_true, decide_eq_true_eq]
    refine ⟨fun h => ?_, fun h => by rw [decimal_inj h]; exact ⟨Int.le_refl _, Int.le_refl _⟩⟩
    have h1 : a.bits.toNat ≤ b.bits.toNat := Int.ofNat_le.1 h.1
    have h2 : b.bits.toNat ≤ a.bits.toNat := Int.ofNat_le.1 h.2
    unfold decimal
    rw [Nat.le_antisymm h1 h2])
  (fun a b => by rw [beq_iff_eq]; exact ⟨fun h => by rw [h], decimal_inj⟩) m m'


/-- Keys with a tag that is not shown. -/
def shown (k : UIntW 8 × Bool) : Text := decimal k.1
theorem shown_delimited {seps : List Text}
    (hs : ∀ p ∈ seps, ∃ c ∈ ['.', ':', ',', '}', '@'], p.head? = some c) : Delimited seps shown :=
  fun a b => decimal_delimited hs a.1 b.1
-- two maps of the same text
def tagged (b : Bool) : RangeMap (UIntW 8 × Bool) (UIntW 8) :=
  ⟨[(⟨(⟨2⟩, b), (⟨5⟩, true)⟩, ⟨7⟩), (⟨(⟨10⟩, true), (⟨200⟩, b)⟩, ⟨0⟩)]⟩
def taggedSet (b : Bool) : RangeSet (UIntW 8 × Bool) :=
  ⟨⟨[(⟨(⟨2⟩, b), (⟨5⟩, true)⟩, ()), (⟨(⟨10⟩, true), (⟨200⟩, b)⟩, ())]⟩⟩
example := C93_map_pretty (fun k : UIntW 8 => decimal_no_newline k)
  (fun v : UIntW 8 => decimal_no_newline v) ⟨[(⟨⟨2⟩, ⟨5⟩⟩, ⟨7⟩), (⟨⟨10⟩, ⟨200⟩⟩, ⟨0⟩)]⟩
example := C93_set_pretty (fun k : UIntW 8 => decimal_no_newline k)
  ⟨⟨[(⟨⟨2⟩, ⟨5⟩⟩, ()), (⟨⟨10⟩, ⟨200⟩⟩, ())]⟩⟩
example := C93_map_pretty_lines (dk := decimal) (dv := fun _ : Unit => "P {\n    x: 1,\n}".toList)
  (⟨[(⟨⟨2⟩, ⟨5⟩⟩, ())]⟩ : RangeMap (UIntW 8) Unit)
  (fun _ => ["2..5: P {".toList, "    x: 1,".toList, "},".toList]) (by decide)
example := C93_set_pretty_lines
    (dk := fun k : Nat => if k = 0 then "Z".toList else "S(\n    Z,\n)".toList)
  (⟨⟨[(⟨0, 1⟩, ())]⟩⟩ : RangeSet Nat)
  (fun _ => ["Z..S(".toList, "    Z,".toList, "),".toList]) (by decide)
example := C93_map_debug_tells (m := tagged false) (m' := tagged true)
  (shown_delimited (by decide)) (shown_delimited (by decide)) (decimal_delimited (by decide)) rfl
example := C93_map_pretty_tells (m := tagged false) (m' := tagged true)
  (shown_delimited (by decide)) (shown_delimited (by decide)) (decimal_delimited (by decide)) rfl
example := C93_set_debug_tells (s := taggedSet false) (s' := taggedSet true)
  (shown_delimited (by decide)) (shown_delimited (by decide)) rfl
example := C93_set_pretty_tells (s := taggedSet false) (s' := taggedSet true)
  (shown_delimited (by decide)) (shown_delimited (by decide)) rfl
-- different maps, different texts
example : (⟨[(⟨⟨2⟩, ⟨5⟩⟩, ⟨7⟩)]⟩ : RangeMap (UIntW 8) (UIntW 8)).debug decimal decimal ≠
    (⟨[(⟨⟨2⟩, ⟨6⟩⟩, ⟨7⟩)]⟩ : RangeMap (UIntW 8) (UIntW 8)).debug decimal decimal :=
  fun h => absurd (C93_map_integers (.inl h)) (by decide)
example : (⟨⟨[(⟨⟨2⟩, ⟨5⟩⟩, ())]⟩⟩ : RangeSet (UIntW 8)).pretty decimal ≠
    (⟨⟨[(⟨⟨2⟩, ⟨6⟩⟩, ())]⟩⟩ : RangeSet (UIntW 8)).pretty decimal :=
  fun h => absurd (C93_set_integers (.inr h)) (by decide)

namespace Inclusive

section
variable {K V : Type} {dk : K → Text} {dv : V → Text}

/-- The text of an entry. -/
def entryText (dk : K → Text) (dv : V → Text) (e : RangeInclusive K × V) : Text :=
  dk e.1.start ++ "..=".toList ++ dk e.1.stop ++
    (if e.1.exhausted then "@exhausted".toList else []) ++ ": ".toList ++ dv e.2

/-- The text of a range. -/
def rangeText (dk : K → Text) (r : RangeInclusive K) : Text :=
  dk r.start ++ "..=".toList ++ dk r.stop ++
    (if r.exhausted then "@exhausted".toList else [])

theorem entry_parts (h1 : Delimited ["..=".toList] dk)
    (h2 : Delimited [": ".toList, "@exhausted".toList] dk)
    {seps : List Text} (h3 : Delimited seps dv) {a b : RangeInclusive K × V} {s t : Text}
    (hs : ∃ p ∈ seps, p <+: s) (ht : ∃ p ∈ seps, p <+: t)
    (h : entryText dk dv a ++ s = entryText dk dv b ++ t) :
    dk a.1.start = dk b.1.start ∧ dk a.1.stop = dk b.1.stop ∧ a.1.exhausted = b.1.exhausted ∧
      dv a.2 = dv b.2 := by
  unfold entryText at h
  simp only [List.append_assoc] at h
  have e1 := h1 a.1.start b.1.start _ _ ⟨_, .head _, List.prefix_append _ _⟩
    ⟨_, .head _, List.prefix_append _ _⟩ h
  rw [e1] at h
  have h := List.append_cancel_left (List.append_cancel_left h)
  have hpre : ∀ (x : Bool) (v : V) (s : Text), ∃ p ∈ [": ".toList, "@exhausted".toList],
      p <+: (if x then "@exhausted".toList else []) ++ (": ".toList ++ (dv v ++ s)) := by
    intro x v s
    cases x with
    | true => exact ⟨_, .tail _ (.head _), List.prefix_append _ _⟩
    | false => exact ⟨_, .head _, List.prefix_append _ _⟩
  have e2 := h2 a.1.stop b.1.stop _ _ (hpre _ _ _) (hpre _ _ _) h
  rw [e2] at h
  have h := List.append_cancel_left h
  have e3 : a.1.exhausted = b.1.exhausted := by
    cases hx : a.1.exhausted <;> cases hy : b.1.exhausted <;> rw [hx, hy] at h <;>
      first | rfl | cases h
  rw [e3] at h
  have h := List.append_cancel_left (List.append_cancel_left h)
  exact ⟨e1, e2, e3, h3 _ _ _ _ hs ht h⟩

theorem range_parts (h1 : Delimited ["..=".toList] dk) {seps : List Text}
    (h2 : Delimited ("@exhausted".toList :: seps) dk)
    (hne : ∀ p ∈ seps, p ≠ [] ∧ p.head? ≠ some '@') {a b : RangeInclusive K} {s t : Text}
    (hs : ∃ p ∈ seps, p <+: s) (ht : ∃ p ∈ seps, p <+: t)
    (h : rangeText dk a ++ s = rangeText dk b ++ t) :
    dk a.start = dk b.start ∧ dk a.stop = dk b.stop ∧ a.exhausted = b.exhausted := by
  unfold rangeText at h
  simp only [List.append_assoc] at h
  have e1 := h1 a.start b.start _ _ ⟨_, .head _, List.prefix_append _ _⟩
    ⟨_, .head _, List.prefix_append _ _⟩ h
  rw [e1] at h
  have h := List.append_cancel_left (List.append_cancel_left h)
  have hpre : ∀ (x : Bool) (s : Text), (∃ p ∈ seps, p <+: s) →
      ∃ p ∈ "@exhausted".toList :: seps,
        p <+: (if x then "@exhausted".toList else []) ++ s := by
    intro x s hs
    cases x with
    | true => exact ⟨_, .head _, List.prefix_append _ _⟩
    | false =>
      obtain ⟨p, hp, hps⟩ := hs
      exact ⟨p, .tail _ hp, hps⟩
  have e2 := h2 a.stop b.stop _ _ (hpre _ _ hs) (hpre _ _ ht) h
  rw [e2] at h
  have h := List.append_cancel_left h
  have hno : ∀ u u' : Text, (∃ p ∈ seps, p <+: u) → "@exhausted".toList ++ u' ≠ u := by
    rintro _ u' ⟨p, hp, v, rfl⟩ he
    have hat := hne p hp
    cases p with
    | nil => exact hat.1 rfl
    | cons c p =>
      have h0 : "@exhausted".toList ++ u' = '@' :: ("exhausted".toList ++ u') := rfl
      rw [h0, List.cons_append, List.cons.injEq] at he
      exact hat.2 (by rw [List.head?_cons, he.1])
  refine ⟨e1, e2, ?_⟩
  cases hx : a.exhausted <;> cases hy : b.exhausted <;> rw [hx, hy] at h
  · exact absurd h.symm (hno _ _ hs)
  · exact absurd h (hno _ _ ht)

theorem entry_delimited (h1 : Delimited ["..=".toList] dk)
    (h2 : Delimited [": ".toList, "@exhausted".toList] dk)
    {seps : List Text} (h3 : Delimited seps dv) : Delimited seps (entryText dk dv) := by
  intro a b s t hs ht h
  obtain ⟨e1, e2, e3, e4⟩ := entry_parts h1 h2 h3 hs ht h
  simp only [entryText, e1, e2, e3, e4]

theorem range_delimited (h1 : Delimited ["..=".toList] dk) {seps : List Text}
    (h2 : Delimited ("@exhausted".toList :: seps) dk)
    (hne : ∀ p ∈ seps, p ≠ [] ∧ p.head? ≠ some '@') : Delimited seps (rangeText dk) := by
  intro a b s t hs ht h
  obtain ⟨e1, e2, e3⟩ := range_parts h1 h2 hne hs ht h
  simp only [rangeText, e1, e2, e3]

theorem pretty_eq_items (m : RangeInclusiveMap K V) : m.pretty dk dv =
    ((m.iter.map (entryText dk dv)).foldl DebugBuilder.prettyItem DebugBuilder.new).finish := by
  rw [RangeInclusiveMap.pretty, List.foldl_map]
  simp only [prettyEntry_eq]
  rfl

theorem set_pretty_eq_items (s : RangeInclusiveSet K) : s.pretty dk =
    ((s.iter.map (rangeText dk)).foldl DebugBuilder.prettyItem DebugBuilder.new).finish := by
  rw [RangeInclusiveSet.pretty, List.foldl_map]
  rfl

/-- **C93** With `{:#?}`, and if no key or value writes a line feed, a map with entries is written
with an entry a line: four blanks, the range, a colon and a blank, the value, a comma. The empty map
is `{}`. -/
theorem C93_map_pretty (hk : ∀ k, '\n' ∉ dk k) (hv : ∀ v, '\n' ∉ dv v) (m : RangeInclusiveMap K V) :
    m.pretty dk dv = if m.iter = [] then "{}".toList else
      "{\n".toList ++ m.iter.flatMap (fun e => "    ".toList ++
        (dk e.1.start ++ "..=".toList ++ dk e.1.stop ++
    (if e.1.exhausted then "@exhausted".toList else []) ++ ": ".toList ++ dv e.2) ++
        ",\n".toList) ++ "}".toList := by
  rw [pretty_eq_items, pretty_items]
  cases hm : m.iter with
  | nil => rfl
  | cons e l =>
    rw [if_neg (by simp), if_neg (by simp), List.flatMap_map]
    congr 2
    congr 1
    funext e
    have hline := PadAdapter.write_line (entryText dk dv e ++ ",".toList) (by
      have hx : ∀ b : Bool, '\n' ∉ (if b then "@exhausted".toList else []) := by decide
      have h1 : '\n' ∉ "..=".toList := by decide
      have h2 : '\n' ∉ ": ".toList := by decide
      have h3 : '\n' ∉ ",".toList := by decide
      simp only [entryText, List.mem_append, hk, hv, hx, h1, h2, h3, or_self, not_false_eq_true])
        true
    have h2 : entryText dk dv e ++ ",\n".toList =
        entryText dk dv e ++ ",".toList ++ "\n".toList := by simp
    rw [h2, hline]
    show _ = "    ".toList ++ entryText dk dv e ++ ",\n".toList
    rw [if_pos rfl]
    simp only [List.append_assoc]
    rfl

/-- **C93** The same for sets. -/
theorem C93_set_pretty (hk : ∀ k, '\n' ∉ dk k) (s : RangeInclusiveSet K) :
    s.pretty dk = if s.iter = [] then "{}".toList else
      "{\n".toList ++ s.iter.flatMap (fun r => "    ".toList ++
        (dk r.start ++ "..=".toList ++ dk r.stop ++
    (if r.exhausted then "@exhausted".toList else [])) ++ ",\n".toList) ++ "}".toList := by
  rw [set_pretty_eq_items, pretty_items]
  cases hs : s.iter with
  | nil => rfl
  | cons r l =>
    rw [if_neg (by simp), if_neg (by simp), List.flatMap_map]
    congr 2
    congr 1
    funext r
    have hline := PadAdapter.write_line (rangeText dk r ++ ",".toList) (by
      have hx : ∀ b : Bool, '\n' ∉ (if b then "@exhausted".toList else []) := by decide
      have h1 : '\n' ∉ "..=".toList := by decide
      have h3 : '\n' ∉ ",".toList := by decide
      simp only [rangeText, List.mem_append, hk, hx, h1, h3, or_self, not_false_eq_true]) true
    have h2 : rangeText dk r ++ ",\n".toList = rangeText dk r ++ ",".toList ++ "\n".toList := by
      simp
    rw [h2, hline]
    show _ = "    ".toList ++ rangeText dk r ++ ",\n".toList
    rw [if_pos rfl]
    simp only [List.append_assoc]
    rfl

/-- **C93** Whatever keys and values write: if the text of each entry, with the comma and the line
feed after it, consists of the lines `lines e`, then these lines are written indented by four
blanks. -/
theorem C93_map_pretty_lines (m : RangeInclusiveMap K V) (lines : RangeInclusive K × V → List Text)
    (hl : ∀ e ∈ m.iter, (∀ l ∈ lines e, '\n' ∉ l) ∧
      dk e.1.start ++ "..=".toList ++ dk e.1.stop ++
    (if e.1.exhausted then "@exhausted".toList else []) ++ ": ".toList ++ dv e.2 ++ ",\n".toList =
        (lines e).flatMap (· ++ "\n".toList)) :
    m.pretty dk dv = "{".toList ++ (if m.iter = [] then [] else "\n".toList) ++
      m.iter.flatMap (fun e => indented (lines e)) ++ "}".toList := by
  rw [pretty_eq_items, pretty_items]
  simp only [List.map_eq_nil_iff, List.flatMap_map]
  congr 2
  generalize m.iter = l at hl
  induction l with
  | nil => rfl
  | cons e l ih =>
    rw [List.flatMap_cons, List.flatMap_cons, ih fun e he => hl e (.tail _ he)]
    have h2 : entryText dk dv e ++ ",\n".toList = (lines e).flatMap (· ++ "\n".toList) := by
      rw [← (hl e (.head _)).2]
      rfl
    rw [h2, PadAdapter.write_lines _ (hl e (.head _)).1]

/-- **C93** The same for sets. -/
theorem C93_set_pretty_lines (s : RangeInclusiveSet K) (lines : RangeInclusive K → List Text)
    (hl : ∀ r ∈ s.iter, (∀ l ∈ lines r, '\n' ∉ l) ∧
      dk r.start ++ "..=".toList ++ dk r.stop ++
      (if r.exhausted then "@exhausted".toList else []) ++ ",\n".toList =
        (lines r).flatMap (· ++ "\n".toList)) :
    s.pretty dk = "{".toList ++ (if s.iter = [] then [] else "\n".toList) ++
      s.iter.flatMap (fun r => indented (lines r)) ++ "}".toList := by
  rw [set_pretty_eq_items, pretty_items]
  simp only [List.map_eq_nil_iff, List.flatMap_map]
  congr 2
  generalize s.iter = l at hl
  induction l with
  | nil => rfl
  | cons r l ih =>
    rw [List.flatMap_cons, List.flatMap_cons, ih fun r hr => hl r (.tail _ hr)]
    have h2 : rangeText dk r ++ ",\n".toList = (lines r).flatMap (· ++ "\n".toList) := by
      rw [← (hl r (.head _)).2]
      rfl
    rw [h2, PadAdapter.write_lines _ (hl r (.head _)).1]

theorem map_parts {l l' : List (RangeInclusive K × V)} (h1 : Delimited ["..=".toList] dk)
    (h2 : Delimited [": ".toList, "@exhausted".toList] dk) {seps : List Text}
    (h3 : Delimited seps dv)
    (hne : ∃ p, p ∈ seps) (h : l.map (entryText dk dv) = l'.map (entryText dk dv)) :
    l.map (fun e => (dk e.1.start, dk e.1.stop, e.1.exhausted, dv e.2)) =
      l'.map fun e => (dk e.1.start, dk e.1.stop, e.1.exhausted, dv e.2) := by
  obtain ⟨p, hp⟩ := hne
  induction l generalizing l' with
  | nil =>
    cases l' with
    | nil => rfl
    | cons b l' => cases h
  | cons a l ih =>
    cases l' with
    | nil => cases h
    | cons b l' =>
      rw [List.map_cons, List.map_cons, List.cons.injEq] at h
      obtain ⟨e1, e2, e3, e4⟩ := entry_parts (a := a) (b := b) h1 h2 h3 (s := p) (t := p)
        ⟨p, hp, List.prefix_refl _⟩ ⟨p, hp, List.prefix_refl _⟩ (by rw [h.1])
      rw [List.map_cons, List.map_cons, ih h.2, e1, e2, e3, e4]

theorem set_parts {l l' : List (RangeInclusive K)} (h1 : Delimited ["..=".toList] dk)
    {seps : List Text}
    (h2 : Delimited ("@exhausted".toList :: seps) dk)
    (hne : ∀ p ∈ seps, p ≠ [] ∧ p.head? ≠ some '@') (hex : ∃ p, p ∈ seps)
    (h : l.map (rangeText dk) = l'.map (rangeText dk)) :
    l.map (fun r => (dk r.start, dk r.stop, r.exhausted)) = l'.map fun r =>
      (dk r.start, dk r.stop, r.exhausted) := by
  obtain ⟨p, hp⟩ := hex
  induction l generalizing l' with
  | nil =>
    cases l' with
    | nil => rfl
    | cons b l' => cases h
  | cons a l ih =>
    cases l' with
    | nil => cases h
    | cons b l' =>
      rw [List.map_cons, List.map_cons, List.cons.injEq] at h
      obtain ⟨e1, e2, e3⟩ := range_parts (a := a) (b := b) h1 h2 hne (s := p) (t := p)
        ⟨p, hp, List.prefix_refl _⟩ ⟨p, hp, List.prefix_refl _⟩ (by rw [h.1])
      rw [List.map_cons, List.map_cons, ih h.2, e1, e2, e3]

theorem debug_eq_braces (m : RangeInclusiveMap K V) :
    m.debug dk dv = braces (m.iter.map (entryText dk dv)) := by
  rw [RangeInclusiveMap.debug]
  simp only [entry_eq_item, braces_items]
  rfl

/-- **C93** If the texts of keys and values can be told from the separators `{:?}` puts after them,
the text of a map tells the texts of all keys and values in it. -/
theorem C93_map_debug_tells (h1 : Delimited ["..=".toList] dk)
    (h2 : Delimited [": ".toList, "@exhausted".toList] dk)
    (h3 : Delimited [", ".toList, "}".toList] dv)
    {m m' : RangeInclusiveMap K V} (h : m.debug dk dv = m'.debug dk dv) :
    m.iter.map (fun e => (dk e.1.start, dk e.1.stop, e.1.exhausted, dv e.2)) =
      m'.iter.map fun e => (dk e.1.start, dk e.1.stop, e.1.exhausted, dv e.2) := by
  rw [debug_eq_braces, debug_eq_braces] at h
  exact map_parts h1 h2 h3 ⟨_, .head _⟩
    (braces_inj (entry_delimited h1 h2 h3) (fun a => by
      have : "..=".toList.length = 3 := rfl
      simp only [entryText, List.length_append]; omega) h)

/-- **C93** The same with `{:#?}`. -/
theorem C93_map_pretty_tells (h1 : Delimited ["..=".toList] dk)
    (h2 : Delimited [": ".toList, "@exhausted".toList] dk) (h3 : Delimited [",\n".toList] dv)
    {m m' : RangeInclusiveMap K V} (h : m.pretty dk dv = m'.pretty dk dv) :
    m.iter.map (fun e => (dk e.1.start, dk e.1.stop, e.1.exhausted, dv e.2)) =
      m'.iter.map fun e => (dk e.1.start, dk e.1.stop, e.1.exhausted, dv e.2) := by
  rw [pretty_eq_items, pretty_eq_items] at h
  exact map_parts h1 h2 h3 ⟨_, .head _⟩ (pretty_inj (entry_delimited h1 h2 h3) h)

/-- **C93** The same for sets. -/
theorem C93_set_debug_tells (h1 : Delimited ["..=".toList] dk)
    (h2 : Delimited ["@exhausted".toList, ", ".toList, "}".toList] dk) {s s' : RangeInclusiveSet K}
    (h : s.debug dk = s'.debug dk) :
    s.iter.map (fun r => (dk r.start, dk r.stop, r.exhausted)) =
      s'.iter.map fun r => (dk r.start, dk r.stop, r.exhausted) := by
  have he : ∀ s : RangeInclusiveSet K, s.debug dk = braces (s.iter.map (rangeText dk)) := fun s =>
    by
    rw [RangeInclusiveSet.debug, braces_items]
    rfl
  rw [he, he] at h
  exact set_parts h1 (seps := [", ".toList, "}".toList]) h2 (by decide) ⟨_, .head _⟩
    (braces_inj (range_delimited h1 h2 (by decide)) (fun a => by
      have : "..=".toList.length = 3 := rfl
      simp only [rangeText, List.length_append]; omega) h)

/-- **C93** And with `{:#?}`. -/
theorem C93_set_pretty_tells (h1 : Delimited ["..=".toList] dk)
    (h2 : Delimited ["@exhausted".toList, ",\n".toList] dk)
    {s s' : RangeInclusiveSet K} (h : s.pretty dk = s'.pretty dk) :
    s.iter.map (fun r => (dk r.start, dk r.stop, r.exhausted)) =
      s'.iter.map fun r => (dk r.start, dk r.stop, r.exhausted) := by
  rw [set_pretty_eq_items, set_pretty_eq_items] at h
  exact set_parts h1 (seps := [",\n".toList]) h2 (by decide) ⟨_, .head _⟩
    (pretty_inj (range_delimited h1 h2 (by decide)) h)

end

section
variable {K : Type} [LE K] [LT K] [DecidableLE K] [DecidableLT K]
  [Std.IsLinearPreorder K] [Std.LawfulOrderLT K] {V : Type} [BEq V] [PartialEquivBEq V]
  {dk : K → Text} {dv : V → Text}

/-- **C93** If moreover keys compare equal, and values are `==`, exactly when their texts are the
same, then maps are `==` exactly when their texts are. -/
theorem C93_map_debug_iff (h1 : Delimited ["..=".toList] dk)
    (h2 : Delimited [": ".toList, "@exhausted".toList] dk)
    (h3 : Delimited [", ".toList, "}".toList] dv) (hk : ∀ a b, keq a b = true ↔ dk a = dk b)
    (hv : ∀ a b, (a == b) = true ↔ dv a = dv b) (m m' : RangeInclusiveMap K V) :
    m.debug dk dv = m'.debug dk dv ↔ m.eq m' = true := by
  refine ⟨fun h => ?_, C58_map_debug_eq (fun a b => (hk a b).1) fun a b => (hv a b).1⟩
  have h := C93_map_debug_tells h1 h2 h3 h
  unfold RangeInclusiveMap.eq
  generalize m.iter = l at h ⊢
  generalize m'.iter = l' at h ⊢
  induction l generalizing l' with
  | nil =>
    cases l' with
    | nil => rfl
    | cons b l' => cases h
  | cons a l ih =>
    cases l' with
    | nil => cases h
    | cons b l' =>
      simp only [List.map_cons, List.cons.injEq, Prod.mk.injEq] at h
      obtain ⟨⟨e1, e2, e3, e4⟩, h⟩ := h
      have e3' : (a.1.exhausted == b.1.exhausted) = true := by rw [e3]; simp
      simp only [iterEq, Bool.and_eq_true, RangeInclusiveMap.entryEq, hk, hv]
      exact ⟨⟨⟨⟨e1, e2⟩, e3'⟩, e4⟩, ih _ h⟩

end

section
variable {w w' : Nat}

/-- **C93** Two maps from unsigned integers to unsigned integers whose texts are the same have the
same entries, whether written with `{:?}` or `{:#?}`. -/
theorem C93_map_integers {m m' : RangeInclusiveMap (UIntW w) (UIntW w')}
    (h : m.debug decimal decimal = m'.debug decimal decimal ∨
      m.pretty decimal decimal = m'.pretty decimal decimal) : m.iter = m'.iter := by
  have h : m.iter.map (fun e => (decimal e.1.start, decimal e.1.stop, e.1.exhausted, decimal e.2)) =
      m'.iter.map fun e => (decimal e.1.start, decimal e.1.stop, e.1.exhausted, decimal e.2) := by
    rcases h with h | h
    · exact C93_map_debug_tells (decimal_delimited (by decide)) (decimal_delimited (by decide))
        (decimal_delimited (by decide)) h
    · exact C93_map_pretty_tells (decimal_delimited (by decide)) (decimal_delimited (by decide))
        (decimal_delimited (by decide)) h
  refine List.map_inj_right (fun a b hab => ?_) |>.1 h
  simp only [Prod.mk.injEq] at hab
  obtain ⟨⟨s, e, x⟩, v⟩ := a
  obtain ⟨⟨s', e', x'⟩, v'⟩ := b
  obtain ⟨e1, e2, e3, e4⟩ := hab
  simp only at e1 e2 e3 e4
  rw [decimal_inj e1, decimal_inj e2, decimal_inj e4, e3]

/-- **C93** The same for sets. -/
theorem C93_set_integers {s s' : RangeInclusiveSet (UIntW w)}
    (h : s.debug decimal = s'.debug decimal ∨ s.pretty decimal = s'.pretty decimal) :
    s.iter = s'.iter := by
  have h : s.iter.map (fun r => (decimal r.start, decimal r.stop, r.exhausted)) =
      s'.iter.map fun r => (decimal r.start, decimal r.stop, r.exhausted) := by
    rcases h with h | h
    · exact C93_set_debug_tells (decimal_delimited (by decide)) (decimal_delimited (by decide)) h
    · exact C93_set_pretty_tells (decimal_delimited (by decide)) (decimal_delimited (by decide)) h
  refine List.map_inj_right (fun a b hab => ?_) |>.1 h
  simp only [Prod.mk.injEq] at hab
  obtain ⟨s, e, x⟩ := a
  obtain ⟨s', e', x'⟩ := b
  obtain ⟨e1, e2, e3⟩ := hab
  simp only at e1 e2 e3
  rw [decimal_inj e1, decimal_inj e2, e3]

end

/-- the text of a map over `u8`, as `{:#?}` writes it -/
example :
    (⟨[(⟨⟨2⟩, ⟨5⟩, false⟩, ⟨7⟩), (⟨⟨10⟩, ⟨200⟩, true⟩, ⟨0⟩)]⟩ : RangeInclusiveMap (UIntW 8)
    (UIntW 8)).pretty
    decimal decimal = "{\n    2..=5: 7,\n    10..=200@exhausted: 0,\n}".toList := by decide
example : (⟨[]⟩ : RangeInclusiveMap (UIntW 8) (UIntW 8)).pretty decimal decimal = "{}".toList :=
    by decide

/-- values that are written on several lines, as structs are -/
example : (⟨[(⟨⟨2⟩, ⟨5⟩, false⟩, ())]⟩ : RangeInclusiveMap (UIntW 8) Unit).pretty decimal
    (fun _ => "P {\n    x: 1,\n}".toList) =
      "{\n    2..=5: P {\n        x: 1,\n    },\n}".toList := by decide

/-- without the hypotheses the texts may be the same: a value that writes `, 6..=7: ` -/
example : (⟨[(⟨⟨2⟩, ⟨5⟩, false⟩, ", 6..=7: ".toList)]⟩ : RangeInclusiveMap (UIntW 8) Text).debug
    decimal id =
    (⟨[(⟨⟨2⟩, ⟨5⟩, false⟩, []), (⟨⟨6⟩, ⟨7⟩, false⟩, [])]⟩ : RangeInclusiveMap (UIntW 8)
    Text).debug decimal id := by decide

/-- the hypotheses of `C93_map_debug_iff` can be met -/
example (m m' : RangeInclusiveMap (UIntW 8) (UIntW 8)) := C93_map_debug_iff (dk := decimal)
    (dv := decimal)
  (decimal_delimited (by decide)) (decimal_delimited (by decide)) (decimal_delimited (by decide))
  (fun a b => by
    simp only [keq, Bool.and_eq_true, decide_eq_true_eq]
    refine ⟨fun h => ?_, fun h => by rw [decimal_inj h]; exact ⟨Int.le_refl _, Int.le_refl _⟩⟩
    have h1 : a.bits.toNat ≤ b.bits.toNat := Int.ofNat_le.1 h.1
    have h2 : b.bits.toNat ≤ a.bits.toNat := Int.ofNat_le.1 h.2
    unfold decimal
    rw [Nat.le_antisymm h1 h2])
  (fun a b => by rw [beq_iff_eq]; exact ⟨fun h => by rw [h], decimal_inj⟩) m m'


-- two maps of the same text
def tagged (b : Bool) : RangeInclusiveMap (UIntW 8 × Bool) (UIntW 8) :=
  ⟨[(⟨(⟨2⟩, b), (⟨5⟩, true), false⟩, ⟨7⟩), (⟨(⟨10⟩, true), (⟨200⟩, b), true⟩, ⟨0⟩)]⟩
def taggedSet (b : Bool) : RangeInclusiveSet (UIntW 8 × Bool) :=
  ⟨⟨[(⟨(⟨2⟩, b), (⟨5⟩, true), false⟩, ()), (⟨(⟨10⟩, true), (⟨200⟩, b), true⟩, ())]⟩⟩
example := C93_map_pretty (fun k : UIntW 8 => decimal_no_newline k)
  (fun v : UIntW 8 => decimal_no_newline v)
  ⟨[(⟨⟨2⟩, ⟨5⟩, false⟩, ⟨7⟩), (⟨⟨10⟩, ⟨200⟩, true⟩, ⟨0⟩)]⟩
example := C93_set_pretty (fun k : UIntW 8 => decimal_no_newline k)
  ⟨⟨[(⟨⟨2⟩, ⟨5⟩, false⟩, ()), (⟨⟨10⟩, ⟨200⟩, true⟩, ())]⟩⟩
example := C93_map_pretty_lines (dk := decimal) (dv := fun _ : Unit => "P {\n    x: 1,\n}".toList)
  (⟨[(⟨⟨2⟩, ⟨5⟩, false⟩, ())]⟩ : RangeInclusiveMap (UIntW 8) Unit)
  (fun _ => ["2..=5: P {".toList, "    x: 1,".toList, "},".toList]) (by decide)
example := C93_set_pretty_lines
    (dk := fun k : Nat => if k = 0 then "Z".toList else "S(\n    Z,\n)".toList)
  (⟨⟨[(⟨0, 1, true⟩, ())]⟩⟩ : RangeInclusiveSet Nat)
  (fun _ => ["Z..=S(".toList, "    Z,".toList, ")@exhausted,".toList]) (by decide)
example := C93_map_debug_tells (m := tagged false) (m' := tagged true)
  (shown_delimited (by decide)) (shown_delimited (by decide)) (decimal_delimited (by decide)) rfl
example := C93_map_pretty_tells (m := tagged false) (m' := tagged true)
  (shown_delimited (by decide)) (shown_delimited (by decide)) (decimal_delimited (by decide)) rfl
example := C93_set_debug_tells (s := taggedSet false) (s' := taggedSet true)
  (shown_delimited (by decide)) (shown_delimited (by decide)) rfl
example := C93_set_pretty_tells (s := taggedSet false) (s' := taggedSet true)
  (shown_delimited (by decide)) (shown_delimited (by decide)) rfl
-- different maps, different texts
example : (⟨[(⟨⟨2⟩, ⟨5⟩, false⟩, ⟨7⟩)]⟩ : RangeInclusiveMap (UIntW 8) (UIntW 8)).debug decimal
    decimal ≠
    (⟨[(⟨⟨2⟩, ⟨5⟩, true⟩, ⟨7⟩)]⟩ : RangeInclusiveMap (UIntW 8) (UIntW 8)).debug decimal decimal :=
  fun h => absurd (C93_map_integers (.inl h)) (by decide)
example : (⟨⟨[(⟨⟨2⟩, ⟨5⟩, false⟩, ())]⟩⟩ : RangeInclusiveSet (UIntW 8)).pretty decimal ≠
    (⟨⟨[(⟨⟨2⟩, ⟨6⟩, false⟩, ())]⟩⟩ : RangeInclusiveSet (UIntW 8)).pretty decimal :=
  fun h => absurd (C93_set_integers (.inr h)) (by decide)

end Inclusive
end Verif.Props

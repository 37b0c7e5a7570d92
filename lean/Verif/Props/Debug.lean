import Verif.Props.Demo
import Verif.Model.Debug
import Verif.Props.Build
import Verif.Props.IBuild
import Verif.Props.Set
import Verif.Props.ISet

/-!
# C58: `Debug` output
-/
set_option linter.unusedSectionVars false

namespace Verif.Props
variable {K : Type} [LE K] [LT K] [DecidableLE K] [DecidableLT K]
  [Std.IsLinearPreorder K] [Std.LawfulOrderLT K] {V : Type} [BEq V] [PartialEquivBEq V]

/-- `{a, b, c}` -/
def braces (items : List Text) : Text := "{".toList ++ ", ".toList.intercalate items ++ "}".toList

theorem fold_items (items : List Text) (b : DebugBuilder) :
    (items.foldl DebugBuilder.item b).text = b.text ++
      if b.hasFields then items.flatMap (", ".toList ++ ·) else ", ".toList.intercalate items := by
  have key : ∀ (items : List Text) (t : Text), (items.foldl DebugBuilder.item ⟨t, true⟩).text =
      t ++ items.flatMap (", ".toList ++ ·) := by
    intro items
    induction items with
    | nil => intro t; simp
    | cons a l ih =>
      intro t
      rw [List.foldl_cons]
      simp only [DebugBuilder.item]
      rw [ih]
      simp
  obtain ⟨t, f⟩ := b
  cases f with
  | true => simpa using key items t
  | false =>
    cases items with
    | nil => simp [List.intercalate]
    | cons a l =>
      rw [List.foldl_cons]
      simp only [DebugBuilder.item]
      rw [key]
      simp only [List.append_assoc, if_false, Bool.false_eq_true, List.nil_append,
        List.append_cancel_left_eq]
      induction l generalizing a with
      | nil => simp [List.intercalate]
      | cons c l ih =>
        rw [List.flatMap_cons]
        have := ih c
        simp only [List.intercalate, List.intersperse_cons_cons, List.flatten_cons] at this ⊢
        rw [← this]
        simp

theorem braces_items {α : Type} (f : α → Text) (l : List α) :
    (l.foldl (fun b a => DebugBuilder.item b (f a)) DebugBuilder.new).finish = braces (l.map f) := by
  have h : l.foldl (fun b a => DebugBuilder.item b (f a)) DebugBuilder.new = (l.map f).foldl DebugBuilder.item DebugBuilder.new := by
    rw [List.foldl_map]
  rw [h, DebugBuilder.finish, fold_items]
  rfl

theorem entry_eq_item (b : DebugBuilder) (k v : Text) : b.entry k v = b.item (k ++ ": ".toList ++ v) := by
  simp [DebugBuilder.entry, DebugBuilder.item]

/-- **C58** The text of a map lists its entries in order. -/
theorem C58_map_debug (dk : K → Text) (dv : V → Text) (m : RangeMap K V) :
    m.debug dk dv = braces (m.iter.map fun e =>
      dk e.1.start ++ "..".toList ++ dk e.1.stop ++ ": ".toList ++ dv e.2) := by
  rw [RangeMap.debug]
  simp only [entry_eq_item, braces_items]
  rfl

example := C58_map_debug (K := Nat) (V := Char) (fun n => (toString n).toList) (fun c => [c])
    Demo.map

/-- **C58** The text of a set lists its ranges in order. -/
theorem C58_set_debug (dk : K → Text) (s : RangeSet K) :
    s.debug dk = braces (s.iter.map fun r => dk r.start ++ "..".toList ++ dk r.stop) := by
  rw [RangeSet.debug, braces_items]
  rfl

example := C58_set_debug (K := Nat) (fun n => (toString n).toList) Demo.set

theorem debug_congr {α : Type} {f : α → Text} {eq : α → α → Bool}
    (h : ∀ a b, eq a b = true → f a = f b) : ∀ {l l' : List α}, iterEq eq l l' = true → l.map f = l'.map f
  | [], [], _ => rfl
  | a :: s, b :: t, he => by
    simp only [iterEq, Bool.and_eq_true] at he
    rw [List.map_cons, List.map_cons, h a b he.1, debug_congr h he.2]

/-- **C58** Equal maps have the same text, provided equal keys and equal values do. -/
theorem C58_map_debug_eq {dk : K → Text} {dv : V → Text} (hk : ∀ a b, keq a b = true → dk a = dk b)
    (hv : ∀ a b, (a == b) = true → dv a = dv b) {m m' : RangeMap K V} (h : m.eq m' = true) :
    m.debug dk dv = m'.debug dk dv := by
  rw [C58_map_debug, C58_map_debug]
  congr 1
  refine debug_congr (fun a b hab => ?_) h
  simp only [RangeMap.entryEq, Bool.and_eq_true] at hab
  rw [hk _ _ hab.1.1, hk _ _ hab.1.2, hv _ _ hab.2]

example := C58_map_debug_eq (K := Nat) (V := Char) (dk := fun n => (toString n).toList)
    (dv := fun c => [c]) (fun a b h => by rw [Nat.le_antisymm (keq_iff.1 h).1 (keq_iff.1 h).2])
    (fun a b h => by rw [eq_of_beq h]) (m := Demo.map) (m' := Demo.map) (by decide)

/-- **C58** Equal sets have the same text, provided equal keys do. -/
theorem C58_set_debug_eq {dk : K → Text} (hk : ∀ a b, keq a b = true → dk a = dk b)
    {s s' : RangeSet K} (h : s.eq s' = true) : s.debug dk = s'.debug dk := by
  have h1 : ∀ s : RangeSet K, s.debug dk = braces (s.rm.iter.map fun e =>
      dk e.1.start ++ "..".toList ++ dk e.1.stop) := by
    intro s
    rw [C58_set_debug, RangeSet.iter, List.map_map]
    rfl
  rw [h1, h1]
  congr 1
  refine debug_congr (fun a b hab => ?_) h
  simp only [RangeMap.entryEq, Bool.and_eq_true] at hab
  rw [hk _ _ hab.1.1, hk _ _ hab.1.2]

/-- the texts in the crate's own tests, /repo/src/map.rs:1715-1730 -/
example : (⟨[(⟨2, 5⟩, ()), (⟨6, 7⟩, ()), (⟨8, 9⟩, ())]⟩ : RangeMap Nat Unit).debug
    (fun n => (toString n).toList) (fun _ => "()".toList) =
      "{2..5: (), 6..7: (), 8..9: ()}".toList := by decide
example : (⟨[]⟩ : RangeMap Nat Unit).debug (fun n => (toString n).toList) (fun _ => "()".toList) =
    "{}".toList := by decide
example : Demo.set.debug (fun n => (toString n).toList) = "{0..3, 5..15, 20..40}".toList := by decide
example : (∀ a b : Nat, keq a b = true → (toString a).toList = (toString b).toList) := by
  intro a b h
  simp only [keq, Bool.and_eq_true, decide_eq_true_eq] at h
  rw [Nat.le_antisymm h.1 h.2]

namespace Inclusive

/-- **C58** The text of a map lists its entries in order. -/
theorem C58_map_debug {m : RangeInclusiveMap K V} (dk : K → Text) (dv : V → Text) :
    m.debug dk dv = braces (m.iter.map fun e =>
      dk e.1.start ++ "..=".toList ++ dk e.1.stop ++
        (if e.1.exhausted then "@exhausted".toList else []) ++ ": ".toList ++ dv e.2) := by
  rw [RangeInclusiveMap.debug]
  simp only [entry_eq_item, braces_items]
  rfl

example := Inclusive.C58_map_debug (K := UIntW 8) (V := Char) (m := Demo.imap)
    (fun n => (toString n.bits.toNat).toList) (fun c => [c])

/-- **C58** The text of a set lists its ranges in order. -/
theorem C58_set_debug (dk : K → Text) (s : RangeInclusiveSet K) :
    s.debug dk = braces (s.iter.map fun r => dk r.start ++ "..=".toList ++ dk r.stop ++
      if r.exhausted then "@exhausted".toList else []) := by
  rw [RangeInclusiveSet.debug, braces_items]
  rfl

example := Inclusive.C58_set_debug (K := UIntW 8) (fun n => (toString n.bits.toNat).toList)
    Demo.iset

/-- **C58** Equal maps have the same text, provided equal keys and equal values do. -/
theorem C58_map_debug_eq {dk : K → Text} {dv : V → Text} (hk : ∀ a b, keq a b = true → dk a = dk b)
    (hv : ∀ a b, (a == b) = true → dv a = dv b) {m m' : RangeInclusiveMap K V}
    (h : m.eq m' = true) : m.debug dk dv = m'.debug dk dv := by
  rw [C58_map_debug, C58_map_debug]
  congr 1
  refine debug_congr (fun a b hab => ?_) h
  simp only [RangeInclusiveMap.entryEq, Bool.and_eq_true, beq_iff_eq] at hab
  rw [hk _ _ hab.1.1.1, hk _ _ hab.1.1.2, hv _ _ hab.2, hab.1.2]

example := Inclusive.C58_map_debug_eq (K := UIntW 8) (V := Char)
    (dk := fun n => (toString n.bits.toNat).toList) (dv := fun c => [c])
    (fun a b h => by rw [Demo.u8_antisymm _ _ (keq_iff.1 h).1 (keq_iff.1 h).2])
    (fun a b h => by rw [eq_of_beq h]) (m := Demo.imap) (m' := Demo.imap) (by decide)

/-- **C58** Equal sets have the same text, provided equal keys do. -/
theorem C58_set_debug_eq {dk : K → Text} (hk : ∀ a b, keq a b = true → dk a = dk b)
    {s s' : RangeInclusiveSet K} (h : s.eq s' = true) : s.debug dk = s'.debug dk := by
  have h1 : ∀ s : RangeInclusiveSet K, s.debug dk = braces (s.rm.iter.map fun e =>
      dk e.1.start ++ "..=".toList ++ dk e.1.stop ++
        if e.1.exhausted then "@exhausted".toList else []) := by
    intro s
    rw [C58_set_debug, RangeInclusiveSet.iter, List.map_map]
    rfl
  rw [h1, h1]
  congr 1
  refine debug_congr (fun a b hab => ?_) h
  simp only [RangeInclusiveMap.entryEq, Bool.and_eq_true, beq_iff_eq] at hab
  rw [hk _ _ hab.1.1.1, hk _ _ hab.1.1.2, hab.1.2]

example : Demo.iset.debug (fun n => (toString n.bits.toNat).toList) =
    "{0..=2, 5..=14, 20..=255}".toList := by decide

end Inclusive
end Verif.Props

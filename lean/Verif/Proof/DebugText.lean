import Verif.Model.DebugPretty
import Verif.Props.Debug

/-!
# Lemmas about `Debug` texts
-/
namespace Verif

namespace Spec

/-- A text `f a` can be told from what follows it, if that begins with one of `seps`. -/
def Delimited {α : Type} (seps : List Text) (f : α → Text) : Prop :=
  ∀ a b s t, (∃ p ∈ seps, p <+: s) → (∃ p ∈ seps, p <+: t) → f a ++ s = f b ++ t → f a = f b

/-- Every line of a text (all end with a line feed) moved four blanks to the right. -/
def indented (lines : List Text) : Text := lines.flatMap fun l => "    ".toList ++ l ++ "\n".toList

end Spec

open Spec

theorem Spec.Delimited.mono {α : Type} {seps seps' : List Text} {f : α → Text}
    (h : Delimited seps f)
    (hs : ∀ p ∈ seps', p ∈ seps) : Delimited seps' f :=
  fun a b s t ⟨p, hp, h1⟩ ⟨q, hq, h2⟩ => h a b s t ⟨p, hs p hp, h1⟩ ⟨q, hs q hq, h2⟩

theorem append_cut {c d : Char} : ∀ {x y s t : Text}, (c :: s) ∉ [([] : Text)] → d ∉ x → c ∉ y →
    x ++ c :: s = y ++ d :: t → c ∉ x → d ∉ y → x = y
  | [], [], _, _, _, _, _, _, _, _ => rfl
  | [], b :: y, s, t, _, _, hy, h, _, _ => by
    rw [List.nil_append, List.cons_append, List.cons.injEq] at h
    exact absurd (h.1 ▸ .head _) hy
  | a :: x, [], s, t, _, hx, _, h, _, _ => by
    rw [List.nil_append, List.cons_append, List.cons.injEq] at h
    exact absurd (h.1 ▸ .head _) hx
  | a :: x, b :: y, s, t, h0, hx, hy, h, hx', hy' => by
    rw [List.cons_append, List.cons_append, List.cons.injEq] at h
    rw [h.1, append_cut h0 (fun hh => hx (.tail _ hh)) (fun hh => hy (.tail _ hh)) h.2
      (fun hh => hx' (.tail _ hh)) fun hh => hy' (.tail _ hh)]

/-- Texts without the first characters of the separators can be told from what follows. -/
theorem Spec.Delimited.of_not_mem {α : Type} {seps : List Text} {f : α → Text} {cs : List Char}
    (hs : ∀ p ∈ seps, ∃ c ∈ cs, p.head? = some c) (hf : ∀ a, ∀ c ∈ cs, c ∉ f a) :
    Delimited seps f := by
  rintro a b s t ⟨p, hp, s', rfl⟩ ⟨q, hq, t', rfl⟩ h
  obtain ⟨c, hc, hpc⟩ := hs p hp
  obtain ⟨d, hd, hqd⟩ := hs q hq
  cases p with
  | nil => cases hpc
  | cons c' p =>
    cases q with
    | nil => cases hqd
    | cons d' q =>
      cases hpc
      cases hqd
      exact append_cut nofun (hf a d hd) (hf b c hc) h (hf a c hc) (hf b d hd)

/-! ## `{:?}` -/

theorem braces_inj {α : Type} {f : α → Text} (hf : Delimited [", ".toList, "}".toList] f)
    (hf' : ∀ a, 2 ≤ (f a).length) :
    ∀ {l l' : List α}, Props.braces (l.map f) = Props.braces (l'.map f) → l.map f = l'.map f := by
  have key : ∀ (l l' : List α),
      (l.map f).flatMap (", ".toList ++ ·) ++ "}".toList =
        (l'.map f).flatMap (", ".toList ++ ·) ++ "}".toList → l.map f = l'.map f := by
    intro l
    induction l with
    | nil =>
      intro l' h
      cases l' with
      | nil => rfl
      | cons b l' => cases h
    | cons a l ih =>
      intro l' h
      cases l' with
      | nil => cases h
      | cons b l' =>
        simp only [List.map_cons, List.flatMap_cons, List.append_assoc] at h
        have h := List.append_cancel_left h
        have hs : ∀ m : List Text, ∃ p ∈ [", ".toList, "}".toList],
            p <+: m.flatMap (", ".toList ++ ·) ++ "}".toList := by
          intro m
          cases m with
          | nil => exact ⟨_, .tail _ (.head _), List.prefix_refl _⟩
          | cons x m =>
            refine ⟨_, .head _, ?_⟩
            rw [List.flatMap_cons, List.append_assoc, List.append_assoc]
            exact List.prefix_append _ _
        have he := hf a b _ _ (hs _) (hs _) h
        rw [he] at h
        rw [List.map_cons, List.map_cons, he, ih l' (List.append_cancel_left h)]
  have hsplit : ∀ (x : Text) (m : List Text), ", ".toList.intercalate (x :: m) =
      x ++ m.flatMap (", ".toList ++ ·) := by
    intro x m
    induction m generalizing x with
    | nil => simp [List.intercalate]
    | cons y m ih =>
      have := ih y
      simp only [List.intercalate, List.intersperse_cons_cons, List.flatten_cons,
        List.flatMap_cons] at this ⊢
      rw [this]
      simp
  intro l l' h
  unfold Props.braces at h
  rw [List.append_assoc, List.append_assoc] at h
  have h := List.append_cancel_left h
  cases l with
  | nil =>
    cases l' with
    | nil => rfl
    | cons b l' =>
      rw [List.map_cons, hsplit, List.append_assoc] at h
      have := congrArg List.length h
      have := hf' b
      simp [List.intercalate] at *
      omega
  | cons a l =>
    cases l' with
    | nil =>
      rw [List.map_cons, hsplit, List.append_assoc] at h
      have := congrArg List.length h
      have := hf' a
      simp [List.intercalate] at *
      omega
    | cons b l' =>
      rw [List.map_cons, List.map_cons, hsplit, hsplit] at h
      refine key (a :: l) (b :: l') ?_
      simp only [List.map_cons, List.flatMap_cons, List.append_assoc] at h ⊢
      rw [h]

/-! ## `{:#?}` -/

namespace PadAdapter

theorem write_append (p : PadAdapter) (s t : Text) : p.write (s ++ t) = (p.write s).write t := by
  simp [write]

/-- What is written does not depend on what was there. -/
theorem write_eq (s : Text) : ∀ (buf : Text) (nl : Bool),
    (⟨buf, nl⟩ : PadAdapter).write s = ⟨buf ++ ((⟨[], nl⟩ : PadAdapter).write s).buf,
      ((⟨[], nl⟩ : PadAdapter).write s).onNewline⟩ := by
  induction s with
  | nil => intro buf nl; simp [write]
  | cons c s ih =>
    intro buf nl
    have h : ∀ p : PadAdapter, p.write (c :: s) = (p.writeChar c).write s := fun _ => rfl
    rw [h, h]
    unfold writeChar
    dsimp only
    rw [ih, ih ((if nl then [] ++ "    ".toList else []) ++ [c])]
    cases nl <;> simp

/-- A line without line feed in it, then a line feed. -/
theorem write_line (l : Text) (hl : '\n' ∉ l) (nl : Bool) :
    (⟨[], nl⟩ : PadAdapter).write (l ++ "\n".toList) =
      ⟨(if nl then "    ".toList else []) ++ l ++ "\n".toList, true⟩ := by
  have key : ∀ (l : Text), '\n' ∉ l → ∀ buf,
      (⟨buf, false⟩ : PadAdapter).write (l ++ "\n".toList) = ⟨buf ++ l ++ "\n".toList, true⟩ := by
    intro l
    induction l with
    | nil => intro _ buf; simp [write, writeChar]
    | cons c l ih =>
      intro hl buf
      have hc : (c == '\n') = false := by
        cases h : c == '\n' with
        | false => rfl
        | true => exact absurd (by rw [eq_of_beq h]; exact .head _) hl
      have h : (⟨buf, false⟩ : PadAdapter).write (c :: l ++ "\n".toList) =
          ((⟨buf, false⟩ : PadAdapter).writeChar c).write (l ++ "\n".toList) := rfl
      rw [h, writeChar, hc]
      simp only [Bool.false_eq_true, if_false]
      rw [ih fun h => hl (.tail _ h)]
      simp
  cases nl with
  | false => simpa using key l hl []
  | true =>
    cases l with
    | nil => simp [write, writeChar]
    | cons c l =>
      have hc : (c == '\n') = false := by
        cases h : c == '\n' with
        | false => rfl
        | true => exact absurd (by rw [eq_of_beq h]; exact .head _) hl
      have h : (⟨[], true⟩ : PadAdapter).write (c :: l ++ "\n".toList) =
          ((⟨[], true⟩ : PadAdapter).writeChar c).write (l ++ "\n".toList) := rfl
      rw [h, writeChar, hc]
      simp only [if_true]
      rw [key l fun h => hl (.tail _ h)]
      simp

theorem write_lines : ∀ (lines : List Text), (∀ l ∈ lines, '\n' ∉ l) →
    ((⟨[], true⟩ : PadAdapter).write (lines.flatMap (· ++ "\n".toList))) = ⟨indented lines, true⟩
  | [], _ => rfl
  | l :: lines, h => by
    rw [List.flatMap_cons, write_append, write_line l (h l (.head _)) true, write_eq,
      write_lines lines fun l hl => h l (.tail _ hl)]
    simp [indented]

/-- The adapter loses nothing. -/
theorem write_inj : ∀ {s t : Text} {nl : Bool},
    ((⟨[], nl⟩ : PadAdapter).write s).buf = ((⟨[], nl⟩ : PadAdapter).write t).buf → s = t := by
  have step : ∀ (c : Char) (s : Text) (nl : Bool), ((⟨[], nl⟩ : PadAdapter).write (c :: s)).buf =
      (if nl then "    ".toList else []) ++ c :: ((⟨[], c == '\n'⟩ : PadAdapter).write s).buf := by
    intro c s nl
    have h : (⟨[], nl⟩ : PadAdapter).write (c :: s) = ((⟨[], nl⟩ : PadAdapter).writeChar c).write
      s :=
      rfl
    rw [h, writeChar, write_eq]
    cases nl <;> simp
  intro s
  induction s with
  | nil =>
    intro t nl h
    cases t with
    | nil => rfl
    | cons d t =>
      rw [step] at h
      have := congrArg List.length h
      simp [write] at this
  | cons c s ih =>
    intro t nl h
    cases t with
    | nil =>
      rw [step] at h
      have := congrArg List.length h
      simp [write] at this
    | cons d t =>
      rw [step, step] at h
      have h := List.append_cancel_left h
      rw [List.cons.injEq] at h
      obtain ⟨rfl, h⟩ := h
      rw [ih h]

end PadAdapter

theorem prettyEntry_eq (b : DebugBuilder) (k v : Text) :
    b.prettyEntry k v = b.prettyItem (k ++ ": ".toList ++ v) := by
  simp only [DebugBuilder.prettyEntry, DebugBuilder.prettyItem, PadAdapter.write_append]

theorem prettyItem_eq (b : DebugBuilder) (t : Text) :
    b.prettyItem t = ⟨b.text ++ (if b.hasFields then [] else "\n".toList) ++
      ((⟨[], true⟩ : PadAdapter).write (t ++ ",\n".toList)).buf, true⟩ := by
  unfold DebugBuilder.prettyItem PadAdapter.wrap
  dsimp only
  rw [← PadAdapter.write_append, PadAdapter.write_eq]
  cases b.hasFields <;> simp

/-- The text of a builder in the `alternate` mode, for given texts of the entries. -/
theorem pretty_items (items : List Text) :
    (items.foldl DebugBuilder.prettyItem DebugBuilder.new).finish =
      "{".toList ++ (if items = [] then [] else "\n".toList) ++
        items.flatMap (fun t => ((⟨[], true⟩ : PadAdapter).write (t ++ ",\n".toList)).buf) ++
        "}".toList := by
  have key : ∀ (items : List Text) (t : Text),
      (items.foldl DebugBuilder.prettyItem ⟨t, true⟩).text =
      t ++ items.flatMap fun t => ((⟨[], true⟩ : PadAdapter).write (t ++ ",\n".toList)).buf := by
    intro items
    induction items with
    | nil => intro t; simp
    | cons a l ih =>
      intro t
      rw [List.foldl_cons, prettyItem_eq]
      simp only [if_true, List.append_nil]
      rw [ih, List.flatMap_cons, List.append_assoc]
  cases items with
  | nil => rfl
  | cons a l =>
    rw [List.foldl_cons, prettyItem_eq, DebugBuilder.finish, key, List.flatMap_cons]
    simp [DebugBuilder.new]

theorem write_ends_newline (t : Text) :
    ((⟨[], true⟩ : PadAdapter).write (t ++ ",\n".toList)).onNewline = true := by
  rw [PadAdapter.write_append]
  rfl

theorem pads_flat : ∀ items : List Text,
    items.flatMap (fun t => ((⟨[], true⟩ : PadAdapter).write (t ++ ",\n".toList)).buf) =
      ((⟨[], true⟩ : PadAdapter).write (items.flatMap (· ++ ",\n".toList))).buf
  | [] => rfl
  | a :: l => by
    rw [List.flatMap_cons, List.flatMap_cons, PadAdapter.write_append _ (a ++ _)]
    have h := write_ends_newline a
    generalize (⟨[], true⟩ : PadAdapter).write (a ++ ",\n".toList) = p at h ⊢
    obtain ⟨buf, nl⟩ := p
    simp only at h
    subst h
    rw [PadAdapter.write_eq _ buf, pads_flat l]

theorem pretty_inj {α : Type} {f : α → Text} (hf : Delimited [",\n".toList] f) {l l' : List α}
    (h : ((l.map f).foldl DebugBuilder.prettyItem DebugBuilder.new).finish =
      ((l'.map f).foldl DebugBuilder.prettyItem DebugBuilder.new).finish) : l.map f = l'.map f := by
  have key : ∀ l l' : List α, (l.map f).flatMap (· ++ ",\n".toList) =
      (l'.map f).flatMap (· ++ ",\n".toList) → l.map f = l'.map f := by
    intro l
    induction l with
    | nil =>
      intro l' h
      cases l' with
      | nil => rfl
      | cons b l' =>
        have := congrArg List.length h
        simp at this
    | cons a l ih =>
      intro l' h
      cases l' with
      | nil =>
        have := congrArg List.length h
        simp at this
      | cons b l' =>
        simp only [List.map_cons, List.flatMap_cons, List.append_assoc] at h
        have he := hf a b _ _ ⟨_, .head _, List.prefix_append _ _⟩
          ⟨_, .head _, List.prefix_append _ _⟩ h
        rw [he] at h
        rw [List.map_cons, List.map_cons, he,
          ih l' (List.append_cancel_left (List.append_cancel_left h))]
  rw [pretty_items, pretty_items, pads_flat, pads_flat] at h
  have h := List.append_cancel_right h
  cases l with
  | nil =>
    cases l' with
    | nil => rfl
    | cons b l' => cases h
  | cons a l =>
    cases l' with
    | nil => cases h
    | cons b l' =>
      rw [if_neg (by simp), if_neg (by simp)] at h
      exact key _ _ (PadAdapter.write_inj (List.append_cancel_left h))

end Verif

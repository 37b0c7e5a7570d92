import Verif.Model.DebugWriter
import Verif.Props.DebugText

/-!
# Lemmas about the builders with a writer that may fail
-/
namespace Verif
namespace Spec

/-- One after the other, until one fails. -/
def inTurn : List Fmt → Fmt
  | [], _, _, s => (s, true)
  | f :: fs, τ, w, s =>
    let r := f τ w s
    if r.2 then inTurn fs τ w r.1 else r

/-- What `f` writes is moved to the right, from a new line on. -/
def moved (f : Fmt) : Fmt := fun τ w s =>
  let r := f (τ × Bool) (pad w) (s, true)
  (r.1.1, r.2)

/-- `{e, e, e}`. -/
def oneLine : List Fmt → Fmt
  | [] => inTurn [lit "{", lit "}"]
  | e :: es => inTurn ([lit "{", e] ++ es.flatMap (fun f => [lit ", ", f]) ++ [lit "}"])

/-- `{`, then every `e,` on lines of its own, then `}`. -/
def manyLines : List Fmt → Fmt
  | [] => inTurn [lit "{", lit "}"]
  | e :: es => inTurn ([lit "{", lit "\n"] ++ (e :: es).map (fun f => moved (inTurn [f, lit ",\n"]))
      ++ [lit "}"])

/-- The pieces one after the other, until the writer refuses one. -/
def emit {σ : Type} (w : Writer σ) : List Text → σ → σ × Bool
  | [], s => (s, true)
  | p :: ps, s =>
    let r := w s p
    if r.2 then emit w ps r.1 else r

/-- An implementation of `Debug` that writes these pieces. -/
def saying (ps : List Text) : Fmt := fun _ w => emit w ps

/-- `f` gives every writer the same pieces, which together are `text`, until the writer refuses one,
and returns what the writer returned. -/
def Prints (f : ∀ σ : Type, Writer σ → σ → Except Panic (σ × Bool)) (text : Text) : Prop :=
  ∃ ps : List Text, ps.flatten = text ∧
    ∀ (σ : Type) (w : Writer σ) (s : σ), f σ w s = .ok (emit w ps s)

end Spec

open Spec

/-! ## In turn -/

theorem andThen_assoc {σ : Type} (r : σ × Bool) (f g : σ → σ × Bool) :
    andThen (andThen r f) g = andThen r fun s => andThen (f s) g := by
  unfold andThen
  by_cases h : r.2 = true
  · rw [if_pos h, if_pos h]
  · rw [if_neg h, if_neg h, if_neg h]

theorem andThen_pure {σ : Type} (r : σ × Bool) : (andThen r fun s => (s, true)) = r := by
  unfold andThen
  obtain ⟨s, b⟩ := r
  cases b <;> rfl

theorem inTurn_cons (f : Fmt) (fs : List Fmt) {τ : Type} (w : Writer τ) (s : τ) :
    inTurn (f :: fs) τ w s = andThen (f τ w s) (inTurn fs τ w) := rfl

theorem inTurn_append (fs gs : List Fmt) {τ : Type} (w : Writer τ) (s : τ) :
    inTurn (fs ++ gs) τ w s = andThen (inTurn fs τ w s) (inTurn gs τ w) := by
  induction fs generalizing s with
  | nil => rfl
  | cons f fs ih =>
    rw [List.cons_append, inTurn_cons, inTurn_cons, andThen_assoc]
    congr 1
    funext s
    exact ih s

theorem emit_append {σ : Type} (w : Writer σ) (ps qs : List Text) (s : σ) :
    emit w (ps ++ qs) s = andThen (emit w ps s) (emit w qs) := by
  induction ps generalizing s with
  | nil => rfl
  | cons p ps ih =>
    show andThen (w s p) (emit w (ps ++ qs)) = andThen (andThen (w s p) (emit w ps)) (emit w qs)
    rw [andThen_assoc]
    congr 1
    funext s
    exact ih s

theorem emit_one {σ : Type} (w : Writer σ) (p : Text) (s : σ) : emit w [p] s = w s p :=
  andThen_pure _

theorem inTurn_saying (l : List (List Text)) {τ : Type} (w : Writer τ) (s : τ) :
    inTurn (l.map saying) τ w s = emit w l.flatten s := by
  induction l generalizing s with
  | nil => rfl
  | cons ps l ih =>
    rw [List.map_cons, inTurn_cons, List.flatten_cons, emit_append]
    congr 1
    funext s
    exact ih s

theorem lit_eq (t : String) : lit t = saying [t.toList] := by
  funext τ w s
  exact (emit_one w _ s).symm

/-! ## The builders -/

namespace DebugWriter
variable {σ : Type} {w : Writer σ}

/-- The builder's invariant: no key waits for its value, unless something failed. -/
def Good (b : DebugWriter σ) : Prop := b.result = true → b.hasKey = false

/-- The writer and the result. -/
def outcome (b : DebugWriter σ) : σ × Bool := (b.writer, b.result)

theorem entry_false (b : DebugWriter σ) (hb : b.Good) (k v : Fmt) :
    ∃ b', b.entry w false k v = .ok b' ∧ b'.Good ∧ b'.hasFields = true ∧
      b'.outcome = andThen b.outcome
        (inTurn ((if b.hasFields then [lit ", "] else []) ++ [k, lit ": ", v]) σ w) := by
  obtain ⟨s, r, hf, hk, nl⟩ := b
  cases r with
  | false => exact ⟨⟨s, false, true, hk, nl⟩, rfl, nofun, rfl, rfl⟩
  | true =>
    obtain rfl : hk = false := hb rfl
    have e : inTurn ((if hf then [lit ", "] else []) ++ [k, lit ": ", v]) σ w s =
        andThen (andThen (andThen (if hf then w s ", ".toList else (s, true)) (k σ w))
          (lit ": " _ w)) (v σ w) := by
      rw [inTurn_append, andThen_assoc, andThen_assoc]
      congr 1
      · cases hf
        · rfl
        · exact andThen_pure _
      · funext s
        show andThen (k σ w s) (fun s => andThen (lit ": " σ w s) fun s => andThen (v σ w s) _) = _
        congr 1
        funext s
        congr 1
        funext s
        exact andThen_pure _
    rw [show (DebugWriter.outcome ⟨s, true, hf, false, nl⟩) = (s, true) from rfl]
    rw [show ∀ g : σ → σ × Bool, andThen (s, true) g = g s from fun _ => rfl]
    simp only [e]
    have hkey : DebugWriter.key w false ⟨s, true, hf, false, nl⟩ k =
        .ok ⟨(andThen (andThen (if hf then w s ", ".toList else (s, true)) (k σ w))
            (lit ": " _ w)).1,
          (andThen (andThen (if hf then w s ", ".toList else (s, true)) (k σ w))
            (lit ": " _ w)).2, hf,
          (andThen (andThen (if hf then w s ", ".toList else (s, true)) (k σ w))
            (lit ": " _ w)).2, nl⟩ := rfl
    unfold DebugWriter.entry
    rw [hkey]
    generalize andThen (andThen (if hf then w s ", ".toList else (s, true)) (k σ w))
      (lit ": " _ w) = r1
    obtain ⟨s1, b1⟩ := r1
    cases b1 with
    | false => exact ⟨_, rfl, nofun, rfl, rfl⟩
    | true =>
      refine ⟨_, rfl, fun h => ?_, rfl, rfl⟩
      show (!(v σ w s1).2) = false
      rw [show (v σ w s1).2 = true from h]
      rfl

theorem moved_four (k v : Fmt) (s : σ) :
    moved (inTurn [k, lit ": ", v, lit ",\n"]) σ w s =
      let p := andThen (k (σ × Bool) (pad w) (s, true)) (lit ": " _ (pad w))
      let q := andThen p fun u => andThen (v (σ × Bool) (pad w) u) (lit ",\n" _ (pad w))
      (q.1.1, q.2) := by
  have : inTurn [k, lit ": ", v, lit ",\n"] (σ × Bool) (pad w) (s, true) =
      andThen (andThen (k (σ × Bool) (pad w) (s, true)) (lit ": " _ (pad w)))
        fun u => andThen (v (σ × Bool) (pad w) u) (lit ",\n" _ (pad w)) := by
    rw [andThen_assoc, inTurn_cons]
    congr 1
    funext u
    rw [inTurn_cons]
    congr 1
    funext u
    rw [inTurn_cons]
    congr 1
    funext u
    exact andThen_pure _
  show (_, _) = _
  rw [this]

theorem entry_true (b : DebugWriter σ) (hb : b.Good) (k v : Fmt) :
    ∃ b', b.entry w true k v = .ok b' ∧ b'.Good ∧ b'.hasFields = true ∧
      b'.outcome = andThen b.outcome
        (inTurn ((if b.hasFields then [] else [lit "\n"]) ++
          [moved (inTurn [k, lit ": ", v, lit ",\n"])]) σ w) := by
  obtain ⟨s, r, hf, hk, nl⟩ := b
  cases r with
  | false => exact ⟨⟨s, false, true, hk, nl⟩, rfl, nofun, rfl, rfl⟩
  | true =>
    obtain rfl : hk = false := hb rfl
    have e : inTurn ((if hf then [] else [lit "\n"]) ++
          [moved (inTurn [k, lit ": ", v, lit ",\n"])]) σ w s =
        andThen (if hf then (s, true) else w s "\n".toList)
          (moved (inTurn [k, lit ": ", v, lit ",\n"]) σ w) := by
      rw [inTurn_append]
      congr 1
      · cases hf
        · exact andThen_pure _
        · rfl
      · funext s
        exact andThen_pure _
    rw [show (DebugWriter.outcome ⟨s, true, hf, false, nl⟩) = (s, true) from rfl]
    rw [show ∀ g : σ → σ × Bool, andThen (s, true) g = g s from fun _ => rfl]
    simp only [e]
    have hkey : DebugWriter.key w true ⟨s, true, hf, false, nl⟩ k =
        (let r := if hf then (s, true) else w s "\n".toList
        if r.2 then
          let p := andThen (k (σ × Bool) (pad w) (r.1, true)) (lit ": " _ (pad w))
          .ok ⟨p.1.1, p.2, hf, p.2, p.1.2⟩
        else .ok ⟨r.1, false, hf, false, nl⟩) := rfl
    unfold DebugWriter.entry
    rw [hkey]
    generalize (if hf then (s, true) else w s "\n".toList) = r1
    obtain ⟨s1, b1⟩ := r1
    cases b1 with
    | false => exact ⟨_, rfl, nofun, rfl, rfl⟩
    | true =>
      show ∃ b', (let p := andThen (k (σ × Bool) (pad w) (s1, true)) (lit ": " _ (pad w))
        DebugWriter.value w true ⟨p.1.1, p.2, hf, p.2, p.1.2⟩ v) = .ok b' ∧ b'.Good ∧
        b'.hasFields = true ∧ b'.outcome = moved (inTurn [k, lit ": ", v, lit ",\n"]) σ w s1
      rw [moved_four]
      generalize andThen (k (σ × Bool) (pad w) (s1, true)) (lit ": " _ (pad w)) = p
      obtain ⟨⟨s2, n2⟩, b2⟩ := p
      cases b2 with
      | false => exact ⟨_, rfl, nofun, rfl, rfl⟩
      | true =>
        refine ⟨_, rfl, fun h => ?_, rfl, rfl⟩
        show (!(andThen (v (σ × Bool) (pad w) (s2, n2)) (lit ",\n" _ (pad w))).2) = false
        rw [show (andThen (v (σ × Bool) (pad w) (s2, n2)) (lit ",\n" _ (pad w))).2 = true from h]
        rfl

theorem item_false (b : DebugWriter σ) (f : Fmt) :
    (b.item w false f).hasFields = true ∧
      (b.item w false f).outcome = andThen b.outcome
        (inTurn ((if b.hasFields then [lit ", "] else []) ++ [f]) σ w) := by
  obtain ⟨s, r, hf, hk, nl⟩ := b
  cases r with
  | false => exact ⟨rfl, rfl⟩
  | true =>
    refine ⟨rfl, ?_⟩
    show andThen (if hf then w s ", ".toList else (s, true)) (f σ w) =
      inTurn ((if hf then [lit ", "] else []) ++ [f]) σ w s
    rw [inTurn_append]
    congr 1
    · cases hf
      · rfl
      · exact (andThen_pure _).symm
    · funext s
      exact (andThen_pure _).symm

theorem item_true (b : DebugWriter σ) (f : Fmt) :
    (b.item w true f).hasFields = true ∧
      (b.item w true f).outcome = andThen b.outcome
        (inTurn ((if b.hasFields then [] else [lit "\n"]) ++ [moved (inTurn [f, lit ",\n"])])
          σ w) := by
  obtain ⟨s, r, hf, hk, nl⟩ := b
  cases r with
  | false => exact ⟨rfl, rfl⟩
  | true =>
    have e : inTurn ((if hf then [] else [lit "\n"]) ++ [moved (inTurn [f, lit ",\n"])]) σ w s =
        andThen (if hf then (s, true) else w s "\n".toList)
          (moved (inTurn [f, lit ",\n"]) σ w) := by
      rw [inTurn_append]
      congr 1
      · cases hf
        · exact andThen_pure _
        · rfl
      · funext s
        exact andThen_pure _
    have e' : ∀ s, moved (inTurn [f, lit ",\n"]) σ w s =
        let p := andThen (f (σ × Bool) (pad w) (s, true)) (lit ",\n" _ (pad w))
        (p.1.1, p.2) := by
      intro s
      have : inTurn [f, lit ",\n"] (σ × Bool) (pad w) (s, true) =
          andThen (f (σ × Bool) (pad w) (s, true)) (lit ",\n" _ (pad w)) := by
        rw [inTurn_cons]
        congr 1
        funext u
        exact andThen_pure _
      show (_, _) = _
      rw [this]
    rw [show (DebugWriter.outcome ⟨s, true, hf, hk, nl⟩) = (s, true) from rfl]
    rw [show ∀ g : σ → σ × Bool, andThen (s, true) g = g s from fun _ => rfl]
    simp only [e]
    have hitem : DebugWriter.item w true ⟨s, true, hf, hk, nl⟩ f =
        (let r := if hf then (s, true) else w s "\n".toList
        if r.2 then
          let p := andThen (f (σ × Bool) (pad w) (r.1, true)) (lit ",\n" _ (pad w))
          ⟨p.1.1, p.2, true, hk, nl⟩
        else ⟨r.1, false, true, hk, nl⟩) := rfl
    rw [hitem]
    generalize (if hf then (s, true) else w s "\n".toList) = r1
    obtain ⟨s1, b1⟩ := r1
    cases b1 with
    | false => exact ⟨rfl, rfl⟩
    | true =>
      refine ⟨rfl, ?_⟩
      show _ = moved (inTurn [f, lit ",\n"]) σ w s1
      rw [e']
      rfl

/-- What stands between the braces, if something has been written or not. -/
def between (pretty hasFields : Bool) (es : List Fmt) : List Fmt :=
  match pretty, hasFields, es with
  | _, _, [] => []
  | false, true, es => es.flatMap fun f => [lit ", ", f]
  | false, false, e :: es => e :: es.flatMap fun f => [lit ", ", f]
  | true, true, es => es.map fun f => moved (inTurn [f, lit ",\n"])
  | true, false, es => lit "\n" :: es.map fun f => moved (inTurn [f, lit ",\n"])

theorem items_outcome (pretty : Bool) (es : List Fmt) : ∀ b : DebugWriter σ,
    (es.foldl (fun b f => b.item w pretty f) b).outcome =
      andThen b.outcome (inTurn (between pretty b.hasFields es) σ w) := by
  induction es with
  | nil =>
    intro b
    cases pretty <;> cases b.hasFields <;> exact (andThen_pure _).symm
  | cons e es ih =>
    intro b
    rw [List.foldl_cons, ih]
    cases pretty with
    | false =>
      rw [(item_false b e).1, (item_false b e).2, andThen_assoc]
      congr 1
      funext s
      rw [← inTurn_append]
      cases b.hasFields <;> cases es <;> rfl
    | true =>
      rw [(item_true b e).1, (item_true b e).2, andThen_assoc]
      congr 1
      funext s
      rw [← inTurn_append]
      cases b.hasFields <;> cases es <;> rfl

theorem set_fmt (pretty : Bool) (es : List Fmt) (s : σ) :
    (es.foldl (fun b f => DebugWriter.item w pretty b f) (.new w s)).finishSet w =
      (if pretty then manyLines es else oneLine es) σ w s := by
  have h := items_outcome (w := w) pretty es (.new w s)
  have hfin : ∀ b : DebugWriter σ, b.finishSet w = andThen b.outcome (lit "}" σ w) := by
    intro ⟨s, r, _, _, _⟩
    cases r <;> rfl
  rw [hfin, h, andThen_assoc]
  have e : (if pretty then manyLines es else oneLine es) σ w s =
      inTurn ([lit "{"] ++ (between pretty false es ++ [lit "}"])) σ w s := by
    cases pretty <;> cases es <;> simp [oneLine, manyLines, between]
  rw [e, inTurn_append]
  congr 1
  · exact (andThen_pure _).symm
  · funext s
    rw [inTurn_append]
    congr 1
    funext s
    exact (andThen_pure _).symm

/-- Entries of a map do the same as items with `: ` between key and value. -/
theorem entry_item (pretty : Bool) (b : DebugWriter σ) (hb : b.Good) (k v : Fmt) :
    ∃ b', b.entry w pretty k v = .ok b' ∧ b'.Good ∧ b'.hasFields = true ∧
      b'.outcome = (b.item w pretty (inTurn [k, lit ": ", v])).outcome := by
  cases pretty with
  | false =>
    obtain ⟨b', h1, h2, h3, h4⟩ := entry_false (w := w) b hb k v
    refine ⟨b', h1, h2, h3, h4.trans ?_⟩
    rw [(item_false b _).2]
    congr 1
    funext s
    rw [inTurn_append, inTurn_append]
    congr 1
    funext s
    exact (andThen_pure _).symm
  | true =>
    obtain ⟨b', h1, h2, h3, h4⟩ := entry_true (w := w) b hb k v
    refine ⟨b', h1, h2, h3, h4.trans ?_⟩
    rw [(item_true b _).2]
    congr 1
    funext s
    rw [inTurn_append, inTurn_append]
    congr 1
    have : inTurn [k, lit ": ", v, lit ",\n"] = inTurn [inTurn [k, lit ": ", v], lit ",\n"] := by
      funext τ w s
      rw [show [k, lit ": ", v, lit ",\n"] = [k, lit ": ", v] ++ [lit ",\n"] from rfl,
        inTurn_append]
      rfl
    rw [this]

theorem entries_outcome {α : Type} (pretty : Bool) (k v : α → Fmt) (l : List α) :
    ∀ b : DebugWriter σ, b.Good →
    ∃ b', l.foldlM (fun (b : DebugWriter σ) e => b.entry w pretty (k e) (v e)) b = .ok b' ∧
      b'.Good ∧ b'.outcome = andThen b.outcome
        (inTurn (between pretty b.hasFields (l.map fun e => inTurn [k e, lit ": ", v e])) σ w) := by
  induction l with
  | nil =>
    intro b hb
    refine ⟨b, rfl, hb, ?_⟩
    cases pretty <;> cases b.hasFields <;> exact (andThen_pure _).symm
  | cons e l ih =>
    intro b hb
    obtain ⟨b1, h1, h2, h3, h4⟩ := entry_item (w := w) pretty b hb (k e) (v e)
    obtain ⟨b', h5, h6, h7⟩ := ih b1 h2
    refine ⟨b', ?_, h6, h7.trans ?_⟩
    · rw [List.foldlM_cons, h1]
      exact h5
    · have hf : (b.item w pretty (inTurn [k e, lit ": ", v e])).hasFields = true := by
        cases pretty
        · exact (item_false b _).1
        · exact (item_true b _).1
      rw [h3, h4, List.map_cons, ← hf, ← items_outcome,
        ← List.foldl_cons (f := fun b f => item w pretty b f), items_outcome]

theorem map_fmt {α : Type} (pretty : Bool) (k v : α → Fmt) (l : List α) (s : σ) :
    (do (← l.foldlM (fun (b : DebugWriter σ) e => b.entry w pretty (k e) (v e))
      (.new w s)).finishMap w) =
      .ok ((if pretty then manyLines (l.map fun e => inTurn [k e, lit ": ", v e])
        else oneLine (l.map fun e => inTurn [k e, lit ": ", v e])) σ w s) := by
  obtain ⟨b', h1, h2, h3⟩ := entries_outcome (w := w) pretty k v l (.new w s) fun _ => rfl
  rw [h1]
  show b'.finishMap w = _
  rw [← set_fmt]
  have hfin : ∀ b : DebugWriter σ, b.Good →
      b.finishMap w = .ok (andThen b.outcome (lit "}" σ w)) := by
    intro ⟨s, r, _, hk, _⟩ hb
    cases r with
    | false => rfl
    | true =>
      obtain rfl : hk = false := hb rfl
      rfl
  have hfin' : ∀ b : DebugWriter σ, b.finishSet w = andThen b.outcome (lit "}" σ w) := by
    intro ⟨s, r, _, _, _⟩
    cases r <;> rfl
  rw [hfin b' h2, hfin', items_outcome, h3]

end DebugWriter

/-! ## Pieces -/

theorem saying_append (ps qs : List Text) : inTurn [saying ps, saying qs] = saying (ps ++ qs) := by
  funext τ w s
  rw [show [saying ps, saying qs] = [ps, qs].map saying from rfl, inTurn_saying]
  simp only [List.flatten_cons, List.flatten_nil, List.append_nil]
  rfl

theorem inTurn_saying' (l : List (List Text)) : inTurn (l.map saying) = saying l.flatten := by
  funext τ w s
  exact inTurn_saying l w s

/-- The lines as `PadAdapter` hands them on. -/
def padded : Bool → List Text → List Text
  | _, [] => []
  | n, l :: ls => (if n then ["    ".toList] else []) ++ l :: padded (l.getLast? == some '\n') ls

/-- Whether a new line begins after these lines. -/
def newlineAfter : Bool → List Text → Bool
  | n, [] => n
  | _, l :: ls => newlineAfter (l.getLast? == some '\n') ls

theorem padded_append (n : Bool) (ls ls' : List Text) :
    padded n (ls ++ ls') = padded n ls ++ padded (newlineAfter n ls) ls' := by
  induction ls generalizing n with
  | nil => rfl
  | cons l ls ih =>
    show _ ++ l :: padded _ (ls ++ ls') = _
    rw [ih]
    show _ = (_ ++ l :: padded _ ls) ++ _
    rw [List.append_assoc, List.cons_append]
    rfl

theorem padLoop_spec {σ : Type} (w : Writer σ) (ls : List Text) : ∀ (s : σ) (n : Bool),
    ((padLoop w ls (s, n)).1.1, (padLoop w ls (s, n)).2) = emit w (padded n ls) s ∧
    ((padLoop w ls (s, n)).2 = true → (padLoop w ls (s, n)).1.2 = newlineAfter n ls) := by
  induction ls with
  | nil => exact fun s n => ⟨rfl, fun _ => rfl⟩
  | cons l ls ih =>
    intro s n
    have e : emit w (padded n (l :: ls)) s =
        andThen (if n then w s "    ".toList else (s, true)) fun s =>
          andThen (w s l) (emit w (padded (l.getLast? == some '\n') ls)) := by
      show emit w (_ ++ l :: _) s = _
      rw [emit_append]
      congr 1
      cases n
      · rfl
      · exact emit_one w _ s
    rw [e]
    have e' : padLoop w (l :: ls) (s, n) =
      (let r := if n then w s "    ".toList else (s, true)
      if r.2 then
        let r := w r.1 l
        if r.2 then padLoop w ls (r.1, l.getLast? == some '\n')
        else ((r.1, l.getLast? == some '\n'), false)
      else ((r.1, n), false)) := rfl
    rw [e']
    generalize (if n then w s "    ".toList else (s, true)) = r
    obtain ⟨s1, b1⟩ := r
    cases b1 with
    | false => exact ⟨rfl, nofun⟩
    | true =>
      show (((if (w s1 l).2 then padLoop w ls ((w s1 l).1, l.getLast? == some '\n')
        else (((w s1 l).1, l.getLast? == some '\n'), false)).1.1, _) = andThen (w s1 l) _) ∧ _
      cases hb : (w s1 l).2 with
      | false =>
        unfold andThen
        simp only [hb]
        refine ⟨?_, nofun⟩
        simp only [Bool.false_eq_true, if_false]
        exact Prod.ext rfl hb.symm
      | true =>
        have := ih (w s1 l).1 (l.getLast? == some '\n')
        unfold andThen
        simp only [hb, if_true]
        exact this

theorem pad_spec {σ : Type} (w : Writer σ) (ps : List Text) : ∀ (s : σ) (n : Bool),
    ((emit (pad w) ps (s, n)).1.1, (emit (pad w) ps (s, n)).2) =
      emit w (padded n (ps.flatMap splitLines)) s := by
  induction ps with
  | nil => exact fun s n => rfl
  | cons p ps ih =>
    intro s n
    obtain ⟨h1, h2⟩ := padLoop_spec w (splitLines p) s n
    rw [List.flatMap_cons, padded_append, emit_append, ← h1]
    have e : emit (pad w) (p :: ps) (s, n) =
      if (padLoop w (splitLines p) (s, n)).2 then
        emit (pad w) ps (padLoop w (splitLines p) (s, n)).1
      else padLoop w (splitLines p) (s, n) := rfl
    rw [e]
    generalize padLoop w (splitLines p) (s, n) = r at h2 ⊢
    obtain ⟨⟨s1, n1⟩, b1⟩ := r
    cases b1 with
    | false => rfl
    | true =>
      obtain rfl : n1 = _ := h2 rfl
      exact ih s1 _

theorem moved_saying (ps : List Text) :
    moved (saying ps) = saying (padded true (ps.flatMap splitLines)) := by
  funext τ w s
  exact pad_spec w ps s true

theorem splitLines_flatten (t : Text) : (splitLines t).flatten = t := by
  induction t with
  | nil => rfl
  | cons c t ih =>
    unfold splitLines
    by_cases h : c = '\n'
    · rw [if_pos h, List.flatten_cons, ih]
      rfl
    · rw [if_neg h]
      cases hl : splitLines t with
      | nil =>
        rw [hl] at ih
        rw [← ih]
        rfl
      | cons l ls =>
        rw [hl] at ih
        rw [← ih]
        rfl

/-- A line: not empty, and no line feed but at the end. -/
def IsLine (l : Text) : Prop := l ≠ [] ∧ '\n' ∉ l.dropLast

theorem splitLines_isLine (t : Text) : ∀ l ∈ splitLines t, IsLine l := by
  induction t with
  | nil => exact fun l hl => by cases hl
  | cons c t ih =>
    unfold splitLines
    by_cases h : c = '\n'
    · rw [if_pos h]
      intro l hl
      cases hl with
      | head => exact ⟨nofun, nofun⟩
      | tail _ hl => exact ih l hl
    · rw [if_neg h]
      cases hl : splitLines t with
      | nil =>
        intro l hl
        obtain rfl := List.mem_singleton.1 hl
        exact ⟨nofun, nofun⟩
      | cons l ls =>
        rw [hl] at ih
        intro l' hl'
        cases hl' with
        | head =>
          obtain ⟨h1, h2⟩ := ih l (.head _)
          refine ⟨nofun, ?_⟩
          rw [List.dropLast_cons_of_ne_nil h1]
          intro hm
          cases hm with
          | head => exact h rfl
          | tail _ hm => exact h2 hm
        | tail _ hl' => exact ih l' (.tail _ hl')

theorem write_line : ∀ (l : Text), IsLine l → ∀ (buf : Text) (n : Bool),
    (PadAdapter.mk buf n).write l =
      ⟨buf ++ (if n then "    ".toList else []) ++ l, l.getLast? == some '\n'⟩
  | [], h, _, _ => absurd rfl h.1
  | [c], _, buf, n => by
    cases n
    · show PadAdapter.mk (buf ++ [c]) (c == '\n') = _
      simp
    · show PadAdapter.mk (buf ++ "    ".toList ++ [c]) (c == '\n') = _
      simp
  | c :: d :: l, h, buf, n => by
    have hc : c ≠ '\n' := fun hc => h.2 (hc ▸ .head _)
    have hl : IsLine (d :: l) := ⟨nofun, fun hm => h.2 (.tail _ hm)⟩
    have ih := write_line (d :: l) hl
    show (PadAdapter.mk ((if n then buf ++ "    ".toList else buf) ++ [c]) (c == '\n')).write
      (d :: l) = _
    rw [ih, beq_eq_false_iff_ne.2 hc]
    cases n <;> simp [List.getLast?_cons_cons]

theorem write_lines (ls : List Text) (h : ∀ l ∈ ls, IsLine l) : ∀ (buf : Text) (n : Bool),
    (PadAdapter.mk buf n).write ls.flatten = ⟨buf ++ (padded n ls).flatten, newlineAfter n ls⟩ := by
  induction ls with
  | nil =>
    intro buf n
    show PadAdapter.mk buf n = ⟨buf ++ [], n⟩
    rw [List.append_nil]
  | cons l ls ih =>
    intro buf n
    have : ∀ (p : PadAdapter) (s t : Text), p.write (s ++ t) = (p.write s).write t :=
      fun p s t => List.foldl_append
    rw [List.flatten_cons, this, write_line l (h l (.head _)),
      ih fun l hl => h l (.tail _ hl)]
    show PadAdapter.mk _ (newlineAfter _ ls) = PadAdapter.mk (buf ++ (_ ++ l :: _).flatten) _
    congr 1
    cases n <;> simp

theorem padded_text (ps : List Text) (buf : Text) :
    buf ++ (padded true (ps.flatMap splitLines)).flatten =
      ((PadAdapter.wrap buf).write ps.flatten).buf := by
  have h1 : (ps.flatMap splitLines).flatten = ps.flatten := by
    induction ps with
    | nil => rfl
    | cons p ps ih =>
      rw [List.flatMap_cons, List.flatten_append, splitLines_flatten, ih, List.flatten_cons]
  have h2 : ∀ l ∈ ps.flatMap splitLines, IsLine l := by
    intro l hl
    obtain ⟨p, _, hl⟩ := List.mem_flatMap.1 hl
    exact splitLines_isLine p l hl
  rw [← h1, PadAdapter.wrap, write_lines _ h2]

/-! ## The texts -/

theorem oneLine_saying (l : List (List Text)) :
    ∃ ps, ps.flatten = Props.braces (l.map List.flatten) ∧ oneLine (l.map saying) = saying ps := by
  cases l with
  | nil =>
    refine ⟨["{".toList, "}".toList], rfl, ?_⟩
    show inTurn [lit "{", lit "}"] = _
    rw [lit_eq, lit_eq, saying_append]
    rfl
  | cons e l =>
    have h : [lit "{", saying e] ++ (l.map saying).flatMap (fun f => [lit ", ", f]) ++ [lit "}"] =
        ([["{".toList], e] ++ l.flatMap (fun p => [[", ".toList], p]) ++ [["}".toList]]).map
          saying := by
      rw [lit_eq, lit_eq, lit_eq, List.map_append, List.map_append]
      congr 2
      induction l with
      | nil => rfl
      | cons p l ih =>
        rw [List.map_cons, List.flatMap_cons, List.flatMap_cons, List.map_append, ih]
        rfl
    refine ⟨_, ?_, (congrArg inTurn h).trans (inTurn_saying' _)⟩
    have h' : ((l.flatMap fun p => [[", ".toList], p]).flatten).flatten =
        (l.map List.flatten).flatMap (", ".toList ++ ·) := by
      clear h
      induction l with
      | nil => rfl
      | cons p l ih =>
        rw [List.flatMap_cons, List.flatten_append, List.flatten_append, ih, List.map_cons,
          List.flatMap_cons]
        congr 1
        simp
    rw [List.flatten_append, List.flatten_append, List.flatten_append, List.flatten_append, h']
    have h2 : ∀ (x : Text) (xs : List Text), x ++ xs.flatMap (", ".toList ++ ·) =
        ", ".toList.intercalate (x :: xs) := by
      intro x xs
      induction xs generalizing x with
      | nil => simp [List.intercalate]
      | cons y ys ih =>
        rw [List.flatMap_cons, List.append_assoc, ih]
        simp [List.intercalate]
    rw [Props.braces, List.map_cons, ← h2]
    simp

theorem manyLines_saying (l : List (List Text)) :
    ∃ ps, ps.flatten =
        ((l.map List.flatten).foldl DebugBuilder.prettyItem DebugBuilder.new).finish ∧
      manyLines (l.map saying) = saying ps := by
  have hone : ∀ p : List Text, moved (inTurn [saying p, lit ",\n"]) =
      saying (padded true ((p ++ [",\n".toList]).flatMap splitLines)) := by
    intro p
    rw [lit_eq, saying_append, moved_saying]
  have htext : ∀ (l : List (List Text)) (b : DebugBuilder), b.hasFields = true →
      ((l.map List.flatten).foldl DebugBuilder.prettyItem b).text = b.text ++
        (l.map fun p => padded true
          ((p ++ [",\n".toList]).flatMap splitLines)).flatten.flatten := by
    intro l
    induction l with
    | nil =>
      intro b _
      exact (List.append_nil _).symm
    | cons p l ih =>
      intro b hb
      rw [List.map_cons, List.foldl_cons, ih _ rfl, List.map_cons, List.flatten_cons,
        List.flatten_append, ← List.append_assoc, padded_text, List.flatten_append]
      congr 1
      obtain ⟨t, f⟩ := b
      obtain rfl : f = true := hb
      show PadAdapter.buf (((PadAdapter.wrap t).write p.flatten).write ",\n".toList) = _
      congr 1
      exact (List.foldl_append ..).symm
  cases l with
  | nil =>
    refine ⟨["{".toList, "}".toList], rfl, ?_⟩
    show inTurn [lit "{", lit "}"] = _
    rw [lit_eq, lit_eq, saying_append]
    rfl
  | cons e l =>
    have h : [lit "{", lit "\n"] ++
        ((e :: l).map saying).map (fun f => moved (inTurn [f, lit ",\n"])) ++ [lit "}"] =
        ([["{".toList], ["\n".toList]] ++
          (e :: l).map (fun p => padded true ((p ++ [",\n".toList]).flatMap splitLines)) ++
          [["}".toList]]).map saying := by
      rw [List.map_append, List.map_append, List.map_map, List.map_map]
      rw [show ((fun f => moved (inTurn [f, lit ",\n"])) ∘ saying) =
        saying ∘ fun p => padded true ((p ++ [",\n".toList]).flatMap splitLines) from funext hone]
      rw [lit_eq "{", lit_eq "}", lit_eq "\n"]
      rfl
    refine ⟨_, ?_, (congrArg inTurn h).trans (inTurn_saying' _)⟩
    rw [List.flatten_append, List.flatten_append, List.flatten_append, List.flatten_append,
      DebugBuilder.finish]
    congr 1
    have e1 : ((e :: l).map List.flatten).foldl DebugBuilder.prettyItem DebugBuilder.new =
        ((e :: l).map List.flatten).foldl DebugBuilder.prettyItem ⟨"{\n".toList, true⟩ := rfl
    rw [e1, htext _ _ rfl]
    rfl

end Verif

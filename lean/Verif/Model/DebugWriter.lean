import Verif.Model.DebugPretty

/-!
# `Debug` with a writer that may fail

`Model/Debug.lean` and `Model/DebugPretty.lean` say which text is written.  Here the writer
(`fmt::Write`) is asked piece by piece, may refuse, and the builders of std do with its refusal what
they do: keep it, skip everything else, and return it at the end.
-/
namespace Verif

/-- std `fmt::Write::write_str`: the writer afterwards, and whether it returned `Ok`. -/
abbrev Writer (σ : Type) := σ → Text → σ × Bool

/-- An implementation of `Debug::fmt`, which can be used with any writer. -/
abbrev Fmt := ∀ τ : Type, Writer τ → τ → τ × Bool

/-- `r?` followed by `f`; also `Result::and_then`. -/
def andThen {σ : Type} (r : σ × Bool) (f : σ → σ × Bool) : σ × Bool := if r.2 then f r.1 else r

/-- `write_str(text)`. -/
def lit (text : String) : Fmt := fun _ w s => w s text.toList

/-- std `<str>::split_inclusive('\n')`. -/
def splitLines : Text → List Text
  | [] => []
  | c :: t =>
    if c = '\n' then [c] :: splitLines t
    else match splitLines t with
      | [] => [[c]]
      | l :: ls => (c :: l) :: ls

/-- std `PadAdapter::write_str`, the loop over the lines.  The state of the adapter is the writer
and `on_newline`. -/
def padLoop {σ : Type} (w : Writer σ) : List Text → σ × Bool → (σ × Bool) × Bool
  | [], s => (s, true)
  | l :: ls, (s, onNewline) =>
    let r := if onNewline then w s "    ".toList else (s, true)
    if r.2 then
      let onNewline := l.getLast? == some '\n'
      let r := w r.1 l
      if r.2 then padLoop w ls (r.1, onNewline) else ((r.1, onNewline), false)
    else ((r.1, onNewline), false)

/-- std `PadAdapter::write_str`. -/
def pad {σ : Type} (w : Writer σ) : Writer (σ × Bool) := fun s text => padLoop w (splitLines text) s

/-- std `core::fmt::builders::{DebugMap, DebugSet}`: the writer, the result so far (`true` for
`Ok`), `has_fields`, and of `DebugMap` `has_key` and `state.on_newline`. -/
structure DebugWriter (σ : Type) where
  writer : σ
  result : Bool
  hasFields : Bool
  hasKey : Bool
  onNewline : Bool

namespace DebugWriter
variable {σ : Type} (w : Writer σ) (pretty : Bool)

/-- std `Formatter::debug_map`, `Formatter::debug_set`. -/
def new (s : σ) : DebugWriter σ :=
  let r := w s "{".toList
  ⟨r.1, r.2, false, false, true⟩

/-- std `DebugMap::key_with`.  Its `assert!` is a panic. -/
def key (b : DebugWriter σ) (k : Fmt) : Except Panic (DebugWriter σ) :=
  if b.result then
    if b.hasKey then .error .assertFailed
    else if pretty then
      let r := if b.hasFields then (b.writer, true) else w b.writer "\n".toList
      if r.2 then
        let p := andThen (k (σ × Bool) (pad w) (r.1, true)) (lit ": " _ (pad w))
        .ok ⟨p.1.1, p.2, b.hasFields, p.2, p.1.2⟩
      else .ok { b with writer := r.1, result := false }
    else
      let r := if b.hasFields then w b.writer ", ".toList else (b.writer, true)
      let r := andThen (andThen r (k σ w)) (lit ": " _ w)
      .ok { b with writer := r.1, result := r.2, hasKey := r.2 }
  else .ok b

/-- std `DebugMap::value_with`. -/
def value (b : DebugWriter σ) (v : Fmt) : Except Panic (DebugWriter σ) :=
  if b.result then
    if b.hasKey then
      if pretty then
        let p := andThen (v (σ × Bool) (pad w) (b.writer, b.onNewline)) (lit ",\n" _ (pad w))
        .ok ⟨p.1.1, p.2, true, !p.2, p.1.2⟩
      else
        let r := v σ w b.writer
        .ok ⟨r.1, r.2, true, !r.2, b.onNewline⟩
    else .error .assertFailed
  else .ok { b with hasFields := true }

/-- std `DebugMap::entry`. -/
def entry (b : DebugWriter σ) (k v : Fmt) : Except Panic (DebugWriter σ) := do
  (← b.key w pretty k).value w pretty v

/-- std `DebugInner::entry_with`, for `DebugSet::entry`. -/
def item (b : DebugWriter σ) (f : Fmt) : DebugWriter σ :=
  if b.result then
    if pretty then
      let r := if b.hasFields then (b.writer, true) else w b.writer "\n".toList
      if r.2 then
        let p := andThen (f (σ × Bool) (pad w) (r.1, true)) (lit ",\n" _ (pad w))
        { b with writer := p.1.1, result := p.2, hasFields := true }
      else { b with writer := r.1, result := false, hasFields := true }
    else
      let r := if b.hasFields then w b.writer ", ".toList else (b.writer, true)
      let r := andThen r (f σ w)
      { b with writer := r.1, result := r.2, hasFields := true }
  else { b with hasFields := true }

/-- std `DebugMap::finish`. -/
def finishMap (b : DebugWriter σ) : Except Panic (σ × Bool) :=
  if b.result then
    if b.hasKey then .error .assertFailed else .ok (w b.writer "}".toList)
  else .ok (b.writer, false)

/-- std `DebugSet::finish`. -/
def finishSet (b : DebugWriter σ) : σ × Bool :=
  if b.result then w b.writer "}".toList else (b.writer, false)

end DebugWriter

variable {K V : Type}

/-- std `Debug` of `Range`. -/
def Range.fmt (dk : K → Fmt) (r : Range K) : Fmt := fun τ w s =>
  andThen (andThen (dk r.start τ w s) (lit ".." τ w)) (dk r.stop τ w)

/-- std `Debug` of `RangeInclusive`. -/
def RangeInclusive.fmt (dk : K → Fmt) (r : RangeInclusive K) : Fmt := fun τ w s =>
  let s := andThen (andThen (dk r.start τ w s) (lit "..=" τ w)) (dk r.stop τ w)
  if r.exhausted then andThen s (lit "@exhausted" τ w) else s

/-- /repo/src/map.rs:604-608 `fmt`.  `pretty` is `{:#?}`. -/
def RangeMap.fmt (pretty : Bool) (dk : K → Fmt) (dv : V → Fmt) (m : RangeMap K V) (σ : Type)
    (w : Writer σ) (s : σ) : Except Panic (σ × Bool) := do
  (← m.iter.foldlM (fun (b : DebugWriter σ) e => b.entry w pretty (e.1.fmt dk) (dv e.2))
    (.new w s)).finishMap w

/-- /repo/src/inclusive_map.rs:695-703 `fmt`. -/
def RangeInclusiveMap.fmt (pretty : Bool) (dk : K → Fmt) (dv : V → Fmt) (m : RangeInclusiveMap K V)
    (σ : Type) (w : Writer σ) (s : σ) : Except Panic (σ × Bool) := do
  (← m.iter.foldlM (fun (b : DebugWriter σ) e => b.entry w pretty (e.1.fmt dk) (dv e.2))
    (.new w s)).finishMap w

/-- /repo/src/set.rs:257-264 `fmt`. -/
def RangeSet.fmt (pretty : Bool) (dk : K → Fmt) (x : RangeSet K) (σ : Type) (w : Writer σ) (s : σ) :
    Except Panic (σ × Bool) :=
  .ok <| (x.iter.foldl (fun (b : DebugWriter σ) r => b.item w pretty (r.fmt dk))
    (.new w s)).finishSet w

/-- /repo/src/inclusive_set.rs:283-290 `fmt`. -/
def RangeInclusiveSet.fmt (pretty : Bool) (dk : K → Fmt) (x : RangeInclusiveSet K) (σ : Type)
    (w : Writer σ) (s : σ) : Except Panic (σ × Bool) :=
  .ok <| (x.iter.foldl (fun (b : DebugWriter σ) r => b.item w pretty (r.fmt dk))
    (.new w s)).finishSet w

end Verif

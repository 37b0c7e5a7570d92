import Verif.Model.Debug

/-!
# `Debug` output with `{:#?}`

std's builders in their `alternate` mode.  `dk` and `dv` are the texts that keys and values write with
`{:#?}`; `Range` and `RangeInclusive` hand the formatter on to the keys, so `Range.debug` and
`RangeInclusive.debug` serve for both modes.
-/
namespace Verif

/-- std `core::fmt::builders::PadAdapter`: what has been written to the underlying formatter, and whether
a new line begins (`on_newline`). -/
structure PadAdapter where
  buf : Text
  onNewline : Bool

namespace PadAdapter

/-- std `PadAdapter::wrap` with a default `PadAdapterState`. -/
def wrap (buf : Text) : PadAdapter := ⟨buf, true⟩

/-- std `PadAdapter::write_char`; `write_str` does the same with whole lines. -/
def writeChar (p : PadAdapter) (c : Char) : PadAdapter :=
  ⟨(if p.onNewline then p.buf ++ "    ".toList else p.buf) ++ [c], c == '\n'⟩

/-- std `PadAdapter::write_str`. -/
def write (p : PadAdapter) (s : Text) : PadAdapter := s.foldl writeChar p

end PadAdapter

/-- std `DebugInner::entry_with`, if `is_pretty`. -/
def DebugBuilder.prettyItem (b : DebugBuilder) (text : Text) : DebugBuilder :=
  let buf := if b.hasFields then b.text else b.text ++ "\n".toList
  ⟨((PadAdapter.wrap buf).write text).write ",\n".toList |>.buf, true⟩

/-- std `DebugMap::key_with` and `DebugMap::value_with`, if `is_pretty`.  The state of the adapter is
kept between the two. -/
def DebugBuilder.prettyEntry (b : DebugBuilder) (key value : Text) : DebugBuilder :=
  let buf := if b.hasFields then b.text else b.text ++ "\n".toList
  let p := ((PadAdapter.wrap buf).write key).write ": ".toList
  ⟨(p.write value).write ",\n".toList |>.buf, true⟩

variable {K V : Type}

/-- /repo/src/map.rs:604-608 `fmt`, with `{:#?}`. -/
def RangeMap.pretty (dk : K → Text) (dv : V → Text) (m : RangeMap K V) : Text :=
  (m.iter.foldl (fun b e => DebugBuilder.prettyEntry b (e.1.debug dk) (dv e.2))
    DebugBuilder.new).finish

/-- /repo/src/inclusive_map.rs:695-703 `fmt`, with `{:#?}`. -/
def RangeInclusiveMap.pretty (dk : K → Text) (dv : V → Text) (m : RangeInclusiveMap K V) : Text :=
  (m.iter.foldl (fun b e => DebugBuilder.prettyEntry b (e.1.debug dk) (dv e.2))
    DebugBuilder.new).finish

/-- /repo/src/set.rs:257-264 `fmt`, with `{:#?}`. -/
def RangeSet.pretty (dk : K → Text) (s : RangeSet K) : Text :=
  (s.iter.foldl (fun b r => DebugBuilder.prettyItem b (r.debug dk)) DebugBuilder.new).finish

/-- /repo/src/inclusive_set.rs:283-290 `fmt`, with `{:#?}`. -/
def RangeInclusiveSet.pretty (dk : K → Text) (s : RangeInclusiveSet K) : Text :=
  (s.iter.foldl (fun b r => DebugBuilder.prettyItem b (r.debug dk)) DebugBuilder.new).finish

end Verif

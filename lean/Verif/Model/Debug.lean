import Verif.Model.Set
import Verif.Model.ISet

/-!
# `Debug` output

Only `{:?}`; the pretty printing `{:#?}` is in `Verif/Model/DebugPretty.lean`.  `dk` and `dv` are the texts the `Debug` implementations of
keys and values write.
-/
namespace Verif

abbrev Text := List Char

/-- std `core::fmt::builders::{DebugMap, DebugInner}`: the text so far, and whether an entry has been
written. -/
structure DebugBuilder where
  text : Text
  hasFields : Bool

/-- std `Formatter::debug_map`, `Formatter::debug_set`. -/
def DebugBuilder.new : DebugBuilder := ⟨"{".toList, false⟩

/-- std `DebugInner::entry_with`, `DebugMap::key_with`: a separator unless this is the first entry. -/
def DebugBuilder.item (b : DebugBuilder) (text : Text) : DebugBuilder :=
  ⟨b.text ++ (if b.hasFields then ", ".toList else []) ++ text, true⟩

/-- std `DebugMap::entry`: `key` and `value`. -/
def DebugBuilder.entry (b : DebugBuilder) (key value : Text) : DebugBuilder :=
  let b := b.item key
  ⟨b.text ++ ": ".toList ++ value, true⟩

/-- std `DebugMap::finish`, `DebugSet::finish`. -/
def DebugBuilder.finish (b : DebugBuilder) : Text := b.text ++ "}".toList

variable {K V : Type}

/-- std `Debug` of `Range`. -/
def Range.debug (dk : K → Text) (r : Range K) : Text := dk r.start ++ "..".toList ++ dk r.stop

/-- std `Debug` of `RangeInclusive`. -/
def RangeInclusive.debug (dk : K → Text) (r : RangeInclusive K) : Text :=
  dk r.start ++ "..=".toList ++ dk r.stop ++ if r.exhausted then "@exhausted".toList else []

/-- /repo/src/map.rs:604-608 `fmt`. -/
def RangeMap.debug (dk : K → Text) (dv : V → Text) (m : RangeMap K V) : Text :=
  (m.iter.foldl (fun b e => DebugBuilder.entry b (e.1.debug dk) (dv e.2)) DebugBuilder.new).finish

/-- /repo/src/inclusive_map.rs:695-703 `fmt`. -/
def RangeInclusiveMap.debug (dk : K → Text) (dv : V → Text) (m : RangeInclusiveMap K V) : Text :=
  (m.iter.foldl (fun b e => DebugBuilder.entry b (e.1.debug dk) (dv e.2)) DebugBuilder.new).finish

/-- /repo/src/set.rs:257-264 `fmt`. -/
def RangeSet.debug (dk : K → Text) (s : RangeSet K) : Text :=
  (s.iter.foldl (fun b r => DebugBuilder.item b (r.debug dk)) DebugBuilder.new).finish

/-- /repo/src/inclusive_set.rs:283-290 `fmt`. -/
def RangeInclusiveSet.debug (dk : K → Text) (s : RangeInclusiveSet K) : Text :=
  (s.iter.foldl (fun b r => DebugBuilder.item b (r.debug dk)) DebugBuilder.new).finish

end Verif

import Verif.Props.Demo
import Verif.Model.Quickcheck
import Verif.Props.Build
import Verif.Props.IBuild
import Verif.Props.Set
import Verif.Props.ISet

/-!
# C54: `quickcheck::Arbitrary`
-/
set_option linter.unusedSectionVars false

namespace Verif.Props
open Spec
variable {K : Type} [LE K] [LT K] [DecidableLE K] [DecidableLT K]
  [Std.IsLinearPreorder K] [Std.LawfulOrderLT K] {V : Type} [BEq V] [PartialEquivBEq V]

section
open RangeMap

/-- **C54** Whatever is generated, `arbitrary` does not panic and returns a map obtainable through the
API, in which the last generated range covering a key gives its value. -/
theorem C54_arbitrary (generated : List (Range K × V)) :
    ∃ m, arbitrary generated = .ok m ∧ Reachable m ∧
      ∀ k, ∃ o, m.get k = .ok o ∧
        Agree o ((generated.reverse.find? fun e => covers e.1 k).map (·.2)) := by
  let items := generated.filter fun e => !e.1.isEmpty
  have hv : ∀ e ∈ items, e.1.start < e.1.stop := by
    intro e he
    simpa [items, Range.isEmpty] using (List.mem_filter.1 he).2
  have h0 := C19_extend_last_wins Reachable.new items hv
  refine ⟨((new : RangeMap K V).extend items).1, ?_, Reachable.new.apply (.extend items), fun k => ?_⟩
  · unfold arbitrary RangeMap.fromIter
    cases hx : (new : RangeMap K V).extend items with
    | mk m o =>
      cases o with
      | ok u => simp only [items] at hx; simp [Except.map]
      | error p =>
        obtain ⟨e, he, h⟩ := (C19_extend_panics_iff Reachable.new items).1 ⟨p, by rw [hx]⟩
        have := hv e he
        grind
  · obtain ⟨-, o, o', h1, h2, h3⟩ := h0 k
    refine ⟨o, h1, ?_⟩
    have h4 : o' = none := by
      have h5 : (new : RangeMap K V).get k = .ok none := rfl
      rw [h2] at h5
      simpa using h5
    have h6 : items.reverse.find? (fun e => covers e.1 k) =
        generated.reverse.find? fun e => covers e.1 k := by
      simp only [items, ← List.filter_reverse, List.find?_filter]
      congr 1
      funext e
      simp only [Range.isEmpty, covers, Bool.not_not]
      grind
    rw [h6, h4] at h3
    cases hf : generated.reverse.find? fun e => covers e.1 k <;> rw [hf] at h3 <;> exact h3

example := C54_arbitrary (K := Nat) (V := Char) Demo.items

/-- **C54** Every map obtainable through the API can be generated. -/
theorem C54_arbitrary_onto {m : RangeMap K V} (hm : Reachable m) : arbitrary m.iter = .ok m := by
  have h1 : m.iter.filter (fun e => !e.1.isEmpty) = m.btm := by
    rw [List.filter_eq_self.2]
    · rfl
    · intro e he
      simpa [Range.isEmpty] using hm.wf.sep.ne e he
  have h2 := extend_rest m.btm [] (by simpa using hm.wf)
  rw [List.nil_append] at h2
  rw [arbitrary, h1, RangeMap.fromIter, show (new : RangeMap K V) = ⟨[]⟩ from rfl, h2]
  rfl

example : (arbitrary [(⟨5, 9⟩, 'a'), (⟨7, 3⟩, 'z'), (⟨9, 12⟩, 'a'), (⟨4, 4⟩, 'z'), (⟨6, 7⟩, 'b')] :
    Except Panic (RangeMap Nat Char)).toOption.map (·.btm) =
      some [(⟨5, 6⟩, 'a'), (⟨6, 7⟩, 'b'), (⟨7, 12⟩, 'a')] := by decide
example : arbitrary Demo.map.iter = .ok Demo.map := C54_arbitrary_onto Demo.map_reachable

/-- **C54** Whatever is generated, `arbitrary` does not panic and returns a set obtainable through the
API, containing the keys covered by a generated range. -/
theorem C54_set_arbitrary (generated : List (Range K × Unit)) :
    ∃ s, RangeSet.arbitrary generated = .ok s ∧ RangeSet.Reachable s ∧
      ∀ k, s.contains k = .ok (generated.any fun e => covers e.1 k) := by
  obtain ⟨m, h1, h2, h3⟩ := C54_arbitrary generated
  refine ⟨⟨m⟩, ?_, RangeSet.Reachable.of_map h2, fun k => ?_⟩
  · rw [RangeSet.arbitrary, h1]; rfl
  · obtain ⟨o, h4, h5⟩ := h3 k
    have h6 : (RangeSet.mk m).contains k = .ok o.isSome := by
      unfold RangeSet.contains RangeMap.containsKey
      rw [h4]
      rfl
    rw [h6, (RangeSet.agree_unit _ _).1 h5, Option.isSome_map]
    congr 1
    rw [Bool.eq_iff_iff]
    simp

example := C54_set_arbitrary (K := Nat) [(⟨2, 9⟩, ()), (⟨4, 30⟩, ())]

/-- **C54** Every set obtainable through the API can be generated. -/
theorem C54_set_arbitrary_onto {s : RangeSet K} (hs : RangeSet.Reachable s) :
    RangeSet.arbitrary (s.iter.map fun r => (r, ())) = .ok s := by
  have h : (s.iter.map fun r => (r, ())) = s.rm.iter := by
    rw [RangeSet.iter, List.map_map]
    exact List.map_id' _
  rw [h, RangeSet.arbitrary, C54_arbitrary_onto hs.map]
  rfl

example : RangeSet.arbitrary (Demo.set.iter.map fun r => (r, ())) = .ok Demo.set :=
  C54_set_arbitrary_onto Demo.set_reachable

end

namespace Inclusive
open RangeInclusiveMap
variable {S : StepFns K}

/-- **C54** Whatever is generated, `arbitrary` does not panic and returns a map obtainable through the
API without exhausted ranges, in which the last generated range that is not exhausted and covers a
key gives its value. -/
theorem C54_arbitrary (hS : LawfulSteps S) (generated : List (RangeInclusive K × V)) :
    ∃ m, arbitrary S generated = .ok m ∧ Reachable S m ∧
      ∀ k, ∃ o, m.get k = .ok o ∧
        Agree o ((generated.reverse.find? fun e => !e.1.exhausted && icovers e.1 k).map (·.2)) := by
  let items := generated.filter fun e => !e.1.isEmpty
  have hv : ∀ e ∈ items, e.1.exhausted = false ∧ e.1.start ≤ e.1.stop := by
    intro e he
    simpa [items, RangeInclusive.isEmpty] using (List.mem_filter.1 he).2
  have h0 := C19_extend_last_wins hS Reachable.new items (fun e he => (hv e he).2)
    (fun e he => (hv e he).1)
  refine ⟨((new : RangeInclusiveMap K V).extend S items).1, ?_,
    Reachable.new.apply (.extend items) ?_, fun k => ?_⟩
  · unfold arbitrary RangeInclusiveMap.fromIter
    cases hx : (new : RangeInclusiveMap K V).extend S items with
    | mk m o =>
      cases o with
      | ok u => simp only [items] at hx; simp [Except.map]
      | error p =>
        obtain ⟨e, he, h⟩ := (C19_extend_panics_iff hS Reachable.new.any items).1 ⟨p, by rw [hx]⟩
        have := hv e he
        grind
  · intro r hr
    obtain ⟨e, he, rfl⟩ := List.mem_map.1 hr
    exact (hv e he).1
  · obtain ⟨-, o, o', h1, h2, h3⟩ := h0 k
    refine ⟨o, h1, ?_⟩
    have h4 : o' = none := by
      have h5 : (new : RangeInclusiveMap K V).get k = .ok none := rfl
      rw [h2] at h5
      simpa using h5
    have h6 : items.reverse.find? (fun e => icovers e.1 k) =
        generated.reverse.find? fun e => !e.1.exhausted && icovers e.1 k := by
      simp only [items, ← List.filter_reverse, List.find?_filter]
      congr 1
      funext e
      simp only [RangeInclusive.isEmpty, icovers, Bool.not_or, Bool.not_not]
      grind
    rw [h6, h4] at h3
    cases hf : generated.reverse.find? fun e => !e.1.exhausted && icovers e.1 k <;>
      rw [hf] at h3 <;> exact h3

example := Inclusive.C54_arbitrary (K := UIntW 8) (V := Char) (S := Demo.u8) Demo.u8_lawful
    Demo.iitems

/-- **C54** Every map obtainable through the API (without exhausted ranges) can be generated. -/
theorem C54_arbitrary_onto (hS : LawfulSteps S) {m : RangeInclusiveMap K V} (hm : Reachable S m) :
    arbitrary S m.iter = .ok m := by
  have h1 : m.iter.filter (fun e => !e.1.isEmpty) = m.btm := by
    rw [List.filter_eq_self.2]
    · rfl
    · intro e he
      simp [RangeInclusive.isEmpty, (hm.wf hS).fresh e he, (hm.wf hS).sep.ne e he]
  have h2 := extend_rest hS m.btm [] (by simpa using (hm.wf hS).sc)
  rw [List.nil_append] at h2
  rw [arbitrary, h1, RangeInclusiveMap.fromIter,
    show (new : RangeInclusiveMap K V) = ⟨[]⟩ from rfl, h2]
  rfl

example : (arbitrary Demo.u8 [(Demo.by8 5 9, 'a'), (Demo.by8 7 3, 'z'), (⟨⟨0⟩, ⟨200⟩, true⟩, 'z'),
    (Demo.by8 10 255, 'a'), (Demo.by8 6 6, 'b')]).toOption.map (·.btm) =
      some [(Demo.by8 5 5, 'a'), (Demo.by8 6 6, 'b'), (Demo.by8 7 255, 'a')] := by decide
example : arbitrary Demo.u8 Demo.imap.iter = .ok Demo.imap :=
  C54_arbitrary_onto Demo.u8_lawful Demo.imap_reachable

/-- **C54** Whatever is generated, `arbitrary` does not panic and returns a set obtainable through the
API, containing the keys covered by a generated range that is not exhausted. -/
theorem C54_set_arbitrary (hS : LawfulSteps S) (generated : List (RangeInclusive K × Unit)) :
    ∃ s, RangeInclusiveSet.arbitrary S generated = .ok s ∧ RangeInclusiveSet.Reachable S s ∧
      ∀ k, s.contains k = .ok (generated.any fun e => !e.1.exhausted && icovers e.1 k) := by
  obtain ⟨m, h1, h2, h3⟩ := C54_arbitrary hS generated
  refine ⟨⟨m⟩, ?_, RangeInclusiveSet.Reachable.of_map hS h2, fun k => ?_⟩
  · rw [RangeInclusiveSet.arbitrary, h1]; rfl
  · obtain ⟨o, h4, h5⟩ := h3 k
    have h6 : (RangeInclusiveSet.mk m).contains k = .ok o.isSome := by
      unfold RangeInclusiveSet.contains RangeInclusiveMap.containsKey
      rw [h4]
      rfl
    rw [h6, (RangeSet.agree_unit _ _).1 h5, Option.isSome_map]
    congr 1
    rw [Bool.eq_iff_iff]
    simp

example := Inclusive.C54_set_arbitrary (K := UIntW 8) (S := Demo.u8) Demo.u8_lawful
    [((Demo.by8 2 9), ()), ((Demo.by8 4 30), ())]

/-- **C54** Every set obtainable through the API (without exhausted ranges) can be generated. -/
theorem C54_set_arbitrary_onto (hS : LawfulSteps S) {s : RangeInclusiveSet K}
    (hs : RangeInclusiveSet.Reachable S s) :
    RangeInclusiveSet.arbitrary S (s.iter.map fun r => (r, ())) = .ok s := by
  have h : (s.iter.map fun r => (r, ())) = s.rm.iter := by
    rw [RangeInclusiveSet.iter, List.map_map]
    exact List.map_id' _
  rw [h, RangeInclusiveSet.arbitrary, C54_arbitrary_onto hS hs.map]
  rfl

example : RangeInclusiveSet.arbitrary Demo.u8 (Demo.iset.iter.map fun r => (r, ())) = .ok Demo.iset :=
  C54_set_arbitrary_onto Demo.u8_lawful Demo.iset_reachable

end Inclusive
end Verif.Props

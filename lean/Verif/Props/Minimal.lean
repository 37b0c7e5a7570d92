import Verif.Props.Set
import Verif.Props.ISet

/-!
# C55: the stored ranges are as few as possible
-/
set_option linter.unusedSectionVars false

namespace Verif.Props
open Spec
variable {K : Type} [LE K] [LT K] [DecidableLE K] [DecidableLT K]
  [Std.IsLinearPreorder K] [Std.LawfulOrderLT K] {V : Type} [BEq V] [PartialEquivBEq V]

theorem length_le_of_nodup {α : Type} : ∀ {l l' : List α}, l.Nodup → (∀ a ∈ l, a ∈ l') →
    l.length ≤ l'.length
  | [], _, _, _ => Nat.zero_le _
  | a :: t, l', hd, hs => by
    obtain ⟨h1, h2⟩ := List.nodup_cons.1 hd
    obtain ⟨s, r, rfl⟩ := List.append_of_mem (hs a (by simp))
    have := length_le_of_nodup (l := t) (l' := s ++ r) h2 (fun b hb => by
      have h3 := hs b (by simp [hb])
      have h4 : b ≠ a := fun h => h1 (h ▸ hb)
      simpa [h4] using h3)
    simp only [List.length_cons, List.length_append] at *
    omega

/-- If every item of `l` has a partner in `l'`, and two items of `l`, one before the other, never have
the same one, then `l'` is at least as long. -/
theorem length_le_of_partner {α β : Type} {l : List α} {l' : List β} (partner : α → β → Prop)
    (h : ∀ a ∈ l, ∃ b ∈ l', partner a b)
    (hp : l.Pairwise fun a a' => ∀ b ∈ l', ¬ (partner a b ∧ partner a' b)) :
    l.length ≤ l'.length := by
  have h1 : ∃ f : List β, f.length = l.length ∧ (∀ b ∈ f, b ∈ l') ∧ f.Nodup ∧
      ∀ b ∈ f, ∃ a ∈ l, partner a b := by
    induction l with
    | nil => exact ⟨[], by simp⟩
    | cons a t ih =>
      obtain ⟨h2, h3⟩ := List.pairwise_cons.1 hp
      obtain ⟨f, h4, h5, h6, h7⟩ := ih (fun a ha => h a (by simp [ha])) h3
      obtain ⟨b, hb, hab⟩ := h a (by simp)
      refine ⟨b :: f, by simp [h4], ?_, ?_, ?_⟩
      · intro c hc
        rcases List.mem_cons.1 hc with rfl | hc
        · exact hb
        · exact h5 c hc
      · refine List.nodup_cons.2 ⟨fun hbf => ?_, h6⟩
        obtain ⟨a', ha', hp'⟩ := h7 b hbf
        exact h2 a' ha' b hb ⟨hab, hp'⟩
      · intro c hc
        rcases List.mem_cons.1 hc with rfl | hc
        · exact ⟨a, by simp, hab⟩
        · obtain ⟨a', ha', hp'⟩ := h7 c hc
          exact ⟨a', by simp [ha'], hp'⟩
  obtain ⟨f, h2, h3, h4, -⟩ := h1
  rw [← h2]
  exact length_le_of_nodup h4 h3

section
open RangeMap

/-- **C55** A list of ranges with values that describes the contents of the map has at least `len()`
elements. -/
theorem C55_fewest {m : RangeMap K V} (hm : Reachable m) (l : List (Range K × V))
    (hsound : ∀ e ∈ l, ∀ k, e.1.start ≤ k → k < e.1.stop →
      ∃ v, m.get k = .ok (some v) ∧ (v == e.2) = true)
    (hcomplete : ∀ k v, m.get k = .ok (some v) → ∃ e ∈ l, e.1.start ≤ k ∧ k < e.1.stop) :
    m.len ≤ l.length := by
  have hw := hm.wf
  refine length_le_of_partner (fun (a e : Range K × V) => e.1.start ≤ a.1.start ∧ a.1.start < e.1.stop)
    (fun a ha => ?_) ?_
  · exact hcomplete a.1.start a.2 ((get_eq_some hw.sep _ _).2
      ⟨a, ha, by grind, hw.sep.ne a ha, rfl⟩)
  · refine hw.sep.pw.imp_of_mem fun {a b} ha hb hab e he hc => ?_
    obtain ⟨⟨h1, h2⟩, h3, h4⟩ := hc
    have ha' := hw.sep.ne a ha
    have hab' : a.1.stop ≤ b.1.start := hab.2
    obtain ⟨v, h5, h6⟩ := hsound e he a.1.start h1 h2
    obtain ⟨w, h7, h8⟩ := hsound e he a.1.stop (by grind) (by grind)
    have h9 : v = a.2 := Maps.unique hw.sep ((get_eq_some hw.sep _ _).1 h5)
      ⟨a, ha, by grind, ha', rfl⟩
    obtain ⟨z, hz, h10, h11, h12⟩ := (get_eq_some hw.sep _ _).1 h7
    have h13 : a.1.stop ≤ z.1.start := by
      have := hw.sep.tri a ha z hz
      grind
    have h14 := hw.coal a ha z hz h13 h10
    subst h9 h12
    rw [PartialEquivBEq.trans h6 (PartialEquivBEq.symm h8)] at h14
    cases h14

/-- `map` in five overlapping pieces, out of order -/
def pieces : List (Range Nat × Char) :=
  [(⟨30, 40⟩, 'c'), (⟨0, 3⟩, 'a'), (⟨20, 25⟩, 'b'), (⟨25, 32⟩, 'c'), (⟨5, 15⟩, 'a')]
example : Demo.map.len = 4 ∧ pieces.length = 5 := by decide
example : Demo.map.len ≤ pieces.length := by
  refine C55_fewest Demo.map_reachable pieces ?_ ?_
  · have hg := fun k v => (get_eq_some (k := k) (w := v) Demo.map_reachable.wf.sep).2
    simp only [pieces, List.mem_cons, List.not_mem_nil, or_false]
    rintro e (rfl | rfl | rfl | rfl | rfl) k h1 h2 <;> simp only at h1 h2
    · exact ⟨'c', hg _ _ ⟨(⟨25, 40⟩, 'c'), by decide, by simp; omega, by simp; omega, rfl⟩, rfl⟩
    · exact ⟨'a', hg _ _ ⟨(⟨0, 3⟩, 'a'), by decide, by simp, by simp; omega, rfl⟩, rfl⟩
    · exact ⟨'b', hg _ _ ⟨(⟨20, 25⟩, 'b'), by decide, by simp; omega, by simp; omega, rfl⟩, rfl⟩
    · exact ⟨'c', hg _ _ ⟨(⟨25, 40⟩, 'c'), by decide, by simp; omega, by simp; omega, rfl⟩, rfl⟩
    · exact ⟨'a', hg _ _ ⟨(⟨5, 15⟩, 'a'), by decide, by simp; omega, by simp; omega, rfl⟩, rfl⟩
  · intro k v hk
    obtain ⟨e, he, h1, h2, -⟩ := (get_eq_some Demo.map_reachable.wf.sep _ _).1 hk
    simp only [Demo.map, List.mem_cons, List.not_mem_nil, or_false] at he
    rcases he with rfl | rfl | rfl | rfl <;> simp only at h1 h2 <;> simp [pieces] <;> omega

/-- **C55** A list of ranges covering exactly the keys of a set has at least `len()` elements. -/
theorem C55_set_fewest {s : RangeSet K} (hs : RangeSet.Reachable s) (l : List (Range K))
    (h : ∀ k, s.contains k = .ok (l.any fun r => covers r k)) : s.len ≤ l.length := by
  have hw := hs.wf
  have := C55_fewest hs.map (l.map fun r => (r, ())) ?_ ?_
  · simpa [RangeSet.len] using this
  · intro e he k h1 h2
    obtain ⟨r, hr, rfl⟩ := List.mem_map.1 he
    refine ⟨(), ?_, rfl⟩
    have h3 : (l.any fun r => covers r k) = true := List.any_eq_true.2 ⟨r, hr, by simp [covers, h1, h2]⟩
    have h4 := h k
    rw [h3, RangeSet.contains_eq hw, RangeSet.has_look hw] at h4
    rw [get_look hw.sep]
    cases h5 : s.rm.look k <;> simp_all
  · intro k v hk
    have h4 := h k
    have h6 : s.rm.look k = some v := by rw [get_look hw.sep] at hk; simpa using hk
    rw [RangeSet.contains_eq hw, RangeSet.has_look hw, h6] at h4
    have h5 : (l.any fun r => covers r k) = true := by simpa using h4.symm
    obtain ⟨r, hr, h7⟩ := List.any_eq_true.1 h5
    exact ⟨(r, ()), List.mem_map.2 ⟨r, hr, rfl⟩, by simpa [covers] using h7⟩


example : Demo.set.len ≤ [(⟨20, 30⟩ : Range Nat), ⟨0, 3⟩, ⟨5, 15⟩, ⟨25, 40⟩].length := by
  refine C55_set_fewest Demo.set_reachable _ fun k => ?_
  rw [RangeSet.contains_eq Demo.set_reachable.wf]
  congr 1
  rw [Bool.eq_iff_iff]
  simp [RangeSet.has, Demo.set, RangeSet.iter, RangeMap.iter, covers]
  omega

end

namespace Inclusive
open RangeInclusiveMap
variable {S : StepFns K}

/-- **C55** A list of ranges with values that describes the contents of the map has at least `len()`
elements. -/
theorem C55_fewest (hS : LawfulSteps S) {m : RangeInclusiveMap K V} (hm : Reachable S m)
    (l : List (RangeInclusive K × V))
    (hsound : ∀ e ∈ l, ∀ k, e.1.start ≤ k → k ≤ e.1.stop →
      ∃ v, m.get k = .ok (some v) ∧ (v == e.2) = true)
    (hcomplete : ∀ k v, m.get k = .ok (some v) → ∃ e ∈ l, e.1.start ≤ k ∧ k ≤ e.1.stop) :
    m.len ≤ l.length := by
  have hw := hm.wf hS
  refine length_le_of_partner
    (fun (a e : RangeInclusive K × V) => e.1.start ≤ a.1.start ∧ a.1.start ≤ e.1.stop)
    (fun a ha => ?_) ?_
  · exact hcomplete a.1.start a.2 ((get_eq_some hw.sep hw.fresh _ _).2
      ⟨a, ha, by grind, hw.sep.ne a ha, rfl⟩)
  · refine hw.sep.pw.imp_of_mem fun {a b} ha hb hab e he hc => ?_
    obtain ⟨⟨h1, h2⟩, h3, h4⟩ := hc
    have ha' := hw.sep.ne a ha
    have hab' : a.1.stop < b.1.start := hab.2
    obtain ⟨c, -, hc1, hc2⟩ := hS.addOne _ _ hab'
    have hc3 := hc2 _ hab'
    obtain ⟨v, h5, h6⟩ := hsound e he a.1.start h1 h2
    obtain ⟨w, h7, h8⟩ := hsound e he c (by grind) (by grind)
    have h9 : v = a.2 := Maps.unique hw.sep ((get_eq_some hw.sep hw.fresh _ _).1 h5)
      ⟨a, ha, by grind, ha', rfl⟩
    obtain ⟨z, hz, h10, h11, h12⟩ := (get_eq_some hw.sep hw.fresh _ _).1 h7
    have h13 : a.1.stop < z.1.start := by
      have := hw.sep.tri a ha z hz
      grind
    have h14 := hw.coal a ha z hz ⟨h13, fun d hd => by have := hc2 d hd; grind⟩
    subst h9 h12
    rw [PartialEquivBEq.trans h6 (PartialEquivBEq.symm h8)] at h14
    cases h14

/-- **C55** A list of ranges covering exactly the keys of a set has at least `len()` elements. -/
theorem C55_set_fewest (hS : LawfulSteps S) {s : RangeInclusiveSet K}
    (hs : RangeInclusiveSet.Reachable S s) (l : List (RangeInclusive K))
    (h : ∀ k, s.contains k = .ok (l.any fun r => icovers r k)) : s.len ≤ l.length := by
  have hw := hs.wf hS
  have := C55_fewest hS hs.map (l.map fun r => (r, ())) ?_ ?_
  · simpa [RangeInclusiveSet.len] using this
  · intro e he k h1 h2
    obtain ⟨r, hr, rfl⟩ := List.mem_map.1 he
    refine ⟨(), ?_, rfl⟩
    have h3 : (l.any fun r => icovers r k) = true :=
      List.any_eq_true.2 ⟨r, hr, by simp [icovers, h1, h2]⟩
    have h4 := h k
    rw [h3, RangeInclusiveSet.contains_eq hw, RangeInclusiveSet.has_look hw] at h4
    rw [get_look hw]
    cases h5 : s.rm.look k <;> simp_all
  · intro k v hk
    have h4 := h k
    have h6 : s.rm.look k = some v := by rw [get_look hw] at hk; simpa using hk
    rw [RangeInclusiveSet.contains_eq hw, RangeInclusiveSet.has_look hw, h6] at h4
    have h5 : (l.any fun r => icovers r k) = true := by simpa using h4.symm
    obtain ⟨r, hr, h7⟩ := List.any_eq_true.1 h5
    exact ⟨(r, ()), List.mem_map.2 ⟨r, hr, rfl⟩, by simpa [icovers] using h7⟩

/-- adjacent and overlapping pieces of `iset`: `0..=1, 2..=2, 5..=14, 20..=200, 100..=255` -/
example : Demo.iset.len ≤
    [Demo.by8 0 1, Demo.by8 20 200, Demo.by8 2 2, Demo.by8 5 14, Demo.by8 100 255].length := by
  refine C55_set_fewest Demo.u8_lawful Demo.iset_reachable _ fun k => ?_
  rw [RangeInclusiveSet.contains_eq (Demo.iset_reachable.wf Demo.u8_lawful)]
  congr 1
  obtain ⟨k⟩ := k
  revert k
  decide
example : Demo.iset.len = 3 := by decide


example : Demo.iset.len ≤
    [Demo.by8 0 1, Demo.by8 20 200, Demo.by8 2 2, Demo.by8 5 14, Demo.by8 100 255].length ∧
    (⟨Demo.iset.rm.btm.map fun e => (e.1, 'v')⟩ : RangeInclusiveMap _ _).len ≤ 4 := by
  refine ⟨by decide, C55_fewest (V := Char) Demo.u8_lawful
    ⟨Demo.iset.iter.map fun r => .insert r 'v', by decide, rfl⟩
    [(Demo.by8 0 2, 'v'), (Demo.by8 20 200, 'v'), (Demo.by8 5 14, 'v'), (Demo.by8 100 255, 'v')] ?_ ?_⟩
  · exact fun e he k h1 h2 => ⟨'v', Demo.ok_of (Demo.forall8 (P := fun k => ∀ e ∈ [(Demo.by8 0 2, 'v'),
      (Demo.by8 20 200, 'v'), (Demo.by8 5 14, 'v'), (Demo.by8 100 255, 'v')], e.1.start ≤ k →
      k ≤ e.1.stop → ((⟨Demo.iset.rm.btm.map fun e => (e.1, 'v')⟩ :
        RangeInclusiveMap _ _).get k).toOption = some (some 'v')) (by decide +kernel) k e he h1 h2), (by decide : ∀ e ∈ [(Demo.by8 0 2, 'v'),
      (Demo.by8 20 200, 'v'), (Demo.by8 5 14, 'v'), (Demo.by8 100 255, 'v')], ('v' == e.2) = true) e he⟩
  · intro k v h
    have h : (⟨Demo.iset.rm.btm.map fun e => (e.1, 'v')⟩ : RangeInclusiveMap _ _).get k =
      .ok (some v) := h
    exact Demo.forall8 (P := fun k => ((⟨Demo.iset.rm.btm.map fun e => (e.1, 'v')⟩ :
      RangeInclusiveMap _ _).get k).toOption ≠ some none → ∃ e ∈ [(Demo.by8 0 2, 'v'), (Demo.by8 20 200, 'v'),
      (Demo.by8 5 14, 'v'), (Demo.by8 100 255, 'v')], e.1.start ≤ k ∧ k ≤ e.1.stop)
      (by decide +kernel) k (by rw [h]; simp [Except.toOption])

end Inclusive
end Verif.Props

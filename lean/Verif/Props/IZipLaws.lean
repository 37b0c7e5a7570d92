import Verif.Props.IZip
import Verif.Props.ITurns
import Verif.Props.ISet

/-!
# C127 for inclusive maps
-/
set_option linter.unusedSectionVars false

namespace Verif.Props.Inclusive
open Spec RangeInclusiveMap
section
variable {K : Type} [LE K] [LT K] [DecidableLE K] [DecidableLT K]
  [Std.IsLinearPreorder K] [Std.LawfulOrderLT K] {V W U : Type}
  {S : StepFns K}

theorem wf_ext [BEq V] [LawfulBEq V] (hS : LawfulSteps S) (hk : ∀ a b : K, a ≤ b → b ≤ a → a = b)
    {l l' : List (RangeInclusive K × V)} (h : WF l) (h' : WF l')
      (hm : ∀ k v, Maps l k v ↔ Maps l' k v) :
    l = l' := by
  have := congrFun (AgreeAt.eq hS hk (maps := fun _ => ⟨l⟩) (maps' := fun _ => ⟨l'⟩)
    (fun _ k => by
      rw [get_look (m := ⟨l⟩) h, get_look (m := ⟨l'⟩) h']
      refine congrArg _ (Option.ext fun v => ?_)
      rw [look_eq_some (m := ⟨l⟩) h, look_eq_some (m := ⟨l'⟩) h']
      exact hm k v)
    (fun _ => (reachable_iff hS).2 h) fun _ => (reachable_iff hS).2 h') 0
  exact congrArg RangeInclusiveMap.btm this

theorem relabel_wf [BEq V] [LawfulBEq V] [BEq W] [LawfulBEq W] {l : List (RangeInclusive K × V)}
    (h : WF l)
    {g : V → W} (hg : ∀ v v', g v = g v' → v = v') : WF (l.map fun e => (e.1, g e.2)) := by
  refine ⟨⟨List.pairwise_map.2 h.sep.pw, fun x hx => ?_⟩, fun x hx y hy h1 => ?_, fun x hx => ?_⟩
  · obtain ⟨e, he, rfl⟩ := List.mem_map.1 hx
    exact h.sep.ne e he
  · obtain ⟨e, he, rfl⟩ := List.mem_map.1 hx
    obtain ⟨f, hf, rfl⟩ := List.mem_map.1 hy
    have := h.coal e he f hf h1
    rw [beq_eq_false_iff_ne] at this ⊢
    exact fun hc => this (hg _ _ hc)
  · obtain ⟨e, he, rfl⟩ := List.mem_map.1 hx
    exact h.fresh e he

theorem maps_relabel {l : List (RangeInclusive K × V)} {g : V → W} {k : K} {w : W} :
    Maps (l.map fun e => (e.1, g e.2)) k w ↔ ∃ v, Maps l k v ∧ g v = w := by
  constructor
  · rintro ⟨x, hx, h1, h2, rfl⟩
    obtain ⟨e, he, rfl⟩ := List.mem_map.1 hx
    exact ⟨e.2, ⟨e, he, h1, h2, rfl⟩, rfl⟩
  · rintro ⟨v, ⟨e, he, h1, h2, rfl⟩, rfl⟩
    exact ⟨_, List.mem_map.2 ⟨e, he, rfl⟩, h1, h2, rfl⟩

theorem maps_fun [BEq V] {l : List (RangeInclusive K × V)} (h : Sep l) (hf : Fresh l) {k : K}
    {v v' : V} (h1 : Maps l k v)
    (h2 : Maps l k v') : v = v' := by
  have e1 := (get_eq_some (m := ⟨l⟩) h hf k v).2 h1
  have e2 := (get_eq_some (m := ⟨l⟩) h hf k v').2 h2
  cases e1.symm.trans e2
  rfl

variable [BEq V] [LawfulBEq V] [BEq W] [LawfulBEq W] [BEq U] [LawfulBEq U]

/-- **C127** Joined in the other order, two maps give the same ranges with the pairs turned
round. -/
theorem C127_swap (hS : LawfulSteps S) (hk : ∀ a b : K, a ≤ b → b ≤ a → a = b)
    {a : RangeInclusiveMap K V} {b : RangeInclusiveMap K W}
    (ha : Reachable S a) (hb : Reachable S b) :
    ∃ z z', zip S a b = .ok z ∧ zip S b a = .ok z' ∧
      z'.iter = z.iter.map fun e => (e.1, (e.2.2, e.2.1)) := by
  obtain ⟨z, h1, h2, h3⟩ := C125_zip hS ha hb
  obtain ⟨z', h4, h5, h6⟩ := C125_zip hS hb ha
  refine ⟨z, z', h1, h4, ?_⟩
  have hw := shared_wf (ha.wf hS) (hb.wf hS)
  have hw' := shared_wf (hb.wf hS) (ha.wf hS)
  rw [h3, h6]
  refine wf_ext hS hk hw'
    (relabel_wf hw (g := fun p => (p.2, p.1)) (by rintro ⟨⟩ ⟨⟩ h; cases h; rfl))
    fun k p => ?_
  rw [maps_relabel (g := fun p : V × W => (p.2, p.1)), maps_shared]
  constructor
  · exact fun h => ⟨(p.2, p.1), (maps_shared k _).2 ⟨h.2, h.1⟩, rfl⟩
  · rintro ⟨q, hq, rfl⟩
    exact ((maps_shared k q).1 hq).symm

/-- **C127** A map joined with itself has the ranges it has, each with its value twice. -/
theorem C127_self (hS : LawfulSteps S) (hk : ∀ a b : K, a ≤ b → b ≤ a → a = b)
    {a : RangeInclusiveMap K V} (ha : Reachable S a) :
    ∃ z, zip S a a = .ok z ∧ z.iter = a.iter.map fun e => (e.1, (e.2, e.2)) := by
  obtain ⟨z, h1, h2, h3⟩ := C125_zip hS ha ha
  refine ⟨z, h1, ?_⟩
  rw [h3]
  refine wf_ext hS hk (shared_wf (ha.wf hS) (ha.wf hS))
    (relabel_wf (ha.wf hS) (g := fun v => (v, v)) (by intro v v' h; cases h; rfl)) fun k p => ?_
  rw [maps_shared, maps_relabel (g := fun v : V => (v, v))]
  constructor
  · exact fun h => ⟨p.1, h.1, Prod.ext rfl (maps_fun (ha.wf hS).sep (ha.wf hS).fresh h.1 h.2)⟩
  · rintro ⟨v, hv, rfl⟩
    exact ⟨hv, hv⟩

/-- **C127** Of three maps it does not matter which two are joined first. -/
theorem C127_assoc (hS : LawfulSteps S) (hk : ∀ a b : K, a ≤ b → b ≤ a → a = b)
    {a : RangeInclusiveMap K V} {b : RangeInclusiveMap K W}
    {c : RangeInclusiveMap K U} (ha : Reachable S a) (hb : Reachable S b) (hc : Reachable S c) :
    ∃ ab bc z z', zip S a b = .ok ab ∧ zip S ab c = .ok z ∧ zip S b c = .ok bc ∧ zip S a bc = .ok
      z' ∧
      z'.iter = z.iter.map fun e => (e.1, (e.2.1.1, (e.2.1.2, e.2.2))) := by
  obtain ⟨ab, h1, h2, h3⟩ := C125_zip hS ha hb
  obtain ⟨bc, h4, h5, h6⟩ := C125_zip hS hb hc
  obtain ⟨z, h7, h8, h9⟩ := C125_zip hS h2 hc
  obtain ⟨z', h10, h11, h12⟩ := C125_zip hS ha h5
  refine ⟨ab, bc, z, z', h1, h7, h4, h10, ?_⟩
  have hw := shared_wf (shared_wf (ha.wf hS) (hb.wf hS)) (hc.wf hS)
  have hw' := shared_wf (ha.wf hS) (shared_wf (hb.wf hS) (hc.wf hS))
  rw [h9, h12, h3, h6]
  refine wf_ext hS hk hw' (relabel_wf hw (g := fun p => (p.1.1, (p.1.2, p.2)))
    (by rintro ⟨⟨⟩, _⟩ ⟨⟨⟩, _⟩ h; cases h; rfl)) fun k p => ?_
  rw [maps_relabel (g := fun p : (V × W) × U => (p.1.1, (p.1.2, p.2))), maps_shared]
  constructor
  · rintro ⟨hp, hq⟩
    obtain ⟨hq, hr⟩ := (maps_shared k _).1 hq
    exact ⟨((p.1, p.2.1), p.2.2), (maps_shared k _).2 ⟨(maps_shared k _).2 ⟨hp, hq⟩, hr⟩, rfl⟩
  · rintro ⟨q, hq, rfl⟩
    obtain ⟨h, hr⟩ := (maps_shared k q).1 hq
    obtain ⟨hp, hq⟩ := (maps_shared k _).1 h
    exact ⟨hp, (maps_shared k _).2 ⟨hq, hr⟩⟩

/-- **C127** The keys of the joined map, collected into a set, are `&` of the keys of the two. -/
theorem C127_keys (hS : LawfulSteps S) {a : RangeInclusiveMap K V} {b : RangeInclusiveMap K W}
    (ha : Reachable S a) (hb : Reachable S b) :
    ∃ z s t u i, zip S a b = .ok z ∧ RangeInclusiveSet.fromIter S (a.iter.map (·.1)) = .ok s ∧
      RangeInclusiveSet.fromIter S (b.iter.map (·.1)) = .ok t ∧ RangeInclusiveSet.fromIter S
        (z.iter.map (·.1)) = .ok u ∧
      s.bitAnd S t = .ok i ∧ u.eq i = true := by
  obtain ⟨z, h1, h2, -⟩ := C125_zip hS ha hb
  obtain ⟨s, s1, s2, -, s3, -⟩ := C100_keys hS ha
  obtain ⟨t, t1, t2, -, t3, -⟩ := C100_keys hS hb
  obtain ⟨u, u1, u2, -, u3, -⟩ := C100_keys hS h2
  obtain ⟨i, i1, i2, -, i3⟩ := C39_bitand hS s2 t2
  refine ⟨z, s, t, u, i, h1, s1, t1, u1, i1, (C36_eq_iff hS u2 i2).2 fun k => ?_⟩
  obtain ⟨x, e1, e2⟩ := s3 k
  obtain ⟨y, e3, e4⟩ := t3 k
  obtain ⟨w, e5, e6⟩ := u3 k
  obtain ⟨x', y', e7, e8, e9⟩ := i3 k
  cases e2.symm.trans e7
  cases e4.symm.trans e8
  rw [e6, e9]
  rw [containsKey, get_look (ha.wf hS)] at e1
  rw [containsKey, get_look (hb.wf hS)] at e3
  rw [containsKey, get_look (h2.wf hS)] at e5
  cases e1
  cases e3
  cases e5
  refine congrArg _ ?_
  have hg := C125_get hS ha hb h1 k
  simp only [get_look (ha.wf hS), get_look (hb.wf hS), get_look (h2.wf hS), Except.ok.injEq] at hg
  rw [Bool.eq_iff_iff, Bool.and_eq_true]
  simp only [Option.isSome_iff_exists]
  exact ⟨fun ⟨p, hp⟩ => ⟨⟨p.1, ((hg p.1 p.2).1 hp).1⟩, ⟨p.2, ((hg p.1 p.2).1 hp).2⟩⟩,
    fun ⟨⟨v, hv⟩, ⟨w, hw⟩⟩ => ⟨(v, w), (hg v w).2 ⟨hv, hw⟩⟩⟩

end

/-! ### Examples -/

example : ((zip Demo.u8 (run Demo.u8 zipOps') (run Demo.u8 zipOps)).map (·.iter)).toOption =
    some [(Demo.by8 3 4, ('a', 1)), (Demo.by8 6 11, ('a', 1)), (Demo.by8 12 14, ('a', 2)),
      (Demo.by8 18 19, ('b', 2)), (Demo.by8 20 21, ('b', 1)), (Demo.by8 22 255, ('b', 2))] := by
  decide +kernel
example := C127_swap Demo.u8_lawful Demo.u8_antisymm zipOps_reachable zipOps'_reachable
example := C127_self Demo.u8_lawful Demo.u8_antisymm zipOps_reachable
example := C127_assoc Demo.u8_lawful Demo.u8_antisymm zipOps_reachable zipOps'_reachable
  zipOps_reachable
example := C127_keys Demo.u8_lawful zipOps_reachable zipOps'_reachable

end Verif.Props.Inclusive

import Verif.Props.ITurns
import Verif.Props.ITransform
import Verif.Props.Views

/-!
# C124 for inclusive maps
-/
set_option linter.unusedSectionVars false

namespace Verif.Props.Inclusive
open Spec RangeInclusiveMap Views
section
variable {K : Type} [LE K] [LT K] [DecidableLE K] [DecidableLT K]
  [Std.IsLinearPreorder K] [Std.LawfulOrderLT K] {V W : Type} {S : StepFns K}

theorem look_some' [BEq V] [PartialEquivBEq V] {m : RangeInclusiveMap K V} (h : Sep m.btm)
    (hf : Fresh m.btm) (k : K) (w : V) : m.look k = some w ↔ Maps m.btm k w := by
  have h1 : m.get k = .ok (m.look k) := by
    obtain ⟨o, ho, _⟩ := get_spec h hf k
    simp [look, ho]
  rw [← get_eq_some h hf, h1]
  simp

theorem shown_sep {l : List (RangeInclusive K × V)} (h : Sep l) (g : V → Option W) : Sep
    (shown g l) := by
  refine ⟨?_, fun e he => ?_⟩
  · unfold shown
    rw [List.pairwise_filterMap]
    refine h.pw.imp fun {a b} hab a' ha' b' hb' => ?_
    obtain ⟨w, -, rfl⟩ := Option.map_eq_some_iff.1 ha'
    obtain ⟨w', -, rfl⟩ := Option.map_eq_some_iff.1 hb'
    exact hab
  · obtain ⟨x, hx, h1, -⟩ := mem_shown.1 he
    rw [← h1]
    exact h.ne x hx

theorem maps_shown {l : List (RangeInclusive K × V)} (g : V → Option W) (k : K) (w : W) :
    Maps (shown g l) k w ↔ ∃ v, Maps l k v ∧ g v = some w := by
  constructor
  · rintro ⟨e, he, h1, h2, rfl⟩
    obtain ⟨x, hx, h3, h4⟩ := mem_shown.1 he
    rw [← h3] at h1 h2
    exact ⟨x.2, ⟨x, hx, h1, h2, rfl⟩, h4⟩
  · rintro ⟨v, ⟨x, hx, h1, h2, rfl⟩, h⟩
    exact ⟨(x.1, w), mem_shown.2 ⟨x, hx, rfl, h⟩, h1, h2, rfl⟩

variable [BEq V] [LawfulBEq V] [BEq W] [LawfulBEq W]

theorem shown_fresh {l : List (RangeInclusive K × V)} (h : Fresh l) (g : V → Option W) :
    Fresh (shown g l) := by
  intro e he
  obtain ⟨x, hx, h1, -⟩ := mem_shown.1 he
  rw [← h1]
  exact h x hx

theorem look_shown {l : List (RangeInclusive K × V)} (h : Sep l) (hf : Fresh l) (g : V → Option W)
    (k : K) :
    (⟨shown g l⟩ : RangeInclusiveMap K W).look k = ((⟨l⟩ : RangeInclusiveMap K V).look k).bind g :=
      by
  refine Option.ext fun w => ?_
  rw [look_some' (m := ⟨shown g l⟩) (shown_sep h g) (shown_fresh hf g), maps_shown,
    Option.bind_eq_some_iff]
  constructor
  · rintro ⟨v, h1, h2⟩
    exact ⟨v, (look_some' (m := ⟨l⟩) h hf k v).2 h1, h2⟩
  · rintro ⟨v, h1, h2⟩
    exact ⟨v, (look_some' (m := ⟨l⟩) h hf k v).1 h1, h2⟩

/-- **C124** Keep a second map beside the map: where the map gets a range with the value `v`, insert
the range with the value `g v` into the second or, if there is none, remove it.  Then the second
map gives for every key `g` of what the map gives. -/
theorem C124_get (hS : LawfulSteps S) (g : V → Option W) (ops : List (Op (RangeInclusive K) V))
    (hx : ∀ op ∈ ops, ∀ r ∈ op.inserted, r.exhausted = false) (k : K) :
    (run S (ops.flatMap (Op.view ivalid g))).get k = ((run S ops).get k).map (·.bind g) := by
  rw [C25_refinement_exact hS _ (view_inserted g ops hx), C25_refinement_exact hS ops hx,
    List.reverse_flatMap]
  rw [show lastWrite icovers ivalid (ops.reverse.flatMap (List.reverse ∘ Op.view ivalid g)) k = _
    from
    lastWrite_view g k ops.reverse]
  rfl

/-- **C124** It is the map that one gets by collecting what the view shows of the entries. -/
theorem C124_collect (hS : LawfulSteps S) (hk : ∀ a b : K, a ≤ b → b ≤ a → a = b) (g : V → Option W)
    (ops : List (Op (RangeInclusive K) V))
    (hx : ∀ op ∈ ops, ∀ r ∈ op.inserted, r.exhausted = false) :
    fromIter S (shown g (run S ops).iter) = .ok (run S (ops.flatMap (Op.view ivalid g))) := by
  have hr : Reachable S (run S ops) := ⟨ops, hx, rfl⟩
  have hw0 := hr.wf hS
  obtain ⟨m, h1, h2, h3⟩ := collect_sep hS (shown_sep hw0.sep g) (shown_fresh hw0.fresh g)
  rw [show (run S ops).iter = (run S ops).btm from rfl, h1]
  refine congrArg _ (congrFun (AgreeAt.eq hS hk (maps := fun _ => m)
    (maps' := fun _ => run S (ops.flatMap (Op.view ivalid g))) (fun _ k => ?_) (fun _ => h2)
    fun _ => ⟨_, view_inserted g ops hx, rfl⟩) 0)
  rw [C124_get hS g ops hx, get_look (h2.wf hS), get_look hw0, RangeMap.Agree.eq (h3 k),
    look_shown hw0.sep hw0.fresh]
  rfl

/-- **C124** It stores the ranges that the view shows as they are exactly if no two of them
with the same value are adjacent. -/
theorem C124_exact (hS : LawfulSteps S) (hk : ∀ a b : K, a ≤ b → b ≤ a → a = b) (g : V → Option W)
    (ops : List (Op (RangeInclusive K) V))
    (hx : ∀ op ∈ ops, ∀ r ∈ op.inserted, r.exhausted = false) :
    (run S (ops.flatMap (Op.view ivalid g))).iter = shown g (run S ops).iter ↔
      ∀ x ∈ (run S ops).iter, ∀ y ∈ (run S ops).iter, Next x.1.stop y.1.start → g x.2 = g y.2 →
        g x.2 = none := by
  have hr : Reachable S (run S ops) := ⟨ops, hx, rfl⟩
  have hw0 := hr.wf hS
  have hv : Reachable S (run S (ops.flatMap (Op.view ivalid g))) := ⟨_, view_inserted g ops hx, rfl⟩
  constructor
  · intro h x hx y hy h1 h2
    cases h3 : g x.2 with
    | none => rfl
    | some w =>
      rw [h3] at h2
      have m1 : (x.1, w) ∈ (run S (ops.flatMap (Op.view ivalid g))).btm := by
        rw [show (run S (ops.flatMap (Op.view ivalid g))).btm = _ from h]
        exact mem_shown.2 ⟨x, hx, rfl, h3⟩
      have m2 : (y.1, w) ∈ (run S (ops.flatMap (Op.view ivalid g))).btm := by
        rw [show (run S (ops.flatMap (Op.view ivalid g))).btm = _ from h]
        exact mem_shown.2 ⟨y, hy, rfl, h2.symm⟩
      have := (hv.wf hS).coal _ m1 _ m2 h1
      simp at this
  · intro h
    have hw : WF (shown g (run S ops).btm) := by
      refine ⟨shown_sep hw0.sep g, fun a ha b hb h1 => ?_, shown_fresh hw0.fresh g⟩
      obtain ⟨x, hx, h3, h4⟩ := mem_shown.1 ha
      obtain ⟨y, hy, h5, h6⟩ := mem_shown.1 hb
      cases h7 : a.2 == b.2 with
      | false => rfl
      | true =>
        have h8 := h x hx y hy (by rw [h3, h5]; exact h1)
          (by rw [h4, h6, eq_of_beq h7])
        rw [h4] at h8
        cases h8
    have h1 := C124_collect hS hk g ops hx
    rw [show (run S ops).iter = (run S ops).btm from rfl, (collect_wf hS hw).1] at h1
    rw [← Except.ok.inj h1]
    rfl

/-- **C124** It never needs more ranges than the map. -/
theorem C124_len (hS : LawfulSteps S) (g : V → Option W) (ops : List (Op (RangeInclusive K) V))
    (hx : ∀ op ∈ ops, ∀ r ∈ op.inserted, r.exhausted = false) :
    (run S (ops.flatMap (Op.view ivalid g))).len ≤ (run S ops).len := by
  have hr : Reachable S (run S ops) := ⟨ops, hx, rfl⟩
  have hw0 := hr.wf hS
  have hv : Reachable S (run S (ops.flatMap (Op.view ivalid g))) := ⟨_, view_inserted g ops hx, rfl⟩
  have hlen : (shown g (run S ops).btm).length ≤ (run S ops).len := List.length_filterMap_le _ _
  refine Nat.le_trans (C55_fewest hS hv (shown g (run S ops).btm) ?_ ?_) hlen
  · intro e he k h1 h2
    refine ⟨e.2, ?_, by simp⟩
    rw [C124_get hS g ops hx, get_look hw0]
    refine congrArg Except.ok ((look_shown hw0.sep hw0.fresh g k).symm.trans ?_)
    exact ((look_some' (m := ⟨shown g (run S ops).btm⟩)
      (shown_sep hw0.sep g) (shown_fresh hw0.fresh g) k e.2).2 ⟨e, he, h1, h2, rfl⟩)
  · intro k w h
    rw [C124_get hS g ops hx, get_look hw0] at h
    have h' : (⟨shown g (run S ops).btm⟩ : RangeInclusiveMap K W).look k = some w := by
      rw [look_shown hw0.sep hw0.fresh]
      exact Except.ok.inj h
    obtain ⟨e, he, h1, h2, -⟩ := (look_some' (m := ⟨shown g (run S ops).btm⟩)
      (shown_sep hw0.sep g) (shown_fresh hw0.fresh g) k w).1 h'
    exact ⟨e, he, h1, h2⟩

end

/-! ### Examples -/

/-- A history with a call that panics and an `extend` that stops in the middle. -/
def viewed : List (Op (RangeInclusive (UIntW 8)) Nat) :=
  [.insert (Demo.by8 0 9) 1, .insert (Demo.by8 4 5) 3, .insert (Demo.by8 20 19) 1,
    .extend [(Demo.by8 10 11, 8), (Demo.by8 30 255, 4), (Demo.by8 9 8, 1), (Demo.by8 0 50, 1)],
    .remove (Demo.by8 35 35)]

theorem viewed_fresh : ∀ op ∈ viewed, ∀ r ∈ op.inserted, r.exhausted = false := by decide

example : (run Demo.u8 viewed).iter = [(Demo.by8 0 3, 1), (Demo.by8 4 5, 3), (Demo.by8 6 9, 1),
    (Demo.by8 10 11, 8), (Demo.by8 30 34, 4), (Demo.by8 36 255, 4)] := by decide +kernel
example : (run Demo.u8 (viewed.flatMap (Op.view ivalid oddView))).iter =
    [(Demo.by8 0 9, 'o'), (Demo.by8 10 11, '8')] := by decide +kernel
example := C124_get (S := Demo.u8) Demo.u8_lawful oddView viewed viewed_fresh ⟨5⟩
example := C124_collect (S := Demo.u8) Demo.u8_lawful Demo.u8_antisymm oddView viewed viewed_fresh
example := C124_len (S := Demo.u8) Demo.u8_lawful oddView viewed viewed_fresh
example := C124_exact (S := Demo.u8) Demo.u8_lawful Demo.u8_antisymm oddView viewed viewed_fresh
example : (run Demo.u8 (viewed.flatMap (Op.view ivalid fun n =>
      if n = 4 then none else some (n * n)))).iter =
    shown (fun n => if n = 4 then none else some (n * n)) (run Demo.u8 viewed).iter := by
  decide +kernel

end Verif.Props.Inclusive

import Verif.Props.Turns
import Verif.Props.Transform
import Verif.Proof.Views

/-!
# C124: a view of a map may be kept up to date call by call
-/
set_option linter.unusedSectionVars false

namespace Verif.Spec

/-- The entries that a view shows: those whose value `g` accepts, with the value that `g` gives. -/
def shown {R V W : Type} (g : V → Option W) (l : List (R × V)) : List (R × W) :=
  l.filterMap fun e => (g e.2).map (e.1, ·)

end Verif.Spec

namespace Verif.Props
open Spec RangeMap Views
section
variable {K : Type} [LE K] [LT K] [DecidableLE K] [DecidableLT K]
  [Std.IsLinearPreorder K] [Std.LawfulOrderLT K] {V W : Type}

theorem mem_shown {R : Type} {g : V → Option W} {l : List (R × V)} {e : R × W} :
    e ∈ shown g l ↔ ∃ x ∈ l, x.1 = e.1 ∧ g x.2 = some e.2 := by
  unfold shown
  rw [List.mem_filterMap]
  constructor
  · rintro ⟨x, hx, h⟩
    obtain ⟨w, hw, rfl⟩ := Option.map_eq_some_iff.1 h
    exact ⟨x, hx, rfl, hw⟩
  · rintro ⟨x, hx, h1, h2⟩
    refine ⟨x, hx, ?_⟩
    rw [h2, h1]
    rfl

theorem shown_sep {l : List (Range K × V)} (h : Sep l) (g : V → Option W) : Sep (shown g l) := by
  refine ⟨?_, fun e he => ?_⟩
  · unfold shown
    rw [List.pairwise_filterMap]
    refine h.pw.imp fun {a b} hab a' ha' b' hb' => ?_
    obtain ⟨w, -, rfl⟩ := Option.map_eq_some_iff.1 ha'
    obtain ⟨w', -, rfl⟩ := Option.map_eq_some_iff.1 hb'
    exact hab
  · obtain ⟨x, hx, h1, -⟩ := mem_shown.1 he
    rw [← h1]
    exact h.ne x hx

theorem maps_shown {l : List (Range K × V)} (g : V → Option W) (k : K) (w : W) :
    Maps (shown g l) k w ↔ ∃ v, Maps l k v ∧ g v = some w := by
  constructor
  · rintro ⟨e, he, h1, h2, rfl⟩
    obtain ⟨x, hx, h3, h4⟩ := mem_shown.1 he
    rw [← h3] at h1 h2
    exact ⟨x.2, ⟨x, hx, h1, h2, rfl⟩, h4⟩
  · rintro ⟨v, ⟨x, hx, h1, h2, rfl⟩, h⟩
    exact ⟨(x.1, w), mem_shown.2 ⟨x, hx, rfl, h⟩, h1, h2, rfl⟩

variable [BEq V] [LawfulBEq V] [BEq W] [LawfulBEq W]

theorem look_shown {l : List (Range K × V)} (h : Sep l) (g : V → Option W) (k : K) :
    (⟨shown g l⟩ : RangeMap K W).look k = ((⟨l⟩ : RangeMap K V).look k).bind g := by
  refine Option.ext fun w => ?_
  rw [look_eq_some (m := ⟨shown g l⟩) (shown_sep h g), maps_shown, Option.bind_eq_some_iff]
  constructor
  · rintro ⟨v, h1, h2⟩
    exact ⟨v, (look_eq_some (m := ⟨l⟩) h k v).2 h1, h2⟩
  · rintro ⟨v, h1, h2⟩
    exact ⟨v, (look_eq_some (m := ⟨l⟩) h k v).1 h1, h2⟩

/-- **C124** Keep a second map beside the map: where the map gets a range with the value `v`, insert
the range with the value `g v` into the second or, if there is none, remove it.  Then the second
map gives for every key `g` of what the map gives. -/
theorem C124_get (g : V → Option W) (ops : List (Op (Range K) V)) (k : K) :
    (run (ops.flatMap (Op.view valid g))).get k = ((run ops).get k).map (·.bind g) := by
  rw [C03_refinement_exact, C03_refinement_exact, List.reverse_flatMap]
  rw [show lastWrite covers valid (ops.reverse.flatMap (List.reverse ∘ Op.view valid g)) k = _ from
    lastWrite_view g k ops.reverse]
  rfl

/-- **C124** It is the map that one gets by collecting what the view shows of the entries. -/
theorem C124_collect (hk : ∀ a b : K, a ≤ b → b ≤ a → a = b) (g : V → Option W)
    (ops : List (Op (Range K) V)) :
    fromIter (shown g (run ops).iter) = .ok (run (ops.flatMap (Op.view valid g))) := by
  have hr : Reachable (run ops) := ⟨ops, rfl⟩
  obtain ⟨m, h1, h2, h3⟩ := collect_sep (shown_sep hr.wf.sep g)
  rw [show (run ops).iter = (run ops).btm from rfl, h1]
  refine congrArg _ (congrFun (AgreeAt.eq hk (maps := fun _ => m)
    (maps' := fun _ => run (ops.flatMap (Op.view valid g))) (fun _ k => ?_) (fun _ => h2)
    fun _ => ⟨_, rfl⟩) 0)
  rw [C124_get, get_look h2.wf.sep, get_look hr.wf.sep, Agree.eq (h3 k), look_shown hr.wf.sep]
  rfl

/-- **C124** It stores the ranges that the view shows as they are exactly if no two of them touch
with the same value. -/
theorem C124_exact (hk : ∀ a b : K, a ≤ b → b ≤ a → a = b) (g : V → Option W)
    (ops : List (Op (Range K) V)) :
    (run (ops.flatMap (Op.view valid g))).iter = shown g (run ops).iter ↔
      ∀ x ∈ (run ops).iter, ∀ y ∈ (run ops).iter, x.1.stop = y.1.start → g x.2 = g y.2 →
        g x.2 = none := by
  have hr : Reachable (run ops) := ⟨ops, rfl⟩
  have hv : Reachable (run (ops.flatMap (Op.view valid g))) := ⟨_, rfl⟩
  constructor
  · intro h x hx y hy h1 h2
    cases h3 : g x.2 with
    | none => rfl
    | some w =>
      rw [h3] at h2
      have m1 : (x.1, w) ∈ (run (ops.flatMap (Op.view valid g))).btm := by
        rw [show (run (ops.flatMap (Op.view valid g))).btm = _ from h]
        exact mem_shown.2 ⟨x, hx, rfl, h3⟩
      have m2 : (y.1, w) ∈ (run (ops.flatMap (Op.view valid g))).btm := by
        rw [show (run (ops.flatMap (Op.view valid g))).btm = _ from h]
        exact mem_shown.2 ⟨y, hy, rfl, h2.symm⟩
      have := hv.wf.coal _ m1 _ m2 (by simp only; grind) (by simp only; grind)
      simp at this
  · intro h
    have hw : WF (shown g (run ops).btm) := by
      refine ⟨shown_sep hr.wf.sep g, fun a ha b hb h1 h2 => ?_⟩
      obtain ⟨x, hx, h3, h4⟩ := mem_shown.1 ha
      obtain ⟨y, hy, h5, h6⟩ := mem_shown.1 hb
      cases h7 : a.2 == b.2 with
      | false => rfl
      | true =>
        have h8 := h x hx y hy (by rw [h3, h5]; exact hk _ _ h1 h2)
          (by rw [h4, h6, eq_of_beq h7])
        rw [h4] at h8
        cases h8
    have h1 := C124_collect hk g ops
    rw [show (run ops).iter = (run ops).btm from rfl, (collect_wf hw).1] at h1
    rw [← Except.ok.inj h1]
    rfl

/-- **C124** It never needs more ranges than the map. -/
theorem C124_len (g : V → Option W) (ops : List (Op (Range K) V)) :
    (run (ops.flatMap (Op.view valid g))).len ≤ (run ops).len := by
  have hr : Reachable (run ops) := ⟨ops, rfl⟩
  have hv : Reachable (run (ops.flatMap (Op.view valid g))) := ⟨_, rfl⟩
  have hlen : (shown g (run ops).btm).length ≤ (run ops).len := List.length_filterMap_le _ _
  refine Nat.le_trans (C55_fewest hv (shown g (run ops).btm) ?_ ?_) hlen
  · intro e he k h1 h2
    refine ⟨e.2, ?_, by simp⟩
    rw [C124_get, get_look hr.wf.sep]
    refine congrArg Except.ok ((look_shown hr.wf.sep g k).symm.trans ?_)
    exact ((look_eq_some (m := ⟨shown g (run ops).btm⟩)
      (shown_sep hr.wf.sep g) k e.2).2 ⟨e, he, h1, h2, rfl⟩)
  · intro k w h
    rw [C124_get, get_look hr.wf.sep] at h
    have h' : (⟨shown g (run ops).btm⟩ : RangeMap K W).look k = some w := by
      rw [look_shown hr.wf.sep]
      exact Except.ok.inj h
    obtain ⟨e, he, h1, h2, -⟩ := (look_eq_some (m := ⟨shown g (run ops).btm⟩)
      (shown_sep hr.wf.sep g) k w).1 h'
    exact ⟨e, he, h1, h2⟩

end

/-! ### Examples -/

/-- A history with a call that panics and an `extend` that stops in the middle. -/
def viewed : List (Op (Range Nat) Nat) :=
  [.insert ⟨0, 10⟩ 1, .insert ⟨4, 6⟩ 3, .insert ⟨20, 20⟩ 1,
    .extend [(⟨10, 12⟩, 8), (⟨30, 40⟩, 4), (⟨9, 9⟩, 1), (⟨0, 50⟩, 1)], .remove ⟨35, 36⟩]

/-- Show the odd numbers as `'o'`, and eight as it is. -/
def oddView (n : Nat) : Option Char := if n % 2 = 1 then some 'o' else if n = 8 then some '8' else
    none

example : (run viewed).iter = [(⟨0, 4⟩, 1), (⟨4, 6⟩, 3), (⟨6, 10⟩, 1), (⟨10, 12⟩, 8), (⟨30, 35⟩, 4),
    (⟨36, 40⟩, 4)] := by decide +kernel
example : (run (viewed.flatMap (Op.view valid oddView))).iter =
    [(⟨0, 10⟩, 'o'), (⟨10, 12⟩, '8')] := by decide +kernel
example := C124_get oddView viewed 5
example := C124_collect (fun _ _ => Nat.le_antisymm) oddView viewed
example := C124_len oddView viewed
example : (run (viewed.flatMap (Op.view valid oddView))).iter ≠ shown oddView (run viewed).iter :=
  fun h => by
    have := (C124_exact (fun _ _ => Nat.le_antisymm) oddView viewed).1 h (⟨0, 4⟩, 1)
      (by decide +kernel) (⟨4, 6⟩, 3) (by decide +kernel) rfl rfl
    cases this
/-- A view that keeps different values different. -/
example : (run (viewed.flatMap (Op.view valid fun n => if n = 4 then none else some (n * n)))).iter
  =
    shown (fun n => if n = 4 then none else some (n * n)) (run viewed).iter :=
  (C124_exact (fun _ _ => Nat.le_antisymm) _ viewed).2 (by decide +kernel)

end Verif.Props

import Verif.Props.Demo
import Verif.Props.Build
import Verif.Props.IBuild
import Verif.Props.Set
import Verif.Props.ISet

/-!
# C62: what is hashed determines the contents

C17 says that equal maps hash equally, which a `hash` that writes nothing satisfies, too.  Here the
converse: if what the keys and the values write is prefix-free, then so is what the map writes; so
maps that differ write different data, also when more data follow.
-/
set_option linter.unusedSectionVars false
set_option linter.unusedVariables false

namespace Verif
open Spec

theorem Spec.PrefixFree.tokens {α H : Type} {same : α → α → Prop} {h : α → List H}
    (hp : PrefixFree same h) : PrefixFree same fun a => (h a).map (HashToken.data (H := H)) := by
  have inj : ∀ l l' : List H, l.map HashToken.data = l'.map HashToken.data → l = l' := by
    intro l l' e
    exact List.map_inj_right (fun a b e => by cases e; rfl) |>.1 e
  intro a b x y e
  rcases List.append_eq_append_iff.1 e with ⟨z, h1, h2⟩ | ⟨z, h1, h2⟩
  · obtain ⟨u, w, h3, h4, h5⟩ := List.map_eq_append_iff.1 h1
    rw [← inj _ _ h4.symm] at h3
    have := hp a b w [] (by rw [List.append_nil, h3])
    rw [h2, ← h5, this.2]
    exact ⟨this.1, rfl⟩
  · obtain ⟨u, w, h3, h4, h5⟩ := List.map_eq_append_iff.1 h1
    rw [← inj _ _ h4.symm] at h3
    have := hp a b [] w (by rw [List.append_nil, h3])
    rw [h2, ← h5, ← this.2]
    exact ⟨this.1, rfl⟩

theorem Spec.PrefixFree.list {α H : Type} {same : α → α → Bool} {h : α → List H}
    (hp : PrefixFree (same · ·) h) : ∀ (l l' : List α) (x y : List H), l.length = l'.length →
      l.flatMap h ++ x = l'.flatMap h ++ y → iterEq same l l' = true ∧ x = y := by
  intro l
  induction l with
  | nil =>
    intro l' x y hl e
    cases l' with
    | nil => exact ⟨rfl, by simpa using e⟩
    | cons b t => cases hl
  | cons a t ih =>
    intro l' x y hl e
    cases l' with
    | nil => cases hl
    | cons b t' =>
      simp only [List.flatMap_cons, List.append_assoc] at e
      obtain ⟨h1, h2⟩ := hp a b _ _ e
      obtain ⟨h3, h4⟩ := ih t' x y (by simpa using hl) h2
      exact ⟨by simp [iterEq, h1, h3], h4⟩

namespace Props
variable {K : Type} [LE K] [LT K] [DecidableLE K] [DecidableLT K]
  [Std.IsLinearPreorder K] [Std.LawfulOrderLT K] {V : Type} [BEq V] {H : Type}
  {hk : K → List H} {hv : V → List H}

/-- **C62** What a map writes to the hasher is prefix-free up to `==` of maps, if this is so for the
keys and the values. -/
theorem C62_hash_prefix_free (hkp : PrefixFree (keq · ·) hk)
    (hvp : PrefixFree (fun a b => a == b) hv) :
    PrefixFree (fun m m' : RangeMap K V => m.eq m') (RangeMap.hash hk hv) := by
  intro m m' x y e
  simp only [RangeMap.hash, List.cons_append, List.cons.injEq, HashToken.writeUsize.injEq] at e
  refine PrefixFree.list (same := RangeMap.entryEq) ?_ m.iter m'.iter x y e.1 e.2
  intro a b x y e
  simp only [List.map_append, List.append_assoc] at e
  obtain ⟨h1, e⟩ := hkp.tokens _ _ _ _ e
  obtain ⟨h2, e⟩ := hkp.tokens _ _ _ _ e
  obtain ⟨h3, e⟩ := hvp.tokens _ _ _ _ e
  exact ⟨by simp [RangeMap.entryEq, h1, h2, h3], e⟩

example := C62_hash_prefix_free (K := Demo.TagKey) (V := Nat) (H := Nat) (hk := fun k => [k.n])
    (hv := fun v => [v]) Demo.tag_prefixFree Demo.num_prefixFree

/-- **C62** Maps are equal exactly when they write the same data. -/
theorem C62_hash_iff [PartialEquivBEq V] (hkc : ∀ a b, keq a b = true → hk a = hk b)
    (hvc : ∀ a b, (a == b) = true → hv a = hv b) (hkp : PrefixFree (keq · ·) hk)
    (hvp : PrefixFree (fun a b => a == b) hv) (m m' : RangeMap K V) :
    m.hash hk hv = m'.hash hk hv ↔ m.eq m' = true :=
  ⟨fun h => (C62_hash_prefix_free hkp hvp m m' [] [] (by rw [h])).1, C17_hash_eq hkc hvc⟩

/-- **C62** The same for sets, which write the bounds of their ranges. -/
theorem C62_hash_prefix_free_set (hkp : PrefixFree (keq · ·) hk) :
    PrefixFree (fun s s' : RangeSet K => s.eq s') (RangeSet.hash hk) := by
  intro s s' x y e
  exact C62_hash_prefix_free (hv := fun _ => []) hkp (fun a b x y e => ⟨rfl, e⟩) s.rm s'.rm x y e

example := C62_hash_prefix_free_set (K := Demo.TagKey) (H := Nat) (hk := fun k => [k.n])
    Demo.tag_prefixFree

/-- fixed-width keys (two tokens each) that identify `-0.0` and `0.0`; values of one token -/
theorem demo_prefix_free :
    PrefixFree (keq · ·) (fun k : Demo.TagKey => [k.n, 0]) ∧
    PrefixFree (fun a b => a == b) (fun v : Nat => [v]) := by
  refine ⟨fun a b x y e => ?_, fun a b x y e => ?_⟩
  · simp only [List.cons_append, List.nil_append, List.cons.injEq] at e
    refine ⟨?_, e.2.2⟩
    have h1 : a ≤ b := Nat.le_of_eq e.1
    have h2 : b ≤ a := Nat.le_of_eq e.1.symm
    simp [keq, h1, h2]
  · simp only [List.cons_append, List.nil_append, List.cons.injEq] at e
    simp [e.1, e.2]

example : tagA.hash (fun k => [k.n, 0]) (fun v => [v])
    = tagB.hash (fun k => [k.n, 0]) (fun v => [v]) ↔ tagA.eq tagB = true :=
  C62_hash_iff (fun a b h => by
    have h : decide (a ≤ b) && decide (b ≤ a) := h
    simp only [Bool.and_eq_true, decide_eq_true_eq] at h
    have : a.n = b.n := Nat.le_antisymm h.1 h.2
    rw [this]) (fun a b h => by rw [eq_of_beq h]) demo_prefix_free.1 demo_prefix_free.2 _ _

namespace Inclusive

/-- **C62** What an inclusive map writes to the hasher is prefix-free up to `==` of maps, if this is
so for the keys and the values. -/
theorem C62_hash_prefix_free (hkp : PrefixFree (keq · ·) hk)
    (hvp : PrefixFree (fun a b => a == b) hv) :
    PrefixFree (fun m m' : RangeInclusiveMap K V => m.eq m') (RangeInclusiveMap.hash hk hv) := by
  intro m m' x y e
  simp only [RangeInclusiveMap.hash, List.cons_append, List.cons.injEq,
    HashToken.writeUsize.injEq] at e
  refine PrefixFree.list (same := RangeInclusiveMap.entryEq) ?_ m.iter m'.iter x y e.1 e.2
  intro a b x y e
  simp only [List.map_append, List.append_assoc] at e
  obtain ⟨h1, e⟩ := hkp.tokens _ _ _ _ e
  obtain ⟨h2, e⟩ := hkp.tokens _ _ _ _ e
  simp only [List.cons_append, List.nil_append, List.cons.injEq, HashToken.bool.injEq] at e
  obtain ⟨h3, e⟩ := e
  obtain ⟨h4, e⟩ := hvp.tokens _ _ _ _ e
  exact ⟨by simp [RangeInclusiveMap.entryEq, h1, h2, h3, h4], e⟩

/-- **C62** Inclusive maps are equal exactly when they write the same data. -/
theorem C62_hash_iff [PartialEquivBEq V] (hkc : ∀ a b, keq a b = true → hk a = hk b)
    (hvc : ∀ a b, (a == b) = true → hv a = hv b) (hkp : PrefixFree (keq · ·) hk)
    (hvp : PrefixFree (fun a b => a == b) hv) (m m' : RangeInclusiveMap K V) :
    m.hash hk hv = m'.hash hk hv ↔ m.eq m' = true :=
  ⟨fun h => (C62_hash_prefix_free hkp hvp m m' [] [] (by rw [h])).1, C17_hash_eq hkc hvc⟩

example := Inclusive.C62_hash_iff (K := Demo.TagKey) (V := Nat) (H := Nat) (hk := fun k => [k.n])
    (hv := fun v => [v]) (fun _ _ h => congrArg (fun n => [n])
    (Nat.le_antisymm (keq_iff.1 h).1 (keq_iff.1 h).2)) (fun _ _ h => by
    simp_all) Demo.tag_prefixFree Demo.num_prefixFree Inclusive.tagA Inclusive.tagB

/-- **C62** The same for inclusive sets. -/
theorem C62_hash_prefix_free_set (hkp : PrefixFree (keq · ·) hk) :
    PrefixFree (fun s s' : RangeInclusiveSet K => s.eq s') (RangeInclusiveSet.hash hk) := by
  intro s s' x y e
  exact C62_hash_prefix_free (hv := fun _ => []) hkp (fun a b x y e => ⟨rfl, e⟩) s.rm s'.rm x y e

example : PrefixFree (fun m m' : RangeInclusiveMap Demo.TagKey Nat => m.eq m')
    (RangeInclusiveMap.hash (fun k => [k.n, 0]) (fun v => [v])) :=
  C62_hash_prefix_free demo_prefix_free.1 demo_prefix_free.2

example : Demo.ioddMap.hash (fun k => [k.n, 0]) (fun _ => [])
    = [.writeUsize 3, .data 0, .data 0, .data 4, .data 0, .bool false,
       .data 5, .data 0, .data 8, .data 0, .bool false,
       .data 9, .data 0, .data 11, .data 0, .bool false] := by rfl

end Inclusive
end Props
end Verif

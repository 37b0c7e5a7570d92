import Verif.Model.Dense
import Verif.Proof.ICanon
import Verif.Proof.IIter
import Verif.Proof.ISet
import Verif.Proof.Step

/-!
# The dense reference map
-/
set_option linter.unusedSectionVars false
set_option linter.unusedVariables false

namespace Verif.DenseMap
open Spec
variable {w : Nat} {V : Type}

theorem antisymm {a b : UIntW w} (h : a ≤ b) (h' : b ≤ a) : a = b := by
  rw [UIntW.le_def] at h h'
  cases a; cases b
  simp only [UIntW.mk.injEq]
  exact BitVec.eq_of_toNat_eq (Nat.le_antisymm h h')

/-- Sorted by key. -/
def Sorted (d : List (UIntW w × V)) : Prop := d.Pairwise fun a b => a.1 < b.1

theorem sorted_insert {d : List (UIntW w × V)} (h : Sorted d) (k : UIntW w) (v : V) :
    Sorted (BTreeMap.insert id k v d) ∧
    ∀ x, x ∈ BTreeMap.insert id k v d ↔ x = (k, v) ∨ (x ∈ d ∧ x.1 ≠ k) := by
  induction d with
  | nil => simp [BTreeMap.insert, Sorted]
  | cons e t ih =>
    have h' := List.pairwise_cons.1 h
    obtain ⟨i1, i2⟩ := ih h'.2
    unfold BTreeMap.insert
    simp only [id]
    by_cases h1 : k < e.1
    · rw [if_pos h1]
      refine ⟨List.pairwise_cons.2 ⟨?_, h⟩, ?_⟩
      · intro x hx
        simp only [List.mem_cons] at hx
        rcases hx with rfl | hx
        · exact h1
        · have := h'.1 x hx
          grind
      · intro x
        simp only [List.mem_cons]
        constructor
        · rintro (rfl | rfl | hx)
          · exact Or.inl rfl
          · exact Or.inr ⟨Or.inl rfl, by rintro rfl; grind⟩
          · have := h'.1 x hx
            exact Or.inr ⟨Or.inr hx, by rintro rfl; grind⟩
        · rintro (rfl | ⟨hx, _⟩)
          · exact Or.inl rfl
          · exact Or.inr hx
    · rw [if_neg h1]
      by_cases h2 : e.1 < k
      · rw [if_pos h2]
        refine ⟨List.pairwise_cons.2 ⟨?_, i1⟩, ?_⟩
        · intro x hx
          rw [i2] at hx
          rcases hx with rfl | ⟨hx, _⟩
          · exact h2
          · exact h'.1 x hx
        · intro x
          rw [List.mem_cons, i2, List.mem_cons]
          constructor
          · rintro (rfl | rfl | ⟨hx, h3⟩)
            · exact Or.inr ⟨Or.inl rfl, by rintro rfl; grind⟩
            · exact Or.inl rfl
            · exact Or.inr ⟨Or.inr hx, h3⟩
          · rintro (rfl | ⟨rfl | hx, h3⟩)
            · exact Or.inr (Or.inl rfl)
            · exact Or.inl rfl
            · exact Or.inr (Or.inr ⟨hx, h3⟩)
      · rw [if_neg h2]
        have hk : e.1 = k := antisymm (by grind) (by grind)
        refine ⟨List.pairwise_cons.2 ⟨h'.1, h'.2⟩, ?_⟩
        intro x
        simp only [List.mem_cons]
        constructor
        · rintro (rfl | hx)
          · exact Or.inl (by rw [hk])
          · have := h'.1 x hx
            exact Or.inr ⟨Or.inr hx, by rintro rfl; grind⟩
        · rintro (rfl | ⟨rfl | hx, h3⟩)
          · exact Or.inl (by rw [hk])
          · exact absurd hk h3
          · exact Or.inr hx

/-- `insert` sets exactly the keys of the range. -/
theorem insert_mem (v : V) : ∀ (n : Nat) (d : DenseMap w V) (r : RangeInclusive (UIntW w)),
    r.remaining = n → Sorted d.btm →
    Sorted (d.insert r v).btm ∧ ∀ x, x ∈ (d.insert r v).btm ↔
      (r.exhausted = false ∧ r.start ≤ x.1 ∧ x.1 ≤ r.stop ∧ x.2 = v) ∨
      (x ∈ d.btm ∧ ¬ (r.exhausted = false ∧ r.start ≤ x.1 ∧ x.1 ≤ r.stop)) := by
  intro n
  induction n using Nat.strongRecOn with
  | _ n ih =>
    intro d r hn hd
    rw [insert]
    split
    · rename_i r' hr
      have : r.isEmpty = true := by
        unfold RangeInclusive.next at hr
        split at hr
        · assumption
        · split at hr <;> simp at hr
      simp only [RangeInclusive.isEmpty, Bool.or_eq_true, Bool.not_eq_true',
        decide_eq_false_iff_not] at this
      refine ⟨hd, fun x => ?_⟩
      grind
    · rename_i k r' hr
      have hlt := RangeInclusive.remaining_next hr
      obtain ⟨s1, s2⟩ := sorted_insert hd k v
      obtain ⟨i1, i2⟩ := ih _ (hn ▸ hlt) ⟨BTreeMap.insert id k v d.btm⟩ r' rfl s1
      refine ⟨i1, fun x => ?_⟩
      rw [i2, s2]
      unfold RangeInclusive.next at hr
      split at hr
      · simp at hr
      · rename_i he
        simp only [RangeInclusive.isEmpty, Bool.or_eq_true, Bool.not_eq_true',
          decide_eq_false_iff_not, not_or, Bool.not_eq_true, Decidable.not_not] at he
        have hx : x = (k, v) ↔ x.1 = k ∧ x.2 = v := by
          rcases x with ⟨a, b⟩
          simp
        split at hr
        · rename_i hl
          simp only [Prod.mk.injEq, Option.some.injEq] at hr
          obtain ⟨rfl, rfl⟩ := hr
          have hb := r.stop.bits.isLt
          rw [UIntW.lt_def] at hl
          have hs : (⟨r.start.bits + 1⟩ : UIntW w) ≤ x.1 ↔ r.start < x.1 := by
            obtain ⟨c, h1, h2⟩ := UIntW.add_one_ok false r.start (by omega)
            simp only [UIntW.add, Bool.false_and, Bool.false_eq_true, if_false,
              Except.ok.injEq] at h1
            subst h1
            rw [UIntW.le_def, UIntW.lt_def, h2]
            omega
          have ha : x.1 = r.start ↔ (x.1 ≤ r.start ∧ r.start ≤ x.1) :=
            ⟨by rintro h; rw [h]; grind, fun h => antisymm h.1 h.2⟩
          rw [← UIntW.lt_def] at hl
          simp only [hx, hs, ha, ne_eq]
          grind
        · rename_i hl
          simp only [Prod.mk.injEq, Option.some.injEq] at hr
          obtain ⟨rfl, rfl⟩ := hr
          have ha : x.1 = r.start ↔ (x.1 ≤ r.start ∧ r.start ≤ x.1) :=
            ⟨by rintro h; rw [h]; grind, fun h => antisymm h.1 h.2⟩
          simp only [hx, ha, ne_eq]
          grind

/-! ### The coalescing iterator -/

section
variable [BEq V]

/-- What `Iter` yields when it is building the range `c` and `d` is still to come. -/
def runs : RangeInclusive (UIntW w) × V → List (UIntW w × V) → List (RangeInclusive (UIntW w) × V)
  | c, [] => [c]
  | c, e :: t =>
    if keq ⟨c.1.stop.bits + 1⟩ e.1 && c.2 == e.2 then runs (.mk' c.1.start e.1, c.2) t
    else c :: runs (.mk' e.1 e.1, e.2) t

theorem add_one {debug : Bool} {a b : UIntW w} (h : a < b) :
    UIntW.add debug a ⟨1⟩ = .ok ⟨a.bits + 1⟩ ∧ Next a ⟨a.bits + 1⟩ := by
  have hb := b.bits.isLt
  rw [UIntW.lt_def] at h
  have h1 : ∃ c, UIntW.add debug a ⟨1⟩ = .ok c ∧ c.bits.toNat = a.bits.toNat + 1 :=
    UIntW.add_one_ok debug a (by omega)
  obtain ⟨c, h1, h2⟩ := h1
  have h3 : c = ⟨a.bits + 1⟩ := by
    unfold UIntW.add at h1
    split at h1
    · cases h1
    · cases h1; rfl
  subst h3
  refine ⟨h1, ?_, fun d hd => ?_⟩
  · rw [UIntW.lt_def]; omega
  · rw [UIntW.lt_def] at hd
    rw [UIntW.le_def]; omega

theorem iter_end {debug : Bool} : YieldsE (Iter.next debug) (⟨[], none⟩ : Iter w V) [] := by
  refine YieldsE.nil (fun s => s = ⟨[], none⟩) ?_ rfl
  rintro s rfl
  exact ⟨_, rfl, rfl⟩

theorem iter_runs {debug : Bool} : ∀ (d : List (UIntW w × V))
    (c : RangeInclusive (UIntW w) × V), Sorted d → (∀ e ∈ d, c.1.stop < e.1) →
    YieldsE (Iter.next debug) (⟨d, some c⟩ : Iter w V) (runs c d)
  | [], c, _, _ => YieldsE.cons (s' := ⟨[], none⟩) rfl iter_end
  | e :: t, c, hd, hc => by
    have hd' := List.pairwise_cons.1 hd
    obtain ⟨h1, h2⟩ := add_one (debug := debug) (hc e (by simp))
    unfold runs
    by_cases hj : (keq ⟨c.1.stop.bits + 1⟩ e.1 && c.2 == e.2) = true
    · rw [if_pos hj]
      have ih := iter_runs (debug := debug) t (.mk' c.1.start e.1, c.2) hd'.2 hd'.1
      have : Iter.next debug (⟨e :: t, some c⟩ : Iter w V) =
          Iter.next debug ⟨t, some (.mk' c.1.start e.1, c.2)⟩ := by
        show Iter.nextAux debug _ _ = Iter.nextAux debug _ _
        rw [Iter.nextAux]
        simp only [h1, bind, Except.bind, hj, if_true]
      intro n
      cases n with
      | zero => rfl
      | succ n =>
        have := ih (n + 1)
        rw [callsE] at this ⊢
        rw [‹Iter.next debug (⟨e :: t, some c⟩ : Iter w V) = _›]
        exact this
    · rw [if_neg hj]
      have ih := iter_runs (debug := debug) t (.mk' e.1 e.1, e.2) hd'.2 hd'.1
      refine YieldsE.cons ?_ ih
      show Iter.nextAux debug _ _ = _
      rw [Iter.nextAux]
      simp only [h1, bind, Except.bind, hj, Bool.false_eq_true, if_false, pure, Except.pure]

/-- What `iter` yields. -/
def toRuns : List (UIntW w × V) → List (RangeInclusive (UIntW w) × V)
  | [] => []
  | e :: t => runs (.mk' e.1 e.1, e.2) t

theorem iter_yields {debug : Bool} (d : DenseMap w V) (hd : Sorted d.btm) :
    YieldsE (Iter.next debug) d.iter (toRuns d.btm) := by
  unfold DenseMap.iter
  cases hb : d.btm with
  | nil => exact iter_end
  | cons e t =>
    rw [hb] at hd
    have hd' := List.pairwise_cons.1 hd
    have ih := iter_runs (debug := debug) t (.mk' e.1 e.1, e.2) hd'.2 hd'.1
    intro n
    cases n with
    | zero => rfl
    | succ n => exact ih (n + 1)

open RangeInclusiveMap in
/-- The runs are a well-formed entry list with the same contents up to `==`. -/
theorem runs_spec [EquivBEq V] : ∀ (d : List (UIntW w × V)) (c : RangeInclusive (UIntW w) × V),
    Sorted d → (∀ e ∈ d, c.1.stop < e.1) → c.1.start ≤ c.1.stop → c.1.exhausted = false →
    WF (runs c d) ∧
    (∃ e t, runs c d = e :: t ∧ e.1.start = c.1.start ∧ c.1.stop ≤ e.1.stop ∧ e.2 = c.2) ∧
    (∀ k v, Maps (runs c d) k v → (c.1.start ≤ k ∧ k ≤ c.1.stop ∧ v = c.2) ∨
      ∃ v', (k, v') ∈ d ∧ (v == v') = true) ∧
    (∀ k, c.1.start ≤ k → k ≤ c.1.stop → Maps (runs c d) k c.2) ∧
    (∀ k v', (k, v') ∈ d → ∃ v, Maps (runs c d) k v ∧ (v' == v) = true)
  | [], c, _, _, hc, hx => by
    refine ⟨⟨⟨by simp [runs], by simpa [runs] using hc⟩, ?_, by simpa [runs, Fresh] using hx⟩,
      ⟨c, [], rfl, rfl, by grind, rfl⟩, ?_, ?_, by simp⟩
    · intro a ha b hb hn
      simp only [runs, List.mem_singleton] at ha hb
      subst ha hb
      have := hn.1
      exfalso
      grind
    · rintro k v ⟨e, he, h1, h2, h3⟩
      simp only [runs, List.mem_singleton] at he
      subst he
      exact Or.inl ⟨h1, h2, h3.symm⟩
    · intro k h1 h2
      exact ⟨c, by simp [runs], h1, h2, rfl⟩
  | e :: t, c, hd, hlt, hc, hx => by
    have hd' := List.pairwise_cons.1 hd
    have hce := hlt e (by simp)
    obtain ⟨_, hn⟩ := add_one (debug := false) hce
    have hn1 := hn.1
    unfold runs
    by_cases hj : (keq ⟨c.1.stop.bits + 1⟩ e.1 && c.2 == e.2) = true
    · rw [if_pos hj]
      simp only [Bool.and_eq_true, keq_iff] at hj
      obtain ⟨⟨hj1, hj2⟩, hj3⟩ := hj
      obtain ⟨i1, ⟨x, l, i2, i3, i4, i5⟩, i6, i7, i8⟩ :=
        runs_spec t (.mk' c.1.start e.1, c.2) hd'.2 hd'.1
          (by simp only [RangeInclusive.mk'_start, RangeInclusive.mk'_stop]; grind) rfl
      simp only [RangeInclusive.mk'_start, RangeInclusive.mk'_stop] at i3 i4 i5 i6 i7
      refine ⟨i1, ⟨x, l, i2, i3, by grind, i5⟩, ?_, ?_, ?_⟩
      · intro k v hm
        rcases i6 k v hm with ⟨h1, h2, h3⟩ | ⟨v', h1, h2⟩
        · by_cases hk : k ≤ c.1.stop
          · exact Or.inl ⟨h1, hk, h3⟩
          · have := hn.2 k (by grind)
            have hke : k = e.1 := antisymm h2 (by grind)
            subst hke h3
            exact Or.inr ⟨e.2, by simp, hj3⟩
        · exact Or.inr ⟨v', by simp [h1], h2⟩
      · intro k h1 h2
        exact i7 k h1 (by grind)
      · intro k v' hm
        simp only [List.mem_cons] at hm
        rcases hm with hm | hm
        · obtain ⟨rfl, rfl⟩ : k = e.1 ∧ v' = e.2 := by rw [← hm]; exact ⟨rfl, rfl⟩
          exact ⟨c.2, i7 e.1 (by grind) (by grind), BEq.symm hj3⟩
        · exact i8 k v' hm
    · rw [if_neg hj]
      obtain ⟨i1, ⟨x, l, i2, i3, i4, i5⟩, i6, i7, i8⟩ :=
        runs_spec t (.mk' e.1 e.1, e.2) hd'.2 hd'.1
          (by simp only [RangeInclusive.mk'_start, RangeInclusive.mk'_stop]; grind) rfl
      simp only [RangeInclusive.mk'_start, RangeInclusive.mk'_stop] at i3 i4 i5 i6 i7
      have hall : ∀ y ∈ runs (.mk' e.1 e.1, e.2) t, e.1 ≤ y.1.start := by
        intro y hy
        rw [i2] at hy i1
        simp only [List.mem_cons] at hy
        rcases hy with rfl | hy
        · rw [i3]; grind
        · have h1 := (WF.head i1 y hy).1
          rw [i3] at h1
          grind
      have hne := i1.sep.ne
      refine ⟨⟨⟨List.pairwise_cons.2 ⟨?_, i1.sep.pw⟩, ?_⟩, ?_, ?_⟩,
        ⟨c, _, rfl, rfl, by grind, rfl⟩, ?_, ?_, ?_⟩
      · intro y hy
        have := hall y hy
        exact ⟨by grind, by grind⟩
      · intro y hy
        simp only [List.mem_cons] at hy
        rcases hy with rfl | hy
        · exact hc
        · exact hne y hy
      · intro a ha b hb hab
        have hab1 := hab.1
        simp only [List.mem_cons] at ha hb
        rcases ha with rfl | ha <;> rcases hb with rfl | hb
        · exfalso; grind
        · have h1 := hall b hb
          have h2 := hab.2 e.1 hce
          have hbx : b = x := by
            rw [i2] at hb i1
            simp only [List.mem_cons] at hb
            rcases hb with rfl | hb
            · rfl
            · have h3 := (WF.head i1 b hb).1
              rw [i3] at h3
              exfalso
              grind
          subst hbx
          rw [i5]
          have h4 := hab.2 ⟨a.1.stop.bits + 1⟩ hn.1
          have h5 := hn.2 e.1 hce
          simp only [Bool.and_eq_true, keq_iff, not_and, Bool.not_eq_true] at hj
          exact hj ⟨h5, by grind⟩
        · have h1 := hall a ha
          have := hne a ha
          exfalso
          grind
        · exact i1.coal a ha b hb hab
      · intro y hy
        simp only [List.mem_cons] at hy
        rcases hy with rfl | hy
        · exact hx
        · exact i1.fresh y hy
      · rintro k v ⟨y, hy, h1, h2, h3⟩
        simp only [List.mem_cons] at hy
        rcases hy with rfl | hy
        · exact Or.inl ⟨h1, h2, h3.symm⟩
        · rcases i6 k v ⟨y, hy, h1, h2, h3⟩ with ⟨h4, h5, h6⟩ | ⟨v', h4, h5⟩
          · have hke : k = e.1 := antisymm h5 h4
            subst hke h6
            exact Or.inr ⟨e.2, by simp, BEq.rfl⟩
          · exact Or.inr ⟨v', by simp [h4], h5⟩
      · intro k h1 h2
        exact ⟨c, by simp, h1, h2, rfl⟩
      · intro k v' hm
        simp only [List.mem_cons] at hm
        rcases hm with hm | hm
        · obtain ⟨y, hy, h1, h2, h3⟩ := i7 e.1 (by grind) (by grind)
          subst hm
          exact ⟨v', ⟨y, by simp [hy], h1, h2, h3⟩, BEq.rfl⟩
        · obtain ⟨v, ⟨y, hy, h1, h2, h3⟩, h4⟩ := i8 k v' hm
          exact ⟨v, ⟨y, by simp [hy], h1, h2, h3⟩, h4⟩

open RangeInclusiveMap in
theorem toRuns_spec [EquivBEq V] (d : List (UIntW w × V)) (hd : Sorted d) :
    WF (toRuns d) ∧
    (∀ k v, Maps (toRuns d) k v → ∃ v', (k, v') ∈ d ∧ (v == v') = true) ∧
    (∀ k v', (k, v') ∈ d → ∃ v, Maps (toRuns d) k v ∧ (v' == v) = true) := by
  cases d with
  | nil => exact ⟨WF.nil, by rintro k v ⟨e, he, _⟩; simp [toRuns] at he, by simp⟩
  | cons e t =>
    have hd' := List.pairwise_cons.1 hd
    obtain ⟨i1, _, i6, i7, i8⟩ := runs_spec t (.mk' e.1 e.1, e.2) hd'.2 hd'.1
      (by simp only [RangeInclusive.mk'_start, RangeInclusive.mk'_stop]; grind) rfl
    simp only [RangeInclusive.mk'_start, RangeInclusive.mk'_stop] at i6 i7
    refine ⟨i1, ?_, ?_⟩
    · intro k v hm
      rcases i6 k v hm with ⟨h4, h5, h6⟩ | ⟨v', h4, h5⟩
      · have hke : k = e.1 := antisymm h5 h4
        subst hke h6
        exact ⟨e.2, by simp, BEq.rfl⟩
      · exact ⟨v', by simp [h4], h5⟩
    · intro k v' hm
      simp only [List.mem_cons] at hm
      rcases hm with hm | hm
      · subst hm
        exact ⟨_, i7 k (by grind) (by grind), BEq.rfl⟩
      · exact i8 k v' hm

open RangeInclusiveMap in
/-- A dense map and an inclusive range map with the same contents have the same entries. -/
theorem iterEq_of_contents [EquivBEq V] {d : DenseMap w V} (hd : Sorted d.btm)
    {m : RangeInclusiveMap (UIntW w) V} (hm : WF m.btm)
    (h1 : ∀ k v, (k, v) ∈ d.btm → ∃ v', Maps m.btm k v' ∧ (v == v') = true)
    (h2 : ∀ k v, Maps m.btm k v → ∃ v', (k, v') ∈ d.btm ∧ (v == v') = true) :
    iterEq entryEq (toRuns d.btm) m.iter = true := by
  obtain ⟨r1, r2, r3⟩ := toRuns_spec d.btm hd
  refine canon (UIntW.lawful w false) r1 hm ?_ ?_
  · intro k v hv
    obtain ⟨v', a1, a2⟩ := r2 k v hv
    obtain ⟨v'', b1, b2⟩ := h1 k v' a1
    exact ⟨v'', b1, PartialEquivBEq.trans a2 b2⟩
  · intro k v hv
    obtain ⟨v', a1, a2⟩ := h2 k v hv
    obtain ⟨v'', b1, b2⟩ := r3 k v' a1
    exact ⟨v'', b1, PartialEquivBEq.trans a2 b2⟩

end
end Verif.DenseMap

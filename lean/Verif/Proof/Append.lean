import Verif.Proof.Canon

/-!
# Inserting the entries of a well-formed list in order rebuilds exactly that list
-/
set_option linter.unusedSectionVars false
set_option linter.unusedVariables false

namespace Verif
variable {K : Type} [LE K] [LT K] [DecidableLE K] [DecidableLT K]
  [Std.IsLinearPreorder K] [Std.LawfulOrderLT K]

theorem BTreeMap.insert_append {R V : Type} {key : R → K} {r : R} {v : V} {l : List (R × V)}
    (h : ∀ e ∈ l, key e.1 < key r) : BTreeMap.insert key r v l = l ++ [(r, v)] := by
  induction l with
  | nil => rfl
  | cons e t ih =>
    have := h e (by simp)
    rw [BTreeMap.insert, if_neg (by grind), if_pos this, ih (fun x hx => h x (by simp [hx]))]
    rfl

namespace RangeMap
variable {V : Type} [BEq V]

theorem insert_append [PartialEquivBEq V] {l : List (Range K × V)} {e : Range K × V}
    (h : WF (l ++ [e])) : (⟨l⟩ : RangeMap K V).insert e.1 e.2 = .ok ⟨l ++ [e]⟩ := by
  have hne := h.sep.ne e (by simp)
  have hpw := List.pairwise_append.1 h.sep.pw
  have hb : ∀ x ∈ l, Before x e := fun x hx => hpw.2.2 x hx e (by simp)
  have hn : ∀ x ∈ l, x.1.start < x.1.stop := fun x hx => h.sep.ne x (by simp [hx])
  have hc : ∀ x ∈ l, e.1.start ≤ x.1.stop → (x.2 == e.2) = false := by
    intro x hx hle
    exact h.coal x (by simp [hx]) e (by simp) (hb x hx).2 hle
  have hadj : ∀ c ∈ l, c.1.touches e.1 = true →
      adjustTouchingRangesForInsert l c.1 c.2 e.1 e.2 = (l, e.1) := by
    intro c hcl ht
    simp only [Range.touches, decide_eq_true_eq, le_rmin, rmax_le] at ht
    have hv := hc c hcl (by grind)
    have hov : ¬ e.1.overlaps c.1 = true := by
      have := hb c hcl
      simp only [Range.overlaps, decide_eq_true_eq, lt_rmin, rmax_lt]
      grind [Before]
    simp only [adjustTouchingRangesForInsert, hv, hov]
    rfl
  have hpre : insertPrefix l e.1 e.2 = .ok (l, e.1) := by
    unfold insertPrefix
    rw [BTreeMap.range_ok rfl]
    simp only [bind, Except.bind, pure, Except.pure]
    split
    · rfl
    · rename_i c hcs
      have : c ∈ [c] := by simp
      rw [← hcs] at this
      have := List.mem_filter.1 this
      have hcl := List.mem_filter.1 (List.mem_reverse.1 (List.mem_of_mem_take this.1))
      rw [hadj c hcl.1 this.2]
    · rename_i c1 c cs hcs
      have : c ∈ c1 :: c :: cs := by simp
      rw [← hcs] at this
      have := List.mem_filter.1 this
      have hcl := List.mem_filter.1 (List.mem_reverse.1 (List.mem_of_mem_take this.1))
      rw [hadj c hcl.1 this.2]
  have hloop : ∀ f, insertLoop e.1.stop e.2 (f + 1) l e.1 = .ok (l, e.1) := by
    intro f
    apply insertLoop_done (by grind) (by grind)
    intro y hy hle
    have := hb y hy
    grind [Before]
  simp only [insert, insertFuel, hne, not_true, if_false, hpre, hloop, bind, Except.bind, pure,
    Except.pure]
  rw [BTreeMap.insert_append fun x hx => (hb x hx).1]

theorem WF.prefix {l l' : List (Range K × V)} (h : WF (l ++ l')) : WF l where
  sep := ⟨(List.pairwise_append.1 h.sep.pw).1, fun x hx => h.sep.ne x (by simp [hx])⟩
  coal a ha b hb := h.coal a (by simp [ha]) b (by simp [hb])

/-- Extending a prefix of a well-formed list by the rest of it. -/
theorem extend_rest [PartialEquivBEq V] (l' : List (Range K × V)) :
    ∀ l : List (Range K × V), WF (l ++ l') →
      (⟨l⟩ : RangeMap K V).extend l' = (⟨l ++ l'⟩, .ok ()) := by
  induction l' with
  | nil => intro l _; simp [extend]
  | cons e t ih =>
    intro l h
    rw [← List.singleton_append, ← List.append_assoc] at h ⊢
    rw [List.singleton_append, extend, insert_append h.prefix]
    exact ih _ h

/-- Every well-formed map is reachable. -/
theorem WF.reachable [PartialEquivBEq V] {m : RangeMap K V} (h : WF m.btm) : Reachable m := by
  refine ⟨[.extend m.btm], ?_⟩
  have := extend_rest m.btm [] (by simpa using h)
  simp [run, RangeMap.apply, RangeMap.new, this]

theorem reachable_iff [PartialEquivBEq V] {m : RangeMap K V} : Reachable m ↔ WF m.btm :=
  ⟨Reachable.wf, WF.reachable⟩

end RangeMap
end Verif

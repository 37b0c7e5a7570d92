import Verif.Proof.TreeRename

/-!
# Numbers with a `NaN`, and what one of them does to an inclusive map
-/
set_option linter.unusedSectionVars false

namespace Verif

/-- A key type with one value, `nan`, that is neither less nor greater than any value. This is what
becomes of `f64` in a wrapper whose `Ord` is the popular `self.partial_cmp(other).unwrap_or(Equal)`.
Whether `nan <= a` and `a <= nan` hold depends on how the wrapper gets its `PartialOrd`: they do
(`le = true`) if `partial_cmp` is `Some(self.cmp(other))`, and do not if it is derived from `f64`.
-/
inductive Fl (K : Type) (le : Bool) where
  | num (k : K)
  | nan
  deriving DecidableEq, Repr

namespace Fl
variable {K : Type} {le : Bool}

instance [LE K] : LE (Fl K le) where
  le
  | num a, num b => a ≤ b
  | _, _ => le = true

instance [LT K] : LT (Fl K le) where
  lt
  | num a, num b => a < b
  | _, _ => False

instance [LE K] [DecidableLE K] : DecidableLE (Fl K le)
  | num a, num b => inferInstanceAs (Decidable (a ≤ b))
  | nan, num _ => inferInstanceAs (Decidable (le = true))
  | num _, nan => inferInstanceAs (Decidable (le = true))
  | nan, nan => inferInstanceAs (Decidable (le = true))

instance [LT K] [DecidableLT K] : DecidableLT (Fl K le)
  | num a, num b => inferInstanceAs (Decidable (a < b))
  | nan, num _ => isFalse nofun
  | num _, nan => isFalse nofun
  | nan, nan => isFalse nofun

theorem not_lt_nan [LT K] (a : Fl K le) : ¬ a < nan := by cases a <;> exact id

theorem not_nan_lt [LT K] (a : Fl K le) : ¬ nan < a := by cases a <;> exact id

theorem le_nan [LE K] (a : Fl K true) : a ≤ nan := by cases a <;> exact rfl

theorem nan_le [LE K] (a : Fl K true) : nan ≤ a := by cases a <;> exact rfl

theorem not_le_nan [LE K] (a : Fl K false) : ¬ a ≤ nan := by cases a <;> exact nofun

theorem not_nan_le [LE K] (a : Fl K false) : ¬ nan ≤ a := by cases a <;> exact nofun

variable [LE K] [LT K] [DecidableLE K] [DecidableLT K]
  [Std.IsLinearPreorder K] [Std.LawfulOrderLT K]

instance : Std.LawfulOrderLT (Fl K le) where
  lt_iff a b := by
    cases a <;> cases b
    · exact Std.LawfulOrderLT.lt_iff (α := K) _ _
    all_goals
      cases le
      · exact ⟨nofun, fun h => nomatch h.1⟩
      · exact ⟨nofun, fun h => h.2 rfl⟩

theorem num_embeds : Spec.Embeds (num : K → Fl K le) := fun _ _ => Iff.rfl

theorem lt_irrefl (a : Fl K le) : ¬ a < a := by
  cases a with
  | nan => exact id
  | num k => exact (by grind : ¬ k < k)

/-- Step functions of the numbers, going on with whatever they do at `nan`. -/
def steps (S : StepFns K) (up down : Except Panic (Fl K le)) : StepFns (Fl K le) where
  addOne
  | num a => (S.addOne a).map num
  | nan => up
  subOne
  | num a => (S.subOne a).map num
  | nan => down

theorem steps_map (S : StepFns K) (up down : Except Panic (Fl K le)) :
    Spec.StepsMap num S (steps S up down) where
  addOne _ _ _ := rfl
  subOne _ _ _ := rfl

end Fl

namespace Tree
variable {K : Type} [LE K] [LT K] [DecidableLE K] [DecidableLT K] {R V : Type}

theorem fromLower_none (key : R → K) (t : Tree (R × V)) : t.fromLower key .allExcluded = [] := by
  induction t with
  | nil => rfl
  | node l e r _ ihr => exact ihr

theorem toUpper_none (key : R → K) (t : Tree (R × V)) : t.toUpper key .allExcluded = [] := by
  induction t with
  | nil => rfl
  | node l e r ihl _ => exact ihl

/-- `BTreeMap::remove` takes out at most one entry and changes no other. -/
theorem remove_sub (key : R → K) (k : K) (t : Tree (R × V)) :
    (t.remove key k).size ≤ t.size ∧ ∀ e ∈ (t.remove key k).toList, e ∈ t.toList := by
  induction t with
  | nil => exact ⟨Nat.le_refl _, fun _ h => h⟩
  | node l e r ihl ihr =>
    unfold remove
    split
    · refine ⟨by simp only [size]; omega, fun x hx => ?_⟩
      simp only [toList, List.mem_append, List.mem_cons] at hx ⊢
      exact hx.imp (ihl.2 x) id
    · split
      · refine ⟨by simp only [size]; omega, fun x hx => ?_⟩
        simp only [toList, List.mem_append, List.mem_cons] at hx ⊢
        exact hx.imp id (Or.imp id (ihr.2 x))
      · refine ⟨?_, fun x hx => ?_⟩
        · simp only [size_eq, join_toList, toList, List.length_append, List.length_cons]
          omega
        simp only [join_toList, toList, List.mem_append, List.mem_cons] at hx ⊢
        exact hx.imp id Or.inr

end Tree

/-- How a program made of two parts runs on a tree. -/
theorem Cr.runTree_bind {K : Type} [LE K] [LT K] [DecidableLE K] [DecidableLT K] {R V α β : Type}
    (key : R → K) (shapes : Tree.Shapes (R × V)) (o : Nat → Bool) (f : α → Cr K R V β) :
    ∀ (c : Cr K R V α) (s : TreeState (R × V)), (c >>= f).runTree key shapes o s =
      match c.runTree key shapes o s with
      | (.ok a, s) => (f a).runTree key shapes o s
      | (.error e, s) => (.error e, s) := by
  intro c
  have hb : (c >>= f) = c.bind f := rfl
  rw [hb]
  clear hb
  induction c with
  | ret a => intro s; rfl
  | panic p => intro s; rfl
  | call next ih =>
    intro s
    simp only [Cr.bind, Cr.runTree]
    split
    · rfl
    · exact ih _
  | size next ih => intro s; exact ih _ _
  | search lo hi next ih =>
    intro s
    simp only [Cr.bind, Cr.runTree]
    cases s.tree.range key lo hi with
    | error p => rfl
    | ok l => exact ih _ _
  | put r v next ih => intro s; exact ih _ _
  | delete k next ih => intro s; exact ih _

namespace RangeInclusiveMap
variable {K : Type} [LE K] [LT K] [DecidableLE K] [DecidableLT K]
  [Std.IsLinearPreorder K] [Std.LawfulOrderLT K] {V : Type} [BEq V]

/-- The range that is `NaN` at both ends. -/
abbrev nanRange : RangeInclusive (Fl K true) := .mk' .nan .nan

variable {S : StepFns (Fl K true)} {shapes : Tree.Shapes (RangeInclusive (Fl K true) × V)}

/-- When no user code panics, `c` run on `t` returns `a` and leaves a tree of which `P` is true. -/
abbrev RunsTo {α : Type} (shapes : Tree.Shapes (RangeInclusive (Fl K true) × V))
    (c : Cr (Fl K true) (RangeInclusive (Fl K true)) V α)
    (t : Tree (RangeInclusive (Fl K true) × V))
    (a : α) (P : Tree (RangeInclusive (Fl K true) × V) → Prop) : Prop :=
  ∀ n i, ∃ n' i' t', c.runTree RangeInclusive.start shapes (fun _ => false) ⟨n, i, t⟩
    = (.ok a, ⟨n', i', t'⟩) ∧ P t'

theorem RunsTo.bind {α β : Type} {c : Cr (Fl K true) (RangeInclusive (Fl K true)) V α}
    {d : α → Cr (Fl K true) (RangeInclusive (Fl K true)) V β} {t a b P Q}
    (h : RunsTo shapes c t a P) (h' : ∀ t', P t' → RunsTo shapes (d a) t' b Q) :
    RunsTo shapes (c >>= d) t b Q := by
  intro n i
  obtain ⟨n', i', t', h, hp⟩ := h n i
  obtain ⟨n'', i'', t'', h', hq⟩ := h' t' hp n' i'
  refine ⟨n'', i'', t'', ?_, hq⟩
  rw [Cr.runTree_bind, h]
  exact h'

theorem RunsTo.pure {α : Type} {a : α} {t P} (h : P t) :
    RunsTo shapes (Pure.pure a : Cr (Fl K true) (RangeInclusive (Fl K true)) V α) t a P :=
  fun n i => ⟨n, i, t, rfl, h⟩

theorem RunsTo.user {t P} (h : P t) :
    RunsTo shapes (Cr.user : Cr (Fl K true) (RangeInclusive (Fl K true)) V Unit) t () P :=
  fun n i => ⟨n + 1, i, t, rfl, h⟩

theorem RunsTo.len {t P} (h : P t) :
    RunsTo shapes (Cr.len : Cr (Fl K true) (RangeInclusive (Fl K true)) V Nat) t t.size P :=
  fun n i => ⟨n, i, t, rfl, h⟩

theorem RunsTo.range {t P lo hi l} (h : t.range RangeInclusive.start lo hi = .ok l) (hp : P t) :
    RunsTo shapes (Cr.range lo hi : Cr (Fl K true) (RangeInclusive (Fl K true)) V _) t l P :=
  fun n i => ⟨n + 1, i, t, by simp [Cr.range, Cr.runTree, h], hp⟩

theorem RunsTo.remove {t P k}
    (h : ∀ t', t'.toList = (t.remove RangeInclusive.start k).toList → P t') :
    RunsTo shapes (Cr.remove k : Cr (Fl K true) (RangeInclusive (Fl K true)) V Unit) t () P :=
  fun n i => ⟨n + 2, i + 1, _, rfl, h _ (shapes.keeps _ _)⟩

theorem RunsTo.insert {t P r v}
    (h : ∀ t', t'.toList = (t.insert RangeInclusive.start r v).toList → P t') :
    RunsTo shapes (Cr.insert r v : Cr (Fl K true) (RangeInclusive (Fl K true)) V Unit) t () P := by
  intro n i
  simp only [Cr.insert, Cr.runTree, Bool.false_eq_true, if_false]
  cases t.contains RangeInclusive.start r.start
  · exact ⟨n + 1, i + 1, _, rfl, h _ (shapes.keeps _ _)⟩
  · exact ⟨n + 2, i + 1, _, rfl, h _ (shapes.keeps _ _)⟩

/-- What the loop of `insert` finds first when it looks for `NaN`: the entry at the root. -/
theorem range_from_nan (l r : Tree (RangeInclusive (Fl K true) × V)) (e) :
    ∃ x, (Tree.node l e r).range RangeInclusive.start (.included .nan) .unbounded
      = .ok (e :: x) := by
  refine ⟨r.toUpper RangeInclusive.start .allIncluded, ?_⟩
  simp [Tree.range, Bound.invalid, Tree.between, SearchBound.ofBound, SearchBound.lower,
    SearchBound.upper, Fl.not_lt_nan, Fl.not_nan_lt, Tree.fromLower_none]

theorem overlaps_nan (e : RangeInclusive (Fl K true)) :
    (nanRange (K := K)).overlaps e = true := by
  simp [RangeInclusive.overlaps, rmax, rmin, Fl.not_lt_nan, Fl.not_nan_lt, Fl.le_nan]

theorem touches_nan (e : RangeInclusive (Fl K true)) :
    e.touches S (nanRange (K := K)) = .ok true := by
  simp [RangeInclusive.touches, rmax, rmin, Fl.not_lt_nan, Fl.not_nan_lt, Fl.nan_le, bind,
    Except.bind, pure, Except.pure]

/-- What `insert` of `NaN..=NaN` does with a stored entry that has a different value. -/
theorem adjust_nan {t : Tree (RangeInclusive (Fl K true) × V)} {P}
    {e : RangeInclusive (Fl K true) × V} {v : V} (hv : (e.2 == v) = false)
    (h : ∀ t', t'.toList = (t.remove RangeInclusive.start e.1.start).toList → P t') :
    RunsTo shapes (adjustTouchingRangesForInsertC S e.1 e.2 nanRange v) t nanRange P := by
  unfold adjustTouchingRangesForInsertC
  rw [hv, overlaps_nan]
  refine .bind (.user rfl) ?_
  rintro t' rfl
  refine .bind (.user rfl) ?_
  rintro t' rfl
  refine .bind (.remove h) fun t' ht => ?_
  have h1 : RunsTo shapes (insertLeftC S e.1 e.2 nanRange) t' () P := by
    unfold insertLeftC
    refine .bind (.user rfl) ?_
    rintro _ rfl
    rw [if_neg (show ¬ e.1.start < nanRange.start from Fl.not_lt_nan _)]
    exact .pure ht
  have h2 : ∀ t', P t' → RunsTo shapes (insertRightC S e.1 e.2 nanRange) t' () P := by
    intro t' ht
    unfold insertRightC
    refine .bind (.user rfl) ?_
    rintro _ rfl
    rw [if_neg (show ¬ nanRange.stop < e.1.stop from Fl.not_nan_lt _)]
    exact .pure ht
  exact .bind h1 fun t' ht => .bind (h2 t' ht) fun t' ht => .bind (.user ht) fun t' ht => .pure ht

/-- The loop of `insert` of `NaN..=NaN` empties the tree. -/
theorem insertLoop_nan {v : V} : ∀ (fuel : Nat) (t : Tree (RangeInclusive (Fl K true) × V)),
    t.size < fuel → (∀ e ∈ t.toList, (e.2 == v) = false) →
    RunsTo shapes (insertLoopC S .nan v fuel nanRange) t nanRange (· = .nil) := by
  intro fuel
  induction fuel with
  | zero => intro t h; omega
  | succ fuel ih =>
    intro t hs hv
    unfold insertLoopC
    cases t with
    | nil => exact .bind (.range rfl rfl) fun t' ht => .pure ht.symm
    | node l e r =>
      obtain ⟨x, hx⟩ := range_from_nan l r e
      refine .bind (.range hx rfl) ?_
      rintro _ rfl
      refine .bind (a := false) (P := (· = .node l e r)) ?_ ?_
      · unfold breakCondC
        refine .bind (.user rfl) ?_
        rintro _ rfl
        rw [if_neg (Fl.not_nan_lt _)]
        exact .pure rfl
      · rintro _ rfl
        refine .bind (.user rfl) ?_
        rintro _ rfl
        refine .bind (adjust_nan (hv e (by simp [Tree.toList])) fun t' ht => ht) fun t' ht => ?_
        have hr : (Tree.node l e r).remove RangeInclusive.start e.1.start = l.join r := by
          simp [Tree.remove, Fl.lt_irrefl]
        rw [hr] at ht
        refine ih t' ?_ ?_
        · rw [Tree.size_eq, ht, Tree.join_toList]
          simp only [Tree.size, Tree.size_eq, List.length_append] at hs ⊢
          omega
        · intro y hy
          rw [ht, Tree.join_toList] at hy
          refine hv y ?_
          simp only [Tree.toList, List.mem_append, List.mem_cons] at hy ⊢
          exact hy.imp id Or.inr

theorem filterE_nan (l : List (RangeInclusive (Fl K true) × V)) :
    filterE (fun e => e.1.touches S (nanRange (K := K))) l = .ok l := by
  induction l with
  | nil => rfl
  | cons e l ih => rw [filterE, touches_nan, ih]; rfl

theorem range_to_nan (l r : Tree (RangeInclusive (Fl K true) × V)) (e) :
    (Tree.node l e r).range RangeInclusive.start .unbounded (.included .nan)
      = .ok (l.toList ++ [e]) := by
  have : ∀ t : Tree (RangeInclusive (Fl K true) × V),
      t.fromLower RangeInclusive.start .allIncluded = t.toList := by
    intro t
    induction t with
    | nil => rfl
    | node l e r ihl _ => simp [Tree.fromLower, SearchBound.lower, ihl, Tree.toList]
  simp [Tree.range, Bound.invalid, Tree.between, SearchBound.ofBound, SearchBound.lower,
    SearchBound.upper, Fl.not_lt_nan, Fl.not_nan_lt, Tree.toUpper_none, this]

/-- `insert` of `NaN..=NaN` removes everything else. -/
theorem insert_nan {v : V} (t : Tree (RangeInclusive (Fl K true) × V))
    (hv : ∀ e ∈ t.toList, (e.2 == v) = false) :
    RunsTo shapes (insertProgram S nanRange v) t () (fun t' => t'.toList = [(nanRange, v)]) := by
  unfold insertProgram
  refine .bind (.user rfl) ?_
  rintro _ rfl
  rw [if_pos (show nanRange.start ≤ nanRange.stop from Fl.le_nan _)]
  refine .bind (.len rfl) ?_
  rintro _ rfl
  refine .bind (a := nanRange)
    (P := fun t' => t'.size ≤ t.size ∧ ∀ e ∈ t'.toList, e ∈ t.toList) ?_ ?_
  · unfold insertPrefixC
    cases t with
    | nil =>
      refine .bind (.range rfl rfl) ?_
      rintro _ rfl
      refine .bind (.user rfl) ?_
      rintro _ rfl
      exact .pure ⟨Nat.le_refl _, fun _ h => h⟩
    | node l e r =>
      refine .bind (.range (range_to_nan l r e) rfl) ?_
      rintro _ rfl
      refine .bind (.user rfl) ?_
      rintro _ rfl
      rw [filterE_nan]
      have hc : ∀ c ∈ l.toList ++ [e], RunsTo shapes
          (adjustTouchingRangesForInsertC S c.1 c.2 nanRange v) (.node l e r) nanRange
          (fun t' => t'.size ≤ (Tree.node l e r).size ∧
            ∀ e' ∈ t'.toList, e' ∈ (Tree.node l e r).toList) := by
        intro c hc
        refine adjust_nan (hv c ?_) fun t' ht => ?_
        · simp only [Tree.toList, List.mem_append, List.mem_cons, List.not_mem_nil, or_false]
            at hc ⊢
          exact hc.imp id Or.inl
        · have := Tree.remove_sub RangeInclusive.start c.1.start (Tree.node l e r)
          rw [Tree.size_eq, ht, ← Tree.size_eq]
          exact this
      have hm : ∀ c ∈ (l.toList ++ [e]).reverse.take 2, c ∈ l.toList ++ [e] := fun c hc =>
        List.mem_reverse.mp (List.mem_of_mem_take hc)
      generalize (l.toList ++ [e]).reverse.take 2 = cs at hm
      refine .bind (a := cs) (P := (· = .node l e r)) (fun n i => ⟨n, i, _, rfl, rfl⟩) ?_
      rintro _ rfl
      match cs with
      | [] => exact .pure ⟨Nat.le_refl _, fun _ h => h⟩
      | [c] =>
        refine .bind (.user rfl) ?_
        rintro _ rfl
        exact hc c (hm c (by simp))
      | _ :: c :: _ =>
        refine .bind (.user rfl) ?_
        rintro _ rfl
        exact hc c (hm c (by simp))
  · intro t' ht
    refine .bind (.user rfl) ?_
    rintro _ rfl
    refine .bind (insertLoop_nan _ t' (by omega) fun e he => hv e (ht.2 e he)) ?_
    rintro _ rfl
    exact .bind (.insert fun t' ht => ht) fun t' ht => .user ht

end RangeInclusiveMap
end Verif

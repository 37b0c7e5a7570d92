import Verif.Model.Cost
import Verif.Proof.Crash

/-!
# Counting the calls `insert` and `remove` make
-/
set_option linter.unusedSectionVars false
set_option linter.unusedVariables false
namespace Verif

namespace Cost
@[simp] theorem add_searches (a b : Cost) : (a + b).searches = a.searches + b.searches := rfl
@[simp] theorem add_puts (a b : Cost) : (a + b).puts = a.puts + b.puts := rfl
@[simp] theorem add_deletes (a b : Cost) : (a + b).deletes = a.deletes + b.deletes := rfl
@[simp] theorem zero_searches : (0 : Cost).searches = 0 := rfl
@[simp] theorem zero_puts : (0 : Cost).puts = 0 := rfl
@[simp] theorem zero_deletes : (0 : Cost).deletes = 0 := rfl

theorem ext {a b : Cost} (h1 : a.searches = b.searches) (h2 : a.puts = b.puts)
    (h3 : a.deletes = b.deletes) : a = b := by cases a; cases b; simp_all

theorem add_assoc (a b c : Cost) : a + b + c = a + (b + c) :=
  ext (by simp; omega) (by simp; omega) (by simp; omega)
theorem zero_add (a : Cost) : 0 + a = a := ext (by simp) (by simp) (by simp)
theorem add_zero (a : Cost) : a + 0 = a := ext (by simp) (by simp) (by simp)
end Cost

section
variable {K : Type} [LE K] [LT K] [DecidableLE K] [DecidableLT K] {R V α β : Type}

theorem Cr.cost_bind (key : R → K) (f : α → Cr K R V β) :
    ∀ (c : Cr K R V α) (n : Nat) (m : List (R × V)), (c >>= f).cost key m = c.cost key m +
      match c.run key (fun _ => false) ⟨n, m⟩ with
      | (.ok a, s) => (f a).cost key s.btm
      | (.error _, _) => 0 := by
  intro c
  have hb : (c >>= f) = c.bind f := rfl
  rw [hb]
  induction c with
  | ret a => intro n m; simp only [Cr.bind, Cr.cost, Cr.run, Cost.zero_add]
  | panic p => intro n m; simp only [Cr.bind, Cr.cost, Cr.run, Cost.zero_add]
  | call next ih => intro n m; simp only [Cr.bind, Cr.cost, Cr.run]; exact ih rfl (n + 1) m
  | size next ih => intro n m; simp only [Cr.bind, Cr.cost, Cr.run]; exact ih _ rfl n m
  | search lo hi next ih =>
    intro n m
    simp only [Cr.bind, Cr.cost, Cr.run]
    cases BTreeMap.range key lo hi m with
    | ok l => simp only; rw [ih l rfl n m, Cost.add_assoc]
    | error p => simp only; rw [Cost.add_zero, Cost.add_zero]
  | put r v next ih =>
    intro n m
    simp only [Cr.bind, Cr.cost, Cr.run]
    rw [ih _ rfl n _, Cost.add_assoc]
  | delete k next ih =>
    intro n m
    simp only [Cr.bind, Cr.cost, Cr.run]
    rw [ih rfl n _, Cost.add_assoc]

theorem Sim.cost_bind {key : R → K} {P : List (R × V) → Prop} {c : Cr K R V α}
    {m m' : List (R × V)} {a : α} (h : Sim key P c m a m') (f : α → Cr K R V β) :
    (c >>= f).cost key m = c.cost key m + (f a).cost key m' := by
  rw [Cr.cost_bind key f c 0 m]
  rcases h (fun _ => false) 0 with ⟨n, h⟩ | ⟨_, _, _, _, i, hi⟩
  · rw [h]
  · simp at hi

theorem Cr.cost_user_bind (key : R → K) (f : Unit → Cr K R V β) (m : List (R × V)) :
    (Cr.user >>= f).cost key m = (f ()).cost key m := rfl

theorem Cr.cost_range_bind {key : R → K} {lo hi : Bound K} {m l : List (R × V)}
    (h : BTreeMap.range key lo hi m = .ok l) (f : List (R × V) → Cr K R V β) :
    (Cr.range lo hi >>= f).cost key m = ⟨1, 0, 0⟩ + (f l).cost key m := by
  show Cr.cost key (.call (.search lo hi fun l => f l)) m = _
  simp only [Cr.cost, h]

theorem Cr.cost_pure (key : R → K) (a : α) (m : List (R × V)) :
    (pure a : Cr K R V α).cost key m = 0 := rfl

theorem Cr.cost_remove_bind (key : R → K) (k : K) (f : Unit → Cr K R V β) (m : List (R × V)) :
    (Cr.remove k >>= f).cost key m = ⟨0, 0, 1⟩ + (f ()).cost key (BTreeMap.remove key k m) := rfl

theorem Cr.cost_insert_bind (key : R → K) (r : R) (v : V) (f : Unit → Cr K R V β)
    (m : List (R × V)) :
    (Cr.insert r v >>= f).cost key m = ⟨0, 1, 0⟩ + (f ()).cost key (BTreeMap.insert key r v m) := by
  show Cr.cost key (.call (.put r v fun b =>
    (if b then Cr.call (.ret ()) else .ret () : Cr K R V Unit).bind f)) m = _
  simp only [Cr.cost]
  split <;> rfl

theorem Cr.cost_insert (key : R → K) (r : R) (v : V) (m : List (R × V)) :
    (Cr.insert r v : Cr K R V Unit).cost key m = ⟨0, 1, 0⟩ := by
  show Cr.cost key (.call (.put r v fun b =>
    (if b then Cr.call (.ret ()) else .ret () : Cr K R V Unit))) m = _
  simp only [Cr.cost]
  split <;> rfl

/-! ### Counting entries -/

open Classical in
/-- How many of the entries `m` are among the entries `m0`. -/
noncomputable def kept {E : Type} (m0 m : List E) : Nat := (m.filter fun y => decide (y ∈ m0)).length

theorem kept_self {E : Type} (m : List E) : kept m m = m.length := by
  unfold kept
  rw [List.filter_eq_self.2]
  simp

open Classical in
theorem kept_lt {E : Type} {m0 m m' : List E} {x : E} (hm' : m'.Nodup) (hx : x ∈ m) (hx0 : x ∈ m0)
    (hx' : x ∉ m') (h : ∀ y ∈ m', y ∈ m0 → y ∈ m) : kept m0 m' + 1 ≤ kept m0 m := by
  unfold kept
  have : (x :: m'.filter fun y => decide (y ∈ m0)).length ≤
      (m.filter fun y => decide (y ∈ m0)).length := by
    refine List.Nodup.length_le_of_subset ?_ ?_
    · rw [List.nodup_cons]
      exact ⟨by simp [hx'], hm'.filter _⟩
    · intro y hy
      simp only [List.mem_cons, List.mem_filter, decide_eq_true_eq] at hy ⊢
      rcases hy with rfl | hy
      · exact ⟨hx, hx0⟩
      · exact ⟨h y hy.1 hy.2, hy.2⟩
  simpa using this

open Classical in
theorem kept_ge {E : Type} {m0 m : List E} {p : E → Bool} (h0 : m0.Nodup)
    (h : ∀ x ∈ m0, p x = false → x ∈ m) : m0.length ≤ kept m0 m + m0.countP p := by
  unfold kept
  have h1 : (m0.filter fun y => !p y).length ≤ (m.filter fun y => decide (y ∈ m0)).length := by
    refine List.Nodup.length_le_of_subset (h0.filter _) ?_
    intro y hy
    simp only [List.mem_filter, Bool.not_eq_true', decide_eq_true_eq] at hy ⊢
    exact ⟨h y hy.1 hy.2, hy.1⟩
  have h2 := List.length_eq_countP_add_countP p (l := m0)
  rw [← List.countP_eq_length_filter] at h1
  have h3 : m0.countP (fun a => !p a) = m0.countP (fun a => decide ¬ p a = true) := by
    congr 1; funext a; simp
  omega

theorem length_le_kept {E : Type} {m0 m : List E} (N : Nat)
    (h : ∀ l : List E, l.Sublist m → (∀ y ∈ l, y ∉ m0) → l.length ≤ N) :
    m.length ≤ kept m0 m + N := by
  classical
  unfold kept
  have h1 := List.length_eq_countP_add_countP (fun y => decide (y ∈ m0)) (l := m)
  rw [List.countP_eq_length_filter, List.countP_eq_length_filter] at h1
  have h2 := h (m.filter fun a => decide ¬ decide (a ∈ m0) = true) List.filter_sublist (by
    intro y hy
    simp only [List.mem_filter, decide_eq_true_eq] at hy
    exact hy.2)
  have h3 : (m.filter fun y => decide (y ∈ m0)).length =
      (m.filter fun y => @decide (y ∈ m0) (Classical.propDecidable _)).length := by
    congr 2
    funext y
    congr
  omega

end

namespace RangeMap
variable {K : Type} [LE K] [LT K] [DecidableLE K] [DecidableLT K]
  [Std.IsLinearPreorder K] [Std.LawfulOrderLT K] {V : Type}

theorem Sep.nodup {l : List (Range K × V)} (hl : Sep l) : l.Nodup :=
  hl.pw.imp_of_mem fun {a b} ha hb hab => by
    rintro rfl
    have := hab.1
    grind

/-- The calls made by cutting `n` out of a stored range. -/
theorem cut_cost {α : Type} (x : Range K × V) (n : Range K) (m : List (Range K × V))
    (c : Cr K (Range K) V α) (hc : ∀ m, c.cost Range.start m = 0) :
    (do
      Cr.remove x.1.start
      insertLeftC x.1 x.2 n
      insertRightC x.1 x.2 n
      c : Cr K (Range K) V α).cost Range.start m =
    ⟨0, (if x.1.start < n.start then 1 else 0) + (if n.stop < x.1.stop then 1 else 0), 1⟩ := by
  have hright : ∀ m, (do insertRightC x.1 x.2 n; c : Cr K (Range K) V α).cost Range.start m =
      ⟨0, if n.stop < x.1.stop then 1 else 0, 0⟩ := by
    intro m
    unfold insertRightC
    by_cases h : n.stop < x.1.stop
    · simp only [if_pos h]
      refine (Cr.cost_insert_bind _ _ _ _ _).trans ?_
      rw [hc]; rfl
    · simp only [if_neg h]
      exact hc m
  refine (Cr.cost_remove_bind _ _ _ _).trans ?_
  unfold insertLeftC
  by_cases h : x.1.start < n.start
  · simp only [if_pos h]
    refine (congrArg _ (Cr.cost_insert_bind _ _ _ _ _)).trans ?_
    rw [hright]
    refine Cost.ext ?_ ?_ ?_ <;> simp
  · simp only [if_neg h]
    refine (congrArg _ (hright _)).trans ?_
    refine Cost.ext ?_ ?_ ?_ <;> simp

/-- At most one piece is left on either side of `r`. -/
theorem pieces_le {m0 m : List (Range K × V)} {r : Range K} (h0 : Sep m0) (hs : Sep m)
    (h : ∀ y ∈ m, y ∈ m0 ∨ ∃ x ∈ m0, Ovl r x.1 ∧ Piece r x y) : m.length ≤ kept m0 m + 2 := by
  refine length_le_kept 2 fun l hl hn => ?_
  have hp := hs.pw.sublist hl
  have hq : ∀ y ∈ l, y.1.start < y.1.stop ∧ (y.1.stop = r.start ∨ y.1.start = r.stop) := by
    intro y hy
    refine ⟨hs.ne y (hl.subset hy), ?_⟩
    rcases h y (hl.subset hy) with h1 | ⟨x, _, _, ⟨_, rfl⟩ | ⟨_, rfl⟩⟩
    · exact absurd h1 (hn y hy)
    · exact Or.inl rfl
    · exact Or.inr rfl
  clear hl hn
  match l, hp, hq with
  | [], _, _ => simp
  | [_], _, _ => simp
  | [_, _], _, _ => simp
  | a :: b :: c :: t, hp, hq =>
    exfalso
    have ha := hq a (by simp)
    have hb := hq b (by simp)
    have hc := hq c (by simp)
    simp only [List.pairwise_cons] at hp
    have hab := hp.1 b (by simp)
    have hac := hp.1 c (by simp)
    have hbc := hp.2.1 c (by simp)
    grind [Before]

section
variable [BEq V] [PartialEquivBEq V]

theorem adjustInsert_cost (x : Range K × V) (n : Range K) (v : V) (m : List (Range K × V)) :
    (adjustTouchingRangesForInsertC x.1 x.2 n v).cost Range.start m =
    if x.2 == v then ⟨0, 0, 1⟩ else if n.overlaps x.1 then
      ⟨0, (if x.1.start < n.start then 1 else 0) + (if n.stop < x.1.stop then 1 else 0), 1⟩
    else 0 := by
  unfold adjustTouchingRangesForInsertC
  refine (Cr.cost_user_bind _ _ _).trans ?_
  by_cases hv : (x.2 == v) = true
  · rw [if_pos hv, if_pos hv]
    rfl
  · rw [if_neg hv, if_neg hv]
    refine (Cr.cost_user_bind _ _ _).trans ?_
    by_cases hov : n.overlaps x.1 = true
    · rw [if_pos hov, if_pos hov]
      exact cut_cost x n m _ fun _ => rfl
    · rw [if_neg hov, if_neg hov]
      rfl

/-- One adjustment: calls, size of the tree, and how many of the original entries are left. -/
theorem adjustInsert_count {m0 m : List (Range K × V)} {r n : Range K} {v : V} (h0 : Sep m0)
    (c0 : Coal m0) (hr : r.start < r.stop) (hi : IInv m0 r v m n) (h : EInv m0 r v m n)
    {x : Range K × V} (hx : x ∈ m)
    (ht1 : x.1.start ≤ n.stop) (ht2 : n.start ≤ x.1.stop)
    {m' : List (Range K × V)} {n' : Range K}
    (heq : adjustTouchingRangesForInsert m x.1 x.2 n v = (m', n')) (c : Cost)
    (hc : (adjustTouchingRangesForInsertC x.1 x.2 n v).cost Range.start m = c) :
    c.searches = 0 ∧ m'.length + c.deletes = m.length + c.puts ∧
    c.deletes + kept m0 m' ≤ kept m0 m ∧
    (((x.2 == v) = true ∨ (x.1.start < n.stop ∧ n.start < x.1.stop)) → c.deletes = 1) := by
  have h' := h.step h0 c0 hr hi hx ht1 ht2 heq
  obtain ⟨hi', hadj⟩ := adjustInsert_spec hr hi hx ht1 ht2 heq
  have hns := hi.ns
  have hne := hi.ne
  have hxx := hi.sep.ne x hx
  rw [adjustInsert_cost] at hc
  subst hc
  rcases hadj with ⟨hv, e1, e2, hm, hl⟩ | ⟨hv, e1, e2, hn, hm, hl⟩ | ⟨hv, e1, hn, hm⟩
  · rw [if_pos hv]
    refine ⟨rfl, by simpa using hl, ?_, fun _ => rfl⟩
    have hx0 : x ∈ m0 := by
      rcases h.src x hx with h1 | ⟨x0, h1, h2, h3, h4⟩
      · exact h1
      · exfalso
        rcases h4 with ⟨_, h4⟩ | ⟨_, h4⟩ <;> rw [h4] at hv <;> simp [h2] at hv
    have := kept_lt hi'.sep.nodup hx hx0 (by rw [hm]; grind) (fun y hy _ => ((hm y).1 hy).1)
    show 1 + _ ≤ _
    omega
  · have hov : n.overlaps x.1 = true := by
      simp only [Range.overlaps, decide_eq_true_eq, lt_rmin, rmax_lt]
      grind
    rw [if_neg (by simp [hv]), if_pos hov]
    refine ⟨rfl, by simp only; omega, ?_, fun _ => rfl⟩
    have hxm : x ∉ m' := by
      rw [hm]
      rintro (h6 | ⟨h8, h6⟩ | ⟨h8, h6⟩)
      · exact h6.2 rfl
      · have h7 := congrArg (fun e => e.1.stop) h6
        simp only at h7
        grind
      · have h7 := congrArg (fun e => e.1.start) h6
        simp only at h7
        grind
    have hx0 : x ∈ m0 := by
      rcases h.src x hx with h1 | ⟨x0, h1, h2, h3, h4⟩
      · exact h1
      · exfalso
        have hsub : x0.1.start ≤ x.1.start ∧ x.1.stop ≤ x0.1.stop ∧
            ¬ (x0.1.stop ≤ x.1.stop ∧ x.1.start ≤ x0.1.start) := by
          unfold Ovl at h3
          rcases h4 with ⟨h4, rfl⟩ | ⟨h4, rfl⟩ <;> grind
        rcases h'.kept x0 h1 with h5 | h5 | h5
        · rw [hm] at h5
          rcases h5 with h5 | ⟨h8, h5⟩ | ⟨h8, h5⟩
          · have := hi.sep.tri x hx x0 h5.1
            grind
          · subst h5; grind
          · subst h5; grind
        · simp [h2] at h5
        · exact hxm (h5.2.2 x h4)
    have := kept_lt hi'.sep.nodup hx hx0 hxm (by
      intro y hy hy0
      rw [hm] at hy
      rcases hy with h6 | ⟨h8, h6⟩ | ⟨h8, h6⟩
      · exact h6.1
      · exfalso
        have h9 := h0.tri x hx0 y hy0
        have h10 := h0.ne y hy0
        subst h6
        grind
      · exfalso
        have h9 := h0.tri x hx0 y hy0
        have h10 := h0.ne y hy0
        subst h6
        grind)
    show 1 + _ ≤ _
    omega
  · subst hm hn
    have hov : ¬ n'.overlaps x.1 = true := by
      simp only [Range.overlaps, decide_eq_true_eq, lt_rmin, rmax_lt]
      grind
    rw [if_neg (by simp [hv]), if_neg hov]
    refine ⟨rfl, rfl, ?_, fun h => ?_⟩
    · show 0 + _ ≤ _
      omega
    · simp [hv] at h
      exact absurd h e1

theorem insertLoop_count {m0 : List (Range K × V)} {r : Range K} {v : V} {hi : K} (h0 : Sep m0)
    (c0 : Coal m0) (hr : r.start < r.stop) : ∀ (fuel : Nat) (m : List (Range K × V)) (n : Range K)
    (m' : List (Range K × V)) (n' : Range K) (c : Cost), IInv m0 r v m n → EInv m0 r v m n →
    hi ≤ n.stop → insertLoop hi v fuel m n = .ok (m', n') →
    (insertLoopC hi v fuel n).cost Range.start m = c →
    c.searches = c.deletes + 1 ∧ m'.length + c.deletes = m.length + c.puts ∧
    c.deletes + kept m0 m' ≤ kept m0 m := by
  intro fuel
  induction fuel with
  | zero => intro m n m' n' c _ _ _ h; simp [insertLoop] at h
  | succ f ih =>
    intro m n m' n' c hiv he hh h hc
    have hl := he.left hiv h0
    unfold insertLoop at h
    unfold insertLoopC at hc
    cases hrg : BTreeMap.range Range.start (.included n.start) (.included hi) m with
    | error p => simp [hrg, bind, Except.bind] at h
    | ok l =>
      simp only [hrg, bind, Except.bind] at h
      rw [Cr.cost_range_bind hrg] at hc
      cases hd : l.head? with
      | none =>
        simp only [hd, pure, Except.pure, Except.ok.injEq, Prod.mk.injEq] at h hc
        obtain ⟨rfl, rfl⟩ := h
        subst hc
        exact ⟨rfl, rfl, by show 0 + 0 + _ ≤ _; omega⟩
      | some x =>
        have hx : x ∈ m ∧ n.start ≤ x.1.start ∧ x.1.start ≤ hi := by
          have h1 := List.mem_of_head? hd
          unfold BTreeMap.range at hrg
          split at hrg
          · simp at hrg
          · simp only [Except.ok.injEq] at hrg
            rw [← hrg, List.mem_filter] at h1
            simpa [Bound.admitsAsLower, Bound.admitsAsUpper] using h1
        have hxn := hiv.sep.ne x hx.1
        simp only [hd] at h hc
        rw [Cr.cost_user_bind] at hc
        by_cases hb : (keq x.1.start n.stop && !(x.2 == v)) = true
        · rw [if_pos hb] at h hc
          simp only [pure, Except.pure, Except.ok.injEq, Prod.mk.injEq] at h
          obtain ⟨rfl, rfl⟩ := h
          subst hc
          exact ⟨rfl, rfl, by show 0 + 0 + _ ≤ _; omega⟩
        · rw [if_neg hb] at h hc
          rw [Cr.cost_user_bind] at hc
          generalize hadj : adjustTouchingRangesForInsert m x.1 x.2 n v = p at h
          obtain ⟨m1, n1⟩ := p
          have ht1 : x.1.start ≤ n.stop := by grind
          have ht2 : n.start ≤ x.1.stop := by grind
          have hsp := adjustInsert_spec hr hiv hx.1 ht1 ht2 hadj
          rw [(adjustInsert_sim h0 c0 hr hiv he hx.1 ht1 ht2 hadj).cost_bind] at hc
          have hdel : (x.2 == v) = true ∨ (x.1.start < n.stop ∧ n.start < x.1.stop) := by
            cases hv : x.2 == v with
            | true => exact Or.inl rfl
            | false =>
              simp [hv, keq] at hb
              right
              grind
          obtain ⟨k1, k2, k3, k4⟩ := adjustInsert_count h0 c0 hr hiv he hx.1 ht1 ht2 hadj _ rfl
          have k4 := k4 hdel
          obtain ⟨k5, k6, k7⟩ := ih m1 n1 m' n' _ hsp.1 (he.step h0 c0 hr hiv hx.1 ht1 ht2 hadj) (by
            rcases hsp.2 with ⟨_, _, e2, _⟩ | ⟨_, _, _, e, _⟩ | ⟨_, _, e, _⟩
            · rw [e2, le_rmax]; exact Or.inl hh
            · rw [e]; exact hh
            · rw [e]; exact hh) h rfl
          subst hc
          simp only [Cost.add_searches, Cost.add_puts, Cost.add_deletes]
          omega

theorem insertPrefix_count {m0 : List (Range K × V)} {r : Range K} {v : V} (h0 : Sep m0)
    (c0 : Coal m0) (hr : r.start < r.stop) {m' : List (Range K × V)} {n' : Range K}
    (h : insertPrefix m0 r v = .ok (m', n')) (c : Cost)
    (hc : (insertPrefixC r v).cost Range.start m0 = c) :
    c.searches = 1 ∧ m'.length + c.deletes = m0.length + c.puts ∧
    c.deletes + kept m0 m' ≤ kept m0 m0 := by
  have hiv : IInv m0 r v m0 r := IInv.refl h0 c0
  have he : EInv m0 r v m0 r := EInv.refl
  unfold insertPrefix at h
  unfold insertPrefixC at hc
  cases hrg : BTreeMap.range Range.start .unbounded (.included r.start) m0 with
  | error p => simp [hrg, bind, Except.bind] at h
  | ok l =>
    simp only [hrg, bind, Except.bind] at h
    have key : ∀ x ∈ (l.reverse.take 2).filter fun e => e.1.touches r,
        adjustTouchingRangesForInsert m0 x.1 x.2 r v = (m', n') →
        ∀ c', (adjustTouchingRangesForInsertC x.1 x.2 r v).cost Range.start m0 = c' →
        c = ⟨1, 0, 0⟩ + c' →
        c.searches = 1 ∧ m'.length + c.deletes = m0.length + c.puts ∧
        c.deletes + kept m0 m' ≤ kept m0 m0 := by
      intro x hx hadj c' hc' hcc
      rw [List.mem_filter] at hx
      have hcl : x ∈ l := List.mem_reverse.1 ((List.take_sublist _ _).subset hx.1)
      have hcm : x ∈ m0 := by
        unfold BTreeMap.range at hrg
        split at hrg
        · simp at hrg
        · simp only [Except.ok.injEq] at hrg
          rw [← hrg, List.mem_filter] at hcl
          exact hcl.1
      have ht := hx.2
      simp only [Range.touches, decide_eq_true_eq, le_rmin, rmax_le] at ht
      obtain ⟨k1, k2, k3, -⟩ := adjustInsert_count h0 c0 hr hiv he hcm (by grind) (by grind) hadj _ hc'
      subst hcc
      simp only [Cost.add_searches, Cost.add_puts, Cost.add_deletes]
      omega
    rw [Cr.cost_range_bind hrg, Cr.cost_user_bind] at hc
    generalize hcs : (l.reverse.take 2).filter (fun e => e.1.touches r) = cs at h hc key
    match cs, h, key, hc with
    | [], h, _, hc =>
      simp only [pure, Except.pure, Except.ok.injEq, Prod.mk.injEq] at h
      obtain ⟨rfl, rfl⟩ := h
      subst hc
      exact ⟨rfl, rfl, by show 0 + 0 + _ ≤ _; omega⟩
    | [x], h, key, hc =>
      simp only [pure, Except.pure, Except.ok.injEq] at h
      exact key x (by simp) h _ rfl hc.symm
    | c0' :: x :: t, h, key, hc =>
      simp only [pure, Except.pure, Except.ok.injEq] at h
      exact key x (by simp) h _ rfl hc.symm

/-- The calls of a whole `insert`; `p` tells the entries that touch `r`. -/
theorem insert_count {m : RangeMap K V} (h : WF m.btm) {r : Range K} (v : V)
    (hr : r.start < r.stop) (p : Range K × V → Bool) (hp : ∀ x ∈ m.btm, Tch r x.1 → p x = true) :
    (m.insertCost r v).searches ≤ m.btm.countP p + 2 ∧ (m.insertCost r v).puts ≤ 3 ∧
    (m.insertCost r v).deletes ≤ m.btm.countP p ∧ (m.insertCost r v).searches ≤ (m.insertCost r v).deletes + 2 ∧
    ∀ m', m.insert r v = .ok m' → m'.len + (m.insertCost r v).deletes = m.len + (m.insertCost r v).puts := by
  obtain ⟨m1, n1, hpre, hi1, hl1, hlen1, hst1⟩ := insertPrefix_spec (v := v) hr h.sep h.coal
  obtain ⟨m2, n2, hloop, hi2, hl2, hd2, hlen2, hst2⟩ :=
    insertLoop_spec (hi := n1.stop) hr (m.len + 1) m1 n1 hi1 hl1 ⟨by grind, by grind⟩ hi1.ne
      (Or.inl hlen1)
  have hlo := hloop (m.len + 2) (by omega)
  obtain ⟨k1, k2, k3⟩ := insertPrefix_sim h.sep h.coal hr hpre
  have k4 := insertLoop_sim h.sep h.coal hr _ _ _ _ _ k1 k2 (by grind) hlo
  have he := EInv.steps h.sep h.coal hr (hst1.trans hst2) (IInv.refl h.sep h.coal) EInv.refl
  obtain ⟨a1, a2, a3⟩ := insertPrefix_count h.sep h.coal hr hpre _ rfl
  obtain ⟨b1, b2, b3⟩ := insertLoop_count h.sep h.coal hr _ _ _ _ _ _ k1 k2 (by grind) hlo rfl
  have hcost : m.insertCost r v = (insertPrefixC r v).cost Range.start m.btm +
      ((insertLoopC n1.stop v (m.len + 2) n1).cost Range.start m1 + ⟨0, 1, 0⟩) := by
    unfold insertCost insertProgram
    refine (Cr.cost_user_bind _ _ _).trans ?_
    rw [if_pos hr]
    show Cr.cost Range.start (Cr.bind (insertPrefixC r v) _) m.btm = _
    refine (k3.cost_bind _).trans (congrArg _ ?_)
    refine (Cr.cost_user_bind _ _ _).trans ?_
    refine (k4.cost_bind _).trans (congrArg _ ?_)
    exact Cr.cost_insert_bind _ _ _ _ _
  have q1 := pieces_le (r := r) h.sep hi2.sep fun y hy =>
    (he.src y hy).imp id fun ⟨x, h1, h2, h3, h4⟩ => ⟨x, h1, h3, h4⟩
  have q2 : m.btm.length ≤ kept m.btm m2 + m.btm.countP p := by
    refine kept_ge h.sep.nodup fun x hx hpx => ?_
    rcases he.kept x hx with h1 | h1 | h1
    · exact h1
    · simp [hp x hx h1.2.1] at hpx
    · have : Tch r x.1 := by have := h1.2.1; grind [Ovl, Tch]
      simp [hp x hx this] at hpx
  rw [kept_self] at a3
  rw [hcost]
  simp only [Cost.add_searches, Cost.add_puts, Cost.add_deletes]
  have := k1.sep
  refine ⟨by omega, by omega, by omega, by omega, fun m' hm => ?_⟩
  have hns := hi2.ns
  have hne := hi2.ne
  have hfit : Fits m2 n2 := by
    refine ⟨by grind, ?_⟩
    intro e he
    have := hl2 e he
    have := hd2 e he
    grind
  unfold insert insertFuel at hm
  simp only [hr, not_true_eq_false, if_false, bind, Except.bind, pure, Except.pure, hpre, hlo,
    Except.ok.injEq] at hm
  subst hm
  simp only [len, hi2.sep.length_insert hfit v] at *
  omega

end

/-! ### remove -/

section
variable [BEq V]

theorem adjustRemove_count {m0 m : List (Range K × V)} {r : Range K} (h0 : Sep m0)
    (hr : r.start < r.stop) (hi : RInv m0 r m) (h : REInv m0 r m)
    {x : Range K × V} (hx : x ∈ m) (ht1 : x.1.start < r.stop) (ht2 : r.start < x.1.stop)
    {m' : List (Range K × V)} (heq : adjustOverlappingRangesForRemove m x.1 x.2 r = m') (c : Cost)
    (hc : (adjustOverlappingRangesForRemoveC x.1 x.2 r).cost Range.start m = c) :
    c.searches = 0 ∧ m'.length + c.deletes = m.length + c.puts ∧
    c.deletes + kept m0 m' ≤ kept m0 m ∧ c.deletes = 1 := by
  obtain ⟨hi', hm, hl⟩ := adjustRemove_spec hr hi hx ht1 ht2
  rw [heq] at hi' hm hl
  unfold adjustOverlappingRangesForRemoveC at hc
  have hcc : c = _ := hc.symm.trans (cut_cost x r m Cr.user fun _ => rfl)
  subst hcc
  refine ⟨rfl, by simp only; omega, ?_, rfl⟩
  have hxm : x ∉ m' := by
    rw [hm]
    rintro (h6 | ⟨h8, h6⟩ | ⟨h8, h6⟩)
    · exact h6.2 rfl
    · have h7 := congrArg (fun e => e.1.stop) h6
      simp only at h7
      grind
    · have h7 := congrArg (fun e => e.1.start) h6
      simp only at h7
      grind
  have hx0 : x ∈ m0 := by
    rcases h.src x hx with h1 | ⟨x0, h1, h2, ⟨h3, rfl⟩ | ⟨h3, rfl⟩⟩
    · exact h1
    · exfalso; grind
    · exfalso; grind
  have := kept_lt hi'.sep.nodup hx hx0 hxm (by
    intro y hy hy0
    rw [hm] at hy
    rcases hy with h6 | ⟨h8, h6⟩ | ⟨h8, h6⟩
    · exact h6.1
    · exfalso
      have h9 := h0.tri x hx0 y hy0
      have h10 := h0.ne y hy0
      subst h6
      grind
    · exfalso
      have h9 := h0.tri x hx0 y hy0
      have h10 := h0.ne y hy0
      subst h6
      grind)
  show 1 + _ ≤ _
  omega

theorem removeLoop_count {m0 : List (Range K × V)} {r : Range K} (h0 : Sep m0)
    (hr : r.start < r.stop) : ∀ (fuel : Nat) (m m' : List (Range K × V)) (c : Cost),
    RInv m0 r m → REInv m0 r m → removeLoop r fuel m = .ok m' →
    (removeLoopC r fuel : Cr K (Range K) V Unit).cost Range.start m = c →
    c.searches = c.deletes + 1 ∧ m'.length + c.deletes = m.length + c.puts ∧
    c.deletes + kept m0 m' ≤ kept m0 m := by
  intro fuel
  induction fuel with
  | zero => intro m m' c _ _ h; simp [removeLoop] at h
  | succ f ih =>
    intro m m' c hiv he h hc
    unfold removeLoop at h
    unfold removeLoopC at hc
    cases hrg : BTreeMap.range Range.start (.excluded r.start) (.excluded r.stop) m with
    | error p => simp [hrg, bind, Except.bind] at h
    | ok l =>
      simp only [hrg, bind, Except.bind] at h
      rw [Cr.cost_range_bind hrg] at hc
      cases hd : l.head? with
      | none =>
        simp only [hd, pure, Except.pure, Except.ok.injEq] at h hc
        subst h
        subst hc
        exact ⟨rfl, rfl, by show 0 + 0 + _ ≤ _; omega⟩
      | some x =>
        have hx : x ∈ m ∧ r.start < x.1.start ∧ x.1.start < r.stop := by
          have h1 := List.mem_of_head? hd
          unfold BTreeMap.range at hrg
          split at hrg
          · simp at hrg
          · simp only [Except.ok.injEq] at hrg
            rw [← hrg, List.mem_filter] at h1
            simpa [Bound.admitsAsLower, Bound.admitsAsUpper] using h1
        have hxn := hiv.sep.ne x hx.1
        simp only [hd] at h hc
        rw [Cr.cost_user_bind] at hc
        obtain ⟨k1, k2, k3⟩ := adjustRemove_sim h0 hr hiv he hx.1 (by grind) (by grind)
        rw [k3.cost_bind] at hc
        obtain ⟨a1, a2, a3, a4⟩ := adjustRemove_count h0 hr hiv he hx.1 (by grind) (by grind) rfl _ rfl
        obtain ⟨b1, b2, b3⟩ := ih _ _ _ k1 k2 h rfl
        subst hc
        simp only [Cost.add_searches, Cost.add_puts, Cost.add_deletes]
        omega

theorem removePrefix_count {m0 : List (Range K × V)} {r : Range K} (h0 : Sep m0) (c0 : Coal m0)
    (hr : r.start < r.stop) {m' : List (Range K × V)} (h : removePrefix m0 r = .ok m') (c : Cost)
    (hc : (removePrefixC r : Cr K (Range K) V Unit).cost Range.start m0 = c) :
    c.searches = 1 ∧ m'.length + c.deletes = m0.length + c.puts ∧
    c.deletes + kept m0 m' ≤ kept m0 m0 := by
  have hiv : RInv m0 r m0 := RInv.refl h0 c0
  have he : REInv m0 r m0 := ⟨fun y hy => Or.inl hy, fun x hx => Or.inl hx⟩
  unfold removePrefix at h
  unfold removePrefixC at hc
  cases hrg : BTreeMap.range Range.start .unbounded (.included r.start) m0 with
  | error p => simp [hrg, bind, Except.bind] at h
  | ok l =>
    simp only [hrg, bind, Except.bind] at h
    rw [Cr.cost_range_bind hrg, Cr.cost_user_bind] at hc
    cases hd : l.getLast?.filter fun e => e.1.overlaps r with
    | none =>
      simp only [hd, pure, Except.pure, Except.ok.injEq] at h hc
      subst h
      subst hc
      exact ⟨rfl, rfl, by show 0 + 0 + _ ≤ _; omega⟩
    | some x =>
      simp only [hd, pure, Except.pure, Except.ok.injEq] at h hc
      rw [Cr.cost_user_bind] at hc
      have hx : x ∈ m0 ∧ x.1.overlaps r = true := by
        rw [Option.filter_eq_some_iff] at hd
        have h1 := List.mem_of_getLast? hd.1
        unfold BTreeMap.range at hrg
        split at hrg
        · simp at hrg
        · simp only [Except.ok.injEq] at hrg
          rw [← hrg, List.mem_filter] at h1
          exact ⟨h1.1, hd.2⟩
      have hov := hx.2
      simp only [Range.overlaps, decide_eq_true_eq, lt_rmin, rmax_lt] at hov
      obtain ⟨a1, a2, a3, a4⟩ := adjustRemove_count h0 hr hiv he hx.1 (by grind) (by grind) h _ rfl
      subst hc
      simp only [Cost.add_searches, Cost.add_puts, Cost.add_deletes]
      omega

/-- The calls of a whole `remove`; `p` tells the entries that overlap `r`. -/
theorem remove_count {m : RangeMap K V} (h : WF m.btm) {r : Range K}
    (hr : r.start < r.stop) (p : Range K × V → Bool) (hp : ∀ x ∈ m.btm, Ovl r x.1 → p x = true) :
    (m.removeCost r).searches ≤ m.btm.countP p + 2 ∧ (m.removeCost r).puts ≤ 2 ∧
    (m.removeCost r).deletes ≤ m.btm.countP p ∧ (m.removeCost r).searches ≤ (m.removeCost r).deletes + 2 ∧
    ∀ m', m.remove r = .ok m' → m'.len + (m.removeCost r).deletes = m.len + (m.removeCost r).puts := by
  obtain ⟨m', hm, -⟩ := remove_spec h hr
  have hm : m.remove r = .ok m' := hm _ (Nat.le_refl _)
  have hm0 := hm
  unfold remove removeFuel at hm
  simp only [hr, not_true_eq_false, if_false, bind, Except.bind, pure, Except.pure] at hm
  cases hpre : removePrefix m.btm r with
  | error p => simp [hpre] at hm
  | ok m1 =>
    simp only [hpre] at hm
    cases hlo : removeLoop r (m.len + 2) m1 with
    | error p => simp [hlo] at hm
    | ok m2 =>
      obtain ⟨k1, k2, k3⟩ := removePrefix_sim h.sep h.coal hr hpre
      obtain ⟨k4, k5, k6⟩ := removeLoop_sim h.sep hr _ _ _ k1 k2 hlo
      obtain ⟨a1, a2, a3⟩ := removePrefix_count h.sep h.coal hr hpre _ rfl
      obtain ⟨b1, b2, b3⟩ := removeLoop_count h.sep hr _ _ _ _ k1 k2 hlo rfl
      have hcost : m.removeCost r = (removePrefixC r : Cr K (Range K) V Unit).cost Range.start m.btm +
          ((removeLoopC r (m.len + 2) : Cr K (Range K) V Unit).cost Range.start m1 + 0) := by
        unfold removeCost removeProgram
        refine (Cr.cost_user_bind _ _ _).trans ?_
        rw [if_pos hr]
        show Cr.cost Range.start (Cr.bind (removePrefixC r) _) m.btm = _
        refine (k3.cost_bind _).trans (congrArg _ ?_)
        refine (Cr.cost_user_bind _ _ _).trans ?_
        exact k6.cost_bind _
      have q1 := pieces_le (r := r) h.sep k4.sep k5.src
      have q2 : m.btm.length ≤ kept m.btm m2 + m.btm.countP p := by
        refine kept_ge h.sep.nodup fun x hx hpx => ?_
        rcases k5.kept x hx with h1 | h1
        · exact h1
        · simp [hp x hx h1.1] at hpx
      rw [kept_self] at a3
      rw [hcost]
      simp only [Cost.add_searches, Cost.add_puts, Cost.add_deletes, Cost.zero_searches,
        Cost.zero_puts, Cost.zero_deletes]
      refine ⟨by omega, by omega, by omega, by omega, fun m'' hm'' => ?_⟩
      simp only [hlo, Except.ok.injEq] at hm
      rw [hm0] at hm''
      obtain rfl := Except.ok.inj hm''
      subst hm
      simp only [len] at *
      omega

end
end RangeMap
end Verif

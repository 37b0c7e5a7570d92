import Verif.Proof.Cost
import Verif.Proof.ICrash

/-!
# Counting the calls `RangeInclusiveMap::insert` and `remove` make
-/
set_option linter.unusedSectionVars false
set_option linter.unusedVariables false
namespace Verif.RangeInclusiveMap
open Spec (Next LawfulSteps)
variable {K : Type} [LE K] [LT K] [DecidableLE K] [DecidableLT K]
  [Std.IsLinearPreorder K] [Std.LawfulOrderLT K] {V : Type}

theorem Sep.nodup {l : List (RangeInclusive K × V)} (hl : Sep l) : l.Nodup :=
  hl.pw.imp_of_mem fun {a b} ha hb hab => by
    rintro rfl
    have := hl.ne a ha
    grind [Before]

/-- The calls made by cutting `n` out of a stored range. -/
theorem cut_cost {S : StepFns K} {α : Type} (x : RangeInclusive K × V) (n : RangeInclusive K)
    (m : List (RangeInclusive K × V)) {p s : K}
    (hp : x.1.start < n.start → S.subOne n.start = .ok p)
    (hs : n.stop < x.1.stop → S.addOne n.stop = .ok s)
    (c : Cr K (RangeInclusive K) V α) (hc : ∀ m, c.cost RangeInclusive.start m = 0) :
    (do
      Cr.remove x.1.start
      insertLeftC S x.1 x.2 n
      insertRightC S x.1 x.2 n
      c : Cr K (RangeInclusive K) V α).cost RangeInclusive.start m =
    ⟨0, (if x.1.start < n.start then 1 else 0) + (if n.stop < x.1.stop then 1 else 0), 1⟩ := by
  have hright : ∀ m, (do insertRightC S x.1 x.2 n; c :
      Cr K (RangeInclusive K) V α).cost RangeInclusive.start m =
      ⟨0, if n.stop < x.1.stop then 1 else 0, 0⟩ := by
    intro m
    unfold insertRightC
    by_cases h : n.stop < x.1.stop
    · simp only [if_pos h, hs h]
      refine (Cr.cost_insert_bind _ _ _ _ _).trans ?_
      rw [hc]; rfl
    · simp only [if_neg h]
      exact hc m
  refine (Cr.cost_remove_bind _ _ _ _).trans ?_
  unfold insertLeftC
  by_cases h : x.1.start < n.start
  · simp only [if_pos h, hp h]
    refine (congrArg _ (Cr.cost_insert_bind _ _ _ _ _)).trans ?_
    rw [hright]
    refine Cost.ext ?_ ?_ ?_ <;> simp
  · simp only [if_neg h]
    refine (congrArg _ (hright _)).trans ?_
    refine Cost.ext ?_ ?_ ?_ <;> simp

/-- At most one piece is left on either side of `r`. -/
theorem pieces_le {S : StepFns K} (hS : LawfulSteps S) {m0 m : List (RangeInclusive K × V)}
    {r : RangeInclusive K} (h0 : Sep m0) (hs : Sep m)
    (h : ∀ y ∈ m, y ∈ m0 ∨ ∃ x ∈ m0, Ovl r x.1 ∧ Piece S r x y) : m.length ≤ kept m0 m + 2 := by
  refine length_le_kept 2 fun l hl hn => ?_
  have hp := hs.pw.sublist hl
  have hq : ∀ y ∈ l, y.1.start ≤ y.1.stop ∧
      (Next y.1.stop r.start ∨ Next r.stop y.1.start) := by
    intro y hy
    refine ⟨hs.ne y (hl.subset hy), ?_⟩
    rcases h y (hl.subset hy) with h1 | ⟨x, _, _, h1⟩
    · exact absurd h1 (hn y hy)
    · obtain ⟨-, ⟨-, -, h1⟩ | ⟨-, -, h1⟩⟩ := h1.facts hS
      · exact Or.inl h1
      · exact Or.inr h1
  clear hl hn
  match l, hp, hq with
  | [], _, _ => simp
  | [_], _, _ => simp
  | [_, _], _, _ => simp
  | a :: b :: c :: t, hp, hq =>
    exfalso
    have ha := hq a (by simp)
    have hb := hq b (by simp)
    have hc := hq c (by simp)
    simp only [List.pairwise_cons] at hp
    have hab := hp.1 b (by simp)
    have hac := hp.1 c (by simp)
    have hbc := hp.2.1 c (by simp)
    -- two different entries cannot lie on the same side of `r`
    have same : ∀ a b : RangeInclusive K × V, a.1.start ≤ a.1.stop → b.1.start ≤ b.1.stop →
        a.1.stop < b.1.start →
        ¬ (Next a.1.stop r.start ∧ Next b.1.stop r.start) ∧
        ¬ (Next r.stop a.1.start ∧ Next r.stop b.1.start) := by
      intro a b ha hb hab
      constructor
      · rintro ⟨h1, h2⟩
        have h3 := h1.2 b.1.stop (by grind)
        have h4 := h2.1
        grind
      · rintro ⟨h1, h2⟩
        have h3 := h2.2 a.1.start h1.1
        grind
    have s1 := same a b ha.1 hb.1 (by grind [Before])
    have s2 := same a c ha.1 hc.1 (by grind [Before])
    have s3 := same b c hb.1 hc.1 (by grind [Before])
    rcases ha.2 with h1 | h1 <;> rcases hb.2 with h2 | h2 <;> rcases hc.2 with h3 | h3 <;> grind

section
variable [BEq V] [PartialEquivBEq V]

theorem adjustInsert_cost {S : StepFns K} (x : RangeInclusive K × V) (n : RangeInclusive K) (v : V)
    (m : List (RangeInclusive K × V)) {p s : K}
    (hp : x.1.start < n.start → S.subOne n.start = .ok p)
    (hs : n.stop < x.1.stop → S.addOne n.stop = .ok s) :
    (adjustTouchingRangesForInsertC S x.1 x.2 n v).cost RangeInclusive.start m =
    if x.2 == v then ⟨0, 0, 1⟩ else if n.overlaps x.1 then
      ⟨0, (if x.1.start < n.start then 1 else 0) + (if n.stop < x.1.stop then 1 else 0), 1⟩
    else 0 := by
  unfold adjustTouchingRangesForInsertC
  refine (Cr.cost_user_bind _ _ _).trans ?_
  by_cases hv : (x.2 == v) = true
  · rw [if_pos hv, if_pos hv]
    rfl
  · rw [if_neg hv, if_neg hv]
    refine (Cr.cost_user_bind _ _ _).trans ?_
    by_cases hov : n.overlaps x.1 = true
    · rw [if_pos hov, if_pos hov]
      exact cut_cost x n m hp hs _ fun _ => rfl
    · rw [if_neg hov, if_neg hov]
      rfl

/-- One adjustment: calls, size of the tree, and how many of the original entries are left. -/
theorem adjustInsert_count {S : StepFns K} (hS : LawfulSteps S)
    {m0 m : List (RangeInclusive K × V)} {r n : RangeInclusive K} {v : V} (h0 : Sep m0)
    (c0 : Coal m0) (hr : r.start ≤ r.stop) (hi : IInv m0 r v m n) (h : EInv S m0 r v m n)
    {x : RangeInclusive K × V} (hx : x ∈ m)
    (ht1 : x.1.start ≤ n.stop ∨ Next n.stop x.1.start)
    (ht2 : n.start ≤ x.1.stop ∨ Next x.1.stop n.start)
    {m' : List (RangeInclusive K × V)} {n' : RangeInclusive K}
    (heq : adjustTouchingRangesForInsert S m x.1 x.2 n v = .ok (m', n')) (c : Cost)
    (hc : (adjustTouchingRangesForInsertC S x.1 x.2 n v).cost RangeInclusive.start m = c) :
    c.searches = 0 ∧ m'.length + c.deletes = m.length + c.puts ∧
    c.deletes + kept m0 m' ≤ kept m0 m ∧
    (((x.2 == v) = true ∨ (x.1.start ≤ n.stop ∧ n.start ≤ x.1.stop)) → c.deletes = 1) := by
  obtain ⟨hi', h'⟩ := h.step hS h0 c0 hr hi hx ht1 ht2 heq
  obtain ⟨m'', n'', heq', -, hadj⟩ := adjustInsert_spec hS hr hi hx ht1 ht2
  rw [heq] at heq'
  obtain ⟨rfl, rfl⟩ : m' = m'' ∧ n' = n'' := by simpa using heq'
  have hns := hi.ns
  have hne := hi.ne
  have hxx := hi.sep.ne x hx
  rcases hadj with ⟨hv, e1, e2, hm, hl⟩ | ⟨hv, e1, e2, hn, p, s, hp, hs, hm, hl, hps, hss⟩ |
    ⟨hv, e1, hn, hm⟩
  · have hcc : c = ⟨0, 0, 1⟩ := by
      rw [← hc]
      unfold adjustTouchingRangesForInsertC
      refine (Cr.cost_user_bind _ _ _).trans ?_
      rw [if_pos hv]
      rfl
    subst hcc
    refine ⟨rfl, by simpa using hl, ?_, fun _ => rfl⟩
    have hx0 : x ∈ m0 := by
      rcases h.src x hx with h1 | ⟨x0, h1, h2, h3, h4⟩
      · exact h1
      · exfalso
        have h5 := (h4.facts hS).1
        rw [h5] at hv
        simp [h2] at hv
    have := kept_lt hi'.sep.nodup hx hx0 (by rw [hm]; grind) (fun y hy _ => ((hm y).1 hy).1)
    show 1 + _ ≤ _
    omega
  · have hov : n.overlaps x.1 = true := by
      simp only [RangeInclusive.overlaps, decide_eq_true_eq, le_rmin, rmax_le]
      grind
    rw [adjustInsert_cost x n v m hps hss, if_neg (by simp [hv]), if_pos hov] at hc
    subst hc
    refine ⟨rfl, by simp only; omega, ?_, fun _ => rfl⟩
    have hxm : x ∉ m' := by
      rw [hm]
      rintro (h6 | ⟨h8, h6⟩ | ⟨h8, h6⟩)
      · exact h6.2 rfl
      · have h7 := congrArg (fun e => e.1.stop) h6
        have := (hp h8).1.1
        simp only [RangeInclusive.mk'_stop] at h7
        grind
      · have h7 := congrArg (fun e => e.1.start) h6
        have := (hs h8).1.1
        simp only [RangeInclusive.mk'_start] at h7
        grind
    have hx0 : x ∈ m0 := by
      rcases h.src x hx with h1 | ⟨x0, h1, h2, h3, h4⟩
      · exact h1
      · exfalso
        have hsub : x0.1.start ≤ x.1.start ∧ x.1.stop ≤ x0.1.stop ∧
            ¬ (x0.1.stop ≤ x.1.stop ∧ x.1.start ≤ x0.1.start) := by
          unfold Ovl at h3
          obtain ⟨-, ⟨h6, h7, h8⟩ | ⟨h6, h7, h8⟩⟩ := h4.facts hS
          · have := h8.1
            grind
          · have := h8.1
            grind
        rcases h'.kept x0 h1 with h5 | h5 | h5
        · rw [hm] at h5
          rcases h5 with h5 | ⟨h8, h5⟩ | ⟨h8, h5⟩
          · have := hi.sep.tri x hx x0 h5.1
            grind
          · have h9 := congrArg (fun e => e.1.stop) h5
            have := (hp h8).1.1
            simp only [RangeInclusive.mk'_stop] at h9
            grind
          · have h9 := congrArg (fun e => e.1.start) h5
            have := (hs h8).1.1
            simp only [RangeInclusive.mk'_start] at h9
            grind
        · simp [h2] at h5
        · exact hxm (h5.2.2 x h4)
    have := kept_lt hi'.sep.nodup hx hx0 hxm (by
      intro y hy hy0
      rw [hm] at hy
      have h9 := h0.tri x hx0 y hy0
      have h10 := h0.ne y hy0
      rcases hy with h6 | ⟨h8, h6⟩ | ⟨h8, h6⟩
      · exact h6.1
      · exfalso
        have := (hp h8).1.1
        subst h6
        simp only [RangeInclusive.mk'_stop, RangeInclusive.mk'_start] at h9 h10
        rcases h9 with h9 | h9 | h9
        · have h7 := congrArg (fun e => e.1.stop) h9
          simp only [RangeInclusive.mk'_stop] at h7
          grind
        · grind
        · grind
      · exfalso
        have := (hs h8).1.1
        subst h6
        simp only [RangeInclusive.mk'_stop, RangeInclusive.mk'_start] at h9 h10
        rcases h9 with h9 | h9 | h9
        · have h7 := congrArg (fun e => e.1.start) h9
          simp only [RangeInclusive.mk'_start] at h7
          grind
        · grind
        · grind)
    show 1 + _ ≤ _
    omega
  · subst hm hn
    have hov : ¬ n'.overlaps x.1 = true := by
      simp only [RangeInclusive.overlaps, decide_eq_true_eq, le_rmin, rmax_le]
      grind
    have hcc : c = 0 := by
      rw [← hc]
      unfold adjustTouchingRangesForInsertC
      refine (Cr.cost_user_bind _ _ _).trans ?_
      rw [if_neg (by simp [hv])]
      refine (Cr.cost_user_bind _ _ _).trans ?_
      rw [if_neg hov]
      rfl
    subst hcc
    refine ⟨rfl, rfl, ?_, fun h => ?_⟩
    · show 0 + _ ≤ _
      omega
    · simp [hv] at h
      exact absurd h e1

theorem breakCond_cost {S : StepFns K} (hi : K) (v : V) (x : RangeInclusive K × V)
    (m : List (RangeInclusive K × V)) :
    (breakCondC S hi v x).cost RangeInclusive.start m = 0 := by
  unfold breakCondC
  refine (Cr.cost_user_bind _ _ _).trans ?_
  split
  · refine (Cr.cost_user_bind _ _ _).trans ?_
    cases S.addOne hi with
    | error p => rfl
    | ok a =>
      refine (Cr.cost_user_bind _ _ _).trans ?_
      split <;> rfl
  · rfl

theorem insertLoop_count {S : StepFns K} (hS : LawfulSteps S)
    {m0 : List (RangeInclusive K × V)} {r : RangeInclusive K} {v : V} {hi : K} (h0 : Sep m0)
    (c0 : Coal m0) (hr : r.start ≤ r.stop) : ∀ (fuel : Nat) (m : List (RangeInclusive K × V))
    (n : RangeInclusive K) (m' : List (RangeInclusive K × V)) (n' : RangeInclusive K) (c : Cost),
    IInv m0 r v m n → EInv S m0 r v m n →
    hi ≤ n.stop → insertLoop S hi v fuel m n = .ok (m', n') →
    (insertLoopC S hi v fuel n).cost RangeInclusive.start m = c →
    c.searches = c.deletes + 1 ∧ m'.length + c.deletes = m.length + c.puts ∧
    c.deletes + kept m0 m' ≤ kept m0 m := by
  intro fuel
  induction fuel with
  | zero => intro m n m' n' c _ _ _ h; simp [insertLoop] at h
  | succ f ih =>
    intro m n m' n' c hiv he hh h hc
    have hl := he.left hS hr hiv
    unfold insertLoop at h
    unfold insertLoopC at hc
    cases hrg : BTreeMap.range RangeInclusive.start (.included n.start) .unbounded m with
    | error p => simp [hrg, bind, Except.bind] at h
    | ok l =>
      simp only [hrg, bind, Except.bind] at h
      rw [Cr.cost_range_bind hrg] at hc
      cases hd : l.head? with
      | none =>
        simp only [hd, pure, Except.pure, Except.ok.injEq, Prod.mk.injEq] at h hc
        obtain ⟨rfl, rfl⟩ := h
        subst hc
        exact ⟨rfl, rfl, by show 0 + 0 + _ ≤ _; omega⟩
      | some x =>
        have hx : x ∈ m ∧ n.start ≤ x.1.start := by
          have h1 := List.mem_of_head? hd
          unfold BTreeMap.range at hrg
          split at hrg
          · simp at hrg
          · simp only [Except.ok.injEq] at hrg
            rw [← hrg, List.mem_filter] at h1
            simpa [Bound.admitsAsLower, Bound.admitsAsUpper] using h1
        have hxn := hiv.sep.ne x hx.1
        obtain ⟨b, hb, hbt⟩ := breakCond_spec hS hi v x
        simp only [hd, hb] at h hc
        rw [(breakCond_sim (P := fun _ => True) trivial hb).cost_bind, breakCond_cost] at hc
        cases b with
        | true =>
          simp only [if_true, pure, Except.pure, Except.ok.injEq, Prod.mk.injEq] at h hc
          obtain ⟨rfl, rfl⟩ := h
          subst hc
          exact ⟨rfl, rfl, by show 0 + 0 + _ ≤ _; omega⟩
        | false =>
          simp only [Bool.false_eq_true, if_false] at h hc
          rw [Cr.cost_user_bind] at hc
          have hns := hiv.ns
          have hne := hiv.ne
          have hnb : ¬ (hi < x.1.start ∧ (Next hi x.1.start → (x.2 == v) = false)) := by
            rw [← hbt]; simp
          have ht1 : (x.1.start ≤ n.stop ∨ Next n.stop x.1.start) ∧
              ((x.2 == v) = true ∨ x.1.start ≤ n.stop) := by
            by_cases hlt : x.1.start ≤ n.stop
            · exact ⟨Or.inl hlt, Or.inr hlt⟩
            · have h1 : hi < x.1.start := by grind
              have h2 : Next hi x.1.start ∧ (x.2 == v) = true :=
                Classical.byContradiction fun hc => hnb ⟨h1, fun h => by
                  cases hv : x.2 == v with
                  | true => exact absurd ⟨h, hv⟩ hc
                  | false => rfl⟩
              exact ⟨Or.inr ⟨by grind, fun d hd => h2.1.2 d (by grind)⟩, Or.inl h2.2⟩
          have ht2 : n.start ≤ x.1.stop ∨ Next x.1.stop n.start := Or.inl (by grind)
          obtain ⟨m1, n1, hadj, hi1, hsp⟩ := adjustInsert_spec hS hr hiv hx.1 ht1.1 ht2
          simp only [hadj] at h
          rw [(adjustInsert_sim hS h0 c0 hr hiv he hx.1 ht1.1 ht2 hadj).cost_bind] at hc
          obtain ⟨k1, k2, k3, k4⟩ :=
            adjustInsert_count hS h0 c0 hr hiv he hx.1 ht1.1 ht2 hadj _ rfl
          have k4 := k4 (ht1.2.imp id fun h => ⟨h, by grind⟩)
          obtain ⟨k5, k6, k7⟩ := ih m1 n1 m' n' _ hi1
            (he.step hS h0 c0 hr hiv hx.1 ht1.1 ht2 hadj).2 (by
            rcases hsp with ⟨_, _, e2, _⟩ | ⟨_, _, _, e, _⟩ | ⟨_, _, e, _⟩
            · rw [e2, le_rmax]; exact Or.inl hh
            · rw [e]; exact hh
            · rw [e]; exact hh) h rfl
          subst hc
          simp only [Cost.add_searches, Cost.add_puts, Cost.add_deletes, Cost.zero_searches,
            Cost.zero_puts, Cost.zero_deletes]
          omega

theorem insertPrefix_count {S : StepFns K} (hS : LawfulSteps S)
    {m0 : List (RangeInclusive K × V)} {r : RangeInclusive K} {v : V} (h0 : Sep m0)
    (c0 : Coal m0) (hr : r.start ≤ r.stop) {m' : List (RangeInclusive K × V)}
    {n' : RangeInclusive K}
    (h : insertPrefix S m0 r v = .ok (m', n')) (c : Cost)
    (hc : (insertPrefixC S r v).cost RangeInclusive.start m0 = c) :
    c.searches = 1 ∧ m'.length + c.deletes = m0.length + c.puts ∧
    c.deletes + kept m0 m' ≤ kept m0 m0 := by
  have hiv : IInv m0 r v m0 r := IInv.refl h0 c0
  have he : EInv S m0 r v m0 r := EInv.refl
  unfold insertPrefix at h
  unfold insertPrefixC at hc
  cases hrg : BTreeMap.range RangeInclusive.start .unbounded (.included r.start) m0 with
  | error p => simp [hrg, bind, Except.bind] at h
  | ok l =>
    simp only [hrg, bind, Except.bind] at h
    cases hcs : filterE (fun e => e.1.touches S r) (l.reverse.take 2) with
    | error p => simp [hcs] at h
    | ok cs =>
    simp only [hcs] at h
    have key : ∀ x ∈ cs,
        adjustTouchingRangesForInsert S m0 x.1 x.2 r v = .ok (m', n') →
        ∀ c', (adjustTouchingRangesForInsertC S x.1 x.2 r v).cost RangeInclusive.start m0 = c' →
        c = ⟨1, 0, 0⟩ + c' →
        c.searches = 1 ∧ m'.length + c.deletes = m0.length + c.puts ∧
        c.deletes + kept m0 m' ≤ kept m0 m0 := by
      intro x hx hadj c' hc' hcc
      have hx := filterE_ok hcs x hx
      have hcl : x ∈ l := List.mem_reverse.1 ((List.take_sublist _ _).subset hx.1)
      have hcm : x ∈ m0 ∧ x.1.start ≤ r.start := by
        unfold BTreeMap.range at hrg
        split at hrg
        · simp at hrg
        · simp only [Except.ok.injEq] at hrg
          rw [← hrg, List.mem_filter] at hcl
          simpa [Bound.admitsAsLower, Bound.admitsAsUpper] using hcl
      obtain ⟨b, hb, hbt⟩ := touches_spec hS hr hcm.2 (h0.ne x hcm.1)
      have hc2 := hx.2
      rw [hb] at hc2
      obtain rfl := Except.ok.inj hc2
      have ht1 : x.1.start ≤ r.stop ∨ Next r.stop x.1.start := Or.inl (by grind)
      have ht2 := hbt.1 rfl
      obtain ⟨k1, k2, k3, -⟩ := adjustInsert_count hS h0 c0 hr hiv he hcm.1 ht1 ht2 hadj _ hc'
      subst hcc
      simp only [Cost.add_searches, Cost.add_puts, Cost.add_deletes]
      omega
    rw [Cr.cost_range_bind hrg, Cr.cost_user_bind, hcs] at hc
    match cs, h, key, hc with
    | [], h, _, hc =>
      simp only [pure, Except.pure, Except.ok.injEq, Prod.mk.injEq] at h
      obtain ⟨rfl, rfl⟩ := h
      subst hc
      exact ⟨rfl, rfl, by show 0 + 0 + _ ≤ _; omega⟩
    | [x], h, key, hc =>
      exact key x (by simp) h _ rfl hc.symm
    | c0' :: x :: t, h, key, hc =>
      exact key x (by simp) h _ rfl hc.symm

/-- The calls of a whole `insert`; `p` tells the entries that touch `r`. -/
theorem insert_count {S : StepFns K} (hS : LawfulSteps S) {m : RangeInclusiveMap K V}
    (h : SC m.btm) {r : RangeInclusive K} (v : V) (hr : r.start ≤ r.stop)
    (p : RangeInclusive K × V → Bool) (hp : ∀ x ∈ m.btm, Tch r x.1 → p x = true) :
    (m.insertCost S r v).searches ≤ m.btm.countP p + 2 ∧ (m.insertCost S r v).puts ≤ 3 ∧
    (m.insertCost S r v).deletes ≤ m.btm.countP p ∧ (m.insertCost S r v).searches ≤ (m.insertCost S r v).deletes + 2 ∧
    ∀ m', m.insert S r v = .ok m' → m'.len + (m.insertCost S r v).deletes = m.len + (m.insertCost S r v).puts := by
  obtain ⟨m1, n1, hpre, hi1, hl1, hlen1, hst1⟩ := insertPrefix_spec (v := v) hS hr h.sep h.coal
  obtain ⟨m2, n2, hloop, hi2, hl2, hd2, hlen2, hst2⟩ :=
    insertLoop_spec (hi := n1.stop) hS hr (m.len + 1) m1 n1 hi1 hl1 ⟨by grind, by grind⟩ hi1.ne
      (Or.inl hlen1)
  have hlo := hloop (m.len + 2) (by omega)
  obtain ⟨k1, k2, k3⟩ := insertPrefix_sim hS h.sep h.coal hr hpre
  have k4 := insertLoop_sim hS h.sep h.coal hr _ _ _ _ _ k1 k2 (by grind) hlo
  have he := EInv.steps hS h.sep h.coal hr (hst1.trans hst2) (IInv.refl h.sep h.coal) EInv.refl
  obtain ⟨a1, a2, a3⟩ := insertPrefix_count hS h.sep h.coal hr hpre _ rfl
  obtain ⟨b1, b2, b3⟩ := insertLoop_count hS h.sep h.coal hr _ _ _ _ _ _ k1 k2 (by grind) hlo rfl
  have hcost : m.insertCost S r v = (insertPrefixC S r v).cost RangeInclusive.start m.btm +
      ((insertLoopC S n1.stop v (m.len + 2) n1).cost RangeInclusive.start m1 + ⟨0, 1, 0⟩) := by
    unfold insertCost insertProgram
    refine (Cr.cost_user_bind _ _ _).trans ?_
    rw [if_pos hr]
    show Cr.cost RangeInclusive.start (Cr.bind (insertPrefixC S r v) _) m.btm = _
    refine (k3.cost_bind _).trans (congrArg _ ?_)
    refine (Cr.cost_user_bind _ _ _).trans ?_
    refine (k4.cost_bind _).trans (congrArg _ ?_)
    exact Cr.cost_insert_bind _ _ _ _ _
  have q1 := pieces_le (r := r) hS h.sep hi2.sep fun y hy =>
    (he.src y hy).imp id fun ⟨x, h1, h2, h3, h4⟩ => ⟨x, h1, h3, h4⟩
  have q2 : m.btm.length ≤ kept m.btm m2 + m.btm.countP p := by
    refine kept_ge h.sep.nodup fun x hx hpx => ?_
    rcases he.kept x hx with h1 | h1 | h1
    · exact h1
    · simp [hp x hx h1.2.1] at hpx
    · have : Tch r x.1 := ⟨Or.inl h1.2.1.1, Or.inl h1.2.1.2⟩
      simp [hp x hx this] at hpx
  rw [kept_self] at a3
  rw [hcost]
  simp only [Cost.add_searches, Cost.add_puts, Cost.add_deletes]
  refine ⟨by omega, by omega, by omega, by omega, fun m' hm => ?_⟩
  have hns := hi2.ns
  have hne := hi2.ne
  have hfit : Fits m2 n2 := by
    refine ⟨by grind, ?_⟩
    intro e he
    have := hl2 e he
    have := hd2 e he
    grind
  unfold insert insertFuel at hm
  simp only [hr, not_true_eq_false, if_false, bind, Except.bind, pure, Except.pure, hpre, hlo,
    Except.ok.injEq] at hm
  subst hm
  simp only [len, hi2.sep.length_insert hfit v] at *
  omega

end

/-! ### remove -/

section
variable [BEq V]

theorem adjustRemove_count {S : StepFns K} (hS : LawfulSteps S)
    {m0 m : List (RangeInclusive K × V)} {r : RangeInclusive K} (h0 : Sep m0)
    (hr : r.start ≤ r.stop) (hi : RInv m0 r m) (h : REInv S m0 r m)
    {x : RangeInclusive K × V} (hx : x ∈ m) (ht1 : x.1.start ≤ r.stop) (ht2 : r.start ≤ x.1.stop)
    {m' : List (RangeInclusive K × V)}
    (heq : adjustOverlappingRangesForRemove S m x.1 x.2 r = .ok m') (c : Cost)
    (hc : (adjustOverlappingRangesForRemoveC S x.1 x.2 r).cost RangeInclusive.start m = c) :
    c.searches = 0 ∧ m'.length + c.deletes = m.length + c.puts ∧
    c.deletes + kept m0 m' ≤ kept m0 m ∧ c.deletes = 1 := by
  obtain ⟨m'', p, s, heq', hi', hp, hs, hm, hl, hps, hss⟩ := adjustRemove_spec hS hr hi hx ht1 ht2
  rw [heq] at heq'
  obtain rfl := Except.ok.inj heq'
  unfold adjustOverlappingRangesForRemoveC at hc
  have hcc : c = _ := hc.symm.trans (cut_cost x r m hps hss Cr.user fun _ => rfl)
  subst hcc
  refine ⟨rfl, by simp only; omega, ?_, rfl⟩
  have hxm : x ∉ m' := by
    rw [hm]
    rintro (h6 | ⟨h8, h6⟩ | ⟨h8, h6⟩)
    · exact h6.2 rfl
    · have h7 := congrArg (fun e => e.1.stop) h6
      have := (hp h8).1.1
      simp only [RangeInclusive.mk'_stop] at h7
      grind
    · have h7 := congrArg (fun e => e.1.start) h6
      have := (hs h8).1.1
      simp only [RangeInclusive.mk'_start] at h7
      grind
  have hx0 : x ∈ m0 := by
    rcases h.src x hx with h1 | ⟨x0, h1, h2, h3⟩
    · exact h1
    · exfalso
      obtain ⟨-, ⟨-, -, h8⟩ | ⟨-, -, h8⟩⟩ := h3.facts hS
      · have := h8.1
        grind
      · have := h8.1
        grind
  have := kept_lt hi'.sep.nodup hx hx0 hxm (by
    intro y hy hy0
    rw [hm] at hy
    have h9 := h0.tri x hx0 y hy0
    have h10 := h0.ne y hy0
    rcases hy with h6 | ⟨h8, h6⟩ | ⟨h8, h6⟩
    · exact h6.1
    · exfalso
      have := (hp h8).1.1
      subst h6
      simp only [RangeInclusive.mk'_stop, RangeInclusive.mk'_start] at h9 h10
      rcases h9 with h9 | h9 | h9
      · have h7 := congrArg (fun e => e.1.stop) h9
        simp only [RangeInclusive.mk'_stop] at h7
        grind
      · grind
      · grind
    · exfalso
      have := (hs h8).1.1
      subst h6
      simp only [RangeInclusive.mk'_stop, RangeInclusive.mk'_start] at h9 h10
      rcases h9 with h9 | h9 | h9
      · have h7 := congrArg (fun e => e.1.start) h9
        simp only [RangeInclusive.mk'_start] at h7
        grind
      · grind
      · grind)
  show 1 + _ ≤ _
  omega

theorem removeLoop_count {S : StepFns K} (hS : LawfulSteps S)
    {m0 : List (RangeInclusive K × V)} {r : RangeInclusive K} (h0 : Sep m0)
    (hr : r.start ≤ r.stop) : ∀ (fuel : Nat) (m m' : List (RangeInclusive K × V)) (c : Cost),
    RInv m0 r m → REInv S m0 r m → removeLoop S r fuel m = .ok m' →
    (removeLoopC S r fuel : Cr K (RangeInclusive K) V Unit).cost RangeInclusive.start m = c →
    c.searches = c.deletes + 1 ∧ m'.length + c.deletes = m.length + c.puts ∧
    c.deletes + kept m0 m' ≤ kept m0 m := by
  intro fuel
  induction fuel with
  | zero => intro m m' c _ _ h; simp [removeLoop] at h
  | succ f ih =>
    intro m m' c hiv he h hc
    unfold removeLoop at h
    unfold removeLoopC at hc
    cases hrg : BTreeMap.range RangeInclusive.start (.excluded r.start) (.included r.stop) m with
    | error p => simp [hrg, bind, Except.bind] at h
    | ok l =>
      simp only [hrg, bind, Except.bind] at h
      rw [Cr.cost_range_bind hrg] at hc
      cases hd : l.head? with
      | none =>
        simp only [hd, pure, Except.pure, Except.ok.injEq] at h hc
        subst h
        subst hc
        exact ⟨rfl, rfl, by show 0 + 0 + _ ≤ _; omega⟩
      | some x =>
        have hx : x ∈ m ∧ r.start < x.1.start ∧ x.1.start ≤ r.stop := by
          have h1 := List.mem_of_head? hd
          unfold BTreeMap.range at hrg
          split at hrg
          · simp at hrg
          · simp only [Except.ok.injEq] at hrg
            rw [← hrg, List.mem_filter] at h1
            simpa [Bound.admitsAsLower, Bound.admitsAsUpper] using h1
        have hxn := hiv.sep.ne x hx.1
        simp only [hd] at h hc
        cases hadj : adjustOverlappingRangesForRemove S m x.1 x.2 r with
        | error p => simp [hadj] at h
        | ok m1 =>
        simp only [hadj] at h
        rw [Cr.cost_user_bind] at hc
        obtain ⟨k1, k2, k3⟩ := adjustRemove_sim hS h0 hr hiv he hx.1 (by grind) (by grind) hadj
        rw [k3.cost_bind] at hc
        obtain ⟨a1, a2, a3, a4⟩ :=
          adjustRemove_count hS h0 hr hiv he hx.1 (by grind) (by grind) hadj _ rfl
        obtain ⟨b1, b2, b3⟩ := ih _ _ _ k1 k2 h rfl
        subst hc
        simp only [Cost.add_searches, Cost.add_puts, Cost.add_deletes]
        omega

theorem removePrefix_count {S : StepFns K} (hS : LawfulSteps S)
    {m0 : List (RangeInclusive K × V)} {r : RangeInclusive K} (h0 : Sep m0) (c0 : Coal m0)
    (hr : r.start ≤ r.stop) {m' : List (RangeInclusive K × V)}
    (h : removePrefix S m0 r = .ok m') (c : Cost)
    (hc : (removePrefixC S r : Cr K (RangeInclusive K) V Unit).cost RangeInclusive.start m0 = c) :
    c.searches = 1 ∧ m'.length + c.deletes = m0.length + c.puts ∧
    c.deletes + kept m0 m' ≤ kept m0 m0 := by
  have hiv : RInv m0 r m0 := RInv.refl h0 c0
  have he : REInv S m0 r m0 := ⟨fun y hy => Or.inl hy, fun x hx => Or.inl hx⟩
  unfold removePrefix at h
  unfold removePrefixC at hc
  cases hrg : BTreeMap.range RangeInclusive.start .unbounded (.included r.start) m0 with
  | error p => simp [hrg, bind, Except.bind] at h
  | ok l =>
    simp only [hrg, bind, Except.bind] at h
    rw [Cr.cost_range_bind hrg, Cr.cost_user_bind] at hc
    cases hd : l.getLast?.filter fun e => e.1.overlaps r with
    | none =>
      simp only [hd, pure, Except.pure, Except.ok.injEq] at h hc
      subst h
      subst hc
      exact ⟨rfl, rfl, by show 0 + 0 + _ ≤ _; omega⟩
    | some x =>
      simp only [hd] at h hc
      rw [Cr.cost_user_bind] at hc
      have hx : x ∈ m0 ∧ x.1.overlaps r = true := by
        rw [Option.filter_eq_some_iff] at hd
        have h1 := List.mem_of_getLast? hd.1
        unfold BTreeMap.range at hrg
        split at hrg
        · simp at hrg
        · simp only [Except.ok.injEq] at hrg
          rw [← hrg, List.mem_filter] at h1
          exact ⟨h1.1, hd.2⟩
      have hov := hx.2
      simp only [RangeInclusive.overlaps, decide_eq_true_eq, le_rmin, rmax_le] at hov
      obtain ⟨a1, a2, a3, a4⟩ :=
        adjustRemove_count hS h0 hr hiv he hx.1 (by grind) (by grind) h _ rfl
      subst hc
      simp only [Cost.add_searches, Cost.add_puts, Cost.add_deletes]
      omega

/-- The calls of a whole `remove`; `p` tells the entries that overlap `r`. -/
theorem remove_count {S : StepFns K} (hS : LawfulSteps S) {m : RangeInclusiveMap K V}
    (h : SC m.btm) {r : RangeInclusive K} (hr : r.start ≤ r.stop)
    (p : RangeInclusive K × V → Bool) (hp : ∀ x ∈ m.btm, Ovl r x.1 → p x = true) :
    (m.removeCost S r).searches ≤ m.btm.countP p + 2 ∧ (m.removeCost S r).puts ≤ 2 ∧
    (m.removeCost S r).deletes ≤ m.btm.countP p ∧ (m.removeCost S r).searches ≤ (m.removeCost S r).deletes + 2 ∧
    ∀ m', m.remove S r = .ok m' → m'.len + (m.removeCost S r).deletes = m.len + (m.removeCost S r).puts := by
  obtain ⟨m', hm, -⟩ := remove_spec hS h hr
  have hm : m.remove S r = .ok m' := hm _ (Nat.le_refl _)
  have hm0 := hm
  unfold remove removeFuel at hm
  simp only [hr, not_true_eq_false, if_false, bind, Except.bind, pure, Except.pure] at hm
  cases hpre : removePrefix S m.btm r with
  | error p => simp [hpre] at hm
  | ok m1 =>
    simp only [hpre] at hm
    cases hlo : removeLoop S r (m.len + 2) m1 with
    | error p => simp [hlo] at hm
    | ok m2 =>
      obtain ⟨k1, k2, k3⟩ := removePrefix_sim hS h.sep h.coal hr hpre
      obtain ⟨k4, k5, k6⟩ := removeLoop_sim hS h.sep hr _ _ _ k1 k2 hlo
      obtain ⟨a1, a2, a3⟩ := removePrefix_count hS h.sep h.coal hr hpre _ rfl
      obtain ⟨b1, b2, b3⟩ := removeLoop_count hS h.sep hr _ _ _ _ k1 k2 hlo rfl
      have hcost : m.removeCost S r =
          (removePrefixC S r : Cr K (RangeInclusive K) V Unit).cost RangeInclusive.start m.btm +
          ((removeLoopC S r (m.len + 2) :
            Cr K (RangeInclusive K) V Unit).cost RangeInclusive.start m1 + 0) := by
        unfold removeCost removeProgram
        refine (Cr.cost_user_bind _ _ _).trans ?_
        rw [if_pos hr]
        show Cr.cost RangeInclusive.start (Cr.bind (removePrefixC S r) _) m.btm = _
        refine (k3.cost_bind _).trans (congrArg _ ?_)
        refine (Cr.cost_user_bind _ _ _).trans ?_
        exact k6.cost_bind _
      have q1 := pieces_le (r := r) hS h.sep k4.sep k5.src
      have q2 : m.btm.length ≤ kept m.btm m2 + m.btm.countP p := by
        refine kept_ge h.sep.nodup fun x hx hpx => ?_
        rcases k5.kept x hx with h1 | h1
        · exact h1
        · simp [hp x hx h1.1] at hpx
      rw [kept_self] at a3
      rw [hcost]
      simp only [Cost.add_searches, Cost.add_puts, Cost.add_deletes, Cost.zero_searches,
        Cost.zero_puts, Cost.zero_deletes]
      refine ⟨by omega, by omega, by omega, by omega, fun m'' hm'' => ?_⟩
      simp only [hlo, Except.ok.injEq] at hm
      rw [hm0] at hm''
      obtain rfl := Except.ok.inj hm''
      subst hm
      simp only [len] at *
      omega

end
end Verif.RangeInclusiveMap

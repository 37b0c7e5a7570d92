import Verif.Proof.CrashBase
import Verif.Proof.IExact

/-!
# `RangeInclusiveMap::insert` and `remove` interrupted
-/
set_option linter.unusedSectionVars false
set_option linter.unusedVariables false

namespace Verif.RangeInclusiveMap
open Spec (Next LawfulSteps)
variable {K : Type} [LE K] [LT K] [DecidableLE K] [DecidableLT K]
  [Std.IsLinearPreorder K] [Std.LawfulOrderLT K] {V : Type} [BEq V]

/-- What an interrupted call may leave behind: a well-formed map that holds only (parts of) entries
of `m0`, and still all entries but those that satisfy `T`. -/
structure Left (T : RangeInclusive K → Prop) (m0 m : List (RangeInclusive K × V)) : Prop where
  sep : Sep m
  coal : Coal m
  fresh : Fresh m0 → Fresh m
  src : ∀ y ∈ m, ∃ x ∈ m0, y.2 = x.2 ∧ x.1.start ≤ y.1.start ∧ y.1.stop ≤ x.1.stop
  kept : ∀ x ∈ m0, ¬ T x.1 → x ∈ m

theorem Left.refl {T : RangeInclusive K → Prop} {m : List (RangeInclusive K × V)} (h : SC m) :
    Left T m m :=
  ⟨h.sep, h.coal, id, fun y hy => ⟨y, hy, rfl, by grind, by grind⟩, fun x hx _ => hx⟩

theorem Left.remove {T : RangeInclusive K → Prop} {m0 m : List (RangeInclusive K × V)}
    (h : Left T m0 m) {x : RangeInclusive K × V} (hx : x ∈ m) (ht : x ∈ m0 → T x.1) :
    Left T m0 (BTreeMap.remove RangeInclusive.start x.1.start m) := by
  have em := h.sep.mem_remove hx
  refine ⟨h.sep.remove _, ?_, ?_, ?_, ?_⟩
  · intro a ha b hb
    rw [em] at ha hb
    exact h.coal a ha.1 b hb.1
  · intro hf y hy
    rw [em] at hy
    exact h.fresh hf y hy.1
  · intro y hy
    rw [em] at hy
    exact h.src y hy.1
  · intro z hz hnt
    rw [em]
    refine ⟨h.kept z hz hnt, ?_⟩
    rintro rfl
    exact hnt (ht hz)

/-- A state between two others. -/
theorem Left.between {T : RangeInclusive K → Prop} {m0 m1 m2 m3 : List (RangeInclusive K × V)}
    (h1 : Left T m0 m1) (h3 : Left T m0 m3) (hs : Sep m2) (h12 : ∀ y ∈ m1, y ∈ m2)
    (h23 : ∀ y ∈ m2, y ∈ m3) : Left T m0 m2 :=
  ⟨hs, fun a ha b hb => h3.coal a (h23 a ha) b (h23 b hb),
    fun hf y hy => h3.fresh hf y (h23 y hy), fun y hy => h3.src y (h23 y hy),
    fun x hx ht => h12 x (h1.kept x hx ht)⟩

/-- Cutting `n` out of the entry `x`, interrupted. -/
theorem cut_sim {S : StepFns K} (hS : LawfulSteps S) {T : RangeInclusive K → Prop}
    {m0 m : List (RangeInclusive K × V)} (h : Left T m0 m)
    {x : RangeInclusive K × V} (hx : x ∈ m) (ht : x ∈ m0 → T x.1) {n : RangeInclusive K}
    (hn : n.start ≤ n.stop) (hov1 : x.1.start ≤ n.stop) (hov2 : n.start ≤ x.1.stop)
    {m1 m2 m3 : List (RangeInclusive K × V)}
    (h1 : m1 = BTreeMap.remove RangeInclusive.start x.1.start m)
    (h2 : insertLeft S m1 x.1 x.2 n = .ok m2)
    (h3 : insertRight S m2 x.1 x.2 n = .ok m3)
    (hl3 : Left T m0 m3) {α : Type} {a : α} {c : Cr K (RangeInclusive K) V α}
    (hc : Sim RangeInclusive.start (Left T m0) c m3 a m3) :
    Sim RangeInclusive.start (Left T m0) (do
      Cr.remove x.1.start
      insertLeftC S x.1 x.2 n
      insertRightC S x.1 x.2 n
      c) m a m3 := by
  have htri := h.sep.tri x hx
  have hne := h.sep.ne x hx
  have l1 : Left T m0 m1 := h1 ▸ h.remove hx ht
  have e1 : ∀ y, y ∈ m1 ↔ y ∈ m ∧ y ≠ x := by intro y; rw [h1, h.sep.mem_remove hx]
  refine (Sim.remove (P := Left T m0) h (h1 ▸ l1)).bind ?_
  rw [← h1]
  have s2 : Sep m2 ∧ (∀ y, y ∈ m2 → y ∈ m1 ∨
      (y.1.start = x.1.start ∧ y.1.stop < n.start)) ∧ (∀ y ∈ m1, y ∈ m2) ∧
      Sim RangeInclusive.start (Left T m0) (insertLeftC S x.1 x.2 n) m1 () m2 := by
    unfold insertLeft at h2
    by_cases hl : x.1.start < n.start
    · obtain ⟨p, hp, hpn⟩ := hS.subOne n.start _ hl
      have hp' := Next.le_of_gt hpn hl
      have hp1 := hpn.1
      have hf : Fits m1 (.mk' x.1.start p) := by
        refine ⟨hp', ?_⟩
        intro e he
        rw [e1] at he
        have := htri e he.1
        grind [RangeInclusive.mk']
      rw [if_pos hl, hp] at h2
      simp only [bind, Except.bind, pure, Except.pure, Except.ok.injEq] at h2
      subst h2
      refine ⟨l1.sep.insert hf _, ?_, ?_, ?_⟩
      · intro y hy
        rw [l1.sep.mem_insert hf] at hy
        rcases hy with rfl | hy
        · exact Or.inr ⟨rfl, hp1⟩
        · exact Or.inl hy
      · intro y hy; rw [l1.sep.mem_insert hf]; exact Or.inr hy
      · refine Sim.user_bind l1 ?_
        rw [if_pos hl]
        exact Sim.user_bind l1 ((Sim.lib hp _).bind
          (Sim.user_bind l1 (Sim.insert l1 (l1.sep.fresh hf))))
    · rw [if_neg hl] at h2
      simp only [pure, Except.pure, Except.ok.injEq] at h2
      subst h2
      refine ⟨l1.sep, fun y hy => Or.inl hy, fun y hy => hy, ?_⟩
      · refine Sim.user_bind l1 ?_
        rw [if_neg hl]
        exact Sim.pure _ _
  obtain ⟨s2, e2, e2', hsim2⟩ := s2
  refine hsim2.bind ?_
  unfold insertRight at h3
  by_cases hl : n.stop < x.1.stop
  · obtain ⟨s, hs, hsn⟩ := hS.addOne n.stop _ hl
    have hs' := Next.le_of_lt hsn hl
    have hs1 := hsn.1
    have hf : Fits m2 (.mk' s x.1.stop) := by
      refine ⟨hs', ?_⟩
      intro e he
      rcases e2 e he with he | he
      · rw [e1] at he
        have := htri e he.1
        have := h.sep.ne e he.1
        grind [RangeInclusive.mk']
      · grind [RangeInclusive.mk']
    rw [if_pos hl, hs] at h3
    simp only [bind, Except.bind, pure, Except.pure, Except.ok.injEq] at h3
    subst h3
    have l2 : Left T m0 m2 := l1.between hl3 s2 e2'
      (fun y hy => by rw [s2.mem_insert hf]; exact Or.inr hy)
    refine Sim.bind (a := ()) (Sim.user_bind l2 ?_) hc
    rw [if_pos hl]
    exact Sim.user_bind l2 ((Sim.lib hs _).bind
      (Sim.user_bind l2 (Sim.insert l2 (s2.fresh hf))))
  · rw [if_neg hl] at h3
    simp only [pure, Except.pure, Except.ok.injEq] at h3
    subst h3
    refine Sim.bind (a := ()) (Sim.user_bind hl3 ?_) hc
    rw [if_neg hl]
    exact Sim.pure _ _

theorem Piece.within {S : StepFns K} (hS : LawfulSteps S) {r : RangeInclusive K}
    {x y : RangeInclusive K × V} (hr : r.start ≤ r.stop) (hov : Ovl r x.1) (h : Piece S r x y) :
    y.2 = x.2 ∧ x.1.start ≤ y.1.start ∧ y.1.stop ≤ x.1.stop := by
  obtain ⟨h1, ⟨h2, h3, h4⟩ | ⟨h2, h3, h4⟩⟩ := h.facts hS
  · have := h4.1
    unfold Ovl at hov
    exact ⟨h1, by grind, by grind⟩
  · have := h4.1
    unfold Ovl at hov
    exact ⟨h1, by grind, by grind⟩

omit [LE K] [LT K] [DecidableLE K] [DecidableLT K] [Std.IsLinearPreorder K]
  [Std.LawfulOrderLT K] [BEq V] in
theorem filterE_ok {α : Type} {p : α → Except Panic Bool} : ∀ {l l' : List α},
    filterE p l = .ok l' → ∀ a ∈ l', a ∈ l ∧ p a = .ok true
  | [], l', h, a, ha => by
    simp only [filterE, Except.ok.injEq] at h
    subst h
    simp at ha
  | b :: t, l', h, a, ha => by
    simp only [filterE, bind, Except.bind, pure, Except.pure] at h
    cases hb : p b with
    | error e => simp [hb] at h
    | ok x =>
      simp only [hb] at h
      cases ht : filterE p t with
      | error e => simp [ht] at h
      | ok t' =>
        simp only [ht, Except.ok.injEq] at h
        have ih := filterE_ok ht
        subst h
        cases x with
        | true =>
          simp only [if_true, List.mem_cons] at ha
          rcases ha with rfl | ha
          · exact ⟨by simp, hb⟩
          · exact ⟨by simp [(ih a ha).1], (ih a ha).2⟩
        | false =>
          simp only [Bool.false_eq_true, if_false] at ha
          exact ⟨by simp [(ih a ha).1], (ih a ha).2⟩

/-! ### insert -/

variable [PartialEquivBEq V]

theorem EInv.left {S : StepFns K} (hS : LawfulSteps S) {m0 m : List (RangeInclusive K × V)}
    {r n : RangeInclusive K} {v : V} (hr : r.start ≤ r.stop) (hi : IInv m0 r v m n)
    (h : EInv S m0 r v m n) : Left (Tch r) m0 m := by
  refine ⟨hi.sep, hi.coal, hi.fresh, ?_, ?_⟩
  · intro y hy
    rcases h.src y hy with h1 | ⟨x, h1, h2, h3, h4⟩
    · exact ⟨y, h1, rfl, by grind, by grind⟩
    · exact ⟨x, h1, h4.within hS hr h3⟩
  · intro x hx ht
    rcases h.kept x hx with h1 | h1 | h1
    · exact h1
    · exact absurd h1.2.1 ht
    · exact absurd ⟨Or.inl h1.2.1.1, Or.inl h1.2.1.2⟩ ht

theorem adjustInsert_sim {S : StepFns K} (hS : LawfulSteps S)
    {m0 m : List (RangeInclusive K × V)} {r n : RangeInclusive K} {v : V} (h0 : Sep m0)
    (c0 : Coal m0) (hr : r.start ≤ r.stop) (hi : IInv m0 r v m n) (h : EInv S m0 r v m n)
    {x : RangeInclusive K × V} (hx : x ∈ m)
    (ht1 : x.1.start ≤ n.stop ∨ Next n.stop x.1.start)
    (ht2 : n.start ≤ x.1.stop ∨ Next x.1.stop n.start)
    {m' : List (RangeInclusive K × V)} {n' : RangeInclusive K}
    (heq : adjustTouchingRangesForInsert S m x.1 x.2 n v = .ok (m', n')) :
    Sim RangeInclusive.start (Left (Tch r) m0) (adjustTouchingRangesForInsertC S x.1 x.2 n v) m n' m' := by
  obtain ⟨hi', h'⟩ := h.step hS h0 c0 hr hi hx ht1 ht2 heq
  obtain ⟨m'', n'', heq', -, hadj⟩ := adjustInsert_spec hS hr hi hx ht1 ht2
  rw [heq] at heq'
  obtain ⟨rfl, rfl⟩ : m' = m'' ∧ n' = n'' := by simpa using heq'
  have hl := h.left hS hr hi
  have hl' := h'.left hS hr hi'
  have hns := hi.ns
  have hne := hi.ne
  -- an entry that disappears touches `r`
  have htx : x ∉ m' → x ∈ m0 → Tch r x.1 := fun hn h0 =>
    Classical.byContradiction fun hc => hn (hl'.kept x h0 hc)
  unfold adjustTouchingRangesForInsertC
  unfold adjustTouchingRangesForInsert at heq
  refine Sim.user_bind hl ?_
  by_cases hv : (x.2 == v) = true
  · rw [if_pos hv] at heq ⊢
    simp only [pure, Except.pure, Except.ok.injEq, Prod.mk.injEq] at heq
    obtain ⟨rfl, rfl⟩ := heq
    refine Sim.user_bind hl ?_
    refine (Sim.remove hl hl').bind ?_
    exact Sim.user_bind hl' (Sim.pure _ _)
  · rw [if_neg hv] at heq ⊢
    refine Sim.user_bind hl ?_
    by_cases hov : n.overlaps x.1 = true
    · rw [if_pos hov] at heq ⊢
      simp only [RangeInclusive.overlaps, decide_eq_true_eq, le_rmin, rmax_le] at hov
      have hxm : x ∉ m' := by
        rcases hadj with ⟨h1, _⟩ | ⟨_, _, _, _, p, s, hp, hs, h5, _⟩ | ⟨_, h2, _⟩
        · exact absurd h1 hv
        · rw [h5]
          rintro (h6 | ⟨h8, h6⟩ | ⟨h8, h6⟩)
          · exact h6.2 rfl
          · have h7 := congrArg (fun e => e.1.stop) h6
            have := (hp h8).1.1
            simp only [RangeInclusive.mk'_stop] at h7
            grind
          · have h7 := congrArg (fun e => e.1.start) h6
            have := (hs h8).1.1
            simp only [RangeInclusive.mk'_start] at h7
            grind
        · exfalso; grind
      simp only [bind, Except.bind, pure, Except.pure] at heq
      cases h2 : insertLeft S (BTreeMap.remove RangeInclusive.start x.1.start m) x.1 x.2 n with
      | error p => simp [h2] at heq
      | ok m2 =>
        simp only [h2] at heq
        cases h3 : insertRight S m2 x.1 x.2 n with
        | error p => simp [h3] at heq
        | ok m3 =>
          simp only [h3, Except.ok.injEq, Prod.mk.injEq] at heq
          obtain ⟨rfl, rfl⟩ := heq
          exact cut_sim hS hl hx (htx hxm) (by grind) (by grind) (by grind) rfl h2 h3 hl'
            (Sim.user_bind hl' (Sim.pure _ _))
    · rw [if_neg hov] at heq ⊢
      simp only [pure, Except.pure, Except.ok.injEq, Prod.mk.injEq] at heq
      obtain ⟨rfl, rfl⟩ := heq
      exact Sim.user_bind hl (Sim.pure _ _)

theorem breakCond_sim {S : StepFns K} {P : List (RangeInclusive K × V) → Prop}
    {m : List (RangeInclusive K × V)} (hp : P m) {hi : K} {v : V} {x : RangeInclusive K × V}
    {b : Bool} (h : breakCond S hi v x = .ok b) : Sim RangeInclusive.start P (breakCondC S hi v x) m b m := by
  unfold breakCond at h
  unfold breakCondC
  refine Sim.user_bind hp ?_
  by_cases hc : hi < x.1.start
  · rw [if_pos hc] at h ⊢
    refine Sim.user_bind hp ?_
    cases ha : S.addOne hi with
    | error p => simp [ha, bind, Except.bind] at h
    | ok c =>
      simp only [ha, bind, Except.bind, pure, Except.pure] at h
      refine (Sim.lib rfl _).bind (Sim.user_bind hp ?_)
      by_cases hc' : c < x.1.start
      · rw [if_pos hc'] at h ⊢
        simp only [Except.ok.injEq] at h
        subst h
        exact Sim.pure _ _
      · rw [if_neg hc'] at h ⊢
        simp only [Except.ok.injEq] at h
        subst h
        exact Sim.pure _ _
  · rw [if_neg hc] at h ⊢
    simp only [pure, Except.pure, Except.ok.injEq] at h
    subst h
    exact Sim.pure _ _

theorem insertLoop_sim {S : StepFns K} (hS : LawfulSteps S)
    {m0 : List (RangeInclusive K × V)} {r : RangeInclusive K} {v : V} {hi : K} (h0 : Sep m0)
    (c0 : Coal m0) (hr : r.start ≤ r.stop) : ∀ (fuel : Nat) (m : List (RangeInclusive K × V))
    (n : RangeInclusive K) (m' : List (RangeInclusive K × V)) (n' : RangeInclusive K),
    IInv m0 r v m n → EInv S m0 r v m n → hi ≤ n.stop →
    insertLoop S hi v fuel m n = .ok (m', n') →
    Sim RangeInclusive.start (Left (Tch r) m0) (insertLoopC S hi v fuel n) m n' m' := by
  intro fuel
  induction fuel with
  | zero => intro m n m' n' _ _ _ h; simp [insertLoop] at h
  | succ f ih =>
    intro m n m' n' hiv he hh h
    have hl := he.left hS hr hiv
    unfold insertLoop at h
    unfold insertLoopC
    cases hrg : BTreeMap.range RangeInclusive.start (.included n.start) .unbounded m with
    | error p => simp [hrg, bind, Except.bind] at h
    | ok l =>
      simp only [hrg, bind, Except.bind] at h
      refine (Sim.range hl hrg).bind ?_
      cases hd : l.head? with
      | none =>
        simp only [hd, pure, Except.pure, Except.ok.injEq, Prod.mk.injEq] at h
        obtain ⟨rfl, rfl⟩ := h
        exact Sim.pure _ _
      | some x =>
        have hx : x ∈ m ∧ n.start ≤ x.1.start := by
          have h1 := List.mem_of_head? hd
          unfold BTreeMap.range at hrg
          split at hrg
          · simp at hrg
          · simp only [Except.ok.injEq] at hrg
            rw [← hrg, List.mem_filter] at h1
            simpa [Bound.admitsAsLower, Bound.admitsAsUpper] using h1
        have hxn := hiv.sep.ne x hx.1
        obtain ⟨b, hb, hbt⟩ := breakCond_spec hS hi v x
        simp only [hd, hb] at h ⊢
        refine (breakCond_sim hl hb).bind ?_
        cases b with
        | true =>
          simp only [if_true, pure, Except.pure, Except.ok.injEq, Prod.mk.injEq] at h ⊢
          obtain ⟨rfl, rfl⟩ := h
          exact Sim.pure _ _
        | false =>
          simp only [Bool.false_eq_true, if_false] at h ⊢
          refine Sim.user_bind hl ?_
          have hns := hiv.ns
          have hne := hiv.ne
          have ht1 : x.1.start ≤ n.stop ∨ Next n.stop x.1.start := by
            by_cases hlt : x.1.start ≤ n.stop
            · exact Or.inl hlt
            · have h1 : hi < x.1.start := by grind
              have h2 : Next hi x.1.start :=
                Classical.byContradiction fun hc => by
                  have := hbt.2 ⟨h1, fun h => absurd h hc⟩
                  simp at this
              exact Or.inr ⟨by grind, fun d hd => h2.2 d (by grind)⟩
          have ht2 : n.start ≤ x.1.stop ∨ Next x.1.stop n.start := Or.inl (by grind)
          obtain ⟨m1, n1, hadj, hi1, hsp⟩ := adjustInsert_spec hS hr hiv hx.1 ht1 ht2
          simp only [hadj] at h
          refine (adjustInsert_sim hS h0 c0 hr hiv he hx.1 ht1 ht2 hadj).bind ?_
          refine ih m1 n1 m' n' hi1 (he.step hS h0 c0 hr hiv hx.1 ht1 ht2 hadj).2 ?_ h
          rcases hsp with ⟨_, _, e2, _⟩ | ⟨_, _, _, e, _⟩ | ⟨_, _, e, _⟩
          · rw [e2, le_rmax]; exact Or.inl hh
          · rw [e]; exact hh
          · rw [e]; exact hh

theorem insertPrefix_sim {S : StepFns K} (hS : LawfulSteps S)
    {m0 : List (RangeInclusive K × V)} {r : RangeInclusive K} {v : V} (h0 : Sep m0)
    (c0 : Coal m0) (hr : r.start ≤ r.stop) {m' : List (RangeInclusive K × V)}
    {n' : RangeInclusive K} (h : insertPrefix S m0 r v = .ok (m', n')) :
    IInv m0 r v m' n' ∧ EInv S m0 r v m' n' ∧
    Sim RangeInclusive.start (Left (Tch r) m0) (insertPrefixC S r v) m0 n' m' := by
  have hiv : IInv m0 r v m0 r := IInv.refl h0 c0
  have he : EInv S m0 r v m0 r := EInv.refl
  have hl := he.left hS hr hiv
  unfold insertPrefix at h
  unfold insertPrefixC
  cases hrg : BTreeMap.range RangeInclusive.start .unbounded (.included r.start) m0 with
  | error p => simp [hrg, bind, Except.bind] at h
  | ok l =>
    simp only [hrg, bind, Except.bind] at h
    cases hcs : filterE (fun e => e.1.touches S r) (l.reverse.take 2) with
    | error p => simp [hcs] at h
    | ok cs =>
    simp only [hcs] at h
    have key : ∀ c ∈ cs,
        adjustTouchingRangesForInsert S m0 c.1 c.2 r v = .ok (m', n') →
        IInv m0 r v m' n' ∧ EInv S m0 r v m' n' ∧
          Sim RangeInclusive.start (Left (Tch r) m0) (adjustTouchingRangesForInsertC S c.1 c.2 r v) m0 n' m' := by
      intro c hc hadj
      have hc := filterE_ok hcs c hc
      have hcl : c ∈ l := List.mem_reverse.1 ((List.take_sublist _ _).subset hc.1)
      have hcm : c ∈ m0 ∧ c.1.start ≤ r.start := by
        unfold BTreeMap.range at hrg
        split at hrg
        · simp at hrg
        · simp only [Except.ok.injEq] at hrg
          rw [← hrg, List.mem_filter] at hcl
          simpa [Bound.admitsAsLower, Bound.admitsAsUpper] using hcl
      obtain ⟨b, hb, hbt⟩ := touches_spec hS hr hcm.2 (h0.ne c hcm.1)
      have hc2 := hc.2
      rw [hb] at hc2
      obtain rfl := Except.ok.inj hc2
      have ht1 : c.1.start ≤ r.stop ∨ Next r.stop c.1.start := Or.inl (by grind)
      have ht2 := hbt.1 rfl
      have hst := he.step hS h0 c0 hr hiv hcm.1 ht1 ht2 hadj
      exact ⟨hst.1, hst.2, adjustInsert_sim hS h0 c0 hr hiv he hcm.1 ht1 ht2 hadj⟩
    have hsim : ∀ (f : List (RangeInclusive K × V) →
        Cr K (RangeInclusive K) V (RangeInclusive K)) (a : RangeInclusive K), Sim RangeInclusive.start (Left (Tch r) m0) (f cs) m0 a m' →
        Sim RangeInclusive.start (Left (Tch r) m0)
          (Cr.range .unbounded (.included r.start) >>= fun l =>
            Cr.user >>= fun _ =>
              Cr.lib (filterE (fun e => e.1.touches S r) (l.reverse.take 2)) >>= f) m0 a m' :=
      fun f a hf => (Sim.range hl hrg).bind (Sim.user_bind hl ((Sim.lib hcs _).bind hf))
    match cs, h, key, hsim with
    | [], h, _, hsim =>
      simp only [pure, Except.pure, Except.ok.injEq, Prod.mk.injEq] at h
      obtain ⟨rfl, rfl⟩ := h
      exact ⟨hiv, he, hsim _ _ (Sim.pure _ _)⟩
    | [c], h, key, hsim =>
      obtain ⟨k1, k2, k3⟩ := key c (by simp) h
      exact ⟨k1, k2, hsim _ _ (Sim.user_bind hl k3)⟩
    | c0' :: c :: t, h, key, hsim =>
      obtain ⟨k1, k2, k3⟩ := key c (by simp) h
      exact ⟨k1, k2, hsim _ _ (Sim.user_bind hl k3)⟩

/-- `insert`, interrupted: it completes, or it leaves a part of the old map, or (when the panic is
that of dropping the local variables) the complete new map. -/
theorem insert_sim {S : StepFns K} (hS : LawfulSteps S) {m : RangeInclusiveMap K V}
    (h : SC m.btm) {r : RangeInclusive K} (v : V)
    (hr : r.start ≤ r.stop) {m' : RangeInclusiveMap K V} (hm : m.insert S r v = .ok m') :
    Sim RangeInclusive.start (fun l => Left (Tch r) m.btm l ∨ l = m'.btm) (insertProgram S r v) m.btm () m'.btm := by
  obtain ⟨m1, n1, hp, hi1, hl1, hlen1, hst1⟩ := insertPrefix_spec (v := v) hS hr h.sep h.coal
  obtain ⟨m2, n2, hloop, hi2, hl2, hd2, hlen2, hst2⟩ :=
    insertLoop_spec (hi := n1.stop) hS hr (m.len + 1) m1 n1 hi1 hl1 ⟨by grind, by grind⟩ hi1.ne
      (Or.inl hlen1)
  have hlo := hloop (m.len + 2) (by omega)
  unfold insert insertFuel at hm
  simp only [hr, not_true_eq_false, if_false, bind, Except.bind, pure, Except.pure, hp, hlo,
    Except.ok.injEq] at hm
  subst hm
  obtain ⟨k1, k2, k3⟩ := insertPrefix_sim hS h.sep h.coal hr hp
  have k4 := insertLoop_sim hS h.sep h.coal hr _ _ _ _ _ k1 k2 (by grind) hlo
  have he := EInv.steps hS h.sep h.coal hr (hst1.trans hst2) (IInv.refl h.sep h.coal) EInv.refl
  have hns := hi2.ns
  have hne := hi2.ne
  have hfit : Fits m2 n2 := by
    refine ⟨by grind, ?_⟩
    intro e he
    have := hl2 e he
    have := hd2 e he
    grind
  have hL0 : Left (Tch r) m.btm m.btm := Left.refl h
  have hL1 := k2.left hS hr k1
  have hL2 := he.left hS hr hi2
  unfold insertProgram
  refine Sim.user_bind (Or.inl hL0) ?_
  rw [if_pos hr]
  refine (Sim.len _).bind ?_
  refine (k3.mono fun _ => Or.inl).bind ?_
  refine Sim.user_bind (Or.inl hL1) ?_
  refine (k4.mono fun _ => Or.inl).bind ?_
  refine (Sim.insert (Or.inl hL2) (hi2.sep.fresh hfit)).bind ?_
  exact Sim.user (Or.inr rfl)

/-! ### remove -/

omit [PartialEquivBEq V]

theorem REInv.left {S : StepFns K} (hS : LawfulSteps S) {m0 m : List (RangeInclusive K × V)}
    {r : RangeInclusive K} (hr : r.start ≤ r.stop) (hi : RInv m0 r m)
    (h : REInv S m0 r m) : Left (Ovl r) m0 m := by
  refine ⟨hi.sep, hi.coal, hi.fresh, ?_, ?_⟩
  · intro y hy
    rcases h.src y hy with h1 | ⟨x, h1, h3, h4⟩
    · exact ⟨y, h1, rfl, by grind, by grind⟩
    · exact ⟨x, h1, h4.within hS hr h3⟩
  · intro x hx ht
    rcases h.kept x hx with h1 | h1
    · exact h1
    · exact absurd h1.1 ht

theorem adjustRemove_sim {S : StepFns K} (hS : LawfulSteps S)
    {m0 m : List (RangeInclusive K × V)} {r : RangeInclusive K} (h0 : Sep m0)
    (hr : r.start ≤ r.stop) (hi : RInv m0 r m) (h : REInv S m0 r m)
    {x : RangeInclusive K × V} (hx : x ∈ m) (ht1 : x.1.start ≤ r.stop) (ht2 : r.start ≤ x.1.stop)
    {m' : List (RangeInclusive K × V)}
    (heq : adjustOverlappingRangesForRemove S m x.1 x.2 r = .ok m') :
    RInv m0 r m' ∧ REInv S m0 r m' ∧
    Sim RangeInclusive.start (Left (Ovl r) m0) (adjustOverlappingRangesForRemoveC S x.1 x.2 r) m () m' := by
  obtain ⟨m'', _, _, heq', hi', _⟩ := adjustRemove_spec hS hr hi hx ht1 ht2
  rw [heq] at heq'
  obtain rfl := Except.ok.inj heq'
  have h' := REInv.steps hS h0 hr (.step hx ht1 ht2 heq .refl) hi h
  have hl := h.left hS hr hi
  have hl' := h'.left hS hr hi'
  refine ⟨hi', h', ?_⟩
  unfold adjustOverlappingRangesForRemove at heq
  simp only [bind, Except.bind] at heq
  cases h2 : insertLeft S (BTreeMap.remove RangeInclusive.start x.1.start m) x.1 x.2 r with
  | error p => simp [h2] at heq
  | ok m2 =>
    simp only [h2] at heq
    exact cut_sim hS hl hx (fun _ => ⟨ht1, ht2⟩) hr ht1 ht2 rfl h2 heq hl' (Sim.user hl')

theorem removeLoop_sim {S : StepFns K} (hS : LawfulSteps S)
    {m0 : List (RangeInclusive K × V)} {r : RangeInclusive K} (h0 : Sep m0)
    (hr : r.start ≤ r.stop) : ∀ (fuel : Nat) (m m' : List (RangeInclusive K × V)),
    RInv m0 r m → REInv S m0 r m → removeLoop S r fuel m = .ok m' →
    RInv m0 r m' ∧ REInv S m0 r m' ∧ Sim RangeInclusive.start (Left (Ovl r) m0) (removeLoopC S r fuel) m () m' := by
  intro fuel
  induction fuel with
  | zero => intro m m' _ _ h; simp [removeLoop] at h
  | succ f ih =>
    intro m m' hiv he h
    have hl := he.left hS hr hiv
    unfold removeLoop at h
    unfold removeLoopC
    cases hrg : BTreeMap.range RangeInclusive.start (.excluded r.start) (.included r.stop) m with
    | error p => simp [hrg, bind, Except.bind] at h
    | ok l =>
      simp only [hrg, bind, Except.bind] at h
      cases hd : l.head? with
      | none =>
        simp only [hd, pure, Except.pure, Except.ok.injEq] at h
        subst h
        refine ⟨hiv, he, (Sim.range hl hrg).bind ?_⟩
        simp only [hd]
        exact Sim.pure _ _
      | some x =>
        have hx : x ∈ m ∧ r.start < x.1.start ∧ x.1.start ≤ r.stop := by
          have h1 := List.mem_of_head? hd
          unfold BTreeMap.range at hrg
          split at hrg
          · simp at hrg
          · simp only [Except.ok.injEq] at hrg
            rw [← hrg, List.mem_filter] at h1
            simpa [Bound.admitsAsLower, Bound.admitsAsUpper] using h1
        have hxn := hiv.sep.ne x hx.1
        simp only [hd] at h
        cases hadj : adjustOverlappingRangesForRemove S m x.1 x.2 r with
        | error p => simp [hadj] at h
        | ok m1 =>
          simp only [hadj] at h
          obtain ⟨k1, k2, k3⟩ := adjustRemove_sim hS h0 hr hiv he hx.1 (by grind) (by grind) hadj
          obtain ⟨k4, k5, k6⟩ := ih _ _ k1 k2 h
          refine ⟨k4, k5, (Sim.range hl hrg).bind ?_⟩
          simp only [hd]
          exact Sim.user_bind hl (k3.bind k6)

theorem removePrefix_sim {S : StepFns K} (hS : LawfulSteps S)
    {m0 : List (RangeInclusive K × V)} {r : RangeInclusive K} (h0 : Sep m0) (c0 : Coal m0)
    (hr : r.start ≤ r.stop) {m' : List (RangeInclusive K × V)}
    (h : removePrefix S m0 r = .ok m') :
    RInv m0 r m' ∧ REInv S m0 r m' ∧ Sim RangeInclusive.start (Left (Ovl r) m0) (removePrefixC S r) m0 () m' := by
  have hiv : RInv m0 r m0 := RInv.refl h0 c0
  have he : REInv S m0 r m0 := ⟨fun y hy => Or.inl hy, fun x hx => Or.inl hx⟩
  have hl := he.left hS hr hiv
  unfold removePrefix at h
  unfold removePrefixC
  cases hrg : BTreeMap.range RangeInclusive.start .unbounded (.included r.start) m0 with
  | error p => simp [hrg, bind, Except.bind] at h
  | ok l =>
    simp only [hrg, bind, Except.bind] at h
    cases hd : l.getLast?.filter fun e => e.1.overlaps r with
    | none =>
      simp only [hd, pure, Except.pure, Except.ok.injEq] at h
      subst h
      refine ⟨hiv, he, (Sim.range hl hrg).bind (Sim.user_bind hl ?_)⟩
      simp only [hd]
      exact Sim.pure _ _
    | some x =>
      simp only [hd] at h
      have hx : x ∈ m0 ∧ x.1.overlaps r = true := by
        rw [Option.filter_eq_some_iff] at hd
        have h1 := List.mem_of_getLast? hd.1
        unfold BTreeMap.range at hrg
        split at hrg
        · simp at hrg
        · simp only [Except.ok.injEq] at hrg
          rw [← hrg, List.mem_filter] at h1
          exact ⟨h1.1, hd.2⟩
      have hov := hx.2
      simp only [RangeInclusive.overlaps, decide_eq_true_eq, le_rmin, rmax_le] at hov
      obtain ⟨k1, k2, k3⟩ := adjustRemove_sim hS h0 hr hiv he hx.1 (by grind) (by grind) h
      refine ⟨k1, k2, (Sim.range hl hrg).bind (Sim.user_bind hl ?_)⟩
      simp only [hd]
      exact Sim.user_bind hl k3

theorem remove_sim {S : StepFns K} (hS : LawfulSteps S) {m : RangeInclusiveMap K V}
    (h : SC m.btm) {r : RangeInclusive K}
    (hr : r.start ≤ r.stop) {m' : RangeInclusiveMap K V} (hm : m.remove S r = .ok m') :
    Sim RangeInclusive.start (Left (Ovl r) m.btm) (removeProgram S r) m.btm () m'.btm := by
  unfold remove removeFuel at hm
  simp only [hr, not_true_eq_false, if_false, bind, Except.bind, pure, Except.pure] at hm
  cases hp : removePrefix S m.btm r with
  | error p => simp [hp] at hm
  | ok m1 =>
    simp only [hp] at hm
    cases hlo : removeLoop S r (m.len + 2) m1 with
    | error p => simp [hlo] at hm
    | ok m2 =>
      simp only [hlo, Except.ok.injEq] at hm
      subst hm
      obtain ⟨k1, k2, k3⟩ := removePrefix_sim hS h.sep h.coal hr hp
      obtain ⟨k4, k5, k6⟩ := removeLoop_sim hS h.sep hr _ _ _ k1 k2 hlo
      unfold removeProgram
      refine Sim.user_bind (Left.refl h) ?_
      rw [if_pos hr]
      refine (Sim.len _).bind (k3.bind (Sim.user_bind (k2.left hS hr k1) (k6.bind ?_)))
      exact Sim.user (k5.left hS hr k4)

end Verif.RangeInclusiveMap

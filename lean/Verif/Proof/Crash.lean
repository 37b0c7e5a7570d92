import Verif.Proof.CrashBase
import Verif.Proof.Exact

/-!
# `RangeMap::insert` and `remove` interrupted
-/
set_option linter.unusedSectionVars false
set_option linter.unusedVariables false

namespace Verif.RangeMap
variable {K : Type} [LE K] [LT K] [DecidableLE K] [DecidableLT K]
  [Std.IsLinearPreorder K] [Std.LawfulOrderLT K] {V : Type} [BEq V]

/-- What an interrupted call may leave behind: a well-formed map that holds only (parts of) entries
of `m0`, and still all entries but those that satisfy `T`. -/
structure Left (T : Range K → Prop) (m0 m : List (Range K × V)) : Prop where
  sep : Sep m
  coal : Coal m
  src : ∀ y ∈ m, ∃ x ∈ m0, y.2 = x.2 ∧ x.1.start ≤ y.1.start ∧ y.1.stop ≤ x.1.stop
  kept : ∀ x ∈ m0, ¬ T x.1 → x ∈ m

theorem Left.refl {T : Range K → Prop} {m : List (Range K × V)} (h : WF m) : Left T m m :=
  ⟨h.sep, h.coal, fun y hy => ⟨y, hy, rfl, by grind, by grind⟩, fun x hx _ => hx⟩

theorem Left.remove {T : Range K → Prop} {m0 m : List (Range K × V)} (h : Left T m0 m)
    {x : Range K × V} (hx : x ∈ m) (ht : x ∈ m0 → T x.1) :
    Left T m0 (BTreeMap.remove Range.start x.1.start m) := by
  have em := h.sep.mem_remove hx
  refine ⟨h.sep.remove _, ?_, ?_, ?_⟩
  · intro a ha b hb
    rw [em] at ha hb
    exact h.coal a ha.1 b hb.1
  · intro y hy
    rw [em] at hy
    exact h.src y hy.1
  · intro z hz hnt
    rw [em]
    refine ⟨h.kept z hz hnt, ?_⟩
    rintro rfl
    exact hnt (ht hz)

/-- A state between two others. -/
theorem Left.between {T : Range K → Prop} {m0 m1 m2 m3 : List (Range K × V)}
    (h1 : Left T m0 m1) (h3 : Left T m0 m3) (hs : Sep m2) (h12 : ∀ y ∈ m1, y ∈ m2)
    (h23 : ∀ y ∈ m2, y ∈ m3) : Left T m0 m2 :=
  ⟨hs, fun a ha b hb => h3.coal a (h23 a ha) b (h23 b hb), fun y hy => h3.src y (h23 y hy),
    fun x hx ht => h12 x (h1.kept x hx ht)⟩

/-- Cutting `n` out of the entry `x`, interrupted. -/
theorem cut_sim {T : Range K → Prop} {m0 m : List (Range K × V)} (h : Left T m0 m)
    {x : Range K × V} (hx : x ∈ m) (ht : x ∈ m0 → T x.1) {n : Range K} (hn : n.start < n.stop)
    (hov1 : x.1.start < n.stop) (hov2 : n.start < x.1.stop) {m1 m2 m3 : List (Range K × V)}
    (h1 : m1 = BTreeMap.remove Range.start x.1.start m)
    (h2 : m2 = if x.1.start < n.start then
      BTreeMap.insert Range.start ⟨x.1.start, n.start⟩ x.2 m1 else m1)
    (h3 : m3 = if n.stop < x.1.stop then
      BTreeMap.insert Range.start ⟨n.stop, x.1.stop⟩ x.2 m2 else m2)
    (hl3 : Left T m0 m3) {α : Type} {a : α} {c : Cr K (Range K) V α}
    (hc : Sim Range.start (Left T m0) c m3 a m3) :
    Sim Range.start (Left T m0) (do
      Cr.remove x.1.start
      insertLeftC x.1 x.2 n
      insertRightC x.1 x.2 n
      c) m a m3 := by
  have htri := h.sep.tri x hx
  have hne := h.sep.ne x hx
  have l1 : Left T m0 m1 := h1 ▸ h.remove hx ht
  have e1 : ∀ y, y ∈ m1 ↔ y ∈ m ∧ y ≠ x := by intro y; rw [h1, h.sep.mem_remove hx]
  refine (Sim.remove (P := Left T m0) h (h1 ▸ l1)).bind ?_
  rw [← h1]
  have s2 : Sep m2 ∧ (∀ y, y ∈ m2 ↔ y ∈ m1 ∨
      (x.1.start < n.start ∧ y = (⟨x.1.start, n.start⟩, x.2))) ∧
      Sim Range.start (Left T m0) (insertLeftC x.1 x.2 n) m1 () m2 := by
    by_cases hl : x.1.start < n.start
    · have hf : Fits m1 ⟨x.1.start, n.start⟩ := by
        refine ⟨hl, ?_⟩
        intro e he
        rw [e1] at he
        have := htri e he.1
        grind
      rw [if_pos hl] at h2
      subst h2
      refine ⟨l1.sep.insert hf _, ?_, ?_⟩
      · intro y; rw [l1.sep.mem_insert hf]; grind
      · refine Sim.user_bind l1 ?_
        rw [if_pos hl]
        exact Sim.user_bind l1 (Sim.insert l1 (l1.sep.fresh hf))
    · rw [if_neg hl] at h2
      subst h2
      refine ⟨l1.sep, ?_, ?_⟩
      · intro y; grind
      · refine Sim.user_bind l1 ?_
        rw [if_neg hl]
        exact Sim.pure _ _
  obtain ⟨s2, e2, hsim2⟩ := s2
  refine hsim2.bind ?_
  by_cases hl : n.stop < x.1.stop
  · have hf : Fits m2 ⟨n.stop, x.1.stop⟩ := by
      refine ⟨hl, ?_⟩
      intro e he
      rw [e2, e1] at he
      rcases he with he | he
      · have := htri e he.1
        have := h.sep.ne e he.1
        grind
      · grind
    rw [if_pos hl] at h3
    subst h3
    have l2 : Left T m0 m2 := l1.between hl3 s2 (fun y hy => by rw [e2]; exact Or.inl hy)
      (fun y hy => by rw [s2.mem_insert hf]; exact Or.inr hy)
    refine Sim.bind (a := ()) (Sim.user_bind l2 ?_) hc
    rw [if_pos hl]
    exact Sim.user_bind l2 (Sim.insert l2 (s2.fresh hf))
  · rw [if_neg hl] at h3
    subst h3
    refine Sim.bind (a := ()) (Sim.user_bind hl3 ?_) hc
    rw [if_neg hl]
    exact Sim.pure _ _

/-! ### insert -/

variable [PartialEquivBEq V]

theorem EInv.left {m0 m : List (Range K × V)} {r n : Range K} {v : V} (hi : IInv m0 r v m n)
    (h : EInv m0 r v m n) (hs : Sep m0) : Left (Tch r) m0 m := by
  refine ⟨hi.sep, hi.coal, ?_, ?_⟩
  · intro y hy
    rcases h.src y hy with h1 | ⟨x, h1, h2, h3, h4⟩
    · exact ⟨y, h1, rfl, by grind, by grind⟩
    · have := hs.ne x h1
      refine ⟨x, h1, ?_⟩
      unfold Ovl at h3
      rcases h4 with ⟨h5, rfl⟩ | ⟨h5, rfl⟩
      · exact ⟨rfl, by grind, by grind⟩
      · exact ⟨rfl, by grind, by grind⟩
  · intro x hx ht
    rcases h.kept x hx with h1 | h1 | h1
    · exact h1
    · exact absurd h1.2.1 ht
    · exfalso
      have h2 := h1.2.1
      unfold Ovl at h2
      unfold Tch at ht
      grind

theorem adjustInsert_sim {m0 m : List (Range K × V)} {r n : Range K} {v : V} (h0 : Sep m0)
    (c0 : Coal m0) (hr : r.start < r.stop) (hi : IInv m0 r v m n) (h : EInv m0 r v m n)
    {x : Range K × V} (hx : x ∈ m)
    (ht1 : x.1.start ≤ n.stop) (ht2 : n.start ≤ x.1.stop)
    {m' : List (Range K × V)} {n' : Range K}
    (heq : adjustTouchingRangesForInsert m x.1 x.2 n v = (m', n')) :
    Sim Range.start (Left (Tch r) m0) (adjustTouchingRangesForInsertC x.1 x.2 n v) m n' m' := by
  have hi' := (adjustInsert_spec hr hi hx ht1 ht2 heq).1
  have h' := h.step h0 c0 hr hi hx ht1 ht2 heq
  have hadj := (adjustInsert_spec hr hi hx ht1 ht2 heq).2
  have hl := h.left hi h0
  have hl' := h'.left hi' h0
  have hns := hi.ns
  have hne := hi.ne
  -- an entry that disappears touches `r`
  have htx : x ∉ m' → x ∈ m0 → Tch r x.1 := fun hn h0 =>
    Classical.byContradiction fun hc => hn (hl'.kept x h0 hc)
  unfold adjustTouchingRangesForInsertC
  unfold adjustTouchingRangesForInsert at heq
  refine Sim.user_bind hl ?_
  by_cases hv : (x.2 == v) = true
  · rw [if_pos hv] at heq ⊢
    simp only [Prod.mk.injEq] at heq
    obtain ⟨rfl, rfl⟩ := heq
    refine Sim.user_bind hl ?_
    refine (Sim.remove hl hl').bind ?_
    exact Sim.user_bind hl' (Sim.pure _ _)
  · rw [if_neg hv] at heq ⊢
    refine Sim.user_bind hl ?_
    by_cases hov : n.overlaps x.1 = true
    · rw [if_pos hov] at heq ⊢
      have hxm : x ∉ m' := by
        simp only [Range.overlaps, decide_eq_true_eq, lt_rmin, rmax_lt] at hov
        rcases hadj with ⟨h1, _⟩ | ⟨_, _, _, rfl, h5, _⟩ | ⟨_, h2, _⟩
        · exact absurd h1 hv
        · rw [h5]
          rintro (h6 | ⟨_, h6⟩ | ⟨_, h6⟩)
          · exact h6.2 rfl
          · have h7 := congrArg (fun e => e.1.stop) h6
            simp only at h7
            grind
          · have h7 := congrArg (fun e => e.1.start) h6
            simp only at h7
            grind
        · exfalso; grind
      simp only [Prod.mk.injEq] at heq
      obtain ⟨heq, rfl⟩ := heq
      simp only [Range.overlaps, decide_eq_true_eq, lt_rmin, rmax_lt] at hov
      exact cut_sim hl hx (htx hxm) (by grind) (by grind) (by grind) rfl rfl heq.symm hl'
        (Sim.user_bind hl' (Sim.pure _ _))
    · rw [if_neg hov] at heq ⊢
      simp only [Prod.mk.injEq] at heq
      obtain ⟨rfl, rfl⟩ := heq
      exact Sim.user_bind hl (Sim.pure _ _)

theorem insertLoop_sim {m0 : List (Range K × V)} {r : Range K} {v : V} {hi : K} (h0 : Sep m0)
    (c0 : Coal m0) (hr : r.start < r.stop) : ∀ (fuel : Nat) (m : List (Range K × V)) (n : Range K)
    (m' : List (Range K × V)) (n' : Range K), IInv m0 r v m n → EInv m0 r v m n → hi ≤ n.stop →
    insertLoop hi v fuel m n = .ok (m', n') →
    Sim Range.start (Left (Tch r) m0) (insertLoopC hi v fuel n) m n' m' := by
  intro fuel
  induction fuel with
  | zero => intro m n m' n' _ _ _ h; simp [insertLoop] at h
  | succ f ih =>
    intro m n m' n' hiv he hh h
    have hl := he.left hiv h0
    unfold insertLoop at h
    unfold insertLoopC
    cases hrg : BTreeMap.range Range.start (.included n.start) (.included hi) m with
    | error p => simp [hrg, bind, Except.bind] at h
    | ok l =>
      simp only [hrg, bind, Except.bind] at h
      refine (Sim.range hl hrg).bind ?_
      cases hd : l.head? with
      | none =>
        simp only [hd, pure, Except.pure, Except.ok.injEq, Prod.mk.injEq] at h
        obtain ⟨rfl, rfl⟩ := h
        exact Sim.pure _ _
      | some x =>
        have hx : x ∈ m ∧ n.start ≤ x.1.start ∧ x.1.start ≤ hi := by
          have h1 := List.mem_of_head? hd
          unfold BTreeMap.range at hrg
          split at hrg
          · simp at hrg
          · simp only [Except.ok.injEq] at hrg
            rw [← hrg, List.mem_filter] at h1
            simpa [Bound.admitsAsLower, Bound.admitsAsUpper] using h1
        have hxn := hiv.sep.ne x hx.1
        simp only [hd] at h ⊢
        refine Sim.user_bind hl ?_
        by_cases hb : (keq x.1.start n.stop && !(x.2 == v)) = true
        · rw [if_pos hb] at h ⊢
          simp only [pure, Except.pure, Except.ok.injEq, Prod.mk.injEq] at h
          obtain ⟨rfl, rfl⟩ := h
          exact Sim.pure _ _
        · rw [if_neg hb] at h ⊢
          refine Sim.user_bind hl ?_
          generalize hadj : adjustTouchingRangesForInsert m x.1 x.2 n v = p at h
          obtain ⟨m1, n1⟩ := p
          have ht1 : x.1.start ≤ n.stop := by grind
          have ht2 : n.start ≤ x.1.stop := by grind
          have hsp := adjustInsert_spec hr hiv hx.1 ht1 ht2 hadj
          refine (adjustInsert_sim h0 c0 hr hiv he hx.1 ht1 ht2 hadj).bind ?_
          refine ih m1 n1 m' n' hsp.1 (he.step h0 c0 hr hiv hx.1 ht1 ht2 hadj) ?_ h
          rcases hsp.2 with ⟨_, _, e2, _⟩ | ⟨_, _, _, e, _⟩ | ⟨_, _, e, _⟩
          · rw [e2, le_rmax]; exact Or.inl hh
          · rw [e]; exact hh
          · rw [e]; exact hh

theorem insertPrefix_sim {m0 : List (Range K × V)} {r : Range K} {v : V} (h0 : Sep m0)
    (c0 : Coal m0) (hr : r.start < r.stop) {m' : List (Range K × V)} {n' : Range K}
    (h : insertPrefix m0 r v = .ok (m', n')) :
    IInv m0 r v m' n' ∧ EInv m0 r v m' n' ∧
    Sim Range.start (Left (Tch r) m0) (insertPrefixC r v) m0 n' m' := by
  have hiv : IInv m0 r v m0 r := IInv.refl h0 c0
  have he : EInv m0 r v m0 r := EInv.refl
  have hl := he.left hiv h0
  unfold insertPrefix at h
  unfold insertPrefixC
  cases hrg : BTreeMap.range Range.start .unbounded (.included r.start) m0 with
  | error p => simp [hrg, bind, Except.bind] at h
  | ok l =>
    simp only [hrg, bind, Except.bind] at h
    have key : ∀ c ∈ (l.reverse.take 2).filter fun e => e.1.touches r,
        adjustTouchingRangesForInsert m0 c.1 c.2 r v = (m', n') →
        IInv m0 r v m' n' ∧ EInv m0 r v m' n' ∧
          Sim Range.start (Left (Tch r) m0) (adjustTouchingRangesForInsertC c.1 c.2 r v) m0 n' m' := by
      intro c hc hadj
      rw [List.mem_filter] at hc
      have hcl : c ∈ l := List.mem_reverse.1 ((List.take_sublist _ _).subset hc.1)
      have hcm : c ∈ m0 := by
        unfold BTreeMap.range at hrg
        split at hrg
        · simp at hrg
        · simp only [Except.ok.injEq] at hrg
          rw [← hrg, List.mem_filter] at hcl
          exact hcl.1
      have ht := hc.2
      simp only [Range.touches, decide_eq_true_eq, le_rmin, rmax_le] at ht
      have ht1 : c.1.start ≤ r.stop := by grind
      have ht2 : r.start ≤ c.1.stop := by grind
      exact ⟨(adjustInsert_spec hr hiv hcm ht1 ht2 hadj).1,
        he.step h0 c0 hr hiv hcm ht1 ht2 hadj,
        adjustInsert_sim h0 c0 hr hiv he hcm ht1 ht2 hadj⟩
    have hsim : ∀ {α : Type} {f : List (Range K × V) → Cr K (Range K) V α} {a : α},
        Sim Range.start (Left (Tch r) m0) (f l) m0 a m' →
        Sim Range.start (Left (Tch r) m0) (Cr.range .unbounded (.included r.start) >>= f) m0 a m' :=
      fun hf => (Sim.range hl hrg).bind hf
    generalize hcs : (l.reverse.take 2).filter (fun e => e.1.touches r) = cs at h key
    match cs, h, key with
    | [], h, _ =>
      simp only [pure, Except.pure, Except.ok.injEq, Prod.mk.injEq] at h
      obtain ⟨rfl, rfl⟩ := h
      refine ⟨hiv, he, hsim (Sim.user_bind hl ?_)⟩
      rw [hcs]
      exact Sim.pure _ _
    | [c], h, key =>
      simp only [pure, Except.pure, Except.ok.injEq] at h
      obtain ⟨k1, k2, k3⟩ := key c (by simp) h
      refine ⟨k1, k2, hsim (Sim.user_bind hl ?_)⟩
      rw [hcs]
      exact Sim.user_bind hl k3
    | c0' :: c :: t, h, key =>
      simp only [pure, Except.pure, Except.ok.injEq] at h
      obtain ⟨k1, k2, k3⟩ := key c (by simp) h
      refine ⟨k1, k2, hsim (Sim.user_bind hl ?_)⟩
      rw [hcs]
      exact Sim.user_bind hl k3

/-- `insert`, interrupted: it completes, or it leaves a part of the old map, or (when the panic is
that of dropping the local variables) the complete new map. -/
theorem insert_sim {m : RangeMap K V} (h : WF m.btm) {r : Range K} (v : V)
    (hr : r.start < r.stop) {m' : RangeMap K V} (hm : m.insert r v = .ok m') :
    Sim Range.start (fun l => Left (Tch r) m.btm l ∨ l = m'.btm) (insertProgram r v) m.btm () m'.btm := by
  unfold insert insertFuel at hm
  simp only [hr, not_true_eq_false, if_false, bind, Except.bind, pure, Except.pure] at hm
  cases hp : insertPrefix m.btm r v with
  | error p => simp [hp] at hm
  | ok p =>
    obtain ⟨m1, n1⟩ := p
    simp only [hp] at hm
    cases hlo : insertLoop n1.stop v (m.len + 2) m1 n1 with
    | error p => simp [hlo] at hm
    | ok q =>
      obtain ⟨m2, n2⟩ := q
      simp only [hlo, Except.ok.injEq] at hm
      subst hm
      obtain ⟨k1, k2, k3⟩ := insertPrefix_sim h.sep h.coal hr hp
      have k4 := insertLoop_sim h.sep h.coal hr _ _ _ _ _ k1 k2 (by grind) hlo
      -- the final tree
      obtain ⟨m1', n1', hp', hi1, hl1, hlen1, hst1⟩ := insertPrefix_spec (v := v) hr h.sep h.coal
      rw [hp] at hp'
      simp only [Except.ok.injEq, Prod.mk.injEq] at hp'
      obtain ⟨rfl, rfl⟩ := hp'
      obtain ⟨m2', n2', hloop, hi2, hl2, hd2, hlen2, hst2⟩ :=
        insertLoop_spec (hi := n1.stop) hr (m.len + 1) m1 n1 hi1 hl1 ⟨by grind, by grind⟩ hi1.ne
          (Or.inl hlen1)
      rw [hloop (m.len + 2) (by omega)] at hlo
      simp only [Except.ok.injEq, Prod.mk.injEq] at hlo
      obtain ⟨rfl, rfl⟩ := hlo
      have he := EInv.steps h.sep h.coal hr (hst1.trans hst2) (IInv.refl h.sep h.coal) EInv.refl
      have hns := hi2.ns
      have hne := hi2.ne
      have hfit : Fits m2' n2' := by
        refine ⟨by grind, ?_⟩
        intro e he
        have := hl2 e he
        have := hd2 e he
        grind
      have hL0 : Left (Tch r) m.btm m.btm := Left.refl h
      have hL1 := k2.left k1 h.sep
      have hL2 := he.left hi2 h.sep
      unfold insertProgram
      refine Sim.user_bind (Or.inl hL0) ?_
      rw [if_pos hr]
      refine (Sim.len _).bind ?_
      refine (k3.mono fun _ => Or.inl).bind ?_
      refine Sim.user_bind (Or.inl hL1) ?_
      refine (k4.mono fun _ => Or.inl).bind ?_
      refine (Sim.insert (Or.inl hL2) (hi2.sep.fresh hfit)).bind ?_
      exact Sim.user (Or.inr rfl)

/-! ### remove -/

omit [PartialEquivBEq V]

theorem REInv.left {m0 m : List (Range K × V)} {r : Range K} (hi : RInv m0 r m)
    (h : REInv m0 r m) (hs : Sep m0) : Left (Ovl r) m0 m := by
  refine ⟨hi.sep, hi.coal, ?_, ?_⟩
  · intro y hy
    rcases h.src y hy with h1 | ⟨x, h1, h3, h4⟩
    · exact ⟨y, h1, rfl, by grind, by grind⟩
    · have := hs.ne x h1
      refine ⟨x, h1, ?_⟩
      unfold Ovl at h3
      rcases h4 with ⟨h5, rfl⟩ | ⟨h5, rfl⟩
      · exact ⟨rfl, by grind, by grind⟩
      · exact ⟨rfl, by grind, by grind⟩
  · intro x hx ht
    rcases h.kept x hx with h1 | h1
    · exact h1
    · exact absurd h1.1 ht

theorem adjustRemove_sim {m0 m : List (Range K × V)} {r : Range K} (h0 : Sep m0)
    (hr : r.start < r.stop) (hi : RInv m0 r m) (h : REInv m0 r m)
    {x : Range K × V} (hx : x ∈ m) (ht1 : x.1.start < r.stop) (ht2 : r.start < x.1.stop) :
    RInv m0 r (adjustOverlappingRangesForRemove m x.1 x.2 r) ∧
    REInv m0 r (adjustOverlappingRangesForRemove m x.1 x.2 r) ∧
    Sim Range.start (Left (Ovl r) m0) (adjustOverlappingRangesForRemoveC x.1 x.2 r) m ()
      (adjustOverlappingRangesForRemove m x.1 x.2 r) := by
  have hi' := (adjustRemove_spec hr hi hx ht1 ht2).1
  have h' := REInv.steps h0 hr (.step hx ht1 ht2 .refl) hi h
  have hl := h.left hi h0
  have hl' := h'.left hi' h0
  refine ⟨hi', h', ?_⟩
  exact cut_sim hl hx (fun _ => ⟨ht1, ht2⟩) hr ht1 ht2 rfl rfl rfl hl' (Sim.user hl')

theorem removeLoop_sim {m0 : List (Range K × V)} {r : Range K} (h0 : Sep m0)
    (hr : r.start < r.stop) : ∀ (fuel : Nat) (m m' : List (Range K × V)),
    RInv m0 r m → REInv m0 r m → removeLoop r fuel m = .ok m' →
    RInv m0 r m' ∧ REInv m0 r m' ∧ Sim Range.start (Left (Ovl r) m0) (removeLoopC r fuel) m () m' := by
  intro fuel
  induction fuel with
  | zero => intro m m' _ _ h; simp [removeLoop] at h
  | succ f ih =>
    intro m m' hiv he h
    have hl := he.left hiv h0
    unfold removeLoop at h
    unfold removeLoopC
    cases hrg : BTreeMap.range Range.start (.excluded r.start) (.excluded r.stop) m with
    | error p => simp [hrg, bind, Except.bind] at h
    | ok l =>
      simp only [hrg, bind, Except.bind] at h
      cases hd : l.head? with
      | none =>
        simp only [hd, pure, Except.pure, Except.ok.injEq] at h
        subst h
        refine ⟨hiv, he, (Sim.range hl hrg).bind ?_⟩
        simp only [hd]
        exact Sim.pure _ _
      | some x =>
        have hx : x ∈ m ∧ r.start < x.1.start ∧ x.1.start < r.stop := by
          have h1 := List.mem_of_head? hd
          unfold BTreeMap.range at hrg
          split at hrg
          · simp at hrg
          · simp only [Except.ok.injEq] at hrg
            rw [← hrg, List.mem_filter] at h1
            simpa [Bound.admitsAsLower, Bound.admitsAsUpper] using h1
        have hxn := hiv.sep.ne x hx.1
        simp only [hd] at h
        obtain ⟨k1, k2, k3⟩ := adjustRemove_sim h0 hr hiv he hx.1 (by grind) (by grind)
        obtain ⟨k4, k5, k6⟩ := ih _ _ k1 k2 h
        refine ⟨k4, k5, (Sim.range hl hrg).bind ?_⟩
        simp only [hd]
        exact Sim.user_bind hl (k3.bind k6)

theorem removePrefix_sim {m0 : List (Range K × V)} {r : Range K} (h0 : Sep m0) (c0 : Coal m0)
    (hr : r.start < r.stop) {m' : List (Range K × V)} (h : removePrefix m0 r = .ok m') :
    RInv m0 r m' ∧ REInv m0 r m' ∧ Sim Range.start (Left (Ovl r) m0) (removePrefixC r) m0 () m' := by
  have hiv : RInv m0 r m0 := RInv.refl h0 c0
  have he : REInv m0 r m0 := ⟨fun y hy => Or.inl hy, fun x hx => Or.inl hx⟩
  have hl := he.left hiv h0
  unfold removePrefix at h
  unfold removePrefixC
  cases hrg : BTreeMap.range Range.start .unbounded (.included r.start) m0 with
  | error p => simp [hrg, bind, Except.bind] at h
  | ok l =>
    simp only [hrg, bind, Except.bind] at h
    cases hd : l.getLast?.filter fun e => e.1.overlaps r with
    | none =>
      simp only [hd, pure, Except.pure, Except.ok.injEq] at h
      subst h
      refine ⟨hiv, he, (Sim.range hl hrg).bind (Sim.user_bind hl ?_)⟩
      simp only [hd]
      exact Sim.pure _ _
    | some x =>
      simp only [hd, pure, Except.pure, Except.ok.injEq] at h
      subst h
      have hx : x ∈ m0 ∧ x.1.overlaps r = true := by
        rw [Option.filter_eq_some_iff] at hd
        have h1 := List.mem_of_getLast? hd.1
        unfold BTreeMap.range at hrg
        split at hrg
        · simp at hrg
        · simp only [Except.ok.injEq] at hrg
          rw [← hrg, List.mem_filter] at h1
          exact ⟨h1.1, hd.2⟩
      have hov := hx.2
      simp only [Range.overlaps, decide_eq_true_eq, lt_rmin, rmax_lt] at hov
      obtain ⟨k1, k2, k3⟩ := adjustRemove_sim h0 hr hiv he hx.1 (by grind) (by grind)
      refine ⟨k1, k2, (Sim.range hl hrg).bind (Sim.user_bind hl ?_)⟩
      simp only [hd]
      exact Sim.user_bind hl k3

theorem remove_sim {m : RangeMap K V} (h : WF m.btm) {r : Range K}
    (hr : r.start < r.stop) {m' : RangeMap K V} (hm : m.remove r = .ok m') :
    Sim Range.start (Left (Ovl r) m.btm) (removeProgram r) m.btm () m'.btm := by
  unfold remove removeFuel at hm
  simp only [hr, not_true_eq_false, if_false, bind, Except.bind, pure, Except.pure] at hm
  cases hp : removePrefix m.btm r with
  | error p => simp [hp] at hm
  | ok m1 =>
    simp only [hp] at hm
    cases hlo : removeLoop r (m.len + 2) m1 with
    | error p => simp [hlo] at hm
    | ok m2 =>
      simp only [hlo, Except.ok.injEq] at hm
      subst hm
      obtain ⟨k1, k2, k3⟩ := removePrefix_sim h.sep h.coal hr hp
      obtain ⟨k4, k5, k6⟩ := removeLoop_sim h.sep hr _ _ _ k1 k2 hlo
      unfold removeProgram
      refine Sim.user_bind (Left.refl h) ?_
      rw [if_pos hr]
      refine (Sim.len _).bind (k3.bind (Sim.user_bind (k2.left k1 h.sep) (k6.bind ?_)))
      exact Sim.user (k5.left k4 h.sep)

end Verif.RangeMap

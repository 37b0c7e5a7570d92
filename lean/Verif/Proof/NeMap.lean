import Verif.Proof.Weak
import Verif.Model.Ne

/-!
# `RangeMap::insert` with an independent `!=`

The second half of `Proof/Weak.lean` once more: there the loop asks `!(a == b)`, here `a != b`.
-/
set_option linter.unusedSectionVars false
set_option linter.unusedVariables false

namespace Verif.RangeMap.Ne
open Verif.RangeMap.Weak (never never_per wf_never Chained.refl Chained.trans)
variable {K : Type} [LE K] [LT K] [DecidableLE K] [DecidableLT K]
  [Std.IsLinearPreorder K] [Std.LawfulOrderLT K] {V : Type} [BEq V] [HasNe V]

theorem insertNe_invalid {m : RangeMap K V} {r : Range K} {v : V} (hr : ¬ r.start < r.stop) :
    m.insertNe r v = .error .assertFailed := by
  simp [insertNe, insertFuelNe, hr, bind, Except.bind, throw, throwThe, MonadExceptOf.throw]

theorem runNe_append (ops : List (Spec.Op (Range K) V)) (op : Spec.Op (Range K) V) :
    runNe (ops ++ [op]) = ((runNe ops).applyNe op).1 := by
  simp [runNe, List.foldl_append]

/-- Nothing left to do for the loop: the next stored range is beyond the new one. -/
def Done (hi : K) (v : V) (m : List (Range K × V)) (n : Range K) : Prop :=
  ∀ y ∈ m, n.start ≤ y.1.start → n.stop ≤ y.1.start ∧ (y.1.start ≤ hi → HasNe.ne y.2 v = true)

/-- Everything that starts after `hi` is settled. -/
def RightOk (hi : K) (v : V) (m : List (Range K × V)) (n : Range K) : Prop :=
  hi ≤ n.stop ∧ ∀ y ∈ m, hi < y.1.start → n.stop ≤ y.1.start

theorem insertLoop_unfold (hi : K) (v : V) (f : Nat) (m : List (Range K × V)) (n : Range K)
    (h : n.start ≤ hi) : insertLoopNe hi v (f + 1) m n =
      match (m.filter fun e => decide (n.start ≤ e.1.start) && decide (e.1.start ≤ hi)).head? with
      | none => .ok (m, n)
      | some (stored, storedValue) =>
        if keq stored.start n.stop && HasNe.ne storedValue v then .ok (m, n)
        else insertLoopNe hi v f (adjustTouchingRangesForInsert m stored storedValue n v).1
          (adjustTouchingRangesForInsert m stored storedValue n v).2 := by
  conv => lhs; unfold insertLoopNe
  rw [BTreeMap.range_ok (by simp only [Bound.invalid]; grind)]
  rfl

/-- If there is nothing left to do the loop stops at once. -/
theorem insertLoop_done {hi : K} {v : V} {m : List (Range K × V)} {n : Range K} {f : Nat}
    (h : n.start ≤ hi) (hh : hi ≤ n.stop) (hd : Done hi v m n) :
    insertLoopNe hi v (f + 1) m n = .ok (m, n) := by
  rw [insertLoop_unfold hi v f m n h]
  split
  · rfl
  · rename_i x xv hx
    have hx := List.mem_of_head? hx
    rw [List.mem_filter] at hx
    have := hd _ hx.1
    rw [if_pos]
    simp only [keq]
    grind

variable [EqOrNe V]

theorem insertLoop_spec {m0 : List (Range K × V)} {r : Range K} {v : V} {hi : K}
    (hr : r.start < r.stop) (L : Nat) :
    ∀ (m : List (Range K × V)) (n : Range K), Weak.IInv m0 r v m n → Weak.LeftOk v m n →
      RightOk hi v m n → r.stop ≤ hi → (m.length ≤ L ∨ Done hi v m n) →
      ∃ m' n', (∀ fuel, L + 1 ≤ fuel → insertLoopNe hi v fuel m n = .ok (m', n')) ∧
        Weak.IInv m0 r v m' n' ∧ Weak.LeftOk v m' n' ∧ Done hi v m' n' ∧ m'.length ≤ m.length := by
  induction L with
  | zero =>
    intro m n hinv hleft hright hhi hlen
    have hd : Done hi v m n := by
      rcases hlen with hlen | hlen
      · have : m = [] := List.eq_nil_of_length_eq_zero (by omega)
        simp [this, Done]
      · exact hlen
    refine ⟨m, n, ?_, hinv, hleft, hd, by omega⟩
    intro fuel hf
    obtain ⟨f, rfl⟩ : ∃ f, fuel = f + 1 := ⟨fuel - 1, by omega⟩
    have := hinv.ns
    exact insertLoop_done (by grind) hright.1 hd
  | succ L ih =>
    intro m n hinv hleft hright hhi hlen
    have hns := hinv.ns
    have hne := hinv.ne
    rcases hlen with hlen | hd
    · have hn : n.start ≤ hi := by grind
      cases hh : (m.filter fun e =>
          decide (n.start ≤ e.1.start) && decide (e.1.start ≤ hi)).head? with
      | none =>
        refine ⟨m, n, ?_, hinv, hleft, ?_, by omega⟩
        · intro fuel hf
          obtain ⟨f, rfl⟩ : ∃ f, fuel = f + 1 := ⟨fuel - 1, by omega⟩
          rw [insertLoop_unfold hi v f m n hn, hh]
        · rw [BTreeMap.head?_filter_eq_none] at hh
          intro y hy hy'
          have := hh y hy
          have := hright.2 y hy
          grind
      | some x =>
        obtain ⟨hx, hp, hfirst⟩ := BTreeMap.head?_filter_eq_some hinv.sep.pw hh
        simp only [Bool.and_eq_true, decide_eq_true_eq] at hp
        have hnx := hinv.sep.ne x hx
        have hen : (x.2 == v) = false → HasNe.ne x.2 v = true := EqOrNe.ne_of_not_eq
        have htri := hinv.sep.tri x hx
        by_cases hbr : (keq x.1.start n.stop && HasNe.ne x.2 v) = true
        · refine ⟨m, n, ?_, hinv, hleft, ?_, by omega⟩
          · intro fuel hf
            obtain ⟨f, rfl⟩ : ∃ f, fuel = f + 1 := ⟨fuel - 1, by omega⟩
            rw [insertLoop_unfold hi v f m n hn, hh]
            simp only [hbr, if_true]
          · intro y hy hy'
            have := hfirst y hy
            have := hright.2 y hy
            have := hright.1
            simp only [keq, Bool.and_eq_true, decide_eq_true_eq] at hbr
            grind [Before]
        · have hbr' : (keq x.1.start n.stop && HasNe.ne x.2 v) = false := by simpa using hbr
          simp only [keq, Bool.and_eq_true, decide_eq_true_eq] at hbr
          have hle : x.1.start ≤ n.stop := by have := hright.1; grind
          generalize hadj : adjustTouchingRangesForInsert m x.1 x.2 n v = p at *
          obtain ⟨m1, n1⟩ := p
          have hge : n.start ≤ x.1.stop := by grind
          have ha := Weak.adjustInsert_spec hr hinv hx hle hge hadj
          have hstep : Weak.IInv m0 r v m1 n1 ∧ Weak.LeftOk v m1 n1 ∧ RightOk hi v m1 n1 ∧
              (m1.length ≤ L ∨ Done hi v m1 n1) ∧ m1.length ≤ m.length := by
            refine ⟨ha.1, ?_⟩
            rcases ha.2 with ⟨hv, e1, e2, hm, hl⟩ | ⟨hv, e1, e2, hn', hm, hl⟩ | ⟨hv, e1, hn', hm⟩
            · refine ⟨?_, ?_, Or.inl (by omega), by omega⟩
              · intro y hy hlt
                rw [hm] at hy
                have := hleft y hy.1
                simp only [e1, rmin] at hlt ⊢
                grind
              · refine ⟨?_, ?_⟩
                · rw [e2, le_rmax]; exact Or.inl hright.1
                · intro y hy hlt
                  rw [hm] at hy
                  have h1 := hright.2 y hy.1 hlt
                  have h2 := htri y hy.1
                  have h4 := hinv.sep.ne y hy.1
                  simp only [e2, rmax]
                  grind
            · subst hn'
              rw [if_neg (by grind)] at hl
              refine ⟨?_, ?_, ?_, by grind⟩
              · intro y hy hlt
                have := hleft y
                rw [hm] at hy
                grind
              · refine ⟨hright.1, ?_⟩
                intro y hy hlt
                have := hright.2 y
                rw [hm] at hy
                grind
              · by_cases hxr : n1.stop < x.1.stop
                · right
                  intro y hy hy'
                  have := hright.1
                  have := hfirst y
                  have := hright.2 y
                  rw [hm] at hy
                  grind [Before]
                · left
                  rw [if_neg hxr] at hl
                  omega
            · exfalso
              grind
          obtain ⟨h1, h2, h3, h4, h5⟩ := hstep
          obtain ⟨m', n', hm', hi', hl', hd', hlen'⟩ := ih m1 n1 h1 h2 h3 hhi h4
          refine ⟨m', n', ?_, hi', hl', hd', by omega⟩
          intro fuel hf
          obtain ⟨f, rfl⟩ : ∃ f, fuel = f + 1 := ⟨fuel - 1, by omega⟩
          rw [insertLoop_unfold hi v f m n hn, hh]
          simp only [hbr', hadj]
          exact hm' f (by omega)
    · refine ⟨m, n, ?_, hinv, hleft, hd, by omega⟩
      intro fuel hf
      obtain ⟨f, rfl⟩ : ∃ f, fuel = f + 1 := ⟨fuel - 1, by omega⟩
      exact insertLoop_done (by grind) hright.1 hd

theorem insert_spec {m : RangeMap K V} (h : Sep m.btm) {r : Range K} (v : V)
    (hr : r.start < r.stop) :
    ∃ m' : RangeMap K V, (∀ fuel, m.len + 2 ≤ fuel → insertFuelNe fuel m r v = .ok m') ∧
      Sep m'.btm ∧ m'.len ≤ m.len + 2 ∧
      ∃ n : Range K, n.start ≤ r.start ∧ r.stop ≤ n.stop ∧
        (∀ k, n.start ≤ k → k < n.stop → ¬ (r.start ≤ k ∧ k < r.stop) →
          ∃ w, Maps m.btm k w ∧ (w == v) = true) ∧
        (∀ k, n.start ≤ k → k < n.stop → ∀ w, Maps m'.btm k w ↔ w = v) ∧
        (∀ k, ¬ (n.start ≤ k ∧ k < n.stop) → ∀ w, Maps m'.btm k w ↔ Maps m.btm k w) := by
  obtain ⟨m1, n1, hp, hi1, hl1, hlen1⟩ := Weak.insertPrefix_spec (v := v) hr h
  obtain ⟨m2, n2, hloop, hi2, hl2, hd2, hlen2⟩ := insertLoop_spec (hi := n1.stop) hr (m.len + 1)
    m1 n1 hi1 hl1 ⟨by grind, by grind⟩ hi1.ne (Or.inl hlen1)
  have hns := hi2.ns
  have hne := hi2.ne
  have hfit : Fits m2 n2 := by
    refine ⟨by grind, ?_⟩
    intro e he
    have := hl2 e he
    have := hd2 e he
    grind
  have em := hi2.sep.mem_insert hfit v
  refine ⟨⟨BTreeMap.insert Range.start n2 v m2⟩, ?_, hi2.sep.insert hfit v, ?_, n2, hns, hne,
    hi2.ado, ?_, ?_⟩
  · intro fuel hf
    unfold insertFuelNe
    simp [hr, hp, hloop fuel (by omega), bind, Except.bind, pure, Except.pure]
  · simp only [len, hi2.sep.length_insert hfit v] at *
    omega
  · intro k hk1 hk2 w
    simp only [Maps]
    constructor
    · rintro ⟨e, he, h1, h2, h3⟩
      rw [em] at he
      rcases he with rfl | he
      · exact h3.symm
      · have := hfit.2 e he
        exfalso
        grind
    · rintro rfl
      exact ⟨(n2, w), by rw [em]; grind, hk1, hk2, rfl⟩
  · intro k hk w
    rw [← hi2.out k hk]
    simp only [Maps]
    constructor
    · rintro ⟨e, he, h1, h2, h3⟩
      rw [em] at he
      rcases he with rfl | he
      · exact absurd ⟨h1, h2⟩ hk
      · exact ⟨e, he, h1, h2, h3⟩
    · rintro ⟨e, he, h1, h2, h3⟩
      exact ⟨e, by rw [em]; grind, h1, h2, h3⟩

theorem insert_ok {m : RangeMap K V} (h : Sep m.btm) {r : Range K} (v : V)
    (hr : r.start < r.stop) : ∃ m', m.insertNe r v = .ok m' ∧ Sep m'.btm := by
  obtain ⟨m', h1, h2, _⟩ := insert_spec h v hr
  exact ⟨m', h1 _ (by omega), h2⟩

/-- `insert` on the abstract contents. -/
theorem insert_look {m m' : RangeMap K V} (h : Sep m.btm) {r : Range K} {v : V}
    (hr : r.start < r.stop) (hi : m.insertNe r v = .ok m') (k : K) :
    (r.start ≤ k → k < r.stop → m'.look k = some v) ∧
    (¬ (r.start ≤ k ∧ k < r.stop) → m'.look k = m.look k ∨
      ∃ w, m.look k = some w ∧ (w == v) = true ∧ m'.look k = some v) := by
  obtain ⟨m'', h1, h2, _, n, h3, h4, h5, h6, h7⟩ := insert_spec h v hr
  have : m'' = m' := by
    have := h1 _ (Nat.le_refl _)
    rw [RangeMap.insertNe] at hi
    simpa [hi] using this.symm
  subst this
  constructor
  · intro hk1 hk2
    rw [look_eq_some h2, h6 k (by grind) (by grind)]
  · intro hk
    by_cases hkn : n.start ≤ k ∧ k < n.stop
    · right
      obtain ⟨w, hw1, hw2⟩ := h5 k hkn.1 hkn.2 hk
      refine ⟨w, (look_eq_some h _ _).2 hw1, hw2, ?_⟩
      rw [look_eq_some h2, h6 k hkn.1 hkn.2]
    · left
      have := get_congr h h2 (h7 k hkn)
      rw [get_look h, get_look h2] at this
      simpa using this

theorem extend_sep {m : RangeMap K V} (h : Sep m.btm) (items : List (Range K × V)) :
    Sep (m.extendNe items).1.btm := by
  induction items generalizing m with
  | nil => exact h
  | cons e t ih =>
    unfold RangeMap.extendNe
    by_cases he : e.1.start < e.1.stop
    · obtain ⟨m', h1, h2⟩ := insert_ok h e.2 he
      rw [h1]
      exact ih h2
    · rw [insertNe_invalid he]
      exact h

theorem apply_sep {m : RangeMap K V} (h : Sep m.btm) (op : Spec.Op (Range K) V) :
    Sep (m.applyNe op).1.btm := by
  cases op with
  | insert r v =>
    unfold RangeMap.applyNe
    by_cases hr : r.start < r.stop
    · obtain ⟨m', h1, h2⟩ := insert_ok h v hr
      simp only [h1]
      exact h2
    · simp only [insertNe_invalid hr]
      exact h
  | remove r =>
    unfold RangeMap.applyNe
    by_cases hr : r.start < r.stop
    · obtain ⟨m', h1, h2⟩ := Weak.remove_ok h hr
      simp only [h1]
      exact h2
    · simp only [remove_invalid hr]
      exact h
  | clear => exact WF.nil.sep
  | extend items => exact extend_sep h items

theorem reachable_sep {m : RangeMap K V} (h : ReachableNe m) : Sep m.btm := by
  obtain ⟨ops, rfl⟩ := h
  unfold runNe
  suffices ∀ m : RangeMap K V, Sep m.btm →
      Sep (ops.foldl (fun m op => (m.applyNe op).1) m).btm from this _ WF.nil.sep
  induction ops with
  | nil => intro m h; exact h
  | cons op ops ih => intro m h; exact ih _ (apply_sep h op)

theorem reachable_never {m : RangeMap K V} (h : ReachableNe m) : @Reachable K _ _ _ _ V (never V) m :=
  @WF.reachable K _ _ _ _ _ _ V (never V) (never_per V) m (wf_never (reachable_sep h))

/-! ### Histories -/

theorem insert_look_chain {m m' : RangeMap K V} (h : Sep m.btm) {r : Range K}
    {v : V} (hr : r.start < r.stop) (hi : m.insertNe r v = .ok m') (k : K) :
    Spec.Chained (if r.start ≤ k ∧ k < r.stop then some v else m.look k) (m'.look k) := by
  have := insert_look h hr hi k
  split
  · rename_i hk
    rw [this.1 hk.1 hk.2]
    exact Chained.refl _
  · rename_i hk
    rcases this.2 hk with h | ⟨w, h1, h2, h3⟩
    · rw [h]; exact Chained.refl _
    · rw [h1, h3]
      exact .step .refl h2

theorem extend_look {m : RangeMap K V} (h : Sep m.btm) (items : List (Range K × V)) (k : K) :
    Spec.Chained
      (match (items.takeWhile fun e => Spec.valid e.1).reverse.find? fun e => Spec.covers e.1 k with
      | some e => some e.2
      | none => m.look k) ((m.extendNe items).1.look k) := by
  induction items generalizing m with
  | nil => exact Chained.refl _
  | cons e t ih =>
    obtain ⟨r, v⟩ := e
    unfold RangeMap.extendNe
    by_cases he : r.start < r.stop
    · obtain ⟨m', h1, h2⟩ := insert_ok h v he
      rw [h1]
      have := ih h2
      simp only [List.takeWhile_cons, Spec.valid, he, decide_true, if_true, List.reverse_cons,
        List.find?_append]
      simp only [Spec.valid] at this
      cases hf : (t.takeWhile fun e => decide (e.1.start < e.1.stop)).reverse.find?
          fun e => Spec.covers e.1 k with
      | some e => simp only [hf] at this; simpa using this
      | none =>
        simp only [hf] at this
        refine Chained.trans ?_ this
        have hi := insert_look_chain h he h1 k
        by_cases hk : r.start ≤ k ∧ k < r.stop
        · simp only [hk, and_self, if_true] at hi
          simpa [Spec.covers, hk] using hi
        · rw [if_neg hk] at hi
          simpa [Spec.covers, hk] using hi
    · rw [insertNe_invalid he]
      simp [Spec.valid, he]
      exact Chained.refl _

theorem apply_look {m : RangeMap K V} (h : Sep m.btm)
    (op : Spec.Op (Range K) V) (k : K) (ops : List (Spec.Op (Range K) V))
    (hm : Spec.Chained (Spec.lastWrite Spec.covers Spec.valid ops k) (m.look k)) :
    Spec.Chained (Spec.lastWrite Spec.covers Spec.valid (op :: ops) k) ((m.applyNe op).1.look k) := by
  cases op with
  | insert r v =>
    simp only [RangeMap.applyNe, Spec.lastWrite, Spec.valid, Spec.covers]
    by_cases hr : r.start < r.stop
    · obtain ⟨m', h1, h2⟩ := insert_ok h v hr
      simp only [h1]
      have := insert_look_chain h hr h1 k
      by_cases hk : r.start ≤ k ∧ k < r.stop
      · simpa [hr, hk] using this
      · rw [if_neg hk] at this
        simpa [hk] using Chained.trans hm this
    · simpa [insertNe_invalid hr, hr] using hm
  | remove r =>
    simp only [RangeMap.applyNe, Spec.lastWrite, Spec.valid, Spec.covers]
    by_cases hr : r.start < r.stop
    · obtain ⟨m', h1, h2⟩ := Weak.remove_ok h hr
      simp only [h1]
      have := Weak.remove_look h hr h1 k
      by_cases hk : r.start ≤ k ∧ k < r.stop
      · simp [hr, hk, this, Spec.Chained]
      · simpa [hk, this] using hm
    · simpa [remove_invalid hr, hr] using hm
  | clear =>
    simp only [RangeMap.applyNe, Spec.lastWrite, RangeMap.clear]
    have : (⟨[]⟩ : RangeMap K V).look k = none := by
      rw [look_eq_none (m := ⟨[]⟩) (WF.nil (K := K) (V := V)).sep]
      rintro w ⟨x, hx, _⟩
      simp at hx
    rw [this]
    trivial
  | extend items =>
    simp only [RangeMap.applyNe, Spec.lastWrite]
    have := extend_look h items k
    cases hf : (items.takeWhile fun e => Spec.valid e.1).reverse.find?
        fun e => Spec.covers e.1 k with
    | some e => simpa only [hf] using this
    | none =>
      simp only [hf] at this ⊢
      exact Chained.trans hm this

theorem run_look (ops : List (Spec.Op (Range K) V)) (k : K) :
    Spec.Chained (Spec.lastWrite Spec.covers Spec.valid ops.reverse k) ((runNe ops).look k) := by
  suffices ∀ rops : List (Spec.Op (Range K) V),
      Spec.Chained (Spec.lastWrite Spec.covers Spec.valid rops k) ((runNe rops.reverse).look k) by
    simpa using this ops.reverse
  intro rops
  induction rops with
  | nil =>
    have : (runNe [] : RangeMap K V).look k = none := by
      rw [look_eq_none (m := runNe []) (WF.nil (K := K) (V := V)).sep]
      rintro w ⟨x, hx, _⟩
      simp [runNe, RangeMap.new] at hx
    simp [this, Spec.lastWrite, Spec.Chained]
  | cons op rops ih =>
    rw [List.reverse_cons, runNe_append]
    exact apply_look (reachable_sep ⟨_, rfl⟩) op k rops ih

end Verif.RangeMap.Ne

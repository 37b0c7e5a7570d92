import Verif.Proof.Lawless

/-!
# Programs whose user code answers whatever it likes: inclusive ranges
-/
set_option linter.unusedSectionVars false
namespace Verif

/-! ## `RangeInclusiveMap` -/

namespace RangeInclusiveMap
open Wild
variable {K V : Type}

section
variable {up down : K → K → Prop} {P : K → Prop} {H : V → Prop}

/-- Both ends have `P`. -/
def Both (P : K → Prop) (r : RangeInclusive K) : Prop := P r.start ∧ P r.stop

/-- The step functions lead from keys with `P` only to keys with `P`. -/
structure Closed (up down : K → K → Prop) (P : K → Prop) : Prop where
  up : ∀ a b, P a → up a b → P b
  down : ∀ a b, P a → down a b → P b

theorem insertPiecesW_keeps (hcl : Closed up down P) {stored cut : RangeInclusive K} {v : V}
    (hs : Both P stored) (hv : H v) (hc : Both P cut) :
    Keeps up down (All (Both P) H) (insertPiecesW stored v cut) fun _ => True := by
  refine .bind (.lt _ _) fun b _ => ?_
  have h2 : Keeps up down (All (Both P) H) (do
      if ← Wild.lt cut.stop stored.stop then
        let s ← Wild.addOne cut.stop
        Wild.insert (.mk' s stored.stop) v)
      fun _ => True := by
    refine .bind (.lt _ _) fun b _ => ?_
    cases b with
    | true =>
      exact .bind (.addOne (hcl.up _ · hc.2)) fun k hk =>
        .insert (All.put (G := Both P) (r := RangeInclusive.mk' k stored.stop) ⟨hk, hs.2⟩ hv)
    | false => exact .pure trivial
  cases b with
  | true =>
    exact .bind (.subOne (hcl.down _ · hc.1)) fun k hk =>
      .bind (.insert (All.put (G := Both P) (r := RangeInclusive.mk' stored.start k) ⟨hs.1, hk⟩ hv)) fun _ _ => h2
  | false => exact h2

theorem overlapsW_keeps {I : List (RangeInclusive K × V) → Prop} (r o : RangeInclusive K) :
    Keeps up down I (r.overlapsW o) fun _ => True :=
  .bind (.max (P := fun _ => True) trivial trivial) fun _ _ =>
    .bind (.min (P := fun _ => True) trivial trivial) fun _ _ => .le _ _

theorem touchesW_keeps {I : List (RangeInclusive K × V) → Prop} (r o : RangeInclusive K) :
    Keeps up down I (r.touchesW o) fun _ => True := by
  refine .bind (.max (P := fun _ => True) trivial trivial) fun _ _ =>
    .bind (.min (P := fun _ => True) trivial trivial) fun _ _ => .bind (.lt _ _) fun b _ => ?_
  cases b with
  | true => exact .bind (.addOne (P := fun _ => True) fun _ _ => trivial) fun _ _ => .le _ _
  | false => exact .le _ _

theorem adjustTouchingRangesForInsertW_keeps (hcl : Closed up down P) {stored newRange : RangeInclusive K} {v newValue : V}
    (hs : Both P stored) (hv : H v) (hn : Both P newRange) :
    Keeps up down (All (Both P) H) (adjustTouchingRangesForInsertW stored v newRange newValue)
      (Both P) := by
  refine .bind (.valEq _ _) fun b _ => ?_
  cases b with
  | true =>
    exact .bind (.min hn.1 hs.1) fun _ h1 => .bind (.max hn.2 hs.2) fun _ h2 =>
      .bind (.remove All.delete) fun _ _ => .pure (⟨h1, h2⟩ : Both P _)
  | false =>
    refine .bind (overlapsW_keeps _ _) fun b _ => ?_
    cases b with
    | true =>
      exact .bind (.remove All.delete) fun _ _ => .bind (insertPiecesW_keeps hcl hs hv hn) fun _ _ =>
        .pure hn
    | false => exact .pure hn

theorem search_keeps {key : RangeInclusive K → K} {lo hi : Bound K} {G : RangeInclusive K → Prop} :
    Keeps up down (All G H) (Wild.range key lo hi) (All G H) :=
  .range fun _ _ ht hl e he => ht e (hl.subset he)

theorem breakCondW_keeps {I : List (RangeInclusive K × V) → Prop} (hi : K) (newValue : V)
    (x : RangeInclusive K × V) : Keeps up down I (breakCondW hi newValue x) fun _ => True := by
  refine .bind (.lt _ _) fun b _ => ?_
  cases b with
  | true =>
    refine .bind (.addOne (P := fun _ => True) fun _ _ => trivial) fun _ _ =>
      .bind (.lt _ _) fun b _ => ?_
    cases b with
    | true => exact .pure trivial
    | false => exact .and (.keyEq _ _) (.bind (.valEq _ _) fun _ _ => .pure trivial)
  | false => exact .pure trivial

theorem insertLoopW_keeps (hcl : Closed up down P) {hi : K} {newValue : V} : ∀ (fuel : Nat) (newRange : RangeInclusive K),
    Both P newRange →
    Keeps up down (All (Both P) H) (insertLoopW hi newValue fuel newRange) (Both P)
  | 0, _, _ => .panic
  | fuel + 1, newRange, hn => by
    refine .bind search_keeps fun l hl => ?_
    cases hx : l.head? with
    | none => exact .pure hn
    | some x =>
      obtain ⟨h1, h2⟩ := hl x (List.mem_of_head? hx)
      refine .bind (breakCondW_keeps _ _ _) fun b _ => ?_
      cases b with
      | true => exact .pure hn
      | false =>
        exact .bind (adjustTouchingRangesForInsertW_keeps hcl h1 h2 hn) fun r hr =>
          insertLoopW_keeps hcl fuel r hr

theorem insertPrefixW_keeps (hcl : Closed up down P) {newRange : RangeInclusive K} {newValue : V} (hn : Both P newRange) :
    Keeps up down (All (Both P) H) (insertPrefixW newRange newValue) (Both P) := by
  refine .bind search_keeps fun l hl => ?_
  refine .bind (.filter (fun e => touchesW_keeps _ _) _) fun c hc => ?_
  have hc : ∀ e ∈ c, Both P e.1 ∧ H e.2 := fun e he =>
    hl e (List.mem_reverse.1 (List.mem_of_mem_take (hc.subset he)))
  match c, hc with
  | [], _ => exact .pure hn
  | [x], hc =>
    exact adjustTouchingRangesForInsertW_keeps hcl (hc x (by simp)).1 (hc x (by simp)).2 hn
  | y :: x :: _, hc =>
    exact adjustTouchingRangesForInsertW_keeps hcl (hc x (by simp)).1 (hc x (by simp)).2 hn

theorem insertW_keeps (hcl : Closed up down P) {fuel : Nat} {r : RangeInclusive K} {v : V} (hr : Both P r) (hv : H v) :
    Keeps up down (All (Both P) H) (insertW fuel r v) fun _ => True := by
  refine .bind (.le _ _) fun b _ => ?_
  cases b with
  | true =>
    exact .bind (insertPrefixW_keeps hcl hr) fun n hn => .bind (insertLoopW_keeps hcl fuel n hn)
      fun n hn => .insert (All.put hn hv)
  | false => exact .panic

theorem extendW_keeps (hcl : Closed up down P) {fuel : Nat} : ∀ {items : List (RangeInclusive K × V)},
    All (Both P) H items → Keeps up down (All (Both P) H) (extendW fuel items) fun _ => True
  | [], _ => .pure trivial
  | e :: items, h => .bind (insertW_keeps hcl (h e (by simp)).1 (h e (by simp)).2) fun _ _ =>
    extendW_keeps hcl fun x hx => h x (.tail _ hx)

theorem adjustOverlappingRangesForRemoveW_keeps (hcl : Closed up down P) {stored range : RangeInclusive K} {v : V}
    (hs : Both P stored) (hv : H v) (hr : Both P range) :
    Keeps up down (All (Both P) H) (adjustOverlappingRangesForRemoveW stored v range)
      fun _ => True :=
  .bind (.remove All.delete) fun _ _ => insertPiecesW_keeps hcl hs hv hr

theorem removeLoopW_keeps (hcl : Closed up down P) {range : RangeInclusive K} (hr : Both P range) : ∀ fuel : Nat,
    Keeps up down (All (Both P) H) (removeLoopW range fuel) fun _ => True
  | 0 => .panic
  | fuel + 1 => by
    refine .bind search_keeps fun l hl => ?_
    cases hx : l.head? with
    | none => exact .pure trivial
    | some x =>
      obtain ⟨h1, h2⟩ := hl x (List.mem_of_head? hx)
      exact .bind (adjustOverlappingRangesForRemoveW_keeps hcl h1 h2 hr) fun _ _ =>
        removeLoopW_keeps hcl hr fuel

theorem removeW_keeps (hcl : Closed up down P) {fuel : Nat} {r : RangeInclusive K} (hr : Both P r) :
    Keeps up down (All (Both P) H) (removeW fuel r) fun _ => True := by
  refine .bind (.le _ _) fun b _ => ?_
  cases b with
  | true =>
    refine .bind (P := fun _ => True) ?_ fun _ _ => removeLoopW_keeps hcl hr fuel
    refine .bind search_keeps fun l hl => ?_
    cases hx : l.getLast? with
    | none => exact .pure trivial
    | some x =>
      obtain ⟨h1, h2⟩ := hl x (List.mem_of_getLast? hx)
      refine .bind (overlapsW_keeps _ _) fun b _ => ?_
      cases b with
      | true => exact adjustOverlappingRangesForRemoveW_keeps hcl h1 h2 hr
      | false => exact .pure trivial
  | false => exact .panic

theorem containsW_keeps {I : List (RangeInclusive K × V) → Prop} (r : RangeInclusive K) (k : K) :
    Keeps up down I (r.containsW k) fun _ => True :=
  .and (.le _ _) (.ite (.lt _ _) (.le _ _))

theorem getKeyValueW_keeps {t0 : List (RangeInclusive K × V)} (k : K) :
    Keeps up down (· = t0) (getKeyValueW k) fun x => ∀ e, x = some e → e ∈ t0 := by
  refine .bind (.range (P := fun l => l.Sublist t0) fun t l ht hl => ht ▸ hl) fun l hl => ?_
  cases hx : l.getLast? with
  | none => exact .pure (fun _ h => by cases h)
  | some x =>
    refine .bind (containsW_keeps _ _) fun b _ => ?_
    cases b with
    | true =>
      exact .pure (fun e h => by cases h; exact hl.subset (List.mem_of_getLast? hx))
    | false => exact .pure (fun _ h => by cases h)

theorem overlappingW_keeps {t0 : List (RangeInclusive K × V)} (n : Nat) (q : RangeInclusive K) :
    Keeps up down (· = t0) (overlappingW n q) fun x => (x.filterMap id).Sublist t0 := by
  refine .bind (.range (P := fun l => l.Sublist t0) fun t l ht hl => ht ▸ hl) fun l hl => ?_
  have : ∀ (n : Nat) (l : List (RangeInclusive K × V)), Keeps up down (· = t0)
      (Wild.calls overlappingNextW n ⟨q, l⟩) fun x => (x.filterMap id).Sublist l := by
    intro n
    induction n with
    | zero => intro l; exact .pure (List.nil_sublist l)
    | succ n ih =>
      intro l
      cases l with
      | nil =>
        refine .bind (P := (· = (none, ⟨q, []⟩))) (.pure rfl) fun x hx => ?_
        subst hx
        exact .bind (ih []) fun y hy => .pure (by simpa using hy)
      | cons e l =>
        refine .bind (P := fun x => (x.1 = some e ∨ x.1 = none) ∧ x.2 = ⟨q, l⟩)
          (.bind (.le _ _) fun b _ => ?_) fun x hx => ?_
        · cases b with
          | true => exact .pure ⟨.inl rfl, rfl⟩
          | false => exact .pure ⟨.inr rfl, rfl⟩
        · obtain ⟨x, l'⟩ := x
          obtain ⟨hx, rfl⟩ := hx
          refine .bind (ih _) fun y hy => .pure ?_
          rcases hx with hx | hx
          · cases hx; simpa using hy.cons_cons e
          · cases hx; simpa using hy.cons e
  exact (this n l).weaken fun x hx => hx.trans hl

theorem gapsTailW_keeps (hcl : Closed up down P) {I : List (RangeInclusive K × V) → Prop}
    (plus : Bool) {c q : K} {l : List (RangeInclusive K × V)}
    (hc : P c) (hq : P q) (hl : ∀ e ∈ l, Both P e.1) :
    Keeps up down I (gapsTailW plus c q l) fun x => (∀ r, x.1 = some r → Both P r) ∧
      P x.2.candidateStart ∧ P x.2.queryEnd ∧ ∀ e ∈ x.2.btmRangeIter, Both P e.1 := by
  cases plus with
  | true =>
    refine .bind (.lt _ _) fun b _ => ?_
    cases b with
    | true =>
      exact .bind (.addOne (hcl.up _ · hc)) fun a ha =>
        .pure ⟨fun r h => by cases h; exact ⟨ha, hq⟩, hq, hq, hl⟩
    | false => exact .pure ⟨(fun r h => nomatch h), hq, hq, hl⟩
  | false =>
    refine .bind (.le _ _) fun b _ => ?_
    cases b with
    | true => exact .pure ⟨fun r h => by cases h; exact ⟨hc, hq⟩, hq, hq, hl⟩
    | false => exact .pure ⟨(fun r h => nomatch h), hq, hq, hl⟩

theorem gapsLoopW_keeps (hcl : Closed up down P) {I : List (RangeInclusive K × V) → Prop} {q : K}
    (hq : P q) : ∀ (l : List (RangeInclusive K × V)) (plus : Bool) {c : K}, P c →
    (∀ e ∈ l, Both P e.1) →
    Keeps up down I (gapsLoopW plus c q l) fun x => (∀ r, x.1 = some r → Both P r) ∧
      P x.2.candidateStart ∧ P x.2.queryEnd ∧ ∀ e ∈ x.2.btmRangeIter, Both P e.1
  | [], plus, c, hc, hl => gapsTailW_keeps hcl plus hc hq hl
  | e :: l, plus, c, hc, hl => by
    have hl' : ∀ e ∈ l, Both P e.1 := fun x hx => hl x (.tail _ hx)
    obtain ⟨he1, he2⟩ := hl e (by simp)
    refine .bind (.lt _ _) fun b _ => ?_
    cases b with
    | true => exact gapsTailW_keeps hcl plus hc hq hl'
    | false =>
      have : ∀ cur, P cur → Keeps up down I (do
          if ← Wild.lt cur e.1.start then
            let x ← Wild.subOne e.1.start
            return (some (.mk' cur x), ⟨true, e.1.stop, q, l⟩)
          else gapsLoopW true e.1.stop q l) fun x => (∀ r, x.1 = some r → Both P r) ∧
            P x.2.candidateStart ∧ P x.2.queryEnd ∧ ∀ e ∈ x.2.btmRangeIter, Both P e.1 := by
        intro cur hcur
        refine .bind (.lt _ _) fun b _ => ?_
        cases b with
        | true =>
          exact .bind (.subOne (hcl.down _ · he1)) fun a ha =>
            .pure ⟨fun r h => by cases h; exact ⟨hcur, ha⟩, he2, hq, hl'⟩
        | false => exact gapsLoopW_keeps hcl hq l true he2 hl'
      cases plus with
      | true => exact .bind (.addOne (hcl.up _ · hc)) fun a ha => this a ha
      | false => exact this c hc

theorem gapsW_keeps (hcl : Closed up down P) {t0 : List (RangeInclusive K × V)} (n : Nat)
    {q : RangeInclusive K} (hq : Both P q) (ht : ∀ e ∈ t0, Both P e.1) :
    Keeps up down (· = t0) (gapsW n q) fun x => ∀ r, some r ∈ x → Both P r := by
  refine .bind (.range (P := fun l => l.Sublist t0) fun t l ht hl => ht ▸ hl) fun l hl => ?_
  exact .calls (P := fun g => P g.candidateStart ∧ P g.queryEnd ∧ ∀ e ∈ g.btmRangeIter, Both P e.1)
    (fun g hg => gapsLoopW_keeps hcl hg.2.1 _ _ hg.1 hg.2.2) n _
    ⟨hq.1, hq.2, fun e he => ht e (hl.subset he)⟩

end

section
variable [LE K] [LT K] [DecidableLE K] [DecidableLT K] [BEq V] {S : StepFns K}

theorem insertPiecesW_same (btm : List (RangeInclusive K × V)) (stored : RangeInclusive K) (v : V)
    (cut : RangeInclusive K) :
    Same RangeInclusive.start S (insertPiecesW stored v cut) btm (insertPiecesN S btm stored v cut)
      fun t => (t, ()) := by
  have h2 : ∀ btm : List (RangeInclusive K × V), Same RangeInclusive.start S (do
        if ← Wild.lt cut.stop stored.stop then
          let s ← Wild.addOne cut.stop
          Wild.insert (.mk' s stored.stop) v) btm
      (do if ← Counted.lt cut.stop stored.stop then do
            let s ← Counted.addOne S cut.stop
            return BTreeMap.insert RangeInclusive.start (.mk' s stored.stop) v btm
          else return btm) fun t => (t, ()) := by
    intro btm
    refine .ask (.lt _ _) fun b => ?_
    cases b with
    | true => exact .ask (.addOne _) fun _ _ => rfl
    | false => exact .ret rfl
  refine .ask (.lt _ _) fun b => ?_
  cases b with
  | true =>
    exact .ask (.subOne _) fun p w => h2 _ w
  | false => exact h2 btm

theorem adjustTouchingRangesForInsertW_same (btm : List (RangeInclusive K × V)) (stored : RangeInclusive K) (v : V)
    (newRange : RangeInclusive K) (newValue : V) :
    Same RangeInclusive.start S (adjustTouchingRangesForInsertW stored v newRange newValue) btm
      (adjustTouchingRangesForInsertN S btm stored v newRange newValue) id := by
  refine .ask (.valEq _ _) fun b => ?_
  cases b with
  | true => exact .ask (.min _ _) fun _ => .ask (.max _ _) fun _ _ => rfl
  | false =>
    refine .ask (.ioverlaps _ _) fun b => ?_
    cases b with
    | true =>
      have h := Same.bind (S := S) (f := fun _ => pure newRange) (k := fun t => pure (t, newRange))
        (g' := id) (insertPiecesW_same (BTreeMap.remove RangeInclusive.start stored.start btm) stored v
          newRange) fun b => .ret rfl
      exact fun w => h w
    | false => exact .ret rfl

theorem breakCondW_same (btm : List (RangeInclusive K × V)) (hi : K) (newValue : V)
    (x : RangeInclusive K × V) :
    Same RangeInclusive.start S (breakCondW hi newValue x) btm (breakCondN S hi newValue x)
      fun b => (btm, b) := by
  refine .ask (.lt _ _) fun b => ?_
  cases b with
  | true =>
    refine .ask (.addOne _) fun _ => .ask (.lt _ _) fun b => ?_
    cases b with
    | true => exact .ret rfl
    | false => exact .and (.keyEq _ _) (.not (.valEq _ _))
  | false => exact .ret rfl

theorem insertLoopW_same (hi : K) (newValue : V) : ∀ (fuel : Nat) (btm : List (RangeInclusive K × V))
    (newRange : RangeInclusive K),
    Same RangeInclusive.start S (insertLoopW hi newValue fuel newRange) btm
      (insertLoopN S hi newValue fuel btm newRange) id
  | 0, _, _ => .panic
  | fuel + 1, btm, newRange => by
    refine .ask (.range _ _ _) fun l => ?_
    cases l.head? with
    | none => exact .ret rfl
    | some x =>
      refine .ask (breakCondW_same _ _ _ _) fun b => ?_
      cases b with
      | true => exact .ret rfl
      | false =>
        exact .bind (adjustTouchingRangesForInsertW_same _ _ _ _ _) fun b =>
          insertLoopW_same hi newValue fuel b.1 b.2

theorem insertPrefixW_same (btm : List (RangeInclusive K × V)) (newRange : RangeInclusive K) (newValue : V) :
    Same RangeInclusive.start S (insertPrefixW newRange newValue) btm
      (insertPrefixN S btm newRange newValue) id := by
  refine .ask (.range _ _ _) fun l => .ask (.filter (fun e => .itouches _ _) _) fun c => ?_
  match c with
  | [] => exact .ret rfl
  | [x] => exact adjustTouchingRangesForInsertW_same _ _ _ _ _
  | _ :: x :: _ => exact adjustTouchingRangesForInsertW_same _ _ _ _ _

theorem insertW_same (m : RangeInclusiveMap K V) (r : RangeInclusive K) (v : V) :
    Same RangeInclusive.start S (insertW (m.len + 2) r v) m.btm (insertN S m r v) fun m' => (m'.btm, ()) := by
  refine .ask (.le _ _) fun b => ?_
  cases b with
  | true =>
    exact .bind (insertPrefixW_same _ _ _) fun b => .bind (insertLoopW_same _ _ _ _ _) fun b _ =>
      rfl
  | false => exact .panic

theorem adjustOverlappingRangesForRemoveW_same (btm : List (RangeInclusive K × V)) (stored : RangeInclusive K) (v : V)
    (range : RangeInclusive K) :
    Same RangeInclusive.start S (adjustOverlappingRangesForRemoveW stored v range) btm
      (adjustOverlappingRangesForRemoveN S btm stored v range) fun t => (t, ()) :=
  fun w => insertPiecesW_same (BTreeMap.remove RangeInclusive.start stored.start btm) stored v range w

theorem removeLoopW_same (range : RangeInclusive K) : ∀ (fuel : Nat) (btm : List (RangeInclusive K × V)),
    Same RangeInclusive.start S (removeLoopW range fuel) btm (removeLoopN S range fuel btm) fun t => (t, ())
  | 0, _ => .panic
  | fuel + 1, btm => by
    refine .ask (.range _ _ _) fun l => ?_
    cases l.head? with
    | none => exact .ret rfl
    | some x =>
      exact .bind (adjustOverlappingRangesForRemoveW_same _ _ _ _) fun b =>
        removeLoopW_same range fuel b

theorem removeW_same (m : RangeInclusiveMap K V) (r : RangeInclusive K) :
    Same RangeInclusive.start S (removeW (m.len + 2) r) m.btm (removeN S m r) fun m' => (m'.btm, ()) := by
  refine .ask (.le _ _) fun b => ?_
  cases b with
  | true =>
    refine .bind (g := fun t => (t, ())) ?_ fun t =>
      .map (removeLoopW_same _ _ _) fun t => rfl
    refine .ask (.range _ _ _) fun l => ?_
    cases l.getLast? with
    | none => exact .ret rfl
    | some x =>
      refine .ask (.ioverlaps _ _) fun b => ?_
      cases b with
      | true => exact adjustOverlappingRangesForRemoveW_same _ _ _ _
      | false => exact .ret rfl
  | false => exact .panic

/-! ### Queries -/

theorem getKeyValueW_answers (m : RangeInclusiveMap K V) (k : K) :
    Answers RangeInclusive.start S (getKeyValueW k) m.btm (m.getKeyValue k) := by
  refine .bind (.range _ _ _) fun l => ?_
  cases l.getLast? with
  | none => exact .pure
  | some x =>
    refine .bindE (.icontains x.1 k) ?_
    cases h : x.1.contains k with
    | true => exact .pure' (by simp [Option.filter, h, Pure.pure, Except.pure])
    | false => exact .pure' (by simp [Option.filter, h, Pure.pure, Except.pure])

theorem overlappingW_answers (m : RangeInclusiveMap K V) (n : Nat) (q : RangeInclusive K) :
    Answers RangeInclusive.start S (overlappingW n q) m.btm
      (m.overlapping q >>= firsts (fun o => .ok o.next) n) := by
  have h : Answers RangeInclusive.start S (overlappingW n q) m.btm
      (BTreeMap.range RangeInclusive.stop (.included q.start) .unbounded m.btm >>= fun l =>
        firsts (fun o => .ok o.next) n (⟨q, l⟩ : Overlapping K V)) := by
    refine .bind (.range _ _ _) fun l => .calls (fun o => ?_) n _
    unfold overlappingNextW Overlapping.next Deque.next
    cases o.btmRangeIter with
    | nil => exact .pure
    | cons e rest =>
      refine .bindE (.le _ _) ?_
      by_cases h : e.1.start ≤ o.queryRange.stop
      · simp only [h, decide_true, if_true]; exact .pure
      · simp only [h, decide_false, if_false]; exact .pure
  unfold overlapping
  cases hb : BTreeMap.range RangeInclusive.stop (.included q.start) .unbounded m.btm with
  | ok l => rw [hb] at h; exact h
  | error p => rw [hb] at h; exact h

theorem gapsLoopW_answers {t : List (RangeInclusive K × V)} (q : K) :
    ∀ (l : List (RangeInclusive K × V)) (plus : Bool) (c : K),
    Answers RangeInclusive.start S (gapsLoopW plus c q l) t (Gaps.nextLoop S plus c q l) := by
  have tail : ∀ (l : List (RangeInclusive K × V)) (plus : Bool) (c : K),
      Answers RangeInclusive.start S (gapsTailW plus c q l) t (Gaps.nextTail S plus c q l) := by
    intro l plus c
    unfold Gaps.nextTail
    cases plus with
    | true =>
      refine .bindE (.lt _ _) ?_
      by_cases h : c < q
      · simp only [h, decide_true, if_true]
        exact .bind (.addOne _) fun _ => .pure
      · simp only [h, decide_false, if_false]; exact .pure
    | false =>
      refine .bindE (.le _ _) ?_
      by_cases h : c ≤ q
      · simp only [h, decide_true, if_true]; exact .pure
      · simp only [h, decide_false, if_false]; exact .pure
  intro l
  induction l with
  | nil => intro plus c; exact tail [] plus c
  | cons e l ih =>
    intro plus c
    unfold Gaps.nextLoop
    refine .bindE (.lt _ _) ?_
    by_cases h : q < e.1.start
    · simp only [h, decide_true, if_true]; exact tail l plus c
    · simp only [h, decide_false, if_false]
      have : ∀ cur, Answers RangeInclusive.start S (do
          if ← Wild.lt cur e.1.start then
            let x ← Wild.subOne e.1.start
            return (some (.mk' cur x), ⟨true, e.1.stop, q, l⟩)
          else gapsLoopW true e.1.stop q l) t (if cur < e.1.start then do
            let x ← S.subOne e.1.start
            return (some (.mk' cur x), ⟨true, e.1.stop, q, l⟩)
          else Gaps.nextLoop S true e.1.stop q l) := by
        intro cur
        refine .bindE (.lt _ _) ?_
        by_cases h : cur < e.1.start
        · simp only [h, decide_true, if_true]
          exact .bind (.subOne _) fun _ => .pure
        · simp only [h, decide_false, if_false]; exact ih _ _
      cases plus with
      | true => exact .bind (.addOne _) this
      | false => exact this c

theorem gapsW_answers (m : RangeInclusiveMap K V) (n : Nat) (q : RangeInclusive K) :
    Answers RangeInclusive.start S (gapsW n q) m.btm (m.gaps q >>= firsts (Gaps.next S) n) := by
  have h : Answers RangeInclusive.start S (gapsW n q) m.btm
      (BTreeMap.range RangeInclusive.stop (.included q.start) .unbounded m.btm >>= fun l =>
        firsts (Gaps.next S) n (⟨false, q.start, q.stop, l⟩ : Gaps K V)) :=
    .bind (.range _ _ _) fun l => .calls (fun g => gapsLoopW_answers _ _ _ _) n _
  unfold gaps overlapping
  cases hb : BTreeMap.range RangeInclusive.stop (.included q.start) .unbounded m.btm with
  | ok l => rw [hb] at h; exact h
  | error p => rw [hb] at h; exact h

end
end RangeInclusiveMap
end Verif

import Verif.Model.LawlessEnds
import Verif.Proof.LawlessOps
import Verif.Proof.ILawless
import Verif.Proof.Peekable

/-!
# Proofs about more programs with comparisons that keep to no law
-/
set_option linter.unusedSectionVars false
namespace Verif

namespace Spec
variable {T : Type}

theorem Takes.mem {l r s l' r' : List T} (h : Takes l r s l' r') :
    (∀ x ∈ s, x ∈ l ++ r) ∧ ∀ x ∈ l' ++ r', x ∈ l ++ r := by
  induction h with
  | nil => exact ⟨nofun, fun _ h => h⟩
  | @left a l r s l' r' h ih =>
    exact ⟨fun x hx => by
      rcases List.mem_cons.1 hx with rfl | hx
      · exact .head _
      · exact .tail _ (ih.1 x hx), fun x hx => .tail _ (ih.2 x hx)⟩
  | @right a l r s l' r' h ih =>
    have : ∀ x, x ∈ l ++ r → x ∈ l ++ a :: r := fun x hx => by
      rcases List.mem_append.1 hx with hx | hx
      · exact List.mem_append_left _ hx
      · exact List.mem_append_right _ (.tail _ hx)
    exact ⟨fun x hx => by
      rcases List.mem_cons.1 hx with rfl | hx
      · exact List.mem_append_right _ (.head _)
      · exact this x (ih.1 x hx), fun x hx => this x (ih.2 x hx)⟩

theorem Stairs.mem {l r l' r' : List T} {s : List (T × T)} (h : Stairs l r s l' r') :
    (∀ x ∈ s, x.1 ∈ l ++ r ∧ x.2 ∈ l ++ r) ∧ ∀ x ∈ l' ++ r', x ∈ l ++ r := by
  induction h with
  | nil => exact ⟨nofun, fun _ h => h⟩
  | @left a b l r s l' r' h ih =>
    exact ⟨fun x hx => by
      rcases List.mem_cons.1 hx with rfl | hx
      · exact ⟨.head _, List.mem_append_right _ (.head _)⟩
      · exact ⟨.tail _ (ih.1 x hx).1, .tail _ (ih.1 x hx).2⟩, fun x hx => .tail _ (ih.2 x hx)⟩
  | @right a b l r s l' r' h ih =>
    have : ∀ x, x ∈ (a :: l) ++ r → x ∈ (a :: l) ++ b :: r := fun x hx => by
      rcases List.mem_append.1 hx with hx | hx
      · exact List.mem_append_left _ hx
      · exact List.mem_append_right _ (.tail _ hx)
    exact ⟨fun x hx => by
      rcases List.mem_cons.1 hx with rfl | hx
      · exact ⟨.head _, List.mem_append_right _ (.head _)⟩
      · exact ⟨this _ (ih.1 x hx).1, this _ (ih.1 x hx).2⟩, fun x hx => this x (ih.2 x hx)⟩

end Spec

open Spec

namespace Wild
variable {K R V α β : Type}

theorem Always.keeps {up down : K → K → Prop} {I : List (R × V) → Prop} {p : Wild K R V α}
    {Q : α → Prop} (h : Always p Q) : Keeps up down I p Q := by
  induction p with
  | ret a => exact .ret h
  | panic p => exact .panic
  | ask q next ih => exact .ask fun b => ih b (h b)
  | up k next ih =>
    intro t o t' ht he
    cases he with
    | panic => exact ⟨ht, fun _ e => by cases e⟩
    | up k' hk he => exact ih k' (h k') _ _ _ ht he
  | down k next ih =>
    intro t o t' ht he
    cases he with
    | panic => exact ⟨ht, fun _ e => by cases e⟩
    | down k' hk he => exact ih k' (h k') _ _ _ ht he
  | search key lo hi next ih =>
    intro t o t' ht he
    cases he with
    | panic => exact ⟨ht, fun _ e => by cases e⟩
    | search l hl he => exact ih l (h l) _ _ _ ht he
  | put r v next ih => exact h.elim
  | delete k next ih => exact h.elim

theorem Ends.bind {up down : K → K → Prop} {p : Wild K R V α} {f : α → Wild K R V β}
    {t t1 t' : List (R × V)} {a : α} {o : Option β} (h : Ends up down p t (some a) t1)
    (hf : Ends up down (f a) t1 o t') : Ends up down (p >>= f) t o t' := by
  generalize hx : some a = x at h
  induction h with
  | ret => cases hx; exact hf
  | panic => cases hx
  | ask b h ih => exact .ask b (ih hf hx)
  | up k hk h ih => exact .up k hk (ih hf hx)
  | down k hk h ih => exact .down k hk (ih hf hx)
  | search l hl h ih => exact .search l hl (ih hf hx)
  | put t1 ht h ih => exact .put t1 ht (ih hf hx)
  | delete t1 ht h ih => exact .delete t1 ht (ih hf hx)

theorem Keeps.collect {up down : K → K → Prop} {I : List (R × V) → Prop} {γ σ : Type}
    {next : σ → Wild K R V (Option γ × σ)} {insert : γ → Wild K R V Unit} {P : σ → Prop}
    {Q : γ → Prop}
    (hn : ∀ s, P s → Keeps up down I (next s) fun x => (∀ c, x.1 = some c → Q c) ∧ P x.2)
    (hi : ∀ x, Q x → Keeps up down I (insert x) fun _ => True) : ∀ fuel s, P s →
    Keeps up down I (Wild.collect next insert fuel s) fun _ => True
  | 0, _, _ => .panic
  | fuel + 1, s, hs => by
    unfold Wild.collect
    refine .bind (hn s hs) fun x hx => ?_
    obtain ⟨o, s'⟩ := x
    cases o with
    | none => exact .pure trivial
    | some x => exact .bind (hi x (hx.1 x rfl)) fun _ _ => collect hn hi fuel s' hx.2

/-! ### More fuel -/

/-- The same program, but it may go on where the first one runs out of fuel. -/
inductive Le : Wild K R V α → Wild K R V α → Prop where
  | diverge (p) : Le (.panic .diverge) p
  | ret (a) : Le (.ret a) (.ret a)
  | panic (p) : Le (.panic p) (.panic p)
  | ask {q n n'} (h : ∀ b, Le (n b) (n' b)) : Le (.ask q n) (.ask q n')
  | up {k n n'} (h : ∀ b, Le (n b) (n' b)) : Le (.up k n) (.up k n')
  | down {k n n'} (h : ∀ b, Le (n b) (n' b)) : Le (.down k n) (.down k n')
  | search {key lo hi n n'} (h : ∀ b, Le (n b) (n' b)) :
    Le (.search key lo hi n) (.search key lo hi n')
  | put {r v n n'} (h : Le n n') : Le (.put r v n) (.put r v n')
  | delete {k n n'} (h : Le n n') : Le (.delete k n) (.delete k n')

namespace Le

theorem refl (p : Wild K R V α) : Le p p := by
  induction p with
  | ret a => exact .ret a
  | panic p => exact .panic p
  | ask q next ih => exact .ask ih
  | up k next ih => exact .up ih
  | down k next ih => exact .down ih
  | search key lo hi next ih => exact .search ih
  | put r v next ih => exact .put ih
  | delete k next ih => exact .delete ih

theorem bind {p p' : Wild K R V α} {f f' : α → Wild K R V β} (h : Le p p')
    (hf : ∀ a, Le (f a) (f' a)) : Le (p >>= f) (p' >>= f') := by
  induction h with
  | diverge p => exact .diverge _
  | ret a => exact hf a
  | panic p => exact .panic p
  | ask h ih => exact .ask ih
  | up h ih => exact .up ih
  | down h ih => exact .down ih
  | search h ih => exact .search ih
  | put h ih => exact .put ih
  | delete h ih => exact .delete ih

theorem bind' {p : Wild K R V α} {f f' : α → Wild K R V β}
    (hf : ∀ a, Le (f a) (f' a)) : Le (p >>= f) (p >>= f') := bind (.refl p) hf

section
variable [LE K] [LT K] [DecidableLE K] [DecidableLT K] [BEq V] {start : R → K} {S : StepFns K}

theorem honest {p p' : Wild K R V α} (h : Le p p') : ∀ t w {a t' w'},
    Wild.honest start S p t w = ((.ok a, t'), w') →
    Wild.honest start S p' t w = ((.ok a, t'), w') := by
  induction h with
  | diverge p => intro t w a t' w' h; cases h
  | ret a => intro t w a t' w' h; exact h
  | panic p => intro t w a t' w' h; exact h
  | @ask q n n' h ih => intro t w a t' w' h; cases q <;> exact ih _ _ _ h
  | @up k n n' h ih =>
    intro t w a t' w' h
    rw [honest_up] at h ⊢
    cases hk : S.addOne k with
    | ok k => rw [hk] at h; exact ih _ _ _ h
    | error p => rw [hk] at h; cases h
  | @down k n n' h ih =>
    intro t w a t' w' h
    rw [honest_down] at h ⊢
    cases hk : S.subOne k with
    | ok k => rw [hk] at h; exact ih _ _ _ h
    | error p => rw [hk] at h; cases h
  | @search key lo hi n n' h ih =>
    intro t w a t' w' h
    rw [honest_search] at h ⊢
    cases hk : BTreeMap.range key lo hi t with
    | ok k => rw [hk] at h; exact ih _ _ _ h
    | error p => rw [hk] at h; cases h
  | put h ih => intro t w a t' w' h; exact ih _ _ h
  | delete h ih => intro t w a t' w' h; exact ih _ _ h

end
end Le

section
variable [LE K] [LT K] [DecidableLE K] [DecidableLT K] [BEq V] {start : R → K} {S : StepFns K}

theorem Answers.script {γ σ : Type} {nextW nextBackW : σ → Wild K R V (Option γ × σ)}
    {next nextBack : σ → Option γ × σ} {t : List (R × V)}
    (h : ∀ s, Answers start S (nextW s) t (.ok (next s)))
    (h' : ∀ s, Answers start S (nextBackW s) t (.ok (nextBack s))) :
    ∀ cs s, Answers start S (Wild.script nextW nextBackW cs s) t
      (.ok (Spec.script next nextBack cs s))
  | [], _ => .pure
  | .front :: cs, s => .bindE (h s) (.bindE (script h h' cs _) .pure)
  | .back :: cs, s => .bindE (h' s) (.bindE (script h h' cs _) .pure)

end
end Wild

open Wild

theorem Deque.yields {T : Type} (l : List T) : Yields Deque.next l l := by
  intro n
  induction n generalizing l with
  | zero => rfl
  | succ n ih =>
    cases l with
    | nil =>
      have := ih []
      simp only [List.map_nil, List.nil_append] at this ⊢
      rw [Spec.calls]
      show none :: Spec.calls Deque.next n [] = _
      rw [this]
      simp [List.replicate_succ]
    | cons a l =>
      rw [Spec.calls]
      show some a :: Spec.calls Deque.next n l = _
      rw [ih l]
      simp only [List.map_cons, List.cons_append, List.take_succ_cons, List.cons.injEq, true_and]
      rw [List.take_append, List.take_append, List.take_replicate, List.take_replicate]
      congr 2
      omega

theorem callsE_succ {σ α : Type} {next : σ → Except Panic (Option α × σ)} {n : Nat} {s : σ}
    {x : Option α} {out : List (Option α)} (h : callsE next (n + 1) s = .ok (x :: out)) :
    ∃ s', next s = .ok (x, s') ∧ callsE next n s' = .ok out := by
  rw [callsE] at h
  cases hx : next s with
  | error p => rw [hx] at h; cases h
  | ok y =>
    obtain ⟨o, s'⟩ := y
    rw [hx] at h
    simp only at h
    cases hy : callsE next n s' with
    | error p => rw [hy] at h; cases h
    | ok l => rw [hy] at h; cases h; exact ⟨s', rfl, hy⟩

namespace RangeMap
variable {K V : Type}

theorem insertLoopW_le {hi : K} {v : V} : ∀ {f f' : Nat} (r : Range K), f ≤ f' →
    Le (insertLoopW hi v f r) (insertLoopW hi v f' r)
  | 0, _, _, _ => .diverge _
  | f + 1, f' + 1, r, h => by
    unfold insertLoopW
    refine .bind' fun l => ?_
    cases l.head? with
    | none => exact .refl _
    | some x =>
      refine .bind' fun b => ?_
      cases b with
      | true => exact .refl _
      | false => exact .bind' fun r => insertLoopW_le r (Nat.le_of_succ_le_succ h)

theorem insertW_le {f f' : Nat} (h : f ≤ f') (r : Range K) (v : V) :
    Le (insertW f r v) (insertW f' r v) := by
  unfold insertW
  refine .bind' fun b => ?_
  cases b with
  | true => exact .bind' fun r => .bind (insertLoopW_le r h) fun r => .refl _
  | false => exact .refl _

theorem overlappingNextW_always {o : Overlapping K V} :
    Always (overlappingNextW o) fun x => x.2.queryRange = o.queryRange ∧
      x.2.btmRangeIter.length = o.btmRangeIter.length - 1 ∧
      ((x.1 = none ∧ x.2.btmRangeIter.Sublist o.btmRangeIter) ∨
        ∃ e, x.1 = some e ∧ (e :: x.2.btmRangeIter).Sublist o.btmRangeIter) := by
  obtain ⟨q, l⟩ := o
  cases l with
  | nil => exact .pure ⟨rfl, rfl, .inl ⟨rfl, .refl _⟩⟩
  | cons e l =>
    intro b
    cases b with
    | true => exact ⟨rfl, rfl, .inr ⟨e, rfl, .refl _⟩⟩
    | false => exact ⟨rfl, rfl, .inl ⟨rfl, List.sublist_cons_self _ _⟩⟩

theorem overlappingNextBackW_always (q : Range K) : ∀ (n : Nat) (l : List (Range K × V)),
    l.length = n →
    Always (overlappingNextBackW ⟨q, l⟩) fun x => x.2.queryRange = q ∧
      x.2.btmRangeIter.length ≤ l.length - 1 ∧
      ((x.1 = none ∧ x.2.btmRangeIter = []) ∨
        ∃ e, x.1 = some e ∧ (x.2.btmRangeIter ++ [e]) <+: l)
  | 0, l, hl => by
    cases List.length_eq_zero_iff.1 hl
    rw [overlappingNextBackW.eq_def]
    exact .pure ⟨rfl, Nat.le_refl _, .inl ⟨rfl, rfl⟩⟩
  | n + 1, l, hl => by
    have hne : l ≠ [] := by rintro rfl; simp at hl
    have hg : l.getLast? = some (l.getLast hne) := List.getLast?_eq_some_getLast hne
    rw [overlappingNextBackW.eq_def]
    split
    · rename_i e he
      simp only at he
      have he' : l.dropLast ++ [e] = l := by
        rw [hg] at he; cases he; exact List.dropLast_concat_getLast hne
      refine .bind (.lt _ _) fun b _ => ?_
      cases b with
      | true =>
        exact .pure ⟨rfl, by simp, .inr ⟨e, rfl, by rw [he']; exact List.prefix_rfl⟩⟩
      | false =>
        refine (overlappingNextBackW_always q n l.dropLast (by simp [hl])).weaken ?_
        rintro x ⟨h1, h2, h3⟩
        refine ⟨h1, ?_, ?_⟩
        · have h2' : x.2.btmRangeIter.length ≤ l.dropLast.length - 1 := h2
          simp only [List.length_dropLast] at h2'
          omega
        · rcases h3 with h3 | ⟨e', h3, h4⟩
          · exact .inl h3
          · exact .inr ⟨e', h3, h4.trans (List.dropLast_prefix l)⟩
    · rename_i he
      simp only at he
      rw [hg] at he
      cases he

/-- What can be said about one call of `next` of `Gaps`: the gap, if any, is `q..q` or an entry of
the B-tree, or the last gap, has been used up for it. -/
theorem gapsLoopW_counts (q : K) : ∀ (l : List (Range K × V)) (c : K),
    Always (gapsLoopW c q l) fun x => x.2.queryEnd = q ∧
      x.2.btmRangeIter.length ≤ l.length ∧
      (x.1 ≠ none → x.2.btmRangeIter.length < l.length ∨
        (l = [] ∧ x.1 = some ⟨c, q⟩ ∧ x.2.candidateStart = q ∧ x.2.btmRangeIter = [])) ∧
      (x.1 = none → l = [] → x.2.candidateStart = c) := by
  intro l
  induction l with
  | nil =>
    intro c b
    cases b with
    | true => exact ⟨rfl, Nat.le_refl _, fun _ => .inr ⟨rfl, rfl, rfl, rfl⟩, nofun⟩
    | false => exact ⟨rfl, Nat.le_refl _, fun h => absurd rfl h, fun _ _ => rfl⟩
  | cons e l ih =>
    intro c
    refine .bind (.le _ _) fun b _ => ?_
    cases b with
    | true =>
      intro b
      cases b with
      | true =>
        exact ⟨rfl, Nat.le_succ _, fun _ => .inl (Nat.lt_succ_self _), fun _ h => nomatch h⟩
      | false => exact ⟨rfl, Nat.le_succ _, fun h => absurd rfl h, fun _ h => nomatch h⟩
    | false =>
      refine .bind (.lt _ _) fun b _ => ?_
      cases b with
      | true =>
        exact .pure ⟨rfl, Nat.le_succ _, fun _ => .inl (Nat.lt_succ_self _), fun _ h => nomatch h⟩
      | false =>
        refine (ih e.1.stop).weaken ?_
        rintro x ⟨h1, h2, h3, h4⟩
        exact ⟨h1, Nat.le_succ_of_le h2, fun _ => .inl (Nat.lt_succ_of_le h2),
          fun _ h => nomatch h⟩

/-- From here on only `q..q` is yielded. -/
theorem gapsCallsW_end (q : K) : ∀ n : Nat,
    Always (Wild.calls (fun g : Gaps K V => gapsLoopW g.candidateStart g.queryEnd g.btmRangeIter) n
      ⟨q, q, []⟩) fun out => ∀ g, some g ∈ out → g = ⟨q, q⟩
  | 0 => .pure (by simp)
  | n + 1 => by
    refine .bind (P := fun x => (x.1 = none ∨ x.1 = some ⟨q, q⟩) ∧ x.2 = ⟨q, q, []⟩) ?_ fun x hx
      => ?_
    · intro b
      cases b with
      | true => exact ⟨.inr rfl, rfl⟩
      | false => exact ⟨.inl rfl, rfl⟩
    · obtain ⟨o, s⟩ := x
      obtain ⟨ho, rfl⟩ := hx
      refine .bind (gapsCallsW_end q n) fun out h => .pure ?_
      intro g hg
      rcases List.mem_cons.1 hg with hg | hg
      · rcases ho with ho | ho
        · cases ho; cases hg
        · cases ho; cases hg; rfl
      · exact h g hg

theorem gapsCallsW_counts (q : K) : ∀ (n : Nat) (c : K) (l : List (Range K × V)),
    Always (Wild.calls (fun g : Gaps K V => gapsLoopW g.candidateStart g.queryEnd g.btmRangeIter) n
      ⟨c, q, l⟩) fun out => ∀ ys : List (Range K), ys.Sublist (out.filterMap id) →
        (∀ g ∈ ys, g ≠ ⟨q, q⟩) →
        ys.length ≤ l.length + 1
  | 0, c, l => .pure (by intro ys h _; cases h; exact Nat.zero_le _)
  | n + 1, c, l => by
    unfold Wild.calls
    refine .bind (gapsLoopW_counts q l c) fun x hx => ?_
    obtain ⟨o, ⟨c', q', l'⟩⟩ := x
    obtain ⟨rfl, h2, h3, h4⟩ := hx
    simp only at h2 h3 h4
    cases o with
    | none =>
      refine .bind (gapsCallsW_counts _ n c' l') fun out hout => .pure ?_
      intro ys hys hne
      have := hout ys (by simpa using hys) hne
      omega
    | some g =>
      rcases h3 nofun with h3 | ⟨rfl, h5, h6, rfl⟩
      · refine .bind (gapsCallsW_counts _ n c' l') fun out hout => .pure ?_
        intro ys hys hne
        simp only [List.filterMap_cons, id] at hys
        cases hys with
        | cons _ h => have := hout ys h hne; omega
        | @cons_cons ys' _ _ h =>
          have := hout ys' h fun g hg => hne g (.tail _ hg)
          simp only [List.length_cons]
          omega
      · subst h6
        refine .bind (gapsCallsW_end _ n) fun out hout => .pure ?_
        intro ys hys hne
        have key : ∀ zs : List (Range K), zs.Sublist (out.filterMap id) →
            (∀ g ∈ zs, g ≠ ⟨c', c'⟩) → zs = [] := by
          intro zs hz hzn
          cases zs with
          | nil => rfl
          | cons z zs =>
            have : some z ∈ out := by
              have := hz.subset (List.mem_cons_self ..)
              simpa using this
            exact absurd (hout z this) (hzn z (.head _))
        simp only [List.filterMap_cons, id] at hys
        cases hys with
        | cons _ h => rw [key ys h hne]; exact Nat.zero_le _
        | @cons_cons ys' _ _ h => rw [key ys' h fun g hg => hne g (.tail _ hg)]; exact Nat.le_refl _

/-- Endlessly many gaps. -/
theorem gapsCallsW_endless {up down : K → K → Prop} (q : K) (t : List (Range K × V)) : ∀ n : Nat,
    Wild.Ends up down (Wild.calls (fun g : Gaps K V => gapsLoopW g.candidateStart g.queryEnd
      g.btmRangeIter) n ⟨q, q, []⟩) t (some (List.replicate n (some ⟨q, q⟩))) t
  | 0 => .ret _ _
  | n + 1 => by
    unfold Wild.calls
    exact Wild.Ends.bind (a := (some ⟨q, q⟩, ⟨q, q, []⟩)) (t1 := t) (.ask true (.ret _ _))
      (Wild.Ends.bind (gapsCallsW_endless q t n) (.ret _ _))

section
variable [LE K] [LT K] [DecidableLE K] [DecidableLT K] [BEq V] {S : StepFns K}

theorem overlappingNextW_answers {t : List (Range K × V)} (o : Overlapping K V) :
    Answers Range.start S (overlappingNextW o) t (.ok o.next) := by
  unfold overlappingNextW Overlapping.next Deque.next
  cases o.btmRangeIter with
  | nil => exact .pure
  | cons e rest =>
    refine .bindE (.lt _ _) ?_
    by_cases h : e.1.start < o.queryRange.stop
    · simp only [h, decide_true, if_true]; exact .pure
    · simp only [h, decide_false, if_false]; exact .pure

theorem overlappingNextBackW_answers {t : List (Range K × V)} (q : Range K) :
    ∀ (n : Nat) (l : List (Range K × V)), l.length = n →
    Answers Range.start S (overlappingNextBackW ⟨q, l⟩) t
      (.ok (Overlapping.nextBack ⟨q, l⟩))
  | 0, l, hl => by
    cases List.length_eq_zero_iff.1 hl
    rw [overlappingNextBackW.eq_def, Overlapping.nextBack.eq_def]
    exact .pure
  | n + 1, l, hl => by
    have hne : l ≠ [] := by rintro rfl; simp at hl
    have hg : l.getLast? = some (l.getLast hne) := List.getLast?_eq_some_getLast hne
    rw [overlappingNextBackW.eq_def, Overlapping.nextBack.eq_def]
    split
    · rename_i e he
      simp only at he
      split
      · rename_i e' he'
        simp only at he'
        rw [he] at he'
        cases he'
        refine .bindE (.lt _ _) ?_
        by_cases h : e.1.start < q.stop
        · simp only [h, decide_true, if_true]; exact .pure
        · simp only [h, decide_false, if_false]
          exact overlappingNextBackW_answers q n _ (by simp [hl])
      · rename_i he'
        simp only at he'
        rw [he] at he'
        cases he'
    · rename_i he
      simp only at he
      rw [hg] at he
      cases he

theorem overlappingBothW_answers (m : RangeMap K V) (cs : List End) (q : Range K) :
    Answers Range.start S (overlappingBothW cs q) m.btm
      ((m.overlapping q).map (script Overlapping.next Overlapping.nextBack cs)) := by
  have h : Answers Range.start S (overlappingBothW cs q) m.btm
      (BTreeMap.range Range.stop (.excluded q.start) .unbounded m.btm >>= fun l =>
        .ok (script Overlapping.next Overlapping.nextBack cs (⟨q, l⟩ : Overlapping K V))) :=
    .bind (.range _ _ _) fun l => .script overlappingNextW_answers
      (fun o => overlappingNextBackW_answers _ _ _ rfl) cs _
  unfold overlapping
  cases hb : BTreeMap.range Range.stop (.excluded q.start) .unbounded m.btm with
  | ok l => rw [hb] at h; exact h
  | error p => rw [hb] at h; exact h

theorem insertW_honest {m m' : RangeMap K V} {r : Range K} {v : V} (h : m.insert r v = .ok m')
    {F : Nat} (hF : m.len + 2 ≤ F) (w : Calls) :
    ∃ w', Wild.honest Range.start S (insertW F r v) m.btm w = ((.ok (), m'.btm), w') := by
  have h1 := insertW_same (S := S) m r v w
  obtain ⟨c, h2, -⟩ := insertN_runs m r v
  rw [h2, h] at h1
  exact ⟨_, (insertW_le hF r v).honest _ _ h1⟩

theorem collect_honest {σ : Type} {nextW : σ → Wild K (Range K) V (Option (Range K) × σ)}
    {next : σ → Except Panic (Option (Range K) × σ)} (v : V)
    (hn : ∀ s t, Answers Range.start S (nextW s) t (next s)) : ∀ (ys : List (Range K)) (s : σ)
    (m m' : RangeMap K V), (m.extend (ys.map (·, v))) = (m', .ok ()) →
    callsE next (ys.length + 1) s = .ok (ys.map some ++ [none]) →
    ∃ F0, ∀ F, F0 ≤ F → ∀ n, ys.length < n → ∀ w, ∃ w', Wild.honest Range.start S
      (Wild.collect nextW (fun x => insertW F x v) n s) m.btm w = ((.ok (), m'.btm), w')
  | [], s, m, m', hm, hc => by
    cases hm
    refine ⟨0, fun F _ n hn' w => ?_⟩
    obtain ⟨n, rfl⟩ : ∃ k, n = k + 1 := ⟨n - 1, by have : 0 < n := hn'; omega⟩
    obtain ⟨s', hx, -⟩ := callsE_succ hc
    obtain ⟨w', h⟩ := hn s m.btm w
    refine ⟨w', ?_⟩
    unfold Wild.collect
    rw [honest_bind, h, hx]
    rfl
  | y :: ys, s, m, m', hm, hc => by
    simp only [List.map_cons, extend] at hm
    cases hi : m.insert y v with
    | error p => rw [hi] at hm; cases hm
    | ok m1 =>
      rw [hi] at hm
      obtain ⟨s', hx, hy⟩ := callsE_succ hc
      obtain ⟨F0, hF0⟩ := collect_honest v hn ys s' m1 m' hm hy
      refine ⟨Nat.max F0 (m.len + 2), fun F hF n hn' w => ?_⟩
      obtain ⟨n, rfl⟩ : ∃ k, n = k + 1 := ⟨n - 1, by simp at hn'; omega⟩
      obtain ⟨w1, h1⟩ := hn s m.btm w
      obtain ⟨w2, h2⟩ := insertW_honest (S := S) hi (Nat.le_trans (Nat.le_max_right ..) hF) w1
      obtain ⟨w3, h3⟩ := hF0 F (Nat.le_trans (Nat.le_max_left ..) hF) n
        (by simp at hn'; omega) w2
      refine ⟨w3, ?_⟩
      unfold Wild.collect
      rw [honest_bind, h1, hx]
      simp only
      rw [honest_bind, h2]
      exact h3

end
end RangeMap
end Verif

import Verif.Proof.LawlessEnds

/-!
# Proofs about more programs with comparisons that keep to no law: inclusive maps
-/
set_option linter.unusedSectionVars false
namespace Verif
open Spec Wild

namespace RangeInclusiveMap
variable {K V : Type}

theorem insertLoopW_le {hi : K} {v : V} : ∀ {f f' : Nat} (r : RangeInclusive K), f ≤ f' →
    Le (insertLoopW hi v f r) (insertLoopW hi v f' r)
  | 0, _, _, _ => .diverge _
  | f + 1, f' + 1, r, h => by
    unfold insertLoopW
    refine .bind' fun l => ?_
    cases l.head? with
    | none => exact .refl _
    | some x =>
      refine .bind' fun b => ?_
      cases b with
      | true => exact .refl _
      | false => exact .bind' fun r => insertLoopW_le r (Nat.le_of_succ_le_succ h)

theorem insertW_le {f f' : Nat} (h : f ≤ f') (r : RangeInclusive K) (v : V) :
    Le (insertW f r v) (insertW f' r v) := by
  unfold insertW
  refine .bind' fun b => ?_
  cases b with
  | true => exact .bind' fun r => .bind (insertLoopW_le r h) fun r => .refl _
  | false => exact .refl _

theorem overlappingNextW_always {o : Overlapping K V} :
    Always (overlappingNextW o) fun x => x.2.queryRange = o.queryRange ∧
      x.2.btmRangeIter.length = o.btmRangeIter.length - 1 ∧
      ((x.1 = none ∧ x.2.btmRangeIter.Sublist o.btmRangeIter) ∨
        ∃ e, x.1 = some e ∧ (e :: x.2.btmRangeIter).Sublist o.btmRangeIter) := by
  obtain ⟨q, l⟩ := o
  cases l with
  | nil => exact .pure ⟨rfl, rfl, .inl ⟨rfl, .refl _⟩⟩
  | cons e l =>
    intro b
    cases b with
    | true => exact ⟨rfl, rfl, .inr ⟨e, rfl, .refl _⟩⟩
    | false => exact ⟨rfl, rfl, .inl ⟨rfl, List.sublist_cons_self _ _⟩⟩

theorem overlappingNextBackW_always (q : RangeInclusive K) : ∀ (n : Nat)
    (l : List (RangeInclusive K × V)),
    l.length = n →
    Always (overlappingNextBackW ⟨q, l⟩) fun x => x.2.queryRange = q ∧
      x.2.btmRangeIter.length ≤ l.length - 1 ∧
      ((x.1 = none ∧ x.2.btmRangeIter = []) ∨
        ∃ e, x.1 = some e ∧ (x.2.btmRangeIter ++ [e]) <+: l)
  | 0, l, hl => by
    cases List.length_eq_zero_iff.1 hl
    rw [overlappingNextBackW.eq_def]
    exact .pure ⟨rfl, Nat.le_refl _, .inl ⟨rfl, rfl⟩⟩
  | n + 1, l, hl => by
    have hne : l ≠ [] := by rintro rfl; simp at hl
    have hg : l.getLast? = some (l.getLast hne) := List.getLast?_eq_some_getLast hne
    rw [overlappingNextBackW.eq_def]
    split
    · rename_i e he
      simp only at he
      have he' : l.dropLast ++ [e] = l := by
        rw [hg] at he; cases he; exact List.dropLast_concat_getLast hne
      refine .bind (.le _ _) fun b _ => ?_
      cases b with
      | true =>
        exact .pure ⟨rfl, by simp, .inr ⟨e, rfl, by rw [he']; exact List.prefix_rfl⟩⟩
      | false =>
        refine (overlappingNextBackW_always q n l.dropLast (by simp [hl])).weaken ?_
        rintro x ⟨h1, h2, h3⟩
        refine ⟨h1, ?_, ?_⟩
        · have h2' : x.2.btmRangeIter.length ≤ l.dropLast.length - 1 := h2
          simp only [List.length_dropLast] at h2'
          omega
        · rcases h3 with h3 | ⟨e', h3, h4⟩
          · exact .inl h3
          · exact .inr ⟨e', h3, h4.trans (List.dropLast_prefix l)⟩
    · rename_i he
      simp only at he
      rw [hg] at he
      cases he

/-- A gap beyond the end `q` of the query. -/
def Beyond (up : K → K → Prop) (q : K) (g : RangeInclusive K) : Prop := up q g.start ∧ g.stop = q

theorem gapsTailW_counts {up down : K → K → Prop} {I : List (RangeInclusive K × V) → Prop} (q : K)
    (l : List (RangeInclusive K × V)) (plus : Bool) (c : K) :
    Keeps up down I (gapsTailW plus c q l) fun x => x.2 = ⟨true, q, q, l⟩ ∧
      (plus = true → c = q → ∀ g, x.1 = some g → Beyond up q g) := by
  unfold gapsTailW
  cases plus with
  | true =>
    refine .bind (.lt _ _) fun b _ => ?_
    cases b with
    | true =>
      exact .bind (P := up c) (.addOne fun _ h => h) fun k hk => .pure ⟨rfl, by
        rintro - rfl g hg
        cases hg
        exact ⟨hk, rfl⟩⟩
    | false => exact .pure ⟨rfl, nofun⟩
  | false =>
    refine .bind (.le _ _) fun b _ => ?_
    cases b with
    | true => exact .pure ⟨rfl, nofun⟩
    | false => exact .pure ⟨rfl, nofun⟩

/-- What can be said about one call of `next` of `Gaps`: an entry of the B-tree has been used up, or
there is none. -/
theorem gapsLoopW_counts {up down : K → K → Prop} {I : List (RangeInclusive K × V) → Prop} (q : K) :
    ∀ (l : List (RangeInclusive K × V)) (plus : Bool) (c : K),
    Keeps up down I (gapsLoopW plus c q l) fun x => x.2.queryEnd = q ∧
      (x.2.btmRangeIter.length < l.length ∨
        (l = [] ∧ x.2 = ⟨true, q, q, []⟩ ∧
          (plus = true → c = q → ∀ g, x.1 = some g → Beyond up q g)))
  | [], plus, c => (gapsTailW_counts q [] plus c).weaken fun x hx =>
    ⟨by rw [hx.1], .inr ⟨rfl, hx⟩⟩
  | e :: l, plus, c => by
    unfold gapsLoopW
    refine .bind (.lt _ _) fun b _ => ?_
    cases b with
    | true =>
      exact (gapsTailW_counts q l plus c).weaken fun x hx =>
        ⟨by rw [hx.1], .inl (by rw [hx.1]; exact Nat.lt_succ_self _)⟩
    | false =>
      have h2 : ∀ cur : K, Keeps up down I (do
          if ← Wild.lt cur e.1.start then
            let k ← Wild.subOne e.1.start
            return (some (.mk' cur k), (⟨true, e.1.stop, q, l⟩ : Gaps K V))
          else gapsLoopW true e.1.stop q l) fun x => x.2.queryEnd = q ∧
            (x.2.btmRangeIter.length < (e :: l).length ∨
              (e :: l = [] ∧ x.2 = ⟨true, q, q, []⟩ ∧
                (plus = true → c = q → ∀ g, x.1 = some g → Beyond up q g))) := by
        intro cur
        refine .bind (.lt _ _) fun b _ => ?_
        cases b with
        | true =>
          exact .bind (P := fun _ => True) (.subOne fun _ _ => trivial) fun k _ =>
            .pure ⟨rfl, .inl (Nat.lt_succ_self _)⟩
        | false =>
          refine (gapsLoopW_counts q l true e.1.stop).weaken fun x hx => ⟨hx.1, .inl ?_⟩
          rcases hx.2 with h | ⟨h, h', -⟩
          · exact Nat.lt_succ_of_lt h
          · rw [h']; exact Nat.succ_pos _
      cases plus with
      | true =>
        exact .bind (P := fun _ => True) (.addOne fun _ _ => trivial) fun cur _ => h2 cur
      | false => exact .bind (P := fun _ => True) (.pure trivial) fun cur _ => h2 cur

/-- From here on only gaps beyond the query are yielded. -/
theorem gapsCallsW_end {up down : K → K → Prop} {I : List (RangeInclusive K × V) → Prop} (q : K) :
    ∀ n : Nat,
    Keeps up down I (Wild.calls (fun g : Gaps K V => gapsLoopW g.candidateNeedsPlusOne
      g.candidateStart g.queryEnd g.btmRangeIter) n ⟨true, q, q, []⟩) fun out =>
      ∀ g, some g ∈ out → Beyond up q g
  | 0 => .pure (by simp)
  | n + 1 => by
    unfold Wild.calls
    refine .bind (gapsTailW_counts q [] true q) fun x hx => ?_
    obtain ⟨o, s⟩ := x
    obtain ⟨rfl, ho⟩ := hx
    refine .bind (gapsCallsW_end q n) fun out h => .pure ?_
    intro g hg
    rcases List.mem_cons.1 hg with hg | hg
    · exact ho rfl rfl g hg.symm
    · exact h g hg

theorem gapsCallsW_counts {up down : K → K → Prop} {I : List (RangeInclusive K × V) → Prop}
    (q : K) :
    ∀ (n : Nat) (plus : Bool) (c : K) (l : List (RangeInclusive K × V)),
    Keeps up down I (Wild.calls (fun g : Gaps K V => gapsLoopW g.candidateNeedsPlusOne
      g.candidateStart g.queryEnd g.btmRangeIter) n ⟨plus, c, q, l⟩) fun out =>
        ∀ ys : List (RangeInclusive K), ys.Sublist (out.filterMap id) →
          (∀ g ∈ ys, ¬ Beyond up q g) → ys.length ≤ l.length + 1
  | 0, plus, c, l => .pure (by intro ys h _; cases h; exact Nat.zero_le _)
  | n + 1, plus, c, l => by
    unfold Wild.calls
    refine .bind (gapsLoopW_counts q l plus c) fun x hx => ?_
    obtain ⟨o, s⟩ := x
    obtain ⟨hq, h3⟩ := hx
    rcases h3 with h3 | ⟨rfl, h6, -⟩
    · obtain ⟨plus', c', q', l'⟩ := s
      simp only at hq
      subst hq
      refine .bind (gapsCallsW_counts _ n plus' c' l') fun out hout => .pure ?_
      intro ys hys hne
      simp only at h3
      cases o with
      | none =>
        have := hout ys (by simpa using hys) hne
        omega
      | some g =>
        simp only [List.filterMap_cons, id] at hys
        cases hys with
        | cons _ h => have := hout ys h hne; omega
        | @cons_cons ys' _ _ h =>
          have := hout ys' h fun g hg => hne g (.tail _ hg)
          simp only [List.length_cons]
          omega
    · simp only at h6
      subst h6
      refine .bind (gapsCallsW_end q n) fun out hout => .pure ?_
      intro ys hys hne
      have key : ∀ zs : List (RangeInclusive K), zs.Sublist (out.filterMap id) →
          (∀ g ∈ zs, ¬ Beyond up q g) → zs = [] := by
        intro zs hz hzn
        cases zs with
        | nil => rfl
        | cons z zs =>
          have : some z ∈ out := by
            have := hz.subset (List.mem_cons_self ..)
            simpa using this
          exact absurd (hout z this) (hzn z (.head _))
      cases o with
      | none => rw [key ys (by simpa using hys) hne]; exact Nat.zero_le _
      | some g =>
        simp only [List.filterMap_cons, id] at hys
        cases hys with
        | cons _ h => rw [key ys h hne]; exact Nat.zero_le _
        | @cons_cons ys' _ _ h => rw [key ys' h fun g hg => hne g (.tail _ hg)]; exact Nat.le_refl _

/-- Endlessly many gaps. -/
theorem gapsCallsW_endless {up down : K → K → Prop} {q k : K} (hk : up q k)
    (t : List (RangeInclusive K × V)) : ∀ n : Nat,
    Wild.Ends up down (Wild.calls (fun g : Gaps K V => gapsLoopW g.candidateNeedsPlusOne
      g.candidateStart g.queryEnd g.btmRangeIter) n ⟨true, q, q, []⟩) t
      (some (List.replicate n (some (.mk' k q)))) t
  | 0 => .ret _ _
  | n + 1 => by
    unfold Wild.calls
    exact Wild.Ends.bind (a := (some (.mk' k q), ⟨true, q, q, []⟩)) (t1 := t)
      (.ask true (.up k hk (.ret _ _))) (Wild.Ends.bind (gapsCallsW_endless hk t n) (.ret _ _))

section
variable [LE K] [LT K] [DecidableLE K] [DecidableLT K] [BEq V] {S : StepFns K}

theorem overlappingNextW_answers {t : List (RangeInclusive K × V)} (o : Overlapping K V) :
    Answers RangeInclusive.start S (overlappingNextW o) t (.ok o.next) := by
  unfold overlappingNextW Overlapping.next Deque.next
  cases o.btmRangeIter with
  | nil => exact .pure
  | cons e rest =>
    refine .bindE (.le _ _) ?_
    by_cases h : e.1.start ≤ o.queryRange.stop
    · simp only [h, decide_true, if_true]; exact .pure
    · simp only [h, decide_false, if_false]; exact .pure

theorem overlappingNextBackW_answers {t : List (RangeInclusive K × V)} (q : RangeInclusive K) :
    ∀ (n : Nat) (l : List (RangeInclusive K × V)), l.length = n →
    Answers RangeInclusive.start S (overlappingNextBackW ⟨q, l⟩) t
      (.ok (Overlapping.nextBack ⟨q, l⟩))
  | 0, l, hl => by
    cases List.length_eq_zero_iff.1 hl
    rw [overlappingNextBackW.eq_def, Overlapping.nextBack.eq_def]
    exact .pure
  | n + 1, l, hl => by
    have hne : l ≠ [] := by rintro rfl; simp at hl
    have hg : l.getLast? = some (l.getLast hne) := List.getLast?_eq_some_getLast hne
    rw [overlappingNextBackW.eq_def, Overlapping.nextBack.eq_def]
    split
    · rename_i e he
      simp only at he
      split
      · rename_i e' he'
        simp only at he'
        rw [he] at he'
        cases he'
        refine .bindE (.le _ _) ?_
        by_cases h : e.1.start ≤ q.stop
        · simp only [h, decide_true, if_true]; exact .pure
        · simp only [h, decide_false, if_false]
          exact overlappingNextBackW_answers q n _ (by simp [hl])
      · rename_i he'
        simp only at he'
        rw [he] at he'
        cases he'
    · rename_i he
      simp only at he
      rw [hg] at he
      cases he

theorem overlappingBothW_answers (m : RangeInclusiveMap K V) (cs : List End)
    (q : RangeInclusive K) :
    Answers RangeInclusive.start S (overlappingBothW cs q) m.btm
      ((m.overlapping q).map (script Overlapping.next Overlapping.nextBack cs)) := by
  have h : Answers RangeInclusive.start S (overlappingBothW cs q) m.btm
      (BTreeMap.range RangeInclusive.stop (.included q.start) .unbounded m.btm >>= fun l =>
        .ok (script Overlapping.next Overlapping.nextBack cs (⟨q, l⟩ : Overlapping K V))) :=
    .bind (.range _ _ _) fun l => .script overlappingNextW_answers
      (fun o => overlappingNextBackW_answers _ _ _ rfl) cs _
  unfold overlapping
  cases hb : BTreeMap.range RangeInclusive.stop (.included q.start) .unbounded m.btm with
  | ok l => rw [hb] at h; exact h
  | error p => rw [hb] at h; exact h

theorem insertW_honest {m m' : RangeInclusiveMap K V} {r : RangeInclusive K} {v : V}
    (h : m.insert S r v = .ok m')
    {F : Nat} (hF : m.len + 2 ≤ F) (w : Calls) :
    ∃ w', Wild.honest RangeInclusive.start S (insertW F r v) m.btm w = ((.ok (), m'.btm), w') := by
  have h1 := insertW_same (S := S) m r v w
  obtain ⟨c, h2, -⟩ := insertN_runs (S := S) m r v
  rw [h2, h] at h1
  exact ⟨_, (insertW_le hF r v).honest _ _ h1⟩

theorem collect_honest {σ : Type}
    {nextW : σ → Wild K (RangeInclusive K) V (Option (RangeInclusive K) × σ)}
    {next : σ → Except Panic (Option (RangeInclusive K) × σ)} (v : V)
    (hn : ∀ s t, Answers RangeInclusive.start S (nextW s) t (next s)) : ∀
    (ys : List (RangeInclusive K)) (s : σ)
    (m m' : RangeInclusiveMap K V), (m.extend S (ys.map (·, v))) = (m', .ok ()) →
    callsE next (ys.length + 1) s = .ok (ys.map some ++ [none]) →
    ∃ F0, ∀ F, F0 ≤ F → ∀ n, ys.length < n → ∀ w, ∃ w', Wild.honest RangeInclusive.start S
      (Wild.collect nextW (fun x => insertW F x v) n s) m.btm w = ((.ok (), m'.btm), w')
  | [], s, m, m', hm, hc => by
    cases hm
    refine ⟨0, fun F _ n hn' w => ?_⟩
    obtain ⟨n, rfl⟩ : ∃ k, n = k + 1 := ⟨n - 1, by have : 0 < n := hn'; omega⟩
    obtain ⟨s', hx, -⟩ := callsE_succ hc
    obtain ⟨w', h⟩ := hn s m.btm w
    refine ⟨w', ?_⟩
    unfold Wild.collect
    rw [honest_bind, h, hx]
    rfl
  | y :: ys, s, m, m', hm, hc => by
    simp only [List.map_cons, extend] at hm
    cases hi : m.insert S y v with
    | error p => rw [hi] at hm; cases hm
    | ok m1 =>
      rw [hi] at hm
      obtain ⟨s', hx, hy⟩ := callsE_succ hc
      obtain ⟨F0, hF0⟩ := collect_honest v hn ys s' m1 m' hm hy
      refine ⟨Nat.max F0 (m.len + 2), fun F hF n hn' w => ?_⟩
      obtain ⟨n, rfl⟩ : ∃ k, n = k + 1 := ⟨n - 1, by simp at hn'; omega⟩
      obtain ⟨w1, h1⟩ := hn s m.btm w
      obtain ⟨w2, h2⟩ := insertW_honest (S := S) hi (Nat.le_trans (Nat.le_max_right ..) hF) w1
      obtain ⟨w3, h3⟩ := hF0 F (Nat.le_trans (Nat.le_max_left ..) hF) n
        (by simp at hn'; omega) w2
      refine ⟨w3, ?_⟩
      unfold Wild.collect
      rw [honest_bind, h1, hx]
      simp only
      rw [honest_bind, h2]
      exact h3

end
end RangeInclusiveMap
end Verif

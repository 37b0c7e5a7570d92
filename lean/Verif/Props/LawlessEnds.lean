import Verif.Props.Demo
import Verif.Proof.ILawlessEnds
import Verif.Props.Borrow
import Verif.Props.Lawless
import Verif.Props.LawlessOps
import Verif.Props.Set
import Verif.Props.ISet

/-!
# C94: more about comparisons that keep to no law

`Overlapping` used from both ends, how many items `Overlapping` and `Gaps` yield, and `|` and `&`.
-/
set_option linter.unusedSectionVars false
set_option linter.unusedVariables false
namespace Verif.Props
open Verif.Spec

section
variable {K R V γ σ : Type}

theorem returned_nil (e : End) (rs : List (Option γ)) : returned e [] rs = [] := rfl

theorem returned_cons (e c : End) (cs : List End) (r : Option γ) (rs : List (Option γ)) :
    returned e (c :: cs) (r :: rs) =
      if c = e then r.toList ++ returned e cs rs else returned e cs rs := by
  unfold returned
  rw [List.zip_cons_cons, List.filterMap_cons]
  by_cases h : c = e
  · simp only [h, if_true]
    cases r <;> rfl
  · simp only [h, if_false]

/-- A double ended iterator whose calls take from the fronts and backs of `rest s`. -/
theorem script_always {next nextBack : σ → Wild K R V (Option γ × σ)} {rest : σ → List γ}
    (h : ∀ s, Wild.Always (next s) fun x => (rest x.2).length ≤ (rest s).length - 1 ∧
      (x.1.toList ++ rest x.2).Sublist (rest s))
    (h' : ∀ s, Wild.Always (nextBack s) fun x => (rest x.2).length ≤ (rest s).length - 1 ∧
      (rest x.2 ++ x.1.toList).Sublist (rest s)) : ∀ (cs : List End) (s : σ),
    Wild.Always (Wild.script next nextBack cs s) fun out => out.length = cs.length ∧
      (returned .front cs out ++ (returned .back cs out).reverse).Sublist (rest s) ∧
      ∀ r ∈ out.drop (rest s).length, r = none
  | [], s => .pure ⟨rfl, List.nil_sublist _, by simp⟩
  | .front :: cs, s => by
    unfold Wild.script
    refine .bind (h s) fun x hx => ?_
    obtain ⟨o, s'⟩ := x
    obtain ⟨h1, h2⟩ := hx
    refine .bind (script_always h h' cs s') fun out hout => .pure ⟨by simp [hout.1], ?_, ?_⟩
    · rw [returned_cons, returned_cons, if_pos rfl, if_neg (by simp), List.append_assoc]
      exact ((List.Sublist.refl _).append hout.2.1).trans h2
    · exact drop_none h1 (fun e ho => by
        subst ho; intro hs; rw [hs] at h2; cases h2) hout.2.2
  | .back :: cs, s => by
    unfold Wild.script
    refine .bind (h' s) fun x hx => ?_
    obtain ⟨o, s'⟩ := x
    obtain ⟨h1, h2⟩ := hx
    refine .bind (script_always h h' cs s') fun out hout => .pure ⟨by simp [hout.1], ?_, ?_⟩
    · rw [returned_cons, returned_cons, if_neg (by simp), if_pos rfl, List.reverse_append]
      have : o.toList.reverse = o.toList := by cases o <;> rfl
      rw [this, ← List.append_assoc]
      exact (hout.2.1.append (List.Sublist.refl _)).trans h2
    · exact drop_none h1 (fun e ho => by
        subst ho; intro hs; rw [hs] at h2
        simp at h2) hout.2.2
where
  drop_none {o : Option γ} {out : List (Option γ)} {l l' : List γ} (h1 : l'.length ≤ l.length - 1)
      (h2 : ∀ e, o = some e → l ≠ []) (h3 : ∀ r ∈ out.drop l'.length, r = none) :
      ∀ r ∈ (o :: out).drop l.length, r = none := by
    intro r hr
    cases l with
    | nil =>
      simp only [List.length_nil, List.drop_zero, List.mem_cons] at hr
      simp only [List.length_nil, Nat.zero_sub, Nat.le_zero_eq] at h1
      rcases hr with rfl | hr
      · cases r with
        | none => rfl
        | some e => exact absurd rfl (h2 e rfl)
      · rw [h1] at h3
        exact h3 r hr
    | cons a l =>
      simp only [List.length_cons, List.drop_succ_cons, Nat.add_sub_cancel] at hr h1
      refine h3 r ?_
      have : out.drop l.length = (out.drop l'.length).drop (l.length - l'.length) := by
        rw [List.drop_drop]; congr 1; omega
      rw [this] at hr
      exact List.mem_of_mem_drop hr

/-- What `collect` gets from an iterator that was drained. -/
theorem drain_calls {α : Type} {next : σ → Option α × σ} : ∀ (fuel : Nat) (s : σ) (l : List α),
    drain next fuel s = .ok l → l.length < fuel ∧
      calls next (l.length + 1) s = l.map some ++ [none]
  | 0, _, _, h => by cases h
  | fuel + 1, s, l, h => by
    unfold drain at h
    cases hx : next s with
    | mk o s' =>
      rw [hx] at h
      cases o with
      | none =>
        cases h
        exact ⟨Nat.succ_pos _, by simp [calls, hx]⟩
      | some a =>
        simp only at h
        cases hd : drain next fuel s' with
        | error p => rw [hd] at h; cases h
        | ok l' =>
          rw [hd] at h
          cases h
          obtain ⟨h1, h2⟩ := drain_calls fuel s' l' hd
          refine ⟨Nat.succ_lt_succ h1, ?_⟩
          show calls next (l'.length + 1 + 1) s = _
          rw [calls, hx]
          simp [h2]

end

section
open RangeMap
variable {K V : Type}

theorem overlappingNextW_takes (o : Overlapping K V) : Wild.Always (overlappingNextW o) fun x =>
    x.2.btmRangeIter.length ≤ o.btmRangeIter.length - 1 ∧
      (x.1.toList ++ x.2.btmRangeIter).Sublist o.btmRangeIter := by
  refine overlappingNextW_always.weaken ?_
  rintro ⟨o', s⟩ ⟨-, h2, h3⟩
  refine ⟨Nat.le_of_eq h2, ?_⟩
  rcases h3 with ⟨rfl, h⟩ | ⟨e, rfl, h⟩
  · exact h
  · exact h

theorem overlappingNextBackW_takes (o : Overlapping K V) :
    Wild.Always (overlappingNextBackW o) fun x =>
      x.2.btmRangeIter.length ≤ o.btmRangeIter.length - 1 ∧
        (x.2.btmRangeIter ++ x.1.toList).Sublist o.btmRangeIter := by
  refine (overlappingNextBackW_always o.queryRange _ o.btmRangeIter rfl).weaken ?_
  rintro ⟨o', s⟩ ⟨-, h2, h3⟩
  refine ⟨h2, ?_⟩
  rcases h3 with ⟨rfl, h⟩ | ⟨e, rfl, h⟩
  · simp only at h
    simp only [h]
    exact List.nil_sublist _
  · exact h.sublist

/-- **C94** `overlapping` used from both ends.  Whatever the comparisons answer, the map is not
changed; the entries returned by `next`, and those returned by `next_back` the other way round, are
stored entries in the order of the B-tree, and none is returned more often than it is stored (so the
two ends never meet the same entry); and after as many calls as there are entries every further call
returns `None`. -/
theorem C94_overlapping_both_ends {up down : K → K → Prop} {t t' : List (Range K × V)}
    {cs : List End} {q : Range K} {o : Option (List (Option (Range K × V)))}
    (h : Wild.Ends up down (overlappingBothW cs q) t o t') :
    t' = t ∧ ∀ out, o = some out → out.length = cs.length ∧
      (returned .front cs out ++ (returned .back cs out).reverse).Sublist t ∧
      ∀ r ∈ out.drop t.length, r = none := by
  have key : Wild.Keeps up down (· = t) (overlappingBothW cs q) fun out =>
      out.length = cs.length ∧
      (returned .front cs out ++ (returned .back cs out).reverse).Sublist t ∧
      ∀ r ∈ out.drop t.length, r = none := by
    refine .bind (.range (P := fun l => l.Sublist t) fun t l ht hl => ht ▸ hl) fun l hl => ?_
    refine (script_always (rest := Overlapping.btmRangeIter) overlappingNextW_takes
      overlappingNextBackW_takes cs ⟨q, l⟩).keeps.weaken fun out hout => ?_
    refine ⟨hout.1, hout.2.1.trans hl, fun r hr => hout.2.2 r ?_⟩
    have : out.drop t.length = (out.drop l.length).drop (t.length - l.length) := by
      rw [List.drop_drop]; have := hl.length_le; congr 1; omega
    rw [this] at hr
    exact List.mem_of_mem_drop hr
  exact key t o t' rfl h

/-- **C94** If no call of user code panics, none of these calls does, and each of them comes to an
end. -/
theorem C94_overlapping_total (cs : List End) (q : Range K) :
    Wild.Always (overlappingBothW cs q : Wild K (Range K) V _) fun out =>
      out.length = cs.length := by
  intro l
  exact (script_always (rest := Overlapping.btmRangeIter) overlappingNextW_takes
    overlappingNextBackW_takes cs ⟨q, l⟩).weaken fun out h => h.1

example := C94_overlapping_total (K := Nat) (V := Char) [.back, .front, .front] ⟨2, 22⟩

/-- **C94** Whatever the comparisons answer, and however often `next` is called, `gaps` yields at
most one gap more than there are entries, not counting any further gaps that are the empty range
from the end of the query to the end of the query. -/
theorem C94_gaps_bounded {up down : K → K → Prop} {t t' : List (Range K × V)} {n : Nat}
    {q : Range K} {o : Option (List (Option (Range K)))}
    (h : Wild.Ends up down (gapsW n q) t o t') : ∀ out, o = some out →
    ∀ ys : List (Range K), ys.Sublist (out.filterMap id) → (∀ g ∈ ys, g ≠ ⟨q.stop, q.stop⟩) →
      ys.length ≤ t.length + 1 := by
  have key : Wild.Keeps up down (· = t) (gapsW n q) fun out => ∀ ys : List (Range K),
      ys.Sublist (out.filterMap id) → (∀ g ∈ ys, g ≠ ⟨q.stop, q.stop⟩) →
        ys.length ≤ t.length + 1 := by
    refine .bind (.range (P := fun l => l.Sublist t) fun t l ht hl => ht ▸ hl) fun l hl => ?_
    exact (gapsCallsW_counts q.stop n q.start l).keeps.weaken fun out h ys h1 h2 =>
      Nat.le_trans (h ys h1 h2) (Nat.succ_le_succ hl.length_le)
  exact (key t o t' rfl h).2

/-- **C94** But there may be no end of those: with comparisons that always answer `true` (so that
`k < k`), `gaps` on any map yields as many gaps as anyone asks for. -/
theorem C94_gaps_endless (up down : K → K → Prop) (t : List (Range K × V)) (q : Range K) (n : Nat) :
    Wild.Ends up down (gapsW (n + 1) q) t
      (some (some q :: List.replicate n (some ⟨q.stop, q.stop⟩))) t := by
  refine .search [] (List.nil_sublist _) ?_
  refine Wild.Ends.bind (a := (some q, ⟨q.stop, q.stop, []⟩)) (t1 := t)
    (.ask true (.ret _ _)) ?_
  exact Wild.Ends.bind (gapsCallsW_endless q.stop t n) (.ret _ _)

end

section
open RangeSet
variable {K : Type}

/-- The ends of a range are ends of ranges in `l`. -/
def EndsIn (l : List (Range K)) (e : Range K) : Prop :=
  (∃ r ∈ l, e.start = r.start ∨ e.start = r.stop) ∧ ∃ r ∈ l, e.stop = r.start ∨ e.stop = r.stop

/-- **C94** Whatever the comparisons answer: `a | b` makes no bounds up. The ends of the ranges in
the new set are ends of ranges in `a` and `b`. -/
theorem C94_bitor {up down : K → K → Prop} {l r : List (Range K)} {fuel : Nat}
    {o : Option Unit} {t : List (Range K × Unit)}
    (h : Wild.Ends up down (bitOrW fuel l r) [] o t) : ∀ e ∈ t, EndsIn (l ++ r) e.1 := by
  have key : Wild.Keeps up down (Wild.All (RangeMap.Both
      fun k => ∃ x ∈ l ++ r, k = x.start ∨ k = x.stop) fun _ => True) (bitOrW fuel l r)
      fun _ => True := by
    refine .collect (P := fun u => u.Sound ∧ u.left.rest.length + u.right.rest.length ≤
        l.length + r.length + 1 ∧ ∀ x ∈ u.left.rest ++ u.right.rest, x ∈ l ++ r)
      (Q := RangeMap.Both fun k => ∃ x ∈ l ++ r, k = x.start ∨ k = x.stop) ?_ ?_ _ _ ?_
    · rintro u ⟨h1, h2, h3⟩
      refine (PUnion.nextW_always (joined := fun x z => ⟨x.start, z.stop⟩) Range.startLtW_always
        Range.mergeW_always (fun _ _ _ => rfl) h1 h2).keeps.weaken ?_
      rintro ⟨o, u'⟩ ⟨g1, ⟨rfl, g2, g3, g4, g5⟩ | ⟨y, g, rfl, g2, x, g', rfl, g3⟩⟩
      · simp only at g4 g5
        refine ⟨nofun, g1, by rw [g4, g5]; exact Nat.zero_le _, by rw [g4, g5]; nofun⟩
      · simp only at g2
        have hm := g2.mem
        have hx := h3 x (hm.1 x (.head _))
        refine ⟨?_, g1, ?_, fun z hz => h3 z (hm.2 z hz)⟩
        · intro c hc
          cases hc
          rcases g3 with rfl | ⟨z, hz, rfl⟩
          · exact ⟨⟨_, hx, .inl rfl⟩, ⟨_, hx, .inr rfl⟩⟩
          · exact ⟨⟨_, hx, .inl rfl⟩, ⟨_, h3 z (hm.1 z (.tail _ hz)), .inr rfl⟩⟩
        · have := g2.length
          simp only at this ⊢
          omega
    · exact fun x hx => RangeMap.insertW_keeps hx trivial
    · exact ⟨⟨nofun, nofun⟩, Nat.le_succ _, fun x hx => hx⟩
  exact fun e he => ((key [] o t nofun h).1 e he).1

/-- **C94** Likewise `a & b`. -/
theorem C94_bitand {up down : K → K → Prop} {l r : List (Range K)} {fuel : Nat}
    {o : Option Unit} {t : List (Range K × Unit)}
    (h : Wild.Ends up down (bitAndW fuel l r) [] o t) : ∀ e ∈ t, EndsIn (l ++ r) e.1 := by
  have key : Wild.Keeps up down (Wild.All (RangeMap.Both
      fun k => ∃ x ∈ l ++ r, k = x.start ∨ k = x.stop) fun _ => True) (bitAndW fuel l r)
      fun _ => True := by
    refine .collect (P := fun u => u.Sound ∧ u.left.rest.length + u.right.rest.length <
        l.length + r.length + 1 ∧ ∀ x ∈ u.left.rest ++ u.right.rest, x ∈ l ++ r)
      (Q := RangeMap.Both fun k => ∃ x ∈ l ++ r, k = x.start ∨ k = x.stop) ?_ ?_ _ _ ?_
    · rintro u ⟨h1, h2, h3⟩
      refine (PIntersection.nextW_always (Cut := fun a b y => (y.start = a.start ∨
        y.start = b.start) ∧ (y.stop = a.stop ∨ y.stop = b.stop)) Range.endLtW_always
        Range.intersectW_always _ u h1 h2).keeps.weaken ?_
      rintro ⟨o, u'⟩ ⟨g1, ps, ⟨rfl, g2, g3⟩ | ⟨y, a, b, rfl, g2, g3⟩⟩
      · simp only at g2
        have := g2.length
        refine ⟨nofun, g1, ?_, fun z hz => h3 z (g2.mem.2 z hz)⟩
        simp only at this ⊢
        omega
      · simp only at g2
        have hm := g2.mem
        obtain ⟨ha, hb⟩ := hm.1 (a, b) (List.mem_append_right _ (.head _))
        replace ha := h3 _ ha
        replace hb := h3 _ hb
        refine ⟨?_, g1, ?_, fun z hz => h3 z (hm.2 z hz)⟩
        · intro c hc
          cases hc
          refine ⟨?_, ?_⟩
          · rcases g3.1 with e | e
            · exact ⟨_, ha, .inl e⟩
            · exact ⟨_, hb, .inl e⟩
          · rcases g3.2 with e | e
            · exact ⟨_, ha, .inr e⟩
            · exact ⟨_, hb, .inr e⟩
        · have := g2.length
          simp only at this ⊢
          omega
    · exact fun x hx => RangeMap.insertW_keeps hx trivial
    · exact ⟨⟨nofun, nofun⟩, Nat.lt_succ_self _, fun x hx => hx⟩
  exact fun e he => ((key [] o t nofun h).1 e he).1

end

section
open RangeMap
variable {K : Type} [LE K] [LT K] [DecidableLE K] [DecidableLT K] {V : Type} [BEq V]

/-- **C94** Honest answers are among those considered: the calls of `next` and `next_back` then
return what they return in the main model. -/
theorem C94_overlapping_honest (S : StepFns K) (m : RangeMap K V) (cs : List End) (q : Range K) :
    (∃ w, Wild.honest Range.start S (overlappingBothW cs q) m.btm ⟨0, 0, 0⟩ =
      (((m.overlapping q).map (script Overlapping.next Overlapping.nextBack cs), m.btm), w)) ∧
    Wild.Ends (fun a b => S.addOne a = .ok b) (fun a b => S.subOne a = .ok b)
      (overlappingBothW cs q) m.btm
      ((m.overlapping q).map (script Overlapping.next Overlapping.nextBack cs)).toOption m.btm := by
  obtain ⟨w, h⟩ := overlappingBothW_answers (S := S) m cs q ⟨0, 0, 0⟩
  refine ⟨⟨w, h⟩, ?_⟩
  have := Wild.honest_ends (start := Range.start) (S := S) (overlappingBothW cs q) m.btm ⟨0, 0, 0⟩
  rwa [h] at this

end

section
open RangeSet
variable {K : Type} [LE K] [LT K] [DecidableLE K] [DecidableLT K]

theorem extend_extend (ys : List (Range K)) : ∀ s : RangeSet K,
    s.extend ys = (⟨(s.rm.extend (ys.map (·, ()))).1⟩, (s.rm.extend (ys.map (·, ()))).2) := by
  induction ys with
  | nil => intro s; rfl
  | cons r t ih =>
    intro s
    unfold extend RangeSet.insert
    rw [List.map_cons, RangeMap.extend]
    cases s.rm.insert r () with
    | error p => rfl
    | ok m' => exact ih ⟨m'⟩

theorem fromIter_extend {ys : List (Range K)} {c : RangeSet K} (h : fromIter ys = .ok c) :
    (RangeMap.new : RangeMap K Unit).extend (ys.map (·, ())) = (c.rm, .ok ()) := by
  unfold fromIter at h
  rw [extend_extend] at h
  cases hx : (new : RangeSet K).rm.extend (ys.map (·, ())) with
  | mk m o =>
    rw [hx] at h
    cases o with
    | error p => cases h
    | ok u => cases h; exact hx

/-- **C94** Honest answers are among those considered: `a | b` then makes the set of the main model
(if each `insert` is allowed enough iterations of its loop). -/
theorem C94_bitor_honest (S : StepFns K) {a b c : RangeSet K} (h : a.bitOr b = .ok c) :
    ∃ F0, ∀ F, F0 ≤ F → ∃ w, Wild.honest Range.start S (bitOrW F a.iter b.iter) [] ⟨0, 0, 0⟩ =
      ((.ok (), c.rm.btm), w) := by
  unfold bitOr at h
  cases hd : drain Union.next (a.len + b.len + 1) (a.union b) with
  | error p => rw [hd] at h; cases h
  | ok ys =>
    rw [hd] at h
    obtain ⟨h1, h2⟩ := drain_calls _ _ _ hd
    have hl : a.iter.length + b.iter.length + 1 = a.len + b.len + 1 := by
      simp [iter, RangeMap.iter, len, RangeMap.len]
    obtain ⟨F0, hF⟩ := RangeMap.collect_honest (S := S) ()
      (nextW := PUnion.nextW Range.startLtW Range.mergeW Deque.next
        (a.iter.length + b.iter.length + 1))
      (next := PUnion.next Deque.next (a.iter.length + b.iter.length + 1))
      (fun s t => PUnion.nextW_answers Range.startLtW_answers Range.mergeW_answers Deque.next _ s)
      ys (PUnion.new a.iter b.iter) RangeMap.new c.rm (fromIter_extend h)
      (by
        rw [PUnion.calls_rep (inext := Deque.next) (U := a.union b) (ys.length + 1)
          ⟨.new (Deque.yields a.iter), .new (Deque.yields b.iter)⟩ ?_, h2]
        exact Nat.lt_succ_self _)
    exact ⟨F0, fun F h => hF F h _ (hl ▸ h1) _⟩

/-- **C94** Likewise `a & b`. -/
theorem C94_bitand_honest (S : StepFns K) {a b c : RangeSet K} (h : a.bitAnd b = .ok c) :
    ∃ F0, ∀ F, F0 ≤ F → ∃ w, Wild.honest Range.start S (bitAndW F a.iter b.iter) [] ⟨0, 0, 0⟩ =
      ((.ok (), c.rm.btm), w) := by
  unfold bitAnd at h
  cases hd : drain Intersection.next (a.len + b.len + 1) (a.intersection b) with
  | error p => rw [hd] at h; cases h
  | ok ys =>
    rw [hd] at h
    obtain ⟨h1, h2⟩ := drain_calls _ _ _ hd
    have hl : a.iter.length + b.iter.length + 1 = a.len + b.len + 1 := by
      simp [iter, RangeMap.iter, len, RangeMap.len]
    obtain ⟨F0, hF⟩ := RangeMap.collect_honest (S := S) ()
      (nextW := PIntersection.nextW Range.endLtW Range.intersectW Deque.next
        (a.iter.length + b.iter.length + 1))
      (next := PIntersection.next Deque.next (a.iter.length + b.iter.length + 1))
      (fun s t => PIntersection.nextW_answers Range.endLtW_answers Range.intersectW_answers
        Deque.next _ s)
      ys (PIntersection.new a.iter b.iter) RangeMap.new c.rm (fromIter_extend h)
      (by
        rw [PIntersection.calls_rep (l := a.iter) (r := b.iter) (ys.length + 1)
          ⟨.new (Deque.yields _), .new (Deque.yields _)⟩ (Nat.lt_succ_self _)]
        exact congrArg _ h2)
    exact ⟨F0, fun F h => hF F h _ (hl ▸ h1) _⟩

end

/-- A comparison that says no, yes, yes: the entry at the front is skipped, the others come from the
back. -/
theorem skips : Wild.Ends (fun _ _ => False) (fun _ _ => False)
    (RangeMap.overlappingBothW [.front, .back, .back, .back] (⟨0, 9⟩ : Range Nat))
    [(⟨0, 1⟩, 'a'), (⟨2, 3⟩, 'b'), (⟨4, 5⟩, 'c')]
    (some [none, some (⟨4, 5⟩, 'c'), some (⟨2, 3⟩, 'b'), none])
    [(⟨0, 1⟩, 'a'), (⟨2, 3⟩, 'b'), (⟨4, 5⟩, 'c')] := by
  refine .search [(⟨0, 1⟩, 'a'), (⟨2, 3⟩, 'b'), (⟨4, 5⟩, 'c')] (.refl _) (.ask false ?_)
  refine Wild.Ends.bind (a := [some (⟨4, 5⟩, 'c'), some (⟨2, 3⟩, 'b'), none]) ?_ (.ret _ _)
  refine Wild.Ends.bind (a := (some (⟨4, 5⟩, 'c'), ⟨⟨0, 9⟩, [(⟨2, 3⟩, 'b')]⟩))
    (t1 := [(⟨0, 1⟩, 'a'), (⟨2, 3⟩, 'b'), (⟨4, 5⟩, 'c')]) ?_ ?_
  · rw [RangeMap.overlappingNextBackW.eq_def]
    exact .ask true (.ret _ _)
  refine Wild.Ends.bind (a := [some (⟨2, 3⟩, 'b'), none]) ?_ (.ret _ _)
  refine Wild.Ends.bind (a := (some (⟨2, 3⟩, 'b'), ⟨⟨0, 9⟩, []⟩))
    (t1 := [(⟨0, 1⟩, 'a'), (⟨2, 3⟩, 'b'), (⟨4, 5⟩, 'c')]) ?_ ?_
  · rw [RangeMap.overlappingNextBackW.eq_def]
    exact .ask true (.ret _ _)
  refine Wild.Ends.bind (a := [none]) ?_ (.ret _ _)
  refine Wild.Ends.bind (a := (none, ⟨⟨0, 9⟩, []⟩)) ?_ (.ret _ _)
  rw [RangeMap.overlappingNextBackW.eq_def]
  exact .ret _ _
example := C94_overlapping_both_ends skips
example := C94_overlapping_honest (⟨.ok, .ok⟩ : StepFns Nat) Demo.map [.back, .front] ⟨2, 22⟩
-- honest answers, from both ends
example : Wild.honest Range.start (⟨.ok, .ok⟩ : StepFns Nat)
    (RangeMap.overlappingBothW [.front, .front] ⟨2, 4⟩)
    [(⟨0, 1⟩, 'a'), (⟨2, 3⟩, 'b'), (⟨4, 5⟩, 'c')] ⟨0, 0, 0⟩ =
    ((.ok [some (⟨2, 3⟩, 'b'), none], [(⟨0, 1⟩, 'a'), (⟨2, 3⟩, 'b'), (⟨4, 5⟩, 'c')]), ⟨2, 0, 0⟩)
    := by
  rfl
-- two entries, and more gaps than three
example : Wild.Ends (fun _ _ => False) (fun _ _ => False)
    (RangeMap.gapsW 5 (⟨0, 9⟩ : Range Nat)) [(⟨0, 1⟩, 'a'), (⟨2, 3⟩, 'b')]
    (some [some ⟨0, 9⟩, some ⟨9, 9⟩, some ⟨9, 9⟩, some ⟨9, 9⟩, some ⟨9, 9⟩])
    [(⟨0, 1⟩, 'a'), (⟨2, 3⟩, 'b')] := C94_gaps_endless _ _ _ ⟨0, 9⟩ 4
example := C94_gaps_bounded
  (C94_gaps_endless (fun _ _ => False) (fun _ _ => False) [((⟨0, 1⟩ : Range Nat), 'a')] ⟨0, 9⟩ 4)
-- `|` and `&` of the demo sets with honest answers
example : (Wild.honest Range.start (⟨.ok, .ok⟩ : StepFns Nat)
    (RangeSet.bitOrW 9 Demo.set.iter Demo.set'.iter) [] ⟨0, 0, 0⟩).1.2 =
    [(⟨0, 4⟩, ()), (⟨5, 50⟩, ())] := by rfl
example : (Wild.honest Range.start (⟨.ok, .ok⟩ : StepFns Nat)
    (RangeSet.bitAndW 9 Demo.set.iter Demo.set'.iter) [] ⟨0, 0, 0⟩).1.2 =
    [(⟨1, 3⟩, ()), (⟨22, 24⟩, ()), (⟨39, 40⟩, ())] := by rfl
example := C94_bitor_honest ⟨.ok, .ok⟩ (C39_bitor Demo.set_reachable Demo.set'_reachable).choose_spec.1
example := C94_bitand_honest ⟨.ok, .ok⟩
  (C39_bitand Demo.set_reachable Demo.set'_reachable).choose_spec.1
-- denied that they overlap, the two ranges are stored side by side
theorem sideBySide : Wild.Ends (fun _ _ => False) (fun _ _ => False)
    (RangeSet.bitOrW 2 [(⟨0, 5⟩ : Range Nat)] [⟨3, 9⟩]) [] (some ())
    [(⟨0, 5⟩, ()), (⟨3, 9⟩, ())] := by
  have put : ∀ (t : List (Range Nat × Unit)) r, Wild.PutAny r () t (r :: t.map (·.1) |>.map (·, ())) := by
    intro t r e he
    simp only [List.map_cons, List.map_map, List.mem_cons, List.mem_map] at he
    rcases he with rfl | ⟨x, hx, rfl⟩
    · exact .inr (.inl rfl)
    · exact .inl hx
  exact .ask false (.ask false (.ask true (.search [] (List.nil_sublist _)
    (.search [] (List.nil_sublist _) (.put _ (put _ _) (.ask true (.search [] (List.nil_sublist _)
    (.search [] (List.nil_sublist _) (.put _ (put _ _) (.ret _ _))))))))))
example := C94_bitor sideBySide
example := C94_bitand (show Wild.Ends (fun _ _ => False) (fun _ _ => False)
    (RangeSet.bitAndW 3 [(⟨0, 5⟩ : Range Nat)] [⟨3, 9⟩]) [] none [] from
  .ask false (.ask false (.ask false (.panic _ _))))

namespace Inclusive

section
open RangeInclusiveMap
variable {K V : Type}

theorem overlappingNextW_takes (o : Overlapping K V) : Wild.Always (overlappingNextW o) fun x =>
    x.2.btmRangeIter.length ≤ o.btmRangeIter.length - 1 ∧
      (x.1.toList ++ x.2.btmRangeIter).Sublist o.btmRangeIter := by
  refine overlappingNextW_always.weaken ?_
  rintro ⟨o', s⟩ ⟨-, h2, h3⟩
  refine ⟨Nat.le_of_eq h2, ?_⟩
  rcases h3 with ⟨rfl, h⟩ | ⟨e, rfl, h⟩
  · exact h
  · exact h

theorem overlappingNextBackW_takes (o : Overlapping K V) :
    Wild.Always (overlappingNextBackW o) fun x =>
      x.2.btmRangeIter.length ≤ o.btmRangeIter.length - 1 ∧
        (x.2.btmRangeIter ++ x.1.toList).Sublist o.btmRangeIter := by
  refine (overlappingNextBackW_always o.queryRange _ o.btmRangeIter rfl).weaken ?_
  rintro ⟨o', s⟩ ⟨-, h2, h3⟩
  refine ⟨h2, ?_⟩
  rcases h3 with ⟨rfl, h⟩ | ⟨e, rfl, h⟩
  · simp only at h
    simp only [h]
    exact List.nil_sublist _
  · exact h.sublist

/-- **C94** `overlapping` used from both ends.  Whatever the comparisons answer, the map is not
changed; the entries returned by `next`, and those returned by `next_back` the other way round, are
stored entries in the order of the B-tree, and none is returned more often than it is stored (so the
two ends never meet the same entry); and after as many calls as there are entries every further call
returns `None`. -/
theorem C94_overlapping_both_ends {up down : K → K → Prop} {t t' : List (RangeInclusive K × V)}
    {cs : List End} {q : RangeInclusive K} {o : Option (List (Option (RangeInclusive K × V)))}
    (h : Wild.Ends up down (overlappingBothW cs q) t o t') :
    t' = t ∧ ∀ out, o = some out → out.length = cs.length ∧
      (returned .front cs out ++ (returned .back cs out).reverse).Sublist t ∧
      ∀ r ∈ out.drop t.length, r = none := by
  have key : Wild.Keeps up down (· = t) (overlappingBothW cs q) fun out =>
      out.length = cs.length ∧
      (returned .front cs out ++ (returned .back cs out).reverse).Sublist t ∧
      ∀ r ∈ out.drop t.length, r = none := by
    refine .bind (.range (P := fun l => l.Sublist t) fun t l ht hl => ht ▸ hl) fun l hl => ?_
    refine (script_always (rest := Overlapping.btmRangeIter) overlappingNextW_takes
      overlappingNextBackW_takes cs ⟨q, l⟩).keeps.weaken fun out hout => ?_
    refine ⟨hout.1, hout.2.1.trans hl, fun r hr => hout.2.2 r ?_⟩
    have : out.drop t.length = (out.drop l.length).drop (t.length - l.length) := by
      rw [List.drop_drop]; have := hl.length_le; congr 1; omega
    rw [this] at hr
    exact List.mem_of_mem_drop hr
  exact key t o t' rfl h

/-- **C94** If no call of user code panics, none of these calls does, and each of them comes to an
end. -/
theorem C94_overlapping_total (cs : List End) (q : RangeInclusive K) :
    Wild.Always (overlappingBothW cs q : Wild K (RangeInclusive K) V _) fun out =>
      out.length = cs.length := by
  intro l
  exact (script_always (rest := Overlapping.btmRangeIter) overlappingNextW_takes
    overlappingNextBackW_takes cs ⟨q, l⟩).weaken fun out h => h.1

example := Inclusive.C94_overlapping_total (K := UIntW 8) (V := Char) [.back, .front, .front]
    (Demo.by8 2 22)

/-- **C94** Whatever the comparisons and step functions answer, and however often `next` is called,
`gaps` yields at most one gap more than there are entries, not counting any further gaps that end
with the query and start with what `add_one` makes of its end. -/
theorem C94_gaps_bounded {up down : K → K → Prop} {t t' : List (RangeInclusive K × V)} {n : Nat}
    {q : RangeInclusive K} {o : Option (List (Option (RangeInclusive K)))}
    (h : Wild.Ends up down (gapsW n q) t o t') : ∀ out, o = some out →
    ∀ ys : List (RangeInclusive K), ys.Sublist (out.filterMap id) →
      (∀ g ∈ ys, ¬ (up q.stop g.start ∧ g.stop = q.stop)) → ys.length ≤ t.length + 1 := by
  have key : Wild.Keeps up down (· = t) (gapsW n q) fun out => ∀ ys : List (RangeInclusive K),
      ys.Sublist (out.filterMap id) → (∀ g ∈ ys, ¬ (up q.stop g.start ∧ g.stop = q.stop)) →
        ys.length ≤ t.length + 1 := by
    refine .bind (.range (P := fun l => l.Sublist t) fun t l ht hl => ht ▸ hl) fun l hl => ?_
    exact (gapsCallsW_counts q.stop n false q.start l).weaken fun out h ys h1 h2 =>
      Nat.le_trans (h ys h1 h2) (Nat.succ_le_succ hl.length_le)
  exact (key t o t' rfl h).2

/-- **C94** But there may be no end of those: with comparisons that always answer `true` (so that
`k < k`), `gaps` on any map yields as many gaps as anyone asks for. -/
theorem C94_gaps_endless {up : K → K → Prop} (down : K → K → Prop) (t : List (RangeInclusive K × V))
    (q : RangeInclusive K) {k : K} (hk : up q.stop k) (n : Nat) :
    Wild.Ends up down (gapsW (n + 1) q) t
      (some (some (.mk' q.start q.stop) :: List.replicate n (some (.mk' k q.stop)))) t := by
  refine .search [] (List.nil_sublist _) ?_
  refine Wild.Ends.bind (a := (some (.mk' q.start q.stop), ⟨true, q.stop, q.stop, []⟩)) (t1 := t)
    (.ask true (.ret _ _)) ?_
  exact Wild.Ends.bind (gapsCallsW_endless hk t n) (.ret _ _)

end

section
open RangeInclusiveSet
variable {K : Type}

/-- **C94** Whatever the comparisons and step functions answer: `a | b` makes no bounds up. The ends
of the ranges in the new set come, through answers of the step functions, from ends of ranges in `a`
and `b`. -/
theorem C94_bitor {up down : K → K → Prop} {l r : List (RangeInclusive K)} {fuel : Nat}
    {o : Option Unit} {t : List (RangeInclusive K × Unit)}
    (h : Wild.Ends up down (bitOrW fuel l r) [] o t) : ∀ e ∈ t,
    FromEnds up down (AnEnd (l ++ r)) e.1.start ∧ FromEnds up down (AnEnd (l ++ r)) e.1.stop := by
  have key : Wild.Keeps up down (Wild.All (RangeInclusiveMap.Both
      (FromEnds up down (AnEnd (l ++ r)))) fun _ => True) (bitOrW fuel l r)
      fun _ => True := by
    refine .collect (P := fun u => u.Sound ∧ u.left.rest.length + u.right.rest.length ≤
        l.length + r.length + 1 ∧ ∀ x ∈ u.left.rest ++ u.right.rest, x ∈ l ++ r)
      (Q := RangeInclusiveMap.Both (FromEnds up down (AnEnd (l ++ r)))) ?_ ?_ _ _ ?_
    · rintro u ⟨h1, h2, h3⟩
      refine (PUnion.nextW_always (joined := fun x z => .mk' x.start z.stop)
        RangeInclusive.startLtW_always
        RangeInclusive.mergeW_always (fun _ _ _ => rfl) h1 h2).keeps.weaken ?_
      rintro ⟨o, u'⟩ ⟨g1, ⟨rfl, g2, g3, g4, g5⟩ | ⟨y, g, rfl, g2, x, g', rfl, g3⟩⟩
      · simp only at g4 g5
        refine ⟨nofun, g1, by rw [g4, g5]; exact Nat.zero_le _, by rw [g4, g5]; nofun⟩
      · simp only at g2
        have hm := g2.mem
        have hx := h3 x (hm.1 x (.head _))
        refine ⟨?_, g1, ?_, fun z hz => h3 z (hm.2 z hz)⟩
        · intro c hc
          cases hc
          rcases g3 with rfl | ⟨z, hz, rfl⟩
          · exact ⟨.given ⟨_, hx, .inl rfl⟩, .given ⟨_, hx, .inr rfl⟩⟩
          · exact ⟨.given ⟨_, hx, .inl rfl⟩, .given ⟨_, h3 z (hm.1 z (.tail _ hz)), .inr rfl⟩⟩
        · have := g2.length
          simp only at this ⊢
          omega
    · exact fun x hx => RangeInclusiveMap.insertW_keeps FromEnds.closed hx trivial
    · exact ⟨⟨nofun, nofun⟩, Nat.le_succ _, fun x hx => hx⟩
  exact fun e he => ((key [] o t nofun h).1 e he).1

/-- **C94** Likewise `a & b`. -/
theorem C94_bitand {up down : K → K → Prop} {l r : List (RangeInclusive K)} {fuel : Nat}
    {o : Option Unit} {t : List (RangeInclusive K × Unit)}
    (h : Wild.Ends up down (bitAndW fuel l r) [] o t) : ∀ e ∈ t,
    FromEnds up down (AnEnd (l ++ r)) e.1.start ∧ FromEnds up down (AnEnd (l ++ r)) e.1.stop := by
  have key : Wild.Keeps up down (Wild.All (RangeInclusiveMap.Both
      (FromEnds up down (AnEnd (l ++ r)))) fun _ => True) (bitAndW fuel l r)
      fun _ => True := by
    refine .collect (P := fun u => u.Sound ∧ u.left.rest.length + u.right.rest.length <
        l.length + r.length + 1 ∧ ∀ x ∈ u.left.rest ++ u.right.rest, x ∈ l ++ r)
      (Q := RangeInclusiveMap.Both (FromEnds up down (AnEnd (l ++ r)))) ?_ ?_ _ _ ?_
    · rintro u ⟨h1, h2, h3⟩
      refine (PIntersection.nextW_always (Cut := fun a b y => (y.start = a.start ∨
        y.start = b.start) ∧ (y.stop = a.stop ∨ y.stop = b.stop) ∧ y.exhausted = false)
          RangeInclusive.endLtW_always
        RangeInclusive.intersectW_always _ u h1 h2).keeps.weaken ?_
      rintro ⟨o, u'⟩ ⟨g1, ps, ⟨rfl, g2, g3⟩ | ⟨y, a, b, rfl, g2, g3⟩⟩
      · simp only at g2
        have := g2.length
        refine ⟨nofun, g1, ?_, fun z hz => h3 z (g2.mem.2 z hz)⟩
        simp only at this ⊢
        omega
      · simp only at g2
        have hm := g2.mem
        obtain ⟨ha, hb⟩ := hm.1 (a, b) (List.mem_append_right _ (.head _))
        replace ha := h3 _ ha
        replace hb := h3 _ hb
        refine ⟨?_, g1, ?_, fun z hz => h3 z (hm.2 z hz)⟩
        · intro c hc
          cases hc
          refine ⟨?_, ?_⟩
          · rcases g3.1 with e | e
            · exact .given ⟨_, ha, .inl e⟩
            · exact .given ⟨_, hb, .inl e⟩
          · rcases g3.2.1 with e | e
            · exact .given ⟨_, ha, .inr e⟩
            · exact .given ⟨_, hb, .inr e⟩
        · have := g2.length
          simp only at this ⊢
          omega
    · exact fun x hx => RangeInclusiveMap.insertW_keeps FromEnds.closed hx trivial
    · exact ⟨⟨nofun, nofun⟩, Nat.lt_succ_self _, fun x hx => hx⟩
  exact fun e he => ((key [] o t nofun h).1 e he).1

end

section
open RangeInclusiveMap
variable {K : Type} [LE K] [LT K] [DecidableLE K] [DecidableLT K] {V : Type} [BEq V]

/-- **C94** Honest answers are among those considered: the calls of `next` and `next_back` then
return what they return in the main model. -/
theorem C94_overlapping_honest (S : StepFns K) (m : RangeInclusiveMap K V) (cs : List End)
    (q : RangeInclusive K) :
    (∃ w, Wild.honest RangeInclusive.start S (overlappingBothW cs q) m.btm ⟨0, 0, 0⟩ =
      (((m.overlapping q).map (script Overlapping.next Overlapping.nextBack cs), m.btm), w)) ∧
    Wild.Ends (fun a b => S.addOne a = .ok b) (fun a b => S.subOne a = .ok b)
      (overlappingBothW cs q) m.btm
      ((m.overlapping q).map (script Overlapping.next Overlapping.nextBack cs)).toOption m.btm := by
  obtain ⟨w, h⟩ := overlappingBothW_answers (S := S) m cs q ⟨0, 0, 0⟩
  refine ⟨⟨w, h⟩, ?_⟩
  have := Wild.honest_ends (start := RangeInclusive.start) (S := S) (overlappingBothW cs q) m.btm
    ⟨0, 0, 0⟩
  rwa [h] at this

example := Inclusive.C94_overlapping_honest (K := UIntW 8) (V := Char) Demo.u8 Demo.imap
    [.back, .front, .front] (Demo.by8 2 22)

end

section
open RangeInclusiveSet
variable {K : Type} [LE K] [LT K] [DecidableLE K] [DecidableLT K]

theorem extend_extend {S : StepFns K} (ys : List (RangeInclusive K)) : ∀ s : RangeInclusiveSet K,
    s.extend S ys = (⟨(s.rm.extend S (ys.map (·, ()))).1⟩, (s.rm.extend S (ys.map (·, ()))).2) := by
  induction ys with
  | nil => intro s; rfl
  | cons r t ih =>
    intro s
    unfold extend RangeInclusiveSet.insert
    rw [List.map_cons, RangeInclusiveMap.extend]
    cases s.rm.insert S r () with
    | error p => rfl
    | ok m' => exact ih ⟨m'⟩

theorem fromIter_extend {S : StepFns K} {ys : List (RangeInclusive K)} {c : RangeInclusiveSet K}
    (h : fromIter S ys = .ok c) :
    (RangeInclusiveMap.new : RangeInclusiveMap K Unit).extend S (ys.map (·, ())) = (c.rm, .ok ())
    := by
  unfold fromIter at h
  rw [extend_extend] at h
  cases hx : (new : RangeInclusiveSet K).rm.extend S (ys.map (·, ())) with
  | mk m o =>
    rw [hx] at h
    cases o with
    | error p => cases h
    | ok u => cases h; exact hx

/-- **C94** Honest answers are among those considered: `a | b` then makes the set of the main model
(if each `insert` is allowed enough iterations of its loop). -/
theorem C94_bitor_honest (S : StepFns K) {a b c : RangeInclusiveSet K} (h : a.bitOr S b = .ok c) :
    ∃ F0, ∀ F, F0 ≤ F → ∃ w, Wild.honest RangeInclusive.start S (bitOrW F a.iter b.iter) []
      ⟨0, 0, 0⟩ =
      ((.ok (), c.rm.btm), w) := by
  unfold bitOr at h
  cases hd : drain Union.next (a.len + b.len + 1) (a.union b) with
  | error p => rw [hd] at h; cases h
  | ok ys =>
    rw [hd] at h
    obtain ⟨h1, h2⟩ := drain_calls _ _ _ hd
    have hl : a.iter.length + b.iter.length + 1 = a.len + b.len + 1 := by
      simp [iter, RangeInclusiveMap.iter, len, RangeInclusiveMap.len]
    obtain ⟨F0, hF⟩ := RangeInclusiveMap.collect_honest (S := S) ()
      (nextW := PUnion.nextW RangeInclusive.startLtW RangeInclusive.mergeW Deque.next
        (a.iter.length + b.iter.length + 1))
      (next := PUnion.next Deque.next (a.iter.length + b.iter.length + 1))
      (fun s t => PUnion.nextW_answers RangeInclusive.startLtW_answers
        RangeInclusive.mergeW_answers Deque.next _ s)
      ys (PUnion.new a.iter b.iter) RangeInclusiveMap.new c.rm (fromIter_extend h)
      (by
        rw [PUnion.calls_rep (inext := Deque.next) (U := a.union b) (ys.length + 1)
          ⟨.new (Deque.yields a.iter), .new (Deque.yields b.iter)⟩ ?_, h2]
        exact Nat.lt_succ_self _)
    exact ⟨F0, fun F h => hF F h _ (hl ▸ h1) _⟩

/-- **C94** Likewise `a & b`. -/
theorem C94_bitand_honest (S : StepFns K) {a b c : RangeInclusiveSet K} (h : a.bitAnd S b = .ok c) :
    ∃ F0, ∀ F, F0 ≤ F → ∃ w, Wild.honest RangeInclusive.start S (bitAndW F a.iter b.iter) []
      ⟨0, 0, 0⟩ =
      ((.ok (), c.rm.btm), w) := by
  unfold bitAnd at h
  cases hd : drain Intersection.next (a.len + b.len + 1) (a.intersection b) with
  | error p => rw [hd] at h; cases h
  | ok ys =>
    rw [hd] at h
    obtain ⟨h1, h2⟩ := drain_calls _ _ _ hd
    have hl : a.iter.length + b.iter.length + 1 = a.len + b.len + 1 := by
      simp [iter, RangeInclusiveMap.iter, len, RangeInclusiveMap.len]
    obtain ⟨F0, hF⟩ := RangeInclusiveMap.collect_honest (S := S) ()
      (nextW := PIntersection.nextW RangeInclusive.endLtW RangeInclusive.intersectW Deque.next
        (a.iter.length + b.iter.length + 1))
      (next := PIntersection.next Deque.next (a.iter.length + b.iter.length + 1))
      (fun s t => PIntersection.nextW_answers RangeInclusive.endLtW_answers
        RangeInclusive.intersectW_answers
        Deque.next _ s)
      ys (PIntersection.new a.iter b.iter) RangeInclusiveMap.new c.rm (fromIter_extend h)
      (by
        rw [PIntersection.calls_rep (l := a.iter) (r := b.iter) (ys.length + 1)
          ⟨.new (Deque.yields _), .new (Deque.yields _)⟩ (Nat.lt_succ_self _)]
        exact congrArg _ h2)
    exact ⟨F0, fun F h => hF F h _ (hl ▸ h1) _⟩

end

/-- A comparison that says no, yes: the entry at the front is skipped, the other comes from the back. -/
theorem skips : Wild.Ends (fun _ _ => False) (fun _ _ => False)
    (RangeInclusiveMap.overlappingBothW [.front, .back, .back] (.mk' 0 9 : RangeInclusive Nat))
    [(.mk' 0 1, 'a'), (.mk' 3 4, 'b')] (some [none, some (.mk' 3 4, 'b'), none])
    [(.mk' 0 1, 'a'), (.mk' 3 4, 'b')] := by
  refine .search [(.mk' 0 1, 'a'), (.mk' 3 4, 'b')] (.refl _) (.ask false ?_)
  refine Wild.Ends.bind (a := [some (.mk' 3 4, 'b'), none]) ?_ (.ret _ _)
  refine Wild.Ends.bind (a := (some (.mk' 3 4, 'b'), ⟨.mk' 0 9, []⟩))
    (t1 := [(.mk' 0 1, 'a'), (.mk' 3 4, 'b')]) ?_ ?_
  · rw [RangeInclusiveMap.overlappingNextBackW.eq_def]
    exact .ask true (.ret _ _)
  refine Wild.Ends.bind (a := [none]) ?_ (.ret _ _)
  refine Wild.Ends.bind (a := (none, ⟨.mk' 0 9, []⟩)) ?_ (.ret _ _)
  rw [RangeInclusiveMap.overlappingNextBackW.eq_def]
  exact .ret _ _
example := C94_overlapping_both_ends skips
-- one entry, and more gaps than two; `add_one` has made 200 of 9
example : Wild.Ends (fun a b => a = 9 ∧ b = 200) (fun _ _ => False)
    (RangeInclusiveMap.gapsW 4 (.mk' 0 9 : RangeInclusive Nat)) [(.mk' 0 1, 'a')]
    (some [some (.mk' 0 9), some (.mk' 200 9), some (.mk' 200 9), some (.mk' 200 9)])
    [(.mk' 0 1, 'a')] := C94_gaps_endless _ _ (.mk' 0 9) ⟨rfl, rfl⟩ 3
example := C94_gaps_bounded (C94_gaps_endless (up := fun a b => a = 9 ∧ b = 200) (fun _ _ => False)
  [((.mk' 0 1 : RangeInclusive Nat), 'a')] (.mk' 0 9) (k := 200) ⟨rfl, rfl⟩ 4)
-- `|` and `&` of the demo sets with honest answers
example : (Wild.honest RangeInclusive.start Demo.u8
    (RangeInclusiveSet.bitOrW 9 Demo.iset.iter Demo.iset'.iter) [] ⟨0, 0, 0⟩).1.2 =
    [(Demo.by8 0 3, ()), (Demo.by8 5 255, ())] := by rfl
example : (Wild.honest RangeInclusive.start Demo.u8
    (RangeInclusiveSet.bitAndW 9 Demo.iset.iter Demo.iset'.iter) [] ⟨0, 0, 0⟩).1.2 =
    [(Demo.by8 1 2, ()), (Demo.by8 22 23, ()), (Demo.by8 39 49, ())] := by rfl
example := C94_bitor_honest Demo.u8
  (C39_bitor Demo.u8_lawful Demo.iset_reachable Demo.iset'_reachable).choose_spec.1
example := C94_bitand_honest Demo.u8
  (C39_bitand Demo.u8_lawful Demo.iset_reachable Demo.iset'_reachable).choose_spec.1
example := Inclusive.C94_bitor (Wild.honest_ends (S := Demo.u8) (start := RangeInclusive.start)
  (RangeInclusiveSet.bitOrW 9 Demo.iset.iter Demo.iset'.iter) [] ⟨0, 0, 0⟩)
example := Inclusive.C94_bitand (Wild.honest_ends (S := Demo.u8) (start := RangeInclusive.start)
  (RangeInclusiveSet.bitAndW 9 Demo.iset.iter Demo.iset'.iter) [] ⟨0, 0, 0⟩)

end Inclusive
end Verif.Props

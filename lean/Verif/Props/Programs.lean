import Verif.Model.Programs
import Verif.Props.Map
import Verif.Props.IMap
import Verif.Props.Demo

/-!
# C96: the example program and the benchmarks
-/
set_option linter.unusedSectionVars false

namespace Verif.Spec
variable {K V : Type}

/-- Who is on, by the plan: shift after shift from `t` on, one `next` long each. -/
def onDuty [LE K] [LT K] [DecidableLE K] [DecidableLT K] (next : K → K) (t : K) :
    List V → K → Option V
  | [], _ => none
  | v :: plan, k => if t ≤ k ∧ k < next t then some v else onDuty next (next t) plan k

/-- The plan, with neighbouring shifts of the same person taken together. -/
def rows [BEq V] (next : K → K) (t : K) : List V → List (Range K × V)
  | [] => []
  | v :: plan =>
    match rows next (next t) plan with
    | [] => [(⟨t, next t⟩, v)]
    | (r, w) :: rest =>
      if v == w then (⟨t, r.stop⟩, v) :: rest else (⟨t, next t⟩, v) :: (r, w) :: rest

end Verif.Spec

namespace Verif.Props
open RangeMap Spec

section
variable {K V : Type} [LE K] [LT K] [DecidableLE K] [DecidableLT K]
  [Std.IsLinearPreorder K] [Std.LawfulOrderLT K] [BEq V] {next : K → K}

theorem weeks_succ (next : K → K) : ∀ n t, weeks next (n + 1) t = next (weeks next n t)
  | 0, _ => rfl
  | n + 1, t => weeks_succ next n (next t)

theorem le_weeks (hn : ∀ k, k < next k) : ∀ n t, t ≤ weeks next n t
  | 0, t => Std.le_refl t
  | n + 1, t => by
    have := hn t
    have := le_weeks hn n (next t)
    simp only [weeks]
    grind

theorem onDuty_before (hn : ∀ k, k < next k) : ∀ (plan : List V) {t k : K}, k < t →
    onDuty next t plan k = none
  | [], _, _, _ => rfl
  | v :: plan, t, k, h => by
    have := hn t
    rw [onDuty, if_neg (by grind)]
    exact onDuty_before hn plan (by grind)

theorem onDuty_append (hn : ∀ k, k < next k) (v : V) : ∀ (plan : List V) (t k : K),
    onDuty next t (plan ++ [v]) k =
      if weeks next plan.length t ≤ k ∧ k < next (weeks next plan.length t) then some v
      else onDuty next t plan k
  | [], t, k => rfl
  | w :: plan, t, k => by
    have h1 := hn t
    have h2 := le_weeks hn plan.length (next t)
    rw [List.cons_append, onDuty, onDuty_append hn v plan, List.length_cons, weeks, onDuty]
    by_cases hk : t ≤ k ∧ k < next t
    · rw [if_pos hk, if_pos hk, if_neg (by grind)]
    · rw [if_neg hk, if_neg hk]

theorem onDuty_set (hn : ∀ k, k < next k) (v : V) : ∀ (plan : List V) (i : Nat) (t k : K),
    i < plan.length → onDuty next t (plan.set i v) k =
      if weeks next i t ≤ k ∧ k < next (weeks next i t) then some v else onDuty next t plan k
  | [], _, _, _, h => by cases h
  | w :: plan, 0, t, k, h => by
    simp only [List.set_cons_zero, onDuty, weeks]
    split <;> rfl
  | w :: plan, i + 1, t, k, h => by
    have h1 := hn t
    have h2 := le_weeks hn i (next t)
    rw [List.set_cons_succ, onDuty, onDuty_set hn v plan i _ _ (by simpa using h), weeks, onDuty]
    by_cases hk : t ≤ k ∧ k < next t
    · rw [if_pos hk, if_pos hk, if_neg (by grind)]
    · rw [if_neg hk, if_neg hk]

/-- What a run of the loops leaves: everyone on duty as planned so far, and the next week. -/
structure Planned (next : K → K) (t : K) (plan : List V) (s : RangeMap K V × K) : Prop where
  reach : Reachable s.1
  week : s.2 = weeks next plan.length t
  duty : ∀ k, s.1.get k = .ok (onDuty next t plan k)

theorem rosterRound_planned [LawfulBEq V] (hn : ∀ k, k < next k) {t : K} :
    ∀ (people plan : List V) (s : RangeMap K V × K), Planned next t plan s →
    ∃ s', rosterRound next people s = .ok s' ∧ Planned next t (plan ++ people) s'
  | [], plan, s, h => ⟨s, rfl, by simpa using h⟩
  | p :: people, plan, (m, w), h => by
    have hv : (⟨w, next w⟩ : Range K).start < (⟨w, next w⟩ : Range K).stop := hn w
    obtain ⟨m', h1, h2, h3⟩ := C01_insert_inside h.reach p hv
    have hP : Planned next t (plan ++ [p]) (m', next w) := by
      refine ⟨h2, ?_, fun k => ?_⟩
      · rw [List.length_append]
        exact (congrArg next h.week).trans (weeks_succ next _ t).symm
      · have hw := h.week
        simp only at hw
        rw [onDuty_append hn, ← hw]
        by_cases hk : w ≤ k ∧ k < next w
        · rw [if_pos hk]
          exact h3 k hk.1 hk.2
        · rw [if_neg hk, ← h.duty]
          exact C01_insert_outside_exact h.reach h1 k hk
    obtain ⟨s', h4, h5⟩ := rosterRound_planned hn people _ _ hP
    refine ⟨s', ?_, by simpa using h5⟩
    simp only [rosterRound, h1]
    exact h4

theorem rosterRounds_planned [LawfulBEq V] (hn : ∀ k, k < next k) {t : K} (people : List V) :
    ∀ (n : Nat) (plan : List V) (s : RangeMap K V × K), Planned next t plan s →
    ∃ s', rosterRounds next people n s = .ok s' ∧
      Planned next t (plan ++ (List.replicate n people).flatten) s'
  | 0, plan, s, h => ⟨s, rfl, by simpa using h⟩
  | n + 1, plan, s, h => by
    obtain ⟨s1, h1, h2⟩ := rosterRound_planned hn people plan s h
    obtain ⟨s2, h3, h4⟩ := rosterRounds_planned hn people n _ s1 h2
    refine ⟨s2, ?_, by simpa [List.replicate_succ] using h4⟩
    rw [rosterRounds, h1]
    exact h3

/-- **C96** The example program, for any people, number of rounds and covered shift: it does not
panic, and whoever the plan (with the covered shift changed) has on duty is on the roster. -/
theorem C96_roster [LawfulBEq V] (hn : ∀ k, k < next k) (people : List V) (rounds : Nat) (t : K)
    (shift : Nat) (cover : V) (hs : shift < rounds * people.length) :
    ∃ m, roster next people rounds t shift cover = .ok m ∧ Reachable m ∧
      ∀ k, m.get k = .ok
        (onDuty next t (((List.replicate rounds people).flatten).set shift cover) k) := by
  obtain ⟨⟨m, w⟩, h1, h2⟩ := rosterRounds_planned hn (t := t) people rounds []
    (RangeMap.new, t) ⟨⟨[], rfl⟩, rfl, fun k => rfl⟩
  rw [List.nil_append] at h2
  obtain ⟨m', h3, h4, h5⟩ := C01_insert_inside h2.reach cover
    (r := ⟨weeks next shift t, next (weeks next shift t)⟩) (hn _)
  refine ⟨m', ?_, h4, fun k => ?_⟩
  · unfold roster
    rw [h1]
    exact h3
  · rw [onDuty_set hn _ _ _ _ _ (by simpa using hs)]
    by_cases hk : weeks next shift t ≤ k ∧ k < next (weeks next shift t)
    · rw [if_pos hk]
      exact h5 k hk.1 hk.2
    · rw [if_neg hk, ← h2.duty]
      exact C01_insert_outside_exact h2.reach h3 k hk

-- days as natural numbers, weeks of seven days
example := C96_roster (K := Nat) (next := (· + 7)) (fun k => by omega) ["Alice", "Bob", "Carol"] 3
  17903 3 "Bob" (by decide)

theorem rows_wf [LawfulBEq V] (hn : ∀ k, k < next k) : ∀ (plan : List V) (t : K),
    WF (rows next t plan) ∧ (∀ e ∈ rows next t plan, t ≤ e.1.start) ∧
      (∀ k w, Maps (rows next t plan) k w ↔ onDuty next t plan k = some w) ∧
      ∀ e rest, rows next t plan = e :: rest → e.1.start = t
  | [], t => ⟨.nil, by simp [rows], by simp [rows, Maps, onDuty], by simp [rows]⟩
  | v :: plan, t => by
    obtain ⟨h1, h2, h3, h4⟩ := rows_wf hn plan (next t)
    have ht := hn t
    rw [rows]
    cases hr : rows next (next t) plan with
    | nil =>
      rw [hr] at h3
      refine ⟨⟨⟨List.pairwise_singleton _ _, by simpa using ht⟩, ?_⟩, by simp [Std.le_refl],
        fun k w => ?_, by simp⟩
      · intro a ha b hb h1 h2
        rw [List.mem_singleton] at ha hb
        subst ha; subst hb
        simp only at h1
        grind
      · have h3 := h3 k
        simp only [Maps, List.not_mem_nil, false_and, exists_false, false_iff] at h3
        simp only [Maps, List.mem_singleton, exists_eq_left, onDuty]
        by_cases hk : t ≤ k ∧ k < next t
        · simp [hk]
        · rw [if_neg hk]
          constructor
          · intro h
            exact absurd ⟨h.1, h.2.1⟩ hk
          · intro h
            exact absurd h (h3 w)
    | cons e rest =>
      obtain ⟨r, w⟩ := e
      have hst := h4 _ _ hr
      simp only at hst
      rw [hr] at h1 h2 h3
      have hne := h1.sep.ne (r, w) (by simp)
      simp only at hne
      have hb : ∀ e ∈ rest, r.stop ≤ e.1.start := fun e he =>
        (List.rel_of_pairwise_cons h1.sep.pw he).2
      have hpw := (List.pairwise_cons.1 h1.sep.pw).2
      by_cases hv : (v == w) = true
      · have hv' := beq_iff_eq.1 hv
        subst hv'
        simp only [hv, if_true]
        refine ⟨⟨⟨List.pairwise_cons.2 ⟨fun e he => ⟨?_, hb e he⟩, hpw⟩, ?_⟩, ?_⟩, ?_,
          fun k w => ?_, ?_⟩
        · have := hb e he
          grind
        · intro e he
          rcases List.mem_cons.1 he with rfl | he
          · grind
          · exact h1.sep.ne e (by simp [he])
        · intro a ha b hb' h5 h6
          rcases List.mem_cons.1 ha with rfl | ha
          · rcases List.mem_cons.1 hb' with rfl | hb'
            · simp only at h5 h6
              grind
            · exact h1.coal (r, v) (by simp) b (by simp [hb']) h5 h6
          · rcases List.mem_cons.1 hb' with rfl | hb'
            · have := hb a ha
              have := h1.sep.ne a (by simp [ha])
              simp only at h5 h6
              grind
            · exact h1.coal a (by simp [ha]) b (by simp [hb']) h5 h6
        · intro e he
          rcases List.mem_cons.1 he with rfl | he
          · exact Std.le_refl _
          · have := hb e he
            grind
        · have h3 := h3 k w
          simp only [Maps, List.mem_cons, exists_eq_or_imp, onDuty] at h3 ⊢
          by_cases hk : t ≤ k ∧ k < next t
          · rw [if_pos hk]
            constructor
            · rintro (h | ⟨e, he, h5, h6, h7⟩)
              · rw [h.2.2]
              · have := hb e he
                grind
            · intro h
              cases h
              exact .inl ⟨hk.1, by grind, rfl⟩
          · rw [if_neg hk, ← h3]
            refine or_congr ?_ Iff.rfl
            rw [hst]
            constructor
            · intro h
              exact ⟨by grind, h.2⟩
            · intro h
              exact ⟨by grind, h.2⟩
        · intro e rest' he
          cases he
          rfl
      · have hv' : (v == w) = false := by simpa using hv
        simp only [hv', Bool.false_eq_true, if_false]
        refine ⟨⟨⟨List.pairwise_cons.2 ⟨fun e he => ?_, h1.sep.pw⟩, ?_⟩, ?_⟩, ?_, fun k w' => ?_, ?_⟩
        · have := h2 e he
          exact ⟨by grind, this⟩
        · intro e he
          rcases List.mem_cons.1 he with rfl | he
          · exact ht
          · exact h1.sep.ne e he
        · intro a ha b hb' h5 h6
          rcases List.mem_cons.1 ha with rfl | ha
          · rcases List.mem_cons.1 hb' with rfl | hb'
            · simp only at h5 h6
              grind
            · rcases List.mem_cons.1 hb' with rfl | hb'
              · exact hv'
              · have := hb b hb'
                simp only at h5 h6
                grind
          · rcases List.mem_cons.1 hb' with rfl | hb'
            · have := h2 a ha
              have := h1.sep.ne a ha
              simp only at h5 h6
              grind
            · exact h1.coal a ha b hb' h5 h6
        · intro e he
          rcases List.mem_cons.1 he with rfl | he
          · exact Std.le_refl _
          · have := h2 e he
            grind
        · have h3 := h3 k w'
          generalize (r, w) :: rest = rs at h3 h2 ⊢
          simp only [Maps, List.mem_cons, exists_eq_or_imp, onDuty] at h3 ⊢
          by_cases hk : t ≤ k ∧ k < next t
          · rw [if_pos hk]
            constructor
            · rintro (h | ⟨e, he, h5, h6, h7⟩)
              · rw [h.2.2]
              · have := h2 e he
                grind
            · intro h
              cases h
              exact .inl ⟨hk.1, hk.2, rfl⟩
          · rw [if_neg hk, ← h3]
            constructor
            · rintro (h | h)
              · exact absurd ⟨h.1, h.2.1⟩ hk
              · exact h
            · exact .inr
        · intro e rest' he
          cases he
          rfl

/-- **C96** What the example prints: the plan with the covered shift changed, neighbouring shifts of
the same person in one row. -/
theorem C96_roster_rows [LawfulBEq V] (hn : ∀ k, k < next k) (people : List V) (rounds : Nat)
    (t : K) (shift : Nat) (cover : V) (hs : shift < rounds * people.length) :
    ∃ m, roster next people rounds t shift cover = .ok m ∧
      iterEq entryEq m.iter
        (rows next t (((List.replicate rounds people).flatten).set shift cover)) = true := by
  obtain ⟨m, h1, h2, h3⟩ := C96_roster hn people rounds t shift cover hs
  refine ⟨m, h1, ?_⟩
  obtain ⟨h4, -, h5, -⟩ := rows_wf hn (((List.replicate rounds people).flatten).set shift cover) t
  have h6 : ∀ k w, Maps m.btm k w ↔ Maps
      (rows next t (((List.replicate rounds people).flatten).set shift cover)) k w := by
    intro k w
    rw [h5, ← get_eq_some h2.wf.sep, h3]
    simp
  exact canon h2.wf h4 (fun k w h => ⟨w, (h6 k w).1 h, by simp⟩)
    (fun k w h => ⟨w, (h6 k w).2 h, by simp⟩)

example := C96_roster_rows (K := Demo.TagKey) (next := fun k => ⟨k.n + 7, !k.tag⟩)
  (fun k => show k.n < k.n + 7 by omega) ["Alice", "Bob", "Carol"] 3 ⟨0, true⟩ 3 "Bob" (by decide)

/-- **C96** If only equal times compare as equal, the rows are exactly these. -/
theorem C96_roster_rows_exact [LawfulBEq V] (hk : ∀ a b : K, a ≤ b → b ≤ a → a = b)
    (hn : ∀ k, k < next k) (people : List V) (rounds : Nat) (t : K) (shift : Nat) (cover : V)
    (hs : shift < rounds * people.length) :
    ∃ m, roster next people rounds t shift cover = .ok m ∧
      m.iter = rows next t (((List.replicate rounds people).flatten).set shift cover) := by
  obtain ⟨m, h1, h2⟩ := C96_roster_rows hn people rounds t shift cover hs
  exact ⟨m, h1, iterEq_eq_of_lawful hk h2⟩

example := C96_roster_rows_exact (K := Nat) (next := (· + 7)) (fun _ _ => Nat.le_antisymm)
  (fun k => by omega) ["Alice", "Bob", "Carol"] 3 17903 3 "Bob" (by decide)
-- what the example does print: the fourth and fifth shifts are one row
example : rows (K := Nat) (· + 7) 0
    (((List.replicate 3 ["Alice", "Bob", "Carol"]).flatten).set 3 "Bob") =
    [(⟨0, 7⟩, "Alice"), (⟨7, 14⟩, "Bob"), (⟨14, 21⟩, "Carol"), (⟨21, 35⟩, "Bob"),
     (⟨35, 42⟩, "Carol"), (⟨42, 49⟩, "Alice"), (⟨49, 56⟩, "Bob"), (⟨56, 63⟩, "Carol")] := by
  decide

/-! ### The benchmarks -/

theorem run_append (ops : List (Op (Range K) V)) (op : Op (Range K) V) :
    run (ops ++ [op]) = ((run ops).apply op).1 := by
  simp [run]

/-- **C96** The benchmark `insert` panics exactly if one of the ranges is empty, and otherwise
builds the map of all the insertions. -/
theorem C96_bench_insert [PartialEquivBEq V] (entries : List (Range K × V)) :
    ((∃ p, benchInsert entries RangeMap.new = .error p) ↔ ∃ e ∈ entries, e.1.stop ≤ e.1.start) ∧
    ((∀ e ∈ entries, e.1.start < e.1.stop) → benchInsert entries RangeMap.new =
      .ok (run (entries.map fun e => .insert e.1 e.2))) := by
  suffices ∀ (entries : List (Range K × V)) (ops : List (Op (Range K) V)),
      ((∃ p, benchInsert entries (run ops) = .error p) ↔
        ∃ e ∈ entries, e.1.stop ≤ e.1.start) ∧
      ((∀ e ∈ entries, e.1.start < e.1.stop) → benchInsert entries (run ops) =
        .ok (run (ops ++ entries.map fun e => .insert e.1 e.2))) from this entries []
  intro entries
  induction entries with
  | nil => intro ops; simp [benchInsert]
  | cons e entries ih =>
    intro ops
    obtain ⟨r, v⟩ := e
    by_cases hr : r.start < r.stop
    · obtain ⟨m', h1, -, -⟩ := C01_insert_inside (m := run ops) ⟨ops, rfl⟩ v hr
      have h2 : run (ops ++ [.insert r v]) = m' := by
        rw [run_append]
        simp [RangeMap.apply, h1]
      have h3 : benchInsert ((r, v) :: entries) (run ops) =
          benchInsert entries (run (ops ++ [.insert r v])) := by
        rw [h2, benchInsert, h1]
        rfl
      rw [h3]
      obtain ⟨h4, h5⟩ := ih (ops ++ [.insert r v])
      constructor
      · rw [h4]
        simp only [List.mem_cons, exists_eq_or_imp]
        grind
      · intro h
        rw [h5 fun e he => h e (List.mem_cons_of_mem _ he)]
        simp
    · constructor
      · refine ⟨fun _ => ⟨_, List.mem_cons_self, by simp only; grind⟩, fun _ => ?_⟩
        obtain ⟨p, hp⟩ := (C07_insert_panics (m := run ops) ⟨ops, rfl⟩ r v).1.2 (by grind)
        refine ⟨p, ?_⟩
        rw [benchInsert, hp]
        rfl
      · intro h
        exact absurd (h _ List.mem_cons_self) hr

example := C96_bench_insert (K := Nat) [(⟨8, 22⟩, 'x'), (⟨4, 9⟩, 'y'), (⟨5, 5⟩, 'z')]
example := (C96_bench_insert Demo.items).2 (by decide)

/-- What an operation of the benchmark is. -/
def benchOp {R : Type} : BenchOp R V → Op R V
  | .insert r v => .insert r v
  | .delete r => .remove r

/-- The range of an operation of the benchmark. -/
def benchRange {R : Type} : BenchOp R V → R
  | .insert r _ => r
  | .delete r => r

/-- **C96** The benchmark `operations` panics exactly if one of the ranges is empty, and otherwise
gives the map of all the operations. -/
theorem C96_bench_operations [PartialEquivBEq V] (ops0 : List (Op (Range K) V))
    (ops : List (BenchOp (Range K) V)) :
    ((∃ p, benchOps ops (run ops0) = .error p) ↔
      ∃ op ∈ ops, (benchRange op).stop ≤ (benchRange op).start) ∧
    ((∀ op ∈ ops, (benchRange op).start < (benchRange op).stop) → benchOps ops (run ops0) =
      .ok (run (ops0 ++ ops.map benchOp))) := by
  induction ops generalizing ops0 with
  | nil => simp [benchOps]
  | cons op ops ih =>
    have key : ∀ r : Range K, r = benchRange op →
        (r.start < r.stop → benchOps (op :: ops) (run ops0) =
          benchOps ops (run (ops0 ++ [benchOp op]))) ∧
        (r.stop ≤ r.start → ∃ p, benchOps (op :: ops) (run ops0) = .error p) := by
      rintro r rfl
      cases op with
      | insert r v =>
        refine ⟨fun hr => ?_, fun hr => ?_⟩
        · obtain ⟨m', h1, -, -⟩ := C01_insert_inside (m := run ops0) ⟨ops0, rfl⟩ v hr
          simp only [benchRange] at h1
          rw [run_append]
          simp [benchOp, benchOps, RangeMap.apply, h1]
          rfl
        · obtain ⟨p, hp⟩ := (C07_insert_panics (m := run ops0) ⟨ops0, rfl⟩ r v).1.2 hr
          exact ⟨p, by rw [benchOps, hp]; rfl⟩
      | delete r =>
        refine ⟨fun hr => ?_, fun hr => ?_⟩
        · obtain ⟨m', h1, -, -⟩ := C02_remove_pointwise (m := run ops0) ⟨ops0, rfl⟩ hr
          simp only [benchRange] at h1
          rw [run_append]
          simp [benchOp, benchOps, RangeMap.apply, h1]
          rfl
        · obtain ⟨p, hp⟩ := (C07_remove_panics (m := run ops0) ⟨ops0, rfl⟩ r).1.2 hr
          exact ⟨p, by rw [benchOps, hp]; rfl⟩
    obtain ⟨k1, k2⟩ := key _ rfl
    by_cases hr : (benchRange op).start < (benchRange op).stop
    · rw [k1 hr]
      obtain ⟨h4, h5⟩ := ih (ops0 ++ [benchOp op])
      constructor
      · rw [h4]
        simp only [List.mem_cons, exists_eq_or_imp]
        grind
      · intro h
        rw [h5 fun e he => h e (List.mem_cons_of_mem _ he)]
        simp
    · refine ⟨⟨fun _ => ⟨op, List.mem_cons_self, by grind⟩, fun _ => k2 (by grind)⟩, ?_⟩
      intro h
      exact absurd (h _ List.mem_cons_self) hr

example := (C96_bench_operations Demo.ops [.insert ⟨8, 22⟩ 'x', .delete ⟨2, 9⟩]).2 (by decide)

/-- **C96** The benchmark `lookups` does not panic. -/
theorem C96_bench_lookups [PartialEquivBEq V] {m : RangeMap K V} (hm : Reachable m) (ks : List K) :
    benchLookups m ks = .ok () := by
  induction ks with
  | nil => rfl
  | cons k ks ih =>
    obtain ⟨o, ho⟩ := (C07_lookups_never_panic hm k).2.1
    rw [benchLookups, ho]
    exact ih

example := C96_bench_lookups Demo.map_reachable [0, 4, 17, 39, 99]

end
end Verif.Props

namespace Verif.Props.Inclusive
open RangeInclusiveMap Spec

section
variable {K V : Type} [LE K] [LT K] [DecidableLE K] [DecidableLT K]
  [Std.IsLinearPreorder K] [Std.LawfulOrderLT K] [BEq V] {S : StepFns K}

theorem any_insert [PartialEquivBEq V] (hS : LawfulSteps S) {m : RangeInclusiveMap K V}
    (hm : ReachableAny S m) {r : RangeInclusive K} (v : V) (hr : r.start ≤ r.stop) :
    ∃ m', m.insert S r v = .ok m' := by
  cases h : m.insert S r v with
  | ok m' => exact ⟨m', rfl⟩
  | error p =>
    have := (C28_insert_panics hS hm r v).1.1 ⟨p, h⟩
    grind

theorem any_remove [PartialEquivBEq V] (hS : LawfulSteps S) {m : RangeInclusiveMap K V}
    (hm : ReachableAny S m) {r : RangeInclusive K} (hr : r.start ≤ r.stop) :
    ∃ m', m.remove S r = .ok m' := by
  cases h : m.remove S r with
  | ok m' => exact ⟨m', rfl⟩
  | error p =>
    have := (C28_remove_panics hS hm r).1.1 ⟨p, h⟩
    grind

theorem run_append (ops : List (Op (RangeInclusive K) V)) (op : Op (RangeInclusive K) V) :
    run S (ops ++ [op]) = ((run S ops).apply S op).1 := by
  simp [run]

/-- **C96** The benchmark `insert` panics exactly if one of the ranges ends before it starts, and otherwise
builds the map of all the insertions. -/
theorem C96_bench_insert [PartialEquivBEq V] (hS : LawfulSteps S)
    (entries : List (RangeInclusive K × V)) :
    ((∃ p, benchInsert S entries RangeInclusiveMap.new = .error p) ↔ ∃ e ∈ entries, e.1.stop < e.1.start) ∧
    ((∀ e ∈ entries, e.1.start ≤ e.1.stop) → benchInsert S entries RangeInclusiveMap.new =
      .ok (run S (entries.map fun e => .insert e.1 e.2))) := by
  suffices ∀ (entries : List (RangeInclusive K × V)) (ops : List (Op (RangeInclusive K) V)),
      ((∃ p, benchInsert S entries (run S ops) = .error p) ↔
        ∃ e ∈ entries, e.1.stop < e.1.start) ∧
      ((∀ e ∈ entries, e.1.start ≤ e.1.stop) → benchInsert S entries (run S ops) =
        .ok (run S (ops ++ entries.map fun e => .insert e.1 e.2))) from this entries []
  intro entries
  induction entries with
  | nil => intro ops; simp [benchInsert]
  | cons e entries ih =>
    intro ops
    obtain ⟨r, v⟩ := e
    by_cases hr : r.start ≤ r.stop
    · obtain ⟨m', h1⟩ := any_insert hS ⟨ops, rfl⟩ v hr
      have h2 : run S (ops ++ [.insert r v]) = m' := by
        rw [run_append]
        simp [RangeInclusiveMap.apply, h1]
      have h3 : benchInsert S ((r, v) :: entries) (run S ops) =
          benchInsert S entries (run S (ops ++ [.insert r v])) := by
        rw [h2, benchInsert, h1]
        rfl
      rw [h3]
      obtain ⟨h4, h5⟩ := ih (ops ++ [.insert r v])
      constructor
      · rw [h4]
        simp only [List.mem_cons, exists_eq_or_imp]
        grind
      · intro h
        rw [h5 fun e he => h e (List.mem_cons_of_mem _ he)]
        simp
    · constructor
      · refine ⟨fun _ => ⟨_, List.mem_cons_self, by simp only; grind⟩, fun _ => ?_⟩
        obtain ⟨p, hp⟩ := (C28_insert_panics hS (m := run S ops) ⟨ops, rfl⟩ r v).1.2 (by grind)
        refine ⟨p, ?_⟩
        rw [benchInsert, hp]
        rfl
      · intro h
        exact absurd (h _ List.mem_cons_self) hr

example := (C96_bench_insert Demo.u8_lawful Demo.iitems).2 (by decide)
-- as the benchmark has it, over `i64`
example := (C96_bench_insert (SIntW.lawful (w := 64) (by decide) false)
  [(RangeInclusive.mk' ⟨.ofInt 64 (-5)⟩ ⟨.ofInt 64 7⟩, (3 : Int)),
   (RangeInclusive.mk' ⟨.ofInt 64 7⟩ ⟨.ofInt 64 7⟩, 4)]).2 (by decide)

/-- **C96** The benchmark `operations` panics exactly if one of the ranges ends before it starts, and otherwise
gives the map of all the operations. -/
theorem C96_bench_operations [PartialEquivBEq V] (hS : LawfulSteps S)
    (ops0 : List (Op (RangeInclusive K) V))
    (ops : List (RangeMap.BenchOp (RangeInclusive K) V)) :
    ((∃ p, benchOps S ops (run S ops0) = .error p) ↔
      ∃ op ∈ ops, (benchRange op).stop < (benchRange op).start) ∧
    ((∀ op ∈ ops, (benchRange op).start ≤ (benchRange op).stop) → benchOps S ops (run S ops0) =
      .ok (run S (ops0 ++ ops.map benchOp))) := by
  induction ops generalizing ops0 with
  | nil => simp [benchOps]
  | cons op ops ih =>
    have key : ∀ r : RangeInclusive K, r = benchRange op →
        (r.start ≤ r.stop → benchOps S (op :: ops) (run S ops0) =
          benchOps S ops (run S (ops0 ++ [benchOp op]))) ∧
        (r.stop < r.start → ∃ p, benchOps S (op :: ops) (run S ops0) = .error p) := by
      rintro r rfl
      cases op with
      | insert r v =>
        refine ⟨fun hr => ?_, fun hr => ?_⟩
        · obtain ⟨m', h1⟩ := any_insert hS ⟨ops0, rfl⟩ v hr
          simp only [benchRange] at h1
          rw [run_append]
          simp [benchOp, benchOps, RangeInclusiveMap.apply, h1]
          rfl
        · obtain ⟨p, hp⟩ := (C28_insert_panics hS (m := run S ops0) ⟨ops0, rfl⟩ r v).1.2 hr
          exact ⟨p, by rw [benchOps, hp]; rfl⟩
      | delete r =>
        refine ⟨fun hr => ?_, fun hr => ?_⟩
        · obtain ⟨m', h1⟩ := any_remove hS ⟨ops0, rfl⟩ hr
          simp only [benchRange] at h1
          rw [run_append]
          simp [benchOp, benchOps, RangeInclusiveMap.apply, h1]
          rfl
        · obtain ⟨p, hp⟩ := (C28_remove_panics hS (m := run S ops0) ⟨ops0, rfl⟩ r).1.2 hr
          exact ⟨p, by rw [benchOps, hp]; rfl⟩
    obtain ⟨k1, k2⟩ := key _ rfl
    by_cases hr : (benchRange op).start ≤ (benchRange op).stop
    · rw [k1 hr]
      obtain ⟨h4, h5⟩ := ih (ops0 ++ [benchOp op])
      constructor
      · rw [h4]
        simp only [List.mem_cons, exists_eq_or_imp]
        grind
      · intro h
        rw [h5 fun e he => h e (List.mem_cons_of_mem _ he)]
        simp
    · refine ⟨⟨fun _ => ⟨op, List.mem_cons_self, by grind⟩, fun _ => k2 (by grind)⟩, ?_⟩
      intro h
      exact absurd (h _ List.mem_cons_self) hr

example := (C96_bench_operations Demo.u8_lawful Demo.iops
  [.insert (Demo.by8 8 22) 'x', .delete (Demo.by8 2 255)]).2 (by decide)

/-- **C96** The benchmark `lookups` does not panic. -/
theorem C96_bench_lookups [PartialEquivBEq V] (m : RangeInclusiveMap K V) (ks : List K) :
    benchLookups m ks = .ok () := by
  induction ks with
  | nil => rfl
  | cons k ks ih =>
    obtain ⟨o, ho⟩ := (C28_lookups_never_panic m k).2.1
    rw [benchLookups, ho]
    exact ih

example := C96_bench_lookups Demo.imap Demo.keys8

end
end Verif.Props.Inclusive

import Verif.Proof.ILawless
import Verif.Props.Calls
import Verif.Props.Demo

/-!
# C91: no laws at all

The crate trusts `Ord`, `PartialEq` and the step functions of its users.  Here they answer whatever
they like, differently every time, and may panic.  What then holds is little, but not nothing.
-/
set_option linter.unusedSectionVars false
set_option linter.unusedVariables false
namespace Verif.Props
open Verif.Spec

section
variable {R V : Type}

/-- The calls since the last `clear` (the history is given latest call first). -/
def recent : List (Op R V) → List (Op R V)
  | [] => []
  | .clear :: _ => []
  | .insert r v :: ops => .insert r v :: recent ops
  | .remove r :: ops => .remove r :: recent ops
  | .extend items :: ops => .extend items :: recent ops

/-- The values given to a call. -/
def values : Op R V → List V
  | .insert _ v => [v]
  | .extend items => items.map (·.2)
  | _ => []

/-- The ranges given to a call. -/
def ranges : Op R V → List R
  | .insert r _ => [r]
  | .remove r => [r]
  | .extend items => items.map (·.1)
  | .clear => []

end

section
open RangeMap
variable {K V : Type}

/-- Whatever comparisons and equality tests answered in the course of these calls, each of which
may have ended with a panic: `t` can be what the B-tree holds afterwards.  The history is given
latest call first. -/
inductive Left (up down : K → K → Prop) : List (Op (Range K) V) → List (Range K × V) → Prop where
  | new : Left up down [] []
  | insert {ops t t' o} (fuel : Nat) (r : Range K) (v : V) (h : Left up down ops t)
      (h' : Wild.Ends up down (insertW fuel r v) t o t') : Left up down (.insert r v :: ops) t'
  | remove {ops t t' o} (fuel : Nat) (r : Range K) (h : Left up down ops t)
      (h' : Wild.Ends up down (removeW fuel r) t o t') : Left up down (.remove r :: ops) t'
  | clear {ops t} (h : Left up down ops t) : Left up down (.clear :: ops) []
  | extend {ops t t' o} (fuel : Nat) (items : List (Range K × V)) (h : Left up down ops t)
      (h' : Wild.Ends up down (extendW fuel items) t o t') : Left up down (.extend items :: ops) t'

theorem all_cons {ops : List (Op (Range K) V)} {t : List (Range K × V)} (op : Op (Range K) V)
    (h : Wild.All (Both fun k => ∃ r ∈ (recent ops).flatMap ranges, k = r.start ∨ k = r.stop)
      (fun v => v ∈ (recent ops).flatMap values) t) (hr : recent (op :: ops) = op :: recent ops) :
    Wild.All (Both fun k => ∃ r ∈ (recent (op :: ops)).flatMap ranges, k = r.start ∨ k = r.stop)
      (fun v => v ∈ (recent (op :: ops)).flatMap values) t := by
  intro e he
  obtain ⟨⟨⟨r1, h1, k1⟩, ⟨r2, h2, k2⟩⟩, h3⟩ := h e he
  rw [hr]
  simp only [List.flatMap_cons]
  exact ⟨⟨⟨r1, List.mem_append_right _ h1, k1⟩, ⟨r2, List.mem_append_right _ h2, k2⟩⟩,
    List.mem_append_right _ h3⟩

/-- **C91** Even if comparisons, equality tests and the B-tree answer whatever they like, and any
of them panics anywhere: every stored value has been given to `insert` or `extend` since the last
`clear`, and both ends of every stored range are ends of ranges given to `insert`, `extend` or
`remove` since then. -/
theorem C91_nothing_made_up {up down : K → K → Prop} {ops : List (Op (Range K) V)}
    {t : List (Range K × V)} (h : Left up down ops t) :
    ∀ e ∈ t, e.2 ∈ (recent ops).flatMap values ∧
      (∃ r ∈ (recent ops).flatMap ranges, e.1.start = r.start ∨ e.1.start = r.stop) ∧
      (∃ r ∈ (recent ops).flatMap ranges, e.1.stop = r.start ∨ e.1.stop = r.stop) := by
  suffices Wild.All (Both fun k => ∃ r ∈ (recent ops).flatMap ranges, k = r.start ∨ k = r.stop)
      (fun v => v ∈ (recent ops).flatMap values) t from
    fun e he => ⟨(this e he).2, (this e he).1.1, (this e he).1.2⟩
  induction h with
  | new => intro e he; cases he
  | insert fuel r v h h' ih =>
    refine (insertW_keeps ?_ ?_ _ _ _ (all_cons _ ih rfl) h').1
    · exact ⟨⟨r, by simp [recent, ranges], .inl rfl⟩, ⟨r, by simp [recent, ranges], .inr rfl⟩⟩
    · simp [recent, values]
  | remove fuel r h h' ih =>
    refine (removeW_keeps ?_ _ _ _ (all_cons _ ih rfl) h').1
    exact ⟨⟨r, by simp [recent, ranges], .inl rfl⟩, ⟨r, by simp [recent, ranges], .inr rfl⟩⟩
  | clear => intro e he; cases he
  | extend fuel items h h' ih =>
    refine (extendW_keeps ?_ _ _ _ (all_cons _ ih rfl) h').1
    intro e he
    refine ⟨⟨⟨e.1, ?_, .inl rfl⟩, ⟨e.1, ?_, .inr rfl⟩⟩, ?_⟩
    · simp only [recent, List.flatMap_cons, List.mem_append, ranges]
      exact .inl (List.mem_map.2 ⟨e, he, rfl⟩)
    · simp only [recent, List.flatMap_cons, List.mem_append, ranges]
      exact .inl (List.mem_map.2 ⟨e, he, rfl⟩)
    · simp only [recent, List.flatMap_cons, List.mem_append, values]
      exact .inl (List.mem_map.2 ⟨e, he, rfl⟩)

/-- **C91** `get_key_value` (hence `get` and `contains_key`) changes nothing, and what it returns is
stored. -/
theorem C91_get {up down : K → K → Prop} {t t' : List (Range K × V)} {k : K}
    {o : Option (Option (Range K × V))} (h : Wild.Ends up down (getKeyValueW k) t o t') :
    t' = t ∧ ∀ e, o = some (some e) → e ∈ t := by
  obtain ⟨h1, h2⟩ := getKeyValueW_keeps (t0 := t) k _ _ _ rfl h
  exact ⟨h1, fun e he => h2 _ he e rfl⟩

/-- **C91** `overlapping` changes nothing, and whatever it yields in however many calls of `next` is
stored, in the order of the B-tree and no entry more often than it is stored. -/
theorem C91_overlapping {up down : K → K → Prop} {t t' : List (Range K × V)} {n : Nat}
    {q : Range K} {o : Option (List (Option (Range K × V)))}
    (h : Wild.Ends up down (overlappingW n q) t o t') :
    t' = t ∧ ∀ l, o = some l → (l.filterMap id).Sublist t := overlappingW_keeps n q _ _ _ rfl h

/-- **C91** `gaps` changes nothing, and the ends of the gaps it yields are ends of stored ranges or of
the given range. -/
theorem C91_gaps {up down : K → K → Prop} {t t' : List (Range K × V)} {n : Nat}
    {q : Range K} {o : Option (List (Option (Range K)))}
    (h : Wild.Ends up down (gapsW n q) t o t') :
    t' = t ∧ ∀ l, o = some l → ∀ g, some g ∈ l →
      (∃ r ∈ q :: t.map (·.1), g.start = r.start ∨ g.start = r.stop) ∧
      (∃ r ∈ q :: t.map (·.1), g.stop = r.start ∨ g.stop = r.stop) := by
  refine gapsW_keeps (P := fun k => ∃ r ∈ q :: t.map (·.1), k = r.start ∨ k = r.stop) n ?_ ?_
    _ _ _ rfl h
  · exact ⟨⟨q, by simp, .inl rfl⟩, ⟨q, by simp, .inr rfl⟩⟩
  · intro e he
    have : e.1 ∈ q :: t.map (·.1) := .tail _ (List.mem_map.2 ⟨e, he, rfl⟩)
    exact ⟨⟨e.1, this, .inl rfl⟩, ⟨e.1, this, .inr rfl⟩⟩

end

section
open RangeMap
variable {K : Type} [LE K] [LT K] [DecidableLE K] [DecidableLT K] {V : Type} [BEq V]

/-- **C91** Honest answers are among those considered: `get_key_value` then returns what it returns
in the main model (which needs no law of the order). -/
theorem C91_get_honest (S : StepFns K) (m : RangeMap K V) (k : K) :
    (∃ w, Wild.honest Range.start S (getKeyValueW k) m.btm ⟨0, 0, 0⟩ =
      ((m.getKeyValue k, m.btm), w)) ∧
    Wild.Ends (fun a b => S.addOne a = .ok b) (fun a b => S.subOne a = .ok b) (getKeyValueW k) m.btm
      (m.getKeyValue k).toOption m.btm := by
  obtain ⟨w, h⟩ := getKeyValueW_answers (S := S) m k ⟨0, 0, 0⟩
  refine ⟨⟨w, h⟩, ?_⟩
  have := Wild.honest_ends (start := Range.start) (S := S) (getKeyValueW k) m.btm ⟨0, 0, 0⟩
  rwa [h] at this

/-- **C91** As before, for the first `n` results of `overlapping`. -/
theorem C91_overlapping_honest (S : StepFns K) (m : RangeMap K V) (n : Nat) (q : Range K) :
    (∃ w, Wild.honest Range.start S (overlappingW n q) m.btm ⟨0, 0, 0⟩ =
      ((m.overlapping q >>= Wild.firsts (fun o => .ok o.next) n, m.btm), w)) ∧
    Wild.Ends (fun a b => S.addOne a = .ok b) (fun a b => S.subOne a = .ok b) (overlappingW n q)
      m.btm (m.overlapping q >>= Wild.firsts (fun o => .ok o.next) n).toOption m.btm := by
  obtain ⟨w, h⟩ := overlappingW_answers (S := S) m n q ⟨0, 0, 0⟩
  refine ⟨⟨w, h⟩, ?_⟩
  have := Wild.honest_ends (start := Range.start) (S := S) (overlappingW n q) m.btm ⟨0, 0, 0⟩
  rwa [h] at this

/-- **C91** As before, for the first `n` results of `gaps`. -/
theorem C91_gaps_honest (S : StepFns K) (m : RangeMap K V) (n : Nat) (q : Range K) :
    (∃ w, Wild.honest Range.start S (gapsW n q) m.btm ⟨0, 0, 0⟩ =
      ((m.gaps q >>= Wild.firsts (fun g => .ok g.next) n, m.btm), w)) ∧
    Wild.Ends (fun a b => S.addOne a = .ok b) (fun a b => S.subOne a = .ok b) (gapsW n q)
      m.btm (m.gaps q >>= Wild.firsts (fun g => .ok g.next) n).toOption m.btm := by
  obtain ⟨w, h⟩ := gapsW_answers (S := S) m n q ⟨0, 0, 0⟩
  refine ⟨⟨w, h⟩, ?_⟩
  have := Wild.honest_ends (start := Range.start) (S := S) (gapsW n q) m.btm ⟨0, 0, 0⟩
  rwa [h] at this

/-- **C88** The meter of `insert` moves by exactly one for each comparison of keys, for each
comparison of values and for each call of a step function that the program with all its calls
written out makes; and the two end alike. -/
theorem C88_insert_exact (S : StepFns K) (m : RangeMap K V) (r : Range K) (v : V) (w : Calls) :
    match m.insertN r v w with
    | (.ok m', w') =>
      Wild.honest Range.start S (insertW (m.len + 2) r v) m.btm w = ((.ok (), m'.btm), w')
    | (.error p, w') =>
      ∃ t, Wild.honest Range.start S (insertW (m.len + 2) r v) m.btm w = ((.error p, t), w') := by
  have h := insertW_same (S := S) m r v w
  cases hx : m.insertN r v w with
  | mk x w' => rw [hx] at h; cases x <;> exact h

/-- **C88** The same of `remove`. -/
theorem C88_remove_exact (S : StepFns K) (m : RangeMap K V) (r : Range K) (w : Calls) :
    match m.removeN r w with
    | (.ok m', w') =>
      Wild.honest Range.start S (removeW (m.len + 2) r) m.btm w = ((.ok (), m'.btm), w')
    | (.error p, w') =>
      ∃ t, Wild.honest Range.start S (removeW (m.len + 2) r) m.btm w = ((.error p, t), w') := by
  have h := removeW_same (S := S) m r w
  cases hx : m.removeN r w with
  | mk x w' => rw [hx] at h; cases x <;> exact h

variable [Std.IsLinearPreorder K] [Std.LawfulOrderLT K] [PartialEquivBEq V]

/-- **C91** Honest answers are among those considered: `insert` then ends as in the main model. -/
theorem C91_insert_honest (S : StepFns K) (m : RangeMap K V) (r : Range K) (v : V) :
    ∃ o t w, Wild.honest Range.start S (insertW (m.len + 2) r v) m.btm ⟨0, 0, 0⟩ = ((o, t), w) ∧
      Wild.Ends (fun a b => S.addOne a = .ok b) (fun a b => S.subOne a = .ok b)
        (insertW (m.len + 2) r v) m.btm o.toOption t ∧
      match m.insert r v with
      | .ok m' => o = .ok () ∧ t = m'.btm
      | .error p => o = .error p := by
  have h1 := insertW_same (S := S) m r v ⟨0, 0, 0⟩
  have he := Wild.honest_ends (start := Range.start) (S := S) (insertW (m.len + 2) r v) m.btm
    ⟨0, 0, 0⟩
  obtain ⟨c, h2, -⟩ := insertN_runs m r v
  rw [h2] at h1
  obtain ⟨⟨⟨o, t⟩, w⟩, hh⟩ : ∃ x, Wild.honest Range.start S (insertW (m.len + 2) r v) m.btm
    ⟨0, 0, 0⟩ = x := ⟨_, rfl⟩
  rw [hh] at he h1
  refine ⟨o, t, w, hh, he, ?_⟩
  cases hi : m.insert r v with
  | ok m' =>
    rw [hi] at h1
    exact ⟨congrArg (·.1.1) h1, congrArg (·.1.2) h1⟩
  | error p =>
    rw [hi] at h1
    obtain ⟨t, h1⟩ := h1
    exact congrArg (·.1.1) h1

/-- **C91** Honest answers are among those considered: `remove` then ends as in the main model. -/
theorem C91_remove_honest (S : StepFns K) (m : RangeMap K V) (r : Range K) :
    ∃ o t w, Wild.honest Range.start S (removeW (m.len + 2) r) m.btm ⟨0, 0, 0⟩ = ((o, t), w) ∧
      Wild.Ends (fun a b => S.addOne a = .ok b) (fun a b => S.subOne a = .ok b)
        (removeW (m.len + 2) r) m.btm o.toOption t ∧
      match m.remove r with
      | .ok m' => o = .ok () ∧ t = m'.btm
      | .error p => o = .error p := by
  have h1 := removeW_same (S := S) m r ⟨0, 0, 0⟩
  have he := Wild.honest_ends (start := Range.start) (S := S) (removeW (m.len + 2) r) m.btm
    ⟨0, 0, 0⟩
  obtain ⟨c, h2, -⟩ := removeN_runs m r
  rw [h2] at h1
  obtain ⟨⟨⟨o, t⟩, w⟩, hh⟩ : ∃ x, Wild.honest Range.start S (removeW (m.len + 2) r) m.btm
    ⟨0, 0, 0⟩ = x := ⟨_, rfl⟩
  rw [hh] at he h1
  refine ⟨o, t, w, hh, he, ?_⟩
  cases hi : m.remove r with
  | ok m' =>
    rw [hi] at h1
    exact ⟨congrArg (·.1.1) h1, congrArg (·.1.2) h1⟩
  | error p =>
    rw [hi] at h1
    obtain ⟨t, h1⟩ := h1
    exact congrArg (·.1.1) h1

end

/-! Examples: comparisons that lie make `insert` leave overlapping ranges, and a panic in the middle
of `remove` loses a value; but nothing else turns up. -/

section
open RangeMap

theorem lies : Left (fun _ _ => False) (fun _ _ => False)
    [.insert (⟨5, 15⟩ : Range Nat) 'b', .insert ⟨0, 10⟩ 'a'] [(⟨0, 10⟩, 'a'), (⟨5, 15⟩, 'b')] := by
  have put : ∀ (t : List (Range Nat × Char)) r v, Wild.PutAny r v t (t ++ [(r, v)]) := by
    intro t r v e he
    rcases List.mem_append.1 he with he | he
    · exact .inl he
    · exact .inr (.inl (List.mem_singleton.1 he))
  have one : ∀ (t : List (Range Nat × Char)) (r : Range Nat) v,
      Wild.Ends (fun _ _ => False) (fun _ _ => False) (insertW 1 r v) t (some ())
        (t ++ [(r, v)]) := fun t r v =>
    .ask true (.search [] (List.nil_sublist _) (.search [] (List.nil_sublist _)
      (.put _ (put t r v) (.ret () _))))
  exact .insert 1 ⟨5, 15⟩ 'b' (.insert 1 ⟨0, 10⟩ 'a' .new (one _ _ _)) (one _ _ _)
example := C91_nothing_made_up lies
-- `get` passes the entry it has been told to
example := C91_get (show Wild.Ends (fun _ _ => False) (fun _ _ => False) (getKeyValueW 70)
    [((⟨0, 10⟩ : Range Nat), 'a'), (⟨5, 15⟩, 'b')] (some (some (⟨5, 15⟩, 'b')))
    [(⟨0, 10⟩, 'a'), (⟨5, 15⟩, 'b')] from
  .search [(⟨5, 15⟩, 'b')] (by decide) (.ask true (.ask true (.ret _ _))))
example := C91_get_honest (⟨.ok, .ok⟩ : StepFns Nat) Demo.map 7
example := C91_overlapping (C91_overlapping_honest (⟨.ok, .ok⟩ : StepFns Nat) Demo.map 5 ⟨2, 22⟩).2
example := C91_gaps (C91_gaps_honest (⟨.ok, .ok⟩ : StepFns Nat) Demo.map 5 ⟨2, 22⟩).2
example := C88_insert_exact (⟨.ok, .ok⟩ : StepFns Nat) Demo.map ⟨2, 22⟩ 'q' ⟨0, 0, 0⟩
example := C88_remove_exact (⟨.ok, .ok⟩ : StepFns Nat) Demo.map ⟨2, 22⟩ ⟨0, 0, 0⟩
example := C91_insert_honest (⟨.ok, .ok⟩ : StepFns Nat) Demo.map ⟨2, 22⟩ 'q'
example := C91_remove_honest (⟨.ok, .ok⟩ : StepFns Nat) Demo.map ⟨2, 22⟩

example : Wild.Ends (fun _ _ => False) (fun _ _ => False) (removeW 1 (⟨3, 4⟩ : Range Nat))
    [(⟨0, 10⟩, 'a')] none [] :=
  .ask true (.search [(⟨0, 10⟩, 'a')] (.refl _) (.ask true (.ask true (.ask true
    (.delete [] (by simp) (.panic _ _))))))

-- honest answers: what the B-tree holds, and 10 comparisons of keys, 2 of values
example : Wild.honest Range.start (⟨.ok, .ok⟩ : StepFns Nat) (insertW 3 ⟨3, 5⟩ 'b') [(⟨0, 10⟩, 'a')]
    ⟨0, 0, 0⟩ = ((.ok (), [(⟨0, 3⟩, 'a'), (⟨3, 5⟩, 'b'), (⟨5, 10⟩, 'a')]), ⟨10, 2, 0⟩) := by rfl

end

namespace Inclusive

section
open RangeInclusiveMap
variable {K V : Type}

/-- Whatever comparisons and equality tests answered in the course of these calls, each of which
may have ended with a panic: `t` can be what the B-tree holds afterwards.  The history is given
latest call first. -/
inductive Left (up down : K → K → Prop) : List (Op (RangeInclusive K) V) → List (RangeInclusive K × V) → Prop where
  | new : Left up down [] []
  | insert {ops t t' o} (fuel : Nat) (r : RangeInclusive K) (v : V) (h : Left up down ops t)
      (h' : Wild.Ends up down (insertW fuel r v) t o t') : Left up down (.insert r v :: ops) t'
  | remove {ops t t' o} (fuel : Nat) (r : RangeInclusive K) (h : Left up down ops t)
      (h' : Wild.Ends up down (removeW fuel r) t o t') : Left up down (.remove r :: ops) t'
  | clear {ops t} (h : Left up down ops t) : Left up down (.clear :: ops) []
  | extend {ops t t' o} (fuel : Nat) (items : List (RangeInclusive K × V)) (h : Left up down ops t)
      (h' : Wild.Ends up down (extendW fuel items) t o t') : Left up down (.extend items :: ops) t'

/-- A key got from those with `P` by step functions. -/
inductive FromEnds (up down : K → K → Prop) (P : K → Prop) : K → Prop where
  | given {k} (h : P k) : FromEnds up down P k
  | up {k k'} (h : FromEnds up down P k) (h' : up k k') : FromEnds up down P k'
  | down {k k'} (h : FromEnds up down P k) (h' : down k k') : FromEnds up down P k'

theorem FromEnds.closed {up down : K → K → Prop} {P : K → Prop} :
    Closed up down (FromEnds up down P) := ⟨fun _ _ => .up, fun _ _ => .down⟩

theorem FromEnds.mono {up down : K → K → Prop} {P Q : K → Prop} (hpq : ∀ k, P k → Q k) {k : K}
    (h : FromEnds up down P k) : FromEnds up down Q k := by
  induction h with
  | given h => exact .given (hpq _ h)
  | up _ h' ih => exact .up ih h'
  | down _ h' ih => exact .down ih h'

/-- An end of one of the given ranges. -/
def AnEnd (rs : List (RangeInclusive K)) (k : K) : Prop := ∃ r ∈ rs, k = r.start ∨ k = r.stop

/-- **C91** Even if comparisons, equality tests, step functions and the B-tree answer whatever they
like, and any of them panics anywhere: every stored value has been given to `insert` or `extend`
since the last `clear`, and both ends of every stored range come, through answers of the step
functions, from ends of ranges given to `insert`, `extend` or `remove` since then. -/
theorem C91_nothing_made_up {up down : K → K → Prop} {ops : List (Op (RangeInclusive K) V)}
    {t : List (RangeInclusive K × V)} (h : Left up down ops t) :
    ∀ e ∈ t, e.2 ∈ (recent ops).flatMap values ∧
      FromEnds up down (AnEnd ((recent ops).flatMap ranges)) e.1.start ∧
      FromEnds up down (AnEnd ((recent ops).flatMap ranges)) e.1.stop := by
  suffices Wild.All (Both (FromEnds up down (AnEnd ((recent ops).flatMap ranges))))
      (fun v => v ∈ (recent ops).flatMap values) t from
    fun e he => ⟨(this e he).2, (this e he).1.1, (this e he).1.2⟩
  have mono : ∀ {op : Op (RangeInclusive K) V} {ops : List (Op (RangeInclusive K) V)}
      {t : List (RangeInclusive K × V)}, recent (op :: ops) = op :: recent ops →
      Wild.All (Both (FromEnds up down (AnEnd ((recent ops).flatMap ranges))))
        (fun v => v ∈ (recent ops).flatMap values) t →
      Wild.All (Both (FromEnds up down (AnEnd ((recent (op :: ops)).flatMap ranges))))
        (fun v => v ∈ (recent (op :: ops)).flatMap values) t := by
    intro op ops t hr h e he
    obtain ⟨⟨h1, h2⟩, h3⟩ := h e he
    have hm : ∀ k, AnEnd ((recent ops).flatMap ranges) k →
        AnEnd ((recent (op :: ops)).flatMap ranges) k := by
      intro k ⟨r, hr', hk⟩
      exact ⟨r, by rw [hr, List.flatMap_cons]; exact List.mem_append_right _ hr', hk⟩
    exact ⟨⟨h1.mono hm, h2.mono hm⟩,
      by rw [hr, List.flatMap_cons]; exact List.mem_append_right _ h3⟩
  induction h with
  | new => intro e he; cases he
  | insert fuel r v h h' ih =>
    refine (insertW_keeps FromEnds.closed ?_ ?_ _ _ _ (mono rfl ih) h').1
    · exact ⟨.given ⟨r, by simp [recent, ranges], .inl rfl⟩,
        .given ⟨r, by simp [recent, ranges], .inr rfl⟩⟩
    · simp [recent, values]
  | remove fuel r h h' ih =>
    refine (removeW_keeps FromEnds.closed ?_ _ _ _ (mono rfl ih) h').1
    exact ⟨.given ⟨r, by simp [recent, ranges], .inl rfl⟩,
      .given ⟨r, by simp [recent, ranges], .inr rfl⟩⟩
  | clear => intro e he; cases he
  | extend fuel items h h' ih =>
    refine (extendW_keeps FromEnds.closed ?_ _ _ _ (mono rfl ih) h').1
    intro e he
    have h1 : ∀ ops, e.1 ∈ (recent (.extend items :: ops)).flatMap ranges := by
      intro ops
      simp only [recent, List.flatMap_cons, List.mem_append, ranges]
      exact .inl (List.mem_map.2 ⟨e, he, rfl⟩)
    refine ⟨⟨.given ⟨e.1, h1 _, .inl rfl⟩, .given ⟨e.1, h1 _, .inr rfl⟩⟩, ?_⟩
    simp only [recent, List.flatMap_cons, List.mem_append, values]
    exact .inl (List.mem_map.2 ⟨e, he, rfl⟩)

/-- **C91** `get_key_value` (hence `get` and `contains_key`) changes nothing, and what it returns is
stored. -/
theorem C91_get {up down : K → K → Prop} {t t' : List (RangeInclusive K × V)} {k : K}
    {o : Option (Option (RangeInclusive K × V))} (h : Wild.Ends up down (getKeyValueW k) t o t') :
    t' = t ∧ ∀ e, o = some (some e) → e ∈ t := by
  obtain ⟨h1, h2⟩ := getKeyValueW_keeps (t0 := t) k _ _ _ rfl h
  exact ⟨h1, fun e he => h2 _ he e rfl⟩

/-- **C91** `overlapping` changes nothing, and whatever it yields in however many calls of `next` is
stored, in the order of the B-tree and no entry more often than it is stored. -/
theorem C91_overlapping {up down : K → K → Prop} {t t' : List (RangeInclusive K × V)} {n : Nat}
    {q : RangeInclusive K} {o : Option (List (Option (RangeInclusive K × V)))}
    (h : Wild.Ends up down (overlappingW n q) t o t') :
    t' = t ∧ ∀ l, o = some l → (l.filterMap id).Sublist t := overlappingW_keeps n q _ _ _ rfl h

/-- **C91** `gaps` changes nothing, and the ends of the gaps it yields come, through answers of the
step functions, from ends of stored ranges or of the given range. -/
theorem C91_gaps {up down : K → K → Prop} {t t' : List (RangeInclusive K × V)} {n : Nat}
    {q : RangeInclusive K} {o : Option (List (Option (RangeInclusive K)))}
    (h : Wild.Ends up down (gapsW n q) t o t') :
    t' = t ∧ ∀ l, o = some l → ∀ g, some g ∈ l →
      FromEnds up down (AnEnd (q :: t.map (·.1))) g.start ∧
      FromEnds up down (AnEnd (q :: t.map (·.1))) g.stop := by
  refine gapsW_keeps FromEnds.closed n ?_ ?_ _ _ _ rfl h
  · exact ⟨.given ⟨q, by simp, .inl rfl⟩, .given ⟨q, by simp, .inr rfl⟩⟩
  · intro e he
    have : e.1 ∈ q :: t.map (·.1) := .tail _ (List.mem_map.2 ⟨e, he, rfl⟩)
    exact ⟨.given ⟨e.1, this, .inl rfl⟩, .given ⟨e.1, this, .inr rfl⟩⟩

end

section
open RangeInclusiveMap
variable {K : Type} [LE K] [LT K] [DecidableLE K] [DecidableLT K] {V : Type} [BEq V]

/-- **C91** Honest answers are among those considered: `get_key_value` then returns what it returns
in the main model (which needs no law of the order). -/
theorem C91_get_honest (S : StepFns K) (m : RangeInclusiveMap K V) (k : K) :
    (∃ w, Wild.honest RangeInclusive.start S (getKeyValueW k) m.btm ⟨0, 0, 0⟩ =
      ((m.getKeyValue k, m.btm), w)) ∧
    Wild.Ends (fun a b => S.addOne a = .ok b) (fun a b => S.subOne a = .ok b) (getKeyValueW k) m.btm
      (m.getKeyValue k).toOption m.btm := by
  obtain ⟨w, h⟩ := getKeyValueW_answers (S := S) m k ⟨0, 0, 0⟩
  refine ⟨⟨w, h⟩, ?_⟩
  have := Wild.honest_ends (start := RangeInclusive.start) (S := S) (getKeyValueW k) m.btm ⟨0, 0, 0⟩
  rwa [h] at this

example := Inclusive.C91_get_honest (K := UIntW 8) (V := Char) Demo.u8 Demo.imap ⟨7⟩

/-- **C91** As before, for the first `n` results of `overlapping`. -/
theorem C91_overlapping_honest (S : StepFns K) (m : RangeInclusiveMap K V) (n : Nat) (q : RangeInclusive K) :
    (∃ w, Wild.honest RangeInclusive.start S (overlappingW n q) m.btm ⟨0, 0, 0⟩ =
      ((m.overlapping q >>= Wild.firsts (fun o => .ok o.next) n, m.btm), w)) ∧
    Wild.Ends (fun a b => S.addOne a = .ok b) (fun a b => S.subOne a = .ok b) (overlappingW n q)
      m.btm (m.overlapping q >>= Wild.firsts (fun o => .ok o.next) n).toOption m.btm := by
  obtain ⟨w, h⟩ := overlappingW_answers (S := S) m n q ⟨0, 0, 0⟩
  refine ⟨⟨w, h⟩, ?_⟩
  have := Wild.honest_ends (start := RangeInclusive.start) (S := S) (overlappingW n q) m.btm ⟨0, 0, 0⟩
  rwa [h] at this

example := Inclusive.C91_overlapping_honest (K := UIntW 8) (V := Char) Demo.u8 Demo.imap 5
    (Demo.by8 2 22)

/-- **C91** As before, for the first `n` results of `gaps`. -/
theorem C91_gaps_honest (S : StepFns K) (m : RangeInclusiveMap K V) (n : Nat) (q : RangeInclusive K) :
    (∃ w, Wild.honest RangeInclusive.start S (gapsW n q) m.btm ⟨0, 0, 0⟩ =
      ((m.gaps q >>= Wild.firsts (Gaps.next S) n, m.btm), w)) ∧
    Wild.Ends (fun a b => S.addOne a = .ok b) (fun a b => S.subOne a = .ok b) (gapsW n q)
      m.btm (m.gaps q >>= Wild.firsts (Gaps.next S) n).toOption m.btm := by
  obtain ⟨w, h⟩ := gapsW_answers (S := S) m n q ⟨0, 0, 0⟩
  refine ⟨⟨w, h⟩, ?_⟩
  have := Wild.honest_ends (start := RangeInclusive.start) (S := S) (gapsW n q) m.btm ⟨0, 0, 0⟩
  rwa [h] at this

example := Inclusive.C91_gaps_honest (K := UIntW 8) (V := Char) Demo.u8 Demo.imap 5
    (Demo.by8 2 22)

/-- **C88** The meter of `insert` moves by exactly one for each comparison of keys, for each
comparison of values and for each call of a step function that the program with all its calls
written out makes; and the two end alike. -/
theorem C88_insert_exact (S : StepFns K) (m : RangeInclusiveMap K V) (r : RangeInclusive K) (v : V) (w : Calls) :
    match m.insertN S r v w with
    | (.ok m', w') =>
      Wild.honest RangeInclusive.start S (insertW (m.len + 2) r v) m.btm w = ((.ok (), m'.btm), w')
    | (.error p, w') =>
      ∃ t, Wild.honest RangeInclusive.start S (insertW (m.len + 2) r v) m.btm w = ((.error p, t), w') := by
  have h := insertW_same (S := S) m r v w
  cases hx : m.insertN S r v w with
  | mk x w' => rw [hx] at h; cases x <;> exact h

example := Inclusive.C88_insert_exact (K := UIntW 8) (V := Char) Demo.u8 Demo.imap
    (Demo.by8 2 22) 'q' ⟨0, 0, 0⟩

/-- **C88** The same of `remove`. -/
theorem C88_remove_exact (S : StepFns K) (m : RangeInclusiveMap K V) (r : RangeInclusive K) (w : Calls) :
    match m.removeN S r w with
    | (.ok m', w') =>
      Wild.honest RangeInclusive.start S (removeW (m.len + 2) r) m.btm w = ((.ok (), m'.btm), w')
    | (.error p, w') =>
      ∃ t, Wild.honest RangeInclusive.start S (removeW (m.len + 2) r) m.btm w = ((.error p, t), w') := by
  have h := removeW_same (S := S) m r w
  cases hx : m.removeN S r w with
  | mk x w' => rw [hx] at h; cases x <;> exact h

example := Inclusive.C88_remove_exact (K := UIntW 8) (V := Char) Demo.u8 Demo.imap
    (Demo.by8 2 22) ⟨0, 0, 0⟩

variable [Std.IsLinearPreorder K] [Std.LawfulOrderLT K] [PartialEquivBEq V]

/-- **C91** Honest answers are among those considered: `insert` then ends as in the main model. -/
theorem C91_insert_honest (S : StepFns K) (m : RangeInclusiveMap K V) (r : RangeInclusive K) (v : V) :
    ∃ o t w, Wild.honest RangeInclusive.start S (insertW (m.len + 2) r v) m.btm ⟨0, 0, 0⟩ = ((o, t), w) ∧
      Wild.Ends (fun a b => S.addOne a = .ok b) (fun a b => S.subOne a = .ok b)
        (insertW (m.len + 2) r v) m.btm o.toOption t ∧
      match m.insert S r v with
      | .ok m' => o = .ok () ∧ t = m'.btm
      | .error p => o = .error p := by
  have h1 := insertW_same (S := S) m r v ⟨0, 0, 0⟩
  have he := Wild.honest_ends (start := RangeInclusive.start) (S := S) (insertW (m.len + 2) r v) m.btm
    ⟨0, 0, 0⟩
  obtain ⟨c, h2, -⟩ := insertN_runs S m r v
  rw [h2] at h1
  obtain ⟨⟨⟨o, t⟩, w⟩, hh⟩ : ∃ x, Wild.honest RangeInclusive.start S (insertW (m.len + 2) r v) m.btm
    ⟨0, 0, 0⟩ = x := ⟨_, rfl⟩
  rw [hh] at he h1
  refine ⟨o, t, w, hh, he, ?_⟩
  cases hi : m.insert S r v with
  | ok m' =>
    rw [hi] at h1
    exact ⟨congrArg (·.1.1) h1, congrArg (·.1.2) h1⟩
  | error p =>
    rw [hi] at h1
    obtain ⟨t, h1⟩ := h1
    exact congrArg (·.1.1) h1

example := Inclusive.C91_insert_honest (K := UIntW 8) (V := Char) Demo.u8 Demo.imap
    (Demo.by8 2 22) 'q'

/-- **C91** Honest answers are among those considered: `remove` then ends as in the main model. -/
theorem C91_remove_honest (S : StepFns K) (m : RangeInclusiveMap K V) (r : RangeInclusive K) :
    ∃ o t w, Wild.honest RangeInclusive.start S (removeW (m.len + 2) r) m.btm ⟨0, 0, 0⟩ = ((o, t), w) ∧
      Wild.Ends (fun a b => S.addOne a = .ok b) (fun a b => S.subOne a = .ok b)
        (removeW (m.len + 2) r) m.btm o.toOption t ∧
      match m.remove S r with
      | .ok m' => o = .ok () ∧ t = m'.btm
      | .error p => o = .error p := by
  have h1 := removeW_same (S := S) m r ⟨0, 0, 0⟩
  have he := Wild.honest_ends (start := RangeInclusive.start) (S := S) (removeW (m.len + 2) r) m.btm
    ⟨0, 0, 0⟩
  obtain ⟨c, h2, -⟩ := removeN_runs S m r
  rw [h2] at h1
  obtain ⟨⟨⟨o, t⟩, w⟩, hh⟩ : ∃ x, Wild.honest RangeInclusive.start S (removeW (m.len + 2) r) m.btm
    ⟨0, 0, 0⟩ = x := ⟨_, rfl⟩
  rw [hh] at he h1
  refine ⟨o, t, w, hh, he, ?_⟩
  cases hi : m.remove S r with
  | ok m' =>
    rw [hi] at h1
    exact ⟨congrArg (·.1.1) h1, congrArg (·.1.2) h1⟩
  | error p =>
    rw [hi] at h1
    obtain ⟨t, h1⟩ := h1
    exact congrArg (·.1.1) h1

end

/-! Example: a step function that answers 200 for the successor of 3 makes `remove` leave a range
beginning at 200. -/

section
open RangeInclusiveMap

theorem strays : Wild.Ends (fun a b => a = 3 ∧ b = 200) (fun _ _ => False)
    (removeW 1 (.mk' 0 3 : RangeInclusive Nat)) [(.mk' 0 10, 'a')] (some ())
    [(.mk' 200 10, 'a')] :=
  .ask true (.search [(.mk' 0 10, 'a')] (.refl _) (.ask true (.ask true (.ask true
    (.delete [] (by simp) (.ask false (.ask true (.up 200 ⟨rfl, rfl⟩
      (.put [(.mk' 200 10, 'a')] (fun e he => .inr (.inl (List.mem_singleton.1 he)))
        (.search [] (List.nil_sublist _) (.ret () _)))))))))))
theorem leaves : Left (fun a b => a = 3 ∧ b = 200) (fun _ _ => False)
    [.remove (.mk' 0 3 : RangeInclusive Nat), .insert (.mk' 0 10) 'a'] [(.mk' 200 10, 'a')] :=
  .remove 1 _ (.insert 1 (.mk' 0 10) 'a' .new (.ask true (.search [] (List.nil_sublist _)
    (.search [] (List.nil_sublist _) (.put _ (fun e he => .inr (.inl (List.mem_singleton.1 he)))
      (.ret () _)))))) strays
example := C91_nothing_made_up leaves
example := C91_get (C91_get_honest Demo.u8 Demo.imap ⟨7⟩).2
example := C91_overlapping (C91_overlapping_honest Demo.u8 Demo.imap 5 (Demo.by8 2 22)).2
example := Inclusive.C91_remove_honest Demo.u8 Demo.imap (Demo.by8 2 22)
example := C91_gaps (C91_gaps_honest Demo.u8 Demo.imap 5 (Demo.by8 2 22)).2

end

end Inclusive
end Verif.Props

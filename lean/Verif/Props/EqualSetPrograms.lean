import Verif.Props.EqualPrograms
import Verif.Model.OpenSets

/-!
# Equal sets in programs: C119 for sets
-/
set_option linter.unusedSectionVars false

namespace Verif.Spec
variable {K R : Type} [LE K] [LT K] [DecidableLE K] [DecidableLT K]

/-- Answers that compare equal. -/
inductive AlikeSetAnswer (same : R → R → Prop) : SetAnswer R → SetAnswer R → Prop
  | done : AlikeSetAnswer same .done .done
  | panicked : AlikeSetAnswer same .panicked .panicked
  | range {r r'} : SameOpt same r r' → AlikeSetAnswer same (.range r) (.range r')
  | flag (b) : AlikeSetAnswer same (.flag b) (.flag b)
  | number (n) : AlikeSetAnswer same (.number n) (.number n)
  | ranges {l l'} : Pointwise (SameOpt same) l l' → AlikeSetAnswer same (.ranges l) (.ranges l')

/-- The same call, with arguments that compare equal. -/
inductive AlikeSetCall : SetCall K → SetCall K → Prop
  | insert (i) {r r'} : SameRange r r' → AlikeSetCall (.insert i r) (.insert i r')
  | remove (i) {r r'} : SameRange r r' → AlikeSetCall (.remove i r) (.remove i r')
  | clear (i) : AlikeSetCall (.clear i) (.clear i)
  | extend (i) {l l'} : Pointwise SameRange l l' → AlikeSetCall (.extend i l) (.extend i l')
  | collect (i) {l l'} : Pointwise SameRange l l' → AlikeSetCall (.collect i l) (.collect i l')
  | copy (i j) : AlikeSetCall (.copy i j) (.copy i j)
  | append (i j) : AlikeSetCall (.append i j) (.append i j)
  | or (i j l) : AlikeSetCall (.or i j l) (.or i j l)
  | and (i j l) : AlikeSetCall (.and i j l) (.and i j l)
  | contains (i) {k k'} : keq k k' = true → AlikeSetCall (.contains i k) (.contains i k')
  | get (i) {k k'} : keq k k' = true → AlikeSetCall (.get i k) (.get i k')
  | len (i) : AlikeSetCall (.len i) (.len i)
  | isEmpty (i) : AlikeSetCall (.isEmpty i) (.isEmpty i)
  | first (i) : AlikeSetCall (.first i) (.first i)
  | last (i) : AlikeSetCall (.last i) (.last i)
  | iter (i cs) : AlikeSetCall (.iter i cs) (.iter i cs)
  | overlapping (i) {q q'} (cs) : SameRange q q' →
      AlikeSetCall (.overlapping i q cs) (.overlapping i q' cs)
  | overlaps (i) {q q'} : SameRange q q' → AlikeSetCall (.overlaps i q) (.overlaps i q')
  | gaps (i) {q q'} (n) : SameRange q q' → AlikeSetCall (.gaps i q n) (.gaps i q' n)
  | union (i j n) : AlikeSetCall (.union i j n) (.union i j n)
  | intersection (i j n) : AlikeSetCall (.intersection i j n) (.intersection i j n)
  | eq (i j) : AlikeSetCall (.eq i j) (.eq i j)

/-- The same for calls that make or ask kept iterators. -/
inductive AlikeSetOpenCall : SetOpenCall K → SetOpenCall K → Prop
  | plain {c c'} : AlikeSetCall c c' → AlikeSetOpenCall (.plain c) (.plain c')
  | walk (h i) : AlikeSetOpenCall (.walk h i) (.walk h i)
  | walkOver (h i) {q q'} : SameRange q q' → AlikeSetOpenCall (.walkOver h i q) (.walkOver h i q')
  | take (h i) : AlikeSetOpenCall (.take h i) (.take h i)
  | next (h) : AlikeSetOpenCall (.next h) (.next h)
  | nextBack (h) : AlikeSetOpenCall (.nextBack h) (.nextBack h)
  | holes (g i) {q q'} : SameRange q q' → AlikeSetOpenCall (.holes g i q) (.holes g i q')
  | both (g i j) : AlikeSetOpenCall (.both g i j) (.both g i j)
  | common (g i j) : AlikeSetOpenCall (.common g i j) (.common g i j)
  | nextFlow (g) : AlikeSetOpenCall (.nextFlow g) (.nextFlow g)

/-- Programs that go on alike after answers that are alike. -/
def AlikeSetPrograms (same : R → R → Prop) (p p' : SetOpenProgram R K) : Prop :=
  ∀ as as', Pointwise (AlikeSetAnswer same) as as' → SameOpt AlikeSetOpenCall (p as) (p' as')

theorem AlikeSetAnswer.of {same : R → R → Prop} {α β : Type} {P : α → β → Prop}
    {f : α → SetAnswer R} {g : β → SetAnswer R}
      (hf : ∀ a b, P a b → AlikeSetAnswer same (f a) (g b))
    {x : Except Panic α} {y : Except Panic β} (h : SameOutcome P x y) :
    AlikeSetAnswer same (SetAnswer.of f x) (SetAnswer.of g y) := by
  rcases h.cases with ⟨a, b, rfl, rfl, h⟩ | ⟨p, rfl, rfl⟩
  · exact hf a b h
  · exact .panicked

end Verif.Spec

namespace Verif.Props
open Spec Cl

theorem renew_alike {R M : Type} {same : R → R → Prop} {P : M → M → Prop} {f f' : Nat → M}
    (h : ∀ i, P (f i) (f' i)) (i : Nat) {x y : Except Panic M} (hx : SameOutcome P x y) :
    AlikeSetAnswer same (renew f i x).1 (renew f' i y).1 ∧
      ∀ j, P ((renew (R := R) f i x).2 j) ((renew (R := R) f' i y).2 j) := by
  rcases hx.cases with ⟨a, b, rfl, rfl, h'⟩ | ⟨p, rfl, rfl⟩
  · exact ⟨.done, store_alike h i h'⟩
  · exact ⟨.panicked, h⟩

theorem calls_alike {σ α : Type} {next : σ → Option α × σ} {R : σ → σ → Prop} {Q : α → α → Prop}
    (hn : ∀ s s', R s s' → SameOpt Q (next s).1 (next s').1 ∧ R (next s).2 (next s').2) (n : Nat)
    {s s' : σ} (h : R s s') : Pointwise (SameOpt Q) (calls next n s) (calls next n s') := by
  induction n generalizing s s' with
  | zero => exact .nil
  | succ n ih => exact .cons (hn _ _ h).1 (ih (hn _ _ h).2)

section
variable {K : Type} [LE K] [LT K] [DecidableLE K] [DecidableLT K]
  [Std.IsLinearPreorder K] [Std.LawfulOrderLT K]

theorem setFromIter_alike {l l' : List (Range K)} (hl : Pointwise SameRange l l') :
    SameOutcome (fun x y => x.eq y = true) (RangeSet.fromIter l) (RangeSet.fromIter l') := by
  have := set_extend_equal (s := (RangeSet.new : RangeSet K)) (s' := RangeSet.new) rfl hl
  unfold RangeSet.fromIter
  revert this
  rcases RangeSet.extend RangeSet.new l with ⟨x, a⟩
  rcases RangeSet.extend RangeSet.new l' with ⟨y, b⟩
  rintro ⟨h1, h2⟩
  subst h2
  cases a
  · exact rfl
  · exact h1

theorem setIterNext_alike {i i' : RangeSet.Iter K} (h : AlikeIters i.inner i'.inner) :
    SameOpt SameRange i.next.1 i'.next.1 ∧ AlikeIters i.next.2.inner i'.next.2.inner :=
  ⟨(iterNext_alike h).1.map fun _ _ h => h.1, (iterNext_alike h).2⟩

theorem setIterNextBack_alike {i i' : RangeSet.Iter K} (h : AlikeIters i.inner i'.inner) :
    SameOpt SameRange i.nextBack.1 i'.nextBack.1 ∧
      AlikeIters i.nextBack.2.inner i'.nextBack.2.inner :=
  ⟨(iterNextBack_alike h).1.map fun _ _ h => h.1, (iterNextBack_alike h).2⟩

theorem setOverNext_alike {o o' : RangeSet.Overlapping K} (h : o.inner.SameIter o'.inner) :
    SameOpt SameRange o.next.1 o'.next.1 ∧ o.next.2.inner.SameIter o'.next.2.inner :=
  ⟨(RangeMap.Overlapping.next_same h).1.map fun _ _ h => h.1, (RangeMap.Overlapping.next_same h).2⟩

theorem setOverNextBack_alike {o o' : RangeSet.Overlapping K} (h : o.inner.SameIter o'.inner) :
    SameOpt SameRange o.nextBack.1 o'.nextBack.1 ∧
      o.nextBack.2.inner.SameIter o'.nextBack.2.inner :=
  ⟨(RangeMap.Overlapping.nextBack_same h).1.map fun _ _ h => h.1,
    (RangeMap.Overlapping.nextBack_same h).2⟩

theorem setOverlapping_alike {s s' : RangeSet K} (h : s.eq s' = true) {q q' : Range K}
    (hq : SameRange q q') :
    SameOutcome (fun o o' => o.inner.SameIter o'.inner) (s.overlapping q) (s'.overlapping q') :=
  (overlapping_alike (V := Unit) (map_pointwise_of_eq h) hq).bind fun _ _ h => h

theorem setOverlaps_alike {s s' : RangeSet K} (h : s.eq s' = true) {q q' : Range K}
    (hq : SameRange q q') : SameOutcome (· = ·) (s.overlaps q) (s'.overlaps q') := by
  unfold RangeSet.overlaps
  refine (setOverlapping_alike h hq).bind fun a b h => ?_
  exact (setOverNext_alike h).1.isSome

theorem setGaps_alike {s s' : RangeSet K} (h : s.eq s' = true) {q q' : Range K}
    (hq : SameRange q q') :
    SameOutcome (fun o o' => o.inner.SameIter o'.inner) (s.gaps q) (s'.gaps q') :=
  (gaps_alike (V := Unit) (map_pointwise_of_eq h) hq).bind fun _ _ h => h

theorem unionNext_alike {u u' : Union (Range K)} (h : Union.SameIter SameRange u u') :
    SameOpt SameRange u.next.1 u'.next.1 ∧ Union.SameIter SameRange u.next.2 u'.next.2 := by
  have := (Union.nextL_sim (K := K) (V := Unit) (S := SameRange) (merge := Range.mergeL)
    (clone := Cl.cloneRange) (fun _ _ _ _ h h' => kcmp_same h.1 h'.1)
    (fun _ _ _ _ h h' => Range.mergeL_sim h h') (fun _ _ h => Range.cloneRange_sim h) h).run
    lawful_identical 0
  rw [(C65_identical_operations (V := Unit) u ⟨[], []⟩ 0).1] at this
  exact this

theorem intersectionNext_alike {u u' : Intersection (Range K)}
    (h : Intersection.SameIter SameRange u u') :
    SameOpt SameRange u.next.1 u'.next.1 ∧ Intersection.SameIter SameRange u.next.2 u'.next.2 := by
  have := (Intersection.nextL_sim (K := K) (V := Unit) (S := SameRange)
    (intersect := Range.intersectL) (fun _ _ _ _ h h' => kcmp_same h.2 h'.2)
    (fun _ _ _ _ h h' => Range.intersectL_sim h h') h).run lawful_identical 0
  rw [(C65_identical_operations (V := Unit) ⟨[], []⟩ u 0).2] at this
  exact this

theorem set_pointwise_of_eq {s s' : RangeSet K} (h : s.eq s' = true) :
    Pointwise SameRange s.iter s'.iter := (C97_set_eq_iff _ _).1 h

theorem setPerform_alike {sets sets' : Nat → RangeSet K}
    (h : ∀ i, (sets i).eq (sets' i) = true) {c c' : SetCall K} (hc : AlikeSetCall c c') :
    AlikeSetAnswer SameRange (RangeSet.perform sets c).1 (RangeSet.perform sets' c').1 ∧
    ∀ i, ((RangeSet.perform sets c).2 i).eq ((RangeSet.perform sets' c').2 i) = true := by
  have st := fun i m m' => store_alike (P := fun x y : RangeSet K => x.eq y = true) h i
    (m := m) (m' := m')
  have rn := fun i x y => renew_alike (same := SameRange (K := K))
    (P := fun x y : RangeSet K => x.eq y = true) h i (x := x) (y := y)
  have ends := fun i => C97_ends (V := Unit) (h i)
  cases hc with
  | insert i hr => exact rn i _ _ (C97_set_update (h i) hr).1
  | remove i hr => exact rn i _ _ (C97_set_update (h i) hr).2
  | clear i => exact ⟨.done, st i _ _ rfl⟩
  | @extend i l l' hl =>
    obtain ⟨h1, h2⟩ := set_extend_equal (h i) hl
    refine ⟨?_, st i _ _ h1⟩
    simp only [RangeSet.perform, h2]
    cases ((sets' i).extend l').2
    · exact .panicked
    · exact .done
  | collect i hl => exact rn i _ _ (setFromIter_alike hl)
  | copy i j => exact ⟨.done, st i _ _ (h j)⟩
  | append i j =>
    obtain ⟨h1, h2⟩ := set_extend_equal (h i) (set_pointwise_of_eq (h j))
    refine ⟨?_, st i _ _ h1⟩
    simp only [RangeSet.perform, h2]
    cases ((sets' i).extend (sets' j).iter).2
    · exact .panicked
    · exact .done
  | or i j l => exact rn i _ _ (C97_set_operators (h j) (h l)).1
  | and i j l => exact rn i _ _ (C97_set_operators (h j) (h l)).2
  | contains i hk =>
    refine ⟨?_, h⟩
    simp only [RangeSet.perform, (C97_set_lookup (h i) hk).2]
    cases (sets' i).contains _
    · exact .panicked
    · exact .flag _
  | get i hk => exact ⟨.of (fun _ _ => .range) (C97_set_lookup (h i) hk).1, h⟩
  | len i =>
    refine ⟨?_, h⟩
    simp only [RangeSet.perform]
    rw [show (sets i).len = (sets' i).len from (ends i).1]
    exact .number _
  | isEmpty i =>
    refine ⟨?_, h⟩
    simp only [RangeSet.perform]
    rw [show (sets i).isEmpty = (sets' i).isEmpty from (ends i).2.1]
    exact .flag _
  | first i => exact ⟨.range ((ends i).2.2.1.map fun _ _ h => h.1), h⟩
  | last i => exact ⟨.range ((ends i).2.2.2.map fun _ _ h => h.1), h⟩
  | iter i cs =>
    exact ⟨.ranges (script_same (R := fun i i' : RangeSet.Iter K => AlikeIters i.inner i'.inner)
      (fun _ _ => setIterNext_alike) (fun _ _ => setIterNextBack_alike) cs
      (map_pointwise_of_eq (h i))), h⟩
  | overlapping i cs hq =>
    exact ⟨.of (fun _ _ ho => .ranges (script_same
      (R := fun o o' : RangeSet.Overlapping K => o.inner.SameIter o'.inner)
      (fun _ _ => setOverNext_alike) (fun _ _ => setOverNextBack_alike) cs ho))
      (setOverlapping_alike (h i) hq), h⟩
  | overlaps i hq => exact ⟨.of (fun _ _ e => e ▸ .flag _) (setOverlaps_alike (h i) hq), h⟩
  | gaps i n hq =>
    exact ⟨.of (fun _ _ hg => .ranges (calls_alike
      (R := fun o o' : RangeSet.Gaps K => o.inner.SameIter o'.inner)
      (fun _ _ h => gapsNext_alike h) n hg)) (setGaps_alike (h i) hq), h⟩
  | union i j n => exact ⟨.ranges (C97_set_operations (h i) (h j) n).1, h⟩
  | intersection i j n => exact ⟨.ranges (C97_set_operations (h i) (h j) n).2, h⟩
  | eq i j =>
    refine ⟨?_, h⟩
    simp only [RangeSet.perform]
    rw [show (sets i).eq (sets j) = (sets' i).eq (sets' j) from
      (C97_compare (V := Unit) (h i) (h j)).1]
    exact .flag _

/-- Kept iterators with two ends that compare equal. -/
def AlikeSetWalks : RangeSet.Walk K → RangeSet.Walk K → Prop
  | .iter i, .iter i' => AlikeIters i.inner i'.inner
  | .overlapping o, .overlapping o' => o.inner.SameIter o'.inner
  | _, _ => False

theorem setWalkNext_alike {w w' : RangeSet.Walk K} (h : AlikeSetWalks w w') :
    SameOpt SameRange w.next.1 w'.next.1 ∧ AlikeSetWalks w.next.2 w'.next.2 := by
  cases w <;> cases w' <;> first | exact absurd h id | skip
  · exact setIterNext_alike h
  · exact setOverNext_alike h

theorem setWalkNextBack_alike {w w' : RangeSet.Walk K} (h : AlikeSetWalks w w') :
    SameOpt SameRange w.nextBack.1 w'.nextBack.1 ∧ AlikeSetWalks w.nextBack.2 w'.nextBack.2 := by
  cases w <;> cases w' <;> first | exact absurd h id | skip
  · exact setIterNextBack_alike h
  · exact setOverNextBack_alike h

/-- Kept iterators with one end that compare equal. -/
def AlikeFlows : RangeSet.Flow K → RangeSet.Flow K → Prop
  | .gaps g, .gaps g' => g.inner.SameIter g'.inner
  | .union u, .union u' => Union.SameIter SameRange u u'
  | .intersection i, .intersection i' => Intersection.SameIter SameRange i i'
  | _, _ => False

theorem flowNext_alike {w w' : RangeSet.Flow K} (h : AlikeFlows w w') :
    SameOpt SameRange w.next.1 w'.next.1 ∧ AlikeFlows w.next.2 w'.next.2 := by
  cases w <;> cases w' <;> first | exact absurd h id | skip
  · exact gapsNext_alike h
  · exact unionNext_alike h
  · exact intersectionNext_alike h

/-- All a program holds: sets and iterators that compare equal. -/
structure AlikeSetDesks (d d' : RangeSet.Desk K) : Prop where
  sets : ∀ i, (d.sets i).eq (d'.sets i) = true
  walks : ∀ h, AlikeSetWalks (d.walks h) (d'.walks h)
  flows : ∀ h, AlikeFlows (d.flows h) (d'.flows h)

theorem setDeskPerform_alike {d d' : RangeSet.Desk K} (hd : AlikeSetDesks d d')
    {c c' : SetOpenCall K} (hc : AlikeSetOpenCall c c') :
    AlikeSetAnswer SameRange (d.perform c).1 (d'.perform c').1 ∧
      AlikeSetDesks (d.perform c).2 (d'.perform c').2 := by
  have walked : ∀ i, AlikeSetWalks (.iter (d.sets i).iterator) (.iter (d'.sets i).iterator) :=
    fun i => map_pointwise_of_eq (hd.sets i)
  have flowed : ∀ i j, Pointwise SameRange (d.sets i).iter (d'.sets i).iter ∧
      Pointwise SameRange (d.sets j).iter (d'.sets j).iter :=
    fun i j => ⟨set_pointwise_of_eq (hd.sets i), set_pointwise_of_eq (hd.sets j)⟩
  cases hc with
  | plain hc =>
    obtain ⟨h1, h2⟩ := setPerform_alike hd.sets hc
    exact ⟨h1, h2, hd.walks, hd.flows⟩
  | walk h i => exact ⟨.done, hd.sets, store_alike hd.walks h (walked i), hd.flows⟩
  | walkOver h i hq =>
    simp only [RangeSet.Desk.perform]
    rcases (setOverlapping_alike (hd.sets i) hq).cases with ⟨x, y, h1, h2, h3⟩ | ⟨p, h1, h2⟩
    · simp only [h1, h2]
      exact ⟨.done, hd.sets, store_alike hd.walks h (m := .overlapping x) (m' := .overlapping y) h3,
        hd.flows⟩
    · simp only [h1, h2]; exact ⟨.panicked, hd⟩
  | take h i =>
    exact ⟨.done, store_alike (P := fun x y : RangeSet K => x.eq y = true) hd.sets i rfl,
      store_alike hd.walks h (walked i), hd.flows⟩
  | next h =>
    obtain ⟨h1, h2⟩ := setWalkNext_alike (hd.walks h)
    exact ⟨.range h1, hd.sets, store_alike hd.walks h h2, hd.flows⟩
  | nextBack h =>
    obtain ⟨h1, h2⟩ := setWalkNextBack_alike (hd.walks h)
    exact ⟨.range h1, hd.sets, store_alike hd.walks h h2, hd.flows⟩
  | holes h i hq =>
    simp only [RangeSet.Desk.perform]
    rcases (setGaps_alike (hd.sets i) hq).cases with ⟨x, y, h1, h2, h3⟩ | ⟨p, h1, h2⟩
    · simp only [h1, h2]
      exact ⟨.done, hd.sets, hd.walks,
        store_alike hd.flows h (m := .gaps x) (m' := .gaps y) h3⟩
    · simp only [h1, h2]; exact ⟨.panicked, hd⟩
  | both h i j =>
    exact ⟨.done, hd.sets, hd.walks, store_alike hd.flows h
      (m := .union ((d.sets i).union (d.sets j))) (m' := .union ((d'.sets i).union (d'.sets j)))
      (flowed i j)⟩
  | common h i j =>
    exact ⟨.done, hd.sets, hd.walks, store_alike hd.flows h
      (m := .intersection ((d.sets i).intersection (d.sets j)))
      (m' := .intersection ((d'.sets i).intersection (d'.sets j))) (flowed i j)⟩
  | nextFlow h =>
    obtain ⟨h1, h2⟩ := flowNext_alike (hd.flows h)
    exact ⟨.range h1, hd.sets, hd.walks, store_alike hd.flows h h2⟩

/-- **C119** Two programs that go on alike after answers that are alike, on sets that are `==` and
iterators that compare equal, hear answers that compare equal. -/
theorem C119_set_programs {p p' : SetOpenProgram (Range K) K}
    (hp : AlikeSetPrograms SameRange p p') {d d' : RangeSet.Desk K} (hd : AlikeSetDesks d d')
    (n : Nat) :
    Pointwise (AlikeSetAnswer SameRange) (RangeSet.openDialogue p n [] d)
      (RangeSet.openDialogue p' n [] d') := by
  suffices H : ∀ (n : Nat) (as as' : List (SetAnswer (Range K))) (d d' : RangeSet.Desk K),
      Pointwise (AlikeSetAnswer SameRange) as as' → AlikeSetDesks d d' →
      Pointwise (AlikeSetAnswer SameRange) (RangeSet.openDialogue p n as d)
        (RangeSet.openDialogue p' n as' d') from H n [] [] d d' .nil hd
  intro n
  induction n with
  | zero => exact fun _ _ _ _ h _ => h
  | succ n ih =>
    intro as as' d d' ha hd
    have hc := hp as as' ha
    unfold RangeSet.openDialogue
    cases e : p as <;> cases e' : p' as' <;> rw [e, e'] at hc <;> first | exact absurd hc id | skip
    · exact ha
    · obtain ⟨h1, h2⟩ := setDeskPerform_alike hd hc
      exact ih _ _ _ _ (.cons h1 ha) h2

theorem equalSetDesks {sets sets' : Nat → RangeSet K}
    (h : ∀ i, (sets i).eq (sets' i) = true) : AlikeSetDesks { sets := sets } { sets := sets' } where
  sets := h
  walks _ := Pointwise.nil
  flows _ := ⟨.nil, .nil⟩

/-- **C119** So on sets that are `==` a program that looks at keys with their own comparisons only
hears equal answers, however the sets came about. -/
theorem C119_equal_sets {p p' : SetOpenProgram (Range K) K} (hp : AlikeSetPrograms SameRange p p')
    {sets sets' : Nat → RangeSet K} (h : ∀ i, (sets i).eq (sets' i) = true) (n : Nat) :
    Pointwise (AlikeSetAnswer SameRange) (RangeSet.openDialogue p n [] { sets := sets })
      (RangeSet.openDialogue p' n [] { sets := sets' }) :=
  C119_set_programs hp (equalSetDesks h) n

end

/-! ### Examples -/

/-- Asks for the first range, takes it out of set 1, puts it into set 2, and looks at the union of
these two. -/
def backIn {K : Type} : SetOpenProgram (Range K) K
  | [] => some (.plain (.first 0))
  | [a] => match a with
    | .range (some r) => some (.plain (.remove 1 r))
    | _ => none
  | [_, a] => match a with
    | .range (some r) => some (.plain (.insert 2 r))
    | _ => none
  | [_, _, _] => some (.both 0 1 2)
  | [_, _, _, _] => some (.nextFlow 0)
  | [_, _, _, _, _] => some (.nextFlow 0)
  | _ :: _ :: _ :: _ :: _ :: _ :: _ => none

theorem backIn_alike {K : Type} [LE K] [LT K] [DecidableLE K] [DecidableLT K] :
    AlikeSetPrograms SameRange (backIn : SetOpenProgram (Range K) K) backIn := by
  intro as as' ha
  cases ha with
  | nil => exact .plain (.first 0)
  | cons h1 ha => cases ha with
    | nil => cases h1 with
      | @range e e' h =>
        cases e <;> cases e' <;> first | exact absurd h id | skip
        · exact trivial
        · exact .plain (.remove 1 h)
      | _ => exact trivial
    | cons h2 ha => cases ha with
      | nil => cases h2 with
        | @range e e' h =>
          cases e <;> cases e' <;> first | exact absurd h id | skip
          · exact trivial
          · exact .plain (.insert 2 h)
        | _ => exact trivial
      | cons h3 ha => cases ha with
        | nil => exact .both 0 1 2
        | cons h4 ha => cases ha with
          | nil => exact .nextFlow 0
          | cons h5 ha => cases ha with
            | nil => exact .nextFlow 0
            | cons => exact trivial

-- equal sets with other tags: six answers, which are not the same but alike
example : RangeSet.openDialogue backIn 9 [] { sets := fun _ => twins }
      ≠ RangeSet.openDialogue backIn 9 [] { sets := fun _ => twins' } ∧
    (RangeSet.openDialogue backIn 9 [] { sets := fun _ => twins }).length = 6 := by
  decide +kernel
example := C119_set_programs (p := backIn) (p' := backIn) backIn_alike
    (d := { sets := fun _ => twins }) (d' := { sets := fun _ => twins' })
    (equalSetDesks fun _ => twins_eq) 9
example := C119_equal_sets (p := backIn) (p' := backIn) backIn_alike
    (sets := fun _ => twins) (sets' := fun _ => twins') (fun _ => twins_eq) 9

end Verif.Props

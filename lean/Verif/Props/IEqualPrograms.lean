import Verif.Props.EqualPrograms
import Verif.Props.ICongruence
import Verif.Proof.IWeak

/-!
# Equal containers in programs: C119 for inclusive ranges
-/
set_option linter.unusedSectionVars false

namespace Verif.Props.Inclusive
open Spec Cl

section
variable {K : Type} [LE K] [LT K] [DecidableLE K] [DecidableLT K]
  [Std.IsLinearPreorder K] [Std.LawfulOrderLT K] {V : Type} [BEq V] {S : StepFns K}

/-- Maps whose entries no comparison tells apart. -/
def AlikeMaps (m m' : RangeInclusiveMap K V) : Prop :=
  Pointwise (SameEntry SameIRange) m.iter m'.iter

theorem insert_alike (hS : StepsRespect S) {m m' : RangeInclusiveMap K V} (h : AlikeMaps m m')
    {r r' : RangeInclusive K}
    (hr : SameIRange r r') {v v' : V} (hv : Same v v') :
    SameOutcome AlikeMaps (m.insert S r v) (m'.insert S r' v') := by
  have := C65_insert hS h hr hv lawful_identical 0
  rwa [run_identical, RangeInclusiveMap.insertL_eval] at this

theorem remove_alike (hS : StepsRespect S) {m m' : RangeInclusiveMap K V} (h : AlikeMaps m m')
    {r r' : RangeInclusive K}
    (hr : SameIRange r r') : SameOutcome AlikeMaps (m.remove S r) (m'.remove S r') := by
  have := C65_remove hS h hr lawful_identical 0
  rwa [run_identical, RangeInclusiveMap.removeL_eval] at this

theorem extend_alike (hS : StepsRespect S) {m m' : RangeInclusiveMap K V} (h : AlikeMaps m m')
    {l l' : List (RangeInclusive K × V)}
    (hl : Pointwise (SameEntry SameIRange) l l') :
    AlikeMaps (m.extend S l).1 (m'.extend S l').1 ∧ (m.extend S l).2 = (m'.extend S l').2 := by
  induction hl generalizing m m' with
  | nil => exact ⟨h, by trivial⟩
  | @cons a b s t hab _ ih =>
    unfold RangeInclusiveMap.extend
    rcases (insert_alike hS h hab.1 hab.2).cases with ⟨x, y, h1, h2, h3⟩ | ⟨p, h1, h2⟩
    · simp only [h1, h2]; exact ih h3
    · simp only [h1, h2]; exact ⟨h, by trivial⟩

theorem fromIter_alike (hS : StepsRespect S) {l l' : List (RangeInclusive K × V)}
    (hl : Pointwise (SameEntry SameIRange) l l') :
    SameOutcome AlikeMaps (RangeInclusiveMap.fromIter S l) (RangeInclusiveMap.fromIter S l') := by
  have := extend_alike hS (m := (RangeInclusiveMap.new : RangeInclusiveMap K V))
      (m' := RangeInclusiveMap.new) .nil hl
  unfold RangeInclusiveMap.fromIter
  revert this
  rcases RangeInclusiveMap.extend S RangeInclusiveMap.new l with ⟨x, a⟩
  rcases RangeInclusiveMap.extend S RangeInclusiveMap.new l' with ⟨y, b⟩
  rintro ⟨h1, h2⟩
  subst h2
  cases a
  · exact rfl
  · exact h1

theorem getKeyValue_alike {m m' : RangeInclusiveMap K V} (h : AlikeMaps m m') {k k' : K}
    (hk : keq k k' = true) :
    SameOutcome (SameOpt (SameEntry SameIRange)) (m.getKeyValue k) (m'.getKeyValue k') := by
  have := C65_get h hk lawful_identical 0
  rwa [run_identical, RangeInclusiveMap.getKeyValueL_eval] at this

theorem get_alike {m m' : RangeInclusiveMap K V} (h : AlikeMaps m m') {k k' : K}
    (hk : keq k k' = true) : SameOutcome (SameOpt Same) (m.get k) (m'.get k') :=
  (getKeyValue_alike h hk).bind fun _ _ h => h.map fun _ _ h => h.2

theorem containsKey_alike {m m' : RangeInclusiveMap K V} (h : AlikeMaps m m') {k k' : K}
    (hk : keq k k' = true) : SameOutcome (· = ·) (m.containsKey k) (m'.containsKey k') :=
  (get_alike h hk).bind fun _ _ h => h.isSome

theorem overlapping_alike {m m' : RangeInclusiveMap K V} (h : AlikeMaps m m')
    {q q' : RangeInclusive K}
    (hq : SameIRange q q') :
    SameOutcome RangeInclusiveMap.Overlapping.SameIter (m.overlapping q) (m'.overlapping q') := by
  have := (RangeInclusiveMap.overlappingL_sim h hq).run lawful_identical 0
  rwa [run_identical, RangeInclusiveMap.overlappingL_eval] at this

theorem overlaps_alike {m m' : RangeInclusiveMap K V} (h : AlikeMaps m m') {q q' : RangeInclusive K}
    (hq : SameIRange q q') : SameOutcome (· = ·) (m.overlaps q) (m'.overlaps q') := by
  unfold RangeInclusiveMap.overlaps
  refine (overlapping_alike h hq).bind fun a b h => ?_
  exact (RangeInclusiveMap.Overlapping.next_same h).1.isSome

theorem gaps_alike {m m' : RangeInclusiveMap K V} (h : AlikeMaps m m') {q q' : RangeInclusive K}
    (hq : SameIRange q q') :
    SameOutcome RangeInclusiveMap.Gaps.SameIter (m.gaps q) (m'.gaps q') := by
  have := (RangeInclusiveMap.gapsL_sim h hq).run lawful_identical 0
  rwa [run_identical, RangeInclusiveMap.gapsL_eval] at this

theorem gapsNext_alike (hS : StepsRespect S) {g g' : RangeInclusiveMap.Gaps K V}
    (h : g.SameIter g') (hg : g'.Guard) :
    SameOutcome (fun x y => SameOpt SameIRange x.1 y.1 ∧ x.2.SameIter y.2) (g.next S)
      (g'.next S) := by
  have := (RangeInclusiveMap.Gaps.nextL_sim hS h hg).run lawful_identical 0
  rw [run_identical, RangeInclusiveMap.Gaps.nextL_eval] at this
  exact this

theorem gapsCalls_alike (hS : StepsRespect S) (n : Nat) {g g' : RangeInclusiveMap.Gaps K V}
    (h : g.SameIter g') (hg : g'.Guard) :
    SameOutcome (Pointwise (SameOpt SameIRange)) (callsE (RangeInclusiveMap.Gaps.next S) n g)
      (callsE (RangeInclusiveMap.Gaps.next S) n g') := by
  have := (RangeInclusiveMap.Gaps.callsL_sim hS n h hg).run lawful_identical 0
  rwa [run_identical, callsL_evalE RangeInclusiveMap.Gaps.nextL_eval] at this

theorem gapsNext_guard (S : StepFns K) {g g' : RangeInclusiveMap.Gaps K V}
    {r : Option (RangeInclusive K)} (hg : g.Guard) (h : g.next S = .ok (r, g')) : g'.Guard :=
  (RangeInclusiveMap.Gaps.next_rename (f := id) (g := id) (S := S) (S' := S)
      (fun _ _ => .rfl) ⟨fun a _ _ => by cases h : S.addOne a <;> simp [h, Except.map],
        fun a _ _ => by cases h : S.subOne a <;> simp [h, Except.map]⟩ g hg).2 _ _ h

theorem eq_alike {m m' x x' : RangeInclusiveMap K V} (h : AlikeMaps m m') (hx : AlikeMaps x x') :
    m.eq x = m'.eq x' := by
  unfold AlikeMaps at h hx
  unfold RangeInclusiveMap.eq
  generalize m.iter = a at h ⊢
  generalize m'.iter = a' at h ⊢
  generalize x.iter = b at hx ⊢
  generalize x'.iter = b' at hx ⊢
  induction h generalizing b b' with
  | nil => cases hx <;> rfl
  | cons h1 _ ih => cases hx with
    | nil => rfl
    | cons h2 h3 =>
      simp only [iterEq, ih _ _ h3, RangeInclusiveMap.entryEq, keq.eq h1.1.1 h2.1.1,
        keq.eq h1.1.2.1 h2.1.2.1,
        h1.1.2.2, h2.1.2.2, Same.beq h1.2 h2.2]

/-- Iterators over entries that no comparison tells apart. -/
def AlikeIters (i i' : RangeInclusiveMap.Iter K V) : Prop :=
  Pointwise (SameEntry SameIRange) i.inner i'.inner

theorem iterNext_alike {i i' : RangeInclusiveMap.Iter K V} (h : AlikeIters i i') :
    SameOpt (SameEntry SameIRange) i.next.1 i'.next.1 ∧ AlikeIters i.next.2 i'.next.2 := by
  obtain ⟨l⟩ := i
  obtain ⟨l'⟩ := i'
  cases h with
  | nil => exact ⟨trivial, .nil⟩
  | cons h1 h2 => exact ⟨h1, h2⟩

theorem iterNextBack_alike {i i' : RangeInclusiveMap.Iter K V} (h : AlikeIters i i') :
    SameOpt (SameEntry SameIRange) i.nextBack.1 i'.nextBack.1 ∧
      AlikeIters i.nextBack.2 i'.nextBack.2 :=
  ⟨Pointwise.getLast? h, Pointwise.dropLast h⟩

theorem store_alike {M : Type} {P : M → M → Prop} {f f' : Nat → M} (h : ∀ i, P (f i) (f' i))
    (i : Nat) {m m' : M} (hm : P m m') (j : Nat) : P (store f i m j) (store f' i m' j) := by
  unfold store
  split
  · exact hm
  · exact h j

theorem closed_alike {r r' : Range K} (h : SameRange r r') : SameIRange r.closed r'.closed :=
  ⟨h.1, h.2, rfl⟩

theorem items_alike {l l' : List (Range K × V)} (h : Pointwise (SameEntry SameRange) l l') :
    Pointwise (SameEntry SameIRange) (l.map fun e => (e.1.closed, e.2))
      (l'.map fun e => (e.1.closed, e.2)) := by
  induction h with
  | nil => exact .nil
  | cons h _ ih => exact .cons ⟨closed_alike h.1, h.2⟩ ih

theorem perform_alike (hL : LawfulSteps S) {maps maps' : Nat → RangeInclusiveMap K V}
    (h : ∀ i, AlikeMaps (maps i) (maps' i))
    (hm : ∀ i, RangeInclusiveMap.ReachableAny S (maps' i))
    {c c' : Call K V} (hc : AlikeCall c c') :
    AlikeAnswer SameIRange (RangeInclusiveMap.perform S maps c).1
      (RangeInclusiveMap.perform S maps' c').1 ∧
    ∀ i, AlikeMaps ((RangeInclusiveMap.perform S maps c).2 i)
      ((RangeInclusiveMap.perform S maps' c').2 i) := by
  have hS := hL.respect
  cases hc with
  | insert i hr hv =>
    simp only [RangeInclusiveMap.perform]
    rcases (insert_alike hS (h i) (closed_alike hr) hv).cases with ⟨x, y, h1, h2, h3⟩ | ⟨p, h1, h2⟩
    · simp only [h1, h2]; exact ⟨.done, store_alike h i h3⟩
    · simp only [h1, h2]; exact ⟨.panicked, h⟩
  | remove i hr =>
    simp only [RangeInclusiveMap.perform]
    rcases (remove_alike hS (h i) (closed_alike hr)).cases with ⟨x, y, h1, h2, h3⟩ | ⟨p, h1, h2⟩
    · simp only [h1, h2]; exact ⟨.done, store_alike h i h3⟩
    · simp only [h1, h2]; exact ⟨.panicked, h⟩
  | clear i => exact ⟨.done, store_alike h i .nil⟩
  | @extend i l l' hl =>
    obtain ⟨h1, h2⟩ := extend_alike hS (h i) (items_alike hl)
    refine ⟨?_, store_alike h i h1⟩
    simp only [RangeInclusiveMap.perform, h2]
    cases ((maps' i).extend S (l'.map fun e => (e.1.closed, e.2))).2
    · exact .panicked
    · exact .done
  | collect i hl =>
    simp only [RangeInclusiveMap.perform]
    rcases (fromIter_alike hS (items_alike hl)).cases with ⟨x, y, h1, h2, h3⟩ | ⟨p, h1, h2⟩
    · simp only [h1, h2]; exact ⟨.done, store_alike h i h3⟩
    · simp only [h1, h2]; exact ⟨.panicked, h⟩
  | copy i j => exact ⟨.done, store_alike h i (h j)⟩
  | append i j =>
    obtain ⟨h1, h2⟩ := extend_alike hS (h i) (h j)
    refine ⟨?_, store_alike h i h1⟩
    simp only [RangeInclusiveMap.perform, h2]
    cases ((maps' i).extend S (maps' j).iter).2
    · exact .panicked
    · exact .done
  | get i hk => exact ⟨.of (fun _ _ => .value) (get_alike (h i) hk), h⟩
  | getKeyValue i hk => exact ⟨.of (fun _ _ => .entry) (getKeyValue_alike (h i) hk), h⟩
  | containsKey i hk =>
    exact ⟨.of (fun _ _ e => e ▸ .flag _) (containsKey_alike (h i) hk), h⟩
  | len i =>
    refine ⟨?_, h⟩
    simp only [RangeInclusiveMap.perform]
    rw [show (maps i).len = (maps' i).len from (h i).length]
    exact .number _
  | isEmpty i =>
    refine ⟨?_, h⟩
    simp only [RangeInclusiveMap.perform]
    rw [show (maps i).isEmpty = (maps' i).isEmpty from by
      have h := h i
      show (maps i).iter.isEmpty = (maps' i).iter.isEmpty
      unfold AlikeMaps at h
      generalize (maps i).iter = a at h
      generalize (maps' i).iter = a' at h
      cases h <;> rfl]
    exact .flag _
  | first i => exact ⟨.entry (h i).head?, h⟩
  | last i => exact ⟨.entry (h i).getLast?, h⟩
  | iter i cs =>
    exact ⟨.entries (script_same (R := AlikeIters) (fun _ _ => iterNext_alike)
      (fun _ _ => iterNextBack_alike) cs (h i)), h⟩
  | overlapping i cs hq =>
    exact ⟨.of (fun _ _ ho => .entries
      (script_same (fun _ _ => RangeInclusiveMap.Overlapping.next_same)
      (fun _ _ => RangeInclusiveMap.Overlapping.nextBack_same) cs ho))
        (overlapping_alike (h i) (closed_alike hq)), h⟩
  | overlaps i hq => exact
    ⟨.of (fun _ _ e => e ▸ .flag _) (overlaps_alike (h i) (closed_alike hq)), h⟩
  | @gaps i q q' n hq =>
    refine ⟨.of (fun _ _ h => .ranges h) ?_, h⟩
    rcases (gaps_alike (h i) (closed_alike hq)).cases with ⟨x, y, h1, h2, h3⟩ | ⟨p, h1, h2⟩
    · rw [h1, h2]
      exact gapsCalls_alike hS n h3
        (RangeInclusiveMap.gaps_guard (RangeInclusiveMap.Weak.reachableAny_sep hL (hm i)) h2)
    · rw [h1, h2]; exact rfl
  | eq i j =>
    refine ⟨?_, h⟩
    simp only [RangeInclusiveMap.perform, eq_alike (h i) (h j)]
    exact .flag _

theorem perform_reachable {maps : Nat → RangeInclusiveMap K V}
    (hm : ∀ i, RangeInclusiveMap.ReachableAny S (maps i)) (c : Call K V) (i : Nat) :
    RangeInclusiveMap.ReachableAny S ((RangeInclusiveMap.perform S maps c).2 i) := by
  have st : ∀ i m, RangeInclusiveMap.ReachableAny S m →
      ∀ j, RangeInclusiveMap.ReachableAny S (store maps i m j) := by
    intro i m h j
    unfold store
    split
    · exact h
    · exact hm j
  cases c with
  | insert j r v =>
    have h := (hm j).apply (.insert r.closed v)
    simp only [RangeInclusiveMap.apply] at h
    simp only [RangeInclusiveMap.perform]
    cases e : (maps j).insert S r.closed v with
    | ok m => rw [e] at h; exact st j m h i
    | error p => exact hm i
  | remove j r =>
    have h := (hm j).apply (.remove r.closed)
    simp only [RangeInclusiveMap.apply] at h
    simp only [RangeInclusiveMap.perform]
    cases e : (maps j).remove S r.closed with
    | ok m => rw [e] at h; exact st j m h i
    | error p => exact hm i
  | clear j => exact st j _ ((hm j).apply .clear) i
  | extend j l => exact st j _ ((hm j).apply (.extend _)) i
  | collect j l =>
    have h : RangeInclusiveMap.ReachableAny S
        ((RangeInclusiveMap.new : RangeInclusiveMap K V).apply S
          (.extend (l.map fun e => (e.1.closed, e.2)))).1 :=
      RangeInclusiveMap.ReachableAny.apply ⟨[], rfl⟩ _
    simp only [RangeInclusiveMap.apply] at h
    simp only [RangeInclusiveMap.perform, RangeInclusiveMap.fromIter]
    generalize RangeInclusiveMap.extend S RangeInclusiveMap.new
      (List.map (fun e : Range K × V => (e.1.closed, e.2)) l) = E at h ⊢
    obtain ⟨m, x⟩ := E
    cases x with
    | ok => exact st j m h i
    | error p => exact hm i
  | copy j k => exact st j _ (hm k) i
  | append j k => exact st j _ ((hm j).apply (.extend _)) i
  | _ => exact hm i

/-- Kept iterators that no comparison tells apart. -/
def AlikeWalks : RangeInclusiveMap.Walk K V → RangeInclusiveMap.Walk K V → Prop
  | .iter i, .iter i' => AlikeIters i i'
  | .overlapping o, .overlapping o' => o.SameIter o'
  | _, _ => False

theorem walkNext_alike {w w' : RangeInclusiveMap.Walk K V} (h : AlikeWalks w w') :
    SameOpt (SameEntry SameIRange) w.next.1 w'.next.1 ∧ AlikeWalks w.next.2 w'.next.2 := by
  cases w <;> cases w' <;> first | exact absurd h id | skip
  · exact iterNext_alike h
  · exact RangeInclusiveMap.Overlapping.next_same h

theorem walkNextBack_alike {w w' : RangeInclusiveMap.Walk K V} (h : AlikeWalks w w') :
    SameOpt (SameEntry SameIRange) w.nextBack.1 w'.nextBack.1 ∧
      AlikeWalks w.nextBack.2 w'.nextBack.2 := by
  cases w <;> cases w' <;> first | exact absurd h id | skip
  · exact iterNextBack_alike h
  · exact RangeInclusiveMap.Overlapping.nextBack_same h

/-- All a program holds: maps and iterators that no comparison tells apart. -/
structure AlikeDesks (d d' : RangeInclusiveMap.Desk K V) : Prop where
  maps : ∀ i, AlikeMaps (d.maps i) (d'.maps i)
  walks : ∀ h, AlikeWalks (d.walks h) (d'.walks h)
  holes : ∀ h, SameOpt RangeInclusiveMap.Gaps.SameIter (d.holes h) (d'.holes h)

/-- The maps of a program come from calls, and the kept `gaps` from such maps. -/
structure Lived (S : StepFns K) (d : RangeInclusiveMap.Desk K V) : Prop where
  maps : ∀ i, RangeInclusiveMap.ReachableAny S (d.maps i)
  holes : ∀ h o, d.holes h = some o → o.Guard

theorem deskPerform_lived (hL : LawfulSteps S) {d : RangeInclusiveMap.Desk K V} (hd : Lived S d)
    (c : OpenCall K V) : Lived S (d.perform S c).2 := by
  have holed : ∀ h s, s.Guard → ∀ k o, store d.holes h (some s) k = some o → o.Guard := by
    intro h s hs k o ho
    unfold store at ho
    split at ho
    · exact Option.some.inj ho ▸ hs
    · exact hd.holes k o ho
  cases c with
  | plain c => exact ⟨perform_reachable hd.maps c, hd.holes⟩
  | walkOver h i q =>
    simp only [RangeInclusiveMap.Desk.perform]
    cases (d.maps i).overlapping q.closed with
    | ok o => exact ⟨hd.maps, hd.holes⟩
    | error p => exact hd
  | take h i => exact ⟨perform_reachable hd.maps (.clear i), hd.holes⟩
  | holes h i q =>
    simp only [RangeInclusiveMap.Desk.perform]
    cases e : (d.maps i).gaps q.closed with
    | ok o =>
      exact ⟨hd.maps, holed h o (RangeInclusiveMap.gaps_guard
        (RangeInclusiveMap.Weak.reachableAny_sep hL (hd.maps i)) e)⟩
    | error p => exact hd
  | nextHole h =>
    simp only [RangeInclusiveMap.Desk.perform]
    cases e : d.holes h with
    | none => exact hd
    | some o =>
      simp only
      cases e' : o.next S with
      | ok x => exact ⟨hd.maps, holed h x.2 (gapsNext_guard S (hd.holes h o e) e')⟩
      | error p => exact hd
  | _ => exact ⟨hd.maps, hd.holes⟩

theorem deskPerform_alike (hL : LawfulSteps S) {d d' : RangeInclusiveMap.Desk K V}
    (hd : AlikeDesks d d')
    (hl : Lived S d') {c c' : OpenCall K V}
    (hc : AlikeOpenCall c c') :
    AlikeAnswer SameIRange (d.perform S c).1 (d'.perform S c').1 ∧
      AlikeDesks (d.perform S c).2 (d'.perform S c').2 := by
  cases hc with
  | plain hc =>
    obtain ⟨h1, h2⟩ := perform_alike hL hd.maps hl.maps hc
    exact ⟨h1, h2, hd.walks, hd.holes⟩
  | walk h i => exact ⟨.done, hd.maps, store_alike hd.walks h (hd.maps i), hd.holes⟩
  | walkOver h i hq =>
    simp only [RangeInclusiveMap.Desk.perform]
    rcases (overlapping_alike (hd.maps i) (closed_alike hq)).cases with ⟨x, y, h1, h2, h3⟩ |
      ⟨p, h1, h2⟩
    · simp only [h1, h2]
      exact ⟨.done, hd.maps, store_alike hd.walks h (m := .overlapping x) (m' := .overlapping y) h3,
        hd.holes⟩
    · simp only [h1, h2]; exact ⟨.panicked, hd⟩
  | take h i =>
    exact ⟨.done, store_alike hd.maps i .nil, store_alike hd.walks h (hd.maps i), hd.holes⟩
  | next h =>
    obtain ⟨h1, h2⟩ := walkNext_alike (hd.walks h)
    exact ⟨.entry h1, hd.maps, store_alike hd.walks h h2, hd.holes⟩
  | nextBack h =>
    obtain ⟨h1, h2⟩ := walkNextBack_alike (hd.walks h)
    exact ⟨.entry h1, hd.maps, store_alike hd.walks h h2, hd.holes⟩
  | holes h i hq =>
    simp only [RangeInclusiveMap.Desk.perform]
    rcases (gaps_alike (hd.maps i) (closed_alike hq)).cases with ⟨x, y, h1, h2, h3⟩ | ⟨p, h1, h2⟩
    · simp only [h1, h2]
      exact ⟨.done, hd.maps, hd.walks, store_alike hd.holes h (m := some x) (m' := some y) h3⟩
    · simp only [h1, h2]; exact ⟨.panicked, hd⟩
  | nextHole h =>
    have hh := hd.holes h
    cases e : d.holes h <;> cases e' : d'.holes h <;> rw [e, e'] at hh <;>
      first | exact absurd hh id | simp only [RangeInclusiveMap.Desk.perform, e, e']
    · exact ⟨.ranges (.cons trivial .nil), hd⟩
    · rename_i s s'
      rcases (gapsNext_alike hL.respect hh (hl.holes h s' e')).cases with
        ⟨x, y, h1, h2, h3⟩ | ⟨p, h1, h2⟩
      · simp only [h1, h2]
        exact ⟨.ranges (.cons h3.1 .nil), hd.maps, hd.walks,
          store_alike hd.holes h (m := some x.2) (m' := some y.2) h3.2⟩
      · simp only [h1, h2]
        exact ⟨.panicked, hd⟩

/-- **C119** Two programs that go on alike after answers that are alike, on maps and kept iterators
that no comparison of keys or values tells apart, hear answers that none tells apart.  `==` of the
values need not be reflexive, symmetric or transitive. -/
theorem C119_programs (hL : LawfulSteps S) {p p' : OpenProgram (RangeInclusive K) K V}
    (hp : AlikePrograms SameIRange p p')
    {d d' : RangeInclusiveMap.Desk K V} (hd : AlikeDesks d d') (hl : Lived S d') (n : Nat) :
    Pointwise (AlikeAnswer SameIRange) (RangeInclusiveMap.openDialogue S p n [] d)
      (RangeInclusiveMap.openDialogue S p' n [] d') := by
  suffices H : ∀ (n : Nat) (as as' : List (Answer (RangeInclusive K) V))
    (d d' : RangeInclusiveMap.Desk K V),
      Pointwise (AlikeAnswer SameIRange) as as' → AlikeDesks d d' → Lived S d' →
      Pointwise (AlikeAnswer SameIRange) (RangeInclusiveMap.openDialogue S p n as d)
        (RangeInclusiveMap.openDialogue S p' n as' d') from H n [] [] d d' .nil hd hl
  intro n
  induction n with
  | zero => exact fun _ _ _ _ h _ _ => h
  | succ n ih =>
    intro as as' d d' ha hd hl
    have hc := hp as as' ha
    unfold RangeInclusiveMap.openDialogue
    cases e : p as <;> cases e' : p' as' <;> rw [e, e'] at hc <;> first | exact absurd hc id | skip
    · exact ha
    · obtain ⟨h1, h2⟩ := deskPerform_alike hL hd hl hc
      exact ih _ _ _ _ (.cons h1 ha) h2 (deskPerform_lived hL hl _)

theorem equalDesks [EquivBEq V] {maps maps' : Nat → RangeInclusiveMap K V}
    (h : ∀ i, (maps i).eq (maps' i) = true) : AlikeDesks { maps := maps } { maps := maps' } where
  maps i := map_pointwise_of_eq (h i)
  walks _ := Pointwise.nil
  holes _ := trivial

/-- **C119** If `==` of the values is an equivalence: on maps that are `==` a program that looks at
keys and values with their own comparisons only hears equal answers, however the maps came about. -/
theorem C119_equal_maps [EquivBEq V] (hL : LawfulSteps S)
    {p p' : OpenProgram (RangeInclusive K) K V} (hp : AlikePrograms SameIRange p p')
    {maps maps' : Nat → RangeInclusiveMap K V}
    (hm : ∀ i, RangeInclusiveMap.ReachableAny S (maps' i))
    (h : ∀ i, (maps i).eq (maps' i) = true) (n : Nat) :
    Pointwise (AlikeAnswer SameIRange) (RangeInclusiveMap.openDialogue S p n [] { maps := maps })
      (RangeInclusiveMap.openDialogue S p' n [] { maps := maps' }) :=
  C119_programs hL hp (equalDesks h) ⟨hm, fun _ _ e => nomatch e⟩ n

/-- **C119** So a map may at any time be replaced by one that is `==` to it. -/
theorem C119_replace [EquivBEq V] (hL : LawfulSteps S) {p : OpenProgram (RangeInclusive K) K V}
    (hp : AlikePrograms SameIRange p p) {maps : Nat → RangeInclusiveMap K V}
    (hm : ∀ i, RangeInclusiveMap.ReachableAny S (maps i)) (i : Nat) {m : RangeInclusiveMap K V}
    (hm' : RangeInclusiveMap.ReachableAny S m) (h : (maps i).eq m = true) (n : Nat) :
    Pointwise (AlikeAnswer SameIRange) (RangeInclusiveMap.openDialogue S p n [] { maps := maps })
      (RangeInclusiveMap.openDialogue S p n [] { maps := store maps i m }) := by
  refine C119_equal_maps hL hp (fun j => ?_) (fun j => ?_) n
  · unfold store
    split
    · exact hm'
    · exact hm j
  · unfold store
    split
    · rename_i e; exact e ▸ h
    · exact (C97_eq_iff _ _).2 (.refl (fun _ => ⟨⟨keq_self _, keq_self _, rfl⟩, BEq.rfl⟩) _)

end

/-! ### Examples -/

/-- Asks for the first entry, removes its range, asks for the gaps where it was. -/
def firstOut {K V : Type} : OpenProgram (RangeInclusive K) K V
  | [] => some (.plain (.first 0))
  | [a] => match a with
    | .entry (some e) => some (.plain (.remove 0 ⟨e.1.start, e.1.stop⟩))
    | _ => none
  | [_, a] => match a with
    | .entry (some e) => some (.holes 0 0 ⟨e.1.start, e.1.stop⟩)
    | _ => none
  | [_, _, _] => some (.nextHole 0)
  | _ :: _ :: _ :: _ :: _ => none

theorem firstOut_alike {K V : Type} [LE K] [LT K] [DecidableLE K] [DecidableLT K] [BEq V] :
    AlikePrograms SameIRange (firstOut : OpenProgram (RangeInclusive K) K V) firstOut := by
  intro as as' ha
  cases ha with
  | nil => exact .plain (.first 0)
  | cons h1 ha => cases ha with
    | nil => cases h1 with
      | @entry e e' h =>
        cases e <;> cases e' <;> first | exact absurd h id | skip
        · exact trivial
        · exact .plain (.remove 0 ⟨h.1.1, h.1.2.1⟩)
      | _ => exact trivial
    | cons h2 ha => cases ha with
      | nil => cases h2 with
        | @entry e e' h =>
          cases e <;> cases e' <;> first | exact absurd h id | skip
          · exact trivial
          · exact .holes 0 0 ⟨h.1.1, h.1.2.1⟩
        | _ => exact trivial
      | cons h3 ha => cases ha with
        | nil => exact .nextHole 0
        | cons => exact trivial

-- equal maps with other tags and counts: four answers, which are not the same but alike
example : RangeInclusiveMap.openDialogue Demo.tagSteps firstOut 9 [] { maps := fun _ => twin }
      ≠ RangeInclusiveMap.openDialogue Demo.tagSteps firstOut 9 [] { maps := fun _ => twin' } ∧
    (RangeInclusiveMap.openDialogue Demo.tagSteps firstOut 9 []
      { maps := fun _ => twin }).length = 4 := by
  decide +kernel
example := C119_programs Demo.tagSteps_lawful (p := firstOut) (p' := firstOut) firstOut_alike
    (d := { maps := fun _ => twin }) (d' := { maps := fun _ => twin' })
    (equalDesks fun _ => twin_eq) ⟨fun _ => ⟨_, rfl⟩, fun _ _ e => nomatch e⟩ 9
example := C119_equal_maps Demo.tagSteps_lawful (p := firstOut) (p' := firstOut) firstOut_alike
    (maps := fun _ => twin) (maps' := fun _ => twin') (fun _ => ⟨_, rfl⟩) (fun _ => twin_eq) 9
example := C119_replace Demo.tagSteps_lawful (p := firstOut) firstOut_alike
    (maps := fun _ => twin) (fun _ => ⟨_, rfl⟩) 0 (m := twin') ⟨_, rfl⟩ twin_eq 9

end Verif.Props.Inclusive

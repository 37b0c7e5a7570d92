import Verif.Props.Congruence
import Verif.Model.OpenIters

/-!
# Equal containers in programs: C119

C97 says that single calls cannot tell containers apart that are `==`.  Here whole programs: two
runs of a program on containers that are `==` stay alike, answer by answer, whatever the calls and
whatever the program makes of the answers, as long as it looks at keys and values with their own
comparisons only.  `==` of the values need obey no law in the general statement; values are then
alike if `==` never tells them apart.
-/
set_option linter.unusedSectionVars false

namespace Verif.Spec
variable {K R V : Type} [LE K] [LT K] [DecidableLE K] [DecidableLT K] [BEq V]

/-- Answers that no comparison of keys or values tells apart. -/
inductive AlikeAnswer (same : R → R → Prop) : Answer R V → Answer R V → Prop
  | done : AlikeAnswer same .done .done
  | panicked : AlikeAnswer same .panicked .panicked
  | value {v v'} : SameOpt Same v v' → AlikeAnswer same (.value v) (.value v')
  | entry {e e'} : SameOpt (SameEntry same) e e' → AlikeAnswer same (.entry e) (.entry e')
  | flag (b) : AlikeAnswer same (.flag b) (.flag b)
  | number (n) : AlikeAnswer same (.number n) (.number n)
  | entries {l l'} : Pointwise (SameOpt (SameEntry same)) l l' →
      AlikeAnswer same (.entries l) (.entries l')
  | ranges {l l'} : Pointwise (SameOpt same) l l' → AlikeAnswer same (.ranges l) (.ranges l')

/-- The same call, with arguments that no comparison tells apart. -/
inductive AlikeCall : Call K V → Call K V → Prop
  | insert (i) {r r' v v'} : SameRange r r' → Same v v' →
      AlikeCall (.insert i r v) (.insert i r' v')
  | remove (i) {r r'} : SameRange r r' → AlikeCall (.remove i r) (.remove i r')
  | clear (i) : AlikeCall (.clear i) (.clear i)
  | extend (i) {l l'} : Pointwise (SameEntry SameRange) l l' →
      AlikeCall (.extend i l) (.extend i l')
  | collect (i) {l l'} : Pointwise (SameEntry SameRange) l l' →
      AlikeCall (.collect i l) (.collect i l')
  | copy (i j) : AlikeCall (.copy i j) (.copy i j)
  | append (i j) : AlikeCall (.append i j) (.append i j)
  | get (i) {k k'} : keq k k' = true → AlikeCall (.get i k) (.get i k')
  | getKeyValue (i) {k k'} : keq k k' = true → AlikeCall (.getKeyValue i k) (.getKeyValue i k')
  | containsKey (i) {k k'} : keq k k' = true → AlikeCall (.containsKey i k) (.containsKey i k')
  | len (i) : AlikeCall (.len i) (.len i)
  | isEmpty (i) : AlikeCall (.isEmpty i) (.isEmpty i)
  | first (i) : AlikeCall (.first i) (.first i)
  | last (i) : AlikeCall (.last i) (.last i)
  | iter (i cs) : AlikeCall (.iter i cs) (.iter i cs)
  | overlapping (i) {q q'} (cs) : SameRange q q' →
      AlikeCall (.overlapping i q cs) (.overlapping i q' cs)
  | overlaps (i) {q q'} : SameRange q q' → AlikeCall (.overlaps i q) (.overlaps i q')
  | gaps (i) {q q'} (n) : SameRange q q' → AlikeCall (.gaps i q n) (.gaps i q' n)
  | eq (i j) : AlikeCall (.eq i j) (.eq i j)

/-- The same for calls that make or ask kept iterators. -/
inductive AlikeOpenCall : OpenCall K V → OpenCall K V → Prop
  | plain {c c'} : AlikeCall c c' → AlikeOpenCall (.plain c) (.plain c')
  | walk (h i) : AlikeOpenCall (.walk h i) (.walk h i)
  | walkOver (h i) {q q'} : SameRange q q' → AlikeOpenCall (.walkOver h i q) (.walkOver h i q')
  | take (h i) : AlikeOpenCall (.take h i) (.take h i)
  | next (h) : AlikeOpenCall (.next h) (.next h)
  | nextBack (h) : AlikeOpenCall (.nextBack h) (.nextBack h)
  | holes (g i) {q q'} : SameRange q q' → AlikeOpenCall (.holes g i q) (.holes g i q')
  | nextHole (g) : AlikeOpenCall (.nextHole g) (.nextHole g)

/-- Programs that go on alike after answers that are alike: a program compared with itself is one
that looks at keys and values with their own comparisons only. -/
def AlikePrograms (same : R → R → Prop) (p p' : OpenProgram R K V) : Prop :=
  ∀ as as', Pointwise (AlikeAnswer same) as as' → SameOpt AlikeOpenCall (p as) (p' as')

theorem AlikeAnswer.of {same : R → R → Prop} {α β : Type} {P : α → β → Prop} {f : α → Answer R V}
    {g : β → Answer R V} (hf : ∀ a b, P a b → AlikeAnswer same (f a) (g b)) {x : Except Panic α}
    {y : Except Panic β} (h : SameOutcome P x y) :
    AlikeAnswer same (Answer.of f x) (Answer.of g y) := by
  rcases h.cases with ⟨a, b, rfl, rfl, h⟩ | ⟨p, rfl, rfl⟩
  · exact hf a b h
  · exact .panicked

theorem SameOpt.isSome {α β : Type} {P : α → β → Prop} {a : Option α} {b : Option β}
    (h : SameOpt P a b) : a.isSome = b.isSome := by
  cases a <;> cases b <;> first | rfl | exact absurd h id

end Verif.Spec

namespace Verif.Props
open Spec Cl

section
variable {K : Type} [LE K] [LT K] [DecidableLE K] [DecidableLT K]
  [Std.IsLinearPreorder K] [Std.LawfulOrderLT K] {V : Type} [BEq V]

/-- Maps whose entries no comparison tells apart. -/
def AlikeMaps (m m' : RangeMap K V) : Prop := Pointwise (SameEntry SameRange) m.iter m'.iter

theorem insert_alike {m m' : RangeMap K V} (h : AlikeMaps m m') {r r' : Range K}
    (hr : SameRange r r') {v v' : V} (hv : Same v v') :
    SameOutcome AlikeMaps (m.insert r v) (m'.insert r' v') := by
  have := C65_insert h hr hv lawful_identical 0
  rwa [run_identical, RangeMap.insertL_eval] at this

theorem remove_alike {m m' : RangeMap K V} (h : AlikeMaps m m') {r r' : Range K}
    (hr : SameRange r r') : SameOutcome AlikeMaps (m.remove r) (m'.remove r') := by
  have := C65_remove h hr lawful_identical 0
  rwa [run_identical, RangeMap.removeL_eval] at this

theorem extend_alike {m m' : RangeMap K V} (h : AlikeMaps m m') {l l' : List (Range K × V)}
    (hl : Pointwise (SameEntry SameRange) l l') :
    AlikeMaps (m.extend l).1 (m'.extend l').1 ∧ (m.extend l).2 = (m'.extend l').2 := by
  induction hl generalizing m m' with
  | nil => exact ⟨h, by trivial⟩
  | @cons a b s t hab _ ih =>
    unfold RangeMap.extend
    rcases (insert_alike h hab.1 hab.2).cases with ⟨x, y, h1, h2, h3⟩ | ⟨p, h1, h2⟩
    · simp only [h1, h2]; exact ih h3
    · simp only [h1, h2]; exact ⟨h, by trivial⟩

theorem fromIter_alike {l l' : List (Range K × V)} (hl : Pointwise (SameEntry SameRange) l l') :
    SameOutcome AlikeMaps (RangeMap.fromIter l) (RangeMap.fromIter l') := by
  have := extend_alike (m := (RangeMap.new : RangeMap K V)) (m' := RangeMap.new) .nil hl
  unfold RangeMap.fromIter
  revert this
  rcases RangeMap.extend RangeMap.new l with ⟨x, a⟩
  rcases RangeMap.extend RangeMap.new l' with ⟨y, b⟩
  rintro ⟨h1, h2⟩
  subst h2
  cases a
  · exact rfl
  · exact h1

theorem getKeyValue_alike {m m' : RangeMap K V} (h : AlikeMaps m m') {k k' : K}
    (hk : keq k k' = true) :
    SameOutcome (SameOpt (SameEntry SameRange)) (m.getKeyValue k) (m'.getKeyValue k') := by
  have := C65_get h hk lawful_identical 0
  rwa [run_identical, RangeMap.getKeyValueL_eval] at this

theorem get_alike {m m' : RangeMap K V} (h : AlikeMaps m m') {k k' : K}
    (hk : keq k k' = true) : SameOutcome (SameOpt Same) (m.get k) (m'.get k') :=
  (getKeyValue_alike h hk).bind fun _ _ h => h.map fun _ _ h => h.2

theorem containsKey_alike {m m' : RangeMap K V} (h : AlikeMaps m m') {k k' : K}
    (hk : keq k k' = true) : SameOutcome (· = ·) (m.containsKey k) (m'.containsKey k') :=
  (get_alike h hk).bind fun _ _ h => h.isSome

theorem overlapping_alike {m m' : RangeMap K V} (h : AlikeMaps m m') {q q' : Range K}
    (hq : SameRange q q') :
    SameOutcome RangeMap.Overlapping.SameIter (m.overlapping q) (m'.overlapping q') := by
  have := (RangeMap.overlappingL_sim h hq).run lawful_identical 0
  rwa [run_identical, RangeMap.overlappingL_eval] at this

theorem overlaps_alike {m m' : RangeMap K V} (h : AlikeMaps m m') {q q' : Range K}
    (hq : SameRange q q') : SameOutcome (· = ·) (m.overlaps q) (m'.overlaps q') := by
  unfold RangeMap.overlaps
  refine (overlapping_alike h hq).bind fun a b h => ?_
  exact (RangeMap.Overlapping.next_same h).1.isSome

theorem gaps_alike {m m' : RangeMap K V} (h : AlikeMaps m m') {q q' : Range K}
    (hq : SameRange q q') :
    SameOutcome RangeMap.Gaps.SameIter (m.gaps q) (m'.gaps q') := by
  have := (RangeMap.gapsL_sim h hq).run lawful_identical 0
  rwa [run_identical, RangeMap.gapsL_eval] at this

theorem gapsNext_alike {g g' : RangeMap.Gaps K V} (h : g.SameIter g') :
    SameOpt SameRange g.next.1 g'.next.1 ∧ g.next.2.SameIter g'.next.2 := by
  have := (RangeMap.Gaps.nextL_sim h).run lawful_identical 0
  rw [run_identical, RangeMap.Gaps.nextL_eval] at this
  exact this

theorem gapsCalls_alike (n : Nat) {g g' : RangeMap.Gaps K V} (h : g.SameIter g') :
    Pointwise (SameOpt SameRange) (calls RangeMap.Gaps.next n g)
      (calls RangeMap.Gaps.next n g') := by
  induction n generalizing g g' with
  | zero => exact .nil
  | succ n ih => exact .cons (gapsNext_alike h).1 (ih (gapsNext_alike h).2)

theorem eq_alike {m m' x x' : RangeMap K V} (h : AlikeMaps m m') (hx : AlikeMaps x x') :
    m.eq x = m'.eq x' := by
  unfold AlikeMaps at h hx
  unfold RangeMap.eq
  generalize m.iter = a at h ⊢
  generalize m'.iter = a' at h ⊢
  generalize x.iter = b at hx ⊢
  generalize x'.iter = b' at hx ⊢
  induction h generalizing b b' with
  | nil => cases hx <;> rfl
  | cons h1 _ ih => cases hx with
    | nil => rfl
    | cons h2 h3 =>
      simp only [iterEq, ih _ _ h3, RangeMap.entryEq, keq.eq h1.1.1 h2.1.1, keq.eq h1.1.2 h2.1.2,
        Same.beq h1.2 h2.2]

/-- Iterators over entries that no comparison tells apart. -/
def AlikeIters (i i' : RangeMap.Iter K V) : Prop :=
  Pointwise (SameEntry SameRange) i.inner i'.inner

theorem iterNext_alike {i i' : RangeMap.Iter K V} (h : AlikeIters i i') :
    SameOpt (SameEntry SameRange) i.next.1 i'.next.1 ∧ AlikeIters i.next.2 i'.next.2 := by
  obtain ⟨l⟩ := i
  obtain ⟨l'⟩ := i'
  cases h with
  | nil => exact ⟨trivial, .nil⟩
  | cons h1 h2 => exact ⟨h1, h2⟩

theorem iterNextBack_alike {i i' : RangeMap.Iter K V} (h : AlikeIters i i') :
    SameOpt (SameEntry SameRange) i.nextBack.1 i'.nextBack.1 ∧
      AlikeIters i.nextBack.2 i'.nextBack.2 :=
  ⟨Pointwise.getLast? h, Pointwise.dropLast h⟩

theorem store_alike {M : Type} {P : M → M → Prop} {f f' : Nat → M} (h : ∀ i, P (f i) (f' i))
    (i : Nat) {m m' : M} (hm : P m m') (j : Nat) : P (store f i m j) (store f' i m' j) := by
  unfold store
  split
  · exact hm
  · exact h j

theorem perform_alike {maps maps' : Nat → RangeMap K V} (h : ∀ i, AlikeMaps (maps i) (maps' i))
    {c c' : Call K V} (hc : AlikeCall c c') :
    AlikeAnswer SameRange (RangeMap.perform maps c).1 (RangeMap.perform maps' c').1 ∧
    ∀ i, AlikeMaps ((RangeMap.perform maps c).2 i) ((RangeMap.perform maps' c').2 i) := by
  cases hc with
  | insert i hr hv =>
    unfold RangeMap.perform
    rcases (insert_alike (h i) hr hv).cases with ⟨x, y, h1, h2, h3⟩ | ⟨p, h1, h2⟩
    · simp only [h1, h2]; exact ⟨.done, store_alike h i h3⟩
    · simp only [h1, h2]; exact ⟨.panicked, h⟩
  | remove i hr =>
    unfold RangeMap.perform
    rcases (remove_alike (h i) hr).cases with ⟨x, y, h1, h2, h3⟩ | ⟨p, h1, h2⟩
    · simp only [h1, h2]; exact ⟨.done, store_alike h i h3⟩
    · simp only [h1, h2]; exact ⟨.panicked, h⟩
  | clear i => exact ⟨.done, store_alike h i .nil⟩
  | @extend i l l' hl =>
    obtain ⟨h1, h2⟩ := extend_alike (h i) hl
    refine ⟨?_, store_alike h i h1⟩
    simp only [RangeMap.perform, h2]
    cases ((maps' i).extend l').2
    · exact .panicked
    · exact .done
  | collect i hl =>
    unfold RangeMap.perform
    rcases (fromIter_alike hl).cases with ⟨x, y, h1, h2, h3⟩ | ⟨p, h1, h2⟩
    · simp only [h1, h2]; exact ⟨.done, store_alike h i h3⟩
    · simp only [h1, h2]; exact ⟨.panicked, h⟩
  | copy i j => exact ⟨.done, store_alike h i (h j)⟩
  | append i j =>
    obtain ⟨h1, h2⟩ := extend_alike (h i) (h j)
    refine ⟨?_, store_alike h i h1⟩
    simp only [RangeMap.perform, h2]
    cases ((maps' i).extend (maps' j).iter).2
    · exact .panicked
    · exact .done
  | get i hk => exact ⟨.of (fun _ _ => .value) (get_alike (h i) hk), h⟩
  | getKeyValue i hk => exact ⟨.of (fun _ _ => .entry) (getKeyValue_alike (h i) hk), h⟩
  | containsKey i hk =>
    exact ⟨.of (fun _ _ e => e ▸ .flag _) (containsKey_alike (h i) hk), h⟩
  | len i =>
    refine ⟨?_, h⟩
    simp only [RangeMap.perform]
    rw [show (maps i).len = (maps' i).len from (h i).length]
    exact .number _
  | isEmpty i =>
    refine ⟨?_, h⟩
    simp only [RangeMap.perform]
    rw [show (maps i).isEmpty = (maps' i).isEmpty from by
      have h := h i
      show (maps i).iter.isEmpty = (maps' i).iter.isEmpty
      unfold AlikeMaps at h
      generalize (maps i).iter = a at h
      generalize (maps' i).iter = a' at h
      cases h <;> rfl]
    exact .flag _
  | first i => exact ⟨.entry (h i).head?, h⟩
  | last i => exact ⟨.entry (h i).getLast?, h⟩
  | iter i cs =>
    exact ⟨.entries (script_same (R := AlikeIters) (fun _ _ => iterNext_alike)
      (fun _ _ => iterNextBack_alike) cs (h i)), h⟩
  | overlapping i cs hq =>
    exact ⟨.of (fun _ _ ho => .entries (script_same (fun _ _ => RangeMap.Overlapping.next_same)
      (fun _ _ => RangeMap.Overlapping.nextBack_same) cs ho)) (overlapping_alike (h i) hq), h⟩
  | overlaps i hq => exact ⟨.of (fun _ _ e => e ▸ .flag _) (overlaps_alike (h i) hq), h⟩
  | gaps i n hq =>
    exact ⟨.of (fun _ _ hg => .ranges (gapsCalls_alike n hg)) (gaps_alike (h i) hq), h⟩
  | eq i j =>
    refine ⟨?_, h⟩
    simp only [RangeMap.perform, eq_alike (h i) (h j)]
    exact .flag _

/-- Kept iterators that no comparison tells apart. -/
def AlikeWalks : RangeMap.Walk K V → RangeMap.Walk K V → Prop
  | .iter i, .iter i' => AlikeIters i i'
  | .overlapping o, .overlapping o' => o.SameIter o'
  | _, _ => False

theorem walkNext_alike {w w' : RangeMap.Walk K V} (h : AlikeWalks w w') :
    SameOpt (SameEntry SameRange) w.next.1 w'.next.1 ∧ AlikeWalks w.next.2 w'.next.2 := by
  cases w <;> cases w' <;> first | exact absurd h id | skip
  · exact iterNext_alike h
  · exact RangeMap.Overlapping.next_same h

theorem walkNextBack_alike {w w' : RangeMap.Walk K V} (h : AlikeWalks w w') :
    SameOpt (SameEntry SameRange) w.nextBack.1 w'.nextBack.1 ∧
      AlikeWalks w.nextBack.2 w'.nextBack.2 := by
  cases w <;> cases w' <;> first | exact absurd h id | skip
  · exact iterNextBack_alike h
  · exact RangeMap.Overlapping.nextBack_same h

/-- All a program holds: maps and iterators that no comparison tells apart. -/
structure AlikeDesks (d d' : RangeMap.Desk K V) : Prop where
  maps : ∀ i, AlikeMaps (d.maps i) (d'.maps i)
  walks : ∀ h, AlikeWalks (d.walks h) (d'.walks h)
  holes : ∀ h, SameOpt RangeMap.Gaps.SameIter (d.holes h) (d'.holes h)

theorem deskPerform_alike {d d' : RangeMap.Desk K V} (hd : AlikeDesks d d') {c c' : OpenCall K V}
    (hc : AlikeOpenCall c c') :
    AlikeAnswer SameRange (d.perform c).1 (d'.perform c').1 ∧
      AlikeDesks (d.perform c).2 (d'.perform c').2 := by
  cases hc with
  | plain hc =>
    obtain ⟨h1, h2⟩ := perform_alike hd.maps hc
    exact ⟨h1, h2, hd.walks, hd.holes⟩
  | walk h i => exact ⟨.done, hd.maps, store_alike hd.walks h (hd.maps i), hd.holes⟩
  | walkOver h i hq =>
    unfold RangeMap.Desk.perform
    rcases (overlapping_alike (hd.maps i) hq).cases with ⟨x, y, h1, h2, h3⟩ | ⟨p, h1, h2⟩
    · simp only [h1, h2]
      exact ⟨.done, hd.maps, store_alike hd.walks h (m := .overlapping x) (m' := .overlapping y) h3,
        hd.holes⟩
    · simp only [h1, h2]; exact ⟨.panicked, hd⟩
  | take h i =>
    exact ⟨.done, store_alike hd.maps i .nil, store_alike hd.walks h (hd.maps i), hd.holes⟩
  | next h =>
    obtain ⟨h1, h2⟩ := walkNext_alike (hd.walks h)
    exact ⟨.entry h1, hd.maps, store_alike hd.walks h h2, hd.holes⟩
  | nextBack h =>
    obtain ⟨h1, h2⟩ := walkNextBack_alike (hd.walks h)
    exact ⟨.entry h1, hd.maps, store_alike hd.walks h h2, hd.holes⟩
  | holes h i hq =>
    unfold RangeMap.Desk.perform
    rcases (gaps_alike (hd.maps i) hq).cases with ⟨x, y, h1, h2, h3⟩ | ⟨p, h1, h2⟩
    · simp only [h1, h2]
      exact ⟨.done, hd.maps, hd.walks, store_alike hd.holes h (m := some x) (m' := some y) h3⟩
    · simp only [h1, h2]; exact ⟨.panicked, hd⟩
  | nextHole h =>
    have hh := hd.holes h
    cases e : d.holes h <;> cases e' : d'.holes h <;> rw [e, e'] at hh <;>
      first | exact absurd hh id | simp only [RangeMap.Desk.perform, e, e']
    · exact ⟨.ranges (.cons trivial .nil), hd⟩
    · rename_i s s'
      obtain ⟨h1, h2⟩ := gapsNext_alike hh
      exact ⟨.ranges (.cons h1 .nil), hd.maps, hd.walks,
        store_alike hd.holes h (m := some s.next.2) (m' := some s'.next.2) h2⟩

/-- **C119** Two programs that go on alike after answers that are alike, on maps and kept iterators
that no comparison of keys or values tells apart, hear answers that none tells apart.  `==` of the
values need not be reflexive, symmetric or transitive. -/
theorem C119_programs {p p' : OpenProgram (Range K) K V} (hp : AlikePrograms SameRange p p')
    {d d' : RangeMap.Desk K V} (hd : AlikeDesks d d') (n : Nat) :
    Pointwise (AlikeAnswer SameRange) (RangeMap.openDialogue p n [] d)
      (RangeMap.openDialogue p' n [] d') := by
  suffices H : ∀ (n : Nat) (as as' : List (Answer (Range K) V)) (d d' : RangeMap.Desk K V),
      Pointwise (AlikeAnswer SameRange) as as' → AlikeDesks d d' →
      Pointwise (AlikeAnswer SameRange) (RangeMap.openDialogue p n as d)
        (RangeMap.openDialogue p' n as' d') from H n [] [] d d' .nil hd
  intro n
  induction n with
  | zero => exact fun _ _ _ _ h _ => h
  | succ n ih =>
    intro as as' d d' ha hd
    have hc := hp as as' ha
    unfold RangeMap.openDialogue
    cases e : p as <;> cases e' : p' as' <;> rw [e, e'] at hc <;> first | exact absurd hc id | skip
    · exact ha
    · obtain ⟨h1, h2⟩ := deskPerform_alike hd hc
      exact ih _ _ _ _ (.cons h1 ha) h2

theorem equalDesks [EquivBEq V] {maps maps' : Nat → RangeMap K V}
    (h : ∀ i, (maps i).eq (maps' i) = true) : AlikeDesks { maps := maps } { maps := maps' } where
  maps i := map_pointwise_of_eq (h i)
  walks _ := Pointwise.nil
  holes _ := trivial

/-- **C119** If `==` of the values is an equivalence: on maps that are `==` a program that looks at
keys and values with their own comparisons only hears equal answers, however the maps came about. -/
theorem C119_equal_maps [EquivBEq V] {p p' : OpenProgram (Range K) K V}
    (hp : AlikePrograms SameRange p p') {maps maps' : Nat → RangeMap K V}
    (h : ∀ i, (maps i).eq (maps' i) = true) (n : Nat) :
    Pointwise (AlikeAnswer SameRange) (RangeMap.openDialogue p n [] { maps := maps })
      (RangeMap.openDialogue p' n [] { maps := maps' }) :=
  C119_programs hp (equalDesks h) n

/-- **C119** So a map may at any time be replaced by one that is `==` to it. -/
theorem C119_replace [EquivBEq V] {p : OpenProgram (Range K) K V} (hp : AlikePrograms SameRange p p)
    (maps : Nat → RangeMap K V) (i : Nat) {m : RangeMap K V} (h : (maps i).eq m = true) (n : Nat) :
    Pointwise (AlikeAnswer SameRange) (RangeMap.openDialogue p n [] { maps := maps })
      (RangeMap.openDialogue p n [] { maps := store maps i m }) := by
  refine C119_equal_maps hp (fun j => ?_) n
  unfold store
  split
  · rename_i e; exact e ▸ h
  · exact (C97_eq_iff _ _).2 (.refl (fun _ => ⟨⟨keq_self _, keq_self _⟩, BEq.rfl⟩) _)

end

/-! ### Examples -/

theorem scripted_alike {K R V : Type} [LE K] [LT K] [DecidableLE K] [DecidableLT K] [BEq V]
    {same : R → R → Prop} {cs cs' : List (OpenCall K V)} (h : Pointwise AlikeOpenCall cs cs') :
    AlikePrograms same (fun as => cs[as.length]?) (fun as => cs'[as.length]?) := by
  intro as as' ha
  show SameOpt _ cs[as.length]? cs'[as'.length]?
  rw [ha.length]
  generalize as'.length = n
  induction h generalizing n with
  | nil => exact trivial
  | cons h _ ih => cases n with
    | zero => exact h
    | succ n => exact ih n

/-- Asks for the first entry, removes its range, asks for the gaps where it was. -/
def firstOut {K V : Type} : OpenProgram (Range K) K V
  | [] => some (.plain (.first 0))
  | [a] => match a with
    | .entry (some e) => some (.plain (.remove 0 e.1))
    | _ => none
  | [_, a] => match a with
    | .entry (some e) => some (.holes 0 0 e.1)
    | _ => none
  | [_, _, _] => some (.nextHole 0)
  | _ :: _ :: _ :: _ :: _ => none

theorem firstOut_alike {K V : Type} [LE K] [LT K] [DecidableLE K] [DecidableLT K] [BEq V] :
    AlikePrograms SameRange (firstOut : OpenProgram (Range K) K V) firstOut := by
  intro as as' ha
  cases ha with
  | nil => exact .plain (.first 0)
  | cons h1 ha => cases ha with
    | nil => cases h1 with
      | @entry e e' h =>
        cases e <;> cases e' <;> first | exact absurd h id | skip
        · exact trivial
        · exact .plain (.remove 0 h.1)
      | _ => exact trivial
    | cons h2 ha => cases ha with
      | nil => cases h2 with
        | @entry e e' h =>
          cases e <;> cases e' <;> first | exact absurd h id | skip
          · exact trivial
          · exact .holes 0 0 h.1
        | _ => exact trivial
      | cons h3 ha => cases ha with
        | nil => exact .nextHole 0
        | cons => exact trivial

deriving instance DecidableEq for Answer

-- equal maps with other tags and counts: four answers, which are not the same but alike
example : RangeMap.openDialogue firstOut 9 [] { maps := fun _ => twin }
      ≠ RangeMap.openDialogue firstOut 9 [] { maps := fun _ => twin' } ∧
    (RangeMap.openDialogue firstOut 9 [] { maps := fun _ => twin }).length = 4 := by
  decide +kernel
example := C119_programs (p := firstOut) (p' := firstOut) firstOut_alike
    (d := { maps := fun _ => twin }) (d' := { maps := fun _ => twin' })
    (equalDesks fun _ => twin_eq) 9
example := C119_equal_maps (p := firstOut) (p' := firstOut) firstOut_alike
    (maps := fun _ => twin) (maps' := fun _ => twin') (fun _ => twin_eq) 9
example := C119_replace (p := firstOut) firstOut_alike (fun _ => twin) 0 (m := twin') twin_eq 9
-- two scripts whose arguments compare equal
example := C119_equal_maps (K := Demo.TagKey) (V := Counted) (scripted_alike (same := SameRange)
    (cs := [.plain (.insert 0 ⟨⟨2, true⟩, ⟨6, true⟩⟩ ⟨1, 7⟩), .walkOver 0 0 ⟨⟨1, true⟩, ⟨9, true⟩⟩,
      .nextBack 0])
    (cs' := [.plain (.insert 0 ⟨⟨2, false⟩, ⟨6, true⟩⟩ ⟨1, 8⟩),
      .walkOver 0 0 ⟨⟨1, false⟩, ⟨9, true⟩⟩, .nextBack 0])
    (.cons (.plain (.insert 0 ⟨rfl, rfl⟩ (.of_beq rfl))) (.cons (.walkOver 0 0 ⟨rfl, rfl⟩)
      (.cons (.nextBack 0) .nil))))
    (maps := fun _ => twin) (maps' := fun _ => twin') (fun _ => twin_eq) 3
end Verif.Props

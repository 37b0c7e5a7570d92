import Verif.Model.OpenIters
import Verif.Props.Rename
import Verif.Props.TwinPrograms

/-!
# C117: a program learns nothing about its keys and values but how they compare
-/
set_option linter.unusedSectionVars false

namespace Verif.Spec
section
variable {K K' V V' : Type}

/-- The same call about other keys and values. -/
def renamedCall (f : K → K') (g : V → V') : Call K V → Call K' V'
  | .insert i r v => .insert i (mapRange f r) (g v)
  | .remove i r => .remove i (mapRange f r)
  | .clear i => .clear i
  | .extend i items => .extend i (items.map (Prod.map (mapRange f) g))
  | .collect i items => .collect i (items.map (Prod.map (mapRange f) g))
  | .copy i j => .copy i j
  | .append i j => .append i j
  | .get i k => .get i (f k)
  | .getKeyValue i k => .getKeyValue i (f k)
  | .containsKey i k => .containsKey i (f k)
  | .len i => .len i
  | .isEmpty i => .isEmpty i
  | .first i => .first i
  | .last i => .last i
  | .iter i cs => .iter i cs
  | .overlapping i q cs => .overlapping i (mapRange f q) cs
  | .overlaps i q => .overlaps i (mapRange f q)
  | .gaps i q n => .gaps i (mapRange f q) n
  | .eq i j => .eq i j

/-- The same, with iterators. -/
def renamedOpenCall (f : K → K') (g : V → V') : OpenCall K V → OpenCall K' V'
  | .plain c => .plain (renamedCall f g c)
  | .walk h i => .walk h i
  | .walkOver h i q => .walkOver h i (mapRange f q)
  | .take h i => .take h i
  | .next h => .next h
  | .nextBack h => .nextBack h
  | .holes h i q => .holes h i (mapRange f q)
  | .nextHole h => .nextHole h

/-- The same answer about other ranges and values. -/
def _root_.Verif.Answer.renamed {R R' : Type} (f : R → R') (g : V → V') :
    Answer R V → Answer R' V'
  | .done => .done
  | .panicked => .panicked
  | .value v => .value (v.map g)
  | .entry e => .entry (e.map (Prod.map f g))
  | .flag b => .flag b
  | .number n => .number n
  | .entries l => .entries (l.map (Option.map (Prod.map f g)))
  | .ranges l => .ranges (l.map (Option.map f))

end
end Verif.Spec

namespace Verif.Props
open Spec

section
open RangeMap
variable {K K' : Type} [LE K] [LT K] [DecidableLE K] [DecidableLT K]
  [Std.IsLinearPreorder K] [Std.LawfulOrderLT K]
  [LE K'] [LT K'] [DecidableLE K'] [DecidableLT K']
  [Std.LawfulOrderLT K'] {V V' : Type} [BEq V] [BEq V']
  {f : K → K'} {g : V → V'}

/-- `iter` with other keys and values. -/
def Iter.rename (f : K → K') (g : V → V') (i : RangeMap.Iter K V) : RangeMap.Iter K' V' :=
  ⟨i.inner.map (Prod.map (mapRange f) g)⟩

theorem iterNext_rename (i : RangeMap.Iter K V) : (Iter.rename f g i).next =
    Prod.map (Option.map (Prod.map (mapRange f) g)) (Iter.rename f g) i.next := by
  obtain ⟨l⟩ := i
  cases l <;> rfl

theorem iterNextBack_rename (i : RangeMap.Iter K V) : (Iter.rename f g i).nextBack =
    Prod.map (Option.map (Prod.map (mapRange f) g)) (Iter.rename f g) i.nextBack := by
  obtain ⟨l⟩ := i
  simp [Iter.rename, RangeMap.Iter.nextBack, Deque.nextBack, List.map_dropLast]

theorem store_rename {M M' : Type} (h : M → M') (maps : Nat → M) (i : Nat) (m : M) :
    store (fun j => h (maps j)) i (h m) = fun j => h (store maps i m j) := by
  funext j
  unfold store
  split <;> rfl

theorem fromIter_rename (hf : Embeds f) (hg : ∀ a b, (g a == g b) = (a == b))
    (items : List (Range K × V)) :
    RangeMap.fromIter (items.map (Prod.map (mapRange f) g)) =
      (RangeMap.fromIter items).map (RangeMap.rename f g) := by
  simp only [RangeMap.fromIter]
  rw [show (RangeMap.new : RangeMap K' V') = (RangeMap.new : RangeMap K V).rename f g from rfl,
    extend_rename hf hg]
  cases ((RangeMap.new : RangeMap K V).extend items).2 <;> rfl

theorem perform_rename (hf : Embeds f) (hg : ∀ a b, (g a == g b) = (a == b))
    (maps : Nat → RangeMap K V) (c : Call K V) :
    RangeMap.perform (fun i => (maps i).rename f g) (renamedCall f g c) =
      ((RangeMap.perform maps c).1.renamed (mapRange f) g,
        fun i => ((RangeMap.perform maps c).2 i).rename f g) := by
  cases c with
  | insert i r v =>
    simp only [renamedCall, RangeMap.perform, insert_rename hf hg]
    cases (maps i).insert r v with
    | ok m => exact Prod.ext rfl (store_rename (rename f g) maps i m)
    | error p => rfl
  | remove i r =>
    simp only [renamedCall, RangeMap.perform, remove_rename hf]
    cases (maps i).remove r with
    | ok m => exact Prod.ext rfl (store_rename (rename f g) maps i m)
    | error p => rfl
  | clear i => exact Prod.ext rfl (store_rename (rename f g) maps i (maps i).clear)
  | extend i items =>
    simp only [renamedCall, RangeMap.perform, extend_rename hf hg]
    refine Prod.ext ?_ (store_rename (rename f g) maps i _)
    cases ((maps i).extend items).2 <;> rfl
  | collect i items =>
    simp only [renamedCall, RangeMap.perform, fromIter_rename hf hg]
    cases RangeMap.fromIter items with
    | ok m => exact Prod.ext rfl (store_rename (rename f g) maps i m)
    | error p => rfl
  | copy i j => exact Prod.ext rfl (store_rename (rename f g) maps i (maps j))
  | append i j =>
    simp only [renamedCall, RangeMap.perform]
    rw [show ((maps j).rename f g).iter = (maps j).iter.map (Prod.map (mapRange f) g) from rfl,
      extend_rename hf hg]
    refine Prod.ext ?_ (store_rename (rename f g) maps i _)
    cases ((maps i).extend (maps j).iter).2 <;> rfl
  | get i k =>
    simp only [renamedCall, RangeMap.perform, get_rename hf]
    cases (maps i).get k <;> rfl
  | getKeyValue i k =>
    simp only [renamedCall, RangeMap.perform, getKeyValue_rename hf]
    cases (maps i).getKeyValue k <;> rfl
  | containsKey i k =>
    simp only [renamedCall, RangeMap.perform, RangeMap.containsKey, get_rename hf]
    refine Prod.ext ?_ rfl
    cases (maps i).get k with
    | ok o => cases o <;> rfl
    | error p => rfl
  | len i =>
    refine Prod.ext ?_ rfl
    simp [renamedCall, RangeMap.perform, RangeMap.len, rename, Answer.renamed]
  | isEmpty i =>
    refine Prod.ext ?_ rfl
    simp only [renamedCall, RangeMap.perform, RangeMap.isEmpty, rename, Answer.renamed]
    cases (maps i).btm <;> rfl
  | first i =>
    refine Prod.ext ?_ rfl
    simp only [renamedCall, RangeMap.perform, RangeMap.firstRangeValue, rename, Answer.renamed]
    cases (maps i).btm <;> rfl
  | last i =>
    refine Prod.ext ?_ rfl
    simp [renamedCall, RangeMap.perform, RangeMap.lastRangeValue, rename, Answer.renamed]
  | iter i cs =>
    exact Prod.ext (congrArg Answer.entries
      (script_rename (ρ := Iter.rename f g) iterNext_rename iterNextBack_rename cs
        (maps i).iterator)) rfl
  | overlapping i q cs =>
    simp only [renamedCall, RangeMap.perform, overlapping_rename hf]
    cases (maps i).overlapping q with
    | ok o =>
      exact Prod.ext (congrArg Answer.entries (script_rename (Overlapping.next_rename hf)
        (Overlapping.nextBack_rename hf) cs o)) rfl
    | error p => rfl
  | overlaps i q =>
    simp only [renamedCall, RangeMap.perform, RangeMap.overlaps, overlapping_rename hf]
    refine Prod.ext ?_ rfl
    cases (maps i).overlapping q with
    | ok o =>
      have := congrArg Prod.fst (Overlapping.next_rename (g := g) hf o)
      simp only [Except.map, bind, Except.bind, pure, Except.pure, this, Answer.of,
        Answer.renamed, Prod.map_fst, Option.isSome_map]
    | error p => rfl
  | gaps i q n =>
    simp only [renamedCall, RangeMap.perform, gaps_rename hf]
    cases (maps i).gaps q with
    | ok o => exact Prod.ext (congrArg Answer.ranges (calls_rename (Gaps.next_rename hf) n o)) rfl
    | error p => rfl
  | eq i j => exact Prod.ext (congrArg Answer.flag (eq_rename hf hg _ _)) rfl

/-- A kept iterator with other keys and values. -/
def Walk.rename (f : K → K') (g : V → V') : RangeMap.Walk K V → RangeMap.Walk K' V'
  | .iter i => .iter (Iter.rename f g i)
  | .overlapping o => .overlapping (o.rename f g)

theorem walkNext_rename (hf : Embeds f) (w : RangeMap.Walk K V) : (Walk.rename f g w).next =
    Prod.map (Option.map (Prod.map (mapRange f) g)) (Walk.rename f g) w.next := by
  cases w with
  | iter i => simp only [Walk.rename, RangeMap.Walk.next, iterNext_rename]; rfl
  | overlapping o => simp only [Walk.rename, RangeMap.Walk.next, Overlapping.next_rename hf]; rfl

theorem walkNextBack_rename (hf : Embeds f) (w : RangeMap.Walk K V) :
    (Walk.rename f g w).nextBack =
      Prod.map (Option.map (Prod.map (mapRange f) g)) (Walk.rename f g) w.nextBack := by
  cases w with
  | iter i => simp only [Walk.rename, RangeMap.Walk.nextBack, iterNextBack_rename]; rfl
  | overlapping o =>
    simp only [Walk.rename, RangeMap.Walk.nextBack, Overlapping.nextBack_rename hf]; rfl

/-- All a program holds, with other keys and values. -/
def Desk.rename (f : K → K') (g : V → V') (d : RangeMap.Desk K V) : RangeMap.Desk K' V' where
  maps i := (d.maps i).rename f g
  walks h := Walk.rename f g (d.walks h)
  holes h := (d.holes h).map (Gaps.rename f g)

theorem deskPerform_rename (hf : Embeds f) (hg : ∀ a b, (g a == g b) = (a == b))
    (d : RangeMap.Desk K V) (c : OpenCall K V) :
    (Desk.rename f g d).perform (renamedOpenCall f g c) =
      ((d.perform c).1.renamed (mapRange f) g, Desk.rename f g (d.perform c).2) := by
  have walk : ∀ h w, store (fun j => Walk.rename f g (d.walks j)) h (Walk.rename f g w) =
      fun j => Walk.rename f g (store d.walks h w j) := store_rename _ d.walks
  have hole : ∀ h w, store (fun j => (d.holes j).map (Gaps.rename f g)) h
      (some (Gaps.rename f g w)) = fun j => (store d.holes h (some w) j).map (Gaps.rename f g) :=
    fun h w => store_rename (Option.map (Gaps.rename f g)) d.holes h (some w)
  cases d with
  | mk maps walks holes =>
  cases c with
  | plain c =>
    simp only [Desk.rename, renamedOpenCall, RangeMap.Desk.perform, perform_rename hf hg]
  | walk h i =>
    simp only [Desk.rename, renamedOpenCall, RangeMap.Desk.perform]
    rw [← walk h (.iter (maps i).iterator)]
    rfl
  | walkOver h i q =>
    simp only [Desk.rename, renamedOpenCall, RangeMap.Desk.perform, overlapping_rename hf]
    cases (maps i).overlapping q with
    | ok o =>
      simp only [Except.map]
      rw [← walk h (.overlapping o)]
      rfl
    | error p => rfl
  | take h i =>
    simp only [Desk.rename, renamedOpenCall, RangeMap.Desk.perform]
    rw [← walk h (.iter (maps i).iterator), ← store_rename (RangeMap.rename f g) maps i]
    rfl
  | next h =>
    simp only [Desk.rename, renamedOpenCall, RangeMap.Desk.perform, walkNext_rename hf, Prod.map,
      walk]
    rfl
  | nextBack h =>
    simp only [Desk.rename, renamedOpenCall, RangeMap.Desk.perform, walkNextBack_rename hf,
      Prod.map, walk]
    rfl
  | holes h i q =>
    simp only [Desk.rename, renamedOpenCall, RangeMap.Desk.perform, gaps_rename hf]
    cases (maps i).gaps q with
    | ok o =>
      simp only [Except.map]
      rw [← hole h o]
      rfl
    | error p => rfl
  | nextHole h =>
    simp only [Desk.rename, renamedOpenCall, RangeMap.Desk.perform]
    cases hh : holes h with
    | none => rfl
    | some o =>
      simp only [Option.map_some, Gaps.next_rename hf, Prod.map]
      rw [← hole h o.next.2]
      rfl

/-- **C117** A program run with other keys and values, which compare as the old ones do, hears the
same answers with the other keys and values in them.  Nothing is asked of `==` on values. -/
theorem C117_programs (hf : Embeds f) (hg : ∀ a b, (g a == g b) = (a == b))
    {p : OpenProgram (Range K) K V} {p' : OpenProgram (Range K') K' V'}
    (hp : ∀ answers, p' (answers.map (Answer.renamed (mapRange f) g)) =
      (p answers).map (renamedOpenCall f g)) (n : Nat) :
    RangeMap.openDialogue p' n [] {} =
      (RangeMap.openDialogue p n [] {}).map (Answer.renamed (mapRange f) g) := by
  suffices H : ∀ (n : Nat) (answers : List (Answer (Range K) V)) (d : RangeMap.Desk K V),
      RangeMap.openDialogue p' n (answers.map (Answer.renamed (mapRange f) g))
        (Desk.rename f g d) =
      (RangeMap.openDialogue p n answers d).map (Answer.renamed (mapRange f) g) from H n [] {}
  intro n
  induction n with
  | zero => exact fun _ _ => rfl
  | succ n ih =>
    intro answers d
    simp only [RangeMap.openDialogue, hp]
    cases p answers with
    | none => rfl
    | some c =>
      simp only [Option.map_some, deskPerform_rename hf hg]
      exact ih ((d.perform c).1 :: answers) (d.perform c).2

/-- A program run on other keys and values: `f` and `g` translate what it says,
`f'` and `g'` what it hears. -/
def elsewhere (f : K → K') (g : V → V') (f' : K' → K) (g' : V' → V)
    (p : OpenProgram (Range K) K V) : OpenProgram (Range K') K' V' := fun answers =>
  (p (answers.map (Answer.renamed (mapRange f') g'))).map (renamedOpenCall f g)

theorem renamed_back {R R' : Type} {h : R → R'} {h' : R' → R} {g' : V' → V}
    (hh : ∀ r, h' (h r) = r) (hg : ∀ v, g' (g v) = v) (a : Answer R V) :
    (a.renamed h g).renamed h' g' = a := by
  have hp : ∀ e : R × V, Prod.map h' g' (Prod.map h g e) = e := fun e =>
    Prod.ext (hh e.1) (hg e.2)
  cases a <;> simp [Answer.renamed, Function.comp_def, hh, hg, hp]

/-- **C117** Every program can be run on any other keys and values that compare in the same way, and
hears there, translated back, exactly what it hears on its own. -/
theorem C117_every_program (hf : Embeds f) (hg : ∀ a b, (g a == g b) = (a == b)) {f' : K' → K}
    {g' : V' → V} (hf' : ∀ k, f' (f k) = k) (hg' : ∀ v, g' (g v) = v)
    (p : OpenProgram (Range K) K V) (n : Nat) :
    (RangeMap.openDialogue (elsewhere f g f' g' p) n [] {}).map
        (Answer.renamed (mapRange f') g') = RangeMap.openDialogue p n [] {} := by
  have hb : ∀ a : Answer (Range K) V,
      (a.renamed (mapRange f) g).renamed (mapRange f') g' = a :=
    renamed_back (fun r => by simp [mapRange, hf']) hg'
  rw [C117_programs hf hg (p := p) fun answers => by
    simp [elsewhere, Function.comp_def, hb]]
  simp [Function.comp_def, hb]

/-- Fill the gaps that are heard of, whatever they are. -/
def fillHeard : OpenProgram (Range Nat) Nat Char
  | [] => some (.plain (.extend 0 [(⟨2, 4⟩, 'a'), (⟨6, 9⟩, 'b')]))
  | [_] => some (.holes 0 0 ⟨0, 20⟩)
  | .ranges [some r] :: _ => some (.plain (.insert 0 r 'b'))
  | .done :: l => if l.length < 7 then some (.nextHole 0) else some (.plain (.iter 0 [.back]))
  | _ => none

example : RangeMap.openDialogue fillHeard 20 [] {} =
    [.entries [some (⟨4, 20⟩, 'b')], .done, .ranges [some ⟨9, 20⟩], .done, .ranges [some ⟨4, 6⟩],
      .done, .ranges [some ⟨0, 2⟩], .done, .done] := by rfl
example : RangeMap.openDialogue (elsewhere stretch Char.toNat (· / 10) Char.ofNat fillHeard) 20 []
    {} =
    [.entries [some (⟨43, 203⟩, 98)], .done, .ranges [some ⟨93, 203⟩], .done,
      .ranges [some ⟨43, 63⟩], .done, .ranges [some ⟨3, 23⟩], .done, .done] := by rfl
theorem toNat_faithful (a b : Char) : (a.toNat == b.toNat) = (a == b) := by
  rw [Bool.eq_iff_iff, beq_iff_eq, beq_iff_eq]
  exact ⟨fun h => by rw [← Char.ofNat_toNat a, h, Char.ofNat_toNat], fun h => h ▸ rfl⟩
example (n : Nat) := C117_every_program stretch_embeds toNat_faithful (f' := (· / 10))
  (g' := Char.ofNat) (fun k => by simp only [stretch]; omega) Char.ofNat_toNat fillHeard n

end
end Verif.Props

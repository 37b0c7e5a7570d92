import Verif.Props.BlindPrograms
import Verif.Props.ILooseDialogue

/-!
# C117 for inclusive maps
-/
set_option linter.unusedSectionVars false

namespace Verif.Props.Inclusive
open Spec

section
open RangeInclusiveMap
variable {K K' : Type} [LE K] [LT K] [DecidableLE K] [DecidableLT K]
  [Std.IsLinearPreorder K] [Std.LawfulOrderLT K]
  [LE K'] [LT K'] [DecidableLE K'] [DecidableLT K']
  [Std.LawfulOrderLT K'] {V V' : Type} [BEq V] [BEq V']
  {f : K → K'} {g : V → V'} {S : StepFns K} {S' : StepFns K'}

/-- `iter` with other keys and values. -/
def Iter.rename (f : K → K') (g : V → V') (i : RangeInclusiveMap.Iter K V) :
    RangeInclusiveMap.Iter K' V' :=
  ⟨i.inner.map (Prod.map (mapIRange f) g)⟩

theorem iterNext_rename (i : RangeInclusiveMap.Iter K V) : (Iter.rename f g i).next =
    Prod.map (Option.map (Prod.map (mapIRange f) g)) (Iter.rename f g) i.next := by
  obtain ⟨l⟩ := i
  cases l <;> rfl

theorem iterNextBack_rename (i : RangeInclusiveMap.Iter K V) : (Iter.rename f g i).nextBack =
    Prod.map (Option.map (Prod.map (mapIRange f) g)) (Iter.rename f g) i.nextBack := by
  obtain ⟨l⟩ := i
  simp [Iter.rename, RangeInclusiveMap.Iter.nextBack, Deque.nextBack, List.map_dropLast]

theorem fromIter_rename (hf : Embeds f) (hS : StepsMap f S S') (hg : ∀ a b, (g a == g b) = (a == b))
    (items : List (RangeInclusive K × V)) :
    RangeInclusiveMap.fromIter S' (items.map (Prod.map (mapIRange f) g)) =
      (RangeInclusiveMap.fromIter S items).map (RangeInclusiveMap.rename f g) := by
  simp only [RangeInclusiveMap.fromIter]
  rw [show (RangeInclusiveMap.new : RangeInclusiveMap K' V') =
      (RangeInclusiveMap.new : RangeInclusiveMap K V).rename f g from rfl,
    extend_rename hf hS hg]
  cases ((RangeInclusiveMap.new : RangeInclusiveMap K V).extend S items).2 <;> rfl

theorem closed_rename (r : Range K) : (mapRange f r).closed = mapIRange f r.closed := rfl

theorem items_rename (items : List (Range K × V)) :
    (items.map (Prod.map (mapRange f) g)).map (fun e => (e.1.closed, e.2)) =
      (items.map fun e => (e.1.closed, e.2)).map (Prod.map (mapIRange f) g) := by
  simp only [List.map_map]
  rfl

theorem perform_rename (hf : Embeds f) (hS : StepsMap f S S') (hg : ∀ a b, (g a == g b) = (a == b))
    {maps : Nat → RangeInclusiveMap K V} (hm : ∀ i, Sep (maps i).btm) (c : Call K V) :
    RangeInclusiveMap.perform S' (fun i => (maps i).rename f g) (renamedCall f g c) =
      ((RangeInclusiveMap.perform S maps c).1.renamed (mapIRange f) g,
        fun i => ((RangeInclusiveMap.perform S maps c).2 i).rename f g) := by
  cases c with
  | insert i r v =>
    simp only [renamedCall, RangeInclusiveMap.perform, closed_rename, insert_rename hf hS hg]
    cases (maps i).insert S r.closed v with
    | ok m => exact Prod.ext rfl (store_rename (rename f g) maps i m)
    | error p => rfl
  | remove i r =>
    simp only [renamedCall, RangeInclusiveMap.perform, closed_rename, remove_rename hf hS]
    cases (maps i).remove S r.closed with
    | ok m => exact Prod.ext rfl (store_rename (rename f g) maps i m)
    | error p => rfl
  | clear i => exact Prod.ext rfl (store_rename (rename f g) maps i (maps i).clear)
  | extend i items =>
    simp only [renamedCall, RangeInclusiveMap.perform, items_rename, extend_rename hf hS hg]
    refine Prod.ext ?_ (store_rename (rename f g) maps i _)
    cases ((maps i).extend S (items.map fun e => (e.1.closed, e.2))).2 <;> rfl
  | collect i items =>
    simp only [renamedCall, RangeInclusiveMap.perform, items_rename, fromIter_rename hf hS hg]
    cases RangeInclusiveMap.fromIter S (items.map fun e => (e.1.closed, e.2)) with
    | ok m => exact Prod.ext rfl (store_rename (rename f g) maps i m)
    | error p => rfl
  | copy i j => exact Prod.ext rfl (store_rename (rename f g) maps i (maps j))
  | append i j =>
    simp only [renamedCall, RangeInclusiveMap.perform]
    rw [show ((maps j).rename f g).iter = (maps j).iter.map (Prod.map (mapIRange f) g) from rfl,
      extend_rename hf hS hg]
    refine Prod.ext ?_ (store_rename (rename f g) maps i _)
    cases ((maps i).extend S (maps j).iter).2 <;> rfl
  | get i k =>
    simp only [renamedCall, RangeInclusiveMap.perform, get_rename hf]
    cases (maps i).get k <;> rfl
  | getKeyValue i k =>
    simp only [renamedCall, RangeInclusiveMap.perform, getKeyValue_rename hf]
    cases (maps i).getKeyValue k <;> rfl
  | containsKey i k =>
    simp only [renamedCall, RangeInclusiveMap.perform,
      RangeInclusiveMap.containsKey, get_rename hf]
    refine Prod.ext ?_ rfl
    cases (maps i).get k with
    | ok o => cases o <;> rfl
    | error p => rfl
  | len i =>
    refine Prod.ext ?_ rfl
    simp [renamedCall, RangeInclusiveMap.perform, RangeInclusiveMap.len, rename, Answer.renamed]
  | isEmpty i =>
    refine Prod.ext ?_ rfl
    simp only [renamedCall, RangeInclusiveMap.perform, RangeInclusiveMap.isEmpty, rename,
      Answer.renamed]
    cases (maps i).btm <;> rfl
  | first i =>
    refine Prod.ext ?_ rfl
    simp only [renamedCall, RangeInclusiveMap.perform, RangeInclusiveMap.firstRangeValue, rename,
      Answer.renamed]
    cases (maps i).btm <;> rfl
  | last i =>
    refine Prod.ext ?_ rfl
    simp [renamedCall, RangeInclusiveMap.perform, RangeInclusiveMap.lastRangeValue, rename,
      Answer.renamed]
  | iter i cs =>
    exact Prod.ext (congrArg Answer.entries
      (script_rename (ρ := Iter.rename f g) iterNext_rename iterNextBack_rename cs
        (maps i).iterator)) rfl
  | overlapping i q cs =>
    simp only [renamedCall, RangeInclusiveMap.perform, closed_rename, overlapping_rename hf]
    cases (maps i).overlapping q.closed with
    | ok o =>
      exact Prod.ext (congrArg Answer.entries (script_rename (Overlapping.next_rename hf)
        (Overlapping.nextBack_rename hf) cs o)) rfl
    | error p => rfl
  | overlaps i q =>
    simp only [renamedCall, RangeInclusiveMap.perform, closed_rename,
      RangeInclusiveMap.overlaps, overlapping_rename hf]
    refine Prod.ext ?_ rfl
    cases (maps i).overlapping q.closed with
    | ok o =>
      have := congrArg Prod.fst (Overlapping.next_rename (g := g) hf o)
      simp only [Except.map, bind, Except.bind, pure, Except.pure, this, Answer.of,
        Answer.renamed, Prod.map_fst, Option.isSome_map]
    | error p => rfl
  | gaps i q n =>
    simp only [renamedCall, RangeInclusiveMap.perform, closed_rename, gaps_rename hf]
    cases ho : (maps i).gaps q.closed with
    | ok o =>
      have := Gaps.calls_rename (g := g) hf hS n o (gaps_guard (hm i) ho)
      refine Prod.ext ?_ rfl
      simp only [Except.map, bind, Except.bind, this]
      cases callsE (RangeInclusiveMap.Gaps.next S) n o <;> rfl
    | error p => rfl
  | eq i j => exact Prod.ext (congrArg Answer.flag (eq_rename hf hg _ _)) rfl

/-- A kept iterator with other keys and values. -/
def Walk.rename (f : K → K') (g : V → V') :
    RangeInclusiveMap.Walk K V → RangeInclusiveMap.Walk K' V'
  | .iter i => .iter (Iter.rename f g i)
  | .overlapping o => .overlapping (o.rename f g)

theorem walkNext_rename (hf : Embeds f) (w : RangeInclusiveMap.Walk K V) :
    (Walk.rename f g w).next =
    Prod.map (Option.map (Prod.map (mapIRange f) g)) (Walk.rename f g) w.next := by
  cases w with
  | iter i => simp only [Walk.rename, RangeInclusiveMap.Walk.next, iterNext_rename]; rfl
  | overlapping o =>
    simp only [Walk.rename, RangeInclusiveMap.Walk.next, Overlapping.next_rename hf]; rfl

theorem walkNextBack_rename (hf : Embeds f) (w : RangeInclusiveMap.Walk K V) :
    (Walk.rename f g w).nextBack =
      Prod.map (Option.map (Prod.map (mapIRange f) g)) (Walk.rename f g) w.nextBack := by
  cases w with
  | iter i => simp only [Walk.rename, RangeInclusiveMap.Walk.nextBack, iterNextBack_rename]; rfl
  | overlapping o =>
    simp only [Walk.rename, RangeInclusiveMap.Walk.nextBack, Overlapping.nextBack_rename hf]; rfl

/-- All a program holds, with other keys and values. -/
def Desk.rename (f : K → K') (g : V → V') (d : RangeInclusiveMap.Desk K V) :
    RangeInclusiveMap.Desk K' V' where
  maps i := (d.maps i).rename f g
  walks h := Walk.rename f g (d.walks h)
  holes h := (d.holes h).map (Gaps.rename f g)

/-- What makes `gaps` step past no greatest key. -/
structure Held (S : StepFns K) (d : RangeInclusiveMap.Desk K V) : Prop where
  maps : ∃ plain, LooseMirrors S d.maps plain
  holes : ∀ h o, d.holes h = some o → o.Guard

theorem deskPerform_rename [PartialEquivBEq V] (hL : LawfulSteps S) (hf : Embeds f)
    (hS : StepsMap f S S') (hg : ∀ a b, (g a == g b) = (a == b))
    {d : RangeInclusiveMap.Desk K V} (hd : Held S d) (c : OpenCall K V) :
    (Desk.rename f g d).perform S' (renamedOpenCall f g c) =
      ((d.perform S c).1.renamed (mapIRange f) g, Desk.rename f g (d.perform S c).2) ∧
    Held S (d.perform S c).2 := by
  have hm : ∀ i, Sep (d.maps i).btm := fun i =>
    hd.maps.elim fun _ hp => (hp.wf hL i).1.sep
  have holed : ∀ h s, s.Guard → ∀ k o, store d.holes h (some s) k = some o → o.Guard := by
    intro h s hs k o ho
    unfold store at ho
    split at ho
    · exact Option.some.inj ho ▸ hs
    · exact hd.holes k o ho
  have walk : ∀ h w, store (fun j => Walk.rename f g (d.walks j)) h (Walk.rename f g w) =
      fun j => Walk.rename f g (store d.walks h w j) := store_rename _ d.walks
  have hole : ∀ h w, store (fun j => (d.holes j).map (Gaps.rename f g)) h
      (some (Gaps.rename f g w)) = fun j => (store d.holes h (some w) j).map (Gaps.rename f g) :=
    fun h w => store_rename (Option.map (Gaps.rename f g)) d.holes h (some w)
  cases c with
  | plain c =>
    refine ⟨?_, ?_, hd.holes⟩
    · have := perform_rename hf hS hg hm c
      simp only [Desk.rename, renamedOpenCall, RangeInclusiveMap.Desk.perform, this]
    · obtain ⟨plain, hp⟩ := hd.maps
      exact ⟨_, (C113_call hL hp c).2.2⟩
  | walk h i =>
    refine ⟨?_, hd.maps, hd.holes⟩
    simp only [Desk.rename, renamedOpenCall, RangeInclusiveMap.Desk.perform]
    rw [← walk h (.iter (d.maps i).iterator)]
    rfl
  | walkOver h i q =>
    simp only [Desk.rename, renamedOpenCall, RangeInclusiveMap.Desk.perform, closed_rename,
      overlapping_rename hf]
    cases (d.maps i).overlapping q.closed with
    | ok o =>
      refine ⟨?_, hd.maps, hd.holes⟩
      simp only [Except.map]
      rw [← walk h (.overlapping o)]
      rfl
    | error p => exact ⟨rfl, hd⟩
  | take h i =>
    refine ⟨?_, ?_, hd.holes⟩
    · simp only [Desk.rename, renamedOpenCall, RangeInclusiveMap.Desk.perform]
      rw [← walk h (.iter (d.maps i).iterator),
        ← store_rename (RangeInclusiveMap.rename f g) d.maps i]
      rfl
    · obtain ⟨plain, hp⟩ := hd.maps
      exact ⟨_, (C113_call hL hp (.clear i)).2.2⟩
  | next h =>
    refine ⟨?_, hd.maps, hd.holes⟩
    simp only [Desk.rename, renamedOpenCall, RangeInclusiveMap.Desk.perform, walkNext_rename hf,
      Prod.map, walk]
    rfl
  | nextBack h =>
    refine ⟨?_, hd.maps, hd.holes⟩
    simp only [Desk.rename, renamedOpenCall, RangeInclusiveMap.Desk.perform,
      walkNextBack_rename hf, Prod.map, walk]
    rfl
  | holes h i q =>
    simp only [Desk.rename, renamedOpenCall, RangeInclusiveMap.Desk.perform, closed_rename,
      gaps_rename hf]
    cases ho : (d.maps i).gaps q.closed with
    | ok o =>
      refine ⟨?_, hd.maps, holed h o (gaps_guard (hm i) ho)⟩
      simp only [Except.map]
      rw [← hole h o]
      rfl
    | error p => exact ⟨rfl, hd⟩
  | nextHole h =>
    simp only [Desk.rename, renamedOpenCall, RangeInclusiveMap.Desk.perform]
    cases hh : d.holes h with
    | none => exact ⟨rfl, hd⟩
    | some o =>
      obtain ⟨h1, h2⟩ := Gaps.next_rename (g := g) hf hS o (hd.holes h o hh)
      simp only [Option.map_some, h1]
      cases ho : o.next S with
      | ok x =>
        obtain ⟨r, o'⟩ := x
        refine ⟨?_, hd.maps, holed h o' (h2 r o' ho)⟩
        simp only [Except.map, Prod.map]
        rw [← hole h o']
        rfl
      | error p => exact ⟨rfl, hd⟩

/-- **C117** A program run with other keys and values, which compare as the old ones do, hears the
same answers with the other keys and values in them, if each step on the new keys is a step on the
old ones. -/
theorem C117_programs [PartialEquivBEq V] (hL : LawfulSteps S) (hf : Embeds f)
    (hS : StepsMap f S S') (hg : ∀ a b, (g a == g b) = (a == b))
    {p : OpenProgram (RangeInclusive K) K V} {p' : OpenProgram (RangeInclusive K') K' V'}
    (hp : ∀ answers, p' (answers.map (Answer.renamed (mapIRange f) g)) =
      (p answers).map (renamedOpenCall f g)) (n : Nat) :
    RangeInclusiveMap.openDialogue S' p' n [] {} =
      (RangeInclusiveMap.openDialogue S p n [] {}).map (Answer.renamed (mapIRange f) g) := by
  suffices H : ∀ (n : Nat) (answers : List (Answer (RangeInclusive K) V))
      (d : RangeInclusiveMap.Desk K V), Held S d →
      RangeInclusiveMap.openDialogue S' p' n (answers.map (Answer.renamed (mapIRange f) g))
        (Desk.rename f g d) =
      (RangeInclusiveMap.openDialogue S p n answers d).map (Answer.renamed (mapIRange f) g) from
    H n [] {} ⟨⟨fun _ _ => none, fun i => ⟨⟨[], by simp, rfl⟩, fun k => ⟨_, rfl, trivial⟩⟩⟩,
      fun _ _ h => by cases h⟩
  intro n
  induction n with
  | zero => exact fun _ _ _ => rfl
  | succ n ih =>
    intro answers d hd
    simp only [RangeInclusiveMap.openDialogue, hp]
    cases p answers with
    | none => rfl
    | some c =>
      have h := deskPerform_rename hL hf hS hg hd c
      simp only [Option.map_some, h.1]
      exact ih ((d.perform S c).1 :: answers) (d.perform S c).2 h.2

/-- A program run on other keys and values: `f` and `g` translate what it says,
`f'` and `g'` what it hears. -/
def elsewhere (f : K → K') (g : V → V') (f' : K' → K) (g' : V' → V)
    (p : OpenProgram (RangeInclusive K) K V) : OpenProgram (RangeInclusive K') K' V' :=
  fun answers => (p (answers.map (Answer.renamed (mapIRange f') g'))).map (renamedOpenCall f g)

/-- **C117** Every program can be run on any other keys and values that compare and step in the same
way, and hears there, translated back, exactly what it hears on its own. -/
theorem C117_every_program [PartialEquivBEq V] (hL : LawfulSteps S) (hf : Embeds f)
    (hS : StepsMap f S S') (hg : ∀ a b, (g a == g b) = (a == b)) {f' : K' → K}
    {g' : V' → V} (hf' : ∀ k, f' (f k) = k) (hg' : ∀ v, g' (g v) = v)
    (p : OpenProgram (RangeInclusive K) K V) (n : Nat) :
    (RangeInclusiveMap.openDialogue S' (elsewhere f g f' g' p) n [] {}).map
        (Answer.renamed (mapIRange f') g') = RangeInclusiveMap.openDialogue S p n [] {} := by
  have hb : ∀ a : Answer (RangeInclusive K) V,
      (a.renamed (mapIRange f) g).renamed (mapIRange f') g' = a :=
    renamed_back (fun r => by simp [mapIRange, hf']) hg'
  rw [C117_programs hL hf hS hg (p := p) fun answers => by
    simp [elsewhere, Function.comp_def, hb]]
  simp [Function.comp_def, hb]

end

/-- **C117** What a program hears from maps with keys of one unsigned integer type it hears from
maps with keys of a wider one. -/
theorem C117_widen {w w' : Nat} (h : w ≤ w') (debug debug' : Bool) {V : Type} [BEq V]
    [PartialEquivBEq V] (p : OpenProgram (RangeInclusive (UIntW w)) (UIntW w) V) (n : Nat) :
    (RangeInclusiveMap.openDialogue (UIntW.steps w' debug')
        (elsewhere (widen w') id (widen w) id p) n [] {}).map
      (Answer.renamed (mapIRange (widen w)) id) =
    RangeInclusiveMap.openDialogue (UIntW.steps w debug) p n [] {} :=
  C117_every_program (UIntW.lawful w debug) (C61_widen h debug debug').1
    (C61_widen h debug debug').2 (fun _ _ => rfl) (fun k => UIntW.ext_toNat (by
      simp only [widen, BitVec.toNat_setWidth]
      have hk := k.bits.isLt
      have := Nat.pow_le_pow_right (show 0 < 2 by omega) h
      rw [Nat.mod_mod_of_dvd _ (Nat.pow_dvd_pow 2 h), Nat.mod_eq_of_lt hk])) (fun _ => rfl) p n

/-- Fill the gaps that are heard of, whatever they are. -/
def fillHeard : OpenProgram (RangeInclusive (UIntW 8)) (UIntW 8) Char
  | [] => some (.plain (.extend 0 [(⟨⟨2⟩, ⟨3⟩⟩, 'a'), (⟨⟨6⟩, ⟨8⟩⟩, 'b')]))
  | [_] => some (.holes 0 0 ⟨⟨0⟩, ⟨255⟩⟩)
  | .ranges [some r] :: _ => some (.plain (.insert 0 ⟨r.start, r.stop⟩ 'b'))
  | .done :: l => if l.length < 7 then some (.nextHole 0) else some (.plain (.iter 0 [.back]))
  | _ => none

example : RangeInclusiveMap.openDialogue Demo.u8 fillHeard 20 [] {} =
    [.entries [some (Demo.by8 4 255, 'b')], .done, .ranges [some (Demo.by8 9 255)], .done,
      .ranges [some (Demo.by8 4 5)], .done, .ranges [some (Demo.by8 0 1)], .done, .done] := by rfl
/-- With 16 bits, 255 is not the greatest key. -/
example : RangeInclusiveMap.openDialogue (UIntW.steps 16 true)
    (elsewhere (widen 16) id (widen 8) id fillHeard) 20 [] {} =
    [.entries [some (.mk' ⟨4⟩ ⟨255⟩, 'b')], .done, .ranges [some (.mk' ⟨9⟩ ⟨255⟩)], .done,
      .ranges [some (.mk' ⟨4⟩ ⟨5⟩)], .done, .ranges [some (.mk' ⟨0⟩ ⟨1⟩)], .done, .done] := by rfl
example (n : Nat) := C117_widen (w := 8) (w' := 16) (by decide) true false fillHeard n
example (n : Nat) := C117_every_program Demo.u8_lawful
  (C61_widen (w := 8) (w' := 16) (by decide) true true).1
  (C61_widen (w := 8) (w' := 16) (by decide) true true).2 toNat_faithful (f' := widen 8)
  (g' := Char.ofNat) (fun k => UIntW.ext_toNat (by
    have := k.bits.isLt
    simp only [widen, BitVec.toNat_setWidth]
    omega)) Char.ofNat_toNat fillHeard n

end Verif.Props.Inclusive

import Verif.Props.IOpenIters
import Verif.Props.TwinPrograms
import Verif.Props.SetMirror

/-!
# C118: a program on inclusive maps cannot tell up from down
-/
set_option linter.unusedSectionVars false

namespace Verif.Spec

/-- The other end. -/
def End.other : End → End
  | .front => .back
  | .back => .front

namespace Rev
variable {K V : Type}

/-- The range `start..=stop` seen in the opposite order. -/
def bounds (r : Range K) : Range (Rev K) := ⟨⟨r.stop⟩, ⟨r.start⟩⟩

/-- A range in the opposite order, seen in the usual order. -/
def unrange (r : RangeInclusive (Rev K)) : RangeInclusive K :=
  ⟨r.stop.val, r.start.val, r.exhausted⟩

/-- The same call in the opposite order: each range is turned around, and front and back, first and
last are exchanged. -/
def call : Call K V → Call (Rev K) V
  | .insert i r v => .insert i (bounds r) v
  | .remove i r => .remove i (bounds r)
  | .clear i => .clear i
  | .extend i items => .extend i (items.map fun e => (bounds e.1, e.2))
  | .collect i items => .collect i (items.map fun e => (bounds e.1, e.2))
  | .copy i j => .copy i j
  | .append i j => .append i j
  | .get i k => .get i ⟨k⟩
  | .getKeyValue i k => .getKeyValue i ⟨k⟩
  | .containsKey i k => .containsKey i ⟨k⟩
  | .len i => .len i
  | .isEmpty i => .isEmpty i
  | .first i => .last i
  | .last i => .first i
  | .iter i cs => .iter i (cs.map End.other)
  | .overlapping i q cs => .overlapping i (bounds q) (cs.map End.other)
  | .overlaps i q => .overlaps i (bounds q)
  | .gaps i q n => .gaps i (bounds q) n
  | .eq i j => .eq i j

/-- The same, with iterators. -/
def openCall : OpenCall K V → OpenCall (Rev K) V
  | .plain c => .plain (call c)
  | .walk h i => .walk h i
  | .walkOver h i q => .walkOver h i (bounds q)
  | .take h i => .take h i
  | .next h => .nextBack h
  | .nextBack h => .next h
  | .holes g i q => .holes g i (bounds q)
  | .nextHole g => .nextHole g

end Rev

/-- A call that uses no iterator with one end only. -/
def TwoEnded {K V : Type} : OpenCall K V → Prop
  | .plain (.gaps _ _ _) => False
  | .holes _ _ _ => False
  | .nextHole _ => False
  | _ => True

end Verif.Spec

namespace Verif.Props.Inclusive
open Spec

theorem dequeScript_other {α : Type} : ∀ (cs : List End) (l : List α),
    dequeScript (cs.map End.other) l.reverse = dequeScript cs l
  | [], _ => rfl
  | .front :: cs, l => by
    simp only [List.map_cons, End.other, dequeScript, List.getLast?_reverse]
    rw [← dequeScript_other cs l.tail, List.dropLast_reverse]
  | .back :: cs, l => by
    simp only [List.map_cons, End.other, dequeScript, List.head?_reverse]
    rw [← dequeScript_other cs l.dropLast, List.tail_reverse]

theorem find_reverse {α : Type} {p : α → Bool} : ∀ {l : List α},
    l.Pairwise (fun a b => p a = true → p b = false) → l.reverse.find? p = l.find? p
  | [], _ => rfl
  | a :: t, h => by
    obtain ⟨h1, h2⟩ := List.pairwise_cons.1 h
    rw [List.reverse_cons, List.find?_append, find_reverse h2, List.find?_cons]
    cases ha : p a with
    | true =>
      have : t.find? p = none := List.find?_eq_none.2 fun b hb => by simp [h1 b hb ha]
      simp [this, ha]
    | false => simp [ha]

section
variable {K : Type} [LE K] [LT K] [DecidableLE K] [DecidableLT K]
  [Std.IsLinearPreorder K] [Std.LawfulOrderLT K] {V : Type}

/-- Entries in the opposite order. -/
def turned (l : List (RangeInclusive K × V)) : List (RangeInclusive (Rev K) × V) :=
  (l.map Rev.entry).reverse

theorem mem_turned {l : List (RangeInclusive K × V)} {e : RangeInclusive (Rev K) × V} :
    e ∈ turned l ↔ ∃ x ∈ l, Rev.entry x = e := by
  simp [turned]

theorem runs_turned {f : K → Option V} {l : List (RangeInclusive K × V)} (h : IRuns f l) :
    IRuns (fun k : Rev K => f k.val) (turned l) where
  nonempty e he := by
    obtain ⟨x, hx, rfl⟩ := mem_turned.1 he
    exact h.nonempty x hx
  ordered := by
    unfold turned
    rw [List.pairwise_reverse, List.pairwise_map]
    exact h.ordered
  exact k v := by
    rw [h.exact]
    constructor
    · rintro ⟨x, hx, h1, h2, h3⟩
      exact ⟨_, mem_turned.2 ⟨x, hx, rfl⟩, h2, h1, h3⟩
    · rintro ⟨e, he, h1, h2, h3⟩
      obtain ⟨x, hx, rfl⟩ := mem_turned.1 he
      exact ⟨x, hx, h2, h1, h3⟩
  longest a ha b hb h1 := by
    obtain ⟨x, hx, rfl⟩ := mem_turned.1 ha
    obtain ⟨y, hy, rfl⟩ := mem_turned.1 hb
    exact (h.longest y hy x hx (Rev.next_iff.1 h1)).symm

theorem filter_turned (q : Range K) (l : List (RangeInclusive K × V)) :
    ((turned l).filter fun e => decide ((Rev.bounds q).start ≤ e.1.stop) &&
      decide (e.1.start ≤ (Rev.bounds q).stop)) =
    turned (l.filter fun e => decide (q.start ≤ e.1.stop) && decide (e.1.start ≤ q.stop)) := by
  unfold turned
  rw [List.filter_reverse, List.filter_map]
  congr 2
  refine List.filter_congr fun e _ => ?_
  exact Bool.and_comm ..

theorem assign_turned (f : K → Option V) (r : Range K) (o : Option V) :
    iassign (fun k : Rev K => f k.val) (Rev.bounds r) o = fun k => iassign f r o k.val := by
  funext k
  have : ((Rev.bounds r).start ≤ k ∧ k ≤ (Rev.bounds r).stop) ↔
      (r.start ≤ k.val ∧ k.val ≤ r.stop) := And.comm
  simp only [iassign, this]

theorem bounds_valid (r : Range K) :
    (Rev.bounds r).start ≤ (Rev.bounds r).stop ↔ r.start ≤ r.stop := Iff.rfl

theorem all_bounds_valid (items : List (Range K × V)) :
    (∀ e ∈ items.map (fun e => (Rev.bounds e.1, e.2)), e.1.start ≤ e.1.stop) ↔
      ∀ e ∈ items, e.1.start ≤ e.1.stop := by
  constructor
  · exact fun h e he => h _ (List.mem_map_of_mem he)
  · intro h e he0
    obtain ⟨e, he, rfl⟩ := List.mem_map.1 he0
    exact h e he

theorem assignAll_turned : ∀ (items : List (Range K × V)) (f : K → Option V),
    iassignAll (fun k : Rev K => f k.val) (items.map fun e => (Rev.bounds e.1, e.2)) =
      fun k => iassignAll f items k.val
  | [], _ => rfl
  | (r, v) :: t, f => by
    simp only [List.map_cons, iassignAll, bounds_valid, assign_turned, assignAll_turned t]
    split <;> rfl

/-- Plain maps in the opposite order. -/
def turnedMaps (maps : Nat → K → Option V) : Nat → Rev K → Option V := fun i k => maps i k.val

theorem store_turned (maps : Nat → K → Option V) (i : Nat) (f : K → Option V) :
    store (turnedMaps maps) i (fun k => f k.val) = turnedMaps (store maps i f) := by
  funext j k
  unfold turnedMaps store
  split <;> rfl

theorem effect_turned (maps : Nat → K → Option V) (c : Call K V) :
    ieffect (turnedMaps maps) (Rev.call c) = turnedMaps (ieffect maps c) := by
  have all : ∀ items : List (Range K × V), ∀ i,
      iassignAll (turnedMaps maps i) (items.map fun e => (Rev.bounds e.1, e.2)) =
        fun k => iassignAll (maps i) items k.val := fun items i => assignAll_turned items (maps i)
  have one : ∀ (r : Range K) o i, iassign (turnedMaps maps i) (Rev.bounds r) o =
      fun k => iassign (maps i) r o k.val := fun r o i => assign_turned (maps i) r o
  cases c with
  | insert i r v | remove i r =>
    simp only [Rev.call, ieffect, bounds_valid, one, store_turned]
    split <;> rfl
  | clear i => exact store_turned maps i fun _ => none
  | extend i items => simp only [Rev.call, ieffect, all, store_turned]
  | collect i items =>
    have := assignAll_turned items fun _ : K => (none : Option V)
    simp only [Rev.call, ieffect, all_bounds_valid, this, store_turned]
    split <;> rfl
  | copy i j => exact store_turned maps i (maps j)
  | append i j => exact store_turned maps i fun k => (maps j k).or (maps i k)
  | _ => rfl

theorem says_turned {maps : Nat → K → Option V} {c : Call K V}
    (hc : TwoEnded (.plain c)) {a : Answer (RangeInclusive K) V} (h : ISays maps c a) :
    ISays (turnedMaps maps) (Rev.call c) (a.on Rev.range) := by
  cases c with
  | insert i r v | remove i r =>
    simp only [ISays] at h
    simp only [Rev.call, ISays, bounds_valid, h]
    split <;> rfl
  | extend i items | collect i items =>
    simp only [ISays] at h
    simp only [Rev.call, ISays, all_bounds_valid, h]
    split <;> rfl
  | clear | copy | append | get | containsKey =>
    simp only [ISays] at h
    simp only [Rev.call, ISays, h, Answer.on, turnedMaps]
  | getKeyValue i k =>
    obtain ⟨l, h1, rfl⟩ := h
    refine ⟨_, runs_turned h1, ?_⟩
    simp only [Answer.on]
    congr 1
    unfold turned
    rw [find_reverse, List.find?_map]
    · congr 1
      refine find_congr fun e he => ?_
      exact decide_eq_decide.2 And.comm
    · rw [List.pairwise_map]
      refine h1.ordered.imp fun {a b} hab ha => ?_
      simp only [decide_eq_true_eq, decide_eq_false_iff_not, Rev.entry, Rev.range,
        Rev.le_def] at ha ⊢
      grind
  | len i =>
    obtain ⟨l, h1, rfl⟩ := h
    exact ⟨_, runs_turned h1, by simp [Answer.on, turned]⟩
  | first i =>
    obtain ⟨l, h1, rfl⟩ := h
    exact ⟨_, runs_turned h1, by simp [Answer.on, turned]; rfl⟩
  | last i =>
    obtain ⟨l, h1, rfl⟩ := h
    exact ⟨_, runs_turned h1, by simp [Answer.on, turned]; rfl⟩
  | iter i cs =>
    obtain ⟨l, h1, rfl⟩ := h
    refine ⟨_, runs_turned h1, ?_⟩
    simp only [turned, dequeScript_other, dequeScript_map, Answer.on]
    rfl
  | overlapping i q cs =>
    obtain ⟨l, h1, rfl⟩ := h
    refine ⟨_, runs_turned h1, ?_⟩
    rw [filter_turned]
    simp only [turned, dequeScript_other, dequeScript_map, Answer.on]
    rfl
  | overlaps i q =>
    obtain ⟨l, b, h1, rfl, h2⟩ := h
    refine ⟨_, b, runs_turned h1, rfl, h2.trans ?_⟩
    constructor
    · rintro ⟨e, he, h3, h4⟩
      exact ⟨_, mem_turned.2 ⟨e, he, rfl⟩, h4, h3⟩
    · rintro ⟨e, he0, h3, h4⟩
      obtain ⟨e, he, rfl⟩ := mem_turned.1 he0
      exact ⟨e, he, h4, h3⟩
  | gaps i q n => exact hc.elim
  | isEmpty i =>
    obtain ⟨b, rfl, h1⟩ := h
    exact ⟨b, rfl, h1.trans ⟨fun h k => h k.val, fun h k => h ⟨k⟩⟩⟩
  | eq i j =>
    obtain ⟨b, rfl, h1⟩ := h
    exact ⟨b, rfl, h1.trans ⟨fun h k => h k.val, fun h k => h ⟨k⟩⟩⟩

/-- The same world in the opposite order. -/
def turnedWorld (w : World (RangeInclusive K) K V) : World (RangeInclusive (Rev K)) (Rev K) V where
  maps := turnedMaps w.maps
  walks h := turned (w.walks h)
  holes _ := []

theorem turnedWorld_walk (w : World (RangeInclusive K) K V) (h : Nat)
    (l : List (RangeInclusive K × V)) :
    turnedWorld (w.walk h l) = (turnedWorld w).walk h (turned l) := by
  simp only [turnedWorld, World.walk]
  congr 1
  exact store_map turned w.walks h l

theorem turns_turned {w w' : World (RangeInclusive K) K V} {c : OpenCall K V} (hc : TwoEnded c)
    {a : Answer (RangeInclusive K) V} (h : ITurns w c a w') :
    ITurns (turnedWorld w) (Rev.openCall c) (a.on Rev.range) (turnedWorld w') := by
  cases c with
  | plain c =>
    obtain ⟨h1, rfl⟩ := h
    refine ⟨says_turned hc h1, ?_⟩
    simp only [turnedWorld, World.plain, effect_turned]
  | walk k i =>
    obtain ⟨rfl, l, h1, rfl⟩ := h
    exact ⟨rfl, _, runs_turned h1, turnedWorld_walk ..⟩
  | walkOver k i q =>
    obtain ⟨rfl, l, h1, rfl⟩ := h
    refine ⟨rfl, _, runs_turned h1, ?_⟩
    rw [filter_turned]
    exact turnedWorld_walk ..
  | take k i =>
    obtain ⟨rfl, l, h1, rfl⟩ := h
    refine ⟨rfl, _, runs_turned h1, ?_⟩
    have h2 := turnedWorld_walk w k l
    have h3 := store_turned w.maps i fun _ => none
    simp only [World.plain]
    rw [← h2]
    simp only [turnedWorld, h3]
  | next k =>
    obtain ⟨rfl, rfl⟩ := h
    refine ⟨by simp [Answer.on, turnedWorld, turned]; rfl, ?_⟩
    rw [turnedWorld_walk]
    simp [turnedWorld, turned, List.map_tail]
  | nextBack k =>
    obtain ⟨rfl, rfl⟩ := h
    refine ⟨by simp [Answer.on, turnedWorld, turned]; rfl, ?_⟩
    rw [turnedWorld_walk]
    simp [turnedWorld, turned, List.map_dropLast]
  | holes g i q => exact hc.elim
  | nextHole g => exact hc.elim

variable [BEq V] [LawfulBEq V] {S : StepFns K}

/-- **C118** Two programs, one of which says upside down what the other one says, hear upside down
what the other one hears.  They may use all but `gaps`, which has one end only. -/
theorem C118_programs (hS : LawfulSteps S) (hk : ∀ a b : K, a ≤ b → b ≤ a → a = b)
    {p : OpenProgram (RangeInclusive K) K V}
    {q : OpenProgram (RangeInclusive (Rev K)) (Rev K) V}
    (hpq : ∀ answers, q (answers.map (Answer.on Rev.range)) = (p answers).map Rev.openCall)
    (hp : ∀ answers c, p answers = some c → TwoEnded c) (n : Nat) :
    RangeInclusiveMap.openDialogue (Rev.steps S) q n [] {} =
      (RangeInclusiveMap.openDialogue S p n [] {}).map (Answer.on Rev.range) := by
  suffices H : ∀ (n : Nat) (answers : List (Answer (RangeInclusive K) V))
      (w : World (RangeInclusive K) K V) (all : List (Answer (RangeInclusive K) V)),
      IOpenHears p n answers w all →
      IOpenHears q n (answers.map (Answer.on Rev.range)) (turnedWorld w)
        (all.map (Answer.on Rev.range)) from
    ((C114_exactly (Rev.lawful hS) (rev_antisymm hk) q n _).1 (H n [] {} _
      (C114_programs hS p n))).symm
  intro n
  induction n with
  | zero =>
    intro answers w all h
    rw [show all = answers from h]
    rfl
  | succ n ih =>
    intro answers w all h
    unfold IOpenHears at h ⊢
    rw [hpq]
    cases hc : p answers with
    | none =>
      rw [hc] at h
      rw [show all = answers from h]
      rfl
    | some c =>
      rw [hc] at h
      obtain ⟨a, w', h1, h2⟩ := h
      exact ⟨_, _, turns_turned (hp _ _ hc) h1, ih _ _ _ h2⟩

/-- A program run upside down. -/
def upsideDown (p : OpenProgram (RangeInclusive K) K V) :
    OpenProgram (RangeInclusive (Rev K)) (Rev K) V := fun answers =>
  (p (answers.map (Answer.on Rev.unrange))).map Rev.openCall

theorem on_on {R R' R'' V : Type} (f : R → R') (g : R' → R'') (a : Answer R V) :
    (a.on f).on g = a.on (g ∘ f) := by
  cases a <;> simp [Answer.on, Function.comp_def]

theorem on_id {R V : Type} (a : Answer R V) : a.on id = a := by
  cases a <;> simp [Answer.on]

theorem unrange_range (a : Answer (RangeInclusive K) V) :
    (a.on Rev.range).on Rev.unrange = a := by
  rw [on_on]
  exact on_id a

/-- **C118** Every program that does not use `gaps` can be run upside down, with the keys in the
opposite order and front and back exchanged, and hears upside down what it hears. -/
theorem C118_upside_down (hS : LawfulSteps S) (hk : ∀ a b : K, a ≤ b → b ≤ a → a = b)
    (p : OpenProgram (RangeInclusive K) K V)
    (hp : ∀ answers c, p answers = some c → TwoEnded c) (n : Nat) :
    (RangeInclusiveMap.openDialogue (Rev.steps S) (upsideDown p) n [] {}).map
      (Answer.on Rev.unrange) = RangeInclusiveMap.openDialogue S p n [] {} := by
  rw [C118_programs hS hk (p := p) (fun answers => by
    simp [upsideDown, Function.comp_def, unrange_range]) hp]
  simp [Function.comp_def, unrange_range]

deriving instance DecidableEq for Answer

/-- Insert into the first map, cut off what the back is heard to be, and look at both ends. -/
def cutBack : OpenProgram (RangeInclusive (UIntW 8)) (UIntW 8) Char
  | [] => some (.plain (.extend 0 [(⟨⟨1⟩, ⟨2⟩⟩, 'a'), (⟨⟨5⟩, ⟨6⟩⟩, 'b'), (⟨⟨3⟩, ⟨4⟩⟩, 'a')]))
  | [_] => some (.walkOver 0 0 ⟨⟨2⟩, ⟨255⟩⟩)
  | [_, _] => some (.nextBack 0)
  | [.entry (some e), _, _] => some (.plain (.remove 0 ⟨e.1.start, e.1.stop⟩))
  | [_, _, _, _] => some (.plain (.last 0))
  | [_, _, _, _, _] => some (.next 0)
  | _ => none

example : RangeInclusiveMap.openDialogue Demo.u8 cutBack 20 [] {} =
    [.entry (some (Demo.by8 1 4, 'a')), .entry (some (Demo.by8 1 4, 'a')), .done,
      .entry (some (Demo.by8 5 6, 'b')), .done, .done] := by decide +kernel
example : RangeInclusiveMap.openDialogue (Rev.steps Demo.u8) (upsideDown cutBack) 20 [] {} =
    [.entry (some (.mk' ⟨⟨4⟩⟩ ⟨⟨1⟩⟩, 'a')), .entry (some (.mk' ⟨⟨4⟩⟩ ⟨⟨1⟩⟩, 'a')), .done,
      .entry (some (.mk' ⟨⟨6⟩⟩ ⟨⟨5⟩⟩, 'b')), .done, .done] := by decide +kernel
theorem cutBack_ends (answers : List (Answer (RangeInclusive (UIntW 8)) Char))
    (c : OpenCall (UIntW 8) Char) (h : cutBack answers = some c) : TwoEnded c := by
  unfold cutBack at h
  split at h <;> first | (cases h; trivial) | cases h
example (n : Nat) := C118_upside_down Demo.u8_lawful Demo.u8_antisymm cutBack cutBack_ends n
example (n : Nat) := C118_programs Demo.u8_lawful Demo.u8_antisymm
  (p := cutBack) (q := upsideDown cutBack)
  (fun answers => by simp [upsideDown, Function.comp_def, unrange_range]) cutBack_ends n

end
end Verif.Props.Inclusive

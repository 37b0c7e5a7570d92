import Verif.Proof.Tree
import Verif.Proof.IRename

/-!
# Programs on B-trees whose keys are renamed

The order of the renamed keys need not be total or transitive: only the keys that are used have to
be ordered as they were before the renaming.
-/
set_option linter.unusedSectionVars false
set_option linter.unusedVariables false

namespace Verif
open Spec
variable {K K' : Type} [LE K] [LT K] [DecidableLE K] [DecidableLT K]
  [Std.IsLinearPreorder K] [Std.LawfulOrderLT K]
  [LE K'] [LT K'] [DecidableLE K'] [DecidableLT K']
  [Std.LawfulOrderLT K'] {R R' V : Type} {f : K → K'} {φ : R → R'} {key : R → K} {key' : R' → K'}

namespace Tree

/-- The tree with every entry replaced. -/
def map {E E' : Type} (h : E → E') : Tree E → Tree E'
  | nil => nil
  | node l e r => node (map h l) (h e) (map h r)

theorem toList_map {E E' : Type} (h : E → E') (t : Tree E) :
    (t.map h).toList = t.toList.map h := by
  induction t with
  | nil => rfl
  | node l e r ihl ihr => simp [map, toList, ihl, ihr]

theorem size_map {E E' : Type} (h : E → E') (t : Tree E) : (t.map h).size = t.size := by
  rw [size_eq, size_eq, toList_map, List.length_map]

theorem join_map {E E' : Type} (h : E → E') (t u : Tree E) :
    (t.map h).join (u.map h) = (t.join u).map h := by
  induction t with
  | nil => rfl
  | node l e r ihl ihr => simp [map, join, ihr]

/-- A tree of replaced entries is a tree with its entries replaced. -/
theorem exists_map {E E' : Type} (h : E → E') : ∀ (t' : Tree E') (l : List E),
    t'.toList = l.map h → ∃ t : Tree E, t.map h = t' ∧ t.toList = l := by
  intro t'
  induction t' with
  | nil =>
    intro l hl
    obtain rfl : l = [] := by simpa [toList] using hl.symm
    exact ⟨nil, rfl, rfl⟩
  | node a e b iha ihb =>
    intro l hl
    simp only [toList] at hl
    obtain ⟨l1, l2, rfl, h1, h2⟩ := List.map_eq_append_iff.mp hl.symm
    obtain ⟨x, l3, rfl, rfl, h3⟩ := List.map_eq_cons_iff.mp h2
    obtain ⟨t1, rfl, rfl⟩ := iha l1 h1.symm
    obtain ⟨t2, rfl, rfl⟩ := ihb l3 h3.symm
    exact ⟨node t1 x t2, rfl, rfl⟩

end Tree

/-- The bound with its key renamed. -/
def SearchBound.map (f : K → K') : SearchBound K → SearchBound K'
  | .included k => .included (f k)
  | .excluded k => .excluded (f k)
  | .allIncluded => .allIncluded
  | .allExcluded => .allExcluded

theorem SearchBound.lower_map (hf : Embeds f) (b : SearchBound K) (k : K) :
    (b.map f).lower (f k) = Prod.map id (SearchBound.map f) (b.lower k) := by
  cases b <;> simp only [SearchBound.map, SearchBound.lower, hf.lt] <;>
    (try split) <;> (try split) <;> rfl

theorem SearchBound.upper_map (hf : Embeds f) (b : SearchBound K) (k : K) :
    (b.map f).upper (f k) = Prod.map id (SearchBound.map f) (b.upper k) := by
  cases b <;> simp only [SearchBound.map, SearchBound.upper, hf.lt] <;>
    (try split) <;> (try split) <;> rfl

theorem SearchBound.ofBound_map (b : Bound K) :
    SearchBound.ofBound (b.map f) = (SearchBound.ofBound b).map f := by
  cases b <;> rfl

namespace Tree

/-- What renaming does to an entry. -/
abbrev ren (φ : R → R') (V : Type) : R × V → R' × V := Prod.map φ id

theorem fromLower_map (hf : Embeds f) (hk : ∀ r, key' (φ r) = f (key r)) (t : Tree (R × V)) :
    ∀ b : SearchBound K, (t.map (ren φ V)).fromLower key' (b.map f)
      = (t.fromLower key b).map (ren φ V) := by
  induction t with
  | nil => intro b; rfl
  | node l e r ihl ihr =>
    intro b
    simp only [map, fromLower, Prod.map_fst, hk, SearchBound.lower_map hf]
    generalize b.lower (key e.1) = x
    obtain ⟨x, b'⟩ := x
    cases x
    · simp [Prod.map, ihl, toList_map]
    · simp [Prod.map, ihr]

theorem toUpper_map (hf : Embeds f) (hk : ∀ r, key' (φ r) = f (key r)) (t : Tree (R × V)) :
    ∀ b : SearchBound K, (t.map (ren φ V)).toUpper key' (b.map f)
      = (t.toUpper key b).map (ren φ V) := by
  induction t with
  | nil => intro b; rfl
  | node l e r ihl ihr =>
    intro b
    simp only [map, toUpper, Prod.map_fst, hk, SearchBound.upper_map hf]
    generalize b.upper (key e.1) = x
    obtain ⟨x, b'⟩ := x
    cases x
    · simp [Prod.map, ihl]
    · simp [Prod.map, ihr, toList_map]

theorem between_map (hf : Embeds f) (hk : ∀ r, key' (φ r) = f (key r)) (t : Tree (R × V)) :
    ∀ lo hi : SearchBound K, (t.map (ren φ V)).between key' (lo.map f) (hi.map f)
      = (t.between key lo hi).map (ren φ V) := by
  induction t with
  | nil => intro lo hi; rfl
  | node l e r ihl ihr =>
    intro lo hi
    simp only [map, between, Prod.map_fst, hk, SearchBound.lower_map hf, SearchBound.upper_map hf]
    generalize lo.lower (key e.1) = x
    generalize hi.upper (key e.1) = y
    obtain ⟨x, lo'⟩ := x
    obtain ⟨y, hi'⟩ := y
    cases x <;> cases y <;>
      simp [Prod.map, ihl, ihr, fromLower_map hf hk, toUpper_map hf hk]

theorem range_map (hf : Embeds f) (hk : ∀ r, key' (φ r) = f (key r)) (t : Tree (R × V))
    (lo hi : Bound K) : (t.map (ren φ V)).range key' (lo.map f) (hi.map f)
      = (t.range key lo hi).map (List.map (ren φ V)) := by
  have h1 : Bound.invalid (lo.map f) (hi.map f) = Bound.invalid lo hi := by
    cases lo <;> cases hi <;> simp [Bound.map, Bound.invalid, hf.le, hf.lt]
  unfold range
  rw [h1, SearchBound.ofBound_map, SearchBound.ofBound_map, between_map hf hk]
  split <;> rfl

theorem contains_map (hf : Embeds f) (hk : ∀ r, key' (φ r) = f (key r)) (k : K)
    (t : Tree (R × V)) : (t.map (ren φ V)).contains key' (f k) = t.contains key k := by
  induction t with
  | nil => rfl
  | node l e r ihl ihr => simp only [map, contains, Prod.map_fst, hk, hf.lt, ihl, ihr]

theorem insert_map (hf : Embeds f) (hk : ∀ r, key' (φ r) = f (key r)) (r : R) (v : V)
    (t : Tree (R × V)) :
    (t.map (ren φ V)).insert key' (φ r) v = (t.insert key r v).map (ren φ V) := by
  induction t with
  | nil => rfl
  | node l e t ihl ihr =>
    simp only [map, insert, Prod.map_fst, hk, hf.lt, ihl, ihr]
    split
    · rfl
    · split <;> rfl

theorem remove_map (hf : Embeds f) (hk : ∀ r, key' (φ r) = f (key r)) (k : K)
    (t : Tree (R × V)) :
    (t.map (ren φ V)).remove key' (f k) = (t.remove key k).map (ren φ V) := by
  induction t with
  | nil => rfl
  | node l e t ihl ihr =>
    simp only [map, remove, Prod.map_fst, hk, hf.lt, ihl, ihr]
    split
    · rfl
    · split
      · rfl
      · exact join_map _ _ _

/-! On a tree with renamed entries everything goes as on the list of the entries. -/

variable (hf : Embeds f) (hk : ∀ r, key' (φ r) = f (key r)) {t' : Tree (R' × V)} {l : List (R × V)}
  (ht : t'.toList = l.map (ren φ V)) (hl : Laid key l)
include hf hk ht hl

theorem range_ren (lo hi : Bound K) : t'.range key' (lo.map f) (hi.map f)
    = (BTreeMap.range key lo hi l).map (List.map (ren φ V)) := by
  obtain ⟨t, rfl, rfl⟩ := exists_map _ t' l ht
  rw [range_map hf hk, range_eq hl]

theorem contains_ren (k : K) :
    t'.contains key' (f k) = l.any fun e => keq (key e.1) k := by
  obtain ⟨t, rfl, rfl⟩ := exists_map _ t' l ht
  rw [contains_map hf hk, contains_eq key k t hl]

theorem insert_ren (r : R) (v : V) :
    (t'.insert key' (φ r) v).toList = (BTreeMap.insert key r v l).map (ren φ V) := by
  obtain ⟨t, rfl, rfl⟩ := exists_map _ t' l ht
  rw [insert_map hf hk, toList_map, insert_toList key r v t hl]

theorem remove_ren (k : K) :
    (t'.remove key' (f k)).toList = (BTreeMap.remove key k l).map (ren φ V) := by
  obtain ⟨t, rfl, rfl⟩ := exists_map _ t' l ht
  rw [remove_map hf hk, toList_map, remove_toList key k t hl]

end Tree

/-- Two programs take the same steps, up to the renaming of ranges by `φ` and keys by `f`, and what
they return is related by `Q`. -/
inductive Cr.Rel {α α' : Type} (f : K → K') (φ : R → R') (Q : α → α' → Prop) :
    Cr K R V α → Cr K' R' V α' → Prop
  | ret {a a'} : Q a a' → Rel f φ Q (.ret a) (.ret a')
  | panic (p) : Rel f φ Q (.panic p) (.panic p)
  | call {n n'} : Rel f φ Q n n' → Rel f φ Q (.call n) (.call n')
  | size {n n'} : (∀ k, Rel f φ Q (n k) (n' k)) → Rel f φ Q (.size n) (.size n')
  | search {lo hi n n'} : (∀ l, Rel f φ Q (n l) (n' (l.map (Tree.ren φ V)))) →
      Rel f φ Q (.search lo hi n) (.search (lo.map f) (hi.map f) n')
  | put {r v n n'} : (∀ b, Rel f φ Q (n b) (n' b)) → Rel f φ Q (.put r v n) (.put (φ r) v n')
  | delete {k n n'} : Rel f φ Q n n' → Rel f φ Q (.delete k n) (.delete (f k) n')

namespace Cr.Rel
variable {α α' β β' : Type} {Q : α → α' → Prop} {Q' : β → β' → Prop}

theorem bind {c : Cr K R V α} {c' : Cr K' R' V α'} {d : α → Cr K R V β} {d' : α' → Cr K' R' V β'}
    (h : Rel f φ Q c c') (hd : ∀ a a', Q a a' → Rel f φ Q' (d a) (d' a')) :
    Rel f φ Q' (c >>= d) (c' >>= d') := by
  show Rel f φ Q' (c.bind d) (c'.bind d')
  induction h with
  | ret h => exact hd _ _ h
  | panic p => exact .panic p
  | call _ ih => exact .call ih
  | size _ ih => exact .size ih
  | search _ ih => exact .search ih
  | put _ ih => exact .put ih
  | delete _ ih => exact .delete ih

theorem user : Rel f φ (fun _ _ => True) (Cr.user : Cr K R V Unit) (Cr.user : Cr K' R' V Unit) :=
  .call (.ret trivial)

theorem len : Rel f φ (fun a b => b = a) (Cr.len : Cr K R V Nat) (Cr.len : Cr K' R' V Nat) :=
  .size fun _ => .ret rfl

theorem range (lo hi : Bound K) : Rel f φ (fun a b => b = a.map (Tree.ren φ V))
    (Cr.range lo hi : Cr K R V _) (Cr.range (lo.map f) (hi.map f) : Cr K' R' V _) :=
  .call (.search fun _ => .ret rfl)

theorem remove (k : K) : Rel f φ (fun _ _ => True)
    (Cr.remove k : Cr K R V Unit) (Cr.remove (f k) : Cr K' R' V Unit) :=
  .call (.delete (.call (.ret trivial)))

theorem insert (r : R) (v : V) : Rel f φ (fun _ _ => True)
    (Cr.insert r v : Cr K R V Unit) (Cr.insert (φ r) v : Cr K' R' V Unit) :=
  .call (.put fun b => match b with
    | false => .ret trivial
    | true => .call (.ret trivial))

theorem lib {x : Except Panic α} {g : α → α'} :
    Rel f φ (fun a a' => a' = g a) (Cr.lib x : Cr K R V α) (Cr.lib (x.map g) : Cr K' R' V α') := by
  cases x
  · exact .panic _
  · exact .ret rfl

theorem pure {a : α} {a' : α'} (h : Q a a') :
    Rel f φ Q (Pure.pure a : Cr K R V α) (Pure.pure a' : Cr K' R' V α') := .ret h

/-- The program with renamed keys does on a tree with renamed entries what the program does on the
list of the entries. -/
theorem runTree {c : Cr K R V α} {c' : Cr K' R' V α'} (h : Rel f φ Q c c') (hf : Embeds f)
    (hk : ∀ r, key' (φ r) = f (key r)) (shapes : Tree.Shapes (R' × V)) (o : Nat → Bool) :
    ∀ (n i : Nat) (t' : Tree (R' × V)) (l : List (R × V)), t'.toList = l.map (Tree.ren φ V) →
      Laid key l →
      (c'.runTree key' shapes o ⟨n, i, t'⟩).2.tree.toList
        = (c.run key o ⟨n, l⟩).2.btm.map (Tree.ren φ V) ∧
      (∀ x, (c.run key o ⟨n, l⟩).1 = .error x →
        (c'.runTree key' shapes o ⟨n, i, t'⟩).1 = .error x) ∧
      (∀ a, (c.run key o ⟨n, l⟩).1 = .ok a →
        ∃ a', (c'.runTree key' shapes o ⟨n, i, t'⟩).1 = .ok a' ∧ Q a a') := by
  induction h with
  | ret h =>
    intro n i t' l ht _
    exact ⟨ht, nofun, fun a ha => ⟨_, rfl, by cases ha; exact h⟩⟩
  | panic p =>
    intro n i t' l ht _
    exact ⟨ht, fun x hx => by cases hx; rfl, nofun⟩
  | call _ ih =>
    intro n i t' l ht hl
    simp only [Cr.run, Cr.runTree]
    split
    · exact ⟨ht, fun x hx => by cases hx; rfl, nofun⟩
    · exact ih _ _ _ _ ht hl
  | size _ ih =>
    intro n i t' l ht hl
    simp only [Cr.run, Cr.runTree]
    have hs : t'.size = l.length := by rw [Tree.size_eq, ht, List.length_map]
    rw [hs]
    exact ih _ _ _ _ _ ht hl
  | @search lo hi _ _ _ ih =>
    intro n i t' l ht hl
    simp only [Cr.run, Cr.runTree, Tree.range_ren hf hk ht hl]
    cases BTreeMap.range key lo hi l with
    | error p => exact ⟨ht, fun x hx => by cases hx; rfl, nofun⟩
    | ok x => exact ih _ _ _ _ _ ht hl
  | @put r v _ _ _ ih =>
    intro n i t' l ht hl
    simp only [Cr.run, Cr.runTree, hk, Tree.contains_ren hf hk ht hl]
    exact ih _ _ _ _ _ (by rw [shapes.keeps, Tree.insert_ren hf hk ht hl]) (hl.insert r v)
  | @delete k _ _ _ ih =>
    intro n i t' l ht hl
    simp only [Cr.run, Cr.runTree]
    exact ih _ _ _ _ (by rw [shapes.keeps, Tree.remove_ren hf hk ht hl]) (hl.remove k)

end Cr.Rel

namespace RangeMap
variable (hf : Embeds f)
include hf

theorem insertLeftC_rel (s : Range K) (sv : V) (c : Range K) :
    Cr.Rel f (mapRange f) (fun _ _ => True) (insertLeftC s sv c)
      (insertLeftC (mapRange f s) sv (mapRange f c)) := by
  unfold insertLeftC
  simp only [mapRange_start, hf.lt]
  refine .bind .user fun _ _ _ => ?_
  split
  · exact .bind .user fun _ _ _ => .insert (⟨s.start, c.start⟩ : Range K) sv
  · exact .pure trivial

theorem insertRightC_rel (s : Range K) (sv : V) (c : Range K) :
    Cr.Rel f (mapRange f) (fun _ _ => True) (insertRightC s sv c)
      (insertRightC (mapRange f s) sv (mapRange f c)) := by
  unfold insertRightC
  simp only [mapRange_stop, hf.lt]
  refine .bind .user fun _ _ _ => ?_
  split
  · exact .bind .user fun _ _ _ => .insert (⟨c.stop, s.stop⟩ : Range K) sv
  · exact .pure trivial

theorem adjustInsertC_rel [BEq V] (s : Range K) (sv : V) (n : Range K) (v : V) :
    Cr.Rel f (mapRange f) (fun a b => b = mapRange f a) (adjustTouchingRangesForInsertC s sv n v)
      (adjustTouchingRangesForInsertC (mapRange f s) sv (mapRange f n) v) := by
  unfold adjustTouchingRangesForInsertC
  simp only [Range.overlaps_map hf]
  refine .bind .user fun _ _ _ => ?_
  split
  · refine .bind .user fun _ _ _ => .bind (.remove s.start) fun _ _ _ =>
      .bind .user fun _ _ _ => .pure ?_
    simp only [mapRange_start, mapRange_stop, hf.rmin, hf.rmax]
    rfl
  · refine .bind .user fun _ _ _ => ?_
    split
    · exact .bind (.remove s.start) fun _ _ _ => .bind (insertLeftC_rel hf s sv n) fun _ _ _ =>
        .bind (insertRightC_rel hf s sv n) fun _ _ _ => .bind .user fun _ _ _ => .pure rfl
    · exact .bind .user fun _ _ _ => .pure rfl

theorem insertLoopC_rel [BEq V] (hi : K) (v : V) : ∀ (fuel : Nat) (n : Range K),
    Cr.Rel f (mapRange f) (fun a b => b = mapRange f a) (insertLoopC hi v fuel n)
      (insertLoopC (f hi) v fuel (mapRange f n)) := by
  intro fuel
  induction fuel with
  | zero => intro n; exact .panic _
  | succ fuel ih =>
    intro n
    unfold insertLoopC
    refine .bind (.range (.included n.start) (.included hi)) fun l l' hl => ?_
    subst hl
    rw [List.head?_map]
    cases l.head? with
    | none => exact .pure rfl
    | some x =>
      refine .bind .user fun _ _ _ => ?_
      simp only [Prod.map_fst, Prod.map_snd, id, mapRange_start, mapRange_stop, hf.keq]
      split
      · exact .pure rfl
      · refine .bind .user fun _ _ _ => .bind (adjustInsertC_rel hf x.1 x.2 n v) fun a a' ha => ?_
        subst ha
        exact ih a

theorem candidates_ren (n : Range K) (l : List (Range K × V)) :
    (((l.map (Tree.ren (mapRange f) V)).reverse.take 2).filter
        fun e => e.1.touches (mapRange f n))
      = ((l.reverse.take 2).filter fun e => e.1.touches n).map (Tree.ren (mapRange f) V) := by
  rw [← List.map_reverse, ← List.map_take, List.filter_map]
  congr 1
  congr 1
  funext e
  simp [Function.comp, Range.touches_map hf]

theorem insertPrefixC_rel [BEq V] (n : Range K) (v : V) :
    Cr.Rel f (mapRange f) (fun a b => b = mapRange f a) (insertPrefixC n v)
      (insertPrefixC (mapRange f n) v) := by
  unfold insertPrefixC
  refine .bind (.range .unbounded (.included n.start)) fun l l' hl => ?_
  subst hl
  rw [candidates_ren hf]
  refine .bind .user fun _ _ _ => ?_
  generalize (l.reverse.take 2).filter (fun e => e.1.touches n) = cs
  match cs with
  | [] => exact .pure rfl
  | [c] => exact .bind .user fun _ _ _ => adjustInsertC_rel hf c.1 c.2 n v
  | _ :: c :: _ => exact .bind .user fun _ _ _ => adjustInsertC_rel hf c.1 c.2 n v

theorem insertProgram_rel [BEq V] (r : Range K) (v : V) :
    Cr.Rel f (mapRange f) (fun _ _ => True) (insertProgram r v)
      (insertProgram (mapRange f r) v) := by
  unfold insertProgram
  refine .bind .user fun _ _ _ => ?_
  simp only [mapRange_start, mapRange_stop, hf.lt]
  split
  · refine .bind .len fun n n' hn => ?_
    subst hn
    refine .bind (insertPrefixC_rel hf r v) fun a a' ha => ?_
    subst ha
    refine .bind .user fun _ _ _ => .bind (insertLoopC_rel hf a.stop v _ a) fun b b' hb => ?_
    subst hb
    exact .bind (.insert b v) fun _ _ _ => .user
  · exact .panic _

theorem adjustRemoveC_rel (s : Range K) (sv : V) (n : Range K) :
    Cr.Rel f (mapRange f) (fun _ _ => True) (adjustOverlappingRangesForRemoveC s sv n)
      (adjustOverlappingRangesForRemoveC (mapRange f s) sv (mapRange f n)) := by
  unfold adjustOverlappingRangesForRemoveC
  exact .bind (.remove s.start) fun _ _ _ => .bind (insertLeftC_rel hf s sv n) fun _ _ _ =>
    .bind (insertRightC_rel hf s sv n) fun _ _ _ => .user

theorem removeLoopC_rel (n : Range K) : ∀ fuel : Nat,
    Cr.Rel f (mapRange f) (fun _ _ => True) (removeLoopC n fuel : Cr K (Range K) V Unit)
      (removeLoopC (mapRange f n) fuel) := by
  intro fuel
  induction fuel with
  | zero => exact .panic _
  | succ fuel ih =>
    unfold removeLoopC
    refine .bind (.range (.excluded n.start) (.excluded n.stop)) fun l l' hl => ?_
    subst hl
    rw [List.head?_map]
    cases l.head? with
    | none => exact .pure trivial
    | some x =>
      exact .bind .user fun _ _ _ => .bind (adjustRemoveC_rel hf x.1 x.2 n) fun _ _ _ => ih

theorem last_ren (n : Range K) (l : List (Range K × V)) :
    ((l.map (Tree.ren (mapRange f) V)).getLast?.filter fun e => e.1.overlaps (mapRange f n))
      = (l.getLast?.filter fun e => e.1.overlaps n).map (Tree.ren (mapRange f) V) := by
  rw [List.getLast?_map]
  cases l.getLast? with
  | none => rfl
  | some x =>
    simp only [Option.map_some, Option.filter_some, Prod.map_fst, Range.overlaps_map hf]
    split <;> rfl

theorem removePrefixC_rel (n : Range K) :
    Cr.Rel f (mapRange f) (fun _ _ => True) (removePrefixC n : Cr K (Range K) V Unit)
      (removePrefixC (mapRange f n)) := by
  unfold removePrefixC
  refine .bind (.range .unbounded (.included n.start)) fun l l' hl => ?_
  subst hl
  rw [last_ren hf]
  refine .bind .user fun _ _ _ => ?_
  cases l.getLast?.filter fun e => e.1.overlaps n with
  | none => exact .pure trivial
  | some x => exact .bind .user fun _ _ _ => adjustRemoveC_rel hf x.1 x.2 n

theorem removeProgram_rel (r : Range K) :
    Cr.Rel f (mapRange f) (fun _ _ => True) (removeProgram r : Cr K (Range K) V Unit)
      (removeProgram (mapRange f r)) := by
  unfold removeProgram
  refine .bind .user fun _ _ _ => ?_
  simp only [mapRange_start, mapRange_stop, hf.lt]
  split
  · refine .bind .len fun n n' hn => ?_
    subst hn
    exact .bind (removePrefixC_rel hf r) fun _ _ _ => .bind .user fun _ _ _ =>
      .bind (removeLoopC_rel hf r _) fun _ _ _ => .user
  · exact .panic _

end RangeMap

namespace RangeInclusiveMap
variable {S : StepFns K} {S' : StepFns K'} (hf : Embeds f) (hS : StepsMap f S S')
include hf hS

theorem insertLeftC_rel (s : RangeInclusive K) (sv : V) (c : RangeInclusive K) :
    Cr.Rel f (mapIRange f) (fun _ _ => True) (insertLeftC S s sv c)
      (insertLeftC S' (mapIRange f s) sv (mapIRange f c)) := by
  unfold insertLeftC
  simp only [mapIRange_start, hf.lt]
  refine .bind .user fun _ _ _ => ?_
  split
  · rename_i h
    rw [hS.subOne _ _ h]
    refine .bind .user fun _ _ _ => .bind .lib fun p p' hp => .bind .user fun _ _ _ => ?_
    subst hp
    exact .insert (RangeInclusive.mk' s.start p) sv
  · exact .pure trivial

theorem insertRightC_rel (s : RangeInclusive K) (sv : V) (c : RangeInclusive K) :
    Cr.Rel f (mapIRange f) (fun _ _ => True) (insertRightC S s sv c)
      (insertRightC S' (mapIRange f s) sv (mapIRange f c)) := by
  unfold insertRightC
  simp only [mapIRange_stop, hf.lt]
  refine .bind .user fun _ _ _ => ?_
  split
  · rename_i h
    rw [hS.addOne _ _ h]
    refine .bind .user fun _ _ _ => .bind .lib fun p p' hp => .bind .user fun _ _ _ => ?_
    subst hp
    exact .insert (RangeInclusive.mk' p s.stop) sv
  · exact .pure trivial

theorem adjustInsertC_rel [BEq V] (s : RangeInclusive K) (sv : V) (n : RangeInclusive K) (v : V) :
    Cr.Rel f (mapIRange f) (fun a b => b = mapIRange f a)
      (adjustTouchingRangesForInsertC S s sv n v)
      (adjustTouchingRangesForInsertC S' (mapIRange f s) sv (mapIRange f n) v) := by
  unfold adjustTouchingRangesForInsertC
  simp only [RangeInclusive.overlaps_map hf]
  refine .bind .user fun _ _ _ => ?_
  split
  · refine .bind .user fun _ _ _ => .bind (.remove s.start) fun _ _ _ =>
      .bind .user fun _ _ _ => .pure ?_
    simp only [mapIRange_start, mapIRange_stop, hf.rmin, hf.rmax]
    rfl
  · refine .bind .user fun _ _ _ => ?_
    split
    · exact .bind (.remove s.start) fun _ _ _ => .bind (insertLeftC_rel hf hS s sv n) fun _ _ _ =>
        .bind (insertRightC_rel hf hS s sv n) fun _ _ _ => .bind .user fun _ _ _ => .pure rfl
    · exact .bind .user fun _ _ _ => .pure rfl

theorem breakCondC_rel [BEq V] (hi : K) (v : V) (x : RangeInclusive K × V) :
    Cr.Rel f (mapIRange f) (fun a b => b = a) (breakCondC S hi v x)
      (breakCondC S' (f hi) v (Tree.ren (mapIRange f) V x)) := by
  unfold breakCondC
  simp only [Prod.map_fst, Prod.map_snd, id, mapIRange_start, hf.lt]
  refine .bind .user fun _ _ _ => ?_
  split
  · rename_i h
    rw [hS.addOne _ _ h]
    refine .bind .user fun _ _ _ => .bind .lib fun p p' hp => .bind .user fun _ _ _ => ?_
    subst hp
    simp only [hf.lt, hf.keq]
    split <;> exact .pure rfl
  · exact .pure rfl

theorem insertLoopC_rel [BEq V] (hi : K) (v : V) : ∀ (fuel : Nat) (n : RangeInclusive K),
    Cr.Rel f (mapIRange f) (fun a b => b = mapIRange f a) (insertLoopC S hi v fuel n)
      (insertLoopC S' (f hi) v fuel (mapIRange f n)) := by
  intro fuel
  induction fuel with
  | zero => intro n; exact .panic _
  | succ fuel ih =>
    intro n
    unfold insertLoopC
    refine .bind (.range (.included n.start) .unbounded) fun l l' hl => ?_
    subst hl
    rw [List.head?_map]
    cases l.head? with
    | none => exact .pure rfl
    | some x =>
      refine .bind (breakCondC_rel hf hS hi v x) fun b b' hb => ?_
      subst hb
      split
      · exact .pure rfl
      · refine .bind .user fun _ _ _ =>
          .bind (adjustInsertC_rel hf hS x.1 x.2 n v) fun a a' ha => ?_
        subst ha
        exact ih a

theorem candidates_ren (n : RangeInclusive K) (l : List (RangeInclusive K × V)) :
    filterE (fun e => e.1.touches S' (mapIRange f n))
        ((l.map (Tree.ren (mapIRange f) V)).reverse.take 2)
      = (filterE (fun e => e.1.touches S n) (l.reverse.take 2)).map
          (List.map (Tree.ren (mapIRange f) V)) := by
  rw [← List.map_reverse, ← List.map_take,
    filterE_map (p := fun e => e.1.touches S n) (fun e => by
      simp only [Prod.map_fst, RangeInclusive.touches_map hf hS])]

theorem insertPrefixC_rel [BEq V] (n : RangeInclusive K) (v : V) :
    Cr.Rel f (mapIRange f) (fun a b => b = mapIRange f a) (insertPrefixC S n v)
      (insertPrefixC S' (mapIRange f n) v) := by
  unfold insertPrefixC
  refine .bind (.range .unbounded (.included n.start)) fun l l' hl => ?_
  subst hl
  rw [candidates_ren hf hS]
  refine .bind .user fun _ _ _ => .bind .lib fun cs cs' hcs => ?_
  subst hcs
  match cs with
  | [] => exact .pure rfl
  | [c] => exact .bind .user fun _ _ _ => adjustInsertC_rel hf hS c.1 c.2 n v
  | _ :: c :: _ => exact .bind .user fun _ _ _ => adjustInsertC_rel hf hS c.1 c.2 n v

theorem insertProgram_rel [BEq V] (r : RangeInclusive K) (v : V) :
    Cr.Rel f (mapIRange f) (fun _ _ => True) (insertProgram S r v)
      (insertProgram S' (mapIRange f r) v) := by
  unfold insertProgram
  refine .bind .user fun _ _ _ => ?_
  simp only [mapIRange_start, mapIRange_stop, hf.le]
  split
  · refine .bind .len fun n n' hn => ?_
    subst hn
    refine .bind (insertPrefixC_rel hf hS r v) fun a a' ha => ?_
    subst ha
    refine .bind .user fun _ _ _ => .bind (insertLoopC_rel hf hS a.stop v _ a) fun b b' hb => ?_
    subst hb
    exact .bind (.insert b v) fun _ _ _ => .user
  · exact .panic _

theorem adjustRemoveC_rel (s : RangeInclusive K) (sv : V) (n : RangeInclusive K) :
    Cr.Rel f (mapIRange f) (fun _ _ => True) (adjustOverlappingRangesForRemoveC S s sv n)
      (adjustOverlappingRangesForRemoveC S' (mapIRange f s) sv (mapIRange f n)) := by
  unfold adjustOverlappingRangesForRemoveC
  exact .bind (.remove s.start) fun _ _ _ => .bind (insertLeftC_rel hf hS s sv n) fun _ _ _ =>
    .bind (insertRightC_rel hf hS s sv n) fun _ _ _ => .user

theorem removeLoopC_rel (n : RangeInclusive K) : ∀ fuel : Nat,
    Cr.Rel f (mapIRange f) (fun _ _ => True)
      (removeLoopC S n fuel : Cr K (RangeInclusive K) V Unit)
      (removeLoopC S' (mapIRange f n) fuel) := by
  intro fuel
  induction fuel with
  | zero => exact .panic _
  | succ fuel ih =>
    unfold removeLoopC
    refine .bind (.range (.excluded n.start) (.included n.stop)) fun l l' hl => ?_
    subst hl
    rw [List.head?_map]
    cases l.head? with
    | none => exact .pure trivial
    | some x =>
      exact .bind .user fun _ _ _ => .bind (adjustRemoveC_rel hf hS x.1 x.2 n) fun _ _ _ => ih

omit hS in
theorem last_ren (n : RangeInclusive K) (l : List (RangeInclusive K × V)) :
    ((l.map (Tree.ren (mapIRange f) V)).getLast?.filter fun e => e.1.overlaps (mapIRange f n))
      = (l.getLast?.filter fun e => e.1.overlaps n).map (Tree.ren (mapIRange f) V) := by
  rw [List.getLast?_map]
  cases l.getLast? with
  | none => rfl
  | some x =>
    simp only [Option.map_some, Option.filter_some, Prod.map_fst, RangeInclusive.overlaps_map hf]
    split <;> rfl

theorem removePrefixC_rel (n : RangeInclusive K) :
    Cr.Rel f (mapIRange f) (fun _ _ => True)
      (removePrefixC S n : Cr K (RangeInclusive K) V Unit)
      (removePrefixC S' (mapIRange f n)) := by
  unfold removePrefixC
  refine .bind (.range .unbounded (.included n.start)) fun l l' hl => ?_
  subst hl
  rw [last_ren hf]
  refine .bind .user fun _ _ _ => ?_
  cases l.getLast?.filter fun e => e.1.overlaps n with
  | none => exact .pure trivial
  | some x => exact .bind .user fun _ _ _ => adjustRemoveC_rel hf hS x.1 x.2 n

theorem removeProgram_rel (r : RangeInclusive K) :
    Cr.Rel f (mapIRange f) (fun _ _ => True)
      (removeProgram S r : Cr K (RangeInclusive K) V Unit)
      (removeProgram S' (mapIRange f r)) := by
  unfold removeProgram
  refine .bind .user fun _ _ _ => ?_
  simp only [mapIRange_start, mapIRange_stop, hf.le]
  split
  · refine .bind .len fun n n' hn => ?_
    subst hn
    exact .bind (removePrefixC_rel hf hS r) fun _ _ _ => .bind .user fun _ _ _ =>
      .bind (removeLoopC_rel hf hS r _) fun _ _ _ => .user
  · exact .panic _

end RangeInclusiveMap
end Verif

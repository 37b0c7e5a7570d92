import Verif.Model.Provided
import Verif.Props.Demo
import Verif.Props.Set
import Verif.Props.ISet
import Verif.Props.Iter
import Verif.Props.IIter

/-!
# C109: the provided methods of the iterators

`count`, `last`, `nth`, `find`, `any`, `all`, `position`, `fold` and `rev` do, on each of the
crate's iterators, what they do on the list of its items; and what they return agrees with the
crate's other methods.
-/
set_option linter.unusedSectionVars false

namespace Verif.Spec
variable {S α β : Type}

/-- A loop that ends and returns `r`, however many rounds more than necessary it is allowed. -/
def Returns (f : Nat → Except Panic β) (r : β) : Prop := ∃ n, ∀ fuel, n ≤ fuel → f fuel = .ok r

/-- An iterator with two ends that still has to yield the items `l`: whatever is called, in which
order ever, returns what it should. -/
def Ends (next back : S → Option α × S) (s : S) (l : List α) : Prop :=
  ∀ cs, script next back cs s = dequeScript cs l

end Verif.Spec

namespace Verif.Props
open Spec

section Generic
variable {S α β : Type} {next : S → Except Panic (Option α × S)}

theorem YieldsE.head {s : S} {a : α} {l : List α} (h : YieldsE next s (a :: l)) :
    ∃ s', next s = .ok (some a, s') ∧ YieldsE next s' l := by
  have h1 := h 1
  simp only [callsE] at h1
  cases e : next s with
  | error p => rw [e] at h1; cases h1
  | ok x =>
    obtain ⟨b, s'⟩ := x
    rw [e] at h1
    have : b = some a := by simpa [Except.map] using h1
    subst this
    refine ⟨s', rfl, fun n => ?_⟩
    have h2 := h (n + 1)
    simp only [callsE, e] at h2
    cases e2 : callsE next n s' with
    | error p => rw [e2] at h2; cases h2
    | ok y =>
      rw [e2] at h2
      simp only [Except.map, List.map_cons, List.cons_append, List.take_succ_cons,
        Except.ok.injEq, List.cons.injEq, true_and] at h2
      rw [h2, take_replicate_succ]

theorem YieldsE.stop {s : S} (h : YieldsE next s ([] : List α)) :
    ∃ s', next s = .ok (none, s') ∧ YieldsE next s' ([] : List α) := by
  have h1 := h 1
  simp only [callsE] at h1
  cases e : next s with
  | error p => rw [e] at h1; cases h1
  | ok x =>
    obtain ⟨b, s'⟩ := x
    rw [e] at h1
    have : b = none := by simpa [Except.map] using h1
    subst this
    refine ⟨s', rfl, fun n => ?_⟩
    have h2 := h (n + 1)
    simp only [callsE, e] at h2
    cases e2 : callsE next n s' with
    | error p => rw [e2] at h2; cases h2
    | ok y =>
      rw [e2] at h2
      simpa [Except.map, List.replicate_succ, List.take_replicate] using h2

theorem Yields.total {next : S → Option α × S} {s : S} {l : List α} (h : Yields next s l) :
    YieldsE (Provided.total next) s l := by
  intro n
  rw [← h n]
  clear h
  induction n generalizing s with
  | zero => rfl
  | succ n ih => simp only [callsE, Provided.total, calls, ih]; rfl

theorem demo_yields : YieldsE (Provided.total RangeMap.Iter.next) Demo.map.iterator Demo.map.iter :=
  Yields.total (Verif.Yields.cons rfl (Verif.Yields.cons rfl (Verif.Yields.cons rfl
    (Verif.Yields.cons rfl (Verif.Yields.nil (fun s => s.inner = [])
      (fun s hs => by obtain ⟨l⟩ := s; cases hs; exact ⟨rfl, rfl⟩) rfl)))))

/-- **C109** `fold` folds the list of the items. -/
theorem C109_fold {s : S} {l : List α} (h : YieldsE next s l) (f : β → α → β) (b : β) :
    Returns (fun n => Provided.fold next f n s b) (l.foldl f b) := by
  refine ⟨l.length + 1, fun fuel hf => ?_⟩
  induction l generalizing s fuel b with
  | nil =>
    obtain ⟨s', h1, -⟩ := YieldsE.stop h
    obtain ⟨n, rfl⟩ : ∃ n, fuel = n + 1 := ⟨fuel - 1, by simp at hf; omega⟩
    simp only [Provided.fold, h1]
    rfl
  | cons a l ih =>
    obtain ⟨s', h1, h2⟩ := YieldsE.head h
    obtain ⟨n, rfl⟩ : ∃ n, fuel = n + 1 := ⟨fuel - 1, by simp at hf; omega⟩
    simp only [Provided.fold, h1]
    exact ih h2 (f b a) n (by simpa using hf)

example := C109_fold demo_yields (fun n e => n + (e.1.stop - e.1.start)) 0

/-- **C109** `count` returns how many items there are. -/
theorem C109_count {s : S} {l : List α} (h : YieldsE next s l) :
    Returns (fun n => Provided.count next n s) l.length := by
  have h1 := C109_fold h (fun n _ => n + 1) 0
  have h2 : ∀ (l : List α) (i : Nat), l.foldl (fun n _ => n + 1) i = i + l.length := by
    intro l
    induction l with
    | nil => intro i; rfl
    | cons a l ih => intro i; rw [List.foldl_cons, ih, List.length_cons]; omega
  rwa [h2, Nat.zero_add] at h1

example := C109_count demo_yields
example : Provided.count (Provided.total RangeMap.Iter.next) 9 Demo.map.iterator = .ok 4 := by rfl

/-- **C109** `last` returns the last item. -/
theorem C109_last {s : S} {l : List α} (h : YieldsE next s l) :
    Returns (fun n => Provided.last next n s) l.getLast? := by
  have h1 := C109_fold h (fun _ a => some a) none
  have h2 : ∀ (l : List α) (i : Option α), l.foldl (fun _ a => some a) i = l.getLast?.or i := by
    intro l
    induction l with
    | nil => intro i; rfl
    | cons a l ih =>
      intro i
      rw [List.foldl_cons, ih, List.getLast?_cons]
      cases l.getLast? <;> rfl
  rwa [h2, Option.or_none] at h1

example := C109_last demo_yields
example : Provided.last (Provided.total RangeMap.Iter.next) 9 Demo.map.iterator =
    .ok (some (⟨25, 40⟩, 'c')) := by rfl

/-- **C109** `nth(n)` returns the item number `n`, counted from 0; the iterator goes on with the
item behind it. -/
theorem C109_nth {s : S} {l : List α} (h : YieldsE next s l) (n : Nat) :
    ∃ s', Provided.nth next n s = .ok (l[n]?, s') ∧ YieldsE next s' (l.drop (n + 1)) := by
  induction n generalizing s l with
  | zero =>
    cases l with
    | nil =>
      obtain ⟨s', h1, h2⟩ := YieldsE.stop h
      exact ⟨s', h1, h2⟩
    | cons a l =>
      obtain ⟨s', h1, h2⟩ := YieldsE.head h
      exact ⟨s', h1, by simpa using h2⟩
  | succ n ih =>
    cases l with
    | nil =>
      obtain ⟨s', h1, h2⟩ := YieldsE.stop h
      refine ⟨s', ?_, by simpa using h2⟩
      simp only [Provided.nth, Provided.advanceBy, h1]
      rfl
    | cons a l =>
      obtain ⟨s', h1, h2⟩ := YieldsE.head h
      obtain ⟨s'', h3, h4⟩ := ih h2
      refine ⟨s'', ?_, by simpa using h4⟩
      rw [List.getElem?_cons_succ, ← h3]
      simp only [Provided.nth, Provided.advanceBy, h1]
      rfl

example := C109_nth demo_yields 2
example : (Provided.nth (Provided.total RangeMap.Iter.next) 2 Demo.map.iterator).toOption.map
    (·.1) = some (some (⟨20, 25⟩, 'b')) := by rfl

/-- **C109** `find(p)` returns the first item with `p`; the iterator goes on with the item behind
it. -/
theorem C109_find {s : S} {l : List α} (h : YieldsE next s l) (p : α → Bool) :
    ∃ s', Returns (fun n => Provided.find next p n s) (l.find? p, s') ∧
      YieldsE next s' (l.dropWhile (fun a => !p a)).tail := by
  induction l generalizing s with
  | nil =>
    obtain ⟨s', h1, h2⟩ := YieldsE.stop h
    refine ⟨s', ⟨1, fun fuel hf => ?_⟩, h2⟩
    obtain ⟨n, rfl⟩ : ∃ n, fuel = n + 1 := ⟨fuel - 1, by omega⟩
    simp only [Provided.find, h1]
    rfl
  | cons a l ih =>
    obtain ⟨s1, h1, h2⟩ := YieldsE.head h
    cases hp : p a with
    | true =>
      refine ⟨s1, ⟨1, fun fuel hf => ?_⟩, by simpa [hp] using h2⟩
      obtain ⟨n, rfl⟩ : ∃ n, fuel = n + 1 := ⟨fuel - 1, by omega⟩
      simp only [Provided.find, h1]
      simp [bind, Except.bind, hp, pure, Except.pure]
    | false =>
      obtain ⟨s', ⟨n, h3⟩, h4⟩ := ih h2
      refine ⟨s', ⟨n + 1, fun fuel hf => ?_⟩, by simpa [hp] using h4⟩
      obtain ⟨i, rfl⟩ : ∃ i, fuel = i + 1 := ⟨fuel - 1, by omega⟩
      have := h3 i (by omega)
      simp only [Provided.find, h1]
      simpa [bind, Except.bind, hp, pure, Except.pure] using this

example := C109_find demo_yields (fun e => e.2 == 'b')
example : (Provided.find (Provided.total RangeMap.Iter.next) (fun e => e.2 == 'b') 9
    Demo.map.iterator).toOption.map (·.1) = some (some (⟨20, 25⟩, 'b')) := by rfl

/-- **C109** `any(p)` tells whether an item has `p`, `all(p)` whether all have. -/
theorem C109_any_all {s : S} {l : List α} (h : YieldsE next s l) (p : α → Bool) :
    Returns (fun n => Provided.any next p n s) (l.any p) ∧
      Returns (fun n => Provided.all next p n s) (l.all p) := by
  constructor
  · obtain ⟨s', ⟨n, h1⟩, -⟩ := C109_find h p
    refine ⟨n, fun fuel hf => ?_⟩
    have h1 : Provided.find next p fuel s = _ := h1 fuel hf
    show Provided.any next p fuel s = _
    rw [Provided.any, h1]
    show Except.ok (l.find? p).isSome = _
    rw [List.isSome_find?]
  · obtain ⟨s', ⟨n, h1⟩, -⟩ := C109_find h (fun a => !p a)
    refine ⟨n, fun fuel hf => ?_⟩
    have h1 : Provided.find next _ fuel s = _ := h1 fuel hf
    show Provided.all next p fuel s = _
    rw [Provided.all, h1]
    show Except.ok (!(l.find? _).isSome) = _
    rw [List.isSome_find?, List.not_any_eq_all_not]
    simp

example := C109_any_all demo_yields (fun e => e.2 == 'b')

/-- **C109** `position(p)` returns the number of the first item with `p`. -/
theorem C109_position {s : S} {l : List α} (h : YieldsE next s l) (p : α → Bool) :
    Returns (fun n => Provided.position next p n s 0) (l.findIdx? p) := by
  have key : ∀ {s : S} {l : List α} (i : Nat), YieldsE next s l →
      Returns (fun n => Provided.position next p n s i) ((l.findIdx? p).map (i + ·)) := by
    intro s l
    induction l generalizing s with
    | nil =>
      intro i h
      obtain ⟨s', h1, h2⟩ := YieldsE.stop h
      refine ⟨1, fun fuel hf => ?_⟩
      obtain ⟨n, rfl⟩ : ∃ n, fuel = n + 1 := ⟨fuel - 1, by omega⟩
      simp only [Provided.position, h1]
      rfl
    | cons a l ih =>
      intro i h
      obtain ⟨s1, h1, h2⟩ := YieldsE.head h
      cases hp : p a with
      | true =>
        refine ⟨1, fun fuel hf => ?_⟩
        obtain ⟨n, rfl⟩ : ∃ n, fuel = n + 1 := ⟨fuel - 1, by omega⟩
        simp only [Provided.position, h1]
        simp [bind, Except.bind, hp, pure, Except.pure, List.findIdx?_cons]
      | false =>
        obtain ⟨n, h3⟩ := ih (i + 1) h2
        refine ⟨n + 1, fun fuel hf => ?_⟩
        obtain ⟨j, rfl⟩ : ∃ j, fuel = j + 1 := ⟨fuel - 1, by omega⟩
        have h3 : Provided.position next p j s1 (i + 1) = _ := h3 j (by omega)
        simp only [Provided.position, h1]
        simp only [bind, Except.bind, hp, Bool.false_eq_true, if_false, h3, List.findIdx?_cons,
          Option.map_map]
        congr 2
        funext x
        simp
        omega
  have := key 0 h
  simpa using this

example := C109_position demo_yields (fun e => e.2 == 'b')
example : Provided.position (Provided.total RangeMap.Iter.next) (fun e => e.2 == 'b') 9
    Demo.map.iterator 0 = .ok (some 2) := by rfl

variable {next back : S → Option α × S}

theorem Ends.yields {s : S} {l : List α} (h : Ends next back s l) : Yields next s l := by
  intro n
  have h1 := h (List.replicate n .front)
  have h2 : ∀ n s, script next back (List.replicate n .front) s = calls next n s := by
    intro n
    induction n with
    | zero => intro s; rfl
    | succ n ih => intro s; rw [List.replicate_succ, script, ih, calls]
  have h3 : ∀ n (l : List α), dequeScript (List.replicate n .front) l =
      (l.map some ++ List.replicate n none).take n := by
    intro n
    induction n with
    | zero => intro l; rfl
    | succ n ih =>
      intro l
      rw [List.replicate_succ, dequeScript, ih]
      cases l with
      | nil => simp [List.replicate_succ, List.take_replicate]
      | cons a l => simp [take_replicate_succ]
  rw [← h2, h1, h3]

/-- **C109** `rev` gives an iterator with two ends, too, that yields the items in the opposite
order. -/
theorem C109_rev {s : S} {l : List α} (h : Ends next back s l) : Ends back next s l.reverse := by
  let flip : End → End := fun e => match e with | .front => .back | .back => .front
  intro cs
  have h1 : ∀ cs s, script back next cs s = script next back (cs.map flip) s := by
    intro cs
    induction cs with
    | nil => intro s; rfl
    | cons c cs ih => intro s; cases c <;> simp only [List.map_cons, script, flip, ih]
  have h2 : ∀ cs (l : List α), dequeScript cs l.reverse = dequeScript (cs.map flip) l := by
    intro cs
    induction cs with
    | nil => intro l; rfl
    | cons c cs ih =>
      intro l
      cases c with
      | front =>
        simp only [List.map_cons, dequeScript, flip, ← ih]
        rw [List.head?_reverse, List.tail_reverse]
      | back =>
        simp only [List.map_cons, dequeScript, flip, ← ih]
        rw [List.getLast?_reverse, List.dropLast_reverse]
  rw [h1, h2]
  exact h _

example := C109_rev (C16_iter_double_ended Demo.map)
example : Provided.last (Provided.total RangeMap.Iter.nextBack) 9 Demo.map.iterator =
    .ok (some (⟨0, 3⟩, 'a')) := by rfl

/-- **C109** From an iterator with two ends `last()` returns what `next_back()` would have, and
`rev().last()` what `next()` would have. -/
theorem C109_last_ends {s : S} {l : List α} (h : Ends next back s l) :
    Returns (fun n => Provided.last (Provided.total next) n s) (back s).1 ∧
      Returns (fun n => Provided.last (Provided.total back) n s) (next s).1 := by
  have h1 := h [.back]
  have h2 := h [.front]
  simp only [script, dequeScript, List.cons.injEq, and_true] at h1 h2
  have h3 := C109_last (Yields.total (Ends.yields h))
  have h4 := C109_last (Yields.total (Ends.yields (C109_rev h)))
  rw [List.getLast?_reverse] at h4
  rw [h1, h2]
  exact ⟨h3, h4⟩

example := C109_last_ends (C16_iter_double_ended Demo.map)

end Generic

theorem find_eq {α : Type} {l : List α} {p : α → Bool} {o : Option α}
    (h : ∀ a, o = some a ↔ a ∈ l ∧ p a = true) : l.find? p = o := by
  cases o with
  | none =>
    rw [List.find?_eq_none]
    intro a ha hp
    have := (h a).2 ⟨ha, hp⟩
    cases this
  | some a =>
    cases hf : l.find? p with
    | none =>
      have := (h a).1 rfl
      exact absurd this.2 (List.find?_eq_none.1 hf a this.1)
    | some b =>
      rw [(h b).2 ⟨List.mem_of_find?_eq_some hf, List.find?_some hf⟩]

section Maps
open RangeMap
variable {K : Type} [LE K] [LT K] [DecidableLE K] [DecidableLT K]
  [Std.IsLinearPreorder K] [Std.LawfulOrderLT K] {V : Type} [BEq V] [PartialEquivBEq V]

/-- **C109** On the iterator over a map `count()` is `len()`, `last()` is `last_range_value()`,
`rev().last()` is `first_range_value()`. -/
theorem C109_iter (m : RangeMap K V) :
    Returns (fun n => Provided.count (Provided.total Iter.next) n m.iterator) m.len ∧
    Returns (fun n => Provided.last (Provided.total Iter.next) n m.iterator) m.lastRangeValue ∧
    Returns (fun n => Provided.last (Provided.total Iter.nextBack) n m.iterator)
      m.firstRangeValue := by
  have h : Ends Iter.next Iter.nextBack m.iterator m.iter := C16_iter_double_ended m
  have h1 := C109_last (Yields.total (Ends.yields (C109_rev h)))
  rw [List.getLast?_reverse] at h1
  exact ⟨C109_count (Yields.total (Ends.yields h)), C109_last (Yields.total (Ends.yields h)), h1⟩

example := C109_iter (K := Nat) (V := Char) Demo.map

/-- **C109** Looking for the entry whose range contains a key, from the front or from the back,
finds what `get_key_value` returns. -/
theorem C109_iter_find {m : RangeMap K V} (hm : Reachable m) (k : K) :
    ∃ x, m.getKeyValue k = .ok x ∧
      (∃ i, Returns (fun n => Provided.find (Provided.total Iter.next) (fun e => e.1.contains k) n
        m.iterator) (x, i)) ∧
      ∃ i, Returns (fun n => Provided.find (Provided.total Iter.nextBack) (fun e => e.1.contains k)
        n m.iterator) (x, i) := by
  have h : Ends Iter.next Iter.nextBack m.iterator m.iter := C16_iter_double_ended m
  obtain ⟨o, h1, -⟩ := C09_projections hm k
  have h2 : ∀ e, o = some e ↔ e ∈ m.iter ∧ e.1.contains k = true := by
    intro e
    have := C09_get_key_value hm k e
    rw [h1] at this
    simpa [Range.contains] using this
  obtain ⟨i, h3, -⟩ := C109_find (Yields.total (Ends.yields h)) (fun e => e.1.contains k)
  obtain ⟨j, h4, -⟩ := C109_find (Yields.total (Ends.yields (C109_rev h))) (fun e => e.1.contains k)
  rw [find_eq h2] at h3
  rw [find_eq (o := o) (by simpa using h2)] at h4
  exact ⟨o, h1, ⟨i, h3⟩, j, h4⟩

example := C109_iter_find (K := Nat) (V := Char) (m := Demo.map) Demo.map_reachable 22

/-- **C109** On `overlapping(&q)`: `count()` is the number of entries that share a key with `q`,
`overlaps(&q)` tells whether there is any, `last()` is what `next_back()` would return and
`rev().last()` what `next()` would; and looking for the range that contains a key of `q` finds what
`get_key_value` returns. -/
theorem C109_overlapping {m : RangeMap K V} (hm : Reachable m) (q : Range K) :
    ∃ o, m.overlapping q = .ok o ∧
      Returns (fun n => Provided.count (Provided.total Overlapping.next) n o)
        (m.iter.countP fun e => decide (q.start < e.1.stop) && decide (e.1.start < q.stop)) ∧
      Returns (fun n => Provided.last (Provided.total Overlapping.next) n o) o.nextBack.1 ∧
      Returns (fun n => Provided.last (Provided.total Overlapping.nextBack) n o) o.next.1 ∧
      (∃ b, m.overlaps q = .ok b ∧
        Returns (fun n => Provided.any (Provided.total Overlapping.next) (fun _ => true) n o) b) ∧
      ∀ k, q.contains k = true → ∃ x i, m.getKeyValue k = .ok x ∧
        Returns (fun n => Provided.find (Provided.total Overlapping.next)
          (fun e => e.1.contains k) n o) (x, i) := by
  obtain ⟨o, h0, -⟩ := C14_overlapping_double_ended hm q []
  have h : Ends Overlapping.next Overlapping.nextBack o
      (m.iter.filter fun e => decide (q.start < e.1.stop) && decide (e.1.start < q.stop)) := by
    intro cs
    obtain ⟨o', h1, h2⟩ := C14_overlapping_double_ended hm q cs
    rw [h0] at h1
    cases h1
    exact h2
  have hy := Yields.total (Ends.yields h)
  refine ⟨o, h0, ?_, (C109_last_ends h).1, (C109_last_ends h).2, ?_, fun k hk => ?_⟩
  · rw [List.countP_eq_length_filter]
    exact C109_count hy
  · obtain ⟨b, h1, h2⟩ := C13_overlaps hm q
    refine ⟨b, h1, ?_⟩
    have := (C109_any_all hy (fun _ => true)).1
    rwa [show List.any _ _ = b by
      rw [Bool.eq_iff_iff, h2]
      simp] at this
  · obtain ⟨x, h1, -⟩ := C09_projections hm k
    obtain ⟨i, h3, -⟩ := C109_find hy (fun e => e.1.contains k)
    refine ⟨x, i, h1, ?_⟩
    rwa [find_eq (o := x)] at h3
    intro e
    have := C09_get_key_value hm k e
    rw [h1] at this
    simp only [Except.ok.injEq] at this
    simp only [Range.contains, Bool.and_eq_true, decide_eq_true_eq] at hk
    rw [this]
    simp only [List.mem_filter, Range.contains, Bool.and_eq_true, decide_eq_true_eq]
    constructor
    · rintro ⟨i1, i2, i3⟩
      exact ⟨⟨i1, Std.lt_of_le_of_lt hk.1 i3, Std.lt_of_le_of_lt i2 hk.2⟩, i2, i3⟩
    · rintro ⟨⟨i1, -⟩, i2, i3⟩
      exact ⟨i1, i2, i3⟩

example := C109_overlapping (K := Nat) (V := Char) (m := Demo.map) Demo.map_reachable ⟨2, 22⟩

/-- **C109** A range of `gaps(&q)` contains a key exactly if `q` does and the key has no value; and
all of them lie inside `q`. -/
theorem C109_gaps {m : RangeMap K V} (hm : Reachable m) (q : Range K) :
    ∃ g, m.gaps q = .ok g ∧
      (∀ k, ∃ x, m.containsKey k = .ok x ∧
        Returns (fun n => Provided.any (Provided.total Gaps.next) (fun r => r.contains k) n g)
          (q.contains k && !x)) ∧
      Returns (fun n => Provided.all (Provided.total Gaps.next)
        (fun r => decide (q.start ≤ r.start) && decide (r.stop ≤ q.stop)) n g) true := by
  obtain ⟨g, l, h1, h2, h3⟩ := C10_gaps_exact hm q
  obtain ⟨g', l', h1', h2', h3', -⟩ := C11_gaps_ordered hm q
  rw [h1] at h1'
  cases h1'
  cases Verif.Yields.unique h2 h2'
  refine ⟨g, h1, fun k => ?_, ?_⟩
  · obtain ⟨o, i1, i2, i3⟩ := C09_projections hm k
    refine ⟨_, i3, ?_⟩
    have := (C109_any_all (Yields.total h2) (fun r => r.contains k)).1
    rwa [show List.any _ _ = (q.contains k && !o.isSome) by
      have := h3 k
      rw [i2] at this
      rw [Bool.eq_iff_iff, List.any_eq_true]
      simp only [Range.contains, Bool.and_eq_true, decide_eq_true_eq]
      rw [this]
      cases o <;> simp] at this
  · have := (C109_any_all (Yields.total h2)
      (fun r => decide (q.start ≤ r.start) && decide (r.stop ≤ q.stop))).2
    rwa [show List.all _ _ = true by
      rw [List.all_eq_true]
      intro r hr
      have := h3' r hr
      simp [this]] at this

example := C109_gaps (K := Nat) (V := Char) (m := Demo.map) Demo.map_reachable ⟨1, 50⟩

end Maps

section Sets
open RangeSet
variable {K : Type} [LE K] [LT K] [DecidableLE K] [DecidableLT K]
  [Std.IsLinearPreorder K] [Std.LawfulOrderLT K]

/-- **C109** On the iterator over a set `count()` is `len()`, `last()` is the method `last()`,
`rev().last()` is `first()`, and some range contains a key exactly if the set does. -/
theorem C109_set_iter {s : RangeSet K} (hs : Reachable s) :
    Returns (fun n => Provided.count (Provided.total Iter.next) n s.iterator) s.len ∧
    Returns (fun n => Provided.last (Provided.total Iter.next) n s.iterator) s.last ∧
    Returns (fun n => Provided.last (Provided.total Iter.nextBack) n s.iterator) s.first ∧
    ∀ k, ∃ x, s.contains k = .ok x ∧
      Returns (fun n => Provided.any (Provided.total Iter.next) (fun r => r.contains k) n
        s.iterator) x := by
  have h : Ends Iter.next Iter.nextBack s.iterator s.iter := fun cs => (C48_iter s cs).1
  obtain ⟨-, -, h1, -, h2, h3⟩ := C48_iter s []
  have hy := Yields.total (Ends.yields h)
  refine ⟨h1 ▸ C109_count hy, h3 ▸ C109_last hy, ?_, fun k => ⟨_, contains_eq hs.wf k, ?_⟩⟩
  · have := C109_last (Yields.total (Ends.yields (C109_rev h)))
    rw [List.getLast?_reverse] at this
    exact h2 ▸ this
  · have := (C109_any_all hy (fun r => r.contains k)).1
    rwa [show List.any _ _ = s.has k by
      rw [Bool.eq_iff_iff, has_iff]
      simp [Range.contains]] at this

example := C109_set_iter (K := Nat) (s := Demo.set) Demo.set_reachable

/-- **C109** A range of `union` contains a key exactly if one of the sets does, one of
`intersection` exactly if both do. -/
theorem C109_union_intersection {a b : RangeSet K} (ha : Reachable a) (hb : Reachable b) (k : K) :
    ∃ x y, a.contains k = .ok x ∧ b.contains k = .ok y ∧
      Returns (fun n => Provided.any (Provided.total Union.next) (fun r => r.contains k) n
        (a.union b)) (x || y) ∧
      Returns (fun n => Provided.any (Provided.total Intersection.next) (fun r => r.contains k) n
        (a.intersection b)) (x && y) := by
  refine ⟨_, _, contains_eq ha.wf k, contains_eq hb.wf k, ?_, ?_⟩
  · obtain ⟨l, h1, -, -, h2⟩ := C37_union ha hb
    have := (C109_any_all (Yields.total h1) (fun r => r.contains k)).1
    rwa [show List.any _ _ = (a.has k || b.has k) by
      have := h2 k
      rw [contains_eq ha.wf, contains_eq hb.wf] at this
      rw [Bool.eq_iff_iff]
      simpa [Range.contains] using this] at this
  · obtain ⟨l, h1, -, -, h2⟩ := C38_intersection ha hb
    have := (C109_any_all (Yields.total h1) (fun r => r.contains k)).1
    rwa [show List.any _ _ = (a.has k && b.has k) by
      have := h2 k
      rw [contains_eq ha.wf, contains_eq hb.wf] at this
      rw [Bool.eq_iff_iff]
      simpa [Range.contains] using this] at this

example := C109_union_intersection (K := Nat) Demo.set_reachable Demo.set'_reachable 7

end Sets

end Verif.Props

namespace Verif.Props.Inclusive
open Spec

section Maps
open RangeInclusiveMap
variable {K : Type} [LE K] [LT K] [DecidableLE K] [DecidableLT K]
  [Std.IsLinearPreorder K] [Std.LawfulOrderLT K] {V : Type} [BEq V] [PartialEquivBEq V]
  {S : StepFns K}

theorem contains_fresh {r : RangeInclusive K} (h : r.exhausted = false) (k : K) :
    r.contains k = true ↔ r.start ≤ k ∧ k ≤ r.stop := by
  simp [RangeInclusive.contains, h]

theorem any_fresh {l : List (RangeInclusive K)} (h : ∀ r ∈ l, r.exhausted = false) (k : K) :
    l.any (·.contains k) = true ↔ ∃ r ∈ l, r.start ≤ k ∧ k ≤ r.stop := by
  rw [List.any_eq_true]
  constructor
  · rintro ⟨r, h1, h2⟩
    exact ⟨r, h1, (contains_fresh (h r h1) k).1 h2⟩
  · rintro ⟨r, h1, h2⟩
    exact ⟨r, h1, (contains_fresh (h r h1) k).2 h2⟩

/-- **C109** On the iterator over a map `count()` is `len()`, `last()` is `last_range_value()`,
`rev().last()` is `first_range_value()`. -/
theorem C109_iter (m : RangeInclusiveMap K V) :
    Returns (fun n => Provided.count (Provided.total Iter.next) n m.iterator) m.len ∧
    Returns (fun n => Provided.last (Provided.total Iter.next) n m.iterator) m.lastRangeValue ∧
    Returns (fun n => Provided.last (Provided.total Iter.nextBack) n m.iterator)
      m.firstRangeValue := by
  have h : Ends Iter.next Iter.nextBack m.iterator m.iter := C46_iter_double_ended m
  have h1 := C109_last (Yields.total (Ends.yields (C109_rev h)))
  rw [List.getLast?_reverse] at h1
  exact ⟨C109_count (Yields.total (Ends.yields h)), C109_last (Yields.total (Ends.yields h)), h1⟩

example := Inclusive.C109_iter (K := UIntW 8) (V := Char) Demo.imap

/-- **C109** Looking for the entry whose range contains a key, from the front or from the back,
finds what `get_key_value` returns. -/
theorem C109_iter_find (hS : LawfulSteps S) {m : RangeInclusiveMap K V} (hm : Reachable S m)
    (k : K) :
    ∃ x, m.getKeyValue k = .ok x ∧
      (∃ i, Returns (fun n => Provided.find (Provided.total Iter.next) (fun e => e.1.contains k) n
        m.iterator) (x, i)) ∧
      ∃ i, Returns (fun n => Provided.find (Provided.total Iter.nextBack) (fun e => e.1.contains k)
        n m.iterator) (x, i) := by
  have h : Ends Iter.next Iter.nextBack m.iterator m.iter := C46_iter_double_ended m
  obtain ⟨o, h1, -⟩ := C30_projections m k
  have h2 : ∀ e, o = some e ↔ e ∈ m.iter ∧ e.1.contains k = true := by
    intro e
    have := C30_get_key_value hS hm k e
    rw [h1] at this
    simp only [Except.ok.injEq] at this
    rw [this]
    exact and_congr_right fun he => (contains_fresh (C26_not_exhausted hS hm e he) k).symm
  obtain ⟨i, h3, -⟩ := C109_find (Yields.total (Ends.yields h)) (fun e => e.1.contains k)
  obtain ⟨j, h4, -⟩ := C109_find (Yields.total (Ends.yields (C109_rev h))) (fun e => e.1.contains k)
  rw [find_eq h2] at h3
  rw [find_eq (o := o) (by simpa using h2)] at h4
  exact ⟨o, h1, ⟨i, h3⟩, j, h4⟩

example := Inclusive.C109_iter_find (K := UIntW 8) (V := Char) Demo.u8_lawful Demo.imap_reachable
    ⟨22⟩

/-- **C109** On `overlapping(&q)`: `count()` is the number of entries that share a key with `q`,
`overlaps(&q)` tells whether there is any, `last()` is what `next_back()` would return and
`rev().last()` what `next()` would; and looking for the range that contains a key of `q` finds what
`get_key_value` returns. -/
theorem C109_overlapping (hS : LawfulSteps S) {m : RangeInclusiveMap K V} (hm : Reachable S m)
    (q : RangeInclusive K) :
    ∃ o, m.overlapping q = .ok o ∧
      Returns (fun n => Provided.count (Provided.total Overlapping.next) n o)
        (m.iter.countP fun e => decide (q.start ≤ e.1.stop) && decide (e.1.start ≤ q.stop)) ∧
      Returns (fun n => Provided.last (Provided.total Overlapping.next) n o) o.nextBack.1 ∧
      Returns (fun n => Provided.last (Provided.total Overlapping.nextBack) n o) o.next.1 ∧
      (∃ b, m.overlaps q = .ok b ∧
        Returns (fun n => Provided.any (Provided.total Overlapping.next) (fun _ => true) n o) b) ∧
      ∀ k, q.start ≤ k → k ≤ q.stop → ∃ x i, m.getKeyValue k = .ok x ∧
        Returns (fun n => Provided.find (Provided.total Overlapping.next)
          (fun e => e.1.contains k) n o) (x, i) := by
  obtain ⟨o, h0, -⟩ := C14_overlapping_double_ended_inclusive hS hm.any q []
  have h : Ends Overlapping.next Overlapping.nextBack o
      (m.iter.filter fun e => decide (q.start ≤ e.1.stop) && decide (e.1.start ≤ q.stop)) := by
    intro cs
    obtain ⟨o', h1, h2⟩ := C14_overlapping_double_ended_inclusive hS hm.any q cs
    rw [h0] at h1
    cases h1
    exact h2
  have hy := Yields.total (Ends.yields h)
  refine ⟨o, h0, ?_, (C109_last_ends h).1, (C109_last_ends h).2, ?_, fun k k1 k2 => ?_⟩
  · rw [List.countP_eq_length_filter]
    exact C109_count hy
  · obtain ⟨b, h1, h2⟩ := C32_overlaps hS hm.any q
    refine ⟨b, h1, ?_⟩
    have := (C109_any_all hy (fun _ => true)).1
    rwa [show List.any _ _ = b by
      rw [Bool.eq_iff_iff, h2]
      simp] at this
  · obtain ⟨x, h1, -⟩ := C30_projections m k
    obtain ⟨i, h3, -⟩ := C109_find hy (fun e => e.1.contains k)
    refine ⟨x, i, h1, ?_⟩
    rwa [find_eq (o := x)] at h3
    intro e
    have := C30_get_key_value hS hm k e
    rw [h1] at this
    simp only [Except.ok.injEq] at this
    rw [this]
    simp only [List.mem_filter, Bool.and_eq_true, decide_eq_true_eq]
    constructor
    · rintro ⟨i1, i2, i3⟩
      exact ⟨⟨i1, Std.le_trans k1 i3, Std.le_trans i2 k2⟩,
        (contains_fresh (C26_not_exhausted hS hm e i1) k).2 ⟨i2, i3⟩⟩
    · rintro ⟨⟨i1, -⟩, i2⟩
      exact ⟨i1, (contains_fresh (C26_not_exhausted hS hm e i1) k).1 i2⟩

example := Inclusive.C109_overlapping (K := UIntW 8) (V := Char) Demo.u8_lawful Demo.imap_reachable
    (Demo.by8 2 22)

/-- **C109** A range of `gaps(&q)` contains a key exactly if `q` does and the key has no value; and
all of them lie inside `q`. -/
theorem C109_gaps (hS : LawfulSteps S) {m : RangeInclusiveMap K V} (hm : Reachable S m)
    (q : RangeInclusive K) :
    ∃ g, m.gaps q = .ok g ∧
      (∀ k, ∃ x, m.containsKey k = .ok x ∧
        Returns (fun n => Provided.any (Gaps.next S) (fun r => r.contains k) n g)
          (decide (q.start ≤ k) && decide (k ≤ q.stop) && !x)) ∧
      Returns (fun n => Provided.all (Gaps.next S)
        (fun r => decide (q.start ≤ r.start) && decide (r.stop ≤ q.stop)) n g) true := by
  obtain ⟨g, l, h1, h2, h3⟩ := C31_gaps_exact hS hm q
  obtain ⟨g', l', h1', h2', h3', -⟩ := C31_gaps_ordered hS hm.any q
  rw [h1] at h1'
  cases h1'
  cases Verif.YieldsE.unique h2 h2'
  refine ⟨g, h1, fun k => ?_, ?_⟩
  · obtain ⟨o, i1, i2, i3⟩ := C30_projections m k
    refine ⟨_, i3, ?_⟩
    have := (C109_any_all h2 (fun r => r.contains k)).1
    rwa [show List.any _ _ = (decide (q.start ≤ k) && decide (k ≤ q.stop) && !o.isSome) by
      have := h3 k
      rw [i2] at this
      rw [Bool.eq_iff_iff, any_fresh fun r hr => (h3' r hr).2.1, this]
      cases o <;> simp] at this
  · have := (C109_any_all h2
      (fun r => decide (q.start ≤ r.start) && decide (r.stop ≤ q.stop))).2
    rwa [show List.all _ _ = true by
      rw [List.all_eq_true]
      intro r hr
      have := h3' r hr
      simp [this]] at this

example := Inclusive.C109_gaps (K := UIntW 8) (V := Char) Demo.u8_lawful Demo.imap_reachable
    (Demo.by8 1 255)

end Maps

section Sets
open RangeInclusiveSet
variable {K : Type} [LE K] [LT K] [DecidableLE K] [DecidableLT K]
  [Std.IsLinearPreorder K] [Std.LawfulOrderLT K] {S : StepFns K}

theorem iter_fresh (hS : LawfulSteps S) {s : RangeInclusiveSet K} (hs : Reachable S s) :
    ∀ r ∈ s.iter, r.exhausted = false := by
  intro r hr
  obtain ⟨e, he, rfl⟩ := List.mem_map.1 hr
  exact (hs.wf hS).fresh e he

/-- **C109** On the iterator over a set `count()` is `len()`, `last()` is the method `last()`,
`rev().last()` is `first()`, and some range contains a key exactly if the set does. -/
theorem C109_set_iter (hS : LawfulSteps S) {s : RangeInclusiveSet K} (hs : Reachable S s) :
    Returns (fun n => Provided.count (Provided.total Iter.next) n s.iterator) s.len ∧
    Returns (fun n => Provided.last (Provided.total Iter.next) n s.iterator) s.last ∧
    Returns (fun n => Provided.last (Provided.total Iter.nextBack) n s.iterator) s.first ∧
    ∀ k, ∃ x, s.contains k = .ok x ∧
      Returns (fun n => Provided.any (Provided.total Iter.next) (fun r => r.contains k) n
        s.iterator) x := by
  have h : Ends Iter.next Iter.nextBack s.iterator s.iter := fun cs => (C48_iter s cs).1
  obtain ⟨-, -, h1, -, h2, h3⟩ := C48_iter s []
  have hy := Yields.total (Ends.yields h)
  refine ⟨h1 ▸ C109_count hy, h3 ▸ C109_last hy, ?_, fun k => ⟨_, contains_eq (hs.wf hS) k, ?_⟩⟩
  · have := C109_last (Yields.total (Ends.yields (C109_rev h)))
    rw [List.getLast?_reverse] at this
    exact h2 ▸ this
  · have := (C109_any_all hy (fun r => r.contains k)).1
    rwa [show List.any _ _ = s.has k by
      rw [Bool.eq_iff_iff, has_iff]
      exact any_fresh (iter_fresh hS hs) k] at this

example := Inclusive.C109_set_iter (K := UIntW 8) Demo.u8_lawful Demo.iset_reachable

/-- **C109** A range of `union` contains a key exactly if one of the sets does, one of
`intersection` exactly if both do. -/
theorem C109_union_intersection (hS : LawfulSteps S) {a b : RangeInclusiveSet K}
    (ha : Reachable S a) (hb : Reachable S b) (k : K) :
    ∃ x y, a.contains k = .ok x ∧ b.contains k = .ok y ∧
      Returns (fun n => Provided.any (Provided.total Union.next) (fun r => r.contains k) n
        (a.union b)) (x || y) ∧
      Returns (fun n => Provided.any (Provided.total Intersection.next) (fun r => r.contains k) n
        (a.intersection b)) (x && y) := by
  refine ⟨_, _, contains_eq (ha.wf hS) k, contains_eq (hb.wf hS) k, ?_, ?_⟩
  · obtain ⟨l, h1, hl, -, h2⟩ := C37_union hS ha hb
    have := (C109_any_all (Yields.total h1) (fun r => r.contains k)).1
    rwa [show List.any _ _ = (a.has k || b.has k) by
      have := h2 k
      rw [contains_eq (ha.wf hS), contains_eq (hb.wf hS)] at this
      rw [Bool.eq_iff_iff, any_fresh fun r hr => (hl r hr).2]
      simpa using this] at this
  · obtain ⟨l, h1, hl, -, h2⟩ := C38_intersection hS ha hb
    have := (C109_any_all (Yields.total h1) (fun r => r.contains k)).1
    rwa [show List.any _ _ = (a.has k && b.has k) by
      have := h2 k
      rw [contains_eq (ha.wf hS), contains_eq (hb.wf hS)] at this
      rw [Bool.eq_iff_iff, any_fresh fun r hr => (hl r hr).2]
      simpa using this] at this

example := Inclusive.C109_union_intersection (K := UIntW 8) Demo.u8_lawful Demo.iset_reachable
    Demo.iset'_reachable ⟨7⟩

end Sets

end Verif.Props.Inclusive

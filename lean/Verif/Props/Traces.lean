import Verif.Props.Map
import Verif.Props.IMap
import Verif.Props.Set
import Verif.Props.ISet

/-!
# C104: which calls of a history matter

What a container holds is decided, key by key, by the last call that writes the key.  So calls that are
overwritten by later ones can be left out of a history, calls that write no common key can be exchanged,
and a call that is not overwritten everywhere cannot be left out.
-/
namespace Verif.Spec
variable {K R V : Type}

/-- Whether a call writes key `k` (puts a value there or removes the one that is there).  A call with an
invalid range panics and writes nothing; an `extend` stops at the first invalid range. -/
def Op.writes (covers : R → K → Bool) (valid : R → Bool) : Op R V → K → Bool
  | .insert r _, k => valid r && covers r k
  | .remove r, k => valid r && covers r k
  | .clear, _ => true
  | .extend items, k => (items.takeWhile fun e => valid e.1).any fun e => covers e.1 k

/-- The same for sets. -/
def SetOp.writes (covers : R → K → Bool) (valid : R → Bool) : SetOp R → K → Bool
  | .insert r, k => valid r && covers r k
  | .remove r, k => valid r && covers r k
  | .clear, _ => true
  | .extend items, k => (items.takeWhile valid).any fun r => covers r k

/-- Every key that a call of `ops` writes is written by a call of `later`. -/
def Overwritten (covers : R → K → Bool) (valid : R → Bool) (ops later : List (Op R V)) : Prop :=
  ∀ k, ∀ op ∈ ops, op.writes covers valid k = true → ∃ op' ∈ later, op'.writes covers valid k = true

/-- No key is written both by a call of `ops` and by one of `ops'`. -/
def Independent (covers : R → K → Bool) (valid : R → Bool) (ops ops' : List (Op R V)) : Prop :=
  ∀ k, ∀ op ∈ ops, ∀ op' ∈ ops', op.writes covers valid k = true → op'.writes covers valid k = false

/-- The same for sets. -/
def SetOverwritten (covers : R → K → Bool) (valid : R → Bool) (ops later : List (SetOp R)) : Prop :=
  ∀ k, ∀ op ∈ ops, op.writes covers valid k = true → ∃ op' ∈ later, op'.writes covers valid k = true

/-- The same for sets. -/
def SetIndependent (covers : R → K → Bool) (valid : R → Bool) (ops ops' : List (SetOp R)) : Prop :=
  ∀ k, ∀ op ∈ ops, ∀ op' ∈ ops', op.writes covers valid k = true → op'.writes covers valid k = false

section
variable {covers : R → K → Bool} {valid : R → Bool}

theorem lastWrite_append (l e : List (Op R V)) (k : K) :
    lastWrite covers valid (l ++ e) k =
      if l.any (·.writes covers valid k) then lastWrite covers valid l k
      else lastWrite covers valid e k := by
  induction l with
  | nil => simp
  | cons op l ih =>
    cases op with
    | insert r v =>
      simp only [List.cons_append, lastWrite, ih, List.any_cons, Op.writes]
      by_cases h : (valid r && covers r k) = true <;> simp [h]
    | remove r =>
      simp only [List.cons_append, lastWrite, ih, List.any_cons, Op.writes]
      by_cases h : (valid r && covers r k) = true <;> simp [h]
    | clear => simp [lastWrite, Op.writes]
    | extend items =>
      have hw : (Op.extend items).writes covers valid k
        = (items.takeWhile fun e => valid e.1).any fun e => covers e.1 k := rfl
      simp only [List.cons_append, lastWrite, ih, List.any_cons, hw]
      generalize items.takeWhile (fun e => valid e.1) = l'
      cases hf : l'.reverse.find? (fun e => covers e.1 k) with
      | some e =>
        have := List.mem_of_find?_eq_some hf
        have h : (l'.any fun e => covers e.1 k) = true :=
          List.any_eq_true.2 ⟨e, List.mem_reverse.1 this,
            List.find?_some (p := fun e : R × V => covers e.1 k) hf⟩
        simp [h]
      | none =>
        have h : (l'.any fun e => covers e.1 k) = false := by
          rw [List.any_eq_false]
          intro e he
          exact List.find?_eq_none.1 hf e (List.mem_reverse.2 he)
        simp [h]

theorem lastWrite_unwritten {l : List (Op R V)} {k : K}
    (h : l.any (·.writes covers valid k) = false) : lastWrite covers valid l k = none := by
  have := lastWrite_append (covers := covers) (valid := valid) l [] k
  rw [List.append_nil, h] at this
  simpa [lastWrite] using this

theorem member_append (l e : List (SetOp R)) (k : K) :
    member covers valid (l ++ e) k =
      if l.any (·.writes covers valid k) then member covers valid l k
      else member covers valid e k := by
  induction l with
  | nil => simp
  | cons op l ih =>
    cases op with
    | insert r =>
      simp only [List.cons_append, member, ih, List.any_cons, SetOp.writes]
      by_cases h : (valid r && covers r k) = true <;> simp [h]
    | remove r =>
      simp only [List.cons_append, member, ih, List.any_cons, SetOp.writes]
      by_cases h : (valid r && covers r k) = true <;> simp [h]
    | clear => simp [member, SetOp.writes]
    | extend items =>
      simp only [List.cons_append, member, ih, List.any_cons, SetOp.writes]
      by_cases h : ((items.takeWhile valid).any fun r => covers r k) = true <;> simp [h]

theorem member_unwritten {l : List (SetOp R)} {k : K}
    (h : l.any (·.writes covers valid k) = false) : member covers valid l k = false := by
  have := member_append (covers := covers) (valid := valid) l [] k
  rw [List.append_nil, h] at this
  simpa [member] using this

theorem overwritten_lastWrite {a b c : List (Op R V)} (h : Overwritten covers valid b c) (k : K) :
    lastWrite covers valid (a ++ b ++ c).reverse k = lastWrite covers valid (a ++ c).reverse k := by
  simp only [List.reverse_append, lastWrite_append, List.any_reverse]
  by_cases hc : c.any (·.writes covers valid k) = true
  · simp [hc]
  · have hb : b.any (·.writes covers valid k) = false := by
      rw [List.any_eq_false]
      intro op ho hw
      exact hc (List.any_eq_true.2 (h k op ho hw))
    simp [hb]

theorem independent_lastWrite {a b c d : List (Op R V)} (h : Independent covers valid b c) (k : K) :
    lastWrite covers valid (a ++ b ++ c ++ d).reverse k
      = lastWrite covers valid (a ++ c ++ b ++ d).reverse k := by
  simp only [List.reverse_append, lastWrite_append, List.any_reverse]
  by_cases hb : b.any (·.writes covers valid k) = true
  · obtain ⟨op, ho, hw⟩ := List.any_eq_true.1 hb
    have hc : c.any (·.writes covers valid k) = false := by
      rw [List.any_eq_false]
      intro op' ho' hw'
      rw [h k op ho op' ho' hw] at hw'
      cases hw'
    simp [hb, hc]
  · simp [hb]

theorem overwritten_member {a b c : List (SetOp R)} (h : SetOverwritten covers valid b c) (k : K) :
    member covers valid (a ++ b ++ c).reverse k = member covers valid (a ++ c).reverse k := by
  simp only [List.reverse_append, member_append, List.any_reverse]
  by_cases hc : c.any (·.writes covers valid k) = true
  · simp [hc]
  · have hb : b.any (·.writes covers valid k) = false := by
      rw [List.any_eq_false]
      intro op ho hw
      exact hc (List.any_eq_true.2 (h k op ho hw))
    simp [hb]

theorem independent_member {a b c d : List (SetOp R)} (h : SetIndependent covers valid b c) (k : K) :
    member covers valid (a ++ b ++ c ++ d).reverse k
      = member covers valid (a ++ c ++ b ++ d).reverse k := by
  simp only [List.reverse_append, member_append, List.any_reverse]
  by_cases hb : b.any (·.writes covers valid k) = true
  · obtain ⟨op, ho, hw⟩ := List.any_eq_true.1 hb
    have hc : c.any (·.writes covers valid k) = false := by
      rw [List.any_eq_false]
      intro op' ho' hw'
      rw [h k op ho op' ho' hw] at hw'
      cases hw'
    simp [hb, hc]
  · simp [hb]

/-- A call other than `clear` that writes a key has a valid range that covers it. -/
theorem Op.writes_range {op : Op R V} {k : K} (h : op.writes covers valid k = true)
    (hc : op ≠ .clear) : ∃ r, valid r = true ∧ covers r k = true := by
  cases op with
  | insert r v => exact ⟨r, by simpa [Op.writes] using h⟩
  | remove r => exact ⟨r, by simpa [Op.writes] using h⟩
  | clear => exact absurd rfl hc
  | extend items =>
    obtain ⟨e, he, h⟩ := List.any_eq_true.1 h
    exact ⟨e.1, List.all_eq_true.1 (List.all_takeWhile (p := fun e : R × V => valid e.1)) e he, h⟩

theorem SetOp.writes_range {op : SetOp R} {k : K} (h : op.writes covers valid k = true)
    (hc : op ≠ .clear) : ∃ r, valid r = true ∧ covers r k = true := by
  cases op with
  | insert r => exact ⟨r, by simpa [SetOp.writes] using h⟩
  | remove r => exact ⟨r, by simpa [SetOp.writes] using h⟩
  | clear => exact absurd rfl hc
  | extend items =>
    obtain ⟨e, he, h⟩ := List.any_eq_true.1 h
    exact ⟨e, List.all_eq_true.1 List.all_takeWhile e he, h⟩

/-- If the calls `b` can be left out before `c` after whatever was called before (tried with nothing and
with one insertion), they are overwritten. -/
theorem overwritten_of_agree [BEq V] {b c : List (Op R V)} (v : V) (hb : ∀ op ∈ b, op ≠ .clear)
    (fresh : R → R) (hf : ∀ r k, covers (fresh r) k = covers r k) (hv : ∀ r, valid (fresh r) = valid r)
    (h0 : ∀ k, Agree (lastWrite covers valid (b ++ c).reverse k) (lastWrite covers valid c.reverse k))
    (h1 : ∀ r k, Agree (lastWrite covers valid ([Op.insert (fresh r) v] ++ b ++ c).reverse k)
      (lastWrite covers valid ([Op.insert (fresh r) v] ++ c).reverse k)) :
    Overwritten covers valid b c := by
  intro k op ho hw
  apply Classical.byContradiction
  intro hn
  have hc : c.any (·.writes covers valid k) = false := by
    rw [List.any_eq_false]
    intro op' ho' hw'
    exact hn ⟨op', ho', hw'⟩
  have hb' : b.any (·.writes covers valid k) = true := List.any_eq_true.2 ⟨op, ho, hw⟩
  obtain ⟨r, r1, r2⟩ := Op.writes_range hw (hb op ho)
  have h0 := h0 k
  have h1 := h1 r k
  have hcr : c.reverse.any (·.writes covers valid k) = false := by simpa using hc
  rw [List.reverse_append, lastWrite_append, hcr, lastWrite_unwritten hcr] at h0
  simp only [List.reverse_append, lastWrite_append, hcr, List.any_reverse, hb', List.any_append,
    Bool.or_false, Bool.false_eq_true, if_false, if_true] at h0 h1
  simp only [List.reverse_cons, List.reverse_nil, List.nil_append, lastWrite, hv, hf, r1, r2,
    Bool.and_self, if_true] at h1
  cases hl : lastWrite covers valid b.reverse k with
  | none => rw [hl] at h1; exact h1
  | some w => rw [hl] at h0; exact h0

theorem overwritten_of_member {b c : List (SetOp R)} (hb : ∀ op ∈ b, op ≠ .clear)
    (fresh : R → R) (hf : ∀ r k, covers (fresh r) k = covers r k) (hv : ∀ r, valid (fresh r) = valid r)
    (h0 : ∀ k, member covers valid (b ++ c).reverse k = member covers valid c.reverse k)
    (h1 : ∀ r k, member covers valid ([SetOp.insert (fresh r)] ++ b ++ c).reverse k
      = member covers valid ([SetOp.insert (fresh r)] ++ c).reverse k) :
    SetOverwritten covers valid b c := by
  intro k op ho hw
  apply Classical.byContradiction
  intro hn
  have hc : c.any (·.writes covers valid k) = false := by
    rw [List.any_eq_false]
    intro op' ho' hw'
    exact hn ⟨op', ho', hw'⟩
  have hb' : b.any (·.writes covers valid k) = true := List.any_eq_true.2 ⟨op, ho, hw⟩
  obtain ⟨r, r1, r2⟩ := SetOp.writes_range hw (hb op ho)
  have h0 := h0 k
  have h1 := h1 r k
  have hcr : c.reverse.any (·.writes covers valid k) = false := by simpa using hc
  rw [List.reverse_append, member_append, hcr, member_unwritten hcr] at h0
  simp only [List.reverse_append, member_append, hcr, List.any_reverse, hb', List.any_append,
    Bool.or_false, Bool.false_eq_true, if_false, if_true] at h0 h1
  simp only [List.reverse_cons, List.reverse_nil, List.nil_append, member, hv, hf, r1, r2,
    Bool.and_self, Bool.or_false] at h1
  rw [h0] at h1
  cases h1

end
end Verif.Spec

namespace Verif.Props
open Verif.Spec

section
open RangeMap
variable {K V : Type} [LE K] [LT K] [DecidableLE K] [DecidableLT K]
  [Std.IsLinearPreorder K] [Std.LawfulOrderLT K] [BEq V] [PartialEquivBEq V] [ReflBEq V]

/-- **C104** Two histories give `==` maps exactly if, for every key, the last calls that write it write
`==` values or both leave none. -/
theorem C104_same (a b : List (Op (Range K) V)) :
    (run a).eq (run b) = true ↔
      ∀ k, Agree (lastWrite covers valid a.reverse k) (lastWrite covers valid b.reverse k) := by
  have : EquivBEq V := {}
  rw [C06_canonical ⟨a, rfl⟩ ⟨b, rfl⟩]
  constructor
  · intro h k
    obtain ⟨o, o', h1, h2, h3⟩ := h k
    obtain ⟨p, h4, h5⟩ := C03_refinement a k
    obtain ⟨p', h6, h7⟩ := C03_refinement b k
    rw [h1] at h4
    rw [h2] at h6
    cases h4
    cases h6
    exact Agree.trans (Agree.symm h5) (Agree.trans h3 h7)
  · intro h k
    obtain ⟨p, h4, h5⟩ := C03_refinement a k
    obtain ⟨p', h6, h7⟩ := C03_refinement b k
    exact ⟨p, p', h4, h6, Agree.trans h5 (Agree.trans (h k) (Agree.symm h7))⟩

example := C104_same (K := Nat) (V := Char) Demo.ops (Demo.ops ++ [.insert ⟨6, 8⟩ 'a'])

/-- **C104** Calls whose keys are all written again later leave no trace. -/
theorem C104_overwritten (a : List (Op (Range K) V)) {b c : List (Op (Range K) V)}
    (h : Overwritten covers valid b c) : (run (a ++ b ++ c)).eq (run (a ++ c)) = true := by
  rw [C104_same]
  intro k
  rw [overwritten_lastWrite h]
  exact Agree.refl _

-- `2..7` is written again by `0..4` and `4..9`
example := C104_overwritten (K := Nat) (V := Char) Demo.ops (b := [.insert ⟨2, 7⟩ 'x', .remove ⟨3, 5⟩])
    (c := [.insert ⟨0, 4⟩ 'y', .remove ⟨4, 9⟩]) (by
      intro k op ho h
      have : k < 4 ∨ 4 ≤ k := by omega
      have hk : 2 ≤ k ∧ k < 7 := by
        rcases List.mem_cons.1 ho with rfl | ho
        · simpa [Op.writes, valid, covers] using h
        · rw [List.mem_singleton.1 ho] at h
          have : 3 ≤ k ∧ k < 5 := by simpa [Op.writes, valid, covers] using h
          omega
      rcases this with h' | h'
      · exact ⟨_, List.mem_cons_self, by simp [Op.writes, valid, covers, h']⟩
      · exact ⟨_, List.mem_cons_of_mem _ List.mem_cons_self, by
          simp [Op.writes, valid, covers, h']; omega⟩)

/-- **C104** Only such calls leave none (`clear` apart, which may write keys no range can cover). -/
theorem C104_trace (v : V) {b c : List (Op (Range K) V)} (hb : ∀ op ∈ b, op ≠ .clear) :
    (∀ a, (run (a ++ b ++ c)).eq (run (a ++ c)) = true) ↔ Overwritten covers valid b c := by
  refine ⟨fun h => ?_, fun h a => C104_overwritten a h⟩
  exact overwritten_of_agree v hb id (fun _ _ => rfl) (fun _ => rfl)
    ((C104_same _ _).1 (h [])) (fun r => (C104_same _ _).1 (h [.insert r v]))

-- `0..9` is not written again at 4, and so leaves a trace
example : ¬ ∀ a, (run (a ++ [.remove ⟨0, 9⟩] ++ [.insert ⟨0, 4⟩ 'y', .insert ⟨5, 9⟩ 'y'])).eq
    (run (a ++ [.insert ⟨0, 4⟩ 'y', .insert ⟨5, 9⟩ 'y'])) = true := by
  rw [C104_trace (K := Nat) 'z' (by simp)]
  intro h
  obtain ⟨op, ho, h⟩ := h 4 _ List.mem_cons_self (by decide)
  revert h
  rcases List.mem_cons.1 ho with rfl | ho
  · decide
  · rw [List.mem_singleton.1 ho]
    decide

/-- **C104** Calls that write no common key can be exchanged, whatever comes before and after. -/
theorem C104_exchange (a d : List (Op (Range K) V)) {b c : List (Op (Range K) V)}
    (h : Independent covers valid b c) :
    (run (a ++ b ++ c ++ d)).eq (run (a ++ c ++ b ++ d)) = true := by
  rw [C104_same]
  intro k
  rw [independent_lastWrite h]
  exact Agree.refl _

example := C104_exchange (K := Nat) (V := Char) Demo.ops [.remove ⟨3, 8⟩]
    (b := [.insert ⟨2, 7⟩ 'x']) (c := [.remove ⟨7, 9⟩]) (by
      intro k op ho op' ho' h
      rw [List.mem_singleton.1 ho] at h
      rw [List.mem_singleton.1 ho']
      have : 2 ≤ k ∧ k < 7 := by simpa [Op.writes, valid, covers] using h
      simp [Op.writes, valid, covers]
      omega)

/-- **C104** An insertion or removal may be made in two pieces, anywhere in a history. -/
theorem C104_split (a d : List (Op (Range K) V)) {x y z : K} (hxy : x < y) (hyz : y < z) (v : V) :
    (run (a ++ [.insert ⟨x, y⟩ v, .insert ⟨y, z⟩ v] ++ d)).eq (run (a ++ [.insert ⟨x, z⟩ v] ++ d))
      = true ∧
    (run (a ++ [.remove ⟨x, y⟩, .remove ⟨y, z⟩] ++ d)).eq (run (a ++ [.remove ⟨x, z⟩] ++ d))
      = true := by
  have hxz : x < z := by grind
  have hc : ∀ k, (covers ⟨y, z⟩ k || covers ⟨x, y⟩ k) = covers ⟨x, z⟩ k := by
    intro k
    simp only [covers, ← Bool.decide_or, decide_eq_decide]
    grind
  constructor
  all_goals
    rw [C104_same]
    intro k
    have hc := hc k
    simp only [List.reverse_append, lastWrite_append, List.any_reverse, List.reverse_cons,
      List.reverse_nil, List.nil_append, List.any_cons, List.any_nil, Op.writes, valid, hxy, hyz, hxz,
      decide_true, Bool.true_and, Bool.or_false, List.cons_append, lastWrite, ← hc]
    cases covers ⟨x, y⟩ k <;> cases covers ⟨y, z⟩ k <;> simp <;> exact Agree.refl _


example := C104_split (K := Nat) (V := Char) Demo.ops [.remove ⟨3, 8⟩] (x := 1) (y := 6) (z := 22)
    (by decide) (by decide) 'x'
end

section
open RangeSet
variable {K : Type} [LE K] [LT K] [DecidableLE K] [DecidableLT K]
  [Std.IsLinearPreorder K] [Std.LawfulOrderLT K]

/-- **C104** The same for sets. -/
theorem C104_set_same (a b : List (SetOp (Range K))) :
    (run a).eq (run b) = true ↔
      ∀ k, member covers valid a.reverse k = member covers valid b.reverse k := by
  rw [C35_eq_iff ⟨a, rfl⟩ ⟨b, rfl⟩]
  simp only [C35_refinement, Except.ok.injEq]

example := C104_set_same (K := Nat) Demo.sops (Demo.sops ++ [.insert ⟨6, 8⟩])

/-- **C104** The same for sets. -/
theorem C104_set_trace {b c : List (SetOp (Range K))} (hb : ∀ op ∈ b, op ≠ .clear) :
    (∀ a, (run (a ++ b ++ c)).eq (run (a ++ c)) = true) ↔ SetOverwritten covers valid b c := by
  refine ⟨fun h => ?_, fun h a => (C104_set_same _ _).2 (overwritten_member h)⟩
  exact overwritten_of_member hb id (fun _ _ => rfl) (fun _ => rfl)
    ((C104_set_same _ _).1 (h [])) (fun r => (C104_set_same _ _).1 (h [.insert r]))

example := C104_set_trace (K := Nat) (b := [.insert ⟨2, 7⟩, .remove ⟨3, 5⟩])
    (c := [.insert ⟨0, 4⟩, .remove ⟨4, 9⟩]) (by simp)

/-- **C104** The same for sets. -/
theorem C104_set_exchange (a d : List (SetOp (Range K))) {b c : List (SetOp (Range K))}
    (h : SetIndependent covers valid b c) :
    (run (a ++ b ++ c ++ d)).eq (run (a ++ c ++ b ++ d)) = true :=
  (C104_set_same _ _).2 (independent_member h)

example := C104_set_exchange (K := Nat) Demo.sops [.remove ⟨3, 8⟩]
    (b := [.insert ⟨2, 7⟩]) (c := [.remove ⟨7, 9⟩]) (by
      intro k op ho op' ho' h
      rw [List.mem_singleton.1 ho] at h
      rw [List.mem_singleton.1 ho']
      have : 2 ≤ k ∧ k < 7 := by simpa [SetOp.writes, valid, covers] using h
      simp [SetOp.writes, valid, covers]
      omega)

/-- **C104** The same for sets. -/
theorem C104_set_split (a d : List (SetOp (Range K))) {x y z : K} (hxy : x < y) (hyz : y < z) :
    (run (a ++ [.insert ⟨x, y⟩, .insert ⟨y, z⟩] ++ d)).eq (run (a ++ [.insert ⟨x, z⟩] ++ d)) = true ∧
    (run (a ++ [.remove ⟨x, y⟩, .remove ⟨y, z⟩] ++ d)).eq (run (a ++ [.remove ⟨x, z⟩] ++ d))
      = true := by
  have hxz : x < z := by grind
  have hc : ∀ k, (covers ⟨y, z⟩ k || covers ⟨x, y⟩ k) = covers ⟨x, z⟩ k := by
    intro k
    simp only [covers, ← Bool.decide_or, decide_eq_decide]
    grind
  constructor
  all_goals
    rw [C104_set_same]
    intro k
    have hc := hc k
    simp only [List.reverse_append, member_append, List.any_reverse, List.reverse_cons,
      List.reverse_nil, List.nil_append, List.any_cons, List.any_nil, SetOp.writes, valid, hxy, hyz,
      hxz, decide_true, Bool.true_and, Bool.or_false, List.cons_append, member, ← hc]
    cases covers ⟨x, y⟩ k <;> cases covers ⟨y, z⟩ k <;> simp

example := C104_set_split (K := Nat) Demo.sops [.remove ⟨3, 8⟩] (x := 1) (y := 6) (z := 22)
    (by decide) (by decide)
end

namespace Inclusive
section
open RangeInclusiveMap
variable {K V : Type} [LE K] [LT K] [DecidableLE K] [DecidableLT K]
  [Std.IsLinearPreorder K] [Std.LawfulOrderLT K] [BEq V] [PartialEquivBEq V] [ReflBEq V]
  {S : StepFns K}

/-- **C104** The same for inclusive maps. -/
theorem C104_same (hS : LawfulSteps S) {a b : List (Op (RangeInclusive K) V)}
    (ha : ∀ op ∈ a, ∀ r ∈ op.inserted, r.exhausted = false)
    (hb : ∀ op ∈ b, ∀ r ∈ op.inserted, r.exhausted = false) :
    (run S a).eq (run S b) = true ↔
      ∀ k, Agree (lastWrite icovers ivalid a.reverse k) (lastWrite icovers ivalid b.reverse k) := by
  have : EquivBEq V := {}
  rw [C27_canonical hS ⟨a, ha, rfl⟩ ⟨b, hb, rfl⟩]
  constructor
  · intro h k
    obtain ⟨o, o', h1, h2, h3⟩ := h k
    obtain ⟨p, h4, h5⟩ := C25_refinement hS a ha k
    obtain ⟨p', h6, h7⟩ := C25_refinement hS b hb k
    rw [h1] at h4
    rw [h2] at h6
    cases h4
    cases h6
    exact RangeMap.Agree.trans (RangeMap.Agree.symm h5) (RangeMap.Agree.trans h3 h7)
  · intro h k
    obtain ⟨p, h4, h5⟩ := C25_refinement hS a ha k
    obtain ⟨p', h6, h7⟩ := C25_refinement hS b hb k
    exact ⟨p, p', h4, h6, RangeMap.Agree.trans h5 (RangeMap.Agree.trans (h k) (RangeMap.Agree.symm h7))⟩

example := Inclusive.C104_same (K := UIntW 8) (V := Char) (S := Demo.u8) Demo.u8_lawful
    (a := Demo.iops) (b := Demo.iops ++ [.insert (Demo.by8 6 8) 'a']) (by decide) (by decide)

/-- **C104** The same for inclusive maps (histories `a` without exhausted ranges). -/
theorem C104_trace (hS : LawfulSteps S) (v : V) {b c : List (Op (RangeInclusive K) V)}
    (hb : ∀ op ∈ b, op ≠ .clear) (hbx : ∀ op ∈ b, ∀ r ∈ op.inserted, r.exhausted = false)
    (hcx : ∀ op ∈ c, ∀ r ∈ op.inserted, r.exhausted = false) :
    (∀ a : List (Op (RangeInclusive K) V), (∀ op ∈ a, ∀ r ∈ op.inserted, r.exhausted = false) →
      (run S (a ++ b ++ c)).eq (run S (a ++ c)) = true) ↔ Overwritten icovers ivalid b c := by
  have same : ∀ a : List (Op (RangeInclusive K) V),
      (∀ op ∈ a, ∀ r ∈ op.inserted, r.exhausted = false) →
      ((run S (a ++ b ++ c)).eq (run S (a ++ c)) = true ↔
      ∀ k, Agree (lastWrite icovers ivalid (a ++ b ++ c).reverse k)
        (lastWrite icovers ivalid (a ++ c).reverse k)) := by
    intro a ha
    refine C104_same hS (fun op ho => ?_) fun op ho => ?_
    · rcases List.mem_append.1 ho with ho | ho
      · rcases List.mem_append.1 ho with ho | ho
        · exact ha op ho
        · exact hbx op ho
      · exact hcx op ho
    · rcases List.mem_append.1 ho with ho | ho
      · exact ha op ho
      · exact hcx op ho
  constructor
  · intro h
    exact overwritten_of_agree v hb (fun r => .mk' r.start r.stop) (fun _ _ => rfl) (fun _ => rfl)
      ((same [] (by simp)).1 (h [] (by simp))) fun r => by
        have hr : ∀ op ∈ [Op.insert (RangeInclusive.mk' r.start r.stop) v],
            ∀ r ∈ op.inserted, r.exhausted = false := by
          intro op ho r hr
          rw [List.mem_singleton.1 ho] at hr
          rw [List.mem_singleton.1 hr]
          rfl
        exact (same _ hr).1 (h _ hr)
  · intro h a ha
    rw [same a ha]
    intro k
    rw [overwritten_lastWrite h]
    exact RangeMap.Agree.refl _

example := Inclusive.C104_trace (K := UIntW 8) (V := Char) (S := Demo.u8) Demo.u8_lawful 'z'
    (b := [.insert (Demo.by8 2 6) 'x', .remove (Demo.by8 3 4)])
    (c := [.insert (Demo.by8 0 3) 'y', .remove (Demo.by8 4 8)]) (by simp) (by decide) (by decide)

/-- **C104** The same for inclusive maps. -/
theorem C104_exchange (hS : LawfulSteps S) {a b c d : List (Op (RangeInclusive K) V)}
    (hx : ∀ op ∈ a ++ b ++ c ++ d, ∀ r ∈ op.inserted, r.exhausted = false)
    (h : Independent icovers ivalid b c) :
    (run S (a ++ b ++ c ++ d)).eq (run S (a ++ c ++ b ++ d)) = true := by
  rw [C104_same hS hx fun op ho => hx op (by
    simp only [List.mem_append] at ho ⊢
    rcases ho with ((h | h) | h) | h <;> simp [h])]
  intro k
  rw [independent_lastWrite h]
  exact RangeMap.Agree.refl _

example := Inclusive.C104_exchange (K := UIntW 8) (V := Char) (S := Demo.u8) Demo.u8_lawful
    (a := Demo.iops) (d := [.remove (Demo.by8 3 8)]) (b := [.insert (Demo.by8 2 6) 'x'])
    (c := [.remove (Demo.by8 7 9)]) (by decide) (fun k op ho op' ho' => by
      rw [List.mem_singleton.1 ho, List.mem_singleton.1 ho']
      exact Demo.forall8 (P := fun k => (Op.insert (Demo.by8 2 6) 'x').writes icovers ivalid k = true →
        (Op.remove (V := Char) (Demo.by8 7 9)).writes icovers ivalid k = false) (by decide +kernel) k)

/-- **C104** The same for inclusive maps. -/
theorem C104_split (hS : LawfulSteps S) {a d : List (Op (RangeInclusive K) V)}
    (ha : ∀ op ∈ a, ∀ r ∈ op.inserted, r.exhausted = false)
    (hd : ∀ op ∈ d, ∀ r ∈ op.inserted, r.exhausted = false) {x y y' z : K} (hxy : x ≤ y)
    (hy : Next y y') (hyz : y' ≤ z) (v : V) :
    (run S (a ++ [.insert (.mk' x y) v, .insert (.mk' y' z) v] ++ d)).eq
      (run S (a ++ [.insert (.mk' x z) v] ++ d)) = true ∧
    (run S (a ++ [.remove (.mk' x y), .remove (.mk' y' z)] ++ d)).eq
      (run S (a ++ [.remove (.mk' x z)] ++ d)) = true := by
  have hy1 := hy.1
  have hxz : x ≤ z := by grind
  have hc : ∀ k, (icovers (.mk' y' z) k || icovers (.mk' x y) k) = icovers (.mk' x z) k := by
    intro k
    have := hy.2 k
    simp only [icovers, ← Bool.decide_or, decide_eq_decide, RangeInclusive.mk']
    grind
  have hx : ∀ l : List (Op (RangeInclusive K) V), (∀ op ∈ l, ∀ r ∈ op.inserted, r.exhausted = false) →
      ∀ op ∈ a ++ l ++ d, ∀ r ∈ op.inserted, r.exhausted = false := by
    intro l hl op ho
    simp only [List.mem_append] at ho
    rcases ho with (h | h) | h
    · exact ha op h
    · exact hl op h
    · exact hd op h
  constructor
  all_goals
    rw [C104_same hS (hx _ (by simp [Op.inserted, RangeInclusive.mk']))
      (hx _ (by simp [Op.inserted, RangeInclusive.mk']))]
    intro k
    have hc := hc k
    have e1 : ivalid (.mk' x y) = true := decide_eq_true hxy
    have e2 : ivalid (.mk' y' z) = true := decide_eq_true hyz
    have e3 : ivalid (.mk' x z) = true := decide_eq_true hxz
    simp only [List.reverse_append, lastWrite_append, List.any_reverse, List.reverse_cons,
      List.reverse_nil, List.nil_append, List.any_cons, List.any_nil, Op.writes, e1, e2, e3,
      Bool.true_and, Bool.or_false, List.cons_append, lastWrite, ← hc]
    cases icovers (.mk' x y) k <;> cases icovers (.mk' y' z) k <;> simp <;> exact RangeMap.Agree.refl _

example := Inclusive.C104_split (K := UIntW 8) (V := Char) (S := Demo.u8) Demo.u8_lawful
    (a := Demo.iops) (d := [.remove (Demo.by8 3 8)]) (by decide) (by decide)
    (x := ⟨1⟩) (y := ⟨5⟩) (y' := ⟨6⟩) (z := ⟨22⟩) (by decide)
    ⟨by decide, Demo.forall8 (P := fun d => (⟨5⟩ : UIntW 8) < d → (⟨6⟩ : UIntW 8) ≤ d)
      (by decide +kernel)⟩ (by decide) 'x'
end

section
open RangeInclusiveSet
variable {K : Type} [LE K] [LT K] [DecidableLE K] [DecidableLT K]
  [Std.IsLinearPreorder K] [Std.LawfulOrderLT K] {S : StepFns K}

/-- **C104** The same for inclusive sets. -/
theorem C104_set_same (hS : LawfulSteps S) {a b : List (SetOp (RangeInclusive K))}
    (ha : ∀ op ∈ a, ∀ r ∈ op.inserted, r.exhausted = false)
    (hb : ∀ op ∈ b, ∀ r ∈ op.inserted, r.exhausted = false) :
    (run S a).eq (run S b) = true ↔
      ∀ k, member icovers ivalid a.reverse k = member icovers ivalid b.reverse k := by
  rw [C36_eq_iff hS ⟨a, ha, rfl⟩ ⟨b, hb, rfl⟩]
  simp only [C36_refinement hS a ha, C36_refinement hS b hb, Except.ok.injEq]

example := Inclusive.C104_set_same (K := UIntW 8) (S := Demo.u8) Demo.u8_lawful
    (a := Demo.isops) (b := Demo.isops ++ [.insert (Demo.by8 6 8)]) (by decide) (by decide)

/-- **C104** The same for inclusive sets (histories `a` without exhausted ranges). -/
theorem C104_set_trace (hS : LawfulSteps S) {b c : List (SetOp (RangeInclusive K))}
    (hb : ∀ op ∈ b, op ≠ .clear) (hbx : ∀ op ∈ b, ∀ r ∈ op.inserted, r.exhausted = false)
    (hcx : ∀ op ∈ c, ∀ r ∈ op.inserted, r.exhausted = false) :
    (∀ a : List (SetOp (RangeInclusive K)), (∀ op ∈ a, ∀ r ∈ op.inserted, r.exhausted = false) →
      (run S (a ++ b ++ c)).eq (run S (a ++ c)) = true) ↔ SetOverwritten icovers ivalid b c := by
  have same : ∀ a : List (SetOp (RangeInclusive K)),
      (∀ op ∈ a, ∀ r ∈ op.inserted, r.exhausted = false) →
      ((run S (a ++ b ++ c)).eq (run S (a ++ c)) = true ↔
      ∀ k, member icovers ivalid (a ++ b ++ c).reverse k
        = member icovers ivalid (a ++ c).reverse k) := by
    intro a ha
    refine C104_set_same hS (fun op ho => ?_) fun op ho => ?_
    · rcases List.mem_append.1 ho with ho | ho
      · rcases List.mem_append.1 ho with ho | ho
        · exact ha op ho
        · exact hbx op ho
      · exact hcx op ho
    · rcases List.mem_append.1 ho with ho | ho
      · exact ha op ho
      · exact hcx op ho
  constructor
  · intro h
    exact overwritten_of_member hb (fun r => .mk' r.start r.stop) (fun _ _ => rfl) (fun _ => rfl)
      ((same [] (by simp)).1 (h [] (by simp))) fun r => by
        have hr : ∀ op ∈ [SetOp.insert (RangeInclusive.mk' r.start r.stop)],
            ∀ r ∈ op.inserted, r.exhausted = false := by
          intro op ho r hr
          rw [List.mem_singleton.1 ho] at hr
          rw [List.mem_singleton.1 hr]
          rfl
        exact (same _ hr).1 (h _ hr)
  · intro h a ha
    exact (same a ha).2 (overwritten_member h)

example := Inclusive.C104_set_trace (K := UIntW 8) (S := Demo.u8) Demo.u8_lawful
    (b := [.insert (Demo.by8 2 6), .remove (Demo.by8 3 4)])
    (c := [.insert (Demo.by8 0 3), .remove (Demo.by8 4 8)]) (by simp) (by decide) (by decide)

/-- **C104** The same for inclusive sets. -/
theorem C104_set_exchange (hS : LawfulSteps S) {a b c d : List (SetOp (RangeInclusive K))}
    (hx : ∀ op ∈ a ++ b ++ c ++ d, ∀ r ∈ op.inserted, r.exhausted = false)
    (h : SetIndependent icovers ivalid b c) :
    (run S (a ++ b ++ c ++ d)).eq (run S (a ++ c ++ b ++ d)) = true := by
  rw [C104_set_same hS hx fun op ho => hx op (by
    simp only [List.mem_append] at ho ⊢
    rcases ho with ((h | h) | h) | h <;> simp [h])]
  exact independent_member h

example := Inclusive.C104_set_exchange (K := UIntW 8) (S := Demo.u8) Demo.u8_lawful
    (a := Demo.isops) (d := [.remove (Demo.by8 3 8)]) (b := [.insert (Demo.by8 2 6)])
    (c := [.remove (Demo.by8 7 9)]) (by decide) (fun k op ho op' ho' => by
      rw [List.mem_singleton.1 ho, List.mem_singleton.1 ho']
      exact Demo.forall8 (P := fun k => (SetOp.insert (Demo.by8 2 6)).writes icovers ivalid k = true →
        (SetOp.remove (Demo.by8 7 9)).writes icovers ivalid k = false) (by decide +kernel) k)

/-- **C104** The same for inclusive sets. -/
theorem C104_set_split (hS : LawfulSteps S) {a d : List (SetOp (RangeInclusive K))}
    (ha : ∀ op ∈ a, ∀ r ∈ op.inserted, r.exhausted = false)
    (hd : ∀ op ∈ d, ∀ r ∈ op.inserted, r.exhausted = false) {x y y' z : K} (hxy : x ≤ y)
    (hy : Next y y') (hyz : y' ≤ z) :
    (run S (a ++ [.insert (.mk' x y), .insert (.mk' y' z)] ++ d)).eq
      (run S (a ++ [.insert (.mk' x z)] ++ d)) = true ∧
    (run S (a ++ [.remove (.mk' x y), .remove (.mk' y' z)] ++ d)).eq
      (run S (a ++ [.remove (.mk' x z)] ++ d)) = true := by
  have hy1 := hy.1
  have hxz : x ≤ z := by grind
  have hc : ∀ k, (icovers (.mk' y' z) k || icovers (.mk' x y) k) = icovers (.mk' x z) k := by
    intro k
    have := hy.2 k
    simp only [icovers, ← Bool.decide_or, decide_eq_decide, RangeInclusive.mk']
    grind
  have hx : ∀ l : List (SetOp (RangeInclusive K)),
      (∀ op ∈ l, ∀ r ∈ op.inserted, r.exhausted = false) →
      ∀ op ∈ a ++ l ++ d, ∀ r ∈ op.inserted, r.exhausted = false := by
    intro l hl op ho
    simp only [List.mem_append] at ho
    rcases ho with (h | h) | h
    · exact ha op h
    · exact hl op h
    · exact hd op h
  constructor
  all_goals
    rw [C104_set_same hS (hx _ (by simp [SetOp.inserted, RangeInclusive.mk']))
      (hx _ (by simp [SetOp.inserted, RangeInclusive.mk']))]
    intro k
    have hc := hc k
    have e1 : ivalid (.mk' x y) = true := decide_eq_true hxy
    have e2 : ivalid (.mk' y' z) = true := decide_eq_true hyz
    have e3 : ivalid (.mk' x z) = true := decide_eq_true hxz
    simp only [List.reverse_append, member_append, List.any_reverse, List.reverse_cons,
      List.reverse_nil, List.nil_append, List.any_cons, List.any_nil, SetOp.writes, e1, e2, e3,
      Bool.true_and, Bool.or_false, List.cons_append, member, ← hc]
    cases icovers (.mk' x y) k <;> cases icovers (.mk' y' z) k <;> simp

example := Inclusive.C104_set_split (K := UIntW 8) (S := Demo.u8) Demo.u8_lawful
    (a := Demo.isops) (d := [.remove (Demo.by8 3 8)]) (by decide) (by decide)
    (x := ⟨1⟩) (y := ⟨5⟩) (y' := ⟨6⟩) (z := ⟨22⟩) (by decide)
    ⟨by decide, Demo.forall8 (P := fun d => (⟨5⟩ : UIntW 8) < d → (⟨6⟩ : UIntW 8) ≤ d)
      (by decide +kernel)⟩ (by decide)
end
end Inclusive
end Verif.Props

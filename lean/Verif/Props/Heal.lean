import Verif.Props.Unflag
import Verif.Props.IBuild
import Verif.Props.Exact
import Verif.Props.Recipes

/-!
# C101: how stored `exhausted` flags are got rid of, and how they stay

C41 and C84 say what a `RangeInclusive` that was iterated to its end does once it is stored.  Here:
writing a container with serde and reading it back clears every flag and nothing else, so does
collecting the entries with their ranges written anew, and inserting one entry anew clears its flag.
Collecting the entries as they are keeps the flags.
-/
set_option linter.unusedSectionVars false

namespace Verif.Props.Inclusive
open RangeInclusiveMap Spec
variable {K : Type} [LE K] [LT K] [DecidableLE K] [DecidableLT K]
  [Std.IsLinearPreorder K] [Std.LawfulOrderLT K] {V : Type} [BEq V] {S : StepFns K}

/-- A history without flags keeps to the API contract. -/
theorem unflagOps_reachable (ops : List (Op (RangeInclusive K) V)) :
    Reachable S (run S (ops.map unflagOp)) := by
  refine ⟨_, fun op ho r hr => ?_, rfl⟩
  obtain ⟨o, -, rfl⟩ := List.mem_map.1 ho
  cases o with
  | insert x v => obtain rfl : r = unflag x := by simpa [unflagOp, Op.inserted] using hr
                  rfl
  | remove x => simp [unflagOp, Op.inserted] at hr
  | clear => simp [unflagOp, Op.inserted] at hr
  | extend items =>
    simp only [unflagOp, Op.inserted, List.map_map, List.mem_map] at hr
    obtain ⟨x, -, rfl⟩ := hr
    rfl

section
variable [PartialEquivBEq V]

/-- A history that leaves one flagged and two other ranges, for the examples. -/
def flagged : List (Op (RangeInclusive (UIntW 8)) Char) :=
  [.insert (Demo.by8 7 12) 'b', .insert ⟨⟨2⟩, ⟨6⟩, true⟩ 'a', .insert (Demo.by8 20 30) 'a']

example : (run Demo.u8 flagged).iter.map (·.1.exhausted) = [true, false, false] := by
  decide +kernel

/-- **C101** Whatever flags a history has left in a map, writing it with serde and reading it back
succeeds and gives the map that the history without flags gives.  Only exhausted ranges make a
difference (`C101_equal`). -/
theorem C101_round_trip (hS : LawfulSteps S) {E : Type} (ops : List (Op (RangeInclusive K) V)) :
    deserialize (E := E) S ((run S ops).serialize.2.map .ok) = .ok (run S (ops.map unflagOp)) ∧
      (run S ops).serialize.1 = some (run S ops).serialize.2.length := by
  obtain ⟨-, -, -, -, -, -, -, -, h⟩ :=
    C84_summary (S := S) (fun _ _ => .eq) (fun _ _ => none) ops ops
  rw [← h]
  exact C20_round_trip hS (unflagOps_reachable ops)

example := Inclusive.C101_round_trip (K := UIntW 8) (V := Char) (S := Demo.u8) Demo.u8_lawful (E := String) flagged

/-- **C101** So does collecting the entries with every range written anew from its two ends;
collecting them as they are keeps the flags. -/
theorem C101_collect (hS : LawfulSteps S) (ops : List (Op (RangeInclusive K) V)) :
    fromIter S ((run S ops).iter.map fun e => (RangeInclusive.mk' e.1.start e.1.stop, e.2))
      = .ok (run S (ops.map unflagOp)) ∧
    fromIter S (run S ops).iter = .ok (run S ops) := by
  have key : ∀ m : RangeInclusiveMap K V, ReachableAny S m → fromIter S m.iter = .ok m := by
    intro m hm
    have := extend_rest hS m.btm [] (by simpa using hm.sc hS)
    rw [List.nil_append] at this
    rw [fromIter, RangeInclusiveMap.iter, show (new : RangeInclusiveMap K V) = ⟨[]⟩ from rfl, this]
    rfl
  refine ⟨?_, key _ ⟨ops, rfl⟩⟩
  have h := (C84_history (S := S) ops .clear).1
  rw [← key _ (unflagOps_reachable ops).any, h]
  rfl

example := Inclusive.C101_collect (K := UIntW 8) (V := Char) (S := Demo.u8) Demo.u8_lawful flagged

/-- **C101** A map and its unflagged twin are `==` exactly if no flag is stored, for values equal to
themselves; `cmp` says `Equal` in any case (`C101_cmp`). -/
theorem C101_equal [ReflBEq V] (ops : List (Op (RangeInclusive K) V)) :
    (run S ops).eq (run S (ops.map unflagOp)) = true ↔
      ∀ e ∈ (run S ops).iter, e.1.exhausted = false := by
  rw [RangeInclusiveMap.eq, (C84_history (S := S) ops .clear).1]
  generalize (run S ops).iter = l
  induction l with
  | nil => simp [iterEq]
  | cons e t ih =>
    have hk : ∀ a : K, keq a a = true := fun a => keq_iff.2 ⟨by grind, by grind⟩
    simp only [List.map_cons, iterEq, Bool.and_eq_true, ih, List.mem_cons, forall_eq_or_imp]
    refine and_congr ?_ Iff.rfl
    simp [entryEq, unflag, hk, RangeInclusive.mk']

example := Inclusive.C101_equal (K := UIntW 8) (V := Char) (S := Demo.u8) flagged

example : (run Demo.u8 flagged).eq (run Demo.u8 (flagged.map unflagOp)) = false := by
  decide +kernel

/-- **C101** `cmp` does not see the flags. -/
theorem C101_cmp {vcmp : V → V → Ordering} (hv : ∀ v, vcmp v v = .eq)
    (ops : List (Op (RangeInclusive K) V)) :
    (run S ops).cmp vcmp (run S (ops.map unflagOp)) = .eq ∧
      (run S (ops.map unflagOp)).cmp vcmp (run S ops) = .eq := by
  have hself : ∀ m : RangeInclusiveMap K V, m.cmp vcmp m = .eq := by
    intro m
    have hk : ∀ a : K, kcmp a a = .eq := fun a => by unfold kcmp; grind
    unfold RangeInclusiveMap.cmp
    generalize expandedIter m = l
    induction l with
    | nil => rfl
    | cons e t ih => simp only [iterCmp, tripleCmp, hk, hv, ih, Ordering.then]
  obtain ⟨-, -, -, -, h1, h2, -⟩ := C84_summary (S := S) vcmp (fun _ _ => none) ops ops
  rw [h1, h2]
  exact ⟨hself _, hself _⟩

example := Inclusive.C101_cmp (K := UIntW 8) (V := Char) (S := Demo.u8) (vcmp := compare) (by simp)
    flagged

/-- **C101** Inserting a stored range anew, with its value, clears the flag of this entry and leaves
all other entries as they are. -/
theorem C101_reinsert [ReflBEq V] (hS : LawfulSteps S) {m : RangeInclusiveMap K V}
    (hm : ReachableAny S m) {r : RangeInclusive K} {v : V} {a b : List (RangeInclusive K × V)}
    (he : m.iter = a ++ (r, v) :: b) :
    ∃ m', m.insert S (.mk' r.start r.stop) v = .ok m' ∧
      m'.iter = a ++ (.mk' r.start r.stop, v) :: b := by
  have hw := hm.sc hS
  have hb : m.btm = a ++ (r, v) :: b := he
  have hr : r.start ≤ r.stop := hw.sep.ne (r, v) (by rw [hb]; simp)
  obtain ⟨m', hi⟩ : ∃ m', m.insert S (.mk' r.start r.stop) v = .ok m' := by
    obtain ⟨m', n, h, -⟩ := insert_exact hS hw (r := .mk' r.start r.stop) v hr
    exact ⟨m', h⟩
  refine ⟨m', hi, ?_⟩
  obtain ⟨n, n1, n2, n3, n4⟩ := C51_insert_entries hS hm hi
  have hp := hw.sep.pw
  have hne := hw.sep.ne
  have hmem : (r, v) ∈ m.btm := by rw [hb]; simp
  rw [hb, List.pairwise_append, List.pairwise_cons] at hp
  obtain ⟨p1, ⟨p2, p3⟩, p4⟩ := hp
  -- the other entries share no key with `r`
  have hdis : ∀ x ∈ a ++ b, ¬ Common icovers (.mk' r.start r.stop) x.1 := by
    rintro x hx ⟨k, k1, k2⟩
    rw [icovers_eq] at k1 k2
    simp only [RangeInclusive.mk'_start, RangeInclusive.mk'_stop, decide_eq_true_eq] at k1 k2
    rcases List.mem_append.1 hx with hx | hx
    · have := p4 x hx (r, v) (by simp)
      grind [Before]
    · have := p2 x hx
      grind [Before]
  have hin : ∀ x ∈ a ++ b, x ∈ m.btm := fun x hx => by
    rw [hb]; grind
  -- and if they touch it, they have another value
  have htch : ∀ x ∈ a ++ b, (x.2 == v) = true → ¬ ITouch (.mk' r.start r.stop) x.1 := by
    rintro x hx hv (h | h | h)
    · exact hdis x hx h
    · have := hw.coal (r, v) hmem x (hin x hx) h
      rw [BEq.symm hv] at this
      cases this
    · have := hw.coal x (hin x hx) (r, v) hmem h
      rw [hv] at this
      cases this
  have hself : ITouch (.mk' r.start r.stop) r :=
    Or.inl ⟨r.start, by rw [icovers_eq]; simpa using hr, by rw [icovers_eq]; simpa using hr⟩
  have hcases : ∀ x ∈ m.iter, x = (r, v) ∨ x ∈ a ++ b := fun x hx => by
    rw [he] at hx; grind
  have hn : n = .mk' r.start r.stop := by
    have e1 : n.start = r.start := by
      rcases n2.mem with h | ⟨x, hx, hv, ht, h⟩
      · exact h
      · rcases hcases x hx with rfl | hx
        · exact h
        · exact absurd ht (htch x hx hv)
    have e2 : n.stop = r.stop := by
      rcases n3.mem with h | ⟨x, hx, hv, ht, h⟩
      · exact h
      · rcases hcases x hx with rfl | hx
        · exact h
        · exact absurd ht (htch x hx hv)
    rcases n1 with h | h
    · exact h
    · cases n; subst e1 e2 h; rfl
  subst hn
  have hiff : ∀ y, y ∈ m'.btm ↔ y ∈ a ++ (.mk' r.start r.stop, v) :: b := by
    intro y
    refine (n4 y).trans ?_
    constructor
    · rintro (rfl | ⟨x, hx, h⟩)
      · simp
      · rcases hcases x hx with rfl | hx
        · cases h with
          | equal _ h => exact absurd hself h
          | other h _ => simp at h
        · have : y = x := by
            cases h with
            | equal _ _ => rfl
            | other _ h =>
              cases h with
              | keep _ => rfl
              | left h => exact absurd h (hdis x hx)
              | right h => exact absurd h (hdis x hx)
          grind
    · intro hy
      have : y = (.mk' r.start r.stop, v) ∨ y ∈ a ++ b := by grind
      rcases this with h | h
      · exact Or.inl h
      · refine Or.inr ⟨y, hin y h, ?_⟩
        cases hv : y.2 == v with
        | true => exact .equal hv (htch y h hv)
        | false => exact .other hv (.keep (hdis y h))
  have hm' : ReachableAny S m' := by
    have := hm.apply (.insert (.mk' r.start r.stop) v)
    simpa [RangeInclusiveMap.apply, hi] using this
  have hs : (a ++ (RangeInclusive.mk' r.start r.stop, v) :: b).Pairwise Before := by
    rw [List.pairwise_append, List.pairwise_cons]
    refine ⟨p1, ⟨fun x hx => p2 x hx, p3⟩, fun x hx y hy => ?_⟩
    rcases List.mem_cons.1 hy with rfl | hy
    · exact p4 x hx (r, v) (by simp)
    · exact p4 x hx y (by simp [hy])
  have hs' := (hm'.sc hS).sep
  have hs2 : ∀ e ∈ a ++ (RangeInclusive.mk' r.start r.stop, v) :: b, e.1.start ≤ e.1.stop :=
    fun e h => hs'.ne e ((hiff e).2 h)
  have hnd : ∀ {l : List (RangeInclusive K × V)}, l.Pairwise Before →
      (∀ e ∈ l, e.1.start ≤ e.1.stop) → l.Nodup := fun hl hn =>
    hl.imp_of_mem fun {a b} ha hb hab => by
      rintro rfl
      have := hab.1
      grind
  have hperm : m'.btm.Perm (a ++ (RangeInclusive.mk' r.start r.stop, v) :: b) := by
    rw [List.perm_ext_iff_of_nodup (hnd hs'.pw hs'.ne) (hnd hs hs2)]
    exact hiff
  exact hperm.eq_of_pairwise (fun a b _ _ h1 h2 => by
      exfalso; have := h1.1; have := h2.1; grind) hs'.pw hs

example := Inclusive.C101_reinsert (K := UIntW 8) (V := Char) (S := Demo.u8) Demo.u8_lawful
    (m := run Demo.u8 flagged) ⟨_, rfl⟩ (r := ⟨⟨2⟩, ⟨6⟩, true⟩) (v := 'a') (a := [])
    (b := [(Demo.by8 7 12, 'b'), (Demo.by8 20 30, 'a')]) (by decide +kernel)
end

/-! ### sets -/

/-- **C101** The same for sets: reading back what was written clears every flag and nothing else. -/
theorem C101_set_round_trip (hS : LawfulSteps S) {E : Type}
    (ops : List (SetOp (RangeInclusive K))) :
    RangeInclusiveSet.deserialize (E := E) S ((RangeInclusiveSet.run S ops).serialize.2.map .ok)
      = .ok (RangeInclusiveSet.run S (ops.map unflagSetOp)) ∧
    (RangeInclusiveSet.run S ops).serialize.1
      = some (RangeInclusiveSet.run S ops).serialize.2.length := by
  have h : (RangeInclusiveSet.run S (ops.map unflagSetOp)).serialize
      = (RangeInclusiveSet.run S ops).serialize := by
    have h1 := (C84_set_history (S := S) ops .clear).1
    have h2 := congrArg List.length h1
    simp only [List.length_map, RangeInclusiveSet.iter, RangeInclusiveMap.iter] at h2
    simp only [RangeInclusiveSet.serialize, h1, h2, List.map_map]
    rfl
  rw [← h]
  exact C49_serde_round_trip hS (unflag_reachable ops)

example := Inclusive.C101_set_round_trip (K := UIntW 8) (S := Demo.u8) Demo.u8_lawful
    (E := String) [.insert ⟨⟨2⟩, ⟨6⟩, true⟩, .insert (Demo.by8 8 9)]

/-- **C101** Collecting the ranges of a set written anew clears the flags; collecting them as they
are keeps them. -/
theorem C101_set_collect (hS : LawfulSteps S) (ops : List (SetOp (RangeInclusive K))) :
    RangeInclusiveSet.fromIter S
      ((RangeInclusiveSet.run S ops).iter.map fun r => .mk' r.start r.stop)
      = .ok (RangeInclusiveSet.run S (ops.map unflagSetOp)) ∧
    RangeInclusiveSet.fromIter S (RangeInclusiveSet.run S ops).iter
      = .ok (RangeInclusiveSet.run S ops) := by
  have h2 : RangeInclusiveSet.fromIter S (RangeInclusiveSet.run S ops).iter
      = .ok (RangeInclusiveSet.run S ops) := by
    have hm : ReachableAny S (RangeInclusiveSet.run S ops).rm :=
      ⟨_, (RangeInclusiveSet.run_rm ops).symm⟩
    generalize RangeInclusiveSet.run S ops = s at hm
    have h := RangeInclusiveMap.extend_rest hS s.rm.btm [] (by simpa using hm.sc hS)
    rw [List.nil_append] at h
    have h4 : (s.iter.map fun r => (r, ())) = s.rm.btm := by
      simp only [RangeInclusiveSet.iter, RangeInclusiveMap.iter, List.map_map]
      exact List.map_id _
    simp only [RangeInclusiveSet.fromIter, RangeInclusiveSet.extend_rm]
    rw [h4, show (RangeInclusiveSet.new : RangeInclusiveSet K).rm = ⟨[]⟩ from rfl, h]
    rfl
  refine ⟨?_, h2⟩
  have := setFromIter_unflag (S := S) (RangeInclusiveSet.run S ops).iter
  rw [h2] at this
  rw [setRun_unflag]
  exact this

example := Inclusive.C101_set_collect (K := UIntW 8) (S := Demo.u8) Demo.u8_lawful
    [.insert ⟨⟨2⟩, ⟨6⟩, true⟩, .insert (Demo.by8 8 9)]

end Verif.Props.Inclusive

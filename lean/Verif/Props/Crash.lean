import Verif.Props.Demo
import Verif.Proof.Crash
import Verif.Proof.ICrash
import Verif.Props.Exact

/-!
# C42: panics of user code in the middle of `insert` and `remove`
-/
set_option linter.unusedSectionVars false

namespace Verif.Spec

/-- A call that may be interrupted: `panics i` says whether the `i`-th stretch of user code panics. -/
inductive CrashOp (R V : Type) where
  | insert (panics : Nat → Bool) (r : R) (v : V)
  | remove (panics : Nat → Bool) (r : R)

/-- Makes the call, catches the panic if there is one, and goes on with what is left. -/
def CrashOp.run {R V M : Type} (insert : (Nat → Bool) → M → R → V → Except Crash Unit × M)
    (remove : (Nat → Bool) → M → R → Except Crash Unit × M) (m : M) : CrashOp R V → M
  | .insert panics r v => (insert panics m r v).2
  | .remove panics r => (remove panics m r).2

/-- The range argument of the call. -/
def CrashOp.range {R V : Type} : CrashOp R V → R
  | .insert _ r _ => r
  | .remove _ r => r

end Verif.Spec

namespace Verif.Props
open Spec
variable {K : Type} [LE K] [LT K] [DecidableLE K] [DecidableLT K]
  [Std.IsLinearPreorder K] [Std.LawfulOrderLT K] {V : Type} [BEq V] [PartialEquivBEq V]

/-! ## Half-open maps -/

section
open RangeMap

/-- How an interrupted `insert` ends. -/
theorem insertCrash_cases {m : RangeMap K V} (hm : WF m.btm) (panics : Nat → Bool)
    (r : Range K) (v : V) :
    (∃ m', m.insert r v = .ok m' ∧ insertCrash panics m r v = (.ok (), m')) ∨
    (r.start < r.stop ∧ (∃ i, panics i = true) ∧ ∃ l, insertCrash panics m r v = (.error .user, ⟨l⟩) ∧
      (Left (Tch r) m.btm l ∨ m.insert r v = .ok ⟨l⟩)) ∨
    (¬ r.start < r.stop ∧ (∃ i, panics i = true) ∧ insertCrash panics m r v = (.error .user, m)) ∨
    (¬ r.start < r.stop ∧ insertCrash panics m r v = (.error (.lib .assertFailed), m)) := by
  by_cases hr : r.start < r.stop
  · obtain ⟨m', h1, -⟩ := insert_ok hm v hr
    rcases insert_sim hm v hr h1 panics 0 with ⟨n, h⟩ | ⟨n, l, h, hp, hi⟩
    · exact Or.inl ⟨m', h1, by simp [insertCrash, h]⟩
    · refine Or.inr (Or.inl ⟨hr, hi, l, by simp [insertCrash, h], ?_⟩)
      rcases hp with hp | rfl
      · exact Or.inl hp
      · exact Or.inr h1
  · refine Or.inr (Or.inr ?_)
    cases h0 : panics 0 with
    | true =>
      exact Or.inl ⟨hr, ⟨0, h0⟩, by
        simp [insertCrash, insertProgram, bind, Cr.bind, Cr.user, Cr.run, h0]⟩
    | false =>
      exact Or.inr ⟨hr, by
        simp [insertCrash, insertProgram, bind, Cr.bind, Cr.user, Cr.run, h0, hr, Cr.lib]⟩

/-- How an interrupted `remove` ends. -/
theorem removeCrash_cases {m : RangeMap K V} (hm : WF m.btm) (panics : Nat → Bool)
    (r : Range K) :
    (∃ m', m.remove r = .ok m' ∧ removeCrash panics m r = (.ok (), m')) ∨
    (r.start < r.stop ∧ (∃ i, panics i = true) ∧ ∃ l, removeCrash panics m r = (.error .user, ⟨l⟩) ∧
      Left (Ovl r) m.btm l) ∨
    (¬ r.start < r.stop ∧ (∃ i, panics i = true) ∧ removeCrash panics m r = (.error .user, m)) ∨
    (¬ r.start < r.stop ∧ removeCrash panics m r = (.error (.lib .assertFailed), m)) := by
  by_cases hr : r.start < r.stop
  · obtain ⟨m', h1, -⟩ := remove_spec hm hr
    have h1 : m.remove r = .ok m' := h1 _ (Nat.le_refl _)
    rcases remove_sim hm hr h1 panics 0 with ⟨n, h⟩ | ⟨n, l, h, hp, hi⟩
    · exact Or.inl ⟨m', h1, by simp [removeCrash, h]⟩
    · exact Or.inr (Or.inl ⟨hr, hi, l, by simp [removeCrash, h], hp⟩)
  · refine Or.inr (Or.inr ?_)
    cases h0 : panics 0 with
    | true =>
      exact Or.inl ⟨hr, ⟨0, h0⟩, by
        simp [removeCrash, removeProgram, bind, Cr.bind, Cr.user, Cr.run, h0]⟩
    | false =>
      exact Or.inr ⟨hr, by
        simp [removeCrash, removeProgram, bind, Cr.bind, Cr.user, Cr.run, h0, hr, Cr.lib]⟩

/-- **C42** Whatever user code panics during `insert`, and whenever: the map left behind is as good
as new, in that it is one that calls of the API that are not interrupted can produce.  All that is
proved about such maps in this development therefore holds of it. -/
theorem C42_insert_reachable {m : RangeMap K V} (hm : Reachable m) (panics : Nat → Bool)
    (r : Range K) (v : V) : Reachable (insertCrash panics m r v).2 := by
  rw [reachable_iff] at hm ⊢
  rcases insertCrash_cases hm panics r v with ⟨m', h1, h⟩ | ⟨_, _, l, h, hl | hl⟩ | ⟨_, _, h⟩ | ⟨_, h⟩
  · rw [h]
    exact reachable_iff.1 (Reachable.insert (reachable_iff.2 hm) h1)
  · rw [h]
    exact ⟨hl.sep, hl.coal⟩
  · rw [h]
    exact reachable_iff.1 (Reachable.insert (reachable_iff.2 hm) hl)
  · rw [h]
    exact hm
  · rw [h]
    exact hm

/-- **C42** The same for `remove`. -/
theorem C42_remove_reachable {m : RangeMap K V} (hm : Reachable m) (panics : Nat → Bool)
    (r : Range K) : Reachable (removeCrash panics m r).2 := by
  rw [reachable_iff] at hm ⊢
  rcases removeCrash_cases hm panics r with ⟨m', h1, h⟩ | ⟨_, _, l, h, hl⟩ | ⟨_, _, h⟩ | ⟨_, h⟩
  · rw [h]
    exact reachable_iff.1 (Reachable.remove (reachable_iff.2 hm) h1)
  · rw [h]
    exact ⟨hl.sep, hl.coal⟩
  · rw [h]
    exact hm
  · rw [h]
    exact hm

example := C42_remove_reachable (K := Nat) (V := Char) (m := Demo.map) Demo.map_reachable (· == 2)
    ⟨2, 22⟩

/-- **C42** The outcome of an `insert` that may be interrupted.  If it returns, it has done what
`insert` does.  If user code panicked, either `insert` was complete, or no key has gained or changed
a value, and the entries that do not touch the range are all there.  The only other panic is that of
the assertion. -/
theorem C42_insert_outcome {m : RangeMap K V} (hm : Reachable m) (panics : Nat → Bool)
    (r : Range K) (v : V) :
    match insertCrash panics m r v with
    | (.ok (), left) => m.insert r v = .ok left
    | (.error .user, left) => (∃ i, panics i = true) ∧
        (m.insert r v = .ok left ∨
          ((∀ k w, left.get k = .ok (some w) → m.get k = .ok (some w)) ∧
           ∀ x ∈ m.iter, ¬ Touch r x.1 → x ∈ left.iter))
    | (.error (.lib p), left) => p = .assertFailed ∧ ¬ r.start < r.stop ∧ left = m := by
  rw [reachable_iff] at hm
  rcases insertCrash_cases hm panics r v with ⟨m', h1, h⟩ | ⟨hr, hi, l, h, hl | hl⟩ | ⟨_, hi, h⟩ |
    ⟨hr, h⟩
  · rw [h]
    exact h1
  · rw [h]
    refine ⟨hi, Or.inr ⟨?_, ?_⟩⟩
    · intro k w hk
      rw [get_eq_some (m := ⟨l⟩) hl.sep] at hk
      rw [get_eq_some hm.sep]
      obtain ⟨y, hy, h1, h2, rfl⟩ := hk
      obtain ⟨x, hx, h3, h4, h5⟩ := hl.src y hy
      exact ⟨x, hx, by grind, by grind, h3.symm⟩
    · intro x hx ht
      exact hl.kept x hx (by rwa [touch_iff hr (hm.sep.ne x hx)] at ht)
  · rw [h]
    exact ⟨hi, Or.inl hl⟩
  · rw [h]
    exact ⟨hi, Or.inr ⟨fun _ _ h => h, fun _ h _ => h⟩⟩
  · rw [h]
    exact ⟨rfl, hr, rfl⟩

example := C42_insert_outcome (K := Nat) (V := Char) (m := Demo.map) Demo.map_reachable (· == 2)
    ⟨2, 22⟩ 'q'

/-- **C42** The outcome of a `remove` that may be interrupted. -/
theorem C42_remove_outcome {m : RangeMap K V} (hm : Reachable m) (panics : Nat → Bool)
    (r : Range K) :
    match removeCrash panics m r with
    | (.ok (), left) => m.remove r = .ok left
    | (.error .user, left) => (∃ i, panics i = true) ∧
        (∀ k w, left.get k = .ok (some w) → m.get k = .ok (some w)) ∧
        ∀ x ∈ m.iter, ¬ Common covers r x.1 → x ∈ left.iter
    | (.error (.lib p), left) => p = .assertFailed ∧ ¬ r.start < r.stop ∧ left = m := by
  rw [reachable_iff] at hm
  rcases removeCrash_cases hm panics r with ⟨m', h1, h⟩ | ⟨hr, hi, l, h, hl⟩ | ⟨_, hi, h⟩ | ⟨hr, h⟩
  · rw [h]
    exact h1
  · rw [h]
    refine ⟨hi, ?_, ?_⟩
    · intro k w hk
      rw [get_eq_some (m := ⟨l⟩) hl.sep] at hk
      rw [get_eq_some hm.sep]
      obtain ⟨y, hy, h1, h2, rfl⟩ := hk
      obtain ⟨x, hx, h3, h4, h5⟩ := hl.src y hy
      exact ⟨x, hx, by grind, by grind, h3.symm⟩
    · intro x hx ht
      exact hl.kept x hx (by rwa [common_iff hr (hm.sep.ne x hx)] at ht)
  · rw [h]
    exact ⟨hi, fun _ _ h => h, fun _ h _ => h⟩
  · rw [h]
    exact ⟨rfl, hr, rfl⟩

example := C42_remove_outcome (K := Nat) (V := Char) (m := Demo.map) Demo.map_reachable (· == 2)
    ⟨2, 22⟩

/-- **C42** In the words of the property: every value found after an interrupted `insert` is one
that the key had before, or the one being inserted, under a key where the complete `insert` puts
it. -/
theorem C42_insert_values {m : RangeMap K V} (hm : Reachable m) (panics : Nat → Bool)
    (r : Range K) (v : V) (k : K) (w : V)
    (h : (insertCrash panics m r v).2.get k = .ok (some w)) :
    m.get k = .ok (some w) ∨ (w = v ∧ ∃ m', m.insert r v = .ok m' ∧ m'.get k = .ok (some v)) := by
  have key : ∀ m', m.insert r v = .ok m' → m'.get k = .ok (some w) →
      m.get k = .ok (some w) ∨
        (w = v ∧ ∃ m', m.insert r v = .ok m' ∧ m'.get k = .ok (some v)) := by
    intro m' h1 h2
    have hw := reachable_iff.1 hm
    have hr : r.start < r.stop := by
      apply Decidable.byContradiction
      intro hr
      simp [insert_invalid hr] at h1
    obtain ⟨m'', hins, -, -, n, -, -, -, hin, hout⟩ := insert_spec hw v hr
    have hins : m.insert r v = .ok m'' := hins _ (Nat.le_refl _)
    rw [h1] at hins
    obtain rfl := Except.ok.inj hins
    have hw' := reachable_iff.1 (hm.insert h1)
    have h3 := (get_eq_some hw'.sep k w).1 h2
    by_cases hk : n.start ≤ k ∧ k < n.stop
    · obtain rfl := (hin k hk.1 hk.2 w).1 h3
      exact Or.inr ⟨rfl, m', h1, h2⟩
    · exact Or.inl ((get_eq_some hw.sep k w).2 ((hout k hk w).1 h3))
  have ho := C42_insert_outcome hm panics r v
  revert h ho
  rcases insertCrash panics m r v with ⟨o, left⟩
  rcases o with e | u
  · rcases e with _ | p
    · rintro h ⟨-, h1 | h1⟩
      · exact key left h1 h
      · exact Or.inl (h1.1 k w h)
    · rintro h ⟨-, -, rfl⟩
      exact Or.inl h
  · intro h h1
    exact key left h1 h

example := C42_insert_values (K := Nat) (V := Char) (m := Demo.map) Demo.map_reachable (· == 9)
    ⟨2, 22⟩ 'q' 7 'a' rfl

/-- **C42** When no user code panics, the programs of the crash model do exactly what the functions
of the main model do. -/
theorem C42_no_panic {m : RangeMap K V} (hm : Reachable m) {panics : Nat → Bool}
    (hp : ∀ i, panics i = false) (r : Range K) (v : V) :
    insertCrash panics m r v = (match m.insert r v with
      | .ok m' => (.ok (), m')
      | .error p => (.error (.lib p), m)) ∧
    removeCrash panics m r = (match m.remove r with
      | .ok m' => (.ok (), m')
      | .error p => (.error (.lib p), m)) := by
  rw [reachable_iff] at hm
  constructor
  · rcases insertCrash_cases hm panics r v with ⟨m', h1, h⟩ | ⟨_, ⟨i, hi⟩, _⟩ | ⟨_, ⟨i, hi⟩, _⟩ |
      ⟨hr, h⟩
    · rw [h, h1]
    · simp [hp i] at hi
    · simp [hp i] at hi
    · rw [h, insert_invalid hr]
  · rcases removeCrash_cases hm panics r with ⟨m', h1, h⟩ | ⟨_, ⟨i, hi⟩, _⟩ | ⟨_, ⟨i, hi⟩, _⟩ | ⟨hr, h⟩
    · rw [h, h1]
    · simp [hp i] at hi
    · simp [hp i] at hi
    · rw [h, remove_invalid hr]

example := C42_no_panic (K := Nat) (V := Char) (m := Demo.map) Demo.map_reachable
    (panics := fun _ => false) (fun _ => rfl) ⟨2, 22⟩ 'q'

/-- **C42** After any number of calls, each of which may have been interrupted anywhere, the map is
one that calls that are not interrupted can produce. -/
theorem C42_history (ops : List (CrashOp (Range K) V)) :
    Reachable (ops.foldl (CrashOp.run insertCrash removeCrash) (new : RangeMap K V)) := by
  suffices ∀ m : RangeMap K V, Reachable m →
      Reachable (ops.foldl (CrashOp.run insertCrash removeCrash) m) from this _ ⟨[], rfl⟩
  induction ops with
  | nil => exact fun m h => h
  | cons op t ih =>
    intro m hm
    refine ih _ ?_
    cases op with
    | insert p r v => exact C42_insert_reachable hm p r v
    | remove p r => exact C42_remove_reachable hm p r

-- inserting `2..22 ↦ 'a'` into `[0..3 a, 5..15 a, 20..25 b, 25..40 c]`, with the `i`-th stretch of
-- user code panicking: the entries disappear one by one, then the rest of `20..25` comes back, and
-- only in the end the new entry appears
example : ((List.range 40).map fun i =>
    let out := insertCrash (fun j => j == i) Demo.map ⟨2, 22⟩ 'a'
    (out.1.toBool, out.2.btm)).eraseDups =
  [(false, [(⟨0, 3⟩, 'a'), (⟨5, 15⟩, 'a'), (⟨20, 25⟩, 'b'), (⟨25, 40⟩, 'c')]),
   (false, [(⟨5, 15⟩, 'a'), (⟨20, 25⟩, 'b'), (⟨25, 40⟩, 'c')]),
   (false, [(⟨20, 25⟩, 'b'), (⟨25, 40⟩, 'c')]),
   (false, [(⟨25, 40⟩, 'c')]),
   (false, [(⟨22, 25⟩, 'b'), (⟨25, 40⟩, 'c')]),
   (false, [(⟨0, 22⟩, 'a'), (⟨22, 25⟩, 'b'), (⟨25, 40⟩, 'c')]),
   (true, [(⟨0, 22⟩, 'a'), (⟨22, 25⟩, 'b'), (⟨25, 40⟩, 'c')])] := by decide +kernel
-- removing `7..9` from it
example : ((List.range 20).map fun i =>
    let out := removeCrash (fun j => j == i) Demo.map ⟨7, 9⟩
    (out.1.toBool, out.2.btm)).eraseDups =
  [(false, [(⟨0, 3⟩, 'a'), (⟨5, 15⟩, 'a'), (⟨20, 25⟩, 'b'), (⟨25, 40⟩, 'c')]),
   (false, [(⟨0, 3⟩, 'a'), (⟨20, 25⟩, 'b'), (⟨25, 40⟩, 'c')]),
   (false, [(⟨0, 3⟩, 'a'), (⟨5, 7⟩, 'a'), (⟨20, 25⟩, 'b'), (⟨25, 40⟩, 'c')]),
   (false, [(⟨0, 3⟩, 'a'), (⟨5, 7⟩, 'a'), (⟨9, 15⟩, 'a'), (⟨20, 25⟩, 'b'), (⟨25, 40⟩, 'c')]),
   (true, [(⟨0, 3⟩, 'a'), (⟨5, 7⟩, 'a'), (⟨9, 15⟩, 'a'), (⟨20, 25⟩, 'b'), (⟨25, 40⟩, 'c')])] := by
  decide +kernel
example : Reachable (insertCrash (fun i => i == 12) Demo.map ⟨2, 22⟩ 'a').2 :=
  C42_insert_reachable Demo.map_reachable _ _ _

end

/-! ## Inclusive maps -/

namespace Inclusive

section
variable {S : StepFns K}
open RangeInclusiveMap

/-- How an interrupted `insert` ends. -/
theorem insertCrash_cases (hS : LawfulSteps S) {m : RangeInclusiveMap K V} (hm : SC m.btm) (panics : Nat → Bool)
    (r : RangeInclusive K) (v : V) :
    (∃ m', m.insert S r v = .ok m' ∧ insertCrash S panics m r v = (.ok (), m')) ∨
    (r.start ≤ r.stop ∧ (∃ i, panics i = true) ∧ ∃ l, insertCrash S panics m r v = (.error .user, ⟨l⟩) ∧
      (Left (Tch r) m.btm l ∨ m.insert S r v = .ok ⟨l⟩)) ∨
    (¬ r.start ≤ r.stop ∧ (∃ i, panics i = true) ∧ insertCrash S panics m r v = (.error .user, m)) ∨
    (¬ r.start ≤ r.stop ∧ insertCrash S panics m r v = (.error (.lib .assertFailed), m)) := by
  by_cases hr : r.start ≤ r.stop
  · obtain ⟨m', h1, -⟩ := insert_ok hS hm v hr
    rcases insert_sim hS hm v hr h1 panics 0 with ⟨n, h⟩ | ⟨n, l, h, hp, hi⟩
    · exact Or.inl ⟨m', h1, by simp [insertCrash, h]⟩
    · refine Or.inr (Or.inl ⟨hr, hi, l, by simp [insertCrash, h], ?_⟩)
      rcases hp with hp | rfl
      · exact Or.inl hp
      · exact Or.inr h1
  · refine Or.inr (Or.inr ?_)
    cases h0 : panics 0 with
    | true =>
      exact Or.inl ⟨hr, ⟨0, h0⟩, by
        simp [insertCrash, insertProgram, bind, Cr.bind, Cr.user, Cr.run, h0]⟩
    | false =>
      exact Or.inr ⟨hr, by
        simp [insertCrash, insertProgram, bind, Cr.bind, Cr.user, Cr.run, h0, hr, Cr.lib]⟩

/-- How an interrupted `remove` ends. -/
theorem removeCrash_cases (hS : LawfulSteps S) {m : RangeInclusiveMap K V} (hm : SC m.btm) (panics : Nat → Bool)
    (r : RangeInclusive K) :
    (∃ m', m.remove S r = .ok m' ∧ removeCrash S panics m r = (.ok (), m')) ∨
    (r.start ≤ r.stop ∧ (∃ i, panics i = true) ∧ ∃ l, removeCrash S panics m r = (.error .user, ⟨l⟩) ∧
      Left (Ovl r) m.btm l) ∨
    (¬ r.start ≤ r.stop ∧ (∃ i, panics i = true) ∧ removeCrash S panics m r = (.error .user, m)) ∨
    (¬ r.start ≤ r.stop ∧ removeCrash S panics m r = (.error (.lib .assertFailed), m)) := by
  by_cases hr : r.start ≤ r.stop
  · obtain ⟨m', h1, -⟩ := remove_spec hS hm hr
    have h1 : m.remove S r = .ok m' := h1 _ (Nat.le_refl _)
    rcases remove_sim hS hm hr h1 panics 0 with ⟨n, h⟩ | ⟨n, l, h, hp, hi⟩
    · exact Or.inl ⟨m', h1, by simp [removeCrash, h]⟩
    · exact Or.inr (Or.inl ⟨hr, hi, l, by simp [removeCrash, h], hp⟩)
  · refine Or.inr (Or.inr ?_)
    cases h0 : panics 0 with
    | true =>
      exact Or.inl ⟨hr, ⟨0, h0⟩, by
        simp [removeCrash, removeProgram, bind, Cr.bind, Cr.user, Cr.run, h0]⟩
    | false =>
      exact Or.inr ⟨hr, by
        simp [removeCrash, removeProgram, bind, Cr.bind, Cr.user, Cr.run, h0, hr, Cr.lib]⟩

/-- **C42** Whatever user code panics during `insert`, and whenever: the map left behind is one that
calls of the API that are not interrupted can produce. -/
theorem C42_insert_reachable (hS : LawfulSteps S) {m : RangeInclusiveMap K V} (hm : Reachable S m)
    (panics : Nat → Bool) (r : RangeInclusive K) (hx : r.exhausted = false) (v : V) :
    Reachable S (insertCrash S panics m r v).2 := by
  have hw := (reachable_iff hS).1 hm
  have hi : ∀ m', m.insert S r v = .ok m' → Reachable S m' := fun m' h => hm.insert hx h
  rcases insertCrash_cases hS hw.sc panics r v with ⟨m', h1, h⟩ | ⟨_, _, l, h, hl | hl⟩ | ⟨_, _, h⟩ |
    ⟨_, h⟩
  · rw [h]
    exact hi _ h1
  · rw [h, reachable_iff hS]
    exact WF.mk' ⟨hl.sep, hl.coal⟩ (hl.fresh hw.fresh)
  · rw [h]
    exact hi _ hl
  · rw [h]
    exact hm
  · rw [h]
    exact hm

/-- **C42** The same for `remove`. -/
theorem C42_remove_reachable (hS : LawfulSteps S) {m : RangeInclusiveMap K V} (hm : Reachable S m)
    (panics : Nat → Bool) (r : RangeInclusive K) : Reachable S (removeCrash S panics m r).2 := by
  have hw := (reachable_iff hS).1 hm
  rcases removeCrash_cases hS hw.sc panics r with ⟨m', h1, h⟩ | ⟨hr, _, l, h, hl⟩ | ⟨_, _, h⟩ | ⟨_, h⟩
  · rw [h]
    have hr : r.start ≤ r.stop := by
      apply Decidable.byContradiction
      intro hr
      simp [remove_invalid hr] at h1
    obtain ⟨m'', h2, h3, h4, -⟩ := remove_spec hS hw.sc hr
    have h2 : m.remove S r = .ok m'' := h2 _ (Nat.le_refl _)
    rw [h1] at h2
    obtain rfl := Except.ok.inj h2
    exact (reachable_iff hS).2 (WF.mk' h3 (h4 hw.fresh))
  · rw [h, reachable_iff hS]
    exact WF.mk' ⟨hl.sep, hl.coal⟩ (hl.fresh hw.fresh)
  · rw [h]
    exact hm
  · rw [h]
    exact hm

example := Inclusive.C42_remove_reachable (K := UIntW 8) (V := Char) (S := Demo.u8)
    Demo.u8_lawful (m := Demo.imap) Demo.imap_reachable (· == 2) (Demo.by8 2 22)

/-- **C42** Even if exhausted ranges have been inserted. -/
theorem C42_reachable_any (hS : LawfulSteps S) {m : RangeInclusiveMap K V} (hm : ReachableAny S m)
    (panics : Nat → Bool) (r : RangeInclusive K) (v : V) :
    ReachableAny S (insertCrash S panics m r v).2 ∧ ReachableAny S (removeCrash S panics m r).2 := by
  have hw := (reachableAny_iff hS).1 hm
  rw [reachableAny_iff hS, reachableAny_iff hS]
  have hi : ∀ m', m.insert S r v = .ok m' → SC m'.btm := by
    intro m' h
    have hr : r.start ≤ r.stop := by
      apply Decidable.byContradiction
      intro hr
      simp [insert_invalid hr] at h
    obtain ⟨m'', h1, h2, -⟩ := insert_ok hS hw v hr
    rw [h] at h1
    obtain rfl := Except.ok.inj h1
    exact h2
  constructor
  · rcases insertCrash_cases hS hw panics r v with ⟨m', h1, h⟩ | ⟨_, _, l, h, hl | hl⟩ | ⟨_, _, h⟩ |
      ⟨_, h⟩
    · rw [h]
      exact hi _ h1
    · rw [h]
      exact ⟨hl.sep, hl.coal⟩
    · rw [h]
      exact hi _ hl
    · rw [h]
      exact hw
    · rw [h]
      exact hw
  · rcases removeCrash_cases hS hw panics r with ⟨m', h1, h⟩ | ⟨_, _, l, h, hl⟩ | ⟨_, _, h⟩ | ⟨_, h⟩
    · rw [h]
      have hr : r.start ≤ r.stop := by
        apply Decidable.byContradiction
        intro hr
        simp [remove_invalid hr] at h1
      obtain ⟨m'', h2, h3, -⟩ := remove_spec hS hw hr
      have h2 : m.remove S r = .ok m'' := h2 _ (Nat.le_refl _)
      rw [h1] at h2
      obtain rfl := Except.ok.inj h2
      exact h3
    · rw [h]
      exact ⟨hl.sep, hl.coal⟩
    · rw [h]
      exact hw
    · rw [h]
      exact hw

example := Inclusive.C42_reachable_any (K := UIntW 8) (V := Char) (S := Demo.u8) Demo.u8_lawful
    (m := Demo.imap) Demo.imap_reachable.any (· == 2) (Demo.by8 2 22) 'q'

/-- **C42** The outcome of an `insert` that may be interrupted.  If it returns, it has done what
`insert` does.  If user code panicked, either `insert` was complete, or no key has gained or changed
a value, and the entries that do not touch the range are all there.  The only other panic is that of
the assertion. -/
theorem C42_insert_outcome (hS : LawfulSteps S) {m : RangeInclusiveMap K V} (hm : Reachable S m)
    (panics : Nat → Bool) (r : RangeInclusive K) (v : V) :
    match insertCrash S panics m r v with
    | (.ok (), left) => m.insert S r v = .ok left
    | (.error .user, left) => (∃ i, panics i = true) ∧
        (m.insert S r v = .ok left ∨
          ((∀ k w, left.get k = .ok (some w) → m.get k = .ok (some w)) ∧
           ∀ x ∈ m.iter, ¬ ITouch r x.1 → x ∈ left.iter))
    | (.error (.lib p), left) => p = .assertFailed ∧ ¬ r.start ≤ r.stop ∧ left = m := by
  rw [reachable_iff hS] at hm
  rcases insertCrash_cases hS hm.sc panics r v with ⟨m', h1, h⟩ | ⟨hr, hi, l, h, hl | hl⟩ |
    ⟨_, hi, h⟩ | ⟨hr, h⟩
  · rw [h]
    exact h1
  · rw [h]
    refine ⟨hi, Or.inr ⟨?_, ?_⟩⟩
    · intro k w hk
      rw [get_eq_some (m := ⟨l⟩) hl.sep (hl.fresh hm.fresh)] at hk
      rw [get_eq_some hm.sep hm.fresh]
      obtain ⟨y, hy, h1, h2, rfl⟩ := hk
      obtain ⟨x, hx, h3, h4, h5⟩ := hl.src y hy
      exact ⟨x, hx, by grind, by grind, h3.symm⟩
    · intro x hx ht
      exact hl.kept x hx (by rwa [touch_iff hr (hm.sep.ne x hx)] at ht)
  · rw [h]
    exact ⟨hi, Or.inl hl⟩
  · rw [h]
    exact ⟨hi, Or.inr ⟨fun _ _ h => h, fun _ h _ => h⟩⟩
  · rw [h]
    exact ⟨rfl, hr, rfl⟩

example := Inclusive.C42_insert_outcome (K := UIntW 8) (V := Char) (S := Demo.u8) Demo.u8_lawful
    (m := Demo.imap) Demo.imap_reachable (· == 2) (Demo.by8 2 22) 'q'

/-- **C42** The outcome of a `remove` that may be interrupted. -/
theorem C42_remove_outcome (hS : LawfulSteps S) {m : RangeInclusiveMap K V} (hm : Reachable S m)
    (panics : Nat → Bool) (r : RangeInclusive K) :
    match removeCrash S panics m r with
    | (.ok (), left) => m.remove S r = .ok left
    | (.error .user, left) => (∃ i, panics i = true) ∧
        (∀ k w, left.get k = .ok (some w) → m.get k = .ok (some w)) ∧
        ∀ x ∈ m.iter, ¬ Common icovers r x.1 → x ∈ left.iter
    | (.error (.lib p), left) => p = .assertFailed ∧ ¬ r.start ≤ r.stop ∧ left = m := by
  rw [reachable_iff hS] at hm
  rcases removeCrash_cases hS hm.sc panics r with ⟨m', h1, h⟩ | ⟨hr, hi, l, h, hl⟩ | ⟨_, hi, h⟩ |
    ⟨hr, h⟩
  · rw [h]
    exact h1
  · rw [h]
    refine ⟨hi, ?_, ?_⟩
    · intro k w hk
      rw [get_eq_some (m := ⟨l⟩) hl.sep (hl.fresh hm.fresh)] at hk
      rw [get_eq_some hm.sep hm.fresh]
      obtain ⟨y, hy, h1, h2, rfl⟩ := hk
      obtain ⟨x, hx, h3, h4, h5⟩ := hl.src y hy
      exact ⟨x, hx, by grind, by grind, h3.symm⟩
    · intro x hx ht
      exact hl.kept x hx (by rwa [common_iff hr (hm.sep.ne x hx)] at ht)
  · rw [h]
    exact ⟨hi, fun _ _ h => h, fun _ h _ => h⟩
  · rw [h]
    exact ⟨rfl, hr, rfl⟩

example := Inclusive.C42_remove_outcome (K := UIntW 8) (V := Char) (S := Demo.u8) Demo.u8_lawful
    (m := Demo.imap) Demo.imap_reachable (· == 2) (Demo.by8 2 22)

/-- **C42** Every value found after an interrupted `insert` is one that the key had before, or the
one being inserted, under a key where the complete `insert` puts it. -/
theorem C42_insert_values (hS : LawfulSteps S) {m : RangeInclusiveMap K V} (hm : Reachable S m)
    (panics : Nat → Bool) (r : RangeInclusive K) (hx : r.exhausted = false) (v : V) (k : K) (w : V)
    (h : (insertCrash S panics m r v).2.get k = .ok (some w)) :
    m.get k = .ok (some w) ∨
      (w = v ∧ ∃ m', m.insert S r v = .ok m' ∧ m'.get k = .ok (some v)) := by
  have key : ∀ m', m.insert S r v = .ok m' → m'.get k = .ok (some w) →
      m.get k = .ok (some w) ∨
        (w = v ∧ ∃ m', m.insert S r v = .ok m' ∧ m'.get k = .ok (some v)) := by
    intro m' h1 h2
    have hw := (reachable_iff hS).1 hm
    have hr : r.start ≤ r.stop := by
      apply Decidable.byContradiction
      intro hr
      simp [insert_invalid hr] at h1
    obtain ⟨m'', hins, -, -, -, n, -, -, -, hin, hout⟩ := insert_spec hS hw.sc v hr
    have hins : m.insert S r v = .ok m'' := hins _ (Nat.le_refl _)
    rw [h1] at hins
    obtain rfl := Except.ok.inj hins
    have hw' := (reachable_iff hS).1 (hm.insert hx h1)
    have h3 := (get_eq_some hw'.sep hw'.fresh k w).1 h2
    by_cases hk : n.start ≤ k ∧ k ≤ n.stop
    · obtain rfl := (hin k hk.1 hk.2 w).1 h3
      exact Or.inr ⟨rfl, m', h1, h2⟩
    · exact Or.inl ((get_eq_some hw.sep hw.fresh k w).2 ((hout k hk w).1 h3))
  have ho := C42_insert_outcome hS hm panics r v
  revert h ho
  rcases insertCrash S panics m r v with ⟨o, left⟩
  rcases o with e | u
  · rcases e with _ | p
    · rintro h ⟨-, h1 | h1⟩
      · exact key left h1 h
      · exact Or.inl (h1.1 k w h)
    · rintro h ⟨-, -, rfl⟩
      exact Or.inl h
  · intro h h1
    exact key left h1 h

example := Inclusive.C42_insert_values (K := UIntW 8) (V := Char) (S := Demo.u8) Demo.u8_lawful
    (m := Demo.imap) Demo.imap_reachable (· == 9) (Demo.by8 2 22) (by decide) 'q' ⟨7⟩ 'a' rfl

/-- **C42** When no user code panics, the programs of the crash model do exactly what the functions
of the main model do. -/
theorem C42_no_panic (hS : LawfulSteps S) {m : RangeInclusiveMap K V} (hm : ReachableAny S m)
    {panics : Nat → Bool} (hp : ∀ i, panics i = false) (r : RangeInclusive K) (v : V) :
    insertCrash S panics m r v = (match m.insert S r v with
      | .ok m' => (.ok (), m')
      | .error p => (.error (.lib p), m)) ∧
    removeCrash S panics m r = (match m.remove S r with
      | .ok m' => (.ok (), m')
      | .error p => (.error (.lib p), m)) := by
  rw [reachableAny_iff hS] at hm
  constructor
  · rcases insertCrash_cases hS hm panics r v with ⟨m', h1, h⟩ | ⟨_, ⟨i, hi⟩, _⟩ | ⟨_, ⟨i, hi⟩, _⟩ |
      ⟨hr, h⟩
    · rw [h, h1]
    · simp [hp i] at hi
    · simp [hp i] at hi
    · rw [h, insert_invalid hr]
  · rcases removeCrash_cases hS hm panics r with ⟨m', h1, h⟩ | ⟨_, ⟨i, hi⟩, _⟩ | ⟨_, ⟨i, hi⟩, _⟩ |
      ⟨hr, h⟩
    · rw [h, h1]
    · simp [hp i] at hi
    · simp [hp i] at hi
    · rw [h, remove_invalid hr]

example := Inclusive.C42_no_panic (K := UIntW 8) (V := Char) (S := Demo.u8) Demo.u8_lawful
    (m := Demo.imap) Demo.imap_reachable.any (panics := fun _ => false) (fun _ => rfl)
    (Demo.by8 2 22) 'q'

/-- **C42** After any number of calls, each of which may have been interrupted anywhere, the map is
one that calls that are not interrupted can produce. -/
theorem C42_history (hS : LawfulSteps S) (ops : List (CrashOp (RangeInclusive K) V))
    (hx : ∀ op ∈ ops, op.range.exhausted = false) :
    Reachable S (ops.foldl (CrashOp.run (insertCrash S) (removeCrash S))
      (new : RangeInclusiveMap K V)) := by
  suffices ∀ m : RangeInclusiveMap K V, Reachable S m →
      Reachable S (ops.foldl (CrashOp.run (insertCrash S) (removeCrash S)) m) from
    this _ Reachable.new
  induction ops with
  | nil => exact fun m h => h
  | cons op t ih =>
    intro m hm
    refine ih (fun o ho => hx o (by simp [ho])) _ ?_
    have hx := hx op (by simp)
    cases op with
    | insert p r v => exact C42_insert_reachable hS hm p r hx v
    | remove p r => exact C42_remove_reachable hS hm p r

-- inserting `2..=21 ↦ 'a'` into `[0..=2 a, 5..=15 a, 20..=24 b, 25..=255 c]`
example : ((List.range 40).map fun i =>
    let out := insertCrash Demo.u8 (fun j => j == i) Demo.imap (Demo.by8 2 21) 'a'
    (out.1.toBool, out.2.btm)).eraseDups =
  [(false, [(Demo.by8 0 2, 'a'), (Demo.by8 5 15, 'a'), (Demo.by8 20 24, 'b'), (Demo.by8 25 255, 'c')]),
   (false, [(Demo.by8 5 15, 'a'), (Demo.by8 20 24, 'b'), (Demo.by8 25 255, 'c')]),
   (false, [(Demo.by8 20 24, 'b'), (Demo.by8 25 255, 'c')]),
   (false, [(Demo.by8 25 255, 'c')]),
   (false, [(Demo.by8 22 24, 'b'), (Demo.by8 25 255, 'c')]),
   (false, [(Demo.by8 0 21, 'a'), (Demo.by8 22 24, 'b'), (Demo.by8 25 255, 'c')]),
   (true, [(Demo.by8 0 21, 'a'), (Demo.by8 22 24, 'b'), (Demo.by8 25 255, 'c')])] := by
  decide +kernel
example : Reachable Demo.u8 (insertCrash Demo.u8 (fun i => i == 12) Demo.imap (Demo.by8 2 21) 'a').2 :=
  C42_insert_reachable Demo.u8_lawful Demo.imap_reachable _ _ rfl _

end

end Inclusive
end Verif.Props

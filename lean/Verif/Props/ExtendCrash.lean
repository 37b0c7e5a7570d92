import Verif.Model.ExtendCrash
import Verif.Props.Crash
import Verif.Props.Map
import Verif.Props.IMap
import Verif.Props.Set
import Verif.Props.ISet
import Verif.Props.Demo

/-!
# C75: going on after a panic of user code
-/
set_option linter.unusedSectionVars false

namespace Verif.Spec

/-- Runs the calls, catching panics, and notes of each whether it returned. -/
def CrashOp.log {R V M : Type} (insert : (Nat → Bool) → M → R → V → Except Crash Unit × M)
    (remove : (Nat → Bool) → M → R → Except Crash Unit × M) :
    M → List (CrashOp R V) → List (CrashOp R V × Bool) × M
  | m, [] => ([], m)
  | m, .insert panics r v :: ops =>
    let out := insert panics m r v
    let (l, m') := log insert remove out.2 ops
    ((.insert panics r v, out.1.toBool) :: l, m')
  | m, .remove panics r :: ops =>
    let out := remove panics m r
    let (l, m') := log insert remove out.2 ops
    ((.remove panics r, out.1.toBool) :: l, m')

end Verif.Spec

namespace Verif.Props
open Spec
variable {K : Type} [LE K] [LT K] [DecidableLE K] [DecidableLT K]
  [Std.IsLinearPreorder K] [Std.LawfulOrderLT K] {V : Type} [BEq V] [PartialEquivBEq V]

/-! ## Half-open maps -/

section
open RangeMap

/-- **C75** However `extend` is interrupted, the map left behind is one that calls that are not
interrupted can produce. -/
theorem C75_extend_reachable (items : Source (Range K × V)) : ∀ {m : RangeMap K V},
    Reachable m → Reachable (m.extendCrash items).2 := by
  induction items with
  | nil => exact fun h => h
  | cons i items ih =>
    intro m hm
    rcases i with _ | ⟨⟨r, v⟩, p⟩
    · exact hm
    · have h := C42_insert_reachable hm p r v
      rw [extendCrash]
      split
      · next m' heq => rw [heq] at h; exact ih h
      · next c m' heq => rw [heq] at h; exact h

example := C75_extend_reachable (K := Nat) (V := Char)
    [some ((⟨2, 22⟩, 'q'), (· == 2)), some ((⟨30, 35⟩, 'z'), (· == 0)), none] (m := Demo.map)
    Demo.map_reachable

/-- **C75** The outcome of an `extend` that may be interrupted.  If it returns, it has done what
`extend` does with the items.  Otherwise some items were inserted completely; then the source
panicked, and nothing else has happened; or user code panicked during the insertion of the next item,
which is complete, or no key has gained or changed a value, and the entries that do not touch its
range are all there; or its range was invalid. -/
theorem C75_extend_outcome (items : Source (Range K × V)) : ∀ {m : RangeMap K V}, Reachable m →
    match m.extendCrash items with
    | (.ok (), left) => ∃ l : List ((Range K × V) × (Nat → Bool)),
        items = l.map some ∧ m.extend (l.map (·.1)) = (left, .ok ())
    | (.error c, left) => ∃ (l : List ((Range K × V) × (Nat → Bool))) (m' : RangeMap K V) (rest : _),
        m.extend (l.map (·.1)) = (m', .ok ()) ∧
        ((items = l.map some ++ none :: rest ∧ c = .user ∧ left = m') ∨
         ∃ r v p, items = l.map some ++ some ((r, v), p) :: rest ∧
          ((c = .user ∧ (∃ i, p i = true) ∧ m'.insert r v = .ok left) ∨
           (c = .user ∧ (∃ i, p i = true) ∧
            (∀ k w, left.get k = .ok (some w) → m'.get k = .ok (some w)) ∧
            ∀ x ∈ m'.iter, ¬ Touch r x.1 → x ∈ left.iter) ∨
           (c = .lib .assertFailed ∧ ¬ r.start < r.stop ∧ left = m'))) := by
  induction items with
  | nil => intro m _; exact ⟨[], rfl, rfl⟩
  | cons i items ih =>
    intro m hm
    rcases i with _ | ⟨⟨r, v⟩, p⟩
    · exact ⟨[], m, items, rfl, .inl ⟨rfl, rfl, rfl⟩⟩
    · have ho := C42_insert_outcome hm p r v
      rw [extendCrash]
      rcases hc : insertCrash p m r v with ⟨o, m'⟩
      rw [hc] at ho
      rcases o with c | u
      · refine ⟨[], m, items, rfl, .inr ⟨r, v, p, rfl, ?_⟩⟩
        rcases c with _ | c
        · obtain ⟨h1, h2 | h2⟩ := ho
          · exact .inl ⟨rfl, h1, h2⟩
          · exact .inr (.inl ⟨rfl, h1, h2⟩)
        · obtain ⟨rfl, h2⟩ := ho
          exact .inr (.inr ⟨rfl, h2⟩)
      · have hi : m.insert r v = .ok m' := ho
        have h := ih (hm.insert hi)
        simp only
        rcases he : extendCrash m' items with ⟨o, left⟩
        rw [he] at h
        have hx : ∀ l : List ((Range K × V) × (Nat → Bool)),
            m.extend ((((r, v), p) :: l).map (·.1)) = m'.extend (l.map (·.1)) := by
          intro l; simp [extend, hi]
        rcases o with c | u
        · obtain ⟨l, m2, rest, h1, h2⟩ := h
          refine ⟨((r, v), p) :: l, m2, rest, (hx l).trans h1, ?_⟩
          rcases h2 with ⟨rfl, h2⟩ | ⟨r', v', p', rfl, h2⟩
          · exact .inl ⟨rfl, h2⟩
          · exact .inr ⟨r', v', p', rfl, h2⟩
        · obtain ⟨l, rfl, h2⟩ := h
          exact ⟨((r, v), p) :: l, rfl, (hx l).trans h2⟩

example := C75_extend_outcome (K := Nat) (V := Char)
    [some ((⟨2, 22⟩, 'q'), (· == 2)), some ((⟨30, 35⟩, 'z'), (· == 0)), none] (m := Demo.map)
    Demo.map_reachable

/-- What can be found under a key after a call of `insert`. -/
theorem insertCrash_get [LawfulBEq V] {m : RangeMap K V} (hm : Reachable m) (panics : Nat → Bool)
    (r : Range K) (v : V) (k : K) (w : V)
    (h : (insertCrash panics m r v).2.get k = .ok (some w)) :
    (m.get k = .ok (some w) ∧ ((insertCrash panics m r v).1.toBool = true → ¬ covers r k)) ∨
    (w = v ∧ covers r k) := by
  have key : ∀ m', m.insert r v = .ok m' → m'.get k = .ok (some w) →
      (m.get k = .ok (some w) ∧ ¬ covers r k) ∨ (w = v ∧ covers r k) := by
    intro m' h1 h2
    by_cases hk : covers r k
    · have hr : r.start < r.stop := by
        apply Decidable.byContradiction
        intro hr
        simp [insert_invalid hr] at h1
      obtain ⟨m2, h3, -, h4⟩ := C01_insert_inside hm v hr
      rw [h1] at h3
      obtain rfl := Except.ok.inj h3
      have := h4 k (of_decide_eq_true hk).1 (of_decide_eq_true hk).2
      rw [h2] at this
      exact .inr ⟨by simpa using this, hk⟩
    · rw [C01_insert_outside_exact hm h1 k (fun h => hk (decide_eq_true h))] at h2
      exact .inl ⟨h2, hk⟩
  have ho := C42_insert_outcome hm panics r v
  revert h ho
  rcases insertCrash panics m r v with ⟨o, left⟩
  rcases o with e | u
  · rcases e with _ | p
    · rintro h ⟨-, h1 | h1⟩
      · rcases key left h1 h with h | h
        · exact .inl ⟨h.1, fun _ => h.2⟩
        · exact .inr h
      · exact .inl ⟨h1.1 k w h, nofun⟩
    · rintro h ⟨-, -, rfl⟩
      exact .inl ⟨h, nofun⟩
  · intro h h1
    rcases key left h1 h with h | h
    · exact .inl ⟨h.1, fun _ => h.2⟩
    · exact .inr h

/-- What can be found under a key after a call of `remove`. -/
theorem removeCrash_get {m : RangeMap K V} (hm : Reachable m) (panics : Nat → Bool)
    (r : Range K) (k : K) (w : V) (h : (removeCrash panics m r).2.get k = .ok (some w)) :
    m.get k = .ok (some w) ∧ ((removeCrash panics m r).1.toBool = true → ¬ covers r k) := by
  have ho := C42_remove_outcome hm panics r
  revert h ho
  rcases removeCrash panics m r with ⟨o, left⟩
  rcases o with e | u
  · rcases e with _ | p
    · rintro h ⟨-, h1, -⟩
      exact ⟨h1 k w h, nofun⟩
    · rintro h ⟨-, -, rfl⟩
      exact ⟨h, nofun⟩
  · intro h h1
    have hr : r.start < r.stop := by
      apply Decidable.byContradiction
      intro hr
      simp [remove_invalid hr] at h1
    obtain ⟨m2, h3, -, h4, h5⟩ := C02_remove_pointwise hm hr
    have h1 : m.remove r = .ok left := h1
    rw [h1] at h3
    obtain rfl := Except.ok.inj h3
    by_cases hk : covers r k
    · simp [h4 k (of_decide_eq_true hk).1 (of_decide_eq_true hk).2] at h
    · exact ⟨by rw [← h5 k (fun h => hk (decide_eq_true h))]; exact h, fun _ => hk⟩

/-- **C75** No value is found that should not be there, however many calls are interrupted: a value
found under a key has been inserted by a call with a range containing the key, and every later call
with such a range was interrupted. -/
theorem C75_no_stale_values [LawfulBEq V] (ops : List (CrashOp (Range K) V)) (k : K) (w : V)
    (h : (CrashOp.log insertCrash removeCrash (new : RangeMap K V) ops).2.get k = .ok (some w)) :
    ∃ pre p r b post, (CrashOp.log insertCrash removeCrash (new : RangeMap K V) ops).1 =
        pre ++ (.insert p r w, b) :: post ∧ covers r k ∧
      ∀ x ∈ post, x.2 = true → ¬ covers x.1.range k := by
  suffices ∀ m : RangeMap K V, Reachable m →
      (CrashOp.log insertCrash removeCrash m ops).2.get k = .ok (some w) →
      (m.get k = .ok (some w) ∧ ∀ x ∈ (CrashOp.log insertCrash removeCrash m ops).1,
        x.2 = true → ¬ covers x.1.range k) ∨
      ∃ pre p r b post, (CrashOp.log insertCrash removeCrash m ops).1 =
        pre ++ (.insert p r w, b) :: post ∧ covers r k ∧
        ∀ x ∈ post, x.2 = true → ¬ covers x.1.range k by
    rcases this new ⟨[], rfl⟩ h with ⟨h, -⟩ | h
    · simp [RangeMap.new, RangeMap.get, getKeyValue, BTreeMap.range, Bound.invalid, bind, Except.bind, pure,
        Except.pure] at h
    · exact h
  clear h
  induction ops with
  | nil => exact fun m _ h => .inl ⟨h, nofun⟩
  | cons op ops ih =>
    intro m hm h
    cases op with
    | insert p r v =>
      rcases ih _ (C42_insert_reachable hm p r v) h with ⟨h1, h2⟩ | ⟨pre, p', r', b, post, h1, h2⟩
      · rcases insertCrash_get hm p r v k w h1 with h3 | ⟨rfl, h3⟩
        · exact .inl ⟨h3.1, by
            intro x hx
            rcases List.mem_cons.1 hx with rfl | hx
            · exact h3.2
            · exact h2 x hx⟩
        · exact .inr ⟨[], p, r, _, _, rfl, h3, h2⟩
      · exact .inr ⟨_ :: pre, p', r', b, post, by
          rw [List.cons_append, ← h1]; rfl, h2⟩
    | remove p r =>
      rcases ih _ (C42_remove_reachable hm p r) h with ⟨h1, h2⟩ | ⟨pre, p', r', b, post, h1, h2⟩
      · have h3 := removeCrash_get hm p r k w h1
        exact .inl ⟨h3.1, by
          intro x hx
          rcases List.mem_cons.1 hx with rfl | hx
          · exact h3.2
          · exact h2 x hx⟩
      · exact .inr ⟨_ :: pre, p', r', b, post, by
          rw [List.cons_append, ← h1]; rfl, h2⟩

example := C75_no_stale_values (K := Nat) (V := Char)
    [.insert (fun _ => false) ⟨2, 22⟩ 'q', .insert (· == 2) ⟨6, 30⟩ 'z'] 3 'q' rfl

/-- **C75** Repeating an interrupted `insert` does not bring back what the interrupted one had
already taken out, but does no further harm: the keys of the range get the value, and any other key
has the value it had at first, or none; it still has it if its entry did not touch the range. -/
theorem C75_retry_insert [LawfulBEq V] {m left m' : RangeMap K V} (hm : Reachable m)
    {panics : Nat → Bool} {r : Range K} {v : V}
    (h : insertCrash panics m r v = (.error .user, left)) (h' : left.insert r v = .ok m') (k : K) :
    (covers r k → m'.get k = .ok (some v)) ∧
    (¬ covers r k → m'.get k = m.get k ∨ m'.get k = .ok none) ∧
    (∀ x ∈ m.iter, ¬ Touch r x.1 → covers x.1 k → m'.get k = .ok (some x.2)) := by
  have hl : Reachable left := by
    have := C42_insert_reachable hm panics r v
    rwa [h] at this
  have ho := C42_insert_outcome hm panics r v
  rw [h] at ho
  have hr : r.start < r.stop := by
    apply Decidable.byContradiction
    intro hr
    simp [insert_invalid hr] at h'
  have hin : covers r k → m'.get k = .ok (some v) := by
    intro hk
    obtain ⟨m2, h3, -, h4⟩ := C01_insert_inside hl v hr
    rw [h'] at h3
    obtain rfl := Except.ok.inj h3
    exact h4 k (of_decide_eq_true hk).1 (of_decide_eq_true hk).2
  have hm' := hl.insert h'
  refine ⟨hin, fun hk => ?_, fun x hx hn hk => ?_⟩
  · rw [C01_insert_outside_exact hl h' k (fun h => hk (decide_eq_true h))]
    rcases ho with ⟨-, h1 | ⟨h1, -⟩⟩
    · exact .inl (C01_insert_outside_exact hm h1 k (fun h => hk (decide_eq_true h)))
    · rw [get_look hl.wf.sep]
      cases hg : look left k with
      | none => exact .inr rfl
      | some w =>
        refine .inl (Eq.symm (h1 k w ?_))
        rw [get_look hl.wf.sep, hg]
  · have hne := hm.wf.sep.ne x hx
    have hk' : ¬ covers r k := fun hk' => hn (.inl ⟨k, hk', hk⟩)
    rw [C01_insert_outside_exact hl h' k (fun h => hk' (decide_eq_true h))]
    rcases ho with ⟨-, h1 | ⟨-, h1⟩⟩
    · rw [C01_insert_outside_exact hm h1 k (fun h => hk' (decide_eq_true h)), get_eq_some hm.wf.sep]
      exact ⟨x, hx, (of_decide_eq_true hk).1, (of_decide_eq_true hk).2, rfl⟩
    · rw [get_eq_some hl.wf.sep]
      exact ⟨x, h1 x hx hn, (of_decide_eq_true hk).1, (of_decide_eq_true hk).2, rfl⟩

example := C75_retry_insert (K := Nat) (V := Char) (m := Demo.map) Demo.map_reachable
    (panics := (· == 2)) (r := ⟨2, 22⟩) (v := 'q') rfl rfl 7

/-- **C75** The same for `remove`. -/
theorem C75_retry_remove {m left m' : RangeMap K V} (hm : Reachable m)
    {panics : Nat → Bool} {r : Range K}
    (h : removeCrash panics m r = (.error .user, left)) (h' : left.remove r = .ok m') (k : K) :
    (covers r k → m'.get k = .ok none) ∧
    (¬ covers r k → m'.get k = m.get k ∨ m'.get k = .ok none) ∧
    (∀ x ∈ m.iter, ¬ Common covers r x.1 → covers x.1 k → m'.get k = .ok (some x.2)) := by
  have hl : Reachable left := by
    have := C42_remove_reachable hm panics r
    rwa [h] at this
  have ho := C42_remove_outcome hm panics r
  rw [h] at ho
  have hr : r.start < r.stop := by
    apply Decidable.byContradiction
    intro hr
    simp [remove_invalid hr] at h'
  obtain ⟨m2, h3, -, h4, h5⟩ := C02_remove_pointwise hl hr
  rw [h'] at h3
  obtain rfl := Except.ok.inj h3
  refine ⟨fun hk => h4 k (of_decide_eq_true hk).1 (of_decide_eq_true hk).2, fun hk => ?_, fun x hx hn hk => ?_⟩
  · rw [h5 k (fun h => hk (decide_eq_true h)), get_look hl.wf.sep]
    cases hg : look left k with
    | none => exact .inr rfl
    | some w =>
      refine .inl (Eq.symm (ho.2.1 k w ?_))
      rw [get_look hl.wf.sep, hg]
  · have hk' : ¬ covers r k := fun hk' => hn ⟨k, hk', hk⟩
    rw [h5 k (fun h => hk' (decide_eq_true h)), get_eq_some hl.wf.sep]
    exact ⟨x, ho.2.2 x hx hn, (of_decide_eq_true hk).1, (of_decide_eq_true hk).2, rfl⟩

-- the second item's insertion is interrupted after it has taken out `20..25` and before it has put
-- back the rest of it
example : (Demo.map.extendCrash [some ((⟨1, 2⟩, 'z'), fun _ => false),
      some ((⟨21, 22⟩, 'y'), fun i => i == 9), some ((⟨50, 60⟩, 'x'), fun _ => false)]).2.btm =
    [(⟨0, 1⟩, 'a'), (⟨1, 2⟩, 'z'), (⟨2, 3⟩, 'a'), (⟨5, 15⟩, 'a'), (⟨25, 40⟩, 'c')] := by
  decide +kernel
-- `insert(7..9, 'z')` is interrupted, then repeated: `9..15 ↦ 'a'` is lost
example : (insertCrash (fun i => i == 12) Demo.map ⟨7, 9⟩ 'z').1.toBool = false ∧
    ((insertCrash (fun i => i == 12) Demo.map ⟨7, 9⟩ 'z').2.insert ⟨7, 9⟩ 'z').toOption.map (·.btm) =
    some [(⟨0, 3⟩, 'a'), (⟨5, 7⟩, 'a'), (⟨7, 9⟩, 'z'), (⟨20, 25⟩, 'b'), (⟨25, 40⟩, 'c')] := by
  decide +kernel
-- the log of three calls the second of which is interrupted: 'a' is found although it was to be
-- overwritten
example : ((CrashOp.log insertCrash removeCrash (new : RangeMap Nat Char)
      [.insert (fun _ => false) ⟨0, 9⟩ 'a', .insert (fun i => i == 3) ⟨2, 4⟩ 'b',
        .remove (fun _ => false) ⟨5, 6⟩]).1.map (·.2),
    (CrashOp.log insertCrash removeCrash (new : RangeMap Nat Char)
      [.insert (fun _ => false) ⟨0, 9⟩ 'a', .insert (fun i => i == 3) ⟨2, 4⟩ 'b',
        .remove (fun _ => false) ⟨5, 6⟩]).2.btm) =
    ([true, false, true], [(⟨0, 5⟩, 'a'), (⟨6, 9⟩, 'a')]) := by
  decide +kernel

end

/-! ## Half-open sets -/

section
open RangeSet

/-- **C75** The outcome of `RangeSet::insert` and `remove` that may be interrupted.  The set left
behind is one that calls that are not interrupted can produce.  If user code panicked, the insertion
is complete or no key has been gained; the ranges that do not touch the range are all there. -/
theorem C75_set_insert {s : RangeSet K} (hs : Reachable s) (panics : Nat → Bool) (r : Range K) :
    Reachable (insertCrash panics s r).2 ∧
    match insertCrash panics s r with
    | (.ok (), left) => s.insert r = .ok left
    | (.error .user, left) => (∃ i, panics i = true) ∧
        (s.insert r = .ok left ∨
          ((∀ k, left.contains k = .ok true → s.contains k = .ok true) ∧
           ∀ x ∈ s.iter, ¬ Touch r x → x ∈ left.iter))
    | (.error (.lib p), left) => p = .assertFailed ∧ ¬ r.start < r.stop ∧ left = s := by
  refine ⟨.of_map (C42_insert_reachable hs.map panics r ()), ?_⟩
  have ho := C42_insert_outcome hs.map panics r ()
  unfold insertCrash
  rcases hc : RangeMap.insertCrash panics s.rm r () with ⟨o, left⟩
  rw [hc] at ho
  rcases o with e | u
  · rcases e with _ | p
    · obtain ⟨hi, h1 | ⟨h1, h2⟩⟩ := ho
      · exact ⟨hi, .inl (by rw [insert_rm, h1]; rfl)⟩
      · refine ⟨hi, .inr ⟨fun k hk => ?_, fun x hx hn => ?_⟩⟩
        · have hl : RangeMap.Reachable left := by
            have := C42_insert_reachable hs.map panics r ()
            rwa [hc] at this
          simp only [contains, RangeMap.containsKey, RangeMap.get_look hl.wf.sep, bind, Except.bind,
            pure, Except.pure, Except.ok.injEq] at hk
          have := h1 k () (by
            rw [RangeMap.get_look hl.wf.sep]
            cases hg : left.look k with
            | none => simp [hg] at hk
            | some w => rfl)
          simp [contains, RangeMap.containsKey, this, bind, Except.bind, pure, Except.pure]
        · obtain ⟨e, he, rfl⟩ := List.mem_map.1 hx
          exact List.mem_map.2 ⟨e, h2 e he hn, rfl⟩
    · exact ⟨ho.1, ho.2.1, by rw [ho.2.2]⟩
  · have ho : s.rm.insert r () = .ok left := ho
    show s.insert r = _
    rw [insert_rm, ho]
    rfl

example := C75_set_insert (K := Nat) (s := Demo.set) Demo.set_reachable (· == 2) ⟨2, 22⟩

/-- **C75** Likewise `remove`. -/
theorem C75_set_remove {s : RangeSet K} (hs : Reachable s) (panics : Nat → Bool) (r : Range K) :
    Reachable (removeCrash panics s r).2 ∧
    match removeCrash panics s r with
    | (.ok (), left) => s.remove r = .ok left
    | (.error .user, left) => (∃ i, panics i = true) ∧
        (∀ k, left.contains k = .ok true → s.contains k = .ok true) ∧
        ∀ x ∈ s.iter, ¬ Common covers r x → x ∈ left.iter
    | (.error (.lib p), left) => p = .assertFailed ∧ ¬ r.start < r.stop ∧ left = s := by
  refine ⟨.of_map (C42_remove_reachable hs.map panics r), ?_⟩
  have ho := C42_remove_outcome hs.map panics r
  unfold removeCrash
  rcases hc : RangeMap.removeCrash panics s.rm r with ⟨o, left⟩
  rw [hc] at ho
  rcases o with e | u
  · rcases e with _ | p
    · obtain ⟨hi, h1, h2⟩ := ho
      refine ⟨hi, fun k hk => ?_, fun x hx hn => ?_⟩
      · have hl : RangeMap.Reachable left := by
          have := C42_remove_reachable hs.map panics r
          rwa [hc] at this
        simp only [contains, RangeMap.containsKey, RangeMap.get_look hl.wf.sep, bind, Except.bind,
          pure, Except.pure, Except.ok.injEq] at hk
        have := h1 k () (by
          rw [RangeMap.get_look hl.wf.sep]
          cases hg : left.look k with
          | none => simp [hg] at hk
          | some w => rfl)
        simp [contains, RangeMap.containsKey, this, bind, Except.bind, pure, Except.pure]
      · obtain ⟨e, he, rfl⟩ := List.mem_map.1 hx
        exact List.mem_map.2 ⟨e, h2 e he hn, rfl⟩
    · exact ⟨ho.1, ho.2.1, by rw [ho.2.2]⟩
  · have ho : s.rm.remove r = .ok left := ho
    show s.remove r = _
    rw [remove_rm, ho]
    rfl

example := C75_set_remove (K := Nat) (s := Demo.set) Demo.set_reachable (· == 2) ⟨2, 22⟩

/-- **C75** `RangeSet::extend` is `RangeMap::extend` with `()` for the values, also when it is
interrupted. -/
theorem C75_set_extend (items : Source (Range K)) : ∀ s : RangeSet K,
    s.extendCrash items =
      ((s.rm.extendCrash (items.map fun i => i.map fun e => ((e.1, ()), e.2))).1,
        ⟨(s.rm.extendCrash (items.map fun i => i.map fun e => ((e.1, ()), e.2))).2⟩) := by
  induction items with
  | nil => intro s; rfl
  | cons i items ih =>
    intro s
    rcases i with _ | ⟨r, p⟩
    · rfl
    · rw [extendCrash, List.map_cons, Option.map_some, RangeMap.extendCrash, insertCrash]
      rcases RangeMap.insertCrash p s.rm r () with ⟨o, left⟩
      rcases o with e | u
      · rfl
      · exact ih _

example : ((Demo.set.extendCrash [some (⟨4, 6⟩, fun _ => false), none, some (⟨50, 60⟩, fun _ => false)]).2.iter,
    (insertCrash (fun i => i == 11) Demo.set ⟨4, 6⟩).2.iter) =
    ([⟨0, 3⟩, ⟨4, 15⟩, ⟨20, 40⟩], [⟨0, 3⟩, ⟨20, 40⟩]) := by decide +kernel

end

end Verif.Props

namespace Verif.Props.Inclusive
open Spec
variable {K : Type} [LE K] [LT K] [DecidableLE K] [DecidableLT K]
  [Std.IsLinearPreorder K] [Std.LawfulOrderLT K] {V : Type} [BEq V] [PartialEquivBEq V]
  {S : StepFns K}

/-! ## Inclusive maps -/

section
open RangeInclusiveMap

/-- **C75** However `extend` is interrupted, the map left behind is one that calls that are not
interrupted can produce. -/
theorem C75_extend_reachable (hS : LawfulSteps S) (items : Source (RangeInclusive K × V))
    (hx : ∀ r v p, some ((r, v), p) ∈ items → r.exhausted = false) :
    ∀ {m : RangeInclusiveMap K V}, Reachable S m → Reachable S (m.extendCrash S items).2 := by
  induction items with
  | nil => exact fun h => h
  | cons i items ih =>
    intro m hm
    have hx0 := hx
    rcases i with _ | ⟨⟨r, v⟩, p⟩
    · exact hm
    · have hx := hx r v p (by simp)
      have h := C42_insert_reachable hS hm p r hx v
      rw [extendCrash]
      split
      · next m' heq => rw [heq] at h; exact ih (fun r v p h => hx0 r v p (by simp [h])) h
      · next c m' heq => rw [heq] at h; exact h

/-- **C75** The outcome of an `extend` that may be interrupted.  If it returns, it has done what
`extend` does with the items.  Otherwise some items were inserted completely; then the source
panicked, and nothing else has happened; or user code panicked during the insertion of the next item,
which is complete, or no key has gained or changed a value, and the entries that do not touch its
range are all there; or its range was invalid. -/
theorem C75_extend_outcome (hS : LawfulSteps S) (items : Source (RangeInclusive K × V))
    (hx : ∀ r v p, some ((r, v), p) ∈ items → r.exhausted = false) :
    ∀ {m : RangeInclusiveMap K V}, Reachable S m →
    match m.extendCrash S items with
    | (.ok (), left) => ∃ l : List ((RangeInclusive K × V) × (Nat → Bool)),
        items = l.map some ∧ m.extend S (l.map (·.1)) = (left, .ok ())
    | (.error c, left) => ∃ (l : List ((RangeInclusive K × V) × (Nat → Bool))) (m' : RangeInclusiveMap K V) (rest : _),
        m.extend S (l.map (·.1)) = (m', .ok ()) ∧
        ((items = l.map some ++ none :: rest ∧ c = .user ∧ left = m') ∨
         ∃ r v p, items = l.map some ++ some ((r, v), p) :: rest ∧
          ((c = .user ∧ (∃ i, p i = true) ∧ m'.insert S r v = .ok left) ∨
           (c = .user ∧ (∃ i, p i = true) ∧
            (∀ k w, left.get k = .ok (some w) → m'.get k = .ok (some w)) ∧
            ∀ x ∈ m'.iter, ¬ ITouch r x.1 → x ∈ left.iter) ∨
           (c = .lib .assertFailed ∧ ¬ r.start ≤ r.stop ∧ left = m'))) := by
  induction items with
  | nil => intro m _; exact ⟨[], rfl, rfl⟩
  | cons i items ih =>
    intro m hm
    have hx0 := hx
    rcases i with _ | ⟨⟨r, v⟩, p⟩
    · exact ⟨[], m, items, rfl, .inl ⟨rfl, rfl, rfl⟩⟩
    · have hx := hx r v p (by simp)
      have ho := C42_insert_outcome hS hm p r v
      rw [extendCrash]
      rcases hc : insertCrash S p m r v with ⟨o, m'⟩
      rw [hc] at ho
      rcases o with c | u
      · refine ⟨[], m, items, rfl, .inr ⟨r, v, p, rfl, ?_⟩⟩
        rcases c with _ | c
        · obtain ⟨h1, h2 | h2⟩ := ho
          · exact .inl ⟨rfl, h1, h2⟩
          · exact .inr (.inl ⟨rfl, h1, h2⟩)
        · obtain ⟨rfl, h2⟩ := ho
          exact .inr (.inr ⟨rfl, h2⟩)
      · have hi : m.insert S r v = .ok m' := ho
        have h := ih (fun r v p h => hx0 r v p (by simp [h])) (hm.insert hx hi)
        simp only
        rcases he : extendCrash S m' items with ⟨o, left⟩
        rw [he] at h
        have hy : ∀ l : List ((RangeInclusive K × V) × (Nat → Bool)),
            m.extend S ((((r, v), p) :: l).map (·.1)) = m'.extend S (l.map (·.1)) := by
          intro l; simp [extend, hi]
        rcases o with c | u
        · obtain ⟨l, m2, rest, h1, h2⟩ := h
          refine ⟨((r, v), p) :: l, m2, rest, (hy l).trans h1, ?_⟩
          rcases h2 with ⟨rfl, h2⟩ | ⟨r', v', p', rfl, h2⟩
          · exact .inl ⟨rfl, h2⟩
          · exact .inr ⟨r', v', p', rfl, h2⟩
        · obtain ⟨l, rfl, h2⟩ := h
          exact ⟨((r, v), p) :: l, rfl, (hy l).trans h2⟩

/-- What can be found under a key after a call of `insert`. -/
theorem insertCrash_get [LawfulBEq V] (hS : LawfulSteps S) {m : RangeInclusiveMap K V} (hm : Reachable S m) (panics : Nat → Bool)
    (r : RangeInclusive K) (hx : r.exhausted = false) (v : V) (k : K) (w : V)
    (h : (insertCrash S panics m r v).2.get k = .ok (some w)) :
    (m.get k = .ok (some w) ∧ ((insertCrash S panics m r v).1.toBool = true → ¬ icovers r k)) ∨
    (w = v ∧ icovers r k) := by
  have key : ∀ m', m.insert S r v = .ok m' → m'.get k = .ok (some w) →
      (m.get k = .ok (some w) ∧ ¬ icovers r k) ∨ (w = v ∧ icovers r k) := by
    intro m' h1 h2
    by_cases hk : icovers r k
    · have hr : r.start ≤ r.stop := by
        apply Decidable.byContradiction
        intro hr
        simp [insert_invalid hr] at h1
      obtain ⟨m2, h3, -, h4⟩ := C23_insert_inside hS hm v hx hr
      rw [h1] at h3
      obtain rfl := Except.ok.inj h3
      have := h4 k (of_decide_eq_true hk).1 (of_decide_eq_true hk).2
      rw [h2] at this
      exact .inr ⟨by simpa using this, hk⟩
    · rw [C23_insert_outside_exact hS hm hx h1 k (fun h => hk (decide_eq_true h))] at h2
      exact .inl ⟨h2, hk⟩
  have ho := C42_insert_outcome hS hm panics r v
  revert h ho
  rcases insertCrash S panics m r v with ⟨o, left⟩
  rcases o with e | u
  · rcases e with _ | p
    · rintro h ⟨-, h1 | h1⟩
      · rcases key left h1 h with h | h
        · exact .inl ⟨h.1, fun _ => h.2⟩
        · exact .inr h
      · exact .inl ⟨h1.1 k w h, nofun⟩
    · rintro h ⟨-, -, rfl⟩
      exact .inl ⟨h, nofun⟩
  · intro h h1
    rcases key left h1 h with h | h
    · exact .inl ⟨h.1, fun _ => h.2⟩
    · exact .inr h

/-- What can be found under a key after a call of `remove`. -/
theorem removeCrash_get (hS : LawfulSteps S) {m : RangeInclusiveMap K V} (hm : Reachable S m) (panics : Nat → Bool)
    (r : RangeInclusive K) (k : K) (w : V) (h : (removeCrash S panics m r).2.get k = .ok (some w)) :
    m.get k = .ok (some w) ∧ ((removeCrash S panics m r).1.toBool = true → ¬ icovers r k) := by
  have ho := C42_remove_outcome hS hm panics r
  revert h ho
  rcases removeCrash S panics m r with ⟨o, left⟩
  rcases o with e | u
  · rcases e with _ | p
    · rintro h ⟨-, h1, -⟩
      exact ⟨h1 k w h, nofun⟩
    · rintro h ⟨-, -, rfl⟩
      exact ⟨h, nofun⟩
  · intro h h1
    have hr : r.start ≤ r.stop := by
      apply Decidable.byContradiction
      intro hr
      simp [remove_invalid hr] at h1
    obtain ⟨m2, h3, -, h4, h5⟩ := C24_remove_pointwise hS hm hr
    have h1 : m.remove S r = .ok left := h1
    rw [h1] at h3
    obtain rfl := Except.ok.inj h3
    by_cases hk : icovers r k
    · simp [h4 k (of_decide_eq_true hk).1 (of_decide_eq_true hk).2] at h
    · exact ⟨by rw [← h5 k (fun h => hk (decide_eq_true h))]; exact h, fun _ => hk⟩

/-- **C75** No value is found that should not be there, however many calls are interrupted: a value
found under a key has been inserted by a call with a range containing the key, and every later call
with such a range was interrupted. -/
theorem C75_no_stale_values [LawfulBEq V] (hS : LawfulSteps S)
    (ops : List (CrashOp (RangeInclusive K) V)) (hx : ∀ op ∈ ops, op.range.exhausted = false)
    (k : K) (w : V)
    (h : (CrashOp.log (insertCrash S) (removeCrash S) (new : RangeInclusiveMap K V) ops).2.get k = .ok (some w)) :
    ∃ pre p r b post, (CrashOp.log (insertCrash S) (removeCrash S) (new : RangeInclusiveMap K V) ops).1 =
        pre ++ (.insert p r w, b) :: post ∧ icovers r k ∧
      ∀ x ∈ post, x.2 = true → ¬ icovers x.1.range k := by
  suffices ∀ m : RangeInclusiveMap K V, Reachable S m →
      (CrashOp.log (insertCrash S) (removeCrash S) m ops).2.get k = .ok (some w) →
      (m.get k = .ok (some w) ∧ ∀ x ∈ (CrashOp.log (insertCrash S) (removeCrash S) m ops).1,
        x.2 = true → ¬ icovers x.1.range k) ∨
      ∃ pre p r b post, (CrashOp.log (insertCrash S) (removeCrash S) m ops).1 =
        pre ++ (.insert p r w, b) :: post ∧ icovers r k ∧
        ∀ x ∈ post, x.2 = true → ¬ icovers x.1.range k by
    rcases this new Reachable.new h with ⟨h, -⟩ | h
    · simp [RangeInclusiveMap.new, RangeInclusiveMap.get, getKeyValue, BTreeMap.range, Bound.invalid, bind, Except.bind, pure,
        Except.pure] at h
    · exact h
  clear h
  induction ops with
  | nil => exact fun m _ h => .inl ⟨h, nofun⟩
  | cons op ops ih =>
    intro m hm h
    replace ih := ih fun o ho => hx o (by simp [ho])
    replace hx := hx op (by simp)
    cases op with
    | insert p r v =>
      rcases ih _ (C42_insert_reachable hS hm p r hx v) h with ⟨h1, h2⟩ | ⟨pre, p', r', b, post, h1, h2⟩
      · rcases insertCrash_get hS hm p r hx v k w h1 with h3 | ⟨rfl, h3⟩
        · exact .inl ⟨h3.1, by
            intro x hx'
            rcases List.mem_cons.1 hx' with rfl | hx'
            · exact h3.2
            · exact h2 x hx'⟩
        · exact .inr ⟨[], p, r, _, _, rfl, h3, h2⟩
      · exact .inr ⟨_ :: pre, p', r', b, post, by
          rw [List.cons_append, ← h1]; rfl, h2⟩
    | remove p r =>
      rcases ih _ (C42_remove_reachable hS hm p r) h with ⟨h1, h2⟩ | ⟨pre, p', r', b, post, h1, h2⟩
      · have h3 := removeCrash_get hS hm p r k w h1
        exact .inl ⟨h3.1, by
          intro x hx'
          rcases List.mem_cons.1 hx' with rfl | hx'
          · exact h3.2
          · exact h2 x hx'⟩
      · exact .inr ⟨_ :: pre, p', r', b, post, by
          rw [List.cons_append, ← h1]; rfl, h2⟩

example := Inclusive.C75_no_stale_values (K := UIntW 8) (V := Char) (S := Demo.u8)
    Demo.u8_lawful [.insert (fun _ => false) (Demo.by8 2 22) 'q', .insert (· == 2) (Demo.by8 6 30)
    'z'] (by decide) ⟨3⟩ 'q' rfl

/-- **C75** Repeating an interrupted `insert` does not bring back what the interrupted one had
already taken out, but does no further harm: the keys of the range get the value, and any other key
has the value it had at first, or none; it still has it if its entry did not touch the range. -/
theorem C75_retry_insert [LawfulBEq V] (hS : LawfulSteps S) {m left m' : RangeInclusiveMap K V} (hm : Reachable S m)
    {panics : Nat → Bool} {r : RangeInclusive K} (hx : r.exhausted = false) {v : V}
    (h : insertCrash S panics m r v = (.error .user, left)) (h' : left.insert S r v = .ok m') (k : K) :
    (icovers r k → m'.get k = .ok (some v)) ∧
    (¬ icovers r k → m'.get k = m.get k ∨ m'.get k = .ok none) ∧
    (∀ x ∈ m.iter, ¬ ITouch r x.1 → icovers x.1 k → m'.get k = .ok (some x.2)) := by
  have hl : Reachable S left := by
    have := C42_insert_reachable hS hm panics r hx v
    rwa [h] at this
  have ho := C42_insert_outcome hS hm panics r v
  rw [h] at ho
  have hr : r.start ≤ r.stop := by
    apply Decidable.byContradiction
    intro hr
    simp [insert_invalid hr] at h'
  have hin : icovers r k → m'.get k = .ok (some v) := by
    intro hk
    obtain ⟨m2, h3, -, h4⟩ := C23_insert_inside hS hl v hx hr
    rw [h'] at h3
    obtain rfl := Except.ok.inj h3
    exact h4 k (of_decide_eq_true hk).1 (of_decide_eq_true hk).2
  have hm' := hl.insert hx h'
  refine ⟨hin, fun hk => ?_, fun x hx' hn hk => ?_⟩
  · rw [C23_insert_outside_exact hS hl hx h' k (fun h => hk (decide_eq_true h))]
    rcases ho with ⟨-, h1 | ⟨h1, -⟩⟩
    · exact .inl (C23_insert_outside_exact hS hm hx h1 k (fun h => hk (decide_eq_true h)))
    · rw [get_look (hl.wf hS)]
      cases hg : look left k with
      | none => exact .inr rfl
      | some w =>
        refine .inl (Eq.symm (h1 k w ?_))
        rw [get_look (hl.wf hS), hg]
  · have hne := (hm.wf hS).sep.ne x hx'
    have hk' : ¬ icovers r k := fun hk' => hn (.inl ⟨k, hk', hk⟩)
    rw [C23_insert_outside_exact hS hl hx h' k (fun h => hk' (decide_eq_true h))]
    rcases ho with ⟨-, h1 | ⟨-, h1⟩⟩
    · rw [C23_insert_outside_exact hS hm hx h1 k (fun h => hk' (decide_eq_true h)), get_eq_some (hm.wf hS).sep (hm.wf hS).fresh]
      exact ⟨x, hx', (of_decide_eq_true hk).1, (of_decide_eq_true hk).2, rfl⟩
    · rw [get_eq_some (hl.wf hS).sep (hl.wf hS).fresh]
      exact ⟨x, h1 x hx' hn, (of_decide_eq_true hk).1, (of_decide_eq_true hk).2, rfl⟩

example := Inclusive.C75_retry_insert (K := UIntW 8) (V := Char) (S := Demo.u8) Demo.u8_lawful
    (m := Demo.imap) Demo.imap_reachable (panics := (· == 2)) (r := Demo.by8 2 22) rfl (v := 'q')
    rfl rfl ⟨7⟩

/-- **C75** The same for `remove`. -/
theorem C75_retry_remove (hS : LawfulSteps S) {m left m' : RangeInclusiveMap K V} (hm : Reachable S m)
    {panics : Nat → Bool} {r : RangeInclusive K}
    (h : removeCrash S panics m r = (.error .user, left)) (h' : left.remove S r = .ok m') (k : K) :
    (icovers r k → m'.get k = .ok none) ∧
    (¬ icovers r k → m'.get k = m.get k ∨ m'.get k = .ok none) ∧
    (∀ x ∈ m.iter, ¬ Common icovers r x.1 → icovers x.1 k → m'.get k = .ok (some x.2)) := by
  have hl : Reachable S left := by
    have := C42_remove_reachable hS hm panics r
    rwa [h] at this
  have ho := C42_remove_outcome hS hm panics r
  rw [h] at ho
  have hr : r.start ≤ r.stop := by
    apply Decidable.byContradiction
    intro hr
    simp [remove_invalid hr] at h'
  obtain ⟨m2, h3, -, h4, h5⟩ := C24_remove_pointwise hS hl hr
  rw [h'] at h3
  obtain rfl := Except.ok.inj h3
  refine ⟨fun hk => h4 k (of_decide_eq_true hk).1 (of_decide_eq_true hk).2, fun hk => ?_, fun x hx' hn hk => ?_⟩
  · rw [h5 k (fun h => hk (decide_eq_true h)), get_look (hl.wf hS)]
    cases hg : look left k with
    | none => exact .inr rfl
    | some w =>
      refine .inl (Eq.symm (ho.2.1 k w ?_))
      rw [get_look (hl.wf hS), hg]
  · have hk' : ¬ icovers r k := fun hk' => hn ⟨k, hk', hk⟩
    rw [h5 k (fun h => hk' (decide_eq_true h)), get_eq_some (hl.wf hS).sep (hl.wf hS).fresh]
    exact ⟨x, ho.2.2 x hx' hn, (of_decide_eq_true hk).1, (of_decide_eq_true hk).2, rfl⟩


-- the second item's insertion is interrupted after it has taken out `20..=24` and before it has put
-- back the rest of it
example : (Demo.imap.extendCrash Demo.u8 [some ((Demo.by8 1 1, 'z'), fun _ => false),
      some ((Demo.by8 21 21, 'y'), fun i => i == 9), some ((Demo.by8 50 60, 'x'), fun _ => false)]).2.btm =
    [(Demo.by8 0 0, 'a'), (Demo.by8 1 1, 'z'), (Demo.by8 2 2, 'a'), (Demo.by8 5 15, 'a'), (Demo.by8 25 255, 'c')] := by
  decide +kernel
-- `insert(7..=8, 'z')` is interrupted, then repeated: `9..=15 ↦ 'a'` is lost
example : (insertCrash Demo.u8 (fun i => i == 12) Demo.imap (Demo.by8 7 8) 'z').1.toBool = false ∧
    ((insertCrash Demo.u8 (fun i => i == 12) Demo.imap (Demo.by8 7 8) 'z').2.insert Demo.u8
      (Demo.by8 7 8) 'z').toOption.map (·.btm) =
    some [(Demo.by8 0 2, 'a'), (Demo.by8 5 6, 'a'), (Demo.by8 7 8, 'z'), (Demo.by8 20 24, 'b'), (Demo.by8 25 255, 'c')] := by
  decide +kernel

end

/-! ## Inclusive sets -/

section
open RangeInclusiveSet

/-- **C75** The outcome of `RangeInclusiveSet::insert` and `remove` that may be interrupted.  The set left
behind is one that calls that are not interrupted can produce.  If user code panicked, the insertion
is complete or no key has been gained; the ranges that do not touch the range are all there. -/
theorem C75_set_insert (hS : LawfulSteps S) {s : RangeInclusiveSet K} (hs : Reachable S s)
    (panics : Nat → Bool) (r : RangeInclusive K) (hx : r.exhausted = false) :
    Reachable S (insertCrash S panics s r).2 ∧
    match insertCrash S panics s r with
    | (.ok (), left) => s.insert S r = .ok left
    | (.error .user, left) => (∃ i, panics i = true) ∧
        (s.insert S r = .ok left ∨
          ((∀ k, left.contains k = .ok true → s.contains k = .ok true) ∧
           ∀ x ∈ s.iter, ¬ ITouch r x → x ∈ left.iter))
    | (.error (.lib p), left) => p = .assertFailed ∧ ¬ r.start ≤ r.stop ∧ left = s := by
  refine ⟨.of_map hS (C42_insert_reachable hS hs.map panics r hx ()), ?_⟩
  have ho := C42_insert_outcome hS hs.map panics r ()
  unfold insertCrash
  rcases hc : RangeInclusiveMap.insertCrash S panics s.rm r () with ⟨o, left⟩
  rw [hc] at ho
  rcases o with e | u
  · rcases e with _ | p
    · obtain ⟨hi, h1 | ⟨h1, h2⟩⟩ := ho
      · exact ⟨hi, .inl (by rw [insert_rm, h1]; rfl)⟩
      · refine ⟨hi, .inr ⟨fun k hk => ?_, fun x hx' hn => ?_⟩⟩
        · have hl : RangeInclusiveMap.Reachable S left := by
            have := C42_insert_reachable hS hs.map panics r hx ()
            rwa [hc] at this
          simp only [contains, RangeInclusiveMap.containsKey, RangeInclusiveMap.get_look (hl.wf hS), bind, Except.bind,
            pure, Except.pure, Except.ok.injEq] at hk
          have := h1 k () (by
            rw [RangeInclusiveMap.get_look (hl.wf hS)]
            cases hg : left.look k with
            | none => simp [hg] at hk
            | some w => rfl)
          simp [contains, RangeInclusiveMap.containsKey, this, bind, Except.bind, pure, Except.pure]
        · obtain ⟨e, he, rfl⟩ := List.mem_map.1 hx'
          exact List.mem_map.2 ⟨e, h2 e he hn, rfl⟩
    · exact ⟨ho.1, ho.2.1, by rw [ho.2.2]⟩
  · have ho : s.rm.insert S r () = .ok left := ho
    show s.insert S r = _
    rw [insert_rm, ho]
    rfl

example := Inclusive.C75_set_insert (K := UIntW 8) (S := Demo.u8) Demo.u8_lawful
    (s := Demo.iset) Demo.iset_reachable (· == 2) (Demo.by8 2 22) (by decide)

/-- **C75** Likewise `remove`. -/
theorem C75_set_remove (hS : LawfulSteps S) {s : RangeInclusiveSet K} (hs : Reachable S s)
    (panics : Nat → Bool) (r : RangeInclusive K) :
    Reachable S (removeCrash S panics s r).2 ∧
    match removeCrash S panics s r with
    | (.ok (), left) => s.remove S r = .ok left
    | (.error .user, left) => (∃ i, panics i = true) ∧
        (∀ k, left.contains k = .ok true → s.contains k = .ok true) ∧
        ∀ x ∈ s.iter, ¬ Common icovers r x → x ∈ left.iter
    | (.error (.lib p), left) => p = .assertFailed ∧ ¬ r.start ≤ r.stop ∧ left = s := by
  refine ⟨.of_map hS (C42_remove_reachable hS hs.map panics r), ?_⟩
  have ho := C42_remove_outcome hS hs.map panics r
  unfold removeCrash
  rcases hc : RangeInclusiveMap.removeCrash S panics s.rm r with ⟨o, left⟩
  rw [hc] at ho
  rcases o with e | u
  · rcases e with _ | p
    · obtain ⟨hi, h1, h2⟩ := ho
      refine ⟨hi, fun k hk => ?_, fun x hx' hn => ?_⟩
      · have hl : RangeInclusiveMap.Reachable S left := by
          have := C42_remove_reachable hS hs.map panics r
          rwa [hc] at this
        simp only [contains, RangeInclusiveMap.containsKey, RangeInclusiveMap.get_look (hl.wf hS), bind, Except.bind,
          pure, Except.pure, Except.ok.injEq] at hk
        have := h1 k () (by
          rw [RangeInclusiveMap.get_look (hl.wf hS)]
          cases hg : left.look k with
          | none => simp [hg] at hk
          | some w => rfl)
        simp [contains, RangeInclusiveMap.containsKey, this, bind, Except.bind, pure, Except.pure]
      · obtain ⟨e, he, rfl⟩ := List.mem_map.1 hx'
        exact List.mem_map.2 ⟨e, h2 e he hn, rfl⟩
    · exact ⟨ho.1, ho.2.1, by rw [ho.2.2]⟩
  · have ho : s.rm.remove S r = .ok left := ho
    show s.remove S r = _
    rw [remove_rm, ho]
    rfl

example := Inclusive.C75_set_remove (K := UIntW 8) (S := Demo.u8) Demo.u8_lawful
    (s := Demo.iset) Demo.iset_reachable (· == 2) (Demo.by8 2 22)

/-- **C75** `RangeInclusiveSet::extend` is `RangeInclusiveMap::extend` with `()` for the values, also when it is
interrupted. -/
theorem C75_set_extend (items : Source (RangeInclusive K)) : ∀ s : RangeInclusiveSet K,
    s.extendCrash S items =
      ((s.rm.extendCrash S (items.map fun i => i.map fun e => ((e.1, ()), e.2))).1,
        ⟨(s.rm.extendCrash S (items.map fun i => i.map fun e => ((e.1, ()), e.2))).2⟩) := by
  induction items with
  | nil => intro s; rfl
  | cons i items ih =>
    intro s
    rcases i with _ | ⟨r, p⟩
    · rfl
    · rw [extendCrash, List.map_cons, Option.map_some, RangeInclusiveMap.extendCrash, insertCrash]
      rcases RangeInclusiveMap.insertCrash S p s.rm r () with ⟨o, left⟩
      rcases o with e | u
      · rfl
      · exact ih _


example : ((Demo.iset.extendCrash Demo.u8 [some (Demo.by8 4 6, fun _ => false), none,
      some (Demo.by8 50 60, fun _ => false)]).2.iter,
    (insertCrash Demo.u8 (fun i => i == 11) Demo.iset (Demo.by8 4 6)).2.iter) =
    ([Demo.by8 0 2, Demo.by8 4 14, Demo.by8 20 255], [Demo.by8 0 2, Demo.by8 20 255]) := by decide +kernel

end


-- a source that panics after two items, and one whose second insertion is interrupted
example := C75_extend_reachable Demo.u8_lawful
  [some ((Demo.by8 1 1, 'z'), fun _ => false), some ((Demo.by8 21 21, 'y'), fun i => i == 9), none]
  (by
    simp only [List.mem_cons, List.not_mem_nil, or_false, Option.some.injEq, Prod.mk.injEq,
      reduceCtorEq]
    rintro r v p (⟨⟨rfl, -⟩, -⟩ | ⟨⟨rfl, -⟩, -⟩) <;> rfl) Demo.imap_reachable
example := C75_extend_outcome Demo.u8_lawful
  [some ((Demo.by8 1 1, 'z'), fun _ => false), some ((Demo.by8 21 21, 'y'), fun i => i == 9), none]
  (by
    simp only [List.mem_cons, List.not_mem_nil, or_false, Option.some.injEq, Prod.mk.injEq,
      reduceCtorEq]
    rintro r v p (⟨⟨rfl, -⟩, -⟩ | ⟨⟨rfl, -⟩, -⟩) <;> rfl) Demo.imap_reachable

end Verif.Props.Inclusive

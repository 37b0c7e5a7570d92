import Verif.Model.LawlessOps
import Verif.Proof.Lawless

/-!
# Proofs about `Union` and `Intersection` with comparisons that keep to no law
-/
namespace Verif

namespace Spec
variable {T : Type}

/-- The elements `s` have been taken, in this order, from the fronts of `l` and `r`, and `l'` and
`r'` are left. -/
inductive Takes : List T → List T → List T → List T → List T → Prop where
  | nil (l r) : Takes l r [] l r
  | left {a l r s l' r'} (h : Takes l r s l' r') : Takes (a :: l) r (a :: s) l' r'
  | right {a l r s l' r'} (h : Takes l r s l' r') : Takes l (a :: r) (a :: s) l' r'

theorem Takes.append {l r s l1 r1 s' l2 r2 : List T} (h : Takes l r s l1 r1)
    (h' : Takes l1 r1 s' l2 r2) : Takes l r (s ++ s') l2 r2 := by
  induction h with
  | nil => exact h'
  | left h ih => exact .left (ih h')
  | right h ih => exact .right (ih h')

theorem Takes.length {l r s l' r' : List T} (h : Takes l r s l' r') :
    s.length + l'.length + r'.length = l.length + r.length := by
  induction h <;> simp <;> omega

/-- The pairs `s` of first elements of two lists, one of which is dropped after each pair; `l'` and
`r'` are left. -/
inductive Stairs : List T → List T → List (T × T) → List T → List T → Prop where
  | nil (l r) : Stairs l r [] l r
  | left {a b l r s l' r'} (h : Stairs l (b :: r) s l' r') :
    Stairs (a :: l) (b :: r) ((a, b) :: s) l' r'
  | right {a b l r s l' r'} (h : Stairs (a :: l) r s l' r') :
    Stairs (a :: l) (b :: r) ((a, b) :: s) l' r'

theorem Stairs.append {l r l1 r1 l2 r2 : List T} {s s' : List (T × T)} (h : Stairs l r s l1 r1)
    (h' : Stairs l1 r1 s' l2 r2) : Stairs l r (s ++ s') l2 r2 := by
  induction h with
  | nil => exact h'
  | left h ih => exact .left (ih h')
  | right h ih => exact .right (ih h')

theorem Stairs.length {l r l' r' : List T} {s : List (T × T)} (h : Stairs l r s l' r') :
    s.length + l'.length + r'.length = l.length + r.length := by
  induction h <;> simp_all <;> omega

end Spec

open Spec

namespace Wild
variable {K R V α β : Type}

namespace Always

theorem pure {a : α} {Q : α → Prop} (h : Q a) : Always (Pure.pure a : Wild K R V α) Q := h

theorem bind {p : Wild K R V α} {f : α → Wild K R V β} {P : α → Prop} {Q : β → Prop}
    (h : Always p P) (hf : ∀ a, P a → Always (f a) Q) : Always (p >>= f) Q := by
  show Always (p.bind f) Q
  induction p with
  | ret a => exact hf a h
  | panic p => exact h
  | ask q next ih => exact fun b => ih b (h b)
  | up k next ih => exact fun b => ih b (h b)
  | down k next ih => exact fun b => ih b (h b)
  | search key lo hi next ih => exact fun b => ih b (h b)
  | put r v next ih => exact h
  | delete k next ih => exact h

theorem weaken {p : Wild K R V α} {P Q : α → Prop} (h : Always p P) (hPQ : ∀ a, P a → Q a) :
    Always p Q := by
  induction p with
  | ret a => exact hPQ a h
  | panic p => exact h
  | ask q next ih => exact fun b => ih b (h b)
  | up k next ih => exact fun b => ih b (h b)
  | down k next ih => exact fun b => ih b (h b)
  | search key lo hi next ih => exact fun b => ih b (h b)
  | put r v next ih => exact h
  | delete k next ih => exact h

theorem lt (a b : K) : Always (Wild.lt a b : Wild K R V Bool) fun _ => True := fun _ => trivial
theorem le (a b : K) : Always (Wild.le a b : Wild K R V Bool) fun _ => True := fun _ => trivial

theorem max (a b : K) : Always (Wild.max a b : Wild K R V K) fun x => x = a ∨ x = b := by
  intro c; cases c
  · exact .inr rfl
  · exact .inl rfl

theorem min (a b : K) : Always (Wild.min a b : Wild K R V K) fun x => x = a ∨ x = b := by
  intro c; cases c
  · exact .inl rfl
  · exact .inr rfl

theorem and {p q : Wild K R V Bool} (hp : Always p fun _ => True) (hq : Always q fun _ => True) :
    Always (Wild.and p q) fun _ => True := by
  refine bind hp fun b _ => ?_
  cases b with
  | true => exact hq
  | false => exact pure trivial

theorem unwrap {a : α} {Q : α → Prop} (h : Q a) :
    Always (Wild.unwrap (some a) : Wild K R V α) Q := h

end Always
end Wild

open Wild

namespace Peekable
variable {T : Type}

/-- What a `Peekable` has still to yield. -/
def rest (p : Peekable (List T) T) : List T :=
  match p.peeked with
  | none => p.iter
  | some none => []
  | some (some v) => v :: p.iter

/-- The end has only been seen if it is there. -/
def Sound (p : Peekable (List T) T) : Prop := p.peeked = some none → p.iter = []

theorem peek_cases {p : Peekable (List T) T} (hp : p.Sound) :
    (p.rest = [] ∧ ∃ p', p.peek Deque.next = (none, p') ∧ p'.Sound ∧ p'.rest = []) ∨
    ∃ a t p' p'', p.rest = a :: t ∧ p.peek Deque.next = (some a, p') ∧ p'.Sound ∧ p'.rest = a :: t ∧
      p'.next Deque.next = (some a, p'') ∧ p''.Sound ∧ p''.rest = t := by
  obtain ⟨iter, o⟩ := p
  match o, iter, hp with
  | none, [], _ => exact .inl ⟨rfl, _, rfl, fun _ => rfl, rfl⟩
  | none, a :: t, _ =>
    exact .inr ⟨a, t, _, _, rfl, rfl, nofun, rfl, rfl, nofun, rfl⟩
  | some none, iter, hp => exact .inl ⟨rfl, _, rfl, hp, rfl⟩
  | some (some v), iter, _ =>
    exact .inr ⟨v, iter, _, _, rfl, rfl, nofun, rfl, rfl, nofun, rfl⟩

end Peekable

/-! ## Union -/

namespace PUnion
variable {K R V T : Type} {startLt : T → T → Wild K R V Bool}
  {merge : T → T → Wild K R V (Option T)} {joined : T → T → T}

/-- What a group of ranges may become. -/
def Made (joined : T → T → T) (g : List T) (y : T) : Prop :=
  ∃ x g', g = x :: g' ∧ (y = x ∨ ∃ z ∈ g', y = joined x z)

/-- Both iterators are sound. -/
def Sound (u : PUnion (List T) T) : Prop := u.left.Sound ∧ u.right.Sound

theorem joinW_always (hm : ∀ r o, Always (merge r o) fun x => ∀ r', x = some r' →
      r' = r ∨ r' = joined r o) (range : T) {p : Peekable (List T) T} (hp : p.Sound) :
    Always (joinW merge Deque.next range p) fun x => x.2.Sound ∧
      ((x.1 = none ∧ x.2.rest = p.rest) ∨ ∃ r' o t, x.1 = some r' ∧ p.rest = o :: t ∧
        x.2.rest = t ∧ (r' = range ∨ r' = joined range o)) := by
  unfold joinW
  obtain ⟨h0, p', h1, h2, h3⟩ | ⟨a, t, p', p'', h0, h1, h2, h3, h4, h5, h6⟩ := p.peek_cases hp
  · rw [h1]
    exact .pure ⟨h2, .inl ⟨rfl, by rw [h0, h3]⟩⟩
  · rw [h1]
    refine .bind (hm range a) fun o ho => ?_
    cases o with
    | none => exact .pure ⟨h2, .inl ⟨rfl, by rw [h0, h3]⟩⟩
    | some r' =>
      simp only [h4]
      refine .bind (.unwrap (Q := fun _ => True) trivial) fun _ _ => ?_
      exact .pure ⟨h5, .inr ⟨r', a, t, rfl, h0, h6, ho r' rfl⟩⟩

theorem mergeLoopW_always (hm : ∀ r o, Always (merge r o) fun x => ∀ r', x = some r' →
      r' = r ∨ r' = joined r o) (hj : ∀ x y z, joined (joined x y) z = joined x z) :
    ∀ (fuel : Nat) (range : T) (u : PUnion (List T) T), u.Sound →
      u.left.rest.length + u.right.rest.length < fuel →
      Always (mergeLoopW merge Deque.next fuel range u) fun x => x.2.Sound ∧
        ∃ g, Takes u.left.rest u.right.rest g x.2.left.rest x.2.right.rest ∧
          (x.1 = range ∨ ∃ z ∈ g, x.1 = joined range z)
  | 0, _, _, _, h => absurd h (Nat.not_lt_zero _)
  | fuel + 1, range, u, hu, hf => by
    have step : ∀ {r' o : T} {y : T} {g : List T}, (r' = range ∨ r' = joined range o) →
        (y = r' ∨ ∃ z ∈ g, y = joined r' z) → (y = range ∨ ∃ z ∈ o :: g, y = joined range z) := by
      intro r' o y g h1 h2
      rcases h1 with rfl | rfl
      · rcases h2 with h2 | ⟨z, hz, h2⟩
        · exact .inl h2
        · exact .inr ⟨z, .tail _ hz, h2⟩
      · rcases h2 with h2 | ⟨z, hz, h2⟩
        · exact .inr ⟨o, .head _, h2⟩
        · exact .inr ⟨z, .tail _ hz, by rw [h2, hj]⟩
    unfold mergeLoopW
    refine .bind (joinW_always hm range hu.1) fun x hx => ?_
    obtain ⟨o, left⟩ := x
    obtain ⟨hs, ⟨ho, h1⟩ | ⟨r', a, t, ho, h1, h2, h3⟩⟩ := hx
    · simp only at ho h1 hs
      subst ho
      refine .bind (joinW_always hm range hu.2) fun x hx => ?_
      obtain ⟨o, right⟩ := x
      obtain ⟨hs', ⟨ho, h1'⟩ | ⟨r', a, t, ho, h1', h2', h3'⟩⟩ := hx
      · simp only at ho h1' hs'
        subst ho
        refine .pure ⟨⟨hs, hs'⟩, [], ?_, .inl rfl⟩
        simp only [h1, h1']
        exact .nil _ _
      · simp only at ho h1' hs' h2'
        subst ho
        refine (mergeLoopW_always hm hj fuel r' ⟨left, right⟩ ⟨hs, hs'⟩ ?_).weaken ?_
        · simp only [h1, h2']
          rw [h1'] at hf
          simp at hf
          omega
        · rintro ⟨y, u'⟩ ⟨hs'', g, hg, hy⟩
          refine ⟨hs'', a :: g, ?_, step h3' hy⟩
          simp only [h1, h2'] at hg
          rw [h1']
          exact .right hg
    · simp only at ho h1 hs h2
      subst ho
      refine (mergeLoopW_always hm hj fuel r' ⟨left, u.right⟩ ⟨hs, hu.2⟩ ?_).weaken ?_
      · simp only [h2]
        rw [h1] at hf
        simp at hf
        omega
      · rintro ⟨y, u'⟩ ⟨hs'', g, hg, hy⟩
        refine ⟨hs'', a :: g, ?_, step h3 hy⟩
        simp only [h2] at hg
        rw [h1]
        exact .left hg

theorem firstW_always (hl : ∀ a b, Always (startLt a b) fun _ => True)
    {u : PUnion (List T) T} (hu : u.Sound) :
    Always (u.firstW startLt Deque.next) fun x => x.2.Sound ∧
      ((x.1 = none ∧ u.left.rest = [] ∧ u.right.rest = [] ∧ x.2.left.rest = [] ∧
        x.2.right.rest = []) ∨
      ∃ a, x.1 = some a ∧ Takes u.left.rest u.right.rest [a] x.2.left.rest x.2.right.rest) := by
  unfold firstW
  obtain ⟨h0, p', h1, h2, h3⟩ | ⟨a, t, p', p'', h0, h1, h2, h3, h4, h5, h6⟩ := u.left.peek_cases
    hu.1
  · obtain ⟨k0, q', k1, k2, k3⟩ | ⟨b, t', q', q'', k0, k1, k2, k3, k4, k5, k6⟩ :=
      u.right.peek_cases hu.2
    · rw [h1, k1]
      exact .pure ⟨⟨h2, k2⟩, .inl ⟨rfl, h0, k0, h3, k3⟩⟩
    · rw [h1, k1]
      simp only [k4]
      refine .bind (.unwrap (Q := fun x => x = b) rfl) fun _ h => ?_
      subst h
      refine .pure ⟨⟨h2, k5⟩, .inr ⟨_, rfl, ?_⟩⟩
      simp only [h0, k0, h3, k6]
      exact .right (.nil _ _)
  · obtain ⟨k0, q', k1, k2, k3⟩ | ⟨b, t', q', q'', k0, k1, k2, k3, k4, k5, k6⟩ :=
      u.right.peek_cases hu.2
    · rw [h1, k1]
      simp only [h4]
      refine .bind (.unwrap (Q := fun x => x = a) rfl) fun _ h => ?_
      subst h
      refine .pure ⟨⟨h5, k2⟩, .inr ⟨_, rfl, ?_⟩⟩
      simp only [h0, k0, h6, k3]
      exact .left (.nil _ _)
    · rw [h1, k1]
      refine .bind (hl a b) fun c _ => ?_
      cases c with
      | true =>
        simp only [h4, if_true]
        refine .bind (.unwrap (Q := fun x => x = a) rfl) fun _ h => ?_
        subst h
        refine .pure ⟨⟨h5, k2⟩, .inr ⟨_, rfl, ?_⟩⟩
        simp only [h0, k0, h6, k3]
        exact .left (.nil _ _)
      | false =>
        simp only [k4, Bool.false_eq_true, if_false]
        refine .bind (.unwrap (Q := fun x => x = b) rfl) fun _ h => ?_
        subst h
        refine .pure ⟨⟨h2, k5⟩, .inr ⟨_, rfl, ?_⟩⟩
        simp only [h0, k0, h3, k6]
        exact .right (.nil _ _)

theorem nextW_always (hl : ∀ a b, Always (startLt a b) fun _ => True)
    (hm : ∀ r o, Always (merge r o) fun x => ∀ r', x = some r' →
      r' = r ∨ r' = joined r o) (hj : ∀ x y z, joined (joined x y) z = joined x z) {fuel : Nat}
    {u : PUnion (List T) T} (hu : u.Sound)
    (hf : u.left.rest.length + u.right.rest.length ≤ fuel) :
    Always (u.nextW startLt merge Deque.next fuel) fun x => x.2.Sound ∧
      ((x.1 = none ∧ u.left.rest = [] ∧ u.right.rest = [] ∧ x.2.left.rest = [] ∧
        x.2.right.rest = []) ∨
      ∃ y g, x.1 = some y ∧ Takes u.left.rest u.right.rest g x.2.left.rest x.2.right.rest ∧
        Made joined g y) := by
  unfold nextW
  refine .bind (firstW_always hl hu) fun x hx => ?_
  obtain ⟨o, u'⟩ := x
  obtain ⟨hs, ⟨ho, h1, h2, h3, h4⟩ | ⟨a, ho, h1⟩⟩ := hx
  · simp only at ho
    subst ho
    exact .pure ⟨hs, .inl ⟨rfl, h1, h2, h3, h4⟩⟩
  · simp only at ho
    subst ho
    have hlen := h1.length
    simp only [List.length_singleton] at hlen
    refine .bind (mergeLoopW_always hm hj fuel a u' hs (by omega)) fun x hx => ?_
    obtain ⟨y, u''⟩ := x
    obtain ⟨hs', g, hg, hy⟩ := hx
    exact .pure ⟨hs', .inr ⟨y, a :: g, rfl, h1.append hg, a, g, rfl, hy⟩⟩

theorem calls_always (hl : ∀ a b, Always (startLt a b) fun _ => True)
    (hm : ∀ r o, Always (merge r o) fun x => ∀ r', x = some r' →
      r' = r ∨ r' = joined r o) (hj : ∀ x y z, joined (joined x y) z = joined x z) (fuel : Nat) :
    ∀ (n : Nat) (u : PUnion (List T) T), u.Sound →
    u.left.rest.length + u.right.rest.length ≤ fuel →
    Always (Wild.calls (nextW startLt merge Deque.next fuel) n u) fun out =>
      ∃ (ys : List T) (gs : List (List T)) (l' r' : List T), out = ys.map some ++ List.replicate
        (n - ys.length) none ∧ ys.length ≤ n ∧
        Takes u.left.rest u.right.rest gs.flatten l' r' ∧ gs.length = ys.length ∧
        (∀ p ∈ gs.zip ys, Made joined p.1 p.2) ∧ (ys.length < n → l' = [] ∧ r' = [])
  | 0, u, hu, hf => .pure ⟨[], [], _, _, rfl, Nat.le_refl _, .nil _ _, rfl, nofun, nofun⟩
  | n + 1, u, hu, hf => by
    unfold Wild.calls
    refine .bind (nextW_always hl hm hj hu hf) fun x hx => ?_
    obtain ⟨o, u'⟩ := x
    obtain ⟨hs, ⟨ho, h1, h2, h3, h4⟩ | ⟨y, g, ho, hg, hy⟩⟩ := hx
    · simp only at ho hs h3 h4
      subst ho
      refine .bind (calls_always hl hm hj fuel n u' hs (by rw [h3, h4]; exact Nat.zero_le _))
        fun out hout => ?_
      obtain ⟨ys, gs, l', r', e1, e2, e3, e4, e5, e6⟩ := hout
      rw [h3, h4] at e3
      have hy0 : ys = [] := by
        cases ys with
        | nil => rfl
        | cons y ys =>
          cases gs with
          | nil => simp at e4
          | cons g gs =>
            obtain ⟨x, g', rfl, -⟩ := e5 (g, y) (.head _)
            have := e3.length
            simp at this
      subst hy0
      subst e1
      refine .pure ⟨[], [], [], [], ?_, Nat.zero_le _, ?_, rfl, nofun, fun _ => ⟨rfl, rfl⟩⟩
      · simp [List.replicate_succ]
      · rw [h1, h2]
        exact .nil _ _
    · simp only at ho hs hg
      subst ho
      have hlen := hg.length
      refine .bind (calls_always hl hm hj fuel n u' hs (by omega)) fun out hout => ?_
      obtain ⟨ys, gs, l', r', e1, e2, e3, e4, e5, e6⟩ := hout
      subst e1
      refine .pure ⟨y :: ys, g :: gs, l', r', ?_, ?_, ?_, ?_, ?_, ?_⟩
      · simp
      · simp; omega
      · simp only [List.flatten_cons]
        exact hg.append e3
      · simp [e4]
      · intro p hp
        simp only [List.zip_cons_cons, List.mem_cons] at hp
        rcases hp with rfl | hp
        · exact hy
        · exact e5 p hp
      · intro h
        simp at h
        exact e6 h

end PUnion

/-! ## Intersection -/

namespace PIntersection
variable {K R V T : Type} {endLt : T → T → Wild K R V Bool}
  {intersect : T → T → Wild K R V (Option T)} {Cut : T → T → T → Prop}

/-- Both iterators are sound. -/
def Sound (u : PIntersection (List T) T) : Prop := u.left.Sound ∧ u.right.Sound

theorem nextW_always (hl : ∀ a b, Always (endLt a b) fun _ => True)
    (hi : ∀ a b, Always (intersect a b) fun x => ∀ y, x = some y → Cut a b y) :
    ∀ (fuel : Nat) (u : PIntersection (List T) T), u.Sound →
    u.left.rest.length + u.right.rest.length < fuel →
    Always (u.nextW endLt intersect Deque.next fuel) fun x => x.2.Sound ∧
      ∃ ps, ((x.1 = none ∧ Stairs u.left.rest u.right.rest ps x.2.left.rest x.2.right.rest ∧
        (x.2.left.rest = [] ∨ x.2.right.rest = [])) ∨
      ∃ y a b, x.1 = some y ∧
        Stairs u.left.rest u.right.rest (ps ++ [(a, b)]) x.2.left.rest x.2.right.rest ∧ Cut a b y)
  | 0, _, _, h => absurd h (Nat.not_lt_zero _)
  | fuel + 1, u, hu, hf => by
    unfold nextW
    obtain ⟨h0, p', h1, h2, h3⟩ | ⟨a, t, p', p'', h0, h1, h2, h3, h4, h5, h6⟩ :=
      u.left.peek_cases hu.1
    · have : ∃ o q', u.right.peek Deque.next = (o, q') ∧ q'.Sound ∧ q'.rest = u.right.rest := by
        obtain ⟨k0, q', k1, k2, k3⟩ | ⟨b, t', q', q'', k0, k1, k2, k3, k4, k5, k6⟩ :=
          u.right.peek_cases hu.2
        · exact ⟨_, _, k1, k2, by rw [k0, k3]⟩
        · exact ⟨_, _, k1, k2, by rw [k0, k3]⟩
      obtain ⟨o, q', k1, k2, k3⟩ := this
      rw [h1, k1]
      refine .pure ⟨⟨h2, k2⟩, [], .inl ⟨rfl, ?_, .inl h3⟩⟩
      simp only [h0, h3, k3]
      exact .nil _ _
    · obtain ⟨k0, q', k1, k2, k3⟩ | ⟨b, t', q', q'', k0, k1, k2, k3, k4, k5, k6⟩ :=
        u.right.peek_cases hu.2
      · rw [h1, k1]
        refine .pure ⟨⟨h2, k2⟩, [], .inl ⟨rfl, ?_, .inr k3⟩⟩
        simp only [h0, h3, k0, k3]
        exact .nil _ _
      · rw [h1, k1]
        refine .bind (hi a b) fun o ho => ?_
        refine .bind (hl a b) fun c _ => ?_
        rw [h0, k0] at hf
        simp only [List.length_cons] at hf
        -- the state after the step
        have main : ∀ i : PIntersection (List T) T, i.Sound →
            (∀ s l' r', Stairs i.left.rest i.right.rest s l' r' →
              Stairs u.left.rest u.right.rest ((a, b) :: s) l' r') →
            i.left.rest.length + i.right.rest.length < fuel →
            Always (match o with
              | some range => (pure (some range, i) : Wild K R V _)
              | none => nextW endLt intersect Deque.next fuel i) fun x => x.2.Sound ∧
      ∃ ps, ((x.1 = none ∧ Stairs u.left.rest u.right.rest ps x.2.left.rest x.2.right.rest ∧
        (x.2.left.rest = [] ∨ x.2.right.rest = [])) ∨
      ∃ y a b, x.1 = some y ∧
        Stairs u.left.rest u.right.rest (ps ++ [(a, b)]) x.2.left.rest x.2.right.rest ∧
          Cut a b y) := by
          intro i hs hst hlen
          cases o with
          | some y =>
            exact .pure ⟨hs, [], .inr ⟨y, a, b, rfl, hst [] _ _ (.nil _ _), ho y rfl⟩⟩
          | none =>
            refine (nextW_always hl hi fuel i hs hlen).weaken ?_
            rintro ⟨x, i'⟩ ⟨hs', ps, ⟨e1, e2, e3⟩ | ⟨y, a', b', e1, e2, e3⟩⟩
            · exact ⟨hs', (a, b) :: ps, .inl ⟨e1, hst _ _ _ e2, e3⟩⟩
            · exact ⟨hs', (a, b) :: ps, .inr ⟨y, a', b', e1, hst _ _ _ e2, e3⟩⟩
        cases c with
        | true =>
          simp only [if_true, h4]
          refine main ⟨p'', q'⟩ ⟨h5, k2⟩ (fun s l' r' h => ?_) ?_
          · simp only [h6, k3] at h
            rw [h0, k0]
            exact .left h
          · simp only [h6, k3, List.length_cons]
            omega
        | false =>
          simp only [Bool.false_eq_true, if_false, k4]
          refine main ⟨p', q''⟩ ⟨h2, k5⟩ (fun s l' r' h => ?_) ?_
          · simp only [h3, k6] at h
            rw [h0, k0]
            exact .right h
          · simp only [h3, k6, List.length_cons]
            omega

theorem calls_always (hl : ∀ a b, Always (endLt a b) fun _ => True)
    (hi : ∀ a b, Always (intersect a b) fun x => ∀ y, x = some y → Cut a b y) (fuel : Nat) :
    ∀ (n : Nat) (u : PIntersection (List T) T), u.Sound →
    u.left.rest.length + u.right.rest.length < fuel →
    Always (Wild.calls (nextW endLt intersect Deque.next fuel) n u) fun out =>
      ∃ (ys : List T) (ps qs : List (T × T)) (l' r' : List T), out = ys.map some ++ List.replicate
        (n - ys.length) none ∧ ys.length ≤ n ∧
        Stairs u.left.rest u.right.rest ps l' r' ∧ qs.Sublist ps ∧ qs.length = ys.length ∧
        (∀ p ∈ qs.zip ys, Cut p.1.1 p.1.2 p.2) ∧ (ys.length < n → l' = [] ∨ r' = [])
  | 0, u, hu, hf => .pure
    ⟨[], [], [], _, _, rfl, Nat.le_refl _, .nil _ _, .slnil, rfl, nofun, nofun⟩
  | n + 1, u, hu, hf => by
    unfold Wild.calls
    refine .bind (nextW_always hl hi fuel u hu hf) fun x hx => ?_
    obtain ⟨o, u'⟩ := x
    obtain ⟨hs, ps, ⟨ho, h1, h2⟩ | ⟨y, a, b, ho, hg, hy⟩⟩ := hx
    · simp only at ho hs h1 h2
      subst ho
      have hlen := h1.length
      refine .bind (calls_always hl hi fuel n u' hs (by omega)) fun out hout => ?_
      obtain ⟨ys, ps', qs, l', r', e1, e2, e3, e4, e5, e6, e7⟩ := hout
      have hp0 : ps' = [] := by
        generalize u'.left.rest = l, u'.right.rest = r at e3 h2
        cases e3 with
        | nil => rfl
        | left h => simp at h2
        | right h => simp at h2
      subst hp0
      have hq0 : qs = [] := List.sublist_nil.1 e4
      subst hq0
      have hy0 : ys = [] := List.length_eq_zero_iff.1 e5.symm
      subst hy0
      subst e1
      refine .pure ⟨[], ps, [], u'.left.rest, u'.right.rest, ?_, Nat.zero_le _, h1,
        List.nil_sublist _, rfl, nofun, fun _ => h2⟩
      simp [List.replicate_succ]
    · simp only at ho hs hg
      subst ho
      have hlen := hg.length
      refine .bind (calls_always hl hi fuel n u' hs (by omega)) fun out hout => ?_
      obtain ⟨ys, ps', qs, l', r', e1, e2, e3, e4, e5, e6, e7⟩ := hout
      subst e1
      refine .pure ⟨y :: ys, ps ++ [(a, b)] ++ ps', (a, b) :: qs, l', r', ?_, ?_, hg.append e3, ?_,
        ?_, ?_, ?_⟩
      · simp
      · simp; omega
      · simp only [List.append_assoc, List.singleton_append]
        exact List.Sublist.trans (.cons_cons _ e4) (List.sublist_append_right _ _)
      · simp [e5]
      · intro p hp
        simp only [List.zip_cons_cons, List.mem_cons] at hp
        rcases hp with rfl | hp
        · exact hy
        · exact e6 p hp
      · intro h
        simp at h
        exact e7 h

end PIntersection
/-! ## The ranges of the crate -/

namespace Range
variable {K R V : Type}

theorem startLtW_always (a b : Range K) : Always (a.startLtW b : Wild K R V Bool) fun _ => True :=
  .lt _ _

theorem endLtW_always (a b : Range K) : Always (a.endLtW b : Wild K R V Bool) fun _ => True :=
  .lt _ _

theorem mergeW_always (r o : Range K) : Always (r.mergeW o : Wild K R V _) fun x =>
    ∀ r', x = some r' → r' = r ∨ r' = ⟨r.start, o.stop⟩ := by
  refine .bind (P := fun _ => True) (.and (.le _ _) (.lt _ _)) fun b _ => ?_
  cases b with
  | false => exact .pure nofun
  | true =>
    refine .bind (.lt _ _) fun b _ => ?_
    cases b with
    | false => exact .pure fun r' h => .inl (Option.some.inj h).symm
    | true => exact .pure fun r' h => .inr (Option.some.inj h).symm

theorem intersectW_always (a b : Range K) : Always (a.intersectW b : Wild K R V _) fun x =>
    ∀ y, x = some y → (y.start = a.start ∨ y.start = b.start) ∧
      (y.stop = a.stop ∨ y.stop = b.stop) := by
  refine .bind (.max _ _) fun s hs => .bind (.min _ _) fun e he => .bind (.le _ _) fun c _ => ?_
  cases c with
  | true => exact .pure nofun
  | false =>
    refine .pure fun y h => ?_
    cases h
    exact ⟨hs, he⟩

end Range

namespace RangeInclusive
variable {K R V : Type}

theorem startLtW_always (a b : RangeInclusive K) : Always (a.startLtW b : Wild K R V Bool) fun _
    => True :=
  .lt _ _

theorem endLtW_always (a b : RangeInclusive K) : Always (a.endLtW b : Wild K R V Bool) fun _ =>
    True :=
  .lt _ _

theorem mergeW_always (r o : RangeInclusive K) : Always (r.mergeW o : Wild K R V _) fun x =>
    ∀ r', x = some r' → r' = r ∨ r' = RangeInclusive.mk' r.start o.stop := by
  refine .bind (P := fun _ => True) (.and (.le _ _) (by
    cases r.exhausted with
    | true => exact .lt _ _
    | false => exact .le _ _)) fun b _ => ?_
  cases b with
  | false => exact .pure nofun
  | true =>
    refine .bind (.lt _ _) fun b _ => ?_
    cases b with
    | false => exact .pure fun r' h => .inl (Option.some.inj h).symm
    | true => exact .pure fun r' h => .inr (Option.some.inj h).symm

theorem intersectW_always (a b : RangeInclusive K) : Always (a.intersectW b : Wild K R V _) fun x =>
    ∀ y, x = some y → (y.start = a.start ∨ y.start = b.start) ∧
      (y.stop = a.stop ∨ y.stop = b.stop) ∧ y.exhausted = false := by
  refine .bind (.max _ _) fun s hs => .bind (.min _ _) fun e he => .bind (.lt _ _) fun c _ => ?_
  cases c with
  | true => exact .pure nofun
  | false =>
    refine .pure fun y h => ?_
    cases h
    exact ⟨hs, he, rfl⟩

end RangeInclusive

/-! ## Honest answers -/

section
variable {K : Type} [LE K] [LT K] [DecidableLE K] [DecidableLT K] {R V : Type} [BEq V]
    {start : R → K}
  {S : StepFns K} {t : List (R × V)}

theorem kcmp_isLT_decide (a b : K) : (kcmp a b).isLT = decide (a < b) := by
  unfold kcmp
  by_cases h : a < b
  · simp [h]
  · by_cases h' : b < a <;> simp [h, h']

namespace Wild.Answers

theorem max (a b : K) : Answers start S (Wild.max a b) t (.ok (rmax a b)) := fun w => by
  refine ⟨w + ⟨1, 0, 0⟩, ?_⟩
  unfold Wild.max
  rw [honest, honest, rmax]
  simp only [decide_eq_true_eq]

theorem min (a b : K) : Answers start S (Wild.min a b) t (.ok (rmin a b)) := fun w => by
  refine ⟨w + ⟨1, 0, 0⟩, ?_⟩
  unfold Wild.min
  rw [honest, honest, rmin]
  simp only [decide_eq_true_eq]

theorem unwrap {α : Type} (o : Option α) : Answers start S (Wild.unwrap o) t (Verif.unwrap o) :=
  fun w => by cases o <;> exact ⟨w, rfl⟩

end Wild.Answers

namespace Range

theorem startLtW_answers (a b : Range K) :
    Answers start S (a.startLtW b) t (.ok (RangeOrder.orderStart a b).isLT) := by
  show Answers start S _ t (.ok (kcmp _ _).isLT)
  rw [kcmp_isLT_decide]
  exact .lt _ _

theorem endLtW_answers (a b : Range K) :
    Answers start S (a.endLtW b) t (.ok (RangeOrder.orderEnd a b).isLT) := by
  show Answers start S _ t (.ok (kcmp _ _).isLT)
  rw [kcmp_isLT_decide]
  exact .lt _ _

theorem mergeW_answers (a b : Range K) :
    Answers start S (a.mergeW b) t (.ok (RangeMerge.merge a b)) := by
  show Answers start S _ t (.ok (Range.merge a b))
  unfold mergeW merge
  refine .bindE (.contains _ _) ?_
  cases a.contains b.start with
  | false => exact .pure
  | true =>
    refine .bindE (.lt _ _) ?_
    by_cases h : a.stop < b.stop
    · simp only [h, decide_true, if_true, Bool.not_true, Bool.false_eq_true, if_false]
      exact .pure
    · simp only [h, decide_false, if_true, Bool.not_true, Bool.false_eq_true, if_false]
      exact .pure

theorem intersectW_answers (a b : Range K) :
    Answers start S (a.intersectW b) t (.ok (RangeIntersect.intersect a b)) := by
  show Answers start S _ t (.ok (Range.intersect a b))
  unfold intersectW intersect
  refine .bindE (.max _ _) (.bindE (.min _ _) (.bindE (.le _ _) ?_))
  split
  · rename_i h
    rw [if_pos (of_decide_eq_true h)]
    exact .pure
  · rename_i h
    rw [if_neg (fun h' => h (decide_eq_true h'))]
    exact .pure

end Range

namespace RangeInclusive

theorem startLtW_answers (a b : RangeInclusive K) :
    Answers start S (a.startLtW b) t (.ok (RangeOrder.orderStart a b).isLT) := by
  show Answers start S _ t (.ok (kcmp _ _).isLT)
  rw [kcmp_isLT_decide]
  exact .lt _ _

theorem endLtW_answers (a b : RangeInclusive K) :
    Answers start S (a.endLtW b) t (.ok (RangeOrder.orderEnd a b).isLT) := by
  show Answers start S _ t (.ok (kcmp _ _).isLT)
  rw [kcmp_isLT_decide]
  exact .lt _ _

theorem mergeW_answers (a b : RangeInclusive K) :
    Answers start S (a.mergeW b) t (.ok (RangeMerge.merge a b)) := by
  show Answers start S _ t (.ok (RangeInclusive.merge a b))
  unfold mergeW merge
  refine .bindE (.icontains _ _) ?_
  cases a.contains b.start with
  | false => exact .pure
  | true =>
    refine .bindE (.lt _ _) ?_
    by_cases h : a.stop < b.stop
    · simp only [h, decide_true, if_true, Bool.not_true, Bool.false_eq_true, if_false]
      exact .pure
    · simp only [h, decide_false, if_true, Bool.not_true, Bool.false_eq_true, if_false]
      exact .pure

theorem intersectW_answers (a b : RangeInclusive K) :
    Answers start S (a.intersectW b) t (.ok (RangeIntersect.intersect a b)) := by
  show Answers start S _ t (.ok (RangeInclusive.intersect a b))
  unfold intersectW intersect
  refine .bindE (.max _ _) (.bindE (.min _ _) (.bindE (.lt _ _) ?_))
  split
  · rename_i h
    rw [if_pos (of_decide_eq_true h)]
    exact .pure
  · rename_i h
    rw [if_neg (fun h' => h (decide_eq_true h'))]
    exact .pure

end RangeInclusive

namespace PUnion
variable {I T : Type} [RangeOrder T] [RangeMerge T] {startLt : T → T → Wild K R V Bool}
  {merge : T → T → Wild K R V (Option T)}

theorem firstW_answers
    (hl : ∀ a b, Answers start S (startLt a b) t (.ok (RangeOrder.orderStart a b).isLT))
    (inext : I → Option T × I) (u : PUnion I T) :
    Answers start S (u.firstW startLt inext) t (u.first inext) := by
  unfold firstW first
  cases hx : u.left.peek inext with
  | mk l left =>
    cases hy : u.right.peek inext with
    | mk r right =>
      cases l with
      | none =>
        cases r with
        | none => exact .pure
        | some r => exact .bind (.unwrap _) fun _ => .pure
      | some l =>
        cases r with
        | none => exact .bind (.unwrap _) fun _ => .pure
        | some r =>
          refine .bindE (hl l r) ?_
          dsimp only
          split
          · exact .bind (.unwrap _) fun _ => .pure
          · exact .bind (.unwrap _) fun _ => .pure

theorem joinW_answers (hm : ∀ a b, Answers start S (merge a b) t (.ok (RangeMerge.merge a b)))
    (inext : I → Option T × I) (range : T) (p : Peekable I T) :
    Answers start S (joinW merge inext range p) t (join inext range p) := by
  unfold joinW join
  cases hx : p.peek inext with
  | mk o p =>
    cases o with
    | none => exact .pure
    | some next =>
      refine .bindE (hm range next) ?_
      dsimp only
      cases RangeMerge.merge range next with
      | none => exact .pure
      | some r => exact .bind (.unwrap _) fun _ => .pure

theorem mergeLoopW_answers (hm : ∀ a b, Answers start S (merge a b) t (.ok (RangeMerge.merge a b)))
    (inext : I → Option T × I) : ∀ (fuel : Nat) (range : T) (u : PUnion I T),
    Answers start S (mergeLoopW merge inext fuel range u) t (mergeLoop inext fuel range u)
  | 0, _, _ => fun w => ⟨w, rfl⟩
  | fuel + 1, range, u => by
    refine .bind (joinW_answers hm inext range u.left) fun x => ?_
    obtain ⟨o, left⟩ := x
    cases o with
    | some r => exact mergeLoopW_answers hm inext fuel r _
    | none =>
      refine .bind (joinW_answers hm inext range u.right) fun x => ?_
      obtain ⟨o, right⟩ := x
      cases o with
      | some r => exact mergeLoopW_answers hm inext fuel r _
      | none => exact .pure

theorem nextW_answers
    (hl : ∀ a b, Answers start S (startLt a b) t (.ok (RangeOrder.orderStart a b).isLT))
    (hm : ∀ a b, Answers start S (merge a b) t (.ok (RangeMerge.merge a b)))
    (inext : I → Option T × I) (fuel : Nat) (u : PUnion I T) :
    Answers start S (u.nextW startLt merge inext fuel) t (u.next inext fuel) := by
  refine .bind (firstW_answers hl inext u) fun x => ?_
  obtain ⟨o, u'⟩ := x
  cases o with
  | none => exact .pure
  | some r => exact .bind (mergeLoopW_answers hm inext fuel r u') fun _ => .pure

end PUnion

namespace PIntersection
variable {I T : Type} [RangeOrder T] [RangeIntersect T] {endLt : T → T → Wild K R V Bool}
  {intersect : T → T → Wild K R V (Option T)}

theorem nextW_answers
    (hl : ∀ a b, Answers start S (endLt a b) t (.ok (RangeOrder.orderEnd a b).isLT))
    (hi : ∀ a b, Answers start S (intersect a b) t (.ok (RangeIntersect.intersect a b)))
    (inext : I → Option T × I) : ∀ (fuel : Nat) (u : PIntersection I T),
    Answers start S (u.nextW endLt intersect inext fuel) t (u.next inext fuel)
  | 0, _ => fun w => ⟨w, rfl⟩
  | fuel + 1, u => by
    unfold nextW next
    cases hx : u.left.peek inext with
    | mk l left =>
      cases hy : u.right.peek inext with
      | mk r right =>
        cases l with
        | none => exact .pure
        | some l =>
          cases r with
          | none => exact .pure
          | some r =>
            refine .bindE (hi l r) (.bindE (hl l r) ?_)
            dsimp only
            cases RangeIntersect.intersect l r with
            | some range =>
              cases (RangeOrder.orderEnd l r).isLT <;> exact .bindE .pure .pure
            | none =>
              cases (RangeOrder.orderEnd l r).isLT <;>
                exact .bindE .pure (nextW_answers hl hi inext fuel _)

end PIntersection

theorem firsts_eq {γ σ : Type} (next : σ → Except Panic (Option γ × σ)) :
    ∀ n s, Wild.firsts next n s = callsE next n s
  | 0, _ => rfl
  | n + 1, s => by
    unfold Wild.firsts callsE
    cases next s with
    | error p => rfl
    | ok x =>
      show (do let l ← firsts next n x.2; pure (x.1 :: l)) = (callsE next n x.2).map (x.1 :: ·)
      rw [firsts_eq next n]
      cases callsE next n x.2 <;> rfl

end
end Verif

import Verif.Model.Lawless
import Verif.Proof.Calls

/-!
# Programs whose user code answers whatever it likes
-/
set_option linter.unusedSectionVars false
namespace Verif
namespace Wild
variable {K R V α β : Type}

/-! ## `bind` -/

@[simp] theorem ret_bind (a : α) (f : α → Wild K R V β) : (pure a >>= f) = f a := rfl

theorem ends_bind {up down : K → K → Prop} {p : Wild K R V α} {f : α → Wild K R V β}
    {t t' : List (R × V)} {o : Option β} (h : Ends up down (p >>= f) t o t') :
    (o = none ∧ Ends up down p t none t') ∨
      ∃ a t1, Ends up down p t (some a) t1 ∧ Ends up down (f a) t1 o t' := by
  induction p generalizing t with
  | ret a => exact .inr ⟨a, t, .ret a t, h⟩
  | panic p => cases h; exact .inl ⟨rfl, .panic _ _⟩
  | ask q next ih =>
    cases h with
    | panic => exact .inl ⟨rfl, .panic _ _⟩
    | ask b h =>
      rcases ih b h with ⟨h1, h2⟩ | ⟨a, t1, h1, h2⟩
      · exact .inl ⟨h1, .ask b h2⟩
      · exact .inr ⟨a, t1, .ask b h1, h2⟩
  | up k next ih =>
    cases h with
    | panic => exact .inl ⟨rfl, .panic _ _⟩
    | up k' hk h =>
      rcases ih k' h with ⟨h1, h2⟩ | ⟨a, t1, h1, h2⟩
      · exact .inl ⟨h1, .up k' hk h2⟩
      · exact .inr ⟨a, t1, .up k' hk h1, h2⟩
  | down k next ih =>
    cases h with
    | panic => exact .inl ⟨rfl, .panic _ _⟩
    | down k' hk h =>
      rcases ih k' h with ⟨h1, h2⟩ | ⟨a, t1, h1, h2⟩
      · exact .inl ⟨h1, .down k' hk h2⟩
      · exact .inr ⟨a, t1, .down k' hk h1, h2⟩
  | search key lo hi next ih =>
    cases h with
    | panic => exact .inl ⟨rfl, .panic _ _⟩
    | search l hl h =>
      rcases ih l h with ⟨h1, h2⟩ | ⟨a, t1, h1, h2⟩
      · exact .inl ⟨h1, .search l hl h2⟩
      · exact .inr ⟨a, t1, .search l hl h1, h2⟩
  | put r v next ih =>
    cases h with
    | panic => exact .inl ⟨rfl, .panic _ _⟩
    | put t1 ht h =>
      rcases ih h with ⟨h1, h2⟩ | ⟨a, t2, h1, h2⟩
      · exact .inl ⟨h1, .put t1 ht h2⟩
      · exact .inr ⟨a, t2, .put t1 ht h1, h2⟩
  | delete k next ih =>
    cases h with
    | panic => exact .inl ⟨rfl, .panic _ _⟩
    | delete t1 ht h =>
      rcases ih h with ⟨h1, h2⟩ | ⟨a, t2, h1, h2⟩
      · exact .inl ⟨h1, .delete t1 ht h2⟩
      · exact .inr ⟨a, t2, .delete t1 ht h1, h2⟩

/-! ## What is kept -/

/-- Whatever the user code answers, the program leaves a B-tree with `I` if it is given one, also
when it panics, and what it returns has `Q`. -/
def Keeps (up down : K → K → Prop) (I : List (R × V) → Prop) (p : Wild K R V α) (Q : α → Prop) :
    Prop :=
  ∀ t o t', I t → Ends up down p t o t' → I t' ∧ ∀ a, o = some a → Q a

namespace Keeps
variable {up down : K → K → Prop} {I : List (R × V) → Prop}

theorem ret {a : α} {Q : α → Prop} (h : Q a) : Keeps up down I (.ret a) Q := by
  intro t o t' ht he
  cases he with
  | ret => exact ⟨ht, fun _ e => by cases e; exact h⟩
  | panic => exact ⟨ht, fun _ e => by cases e⟩

theorem pure {a : α} {Q : α → Prop} (h : Q a) : Keeps up down I (Pure.pure a) Q := ret h

theorem panic {p : Panic} {Q : α → Prop} : Keeps up down I (.panic p : Wild K R V α) Q := by
  intro t o t' ht he
  cases he
  exact ⟨ht, fun _ e => by cases e⟩

theorem bind {p : Wild K R V α} {f : α → Wild K R V β} {P : α → Prop} {Q : β → Prop}
    (h : Keeps up down I p P) (hf : ∀ a, P a → Keeps up down I (f a) Q) :
    Keeps up down I (p >>= f) Q := by
  intro t o t' ht he
  rcases ends_bind he with ⟨rfl, h0⟩ | ⟨a, t1, h1, h2⟩
  · exact ⟨(h _ _ _ ht h0).1, fun _ e => by cases e⟩
  · obtain ⟨g1, g2⟩ := h _ _ _ ht h1
    exact hf a (g2 a rfl) _ _ _ g1 h2

theorem ask {q : Ask K V} {next : Bool → Wild K R V α} {Q : α → Prop}
    (h : ∀ b, Keeps up down I (next b) Q) : Keeps up down I (.ask q next) Q := by
  intro t o t' ht he
  cases he with
  | panic => exact ⟨ht, fun _ e => by cases e⟩
  | ask b he => exact h b _ _ _ ht he

theorem lt (a b : K) : Keeps up down I (Wild.lt a b) fun _ => True := ask fun _ => ret trivial
theorem le (a b : K) : Keeps up down I (Wild.le a b) fun _ => True := ask fun _ => ret trivial
theorem keyEq (a b : K) : Keeps up down I (Wild.keyEq a b) fun _ => True :=
  ask fun _ => ret trivial
theorem valEq (a b : V) : Keeps up down I (Wild.valEq a b) fun _ => True :=
  ask fun _ => ret trivial

theorem max {P : K → Prop} {a b : K} (ha : P a) (hb : P b) : Keeps up down I (Wild.max a b) P :=
  ask fun x => ret (by cases x <;> assumption)

theorem min {P : K → Prop} {a b : K} (ha : P a) (hb : P b) : Keeps up down I (Wild.min a b) P :=
  ask fun x => ret (by cases x <;> assumption)

theorem addOne {P : K → Prop} {k : K} (h : ∀ k', up k k' → P k') :
    Keeps up down I (Wild.addOne k) P := by
  intro t o t' ht he
  cases he with
  | panic => exact ⟨ht, fun _ e => by cases e⟩
  | up k' hk he => exact ret (h k' hk) _ _ _ ht he

theorem subOne {P : K → Prop} {k : K} (h : ∀ k', down k k' → P k') :
    Keeps up down I (Wild.subOne k) P := by
  intro t o t' ht he
  cases he with
  | panic => exact ⟨ht, fun _ e => by cases e⟩
  | down k' hk he => exact ret (h k' hk) _ _ _ ht he

theorem range {key : R → K} {lo hi : Bound K} {P : List (R × V) → Prop}
    (h : ∀ t l, I t → l.Sublist t → P l) : Keeps up down I (Wild.range key lo hi) P := by
  intro t o t' ht he
  cases he with
  | panic => exact ⟨ht, fun _ e => by cases e⟩
  | search l hl he => exact ret (h t l ht hl) _ _ _ ht he

theorem insert {r : R} {v : V} (h : ∀ t t', I t → PutAny r v t t' → I t') :
    Keeps up down I (Wild.insert r v) fun _ => True := by
  intro t o t' ht he
  cases he with
  | panic => exact ⟨ht, fun _ e => by cases e⟩
  | put t1 h1 he => exact ret trivial _ _ _ (h t t1 ht h1) he

theorem remove {k : K} (h : ∀ t t', I t → (∀ e ∈ t', e ∈ t) → I t') :
    Keeps up down I (Wild.remove k) fun _ => True := by
  intro t o t' ht he
  cases he with
  | panic => exact ⟨ht, fun _ e => by cases e⟩
  | delete t1 h1 he => exact ret trivial _ _ _ (h t t1 ht h1) he

theorem and {a b : Wild K R V Bool} (ha : Keeps up down I a fun _ => True)
    (hb : Keeps up down I b fun _ => True) : Keeps up down I (Wild.and a b) fun _ => True :=
  bind ha fun x _ => by
    cases x with
    | true => exact hb
    | false => exact pure trivial

theorem filter {γ : Type} {p : γ → Wild K R V Bool} (h : ∀ a, Keeps up down I (p a) fun _ => True) :
    ∀ l, Keeps up down I (Wild.filter p l) fun l' => l'.Sublist l
  | [] => pure (.refl _)
  | a :: l => bind (h a) fun b _ => bind (filter h l) fun t ht => pure (by
      cases b with
      | true => exact ht.cons_cons a
      | false => exact ht.cons a)

theorem ite {c : Prop} [Decidable c] {p q : Wild K R V α} {Q : α → Prop}
    (hp : Keeps up down I p Q) (hq : Keeps up down I q Q) :
    Keeps up down I (if c then p else q) Q := by
  split
  · exact hp
  · exact hq

theorem weaken {p : Wild K R V α} {P Q : α → Prop} (h : Keeps up down I p P)
    (hq : ∀ a, P a → Q a) : Keeps up down I p Q :=
  fun t o t' ht he => ⟨(h t o t' ht he).1, fun a e => hq a ((h t o t' ht he).2 a e)⟩

theorem calls {γ σ : Type} {next : σ → Wild K R V (Option γ × σ)} {P : σ → Prop} {Q : γ → Prop}
    (h : ∀ s, P s → Keeps up down I (next s) fun x => (∀ c, x.1 = some c → Q c) ∧ P x.2) :
    ∀ n s, P s → Keeps up down I (Wild.calls next n s) fun l => ∀ c, some c ∈ l → Q c
  | 0, _, _ => pure (by simp)
  | n + 1, s, hs => bind (h s hs) fun x hx => bind (calls h n x.2 hx.2) fun l hl => pure (by
      intro c hc
      rcases List.mem_cons.1 hc with hc | hc
      · exact hx.1 c hc.symm
      · exact hl c hc)

end Keeps

/-- All entries have ranges with `G` and values with `H`. -/
def All (G : R → Prop) (H : V → Prop) (t : List (R × V)) : Prop := ∀ e ∈ t, G e.1 ∧ H e.2

theorem All.put {G : R → Prop} {H : V → Prop} {r : R} {v : V} (hr : G r) (hv : H v)
    (t t' : List (R × V)) (ht : All G H t) (h : PutAny r v t t') : All G H t' := by
  intro e he
  rcases h e he with h | rfl | ⟨h1, v', h2⟩
  · exact ht e h
  · exact ⟨hr, hv⟩
  · exact ⟨(ht _ h2).1, h1 ▸ hv⟩

theorem All.delete {G : R → Prop} {H : V → Prop}
    (t t' : List (R × V)) (ht : All G H t) (h : ∀ e ∈ t', e ∈ t) : All G H t' :=
  fun e he => ht e (h e he)

/-! ## Honest answers -/

section
variable [LE K] [LT K] [DecidableLE K] [DecidableLT K] [BEq V] {start : R → K} {S : StepFns K}

theorem honest_up (k : K) (next : K → Wild K R V α) (t w) :
    honest start S (.up k next) t w = match S.addOne k with
      | .ok k => honest start S (next k) t (w + ⟨0, 0, 1⟩)
      | .error p => ((.error p, t), w + ⟨0, 0, 1⟩) := by
  rw [honest]; split <;> rename_i h <;> rw [h]

theorem honest_down (k : K) (next : K → Wild K R V α) (t w) :
    honest start S (.down k next) t w = match S.subOne k with
      | .ok k => honest start S (next k) t (w + ⟨0, 0, 1⟩)
      | .error p => ((.error p, t), w + ⟨0, 0, 1⟩) := by
  rw [honest]; split <;> rename_i h <;> rw [h]

theorem honest_search (key : R → K) (lo hi : Bound K) (next : List (R × V) → Wild K R V α) (t w) :
    honest start S (.search key lo hi next) t w = match BTreeMap.range key lo hi t with
      | .ok l => honest start S (next l) t w
      | .error p => ((.error p, t), w) := by
  rw [honest]; split <;> rename_i h <;> rw [h]

theorem honest_bind (p : Wild K R V α) (f : α → Wild K R V β) : ∀ t w,
    honest start S (p >>= f) t w = match honest start S p t w with
      | ((.ok a, t'), w') => honest start S (f a) t' w'
      | ((.error e, t'), w') => ((.error e, t'), w') := by
  induction p with
  | ret a => intro t w; rfl
  | panic p => intro t w; rfl
  | ask q next ih => intro t w; cases q <;> exact ih _ _ _
  | up k next ih =>
    intro t w
    show honest start S (.up k fun k => next k >>= f) t w = _
    rw [honest_up, honest_up]
    cases S.addOne k with
    | ok k => exact ih _ _ _
    | error p => rfl
  | down k next ih =>
    intro t w
    show honest start S (.down k fun k => next k >>= f) t w = _
    rw [honest_down, honest_down]
    cases S.subOne k with
    | ok k => exact ih _ _ _
    | error p => rfl
  | search key lo hi next ih =>
    intro t w
    show honest start S (.search key lo hi fun k => next k >>= f) t w = _
    rw [honest_search, honest_search]
    cases BTreeMap.range key lo hi t with
    | ok l => exact ih _ _ _
    | error p => rfl
  | put r v next ih => intro t w; exact ih _ _
  | delete k next ih => intro t w; exact ih _ _

theorem putAny_insert (key : R → K) (r : R) (v : V) : ∀ t : List (R × V),
    PutAny r v t (BTreeMap.insert key r v t)
  | [] => by intro e he; simp only [BTreeMap.insert, List.mem_singleton] at he; exact .inr (.inl he)
  | x :: t => by
    intro e he
    unfold BTreeMap.insert at he
    split at he
    · rcases List.mem_cons.1 he with he | he
      · exact .inr (.inl he)
      · exact .inl he
    · split at he
      · rcases List.mem_cons.1 he with he | he
        · exact .inl (by simp [he])
        · rcases putAny_insert key r v t e he with h | h | ⟨h, v', h'⟩
          · exact .inl (.tail _ h)
          · exact .inr (.inl h)
          · exact .inr (.inr ⟨h, v', .tail _ h'⟩)
      · rcases List.mem_cons.1 he with he | he
        · subst he
          exact .inr (.inr ⟨rfl, x.2, by simp⟩)
        · exact .inl (.tail _ he)

theorem remove_sublist (key : R → K) (k : K) : ∀ t : List (R × V),
    (BTreeMap.remove key k t).Sublist t
  | [] => .refl _
  | x :: t => by
    unfold BTreeMap.remove
    split
    · exact List.sublist_cons_self x t
    · exact (remove_sublist key k t).cons_cons x

/-- Honest answers are among the possible ones. -/
theorem honest_ends (p : Wild K R V α) : ∀ t w,
    Ends (fun a b => S.addOne a = .ok b) (fun a b => S.subOne a = .ok b) p t
      (honest start S p t w).1.1.toOption (honest start S p t w).1.2 := by
  induction p with
  | ret a => intro t w; exact .ret a t
  | panic p => intro t w; exact .panic _ t
  | ask q next ih => intro t w; cases q <;> exact .ask _ (ih _ _ _)
  | up k next ih =>
    intro t w
    unfold honest
    cases h : S.addOne k with
    | ok k => exact .up k h (ih _ _ _)
    | error p => exact .panic _ t
  | down k next ih =>
    intro t w
    unfold honest
    cases h : S.subOne k with
    | ok k => exact .down k h (ih _ _ _)
    | error p => exact .panic _ t
  | search key lo hi next ih =>
    intro t w
    unfold honest
    cases h : BTreeMap.range key lo hi t with
    | ok l =>
      refine .search l ?_ (ih _ _ _)
      unfold BTreeMap.range at h
      split at h
      · cases h
      · cases h; exact List.filter_sublist
    | error p => exact .panic _ t
  | put r v next ih => intro t w; exact .put _ (putAny_insert start r v t) (ih _ _)
  | delete k next ih =>
    intro t w; exact .delete _ (fun e he => (remove_sublist start k t).subset he) (ih _ _)

/-- With honest answers the program `p` on the B-tree `t` does the same as the metered computation
`c`, whose result `g` splits into the B-tree left and the result returned. -/
def Same (start : R → K) (S : StepFns K) (p : Wild K R V α) (t : List (R × V)) (c : Counted β)
    (g : β → List (R × V) × α) : Prop :=
  ∀ w, match c w with
    | (.ok b, w') => honest start S p t w = ((.ok (g b).2, (g b).1), w')
    | (.error e, w') => ∃ t', honest start S p t w = ((.error e, t'), w')

namespace Same
variable {t : List (R × V)}

theorem ret {a : α} {b : β} {g : β → List (R × V) × α} (h : g b = (t, a)) :
    Same start S (pure a) t (pure b) g := by
  intro w
  show honest start S (.ret a) t w = ((.ok (g b).2, (g b).1), w)
  rw [h]
  rfl

theorem panic {p : Panic} {g : β → List (R × V) × α} :
    Same start S (.panic p) t (Counted.lib (.error p)) g := fun _ => ⟨t, rfl⟩

theorem bind {γ δ : Type} {p : Wild K R V α} {c : Counted β} {g : β → List (R × V) × α}
    {f : α → Wild K R V γ} {k : β → Counted δ} {g' : δ → List (R × V) × γ}
    (h : Same start S p t c g) (hf : ∀ b, Same start S (f (g b).2) (g b).1 (k b) g') :
    Same start S (p >>= f) t (c >>= k) g' := by
  intro w
  have h := h w
  rw [honest_bind]
  show match (match c w with
    | (.ok a, w') => k a w'
    | (.error p, w') => (.error p, w')) with
    | (.ok b, w') => _
    | (.error e, w') => _
  cases hc : c w with
  | mk x w' =>
    rw [hc] at h
    cases x with
    | ok b =>
      rw [h]
      exact hf b w'
    | error e =>
      obtain ⟨t', h⟩ := h
      rw [h]
      exact ⟨t', rfl⟩

theorem map {δ : Type} {p : Wild K R V α} {c : Counted β} {g : β → List (R × V) × α}
    {k : β → δ} {g' : δ → List (R × V) × α} (h : Same start S p t c g)
    (hk : ∀ b, g' (k b) = g b) : Same start S p t (c >>= fun b => pure (k b)) g' := by
  intro w
  have h := h w
  show match (match c w with
    | (.ok a, w') => (Except.ok (k a), w')
    | (.error p, w') => (Except.error p, w')) with
    | (.ok b, w') => _
    | (.error e, w') => _
  cases hc : c w with
  | mk x w' =>
    rw [hc] at h
    cases x with
    | ok b =>
      show honest start S p t w = ((.ok (g' (k b)).2, (g' (k b)).1), w')
      rw [hk]
      exact h
    | error e => exact h

/-- A call of user code that does not change the B-tree. -/
theorem ask {γ δ : Type} {p : Wild K R V α} {c : Counted α} {f : α → Wild K R V γ}
    {k : α → Counted δ} {g' : δ → List (R × V) × γ} (h : Same start S p t c fun a => (t, a))
    (hf : ∀ b, Same start S (f b) t (k b) g') : Same start S (p >>= f) t (c >>= k) g' := bind h hf

theorem lt (a b : K) : Same start S (Wild.lt a b) t (Counted.lt a b) fun x => (t, x) :=
  fun _ => rfl
theorem le (a b : K) : Same start S (Wild.le a b) t (Counted.le a b) fun x => (t, x) :=
  fun _ => rfl
theorem keyEq (a b : K) : Same start S (Wild.keyEq a b) t (Counted.keyEq a b) fun x => (t, x) :=
  fun _ => rfl
theorem valEq (a b : V) : Same start S (Wild.valEq a b) t (Counted.valEq a b) fun x => (t, x) :=
  fun _ => rfl

theorem max (a b : K) : Same start S (Wild.max a b) t (Counted.max a b) fun x => (t, x) := by
  intro w
  show honest start S (Wild.max a b) t w = ((.ok (rmax a b), t), w + ⟨1, 0, 0⟩)
  simp [Wild.max, honest, rmax]

theorem min (a b : K) : Same start S (Wild.min a b) t (Counted.min a b) fun x => (t, x) := by
  intro w
  show honest start S (Wild.min a b) t w = ((.ok (rmin a b), t), w + ⟨1, 0, 0⟩)
  simp [Wild.min, honest, rmin]

theorem addOne (k : K) : Same start S (Wild.addOne k) t (Counted.addOne S k) fun x => (t, x) := by
  intro w
  show match (S.addOne k, w + ⟨0, 0, 1⟩) with
    | (.ok b, w') => _
    | (.error e, w') => _
  unfold Wild.addOne honest
  cases S.addOne k with
  | ok k => rfl
  | error e => exact ⟨t, rfl⟩

theorem subOne (k : K) : Same start S (Wild.subOne k) t (Counted.subOne S k) fun x => (t, x) := by
  intro w
  show match (S.subOne k, w + ⟨0, 0, 1⟩) with
    | (.ok b, w') => _
    | (.error e, w') => _
  unfold Wild.subOne honest
  cases S.subOne k with
  | ok k => rfl
  | error e => exact ⟨t, rfl⟩

theorem range (key : R → K) (lo hi : Bound K) :
    Same start S (Wild.range key lo hi) t (Counted.lib (BTreeMap.range key lo hi t))
      fun l => (t, l) := by
  intro w
  unfold Wild.range
  rw [honest_search]
  cases BTreeMap.range key lo hi t with
  | ok k => rfl
  | error e => exact ⟨t, rfl⟩

theorem not {p : Wild K R V Bool} {c : Counted Bool} (h : Same start S p t c fun x => (t, x)) :
    Same start S (do return !(← p)) t (do return !(← c)) fun x => (t, x) :=
  ask h fun _ => ret rfl

theorem and {p q : Wild K R V Bool} {c d : Counted Bool} (h : Same start S p t c fun x => (t, x))
    (h' : Same start S q t d fun x => (t, x)) :
    Same start S (Wild.and p q) t (Counted.and c d) fun x => (t, x) := by
  refine ask h fun b => ?_
  cases b with
  | true => exact h'
  | false => exact ret rfl

theorem filter {γ : Type} {p : γ → Wild K R V Bool} {c : γ → Counted Bool}
    (h : ∀ a, Same start S (p a) t (c a) fun x => (t, x)) : ∀ l,
    Same start S (Wild.filter p l) t (Counted.filter c l) fun x => (t, x)
  | [] => ret rfl
  | a :: l => ask (h a) fun _ => ask (filter h l) fun _ => ret rfl

theorem overlaps (r o : Range K) :
    Same start S (r.overlapsW o) t (r.overlapsN o) fun x => (t, x) :=
  ask (max _ _) fun _ => ask (min _ _) fun _ => lt _ _

theorem touches (r o : Range K) :
    Same start S (r.touchesW o) t (r.touchesN o) fun x => (t, x) :=
  ask (max _ _) fun _ => ask (min _ _) fun _ => le _ _

theorem ioverlaps (r o : RangeInclusive K) :
    Same start S (r.overlapsW o) t (r.overlapsN o) fun x => (t, x) :=
  ask (max _ _) fun _ => ask (min _ _) fun _ => le _ _

theorem itouches (r o : RangeInclusive K) :
    Same start S (r.touchesW o) t (r.touchesN S o) fun x => (t, x) := by
  refine ask (max _ _) fun _ => ask (min _ _) fun _ => ask (lt _ _) fun b => ?_
  cases b with
  | true => exact ask (addOne _) fun _ => le _ _
  | false => exact le _ _

end Same

/-- The results of the first `n` calls of `next`. -/
def firsts {γ σ : Type} (next : σ → Except Panic (Option γ × σ)) :
    Nat → σ → Except Panic (List (Option γ))
  | 0, _ => return []
  | n + 1, s => do
    let (x, s) ← next s
    return x :: (← firsts next n s)

/-- With honest answers the program `p` on the B-tree `t` ends as `y` does, and leaves `t`. -/
def Answers (start : R → K) (S : StepFns K) (p : Wild K R V α) (t : List (R × V))
    (y : Except Panic α) : Prop :=
  ∀ w, ∃ w', honest start S p t w = ((y, t), w')

namespace Answers
variable {t : List (R × V)}

theorem pure {a : α} : Answers start S (Pure.pure a) t (.ok a) := fun w => ⟨w, rfl⟩

theorem pure' {a : α} {y : Except Panic α} (h : y = .ok a) :
    Answers start S (Pure.pure a) t y := h ▸ pure

theorem bind {p : Wild K R V α} {x : Except Panic α} {f : α → Wild K R V β}
    {k : α → Except Panic β} (h : Answers start S p t x)
    (hf : ∀ a, Answers start S (f a) t (k a)) : Answers start S (p >>= f) t (x >>= k) := by
  intro w
  obtain ⟨w', h⟩ := h w
  rw [honest_bind, h]
  cases x with
  | ok a => exact hf a w'
  | error e => exact ⟨w', rfl⟩

theorem bindE {p : Wild K R V α} {a : α} {f : α → Wild K R V β}
    {y : Except Panic β} (h : Answers start S p t (.ok a))
    (hf : Answers start S (f a) t y) : Answers start S (p >>= f) t y := by
  intro w
  obtain ⟨w', h⟩ := h w
  rw [honest_bind, h]
  exact hf w'

theorem lt (a b : K) : Answers start S (Wild.lt a b) t (.ok (decide (a < b))) := fun w => ⟨_, rfl⟩
theorem le (a b : K) : Answers start S (Wild.le a b) t (.ok (decide (a ≤ b))) := fun w => ⟨_, rfl⟩

theorem addOne (k : K) : Answers start S (Wild.addOne k) t (S.addOne k) := by
  intro w
  unfold Wild.addOne
  rw [honest_up]
  cases S.addOne k with
  | ok k => exact ⟨_, rfl⟩
  | error e => exact ⟨_, rfl⟩

theorem subOne (k : K) : Answers start S (Wild.subOne k) t (S.subOne k) := by
  intro w
  unfold Wild.subOne
  rw [honest_down]
  cases S.subOne k with
  | ok k => exact ⟨_, rfl⟩
  | error e => exact ⟨_, rfl⟩

theorem range (key : R → K) (lo hi : Bound K) :
    Answers start S (Wild.range key lo hi) t (BTreeMap.range key lo hi t) := by
  intro w
  unfold Wild.range
  rw [honest_search]
  cases BTreeMap.range key lo hi t with
  | ok k => exact ⟨_, rfl⟩
  | error e => exact ⟨_, rfl⟩

theorem and {p q : Wild K R V Bool} {a b : Bool} (h : Answers start S p t (.ok a))
    (h' : Answers start S q t (.ok b)) : Answers start S (Wild.and p q) t (.ok (a && b)) := by
  refine bindE h ?_
  cases a with
  | true => exact h'
  | false => exact pure

theorem contains (r : Range K) (k : K) :
    Answers start S (r.containsW k) t (.ok (r.contains k)) := and (le _ _) (lt _ _)

theorem icontains (r : RangeInclusive K) (k : K) :
    Answers start S (r.containsW k) t (.ok (r.contains k)) := by
  unfold RangeInclusive.contains
  refine and (le _ _) ?_
  cases r.exhausted with
  | true => exact lt _ _
  | false => exact le _ _

theorem calls {γ σ : Type} {nextW : σ → Wild K R V (Option γ × σ)}
    {next : σ → Except Panic (Option γ × σ)} (h : ∀ s, Answers start S (nextW s) t (next s)) :
    ∀ n s, Answers start S (Wild.calls nextW n s) t (firsts next n s)
  | 0, _ => pure
  | n + 1, s => bind (h s) fun x => bind (calls h n x.2) fun _ => pure

end Answers
end
end Wild

/-! ## `RangeMap` -/

namespace RangeMap
open Wild
variable {K V : Type}

section
variable {up down : K → K → Prop} {P : K → Prop} {H : V → Prop}

/-- Both ends have `P`. -/
def Both (P : K → Prop) (r : Range K) : Prop := P r.start ∧ P r.stop

theorem insertPiecesW_keeps {stored cut : Range K} {v : V} (hs : Both P stored) (hv : H v)
    (hc : Both P cut) :
    Keeps up down (All (Both P) H) (insertPiecesW stored v cut) fun _ => True := by
  refine .bind (.lt _ _) fun b _ => ?_
  have h2 : Keeps up down (All (Both P) H) (do
      if ← Wild.lt cut.stop stored.stop then Wild.insert ⟨cut.stop, stored.stop⟩ v)
      fun _ => True := by
    refine .bind (.lt _ _) fun b _ => ?_
    cases b with
    | true => exact .insert (All.put ⟨hc.2, hs.2⟩ hv)
    | false => exact .pure trivial
  cases b with
  | true => exact .bind (.insert (All.put ⟨hs.1, hc.1⟩ hv)) fun _ _ => h2
  | false => exact h2

theorem overlapsW_keeps {I : List (Range K × V) → Prop} (r o : Range K) :
    Keeps up down I (r.overlapsW o) fun _ => True :=
  .bind (.max (P := fun _ => True) trivial trivial) fun _ _ =>
    .bind (.min (P := fun _ => True) trivial trivial) fun _ _ => .lt _ _

theorem touchesW_keeps {I : List (Range K × V) → Prop} (r o : Range K) :
    Keeps up down I (r.touchesW o) fun _ => True :=
  .bind (.max (P := fun _ => True) trivial trivial) fun _ _ =>
    .bind (.min (P := fun _ => True) trivial trivial) fun _ _ => .le _ _

theorem adjustTouchingRangesForInsertW_keeps {stored newRange : Range K} {v newValue : V}
    (hs : Both P stored) (hv : H v) (hn : Both P newRange) :
    Keeps up down (All (Both P) H) (adjustTouchingRangesForInsertW stored v newRange newValue)
      (Both P) := by
  refine .bind (.valEq _ _) fun b _ => ?_
  cases b with
  | true =>
    exact .bind (.min hn.1 hs.1) fun _ h1 => .bind (.max hn.2 hs.2) fun _ h2 =>
      .bind (.remove All.delete) fun _ _ => .pure ⟨h1, h2⟩
  | false =>
    refine .bind (overlapsW_keeps _ _) fun b _ => ?_
    cases b with
    | true =>
      exact .bind (.remove All.delete) fun _ _ => .bind (insertPiecesW_keeps hs hv hn) fun _ _ =>
        .pure hn
    | false => exact .pure hn

theorem search_keeps {key : Range K → K} {lo hi : Bound K} {G : Range K → Prop} :
    Keeps up down (All G H) (Wild.range key lo hi) (All G H) :=
  .range fun _ _ ht hl e he => ht e (hl.subset he)

theorem insertLoopW_keeps {hi : K} {newValue : V} : ∀ (fuel : Nat) (newRange : Range K),
    Both P newRange →
    Keeps up down (All (Both P) H) (insertLoopW hi newValue fuel newRange) (Both P)
  | 0, _, _ => .panic
  | fuel + 1, newRange, hn => by
    refine .bind search_keeps fun l hl => ?_
    cases hx : l.head? with
    | none => exact .pure hn
    | some x =>
      obtain ⟨h1, h2⟩ := hl x (List.mem_of_head? hx)
      refine .bind (.and (.keyEq _ _) (.bind (.valEq _ _) fun _ _ => .pure trivial)) fun b _ => ?_
      cases b with
      | true => exact .pure hn
      | false =>
        exact .bind (adjustTouchingRangesForInsertW_keeps h1 h2 hn) fun r hr =>
          insertLoopW_keeps fuel r hr

theorem insertPrefixW_keeps {newRange : Range K} {newValue : V} (hn : Both P newRange) :
    Keeps up down (All (Both P) H) (insertPrefixW newRange newValue) (Both P) := by
  refine .bind search_keeps fun l hl => ?_
  refine .bind (.filter (fun e => touchesW_keeps _ _) _) fun c hc => ?_
  have hc : ∀ e ∈ c, Both P e.1 ∧ H e.2 := fun e he =>
    hl e (List.mem_reverse.1 (List.mem_of_mem_take (hc.subset he)))
  match c, hc with
  | [], _ => exact .pure hn
  | [x], hc =>
    exact adjustTouchingRangesForInsertW_keeps (hc x (by simp)).1 (hc x (by simp)).2 hn
  | y :: x :: _, hc =>
    exact adjustTouchingRangesForInsertW_keeps (hc x (by simp)).1 (hc x (by simp)).2 hn

theorem insertW_keeps {fuel : Nat} {r : Range K} {v : V} (hr : Both P r) (hv : H v) :
    Keeps up down (All (Both P) H) (insertW fuel r v) fun _ => True := by
  refine .bind (.lt _ _) fun b _ => ?_
  cases b with
  | true =>
    exact .bind (insertPrefixW_keeps hr) fun n hn => .bind (insertLoopW_keeps fuel n hn)
      fun n hn => .insert (All.put hn hv)
  | false => exact .panic

theorem extendW_keeps {fuel : Nat} : ∀ {items : List (Range K × V)},
    All (Both P) H items → Keeps up down (All (Both P) H) (extendW fuel items) fun _ => True
  | [], _ => .pure trivial
  | e :: items, h => .bind (insertW_keeps (h e (by simp)).1 (h e (by simp)).2) fun _ _ =>
    extendW_keeps fun x hx => h x (.tail _ hx)

theorem adjustOverlappingRangesForRemoveW_keeps {stored range : Range K} {v : V}
    (hs : Both P stored) (hv : H v) (hr : Both P range) :
    Keeps up down (All (Both P) H) (adjustOverlappingRangesForRemoveW stored v range)
      fun _ => True :=
  .bind (.remove All.delete) fun _ _ => insertPiecesW_keeps hs hv hr

theorem removeLoopW_keeps {range : Range K} (hr : Both P range) : ∀ fuel : Nat,
    Keeps up down (All (Both P) H) (removeLoopW range fuel) fun _ => True
  | 0 => .panic
  | fuel + 1 => by
    refine .bind search_keeps fun l hl => ?_
    cases hx : l.head? with
    | none => exact .pure trivial
    | some x =>
      obtain ⟨h1, h2⟩ := hl x (List.mem_of_head? hx)
      exact .bind (adjustOverlappingRangesForRemoveW_keeps h1 h2 hr) fun _ _ =>
        removeLoopW_keeps hr fuel

theorem removeW_keeps {fuel : Nat} {r : Range K} (hr : Both P r) :
    Keeps up down (All (Both P) H) (removeW fuel r) fun _ => True := by
  refine .bind (.lt _ _) fun b _ => ?_
  cases b with
  | true =>
    refine .bind (P := fun _ => True) ?_ fun _ _ => removeLoopW_keeps hr fuel
    refine .bind search_keeps fun l hl => ?_
    cases hx : l.getLast? with
    | none => exact .pure trivial
    | some x =>
      obtain ⟨h1, h2⟩ := hl x (List.mem_of_getLast? hx)
      refine .bind (overlapsW_keeps _ _) fun b _ => ?_
      cases b with
      | true => exact adjustOverlappingRangesForRemoveW_keeps h1 h2 hr
      | false => exact .pure trivial
  | false => exact .panic

theorem containsW_keeps {I : List (Range K × V) → Prop} (r : Range K) (k : K) :
    Keeps up down I (r.containsW k) fun _ => True := .and (.le _ _) (.lt _ _)

theorem getKeyValueW_keeps {t0 : List (Range K × V)} (k : K) :
    Keeps up down (· = t0) (getKeyValueW k) fun x => ∀ e, x = some e → e ∈ t0 := by
  refine .bind (.range (P := fun l => l.Sublist t0) fun t l ht hl => ht ▸ hl) fun l hl => ?_
  cases hx : l.getLast? with
  | none => exact .pure (fun _ h => by cases h)
  | some x =>
    refine .bind (containsW_keeps _ _) fun b _ => ?_
    cases b with
    | true =>
      exact .pure (fun e h => by cases h; exact hl.subset (List.mem_of_getLast? hx))
    | false => exact .pure (fun _ h => by cases h)

theorem overlappingW_keeps {t0 : List (Range K × V)} (n : Nat) (q : Range K) :
    Keeps up down (· = t0) (overlappingW n q) fun x => (x.filterMap id).Sublist t0 := by
  refine .bind (.range (P := fun l => l.Sublist t0) fun t l ht hl => ht ▸ hl) fun l hl => ?_
  have : ∀ (n : Nat) (l : List (Range K × V)), Keeps up down (· = t0)
      (Wild.calls overlappingNextW n ⟨q, l⟩) fun x => (x.filterMap id).Sublist l := by
    intro n
    induction n with
    | zero => intro l; exact .pure (List.nil_sublist l)
    | succ n ih =>
      intro l
      cases l with
      | nil =>
        refine .bind (P := (· = (none, ⟨q, []⟩))) (.pure rfl) fun x hx => ?_
        subst hx
        exact .bind (ih []) fun y hy => .pure (by simpa using hy)
      | cons e l =>
        refine .bind (P := fun x => (x.1 = some e ∨ x.1 = none) ∧ x.2 = ⟨q, l⟩)
          (.bind (.lt _ _) fun b _ => ?_) fun x hx => ?_
        · cases b with
          | true => exact .pure ⟨.inl rfl, rfl⟩
          | false => exact .pure ⟨.inr rfl, rfl⟩
        · obtain ⟨x, l'⟩ := x
          obtain ⟨hx, rfl⟩ := hx
          refine .bind (ih _) fun y hy => .pure ?_
          rcases hx with hx | hx
          · cases hx; simpa using hy.cons_cons e
          · cases hx; simpa using hy.cons e
  exact (this n l).weaken fun x hx => hx.trans hl

theorem gapsTailW_keeps {I : List (Range K × V) → Prop} {c q : K} {l : List (Range K × V)}
    (hc : P c) (hq : P q) (hl : ∀ e ∈ l, Both P e.1) :
    Keeps up down I (gapsTailW c q l) fun x => (∀ r, x.1 = some r → Both P r) ∧
      P x.2.candidateStart ∧ P x.2.queryEnd ∧ ∀ e ∈ x.2.btmRangeIter, Both P e.1 := by
  refine .bind (.lt _ _) fun b _ => ?_
  cases b with
  | true => exact .pure ⟨fun r h => by cases h; exact ⟨hc, hq⟩, hq, hq, hl⟩
  | false => exact .pure ⟨(fun r h => nomatch h), hc, hq, hl⟩

theorem gapsLoopW_keeps {I : List (Range K × V) → Prop} {q : K} (hq : P q) :
    ∀ (l : List (Range K × V)) {c : K}, P c → (∀ e ∈ l, Both P e.1) →
    Keeps up down I (gapsLoopW c q l) fun x => (∀ r, x.1 = some r → Both P r) ∧
      P x.2.candidateStart ∧ P x.2.queryEnd ∧ ∀ e ∈ x.2.btmRangeIter, Both P e.1
  | [], c, hc, hl => gapsTailW_keeps hc hq hl
  | e :: l, c, hc, hl => by
    have hl' : ∀ e ∈ l, Both P e.1 := fun x hx => hl x (.tail _ hx)
    obtain ⟨he1, he2⟩ := hl e (by simp)
    refine .bind (.le _ _) fun b _ => ?_
    cases b with
    | true => exact gapsTailW_keeps hc hq hl'
    | false =>
      refine .bind (.lt _ _) fun b _ => ?_
      cases b with
      | true => exact .pure ⟨fun r h => by cases h; exact ⟨hc, he1⟩, he2, hq, hl'⟩
      | false => exact gapsLoopW_keeps hq l he2 hl'

theorem gapsW_keeps {t0 : List (Range K × V)} (n : Nat) {q : Range K} (hq : Both P q)
    (ht : ∀ e ∈ t0, Both P e.1) :
    Keeps up down (· = t0) (gapsW n q) fun x => ∀ r, some r ∈ x → Both P r := by
  refine .bind (.range (P := fun l => l.Sublist t0) fun t l ht hl => ht ▸ hl) fun l hl => ?_
  exact .calls (P := fun g => P g.candidateStart ∧ P g.queryEnd ∧ ∀ e ∈ g.btmRangeIter, Both P e.1)
    (fun g hg => gapsLoopW_keeps hg.2.1 _ hg.1 hg.2.2) n _
    ⟨hq.1, hq.2, fun e he => ht e (hl.subset he)⟩

end

section
variable [LE K] [LT K] [DecidableLE K] [DecidableLT K] [BEq V] {S : StepFns K}

theorem insertPiecesW_same (btm : List (Range K × V)) (stored : Range K) (v : V) (cut : Range K) :
    Same Range.start S (insertPiecesW stored v cut) btm (insertPiecesN btm stored v cut)
      fun t => (t, ()) := by
  have h2 : ∀ btm : List (Range K × V), Same Range.start S (do
        if ← Wild.lt cut.stop stored.stop then Wild.insert ⟨cut.stop, stored.stop⟩ v) btm
      (do if ← Counted.lt cut.stop stored.stop then
            return BTreeMap.insert Range.start ⟨cut.stop, stored.stop⟩ v btm
          else return btm) fun t => (t, ()) := by
    intro btm
    refine .ask (.lt _ _) fun b => ?_
    cases b with
    | true => exact fun _ => rfl
    | false => exact .ret rfl
  refine .ask (.lt _ _) fun b => ?_
  cases b with
  | true => exact fun w => h2 _ w
  | false => exact h2 btm

theorem adjustTouchingRangesForInsertW_same (btm : List (Range K × V)) (stored : Range K) (v : V)
    (newRange : Range K) (newValue : V) :
    Same Range.start S (adjustTouchingRangesForInsertW stored v newRange newValue) btm
      (adjustTouchingRangesForInsertN btm stored v newRange newValue) id := by
  refine .ask (.valEq _ _) fun b => ?_
  cases b with
  | true => exact .ask (.min _ _) fun _ => .ask (.max _ _) fun _ _ => rfl
  | false =>
    refine .ask (.overlaps _ _) fun b => ?_
    cases b with
    | true =>
      have h := Same.bind (S := S) (f := fun _ => pure newRange) (k := fun t => pure (t, newRange))
        (g' := id) (insertPiecesW_same (BTreeMap.remove Range.start stored.start btm) stored v
          newRange) fun b => .ret rfl
      exact fun w => h w
    | false => exact .ret rfl

theorem insertLoopW_same (hi : K) (newValue : V) : ∀ (fuel : Nat) (btm : List (Range K × V))
    (newRange : Range K),
    Same Range.start S (insertLoopW hi newValue fuel newRange) btm
      (insertLoopN hi newValue fuel btm newRange) id
  | 0, _, _ => .panic
  | fuel + 1, btm, newRange => by
    refine .ask (.range _ _ _) fun l => ?_
    cases l.head? with
    | none => exact .ret rfl
    | some x =>
      refine .ask (.and (.keyEq _ _) (.not (.valEq _ _))) fun b => ?_
      cases b with
      | true => exact .ret rfl
      | false =>
        exact .bind (adjustTouchingRangesForInsertW_same _ _ _ _ _) fun b =>
          insertLoopW_same hi newValue fuel b.1 b.2

theorem insertPrefixW_same (btm : List (Range K × V)) (newRange : Range K) (newValue : V) :
    Same Range.start S (insertPrefixW newRange newValue) btm
      (insertPrefixN btm newRange newValue) id := by
  refine .ask (.range _ _ _) fun l => .ask (.filter (fun e => .touches _ _) _) fun c => ?_
  match c with
  | [] => exact .ret rfl
  | [x] => exact adjustTouchingRangesForInsertW_same _ _ _ _ _
  | _ :: x :: _ => exact adjustTouchingRangesForInsertW_same _ _ _ _ _

theorem insertW_same (m : RangeMap K V) (r : Range K) (v : V) :
    Same Range.start S (insertW (m.len + 2) r v) m.btm (m.insertN r v) fun m' => (m'.btm, ()) := by
  refine .ask (.lt _ _) fun b => ?_
  cases b with
  | true =>
    exact .bind (insertPrefixW_same _ _ _) fun b => .bind (insertLoopW_same _ _ _ _ _) fun b _ =>
      rfl
  | false => exact .panic

theorem adjustOverlappingRangesForRemoveW_same (btm : List (Range K × V)) (stored : Range K) (v : V)
    (range : Range K) :
    Same Range.start S (adjustOverlappingRangesForRemoveW stored v range) btm
      (adjustOverlappingRangesForRemoveN btm stored v range) fun t => (t, ()) :=
  fun w => insertPiecesW_same (BTreeMap.remove Range.start stored.start btm) stored v range w

theorem removeLoopW_same (range : Range K) : ∀ (fuel : Nat) (btm : List (Range K × V)),
    Same Range.start S (removeLoopW range fuel) btm (removeLoopN range fuel btm) fun t => (t, ())
  | 0, _ => .panic
  | fuel + 1, btm => by
    refine .ask (.range _ _ _) fun l => ?_
    cases l.head? with
    | none => exact .ret rfl
    | some x =>
      exact .bind (adjustOverlappingRangesForRemoveW_same _ _ _ _) fun b =>
        removeLoopW_same range fuel b

theorem removeW_same (m : RangeMap K V) (r : Range K) :
    Same Range.start S (removeW (m.len + 2) r) m.btm (m.removeN r) fun m' => (m'.btm, ()) := by
  refine .ask (.lt _ _) fun b => ?_
  cases b with
  | true =>
    refine .bind (g := fun t => (t, ())) ?_ fun t =>
      .map (removeLoopW_same _ _ _) fun t => rfl
    refine .ask (.range _ _ _) fun l => ?_
    cases l.getLast? with
    | none => exact .ret rfl
    | some x =>
      refine .ask (.overlaps _ _) fun b => ?_
      cases b with
      | true => exact adjustOverlappingRangesForRemoveW_same _ _ _ _
      | false => exact .ret rfl
  | false => exact .panic

/-! ### Queries -/

theorem getKeyValueW_answers (m : RangeMap K V) (k : K) :
    Answers Range.start S (getKeyValueW k) m.btm (m.getKeyValue k) := by
  refine .bind (.range _ _ _) fun l => ?_
  cases l.getLast? with
  | none => exact .pure
  | some x =>
    refine .bindE (.contains x.1 k) ?_
    cases h : x.1.contains k with
    | true => exact .pure' (by simp [Option.filter, h, Pure.pure, Except.pure])
    | false => exact .pure' (by simp [Option.filter, h, Pure.pure, Except.pure])

theorem overlappingW_answers (m : RangeMap K V) (n : Nat) (q : Range K) :
    Answers Range.start S (overlappingW n q) m.btm
      (m.overlapping q >>= firsts (fun o => .ok o.next) n) := by
  have h : Answers Range.start S (overlappingW n q) m.btm
      (BTreeMap.range Range.stop (.excluded q.start) .unbounded m.btm >>= fun l =>
        firsts (fun o => .ok o.next) n (⟨q, l⟩ : Overlapping K V)) := by
    refine .bind (.range _ _ _) fun l => .calls (fun o => ?_) n _
    unfold overlappingNextW Overlapping.next Deque.next
    cases o.btmRangeIter with
    | nil => exact .pure
    | cons e rest =>
      refine .bindE (.lt _ _) ?_
      by_cases h : e.1.start < o.queryRange.stop
      · simp only [h, decide_true, if_true]; exact .pure
      · simp only [h, decide_false, if_false]; exact .pure
  unfold overlapping
  cases hb : BTreeMap.range Range.stop (.excluded q.start) .unbounded m.btm with
  | ok l => rw [hb] at h; exact h
  | error p => rw [hb] at h; exact h

theorem gapsLoopW_answers {t : List (Range K × V)} (q : K) : ∀ (l : List (Range K × V)) (c : K),
    Answers Range.start S (gapsLoopW c q l) t (.ok (Gaps.nextLoop c q l)) := by
  have tail : ∀ (l : List (Range K × V)) (c : K),
      Answers Range.start S (gapsTailW c q l) t (.ok (Gaps.nextTail c q l)) := by
    intro l c
    unfold Gaps.nextTail
    refine .bindE (.lt _ _) ?_
    by_cases h : c < q
    · simp only [h, decide_true, if_true]; exact .pure
    · simp only [h, decide_false, if_false]; exact .pure
  intro l
  induction l with
  | nil => intro c; exact tail [] c
  | cons e l ih =>
    intro c
    unfold Gaps.nextLoop
    refine .bindE (.le _ _) ?_
    by_cases h : q ≤ e.1.start
    · simp only [h, decide_true, if_true]; exact tail l c
    · simp only [h, decide_false, if_false]
      refine .bindE (.lt _ _) ?_
      by_cases h : c < e.1.start
      · simp only [h, decide_true, if_true]; exact .pure
      · simp only [h, decide_false, if_false]; exact ih _

theorem gapsW_answers (m : RangeMap K V) (n : Nat) (q : Range K) :
    Answers Range.start S (gapsW n q) m.btm
      (m.gaps q >>= firsts (fun g => .ok g.next) n) := by
  have h : Answers Range.start S (gapsW n q) m.btm
      (BTreeMap.range Range.stop (.excluded q.start) .unbounded m.btm >>= fun l =>
        firsts (fun g => .ok g.next) n (⟨q.start, q.stop, l⟩ : Gaps K V)) :=
    .bind (.range _ _ _) fun l => .calls (fun g => gapsLoopW_answers _ _ _) n _
  unfold gaps overlapping
  cases hb : BTreeMap.range Range.stop (.excluded q.start) .unbounded m.btm with
  | ok l => rw [hb] at h; exact h
  | error p => rw [hb] at h; exact h

end
end RangeMap
end Verif

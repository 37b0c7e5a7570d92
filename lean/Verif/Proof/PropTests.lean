import Verif.Proof.Fuzz
import Verif.Model.PropTests
import Verif.Spec

/-!
# Running the property tests
-/
namespace Verif
open Spec

/-- Draining an iterator that behaves as a queue from the front gives the queue. -/
theorem drain_of_script {S α : Type} {next nextBack : S → Option α × S} {s : S} {l : List α}
    (h : ∀ n, script next nextBack (List.replicate n .front) s =
      dequeScript (List.replicate n .front) l) {fuel : Nat} (hf : l.length + 1 ≤ fuel) :
    drain next fuel s = .ok l := by
  induction l generalizing s fuel with
  | nil =>
    obtain ⟨f, rfl⟩ : ∃ f, fuel = f + 1 := ⟨fuel - 1, by omega⟩
    have h1 := h 1
    simp only [List.replicate_one, script, dequeScript, List.head?_nil, List.cons.injEq,
      and_true] at h1
    unfold drain
    split
    · rfl
    · simp_all
  | cons a l ih =>
    simp only [List.length_cons] at hf
    obtain ⟨f, rfl⟩ : ∃ f, fuel = f + 1 := ⟨fuel - 1, by omega⟩
    have h1 := h 1
    simp only [List.replicate_one, script, dequeScript, List.head?_cons, List.cons.injEq,
      and_true] at h1
    have h2 := ih (s := (next s).2) (fuel := f) (fun n => by
      have := h (n + 1)
      simpa only [List.replicate_succ, script, dequeScript, List.cons.injEq, List.tail_cons, h1,
        List.head?_cons, true_and] using this) (by omega)
    unfold drain
    split
    · simp_all
    · rename_i b s' hb
      rw [hb] at h1 h2
      cases h1
      rw [h2]
      rfl

/-- Draining it from the back gives the queue backwards. -/
theorem drain_of_script_back {S α : Type} {next nextBack : S → Option α × S} {s : S} {l : List α}
    (h : ∀ n, script next nextBack (List.replicate n .back) s =
      dequeScript (List.replicate n .back) l) {fuel : Nat} (hf : l.length + 1 ≤ fuel) :
    drain nextBack fuel s = .ok l.reverse := by
  refine drain_of_script (next := nextBack) (nextBack := next) (fun n => ?_) (by simpa using hf)
  have hs : ∀ n s, script nextBack next (List.replicate n .front) s =
      script next nextBack (List.replicate n .back) s := by
    intro n
    induction n with
    | zero => intro s; rfl
    | succ n ih => intro s; simp only [List.replicate_succ, script, ih]
  have hd : ∀ n (l : List α), dequeScript (List.replicate n .front) l.reverse =
      dequeScript (List.replicate n .back) l := by
    intro n
    induction n with
    | zero => intro l; rfl
    | succ n ih =>
      intro l
      simp only [List.replicate_succ, dequeScript, List.head?_reverse, List.tail_reverse, ih]
  rw [hs, h, hd]

theorem iterEq_self_iff {α : Type} {eq : α → α → Bool} {l : List α} :
    iterEq eq l l = true ↔ ∀ a ∈ l, eq a a = true := by
  induction l with
  | nil => simp [iterEq]
  | cons a t ih => simp [iterEq, ih]

theorem check_ok_iff {b : Bool} : check b = .ok () ↔ b = true := by
  cases b <;> simp [check]

namespace PropTest

theorem reversible_iff {S α : Type} {eq : α → α → Bool} {next nextBack : S → Option α × S} {s : S}
    {l : List α} (h : ∀ cs, script next nextBack cs s = dequeScript cs l) {fuel : Nat}
    (hf : l.length + 1 ≤ fuel) :
    reversible eq next nextBack fuel s = .ok () ↔ ∀ a ∈ l, eq a a = true := by
  simp only [reversible, drain_of_script (fun n => h _) hf, drain_of_script_back (fun n => h _) hf,
    bind, Except.bind, List.reverse_reverse, check_ok_iff, iterEq_self_iff]

theorem hash_ok {F : Type} [DecidableEq F] {eq : Bool} {hl hr : F} (h : eq = true → hl = hr) :
    hash eq hl hr = .ok () := by
  cases eq with
  | true => simp [hash, h rfl]
  | false =>
    simp only [hash, Bool.false_eq_true, if_false]
    split <;> rfl

theorem hash_ok_iff {F : Type} [DecidableEq F] {eq : Bool} {hl hr : F} :
    hash eq hl hr = .ok () ↔ (eq = true → hl = hr) := by
  refine ⟨fun h he => ?_, hash_ok⟩
  subst he
  by_cases hh : hl = hr
  · exact hh
  · simp [hash, hh, check, bind, Except.bind] at h

theorem ord_ok_iff {eq : Bool} {cmp : Ordering} {p : Option Ordering} :
    ord eq cmp p = .ok () ↔ (cmp = .eq ↔ eq = true) ∧ p = some cmp := by
  cases eq <;> cases cmp <;> rcases p with _ | (_ | _ | _) <;>
    simp [ord, check, bind, Except.bind, Ordering.isEq]

theorem ord_ok {eq : Bool} {cmp : Ordering} {p : Option Ordering} (h : cmp = .eq ↔ eq = true)
    (hp : p = some cmp) : ord eq cmp p = .ok () := by
  subst hp
  have : (eq == cmp.isEq) = true := by
    cases eq <;> cases cmp <;> simp_all
  simp only [ord, this, check_true, bind, Except.bind, decide_true]

theorem forKeys_ok {K α : Type} [BEq α] {values : List K} {got expected : K → Except Panic α}
    (h : ∀ k, ∃ a b, got k = .ok a ∧ expected k = .ok b ∧ (a == b) = true) :
    forKeys values got expected = .ok () := by
  induction values with
  | nil => rfl
  | cons k t ih =>
    obtain ⟨a, b, h1, h2, h3⟩ := h k
    show (do (do check ((← got k) == (← expected k))); forKeys t got expected) = .ok ()
    simp only [h1, h2, h3, bind, Except.bind, check_true]
    exact ih

end PropTest
end Verif

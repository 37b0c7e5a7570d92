import Verif.Spec

/-!
# Specification vocabulary for comparisons that may change their answer (C85)
-/
namespace Verif.Spec

/-- What `==` and `!=` of the value type answer, if they may answer differently every time:
`eq i a b` is the answer to `a == b` if that is the `i`th comparison of two values in the whole
program, `ne i a b` likewise for `a != b`. -/
structure Answers (V : Type) where
  eq : Nat → V → V → Bool
  ne : Nat → V → V → Bool

/-- `a == b` is answered `true` at some time. -/
def Answers.everEq {V : Type} (A : Answers V) (a b : V) : Prop := ∃ i, A.eq i a b = true

/-- From the `N`th comparison on, `a != b` and then at once `a == b` are not both answered `false`. -/
def Answers.SettledFrom {V : Type} (A : Answers V) (N : Nat) : Prop :=
  ∀ i, N ≤ i → ∀ a b, A.ne i a b = false → A.eq (i + 1) a b = true

/-- `b` is `a`, or there are steps from `a` to `b` each of which is in `R`. -/
inductive Path {V : Type} (R : V → V → Prop) (a : V) : V → Prop
  | refl : Path R a a
  | step {b c : V} : Path R a b → R b c → Path R a c

/-- Two optional values: both absent, or both present and connected by steps in `R`. -/
def Linked {V : Type} (R : V → V → Prop) : Option V → Option V → Prop
  | none, none => True
  | some a, some b => Path R a b
  | _, _ => False

end Verif.Spec

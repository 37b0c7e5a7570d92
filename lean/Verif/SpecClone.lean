import Verif.Model.Clone

/-!
# What is expected of `Clone`, and sameness of maps
-/
namespace Verif.Spec
variable {K V : Type} [LE K] [LT K] [DecidableLE K] [DecidableLT K] [BEq V]

/-- `==` cannot tell `v` and `w` apart. -/
def Same (v w : V) : Prop := ∀ u, (v == u) = (w == u) ∧ (u == v) = (u == w)

/-- What Rust expects of `Clone`: a clone compares equal to what was cloned.  (For values that are not
`==` to themselves, that it is as unequal to the same values.) -/
structure LawfulClones (C : Clones K V) : Prop where
  key : ∀ i k, keq (C.key i k) k = true
  val : ∀ i v, Same (C.val i v) v

/-- The bounds compare equal. -/
def SameRange (r s : Range K) : Prop := keq r.start s.start = true ∧ keq r.stop s.stop = true

/-- The bounds compare equal, and both or neither have been exhausted. -/
def SameIRange (r s : RangeInclusive K) : Prop :=
  keq r.start s.start = true ∧ keq r.stop s.stop = true ∧ r.exhausted = s.exhausted

/-- Two lists of the same length with related elements. -/
inductive Pointwise {α β : Type} (R : α → β → Prop) : List α → List β → Prop
  | nil : Pointwise R [] []
  | cons {a b s t} : R a b → Pointwise R s t → Pointwise R (a :: s) (b :: t)

/-- Related ranges with values that `==` cannot tell apart. -/
def SameEntry {R : Type} (S : R → R → Prop) (x y : R × V) : Prop := S x.1 y.1 ∧ Same x.2 y.2

/-- Both absent, or both present and related. -/
def SameOpt {α β : Type} (R : α → β → Prop) : Option α → Option β → Prop
  | none, none => True
  | some a, some b => R a b
  | _, _ => False

/-- Two calls that end in the same way: with the same panic, or with related results. -/
def SameOutcome {α β : Type} (R : α → β → Prop) : Except Panic α → Except Panic β → Prop
  | .ok a, .ok b => R a b
  | .error p, .error q => p = q
  | _, _ => False

/-- The results of `n` successive calls of a `next` that clones. -/
def callsL {σ α : Type} (next : σ → Cl K V (Option α × σ)) : Nat → σ → Cl K V (List (Option α))
  | 0, _ => return []
  | n + 1, s => do
    let p ← next s
    let t ← callsL next n p.2
    return p.1 :: t

/-- Clones that are what was cloned. -/
def identical : Clones K V := ⟨fun _ k => k, fun _ v => v⟩

/-- Step functions treat equal keys alike: above a smaller key resp. below a greater key, equal keys
have equal neighbours. -/
structure StepsRespect (S : StepFns K) : Prop where
  addOne : ∀ a a' b, a < b → keq a' a = true →
    SameOutcome (fun c c' => keq c c' = true) (S.addOne a') (S.addOne a)
  subOne : ∀ a b b', a < b → keq b' b = true →
    SameOutcome (fun c c' => keq c c' = true) (S.subOne b') (S.subOne b)

end Verif.Spec

import Verif.Model.Range
import Verif.Model.IRange

/-!
# The specification

Deliberately small, and independent of the model: a range map *is* a plain function from keys to
optional values, and an operation overwrites or erases the keys its range covers.  The
specification is shared by the half-open and the inclusive containers: `covers` says which keys a
range argument stands for and `valid` which arguments do not panic.
-/
namespace Verif.Spec

/-- The mutating calls of the API. -/
inductive Op (R V : Type) where
  | insert (r : R) (v : V)
  | remove (r : R)
  | clear
  | extend (items : List (R × V))
  deriving Repr

section
variable {K R V : Type}

/-- The ranges a call inserts. -/
def Op.inserted : Op R V → List R
  | .insert r _ => [r]
  | .remove _ => []
  | .clear => []
  | .extend items => items.map (·.1)

/-- What the last operation that touched key `k` wrote to it.  The history is given latest
operation first.  An `extend` performs its insertions in order and stops (panics) at the first
invalid range. -/
def lastWrite (covers : R → K → Bool) (valid : R → Bool) : List (Op R V) → K → Option V
  | [], _ => none
  | .insert r v :: earlier, k =>
    if valid r && covers r k then some v else lastWrite covers valid earlier k
  | .remove r :: earlier, k =>
    if valid r && covers r k then none else lastWrite covers valid earlier k
  | .clear :: _, _ => none
  | .extend items :: earlier, k =>
    match (items.takeWhile fun e => valid e.1).reverse.find? fun e => covers e.1 k with
    | some e => some e.2
    | none => lastWrite covers valid earlier k

/-- The mutating calls of the API of a set. -/
inductive SetOp (R : Type) where
  | insert (r : R)
  | remove (r : R)
  | clear
  | extend (items : List R)
  deriving Repr

/-- The ranges a call inserts. -/
def SetOp.inserted : SetOp R → List R
  | .insert r => [r]
  | .remove _ => []
  | .clear => []
  | .extend items => items

/-- Whether key `k` is a member of the set after a history of calls (given latest call first). -/
def member (covers : R → K → Bool) (valid : R → Bool) : List (SetOp R) → K → Bool
  | [], _ => false
  | .insert r :: earlier, k => valid r && covers r k || member covers valid earlier k
  | .remove r :: earlier, k => !(valid r && covers r k) && member covers valid earlier k
  | .clear :: _, _ => false
  | .extend items :: earlier, k =>
    (items.takeWhile valid).any (covers · k) || member covers valid earlier k

end

/-- The keys a half-open range argument `a..b` stands for. -/
def covers {K : Type} [LE K] [LT K] [DecidableLE K] [DecidableLT K] (r : Range K) (k : K) : Bool :=
  decide (r.start ≤ k ∧ k < r.stop)

/-- The half-open range arguments accepted by `insert` and `remove`. -/
def valid {K : Type} [LT K] [DecidableLT K] (r : Range K) : Bool := decide (r.start < r.stop)

/-- The keys an inclusive range argument `a..=b` stands for. -/
def icovers {K : Type} [LE K] [DecidableLE K] (r : RangeInclusive K) (k : K) : Bool :=
  decide (r.start ≤ k ∧ k ≤ r.stop)

/-- The inclusive range arguments accepted by `insert` and `remove`. -/
def ivalid {K : Type} [LE K] [DecidableLE K] (r : RangeInclusive K) : Bool :=
  decide (r.start ≤ r.stop)

/-- `b` is the least key above `a` (equivalently `a` is the greatest key below `b`). -/
def Next {K : Type} [LE K] [LT K] (a b : K) : Prop := a < b ∧ ∀ d, a < d → b ≤ d

/-- What the documentation of `StepLite`/`StepFns` asks for: `add_one` of a key that is not the
greatest is its successor, `sub_one` of a key that is not the least is its predecessor.  At the
extremes the functions may do anything (panic, wrap, saturate). -/
structure LawfulSteps {K : Type} [LE K] [LT K] (S : StepFns K) : Prop where
  addOne : ∀ a b, a < b → ∃ c, S.addOne a = .ok c ∧ Next a c
  subOne : ∀ a b, b < a → ∃ c, S.subOne a = .ok c ∧ Next c a

/-- Two optional values agree up to the value type's own `==`: both absent, or both present and
identical or `==`. -/
def Agree {V : Type} [BEq V] : Option V → Option V → Prop
  | none, none => True
  | some a, some b => a = b ∨ (a == b) = true
  | _, _ => False

/-- `b` is `a`, or `a == x`, `x == y`, ..., `z == b`.  For a `==` without any laws. -/
inductive Chain {V : Type} [BEq V] (a : V) : V → Prop
  | refl : Chain a a
  | step {b c : V} : Chain a b → (b == c) = true → Chain a c

/-- Two optional values: both absent, or both present and connected by a chain of `==`. -/
def Chained {V : Type} [BEq V] : Option V → Option V → Prop
  | none, none => True
  | some a, some b => Chain a b
  | _, _ => False

/-! ### Iterators -/

/-- The results of `n` successive calls of `next`. -/
def calls {S α : Type} (next : S → Option α × S) : Nat → S → List (Option α)
  | 0, _ => []
  | n + 1, s => (next s).1 :: calls next n (next s).2

/-- The iterator state `s` yields exactly the items `l`, in this order, and from then on `None`,
however often it is called. -/
def Yields {S α : Type} (next : S → Option α × S) (s : S) (l : List α) : Prop :=
  ∀ n, calls next n s = (l.map some ++ List.replicate n none).take n

/-- The results of `n` successive calls of a `next` that may panic. -/
def callsE {S α : Type} (next : S → Except Panic (Option α × S)) :
    Nat → S → Except Panic (List (Option α))
  | 0, _ => .ok []
  | n + 1, s =>
    match next s with
    | .error p => .error p
    | .ok (a, s') => (callsE next n s').map (a :: ·)

/-- As `Yields`, for a `next` that might panic: none of the calls does. -/
def YieldsE {S α : Type} (next : S → Except Panic (Option α × S)) (s : S) (l : List α) : Prop :=
  ∀ n, callsE next n s = .ok ((l.map some ++ List.replicate n none).take n)

/-- Which end of a double-ended iterator is asked. -/
inductive End where
  | front
  | back
  deriving DecidableEq, Repr

/-- The results of a sequence of `next`/`next_back` calls. -/
def script {S α : Type} (next nextBack : S → Option α × S) : List End → S → List (Option α)
  | [], _ => []
  | .front :: cs, s => (next s).1 :: script next nextBack cs (next s).2
  | .back :: cs, s => (nextBack s).1 :: script next nextBack cs (nextBack s).2

/-- What such a sequence of calls should return when `l` is left to be yielded: the front (back)
item, which is then gone, or `None` if nothing is left. -/
def dequeScript {α : Type} : List End → List α → List (Option α)
  | [], _ => []
  | .front :: cs, l => l.head? :: dequeScript cs l.tail
  | .back :: cs, l => l.getLast? :: dequeScript cs l.dropLast

/-- The iterator after such a sequence of calls. -/
def stateAfter {S α : Type} (next nextBack : S → Option α × S) : List End → S → S
  | [], s => s
  | .front :: cs, s => stateAfter next nextBack cs (next s).2
  | .back :: cs, s => stateAfter next nextBack cs (nextBack s).2

/-- What is left of `l` after such a sequence of calls. -/
def dequeRest {α : Type} : List End → List α → List α
  | [], l => l
  | .front :: cs, l => dequeRest cs l.tail
  | .back :: cs, l => dequeRest cs l.dropLast

/-- The pieces `ps` are non-empty and tile `a..b`: the first begins at `a`, each begins where the
previous one ends, the last ends at `b` (up to key equality). -/
def Tiles {K : Type} [LE K] [LT K] : K → List (Range K) → K → Prop
  | a, [], b => a ≤ b ∧ b ≤ a
  | a, p :: ps, b => (a ≤ p.start ∧ p.start ≤ a) ∧ p.start < p.stop ∧ Tiles p.stop ps b

/-- The inclusive pieces `ps` are non-empty and tile the keys from a first key described by `first`
up to `b`: each piece begins at the successor of the end of the previous one, the last ends at `b`
(up to key equality). -/
def ITiles {K : Type} [LE K] [LT K] (b : K) : (K → Prop) → List (RangeInclusive K) → Prop
  | _, [] => False
  | first, p :: ps => first p.start ∧ p.start ≤ p.stop ∧
    ((ps = [] ∧ p.stop ≤ b ∧ b ≤ p.stop) ∨ ITiles b (Next p.stop) ps)

/-! ### Lexicographic order -/

/-- `l` and `l'` are related by `same` in their first `i` positions. -/
def SameUpTo {α : Type} (same : α → α → Prop) (l l' : List α) (i : Nat) : Prop :=
  ∀ j, j < i → ∃ a b, l[j]? = some a ∧ l'[j]? = some b ∧ same a b

/-- `l` comes before `l'` in the lexicographic order: up to some position they are the same, and
there `l` ends and `l'` does not, or has the lesser item. -/
def LexLess {α : Type} (same less : α → α → Prop) (l l' : List α) : Prop :=
  ∃ i, SameUpTo same l l' i ∧ ((l.length = i ∧ i < l'.length) ∨
    ∃ a b, l[i]? = some a ∧ l'[i]? = some b ∧ less a b)

/-- Equal start, equal end, and values related by `veq`. -/
def SameTriple {K V : Type} [LE K] (veq : V → V → Prop) (a b : K × K × V) : Prop :=
  (a.1 ≤ b.1 ∧ b.1 ≤ a.1) ∧ (a.2.1 ≤ b.2.1 ∧ b.2.1 ≤ a.2.1) ∧ veq a.2.2 b.2.2

/-- A lesser start; or an equal start and a lesser end; or equal start and end and a lesser value. -/
def LessTriple {K V : Type} [LE K] [LT K] (vlt : V → V → Prop) (a b : K × K × V) : Prop :=
  a.1 < b.1 ∨ (a.1 ≤ b.1 ∧ b.1 ≤ a.1) ∧
    (a.2.1 < b.2.1 ∨ (a.2.1 ≤ b.2.1 ∧ b.2.1 ≤ a.2.1) ∧ vlt a.2.2 b.2.2)

/-! ### Hashing -/

/-- What `h` writes to a hasher can be told apart from whatever else is written after it: it
determines the value (up to `same`) and where it ends.  (std, `Hash`: "the sequence of calls [...]
should be *prefix-free*".) -/
def PrefixFree {α H : Type} (same : α → α → Prop) (h : α → List H) : Prop :=
  ∀ a b x y, h a ++ x = h b ++ y → same a b ∧ x = y

/-! ### Renaming keys and values -/

/-- `f` embeds one key type's order into another's: it preserves and reflects `<=` (and with it `<`
and `==`). -/
def Embeds {K K' : Type} [LE K] [LE K'] (f : K → K') : Prop := ∀ a b, f a ≤ f b ↔ a ≤ b

/-- The range with renamed bounds. -/
def mapRange {K K' : Type} (f : K → K') (r : Range K) : Range K' := ⟨f r.start, f r.stop⟩

/-- The inclusive range with renamed bounds. -/
def mapIRange {K K' : Type} (f : K → K') (r : RangeInclusive K) : RangeInclusive K' :=
  ⟨f r.start, f r.stop, r.exhausted⟩

/-- The same call, on renamed ranges and values. -/
def Op.map {R R' V V' : Type} (φ : R → R') (g : V → V') : Op R V → Op R' V'
  | .insert r v => .insert (φ r) (g v)
  | .remove r => .remove (φ r)
  | .clear => .clear
  | .extend items => .extend (items.map (Prod.map φ g))

/-- The same call, on renamed ranges. -/
def SetOp.map {R R' : Type} (φ : R → R') : SetOp R → SetOp R'
  | .insert r => .insert (φ r)
  | .remove r => .remove (φ r)
  | .clear => .clear
  | .extend items => .extend (items.map φ)

/-- The step functions of the two key types correspond under `f` wherever they are specified: at
keys that are not the greatest resp. least. -/
structure StepsMap {K K' : Type} [LT K] (f : K → K') (S : StepFns K) (S' : StepFns K') : Prop where
  addOne : ∀ a b, a < b → S'.addOne (f a) = (S.addOne a).map f
  subOne : ∀ a b, b < a → S'.subOne (f a) = (S.subOne a).map f

end Verif.Spec

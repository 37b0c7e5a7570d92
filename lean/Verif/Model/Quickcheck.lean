import Verif.Model.Set
import Verif.Model.ISet

/-!
# `quickcheck::Arbitrary` (feature `quickcheck`)

The generator is modelled by what it generates: `<Vec<(Range<_>, _)>>::arbitrary(g)` is the argument
`generated`, about which nothing is assumed.
-/
namespace Verif
variable {K : Type} [LE K] [LT K] [DecidableLE K] [DecidableLT K] {V : Type} [BEq V]

/-- std `Range::is_empty`: `!(self.start < self.end)`. -/
def Range.isEmpty (r : Range K) : Bool := !decide (r.start < r.stop)

/-- /repo/src/map.rs:86-99 `arbitrary`. -/
def RangeMap.arbitrary (generated : List (Range K × V)) : Except Panic (RangeMap K V) :=
  RangeMap.fromIter (generated.filter fun e => !e.1.isEmpty)

/-- /repo/src/inclusive_map.rs:106-119 `arbitrary`. -/
def RangeInclusiveMap.arbitrary (S : StepFns K) (generated : List (RangeInclusive K × V)) :
    Except Panic (RangeInclusiveMap K V) :=
  RangeInclusiveMap.fromIter S (generated.filter fun e => !e.1.isEmpty)

/-- /repo/src/set.rs:42-52 `arbitrary`. -/
def RangeSet.arbitrary (generated : List (Range K × Unit)) : Except Panic (RangeSet K) := do
  return ⟨← RangeMap.arbitrary generated⟩

/-- /repo/src/inclusive_set.rs:42-52 `arbitrary`. -/
def RangeInclusiveSet.arbitrary (S : StepFns K) (generated : List (RangeInclusive K × Unit)) :
    Except Panic (RangeInclusiveSet K) := do
  return ⟨← RangeInclusiveMap.arbitrary S generated⟩

end Verif

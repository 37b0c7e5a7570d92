import Verif.Model.Crash
import Verif.Model.Set
import Verif.Model.ISet

/-!
# `extend` and the sets, with user code that panics

`Verif/Model/Crash.lean` for `extend` and for the sets' `insert` and `remove`.
-/
namespace Verif

/-- What `extend` gets from a call of the `next` of its argument: `none` stands for a panic of that
call; with an item comes which of the stretches of user code run by its insertion panic. -/
abbrev Source (E : Type) := List (Option (E × (Nat → Bool)))

variable {K : Type} [LE K] [LT K] [DecidableLE K] [DecidableLT K] {V : Type}

/-- /repo/src/map.rs:622-632 `Extend::extend`; the panic, if there is one, is caught by the caller.
(`from_iter`, 610-619, and `|`, `&`, which work on a new container that is lost when user code
panics, leave nothing to be seen.) -/
def RangeMap.extendCrash [BEq V] (m : RangeMap K V) :
    Source (Range K × V) → Except Crash Unit × RangeMap K V
  | [] => (.ok (), m)
  | none :: _ => (.error .user, m)
  | some ((r, v), panics) :: items =>
    match insertCrash panics m r v with
    | (.ok (), m') => m'.extendCrash items
    | (.error c, m') => (.error c, m')

/-- /repo/src/inclusive_map.rs:717-727 `Extend::extend`. -/
def RangeInclusiveMap.extendCrash [BEq V] (S : StepFns K) (m : RangeInclusiveMap K V) :
    Source (RangeInclusive K × V) → Except Crash Unit × RangeInclusiveMap K V
  | [] => (.ok (), m)
  | none :: _ => (.error .user, m)
  | some ((r, v), panics) :: items =>
    match insertCrash S panics m r v with
    | (.ok (), m') => m'.extendCrash S items
    | (.error c, m') => (.error c, m')

namespace RangeSet

/-- /repo/src/set.rs:117-128 `insert`. -/
def insertCrash (panics : Nat → Bool) (s : RangeSet K) (range : Range K) :
    Except Crash Unit × RangeSet K :=
  let (outcome, rm) := RangeMap.insertCrash panics s.rm range ()
  (outcome, ⟨rm⟩)

/-- /repo/src/set.rs:130-141 `remove`. -/
def removeCrash (panics : Nat → Bool) (s : RangeSet K) (range : Range K) :
    Except Crash Unit × RangeSet K :=
  let (outcome, rm) := RangeMap.removeCrash panics s.rm range
  (outcome, ⟨rm⟩)

/-- /repo/src/set.rs:277-286 `Extend::extend`. -/
def extendCrash (s : RangeSet K) : Source (Range K) → Except Crash Unit × RangeSet K
  | [] => (.ok (), s)
  | none :: _ => (.error .user, s)
  | some (r, panics) :: items =>
    match insertCrash panics s r with
    | (.ok (), s') => s'.extendCrash items
    | (.error c, s') => (.error c, s')

end RangeSet

namespace RangeInclusiveSet

/-- /repo/src/inclusive_set.rs:137-148 `insert`. -/
def insertCrash (S : StepFns K) (panics : Nat → Bool) (s : RangeInclusiveSet K)
    (range : RangeInclusive K) : Except Crash Unit × RangeInclusiveSet K :=
  let (outcome, rm) := RangeInclusiveMap.insertCrash S panics s.rm range ()
  (outcome, ⟨rm⟩)

/-- /repo/src/inclusive_set.rs:150-161 `remove`. -/
def removeCrash (S : StepFns K) (panics : Nat → Bool) (s : RangeInclusiveSet K)
    (range : RangeInclusive K) : Except Crash Unit × RangeInclusiveSet K :=
  let (outcome, rm) := RangeInclusiveMap.removeCrash S panics s.rm range
  (outcome, ⟨rm⟩)

/-- /repo/src/inclusive_set.rs:303-312 `Extend::extend`. -/
def extendCrash (S : StepFns K) (s : RangeInclusiveSet K) :
    Source (RangeInclusive K) → Except Crash Unit × RangeInclusiveSet K
  | [] => (.ok (), s)
  | none :: _ => (.error .user, s)
  | some (r, panics) :: items =>
    match insertCrash S panics s r with
    | (.ok (), s') => s'.extendCrash S items
    | (.error c, s') => (.error c, s')

end RangeInclusiveSet
end Verif

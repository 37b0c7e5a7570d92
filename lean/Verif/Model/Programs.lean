import Verif.Model.Map
import Verif.Model.IMap
import Verif.Model.Collect
import Verif.Model.ICollect
import Verif.Spec

/-!
# The example program and the benchmarks

Points in time are keys of any type, and `+ Duration::weeks(1)` is any function `next` on them
(that it gives a later time is a hypothesis of the theorems; chrono's own arithmetic and its panics
are not modelled).  Printing is not modelled: the rows printed are the entries of the last `iter`.
-/
namespace Verif

namespace RangeMap
variable {K : Type} [LE K] [LT K] [DecidableLE K] [DecidableLT K] {V : Type} [BEq V]

/-- /repo/examples/roster.rs:13-17, the inner `for`: one shift for each of `people`. -/
def rosterRound (next : K → K) : List V → RangeMap K V × K → Except Panic (RangeMap K V × K)
  | [], s => .ok s
  | person :: people, (roster, weekStart) => do
    let nextWeek := next weekStart
    let roster ← roster.insert ⟨weekStart, nextWeek⟩ person
    rosterRound next people (roster, nextWeek)

/-- /repo/examples/roster.rs:12-18, the outer `for`, with any number of rounds. -/
def rosterRounds (next : K → K) (people : List V) :
    Nat → RangeMap K V × K → Except Panic (RangeMap K V × K)
  | 0, s => .ok s
  | n + 1, s => do rosterRounds next people n (← rosterRound next people s)

/-- `n` weeks after `t`. -/
def weeks (next : K → K) : Nat → K → K
  | 0, t => t
  | n + 1, t => weeks next n (next t)

/-- /repo/examples/roster.rs:5-23 `main` up to the printing, with any people, any number of rounds
(there 3), and any shift covered (there the one with three before it) by anyone. -/
def roster (next : K → K) (people : List V) (rounds : Nat) (startOfRoster : K) (shift : Nat)
    (cover : V) : Except Panic (RangeMap K V) := do
  let (roster, _) ← rosterRounds next people rounds (RangeMap.new, startOfRoster)
  let shiftStart := weeks next shift startOfRoster
  let shiftEnd := next shiftStart
  roster.insert ⟨shiftStart, shiftEnd⟩ cover

/-- /repo/benches/benches.rs:52-56, the body of the benchmark `insert`. -/
def benchInsert : List (Range K × V) → RangeMap K V → Except Panic (RangeMap K V)
  | [], map => .ok map
  | (range, value) :: entries, map => do benchInsert entries (← map.insert range value)

/-- /repo/benches/benches.rs:14-17 `Operation`. -/
inductive BenchOp (R V : Type) where
  | insert (key : R) (value : V)
  | delete (key : R)

/-- /repo/benches/benches.rs:71-78, the body of the benchmark `operations`. -/
def benchOps : List (BenchOp (Range K) V) → RangeMap K V → Except Panic (RangeMap K V)
  | [], map => .ok map
  | .insert key value :: ops, map => do benchOps ops (← map.insert key value)
  | .delete key :: ops, map => do benchOps ops (← map.remove key)

/-- /repo/benches/benches.rs:93-95, the body of the benchmark `lookups`. -/
def benchLookups (map : RangeMap K V) : List K → Except Panic Unit
  | [] => .ok ()
  | lookup :: lookups => do
    let _ ← map.get lookup
    benchLookups map lookups

end RangeMap

namespace RangeInclusiveMap
variable {K : Type} [LE K] [LT K] [DecidableLE K] [DecidableLT K] {V : Type} [BEq V]

/-- /repo/benches/benches.rs:114-118, the body of the benchmark `insert`. -/
def benchInsert (S : StepFns K) : List (RangeInclusive K × V) → RangeInclusiveMap K V →
    Except Panic (RangeInclusiveMap K V)
  | [], map => .ok map
  | (range, value) :: entries, map => do benchInsert S entries (← map.insert S range value)

/-- /repo/benches/benches.rs:134-141, the body of the benchmark `operations`. -/
def benchOps (S : StepFns K) : List (RangeMap.BenchOp (RangeInclusive K) V) →
    RangeInclusiveMap K V → Except Panic (RangeInclusiveMap K V)
  | [], map => .ok map
  | .insert key value :: ops, map => do benchOps S ops (← map.insert S key value)
  | .delete key :: ops, map => do benchOps S ops (← map.remove S key)

/-- /repo/benches/benches.rs:156-158, the body of the benchmark `lookups`. -/
def benchLookups (map : RangeInclusiveMap K V) : List K → Except Panic Unit
  | [] => .ok ()
  | lookup :: lookups => do
    let _ ← map.get lookup
    benchLookups map lookups

end RangeInclusiveMap
end Verif

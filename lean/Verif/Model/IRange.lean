import Verif.Model.Std

/-!
# `core::ops::RangeInclusive`, the crate's extensions of it, and step functions
-/
namespace Verif

/-- `core::ops::RangeInclusive<K>`.  Besides its bounds, std's struct has a hidden flag `exhausted`,
which is set when the range itself has been iterated to its end, and which `contains`, `is_empty`,
`==` and `Hash` look at.  Used as a key through
`RangeInclusiveStartWrapper`/`RangeInclusiveEndWrapper`, /repo/src/range_wrapper.rs:146-257, which
only select which end the `BTreeMap` orders by (and do not look at `exhausted`). -/
@[ext] structure RangeInclusive (K : Type) where
  start : K
  stop : K
  exhausted : Bool
  deriving DecidableEq, Repr

namespace RangeInclusive
variable {K : Type}

/-- std `RangeInclusive::new`, written `a..=b`. -/
def mk' (a b : K) : RangeInclusive K := ⟨a, b, false⟩

@[simp] theorem mk'_start (a b : K) : (mk' a b).start = a := rfl
@[simp] theorem mk'_stop (a b : K) : (mk' a b).stop = b := rfl
@[simp] theorem mk'_exhausted (a b : K) : (mk' a b).exhausted = false := rfl

variable [LE K] [LT K] [DecidableLE K] [DecidableLT K]

/-- std `RangeInclusive::contains` (through `RangeBounds`, whose `end_bound` is `Excluded(&end)` when
the range is exhausted and `Included(&end)` otherwise). -/
def contains (r : RangeInclusive K) (k : K) : Bool :=
  decide (r.start ≤ k) && if r.exhausted then decide (k < r.stop) else decide (k ≤ r.stop)

/-- std `RangeInclusive::is_empty`: `self.exhausted || !(self.start <= self.end)`. -/
def isEmpty (r : RangeInclusive K) : Bool := r.exhausted || !decide (r.start ≤ r.stop)

/-- /repo/src/std_ext.rs:38-42 `<RangeInclusive<T> as RangeInclusiveExt>::overlaps`. -/
def overlaps (r o : RangeInclusive K) : Bool := decide (rmax r.start o.start ≤ rmin r.stop o.stop)

end RangeInclusive

/-- /repo/src/std_ext.rs:223-239 `trait StepFns` (and 87-103 `trait StepLite`, 241-252 the blanket
implementation): user supplied successor and predecessor functions, which may panic. -/
structure StepFns (K : Type) where
  addOne : K → Except Panic K
  subOne : K → Except Panic K

/-- /repo/src/std_ext.rs:44-67 `<RangeInclusive<T> as RangeInclusiveExt>::touches`. -/
def RangeInclusive.touches {K : Type} [LE K] [LT K] [DecidableLE K] [DecidableLT K]
    (S : StepFns K) (r o : RangeInclusive K) : Except Panic Bool := do
  let maxStart := rmax r.start o.start
  let minRangeEnd := rmin r.stop o.stop
  let minRangeEndExtended ←
    if minRangeEnd < maxStart then S.addOne minRangeEnd else pure minRangeEnd
  return decide (maxStart ≤ minRangeEndExtended)

end Verif

import Verif.Model.Std

/-!
# `core::ops::Range` and the crate's extensions of it
-/
namespace Verif

/-- `core::ops::Range<K>` (`start..end`; `end` is a Lean keyword, hence `stop`).  Used as the key
through `RangeStartWrapper`/`RangeEndWrapper`, /repo/src/range_wrapper.rs:35-145, which only select
which end the `BTreeMap` orders by (`Range.start` resp. `Range.stop`). -/
@[ext] structure Range (K : Type) where
  start : K
  stop : K
  deriving DecidableEq, Repr

namespace Range
variable {K : Type} [LE K] [LT K] [DecidableLE K] [DecidableLT K]

/-- std `Range::contains`: `start <= item && item < end`. -/
def contains (r : Range K) (k : K) : Bool := decide (r.start ≤ k) && decide (k < r.stop)

/-- /repo/src/std_ext.rs:12-16 `<Range<T> as RangeExt>::overlaps`. -/
def overlaps (r o : Range K) : Bool := decide (rmax r.start o.start < rmin r.stop o.stop)

/-- /repo/src/std_ext.rs:18-24 `<Range<T> as RangeExt>::touches`. -/
def touches (r o : Range K) : Bool := decide (rmax r.start o.start ≤ rmin r.stop o.stop)

end Range
end Verif

import Verif.Model.Cmp
import Verif.Model.ICollect
import Verif.Model.Step
import Verif.Model.Set
import Verif.Model.ISet
import Verif.Model.Debug
import Verif.Model.Serde

/-!
# The crate's own unit tests, run on the model

These examples are not proofs of properties.  Each transcribes the assertions of one unit test of
`/repo/src` and evaluates them on the model, with the key type, build mode (overflow checks on)
and expected results of the test.  They validate the model against what the crate's authors
expect of the code.  Every step is required not to panic.
-/
namespace Verif.Tests

/-- The texts of the `Debug` implementations used by the tests. -/
def showNat {w : Nat} (a : UIntW w) : Text := (toString a.bits.toNat).toList
def showUnit (_ : Unit) : Text := "()".toList

/-- Rust: `<bool as Ord>::cmp`. -/
def boolCmp (a b : Bool) : Ordering := compare a.toNat b.toNat

/-- An integer literal. -/
def n {w : Nat} (a : Nat) : UIntW w := ⟨.ofNat w a⟩

/-! ## `/repo/src/map.rs` -/
namespace Map
open RangeMap

/-- A range literal. -/
def r {w : Nat} (a b : Nat) : Range (UIntW w) := ⟨n a, n b⟩

/-- The map after a sequence of calls, none of which may panic. -/
def after {w : Nat} {V : Type} [BEq V] (ops : List (Spec.Op (Range (UIntW w)) V)) :
    Except Panic (RangeMap (UIntW w) V) :=
  ops.foldlM (fun m op => (m.apply op).2.map fun _ => (m.apply op).1) RangeMap.new

-- /repo/src/map.rs:1035-1038 `empty_map_is_empty`
example : ((after (w := 32) (V := Bool) []).map (·.iter)).toOption = some [] := by decide +kernel

-- /repo/src/map.rs:1041-1045 `insert_into_empty_map`
example : ((after (w := 32) (V := Bool) [.insert (r 0 50) false]).map (·.iter)).toOption = some [((r 0 50), false)] := by decide +kernel

-- /repo/src/map.rs:1048-1059 `new_same_value_immediately_following_stored`
example : ((after (w := 32) (V := Bool) [.insert (r 1 3) false, .insert (r 3 5) false]).map (·.iter)).toOption = some [((r 1 5), false)] := by decide +kernel

-- /repo/src/map.rs:1062-1074 `new_different_value_immediately_following_stored`
example : ((after (w := 32) (V := Bool) [.insert (r 1 3) false, .insert (r 3 5) true]).map (·.iter)).toOption = some [((r 1 3), false), ((r 3 5), true)] := by decide +kernel

-- /repo/src/map.rs:1077-1088 `new_same_value_overlapping_end_of_stored`
example : ((after (w := 32) (V := Bool) [.insert (r 1 4) false, .insert (r 3 5) false]).map (·.iter)).toOption = some [((r 1 5), false)] := by decide +kernel

-- /repo/src/map.rs:1091-1103 `new_different_value_overlapping_end_of_stored`
example : ((after (w := 32) (V := Bool) [.insert (r 1 4) false, .insert (r 3 5) true]).map (·.iter)).toOption = some [((r 1 3), false), ((r 3 5), true)] := by decide +kernel

-- /repo/src/map.rs:1106-1117 `new_same_value_immediately_preceding_stored`
example : ((after (w := 32) (V := Bool) [.insert (r 3 5) false, .insert (r 1 3) false]).map (·.iter)).toOption = some [((r 1 5), false)] := by decide +kernel

-- /repo/src/map.rs:1120-1132 `new_different_value_immediately_preceding_stored`
example : ((after (w := 32) (V := Bool) [.insert (r 3 5) true, .insert (r 1 3) false]).map (·.iter)).toOption = some [((r 1 3), false), ((r 3 5), true)] := by decide +kernel

-- /repo/src/map.rs:1135-1146 `new_same_value_wholly_inside_stored`
example : ((after (w := 32) (V := Bool) [.insert (r 1 5) false, .insert (r 2 4) false]).map (·.iter)).toOption = some [((r 1 5), false)] := by decide +kernel

-- /repo/src/map.rs:1149-1165 `new_different_value_wholly_inside_stored`
example : ((after (w := 32) (V := Bool) [.insert (r 1 5) true, .insert (r 2 4) false]).map (·.iter)).toOption = some [((r 1 2), true), ((r 2 4), false), ((r 4 5), true)] := by decide +kernel

-- /repo/src/map.rs:1168-1182 `replace_at_end_of_existing_range_should_coalesce`
example : ((after (w := 32) (V := Bool) [.insert (r 1 3) false, .insert (r 3 5) true, .insert (r 3 5) false]).map (·.iter)).toOption = some [((r 1 5), false)] := by decide +kernel

-- /repo/src/map.rs:1230-1235 `get`
example : (do let m ← after (w := 32) (V := Bool) [.insert (r 0 50) false]; m.get (n 49)).toOption = some (some false) := by decide +kernel
example : (do let m ← after (w := 32) (V := Bool) [.insert (r 0 50) false]; m.get (n 50)).toOption = some (none) := by decide +kernel

-- /repo/src/map.rs:1238-1243 `get_key_value`
example : (do let m ← after (w := 32) (V := Bool) [.insert (r 0 50) false]; m.getKeyValue (n 49)).toOption = some (some ((r 0 50), false)) := by decide +kernel
example : (do let m ← after (w := 32) (V := Bool) [.insert (r 0 50) false]; m.getKeyValue (n 50)).toOption = some (none) := by decide +kernel

-- /repo/src/map.rs:1250-1254 `remove_from_empty_map`
example : ((after (w := 32) (V := Bool) [.remove (r 0 50)]).map (·.iter)).toOption = some [] := by decide +kernel

-- /repo/src/map.rs:1257-1262 `remove_non_covered_range_before_stored`
example : ((after (w := 32) (V := Bool) [.insert (r 25 75) false, .remove (r 0 25)]).map (·.iter)).toOption = some [((r 25 75), false)] := by decide +kernel

-- /repo/src/map.rs:1265-1270 `remove_non_covered_range_after_stored`
example : ((after (w := 32) (V := Bool) [.insert (r 25 75) false, .remove (r 75 100)]).map (·.iter)).toOption = some [((r 25 75), false)] := by decide +kernel

-- /repo/src/map.rs:1273-1278 `remove_overlapping_start_of_stored`
example : ((after (w := 32) (V := Bool) [.insert (r 25 75) false, .remove (r 0 30)]).map (·.iter)).toOption = some [((r 30 75), false)] := by decide +kernel

-- /repo/src/map.rs:1281-1286 `remove_middle_of_stored`
example : ((after (w := 32) (V := Bool) [.insert (r 25 75) false, .remove (r 30 70)]).map (·.iter)).toOption = some [((r 25 30), false), ((r 70 75), false)] := by decide +kernel

-- /repo/src/map.rs:1289-1294 `remove_overlapping_end_of_stored`
example : ((after (w := 32) (V := Bool) [.insert (r 25 75) false, .remove (r 70 100)]).map (·.iter)).toOption = some [((r 25 70), false)] := by decide +kernel

-- /repo/src/map.rs:1297-1302 `remove_exactly_stored`
example : ((after (w := 32) (V := Bool) [.insert (r 25 75) false, .remove (r 25 75)]).map (·.iter)).toOption = some [] := by decide +kernel

-- /repo/src/map.rs:1305-1310 `remove_superset_of_stored`
example : ((after (w := 32) (V := Bool) [.insert (r 25 75) false, .remove (r 0 100)]).map (·.iter)).toOption = some [] := by decide +kernel

-- /repo/src/map.rs:1315-1329 `whole_range_is_a_gap`
example : (do let m ← after (w := 32) (V := Unit) []; let g ← m.gaps (r 1 8); pure (Spec.calls Gaps.next 4 g)).toOption =
    some [some (r 1 8), none, none, none] := by decide +kernel

-- /repo/src/map.rs:1332-1346 `whole_range_is_covered_exactly`
example : (do let m ← after (w := 32) (V := Unit) [.insert (r 1 6) ()]; let g ← m.gaps (r 1 6); pure (Spec.calls Gaps.next 3 g)).toOption =
    some [none, none, none] := by decide +kernel

-- /repo/src/map.rs:1349-1364 `item_before_outer_range`
example : (do let m ← after (w := 32) (V := Unit) [.insert (r 1 3) ()]; let g ← m.gaps (r 5 8); pure (Spec.calls Gaps.next 4 g)).toOption =
    some [some (r 5 8), none, none, none] := by decide +kernel

-- /repo/src/map.rs:1367-1382 `item_touching_start_of_outer_range`
example : (do let m ← after (w := 32) (V := Unit) [.insert (r 1 5) ()]; let g ← m.gaps (r 5 8); pure (Spec.calls Gaps.next 4 g)).toOption =
    some [some (r 5 8), none, none, none] := by decide +kernel

-- /repo/src/map.rs:1385-1401 `item_overlapping_start_of_outer_range`
example : (do let m ← after (w := 32) (V := Unit) [.insert (r 1 6) ()]; let g ← m.gaps (r 5 8); pure (Spec.calls Gaps.next 4 g)).toOption =
    some [some (r 6 8), none, none, none] := by decide +kernel

-- /repo/src/map.rs:1404-1419 `item_starting_at_start_of_outer_range`
example : (do let m ← after (w := 32) (V := Unit) [.insert (r 5 6) ()]; let g ← m.gaps (r 5 8); pure (Spec.calls Gaps.next 4 g)).toOption =
    some [some (r 6 8), none, none, none] := by decide +kernel

-- /repo/src/map.rs:1422-1443 `items_floating_inside_outer_range`
example : (do let m ← after (w := 32) (V := Unit) [.insert (r 5 6) (), .insert (r 3 4) ()]; let g ← m.gaps (r 1 8); pure (Spec.calls Gaps.next 6 g)).toOption =
    some [some (r 1 3), some (r 4 5), some (r 6 8), none, none, none] := by decide +kernel

-- /repo/src/map.rs:1446-1462 `item_ending_at_end_of_outer_range`
example : (do let m ← after (w := 32) (V := Unit) [.insert (r 7 8) ()]; let g ← m.gaps (r 5 8); pure (Spec.calls Gaps.next 4 g)).toOption =
    some [some (r 5 7), none, none, none] := by decide +kernel

-- /repo/src/map.rs:1465-1481 `item_overlapping_end_of_outer_range`
example : (do let m ← after (w := 32) (V := Unit) [.insert (r 4 6) ()]; let g ← m.gaps (r 2 5); pure (Spec.calls Gaps.next 4 g)).toOption =
    some [some (r 2 4), none, none, none] := by decide +kernel

-- /repo/src/map.rs:1484-1499 `item_touching_end_of_outer_range`
example : (do let m ← after (w := 32) (V := Unit) [.insert (r 4 8) ()]; let g ← m.gaps (r 1 4); pure (Spec.calls Gaps.next 4 g)).toOption =
    some [some (r 1 4), none, none, none] := by decide +kernel

-- /repo/src/map.rs:1502-1517 `item_after_outer_range`
example : (do let m ← after (w := 32) (V := Unit) [.insert (r 6 7) ()]; let g ← m.gaps (r 1 4); pure (Spec.calls Gaps.next 4 g)).toOption =
    some [some (r 1 4), none, none, none] := by decide +kernel

-- /repo/src/map.rs:1520-1536 `empty_outer_range_with_items_away_from_both_sides`
example : (do let m ← after (w := 32) (V := Unit) [.insert (r 1 3) (), .insert (r 5 7) ()]; let g ← m.gaps (r 4 4); pure (Spec.calls Gaps.next 2 g)).toOption =
    some [none, none] := by decide +kernel

-- /repo/src/map.rs:1539-1556 `empty_outer_range_with_items_touching_both_sides`
example : (do let m ← after (w := 32) (V := Unit) [.insert (r 2 4) (), .insert (r 4 6) ()]; let g ← m.gaps (r 4 4); pure (Spec.calls Gaps.next 3 g)).toOption =
    some [none, none, none] := by decide +kernel

-- /repo/src/map.rs:1559-1573 `empty_outer_range_with_item_straddling`
example : (do let m ← after (w := 32) (V := Unit) [.insert (r 2 5) ()]; let g ← m.gaps (r 4 4); pure (Spec.calls Gaps.next 3 g)).toOption =
    some [none, none, none] := by decide +kernel

-- /repo/src/map.rs:1576-1598 `no_empty_gaps`
example : (do let m ← after (w := 32) (V := Bool) [.insert (r 4 5) true, .insert (r 3 4) false]; let g ← m.gaps (r 1 8); pure (Spec.calls Gaps.next 5 g)).toOption =
    some [some (r 1 3), some (r 5 8), none, none, none] := by decide +kernel

-- /repo/src/map.rs:1601-1616 `adjacent_small_items`
example : (do let m ← after (w := 8) (V := Bool) [.insert (r 0 1) false, .insert (r 1 2) true, .insert (r 253 254) false, .insert (r 254 255) true]; let g ← m.gaps (r 0 255); pure (Spec.calls Gaps.next 3 g)).toOption =
    some [some (r 2 253), none, none] := by decide +kernel

-- /repo/src/map.rs:1620-1633 `outer_range_lies_within_first_of_two_stored_ranges`
example : (do let m ← after (w := 64) (V := Unit) [.insert (r 0 5) (), .insert (r 6 8) ()]; let g ← m.gaps (r 1 3); pure (Spec.calls Gaps.next 1 g)).toOption =
    some [none] := by decide +kernel

-- /repo/src/map.rs:1638-1650 `overlapping_with_empty_map`
example : (do let m ← after (w := 32) (V := Unit) []; let g ← m.overlapping (r 1 8); pure (Spec.calls Overlapping.next 2 g)).toOption =
    some [none, none] := by decide +kernel

-- /repo/src/map.rs:1653-1681 `overlapping_partial_edges_complete_middle`
example : (do let m ← after (w := 32) (V := Unit) [.insert (r 0 2) (), .insert (r 3 4) (), .insert (r 5 7) ()]; let g ← m.overlapping (r 1 6); pure (Spec.calls Overlapping.next 5 g)).toOption =
    some [some ((r 0 2), ()), some ((r 3 4), ()), some ((r 5 7), ()), none, none] := by decide +kernel

-- /repo/src/map.rs:1684-1709 `overlapping_non_overlapping_edges_complete_middle`
example : (do let m ← after (w := 32) (V := Unit) [.insert (r 0 2) (), .insert (r 3 4) (), .insert (r 5 7) ()]; let g ← m.overlapping (r 2 5); pure (Spec.calls Overlapping.next 3 g)).toOption =
    some [some ((r 3 4), ()), none, none] := by decide +kernel

-- /repo/src/map.rs:1716-1730 `map_debug_repr_looks_right`
example : ((after (w := 32) (V := Unit) []).map (fun m => m.debug showNat showUnit)).toOption = some "{}".toList := by decide +kernel
example : ((after (w := 32) (V := Unit) [.insert (r 2 5) ()]).map (fun m => m.debug showNat showUnit)).toOption = some "{2..5: ()}".toList := by decide +kernel
example : ((after (w := 32) (V := Unit) [.insert (r 2 5) (), .insert (r 6 7) (), .insert (r 8 9) ()]).map (fun m => m.debug showNat showUnit)).toOption = some "{2..5: (), 6..7: (), 8..9: ()}".toList := by decide +kernel

-- /repo/src/map.rs:1761-1777 `eq`
example : (do let a ← after (w := 32) (V := Bool) [.insert (r 1 3) false]; let b ← after (w := 32) (V := Bool) [.insert (r 1 4) false]; pure (a.eq b)).toOption =
    some false := by decide +kernel
example : (do let a ← after (w := 32) (V := Bool) [.insert (r 1 4) false]; let b ← after (w := 32) (V := Bool) [.insert (r 1 3) false]; pure (a.eq b)).toOption =
    some false := by decide +kernel
example : (do let a ← after (w := 32) (V := Bool) [.insert (r 1 3) false]; let b ← after (w := 32) (V := Bool) [.insert (r 1 3) false]; pure (a.eq b)).toOption =
    some true := by decide +kernel
example : (do let a ← after (w := 32) (V := Bool) [.insert (r 1 3) false]; let b ← after (w := 32) (V := Bool) [.insert (r 1 3) false]; pure (a.eq b)).toOption =
    some true := by decide +kernel
example : (do let a ← after (w := 32) (V := Bool) [.insert (r 1 3) false]; let b ← after (w := 32) (V := Bool) [.insert (r 1 3) false]; pure (a.eq b)).toOption =
    some true := by decide +kernel

-- /repo/src/map.rs:1781-1792 `partial_ord`
example : (do let a ← after (w := 32) (V := Bool) [.insert (r 1 3) false]; let b ← after (w := 32) (V := Bool) [.insert (r 1 3) false]; pure (a.partialCmp (fun x y => some (boolCmp x y)) b)).toOption =
    some (some .eq) := by decide +kernel
example : (do let a ← after (w := 32) (V := Bool) [.insert (r 1 3) false]; let b ← after (w := 32) (V := Bool) [.insert (r 1 4) false]; pure (a.partialCmp (fun x y => some (boolCmp x y)) b)).toOption =
    some (some .lt) := by decide +kernel
example : (do let a ← after (w := 32) (V := Bool) [.insert (r 1 4) false]; let b ← after (w := 32) (V := Bool) [.insert (r 1 3) false]; pure (a.partialCmp (fun x y => some (boolCmp x y)) b)).toOption =
    some (some .gt) := by decide +kernel

-- /repo/src/map.rs:1795-1806 `ord`
example : (do let a ← after (w := 32) (V := Bool) [.insert (r 1 3) false]; let b ← after (w := 32) (V := Bool) [.insert (r 1 3) false]; pure (a.cmp boolCmp b)).toOption =
    some .eq := by decide +kernel
example : (do let a ← after (w := 32) (V := Bool) [.insert (r 1 3) false]; let b ← after (w := 32) (V := Bool) [.insert (r 1 4) false]; pure (a.cmp boolCmp b)).toOption =
    some .lt := by decide +kernel
example : (do let a ← after (w := 32) (V := Bool) [.insert (r 1 4) false]; let b ← after (w := 32) (V := Bool) [.insert (r 1 3) false]; pure (a.cmp boolCmp b)).toOption =
    some .gt := by decide +kernel

-- /repo/src/map.rs:994-1002 `test_from_array`
example : (do let m ← after (w := 32) (V := String) [.insert (r 0 100) "hello", .insert (r 200 300) "world"]
              let m' ← RangeMap.fromArray [(r 0 100, "hello"), (r 200 300, "world")]
              pure (m.eq m')).toOption = some true := by decide +kernel

-- /repo/src/map.rs:1005-1014 `test_macro` (the macro expands to `collect` of the array of pairs; the
-- integer literals there are `i32`, here 32-bit unsigned)
example : ((RangeMap.fromIter ([] : List (_ × Bool))).map fun m =>
    m.eq (RangeMap.new : RangeMap (UIntW 64) Bool)).toOption = some true := by decide +kernel
example : ((RangeMap.fromIter (K := UIntW 32) [(r 0 100, "abc"), (r 100 200, "def"), (r 200 300, "ghi")]).map (·.iter)).toOption =
    some [(r 0 100, "abc"), (r 100 200, "def"), (r 200 300, "ghi")] := by decide +kernel

-- /repo/src/map.rs:1743-1757 `into_iter_matches_iter`
example : ((after (w := 32) (V := Bool) [.insert (r 1 3) false, .insert (r 3 5) true]).map
    fun m => Spec.calls Iter.next 3 m.iterator).toOption =
    some [some (r 1 3, false), some (r 3 5, true), none] := by decide +kernel

-- /repo/src/map.rs:1812-1822 `serialization` (the items handed to the serialiser)
example : ((after (w := 32) (V := Bool) [.insert (r 1 3) false, .insert (r 5 7) true]).map
    fun m => m.serialize).toOption = some (some 2, [((n 1, n 3), false), ((n 5, n 7), true)]) := by decide +kernel

-- /repo/src/map.rs:1828-1834 `deserialization` (the items coming from the deserialiser)
example : ((deserialize (K := UIntW 32) (E := Unit) 
    [.ok ((n 1, n 3), false), .ok ((n 5, n 7), true)]).map fun m => m.serialize).toOption =
    some (some 2, [((n 1, n 3), false), ((n 5, n 7), true)]) := by decide +kernel

-- /repo/src/lib.rs:52-88 "use with Chrono" (weeks counted from the start of the roster)
example : ((after (w := 32) (V := String)
    [.insert (r 0 1) "Alice", .insert (r 1 2) "Bob", .insert (r 2 3) "Carol",
     .insert (r 3 4) "Alice", .insert (r 4 5) "Bob", .insert (r 5 6) "Carol",
     .insert (r 6 7) "Alice", .insert (r 7 8) "Bob", .insert (r 8 9) "Carol",
     .insert (r 3 4) "Bob"]).map (·.iter)).toOption =
    some [(r 0 1, "Alice"), (r 1 2, "Bob"), (r 2 3, "Carol"), (r 3 5, "Bob"), (r 5 6, "Carol"),
      (r 6 7, "Alice"), (r 7 8, "Bob"), (r 8 9, "Carol")] := by decide +kernel

-- /repo/README.md:57-97, /repo/examples/roster.rs:5-32: nine weekly shifts, in hours since the
-- start of the roster; Bob covers the fourth, which is coalesced with his fifth.
example : ((after (w := 64) (V := String)
      ((List.range 9).map (fun i =>
          .insert (r (168 * i) (168 * (i + 1))) (["Alice", "Bob", "Carol"].getD (i % 3) "")) ++
        [.insert (r 504 672) "Bob"])).map (·.iter)).toOption =
    some [(r 0 168, "Alice"), (r 168 336, "Bob"), (r 336 504, "Carol"), (r 504 840, "Bob"),
      (r 840 1008, "Carol"), (r 1008 1176, "Alice"), (r 1176 1344, "Bob"),
      (r 1344 1512, "Carol")] := by decide +kernel

end Map

/-! ## `/repo/src/inclusive_map.rs` -/
namespace InclusiveMap
open RangeInclusiveMap

/-- A range literal. -/
def r {w : Nat} (a b : Nat) : RangeInclusive (UIntW w) := .mk' (n a) (n b)

/-- The map after a sequence of calls, none of which may panic. -/
def after {w : Nat} {V : Type} [BEq V] (ops : List (Spec.Op (RangeInclusive (UIntW w)) V)) :
    Except Panic (RangeInclusiveMap (UIntW w) V) :=
  ops.foldlM (fun m op => (RangeInclusiveMap.apply (UIntW.steps w true) m op).2.map fun _ => (RangeInclusiveMap.apply (UIntW.steps w true) m op).1) RangeInclusiveMap.new

-- /repo/src/inclusive_map.rs:1157-1160 `empty_map_is_empty`
example : ((after (w := 32) (V := Bool) []).map (·.iter)).toOption = some [] := by decide +kernel

-- /repo/src/inclusive_map.rs:1163-1167 `insert_into_empty_map`
example : ((after (w := 32) (V := Bool) [.insert (r 0 50) false]).map (·.iter)).toOption = some [((r 0 50), false)] := by decide +kernel

-- /repo/src/inclusive_map.rs:1170-1181 `new_same_value_immediately_following_stored`
example : ((after (w := 32) (V := Bool) [.insert (r 1 3) false, .insert (r 4 6) false]).map (·.iter)).toOption = some [((r 1 6), false)] := by decide +kernel

-- /repo/src/inclusive_map.rs:1184-1196 `new_different_value_immediately_following_stored`
example : ((after (w := 32) (V := Bool) [.insert (r 1 3) false, .insert (r 4 6) true]).map (·.iter)).toOption = some [((r 1 3), false), ((r 4 6), true)] := by decide +kernel

-- /repo/src/inclusive_map.rs:1199-1210 `new_same_value_overlapping_end_of_stored`
example : ((after (w := 32) (V := Bool) [.insert (r 1 4) false, .insert (r 4 6) false]).map (·.iter)).toOption = some [((r 1 6), false)] := by decide +kernel

-- /repo/src/inclusive_map.rs:1213-1225 `new_different_value_overlapping_end_of_stored`
example : ((after (w := 32) (V := Bool) [.insert (r 1 3) false, .insert (r 3 5) true]).map (·.iter)).toOption = some [((r 1 2), false), ((r 3 5), true)] := by decide +kernel

-- /repo/src/inclusive_map.rs:1228-1239 `new_same_value_immediately_preceding_stored`
example : ((after (w := 32) (V := Bool) [.insert (r 3 5) false, .insert (r 1 2) false]).map (·.iter)).toOption = some [((r 1 5), false)] := by decide +kernel

-- /repo/src/inclusive_map.rs:1242-1254 `new_different_value_immediately_preceding_stored`
example : ((after (w := 32) (V := Bool) [.insert (r 3 5) true, .insert (r 1 2) false]).map (·.iter)).toOption = some [((r 1 2), false), ((r 3 5), true)] := by decide +kernel

-- /repo/src/inclusive_map.rs:1257-1268 `new_same_value_wholly_inside_stored`
example : ((after (w := 32) (V := Bool) [.insert (r 1 5) false, .insert (r 2 4) false]).map (·.iter)).toOption = some [((r 1 5), false)] := by decide +kernel

-- /repo/src/inclusive_map.rs:1271-1287 `new_different_value_wholly_inside_stored`
example : ((after (w := 32) (V := Bool) [.insert (r 1 5) true, .insert (r 2 4) false]).map (·.iter)).toOption = some [((r 1 1), true), ((r 2 4), false), ((r 5 5), true)] := by decide +kernel

-- /repo/src/inclusive_map.rs:1290-1304 `replace_at_end_of_existing_range_should_coalesce`
example : ((after (w := 32) (V := Bool) [.insert (r 1 3) false, .insert (r 4 6) true, .insert (r 4 6) false]).map (·.iter)).toOption = some [((r 1 6), false)] := by decide +kernel

-- /repo/src/inclusive_map.rs:1349-1354 `get`
example : (do let m ← after (w := 32) (V := Bool) [.insert (r 0 50) false]; m.get (n 50)).toOption = some (some false) := by decide +kernel
example : (do let m ← after (w := 32) (V := Bool) [.insert (r 0 50) false]; m.get (n 51)).toOption = some (none) := by decide +kernel

-- /repo/src/inclusive_map.rs:1357-1362 `get_key_value`
example : (do let m ← after (w := 32) (V := Bool) [.insert (r 0 50) false]; m.getKeyValue (n 50)).toOption = some (some ((r 0 50), false)) := by decide +kernel
example : (do let m ← after (w := 32) (V := Bool) [.insert (r 0 50) false]; m.getKeyValue (n 51)).toOption = some (none) := by decide +kernel

-- /repo/src/inclusive_map.rs:1369-1373 `remove_from_empty_map`
example : ((after (w := 32) (V := Bool) [.remove (r 0 50)]).map (·.iter)).toOption = some [] := by decide +kernel

-- /repo/src/inclusive_map.rs:1376-1381 `remove_non_covered_range_before_stored`
example : ((after (w := 32) (V := Bool) [.insert (r 25 75) false, .remove (r 0 24)]).map (·.iter)).toOption = some [((r 25 75), false)] := by decide +kernel

-- /repo/src/inclusive_map.rs:1384-1389 `remove_non_covered_range_after_stored`
example : ((after (w := 32) (V := Bool) [.insert (r 25 75) false, .remove (r 76 100)]).map (·.iter)).toOption = some [((r 25 75), false)] := by decide +kernel

-- /repo/src/inclusive_map.rs:1392-1397 `remove_overlapping_start_of_stored`
example : ((after (w := 32) (V := Bool) [.insert (r 25 75) false, .remove (r 0 25)]).map (·.iter)).toOption = some [((r 26 75), false)] := by decide +kernel

-- /repo/src/inclusive_map.rs:1400-1405 `remove_middle_of_stored`
example : ((after (w := 32) (V := Bool) [.insert (r 25 75) false, .remove (r 30 70)]).map (·.iter)).toOption = some [((r 25 29), false), ((r 71 75), false)] := by decide +kernel

-- /repo/src/inclusive_map.rs:1408-1413 `remove_overlapping_end_of_stored`
example : ((after (w := 32) (V := Bool) [.insert (r 25 75) false, .remove (r 75 100)]).map (·.iter)).toOption = some [((r 25 74), false)] := by decide +kernel

-- /repo/src/inclusive_map.rs:1416-1421 `remove_exactly_stored`
example : ((after (w := 32) (V := Bool) [.insert (r 25 75) false, .remove (r 25 75)]).map (·.iter)).toOption = some [] := by decide +kernel

-- /repo/src/inclusive_map.rs:1424-1429 `remove_superset_of_stored`
example : ((after (w := 32) (V := Bool) [.insert (r 25 75) false, .remove (r 0 100)]).map (·.iter)).toOption = some [] := by decide +kernel

-- /repo/src/inclusive_map.rs:1438-1455 `no_overflow_at_key_domain_extremes`

-- /repo/src/inclusive_map.rs:1460-1474 `whole_range_is_a_gap`
example : (do let m ← after (w := 32) (V := Unit) []; let g ← m.gaps (r 1 8); Spec.callsE (Gaps.next (UIntW.steps 32 true)) 4 g).toOption =
    some [some (r 1 8), none, none, none] := by decide +kernel

-- /repo/src/inclusive_map.rs:1477-1491 `whole_range_is_covered_exactly`
example : (do let m ← after (w := 32) (V := Unit) [.insert (r 1 6) ()]; let g ← m.gaps (r 1 6); Spec.callsE (Gaps.next (UIntW.steps 32 true)) 3 g).toOption =
    some [none, none, none] := by decide +kernel

-- /repo/src/inclusive_map.rs:1494-1509 `item_before_outer_range`
example : (do let m ← after (w := 32) (V := Unit) [.insert (r 1 3) ()]; let g ← m.gaps (r 5 8); Spec.callsE (Gaps.next (UIntW.steps 32 true)) 4 g).toOption =
    some [some (r 5 8), none, none, none] := by decide +kernel

-- /repo/src/inclusive_map.rs:1512-1527 `item_touching_start_of_outer_range`
example : (do let m ← after (w := 32) (V := Unit) [.insert (r 1 4) ()]; let g ← m.gaps (r 5 8); Spec.callsE (Gaps.next (UIntW.steps 32 true)) 4 g).toOption =
    some [some (r 5 8), none, none, none] := by decide +kernel

-- /repo/src/inclusive_map.rs:1530-1546 `item_overlapping_start_of_outer_range`
example : (do let m ← after (w := 32) (V := Unit) [.insert (r 1 5) ()]; let g ← m.gaps (r 5 8); Spec.callsE (Gaps.next (UIntW.steps 32 true)) 4 g).toOption =
    some [some (r 6 8), none, none, none] := by decide +kernel

-- /repo/src/inclusive_map.rs:1549-1564 `item_starting_at_start_of_outer_range`
example : (do let m ← after (w := 32) (V := Unit) [.insert (r 5 6) ()]; let g ← m.gaps (r 5 8); Spec.callsE (Gaps.next (UIntW.steps 32 true)) 4 g).toOption =
    some [some (r 7 8), none, none, none] := by decide +kernel

-- /repo/src/inclusive_map.rs:1567-1588 `items_floating_inside_outer_range`
example : (do let m ← after (w := 32) (V := Unit) [.insert (r 6 7) (), .insert (r 3 4) ()]; let g ← m.gaps (r 1 8); Spec.callsE (Gaps.next (UIntW.steps 32 true)) 6 g).toOption =
    some [some (r 1 2), some (r 5 5), some (r 8 8), none, none, none] := by decide +kernel

-- /repo/src/inclusive_map.rs:1591-1607 `item_ending_at_end_of_outer_range`
example : (do let m ← after (w := 32) (V := Unit) [.insert (r 7 8) ()]; let g ← m.gaps (r 5 8); Spec.callsE (Gaps.next (UIntW.steps 32 true)) 4 g).toOption =
    some [some (r 5 6), none, none, none] := by decide +kernel

-- /repo/src/inclusive_map.rs:1610-1626 `item_overlapping_end_of_outer_range`
example : (do let m ← after (w := 32) (V := Unit) [.insert (r 5 6) ()]; let g ← m.gaps (r 2 5); Spec.callsE (Gaps.next (UIntW.steps 32 true)) 4 g).toOption =
    some [some (r 2 4), none, none, none] := by decide +kernel

-- /repo/src/inclusive_map.rs:1629-1644 `item_touching_end_of_outer_range`
example : (do let m ← after (w := 32) (V := Unit) [.insert (r 5 9) ()]; let g ← m.gaps (r 1 4); Spec.callsE (Gaps.next (UIntW.steps 32 true)) 4 g).toOption =
    some [some (r 1 4), none, none, none] := by decide +kernel

-- /repo/src/inclusive_map.rs:1647-1662 `item_after_outer_range`
example : (do let m ← after (w := 32) (V := Unit) [.insert (r 6 7) ()]; let g ← m.gaps (r 1 4); Spec.callsE (Gaps.next (UIntW.steps 32 true)) 4 g).toOption =
    some [some (r 1 4), none, none, none] := by decide +kernel

-- /repo/src/inclusive_map.rs:1665-1682 `zero_width_outer_range_with_items_away_from_both_sides`
example : (do let m ← after (w := 32) (V := Unit) [.insert (r 1 3) (), .insert (r 5 7) ()]; let g ← m.gaps (r 4 4); Spec.callsE (Gaps.next (UIntW.steps 32 true)) 3 g).toOption =
    some [some (r 4 4), none, none] := by decide +kernel

-- /repo/src/inclusive_map.rs:1685-1702 `zero_width_outer_range_with_items_touching_both_sides`
example : (do let m ← after (w := 32) (V := Unit) [.insert (r 2 3) (), .insert (r 5 6) ()]; let g ← m.gaps (r 4 4); Spec.callsE (Gaps.next (UIntW.steps 32 true)) 3 g).toOption =
    some [some (r 4 4), none, none] := by decide +kernel

-- /repo/src/inclusive_map.rs:1705-1719 `empty_outer_range_with_item_straddling`
example : (do let m ← after (w := 32) (V := Unit) [.insert (r 2 5) ()]; let g ← m.gaps (r 4 4); Spec.callsE (Gaps.next (UIntW.steps 32 true)) 3 g).toOption =
    some [none, none, none] := by decide +kernel

-- /repo/src/inclusive_map.rs:1722-1744 `no_empty_gaps`
example : (do let m ← after (w := 32) (V := Bool) [.insert (r 4 5) true, .insert (r 2 3) false]; let g ← m.gaps (r 1 8); Spec.callsE (Gaps.next (UIntW.steps 32 true)) 5 g).toOption =
    some [some (r 1 1), some (r 6 8), none, none, none] := by decide +kernel

-- /repo/src/inclusive_map.rs:1747-1771 `no_overflow_finding_gaps_at_key_domain_extremes`
example : (do let m ← after (w := 8) (V := Bool) [.insert (r 0 255) false]; let _ ← m.gaps (r 0 255); pure ()).toOption = some () := by decide +kernel
example : (do let m ← after (w := 8) (V := Bool) [.insert (r 0 255) false]; let _ ← m.gaps (r 0 5); pure ()).toOption = some () := by decide +kernel
example : (do let m ← after (w := 8) (V := Bool) [.insert (r 0 255) false]; let _ ← m.gaps (r 250 255); pure ()).toOption = some () := by decide +kernel
example : (do let m ← after (w := 8) (V := Bool) [.insert (r 0 255) false]; let _ ← m.gaps (r 1 5); pure ()).toOption = some () := by decide +kernel
example : (do let m ← after (w := 8) (V := Bool) [.insert (r 0 255) false]; let _ ← m.gaps (r 250 254); pure ()).toOption = some () := by decide +kernel
example : (do let m ← after (w := 8) (V := Bool) [.insert (r 1 254) false]; let _ ← m.gaps (r 0 5); pure ()).toOption = some () := by decide +kernel
example : (do let m ← after (w := 8) (V := Bool) [.insert (r 1 254) false]; let _ ← m.gaps (r 250 255); pure ()).toOption = some () := by decide +kernel

-- /repo/src/inclusive_map.rs:1774-1789 `adjacent_unit_width_items`
example : (do let m ← after (w := 8) (V := Bool) [.insert (r 0 0) false, .insert (r 1 1) true, .insert (r 254 254) false, .insert (r 255 255) true]; let g ← m.gaps (r 0 255); Spec.callsE (Gaps.next (UIntW.steps 8 true)) 3 g).toOption =
    some [some (r 2 253), none, none] := by decide +kernel

-- /repo/src/inclusive_map.rs:1794-1806 `overlapping_ref_with_empty_map`
example : (do let m ← after (w := 32) (V := Unit) []; let g ← m.overlapping (r 1 8); pure (Spec.calls Overlapping.next 2 g)).toOption =
    some [none, none] := by decide +kernel

-- /repo/src/inclusive_map.rs:1824-1852 `overlapping_partial_edges_complete_middle`
example : (do let m ← after (w := 32) (V := Unit) [.insert (r 0 1) (), .insert (r 3 4) (), .insert (r 6 7) ()]; let g ← m.overlapping (r 1 6); pure (Spec.calls Overlapping.next 5 g)).toOption =
    some [some ((r 0 1), ()), some ((r 3 4), ()), some ((r 6 7), ()), none, none] := by decide +kernel

-- /repo/src/inclusive_map.rs:1855-1880 `overlapping_non_overlapping_edges_complete_middle`
example : (do let m ← after (w := 32) (V := Unit) [.insert (r 0 1) (), .insert (r 3 4) (), .insert (r 6 7) ()]; let g ← m.overlapping (r 2 5); pure (Spec.calls Overlapping.next 3 g)).toOption =
    some [some ((r 3 4), ()), none, none] := by decide +kernel

-- /repo/src/inclusive_map.rs:1887-1901 `map_debug_repr_looks_right`
example : ((after (w := 32) (V := Unit) []).map (fun m => m.debug showNat showUnit)).toOption = some "{}".toList := by decide +kernel
example : ((after (w := 32) (V := Unit) [.insert (r 2 5) ()]).map (fun m => m.debug showNat showUnit)).toOption = some "{2..=5: ()}".toList := by decide +kernel
example : ((after (w := 32) (V := Unit) [.insert (r 2 5) (), .insert (r 7 8) (), .insert (r 10 11) ()]).map (fun m => m.debug showNat showUnit)).toOption = some "{2..=5: (), 7..=8: (), 10..=11: ()}".toList := by decide +kernel

-- /repo/src/inclusive_map.rs:1949-1957 `test_equality_same_start_different_end`
example : (do let a ← after (w := 32) (V := Unit) [.insert (r 0 5) ()]; let b ← after (w := 32) (V := Unit) [.insert (r 0 2) ()]; pure (a.eq b)).toOption =
    some false := by decide +kernel

-- /repo/src/inclusive_map.rs:1960-1968 `test_equality_identical_ranges`
example : (do let a ← after (w := 32) (V := Unit) [.insert (r 0 5) ()]; let b ← after (w := 32) (V := Unit) [.insert (r 0 5) ()]; pure (a.eq b)).toOption =
    some true := by decide +kernel

-- /repo/src/inclusive_map.rs:1113-1121 `test_from_array`
example : (do let m ← after (w := 32) (V := String) [.insert (r 0 100) "hello", .insert (r 200 300) "world"]
              let m' ← RangeInclusiveMap.fromArray (UIntW.steps 32 true) [(r 0 100, "hello"), (r 200 300, "world")]
              pure (m.eq m')).toOption = some true := by decide +kernel

-- /repo/src/inclusive_map.rs:1124-1136 `test_macro` (the macro expands to `collect` of the array of pairs; the
-- integer literals there are `i32`, here 32-bit unsigned)
example : ((RangeInclusiveMap.fromIter (UIntW.steps 64 true) ([] : List (_ × Bool))).map fun m =>
    m.eq (RangeInclusiveMap.new : RangeInclusiveMap (UIntW 64) Bool)).toOption = some true := by decide +kernel
example : ((RangeInclusiveMap.fromIter (K := UIntW 32) (UIntW.steps 32 true) [(r 0 100, "abc"), (r 100 200, "def"), (r 200 300, "ghi")]).map (·.iter)).toOption =
    some [(r 0 99, "abc"), (r 100 199, "def"), (r 200 300, "ghi")] := by decide +kernel

-- /repo/src/inclusive_map.rs:1915-1925 `serialization` (the items handed to the serialiser)
example : ((after (w := 32) (V := Bool) [.insert (r 1 3) false, .insert (r 5 7) true]).map
    fun m => m.serialize).toOption = some (some 2, [((n 1, n 3), false), ((n 5, n 7), true)]) := by decide +kernel

-- /repo/src/inclusive_map.rs:1931-1937 `deserialization` (the items coming from the deserialiser)
example : ((deserialize (K := UIntW 32) (E := Unit) (UIntW.steps 32 true) 
    [.ok ((n 1, n 3), false), .ok ((n 5, n 7), true)]).map fun m => m.serialize).toOption =
    some (some 2, [((n 1, n 3), false), ((n 5, n 7), true)]) := by decide +kernel

-- /repo/src/inclusive_map.rs:1808-1821 `overlapping_owned_with_empty_map`
example : (do let m ← after (w := 32) (V := Unit) []; let g ← m.overlapping (r 1 8)
              pure (Spec.calls Overlapping.next 2 g)).toOption =
    some [none, none] := by decide +kernel

end InclusiveMap

/-! ## `/repo/src/set.rs` -/
namespace Set
open RangeSet

/-- A range literal. -/
def r {w : Nat} (a b : Nat) : Range (UIntW w) := ⟨n a, n b⟩

/-- The set after a sequence of calls, none of which may panic. -/
def after {w : Nat} (ops : List (Spec.SetOp (Range (UIntW w)))) :
    Except Panic (RangeSet (UIntW w)) :=
  ops.foldlM (fun s op => (s.apply op).2.map fun _ => (s.apply op).1) RangeSet.new

-- /repo/src/set.rs:673-676 `empty_set_is_empty`
example : ((after (w := 32) []).map (·.iter)).toOption = some [] := by decide +kernel

-- /repo/src/set.rs:679-683 `insert_into_empty_map`
example : ((after (w := 32) [.insert (r 0 50)]).map (·.iter)).toOption = some [(r 0 50)] := by decide +kernel

-- /repo/src/set.rs:686-691 `remove_partially_overlapping`
example : ((after (w := 32) [.insert (r 0 50), .remove (r 25 75)]).map (·.iter)).toOption = some [(r 0 25)] := by decide +kernel

-- /repo/src/set.rs:694-715 `gaps_between_items_floating_inside_outer_range`
example : (do let m ← after (w := 32) [.insert (r 5 6), .insert (r 3 4)]; let g ← m.gaps (r 1 8); pure (Spec.calls Gaps.next 6 g)).toOption =
    some [some (r 1 3), some (r 4 5), some (r 6 8), none, none, none] := by decide +kernel

-- /repo/src/set.rs:718-746 `overlapping_partial_edges_complete_middle`
example : (do let m ← after (w := 32) [.insert (r 0 2), .insert (r 3 4), .insert (r 5 7)]; let g ← m.overlapping (r 1 6); pure (Spec.calls Overlapping.next 5 g)).toOption =
    some [some (r 0 2), some (r 3 4), some (r 5 7), none, none] := by decide +kernel

-- /repo/src/set.rs:753-767 `set_debug_repr_looks_right`
example : ((after (w := 32) []).map (fun m => m.debug showNat)).toOption = some "{}".toList := by decide +kernel
example : ((after (w := 32) [.insert (r 2 5)]).map (fun m => m.debug showNat)).toOption = some "{2..5}".toList := by decide +kernel
example : ((after (w := 32) [.insert (r 2 5), .insert (r 7 8), .insert (r 10 11)]).map (fun m => m.debug showNat)).toOption = some "{2..5, 7..8, 10..11}".toList := by decide +kernel

-- /repo/src/set.rs:596-601 `test_from_array`
example : (do let s ← after (w := 32) [.insert (r 0 100), .insert (r 200 300)]
              let s' ← RangeSet.fromArray [r 0 100, r 200 300]
              pure (s.eq s')).toOption = some true := by decide +kernel

-- /repo/src/set.rs:604-610 `test_macro` (the macro expands to `collect` of the array of ranges)
example : ((RangeSet.fromIter []).map fun s =>
    s.eq (RangeSet.new : RangeSet (UIntW 32))).toOption = some true := by decide +kernel
example : ((RangeSet.fromIter (K := UIntW 32) [r 0 100, r 200 300, r 400 500]).map
    (·.iter)).toOption = some [r 0 100, r 200 300, r 400 500] := by decide +kernel

-- /repo/src/set.rs:781-791 `serialization` (the items handed to the serialiser)
example : ((after (w := 32) [.insert (r 1 3), .insert (r 5 7)]).map
    fun s => s.serialize).toOption = some (some 2, [(n 1, n 3), (n 5, n 7)]) := by decide +kernel

-- /repo/src/set.rs:797-802 `deserialization` (the items coming from the deserialiser)
example : ((deserialize (K := UIntW 32) (E := Unit) 
    [.ok (n 1, n 3), .ok (n 5, n 7)]).map fun s => s.serialize).toOption =
    some (some 2, [(n 1, n 3), (n 5, n 7)]) := by decide +kernel

end Set

/-! ## `/repo/src/inclusive_set.rs` -/
namespace InclusiveSet
open RangeInclusiveSet

/-- A range literal. -/
def r {w : Nat} (a b : Nat) : RangeInclusive (UIntW w) := .mk' (n a) (n b)

/-- The set after a sequence of calls, none of which may panic. -/
def after {w : Nat} (ops : List (Spec.SetOp (RangeInclusive (UIntW w)))) :
    Except Panic (RangeInclusiveSet (UIntW w)) :=
  ops.foldlM (fun s op => (RangeInclusiveSet.apply (UIntW.steps w true) s op).2.map fun _ => (RangeInclusiveSet.apply (UIntW.steps w true) s op).1) RangeInclusiveSet.new

-- /repo/src/inclusive_set.rs:704-707 `empty_set_is_empty`
example : ((after (w := 32) []).map (·.iter)).toOption = some [] := by decide +kernel

-- /repo/src/inclusive_set.rs:710-714 `insert_into_empty_map`
example : ((after (w := 32) [.insert (r 0 50)]).map (·.iter)).toOption = some [(r 0 50)] := by decide +kernel

-- /repo/src/inclusive_set.rs:717-722 `remove_partially_overlapping`
example : ((after (w := 32) [.insert (r 0 50), .remove (r 25 75)]).map (·.iter)).toOption = some [(r 0 24)] := by decide +kernel

-- /repo/src/inclusive_set.rs:725-746 `gaps_between_items_floating_inside_outer_range`
example : (do let m ← after (w := 32) [.insert (r 5 6), .insert (r 2 3)]; let g ← m.gaps (r 1 8); Spec.callsE (Gaps.next (UIntW.steps 32 true)) 6 g).toOption =
    some [some (r 1 1), some (r 4 4), some (r 7 8), none, none, none] := by decide +kernel

-- /repo/src/inclusive_set.rs:749-777 `overlapping_partial_edges_complete_middle`
example : (do let m ← after (w := 32) [.insert (r 0 1), .insert (r 3 4), .insert (r 6 7)]; let g ← m.overlapping (r 1 6); pure (Spec.calls Overlapping.next 5 g)).toOption =
    some [some (r 0 1), some (r 3 4), some (r 6 7), none, none] := by decide +kernel

-- /repo/src/inclusive_set.rs:784-798 `set_debug_repr_looks_right`
example : ((after (w := 32) []).map (fun m => m.debug showNat)).toOption = some "{}".toList := by decide +kernel
example : ((after (w := 32) [.insert (r 2 5)]).map (fun m => m.debug showNat)).toOption = some "{2..=5}".toList := by decide +kernel
example : ((after (w := 32) [.insert (r 2 5), .insert (r 7 8), .insert (r 10 11)]).map (fun m => m.debug showNat)).toOption = some "{2..=5, 7..=8, 10..=11}".toList := by decide +kernel

-- /repo/src/inclusive_set.rs:627-632 `test_from_array`
example : (do let s ← after (w := 32) [.insert (r 0 100), .insert (r 200 300)]
              let s' ← RangeInclusiveSet.fromArray (UIntW.steps 32 true) [r 0 100, r 200 300]
              pure (s.eq s')).toOption = some true := by decide +kernel

-- /repo/src/inclusive_set.rs:635-641 `test_macro` (the macro expands to `collect` of the array of ranges)
example : ((RangeInclusiveSet.fromIter (UIntW.steps 32 true) []).map fun s =>
    s.eq (RangeInclusiveSet.new : RangeInclusiveSet (UIntW 32))).toOption = some true := by decide +kernel
example : ((RangeInclusiveSet.fromIter (K := UIntW 32) (UIntW.steps 32 true) [r 0 100, r 200 300, r 400 500]).map
    (·.iter)).toOption = some [r 0 100, r 200 300, r 400 500] := by decide +kernel

-- /repo/src/inclusive_set.rs:812-822 `serialization` (the items handed to the serialiser)
example : ((after (w := 32) [.insert (r 1 3), .insert (r 5 7)]).map
    fun s => s.serialize).toOption = some (some 2, [(n 1, n 3), (n 5, n 7)]) := by decide +kernel

-- /repo/src/inclusive_set.rs:828-834 `deserialization` (the items coming from the deserialiser)
example : ((deserialize (K := UIntW 32) (E := Unit) (UIntW.steps 32 true) 
    [.ok (n 1, n 3), .ok (n 5, n 7)]).map fun s => s.serialize).toOption =
    some (some 2, [(n 1, n 3), (n 5, n 7)]) := by decide +kernel

end InclusiveSet

/-! ## `/repo/src/std_ext.rs` and the tests with floating-point keys -/
namespace Floats
open Float

abbrev F64 := NotNan 11 52
abbrev F32 := NotNan 8 23
abbrev steps := NotNan.steps 11 52 true

/-- `not_nan(f64::from_bits(b))`. -/
def bits (b : Nat) (h : fIsNan (eb := 11) (mb := 52) (.ofNat _ b) = false := by decide +kernel) :
    F64 := ⟨.ofNat _ b, h⟩
/-- `not_nan_32(f32::from_bits(b))`. -/
def bits32 (b : Nat) (h : fIsNan (eb := 8) (mb := 23) (.ofNat _ b) = false := by decide +kernel) :
    F32 := ⟨.ofNat _ b, h⟩

def one : F64 := bits 0x3FF0000000000000
def two : F64 := bits 0x4000000000000000
def minusOne : F64 := bits 0xBFF0000000000000
def zero : F64 := bits 0
def minusZero : F64 := bits 0x8000000000000000
def inf : F64 := bits 0x7FF0000000000000
def negInf : F64 := bits 0xFFF0000000000000
def max : F64 := bits 0x7FEFFFFFFFFFFFFF
def min : F64 := bits 0xFFEFFFFFFFFFFFFF

/-- `assert_eq!(a.add_one(), b)` and `assert_eq!(a.sub_one(), b)`. -/
def up (a b : F64) : Bool := ((NotNan.addOne true a).map (keq · b)).toOption == some true
def down (a b : F64) : Bool := ((NotNan.subOne true a).map (keq · b)).toOption == some true
def up32 (a b : F32) : Bool := ((NotNan.addOne true a).map (keq · b)).toOption == some true

-- /repo/src/std_ext.rs:276-296 `steps_to_the_next_representable_float`
example : up one (bits 0x3FF0000000000001) ∧ down one (bits 0x3FEFFFFFFFFFFFFF) ∧
    up minusOne (bits 0xBFEFFFFFFFFFFFFF) ∧ down minusOne (bits 0xBFF0000000000001) := by
  decide +kernel

-- /repo/src/std_ext.rs:298-308 `steps_from_zero_to_the_smallest_subnormals`
example : up zero (bits 1) ∧ down zero (bits 0x8000000000000001) ∧
    up minusZero (bits 1) ∧ down minusZero (bits 0x8000000000000001) := by decide +kernel

-- /repo/src/std_ext.rs:310-323 `steps_saturate_at_the_infinities`
example : up max inf ∧ up inf inf ∧ down min negInf ∧ down negInf negInf ∧
    down inf max ∧ up negInf min := by decide +kernel

-- /repo/src/std_ext.rs:325-338 `f32_steps_the_same_way_as_f64`
example : up32 (bits32 0x3F800000) (bits32 0x3F800001) ∧ up32 (bits32 0) (bits32 1) ∧
    up32 (bits32 0x80000000) (bits32 1) ∧ up32 (bits32 0x7F7FFFFF) (bits32 0x7F800000) ∧
    up32 (bits32 0x7F800000) (bits32 0x7F800000) := by decide +kernel

-- /repo/src/inclusive_map.rs:2083-2092 `ranges_one_ulp_apart_are_coalesced`
example : (do
    let m ← RangeInclusiveMap.new.insert steps (.mk' zero one) "hello"
    let m ← m.insert steps (.mk' (← NotNan.addOne true one) two) "hello"
    let m' ← RangeInclusiveMap.fromArray steps [(.mk' zero two, "hello")]
    pure (m.eq m')).toOption = some true := by decide +kernel

-- /repo/src/inclusive_map.rs:2094-2112 `ranges_two_ulps_apart_are_not_coalesced`
example : (do
    let gap ← NotNan.addOne true one
    let m ← RangeInclusiveMap.new.insert steps (.mk' zero one) "hello"
    let m ← m.insert steps (.mk' (← NotNan.addOne true gap) two) "hello"
    let m' ← RangeInclusiveMap.fromArray steps
      [(.mk' zero one, "hello"), (.mk' (← NotNan.addOne true gap) two, "hello")]
    let g ← m.gaps (.mk' zero two)
    let gs ← drainE (RangeInclusiveMap.Gaps.next steps) 5 g
    pure (m.eq m', gs.map fun (r : RangeInclusive F64) => (r.start.bits.toNat, r.stop.bits.toNat))).toOption =
    some (true, [(0x3FF0000000000001, 0x3FF0000000000001)]) := by decide +kernel

-- /repo/src/inclusive_map.rs:2114-2135 `ranges_can_span_the_infinities`
example : (do
    let m ← RangeInclusiveMap.new.insert steps (.mk' negInf inf) "everything"
    let m ← m.insert steps (.mk' zero one) "something"
    let g ← m.gaps (.mk' negInf inf)
    let gs ← drainE (RangeInclusiveMap.Gaps.next steps) 5 g
    pure (m.iter.map (fun e : RangeInclusive F64 × String => e.2), gs.length)).toOption =
    some (["everything", "something", "everything"], 0) := by decide +kernel

-- /repo/src/inclusive_set.rs:908-914 `ranges_one_ulp_apart_are_coalesced`
example : (do
    let s ← RangeInclusiveSet.new.insert steps (.mk' zero one)
    let s ← s.insert steps (.mk' (← NotNan.addOne true one) two)
    let s' ← RangeInclusiveSet.fromArray steps [.mk' zero two]
    pure (s.eq s')).toOption = some true := by decide +kernel

-- /repo/README.md:124-126: `0.0..=1.0` and `1.0000000000000002..=2.0` leave `0.0..=2.0`
example : (do
    let m ← RangeInclusiveMap.new.insert steps (.mk' zero one) "hello"
    let m ← m.insert steps (.mk' (bits 0x3FF0000000000001) two) "hello"
    pure (m.iter.map fun e : RangeInclusive F64 × String =>
      (e.1.start.bits.toNat, e.1.stop.bits.toNat))).toOption =
    some [(0, 0x4000000000000000)] := by decide +kernel

end Floats

end Verif.Tests

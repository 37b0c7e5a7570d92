{
 "claims": [
  {
   "property": "C01",
   "status": "proved",
   "theorems": [
    "Verif.Props.C01_insert_inside",
    "Verif.Props.C01_insert_outside",
    "Verif.Props.C01_insert_outside_exact"
   ],
   "note": ""
  },
  {
   "property": "C02",
   "status": "proved",
   "theorems": [
    "Verif.Props.C02_remove_pointwise"
   ],
   "note": ""
  },
  {
   "property": "C03",
   "status": "proved",
   "theorems": [
    "Verif.Props.C03_refinement",
    "Verif.Props.C03_refinement_exact"
   ],
   "note": ""
  },
  {
   "property": "C04",
   "status": "proved",
   "theorems": [
    "Verif.Props.C04_sorted_disjoint",
    "Verif.Props.C04_starts_and_ends_strictly_increase"
   ],
   "note": ""
  },
  {
   "property": "C05",
   "status": "proved",
   "theorems": [
    "Verif.Props.C05_coalesced"
   ],
   "note": ""
  },
  {
   "property": "C06",
   "status": "proved",
   "theorems": [
    "Verif.Props.C06_canonical",
    "Verif.Props.C06_history_independent"
   ],
   "note": ""
  },
  {
   "property": "C07",
   "status": "proved",
   "theorems": [
    "Verif.Props.C07_iterators_never_panic",
    "Verif.Props.C07_insert_panics",
    "Verif.Props.C07_remove_panics",
    "Verif.Props.C07_lookups_never_panic"
   ],
   "note": ""
  },
  {
   "property": "C08",
   "status": "proved",
   "theorems": [
    "Verif.Props.C08_insert_terminates",
    "Verif.Props.C08_remove_terminates"
   ],
   "note": ""
  },
  {
   "property": "C09",
   "status": "proved",
   "theorems": [
    "Verif.Props.C09_get_key_value",
    "Verif.Props.C09_unique",
    "Verif.Props.C09_projections"
   ],
   "note": ""
  },
  {
   "property": "C10",
   "status": "proved",
   "theorems": [
    "Verif.Props.C10_gaps_exact"
   ],
   "note": ""
  },
  {
   "property": "C11",
   "status": "proved",
   "theorems": [
    "Verif.Props.C11_gaps_ordered",
    "Verif.Props.C11_gaps_maximal",
    "Verif.Props.C11_empty_outer"
   ],
   "note": ""
  },
  {
   "property": "C12",
   "status": "proved",
   "theorems": [
    "Verif.Props.C12_tiling"
   ],
   "note": ""
  },
  {
   "property": "C13",
   "status": "proved",
   "theorems": [
    "Verif.Props.C13_overlapping_exact",
    "Verif.Props.C13_overlapping_shares_key",
    "Verif.Props.C13_overlaps"
   ],
   "note": ""
  },
  {
   "property": "C14",
   "status": "proved",
   "theorems": [
    "Verif.Props.C14_overlapping_double_ended_inclusive",
    "Verif.Props.C14_overlapping_double_ended"
   ],
   "note": ""
  },
  {
   "property": "C15",
   "status": "proved",
   "theorems": [
    "Verif.Props.C15_gaps_fused_inclusive",
    "Verif.Props.C15_gaps_fused"
   ],
   "note": ""
  },
  {
   "property": "C16",
   "status": "proved",
   "theorems": [
    "Verif.Props.C16_iter_double_ended",
    "Verif.Props.C16_size_hint",
    "Verif.Props.C16_len_is_empty",
    "Verif.Props.C16_first_last"
   ],
   "note": ""
  },
  {
   "property": "C17",
   "status": "proved",
   "theorems": [
    "Verif.Props.C17_hash_eq",
    "Verif.Props.C17_eq_equivalence",
    "Verif.Props.Inclusive.C17_hash_eq",
    "Verif.Props.Inclusive.C17_eq_equivalence"
   ],
   "note": ""
  },
  {
   "property": "C18",
   "status": "proved",
   "theorems": [
    "Verif.Props.C18_cmp_total",
    "Verif.Props.C18_cmp_eq_iff",
    "Verif.Props.C18_partial_cmp",
    "Verif.Props.Inclusive.C18_cmp_total",
    "Verif.Props.Inclusive.C18_cmp_eq_iff",
    "Verif.Props.Inclusive.C18_partial_cmp"
   ],
   "note": ""
  },
  {
   "property": "C19",
   "status": "proved",
   "theorems": [
    "Verif.Props.C19_extend_panics_iff",
    "Verif.Props.C19_extend_last_wins",
    "Verif.Props.C19_from_iter_from_array",
    "Verif.Props.Inclusive.C19_extend_panics_iff",
    "Verif.Props.Inclusive.C19_extend_last_wins",
    "Verif.Props.Inclusive.C19_from_iter_from_array"
   ],
   "note": ""
  },
  {
   "property": "C20",
   "status": "proved",
   "theorems": [
    "Verif.Props.C20_round_trip",
    "Verif.Props.C20_deserialize_any",
    "Verif.Props.Inclusive.C20_round_trip",
    "Verif.Props.Inclusive.C20_deserialize_any"
   ],
   "note": ""
  },
  {
   "property": "C21",
   "status": "proved",
   "theorems": [
    "Verif.Props.C21_insert_hides",
    "Verif.Props.C21_insert_idempotent",
    "Verif.Props.C21_insert_insert_comm",
    "Verif.Props.C21_insert_remove_comm",
    "Verif.Props.C21_remove_remove_comm",
    "Verif.Props.C21_remove_after_insert",
    "Verif.Props.C21_insert_after_remove",
    "Verif.Props.C21_insert_stored",
    "Verif.Props.C21_remove_uncovered"
   ],
   "note": ""
  },
  {
   "property": "C22",
   "status": "proved",
   "theorems": [
    "Verif.Props.C22_insert_growth",
    "Verif.Props.C22_remove_growth",
    "Verif.Props.C22_history_growth",
    "Verif.Props.Inclusive.C22_insert_growth",
    "Verif.Props.Inclusive.C22_remove_growth",
    "Verif.Props.Inclusive.C22_history_growth"
   ],
   "note": ""
  },
  {
   "property": "C23",
   "status": "proved",
   "theorems": [
    "Verif.Props.C23_insert_inside",
    "Verif.Props.C23_insert_outside",
    "Verif.Props.C23_insert_outside_exact"
   ],
   "note": ""
  },
  {
   "property": "C24",
   "status": "proved",
   "theorems": [
    "Verif.Props.C24_remove_pointwise"
   ],
   "note": ""
  },
  {
   "property": "C25",
   "status": "proved",
   "theorems": [
    "Verif.Props.C25_refinement",
    "Verif.Props.C25_refinement_exact"
   ],
   "note": ""
  },
  {
   "property": "C26",
   "status": "proved",
   "theorems": [
    "Verif.Props.C26_sorted_disjoint",
    "Verif.Props.C26_coalesced",
    "Verif.Props.C26_coalesced_addOne",
    "Verif.Props.C26_not_exhausted"
   ],
   "note": ""
  },
  {
   "property": "C27",
   "status": "proved",
   "theorems": [
    "Verif.Props.C27_canonical",
    "Verif.Props.C27_history_independent",
    "Verif.Props.C27_reachable_iff"
   ],
   "note": ""
  },
  {
   "property": "C28",
   "status": "proved",
   "theorems": [
    "Verif.Props.C28_iterators_never_panic",
    "Verif.Props.C28_extremes_irrelevant_gaps",
    "Verif.Props.C28_insert_panics",
    "Verif.Props.C28_remove_panics",
    "Verif.Props.C28_lookups_never_panic",
    "Verif.Props.C28_extremes_irrelevant"
   ],
   "note": ""
  },
  {
   "property": "C29",
   "status": "proved",
   "theorems": [
    "Verif.Props.C29_insert_terminates",
    "Verif.Props.C29_remove_terminates"
   ],
   "note": ""
  },
  {
   "property": "C30",
   "status": "proved",
   "theorems": [
    "Verif.Props.C30_get_key_value",
    "Verif.Props.C30_unique",
    "Verif.Props.C30_projections"
   ],
   "note": ""
  },
  {
   "property": "C31",
   "status": "proved",
   "theorems": [
    "Verif.Props.C31_gaps_exact",
    "Verif.Props.C31_gaps_exact_any",
    "Verif.Props.C31_gaps_ordered",
    "Verif.Props.C31_gaps_maximal",
    "Verif.Props.C31_inverted_outer"
   ],
   "note": ""
  },
  {
   "property": "C32",
   "status": "proved",
   "theorems": [
    "Verif.Props.C32_overlapping_exact",
    "Verif.Props.C32_overlapping_shares_key",
    "Verif.Props.C32_overlaps"
   ],
   "note": ""
  },
  {
   "property": "C33",
   "status": "proved",
   "theorems": [
    "Verif.Props.C33_unsigned_value",
    "Verif.Props.C33_unsigned_lawful",
    "Verif.Props.C33_unsigned_extremes",
    "Verif.Props.C33_signed_value",
    "Verif.Props.C33_signed_lawful",
    "Verif.Props.C33_signed_extremes"
   ],
   "note": ""
  },
  {
   "property": "C34",
   "status": "proved",
   "theorems": [
    "Verif.Props.C34_lawful",
    "Verif.Props.C34_never_panics",
    "Verif.Props.C34_saturates",
    "Verif.Props.C34_extremes",
    "Verif.Props.C34_inverse",
    "Verif.Props.C34_zero",
    "Verif.Props.C34_map_refinement"
   ],
   "note": ""
  },
  {
   "property": "C35",
   "status": "proved",
   "theorems": [
    "Verif.Props.C35_insert",
    "Verif.Props.C35_remove",
    "Verif.Props.C35_refinement",
    "Verif.Props.C35_panics",
    "Verif.Props.C35_get",
    "Verif.Props.C35_get_maximal",
    "Verif.Props.C35_reachable_iff",
    "Verif.Props.C35_eq_iff"
   ],
   "note": ""
  },
  {
   "property": "C36",
   "status": "proved",
   "theorems": [
    "Verif.Props.Inclusive.C36_insert",
    "Verif.Props.Inclusive.C36_remove",
    "Verif.Props.Inclusive.C36_refinement",
    "Verif.Props.Inclusive.C36_panics",
    "Verif.Props.Inclusive.C36_get",
    "Verif.Props.Inclusive.C36_get_maximal",
    "Verif.Props.Inclusive.C36_reachable_iff",
    "Verif.Props.Inclusive.C36_eq_iff"
   ],
   "note": ""
  },
  {
   "property": "C37",
   "status": "proved",
   "theorems": [
    "Verif.Props.Inclusive.C37_union",
    "Verif.Props.C37_union"
   ],
   "note": ""
  },
  {
   "property": "C38",
   "status": "proved",
   "theorems": [
    "Verif.Props.Inclusive.C38_intersection",
    "Verif.Props.C38_intersection"
   ],
   "note": ""
  },
  {
   "property": "C39",
   "status": "proved",
   "theorems": [
    "Verif.Props.Inclusive.C39_bitor",
    "Verif.Props.Inclusive.C39_bitand",
    "Verif.Props.Inclusive.C39_or_laws",
    "Verif.Props.Inclusive.C39_and_laws",
    "Verif.Props.Inclusive.C39_absorption",
    "Verif.Props.Inclusive.C39_distributivity",
    "Verif.Props.C39_bitor",
    "Verif.Props.C39_bitand",
    "Verif.Props.C39_or_laws",
    "Verif.Props.C39_and_laws",
    "Verif.Props.C39_absorption",
    "Verif.Props.C39_distributivity"
   ],
   "note": ""
  },
  {
   "property": "C40",
   "status": "proved",
   "theorems": [
    "Verif.Props.C40_range_map",
    "Verif.Props.C40_range_inclusive_map",
    "Verif.Props.C40_ieee",
    "Verif.Props.C40_float_range_map",
    "Verif.Props.C40_float_range_inclusive_map",
    "Verif.Props.C40_eq_self"
   ],
   "note": ""
  },
  {
   "property": "C41",
   "status": "proved",
   "theorems": [
    "Verif.Props.Inclusive.C41_get_key_value_any",
    "Verif.Props.Inclusive.C41_end_key_lost",
    "Verif.Props.Inclusive.C41_eq_disagrees_with_cmp",
    "Verif.Props.Inclusive.C41_no_exhausted_stored"
   ],
   "note": ""
  },
  {
   "property": "C42",
   "status": "proved",
   "theorems": [
    "Verif.Props.C42_insert_reachable",
    "Verif.Props.C42_remove_reachable",
    "Verif.Props.C42_insert_outcome",
    "Verif.Props.C42_remove_outcome",
    "Verif.Props.C42_insert_values",
    "Verif.Props.C42_no_panic",
    "Verif.Props.C42_history",
    "Verif.Props.Inclusive.C42_insert_reachable",
    "Verif.Props.Inclusive.C42_remove_reachable",
    "Verif.Props.Inclusive.C42_reachable_any",
    "Verif.Props.Inclusive.C42_insert_outcome",
    "Verif.Props.Inclusive.C42_remove_outcome",
    "Verif.Props.Inclusive.C42_insert_values",
    "Verif.Props.Inclusive.C42_no_panic",
    "Verif.Props.Inclusive.C42_history"
   ],
   "note": ""
  },
  {
   "property": "C43",
   "status": "proved",
   "theorems": [
    "Verif.Props.C43_inclusive",
    "Verif.Props.C43_inclusive_exact",
    "Verif.Props.C43_from_inclusive",
    "Verif.Props.C43_half_open_exact",
    "Verif.Props.C43_from_half_open",
    "Verif.Props.C43_from_inclusive_eq"
   ],
   "note": ""
  },
  {
   "property": "C44",
   "status": "proved",
   "theorems": [
    "Verif.Props.C44_entries_correspond",
    "Verif.Props.C44_entries_equal",
    "Verif.Props.C44_lookups_agree"
   ],
   "note": ""
  },
  {
   "property": "C45",
   "status": "proved",
   "theorems": [
    "Verif.Props.C45_tiling"
   ],
   "note": ""
  },
  {
   "property": "C46",
   "status": "proved",
   "theorems": [
    "Verif.Props.C46_iter_double_ended",
    "Verif.Props.C46_size_hint",
    "Verif.Props.C46_len_is_empty",
    "Verif.Props.C46_first_last"
   ],
   "note": ""
  },
  {
   "property": "C47",
   "status": "proved",
   "theorems": [
    "Verif.Props.Inclusive.C47_insert_hides",
    "Verif.Props.Inclusive.C47_insert_idempotent",
    "Verif.Props.Inclusive.C47_insert_insert_comm",
    "Verif.Props.Inclusive.C47_insert_remove_comm",
    "Verif.Props.Inclusive.C47_remove_remove_comm",
    "Verif.Props.Inclusive.C47_remove_after_insert",
    "Verif.Props.Inclusive.C47_insert_after_remove",
    "Verif.Props.Inclusive.C47_insert_stored",
    "Verif.Props.Inclusive.C47_remove_uncovered"
   ],
   "note": ""
  },
  {
   "property": "C48",
   "status": "proved",
   "theorems": [
    "Verif.Props.Inclusive.C48_iter",
    "Verif.Props.Inclusive.C48_overlapping",
    "Verif.Props.Inclusive.C48_gaps",
    "Verif.Props.C48_iter",
    "Verif.Props.C48_overlapping",
    "Verif.Props.C48_gaps"
   ],
   "note": ""
  },
  {
   "property": "C49",
   "status": "proved",
   "theorems": [
    "Verif.Props.Inclusive.C49_from_iter",
    "Verif.Props.Inclusive.C49_serde_round_trip",
    "Verif.Props.Inclusive.C49_deserialize_any",
    "Verif.Props.C49_from_iter",
    "Verif.Props.C49_serde_round_trip",
    "Verif.Props.C49_deserialize_any"
   ],
   "note": ""
  },
  {
   "property": "C50",
   "status": "proved",
   "theorems": [
    "Verif.Props.Inclusive.C50_comparison",
    "Verif.Props.Inclusive.C50_cmp_eq_iff",
    "Verif.Props.C50_comparison"
   ],
   "note": ""
  },
  {
   "property": "C51",
   "status": "proved",
   "theorems": [
    "Verif.Props.C51_insert_entries",
    "Verif.Props.C51_remove_entries",
    "Verif.Props.C51_entries_determine",
    "Verif.Props.C51_insert_unequal_verbatim",
    "Verif.Props.C51_insert_keeps_untouched",
    "Verif.Props.C51_insert_provenance",
    "Verif.Props.Inclusive.C51_insert_entries",
    "Verif.Props.Inclusive.C51_remove_entries",
    "Verif.Props.Inclusive.C51_entries_determine",
    "Verif.Props.Inclusive.C51_insert_unequal_verbatim",
    "Verif.Props.Inclusive.C51_insert_keeps_untouched"
   ],
   "note": ""
  },
  {
   "property": "C52",
   "status": "proved",
   "theorems": [
    "Verif.Props.C52_get_key_value",
    "Verif.Props.C52_overlapping",
    "Verif.Props.C52_insert",
    "Verif.Props.C52_remove",
    "Verif.Props.C52_insert_remove_plain",
    "Verif.Props.C52_history",
    "Verif.Props.Inclusive.C52_get_key_value",
    "Verif.Props.Inclusive.C52_overlapping",
    "Verif.Props.Inclusive.C52_insert",
    "Verif.Props.Inclusive.C52_remove",
    "Verif.Props.Inclusive.C52_insert_remove_plain",
    "Verif.Props.Inclusive.C52_history"
   ],
   "note": ""
  },
  {
   "property": "C53",
   "status": "proved",
   "theorems": [
    "Verif.Props.C53_partial_cmp",
    "Verif.Props.C53_cmp",
    "Verif.Props.C53_set_cmp",
    "Verif.Props.Inclusive.C53_partial_cmp",
    "Verif.Props.Inclusive.C53_cmp",
    "Verif.Props.Inclusive.C53_set_cmp"
   ],
   "note": ""
  },
  {
   "property": "C54",
   "status": "proved",
   "theorems": [
    "Verif.Props.C54_arbitrary",
    "Verif.Props.C54_arbitrary_onto",
    "Verif.Props.C54_set_arbitrary",
    "Verif.Props.C54_set_arbitrary_onto",
    "Verif.Props.Inclusive.C54_arbitrary",
    "Verif.Props.Inclusive.C54_arbitrary_onto",
    "Verif.Props.Inclusive.C54_set_arbitrary",
    "Verif.Props.Inclusive.C54_set_arbitrary_onto"
   ],
   "note": ""
  },
  {
   "property": "C55",
   "status": "proved",
   "theorems": [
    "Verif.Props.C55_fewest",
    "Verif.Props.C55_set_fewest",
    "Verif.Props.Inclusive.C55_fewest",
    "Verif.Props.Inclusive.C55_set_fewest"
   ],
   "note": ""
  },
  {
   "property": "C56",
   "status": "proved",
   "theorems": [
    "Verif.Props.C56_complement",
    "Verif.Props.C56_double",
    "Verif.Props.C56_de_morgan",
    "Verif.Props.C56_remove_all",
    "Verif.Props.Inclusive.C56_complement",
    "Verif.Props.Inclusive.C56_double",
    "Verif.Props.Inclusive.C56_de_morgan",
    "Verif.Props.Inclusive.C56_remove_all"
   ],
   "note": ""
  },
  {
   "property": "C57",
   "status": "proved",
   "theorems": [
    "Verif.Props.C57_extend_order",
    "Verif.Props.C57_collect_entries",
    "Verif.Props.C57_set_extend_order",
    "Verif.Props.Inclusive.C57_extend_order",
    "Verif.Props.Inclusive.C57_collect_entries",
    "Verif.Props.Inclusive.C57_set_extend_order"
   ],
   "note": ""
  },
  {
   "property": "C58",
   "status": "proved",
   "theorems": [
    "Verif.Props.C58_map_debug",
    "Verif.Props.C58_set_debug",
    "Verif.Props.C58_map_debug_eq",
    "Verif.Props.C58_set_debug_eq",
    "Verif.Props.Inclusive.C58_map_debug",
    "Verif.Props.Inclusive.C58_set_debug",
    "Verif.Props.Inclusive.C58_map_debug_eq",
    "Verif.Props.Inclusive.C58_set_debug_eq"
   ],
   "note": ""
  },
  {
   "property": "C59",
   "status": "proved",
   "theorems": [
    "Verif.Props.C59_insert_cost",
    "Verif.Props.C59_remove_cost",
    "Verif.Props.C59_history_cost",
    "Verif.Props.Inclusive.C59_insert_cost",
    "Verif.Props.Inclusive.C59_remove_cost",
    "Verif.Props.Inclusive.C59_history_cost"
   ],
   "note": ""
  },
  {
   "property": "C60",
   "status": "proved",
   "theorems": [
    "Verif.Props.C60_fuzz_coalesce",
    "Verif.Props.C60_fuzz_gaps",
    "Verif.Props.C60_first_last",
    "Verif.Props.C60_union_overlaps",
    "Verif.Props.C60_intersection_overlaps",
    "Verif.Props.Inclusive.C60_fuzz_coalesce",
    "Verif.Props.Inclusive.C60_fuzz_gaps",
    "Verif.Props.Inclusive.C60_first_last",
    "Verif.Props.Inclusive.C60_union_overlaps",
    "Verif.Props.Inclusive.C60_intersection_overlaps"
   ],
   "note": ""
  },
  {
   "property": "C61",
   "status": "proved",
   "theorems": [
    "Verif.Props.C61_history",
    "Verif.Props.C61_lookup",
    "Verif.Props.C61_overlapping",
    "Verif.Props.C61_gaps",
    "Verif.Props.C61_compare",
    "Verif.Props.C61_sets",
    "Verif.Props.Inclusive.C61_history",
    "Verif.Props.Inclusive.C61_lookup",
    "Verif.Props.Inclusive.C61_overlapping",
    "Verif.Props.Inclusive.C61_gaps",
    "Verif.Props.Inclusive.C61_compare",
    "Verif.Props.Inclusive.C61_sets",
    "Verif.Props.Inclusive.C61_widen"
   ],
   "note": ""
  },
  {
   "property": "C62",
   "status": "proved",
   "theorems": [
    "Verif.Props.C62_hash_prefix_free",
    "Verif.Props.C62_hash_iff",
    "Verif.Props.C62_hash_prefix_free_set",
    "Verif.Props.Inclusive.C62_hash_prefix_free",
    "Verif.Props.Inclusive.C62_hash_iff",
    "Verif.Props.Inclusive.C62_hash_prefix_free_set"
   ],
   "note": ""
  },
  {
   "property": "C63",
   "status": "proved",
   "theorems": [
    "Verif.Props.C63_unwrap",
    "Verif.Props.C63_union",
    "Verif.Props.C63_intersection",
    "Verif.Props.C63_lists",
    "Verif.Props.Inclusive.C63_union",
    "Verif.Props.Inclusive.C63_intersection",
    "Verif.Props.Inclusive.C63_lists"
   ],
   "note": ""
  },
  {
   "property": "C64",
   "status": "proved",
   "theorems": [
    "Verif.Props.C64_panics",
    "Verif.Props.C64_terminates",
    "Verif.Props.C64_sorted_disjoint",
    "Verif.Props.C64_insert",
    "Verif.Props.C64_refinement",
    "Verif.Props.C64_contains_key",
    "Verif.Props.C64_chain",
    "Verif.Props.C64_obtainable",
    "Verif.Props.C64_tiling",
    "Verif.Props.C64_queries",
    "Verif.Props.Inclusive.C64_panics",
    "Verif.Props.Inclusive.C64_terminates",
    "Verif.Props.Inclusive.C64_sorted_disjoint",
    "Verif.Props.Inclusive.C64_insert",
    "Verif.Props.Inclusive.C64_refinement",
    "Verif.Props.Inclusive.C64_contains_key",
    "Verif.Props.Inclusive.C64_obtainable",
    "Verif.Props.Inclusive.C64_obtainable_any",
    "Verif.Props.Inclusive.C64_tiling",
    "Verif.Props.Inclusive.C64_queries"
   ],
   "note": ""
  },
  {
   "property": "C65",
   "status": "proved",
   "theorems": [
    "Verif.Props.C65_identical",
    "Verif.Props.C65_insert",
    "Verif.Props.C65_remove",
    "Verif.Props.C65_history",
    "Verif.Props.C65_history_eq",
    "Verif.Props.C65_history_exact",
    "Verif.Props.C65_get",
    "Verif.Props.C65_overlapping",
    "Verif.Props.C65_gaps",
    "Verif.Props.C65_clone",
    "Verif.Props.C65_clone_eq",
    "Verif.Props.C65_union",
    "Verif.Props.C65_intersection",
    "Verif.Props.Inclusive.C65_identical",
    "Verif.Props.Inclusive.C65_insert",
    "Verif.Props.Inclusive.C65_remove",
    "Verif.Props.Inclusive.C65_history",
    "Verif.Props.Inclusive.C65_history_eq",
    "Verif.Props.Inclusive.C65_history_exact",
    "Verif.Props.Inclusive.C65_get",
    "Verif.Props.Inclusive.C65_overlapping",
    "Verif.Props.Inclusive.C65_gaps",
    "Verif.Props.Inclusive.C65_clone",
    "Verif.Props.Inclusive.C65_clone_eq",
    "Verif.Props.Inclusive.C65_union",
    "Verif.Props.Inclusive.C65_intersection",
    "Verif.Props.C65_identical_operations",
    "Verif.Props.Inclusive.C65_identical_operations"
   ],
   "note": ""
  },
  {
   "property": "C66",
   "status": "proved",
   "theorems": [
    "Verif.Props.Inclusive.C66_add_one_needed",
    "Verif.Props.Inclusive.C66_sub_one_needed",
    "Verif.Props.Inclusive.C66_laws_necessary_and_sufficient",
    "Verif.Props.Inclusive.C66_set_laws_necessary_and_sufficient",
    "Verif.Props.Inclusive.C66_skipping_hangs",
    "Verif.Props.Inclusive.C66_standing_still_hangs"
   ],
   "note": ""
  },
  {
   "property": "C67",
   "status": "proved",
   "theorems": [
    "Verif.Props.C67_negation",
    "Verif.Props.C67_panics",
    "Verif.Props.C67_terminates",
    "Verif.Props.C67_sorted_disjoint",
    "Verif.Props.C67_refinement",
    "Verif.Props.C67_neither_hangs",
    "Verif.Props.C67_returns_iff",
    "Verif.Props.C67_both_stay_apart",
    "Verif.Props.Inclusive.C67_negation",
    "Verif.Props.Inclusive.C67_panics",
    "Verif.Props.Inclusive.C67_terminates",
    "Verif.Props.Inclusive.C67_sorted_disjoint",
    "Verif.Props.Inclusive.C67_refinement",
    "Verif.Props.Inclusive.C67_neither_hangs",
    "Verif.Props.Inclusive.C67_both_stay_apart",
    "Verif.Props.Inclusive.C67_returns_iff"
   ],
   "note": ""
  },
  {
   "property": "C68",
   "status": "proved",
   "theorems": [
    "Verif.Props.C68_insert_clones",
    "Verif.Props.C68_remove_clones",
    "Verif.Props.C68_invalid",
    "Verif.Props.C68_history_clones",
    "Verif.Props.C68_query_clones",
    "Verif.Props.C68_gaps_next_clones",
    "Verif.Props.C68_clone_clones",
    "Verif.Props.C68_operations_clones",
    "Verif.Props.Inclusive.C68_insert_clones",
    "Verif.Props.Inclusive.C68_remove_clones",
    "Verif.Props.Inclusive.C68_invalid",
    "Verif.Props.Inclusive.C68_history_clones",
    "Verif.Props.Inclusive.C68_query_clones",
    "Verif.Props.Inclusive.C68_gaps_next_clones",
    "Verif.Props.Inclusive.C68_clone_clones",
    "Verif.Props.Inclusive.C68_operations_clones"
   ],
   "note": ""
  },
  {
   "property": "C69",
   "status": "proved",
   "theorems": [
    "Verif.Props.Inclusive.C69_reachable",
    "Verif.Props.Inclusive.C69_insert",
    "Verif.Props.Inclusive.C69_remove",
    "Verif.Props.Inclusive.C69_apply",
    "Verif.Props.Inclusive.C69_run",
    "Verif.Props.Inclusive.C69_get_key_value",
    "Verif.Props.Inclusive.C69_first_last",
    "Verif.Props.Inclusive.C69_overlapping",
    "Verif.Props.Inclusive.C69_gaps_iff",
    "Verif.Props.Inclusive.C69_gaps"
   ],
   "note": ""
  },
  {
   "property": "C70",
   "status": "proved",
   "theorems": [
    "Verif.Props.C70_counts_exact",
    "Verif.Props.Inclusive.C70_counts_exact",
    "Verif.Props.C70_counted_is_real",
    "Verif.Props.C70_overlapping_next",
    "Verif.Props.C70_overlaps",
    "Verif.Props.C70_overlapping",
    "Verif.Props.C70_overlapping_back",
    "Verif.Props.C70_gaps",
    "Verif.Props.Inclusive.C70_counted_is_real",
    "Verif.Props.Inclusive.C70_overlapping_next",
    "Verif.Props.Inclusive.C70_overlaps",
    "Verif.Props.Inclusive.C70_overlapping",
    "Verif.Props.Inclusive.C70_overlapping_back",
    "Verif.Props.Inclusive.C70_gaps"
   ],
   "note": ""
  },
  {
   "property": "C71",
   "status": "proved",
   "theorems": [
    "Verif.Props.C71_each_at_most_once",
    "Verif.Props.C71_ends",
    "Verif.Props.C71_items",
    "Verif.Props.C71_consistent",
    "Verif.Props.Inclusive.C71_each_at_most_once",
    "Verif.Props.Inclusive.C71_ends",
    "Verif.Props.Inclusive.C71_items",
    "Verif.Props.Inclusive.C71_consistent",
    "Verif.Props.C71_asks",
    "Verif.Props.Inclusive.C71_asks"
   ],
   "note": ""
  },
  {
   "property": "C72",
   "status": "proved",
   "theorems": [
    "Verif.Props.C72_overlapping",
    "Verif.Props.C72_overlapping_loses_one",
    "Verif.Props.C72_gaps_ordered",
    "Verif.Props.C72_gaps_clone",
    "Verif.Props.C72_gaps_skips_entry",
    "Verif.Props.Inclusive.C72_overlapping",
    "Verif.Props.Inclusive.C72_overlapping_loses_one",
    "Verif.Props.Inclusive.C72_gaps_ordered",
    "Verif.Props.Inclusive.C72_gaps_clone",
    "Verif.Props.Inclusive.C72_gaps_skips_entry",
    "Verif.Props.C72_next_not_interrupted",
    "Verif.Props.C72_next_interrupted",
    "Verif.Props.C72_nextBack_not_interrupted",
    "Verif.Props.C72_gaps_not_interrupted",
    "Verif.Props.Inclusive.C72_next_not_interrupted",
    "Verif.Props.Inclusive.C72_next_interrupted",
    "Verif.Props.Inclusive.C72_nextBack_not_interrupted",
    "Verif.Props.Inclusive.C72_gaps_not_interrupted"
   ],
   "note": ""
  },
  {
   "property": "C73",
   "status": "proved",
   "theorems": [
    "Verif.Props.C73_not_interrupted",
    "Verif.Props.C73_intersection",
    "Verif.Props.C73_union",
    "Verif.Props.Inclusive.C73_intersection",
    "Verif.Props.Inclusive.C73_union",
    "Verif.Props.C73_union_interrupted",
    "Verif.Props.C73_intersection_interrupted"
   ],
   "note": ""
  },
  {
   "property": "C74",
   "status": "proved",
   "theorems": [
    "Verif.Props.C74_counts_exact",
    "Verif.Props.Inclusive.C74_counts_exact",
    "Verif.Props.C74_counted_is_real",
    "Verif.Props.C74_union",
    "Verif.Props.C74_intersection",
    "Verif.Props.C74_done",
    "Verif.Props.Inclusive.C74_union",
    "Verif.Props.Inclusive.C74_intersection",
    "Verif.Props.Inclusive.C74_done"
   ],
   "note": ""
  },
  {
   "property": "C75",
   "status": "proved",
   "theorems": [
    "Verif.Props.C75_extend_reachable",
    "Verif.Props.C75_extend_outcome",
    "Verif.Props.C75_no_stale_values",
    "Verif.Props.C75_retry_insert",
    "Verif.Props.C75_retry_remove",
    "Verif.Props.C75_set_insert",
    "Verif.Props.C75_set_remove",
    "Verif.Props.C75_set_extend",
    "Verif.Props.Inclusive.C75_extend_reachable",
    "Verif.Props.Inclusive.C75_extend_outcome",
    "Verif.Props.Inclusive.C75_no_stale_values",
    "Verif.Props.Inclusive.C75_retry_insert",
    "Verif.Props.Inclusive.C75_retry_remove",
    "Verif.Props.Inclusive.C75_set_insert",
    "Verif.Props.Inclusive.C75_set_remove",
    "Verif.Props.Inclusive.C75_set_extend"
   ],
   "note": ""
  },
  {
   "property": "C76",
   "status": "proved",
   "theorems": [
    "Verif.Props.C76_serialize",
    "Verif.Props.C76_serialize_error",
    "Verif.Props.C76_deserialize",
    "Verif.Props.C76_round_trip",
    "Verif.Props.C76_set_serialize",
    "Verif.Props.C76_set_serialize_error",
    "Verif.Props.C76_set_deserialize",
    "Verif.Props.C76_set_round_trip",
    "Verif.Props.Inclusive.C76_serialize",
    "Verif.Props.Inclusive.C76_serialize_error",
    "Verif.Props.Inclusive.C76_deserialize",
    "Verif.Props.Inclusive.C76_round_trip",
    "Verif.Props.Inclusive.C76_set_serialize",
    "Verif.Props.Inclusive.C76_set_serialize_error",
    "Verif.Props.Inclusive.C76_set_deserialize",
    "Verif.Props.Inclusive.C76_set_round_trip"
   ],
   "note": ""
  },
  {
   "property": "C77",
   "status": "proved",
   "theorems": [
    "Verif.Props.C77_gaps_restrict",
    "Verif.Props.C77_overlapping_restrict",
    "Verif.Props.C77_overlapping_split",
    "Verif.Props.C77_gaps_split",
    "Verif.Props.Inclusive.C77_overlapping_restrict",
    "Verif.Props.Inclusive.C77_overlapping_split",
    "Verif.Props.Inclusive.C77_gaps_restrict",
    "Verif.Props.Inclusive.C77_gaps_split"
   ],
   "note": ""
  },
  {
   "property": "C78",
   "status": "proved",
   "theorems": [
    "Verif.Props.C78_fill_gaps",
    "Verif.Props.C78_underlay",
    "Verif.Props.C78_update",
    "Verif.Props.C78_drop_overlapping",
    "Verif.Props.Inclusive.C78_fill_gaps",
    "Verif.Props.Inclusive.C78_underlay",
    "Verif.Props.Inclusive.C78_update",
    "Verif.Props.Inclusive.C78_drop_overlapping"
   ],
   "note": ""
  },
  {
   "property": "C79",
   "status": "proved",
   "theorems": [
    "Verif.Props.Inclusive.C79_map_strategy",
    "Verif.Props.Inclusive.C79_set_strategy",
    "Verif.Props.Inclusive.C79_strategies_reach_everything",
    "Verif.Props.Inclusive.C79_map_len",
    "Verif.Props.Inclusive.C79_map_iter_reversible",
    "Verif.Props.Inclusive.C79_map_overlapping_reversible",
    "Verif.Props.Inclusive.C79_map_arbitrary",
    "Verif.Props.Inclusive.C79_map_hash",
    "Verif.Props.Inclusive.C79_map_ord",
    "Verif.Props.Inclusive.C79_set_len",
    "Verif.Props.Inclusive.C79_set_iter_reversible",
    "Verif.Props.Inclusive.C79_set_overlapping_reversible",
    "Verif.Props.Inclusive.C79_set_first_last",
    "Verif.Props.Inclusive.C79_set_arbitrary",
    "Verif.Props.Inclusive.C79_set_hash",
    "Verif.Props.Inclusive.C79_set_ord",
    "Verif.Props.Inclusive.C79_union_contains",
    "Verif.Props.Inclusive.C79_intersection_contains",
    "Verif.Props.Inclusive.C79_hash_meaning",
    "Verif.Props.Inclusive.C79_ord_meaning",
    "Verif.Props.Inclusive.C79_set_item_eq",
    "Verif.Props.C79_map_strategy",
    "Verif.Props.C79_set_strategy",
    "Verif.Props.C79_strategies_reach_everything",
    "Verif.Props.C79_map_len",
    "Verif.Props.C79_map_iter_reversible",
    "Verif.Props.C79_map_overlapping_reversible",
    "Verif.Props.C79_map_arbitrary",
    "Verif.Props.C79_map_hash",
    "Verif.Props.C79_map_ord",
    "Verif.Props.C79_set_len",
    "Verif.Props.C79_set_iter_reversible",
    "Verif.Props.C79_set_overlapping_reversible",
    "Verif.Props.C79_set_first_last",
    "Verif.Props.C79_set_arbitrary",
    "Verif.Props.C79_set_hash",
    "Verif.Props.C79_set_ord",
    "Verif.Props.C79_union_contains",
    "Verif.Props.C79_intersection_contains",
    "Verif.Props.C79_hash_meaning",
    "Verif.Props.C79_ord_meaning",
    "Verif.Props.C79_set_item_eq",
    "Verif.Props.C79_steps",
    "Verif.Props.C79_steps_inputs"
   ],
   "note": ""
  },
  {
   "property": "C80",
   "status": "proved",
   "theorems": [
    "Verif.Props.C80_stored_from_history",
    "Verif.Props.Inclusive.C80_stored_from_history",
    "Verif.Props.C80_set_stored_from_history",
    "Verif.Props.C80_union_ends",
    "Verif.Props.C80_intersection_ends",
    "Verif.Props.C80_bitor_ends",
    "Verif.Props.C80_bitand_ends",
    "Verif.Props.C80_gaps_ends",
    "Verif.Props.Inclusive.C80_gaps_ends",
    "Verif.Props.Inclusive.C80_set_stored_from_history",
    "Verif.Props.Inclusive.C80_union_ends",
    "Verif.Props.Inclusive.C80_intersection_ends",
    "Verif.Props.Inclusive.C80_bitor_ends",
    "Verif.Props.Inclusive.C80_bitand_ends"
   ],
   "note": ""
  },
  {
   "property": "C81",
   "status": "proved",
   "theorems": [
    "Verif.Props.C81_division_unique",
    "Verif.Props.C81_union_division",
    "Verif.Props.C81_intersection_pieces",
    "Verif.Props.Inclusive.C81_division_unique",
    "Verif.Props.Inclusive.C81_union_division",
    "Verif.Props.Inclusive.C81_intersection_pieces"
   ],
   "note": ""
  },
  {
   "property": "C82",
   "status": "proved",
   "theorems": [
    "Verif.Props.Inclusive.C82_overlay",
    "Verif.Props.Inclusive.C82_paste",
    "Verif.Props.Inclusive.C82_overlay_assoc",
    "Verif.Props.Inclusive.C82_overlay_empty",
    "Verif.Props.Inclusive.C82_overlay_again",
    "Verif.Props.Inclusive.C82_overlay_comm",
    "Verif.Props.Inclusive.C82_undo_insert",
    "Verif.Props.Inclusive.C82_undo_remove",
    "Verif.Props.C82_overlay",
    "Verif.Props.C82_paste",
    "Verif.Props.C82_overlay_assoc",
    "Verif.Props.C82_overlay_empty",
    "Verif.Props.C82_overlay_again",
    "Verif.Props.C82_overlay_comm",
    "Verif.Props.C82_undo_insert",
    "Verif.Props.C82_undo_remove"
   ],
   "note": ""
  },
  {
   "property": "C83",
   "status": "proved",
   "theorems": [
    "Verif.Props.Inclusive.C83_difference",
    "Verif.Props.Inclusive.C83_symmetric_difference",
    "Verif.Props.Inclusive.C83_subset",
    "Verif.Props.Inclusive.C83_subset_ops",
    "Verif.Props.Inclusive.C83_subset_antisymm",
    "Verif.Props.Inclusive.C83_common_key",
    "Verif.Props.Inclusive.C83_fill_gaps",
    "Verif.Props.C83_difference",
    "Verif.Props.C83_symmetric_difference",
    "Verif.Props.C83_subset",
    "Verif.Props.C83_subset_ops",
    "Verif.Props.C83_subset_antisymm",
    "Verif.Props.C83_common_key",
    "Verif.Props.C83_fill_gaps"
   ],
   "note": ""
  },
  {
   "property": "C84",
   "status": "proved",
   "theorems": [
    "Verif.Props.Inclusive.C84_history",
    "Verif.Props.Inclusive.C84_overlapping",
    "Verif.Props.Inclusive.C84_gaps",
    "Verif.Props.Inclusive.C84_summary",
    "Verif.Props.Inclusive.C84_flag_source",
    "Verif.Props.Inclusive.C84_lookup",
    "Verif.Props.Inclusive.C84_set_history",
    "Verif.Props.Inclusive.C84_intersection",
    "Verif.Props.Inclusive.C84_union"
   ],
   "note": ""
  },
  {
   "property": "C85",
   "status": "proved",
   "theorems": [
    "Verif.Props.C85_constant",
    "Verif.Props.C85_fuel",
    "Verif.Props.C85_panics",
    "Verif.Props.C85_sorted_disjoint",
    "Verif.Props.C85_refinement",
    "Verif.Props.C85_contains_key",
    "Verif.Props.C85_reachable",
    "Verif.Props.C85_returns",
    "Verif.Props.C85_hangs",
    "Verif.Props.Inclusive.C85_constant",
    "Verif.Props.Inclusive.C85_fuel",
    "Verif.Props.Inclusive.C85_panics",
    "Verif.Props.Inclusive.C85_sorted_disjoint",
    "Verif.Props.Inclusive.C85_refinement",
    "Verif.Props.Inclusive.C85_contains_key",
    "Verif.Props.Inclusive.C85_reachable",
    "Verif.Props.Inclusive.C85_returns",
    "Verif.Props.Inclusive.C85_hangs"
   ],
   "note": ""
  },
  {
   "property": "C86",
   "status": "proved",
   "theorems": [
    "Verif.Props.C86_sufficient",
    "Verif.Props.C86_hangs",
    "Verif.Props.C86_corrupts",
    "Verif.Props.C86_iff",
    "Verif.Props.Inclusive.C86_sufficient",
    "Verif.Props.Inclusive.C86_hangs",
    "Verif.Props.Inclusive.C86_iff"
   ],
   "note": ""
  },
  {
   "property": "C87",
   "status": "proved",
   "theorems": [
    "Verif.Props.C87_layouts_exist",
    "Verif.Props.C87_height",
    "Verif.Props.C87_get",
    "Verif.Props.C87_overlapping",
    "Verif.Props.C87_insert",
    "Verif.Props.C87_remove",
    "Verif.Props.C87_history",
    "Verif.Props.Inclusive.C87_get",
    "Verif.Props.Inclusive.C87_overlapping",
    "Verif.Props.Inclusive.C87_insert",
    "Verif.Props.Inclusive.C87_remove",
    "Verif.Props.Inclusive.C87_history",
    "Verif.Props.C87_counts_exact",
    "Verif.Props.C87_counts_exact_map",
    "Verif.Props.Inclusive.C87_counts_exact_map"
   ],
   "note": ""
  },
  {
   "property": "C88",
   "status": "proved",
   "theorems": [
    "Verif.Props.C88_insert",
    "Verif.Props.C88_remove",
    "Verif.Props.C88_invalid",
    "Verif.Props.C88_history",
    "Verif.Props.C88_insert_total",
    "Verif.Props.C88_remove_total",
    "Verif.Props.Inclusive.C88_insert",
    "Verif.Props.Inclusive.C88_remove",
    "Verif.Props.Inclusive.C88_invalid",
    "Verif.Props.Inclusive.C88_history",
    "Verif.Props.Inclusive.C88_insert_total",
    "Verif.Props.Inclusive.C88_remove_total",
    "Verif.Props.C88_insert_exact",
    "Verif.Props.C88_remove_exact",
    "Verif.Props.Inclusive.C88_insert_exact",
    "Verif.Props.Inclusive.C88_remove_exact"
   ],
   "note": ""
  },
  {
   "property": "C89",
   "status": "proved",
   "theorems": [
    "Verif.Props.C89_history",
    "Verif.Props.C89_get",
    "Verif.Props.C89_ends",
    "Verif.Props.C89_overlapping",
    "Verif.Props.C89_gaps",
    "Verif.Props.C89_set_history",
    "Verif.Props.C89_contains",
    "Verif.Props.C89_intersection",
    "Verif.Props.C89_union",
    "Verif.Props.C89_bitops"
   ],
   "note": ""
  },
  {
   "property": "C90",
   "status": "proved",
   "theorems": [
    "Verif.Props.C90_unused_keys_insert",
    "Verif.Props.C90_unused_keys_remove",
    "Verif.Props.C90_unused_keys_queries",
    "Verif.Props.C90_insert_refused",
    "Verif.Props.C90_remove_refused",
    "Verif.Props.C90_history",
    "Verif.Props.C90_lookup_nan",
    "Verif.Props.Inclusive.C90_unused_keys_insert",
    "Verif.Props.Inclusive.C90_unused_keys_remove",
    "Verif.Props.Inclusive.C90_unused_keys_queries",
    "Verif.Props.Inclusive.C90_insert_refused",
    "Verif.Props.Inclusive.C90_remove_refused",
    "Verif.Props.Inclusive.C90_history",
    "Verif.Props.Inclusive.C90_nan_empties_the_map",
    "Verif.Props.Inclusive.C90_nan_is_found_everywhere"
   ],
   "note": ""
  },
  {
   "property": "C91",
   "status": "proved",
   "theorems": [
    "Verif.Props.C91_nothing_made_up",
    "Verif.Props.C91_get",
    "Verif.Props.C91_overlapping",
    "Verif.Props.C91_gaps",
    "Verif.Props.C91_get_honest",
    "Verif.Props.C91_overlapping_honest",
    "Verif.Props.C91_gaps_honest",
    "Verif.Props.C91_insert_honest",
    "Verif.Props.C91_remove_honest",
    "Verif.Props.Inclusive.C91_nothing_made_up",
    "Verif.Props.Inclusive.C91_get",
    "Verif.Props.Inclusive.C91_overlapping",
    "Verif.Props.Inclusive.C91_gaps",
    "Verif.Props.Inclusive.C91_get_honest",
    "Verif.Props.Inclusive.C91_overlapping_honest",
    "Verif.Props.Inclusive.C91_gaps_honest",
    "Verif.Props.Inclusive.C91_insert_honest",
    "Verif.Props.Inclusive.C91_remove_honest"
   ],
   "note": ""
  },
  {
   "property": "C92",
   "status": "proved",
   "theorems": [
    "Verif.Props.C92_union",
    "Verif.Props.C92_union_length",
    "Verif.Props.C92_intersection",
    "Verif.Props.C92_intersection_length",
    "Verif.Props.C92_union_honest",
    "Verif.Props.C92_intersection_honest",
    "Verif.Props.Inclusive.C92_union",
    "Verif.Props.Inclusive.C92_union_length",
    "Verif.Props.Inclusive.C92_intersection",
    "Verif.Props.Inclusive.C92_intersection_length",
    "Verif.Props.Inclusive.C92_union_honest",
    "Verif.Props.Inclusive.C92_intersection_honest"
   ],
   "note": ""
  },
  {
   "property": "C93",
   "status": "proved",
   "theorems": [
    "Verif.Props.C93_map_pretty",
    "Verif.Props.C93_set_pretty",
    "Verif.Props.C93_map_pretty_lines",
    "Verif.Props.C93_set_pretty_lines",
    "Verif.Props.C93_map_debug_tells",
    "Verif.Props.C93_map_pretty_tells",
    "Verif.Props.C93_set_debug_tells",
    "Verif.Props.C93_set_pretty_tells",
    "Verif.Props.C93_map_debug_iff",
    "Verif.Props.C93_map_integers",
    "Verif.Props.C93_set_integers",
    "Verif.Props.Inclusive.C93_map_pretty",
    "Verif.Props.Inclusive.C93_set_pretty",
    "Verif.Props.Inclusive.C93_map_pretty_lines",
    "Verif.Props.Inclusive.C93_set_pretty_lines",
    "Verif.Props.Inclusive.C93_map_debug_tells",
    "Verif.Props.Inclusive.C93_map_pretty_tells",
    "Verif.Props.Inclusive.C93_set_debug_tells",
    "Verif.Props.Inclusive.C93_set_pretty_tells",
    "Verif.Props.Inclusive.C93_map_debug_iff",
    "Verif.Props.Inclusive.C93_map_integers",
    "Verif.Props.Inclusive.C93_set_integers"
   ],
   "note": ""
  },
  {
   "property": "C94",
   "status": "proved",
   "theorems": [
    "Verif.Props.C94_overlapping_both_ends",
    "Verif.Props.C94_overlapping_total",
    "Verif.Props.C94_gaps_bounded",
    "Verif.Props.C94_gaps_endless",
    "Verif.Props.C94_bitor",
    "Verif.Props.C94_bitand",
    "Verif.Props.C94_overlapping_honest",
    "Verif.Props.C94_bitor_honest",
    "Verif.Props.C94_bitand_honest",
    "Verif.Props.Inclusive.C94_overlapping_both_ends",
    "Verif.Props.Inclusive.C94_overlapping_total",
    "Verif.Props.Inclusive.C94_gaps_bounded",
    "Verif.Props.Inclusive.C94_gaps_endless",
    "Verif.Props.Inclusive.C94_bitor",
    "Verif.Props.Inclusive.C94_bitand",
    "Verif.Props.Inclusive.C94_overlapping_honest",
    "Verif.Props.Inclusive.C94_bitor_honest",
    "Verif.Props.Inclusive.C94_bitand_honest"
   ],
   "note": ""
  },
  {
   "property": "C95",
   "status": "proved",
   "theorems": [
    "Verif.Props.Inclusive.C95_insert",
    "Verif.Props.Inclusive.C95_remove",
    "Verif.Props.Inclusive.C95_gaps",
    "Verif.Props.Inclusive.C95_insert_gaps",
    "Verif.Props.Inclusive.C95_hull",
    "Verif.Props.Inclusive.C95_monotone",
    "Verif.Props.Inclusive.C95_count",
    "Verif.Props.Inclusive.C95_union_intersection",
    "Verif.Props.Inclusive.C95_operators",
    "Verif.Props.Inclusive.C95_set_count",
    "Verif.Props.C95_insert",
    "Verif.Props.C95_remove",
    "Verif.Props.C95_gaps",
    "Verif.Props.C95_insert_gaps",
    "Verif.Props.C95_hull",
    "Verif.Props.C95_monotone",
    "Verif.Props.C95_count",
    "Verif.Props.C95_union_intersection",
    "Verif.Props.C95_operators",
    "Verif.Props.C95_set_count"
   ],
   "note": ""
  },
  {
   "property": "C96",
   "status": "proved",
   "theorems": [
    "Verif.Props.C96_roster",
    "Verif.Props.C96_roster_rows",
    "Verif.Props.C96_roster_rows_exact",
    "Verif.Props.C96_bench_insert",
    "Verif.Props.C96_bench_operations",
    "Verif.Props.C96_bench_lookups",
    "Verif.Props.Inclusive.C96_bench_insert",
    "Verif.Props.Inclusive.C96_bench_operations",
    "Verif.Props.Inclusive.C96_bench_lookups"
   ],
   "note": ""
  },
  {
   "property": "C97",
   "status": "proved",
   "theorems": [
    "Verif.Props.C97_eq_iff",
    "Verif.Props.C97_insert",
    "Verif.Props.C97_remove",
    "Verif.Props.C97_apply",
    "Verif.Props.C97_history",
    "Verif.Props.C97_lookup",
    "Verif.Props.C97_ends",
    "Verif.Props.C97_overlapping",
    "Verif.Props.C97_gaps",
    "Verif.Props.C97_compare",
    "Verif.Props.C97_set_eq_iff",
    "Verif.Props.C97_set_update",
    "Verif.Props.C97_set_lookup",
    "Verif.Props.C97_set_operations",
    "Verif.Props.C97_set_operators",
    "Verif.Props.Inclusive.C97_eq_iff",
    "Verif.Props.Inclusive.C97_insert",
    "Verif.Props.Inclusive.C97_remove",
    "Verif.Props.Inclusive.C97_apply",
    "Verif.Props.Inclusive.C97_history",
    "Verif.Props.Inclusive.C97_lookup",
    "Verif.Props.Inclusive.C97_ends",
    "Verif.Props.Inclusive.C97_overlapping",
    "Verif.Props.Inclusive.C97_gaps",
    "Verif.Props.Inclusive.C97_compare",
    "Verif.Props.Inclusive.C97_set_eq_iff",
    "Verif.Props.Inclusive.C97_set_update",
    "Verif.Props.Inclusive.C97_set_lookup",
    "Verif.Props.Inclusive.C97_set_operations",
    "Verif.Props.Inclusive.C97_set_operators"
   ],
   "note": ""
  },
  {
   "property": "C98",
   "status": "proved",
   "theorems": [
    "Verif.Props.C98_union",
    "Verif.Props.C98_intersection",
    "Verif.Props.C98_union_intersection",
    "Verif.Props.C98_bitand",
    "Verif.Props.C98_bitor",
    "Verif.Props.C98_remove",
    "Verif.Props.C98_insert",
    "Verif.Props.C98_remove_balance",
    "Verif.Props.C98_gaps",
    "Verif.Props.C98_set_insert",
    "Verif.Props.C98_set_remove",
    "Verif.Props.Inclusive.C98_union",
    "Verif.Props.Inclusive.C98_intersection",
    "Verif.Props.Inclusive.C98_union_intersection",
    "Verif.Props.Inclusive.C98_bitand",
    "Verif.Props.Inclusive.C98_bitor",
    "Verif.Props.Inclusive.C98_remove",
    "Verif.Props.Inclusive.C98_insert",
    "Verif.Props.Inclusive.C98_remove_balance",
    "Verif.Props.Inclusive.C98_gaps",
    "Verif.Props.Inclusive.C98_set_insert",
    "Verif.Props.Inclusive.C98_set_remove"
   ],
   "note": ""
  },
  {
   "property": "C99",
   "status": "proved",
   "theorems": [
    "Verif.Props.Inclusive.C99_extend",
    "Verif.Props.Inclusive.C99_rebuild",
    "Verif.Props.Inclusive.C99_set_insert_remove",
    "Verif.Props.Inclusive.C99_bitor",
    "Verif.Props.Inclusive.C99_bitand",
    "Verif.Props.Inclusive.C99_bitor_comparisons",
    "Verif.Props.Inclusive.C99_bitand_comparisons",
    "Verif.Props.C99_extend",
    "Verif.Props.C99_rebuild",
    "Verif.Props.C99_set_insert_remove",
    "Verif.Props.C99_bitor",
    "Verif.Props.C99_bitand",
    "Verif.Props.C99_bitor_comparisons",
    "Verif.Props.C99_bitand_comparisons"
   ],
   "note": ""
  },
  {
   "property": "C100",
   "status": "proved",
   "theorems": [
    "Verif.Props.Inclusive.C100_map_values",
    "Verif.Props.Inclusive.C100_map_values_exact",
    "Verif.Props.Inclusive.C100_map_values_injective",
    "Verif.Props.Inclusive.C100_map_values_len",
    "Verif.Props.Inclusive.C100_some_entries",
    "Verif.Props.Inclusive.C100_retain",
    "Verif.Props.Inclusive.C100_keys",
    "Verif.Props.Inclusive.C100_keys_gaps",
    "Verif.Props.Inclusive.C100_keys_of",
    "Verif.Props.Inclusive.C100_join",
    "Verif.Props.C100_map_values",
    "Verif.Props.C100_map_values_exact",
    "Verif.Props.C100_map_values_injective",
    "Verif.Props.C100_map_values_len",
    "Verif.Props.C100_some_entries",
    "Verif.Props.C100_retain",
    "Verif.Props.C100_keys",
    "Verif.Props.C100_keys_gaps",
    "Verif.Props.C100_keys_of",
    "Verif.Props.C100_join"
   ],
   "note": ""
  },
  {
   "property": "C101",
   "status": "proved",
   "theorems": [
    "Verif.Props.Inclusive.C101_round_trip",
    "Verif.Props.Inclusive.C101_collect",
    "Verif.Props.Inclusive.C101_equal",
    "Verif.Props.Inclusive.C101_cmp",
    "Verif.Props.Inclusive.C101_reinsert",
    "Verif.Props.Inclusive.C101_set_round_trip",
    "Verif.Props.Inclusive.C101_set_collect"
   ],
   "note": ""
  },
  {
   "property": "C102",
   "status": "proved",
   "theorems": [
    "Verif.Props.Inclusive.C102_reachable",
    "Verif.Props.Inclusive.C102_history",
    "Verif.Props.Inclusive.C102_queries",
    "Verif.Props.Inclusive.C102_gaps",
    "Verif.Props.Inclusive.C102_intersection",
    "Verif.Props.Inclusive.C102_union",
    "Verif.Props.Inclusive.C102_operators"
   ],
   "note": ""
  },
  {
   "property": "C103",
   "status": "proved",
   "theorems": [
    "Verif.Props.C103_union_lost",
    "Verif.Props.Inclusive.C103_union_lost"
   ],
   "note": ""
  },
  {
   "property": "C104",
   "status": "proved",
   "theorems": [
    "Verif.Props.C104_same",
    "Verif.Props.C104_overwritten",
    "Verif.Props.C104_trace",
    "Verif.Props.C104_exchange",
    "Verif.Props.C104_split",
    "Verif.Props.C104_set_same",
    "Verif.Props.C104_set_trace",
    "Verif.Props.C104_set_exchange",
    "Verif.Props.C104_set_split",
    "Verif.Props.Inclusive.C104_same",
    "Verif.Props.Inclusive.C104_trace",
    "Verif.Props.Inclusive.C104_exchange",
    "Verif.Props.Inclusive.C104_split",
    "Verif.Props.Inclusive.C104_set_same",
    "Verif.Props.Inclusive.C104_set_trace",
    "Verif.Props.Inclusive.C104_set_exchange",
    "Verif.Props.Inclusive.C104_set_split"
   ],
   "note": ""
  },
  {
   "property": "C105",
   "status": "proved",
   "theorems": [
    "Verif.Props.C105_allocate",
    "Verif.Props.C105_store",
    "Verif.Props.C105_release",
    "Verif.Props.C105_live",
    "Verif.Props.Inclusive.C105_allocate",
    "Verif.Props.Inclusive.C105_store",
    "Verif.Props.Inclusive.C105_release",
    "Verif.Props.Inclusive.C105_live"
   ],
   "note": ""
  },
  {
   "property": "C106",
   "status": "proved",
   "theorems": [
    "Verif.Props.C106_update",
    "Verif.Props.C106_update_unique",
    "Verif.Props.C106_accumulate_total",
    "Verif.Props.C106_accumulate",
    "Verif.Props.C106_depth",
    "Verif.Props.C106_order",
    "Verif.Props.Inclusive.C106_update",
    "Verif.Props.Inclusive.C106_update_unique",
    "Verif.Props.Inclusive.C106_accumulate_total",
    "Verif.Props.Inclusive.C106_accumulate",
    "Verif.Props.Inclusive.C106_depth",
    "Verif.Props.Inclusive.C106_order"
   ],
   "note": ""
  },
  {
   "property": "C107",
   "status": "proved",
   "theorems": [
    "Verif.Props.C107_first_covered",
    "Verif.Props.C107_last_covered",
    "Verif.Props.C107_first_uncovered",
    "Verif.Props.C107_next_change",
    "Verif.Props.Inclusive.C107_first_covered",
    "Verif.Props.Inclusive.C107_last_covered",
    "Verif.Props.Inclusive.C107_first_uncovered",
    "Verif.Props.Inclusive.C107_next_change"
   ],
   "note": ""
  },
  {
   "property": "C108",
   "status": "proved",
   "theorems": [
    "Verif.Props.C108_toggle",
    "Verif.Props.C108_total",
    "Verif.Props.C108_even_odd",
    "Verif.Props.C108_order",
    "Verif.Props.C108_twice",
    "Verif.Props.C108_symmetric_difference",
    "Verif.Props.C108_reserve",
    "Verif.Props.C108_reserve_unique",
    "Verif.Props.Inclusive.C108_toggle",
    "Verif.Props.Inclusive.C108_total",
    "Verif.Props.Inclusive.C108_even_odd",
    "Verif.Props.Inclusive.C108_order",
    "Verif.Props.Inclusive.C108_twice",
    "Verif.Props.Inclusive.C108_symmetric_difference",
    "Verif.Props.Inclusive.C108_reserve",
    "Verif.Props.Inclusive.C108_reserve_unique"
   ],
   "note": ""
  },
  {
   "property": "C109",
   "status": "proved",
   "theorems": [
    "Verif.Props.C109_fold",
    "Verif.Props.C109_count",
    "Verif.Props.C109_last",
    "Verif.Props.C109_nth",
    "Verif.Props.C109_find",
    "Verif.Props.C109_any_all",
    "Verif.Props.C109_position",
    "Verif.Props.C109_rev",
    "Verif.Props.C109_last_ends",
    "Verif.Props.C109_iter",
    "Verif.Props.C109_iter_find",
    "Verif.Props.C109_overlapping",
    "Verif.Props.C109_gaps",
    "Verif.Props.C109_set_iter",
    "Verif.Props.C109_union_intersection",
    "Verif.Props.Inclusive.C109_iter",
    "Verif.Props.Inclusive.C109_iter_find",
    "Verif.Props.Inclusive.C109_overlapping",
    "Verif.Props.Inclusive.C109_gaps",
    "Verif.Props.Inclusive.C109_set_iter",
    "Verif.Props.Inclusive.C109_union_intersection"
   ],
   "note": ""
  },
  {
   "property": "C110",
   "status": "proved",
   "theorems": [
    "Verif.Props.C110_string",
    "Verif.Props.C110_prefix",
    "Verif.Props.C110_buffer",
    "Verif.Props.C110_asked",
    "Verif.Props.C110_map_fmt",
    "Verif.Props.C110_set_fmt",
    "Verif.Props.C110_map_debug",
    "Verif.Props.C110_set_debug",
    "Verif.Props.Inclusive.C110_map_fmt",
    "Verif.Props.Inclusive.C110_set_fmt",
    "Verif.Props.Inclusive.C110_map_debug",
    "Verif.Props.Inclusive.C110_set_debug"
   ],
   "note": ""
  },
  {
   "property": "C111",
   "status": "proved",
   "theorems": [
    "Verif.Props.C111_call",
    "Verif.Props.C111_programs",
    "Verif.Props.C111_one_answer",
    "Verif.Props.C111_exactly",
    "Verif.Props.Inclusive.C111_call",
    "Verif.Props.Inclusive.C111_programs",
    "Verif.Props.Inclusive.C111_one_answer",
    "Verif.Props.Inclusive.C111_exactly"
   ],
   "note": ""
  },
  {
   "property": "C112",
   "status": "proved",
   "theorems": [
    "Verif.Props.Inclusive.C112_call",
    "Verif.Props.Inclusive.C112_programs",
    "Verif.Props.Inclusive.C112_one_answer",
    "Verif.Props.Inclusive.C112_exactly",
    "Verif.Props.C112_call",
    "Verif.Props.C112_programs",
    "Verif.Props.C112_one_answer",
    "Verif.Props.C112_exactly"
   ],
   "note": ""
  },
  {
   "property": "C113",
   "status": "proved",
   "theorems": [
    "Verif.Props.Inclusive.C113_call",
    "Verif.Props.Inclusive.C113_programs",
    "Verif.Props.Inclusive.C113_determined",
    "Verif.Props.C113_call",
    "Verif.Props.C113_programs",
    "Verif.Props.C113_determined"
   ],
   "note": ""
  },
  {
   "property": "C114",
   "status": "proved",
   "theorems": [
    "Verif.Props.Inclusive.C114_call",
    "Verif.Props.Inclusive.C114_programs",
    "Verif.Props.Inclusive.C114_one_answer",
    "Verif.Props.Inclusive.C114_exactly",
    "Verif.Props.C114_call",
    "Verif.Props.C114_programs",
    "Verif.Props.C114_one_answer",
    "Verif.Props.C114_exactly"
   ],
   "note": ""
  },
  {
   "property": "C115",
   "status": "proved",
   "theorems": [
    "Verif.Props.Inclusive.C115_call",
    "Verif.Props.Inclusive.C115_programs",
    "Verif.Props.Inclusive.C115_one_answer",
    "Verif.Props.Inclusive.C115_exactly",
    "Verif.Props.C115_call",
    "Verif.Props.C115_programs",
    "Verif.Props.C115_one_answer",
    "Verif.Props.C115_exactly"
   ],
   "note": ""
  },
  {
   "property": "C116",
   "status": "proved",
   "theorems": [
    "Verif.Props.C116_programs",
    "Verif.Props.C116_half_open_on_inclusive",
    "Verif.Props.C116_set_programs",
    "Verif.Props.C116_half_open_sets_on_inclusive"
   ],
   "note": ""
  },
  {
   "property": "C117",
   "status": "proved",
   "theorems": [
    "Verif.Props.C117_programs",
    "Verif.Props.C117_every_program",
    "Verif.Props.C117_set_programs",
    "Verif.Props.C117_every_set_program",
    "Verif.Props.Inclusive.C117_programs",
    "Verif.Props.Inclusive.C117_every_program",
    "Verif.Props.Inclusive.C117_widen",
    "Verif.Props.Inclusive.C117_set_programs",
    "Verif.Props.Inclusive.C117_every_set_program",
    "Verif.Props.Inclusive.C117_widen_set"
   ],
   "note": ""
  },
  {
   "property": "C118",
   "status": "proved",
   "theorems": [
    "Verif.Props.Inclusive.C118_programs",
    "Verif.Props.Inclusive.C118_upside_down",
    "Verif.Props.Inclusive.C118_set_programs",
    "Verif.Props.Inclusive.C118_sets_upside_down"
   ],
   "note": ""
  },
  {
   "property": "C119",
   "status": "proved",
   "theorems": [
    "Verif.Props.C119_programs",
    "Verif.Props.C119_equal_maps",
    "Verif.Props.C119_replace",
    "Verif.Props.C119_set_programs",
    "Verif.Props.C119_equal_sets",
    "Verif.Props.Inclusive.C119_programs",
    "Verif.Props.Inclusive.C119_equal_maps",
    "Verif.Props.Inclusive.C119_replace",
    "Verif.Props.Inclusive.C119_set_programs",
    "Verif.Props.Inclusive.C119_equal_sets"
   ],
   "note": ""
  },
  {
   "property": "C120",
   "status": "proved",
   "theorems": [
    "Verif.Props.C120_call",
    "Verif.Props.C120_frame",
    "Verif.Props.C120_blind",
    "Verif.Props.C120_apart",
    "Verif.Props.C120_both",
    "Verif.Props.C120_set_call",
    "Verif.Props.C120_set_frame",
    "Verif.Props.C120_set_blind",
    "Verif.Props.C120_set_apart",
    "Verif.Props.C120_set_both",
    "Verif.Props.Inclusive.C120_call",
    "Verif.Props.Inclusive.C120_frame",
    "Verif.Props.Inclusive.C120_blind",
    "Verif.Props.Inclusive.C120_apart",
    "Verif.Props.Inclusive.C120_both",
    "Verif.Props.Inclusive.C120_set_call",
    "Verif.Props.Inclusive.C120_set_frame",
    "Verif.Props.Inclusive.C120_set_blind",
    "Verif.Props.Inclusive.C120_set_apart",
    "Verif.Props.Inclusive.C120_set_both"
   ],
   "note": ""
  },
  {
   "property": "C121",
   "status": "proved",
   "theorems": [
    "Verif.Props.Inclusive.C121_set_swap",
    "Verif.Props.Inclusive.C121_set_order",
    "Verif.Props.Inclusive.C121_set_alone",
    "Verif.Props.Inclusive.C121_swap",
    "Verif.Props.Inclusive.C121_order",
    "Verif.Props.Inclusive.C121_alone",
    "Verif.Props.C121_set_swap",
    "Verif.Props.C121_set_order",
    "Verif.Props.C121_set_alone",
    "Verif.Props.C121_swap",
    "Verif.Props.C121_order",
    "Verif.Props.C121_alone"
   ],
   "note": ""
  },
  {
   "property": "C122",
   "status": "proved",
   "theorems": [
    "Verif.Props.Inclusive.C122_slice",
    "Verif.Props.Inclusive.C122_get",
    "Verif.Props.Inclusive.C122_len",
    "Verif.Props.Inclusive.C122_same",
    "Verif.Props.Inclusive.C122_covered",
    "Verif.Props.C122_slice",
    "Verif.Props.C122_get",
    "Verif.Props.C122_len",
    "Verif.Props.C122_same",
    "Verif.Props.C122_covered"
   ],
   "note": ""
  },
  {
   "property": "C123",
   "status": "proved",
   "theorems": [
    "Verif.Props.Inclusive.C123_set_contains",
    "Verif.Props.Inclusive.C123_set_iter",
    "Verif.Props.Inclusive.C123_set_len",
    "Verif.Props.Inclusive.C123_set_join",
    "Verif.Props.Inclusive.C123_get",
    "Verif.Props.Inclusive.C123_iter",
    "Verif.Props.Inclusive.C123_len",
    "Verif.Props.Inclusive.C123_join",
    "Verif.Props.C123_set_contains",
    "Verif.Props.C123_set_iter",
    "Verif.Props.C123_set_len",
    "Verif.Props.C123_set_join",
    "Verif.Props.C123_get",
    "Verif.Props.C123_iter",
    "Verif.Props.C123_len",
    "Verif.Props.C123_join"
   ],
   "note": ""
  },
  {
   "property": "C124",
   "status": "proved",
   "theorems": [
    "Verif.Props.Inclusive.C124_get",
    "Verif.Props.Inclusive.C124_collect",
    "Verif.Props.Inclusive.C124_exact",
    "Verif.Props.Inclusive.C124_len",
    "Verif.Props.C124_get",
    "Verif.Props.C124_collect",
    "Verif.Props.C124_exact",
    "Verif.Props.C124_len"
   ],
   "note": ""
  },
  {
   "property": "C125",
   "status": "proved",
   "theorems": [
    "Verif.Props.Inclusive.C125_zip",
    "Verif.Props.Inclusive.C125_get",
    "Verif.Props.Inclusive.C125_len",
    "Verif.Props.C125_zip",
    "Verif.Props.C125_get",
    "Verif.Props.C125_len"
   ],
   "note": ""
  },
  {
   "property": "C126",
   "status": "proved",
   "theorems": [
    "Verif.Props.Inclusive.C126_set_contains",
    "Verif.Props.Inclusive.C126_set_overlapping",
    "Verif.Props.Inclusive.C126_set_len",
    "Verif.Props.Inclusive.C126_get",
    "Verif.Props.Inclusive.C126_overlapping",
    "Verif.Props.Inclusive.C126_len",
    "Verif.Props.C126_set_contains",
    "Verif.Props.C126_set_overlapping",
    "Verif.Props.C126_set_len",
    "Verif.Props.C126_get",
    "Verif.Props.C126_overlapping",
    "Verif.Props.C126_len"
   ],
   "note": ""
  },
  {
   "property": "C127",
   "status": "proved",
   "theorems": [
    "Verif.Props.Inclusive.C127_swap",
    "Verif.Props.Inclusive.C127_self",
    "Verif.Props.Inclusive.C127_assoc",
    "Verif.Props.Inclusive.C127_keys",
    "Verif.Props.C127_swap",
    "Verif.Props.C127_self",
    "Verif.Props.C127_assoc",
    "Verif.Props.C127_keys"
   ],
   "note": ""
  }
 ]
}

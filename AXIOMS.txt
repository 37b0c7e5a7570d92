Verif.Props.C01_insert_inside: propext, Classical.choice, Quot.sound
Verif.Props.C01_insert_outside: propext, Classical.choice, Quot.sound
Verif.Props.C01_insert_outside_exact: propext, Classical.choice, Quot.sound
Verif.Props.C02_remove_pointwise: propext, Classical.choice, Quot.sound
Verif.Props.C03_refinement: propext, Classical.choice, Quot.sound
Verif.Props.C03_refinement_exact: propext, Classical.choice, Quot.sound
Verif.Props.C04_sorted_disjoint: propext, Classical.choice, Quot.sound
Verif.Props.C04_starts_and_ends_strictly_increase: propext, Classical.choice, Quot.sound
Verif.Props.C05_coalesced: propext, Classical.choice, Quot.sound
Verif.Props.C06_canonical: propext, Classical.choice, Quot.sound
Verif.Props.C06_history_independent: propext, Classical.choice, Quot.sound
Verif.Props.C07_iterators_never_panic: propext, Classical.choice, Quot.sound
Verif.Props.C07_insert_panics: propext, Classical.choice, Quot.sound
Verif.Props.C07_remove_panics: propext, Classical.choice, Quot.sound
Verif.Props.C07_lookups_never_panic: propext, Classical.choice, Quot.sound
Verif.Props.C08_insert_terminates: propext, Classical.choice, Quot.sound
Verif.Props.C08_remove_terminates: propext, Classical.choice, Quot.sound
Verif.Props.C09_get_key_value: propext, Classical.choice, Quot.sound
Verif.Props.C09_unique: propext, Classical.choice, Quot.sound
Verif.Props.C09_projections: propext, Classical.choice, Quot.sound
Verif.Props.C10_gaps_exact: propext, Classical.choice, Quot.sound
Verif.Props.C11_gaps_ordered: propext, Classical.choice, Quot.sound
Verif.Props.C11_gaps_maximal: propext, Classical.choice, Quot.sound
Verif.Props.C11_empty_outer: propext, Classical.choice, Quot.sound
Verif.Props.C12_tiling: propext, Classical.choice, Quot.sound
Verif.Props.C13_overlapping_exact: propext, Classical.choice, Quot.sound
Verif.Props.C13_overlapping_shares_key: propext, Classical.choice, Quot.sound
Verif.Props.C13_overlaps: propext, Classical.choice, Quot.sound
Verif.Props.C14_overlapping_double_ended_inclusive: propext, Classical.choice, Quot.sound
Verif.Props.C14_overlapping_double_ended: propext, Classical.choice, Quot.sound
Verif.Props.C15_gaps_fused_inclusive: propext, Classical.choice, Quot.sound
Verif.Props.C15_gaps_fused: propext, Classical.choice, Quot.sound
Verif.Props.C16_iter_double_ended: propext
Verif.Props.C16_size_hint: propext
Verif.Props.C16_len_is_empty: propext, Classical.choice, Quot.sound
Verif.Props.C16_first_last: propext, Classical.choice, Quot.sound
Verif.Props.C17_hash_eq: propext, Quot.sound
Verif.Props.C17_eq_equivalence: propext, Classical.choice, Quot.sound
Verif.Props.Inclusive.C17_hash_eq: propext, Quot.sound
Verif.Props.Inclusive.C17_eq_equivalence: propext, Classical.choice, Quot.sound
Verif.Props.C18_cmp_total: propext, Classical.choice, Quot.sound
Verif.Props.C18_cmp_eq_iff: propext, Classical.choice, Quot.sound
Verif.Props.C18_partial_cmp: propext
Verif.Props.Inclusive.C18_cmp_total: propext, Classical.choice, Quot.sound
Verif.Props.Inclusive.C18_cmp_eq_iff: propext, Classical.choice, Quot.sound
Verif.Props.Inclusive.C18_partial_cmp: propext
Verif.Props.C19_extend_panics_iff: propext, Classical.choice, Quot.sound
Verif.Props.C19_extend_last_wins: propext, Classical.choice, Quot.sound
Verif.Props.C19_from_iter_from_array: propext
Verif.Props.Inclusive.C19_extend_panics_iff: propext, Classical.choice, Quot.sound
Verif.Props.Inclusive.C19_extend_last_wins: propext, Classical.choice, Quot.sound
Verif.Props.Inclusive.C19_from_iter_from_array: propext
Verif.Props.C20_round_trip: propext, Classical.choice, Quot.sound
Verif.Props.C20_deserialize_any: propext, Classical.choice, Quot.sound
Verif.Props.Inclusive.C20_round_trip: propext, Classical.choice, Quot.sound
Verif.Props.Inclusive.C20_deserialize_any: propext, Classical.choice, Quot.sound
Verif.Props.C21_insert_hides: propext, Classical.choice, Quot.sound
Verif.Props.C21_insert_idempotent: propext, Classical.choice, Quot.sound
Verif.Props.C21_insert_insert_comm: propext, Classical.choice, Quot.sound
Verif.Props.C21_insert_remove_comm: propext, Classical.choice, Quot.sound
Verif.Props.C21_remove_remove_comm: propext, Classical.choice, Quot.sound
Verif.Props.C21_remove_after_insert: propext, Classical.choice, Quot.sound
Verif.Props.C21_insert_after_remove: propext, Classical.choice, Quot.sound
Verif.Props.C21_insert_stored: propext, Classical.choice, Quot.sound
Verif.Props.C21_remove_uncovered: propext, Classical.choice, Quot.sound
Verif.Props.C22_insert_growth: propext, Classical.choice, Quot.sound
Verif.Props.C22_remove_growth: propext, Classical.choice, Quot.sound
Verif.Props.C22_history_growth: propext, Classical.choice, Quot.sound
Verif.Props.Inclusive.C22_insert_growth: propext, Classical.choice, Quot.sound
Verif.Props.Inclusive.C22_remove_growth: propext, Classical.choice, Quot.sound
Verif.Props.Inclusive.C22_history_growth: propext, Classical.choice, Quot.sound
Verif.Props.C23_insert_inside: propext, Classical.choice, Quot.sound
Verif.Props.C23_insert_outside: propext, Classical.choice, Quot.sound
Verif.Props.C23_insert_outside_exact: propext, Classical.choice, Quot.sound
Verif.Props.C24_remove_pointwise: propext, Classical.choice, Quot.sound
Verif.Props.C25_refinement: propext, Classical.choice, Quot.sound
Verif.Props.C25_refinement_exact: propext, Classical.choice, Quot.sound
Verif.Props.C26_sorted_disjoint: propext, Classical.choice, Quot.sound
Verif.Props.C26_coalesced: propext, Classical.choice, Quot.sound
Verif.Props.C26_coalesced_addOne: propext, Classical.choice, Quot.sound
Verif.Props.C26_not_exhausted: propext, Classical.choice, Quot.sound
Verif.Props.C27_canonical: propext, Classical.choice, Quot.sound
Verif.Props.C27_history_independent: propext, Classical.choice, Quot.sound
Verif.Props.C27_reachable_iff: propext, Classical.choice, Quot.sound
Verif.Props.C28_iterators_never_panic: propext, Classical.choice, Quot.sound
Verif.Props.C28_extremes_irrelevant_gaps: propext, Classical.choice, Quot.sound
Verif.Props.C28_insert_panics: propext, Classical.choice, Quot.sound
Verif.Props.C28_remove_panics: propext, Classical.choice, Quot.sound
Verif.Props.C28_lookups_never_panic: propext, Quot.sound
Verif.Props.C28_extremes_irrelevant: propext, Classical.choice, Quot.sound
Verif.Props.C29_insert_terminates: propext, Classical.choice, Quot.sound
Verif.Props.C29_remove_terminates: propext, Classical.choice, Quot.sound
Verif.Props.C30_get_key_value: propext, Classical.choice, Quot.sound
Verif.Props.C30_unique: propext, Classical.choice, Quot.sound
Verif.Props.C30_projections: propext, Quot.sound
Verif.Props.C31_gaps_exact: propext, Classical.choice, Quot.sound
Verif.Props.C31_gaps_exact_any: propext, Classical.choice, Quot.sound
Verif.Props.C31_gaps_ordered: propext, Classical.choice, Quot.sound
Verif.Props.C31_gaps_maximal: propext, Classical.choice, Quot.sound
Verif.Props.C31_inverted_outer: propext, Classical.choice, Quot.sound
Verif.Props.C32_overlapping_exact: propext, Classical.choice, Quot.sound
Verif.Props.C32_overlapping_shares_key: propext, Classical.choice, Quot.sound
Verif.Props.C32_overlaps: propext, Classical.choice, Quot.sound
Verif.Props.C33_unsigned_value: propext, Quot.sound
Verif.Props.C33_unsigned_lawful: propext, Quot.sound
Verif.Props.C33_unsigned_extremes: propext, Quot.sound
Verif.Props.C33_signed_value: propext, Classical.choice, Quot.sound
Verif.Props.C33_signed_lawful: propext, Classical.choice, Quot.sound
Verif.Props.C33_signed_extremes: propext, Quot.sound
Verif.Props.C34_lawful: propext, Classical.choice, Quot.sound
Verif.Props.C34_never_panics: propext, Classical.choice, Quot.sound
Verif.Props.C34_saturates: propext, Classical.choice, Quot.sound
Verif.Props.C34_extremes: propext
Verif.Props.C34_inverse: propext, Classical.choice, Quot.sound
Verif.Props.C34_zero: propext, Classical.choice, Quot.sound
Verif.Props.C34_map_refinement: propext, Classical.choice, Quot.sound
Verif.Props.C35_insert: propext, Classical.choice, Quot.sound
Verif.Props.C35_remove: propext, Classical.choice, Quot.sound
Verif.Props.C35_refinement: propext, Classical.choice, Quot.sound
Verif.Props.C35_panics: propext, Classical.choice, Quot.sound
Verif.Props.C35_get: propext, Classical.choice, Quot.sound
Verif.Props.C35_get_maximal: propext, Classical.choice, Quot.sound
Verif.Props.C35_reachable_iff: propext, Classical.choice, Quot.sound
Verif.Props.C35_eq_iff: propext, Classical.choice, Quot.sound
Verif.Props.Inclusive.C36_insert: propext, Classical.choice, Quot.sound
Verif.Props.Inclusive.C36_remove: propext, Classical.choice, Quot.sound
Verif.Props.Inclusive.C36_refinement: propext, Classical.choice, Quot.sound
Verif.Props.Inclusive.C36_panics: propext, Classical.choice, Quot.sound
Verif.Props.Inclusive.C36_get: propext, Classical.choice, Quot.sound
Verif.Props.Inclusive.C36_get_maximal: propext, Classical.choice, Quot.sound
Verif.Props.Inclusive.C36_reachable_iff: propext, Classical.choice, Quot.sound
Verif.Props.Inclusive.C36_eq_iff: propext, Classical.choice, Quot.sound
Verif.Props.Inclusive.C37_union: propext, Classical.choice, Quot.sound
Verif.Props.C37_union: propext, Classical.choice, Quot.sound
Verif.Props.Inclusive.C38_intersection: propext, Classical.choice, Quot.sound
Verif.Props.C38_intersection: propext, Classical.choice, Quot.sound
Verif.Props.Inclusive.C39_bitor: propext, Classical.choice, Quot.sound
Verif.Props.Inclusive.C39_bitand: propext, Classical.choice, Quot.sound
Verif.Props.Inclusive.C39_or_laws: propext, Classical.choice, Quot.sound
Verif.Props.Inclusive.C39_and_laws: propext, Classical.choice, Quot.sound
Verif.Props.Inclusive.C39_absorption: propext, Classical.choice, Quot.sound
Verif.Props.Inclusive.C39_distributivity: propext, Classical.choice, Quot.sound
Verif.Props.C39_bitor: propext, Classical.choice, Quot.sound
Verif.Props.C39_bitand: propext, Classical.choice, Quot.sound
Verif.Props.C39_or_laws: propext, Classical.choice, Quot.sound
Verif.Props.C39_and_laws: propext, Classical.choice, Quot.sound
Verif.Props.C39_absorption: propext, Classical.choice, Quot.sound
Verif.Props.C39_distributivity: propext, Classical.choice, Quot.sound
Verif.Props.C40_range_map: propext, Classical.choice, Quot.sound
Verif.Props.C40_range_inclusive_map: propext, Classical.choice, Quot.sound
Verif.Props.C40_ieee: propext
Verif.Props.C40_float_range_map: propext, Classical.choice, Quot.sound
Verif.Props.C40_float_range_inclusive_map: propext, Classical.choice, Quot.sound
Verif.Props.C40_eq_self: propext, Classical.choice, Quot.sound
Verif.Props.Inclusive.C41_get_key_value_any: propext, Classical.choice, Quot.sound
Verif.Props.Inclusive.C41_end_key_lost: propext, Classical.choice, Quot.sound
Verif.Props.Inclusive.C41_eq_disagrees_with_cmp: propext, Classical.choice, Quot.sound
Verif.Props.Inclusive.C41_no_exhausted_stored: propext, Classical.choice, Quot.sound
Verif.Props.C42_insert_reachable: propext, Classical.choice, Quot.sound
Verif.Props.C42_remove_reachable: propext, Classical.choice, Quot.sound
Verif.Props.C42_insert_outcome: propext, Classical.choice, Quot.sound
Verif.Props.C42_remove_outcome: propext, Classical.choice, Quot.sound
Verif.Props.C42_insert_values: propext, Classical.choice, Quot.sound
Verif.Props.C42_no_panic: propext, Classical.choice, Quot.sound
Verif.Props.C42_history: propext, Classical.choice, Quot.sound
Verif.Props.Inclusive.C42_insert_reachable: propext, Classical.choice, Quot.sound
Verif.Props.Inclusive.C42_remove_reachable: propext, Classical.choice, Quot.sound
Verif.Props.Inclusive.C42_reachable_any: propext, Classical.choice, Quot.sound
Verif.Props.Inclusive.C42_insert_outcome: propext, Classical.choice, Quot.sound
Verif.Props.Inclusive.C42_remove_outcome: propext, Classical.choice, Quot.sound
Verif.Props.Inclusive.C42_insert_values: propext, Classical.choice, Quot.sound
Verif.Props.Inclusive.C42_no_panic: propext, Classical.choice, Quot.sound
Verif.Props.Inclusive.C42_history: propext, Classical.choice, Quot.sound
Verif.Props.C43_inclusive: propext, Classical.choice, Quot.sound
Verif.Props.C43_inclusive_exact: propext, Classical.choice, Quot.sound
Verif.Props.C43_from_inclusive: propext, Classical.choice, Quot.sound
Verif.Props.C43_half_open_exact: propext, Classical.choice, Quot.sound
Verif.Props.C43_from_half_open: propext, Classical.choice, Quot.sound
Verif.Props.C43_from_inclusive_eq: propext, Classical.choice, Quot.sound
Verif.Props.C44_entries_correspond: propext, Classical.choice, Quot.sound
Verif.Props.C44_entries_equal: propext, Classical.choice, Quot.sound
Verif.Props.C44_lookups_agree: propext, Classical.choice, Quot.sound
Verif.Props.C45_tiling: propext, Classical.choice, Quot.sound
Verif.Props.C46_iter_double_ended: propext
Verif.Props.C46_size_hint: propext
Verif.Props.C46_len_is_empty: propext, Classical.choice, Quot.sound
Verif.Props.C46_first_last: propext, Classical.choice, Quot.sound
Verif.Props.Inclusive.C47_insert_hides: propext, Classical.choice, Quot.sound
Verif.Props.Inclusive.C47_insert_idempotent: propext, Classical.choice, Quot.sound
Verif.Props.Inclusive.C47_insert_insert_comm: propext, Classical.choice, Quot.sound
Verif.Props.Inclusive.C47_insert_remove_comm: propext, Classical.choice, Quot.sound
Verif.Props.Inclusive.C47_remove_remove_comm: propext, Classical.choice, Quot.sound
Verif.Props.Inclusive.C47_remove_after_insert: propext, Classical.choice, Quot.sound
Verif.Props.Inclusive.C47_insert_after_remove: propext, Classical.choice, Quot.sound
Verif.Props.Inclusive.C47_insert_stored: propext, Classical.choice, Quot.sound
Verif.Props.Inclusive.C47_remove_uncovered: propext, Classical.choice, Quot.sound
Verif.Props.Inclusive.C48_iter: propext
Verif.Props.Inclusive.C48_overlapping: propext, Classical.choice, Quot.sound
Verif.Props.Inclusive.C48_gaps: propext, Classical.choice, Quot.sound
Verif.Props.C48_iter: propext
Verif.Props.C48_overlapping: propext, Classical.choice, Quot.sound
Verif.Props.C48_gaps: propext, Classical.choice, Quot.sound
Verif.Props.Inclusive.C49_from_iter: propext, Classical.choice, Quot.sound
Verif.Props.Inclusive.C49_serde_round_trip: propext, Classical.choice, Quot.sound
Verif.Props.Inclusive.C49_deserialize_any: propext, Classical.choice, Quot.sound
Verif.Props.C49_from_iter: propext, Classical.choice, Quot.sound
Verif.Props.C49_serde_round_trip: propext, Classical.choice, Quot.sound
Verif.Props.C49_deserialize_any: propext, Classical.choice, Quot.sound
Verif.Props.Inclusive.C50_comparison: propext, Classical.choice, Quot.sound
Verif.Props.Inclusive.C50_cmp_eq_iff: propext, Classical.choice, Quot.sound
Verif.Props.C50_comparison: propext, Classical.choice, Quot.sound
Verif.Props.C51_insert_entries: propext, Classical.choice, Quot.sound
Verif.Props.C51_remove_entries: propext, Classical.choice, Quot.sound
Verif.Props.C51_entries_determine: propext, Classical.choice, Quot.sound
Verif.Props.C51_insert_unequal_verbatim: propext, Classical.choice, Quot.sound
Verif.Props.C51_insert_keeps_untouched: propext, Classical.choice, Quot.sound
Verif.Props.C51_insert_provenance: propext, Classical.choice, Quot.sound
Verif.Props.Inclusive.C51_insert_entries: propext, Classical.choice, Quot.sound
Verif.Props.Inclusive.C51_remove_entries: propext, Classical.choice, Quot.sound
Verif.Props.Inclusive.C51_entries_determine: propext, Classical.choice, Quot.sound
Verif.Props.Inclusive.C51_insert_unequal_verbatim: propext, Classical.choice, Quot.sound
Verif.Props.Inclusive.C51_insert_keeps_untouched: propext, Classical.choice, Quot.sound
Verif.Props.C52_get_key_value: propext, Classical.choice, Quot.sound
Verif.Props.C52_overlapping: propext, Classical.choice, Quot.sound
Verif.Props.C52_insert: propext, Classical.choice, Quot.sound
Verif.Props.C52_remove: propext, Classical.choice, Quot.sound
Verif.Props.C52_insert_remove_plain: propext, Classical.choice, Quot.sound
Verif.Props.C52_history: propext, Classical.choice, Quot.sound
Verif.Props.Inclusive.C52_get_key_value: propext, Classical.choice, Quot.sound
Verif.Props.Inclusive.C52_overlapping: propext, Classical.choice, Quot.sound
Verif.Props.Inclusive.C52_insert: propext, Classical.choice, Quot.sound
Verif.Props.Inclusive.C52_remove: propext, Classical.choice, Quot.sound
Verif.Props.Inclusive.C52_insert_remove_plain: propext, Classical.choice, Quot.sound
Verif.Props.Inclusive.C52_history: propext, Classical.choice, Quot.sound
Verif.Props.C53_partial_cmp: propext, Classical.choice, Quot.sound
Verif.Props.C53_cmp: propext, Classical.choice, Quot.sound
Verif.Props.C53_set_cmp: propext, Classical.choice, Quot.sound
Verif.Props.Inclusive.C53_partial_cmp: propext, Classical.choice, Quot.sound
Verif.Props.Inclusive.C53_cmp: propext, Classical.choice, Quot.sound
Verif.Props.Inclusive.C53_set_cmp: propext, Classical.choice, Quot.sound
Verif.Props.C54_arbitrary: propext, Classical.choice, Quot.sound
Verif.Props.C54_arbitrary_onto: propext, Classical.choice, Quot.sound
Verif.Props.C54_set_arbitrary: propext, Classical.choice, Quot.sound
Verif.Props.C54_set_arbitrary_onto: propext, Classical.choice, Quot.sound
Verif.Props.Inclusive.C54_arbitrary: propext, Classical.choice, Quot.sound
Verif.Props.Inclusive.C54_arbitrary_onto: propext, Classical.choice, Quot.sound
Verif.Props.Inclusive.C54_set_arbitrary: propext, Classical.choice, Quot.sound
Verif.Props.Inclusive.C54_set_arbitrary_onto: propext, Classical.choice, Quot.sound
Verif.Props.C55_fewest: propext, Classical.choice, Quot.sound
Verif.Props.C55_set_fewest: propext, Classical.choice, Quot.sound
Verif.Props.Inclusive.C55_fewest: propext, Classical.choice, Quot.sound
Verif.Props.Inclusive.C55_set_fewest: propext, Classical.choice, Quot.sound
Verif.Props.C56_complement: propext, Classical.choice, Quot.sound
Verif.Props.C56_double: propext, Classical.choice, Quot.sound
Verif.Props.C56_de_morgan: propext, Classical.choice, Quot.sound
Verif.Props.C56_remove_all: propext, Classical.choice, Quot.sound
Verif.Props.Inclusive.C56_complement: propext, Classical.choice, Quot.sound
Verif.Props.Inclusive.C56_double: propext, Classical.choice, Quot.sound
Verif.Props.Inclusive.C56_de_morgan: propext, Classical.choice, Quot.sound
Verif.Props.Inclusive.C56_remove_all: propext, Classical.choice, Quot.sound
Verif.Props.C57_extend_order: propext, Classical.choice, Quot.sound
Verif.Props.C57_collect_entries: propext, Classical.choice, Quot.sound
Verif.Props.C57_set_extend_order: propext, Classical.choice, Quot.sound
Verif.Props.Inclusive.C57_extend_order: propext, Classical.choice, Quot.sound
Verif.Props.Inclusive.C57_collect_entries: propext, Classical.choice, Quot.sound
Verif.Props.Inclusive.C57_set_extend_order: propext, Classical.choice, Quot.sound
Verif.Props.C58_map_debug: propext, Classical.choice, Quot.sound
Verif.Props.C58_set_debug: propext, Classical.choice, Quot.sound
Verif.Props.C58_map_debug_eq: propext, Classical.choice, Quot.sound
Verif.Props.C58_set_debug_eq: propext, Classical.choice, Quot.sound
Verif.Props.Inclusive.C58_map_debug: propext, Classical.choice, Quot.sound
Verif.Props.Inclusive.C58_set_debug: propext, Classical.choice, Quot.sound
Verif.Props.Inclusive.C58_map_debug_eq: propext, Classical.choice, Quot.sound
Verif.Props.Inclusive.C58_set_debug_eq: propext, Classical.choice, Quot.sound
Verif.Props.C59_insert_cost: propext, Classical.choice, Quot.sound
Verif.Props.C59_remove_cost: propext, Classical.choice, Quot.sound
Verif.Props.C59_history_cost: propext, Classical.choice, Quot.sound
Verif.Props.Inclusive.C59_insert_cost: propext, Classical.choice, Quot.sound
Verif.Props.Inclusive.C59_remove_cost: propext, Classical.choice, Quot.sound
Verif.Props.Inclusive.C59_history_cost: propext, Classical.choice, Quot.sound
Verif.Props.C60_fuzz_coalesce: propext, Classical.choice, Quot.sound
Verif.Props.C60_fuzz_gaps: propext, Classical.choice, Quot.sound
Verif.Props.C60_first_last: propext, Classical.choice, Quot.sound
Verif.Props.C60_union_overlaps: propext, Classical.choice, Quot.sound
Verif.Props.C60_intersection_overlaps: propext, Classical.choice, Quot.sound
Verif.Props.Inclusive.C60_fuzz_coalesce: propext, Classical.choice, Quot.sound
Verif.Props.Inclusive.C60_fuzz_gaps: propext, Classical.choice, Quot.sound
Verif.Props.Inclusive.C60_first_last: propext, Classical.choice, Quot.sound
Verif.Props.Inclusive.C60_union_overlaps: propext, Classical.choice, Quot.sound
Verif.Props.Inclusive.C60_intersection_overlaps: propext, Classical.choice, Quot.sound
Verif.Props.C61_history: propext, Quot.sound
Verif.Props.C61_lookup: propext, Quot.sound
Verif.Props.C61_overlapping: propext, Classical.choice, Quot.sound
Verif.Props.C61_gaps: propext, Quot.sound
Verif.Props.C61_compare: propext, Quot.sound
Verif.Props.C61_sets: propext, Quot.sound
Verif.Props.Inclusive.C61_history: propext, Quot.sound
Verif.Props.Inclusive.C61_lookup: propext, Quot.sound
Verif.Props.Inclusive.C61_overlapping: propext, Classical.choice, Quot.sound
Verif.Props.Inclusive.C61_gaps: propext, Classical.choice, Quot.sound
Verif.Props.Inclusive.C61_compare: propext, Quot.sound
Verif.Props.Inclusive.C61_sets: propext, Quot.sound
Verif.Props.Inclusive.C61_widen: propext, Quot.sound
Verif.Props.C62_hash_prefix_free: propext, Quot.sound
Verif.Props.C62_hash_iff: propext, Quot.sound
Verif.Props.C62_hash_prefix_free_set: propext, Quot.sound
Verif.Props.Inclusive.C62_hash_prefix_free: propext, Quot.sound
Verif.Props.Inclusive.C62_hash_iff: propext, Quot.sound
Verif.Props.Inclusive.C62_hash_prefix_free_set: propext, Quot.sound
Verif.Props.C63_unwrap: propext, Quot.sound
Verif.Props.C63_union: propext, Classical.choice, Quot.sound
Verif.Props.C63_intersection: propext, Classical.choice, Quot.sound
Verif.Props.C63_lists: propext, Classical.choice, Quot.sound
Verif.Props.Inclusive.C63_union: propext, Classical.choice, Quot.sound
Verif.Props.Inclusive.C63_intersection: propext, Classical.choice, Quot.sound
Verif.Props.Inclusive.C63_lists: propext, Classical.choice, Quot.sound
Verif.Props.C64_panics: propext, Classical.choice, Quot.sound
Verif.Props.C64_terminates: propext, Classical.choice, Quot.sound
Verif.Props.C64_sorted_disjoint: propext, Classical.choice, Quot.sound
Verif.Props.C64_insert: propext, Classical.choice, Quot.sound
Verif.Props.C64_refinement: propext, Classical.choice, Quot.sound
Verif.Props.C64_contains_key: propext, Classical.choice, Quot.sound
Verif.Props.C64_chain: none
Verif.Props.C64_obtainable: propext, Classical.choice, Quot.sound
Verif.Props.C64_tiling: propext, Classical.choice, Quot.sound
Verif.Props.C64_queries: propext, Classical.choice, Quot.sound
Verif.Props.Inclusive.C64_panics: propext, Classical.choice, Quot.sound
Verif.Props.Inclusive.C64_terminates: propext, Classical.choice, Quot.sound
Verif.Props.Inclusive.C64_sorted_disjoint: propext, Classical.choice, Quot.sound
Verif.Props.Inclusive.C64_insert: propext, Classical.choice, Quot.sound
Verif.Props.Inclusive.C64_refinement: propext, Classical.choice, Quot.sound
Verif.Props.Inclusive.C64_contains_key: propext, Classical.choice, Quot.sound
Verif.Props.Inclusive.C64_obtainable: propext, Classical.choice, Quot.sound
Verif.Props.Inclusive.C64_obtainable_any: propext, Classical.choice, Quot.sound
Verif.Props.Inclusive.C64_tiling: propext, Classical.choice, Quot.sound
Verif.Props.Inclusive.C64_queries: propext, Classical.choice, Quot.sound
Verif.Props.C65_identical: propext, Quot.sound
Verif.Props.C65_insert: propext, Classical.choice, Quot.sound
Verif.Props.C65_remove: propext, Classical.choice, Quot.sound
Verif.Props.C65_history: propext, Classical.choice, Quot.sound
Verif.Props.C65_history_eq: propext, Classical.choice, Quot.sound
Verif.Props.C65_history_exact: propext, Classical.choice, Quot.sound
Verif.Props.C65_get: propext, Classical.choice, Quot.sound
Verif.Props.C65_overlapping: propext, Classical.choice, Quot.sound
Verif.Props.C65_gaps: propext, Classical.choice, Quot.sound
Verif.Props.C65_clone: propext, Classical.choice, Quot.sound
Verif.Props.C65_clone_eq: propext, Classical.choice, Quot.sound
Verif.Props.C65_union: propext, Classical.choice, Quot.sound
Verif.Props.C65_intersection: propext, Classical.choice, Quot.sound
Verif.Props.Inclusive.C65_identical: propext, Quot.sound
Verif.Props.Inclusive.C65_insert: propext, Classical.choice, Quot.sound
Verif.Props.Inclusive.C65_remove: propext, Classical.choice, Quot.sound
Verif.Props.Inclusive.C65_history: propext, Classical.choice, Quot.sound
Verif.Props.Inclusive.C65_history_eq: propext, Classical.choice, Quot.sound
Verif.Props.Inclusive.C65_history_exact: propext, Classical.choice, Quot.sound
Verif.Props.Inclusive.C65_get: propext, Classical.choice, Quot.sound
Verif.Props.Inclusive.C65_overlapping: propext, Classical.choice, Quot.sound
Verif.Props.Inclusive.C65_gaps: propext, Classical.choice, Quot.sound
Verif.Props.Inclusive.C65_clone: propext, Classical.choice, Quot.sound
Verif.Props.Inclusive.C65_clone_eq: propext, Classical.choice, Quot.sound
Verif.Props.Inclusive.C65_union: propext, Classical.choice, Quot.sound
Verif.Props.Inclusive.C65_intersection: propext, Classical.choice, Quot.sound
Verif.Props.C65_identical_operations: propext, Classical.choice, Quot.sound
Verif.Props.Inclusive.C65_identical_operations: propext, Classical.choice, Quot.sound
Verif.Props.Inclusive.C66_add_one_needed: propext, Classical.choice, Quot.sound
Verif.Props.Inclusive.C66_sub_one_needed: propext, Classical.choice, Quot.sound
Verif.Props.Inclusive.C66_laws_necessary_and_sufficient: propext, Classical.choice, Quot.sound
Verif.Props.Inclusive.C66_set_laws_necessary_and_sufficient: propext, Classical.choice, Quot.sound
Verif.Props.Inclusive.C66_skipping_hangs: propext, Classical.choice, Quot.sound
Verif.Props.Inclusive.C66_standing_still_hangs: propext, Classical.choice, Quot.sound
Verif.Props.C67_negation: propext, Quot.sound
Verif.Props.C67_panics: propext, Classical.choice, Quot.sound
Verif.Props.C67_terminates: propext, Classical.choice, Quot.sound
Verif.Props.C67_sorted_disjoint: propext, Classical.choice, Quot.sound
Verif.Props.C67_refinement: propext, Classical.choice, Quot.sound
Verif.Props.C67_neither_hangs: propext, Classical.choice, Quot.sound
Verif.Props.C67_returns_iff: propext, Classical.choice, Quot.sound
Verif.Props.C67_both_stay_apart: propext, Classical.choice, Quot.sound
Verif.Props.Inclusive.C67_negation: propext, Quot.sound
Verif.Props.Inclusive.C67_panics: propext, Classical.choice, Quot.sound
Verif.Props.Inclusive.C67_terminates: propext, Classical.choice, Quot.sound
Verif.Props.Inclusive.C67_sorted_disjoint: propext, Classical.choice, Quot.sound
Verif.Props.Inclusive.C67_refinement: propext, Classical.choice, Quot.sound
Verif.Props.Inclusive.C67_neither_hangs: propext, Classical.choice, Quot.sound
Verif.Props.Inclusive.C67_both_stay_apart: propext, Classical.choice, Quot.sound
Verif.Props.Inclusive.C67_returns_iff: propext, Classical.choice, Quot.sound
Verif.Props.C68_insert_clones: propext, Classical.choice, Quot.sound
Verif.Props.C68_remove_clones: propext, Classical.choice, Quot.sound
Verif.Props.C68_invalid: propext
Verif.Props.C68_history_clones: propext, Classical.choice, Quot.sound
Verif.Props.C68_query_clones: propext, Quot.sound
Verif.Props.C68_gaps_next_clones: none
Verif.Props.C68_clone_clones: propext, Classical.choice, Quot.sound
Verif.Props.C68_operations_clones: propext, Classical.choice, Quot.sound
Verif.Props.Inclusive.C68_insert_clones: propext, Classical.choice, Quot.sound
Verif.Props.Inclusive.C68_remove_clones: propext, Classical.choice, Quot.sound
Verif.Props.Inclusive.C68_invalid: propext
Verif.Props.Inclusive.C68_history_clones: propext, Classical.choice, Quot.sound
Verif.Props.Inclusive.C68_query_clones: propext, Quot.sound
Verif.Props.Inclusive.C68_gaps_next_clones: propext, Classical.choice, Quot.sound
Verif.Props.Inclusive.C68_clone_clones: propext, Classical.choice, Quot.sound
Verif.Props.Inclusive.C68_operations_clones: propext, Classical.choice, Quot.sound
Verif.Props.Inclusive.C69_reachable: propext, Classical.choice, Quot.sound
Verif.Props.Inclusive.C69_insert: propext, Classical.choice, Quot.sound
Verif.Props.Inclusive.C69_remove: propext, Classical.choice, Quot.sound
Verif.Props.Inclusive.C69_apply: propext, Classical.choice, Quot.sound
Verif.Props.Inclusive.C69_run: propext, Classical.choice, Quot.sound
Verif.Props.Inclusive.C69_get_key_value: propext, Classical.choice, Quot.sound
Verif.Props.Inclusive.C69_first_last: propext
Verif.Props.Inclusive.C69_overlapping: propext, Classical.choice, Quot.sound
Verif.Props.Inclusive.C69_gaps_iff: propext, Classical.choice, Quot.sound
Verif.Props.Inclusive.C69_gaps: propext, Classical.choice, Quot.sound
Verif.Props.C70_counts_exact: propext, Quot.sound
Verif.Props.Inclusive.C70_counts_exact: propext, Quot.sound
Verif.Props.C70_counted_is_real: propext, Quot.sound
Verif.Props.C70_overlapping_next: propext, Quot.sound
Verif.Props.C70_overlaps: propext, Quot.sound
Verif.Props.C70_overlapping: propext, Classical.choice, Quot.sound
Verif.Props.C70_overlapping_back: propext, Classical.choice, Quot.sound
Verif.Props.C70_gaps: propext, Classical.choice, Quot.sound
Verif.Props.Inclusive.C70_counted_is_real: propext, Quot.sound
Verif.Props.Inclusive.C70_overlapping_next: propext, Quot.sound
Verif.Props.Inclusive.C70_overlaps: propext, Quot.sound
Verif.Props.Inclusive.C70_overlapping: propext, Classical.choice, Quot.sound
Verif.Props.Inclusive.C70_overlapping_back: propext, Classical.choice, Quot.sound
Verif.Props.Inclusive.C70_gaps: propext, Classical.choice, Quot.sound
Verif.Props.C71_each_at_most_once: propext, Quot.sound
Verif.Props.C71_ends: propext, Quot.sound
Verif.Props.C71_items: propext, Quot.sound
Verif.Props.C71_consistent: propext, Classical.choice, Quot.sound
Verif.Props.Inclusive.C71_each_at_most_once: propext, Quot.sound
Verif.Props.Inclusive.C71_ends: propext, Quot.sound
Verif.Props.Inclusive.C71_items: propext, Quot.sound
Verif.Props.Inclusive.C71_consistent: propext, Classical.choice, Quot.sound
Verif.Props.C71_asks: propext, Quot.sound
Verif.Props.Inclusive.C71_asks: propext, Quot.sound
Verif.Props.C72_overlapping: propext, Classical.choice, Quot.sound
Verif.Props.C72_overlapping_loses_one: propext, Classical.choice, Quot.sound
Verif.Props.C72_gaps_ordered: propext, Classical.choice, Quot.sound
Verif.Props.C72_gaps_clone: propext, Classical.choice, Quot.sound
Verif.Props.C72_gaps_skips_entry: propext
Verif.Props.Inclusive.C72_overlapping: propext, Classical.choice, Quot.sound
Verif.Props.Inclusive.C72_overlapping_loses_one: propext, Classical.choice, Quot.sound
Verif.Props.Inclusive.C72_gaps_ordered: propext, Classical.choice, Quot.sound
Verif.Props.Inclusive.C72_gaps_clone: propext, Classical.choice, Quot.sound
Verif.Props.Inclusive.C72_gaps_skips_entry: propext
Verif.Props.C72_next_not_interrupted: propext
Verif.Props.C72_next_interrupted: none
Verif.Props.C72_nextBack_not_interrupted: propext, Quot.sound
Verif.Props.C72_gaps_not_interrupted: none
Verif.Props.Inclusive.C72_next_not_interrupted: propext
Verif.Props.Inclusive.C72_next_interrupted: none
Verif.Props.Inclusive.C72_nextBack_not_interrupted: propext, Quot.sound
Verif.Props.Inclusive.C72_gaps_not_interrupted: Quot.sound
Verif.Props.C73_not_interrupted: propext, Quot.sound
Verif.Props.C73_intersection: propext, Classical.choice, Quot.sound
Verif.Props.C73_union: propext, Classical.choice, Quot.sound
Verif.Props.Inclusive.C73_intersection: propext, Classical.choice, Quot.sound
Verif.Props.Inclusive.C73_union: propext, Classical.choice, Quot.sound
Verif.Props.C73_union_interrupted: propext, Quot.sound
Verif.Props.C73_intersection_interrupted: propext, Quot.sound
Verif.Props.C74_counts_exact: propext, Quot.sound
Verif.Props.Inclusive.C74_counts_exact: propext, Quot.sound
Verif.Props.C74_counted_is_real: propext, Quot.sound
Verif.Props.C74_union: propext, Classical.choice, Quot.sound
Verif.Props.C74_intersection: propext, Classical.choice, Quot.sound
Verif.Props.C74_done: propext, Classical.choice, Quot.sound
Verif.Props.Inclusive.C74_union: propext, Classical.choice, Quot.sound
Verif.Props.Inclusive.C74_intersection: propext, Classical.choice, Quot.sound
Verif.Props.Inclusive.C74_done: propext, Classical.choice, Quot.sound
Verif.Props.C75_extend_reachable: propext, Classical.choice, Quot.sound
Verif.Props.C75_extend_outcome: propext, Classical.choice, Quot.sound
Verif.Props.C75_no_stale_values: propext, Classical.choice, Quot.sound
Verif.Props.C75_retry_insert: propext, Classical.choice, Quot.sound
Verif.Props.C75_retry_remove: propext, Classical.choice, Quot.sound
Verif.Props.C75_set_insert: propext, Classical.choice, Quot.sound
Verif.Props.C75_set_remove: propext, Classical.choice, Quot.sound
Verif.Props.C75_set_extend: propext
Verif.Props.Inclusive.C75_extend_reachable: propext, Classical.choice, Quot.sound
Verif.Props.Inclusive.C75_extend_outcome: propext, Classical.choice, Quot.sound
Verif.Props.Inclusive.C75_no_stale_values: propext, Classical.choice, Quot.sound
Verif.Props.Inclusive.C75_retry_insert: propext, Classical.choice, Quot.sound
Verif.Props.Inclusive.C75_retry_remove: propext, Classical.choice, Quot.sound
Verif.Props.Inclusive.C75_set_insert: propext, Classical.choice, Quot.sound
Verif.Props.Inclusive.C75_set_remove: propext, Classical.choice, Quot.sound
Verif.Props.Inclusive.C75_set_extend: propext
Verif.Props.C76_serialize: propext, Quot.sound
Verif.Props.C76_serialize_error: propext, Quot.sound
Verif.Props.C76_deserialize: propext, Classical.choice, Quot.sound
Verif.Props.C76_round_trip: propext, Classical.choice, Quot.sound
Verif.Props.C76_set_serialize: propext, Quot.sound
Verif.Props.C76_set_serialize_error: propext, Quot.sound
Verif.Props.C76_set_deserialize: propext, Classical.choice, Quot.sound
Verif.Props.C76_set_round_trip: propext, Classical.choice, Quot.sound
Verif.Props.Inclusive.C76_serialize: propext, Quot.sound
Verif.Props.Inclusive.C76_serialize_error: propext, Quot.sound
Verif.Props.Inclusive.C76_deserialize: propext, Classical.choice, Quot.sound
Verif.Props.Inclusive.C76_round_trip: propext, Classical.choice, Quot.sound
Verif.Props.Inclusive.C76_set_serialize: propext, Quot.sound
Verif.Props.Inclusive.C76_set_serialize_error: propext, Quot.sound
Verif.Props.Inclusive.C76_set_deserialize: propext, Classical.choice, Quot.sound
Verif.Props.Inclusive.C76_set_round_trip: propext, Classical.choice, Quot.sound
Verif.Props.C77_gaps_restrict: propext, Classical.choice, Quot.sound
Verif.Props.C77_overlapping_restrict: propext, Classical.choice, Quot.sound
Verif.Props.C77_overlapping_split: propext, Classical.choice, Quot.sound
Verif.Props.C77_gaps_split: propext, Classical.choice, Quot.sound
Verif.Props.Inclusive.C77_overlapping_restrict: propext, Classical.choice, Quot.sound
Verif.Props.Inclusive.C77_overlapping_split: propext, Classical.choice, Quot.sound
Verif.Props.Inclusive.C77_gaps_restrict: propext, Classical.choice, Quot.sound
Verif.Props.Inclusive.C77_gaps_split: propext, Classical.choice, Quot.sound
Verif.Props.C78_fill_gaps: propext, Classical.choice, Quot.sound
Verif.Props.C78_underlay: propext, Classical.choice, Quot.sound
Verif.Props.C78_update: propext, Classical.choice, Quot.sound
Verif.Props.C78_drop_overlapping: propext, Classical.choice, Quot.sound
Verif.Props.Inclusive.C78_fill_gaps: propext, Classical.choice, Quot.sound
Verif.Props.Inclusive.C78_underlay: propext, Classical.choice, Quot.sound
Verif.Props.Inclusive.C78_update: propext, Classical.choice, Quot.sound
Verif.Props.Inclusive.C78_drop_overlapping: propext, Classical.choice, Quot.sound
Verif.Props.Inclusive.C79_map_strategy: propext, Classical.choice, Quot.sound
Verif.Props.Inclusive.C79_set_strategy: propext, Classical.choice, Quot.sound
Verif.Props.Inclusive.C79_strategies_reach_everything: propext, Classical.choice, Quot.sound
Verif.Props.Inclusive.C79_map_len: propext, Classical.choice, Quot.sound
Verif.Props.Inclusive.C79_map_iter_reversible: propext, Classical.choice, Quot.sound
Verif.Props.Inclusive.C79_map_overlapping_reversible: propext, Classical.choice, Quot.sound
Verif.Props.Inclusive.C79_map_arbitrary: propext, Classical.choice, Quot.sound
Verif.Props.Inclusive.C79_map_hash: propext, Quot.sound
Verif.Props.Inclusive.C79_map_ord: propext, Classical.choice, Quot.sound
Verif.Props.Inclusive.C79_set_len: propext, Classical.choice, Quot.sound
Verif.Props.Inclusive.C79_set_iter_reversible: propext, Classical.choice, Quot.sound
Verif.Props.Inclusive.C79_set_overlapping_reversible: propext, Classical.choice, Quot.sound
Verif.Props.Inclusive.C79_set_first_last: propext, Classical.choice, Quot.sound
Verif.Props.Inclusive.C79_set_arbitrary: propext, Classical.choice, Quot.sound
Verif.Props.Inclusive.C79_set_hash: propext, Classical.choice, Quot.sound
Verif.Props.Inclusive.C79_set_ord: propext, Classical.choice, Quot.sound
Verif.Props.Inclusive.C79_union_contains: propext, Classical.choice, Quot.sound
Verif.Props.Inclusive.C79_intersection_contains: propext, Classical.choice, Quot.sound
Verif.Props.Inclusive.C79_hash_meaning: propext, Quot.sound
Verif.Props.Inclusive.C79_ord_meaning: propext, Quot.sound
Verif.Props.Inclusive.C79_set_item_eq: propext
Verif.Props.C79_map_strategy: propext, Classical.choice, Quot.sound
Verif.Props.C79_set_strategy: propext, Classical.choice, Quot.sound
Verif.Props.C79_strategies_reach_everything: propext, Classical.choice, Quot.sound
Verif.Props.C79_map_len: propext, Classical.choice, Quot.sound
Verif.Props.C79_map_iter_reversible: propext, Classical.choice, Quot.sound
Verif.Props.C79_map_overlapping_reversible: propext, Classical.choice, Quot.sound
Verif.Props.C79_map_arbitrary: propext, Classical.choice, Quot.sound
Verif.Props.C79_map_hash: propext, Quot.sound
Verif.Props.C79_map_ord: propext, Classical.choice, Quot.sound
Verif.Props.C79_set_len: propext, Classical.choice, Quot.sound
Verif.Props.C79_set_iter_reversible: propext, Classical.choice, Quot.sound
Verif.Props.C79_set_overlapping_reversible: propext, Classical.choice, Quot.sound
Verif.Props.C79_set_first_last: propext, Classical.choice, Quot.sound
Verif.Props.C79_set_arbitrary: propext, Classical.choice, Quot.sound
Verif.Props.C79_set_hash: propext, Classical.choice, Quot.sound
Verif.Props.C79_set_ord: propext, Classical.choice, Quot.sound
Verif.Props.C79_union_contains: propext, Classical.choice, Quot.sound
Verif.Props.C79_intersection_contains: propext, Classical.choice, Quot.sound
Verif.Props.C79_hash_meaning: propext, Quot.sound
Verif.Props.C79_ord_meaning: propext, Quot.sound
Verif.Props.C79_set_item_eq: propext
Verif.Props.C79_steps: propext, Classical.choice, Quot.sound
Verif.Props.C79_steps_inputs: propext, Quot.sound
Verif.Props.C80_stored_from_history: propext, Classical.choice, Quot.sound
Verif.Props.Inclusive.C80_stored_from_history: propext, Classical.choice, Quot.sound
Verif.Props.C80_set_stored_from_history: propext, Classical.choice, Quot.sound
Verif.Props.C80_union_ends: propext, Quot.sound
Verif.Props.C80_intersection_ends: propext, Classical.choice, Quot.sound
Verif.Props.C80_bitor_ends: propext, Classical.choice, Quot.sound
Verif.Props.C80_bitand_ends: propext, Classical.choice, Quot.sound
Verif.Props.C80_gaps_ends: propext, Classical.choice, Quot.sound
Verif.Props.Inclusive.C80_gaps_ends: propext, Classical.choice, Quot.sound
Verif.Props.Inclusive.C80_set_stored_from_history: propext, Classical.choice, Quot.sound
Verif.Props.Inclusive.C80_union_ends: propext, Quot.sound
Verif.Props.Inclusive.C80_intersection_ends: propext, Classical.choice, Quot.sound
Verif.Props.Inclusive.C80_bitor_ends: propext, Classical.choice, Quot.sound
Verif.Props.Inclusive.C80_bitand_ends: propext, Classical.choice, Quot.sound
Verif.Props.C81_division_unique: propext, Classical.choice, Quot.sound
Verif.Props.C81_union_division: propext, Classical.choice, Quot.sound
Verif.Props.C81_intersection_pieces: propext, Classical.choice, Quot.sound
Verif.Props.Inclusive.C81_division_unique: propext, Classical.choice, Quot.sound
Verif.Props.Inclusive.C81_union_division: propext, Classical.choice, Quot.sound
Verif.Props.Inclusive.C81_intersection_pieces: propext, Classical.choice, Quot.sound
Verif.Props.Inclusive.C82_overlay: propext, Classical.choice, Quot.sound
Verif.Props.Inclusive.C82_paste: propext, Classical.choice, Quot.sound
Verif.Props.Inclusive.C82_overlay_assoc: propext, Classical.choice, Quot.sound
Verif.Props.Inclusive.C82_overlay_empty: propext, Classical.choice, Quot.sound
Verif.Props.Inclusive.C82_overlay_again: propext, Classical.choice, Quot.sound
Verif.Props.Inclusive.C82_overlay_comm: propext, Classical.choice, Quot.sound
Verif.Props.Inclusive.C82_undo_insert: propext, Classical.choice, Quot.sound
Verif.Props.Inclusive.C82_undo_remove: propext, Classical.choice, Quot.sound
Verif.Props.C82_overlay: propext, Classical.choice, Quot.sound
Verif.Props.C82_paste: propext, Classical.choice, Quot.sound
Verif.Props.C82_overlay_assoc: propext, Classical.choice, Quot.sound
Verif.Props.C82_overlay_empty: propext, Classical.choice, Quot.sound
Verif.Props.C82_overlay_again: propext, Classical.choice, Quot.sound
Verif.Props.C82_overlay_comm: propext, Classical.choice, Quot.sound
Verif.Props.C82_undo_insert: propext, Classical.choice, Quot.sound
Verif.Props.C82_undo_remove: propext, Classical.choice, Quot.sound
Verif.Props.Inclusive.C83_difference: propext, Classical.choice, Quot.sound
Verif.Props.Inclusive.C83_symmetric_difference: propext, Classical.choice, Quot.sound
Verif.Props.Inclusive.C83_subset: propext, Classical.choice, Quot.sound
Verif.Props.Inclusive.C83_subset_ops: propext, Classical.choice, Quot.sound
Verif.Props.Inclusive.C83_subset_antisymm: propext, Classical.choice, Quot.sound
Verif.Props.Inclusive.C83_common_key: propext, Classical.choice, Quot.sound
Verif.Props.Inclusive.C83_fill_gaps: propext, Classical.choice, Quot.sound
Verif.Props.C83_difference: propext, Classical.choice, Quot.sound
Verif.Props.C83_symmetric_difference: propext, Classical.choice, Quot.sound
Verif.Props.C83_subset: propext, Classical.choice, Quot.sound
Verif.Props.C83_subset_ops: propext, Classical.choice, Quot.sound
Verif.Props.C83_subset_antisymm: propext, Classical.choice, Quot.sound
Verif.Props.C83_common_key: propext, Classical.choice, Quot.sound
Verif.Props.C83_fill_gaps: propext, Classical.choice, Quot.sound
Verif.Props.Inclusive.C84_history: propext, Quot.sound
Verif.Props.Inclusive.C84_overlapping: propext, Classical.choice, Quot.sound
Verif.Props.Inclusive.C84_gaps: propext, Quot.sound
Verif.Props.Inclusive.C84_summary: propext, Quot.sound
Verif.Props.Inclusive.C84_flag_source: propext, Quot.sound
Verif.Props.Inclusive.C84_lookup: propext, Classical.choice, Quot.sound
Verif.Props.Inclusive.C84_set_history: propext, Quot.sound
Verif.Props.Inclusive.C84_intersection: propext, Quot.sound
Verif.Props.Inclusive.C84_union: propext, Classical.choice, Quot.sound
Verif.Props.C85_constant: propext, Quot.sound
Verif.Props.C85_fuel: propext, Quot.sound
Verif.Props.C85_panics: propext, Classical.choice, Quot.sound
Verif.Props.C85_sorted_disjoint: propext, Classical.choice, Quot.sound
Verif.Props.C85_refinement: propext, Classical.choice, Quot.sound
Verif.Props.C85_contains_key: propext, Classical.choice, Quot.sound
Verif.Props.C85_reachable: propext, Classical.choice, Quot.sound
Verif.Props.C85_returns: propext, Classical.choice, Quot.sound
Verif.Props.C85_hangs: propext, Classical.choice, Quot.sound
Verif.Props.Inclusive.C85_constant: propext, Quot.sound
Verif.Props.Inclusive.C85_fuel: propext, Quot.sound
Verif.Props.Inclusive.C85_panics: propext, Classical.choice, Quot.sound
Verif.Props.Inclusive.C85_sorted_disjoint: propext, Classical.choice, Quot.sound
Verif.Props.Inclusive.C85_refinement: propext, Classical.choice, Quot.sound
Verif.Props.Inclusive.C85_contains_key: propext, Classical.choice, Quot.sound
Verif.Props.Inclusive.C85_reachable: propext, Classical.choice, Quot.sound
Verif.Props.Inclusive.C85_returns: propext, Classical.choice, Quot.sound
Verif.Props.Inclusive.C85_hangs: propext, Classical.choice, Quot.sound
Verif.Props.C86_sufficient: propext, Classical.choice, Quot.sound
Verif.Props.C86_hangs: propext, Classical.choice, Quot.sound
Verif.Props.C86_corrupts: propext, Classical.choice, Quot.sound
Verif.Props.C86_iff: propext, Classical.choice, Quot.sound
Verif.Props.Inclusive.C86_sufficient: propext, Classical.choice, Quot.sound
Verif.Props.Inclusive.C86_hangs: propext, Classical.choice, Quot.sound
Verif.Props.Inclusive.C86_iff: propext, Classical.choice, Quot.sound
Verif.Props.C87_layouts_exist: propext, Classical.choice, Quot.sound
Verif.Props.C87_height: propext, Classical.choice, Quot.sound
Verif.Props.C87_get: propext, Classical.choice, Quot.sound
Verif.Props.C87_overlapping: propext, Classical.choice, Quot.sound
Verif.Props.C87_insert: propext, Classical.choice, Quot.sound
Verif.Props.C87_remove: propext, Classical.choice, Quot.sound
Verif.Props.C87_history: propext, Classical.choice, Quot.sound
Verif.Props.Inclusive.C87_get: propext, Classical.choice, Quot.sound
Verif.Props.Inclusive.C87_overlapping: propext, Classical.choice, Quot.sound
Verif.Props.Inclusive.C87_insert: propext, Classical.choice, Quot.sound
Verif.Props.Inclusive.C87_remove: propext, Classical.choice, Quot.sound
Verif.Props.Inclusive.C87_history: propext, Classical.choice, Quot.sound
Verif.Props.C87_counts_exact: propext, Classical.choice, Quot.sound
Verif.Props.C87_counts_exact_map: propext, Classical.choice, Quot.sound
Verif.Props.Inclusive.C87_counts_exact_map: propext, Classical.choice, Quot.sound
Verif.Props.C88_insert: propext, Classical.choice, Quot.sound
Verif.Props.C88_remove: propext, Classical.choice, Quot.sound
Verif.Props.C88_invalid: propext
Verif.Props.C88_history: propext, Classical.choice, Quot.sound
Verif.Props.C88_insert_total: propext, Classical.choice, Quot.sound
Verif.Props.C88_remove_total: propext, Classical.choice, Quot.sound
Verif.Props.Inclusive.C88_insert: propext, Classical.choice, Quot.sound
Verif.Props.Inclusive.C88_remove: propext, Classical.choice, Quot.sound
Verif.Props.Inclusive.C88_invalid: propext
Verif.Props.Inclusive.C88_history: propext, Classical.choice, Quot.sound
Verif.Props.Inclusive.C88_insert_total: propext, Classical.choice, Quot.sound
Verif.Props.Inclusive.C88_remove_total: propext, Classical.choice, Quot.sound
Verif.Props.C88_insert_exact: propext
Verif.Props.C88_remove_exact: propext
Verif.Props.Inclusive.C88_insert_exact: propext, Quot.sound
Verif.Props.Inclusive.C88_remove_exact: propext, Quot.sound
Verif.Props.C89_history: propext, Classical.choice, Quot.sound
Verif.Props.C89_get: propext, Classical.choice, Quot.sound
Verif.Props.C89_ends: propext
Verif.Props.C89_overlapping: propext, Classical.choice, Quot.sound
Verif.Props.C89_gaps: propext, Classical.choice, Quot.sound
Verif.Props.C89_set_history: propext, Classical.choice, Quot.sound
Verif.Props.C89_contains: propext, Classical.choice, Quot.sound
Verif.Props.C89_intersection: propext, Classical.choice, Quot.sound
Verif.Props.C89_union: propext, Classical.choice, Quot.sound
Verif.Props.C89_bitops: propext, Classical.choice, Quot.sound
Verif.Props.C90_unused_keys_insert: propext, Classical.choice, Quot.sound
Verif.Props.C90_unused_keys_remove: propext, Classical.choice, Quot.sound
Verif.Props.C90_unused_keys_queries: propext, Classical.choice, Quot.sound
Verif.Props.C90_insert_refused: propext, Quot.sound
Verif.Props.C90_remove_refused: propext, Quot.sound
Verif.Props.C90_history: propext, Classical.choice, Quot.sound
Verif.Props.C90_lookup_nan: propext, Quot.sound
Verif.Props.Inclusive.C90_unused_keys_insert: propext, Classical.choice, Quot.sound
Verif.Props.Inclusive.C90_unused_keys_remove: propext, Classical.choice, Quot.sound
Verif.Props.Inclusive.C90_unused_keys_queries: propext, Classical.choice, Quot.sound
Verif.Props.Inclusive.C90_insert_refused: propext, Quot.sound
Verif.Props.Inclusive.C90_remove_refused: propext, Quot.sound
Verif.Props.Inclusive.C90_history: propext, Classical.choice, Quot.sound
Verif.Props.Inclusive.C90_nan_empties_the_map: propext, Classical.choice, Quot.sound
Verif.Props.Inclusive.C90_nan_is_found_everywhere: propext, Classical.choice, Quot.sound
Verif.Props.C91_nothing_made_up: propext, Quot.sound
Verif.Props.C91_get: propext
Verif.Props.C91_overlapping: propext, Quot.sound
Verif.Props.C91_gaps: propext, Quot.sound
Verif.Props.C91_get_honest: propext
Verif.Props.C91_overlapping_honest: propext, Quot.sound
Verif.Props.C91_gaps_honest: propext, Quot.sound
Verif.Props.C91_insert_honest: propext, Quot.sound
Verif.Props.C91_remove_honest: propext, Quot.sound
Verif.Props.Inclusive.C91_nothing_made_up: propext, Quot.sound
Verif.Props.Inclusive.C91_get: propext
Verif.Props.Inclusive.C91_overlapping: propext, Quot.sound
Verif.Props.Inclusive.C91_gaps: propext, Quot.sound
Verif.Props.Inclusive.C91_get_honest: propext
Verif.Props.Inclusive.C91_overlapping_honest: propext, Quot.sound
Verif.Props.Inclusive.C91_gaps_honest: propext, Quot.sound
Verif.Props.Inclusive.C91_insert_honest: propext, Quot.sound
Verif.Props.Inclusive.C91_remove_honest: propext, Quot.sound
Verif.Props.C92_union: propext, Classical.choice, Quot.sound
Verif.Props.C92_union_length: propext, Classical.choice, Quot.sound
Verif.Props.C92_intersection: propext, Quot.sound
Verif.Props.C92_intersection_length: propext, Quot.sound
Verif.Props.C92_union_honest: propext, Quot.sound
Verif.Props.C92_intersection_honest: propext, Quot.sound
Verif.Props.Inclusive.C92_union: propext, Classical.choice, Quot.sound
Verif.Props.Inclusive.C92_union_length: propext, Classical.choice, Quot.sound
Verif.Props.Inclusive.C92_intersection: propext, Quot.sound
Verif.Props.Inclusive.C92_intersection_length: propext, Quot.sound
Verif.Props.Inclusive.C92_union_honest: propext, Quot.sound
Verif.Props.Inclusive.C92_intersection_honest: propext, Quot.sound
Verif.Props.C93_map_pretty: propext, Classical.choice, Quot.sound
Verif.Props.C93_set_pretty: propext, Classical.choice, Quot.sound
Verif.Props.C93_map_pretty_lines: propext, Classical.choice, Quot.sound
Verif.Props.C93_set_pretty_lines: propext, Classical.choice, Quot.sound
Verif.Props.C93_map_debug_tells: propext, Classical.choice, Quot.sound
Verif.Props.C93_map_pretty_tells: propext, Classical.choice, Quot.sound
Verif.Props.C93_set_debug_tells: propext, Classical.choice, Quot.sound
Verif.Props.C93_set_pretty_tells: propext, Classical.choice, Quot.sound
Verif.Props.C93_map_debug_iff: propext, Classical.choice, Quot.sound
Verif.Props.C93_map_integers: propext, Classical.choice, Quot.sound
Verif.Props.C93_set_integers: propext, Classical.choice, Quot.sound
Verif.Props.Inclusive.C93_map_pretty: propext, Classical.choice, Quot.sound
Verif.Props.Inclusive.C93_set_pretty: propext, Classical.choice, Quot.sound
Verif.Props.Inclusive.C93_map_pretty_lines: propext, Classical.choice, Quot.sound
Verif.Props.Inclusive.C93_set_pretty_lines: propext, Classical.choice, Quot.sound
Verif.Props.Inclusive.C93_map_debug_tells: propext, Classical.choice, Quot.sound
Verif.Props.Inclusive.C93_map_pretty_tells: propext, Classical.choice, Quot.sound
Verif.Props.Inclusive.C93_set_debug_tells: propext, Classical.choice, Quot.sound
Verif.Props.Inclusive.C93_set_pretty_tells: propext, Classical.choice, Quot.sound
Verif.Props.Inclusive.C93_map_debug_iff: propext, Classical.choice, Quot.sound
Verif.Props.Inclusive.C93_map_integers: propext, Classical.choice, Quot.sound
Verif.Props.Inclusive.C93_set_integers: propext, Classical.choice, Quot.sound
Verif.Props.C94_overlapping_both_ends: propext, Classical.choice, Quot.sound
Verif.Props.C94_overlapping_total: propext, Classical.choice, Quot.sound
Verif.Props.C94_gaps_bounded: propext, Quot.sound
Verif.Props.C94_gaps_endless: none
Verif.Props.C94_bitor: propext, Quot.sound
Verif.Props.C94_bitand: propext, Quot.sound
Verif.Props.C94_overlapping_honest: propext, Classical.choice, Quot.sound
Verif.Props.C94_bitor_honest: propext, Classical.choice, Quot.sound
Verif.Props.C94_bitand_honest: propext, Classical.choice, Quot.sound
Verif.Props.Inclusive.C94_overlapping_both_ends: propext, Classical.choice, Quot.sound
Verif.Props.Inclusive.C94_overlapping_total: propext, Classical.choice, Quot.sound
Verif.Props.Inclusive.C94_gaps_bounded: propext, Quot.sound
Verif.Props.Inclusive.C94_gaps_endless: none
Verif.Props.Inclusive.C94_bitor: propext, Quot.sound
Verif.Props.Inclusive.C94_bitand: propext, Quot.sound
Verif.Props.Inclusive.C94_overlapping_honest: propext, Classical.choice, Quot.sound
Verif.Props.Inclusive.C94_bitor_honest: propext, Classical.choice, Quot.sound
Verif.Props.Inclusive.C94_bitand_honest: propext, Classical.choice, Quot.sound
Verif.Props.Inclusive.C95_insert: propext, Classical.choice, Quot.sound
Verif.Props.Inclusive.C95_remove: propext, Classical.choice, Quot.sound
Verif.Props.Inclusive.C95_gaps: propext, Classical.choice, Quot.sound
Verif.Props.Inclusive.C95_insert_gaps: propext, Classical.choice, Quot.sound
Verif.Props.Inclusive.C95_hull: propext, Classical.choice, Quot.sound
Verif.Props.Inclusive.C95_monotone: propext, Classical.choice, Quot.sound
Verif.Props.Inclusive.C95_count: propext, Classical.choice, Quot.sound
Verif.Props.Inclusive.C95_union_intersection: propext, Classical.choice, Quot.sound
Verif.Props.Inclusive.C95_operators: propext, Classical.choice, Quot.sound
Verif.Props.Inclusive.C95_set_count: propext, Classical.choice, Quot.sound
Verif.Props.C95_insert: propext, Classical.choice, Quot.sound
Verif.Props.C95_remove: propext, Classical.choice, Quot.sound
Verif.Props.C95_gaps: propext, Classical.choice, Quot.sound
Verif.Props.C95_insert_gaps: propext, Classical.choice, Quot.sound
Verif.Props.C95_hull: propext, Classical.choice, Quot.sound
Verif.Props.C95_monotone: propext, Classical.choice, Quot.sound
Verif.Props.C95_count: propext, Classical.choice, Quot.sound
Verif.Props.C95_union_intersection: propext, Classical.choice, Quot.sound
Verif.Props.C95_operators: propext, Classical.choice, Quot.sound
Verif.Props.C95_set_count: propext, Classical.choice, Quot.sound
Verif.Props.C96_roster: propext, Classical.choice, Quot.sound
Verif.Props.C96_roster_rows: propext, Classical.choice, Quot.sound
Verif.Props.C96_roster_rows_exact: propext, Classical.choice, Quot.sound
Verif.Props.C96_bench_insert: propext, Classical.choice, Quot.sound
Verif.Props.C96_bench_operations: propext, Classical.choice, Quot.sound
Verif.Props.C96_bench_lookups: propext, Classical.choice, Quot.sound
Verif.Props.Inclusive.C96_bench_insert: propext, Classical.choice, Quot.sound
Verif.Props.Inclusive.C96_bench_operations: propext, Classical.choice, Quot.sound
Verif.Props.Inclusive.C96_bench_lookups: propext, Quot.sound
Verif.Props.C97_eq_iff: propext
Verif.Props.C97_insert: propext, Classical.choice, Quot.sound
Verif.Props.C97_remove: propext, Classical.choice, Quot.sound
Verif.Props.C97_apply: propext, Classical.choice, Quot.sound
Verif.Props.C97_history: propext, Classical.choice, Quot.sound
Verif.Props.C97_lookup: propext, Classical.choice, Quot.sound
Verif.Props.C97_ends: propext
Verif.Props.C97_overlapping: propext, Classical.choice, Quot.sound
Verif.Props.C97_gaps: propext, Classical.choice, Quot.sound
Verif.Props.C97_compare: propext, Classical.choice, Quot.sound
Verif.Props.C97_set_eq_iff: propext
Verif.Props.C97_set_update: propext, Classical.choice, Quot.sound
Verif.Props.C97_set_lookup: propext, Classical.choice, Quot.sound
Verif.Props.C97_set_operations: propext, Classical.choice, Quot.sound
Verif.Props.C97_set_operators: propext, Classical.choice, Quot.sound
Verif.Props.Inclusive.C97_eq_iff: propext, Quot.sound
Verif.Props.Inclusive.C97_insert: propext, Classical.choice, Quot.sound
Verif.Props.Inclusive.C97_remove: propext, Classical.choice, Quot.sound
Verif.Props.Inclusive.C97_apply: propext, Classical.choice, Quot.sound
Verif.Props.Inclusive.C97_history: propext, Classical.choice, Quot.sound
Verif.Props.Inclusive.C97_lookup: propext, Classical.choice, Quot.sound
Verif.Props.Inclusive.C97_ends: propext, Quot.sound
Verif.Props.Inclusive.C97_overlapping: propext, Classical.choice, Quot.sound
Verif.Props.Inclusive.C97_gaps: propext, Classical.choice, Quot.sound
Verif.Props.Inclusive.C97_compare: propext, Classical.choice, Quot.sound
Verif.Props.Inclusive.C97_set_eq_iff: propext, Quot.sound
Verif.Props.Inclusive.C97_set_update: propext, Classical.choice, Quot.sound
Verif.Props.Inclusive.C97_set_lookup: propext, Classical.choice, Quot.sound
Verif.Props.Inclusive.C97_set_operations: propext, Classical.choice, Quot.sound
Verif.Props.Inclusive.C97_set_operators: propext, Classical.choice, Quot.sound
Verif.Props.C98_union: propext, Classical.choice, Quot.sound
Verif.Props.C98_intersection: propext, Classical.choice, Quot.sound
Verif.Props.C98_union_intersection: propext, Classical.choice, Quot.sound
Verif.Props.C98_bitand: propext, Classical.choice, Quot.sound
Verif.Props.C98_bitor: propext, Classical.choice, Quot.sound
Verif.Props.C98_remove: propext, Classical.choice, Quot.sound
Verif.Props.C98_insert: propext, Classical.choice, Quot.sound
Verif.Props.C98_remove_balance: propext, Classical.choice, Quot.sound
Verif.Props.C98_gaps: propext, Classical.choice, Quot.sound
Verif.Props.C98_set_insert: propext, Classical.choice, Quot.sound
Verif.Props.C98_set_remove: propext, Classical.choice, Quot.sound
Verif.Props.Inclusive.C98_union: propext, Classical.choice, Quot.sound
Verif.Props.Inclusive.C98_intersection: propext, Classical.choice, Quot.sound
Verif.Props.Inclusive.C98_union_intersection: propext, Classical.choice, Quot.sound
Verif.Props.Inclusive.C98_bitand: propext, Classical.choice, Quot.sound
Verif.Props.Inclusive.C98_bitor: propext, Classical.choice, Quot.sound
Verif.Props.Inclusive.C98_remove: propext, Classical.choice, Quot.sound
Verif.Props.Inclusive.C98_insert: propext, Classical.choice, Quot.sound
Verif.Props.Inclusive.C98_remove_balance: propext, Classical.choice, Quot.sound
Verif.Props.Inclusive.C98_gaps: propext, Classical.choice, Quot.sound
Verif.Props.Inclusive.C98_set_insert: propext, Classical.choice, Quot.sound
Verif.Props.Inclusive.C98_set_remove: propext, Classical.choice, Quot.sound
Verif.Props.Inclusive.C99_extend: propext, Classical.choice, Quot.sound
Verif.Props.Inclusive.C99_rebuild: propext, Classical.choice, Quot.sound
Verif.Props.Inclusive.C99_set_insert_remove: propext, Classical.choice, Quot.sound
Verif.Props.Inclusive.C99_bitor: propext, Classical.choice, Quot.sound
Verif.Props.Inclusive.C99_bitand: propext, Classical.choice, Quot.sound
Verif.Props.Inclusive.C99_bitor_comparisons: propext, Classical.choice, Quot.sound
Verif.Props.Inclusive.C99_bitand_comparisons: propext, Classical.choice, Quot.sound
Verif.Props.C99_extend: propext, Classical.choice, Quot.sound
Verif.Props.C99_rebuild: propext, Classical.choice, Quot.sound
Verif.Props.C99_set_insert_remove: propext, Classical.choice, Quot.sound
Verif.Props.C99_bitor: propext, Classical.choice, Quot.sound
Verif.Props.C99_bitand: propext, Classical.choice, Quot.sound
Verif.Props.C99_bitor_comparisons: propext, Classical.choice, Quot.sound
Verif.Props.C99_bitand_comparisons: propext, Classical.choice, Quot.sound
Verif.Props.Inclusive.C100_map_values: propext, Classical.choice, Quot.sound
Verif.Props.Inclusive.C100_map_values_exact: propext, Classical.choice, Quot.sound
Verif.Props.Inclusive.C100_map_values_injective: propext, Classical.choice, Quot.sound
Verif.Props.Inclusive.C100_map_values_len: propext, Classical.choice, Quot.sound
Verif.Props.Inclusive.C100_some_entries: propext, Classical.choice, Quot.sound
Verif.Props.Inclusive.C100_retain: propext, Classical.choice, Quot.sound
Verif.Props.Inclusive.C100_keys: propext, Classical.choice, Quot.sound
Verif.Props.Inclusive.C100_keys_gaps: propext, Classical.choice, Quot.sound
Verif.Props.Inclusive.C100_keys_of: propext, Classical.choice, Quot.sound
Verif.Props.Inclusive.C100_join: propext, Classical.choice, Quot.sound
Verif.Props.C100_map_values: propext, Classical.choice, Quot.sound
Verif.Props.C100_map_values_exact: propext, Classical.choice, Quot.sound
Verif.Props.C100_map_values_injective: propext, Classical.choice, Quot.sound
Verif.Props.C100_map_values_len: propext, Classical.choice, Quot.sound
Verif.Props.C100_some_entries: propext, Classical.choice, Quot.sound
Verif.Props.C100_retain: propext, Classical.choice, Quot.sound
Verif.Props.C100_keys: propext, Classical.choice, Quot.sound
Verif.Props.C100_keys_gaps: propext, Classical.choice, Quot.sound
Verif.Props.C100_keys_of: propext, Classical.choice, Quot.sound
Verif.Props.C100_join: propext, Classical.choice, Quot.sound
Verif.Props.Inclusive.C101_round_trip: propext, Classical.choice, Quot.sound
Verif.Props.Inclusive.C101_collect: propext, Classical.choice, Quot.sound
Verif.Props.Inclusive.C101_equal: propext, Classical.choice, Quot.sound
Verif.Props.Inclusive.C101_cmp: propext, Classical.choice, Quot.sound
Verif.Props.Inclusive.C101_reinsert: propext, Classical.choice, Quot.sound
Verif.Props.Inclusive.C101_set_round_trip: propext, Classical.choice, Quot.sound
Verif.Props.Inclusive.C101_set_collect: propext, Classical.choice, Quot.sound
Verif.Props.Inclusive.C102_reachable: propext, Classical.choice, Quot.sound
Verif.Props.Inclusive.C102_history: propext, Classical.choice, Quot.sound
Verif.Props.Inclusive.C102_queries: propext, Classical.choice, Quot.sound
Verif.Props.Inclusive.C102_gaps: propext, Classical.choice, Quot.sound
Verif.Props.Inclusive.C102_intersection: propext, Classical.choice, Quot.sound
Verif.Props.Inclusive.C102_union: propext, Classical.choice, Quot.sound
Verif.Props.Inclusive.C102_operators: propext, Classical.choice, Quot.sound
Verif.Props.C103_union_lost: propext, Classical.choice, Quot.sound
Verif.Props.Inclusive.C103_union_lost: propext, Classical.choice, Quot.sound
Verif.Props.C104_same: propext, Classical.choice, Quot.sound
Verif.Props.C104_overwritten: propext, Classical.choice, Quot.sound
Verif.Props.C104_trace: propext, Classical.choice, Quot.sound
Verif.Props.C104_exchange: propext, Classical.choice, Quot.sound
Verif.Props.C104_split: propext, Classical.choice, Quot.sound
Verif.Props.C104_set_same: propext, Classical.choice, Quot.sound
Verif.Props.C104_set_trace: propext, Classical.choice, Quot.sound
Verif.Props.C104_set_exchange: propext, Classical.choice, Quot.sound
Verif.Props.C104_set_split: propext, Classical.choice, Quot.sound
Verif.Props.Inclusive.C104_same: propext, Classical.choice, Quot.sound
Verif.Props.Inclusive.C104_trace: propext, Classical.choice, Quot.sound
Verif.Props.Inclusive.C104_exchange: propext, Classical.choice, Quot.sound
Verif.Props.Inclusive.C104_split: propext, Classical.choice, Quot.sound
Verif.Props.Inclusive.C104_set_same: propext, Classical.choice, Quot.sound
Verif.Props.Inclusive.C104_set_trace: propext, Classical.choice, Quot.sound
Verif.Props.Inclusive.C104_set_exchange: propext, Classical.choice, Quot.sound
Verif.Props.Inclusive.C104_set_split: propext, Classical.choice, Quot.sound
Verif.Props.C105_allocate: propext, Classical.choice, Quot.sound
Verif.Props.C105_store: propext, Classical.choice, Quot.sound
Verif.Props.C105_release: propext, Classical.choice, Quot.sound
Verif.Props.C105_live: propext, Classical.choice, Quot.sound
Verif.Props.Inclusive.C105_allocate: propext, Classical.choice, Quot.sound
Verif.Props.Inclusive.C105_store: propext, Classical.choice, Quot.sound
Verif.Props.Inclusive.C105_release: propext, Classical.choice, Quot.sound
Verif.Props.Inclusive.C105_live: propext, Classical.choice, Quot.sound
Verif.Props.C106_update: propext, Classical.choice, Quot.sound
Verif.Props.C106_update_unique: propext, Quot.sound
Verif.Props.C106_accumulate_total: propext, Classical.choice, Quot.sound
Verif.Props.C106_accumulate: propext, Classical.choice, Quot.sound
Verif.Props.C106_depth: propext, Classical.choice, Quot.sound
Verif.Props.C106_order: propext, Classical.choice, Quot.sound
Verif.Props.Inclusive.C106_update: propext, Classical.choice, Quot.sound
Verif.Props.Inclusive.C106_update_unique: propext, Quot.sound
Verif.Props.Inclusive.C106_accumulate_total: propext, Classical.choice, Quot.sound
Verif.Props.Inclusive.C106_accumulate: propext, Classical.choice, Quot.sound
Verif.Props.Inclusive.C106_depth: propext, Classical.choice, Quot.sound
Verif.Props.Inclusive.C106_order: propext, Classical.choice, Quot.sound
Verif.Props.C107_first_covered: propext, Classical.choice, Quot.sound
Verif.Props.C107_last_covered: propext, Classical.choice, Quot.sound
Verif.Props.C107_first_uncovered: propext, Classical.choice, Quot.sound
Verif.Props.C107_next_change: propext, Classical.choice, Quot.sound
Verif.Props.Inclusive.C107_first_covered: propext, Classical.choice, Quot.sound
Verif.Props.Inclusive.C107_last_covered: propext, Classical.choice, Quot.sound
Verif.Props.Inclusive.C107_first_uncovered: propext, Classical.choice, Quot.sound
Verif.Props.Inclusive.C107_next_change: propext, Classical.choice, Quot.sound
Verif.Props.C108_toggle: propext, Classical.choice, Quot.sound
Verif.Props.C108_total: propext, Classical.choice, Quot.sound
Verif.Props.C108_even_odd: propext, Classical.choice, Quot.sound
Verif.Props.C108_order: propext, Classical.choice, Quot.sound
Verif.Props.C108_twice: propext, Classical.choice, Quot.sound
Verif.Props.C108_symmetric_difference: propext, Classical.choice, Quot.sound
Verif.Props.C108_reserve: propext, Classical.choice, Quot.sound
Verif.Props.C108_reserve_unique: propext
Verif.Props.Inclusive.C108_toggle: propext, Classical.choice, Quot.sound
Verif.Props.Inclusive.C108_total: propext, Classical.choice, Quot.sound
Verif.Props.Inclusive.C108_even_odd: propext, Classical.choice, Quot.sound
Verif.Props.Inclusive.C108_order: propext, Classical.choice, Quot.sound
Verif.Props.Inclusive.C108_twice: propext, Classical.choice, Quot.sound
Verif.Props.Inclusive.C108_symmetric_difference: propext, Classical.choice, Quot.sound
Verif.Props.Inclusive.C108_reserve: propext, Classical.choice, Quot.sound
Verif.Props.Inclusive.C108_reserve_unique: propext
Verif.Props.C109_fold: propext, Quot.sound
Verif.Props.C109_count: propext, Quot.sound
Verif.Props.C109_last: propext, Quot.sound
Verif.Props.C109_nth: propext, Quot.sound
Verif.Props.C109_find: propext, Quot.sound
Verif.Props.C109_any_all: propext, Classical.choice, Quot.sound
Verif.Props.C109_position: propext, Quot.sound
Verif.Props.C109_rev: propext, Quot.sound
Verif.Props.C109_last_ends: propext, Quot.sound
Verif.Props.C109_iter: propext, Quot.sound
Verif.Props.C109_iter_find: propext, Classical.choice, Quot.sound
Verif.Props.C109_overlapping: propext, Classical.choice, Quot.sound
Verif.Props.C109_gaps: propext, Classical.choice, Quot.sound
Verif.Props.C109_set_iter: propext, Classical.choice, Quot.sound
Verif.Props.C109_union_intersection: propext, Classical.choice, Quot.sound
Verif.Props.Inclusive.C109_iter: propext, Quot.sound
Verif.Props.Inclusive.C109_iter_find: propext, Classical.choice, Quot.sound
Verif.Props.Inclusive.C109_overlapping: propext, Classical.choice, Quot.sound
Verif.Props.Inclusive.C109_gaps: propext, Classical.choice, Quot.sound
Verif.Props.Inclusive.C109_set_iter: propext, Classical.choice, Quot.sound
Verif.Props.Inclusive.C109_union_intersection: propext, Classical.choice, Quot.sound
Verif.Props.C110_string: propext
Verif.Props.C110_prefix: propext
Verif.Props.C110_buffer: propext, Quot.sound
Verif.Props.C110_asked: propext
Verif.Props.C110_map_fmt: propext, Classical.choice, Quot.sound
Verif.Props.C110_set_fmt: propext, Classical.choice, Quot.sound
Verif.Props.C110_map_debug: propext, Classical.choice, Quot.sound
Verif.Props.C110_set_debug: propext, Classical.choice, Quot.sound
Verif.Props.Inclusive.C110_map_fmt: propext, Classical.choice, Quot.sound
Verif.Props.Inclusive.C110_set_fmt: propext, Classical.choice, Quot.sound
Verif.Props.Inclusive.C110_map_debug: propext, Classical.choice, Quot.sound
Verif.Props.Inclusive.C110_set_debug: propext, Classical.choice, Quot.sound
Verif.Props.C111_call: propext, Classical.choice, Quot.sound
Verif.Props.C111_programs: propext, Classical.choice, Quot.sound
Verif.Props.C111_one_answer: propext, Classical.choice, Quot.sound
Verif.Props.C111_exactly: propext, Classical.choice, Quot.sound
Verif.Props.Inclusive.C111_call: propext, Classical.choice, Quot.sound
Verif.Props.Inclusive.C111_programs: propext, Classical.choice, Quot.sound
Verif.Props.Inclusive.C111_one_answer: propext, Classical.choice, Quot.sound
Verif.Props.Inclusive.C111_exactly: propext, Classical.choice, Quot.sound
Verif.Props.Inclusive.C112_call: propext, Classical.choice, Quot.sound
Verif.Props.Inclusive.C112_programs: propext, Classical.choice, Quot.sound
Verif.Props.Inclusive.C112_one_answer: propext, Classical.choice, Quot.sound
Verif.Props.Inclusive.C112_exactly: propext, Classical.choice, Quot.sound
Verif.Props.C112_call: propext, Classical.choice, Quot.sound
Verif.Props.C112_programs: propext, Classical.choice, Quot.sound
Verif.Props.C112_one_answer: propext, Classical.choice, Quot.sound
Verif.Props.C112_exactly: propext, Classical.choice, Quot.sound
Verif.Props.Inclusive.C113_call: propext, Classical.choice, Quot.sound
Verif.Props.Inclusive.C113_programs: propext, Classical.choice, Quot.sound
Verif.Props.Inclusive.C113_determined: propext, Classical.choice, Quot.sound
Verif.Props.C113_call: propext, Classical.choice, Quot.sound
Verif.Props.C113_programs: propext, Classical.choice, Quot.sound
Verif.Props.C113_determined: propext, Classical.choice, Quot.sound
Verif.Props.Inclusive.C114_call: propext, Classical.choice, Quot.sound
Verif.Props.Inclusive.C114_programs: propext, Classical.choice, Quot.sound
Verif.Props.Inclusive.C114_one_answer: propext, Classical.choice, Quot.sound
Verif.Props.Inclusive.C114_exactly: propext, Classical.choice, Quot.sound
Verif.Props.C114_call: propext, Classical.choice, Quot.sound
Verif.Props.C114_programs: propext, Classical.choice, Quot.sound
Verif.Props.C114_one_answer: propext, Classical.choice, Quot.sound
Verif.Props.C114_exactly: propext, Classical.choice, Quot.sound
Verif.Props.Inclusive.C115_call: propext, Classical.choice, Quot.sound
Verif.Props.Inclusive.C115_programs: propext, Classical.choice, Quot.sound
Verif.Props.Inclusive.C115_one_answer: propext, Classical.choice, Quot.sound
Verif.Props.Inclusive.C115_exactly: propext, Classical.choice, Quot.sound
Verif.Props.C115_call: propext, Classical.choice, Quot.sound
Verif.Props.C115_programs: propext, Classical.choice, Quot.sound
Verif.Props.C115_one_answer: propext, Classical.choice, Quot.sound
Verif.Props.C115_exactly: propext, Classical.choice, Quot.sound
Verif.Props.C116_programs: propext, Classical.choice, Quot.sound
Verif.Props.C116_half_open_on_inclusive: propext, Classical.choice, Quot.sound
Verif.Props.C116_set_programs: propext, Classical.choice, Quot.sound
Verif.Props.C116_half_open_sets_on_inclusive: propext, Classical.choice, Quot.sound
Verif.Props.C117_programs: propext, Classical.choice, Quot.sound
Verif.Props.C117_every_program: propext, Classical.choice, Quot.sound
Verif.Props.C117_set_programs: propext, Classical.choice, Quot.sound
Verif.Props.C117_every_set_program: propext, Classical.choice, Quot.sound
Verif.Props.Inclusive.C117_programs: propext, Classical.choice, Quot.sound
Verif.Props.Inclusive.C117_every_program: propext, Classical.choice, Quot.sound
Verif.Props.Inclusive.C117_widen: propext, Classical.choice, Quot.sound
Verif.Props.Inclusive.C117_set_programs: propext, Classical.choice, Quot.sound
Verif.Props.Inclusive.C117_every_set_program: propext, Classical.choice, Quot.sound
Verif.Props.Inclusive.C117_widen_set: propext, Classical.choice, Quot.sound
Verif.Props.Inclusive.C118_programs: propext, Classical.choice, Quot.sound
Verif.Props.Inclusive.C118_upside_down: propext, Classical.choice, Quot.sound
Verif.Props.Inclusive.C118_set_programs: propext, Classical.choice, Quot.sound
Verif.Props.Inclusive.C118_sets_upside_down: propext, Classical.choice, Quot.sound
Verif.Props.C119_programs: propext, Classical.choice, Quot.sound
Verif.Props.C119_equal_maps: propext, Classical.choice, Quot.sound
Verif.Props.C119_replace: propext, Classical.choice, Quot.sound
Verif.Props.C119_set_programs: propext, Classical.choice, Quot.sound
Verif.Props.C119_equal_sets: propext, Classical.choice, Quot.sound
Verif.Props.Inclusive.C119_programs: propext, Classical.choice, Quot.sound
Verif.Props.Inclusive.C119_equal_maps: propext, Classical.choice, Quot.sound
Verif.Props.Inclusive.C119_replace: propext, Classical.choice, Quot.sound
Verif.Props.Inclusive.C119_set_programs: propext, Classical.choice, Quot.sound
Verif.Props.Inclusive.C119_equal_sets: propext, Classical.choice, Quot.sound
Verif.Props.C120_call: propext, Classical.choice, Quot.sound
Verif.Props.C120_frame: propext, Classical.choice, Quot.sound
Verif.Props.C120_blind: propext, Classical.choice, Quot.sound
Verif.Props.C120_apart: propext, Classical.choice, Quot.sound
Verif.Props.C120_both: propext, Classical.choice, Quot.sound
Verif.Props.C120_set_call: propext, Classical.choice, Quot.sound
Verif.Props.C120_set_frame: propext, Classical.choice, Quot.sound
Verif.Props.C120_set_blind: propext, Classical.choice, Quot.sound
Verif.Props.C120_set_apart: propext, Classical.choice, Quot.sound
Verif.Props.C120_set_both: propext, Classical.choice, Quot.sound
Verif.Props.Inclusive.C120_call: propext, Classical.choice, Quot.sound
Verif.Props.Inclusive.C120_frame: propext, Classical.choice, Quot.sound
Verif.Props.Inclusive.C120_blind: propext, Classical.choice, Quot.sound
Verif.Props.Inclusive.C120_apart: propext, Classical.choice, Quot.sound
Verif.Props.Inclusive.C120_both: propext, Classical.choice, Quot.sound
Verif.Props.Inclusive.C120_set_call: propext, Classical.choice, Quot.sound
Verif.Props.Inclusive.C120_set_frame: propext, Classical.choice, Quot.sound
Verif.Props.Inclusive.C120_set_blind: propext, Classical.choice, Quot.sound
Verif.Props.Inclusive.C120_set_apart: propext, Classical.choice, Quot.sound
Verif.Props.Inclusive.C120_set_both: propext, Classical.choice, Quot.sound
Verif.Props.Inclusive.C121_set_swap: propext, Classical.choice, Quot.sound
Verif.Props.Inclusive.C121_set_order: propext, Classical.choice, Quot.sound
Verif.Props.Inclusive.C121_set_alone: propext, Classical.choice, Quot.sound
Verif.Props.Inclusive.C121_swap: propext, Classical.choice, Quot.sound
Verif.Props.Inclusive.C121_order: propext, Classical.choice, Quot.sound
Verif.Props.Inclusive.C121_alone: propext, Classical.choice, Quot.sound
Verif.Props.C121_set_swap: propext, Classical.choice, Quot.sound
Verif.Props.C121_set_order: propext, Classical.choice, Quot.sound
Verif.Props.C121_set_alone: propext, Classical.choice, Quot.sound
Verif.Props.C121_swap: propext, Classical.choice, Quot.sound
Verif.Props.C121_order: propext, Classical.choice, Quot.sound
Verif.Props.C121_alone: propext, Classical.choice, Quot.sound
Verif.Props.Inclusive.C122_slice: propext, Classical.choice, Quot.sound
Verif.Props.Inclusive.C122_get: propext, Classical.choice, Quot.sound
Verif.Props.Inclusive.C122_len: propext, Classical.choice, Quot.sound
Verif.Props.Inclusive.C122_same: propext, Classical.choice, Quot.sound
Verif.Props.Inclusive.C122_covered: propext, Classical.choice, Quot.sound
Verif.Props.C122_slice: propext, Classical.choice, Quot.sound
Verif.Props.C122_get: propext, Classical.choice, Quot.sound
Verif.Props.C122_len: propext, Classical.choice, Quot.sound
Verif.Props.C122_same: propext, Classical.choice, Quot.sound
Verif.Props.C122_covered: propext, Classical.choice, Quot.sound
Verif.Props.Inclusive.C123_set_contains: propext, Classical.choice, Quot.sound
Verif.Props.Inclusive.C123_set_iter: propext, Classical.choice, Quot.sound
Verif.Props.Inclusive.C123_set_len: propext, Classical.choice, Quot.sound
Verif.Props.Inclusive.C123_set_join: propext, Classical.choice, Quot.sound
Verif.Props.Inclusive.C123_get: propext, Classical.choice, Quot.sound
Verif.Props.Inclusive.C123_iter: propext, Classical.choice, Quot.sound
Verif.Props.Inclusive.C123_len: propext, Classical.choice, Quot.sound
Verif.Props.Inclusive.C123_join: propext, Classical.choice, Quot.sound
Verif.Props.C123_set_contains: propext, Classical.choice, Quot.sound
Verif.Props.C123_set_iter: propext, Classical.choice, Quot.sound
Verif.Props.C123_set_len: propext, Classical.choice, Quot.sound
Verif.Props.C123_set_join: propext, Classical.choice, Quot.sound
Verif.Props.C123_get: propext, Classical.choice, Quot.sound
Verif.Props.C123_iter: propext, Classical.choice, Quot.sound
Verif.Props.C123_len: propext, Classical.choice, Quot.sound
Verif.Props.C123_join: propext, Classical.choice, Quot.sound
Verif.Props.Inclusive.C124_get: propext, Classical.choice, Quot.sound
Verif.Props.Inclusive.C124_collect: propext, Classical.choice, Quot.sound
Verif.Props.Inclusive.C124_exact: propext, Classical.choice, Quot.sound
Verif.Props.Inclusive.C124_len: propext, Classical.choice, Quot.sound
Verif.Props.C124_get: propext, Classical.choice, Quot.sound
Verif.Props.C124_collect: propext, Classical.choice, Quot.sound
Verif.Props.C124_exact: propext, Classical.choice, Quot.sound
Verif.Props.C124_len: propext, Classical.choice, Quot.sound
Verif.Props.Inclusive.C125_zip: propext, Classical.choice, Quot.sound
Verif.Props.Inclusive.C125_get: propext, Classical.choice, Quot.sound
Verif.Props.Inclusive.C125_len: propext, Classical.choice, Quot.sound
Verif.Props.C125_zip: propext, Classical.choice, Quot.sound
Verif.Props.C125_get: propext, Classical.choice, Quot.sound
Verif.Props.C125_len: propext, Classical.choice, Quot.sound
Verif.Props.Inclusive.C126_set_contains: propext, Classical.choice, Quot.sound
Verif.Props.Inclusive.C126_set_overlapping: propext, Classical.choice, Quot.sound
Verif.Props.Inclusive.C126_set_len: propext, Classical.choice, Quot.sound
Verif.Props.Inclusive.C126_get: propext, Classical.choice, Quot.sound
Verif.Props.Inclusive.C126_overlapping: propext, Classical.choice, Quot.sound
Verif.Props.Inclusive.C126_len: propext, Classical.choice, Quot.sound
Verif.Props.C126_set_contains: propext, Classical.choice, Quot.sound
Verif.Props.C126_set_overlapping: propext, Classical.choice, Quot.sound
Verif.Props.C126_set_len: propext, Classical.choice, Quot.sound
Verif.Props.C126_get: propext, Classical.choice, Quot.sound
Verif.Props.C126_overlapping: propext, Classical.choice, Quot.sound
Verif.Props.C126_len: propext, Classical.choice, Quot.sound
Verif.Props.Inclusive.C127_swap: propext, Classical.choice, Quot.sound
Verif.Props.Inclusive.C127_self: propext, Classical.choice, Quot.sound
Verif.Props.Inclusive.C127_assoc: propext, Classical.choice, Quot.sound
Verif.Props.Inclusive.C127_keys: propext, Classical.choice, Quot.sound
Verif.Props.C127_swap: propext, Classical.choice, Quot.sound
Verif.Props.C127_self: propext, Classical.choice, Quot.sound
Verif.Props.C127_assoc: propext, Classical.choice, Quot.sound
Verif.Props.C127_keys: propext, Classical.choice, Quot.sound

{
 "claims": [
  {
   "property": "C01",
   "status": "proved",
   "theorems": [
    "HT.C01_new_empty"
   ],
   "note": ""
  },
  {
   "property": "C02",
   "status": "proved",
   "theorems": [
    "HT.C02_insert_fresh"
   ],
   "note": ""
  },
  {
   "property": "C03",
   "status": "proved",
   "theorems": [
    "HT.C03_insert_refused"
   ],
   "note": ""
  },
  {
   "property": "C04",
   "status": "proved",
   "theorems": [
    "HT.C04_insert_replace"
   ],
   "note": ""
  },
  {
   "property": "C05",
   "status": "proved",
   "theorems": [
    "HT.C05_insert_pointers"
   ],
   "note": "A returned pointer is modelled by the entry it points to."
  },
  {
   "property": "C06",
   "status": "proved",
   "theorems": [
    "HT.C06_remove_present"
   ],
   "note": ""
  },
  {
   "property": "C07",
   "status": "proved",
   "theorems": [
    "HT.C07_remove_absent"
   ],
   "note": ""
  },
  {
   "property": "C08",
   "status": "proved",
   "theorems": [
    "HT.C08_size"
   ],
   "note": ""
  },
  {
   "property": "C09",
   "status": "proved",
   "theorems": [
    "HT.C09_history",
    "HT.C09_from_new"
   ],
   "note": ""
  },
  {
   "property": "C10",
   "status": "proved",
   "theorems": [
    "HT.C10_hash_independent"
   ],
   "note": ""
  },
  {
   "property": "C11",
   "status": "proved",
   "theorems": [
    "HT.C11_visit"
   ],
   "note": ""
  },
  {
   "property": "C12",
   "status": "proved",
   "theorems": [
    "HT.C12_persistence"
   ],
   "note": "In the model maps are immutable values, so persistence is of values; that the Rust code never writes through a shared Arc is by reading (no get_mut/make_mut/unsafe writes to nodes)."
  },
  {
   "property": "C13",
   "status": "proved",
   "theorems": [
    "HT.C13_no_panic_release",
    "HT.C13_no_panic_foreign"
   ],
   "note": ""
  },
  {
   "property": "C14",
   "status": "partial",
   "theorems": [
    "HT.C14_no_panic_checked_refuted",
    "HT.C14_no_panic_checked_partial"
   ],
   "note": "The full property is false of the code (C14_no_panic_checked_refuted, concrete history); the partial theorem covers histories whose key hashes are separated above the last chunk. Exactly which calls panic is C48."
  },
  {
   "property": "C15",
   "status": "proved",
   "theorems": [
    "HT.C15_find_total"
   ],
   "note": ""
  },
  {
   "property": "C16",
   "status": "proved",
   "theorems": [
    "HT.C16_transform_per_entry"
   ],
   "note": ""
  },
  {
   "property": "C17",
   "status": "proved",
   "theorems": [
    "HT.C17_mixed_history",
    "HT.C17_returns"
   ],
   "note": "Histories over one key and value type mixing every operation; callers' contracts as hypotheses, including tame answers for transform_with_transformed (C21); that the joint calls return is C23. Results of other types are covered because C01-C16 quantify over Reach, which has a constructor for every operation."
  },
  {
   "property": "C18",
   "status": "proved",
   "theorems": [
    "HT.C18_transform_reduction",
    "HT.C18_transform_calls"
   ],
   "note": ""
  },
  {
   "property": "C19",
   "status": "proved",
   "theorems": [
    "HT.C19_transform_parallelism",
    "HT.C19_transform_outcome",
    "HT.C19_transform_with_transmuted",
    "HT.C19_transmute_with_transformed",
    "HT.C19_transform_with_transformed",
    "HT.C19_reduction_needs_monoid"
   ],
   "note": "Also for calls that panic or diverge; C19_reduction_needs_monoid shows why the reduction needs a monoid."
  },
  {
   "property": "C20",
   "status": "proved",
   "theorems": [
    "HT.C20_transmute_per_entry"
   ],
   "note": ""
  },
  {
   "property": "C21",
   "status": "partial",
   "theorems": [
    "HT.C21_refuted",
    "HT.C21_transform_with_transformed_partial",
    "HT.C21_closures_apart_partial",
    "HT.C21_apart_is_tame",
    "HT.C21_right_partial",
    "HT.C21_needed_left",
    "HT.C21_needed_right",
    "HT.C21_needed_both",
    "HT.C21_needed_both_flip"
   ],
   "note": "The full property is false of the code: C21_refuted (a concrete pair of maps with colliding hashes for which the joint transform loses/duplicates entries). Proved whenever the answers for colliding keys are tame (C21_right_partial, C21_transform_with_transformed_partial), in particular for all closures when colliding keys of the two maps do not meet. C21_needed_left, C21_needed_right, C21_needed_both and C21_needed_both_flip show that answers which are not tame give wrong results: what is missing is false of the code. (For several colliding keys on both sides: unless the two entries of the pair answered UnchangedL or UnchangedR are identical.)"
  },
  {
   "property": "C22",
   "status": "partial",
   "theorems": [
    "HT.C22_wrong_side",
    "HT.C22_one_side_partial"
   ],
   "note": "False of the code as written for UnchangedL/UnchangedR when the implementation flips its operands (C22_wrong_side, concrete maps). The partial theorem covers one-sided shortcuts."
  },
  {
   "property": "C23",
   "status": "partial",
   "theorems": [
    "HT.C23_refuted",
    "HT.C23_the_loop",
    "HT.C23_transform_with_transmuted_partial",
    "HT.C23_transmute_with_transformed_partial",
    "HT.C23_transmute_with_transmuted_partial",
    "HT.C23_transform_with_transformed_partial",
    "HT.C23_any_operations_transmute",
    "HT.C23_any_operations_transform_partial",
    "HT.C23_transform_with_transformed_apart_partial"
   ],
   "note": "False of the code: C23_refuted shows a concrete call that never returns (two colliding lists, 2 vs 3 keys). Exact characterisation for transform_with_transmuted and transmute_with_transformed; the other two return if no hash is shared by 2 keys of one map and 3 of the other and diverge if one is shared by 3 of each; in between it depends on the shapes of the tries (C45_refuted)."
  },
  {
   "property": "C24",
   "status": "proved",
   "theorems": [
    "HT.C24_transform_with_transmuted"
   ],
   "note": ""
  },
  {
   "property": "C25",
   "status": "proved",
   "theorems": [
    "HT.C25_transmute_with_transformed"
   ],
   "note": ""
  },
  {
   "property": "C26",
   "status": "proved",
   "theorems": [
    "HT.C26_transmute_with_transmuted"
   ],
   "note": ""
  },
  {
   "property": "C27",
   "status": "partial",
   "theorems": [
    "HT.C27_returns_partial",
    "HT.C27_union_partial",
    "HT.C27_intersection_partial",
    "HT.C27_difference_partial",
    "HT.C27_symmetric_difference_partial",
    "HT.C27_transform_with_transmuted_partial",
    "HT.C27_transmute_with_transformed_partial",
    "HT.C27_transmute_with_transmuted_partial",
    "HT.C27_refuted"
   ],
   "note": "False of the code in two ways (C27_refuted): a union of colliding sets that never returns, an intersection with bulk UnchangedR that panics. Proved, for all four joint functions, whenever the call returns and the operations are UnchangedLR/UnchangedL/Removed; termination under the condition of C23."
  },
  {
   "property": "C28",
   "status": "proved",
   "theorems": [
    "HT.C28_nth_bit",
    "HT.C28_max_ones",
    "HT.C28_invalid_bit",
    "HT.C28_valid_bit",
    "HT.C28_contains_index",
    "HT.C28_insert",
    "HT.C28_remove",
    "HT.C28_merge",
    "HT.C28_undo"
   ],
   "note": ""
  },
  {
   "property": "C29",
   "status": "proved",
   "theorems": [
    "HT.C29_read",
    "HT.C29_at_index",
    "HT.C29_inserted",
    "HT.C29_updated",
    "HT.C29_removed",
    "HT.C29_construct",
    "HT.C29_equality",
    "HT.C29_clone"
   ],
   "note": ""
  },
  {
   "property": "C30",
   "status": "partial",
   "theorems": [
    "HT.C30_word64",
    "HT.C30_hash_iff",
    "HT.C30_refuted",
    "HT.C30_not_for_narrow_words",
    "HT.C30_fits_partial",
    "HT.C30_stored_keys_fit"
   ],
   "note": "Proved for 64-bit hash words (C30_word64). False of the code for 8, 16 and 32 bits (C30_not_for_narrow_words, C30_refuted: find, insert and remove panic on every map when the hasher's result does not fit); C30_hash_iff is the exact condition."
  },
  {
   "property": "C31",
   "status": "proved",
   "theorems": [
    "HT.C31_model_insert",
    "HT.C31_model_remove",
    "HT.C31_model_transform",
    "HT.C31_model_new",
    "HT.C31_refl",
    "HT.C31_clone",
    "HT.C31_symm",
    "HT.C31_trans",
    "HT.C31_equal_same",
    "HT.C31_insert_new",
    "HT.C31_remove_ne",
    "HT.C31_new_ne",
    "HT.C31_transform_bulk_unchanged",
    "HT.C31_transform_equal_iff"
   ],
   "note": "Stated over an address model of Arc allocation in which addresses are never reused; the histories include all bulk and joint operations with arbitrary closures."
  },
  {
   "property": "C32",
   "status": "proved",
   "theorems": [
    "HT.C32_insertion_order",
    "HT.C32_insertion_returns",
    "HT.C32_insert_remove"
   ],
   "note": ""
  },
  {
   "property": "C33",
   "status": "proved",
   "theorems": [
    "HT.C33_bulk_unchanged",
    "HT.C33_bulk_removed",
    "HT.C33_bulk_transmute_removed"
   ],
   "note": ""
  },
  {
   "property": "C34",
   "status": "proved",
   "theorems": [
    "HT.C34_transform_with_transmuted",
    "HT.C34_transmute_with_transformed",
    "HT.C34_transmute_with_transmuted",
    "HT.C34_transform_with_transformed",
    "HT.C34_transform_with_transmuted_calls",
    "HT.C34_transmute_with_transformed_calls",
    "HT.C34_transmute_with_transmuted_calls",
    "HT.C34_transform_with_transformed_calls"
   ],
   "note": "Whenever the call returns (see C23). For transform_with_transformed this holds even where the resulting map is wrong (C21)."
  },
  {
   "property": "C35",
   "status": "proved",
   "theorems": [
    "HT.C35_transform_with_transfuted_returns_partial",
    "HT.C35_transform_with_transfuted",
    "HT.C35_transfute_with_transformed_returns_partial",
    "HT.C35_transfute_with_transformed"
   ],
   "note": "Whenever the call returns; exactly when it returns is C35_*_returns_partial (the divergence of C23)."
  },
  {
   "property": "C36",
   "status": "proved",
   "theorems": [
    "HT.C36_history_is_map_history",
    "HT.C36_history",
    "HT.C36_from_new",
    "HT.C36_transform",
    "HT.C36_transmute",
    "HT.C36_transform_with_transmuted",
    "HT.C36_transmute_with_transformed",
    "HT.C36_transmute_with_transmuted",
    "HT.C36_transform_with_transformed_partial"
   ],
   "note": "Full for histories, transform, transmute and the three transmute joint functions (whenever they return, as for maps). For transform_with_transformed when the answers are tame, as for maps (C21)."
  },
  {
   "property": "C37",
   "status": "proved",
   "theorems": [
    "HT.C37_depth"
   ],
   "note": ""
  },
  {
   "property": "C38",
   "status": "proved",
   "theorems": [
    "HT.C38_foreign_keys"
   ],
   "note": ""
  },
  {
   "property": "C39",
   "status": "proved",
   "theorems": [
    "HT.C39_interchangeable"
   ],
   "note": ""
  },
  {
   "property": "C40",
   "status": "proved",
   "theorems": [
    "HT.C40_transform",
    "HT.C40_transmute",
    "HT.C40_transform_with_transmuted",
    "HT.C40_transmute_with_transformed",
    "HT.C40_transmute_with_transmuted",
    "HT.C40_transform_with_transformed",
    "HT.C40_reduction_homomorphism"
   ],
   "note": ""
  },
  {
   "property": "C41",
   "status": "partial",
   "theorems": [
    "HT.C41_flip",
    "HT.C41_joint_flip_refuted",
    "HT.C41_map_joint_flip_partial",
    "HT.C41_set_joint_flip_partial",
    "HT.C41_exchange_transform_transmute",
    "HT.C41_exchange_transmute_transmute",
    "HT.C41_exchange_transform_transform_reduction",
    "HT.C41_exchange_transform_transform_partial"
   ],
   "note": "False of the code for joint transformations given as bulk UnchangedL/UnchangedR (C41_joint_flip_refuted); proved in full for every other operation type and for the exchange of maps in the three transmute joint functions; for transform_with_transformed when the answers are tame (C21) and definite."
  },
  {
   "property": "C42",
   "status": "proved",
   "theorems": [
    "HT.C42_insert_allocates",
    "HT.C42_remove_allocates"
   ],
   "note": ""
  },
  {
   "property": "C43",
   "status": "proved",
   "theorems": [
    "HT.C43_insert_pointer"
   ],
   "note": ""
  },
  {
   "property": "C44",
   "status": "proved",
   "theorems": [
    "HT.C44_no_uninitialised",
    "HT.C44_unwinds_iff_panics"
   ],
   "note": "Memory model of the building loop only: cells of one array, written or not. Cloning an Arc is taken not to panic."
  },
  {
   "property": "C45",
   "status": "partial",
   "theorems": [
    "HT.C45_refuted",
    "HT.C45_transform_with_transmuted",
    "HT.C45_transmute_with_transformed",
    "HT.C45_transmute_with_transmuted_partial",
    "HT.C45_transform_with_transformed_reduction",
    "HT.C45_transform_with_transformed_partial"
   ],
   "note": "False of the code for transmute_with_transmuted and transform_with_transformed (C45_refuted: same contents, one call returns and the other does not). Proved in full for the other two functions, and for these two whenever both calls return (transform_with_transformed: tame answers that name a side)."
  },
  {
   "property": "C46",
   "status": "partial",
   "theorems": [
    "HT.C46_transform",
    "HT.C46_transmute",
    "HT.C46_transform_with_transmuted",
    "HT.C46_transmute_with_transformed",
    "HT.C46_transmute_with_transmuted",
    "HT.C46_refuted",
    "HT.C46_transform_with_transformed_reduction",
    "HT.C46_transform_with_transformed_partial"
   ],
   "note": "Proved in full for transform, transmute and three of the joint functions. False of the code for transform_with_transformed (C46_refuted: the wrong side is kept; a bulk call returns where the closures do not). There the partial theorem gives the same keys, sizes and reductions whenever both return and the answers are tame."
  },
  {
   "property": "C47",
   "status": "partial",
   "theorems": [
    "HT.C47_transform_is_transmute",
    "HT.C47_refuted",
    "HT.C47_transform_with_transmuted_partial",
    "HT.C47_transmute_with_transformed_partial",
    "HT.C47_reductions",
    "HT.C47_four_partial",
    "HT.C47_four_return_partial"
   ],
   "note": "Proved in full for transform and transmute. False of the joint functions (C47_refuted: one returns, another does not, on colliding keys); the partial theorems give agreement whenever the calls return (transform_with_transformed: tame answers, C21) and that all four return when colliding keys of the two maps do not meet. For keys of both maps the stored key object may be either of the two equal ones."
  },
  {
   "property": "C48",
   "status": "proved",
   "theorems": [
    "HT.C48_history_exact",
    "HT.C48_call_exact",
    "HT.C48_call_bounds"
   ],
   "note": ""
  },
  {
   "property": "C49",
   "status": "proved",
   "theorems": [
    "HT.C49_transform",
    "HT.C49_transmute",
    "HT.C49_transform_with_transmuted",
    "HT.C49_transmute_with_transformed",
    "HT.C49_transmute_with_transmuted",
    "HT.C49_transform_with_transformed",
    "HT.C49_no_answer"
   ],
   "note": "Closures are an environment with state (EffSpec); reduce_op stays a pure function. join! of never-waiting futures runs the left half, then the right."
  },
  {
   "property": "C50",
   "status": "proved",
   "theorems": [
    "HT.C50_transform",
    "HT.C50_transmute",
    "HT.C50_transform_with_transmuted",
    "HT.C50_transmute_with_transformed",
    "HT.C50_transmute_with_transmuted",
    "HT.C50_transform_with_transformed"
   ],
   "note": "As C49. The run's closures may have state; a run ended by a closure is described by C49."
  },
  {
   "property": "C51",
   "status": "proved",
   "theorems": [
    "HT.C51_transform_shares",
    "HT.C51_transmute_shares",
    "HT.C51_transform_with_transmuted_shares",
    "HT.C51_transmute_with_transformed_shares",
    "HT.C51_transmute_with_transmuted_shares",
    "HT.C51_transform_with_transformed_shares"
   ],
   "note": ""
  },
  {
   "property": "C52",
   "status": "partial",
   "theorems": [
    "HT.C52_transform_equal_iff_partial",
    "HT.C52_joint_refuted",
    "HT.C52_collision_refuted",
    "HT.C52_transform_with_transmuted_partial",
    "HT.C52_transmute_with_transformed_partial",
    "HT.C52_transform_with_transformed_left_partial",
    "HT.C52_transform_with_transformed_right_partial"
   ],
   "note": "Proved for transform (both directions), and for the three joint operations when no two keys of the kept map share a hash and the other map has no keys of its own. False of the code in general for the joint operations (C52_joint_refuted): an entry of the other map that is removed makes the code rebuild the branch node although nothing changed; and (C52_collision_refuted) each of the three rebuilds lists of colliding keys although nothing changed and the other map has no keys of its own. So both conditions of the partial theorems exclude cases where the property is false."
  },
  {
   "property": "C53",
   "status": "proved",
   "theorems": [
    "HT.C53_transform",
    "HT.C53_transmute",
    "HT.C53_transform_with_transmuted",
    "HT.C53_transmute_with_transformed",
    "HT.C53_transmute_with_transmuted",
    "HT.C53_transform_with_transformed",
    "HT.C53_both_return"
   ],
   "note": "Any maps; no hypotheses. join! of never-waiting futures runs the left half, then the right."
  },
  {
   "property": "C54",
   "status": "proved",
   "theorems": [
    "HT.C54_transform",
    "HT.C54_transform_with_transmuted",
    "HT.C54_transmute_with_transformed",
    "HT.C54_transform_with_transformed"
   ],
   "note": "If the call returns; a call that does not return with one strategy does not return with the other."
  },
  {
   "property": "C55",
   "status": "proved",
   "theorems": [
    "HT.C55_transform",
    "HT.C55_transmute",
    "HT.C55_no_collisions"
   ],
   "note": "Pairs of entries; with C49 this fixes the sequence."
  },
  {
   "property": "C56",
   "status": "proved",
   "theorems": [
    "HT.C56_told",
    "HT.C56_maps",
    "HT.C56_prefix",
    "HT.C56_alone",
    "HT.C56_allocator",
    "HT.C56_no_waiting",
    "HT.C56_others_keep"
   ],
   "note": "A call is one step of a thread; all maps of a program have one type; variables do not change owners. Reference counting itself is not modelled: what is freed is what no variable holds."
  },
  {
   "property": "C57",
   "status": "proved",
   "theorems": [
    "HT.C57_transform",
    "HT.C57_transmute",
    "HT.C57_transform_with_transmuted",
    "HT.C57_transmute_with_transformed",
    "HT.C57_transmute_with_transmuted",
    "HT.C57_transform_with_transformed",
    "HT.C57_transform_invariant",
    "HT.C57_transmute_invariant",
    "HT.C57_transform_with_transmuted_invariant",
    "HT.C57_transmute_with_transformed_invariant",
    "HT.C57_transmute_with_transmuted_invariant",
    "HT.C57_transform_with_transformed_invariant"
   ],
   "note": "If the call returns. Bulk operations given to a joint operation contribute the default in C57_<op>, anything in C57_<op>_invariant."
  },
  {
   "property": "C58",
   "status": "proved",
   "theorems": [
    "HT.C58_nan",
    "HT.C58_size",
    "HT.C58_find",
    "HT.C58_insert",
    "HT.C58_remove",
    "HT.C58_transform",
    "HT.C58_transmute",
    "HT.C58_own_keys",
    "HT.C58_needs_hash"
   ],
   "note": "Joint operations are not included. Without hash-respecting == entries can be lost (C58_needs_hash)."
  },
  {
   "property": "C59",
   "status": "proved",
   "theorems": [
    "HT.C59_runs",
    "HT.C59_runs_only",
    "HT.C59_pure",
    "HT.C59_held",
    "HT.C59_find",
    "HT.C59_remove",
    "HT.C59_insert",
    "HT.C59_find_safe",
    "HT.C59_remove_safe",
    "HT.C59_insert_safe",
    "HT.C59_insert_steady",
    "HT.C59_find_calls",
    "HT.C59_remove_calls",
    "HT.C59_insert_calls",
    "HT.C59_confused"
   ],
   "note": "For insert the answers of hash calls are the right ones (lies: C59 says nothing). into and clone, if they return, return the thing itself. Bulk and joint operations: their key calls are not modelled as effects."
  },
  {
   "property": "C60",
   "status": "proved",
   "theorems": [
    "HT.C60_intact",
    "HT.C60_allocated",
    "HT.C60_all_freed",
    "HT.C60_finite",
    "HT.C60_counts",
    "HT.C60_never_stuck",
    "HT.C60_immutable",
    "HT.C60_drop",
    "HT.C60_executions"
   ],
   "note": "The effect of a call on the counts is the net effect: references the code makes and drops itself (and everything a panicking call made) are left out. Counts do not overflow. That references inside of values and keys are dropped is not modelled."
  },
  {
   "property": "C61",
   "status": "proved",
   "theorems": [
    "HT.C61_transform_with_transmuted",
    "HT.C61_transmute_with_transformed",
    "HT.C61_transmute_with_transmuted",
    "HT.C61_transform_with_transformed",
    "HT.C61_unlike_transform_with_transmuted",
    "HT.C61_unlike_transmute_with_transformed",
    "HT.C61_unlike_transmute_with_transmuted"
   ],
   "note": ""
  },
  {
   "property": "C62",
   "status": "proved",
   "theorems": [
    "HT.C62_sorted",
    "HT.C62_hash_order",
    "HT.C62_insert",
    "HT.C62_remove",
    "HT.C62_same_contents",
    "HT.C62_history",
    "HT.C62_arranged_unique",
    "HT.C62_collisions_show"
   ],
   "note": ""
  },
  {
   "property": "C63",
   "status": "proved",
   "theorems": [
    "HT.C63_transmute_with_transmuted",
    "HT.C63_transform_with_transformed",
    "HT.C63_blocked_never_returns",
    "HT.C63_contents_only"
   ],
   "note": "For transform_with_transformed the answers are tame in C63_transform_with_transformed, any in C63_blocked_never_returns. The other two joint functions: C23."
  },
  {
   "property": "C64",
   "status": "proved",
   "theorems": [
    "HT.C64_visit_determines",
    "HT.C64_contents_determine",
    "HT.C64_insertion_order",
    "HT.C64_not_after_removal"
   ],
   "note": "Equality of the modelled structure (addresses are not part of it)."
  },
  {
   "property": "C65",
   "status": "proved",
   "theorems": [
    "HT.C65_held",
    "HT.C65_lost",
    "HT.C65_size",
    "HT.C65_find",
    "HT.C65_remove",
    "HT.C65_insert",
    "HT.C65_bottom",
    "HT.C65_transform",
    "HT.C65_transmute"
   ],
   "note": "For the joint operations see C71. What insert does with a key it cannot tell apart is shown to happen by C65_bottom."
  },
  {
   "property": "C66",
   "status": "proved",
   "theorems": [
    "HT.C66_find",
    "HT.C66_insert",
    "HT.C66_remove",
    "HT.C66_transform",
    "HT.C66_transform_with_transmuted",
    "HT.C66_transmute_with_transformed",
    "HT.C66_transform_with_transformed_left",
    "HT.C66_transform_with_transformed_right",
    "HT.C66_transform_with_transformed",
    "HT.C66_moves"
   ],
   "note": "For transform_with_transformed: if the other map has the key too, C66_transform_with_transformed_left/_right ask that the operation for pairs is a closure and the one for the other map is not the bulk Unchanged; C66_transform_with_transformed has no such condition and gives one of the two old addresses. C66_moves shows that entries of keys sharing a hash do move."
  },
  {
   "property": "C67",
   "status": "proved",
   "theorems": [
    "HT.C67_transform_calls",
    "HT.C67_transmute_calls",
    "HT.C67_transform_with_transmuted_calls",
    "HT.C67_transmute_with_transformed_calls",
    "HT.C67_transmute_with_transmuted_calls",
    "HT.C67_transform_with_transformed_calls",
    "HT.C67_transform_with_transfuted_calls",
    "HT.C67_transfute_with_transformed_calls",
    "HT.C67_transform",
    "HT.C67_transmute",
    "HT.C67_transform_with_transmuted",
    "HT.C67_transmute_with_transformed",
    "HT.C67_transmute_with_transmuted",
    "HT.C67_transform_with_transformed",
    "HT.C67_transform_with_transfuted",
    "HT.C67_transfute_with_transformed",
    "HT.C67_memory",
    "HT.C67_insert",
    "HT.C67_remove"
   ],
   "note": ""
  },
  {
   "property": "C68",
   "status": "proved",
   "theorems": [
    "HT.C68_transform",
    "HT.C68_transmute",
    "HT.C68_transform_with_transmuted",
    "HT.C68_transmute_with_transformed",
    "HT.C68_transmute_with_transmuted",
    "HT.C68_transform_with_transformed",
    "HT.C68_transform_with_transfuted",
    "HT.C68_transfute_with_transformed",
    "HT.C68_transform_strategy",
    "HT.C68_transform_with_transmuted_strategy",
    "HT.C68_transmute_with_transformed_strategy",
    "HT.C68_transform_with_transformed_strategy",
    "HT.C68_transform_with_transfuted_strategy",
    "HT.C68_transfute_with_transformed_strategy",
    "HT.C68_transform_order",
    "HT.C68_transmute_order"
   ],
   "note": ""
  },
  {
   "property": "C69",
   "status": "proved",
   "theorems": [
    "HT.C69_map_constructors",
    "HT.C69_set_constructors",
    "HT.C69_filter",
    "HT.C69_map_values",
    "HT.C69_fold",
    "HT.C69_keep_clear",
    "HT.C69_filter_set",
    "HT.C69_restrict",
    "HT.C69_exclude",
    "HT.C69_split",
    "HT.C69_update",
    "HT.C69_join",
    "HT.C69_merge"
   ],
   "note": ""
  },
  {
   "property": "C70",
   "status": "proved",
   "theorems": [
    "HT.C70_expression",
    "HT.C70_laws",
    "HT.C70_size",
    "HT.C70_inclusion_exclusion",
    "HT.C70_returns",
    "HT.C70_layers",
    "HT.C70_layers_return"
   ],
   "note": ""
  },
  {
   "property": "C71",
   "status": "proved",
   "theorems": [
    "HT.C71_transform_with_transmuted",
    "HT.C71_transmute_with_transformed",
    "HT.C71_transmute_with_transmuted",
    "HT.C71_transform_with_transformed",
    "HT.C71_may_panic"
   ],
   "note": "If the call returns (with lying hashes it may panic, with colliding keys it may not end: C23). Within one call the answers of the keys' code are functions of the keys asked about; across calls they may change."
  },
  {
   "property": "C72",
   "status": "proved",
   "theorems": [
    "HT.C72_size",
    "HT.C72_find",
    "HT.C72_remove",
    "HT.C72_insert",
    "HT.C72_transform",
    "HT.C72_transmute",
    "HT.C72_transform_with_transmuted",
    "HT.C72_transmute_with_transformed",
    "HT.C72_transmute_with_transmuted",
    "HT.C72_transform_with_transformed"
   ],
   "note": "Joint operations: if the call returns; within one call the answers of the keys' code are functions of the keys asked about."
  }
 ]
}
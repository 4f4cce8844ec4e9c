{
 "claims": [
  {
   "property": "C01",
   "status": "partial",
   "theorems": [
    "EnumVecModel.C01_history_partial",
    "EnumVecModel.C01_from_partial",
    "EnumVecModel.C01_history_wrong",
    "EnumVecModel.C01_plain_partial"
   ],
   "note": "False in full (C01_history_wrong). Proved for all histories, over any number of vectors, of calls allowed by the decidable predicate Allowed, which excludes exactly the kinds of calls shown to misbehave in C06-C08 and C14-C17. The exact condition for every call and every history is C60."
  },
  {
   "property": "C02",
   "status": "proved",
   "theorems": [
    "EnumVecModel.C02_get"
   ],
   "note": ""
  },
  {
   "property": "C03",
   "status": "proved",
   "theorems": [
    "EnumVecModel.C03_set",
    "EnumVecModel.C03_set_oob"
   ],
   "note": ""
  },
  {
   "property": "C04",
   "status": "proved",
   "theorems": [
    "EnumVecModel.C04_push"
   ],
   "note": ""
  },
  {
   "property": "C05",
   "status": "proved",
   "theorems": [
    "EnumVecModel.C05_pop",
    "EnumVecModel.C05_push_pop"
   ],
   "note": ""
  },
  {
   "property": "C06",
   "status": "partial",
   "theorems": [
    "EnumVecModel.C06_insert_partial",
    "EnumVecModel.C06_fullwidth_debug",
    "EnumVecModel.C06_fullwidth_release",
    "EnumVecModel.C06_fullwidth_release_iff"
   ],
   "note": "False in full: proved when the element width is below the block width (any stale bits); for full-width elements insert panics in debug builds (C06_fullwidth_debug), and in release builds it is right if and only if all elements from the index on are equal to the one inserted, C06_fullwidth_release_iff (counterexample C06_fullwidth_release)."
  },
  {
   "property": "C07",
   "status": "proved",
   "theorems": [
    "EnumVecModel.C07_insert_past",
    "EnumVecModel.C07_insert_max"
   ],
   "note": ""
  },
  {
   "property": "C08",
   "status": "partial",
   "theorems": [
    "EnumVecModel.C08_remove_oob",
    "EnumVecModel.C08_remove_partial",
    "EnumVecModel.C08_remove_near",
    "EnumVecModel.C08_remove_iff",
    "EnumVecModel.C08_remove_wrong",
    "EnumVecModel.C08_remove_wrong_after_insert",
    "EnumVecModel.C08_remove_invalid",
    "EnumVecModel.C08_remove_fullwidth_debug",
    "EnumVecModel.C08_remove_fullwidth_release_iff"
   ],
   "note": "False in full: proved when unused bits are zero or the removal does not cross a block (exact condition C08_remove_iff); counterexamples C08_remove_wrong, _after_insert, _invalid; full-width elements: C08_remove_fullwidth_debug, exact condition in release builds C08_remove_fullwidth_release_iff."
  },
  {
   "property": "C09",
   "status": "partial",
   "theorems": [
    "EnumVecModel.C09_insert_remove_partial",
    "EnumVecModel.C09_fullwidth_debug",
    "EnumVecModel.C09_fullwidth_release_iff"
   ],
   "note": "Proved for element width below block width, also with dirty unused bits. For full-width elements the claim is false, and exactly: in debug builds insert always panics (C09_fullwidth_debug); in release builds the two calls return x and restore the vector if and only if all elements from index on are x (C09_fullwidth_release_iff)."
  },
  {
   "property": "C10",
   "status": "proved",
   "theorems": [
    "EnumVecModel.C10_swap",
    "EnumVecModel.C10_swap_oob",
    "EnumVecModel.C10_swap_remove",
    "EnumVecModel.C10_swap_remove_oob"
   ],
   "note": ""
  },
  {
   "property": "C11",
   "status": "proved",
   "theorems": [
    "EnumVecModel.C11_truncate",
    "EnumVecModel.C11_clear"
   ],
   "note": ""
  },
  {
   "property": "C12",
   "status": "proved",
   "theorems": [
    "EnumVecModel.C12_resize",
    "EnumVecModel.C12_from_elem"
   ],
   "note": ""
  },
  {
   "property": "C13",
   "status": "proved",
   "theorems": [
    "EnumVecModel.C13_extend",
    "EnumVecModel.C13_from_iter",
    "EnumVecModel.C13_from_vec"
   ],
   "note": ""
  },
  {
   "property": "C14",
   "status": "proved",
   "theorems": [
    "EnumVecModel.C14_extend_panics",
    "EnumVecModel.C14_infinite"
   ],
   "note": ""
  },
  {
   "property": "C15",
   "status": "partial",
   "theorems": [
    "EnumVecModel.C15_append_partial",
    "EnumVecModel.C15_append_wrong"
   ],
   "note": "False in full for Vec storage: when len is a multiple of the elements per block the other vector keeps its length without storage (C15_append_wrong)."
  },
  {
   "property": "C16",
   "status": "partial",
   "theorems": [
    "EnumVecModel.C16_split_off_partial",
    "EnumVecModel.C16_split_off_ub"
   ],
   "note": "False in full: for at < len the code accesses uninitialised storage (C16_split_off_ub); proved for at >= len."
  },
  {
   "property": "C17",
   "status": "proved",
   "theorems": [
    "EnumVecModel.C17_retain",
    "EnumVecModel.C17_retain_pure"
   ],
   "note": ""
  },
  {
   "property": "C18",
   "status": "proved",
   "theorems": [
    "EnumVecModel.C18_for_each",
    "EnumVecModel.C18_for_each_pure"
   ],
   "note": ""
  },
  {
   "property": "C19",
   "status": "proved",
   "theorems": [
    "EnumVecModel.C19_any"
   ],
   "note": ""
  },
  {
   "property": "C20",
   "status": "proved",
   "theorems": [
    "EnumVecModel.C20_all"
   ],
   "note": ""
  },
  {
   "property": "C21",
   "status": "proved",
   "theorems": [
    "EnumVecModel.C21_iter",
    "EnumVecModel.C21_collect",
    "EnumVecModel.C21_to_vec"
   ],
   "note": ""
  },
  {
   "property": "C22",
   "status": "proved",
   "theorems": [
    "EnumVecModel.C22_eq",
    "EnumVecModel.C22_equiv"
   ],
   "note": ""
  },
  {
   "property": "C23",
   "status": "proved",
   "theorems": [
    "EnumVecModel.C23_hash",
    "EnumVecModel.C23_hash_eq",
    "EnumVecModel.C23_hash_no_len"
   ],
   "note": ""
  },
  {
   "property": "C24",
   "status": "proved",
   "theorems": [
    "EnumVecModel.C24_independent",
    "EnumVecModel.C24_clone"
   ],
   "note": ""
  },
  {
   "property": "C25",
   "status": "proved",
   "theorems": [
    "EnumVecModel.C25_reserve",
    "EnumVecModel.C25_with_capacity",
    "EnumVecModel.C25_shrink_to_fit",
    "EnumVecModel.C25_len_le"
   ],
   "note": ""
  },
  {
   "property": "C26",
   "status": "partial",
   "theorems": [
    "EnumVecModel.C26_push",
    "EnumVecModel.C26_insert",
    "EnumVecModel.C26_reserve_partial",
    "EnumVecModel.C26_extend_partial",
    "EnumVecModel.C26_reserve_full"
   ],
   "note": "True for push and insert. False for reserve/extend when the new length equals the capacity (C26_reserve_full: always asks for one more block); proved strictly below."
  },
  {
   "property": "C27",
   "status": "partial",
   "theorems": [
    "EnumVecModel.C27_storage_partial",
    "EnumVecModel.C27_quadratic",
    "EnumVecModel.C27_resize_quadratic"
   ],
   "note": "False: C27_quadratic, C27_resize_quadratic prove a quadratic allocation; only the final initialised storage length is as claimed (C27_storage_partial)."
  },
  {
   "property": "C28",
   "status": "partial",
   "theorems": [
    "EnumVecModel.C28_limit_ub",
    "EnumVecModel.C28_narrow_ub",
    "EnumVecModel.C28_memory_safety_partial",
    "EnumVecModel.C28_from_partial",
    "EnumVecModel.C28_without_split_off_partial",
    "EnumVecModel.C28_append_ub",
    "EnumVecModel.C28_split_off_ub",
    "EnumVecModel.C28_reserve_ub"
   ],
   "note": "False in full: C28_append_ub (Vec storage), C28_split_off_ub, C28_reserve_ub. Proved for all histories that avoid these three calls' hazards, whatever else they do; unconditional for programs without split_off (and, for Vec storage, append, and, for one element per block in release builds, a reserve of usize::MAX). Needs no assumption on the EnumLike implementation (Inst.Sound). Also false for 32-bit targets without the bound on the number of elements in Sound: C28_limit_ub, C28_narrow_ub. The exact condition for every call is C61."
  },
  {
   "property": "C29",
   "status": "partial",
   "theorems": [
    "EnumVecModel.C29_exact",
    "EnumVecModel.C29_valid_partial",
    "EnumVecModel.C29_wrong",
    "EnumVecModel.C29_power_of_two",
    "EnumVecModel.C29_stored_partial"
   ],
   "note": "False in full: C29_wrong. Proved for all histories without the bit-mixing calls (C29_valid_partial), for all memory-safe histories if NUM_VARIANTS is a power of two (C29_power_of_two), and stored-values-only for allowed histories (C29_stored_partial). The exact condition, necessary and sufficient, is proved: C29_exact (all histories without the calls of C15/C16/C66 and without refused memory)."
  },
  {
   "property": "C30",
   "status": "partial",
   "theorems": [
    "EnumVecModel.C30_compiles",
    "EnumVecModel.C30_compiles_iff",
    "EnumVecModel.C30_width_partial",
    "EnumVecModel.C30_width_narrow",
    "EnumVecModel.C30_wide",
    "EnumVecModel.C30_wide_wrong"
   ],
   "note": "Proved for at most 2^32 variants, so in full on 32-bit targets (C30_width_narrow); false beyond for 64/128-bit blocks on 64-bit targets (C30_wide, C30_wide_wrong)."
  },
  {
   "property": "C31",
   "status": "partial",
   "theorems": [
    "EnumVecModel.C31_width_wrong",
    "EnumVecModel.C31_width_partial",
    "EnumVecModel.C31_prefix_partial"
   ],
   "note": "False in full (C31_width_wrong). Proved for histories allowed for both storages."
  },
  {
   "property": "C32",
   "status": "proved",
   "theorems": [
    "EnumVecModel.C32_blocks",
    "EnumVecModel.C32_efficiency",
    "EnumVecModel.C32_no_worse",
    "EnumVecModel.C32_no_gain",
    "EnumVecModel.C32_limits"
   ],
   "note": ""
  },
  {
   "property": "C33",
   "status": "proved",
   "theorems": [
    "EnumVecModel.C33_raw_array",
    "EnumVecModel.C33_raw_append"
   ],
   "note": ""
  },
  {
   "property": "C34",
   "status": "proved",
   "theorems": [
    "EnumVecModel.C34_raw_overflow",
    "EnumVecModel.C34_before_untouched",
    "EnumVecModel.C34_set"
   ],
   "note": ""
  },
  {
   "property": "C35",
   "status": "proved",
   "theorems": [
    "EnumVecModel.EnumLike.C35_contract",
    "EnumVecModel.EnumLike.C35_crate"
   ],
   "note": ""
  },
  {
   "property": "C36",
   "status": "proved",
   "theorems": [
    "EnumVecModel.EnumLike.C36_unique",
    "EnumVecModel.EnumLike.C36_values"
   ],
   "note": ""
  },
  {
   "property": "C37",
   "status": "proved",
   "theorems": [
    "EnumVecModel.EnumLike.C37_tuple",
    "EnumVecModel.EnumLike.C37_tuple_num",
    "EnumVecModel.EnumLike.C37_array",
    "EnumVecModel.EnumLike.C37_array_tuple",
    "EnumVecModel.EnumLike.C37_nested",
    "EnumVecModel.EnumLike.C37_no_overflow"
   ],
   "note": ""
  },
  {
   "property": "C38",
   "status": "partial",
   "theorems": [
    "EnumVecModel.EnumLike.C38_values_partial",
    "EnumVecModel.EnumLike.C38_values_no_nth",
    "EnumVecModel.EnumLike.C38_nth_overflow_debug",
    "EnumVecModel.EnumLike.C38_nth_overflow_release"
   ],
   "note": "Proved for all call sequences whose nth arguments do not overflow NUM_VARIANTS + n; false beyond (C38_nth_overflow_debug/_release)."
  },
  {
   "property": "C39",
   "status": "proved",
   "theorems": [
    "EnumVecModel.EnumLike.C39_compiles",
    "EnumVecModel.EnumLike.C39_roundtrip",
    "EnumVecModel.EnumLike.C39_order"
   ],
   "note": ""
  },
  {
   "property": "C40",
   "status": "proved",
   "theorems": [
    "EnumVecModel.EnumLike.C40_struct",
    "EnumVecModel.EnumLike.C40_digits",
    "EnumVecModel.EnumLike.C40_no_overflow",
    "EnumVecModel.EnumLike.C40_tuple"
   ],
   "note": ""
  },
  {
   "property": "C41",
   "status": "proved",
   "theorems": [
    "EnumVecModel.EnumLike.C41_enum",
    "EnumVecModel.EnumLike.C41_numbering",
    "EnumVecModel.EnumLike.C41_every",
    "EnumVecModel.EnumLike.C41_num",
    "EnumVecModel.EnumLike.C41_invalid"
   ],
   "note": ""
  },
  {
   "property": "C42",
   "status": "proved",
   "theorems": [
    "EnumVecModel.EnumLike.C42_c_like"
   ],
   "note": ""
  },
  {
   "property": "C43",
   "status": "proved",
   "theorems": [
    "EnumVecModel.ESet.C43_history"
   ],
   "note": "Parametric in the bit-set crate (not in the repository), assumed to implement sets of numbers (BitSet.Lawful; maskSet_lawful shows the laws are satisfiable)."
  },
  {
   "property": "C44",
   "status": "proved",
   "theorems": [
    "EnumVecModel.ESet.C44_iter",
    "EnumVecModel.ESet.C44_union",
    "EnumVecModel.ESet.C44_intersection",
    "EnumVecModel.ESet.C44_difference",
    "EnumVecModel.ESet.C44_symmetric_difference",
    "EnumVecModel.ESet.C44_from_bit_set"
   ],
   "note": "For sets built through the EnumSet API; also part of C43_history (ops iter, union, intersection, difference, symmetricDifference)."
  },
  {
   "property": "C45",
   "status": "partial",
   "theorems": [
    "EnumVecModel.C45_exact",
    "EnumVecModel.C45_recover_partial",
    "EnumVecModel.C45_memory_safety_partial",
    "EnumVecModel.C45_valid_partial",
    "EnumVecModel.C45_stateful_safety_partial",
    "EnumVecModel.C45_stateful_valid_partial",
    "EnumVecModel.C45_stateful_partial",
    "EnumVecModel.C45_stateful_recover_partial"
   ],
   "note": "Proved for all histories and allocator sequences with the same proviso as C01 (Allowed calls); memory safety part for any EnumLike implementation. The C45_stateful_ theorems: the same for allocators with hidden state (see C67). The exact description for all calls, right or wrong, is C45_exact (all histories without the calls of C15/C16/C66); see C74."
  },
  {
   "property": "C46",
   "status": "proved",
   "theorems": [
    "EnumVecModel.C46_layout",
    "EnumVecModel.C46_write_block",
    "EnumVecModel.C46_write_oob",
    "EnumVecModel.C46_write_values",
    "EnumVecModel.C46_write_zero",
    "EnumVecModel.C46_resize",
    "EnumVecModel.C46_shrink_ub"
   ],
   "note": ""
  },
  {
   "property": "C47",
   "status": "proved",
   "theorems": [
    "EnumVecModel.C47_for",
    "EnumVecModel.C47_debug",
    "EnumVecModel.C47_client",
    "EnumVecModel.C47_text",
    "EnumVecModel.C47_text_empty"
   ],
   "note": ""
  },
  {
   "property": "C48",
   "status": "partial",
   "theorems": [
    "EnumVecModel.C48_monotone",
    "EnumVecModel.C48_inline_partial",
    "EnumVecModel.C48_readme",
    "EnumVecModel.C48_collect_spills"
   ],
   "note": "Monotony proved in full (C48_monotone, any state). Inline part proved for all allowed histories (as C01) whose reserving calls stay strictly below the inline capacity; false at equality (C48_collect_spills: collecting exactly 128 booleans asks the heap)."
  },
  {
   "property": "C49",
   "status": "proved",
   "theorems": [
    "EnumVecModel.C49_source",
    "EnumVecModel.C49_collect",
    "EnumVecModel.C49_returns",
    "EnumVecModel.C49_endless",
    "EnumVecModel.C49_extend_vec",
    "EnumVecModel.C49_convert",
    "EnumVecModel.C49_values"
   ],
   "note": ""
  },
  {
   "property": "C50",
   "status": "proved",
   "theorems": [
    "EnumVecModel.EnumLike.C50_machine",
    "EnumVecModel.EnumLike.C50_compiles"
   ],
   "note": ""
  },
  {
   "property": "C51",
   "status": "proved",
   "theorems": [
    "EnumVecModel.C51_amortised",
    "EnumVecModel.C51_pushes"
   ],
   "note": ""
  },
  {
   "property": "C52",
   "status": "proved",
   "theorems": [
    "EnumVecModel.Macro.C52_derive",
    "EnumVecModel.Macro.C52_number",
    "EnumVecModel.Macro.C52_onto",
    "EnumVecModel.Macro.C52_compiles",
    "EnumVecModel.Macro.C52_accepts"
   ],
   "note": ""
  },
  {
   "property": "C53",
   "status": "partial",
   "theorems": [
    "EnumVecModel.C53_unsafe_partial",
    "EnumVecModel.C53_contract"
   ],
   "note": "Contract and its exactness proved in full (C53_contract); histories with the proviso of C28 on split_off, append and reserve (false without it, C28_*_ub). The exact condition for every call, safe or unsafe, in every state, is C61."
  },
  {
   "property": "C54",
   "status": "proved",
   "theorems": [
    "EnumVecModel.ESet.C54_extend_vec",
    "EnumVecModel.ESet.C54_collect_vec",
    "EnumVecModel.ESet.C54_extend_set",
    "EnumVecModel.ESet.C54_from_iter",
    "EnumVecModel.ESet.C54_endless",
    "EnumVecModel.ESet.C54_collect_set",
    "EnumVecModel.ESet.C54_values",
    "EnumVecModel.ESet.C54_agree",
    "EnumVecModel.ESet.C54_for",
    "EnumVecModel.ESet.C54_debug"
   ],
   "note": ""
  },
  {
   "property": "C55",
   "status": "proved",
   "theorems": [
    "EnumVecModel.ESet.C55_order",
    "EnumVecModel.ESet.C55_trans"
   ],
   "note": ""
  },
  {
   "property": "C56",
   "status": "proved",
   "theorems": [
    "EnumVecModel.Hostile.C56_memory_safety",
    "EnumVecModel.Hostile.C56_without_append",
    "EnumVecModel.Hostile.C56_faithful",
    "EnumVecModel.Hostile.C56_hint_ub"
   ],
   "note": ""
  },
  {
   "property": "C57",
   "status": "proved",
   "theorems": [
    "EnumVecModel.Hostile.C57_returns",
    "EnumVecModel.Hostile.C57_like_vec",
    "EnumVecModel.Hostile.C57_for_each",
    "EnumVecModel.Hostile.C57_retain"
   ],
   "note": ""
  },
  {
   "property": "C58",
   "status": "proved",
   "theorems": [
    "EnumVecModel.Hostile.C58_unchanged",
    "EnumVecModel.Hostile.C58_keeps",
    "EnumVecModel.Hostile.C58_restore",
    "EnumVecModel.Hostile.C58_swap_remove",
    "EnumVecModel.Hostile.C58_not_atomic"
   ],
   "note": ""
  },
  {
   "property": "C59",
   "status": "proved",
   "theorems": [
    "EnumVecModel.Macro.C59_applies",
    "EnumVecModel.Macro.C59_instances"
   ],
   "note": ""
  },
  {
   "property": "C60",
   "status": "proved",
   "theorems": [
    "EnumVecModel.C60_exact",
    "EnumVecModel.C60_history",
    "EnumVecModel.C60_start"
   ],
   "note": ""
  },
  {
   "property": "C61",
   "status": "proved",
   "theorems": [
    "EnumVecModel.C61_ub",
    "EnumVecModel.C61_history",
    "EnumVecModel.C61_breaks"
   ],
   "note": ""
  },
  {
   "property": "C62",
   "status": "proved",
   "theorems": [
    "EnumVecModel.EnumLike.Rules.C62_tuple",
    "EnumVecModel.EnumLike.Rules.C62_tuple_limit",
    "EnumVecModel.EnumLike.Rules.C62_tuple_onto",
    "EnumVecModel.EnumLike.Rules.C62_array",
    "EnumVecModel.EnumLike.Rules.C62_array_limit",
    "EnumVecModel.EnumLike.Rules.C62_array_uninit",
    "EnumVecModel.EnumLike.Rules.C62_rows",
    "EnumVecModel.EnumLike.Rules.C62_compiles_iff",
    "EnumVecModel.EnumLike.Rules.C62_no_overlap"
   ],
   "note": ""
  },
  {
   "property": "C63",
   "status": "proved",
   "theorems": [
    "EnumVecModel.C63_exact",
    "EnumVecModel.C63_history",
    "EnumVecModel.C63_start",
    "EnumVecModel.C63_results"
   ],
   "note": ""
  },
  {
   "property": "C64",
   "status": "proved",
   "theorems": [
    "EnumVecModel.C64_panics",
    "EnumVecModel.C64_refused",
    "EnumVecModel.C64_ub",
    "EnumVecModel.C64_returns",
    "EnumVecModel.C64_valid"
   ],
   "note": ""
  },
  {
   "property": "C65",
   "status": "proved",
   "theorems": [
    "EnumVecModel.C65_storage",
    "EnumVecModel.C65_refused",
    "EnumVecModel.C65_capacity",
    "EnumVecModel.C65_quiet",
    "EnumVecModel.C65_panics",
    "EnumVecModel.C65_returns",
    "EnumVecModel.C65_history"
   ],
   "note": ""
  },
  {
   "property": "C66",
   "status": "partial",
   "theorems": [
    "EnumVecModel.C66_reserve_partial",
    "EnumVecModel.C66_reserve_debug",
    "EnumVecModel.C66_reserve_release",
    "EnumVecModel.C66_reserve_iff",
    "EnumVecModel.C66_extend_iff",
    "EnumVecModel.C66_collect_iff",
    "EnumVecModel.C66_extend_partial",
    "EnumVecModel.C66_extend_none",
    "EnumVecModel.C66_extend_live",
    "EnumVecModel.C66_repeat"
   ],
   "note": "False in full: in release builds with one element per block and a total of exactly usize::MAX, reserve drops all blocks and keeps the length (C66_reserve_release; exact condition C66_reserve_iff), extend and collect are undefined behaviour if and only if the iterator then yields an item (C66_extend_iff, C66_collect_iff, C66_extend_live; repeat(x).collect(): C66_repeat), and leave an unusable vector otherwise (C66_extend_none). Proved in all other cases (C66_reserve_partial, C66_extend_partial)."
  },
  {
   "property": "C67",
   "status": "proved",
   "theorems": [
    "EnumVecModel.C67_conversation",
    "EnumVecModel.C67_call",
    "EnumVecModel.C67_history",
    "EnumVecModel.C67_no_request"
   ],
   "note": ""
  },
  {
   "property": "C68",
   "status": "proved",
   "theorems": [
    "EnumVecModel.ESet.C68_numbers",
    "EnumVecModel.ESet.C68_panic",
    "EnumVecModel.ESet.C68_extend",
    "EnumVecModel.ESet.C68_faithful"
   ],
   "note": ""
  },
  {
   "property": "C69",
   "status": "partial",
   "theorems": [
    "EnumVecModel.EnumLike.C69_iff",
    "EnumVecModel.EnumLike.C69_lawful",
    "EnumVecModel.EnumLike.C69_builtin",
    "EnumVecModel.EnumLike.C69_sound_partial",
    "EnumVecModel.EnumLike.C69_misses",
    "EnumVecModel.EnumLike.C69_misses_unlisted"
   ],
   "note": "No false alarms: C69_lawful, C69_builtin. The converse is false: passing says nothing about discriminants at or above NUM_VARIANTS (C69_misses) nor about values that values() does not list (C69_misses_unlisted). C69_iff is the exact condition for passing; C69_sound_partial: with these two conditions, the contract follows."
  },
  {
   "property": "C70",
   "status": "proved",
   "theorems": [
    "EnumVecModel.C70_no_access",
    "EnumVecModel.C70_get",
    "EnumVecModel.C70_set",
    "EnumVecModel.C70_pop",
    "EnumVecModel.C70_swap",
    "EnumVecModel.C70_swap_remove",
    "EnumVecModel.C70_push",
    "EnumVecModel.C70_insert",
    "EnumVecModel.C70_remove",
    "EnumVecModel.C70_any",
    "EnumVecModel.C70_all",
    "EnumVecModel.C70_retain",
    "EnumVecModel.C70_for_each",
    "EnumVecModel.C70_reserve",
    "EnumVecModel.C70_extend",
    "EnumVecModel.C70_extend_with_value",
    "EnumVecModel.C70_resize",
    "EnumVecModel.C70_append",
    "EnumVecModel.C70_eq",
    "EnumVecModel.C70_hash",
    "EnumVecModel.C70_next",
    "EnumVecModel.C70_next_back",
    "EnumVecModel.C70_nth",
    "EnumVecModel.C70_to_vec"
   ],
   "note": ""
  },
  {
   "property": "C71",
   "status": "proved",
   "theorems": [
    "EnumVecModel.C71_logs",
    "EnumVecModel.C71_no_access",
    "EnumVecModel.C71_get",
    "EnumVecModel.C71_set",
    "EnumVecModel.C71_push",
    "EnumVecModel.C71_pop",
    "EnumVecModel.C71_swap",
    "EnumVecModel.C71_swap_remove",
    "EnumVecModel.C71_insert",
    "EnumVecModel.C71_remove",
    "EnumVecModel.C71_any",
    "EnumVecModel.C71_all",
    "EnumVecModel.C71_retain",
    "EnumVecModel.C71_for_each",
    "EnumVecModel.C71_eq",
    "EnumVecModel.C71_hash",
    "EnumVecModel.C71_clone",
    "EnumVecModel.C71_iter",
    "EnumVecModel.C71_reserve",
    "EnumVecModel.C71_extend",
    "EnumVecModel.C71_append_aligned",
    "EnumVecModel.C71_append",
    "EnumVecModel.C71_fill_few",
    "EnumVecModel.C71_fill_many",
    "EnumVecModel.C71_fill_not_linear"
   ],
   "note": ""
  },
  {
   "property": "C72",
   "status": "proved",
   "theorems": [
    "EnumVecModel.Hostile.C72_watching",
    "EnumVecModel.Hostile.C72_single",
    "EnumVecModel.Hostile.C72_push_insert",
    "EnumVecModel.Hostile.C72_extend",
    "EnumVecModel.Hostile.C72_resize",
    "EnumVecModel.Hostile.C72_from_elem",
    "EnumVecModel.Hostile.C72_resize_bounded",
    "EnumVecModel.Hostile.C72_iterate",
    "EnumVecModel.Hostile.C72_closures",
    "EnumVecModel.Hostile.C72_none"
   ],
   "note": ""
  },
  {
   "property": "C73",
   "status": "proved",
   "theorems": [
    "EnumVecModel.C73_readable_iff",
    "EnumVecModel.C73_readable_history",
    "EnumVecModel.C73_exact",
    "EnumVecModel.C73_history",
    "EnumVecModel.C73_start"
   ],
   "note": ""
  },
  {
   "property": "C74",
   "status": "proved",
   "theorems": [
    "EnumVecModel.C74_refused",
    "EnumVecModel.C74_exact",
    "EnumVecModel.C74_history",
    "EnumVecModel.C74_stateful"
   ],
   "note": ""
  },
  {
   "property": "C75",
   "status": "proved",
   "theorems": [
    "EnumVecModel.C75_schedule",
    "EnumVecModel.C75_any_schedule",
    "EnumVecModel.C75_commute"
   ],
   "note": ""
  },
  {
   "property": "C76",
   "status": "partial",
   "theorems": [
    "EnumVecModel.C76_vec",
    "EnumVecModel.C76_refactor_partial",
    "EnumVecModel.C76_plain_partial",
    "EnumVecModel.C76_exact",
    "EnumVecModel.C76_refactor_wrong"
   ],
   "note": "C76_vec: all laws hold for Vec. C76_refactor_partial: they transfer to programs of allowed calls (as in C01); C76_plain_partial: no proviso but memory for plain calls. The full claim is false: C76_refactor_wrong (garbage in unused bits distinguishes programs that are equal on Vec)."
  },
  {
   "property": "C77",
   "status": "proved",
   "theorems": [
    "EnumVecModel.C77_ok",
    "EnumVecModel.C77_refines",
    "EnumVecModel.C77_vec",
    "EnumVecModel.C77_plain",
    "EnumVecModel.C77_text",
    "EnumVecModel.C77_derived"
   ],
   "note": ""
  },
  {
   "property": "C78",
   "status": "proved",
   "theorems": [
    "EnumVecModel.C78_text",
    "EnumVecModel.C78_step",
    "EnumVecModel.C78_reach",
    "EnumVecModel.C78_history",
    "EnumVecModel.C78_run",
    "EnumVecModel.C78_like_vec",
    "EnumVecModel.C78_unsafe",
    "EnumVecModel.C78_into_iter"
   ],
   "note": ""
  },
  {
   "property": "C79",
   "status": "proved",
   "theorems": [
    "EnumVecModel.C79_text",
    "EnumVecModel.C79_compiles",
    "EnumVecModel.C79_values",
    "EnumVecModel.C79_model",
    "EnumVecModel.C79_modules"
   ],
   "note": ""
  },
  {
   "property": "C80",
   "status": "proved",
   "theorems": [
    "EnumVecModel.C80_text",
    "EnumVecModel.C80_headers",
    "EnumVecModel.C80_impls",
    "EnumVecModel.C80_lawful",
    "EnumVecModel.C80_nested",
    "EnumVecModel.C80_values",
    "EnumVecModel.C80_packed",
    "EnumVecModel.C80_values_all"
   ],
   "note": ""
  },
  {
   "property": "C81",
   "status": "proved",
   "theorems": [
    "EnumVecModel.C81_text",
    "EnumVecModel.C81_functions",
    "EnumVecModel.C81_calls",
    "EnumVecModel.C81_histories",
    "EnumVecModel.C81_numbers",
    "EnumVecModel.C81_aliases"
   ],
   "note": ""
  },
  {
   "property": "C82",
   "status": "proved",
   "theorems": [
    "EnumVecModel.C82_lawful",
    "EnumVecModel.C82_consts",
    "EnumVecModel.C82_vec",
    "EnumVecModel.C82_plain",
    "EnumVecModel.C82_set"
   ],
   "note": ""
  },
  {
   "property": "C83",
   "status": "proved",
   "theorems": [
    "EnumVecModel.ESet.C83_values"
   ],
   "note": ""
  },
  {
   "property": "C84",
   "status": "proved",
   "theorems": [
    "EnumVecModel.C84_tuple",
    "EnumVecModel.C84_array",
    "EnumVecModel.C84_lawful"
   ],
   "note": ""
  },
  {
   "property": "C85",
   "status": "proved",
   "theorems": [
    "EnumVecModel.Source.Mac.C85_tuple_impls",
    "EnumVecModel.Source.Mac.C85_array_impls",
    "EnumVecModel.Source.Mac.C85_crate",
    "EnumVecModel.Source.Mac.C85_text",
    "EnumVecModel.Source.Mac.C85_search"
   ],
   "note": ""
  },
  {
   "property": "C86",
   "status": "proved",
   "theorems": [
    "EnumVecModel.C86_fmt",
    "EnumVecModel.C86_into",
    "EnumVecModel.C86_storage",
    "EnumVecModel.C86_vec",
    "EnumVecModel.C86_text"
   ],
   "note": ""
  },
  {
   "property": "C87",
   "status": "proved",
   "theorems": [
    "EnumVecModel.Source.Mac.C87_from_elem",
    "EnumVecModel.Source.Mac.C87_from_slice",
    "EnumVecModel.Source.Mac.C87_only",
    "EnumVecModel.Source.Mac.C87_name"
   ],
   "note": ""
  },
  {
   "property": "C88",
   "status": "proved",
   "theorems": [
    "EnumVecModel.Source.Mac.C88_tuple",
    "EnumVecModel.Source.Mac.C88_array",
    "EnumVecModel.Source.Mac.C88_crate",
    "EnumVecModel.Source.Mac.C88_contract"
   ],
   "note": ""
  },
  {
   "property": "C89",
   "status": "proved",
   "theorems": [
    "EnumVecModel.Quote.C89_derive",
    "EnumVecModel.Quote.C89_accepts",
    "EnumVecModel.Quote.C89_contract"
   ],
   "note": ""
  },
  {
   "property": "C90",
   "status": "proved",
   "theorems": [
    "EnumVecModel.Source.Mac.C90_search",
    "EnumVecModel.C90_lawful",
    "EnumVecModel.C90_vec",
    "EnumVecModel.C90_set"
   ],
   "note": ""
  },
  {
   "property": "C91",
   "status": "proved",
   "theorems": [
    "EnumVecModel.C91_values",
    "EnumVecModel.C91_packed"
   ],
   "note": ""
  },
  {
   "property": "C92",
   "status": "proved",
   "theorems": [
    "EnumVecModel.Source.Mac.C92_coherent",
    "EnumVecModel.Source.Mac.C92_overlap"
   ],
   "note": ""
  },
  {
   "property": "C93",
   "status": "proved",
   "theorems": [
    "EnumVecModel.ESet.C93_count",
    "EnumVecModel.ESet.C93_bound",
    "EnumVecModel.ESet.C93_deal",
    "EnumVecModel.ESet.C93_deals",
    "EnumVecModel.ESet.C93_game"
   ],
   "note": ""
  },
  {
   "property": "C94",
   "status": "proved",
   "theorems": [
    "EnumVecModel.Source.SetText.C94_hint",
    "EnumVecModel.Source.SetText.C94_exact"
   ],
   "note": ""
  }
 ]
}
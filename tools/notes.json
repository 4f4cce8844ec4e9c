{
 "C06": [
  "partial",
  "False in full: proved when the element width is below the block width (any stale bits); for full-width elements insert panics in debug builds (C06_fullwidth_debug), and in release builds it is right if and only if all elements from the index on are equal to the one inserted, C06_fullwidth_release_iff (counterexample C06_fullwidth_release)."
 ],
 "C08": [
  "partial",
  "False in full: proved when unused bits are zero or the removal does not cross a block (exact condition C08_remove_iff); counterexamples C08_remove_wrong, _after_insert, _invalid; full-width elements: C08_remove_fullwidth_debug, exact condition in release builds C08_remove_fullwidth_release_iff."
 ],
 "C09": [
  "partial",
  "Proved for element width below block width, also with dirty unused bits. For full-width elements the claim is false, and exactly: in debug builds insert always panics (C09_fullwidth_debug); in release builds the two calls return x and restore the vector if and only if all elements from index on are x (C09_fullwidth_release_iff)."
 ],
 "C15": [
  "partial",
  "False in full for Vec storage: when len is a multiple of the elements per block the other vector keeps its length without storage (C15_append_wrong)."
 ],
 "C16": [
  "partial",
  "False in full: for at < len the code accesses uninitialised storage (C16_split_off_ub); proved for at >= len."
 ],
 "C26": [
  "partial",
  "True for push and insert. False for reserve/extend when the new length equals the capacity (C26_reserve_full: always asks for one more block); proved strictly below."
 ],
 "C27": [
  "partial",
  "False: C27_quadratic, C27_resize_quadratic prove a quadratic allocation; only the final initialised storage length is as claimed (C27_storage_partial)."
 ],
 "C30": [
  "partial",
  "Proved for at most 2^32 variants, so in full on 32-bit targets (C30_width_narrow); false beyond for 64/128-bit blocks on 64-bit targets (C30_wide, C30_wide_wrong)."
 ],
 "C38": [
  "partial",
  "Proved for all call sequences whose nth arguments do not overflow NUM_VARIANTS + n; false beyond (C38_nth_overflow_debug/_release)."
 ],
 "C43": [
  "proved",
  "Parametric in the bit-set crate (not in the repository), assumed to implement sets of numbers (BitSet.Lawful; maskSet_lawful shows the laws are satisfiable)."
 ],
 "C44": [
  "proved",
  "For sets built through the EnumSet API; also part of C43_history (ops iter, union, intersection, difference, symmetricDifference)."
 ],
 "C01": [
  "partial",
  "False in full (C01_history_wrong). Proved for all histories, over any number of vectors, of calls allowed by the decidable predicate Allowed, which excludes exactly the kinds of calls shown to misbehave in C06-C08 and C14-C17. The exact condition for every call and every history is C60."
 ],
 "C31": [
  "partial",
  "False in full (C31_width_wrong). Proved for histories allowed for both storages."
 ],
 "C28": [
  "partial",
  "False in full: C28_append_ub (Vec storage), C28_split_off_ub, C28_reserve_ub. Proved for all histories that avoid these three calls' hazards, whatever else they do; unconditional for programs without split_off (and, for Vec storage, append, and, for one element per block in release builds, a reserve of usize::MAX). Needs no assumption on the EnumLike implementation (Inst.Sound). Also false for 32-bit targets without the bound on the number of elements in Sound: C28_limit_ub, C28_narrow_ub. The exact condition for every call is C61."
 ],
 "C29": [
  "partial",
  "False in full: C29_wrong. Proved for all histories without the bit-mixing calls (C29_valid_partial), for all memory-safe histories if NUM_VARIANTS is a power of two (C29_power_of_two), and stored-values-only for allowed histories (C29_stored_partial). The exact condition, necessary and sufficient, is proved: C29_exact (all histories without the calls of C15/C16/C66 and without refused memory)."
 ],
 "C45": [
  "partial",
  "Proved for all histories and allocator sequences with the same proviso as C01 (Allowed calls); memory safety part for any EnumLike implementation. The C45_stateful_ theorems: the same for allocators with hidden state (see C67). The exact description for all calls, right or wrong, is C45_exact (all histories without the calls of C15/C16/C66); see C74."
 ],
 "C48": [
  "partial",
  "Monotony proved in full (C48_monotone, any state). Inline part proved for all allowed histories (as C01) whose reserving calls stay strictly below the inline capacity; false at equality (C48_collect_spills: collecting exactly 128 booleans asks the heap)."
 ],
 "C53": [
  "partial",
  "Contract and its exactness proved in full (C53_contract); histories with the proviso of C28 on split_off, append and reserve (false without it, C28_*_ub). The exact condition for every call, safe or unsafe, in every state, is C61."
 ],
 "C66": [
  "partial",
  "False in full: in release builds with one element per block and a total of exactly usize::MAX, reserve drops all blocks and keeps the length (C66_reserve_release; exact condition C66_reserve_iff), extend and collect are undefined behaviour if and only if the iterator then yields an item (C66_extend_iff, C66_collect_iff, C66_extend_live; repeat(x).collect(): C66_repeat), and leave an unusable vector otherwise (C66_extend_none). Proved in all other cases (C66_reserve_partial, C66_extend_partial)."
 ],
 "C69": [
  "partial",
  "No false alarms: C69_lawful, C69_builtin. The converse is false: passing says nothing about discriminants at or above NUM_VARIANTS (C69_misses) nor about values that values() does not list (C69_misses_unlisted). C69_iff is the exact condition for passing; C69_sound_partial: with these two conditions, the contract follows."
 ],
 "C76": [
  "partial",
  "C76_vec: all laws hold for Vec. C76_refactor_partial: they transfer to programs of allowed calls (as in C01); C76_plain_partial: no proviso but memory for plain calls. The full claim is false: C76_refactor_wrong (garbage in unused bits distinguishes programs that are equal on Vec)."
 ]
}
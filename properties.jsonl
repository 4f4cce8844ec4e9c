{"id": "C01", "title": "Any history over EnumVecs behaves like the same history over Vecs", "statement": "Run any finite sequence of public operations (constructors, push, pop, get, set, insert, remove, swap, swap_remove, truncate, clear, resize, reserve, shrink_to_fit, extend, retain, for_each, append, clone, eq, any, all, len, to_vec) over any number of EnumVecs: every value returned and every panic is the one the same sequence produces on Vec<T>, as long as no allocation fails.", "quantifier": "all histories of operations, all element types that obey the EnumLike contract, all five block widths and the SmallVec storage, debug and release builds", "why_tests_cant": "the interaction of stale bits, block boundaries and earlier operations is unbounded; tests run a handful of fixed histories with one or two element types", "anchors": ["enum_vec/src/vec_u32/mod.rs:impl EnumVec", "enum_vec/src/vec_u32/mod.rs:impl Extend", "enum_vec/src/vec_u32/mod.rs:impl PartialEq", "enum_vec/src/smallvec_u32/mod.rs:append"]}
{"id": "C02", "title": "get returns exactly the stored element or None", "statement": "v.get(i) is Some of the i-th element when i < v.len() and None otherwise, never panics and never changes v.", "quantifier": "all vectors, all indices", "why_tests_cant": "indices and block layouts are unbounded", "anchors": ["enum_vec/src/vec_u32/mod.rs:get", "enum_vec/src/vec_u32/mod.rs:get_raw", "enum_vec/src/vec_u32/mod.rs:get_raw_unchecked", "enum_vec/src/vec_u32/mod.rs:block_index"]}
{"id": "C03", "title": "set overwrites exactly one element", "statement": "v.set(i, x) with i < v.len() makes element i equal to x and leaves the length and every other element unchanged; with i >= v.len() it panics and changes nothing.", "quantifier": "all vectors, indices and values", "why_tests_cant": "a mask or shift error shows only for particular widths, offsets and neighbour values", "anchors": ["enum_vec/src/vec_u32/mod.rs:set", "enum_vec/src/vec_u32/mod.rs:set_raw", "enum_vec/src/vec_u32/mod.rs:set_raw_unchecked"]}
{"id": "C04", "title": "push appends one element", "statement": "v.push(x) increases the length by one, puts x last and keeps all earlier elements, whatever stale data the storage holds from earlier operations.", "quantifier": "all vectors (including ones whose storage is longer than needed), all values", "why_tests_cant": "growth happens at block boundaries that depend on the element type and on the history of the storage", "anchors": ["enum_vec/src/vec_u32/mod.rs:push", "enum_vec/src/vec_u32/mod.rs:grow_if_needed"]}
{"id": "C05", "title": "pop removes and returns the last element", "statement": "v.pop() returns None on an empty vector, otherwise it returns the last element and shortens the vector by it; push then pop returns the pushed value and restores the vector.", "quantifier": "all vectors, all values", "why_tests_cant": "universal over states", "anchors": ["enum_vec/src/vec_u32/mod.rs:pop"]}
{"id": "C06", "title": "insert behaves like Vec::insert inside the bounds", "statement": "For index <= v.len(), v.insert(index, x) puts x at index, shifts the elements from index on by one position to the right and keeps the ones before it.", "quantifier": "all vectors, all index <= len, all element widths and storage widths", "why_tests_cant": "insert shifts whole storage blocks; carries between blocks and partial first and last blocks depend on width, index and length", "anchors": ["enum_vec/src/vec_u32/mod.rs:insert"]}
{"id": "C07", "title": "insert past the end never corrupts", "statement": "For index > v.len(), v.insert(index, x) does not panic (unlike Vec::insert) and acts exactly like v.push(x).", "quantifier": "all vectors, all index > len that do not overflow usize arithmetic", "why_tests_cant": "the branch is undocumented and untested, and depends on index modulo the number of elements per block", "anchors": ["enum_vec/src/vec_u32/mod.rs:insert"]}
{"id": "C08", "title": "remove behaves like Vec::remove", "statement": "For index < v.len(), v.remove(index) returns element index, shifts the later elements left by one and keeps the earlier ones; for index >= v.len() it panics and changes nothing.", "quantifier": "all vectors reachable by any history, all indices, all element widths", "why_tests_cant": "blocks are shifted wholesale, so bits outside any element and earlier operations matter; no test mixes bulk fills or inserts of dense values with remove", "anchors": ["enum_vec/src/vec_u32/mod.rs:remove"]}
{"id": "C09", "title": "insert followed by remove is the identity", "statement": "For index <= v.len(), v.insert(index, x) followed by v.remove(index) returns x and restores every element of v.", "quantifier": "all vectors reachable by any history, all indices, all values", "why_tests_cant": "needs every bit pattern of the shifted blocks", "anchors": ["enum_vec/src/vec_u32/mod.rs:insert", "enum_vec/src/vec_u32/mod.rs:remove"]}
{"id": "C10", "title": "swap and swap_remove", "statement": "v.swap(i, j) exchanges elements i and j (also when i = j) and panics without effect when one index is out of bounds. v.swap_remove(i) returns element i, moves the last element into its place and shortens the vector by one; it panics without effect when i is out of bounds, also on an empty vector.", "quantifier": "all vectors, all index pairs, debug and release builds", "why_tests_cant": "universal over states and indices; the empty case underflows usize", "anchors": ["enum_vec/src/vec_u32/mod.rs:swap", "enum_vec/src/vec_u32/mod.rs:swap_remove"]}
{"id": "C11", "title": "truncate and clear", "statement": "v.truncate(n) keeps the first min(n, len) elements, v.clear() removes all of them, and both leave storage that later operations can use; after clear, set_len(old length) gives the old elements back.", "quantifier": "all vectors, all n", "why_tests_cant": "universal over states; relies on data left behind in the storage", "anchors": ["enum_vec/src/vec_u32/mod.rs:truncate", "enum_vec/src/vec_u32/mod.rs:clear", "enum_vec/src/vec_u32/mod.rs:set_len"]}
{"id": "C12", "title": "resize and from_elem", "statement": "v.resize(n, x) truncates to n when n <= len, otherwise it appends n - len copies of x; EnumVec::from_elem(x, n) (enum_vec![x; n]) holds n copies of x.", "quantifier": "all vectors, all n, all values, all element widths", "why_tests_cant": "the bulk path replicates the element over a block by doubling and depends on the alignment of the old length", "anchors": ["enum_vec/src/vec_u32/mod.rs:resize", "enum_vec/src/vec_u32/mod.rs:extend_with_value", "enum_vec/src/vec_u32/mod.rs:from_elem"]}
{"id": "C13", "title": "extend appends what the iterator yields, whatever its size hint", "statement": "v.extend(it) appends exactly the items it yields, in order, for every iterator whose size_hint lower bound is honest, independent of how precise that bound is; collect, from_iter, from_slice, From<Vec> and enum_vec![..] build exactly the given sequence. One exception: extend and collect when a block holds one element and the length plus the size hint is usize::MAX, see C66.", "quantifier": "all vectors, all finite item sequences, all lower bounds not above the number of items", "why_tests_cant": "the split between preallocated writes and pushes depends on the hint and on the alignment", "anchors": ["enum_vec/src/vec_u32/mod.rs:impl Extend", "enum_vec/src/vec_u32/mod.rs:impl FromIterator", "enum_vec/src/vec_u32/mod.rs:impl From<Vec<T>>", "enum_vec/src/vec_u32/mod.rs:from_slice"]}
{"id": "C14", "title": "extend survives dishonest or panicking iterators", "statement": "If the iterator yields fewer items than its size_hint lower bound or panics, extend panics, the vector stays memory-safe and valid, its old elements and the items already yielded are intact, and, if the storage held only valid values before (so in every history without a corrupting remove), each exposed extra element is a valid value. One exception: extend when a block holds one element and the length plus the size hint is usize::MAX, see C66.", "quantifier": "all vectors, all iterators including ones that break their hint or panic at any item", "why_tests_cant": "crash points are arbitrary; no test covers them", "anchors": ["enum_vec/src/vec_u32/mod.rs:impl Extend", "enum_vec/src/vec_u32/mod.rs:reserve"]}
{"id": "C15", "title": "append moves all elements and leaves the other vector empty", "statement": "a.append(&mut b) makes a the concatenation of a and b and leaves b empty and usable.", "quantifier": "all pairs of vectors, Vec and SmallVec storage", "why_tests_cant": "there are two code paths chosen by the alignment of a; the doc test exercises only one", "anchors": ["enum_vec/src/vec_u32/mod.rs:append", "enum_vec/src/smallvec_u32/mod.rs:append"]}
{"id": "C16", "title": "split_off splits the vector", "statement": "For at <= v.len(), v.split_off(at) returns the elements from at on and leaves the first at elements in v; for at > v.len() it panics.", "quantifier": "all vectors, all at", "why_tests_cant": "no test calls it; the result looks plausible until a second operation touches the returned vector", "anchors": ["enum_vec/src/vec_u32/mod.rs:split_off"]}
{"id": "C17", "title": "retain keeps exactly the elements accepted by the predicate", "statement": "v.retain(f) calls f once per element in order and keeps, in order, exactly the elements for which f returned true; if f panics the vector keeps its length, stays valid and contains the accepted prefix followed by the elements not compacted yet.", "quantifier": "all vectors, all stateful predicates, all panic points", "why_tests_cant": "predicates are arbitrary stateful closures and the compaction is in place", "anchors": ["enum_vec/src/vec_u32/mod.rs:retain"]}
{"id": "C18", "title": "for_each updates every element in place", "statement": "v.for_each(f) applies f once to every element in order and stores the results in place; if f panics on element k the elements before k are updated and the others unchanged.", "quantifier": "all vectors, all stateful functions, all panic points", "why_tests_cant": "functions are arbitrary", "anchors": ["enum_vec/src/vec_u32/mod.rs:for_each"]}
{"id": "C19", "title": "any(x) is exact", "statement": "v.any(x) returns true exactly when some element of v has the discriminant of x; it never panics and ignores stale and unused bits.", "quantifier": "all vectors reachable by any history, all values, all element and storage widths", "why_tests_cant": "a bit trick with carries across elements, masks computed by division and unused high bits; 2^32 block values per width", "anchors": ["enum_vec/src/vec_u32/mod.rs:any"]}
{"id": "C20", "title": "all(x) is exact", "statement": "v.all(x) returns true exactly when every element of v has the discriminant of x (true when empty); it never panics and ignores stale and unused bits.", "quantifier": "all vectors reachable by any history, all values, all element and storage widths", "why_tests_cant": "same as any", "anchors": ["enum_vec/src/vec_u32/mod.rs:all"]}
{"id": "C21", "title": "Iteration yields the elements in order from both ends", "statement": "Any interleaving of next, next_back, nth, size_hint and count on v.iter() or v.into_iter() gives the results of the same calls on the iterator of the equivalent Vec; to_vec and Into<Vec> return all elements in order.", "quantifier": "all vectors, all sequences of iterator calls", "why_tests_cant": "call interleavings are unbounded", "anchors": ["enum_vec/src/vec_u32/mod.rs:EnumVecIter", "enum_vec/src/vec_u32/mod.rs:EnumVecIntoIter", "enum_vec/src/vec_u32/mod.rs:to_vec"]}
{"id": "C22", "title": "Equality is equality of contents", "statement": "a == b holds exactly when a and b hold the same elements in the same order, whatever their capacities, storage lengths and stale bits; it is an equivalence relation.", "quantifier": "all pairs of vectors with arbitrary different histories", "why_tests_cant": "depends on data that the public API does not show", "anchors": ["enum_vec/src/vec_u32/mod.rs:impl PartialEq"]}
{"id": "C23", "title": "Hash is consistent with equality", "statement": "Equal vectors feed equal data to the hasher, and the data fed is the sequence of discriminants, so vectors of different contents and equal length feed different data; the length itself is not fed.", "quantifier": "all pairs of vectors, all hashers", "why_tests_cant": "same as equality", "anchors": ["enum_vec/src/vec_u32/mod.rs:impl Hash"]}
{"id": "C24", "title": "Clone is an independent equal copy", "statement": "v.clone() equals v, and later operations on either one do not affect the other.", "quantifier": "all vectors reachable by any history, all later histories", "why_tests_cant": "a clone copies only the initialised storage, so it is right only if the storage length always covers the elements", "anchors": ["enum_vec/src/vec_u32/mod.rs:derive(Clone)"]}
{"id": "C25", "title": "Capacity management does not change contents and gives the promised room", "statement": "reserve, shrink_to_fit and with_capacity do not change the elements; with_capacity(n).capacity() >= n; after reserve(k), capacity() >= len + k (if it returns); always len <= capacity(); shrink_to_fit leaves storage of exactly ceil(len / elements per block) blocks. One exception: reserve when a block holds one element and the length plus k is usize::MAX, see C66.", "quantifier": "all vectors, all k and n", "why_tests_cant": "depends on rounding to blocks and on usize saturation", "anchors": ["enum_vec/src/vec_u32/mod.rs:with_capacity", "enum_vec/src/vec_u32/mod.rs:capacity", "enum_vec/src/vec_u32/mod.rs:reserve", "enum_vec/src/vec_u32/mod.rs:shrink_to_fit", "enum_vec/src/vec_u32/mod.rs:blocks_for_elements"]}
{"id": "C26", "title": "No reallocation within capacity", "statement": "Adding elements while the length stays at most capacity() never reallocates.", "quantifier": "all vectors, all sequences of push and extend staying within capacity", "why_tests_cant": "allocation happens at block boundaries", "anchors": ["enum_vec/src/vec_u32/mod.rs:push", "enum_vec/src/vec_u32/mod.rs:reserve", "enum_vec/src/vec_u32/mod.rs:capacity"]}
{"id": "C27", "title": "Bulk fill uses memory proportional to the number of elements", "statement": "from_elem(x, n) and resize(n, x) never make the storage larger than a constant number of blocks beyond what n elements need.", "quantifier": "all n", "why_tests_cant": "peak memory of one call is not observed by tests", "anchors": ["enum_vec/src/vec_u32/mod.rs:extend_with_value"]}
{"id": "C28", "title": "Memory safety of every safe history", "statement": "No history of safe public calls, including ones that panic and are continued after catch_unwind, reads or writes the storage outside its initialised part.", "quantifier": "all histories, all element types that obey the contract", "why_tests_cant": "undefined behaviour can go unnoticed by tests; needs an invariant on the storage length", "anchors": ["enum_vec/src/vec_u32/mod.rs:get_raw_unchecked", "enum_vec/src/vec_u32/mod.rs:set_raw_unchecked", "enum_vec/src/vec_u32/mod.rs:split_off", "enum_vec/src/vec_u32/mod.rs:append"]}
{"id": "C29", "title": "from_discr only ever sees valid discriminants", "statement": "In every reachable vector each element read back converts to a value of the type: from_discr is never called with a number >= NUM_VARIANTS and the result is one of the values that were stored.", "quantifier": "all histories, element types whose NUM_VARIANTS is not a power of two", "why_tests_cant": "an invalid discriminant appears only through leftover bits", "anchors": ["enum_vec/src/vec_u32/mod.rs:get", "enum_vec/src/vec_u32/mod.rs:remove", "enum_vec/src/vec_u32/mod.rs:reserve"]}
{"id": "C30", "title": "Element width is the least sufficient number of bits", "statement": "For every element type that compiles, an element uses the least b with NUM_VARIANTS <= 2^b, b is at least one and at most the block width, every discriminant fits in b bits, and types with fewer than two variants or too many variants for the block are rejected at compile time.", "quantifier": "all NUM_VARIANTS accepted by the type checker, all block widths", "why_tests_cant": "NUM_VARIANTS ranges over usize", "anchors": ["enum_vec/src/vec_u32/mod.rs:BITS_PER_ELEM", "enum_vec/src/vec_u32/mod.rs:ERROR_TOO_MANY_VARIANTS", "enum_vec/src/vec_u32/mod.rs:ERROR_ZERO_SIZED", "enum_vec/src/vec_u32/mod.rs:ELEMENT_MASK"]}
{"id": "C31", "title": "Storage width does not matter", "statement": "The same history run with vec_u8, vec_u16, vec_u32, vec_u64, vec_u128 or SmallVec storage produces the same results.", "quantifier": "all histories, all element types that fit both storages", "why_tests_cant": "pairs of instantiations times histories", "anchors": ["enum_vec/gen.sh", "enum_vec/src/vec_u8/mod.rs", "enum_vec/src/vec_u64/mod.rs", "enum_vec/src/smallvec_u32/mod.rs"]}
{"id": "C32", "title": "Memory use matches the README formula", "statement": "After shrink_to_fit a vector of n elements of b bits uses ceil(n / floor(W / b)) blocks of W bits, the fraction of used bits in a full block is 1 - (W mod b)/W, and this is never more bits per element than a Vec of the smallest unsigned integer that fits.", "quantifier": "all lengths, widths b <= W", "why_tests_cant": "numerical claim over all sizes", "anchors": ["enum_vec/src/vec_u32/mod.rs:shrink_to_fit", "README.md:Memory efficiency"]}
{"id": "C33", "title": "The unsafe raw API composes as documented", "statement": "reserve(k) followed by set_raw_unchecked of valid discriminants at the next k positions and set_len(len + k) is memory-safe and equals pushing the k values. One exception: reserve when a block holds one element and the length plus k is usize::MAX, see C66.", "quantifier": "all vectors, all value sequences", "why_tests_cant": "relies on reserve resizing the storage", "anchors": ["enum_vec/src/vec_u32/mod.rs:reserve", "enum_vec/src/vec_u32/mod.rs:set_raw_unchecked", "enum_vec/src/vec_u32/mod.rs:set_len"]}
{"id": "C34", "title": "A contract-breaking discriminant has a bounded effect", "statement": "Storing a discriminant that does not fit in the element width reads back as its low bits and can disturb only elements with a larger index in the same storage block.", "quantifier": "all vectors, indices, discriminants", "why_tests_cant": "universal over bit patterns", "anchors": ["enum_vec/src/vec_u32/mod.rs:set_raw_unchecked", "enum_vec/src/vec_u32/mod.rs:tests::digit_uses_4_bits"]}
{"id": "C35", "title": "Built-in EnumLike impls obey the contract", "statement": "For (), bool, Option, Result, tuples and arrays (of any nesting): to_discr is below NUM_VARIANTS and from_discr(to_discr(x)) returns x.", "quantifier": "all types built from these constructors, all values", "why_tests_cant": "types nest without bound", "anchors": ["enum_like/src/lib.rs:impl EnumLike"]}
{"id": "C36", "title": "Discriminants are consecutive from zero", "statement": "For the built-in impls every number below NUM_VARIANTS is the discriminant of exactly one value, so values() lists every value exactly once, in increasing discriminant order.", "quantifier": "all types built from these constructors", "why_tests_cant": "types nest without bound", "anchors": ["enum_like/src/lib.rs:impl EnumLike", "enum_like/src/lib.rs:EnumValues"]}
{"id": "C37", "title": "Tuples and arrays use little-endian mixed radix", "statement": "The discriminant of a tuple is the sum of each component's discriminant times the product of the NUM_VARIANTS of the components before it; an array equals the tuple of its items; nested and flat arrangements agree.", "quantifier": "all arities, all component types", "why_tests_cant": "32 macro-generated impls times all component types", "anchors": ["enum_like/src/lib.rs:tuple_impls", "enum_like/src/lib.rs:array_impls"]}
{"id": "C38", "title": "values() iterator laws", "statement": "Any sequence of next, nth, size_hint, count, last calls on T::values() gives the results of the same calls on the list of all values in discriminant order.", "quantifier": "all call sequences, all arguments, all types", "why_tests_cant": "call sequences and arguments are unbounded", "anchors": ["enum_like/src/lib.rs:impl Iterator for Values"]}
{"id": "C39", "title": "PackedU8 and PackedU16 round-trip", "statement": "PackedU8::new(x).get() returns x for every type with at most 256 variants (PackedU16: 65536), types with more are rejected, packing is injective and ordering of packed values is discriminant order.", "quantifier": "all types, all values", "why_tests_cant": "universal over types", "anchors": ["enum_like/src/lib.rs:PackedU8", "enum_like/src/lib.rs:PackedU16"]}
{"id": "C40", "title": "derive(EnumLike) on structs", "statement": "The derived impl obeys the contract, is a bijection onto 0..NUM_VARIANTS with NUM_VARIANTS the product of the field counts, and numbers the fields little-endian; unit structs get one variant.", "quantifier": "all lists of field types, all values", "why_tests_cant": "generated code for unboundedly many struct shapes", "anchors": ["enum_like_derive/src/lib.rs:generate_struct_many_elem", "enum_like_derive/src/lib.rs:num_variants_product", "enum_like_derive/src/lib.rs:from_discr_body", "enum_like_derive/src/lib.rs:to_discr_body"]}
{"id": "C41", "title": "derive(EnumLike) on enums with data", "statement": "The derived impl obeys the contract and is a bijection onto 0..NUM_VARIANTS; unit variants come first in declaration order, then the data variants in declaration order, each occupying a contiguous range.", "quantifier": "all enum shapes, all values, including variants with uninhabited fields", "why_tests_cant": "generated code for unboundedly many enum shapes", "anchors": ["enum_like_derive/src/lib.rs:all_variants_of", "enum_like_derive/src/lib.rs:generate_rusty_enum_code", "enum_like_derive/src/lib.rs:MatchArm"]}
{"id": "C42", "title": "derive(EnumLike) on C-like enums ignores explicit discriminants", "statement": "For an enum without data the discriminant of a variant is its position in the declaration, whatever explicit discriminants are written; other numbers make from_discr panic.", "quantifier": "all C-like enums", "why_tests_cant": "universal over enums", "anchors": ["enum_like_derive/src/lib.rs:generate_c_enum_code"]}
{"id": "C43", "title": "EnumSet behaves like a set of values", "statement": "Any history of insert, remove, contains, clear, extend, union_with, intersect_with, difference_with, symmetric_difference_with, len, is_empty, is_subset, is_superset and is_disjoint over EnumSets returns what the same history returns on mathematical sets of values; insert and remove return whether the set changed.", "quantifier": "all histories, all element types, any BitSet that implements sets of numbers", "why_tests_cant": "histories and types are unbounded; the crate says it is assumed to work", "anchors": ["enum_set/src/lib.rs:impl EnumSet"]}
{"id": "C44", "title": "EnumSet iteration", "statement": "iter, union, intersection, difference and symmetric_difference yield each member of the resulting set exactly once, in increasing discriminant order, and from_discr never sees an invalid number for sets built through the EnumSet API.", "quantifier": "all sets, all element types", "why_tests_cant": "universal", "anchors": ["enum_set/src/lib.rs:WrapIter", "enum_set/src/lib.rs:iter", "enum_set/src/lib.rs:union"]}
{"id": "C45", "title": "Refused allocations are recoverable", "statement": "If the allocator refuses memory in any call of a history (and grants or refuses as it likes in the others), the failing call panics or aborts without undefined behaviour, its vector afterwards holds a documented prefix or its old contents, all other vectors are untouched, and all following calls again return what they return on Vecs with those contents.", "quantifier": "all histories, all sequences of allocator behaviour", "why_tests_cant": "fault points and histories are unbounded", "anchors": ["enum_vec/src/vec_u32/mod.rs:push", "enum_vec/src/vec_u32/mod.rs:insert", "enum_vec/src/vec_u32/mod.rs:reserve", "enum_vec/src/vec_u32/mod.rs:extend_with_value", "enum_vec/src/vec_u32/mod.rs:append"]}
{"id": "C46", "title": "Storage layout and direct block access", "statement": "A vector holds l exactly when field i % q (q = W / b elements per block, b bits each) of block i / q of its storage is the discriminant of l[i]. Overwriting one block through storage_mut is memory-safe, keeps the length, changes exactly the elements of that block to the fields written, and panics without effect if the block does not exist; resizing the storage to at least the needed blocks leaves the vector unchanged; to fewer makes reads behind the end undefined.", "quantifier": "all vectors, all blocks, all bit patterns, all instances", "why_tests_cant": "2^W bit patterns per block and unboundedly many vectors", "anchors": ["enum_vec/src/vec_u32/mod.rs:storage", "enum_vec/src/vec_u32/mod.rs:storage_mut", "enum_vec/src/vec_u32/mod.rs:block_location"]}
{"id": "C47", "title": "for loops, Debug output and arbitrary iterator clients", "statement": "A for loop over a vector runs its body on exactly the elements in order, {:?} drives any formatter exactly as formatting the Vec with the same elements does, and any program using the iterator adaptively (choosing next, next_back, nth, size_hint from what it has seen, stopping or panicking at will) behaves as on the Vec's iterator.", "quantifier": "all vectors, all loop bodies, formatters and adaptive clients", "why_tests_cant": "programs and formatters cannot be enumerated", "anchors": ["enum_vec/src/vec_u32/mod.rs:EnumVecIter", "enum_vec/src/vec_u32/mod.rs:fmt", "enum_vec/src/vec_u32/mod.rs:EnumVecIntoIter"]}
{"id": "C48", "title": "Capacity is monotone; inline storage needs no heap", "statement": "No call lowers the capacity of a vector except shrink_to_fit and assignment. A program whose SmallEnumVecs stay within the inline capacity (4 blocks: 128 1-bit, 64 2-bit, 32 4-bit items) never needs memory from the heap: with any heap allocator, also one refusing everything, it never fails for lack of memory, returns what Vec returns, and keeps exactly the inline capacity.", "quantifier": "all histories, all heap allocators, all instances", "why_tests_cant": "histories and allocator behaviours are unbounded", "anchors": ["enum_vec/src/smallvec_u32/mod.rs:push", "enum_vec/src/smallvec_u32/mod.rs:reserve", "enum_vec/src/smallvec_u32/mod.rs:extend", "enum_vec/src/vec_u32/mod.rs:capacity"]}
{"id": "C49", "title": "extend and collect from live iterators", "statement": "extend and collect call their iterator in turn with their own work; whatever the iterator does (any state, panics), their effect is determined by its size hint, its items and how it ends. a.extend(b) and a.extend(&b) append exactly the elements the (possibly partly used) iterator of b has not yielded yet, also when b has another block width or storage type; b.into_iter().collect() converts between the storage types without changing any element; T::values().collect() holds every value of T once, in discriminant order; with an iterator that never ends extend ends by a panic for lack of memory with only items of the iterator appended. One exception: extend and collect when a block holds one element and the length plus the size hint is usize::MAX, see C66.", "quantifier": "all iterators (state machines), all vectors, all pairs of instances, all histories of the iterator before the call, all allocators", "why_tests_cant": "iterators are arbitrary programs and vectors and histories are unbounded", "anchors": ["enum_vec/src/vec_u32/mod.rs:extend", "enum_vec/src/vec_u32/mod.rs:from_iter", "enum_vec/src/vec_u32/mod.rs:into_iter", "enum_like/src/lib.rs:values"]}
{"id": "C50", "title": "No arithmetic overflow in EnumLike implementations", "statement": "For every type built by any nesting of the provided impls and the derive macro that compiles (its NUM_VARIANTS constant does not overflow usize), to_discr and from_discr never overflow in debug or release builds: NUM_VARIANTS and to_discr are the exact natural numbers, from_discr returns or panics exactly as in natural-number arithmetic for every usize argument, and the contract holds. If no enum involved is empty, the type compiles exactly when its number of values is below 2^64.", "quantifier": "all types (any nesting depth, any number of fields and variants), all values, all usize arguments, checked and unchecked builds", "why_tests_cant": "types and values near 2^64 cannot be enumerated", "anchors": ["enum_like/src/lib.rs:EnumLike", "enum_like_derive/src/lib.rs:num_variants_product", "enum_like_derive/src/lib.rs:to_discr_body", "enum_like_derive/src/lib.rs:from_discr_body", "enum_like_derive/src/lib.rs:print_from_discr"]}
{"id": "C51", "title": "Growing is amortised", "statement": "If the allocator grows geometrically (to at least the double, as Vec, or to a power of two, as SmallVec), then in any history of calls that neither assign to nor shrink a vector, from any state and also with panics and failed allocations, the number k of calls that change its capacity satisfies 2^k <= 2 * final capacity, and these calls together move less than twice the final capacity. n pushes on a new vector end with a capacity of at most max(initial, 8, 2*ceil(n / elements per block)) blocks, so push has constant amortised cost.", "quantifier": "all histories of calls, all start states, all geometric allocators, all n", "why_tests_cant": "histories and allocators are unbounded; a wrong growth request only shows as slowness on large inputs", "anchors": ["enum_vec/src/vec_u32/mod.rs:push", "enum_vec/src/vec_u32/mod.rs:grow_if_needed", "enum_vec/src/vec_u32/mod.rs:reserve", "enum_vec/src/vec_u32/mod.rs:extend"]}
{"id": "C52", "title": "The text printed by the derive macro is a correct impl", "statement": "For every declaration with distinct, well-spelled names, the tokens printed by #[derive(EnumLike)] are well-spelled and have exactly one reading by the grammar of Rust (operator precedence, associativity, method calls, struct expressions, match arms and guards), and if the impls of the field types keep the contract of EnumLike, so does the printed impl, in debug and in release builds: if its NUM_VARIANTS compiles it is the number of values of the type, to_discr maps every value without overflow to a number below it, from_discr recovers the value and returns only values of the declared type or panics. The numbers are mixed-radix numbers of the fields, first field least significant; data-less variants come first, then the others in order of declaration; if the field impls leave no gaps there are none, and numbers from NUM_VARIANTS on panic for enums. If no field type is empty the constant compiles exactly if there are fewer than 2^64 values. The macro refuses unions and enums with an empty () or {} variant and nothing else.", "quantifier": "all structs and enums (any number of variants and fields, any names, any field types with lawful impls), all values, all usize arguments of from_discr, debug and release builds", "why_tests_cant": "the macro is a program that prints programs: tests run the output for a few declarations, while a missing parenthesis or a name clash shows only for some shapes of declarations and some sizes of field types", "anchors": ["enum_like_derive/src/lib.rs:derive_enum_like", "enum_like_derive/src/lib.rs:MatchArm", "enum_like_derive/src/lib.rs:all_variants_of", "enum_like_derive/src/lib.rs:generate_enum_code", "enum_like_derive/src/lib.rs:generate_struct_code", "enum_like_derive/src/lib.rs:from_discr_body", "enum_like_derive/src/lib.rs:to_discr_body", "enum_like_derive/src/lib.rs:num_variants_product"]}
{"id": "C53", "title": "Unsafe methods used within their contract are memory-safe in any program", "statement": "A program may mix the unsafe methods get_raw_unchecked, set_raw_unchecked, set_len and storage_mut (with any calls on the block vector it returns) with all safe methods, and go on after panics. If every raw access is inside the initialised storage, set_len does not go beyond it and every edit of the storage leaves enough blocks for len() elements, then no call has undefined behaviour, whatever numbers are written and however EnumLike is implemented. The contract is exact: an unsafe call that breaks it is undefined behaviour itself or makes some later get undefined behaviour.", "quantifier": "all histories of safe and unsafe calls, all arguments, all allocators, all EnumLike implementations, all well-formed states", "why_tests_cant": "undefined behaviour is not observable by assertions and the interleavings of unsafe and safe calls are unbounded", "anchors": ["enum_vec/src/vec_u32/mod.rs:set_len", "enum_vec/src/vec_u32/mod.rs:get_raw_unchecked", "enum_vec/src/vec_u32/mod.rs:set_raw_unchecked", "enum_vec/src/vec_u32/mod.rs:storage_mut"]}
{"id": "C54", "title": "EnumSet, EnumVec and live iterators work together", "statement": "Collecting or extending an EnumVec from any iterator of an EnumSet (iter, union, intersection, difference, symmetric_difference) appends each member exactly once, in increasing discriminant order, failing only for lack of memory. Extending an EnumSet from any iterator that ends gives exactly the old members and the items yielded, also when the iterator panics, and panics exactly if the iterator does; from an endless iterator it never ends and never fails. Collecting the iterator of an EnumVec into an EnumSet gives exactly its elements, and len is the number of distinct ones; T::values().collect() is the set of all values. Collecting a two-set iterator gives the set the in-place operation makes, and extending with t.iter() is union_with. for loops and Debug see each member exactly once in increasing order whatever the body or formatter does, including panics. One exception: collecting and extending a vector when a block holds one element and the length plus the number of members is usize::MAX, see C66.", "quantifier": "all sets of values, all vectors, all five iterators, all honest size hints, all live iterators (stateful, panicking, endless), all formatters and loop bodies, all allocators, all types with a lawful EnumLike", "why_tests_cant": "the composition of two containers must hold for every set, every vector, every iterator behaviour and every place where user code can panic", "anchors": ["enum_set/src/lib.rs:Extend::extend", "enum_set/src/lib.rs:FromIterator::from_iter", "enum_set/src/lib.rs:WrapIter::next", "enum_set/src/lib.rs:WrapIter::size_hint", "enum_set/src/lib.rs:Debug::fmt", "enum_set/src/lib.rs:IntoIterator::into_iter", "enum_vec/src/vec_u32/mod.rs:extend", "enum_like/src/lib.rs:Values"]}
{"id": "C55", "title": "EnumSet equality, order, hash and clone are consistent", "statement": "Two EnumSets are == exactly if they have the same members, exactly if cmp returns Equal; sets with the same members feed the same data to a hasher; a clone is equal to the original. cmp is antisymmetric and transitive; s < t is decided by the value with the least discriminant that is in exactly one of the sets: it holds if that value is in s and t has members after it, or if it is in t and s has no members after it.", "quantifier": "all pairs (for transitivity triples) of sets of values of any type with a lawful EnumLike, whatever the histories that made them", "why_tests_cant": "consistency of Eq, Ord and Hash is a law over all pairs and triples of sets, also those with the same members built by different histories", "anchors": ["enum_set/src/lib.rs:EnumSet"]}
{"id": "C56", "title": "No user code can cause undefined behaviour", "statement": "Whatever the implementations of EnumLike and Clone, the closures and the iterators passed in do - return anything (also numbers that are no discriminants, and different ones each time), have side effects, panic at any call, promise wrong size hints - no safe call of EnumVec has undefined behaviour, also when the program goes on using the vectors after every panic, and all vectors stay well-formed. The only safe calls that can go wrong are those that do so with well-behaved user code too: split_off below the length, using a Vec-backed vector after a block-aligned append has taken its storage, and, in release builds with one element per block, reserving room for usize::MAX elements (C66). For well-behaved implementations all other properties apply.", "quantifier": "all implementations of to_discr, from_discr and clone as stateful code over an arbitrary world, all closures and iterators, all histories of safe calls over any number of vectors, all allocators, block widths, storages and builds", "why_tests_cant": "the adversary is arbitrary code called in the middle of unsafe code; tests can only try a few of them and a few interleavings", "anchors": ["enum_vec/src/vec_u32/mod.rs:push", "enum_vec/src/vec_u32/mod.rs:insert", "enum_vec/src/vec_u32/mod.rs:extend", "enum_vec/src/vec_u32/mod.rs:extend_with_value", "enum_vec/src/vec_u32/mod.rs:retain", "enum_vec/src/vec_u32/mod.rs:for_each", "enum_like/src/lib.rs:EnumLike"]}
{"id": "C57", "title": "An honest EnumLike that may panic changes nothing but the panics", "statement": "If to_discr, from_discr and clone return the right values whenever they return, but may panic at any call and have side effects on their own data, then as long as no call has panicked all results, vectors and the data of the closures are those with an implementation that never panics; so histories that behave like Vec (C01) still do. When user code panics inside for_each, the elements visited so far have been replaced by the closure's answers and all others are as before; inside retain, the vector has its old length and consists of the elements accepted so far followed by the old elements from that position on.", "quantifier": "all honest implementations (whatever decides when they panic), all closures, all histories of calls, all vectors", "why_tests_cant": "where a panic strikes depends on arbitrary state of the implementation; the claim is over all of them, and over all histories", "anchors": ["enum_vec/src/vec_u32/mod.rs:for_each", "enum_vec/src/vec_u32/mod.rs:retain", "enum_vec/src/vec_u32/mod.rs:get", "enum_vec/src/vec_u32/mod.rs:set"]}
{"id": "C58", "title": "What a panic inside EnumLike, Clone or an iterator leaves behind", "statement": "For any implementation of EnumLike and Clone: a panic of user code inside get, any, all, set, pop or remove leaves the vector exactly as it was. Inside push, extend (any iterator, except for the size hint of C66 in release builds), resize to a larger length and insert, all elements that were in the vector are still at their places, and truncate to the old length restores the old contents; the calls are not atomic, the length may have grown already, by elements nobody pushed. Inside swap_remove, the two elements have been swapped and nothing is lost.", "quantifier": "all implementations as arbitrary stateful code, all vectors, all iterators, all positions of the panic", "why_tests_cant": "every call of user code is a possible crash point; the claim is over all of them for every vector and implementation", "anchors": ["enum_vec/src/vec_u32/mod.rs:push", "enum_vec/src/vec_u32/mod.rs:insert", "enum_vec/src/vec_u32/mod.rs:extend", "enum_vec/src/vec_u32/mod.rs:resize", "enum_vec/src/vec_u32/mod.rs:remove", "enum_vec/src/vec_u32/mod.rs:swap_remove", "enum_vec/src/vec_u32/mod.rs:pop"]}
{"id": "C59", "title": "derive(EnumLike) on generic types covers exactly the right instances", "statement": "For a generic struct or enum with any number of lifetime, type and const parameters, with any bounds, defaults and where clause, #[derive(EnumLike)] prints one well-formed unsafe impl of the declared type, which implements EnumLike for exactly those instances Name<args> whose type arguments all implement EnumLike; for every instance whose field types keep the EnumLike contract, the derived impl keeps it too.", "quantifier": "for all declarations with all lists of generic parameters, all type systems (which types meet which bounds) and all arguments", "why_tests_cant": "the tests of the repository derive for two generic types; there are infinitely many parameter lists, and a test cannot show that an impl does not exist for an instance", "anchors": ["enum_like_derive/src/lib.rs:add_trait_bounds", "enum_like_derive/src/lib.rs:impl_enum_like", "enum_like_derive/src/lib.rs:derive_enum_like"]}
{"id": "C60", "title": "Exactly which calls are calls of Vec", "statement": "Take two programs in the same state, one with EnumVecs and one with Vecs of the same elements. A call that is not refused memory gives the same result and leaves all vectors and closure states the same if and only if a condition on the call holds, which is given for every operation: none for most; insert must be within the vector, and for elements as wide as a block it is right only in release builds and only in front of elements equal to the new one; remove is right if and only if no bit left in the unused part of a later block is missing in the element that moves into that block's last position (for full-width elements: in debug builds only for the last two positions, in release builds only if each element moved has the bits of the one it replaces); split_off only at or beyond the end; append to a Vec-backed vector only if that vector's length is not a multiple of the elements per block or the other is empty; extend and collect only if the iterator yields at least as many items as it promises (or, for collect, panics); retain with a panicking predicate only if nothing was dropped before; and with one element per block, if the reserved length is usize::MAX, reserve only in release builds and on an empty vector, extend only in debug builds and if the iterator panics at once, collect only if the iterator panics (in release builds: at once), From never. The same for whole histories: every call of a history is the call of Vec if and only if every call meets its condition when it is made.", "quantifier": "every lawful element type, block width, build and allocator, every pair of equal states reachable or not, every call and every history that borrows correctly", "why_tests_cant": "an exact condition is a statement about all states on both sides of it: a test shows one state where the call is right or one where it is wrong, never that there are no others", "anchors": ["enum_vec/src/vec_u32/mod.rs:insert", "enum_vec/src/vec_u32/mod.rs:remove", "enum_vec/src/vec_u32/mod.rs:append", "enum_vec/src/vec_u32/mod.rs:split_off", "enum_vec/src/vec_u32/mod.rs:retain", "enum_vec/src/vec_u32/mod.rs:extend", "enum_vec/src/vec_u32/mod.rs:from_iter"]}
{"id": "C61", "title": "Exactly which calls are undefined behaviour", "statement": "In any state a program can get into, also with vectors whose storage is too short for their length (after append took it, after set_len or edits of storage_mut()), a call, safe or unsafe, that is not refused memory is undefined behaviour if and only if a condition on the call and the lengths holds, which is given for every operation. Let n be the length and c the number of elements the initialised storage has room for. get and set: c <= i < n. push, insert, pop, hash: n > c. remove and swap_remove: the index is in range and n > c (remove panics instead if the element there cannot be read). swap: the first index is in range and outside the storage, or both are in range and one is outside. append: its argument is too short and the length of self is not a multiple of the elements per block. split_off: before the end, always. retain and for_each: n > c, all numbers in the storage are those of values and the closure does not panic on any of them. to_vec: n > c and all numbers in the storage are those of values. eq: equal lengths, one of the two too short, no difference before. extend and collect: in a release build with one element per block, the length plus the size hint is usize::MAX and the iterator yields an item; From and from_slice likewise; resize: likewise, by at most four elements. Iterators: a position outside the storage is reached before an element that cannot be read. get_raw_unchecked and set_raw_unchecked: i >= c. All other calls, among them reserve, truncate, clear, shrink_to_fit, clone, any, all, set_len and edits of the storage, never are. A program has undefined behaviour if and only if one of its calls meets the condition when it is made. With safe calls only, the storage of a well-formed vector becomes too short exactly when the vector, not empty and backed by a Vec, is appended to one whose length is a multiple of the elements per block, or, in a release build with one element per block, when it is not empty and reserve is called for usize::MAX elements altogether, or extend with that size hint.", "quantifier": "all element types (no assumption on the EnumLike impl, except for retain and for_each that to_discr fits the element width), block widths, builds, allocators, all states well-formed or not, all safe and unsafe calls, all histories", "why_tests_cant": "undefined behaviour is not observable by a test, which may read stale memory and pass; exactness needs all states on both sides of the condition", "anchors": ["enum_vec/src/vec_u32/mod.rs:append", "enum_vec/src/vec_u32/mod.rs:split_off", "enum_vec/src/vec_u32/mod.rs:get_raw_unchecked", "enum_vec/src/vec_u32/mod.rs:set_raw_unchecked", "enum_vec/src/vec_u32/mod.rs:set_len", "enum_vec/src/vec_u32/mod.rs:storage_mut"]}
{"id": "C62", "title": "Tuples and arrays: what the macros print", "statement": "For every tuple of at most 32 components of any EnumLike types and every array of at most 32 items there is exactly one EnumLike impl. Its NUM_VARIANTS is the product of the components' numbers of variants, and it is a compile error if a product of the first components does not fit in usize. to_discr of a tuple or array is the number whose digits are the numbers of its components in order, the first one least significant; no component is read twice, out of bounds or after it was moved out; from_discr of that number is the same tuple or array with every component in its place. Every number below NUM_VARIANTS is the number of a tuple if that holds for the components. Tuples of more than 32 components and longer arrays have no impl. The same holds for any number of rows in the macro invocation. If the compiler makes mem::uninitialized panic for the item type, to_discr of every non-empty array panics and nothing else changes.", "quantifier": "all lists of component impls (arbitrary functions, also ones that panic elsewhere), all values, all numbers, all array lengths, builds and targets, any number of macro rows with distinct names", "why_tests_cant": "the impls are printed by recursive macros with reversed index lists; a test compiles a few arities with a few types, and a swapped index between components of the same type is invisible unless values differ", "anchors": ["enum_like/src/lib.rs:tuple_impls", "enum_like/src/lib.rs:array_impls", "enum_like/src/lib.rs:reverse_idx_a", "enum_like/src/lib.rs:reverse_idx_b", "enum_like/src/lib.rs:reverse_idx_c"]}
{"id": "C63", "title": "A vector of numbers, whatever EnumLike does", "statement": "Assume nothing of an implementation of EnumLike except that it is pure and its numbers fit in an element: to_discr may map several values to the same number, from_discr may return another value or panic. Then every safe call on EnumVecs, from any well-formed contents (also numbers written with set_raw), returns, panics and leaves the vectors and closures exactly as the same call on plain vectors of numbers does, which writes with to_discr when it stores and reads with from_discr when it returns or passes a value to a closure; except for exactly these calls: insert beyond the end, insert and remove with elements as wide as blocks, remove that moves an element onto unused bits not contained in its number, split_off before the end, append that leaves its argument without storage, extend and collect with a size_hint that promises too much, and with one element per block the calls that reserve room for usize::MAX elements (C66). In particular eq, hash, any, all, swap, insert, clone, append, resize compare and move numbers and never depend on from_discr; get, pop, remove, to_vec, iterators, retain and for_each panic exactly when they come to a number that from_discr refuses, and leave what they have done so far.", "quantifier": "all pure implementations of EnumLike whose numbers fit, all builds, block widths, allocators, all states of any number of vectors, all calls with all arguments and closures (also panicking ones), all histories without failed allocations", "why_tests_cant": "the tests use implementations that obey the contract; which of the calls go through from_discr and in which order relative to the changes is only visible with ones that do not, and the claim is an equivalence over all states", "anchors": ["enum_vec/src/vec_u32/mod.rs:EnumVec::get", "enum_vec/src/vec_u32/mod.rs:EnumVec::pop", "enum_vec/src/vec_u32/mod.rs:EnumVec::swap_remove", "enum_vec/src/vec_u32/mod.rs:EnumVec::retain", "enum_vec/src/vec_u32/mod.rs:EnumVec::for_each", "enum_vec/src/vec_u32/mod.rs:EnumVecIter", "enum_like/src/lib.rs:EnumLike"]}
{"id": "C64", "title": "Exactly which calls panic", "statement": "Every safe call on well-formed vectors that is not refused memory ends in exactly one of four ways, and which one is decided by the numbers in the vectors and the arguments alone. It panics exactly if: set, remove, swap, swap_remove with an index out of bounds; split_off beyond the length; extend or collect from an iterator that panics, or that ends before it has yielded what its size_hint promised; retain or for_each with a closure that panics; in debug builds only, insert or (if two or more elements follow) remove when elements are as wide as blocks, insert at an index so close to usize::MAX that rounding it up to a block overflows, and, with one element per block, reserve, extend, collect and From that reserve room for exactly usize::MAX elements (in release builds extend and collect panic there if the iterator yields nothing). It panics inside from_discr exactly if get, pop, remove, swap_remove, to_vec, an iterator, retain or for_each comes to an element whose number from_discr refuses; so never if all stored numbers are those of values. It is undefined behaviour exactly for split_off before the end and, in release builds with one element per block, for extend, collect and From that reserve room for usize::MAX elements and get an item. In all other cases it returns; in particular new, with_capacity, from_elem, clone, len, push, truncate, clear, resize, shrink_to_fit, append, eq, any, all and hash never panic, and insert beyond the end does not (contrary to Vec).", "quantifier": "all pure implementations of EnumLike whose numbers fit, all builds (debug and release, 32 and 64 bit), block widths, allocators, all states of any number of vectors, all calls with all arguments and closures", "why_tests_cant": "an if-and-only-if over all states, indices and builds: tests show that some calls panic and some do not", "anchors": ["enum_vec/src/vec_u32/mod.rs:EnumVec::set", "enum_vec/src/vec_u32/mod.rs:EnumVec::insert", "enum_vec/src/vec_u32/mod.rs:EnumVec::remove", "enum_vec/src/vec_u32/mod.rs:EnumVec::swap", "enum_vec/src/vec_u32/mod.rs:EnumVec::swap_remove", "enum_vec/src/vec_u32/mod.rs:EnumVec::split_off", "enum_vec/src/vec_u32/mod.rs:EnumVec::extend"]}
{"id": "C65", "title": "Exactly how much memory each call uses, and exactly which calls are refused it", "statement": "The number of blocks in use and the capacity of every vector after every call, and whether the call is refused memory, are given by a small function of the lengths, the blocks and capacities before and the sizes of the arguments alone (never of the elements): push and insert add one block exactly if all blocks are full; reserve(n) uses (len+n)/epb+1 blocks (one too many for multiples, and drops blocks beyond that; computed with the overflow of usize, see C66); extend does this for the size_hint and then pushes one by one; from_elem and resize of more than four blocks of elements ask for m*m blocks where m are needed and keep that capacity; append to full blocks adds the blocks of the argument and leaves a Vec argument none; with_capacity and split_off ask for exactly the blocks needed, clone for exactly the blocks in use, shrink_to_fit for exactly those needed; get, set, pop, remove, swap, swap_remove, truncate, clear, retain, for_each, comparisons, any, all, hash, to_vec, iterators and resize to no more elements never get or free memory. Memory is refused if and only if this function asks the allocator for more than it grants (or a length exceeds usize); then, and only then, does a call fail for lack of memory; together with C64 this decides how every call ends, also under failing allocators, and holds along whole histories.", "quantifier": "all implementations of EnumLike (also ones that break the contract), builds, block widths, allocators (growth strategies and refusals), storages, all well-formed states of any number of vectors, all calls with all arguments, all histories", "why_tests_cant": "an if-and-only-if over all allocators, capacities and sizes: a test sees one growth strategy and never a refused allocation, and m*m blocks for m only show as slowness or a failed allocation with large inputs", "anchors": ["enum_vec/src/vec_u32/mod.rs: reserve, push, insert, extend, extend_with_value, append, split_off, with_capacity, shrink_to_fit, fix_storage, resize, from_elem, capacity", "enum_vec/src/smallvec_u32/mod.rs"]}
{"id": "C66", "title": "Reserving room for usize::MAX elements", "statement": "reserve(k), for every k up to usize::MAX, either returns with room for k more elements or panics, and in both cases leaves all elements as they were; extend and collect never have undefined behaviour and never lose old elements, whatever size hint an iterator gives, for example std::iter::repeat(x) with the correct hint usize::MAX.", "quantifier": "all vectors, all k and all iterators with any size hint, items and end, live ones included; all block widths, element types, builds and allocators", "why_tests_cant": "The overflow needs one element per block, a release build and a total of exactly usize::MAX; a test with any other number of elements per block, in a debug build (as cargo test makes) or with any other number passes, and the call returns normally: only later accesses go wrong.", "anchors": ["enum_vec/src/vec_u32/mod.rs: EnumVec::reserve (lines 140-146)", "enum_vec/src/vec_u32/mod.rs: Extend::extend (lines 907-922), FromIterator::from_iter", "enum_vec/src/vec_u8/mod.rs"]}
{"id": "C67", "title": "Allocators with hidden state", "statement": "Whatever hidden state the allocator has, and however its answers depend on all earlier requests, including those of the same call, every call and every history returns and does what it does when each call is given a fixed function from requests to answers; so no result depends on the order in which one call makes its requests, memory safety, validity and the agreement with Vec hold for such allocators, and len, is_empty, get, set, pop, remove, swap, swap_remove, truncate, clear, retain, for_each, any, all, to_vec, iteration, comparison and hashing never ask the allocator.", "quantifier": "all allocators (state spaces, transition functions, answers that are lawful), all states of the allocator, all memories (well-formed or not), all calls and all histories; all block widths, element types and builds", "why_tests_cant": "A test runs with one allocator; whether a sequence of requests inside one call could meet an allocator that changes its mind is a question about all allocators.", "anchors": ["enum_vec/src/vec_u32/mod.rs: EnumVec::push, insert, extend, extend_with_value, resize, reserve, append, split_off, clone, from_iter", "enum_vec/src/vec_u8/mod.rs", "enum_vec/src/lib.rs: enum_vec!"]}
{"id": "C68", "title": "EnumSet with an arbitrary EnumLike implementation", "statement": "Whatever to_discr, from_discr, the iterators given to extend and collect and the Debug implementation of the elements do (panic, have side effects, answer differently each time), every history of calls of all public functions of EnumSet, on any number of sets and live iterators and also after panics, returns exactly what it returns on mathematical sets of numbers, where a value stands for the number that to_discr answers in that call; user code is called in the specified order with the specified arguments and no more often; a call that panics changes no set, except that extend keeps what it inserted before and loses nothing.", "quantifier": "all implementations of EnumLike as code with state and panics, all histories of calls including from_bit_set with any BitSet, live iterators that are interleaved with calls on other sets and continued after a panic; all implementations of BitSet that are sets of numbers", "why_tests_cant": "The test suite has one test with one well-behaved three-value enum; which numbers a set holds after code that panics or changes its answers, and which user code runs when, is a statement about all such code and all histories.", "anchors": ["enum_set/src/lib.rs: EnumSet, WrapIter, Extend, FromIterator, Debug, Clone, PartialEq, Ord, Hash", "enum_like/src/lib.rs: EnumLike"]}
{"id": "C69", "title": "check_values_of", "statement": "The repository's checker check_values_of::<T>(x) passes for every correct implementation of EnumLike with consecutive discriminants (all built-in types of any depth among them) and x = NUM_VARIANTS, and a type for which it passes keeps the contract of EnumLike: every value has a discriminant below NUM_VARIANTS from which it comes back.", "quantifier": "all types, all implementations of EnumLike (lawful or not), all x", "why_tests_cant": "It is a statement about a test: which implementations it accepts is a question about all implementations, and accepting a wrong one is not visible when the test is run.", "anchors": ["enum_like/src/lib.rs: tests::check_values_of (lines 652-680)", "example/src/main.rs: check_values_of (lines 63-90)", "enum_like/src/lib.rs: EnumLike, EnumValues, Values"]}
{"id": "C70", "title": "Locality: which blocks a call accesses", "statement": "A call reads and writes only the blocks of the storage it has to: get, set, pop, swap, swap_remove and push only those of the elements they name; insert and remove none before that of the index; any, all, retain, for_each, ==, hash only those that hold elements, not spare ones (and == none if the lengths differ); reserve only new ones; extend, extend_with_value, resize, append none of the vector before that of the first new element; an iterator's next, next_back, nth only that of the element they give (skipped elements are not read); to_vec those of the elements; truncate, clear, shrink_to_fit none at all. All other blocks are left as they are and may hold anything without a change of the result or of the effect.", "quantifier": "all element types and block sizes, all implementations of EnumLike, all vectors, all arguments, closures and iterators, all contents of the other blocks; calls that return and calls that panic", "why_tests_cant": "That a result does not depend on a block is a statement about all contents of that block; a test that reads too much passes as long as the value read happens not to matter.", "anchors": ["enum_vec/src/vec_u32/mod.rs: get, set, push, pop, swap, swap_remove, insert, remove, any, all, retain, for_each, reserve, extend, extend_with_value, resize, append, truncate, clear, shrink_to_fit, PartialEq, Hash"]}
{"id": "C71", "title": "Cost: how many block accesses a call makes", "statement": "The number of block accesses: at most 1 for get, set, pop; 1 for push, or 2 if it adds a block; 4 for swap; 5 for swap_remove; for insert and remove two for each element of one block and two for each block from that of the index on (not for each element); for any and all one for each block, however many elements a block holds; for hash and == one for each element of each vector (none if the lengths differ); two for each element for retain and for_each; for reserve one for each new block; for extend one for each announced item, at most two for each other one, and one for each new block; for append at a block boundary two for each block of the other vector, otherwise two for each element; one for each next, next_back or nth of an iterator, however many elements are skipped; one for each element for to_vec; none for truncate, clear, shrink_to_fit. extend_with_value (hence resize and from_elem) of more than four blocks of elements is the exception: it writes the square of the number of blocks, which no multiple of the number of elements bounds.", "quantifier": "all element types and block sizes, all implementations of EnumLike, all vectors, all arguments, closures and iterators", "why_tests_cant": "A bound on the work of a call for all lengths and arguments is not settled by timing some of them.", "anchors": ["enum_vec/src/vec_u32/mod.rs: the same methods, Clone"]}
{"id": "C72", "title": "Which user code a call runs, and how often", "statement": "Every call of to_discr, from_discr, clone and of a closure that a method makes is known: get(i), remove(i), swap_remove(i) call from_discr once, with the discriminant of element i (nothing if i is out of bounds), pop once for the last element; set(i, x) calls to_discr(x) once even if i is out of bounds; any(x), all(x) call to_discr(x) once however long the vector is, not at all if it is empty; push(x) calls to_discr(x) once, insert(i, x) twice; extend, collect and From<Vec> call to_discr once for each item in order, from a slice clone before it; resize and enum_vec![x; n] clone and encode one at a time up to four blocks of elements, beyond that only up to a block boundary, once for all full blocks, and for the rest, so at most 8 calls per element of a block however large n is; iterators call from_discr once for each item they return (nth does not decode what it skips), to_vec once per element; for_each and retain, for each element in order, from_discr, the closure, and to_discr on the answer or, for retain, on each kept element even if it stays in place, and nothing after a panic of the closure; clone, ==, hash, swap, append, truncate, clear, reserve, shrink_to_fit, split_off, len, is_empty call no user code. If a call panics it has made a prefix of these calls. Watching the calls changes nothing.", "quantifier": "all element types and block sizes, all implementations of EnumLike with any side effects, panics or false answers (for_each, retain: those that keep the contract; clone: any that returns equal values when it returns), all vectors, arguments, closures and iterators", "why_tests_cant": "A test with a counting implementation shows the calls for some lengths and indices only; user code with side effects sees the calls at all of them.", "anchors": ["enum_vec/src/vec_u32/mod.rs: get, set, push, pop, insert, remove, swap_remove, retain, for_each, any, all, resize, extend_with_value, extend, from, from_slice, iter, into_iter, to_vec"]}
{"id": "C73", "title": "What every call really does, right or wrong", "statement": "For every call there is an exact description of the result and of the discriminants stored afterwards, also where the call is wrong: insert beyond the end pushes (and may panic in debug builds for an index near usize::MAX); with elements as wide as a block, insert panics after the push in debug builds and in release builds combines, at every position from the index on, the bits of the old and the new discriminant; remove puts the unused bits of a block into the element that moves to its last position, and with elements as wide as a block panics after the first move in debug builds or combines bits in release builds; extend with fewer items than promised panics and leaves the promised length, with what was in the storage before behind the items. Hence exactly when all stored discriminants stay valid: a history of calls never leaves an invalid discriminant if and only if each insert, remove and extend in it satisfies a stated condition on these bits, and then from_discr never fails.", "quantifier": "all element types and block sizes, all implementations of EnumLike whose discriminants fit (also false ones), all states of all vectors incl. unused bits and stale storage, all calls and histories of calls except those with undefined behaviour or lost storage (split_off inside the vector, Vec append at a block boundary, one-element blocks at usize::MAX)", "why_tests_cant": "Tests see only single wrong results; that the description is complete and that the condition is exact is a statement on all states, arguments and histories.", "anchors": ["enum_vec/src/vec_u32/mod.rs: insert, remove, extend, from_iter and all other methods of EnumVec"]}
{"id": "C74", "title": "What every call does, whether or not memory is refused", "statement": "The description of C73 without any assumption on memory: for every call it is known whether it is refused memory (C65), and then exactly what it leaves: all vectors as they were, except that extend has appended either nothing or all promised items and exactly those further items that fit, and resize either nothing, or the elements that fill the last block, or also all whole blocks. A program may catch the panic and go on, with an allocator that changes its mind from call to call or has hidden state: all results and all stored discriminants are those of the description.", "quantifier": "all element types and block sizes, all implementations of EnumLike whose discriminants fit, all states of all vectors, all allocators (per call, or with state), all calls and histories except those with undefined behaviour or lost storage (split_off inside the vector, Vec append at a block boundary, one-element blocks at usize::MAX)", "why_tests_cant": "Tests do not refuse memory, and cannot refuse it at every point of every call in every state.", "anchors": ["enum_vec/src/vec_u32/mod.rs: all methods of EnumVec that allocate: push, insert, extend, resize, extend_with_value, reserve, append, split_off, clone, with_capacity, from_elem, from_iter, From"]}
{"id": "C75", "title": "Threads: every schedule gives every thread what it gets alone", "statement": "In a program with several threads that obeys Rust's borrowing rules (what one thread writes no other thread uses; all may read the same vectors), every interleaving of their calls gives each thread exactly the results it gets when it runs alone, its closures see and do the same, and the vectors end in the same state down to the bits of the storage; so all schedules of the same threads end alike, and two calls that do not touch what the other writes commute. Nothing is assumed of EnumLike, the allocation function or the calls.", "quantifier": "all schedules of any number of threads, all states, all calls, all closures with per-thread state, all EnumLike implementations and allocation functions", "why_tests_cant": "the number of schedules explodes with the number of calls; a race only shows in some of them", "anchors": ["enum_vec/src/vec_u32/mod.rs: EnumVec (all methods)"]}
{"id": "C76", "title": "Refactoring: programs equal by the laws of Vec are equal on EnumVec", "statement": "Replacing calls anywhere in a program by calls that the algebraic laws of Vec make equal (push/pop, insert/remove, swap twice, set twice, truncate/resize/clear, from_elem = new + resize, collect = new + extend, extend twice, append, clone, retain and for_each fusion, ...), possibly together with a change of block type, storage, build or allocator, changes no result of any other call, nothing the closures see, and no final contents.", "quantifier": "all programs, all contexts, all chains of rewriting steps, all pairs of block types and storages", "why_tests_cant": "the set of pairs of equal programs is infinite and each pair must agree in every context", "anchors": ["enum_vec/src/vec_u32/mod.rs: EnumVec (all methods)"]}
{"id": "C77", "title": "End to end: if it compiles, it is a vector of your type", "statement": "For every element type made from the impls of the crate and the derive macro (nested in any way), if the compiler accepts EnumVec<T> (the constants NUM_VARIANTS and BITS_PER_ELEM can be evaluated without overflow; and at most 2^32 variants for 64- and 128-bit blocks), then all assumptions of the other properties hold, and the compiled program - the methods of EnumVec calling the impl's to_discr and from_discr as code with machine arithmetic and possible panics, down to the text printed by the derive macro - computes in every history from every state exactly what the model with numbers computes; so every history of the calls C01 allows behaves like on Vecs of that type.", "quantifier": "all element types of the crate (all nestings, all declarations accepted by the derive macro), all block types, builds, lawful allocators, all states and histories", "why_tests_cant": "infinitely many element types, each with its own generated code; the claim composes constant evaluation, generated text, machine arithmetic and bit packing", "anchors": ["enum_like/src/lib.rs: impls of EnumLike", "enum_like_derive/src/lib.rs: derive_enum_like", "enum_vec/src/vec_u32/mod.rs: BITS_PER_ELEM, EnumVec"]}
{"id": "C78", "title": "The source text computes what the model computes", "statement": "The text of the methods of EnumVec and of its iterators in /repo (the same, letter by letter, in all six modules, but for append in smallvec_u32), read by a parser for Rust and executed statement by statement - with the overflow and bounds checks of the build, unchecked accesses, loops, early returns, closures, panics that keep the state reached - returns in every call and every history of calls exactly the results, panics, allocation failures and final states that the model used by all other properties gives; in particular it behaves like Vec wherever C01 says so.", "quantifier": "all element types and EnumLike implementations (also wrong ones), block types, storage kinds, debug and release builds, 32- and 64-bit targets, allocators within isize::MAX bytes, all arguments, all states (also with garbage bits or too few blocks), all histories, also continued after panics", "why_tests_cant": "there are infinitely many states and histories; agreement of a hand-written model with the text on samples says nothing on the others, e.g. on overflow checks that fire only near the limits of usize", "anchors": ["enum_vec/src/vec_u32/mod.rs: all methods of EnumVec, EnumVecIter, EnumVecIntoIter", "enum_vec/src/smallvec_u32/mod.rs: append"]}
{"id": "C79", "title": "The text of the constants: which types are accepted, and how they are packed", "statement": "The constants of the six modules, as written in /repo and evaluated as the compiler does (integer types, overflow is a compile error): a type with N variants is accepted exactly if N is at least 2 and, in the modules with 8-, 16- and 32-bit blocks, at most 2 to the width; every constant then has a value: BITS_PER_ELEM is the least b with N at most 2^b (for N up to 2^32), ELEMS_PER_BLOCK is the number of b-bit fields in a block and is at least 1, ELEMENT_MASK has exactly the lowest b bits; and these are the constants with which all methods are modelled.", "quantifier": "all six modules, every number of variants that fits in usize, 32- and 64-bit targets", "why_tests_cant": "there are up to 2^64 numbers of variants; the boundary cases are at every power of two, and rejected types cannot be tested at run time", "anchors": ["enum_vec/src/vec_u32/mod.rs: BITS_PER_ELEM, ERROR_TOO_MANY_VARIANTS, ERROR_ZERO_SIZED, ELEMS_PER_BLOCK, ELEMENT_MASK, STORAGE_BLOCK_SIZE", "enum_vec/src/vec_u64/mod.rs: BITS_PER_ELEM", "enum_vec/gen.sh"]}
{"id": "C80", "title": "The text of the EnumLike impls keeps the contract", "statement": "The impls of EnumLike for (), bool, Option<T>, Result<T, S>, (T,), (T, S) and [T; 0], as written in /repo: if the impls of T and S keep the contract of the trait, and NUM_VARIANTS compiles to n, then in every build to_discr maps every value of the type without overflow to a number below n from which from_discr recovers it, every number below n belongs to a value, and from_discr of anything else returns a value of the type or panics; hence so does every nesting of these types. For arbitrary impls of T and S, lawful or not, the text gives the same numbers, values and panics as the model. values() as written yields every value once, in the order of the numbers, and the texts of size_hint, count, last, nth, PackedU8 and PackedU16 do what the model does, in every iterator state.", "quantifier": "all component types and impls (also unlawful ones), all values, every usize passed to from_discr, all nestings, all iterator states, debug and release, 32 and 64 bits", "why_tests_cant": "the impls are generic: there are infinitely many types, and overflow occurs only near 2^32 or 2^64", "anchors": ["enum_like/src/lib.rs: impl EnumLike for (), bool, Option<T>, Result<T, S>, (T,), (T, S), [T; 0]", "enum_like/src/lib.rs: PackedU8, PackedU16", "enum_like/src/lib.rs: Values, Iterator for Values"]}
{"id": "C81", "title": "The text of EnumSet computes sets of numbers, whatever the user code does", "statement": "Every function of enum_set as written in /repo (constructors, insert, remove, contains, extend, collect, the set operations in place and as iterators, the comparisons of sets, iteration, Debug): over a lawful BitSet every history of calls on any number of sets and live iterators returns what it returns on mathematical sets of numbers, calls to_discr, from_discr, the iterators and the formatter in the same order with the same effects, panics exactly when they do, and leaves the same numbers. For an arbitrary BitSet, lawful or not, the text does what the model does.", "quantifier": "all implementations of EnumLike, iterators and formatters as effectful code that may panic, all implementations of the BitSet operations, all histories and stores", "why_tests_cant": "user code is arbitrary and may answer differently on each call; histories and sets are unbounded", "anchors": ["enum_set/src/lib.rs: impl EnumSet", "enum_set/src/lib.rs: Default, FromIterator, Extend, Debug, IntoIterator", "enum_set/src/lib.rs: WrapIter"]}
{"id": "C82", "title": "All crates together, from their texts, behave like Vec and like sets of values", "statement": "For any element type whose EnumLike impl is nested in any way from the impls written in enum_like, tuples and arrays, and the impls printed by the derive macro (and hand-written impls that keep the contract), and that the compiler accepts with the constants as written: EnumVec, run from the text of its methods, returns for every allowed history what Vec returns and leaves the same elements, or stops when an allocation fails; EnumSet, run from its text, returns what a set of values returns; the bits used per element are as few as possible.", "quantifier": "all nested element types made from the texts, all enum declarations the derive macro accepts, all block sizes, builds and lawful allocators, all histories of calls on any number of vectors or sets", "why_tests_cant": "types, declarations, histories and contents are unbounded, and each crate's guarantee rests on those of the others", "anchors": ["enum_like/src/lib.rs: impls of EnumLike", "enum_like_derive/src/lib.rs: derive", "enum_vec/src/enum_vec.rs: EnumVec", "enum_set/src/lib.rs: EnumSet"]}
{"id": "C83", "title": "An EnumSet is a set of values under every history", "statement": "For an element type that keeps the contract and uses all numbers, every history of calls on any number of EnumSets and live iterators returns what it returns on mathematical sets of values, whatever the user's iterators and formatters do (they may panic and have effects), and the effects are the same; iterators yield each value once, in the order of the numbers. Bits given to from_bit_set must be numbers of values.", "quantifier": "all element types keeping the contract, all lawful BitSets, all histories, iterators and formatters with effects and panics", "why_tests_cant": "histories, sets and element types are unbounded and user code is arbitrary", "anchors": ["enum_set/src/lib.rs: impl EnumSet", "enum_set/src/lib.rs: WrapIter"]}
{"id": "C84", "title": "Tuples and arrays keep the EnumLike contract for every number", "statement": "If the impls of the component types keep the contract of EnumLike, so does the impl that the macros print for the tuple (up to 32 components) or array (up to 32 items): every value has a number below NUM_VARIANTS from which it is recovered, every number below NUM_VARIANTS belongs to a value, and from_discr of any usize returns a tuple or array of that type, with every component a value of its own type, or panics; nothing else. Tuples and arrays nest with each other, with derived types and with the types of the crate.", "quantifier": "all component types and impls keeping the contract, all tuples and arrays up to 32, all numbers given to from_discr, all builds", "why_tests_cant": "component types and numbers are unbounded; numbers that belong to no value are as important as those that do", "anchors": ["enum_like/src/lib.rs: tuple_impls!", "enum_like/src/lib.rs: array_impls!"]}
{"id": "C85", "title": "The macros of enum_like, as written, print the impls for tuples and arrays", "statement": "For any rows at all, `tuple_impls! { rows }` and `array_impls! { rows }`, with the definitions of these macros and of reverse_idx_a/b/c in the file, letter by letter, expand to one impl per tuple (array) length: in each, the components are projected in the order of the tuple, the element that to_discr reads from an array has index N - 1 - idx, and from_discr builds them in the same order; with fewer than two rows (none for arrays) there is a compile error. The two calls in the crate print exactly the items from which the impl of every tuple and array type is taken, and the printed text determines them.", "quantifier": "all lists of rows (any numbers, any names, any length)", "why_tests_cant": "the macros are recursive and the number of rows is unbounded; tests only use the one call in the crate", "anchors": ["enum_like/src/lib.rs: tuple_impls!", "enum_like/src/lib.rs: array_impls!", "enum_like/src/lib.rs: reverse_idx_a!, reverse_idx_b!, reverse_idx_c!"]}
{"id": "C86", "title": "The text of Debug, Into<Vec>, storage() and storage_mut() does what the model does", "statement": "Running the text of fmt, letter by letter, gives every formatter the same entries in the same order as formatting the Vec with the same elements, returns the same result and panics at the same place; the text of into makes that Vec; storage() and storage_mut() return a reference to the blocks and change nothing. For the first two also in states with garbage and for wrong EnumLike impls: the text does what the model does. With C78 every function of the module is covered by its text.", "quantifier": "all element types, EnumLike impls, states, formatters (with effects, errors and panics), builds", "why_tests_cant": "vectors, formatters and element types are unbounded", "anchors": ["enum_vec/src/vec_u32/mod.rs: impl Debug", "enum_vec/src/vec_u32/mod.rs: impl Into<Vec<T>>", "enum_vec/src/vec_u32/mod.rs: storage, storage_mut"]}
{"id": "C87", "title": "enum_vec! as written: which calls compile and what they are", "statement": "With the definition of enum_vec! in the file, letter by letter: for all expressions x and n, enum_vec![x; n] is the block { EnumVec::from_elem(x, n) }; for every list of expressions, the empty one too, and with any number of commas behind it, enum_vec![a, b, c] is the block { EnumVec::from_slice(&[a, b, c]) }, each expression once and in the order given; and every argument that the macro accepts has one of these two forms.", "quantifier": "all argument texts (all expressions that have no `,`, `;` or `=>` outside of delimiters, all list lengths)", "why_tests_cant": "the number of arguments and the expressions are unbounded", "anchors": ["enum_vec/src/lib.rs: enum_vec!"]}
{"id": "C88", "title": "The text printed for tuples and arrays, run, is their impl", "statement": "Run the text of the items that tuple_impls! and array_impls! print (the type in NUM_VARIANTS, the projections and mem::replace in to_discr, the let and the projections in from_discr), with the impl of every tuple type in it found in the same way: for every tuple of 3 to 32 components and every array of 1 to 32 items, one of the printed items is for that type, and it has the NUM_VARIANTS, to_discr and from_discr proved correct in C62 and C84, for all values and numbers, with the same panics; so if the components keep the contract of EnumLike, so does the printed text.", "quantifier": "all rows given to the macros; all component impls (good or bad), all values, numbers, builds; mem::uninitialized panicking or not", "why_tests_cant": "component types and values are unbounded, and the text is only seen by the compiler", "anchors": ["enum_like/src/lib.rs: tuple_impls!", "enum_like/src/lib.rs: array_impls!"]}
{"id": "C89", "title": "#[derive(EnumLike)] prints what the templates in its text say", "statement": "For every struct or enum declaration, with every list of generic parameters, fields and variants, the tokens printed by #[derive(EnumLike)], with every quote! and parse_quote! done from the text of the macro (holes #x and repetitions #( ... )*), are those on which the properties of the derived impls are proved: no template fails to expand, the macro panics only for unions and for variants with an empty list of fields, and the printed text has exactly one reading, which is an impl that keeps the EnumLike contract for every instance whose type arguments implement EnumLike and whose field types keep it.", "quantifier": "all declarations (any number of variants, fields, generic parameters, any names), all instances, all field impls that keep the contract, all builds", "why_tests_cant": "the printed code depends on the declaration; a test compiles a few declarations, and a slip in a template (a swapped hole, a missing parenthesis, a repetition over the wrong list) shows only for some shapes", "anchors": ["enum_like_derive/src/lib.rs: MatchArm, all_variants_of, generate_rusty_enum_code, generate_c_enum_code, generate_unit_struct_impl, generate_struct_many_elem, num_variants_product, from_discr_body, to_discr_body, add_trait_bounds, impl_enum_like, derive_enum_like"]}
{"id": "C90", "title": "All the crates from their texts, and the impl the compiler finds", "statement": "Take the expansions of tuple_impls! and array_impls! from the macro text, cut them into items, and resolve EnumLike for a tuple or array type by searching these items (and, in the item found, for the impls its own text calls): exactly one impl is found for every tuple with at most 32 components and every array of length at most 32, none beyond, whatever the component impls do. Hence for every type built in any nesting from the impls in the text of enum_like, from #[derive(EnumLike)] declarations (with generics) printed from the text of the templates, and from tuples and arrays resolved in the expanded text, the impl keeps the EnumLike contract; EnumVec over it, run from its text, behaves on every allowed history as Vec does, and EnumSet over it, run from its text, as a set of values.", "quantifier": "all nestings of types, all component impls (for the search, also bad ones), all tuple and array lengths, all histories of calls, all builds and storages", "why_tests_cant": "the set of types is infinite (any nesting of derived, tuple, array and library types) and the histories unbounded; a test fixes a few of both", "anchors": ["enum_like/src/lib.rs: tuple_impls!, array_impls!, reverse_idx_a, reverse_idx_b, reverse_idx_c", "enum_like/src/lib.rs: impls of EnumLike", "enum_like_derive/src/lib.rs: derive", "enum_vec/src/enum_vec.rs: EnumVec", "enum_set/src/lib.rs: EnumSet"]}
{"id": "C91", "title": "values() and packed values of every type made from the texts", "statement": "For every type whose EnumLike impl is made from the texts of the crates (C90) with NUM_VARIANTS = n: it has exactly n values, numbered 0 to n-1; every history of calls of values(), next, nth(k), size_hint, count and last on any number of iterators and copies of them, run from the text of Values<T>, returns what the same calls return on lists of these values, as long as n + k fits in usize for all nth(k); PackedU8::new and PackedU16::new, run from their text, compile exactly if n is at most 2^8 or 2^16, store the number of the value, and get returns the value.", "quantifier": "all nestings of types, all histories of iterator calls and copies, all values, all builds", "why_tests_cant": "infinitely many types and histories; the tests iterate a few types once", "anchors": ["enum_like/src/lib.rs: Values, impl Iterator for Values, EnumValues::values, PackedU8, PackedU16"]}
{"id": "C92", "title": "At most one impl of EnumLike for each tuple and array type", "statement": "In what tuple_impls! and array_impls! expand to, exactly one item is an impl of EnumLike for each tuple type with 3 to 32 components and each array type with 1 to 32 elements, and no item is one for any other tuple or array type; so none overlaps with another or with the impls of (), (T,), (T, S) and [T; 0] in the crate. Whatever the macros expanded to, a type with two matching items has no impl: overlap is an error, not a choice.", "quantifier": "all tuple types of every length and array types of every size, all impls of the components, all expansions", "why_tests_cant": "infinitely many types; that no second impl matches is a statement about all items and types", "anchors": ["enum_like/src/lib.rs: tuple_impls!, array_impls!, impls for (), (T,), (T, S), [T; 0]"]}
{"id": "C93", "title": "Counting members of EnumSets, and dealing the values of a type to sets", "statement": "For all EnumSets s, t: len of the union and of the intersection add up to the lens of s and t, and likewise for difference and symmetric difference; is_disjoint, is_subset, is_superset, == and is_empty hold exactly if the corresponding lens agree; insert and remove change len by one exactly if they return true. After any history a set has at most NUM_VARIANTS members, and has that many exactly if it contains every value. If the values that T::values() yields are dealt in any order to any number of empty sets (as in the example of the repository), every insert returns true, the sets are disjoint, each has as many members as its player was dealt, every value is in exactly one set or still in the deck, and when all is dealt the lens add up to NUM_VARIANTS and the union of the sets == the set collected from values(). The program of the example works for every type, every seed and every number of players, and the hands are equal in size if the number of players divides NUM_VARIANTS.", "quantifier": "all sets, element types, histories, deals, seeds and numbers of players", "why_tests_cant": "the example in the repository tests one type, one seed and four players", "anchors": ["example/src/enum_set.rs: card_deck_game", "enum_set/src/lib.rs: len, union_with, intersect_with, difference_with, symmetric_difference_with, insert, remove", "enum_like/src/lib.rs: EnumValues::values"]}
{"id": "C94", "title": "size_hint and the number of items of EnumSet iterators, from the text", "statement": "For every iterator made by iter, union, intersection, difference or symmetric_difference, after any number of calls of next (also after panics of from_discr): size_hint, by its text, changes nothing and returns the hint of the inner iterator of bit-set; if that hint is right, the lower bound is at most and the upper bound at least the number of items that next goes on to return until None. If from_discr does not panic for the members, iter yields len() items, and the others as many as len() of the set that union_with, intersect_with, difference_with or symmetric_difference_with makes, less those already taken.", "quantifier": "all sets, element types (also panicking and stateful ones), all numbers of calls of next", "why_tests_cant": "no test of the repository calls size_hint; the claim ranges over all sets and all points of an iteration", "anchors": ["enum_set/src/lib.rs: WrapIter, size_hint, next, iter, union, intersection, difference, symmetric_difference"]}

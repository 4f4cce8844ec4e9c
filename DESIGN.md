# Design: a Lean 4 model of Badel2/enum_vec

`/repo` is a Rust workspace: `EnumVec<T>` (a vector that packs small enums into machine words, in six storage variants),
the trait `EnumLike` with its built-in impls and derive macro, and `EnumSet<T>`. This directory contains a Lean model of that
code and theorems about it.

* `properties.jsonl` – the properties (C01, C02, …), in English.
* `MANIFEST.json` – for every property its status and theorems (made by `tools/mkmanifest.py`, notes in `tools/notes.json`).
* `lean/Verif/*.lean` – the model and the specifications. `lean/Verif/Lemmas` – proofs. `lean/Verif/Props` – the property
  theorems `Cnn_…`, each followed by an `example` on a concrete state that meets its hypotheses.
* `seeded/` – wrong programs the theorems were tested against (`LOG.jsonl`).

## 1. Trusted base

1. **Lean 4.33.0's kernel.** Every theorem is accepted by it. No `sorry`, no own axioms, no `native_decide`/`bv_decide`.
   `decide +kernel` is used for concrete examples and for finite tables; it is evaluated by the kernel.
2. **Axioms.** `#print axioms` for all theorems of the manifest gives subsets of `propext`, `Classical.choice`, `Quot.sound`:
   about two thirds use all three; C01_history_wrong, C08_remove_wrong*, C08_remove_invalid, C28_append_ub, C28_split_off_ub, C29_wrong, C30_width_partial,
   C30_wide*, C31_width_wrong, C32_efficiency, C32_no_gain, C32_limits, C37_*, C38_*, C39_roundtrip, C39_order, C40_digits, C40_no_overflow,
   C40_tuple, C41_numbering, C41_invalid, C44_* and a few more need only `propext` and `Quot.sound` (or only `propext`, or nothing:
   C39_compiles, C46_write_oob). `tools/axioms.py` prints the table.
3. **The model**, i.e. that the definitions listed in section 2 say what the Rust code does. They were written function by
   function from the source; every definition cites its lines. Nothing was compiled or run (no Rust toolchain here).
   For the methods of `EnumVec` this trust is moved by C78: their text, letter by letter (`Source/Text.lean`; `tools/mksource.py --check` compares it with `/repo`), is parsed
   and interpreted in Lean, and the model is *proved* to compute what the text computes. What is left to trust there is the parser (`Source/Words.lean`, `Source/Syntax.lean`,
   400 lines, for the fragment of Rust that occurs), the interpreter (`Source/Semantics.lean`, 700 lines: one rule per kind of expression and per method of std that is called)
   and `tools/mksource.py`.
4. **The specifications**: `Spec, IterSpec, EnumLikeSpec, EnumSetSpec, History (vecStep), Recover, InlineSpec`.

## 2. What is modelled, and what is not

| Rust | Lean (`lean/Verif/…`) |
| --- | --- |
| panics, overflow checks, `usize` arithmetic, undefined behaviour, loops | `Basic.lean` |
| `Vec<Block>` / `SmallVec<[Block; 4]>` as used by the code | `RVec.lean` |
| `enum_vec/src/vec_u32/mod.rs` and generated copies: all functions of `EnumVec` incl. `Extend`, `FromIterator`, `From`, `PartialEq`, `Hash`, `Clone` | `EnumVec.lean` |
| the two iterators, `to_vec`, `Into<Vec>` | `Iter.lean` |
| `storage()`, `storage_mut()` | `StorageApi.lean`; unsafe methods in histories: `Unsafe.lean` |
| `extend`/`collect` interleaved with a live iterator | `Live.lean` |
| `Debug`, `for` loops, arbitrary clients of an iterator | `Debug.lean` |
| `enum_vec!` (enum_vec/src/lib.rs) | its text in `Source/MacroText.lean` (C87); `fromElem`, `fromSlice` in `EnumVec.lean` |
| `enum_like/src/lib.rs`: trait, impls for `()`, `bool`, `Option`, `Result`, tuples, arrays | `EnumLike.lean` |
| `enum_like/src/lib.rs`: `EnumValues`/`Values`, `PackedU8/16/…` | `Values.lean` |
| `check_values_of` (tests of `enum_like` and `example`) | `CheckValues.lean` |
| `enum_like_derive/src/lib.rs`: the code the macro *generates* | `Derive.lean` |
| `enum_like_derive/src/lib.rs`: the macro itself, as a printer of tokens | `Macro.lean` (bodies), `MacroHeader.lean` (generics, header); the text of all `quote!` templates: `Source/QuoteText.lean`, `Source/DeriveEval.lean` |
| the same two crates once more with overflowing/wrapping `usize` arithmetic | `Machine.lean` |
| the methods of `EnumVec` that allocate, once more with an allocator that has state | `Stateful.lean` |
| the methods of `EnumVec` that call `to_discr`, `from_discr`, `clone`, once more over arbitrary code | `Hostile.lean` |
| the methods of `EnumVec` once more with a log of the blocks of the storage they access | `Access.lean` |
| the *text* of `Debug`, `Into<Vec>`, `storage()`, `storage_mut()` | `Source/RestText.lean`, run by `Source/Rest.lean` |
| the *text* of the methods of `EnumVec` and of the iterators (51 functions) | `Source/Text.lean`, read by `Source/Syntax.lean`, run by `Source/Semantics.lean`, `Source/Program.lean` |
| the *text* of the impls, `Values`, `PackedU8/U16` in `enum_like/src/lib.rs` (outside of macros) | `Source/LikeText.lean`, parsed by `Source/LikeSyntax.lean`, run by `Source/LikeEval.lean` |
| the *text* of the macros of `enum_like/src/lib.rs` and of their calls | `Source/MacroText.lean`, expanded by `Source/MacroEngine.lean`; what is printed is run by `Source/ItemEval.lean` and searched by `Source/ItemLookup.lean` |
| the *text* of all `impl` items of `enum_set/src/lib.rs` | `Source/SetText.lean`, parsed by `Source/LikeSyntax.lean`, run by `Source/SetEval.lean` |
| the *text* of the constants of the six modules | `Source/ConstText.lean`, evaluated by `Source/ConstEval.lean` |
| `enum_set/src/lib.rs`, all functions | `EnumSet.lean`, `Interop.lean`; once more over arbitrary user code: `EnumSetCode.lean` |

How:

* **One generic model.** `gen.sh` makes the other modules from `vec_u32/mod.rs` by `sed`; they differ in the block type, in the
  compile-time check for too many variants (absent for 64 and 128 bits) and, for `smallvec_u32`, in the storage type and in `append`. The
  model has a record `Inst α` of parameters: block width `W`, the `EnumLike` impl `E`, `build` (`checked`, debug build: overflow panics;
  release build: wraps; `wide`: `usize` of 64 or of 32 bits), `small` (SmallVec), `alloc`. Theorems quantify over all of it.
* **Calls.** A `&mut self` method is a function `EV → Except Fault β × EV` (monad `M`): the state is kept when the call panics, so
  what a program sees after `catch_unwind` is expressible. Faults: `capacity` (capacity overflow, refused allocation), `index`,
  `unwrapNone`, `overflow`, `badDiscr` (`from_discr` refused a number), `user` (a closure or iterator panicked), `ub` (an unchecked
  access outside the initialised storage).
* **Blocks** are `BitVec W`, with the Rust shifts, masks, `wrapping_sub`, division and multiplication, including overflow of shift amounts
  and of multiplication. **`usize`** is a `Nat` below 2^64 or 2^32
  (`Build.wide`: 64-bit or 32-bit target; every theorem is for both) with explicit overflow wherever the Rust arithmetic can overflow;
  the `EnumLike` impls are modelled twice, in `Nat` and with machine arithmetic, and C50 says that the two agree.
* **Allocator**: an arbitrary partial function from requests to granted capacities (`Alloc`). `Alloc.Lawful` is what `Vec`
  documents (the requested room is there), `Alloc.Bounded` says that no vector gets room for as many elements as `usize` has values, up to one block and four elements: no restriction in practice on 64-bit targets, and
  on 32-bit targets only for elements of at most 4 bits, because a `Vec` has less than 2^31 bytes. Real allocators have state; `Recover.lean`
  gives every call of a history its own allocator, and `Stateful.lean` models every allocating method once more with an allocator that has a state and may
  answer the same request differently at any time. C67 says that every such history is one of `Recover.lean`'s, so the theorems on histories hold for allocators with state too.
* **Closures** are stateful functions that may panic. **Iterators** passed to `extend` are a size hint, the items and whether the iterator then panics
  (`Src`); C49_source shows that this is all `extend` observes of a live iterator; for infinite iterators see C14_infinite, C49_endless. **Loops** are structural recursion on the number of iterations; no fuel.

Not modelled, and why:

* *The `bit-set` crate* under `EnumSet` is not in the repository. C43, C44, C54, C55 are for every implementation that satisfies `BitSet.Lawful` (sets of
  numbers, iterated in increasing order, compared lexicographically, equal sets with equal hashes); `maskSet_lawful` shows that the laws can be met.
* *`Vec`, `SmallVec`, `DebugList`* of std/crates: only their documented behaviour. `DebugList` is an abstract output function fed with the items.
* *syn and quote* under the derive macro: `Macro.lean` starts from the syntax tree of the declaration and ends with a list of tokens; by C89 all tokens of templates are those of the text (trusted: `QuoteEngine.lean` for what `quote!` does, and the Rust code between the templates, transcribed by hand). `Punctuated::push` and
  `Generics::split_for_impl` are modelled as documented. The paths `::enum_like::EnumLike` and `unreachable!()`, the field types, and the bounds and `where` predicates of generics
  are one token each; integer literals have no suffix; macro hygiene, attributes and constants of the user with the name of a bound variable are not modelled. Field types that need
  more than `T: EnumLike` for the type parameters `T` (associated types) make the printed impl fail to compile; what type checks is not modelled.
  Trusted for C52 and C59: the grammar and the meaning of the fragment of Rust in `RustText.lean` and `RustHeader.lean`. Evaluation is dynamically typed: what Rust's type checker rejects is
  `Fault.ub` there, which C52 excludes for all values.
* *`mem::uninitialized()`* in `to_discr` of arrays (enum_like/src/lib.rs:372): `MacroRules.lean` models it as a cell that must not be read again (C62: none is) and, alternatively, as a panic, which is what
  recent compilers make of it for some types. That producing the uninitialised value is already undefined behaviour on paper is not modelled.
* *`macro_rules!`*: `MacroRules.lean` (C62) starts from the rows of an invocation and ends with the items printed, as data; C85 proves that the text of the macros, expanded by `Source/MacroEngine.lean`, prints these items. C87 does the same for `enum_vec!`. Not in the engine: fragments other than `tt`, `ident` and `expr`, expressions with a `,`, `;` or `=>` outside of delimiters, nested repetitions, hygiene. How the compiler finds an impl is a search over the items as data (C62), or in the expanded text (C90: an item ends with braces, and its header, up to the first `>`, is not checked for bounds); what the item found does is also proved from its printed text (C88).
* Hash function and formatter internals. (A `to_discr` that panics or is not a function, a `from_discr` or `clone` with side effects: modelled in `Hostile.lean` only, C56-C58; all
  other properties are for implementations that compute functions, with the contract where stated.)
* Targets where `usize` has 16 bits (`1 << 16` in `BITS_PER_ELEM` does not compile there); memory exhaustion by abort instead of panic (then the call does not return and nothing is claimed).
* Concurrency below the level of calls: no shared mutability in the code, `&mut` is exclusive (schedules of whole calls: C75). Drop: elements are `Copy`.
* Commented-out code (`iter_mut`, `Rem`), benches, the example programs.

## 3. How properties are stated

* `Shows c s l`: `len()` is `l.length` and `get(i)` is `l[i]?` for *every* `i` – observation through the public API only.
* `Is c s l`: `Shows`, the raw discriminants are those of `l`, and the state is `Safe` (enough initialised storage, room for fewer elements than `usize` has values). Every state made by
  API calls is `Safe` (C28), and `Is` is an invariant of allowed histories (C01), so hypotheses `Is c s l` are met by reachable states.
* `Inst.Ok`: it compiles, allocator lawful and bounded, at most 2^32 variants, `EnumLike.Contract`. `Inst.Sound`: the same without the
  last two; memory-safety theorems need only that.
* `Runs r Q E`: a call returns with `Q` or fails with `E`; operation theorems always say *both* – which faults are possible, why, and what is left.
* Histories: `Op` (34 kinds of calls), `step` on `EnumVec`s, `vecStep` on lists, any number of variables, closures sharing a state. `Allowed` is the
  decidable predicate that excludes the calls that are wrong in the code.

Where the property is **false of the code**, the file has a theorem that says so (a concrete execution of the model or, if possible, a theorem for
all states that meet a condition), and the positive theorem has the weakest condition found; its name ends in `_partial`.

## 4. Per property

| id | model and proof | status |
| --- | --- | --- |
| C01 | register machine of vectors vs. lists, forward simulation by induction over the history; also from any related state | partial: false, C01_history_wrong |
| C02–C05 | field lemmas by bit extensionality | proved |
| C06 | loop invariants of element loop and block loop; full-width elements: exact result in both builds (`Lemmas/Full`) | partial: false for full-width elements |
| C07 | the branch `index > len`, incl. the overflow near `usize::MAX` | proved (describes what happens) |
| C08 | reversed block loop; exact condition (`C08_remove_iff`, `C08_remove_fullwidth_release_iff`) | partial: false, three counterexamples |
| C09 | insert then remove restores, also with garbage in unused bits; full-width elements: exact condition in both builds (`Props/RoundTrip`) | partial: false for full-width elements, C09_fullwidth_* |
| C10, C11 | per call | proved |
| C12 | the memset path: spread of a value over a block, quadratic fill, three parts | proved |
| C13, C14 | arbitrary iterators: hint, items, panic; infinite iterators | proved |
| C15 | two-vector state; aligned and unaligned branch | partial: false for Vec storage, C15_append_wrong |
| C16 | | partial: false, C16_split_off_ub for every `at < len` |
| C17, C18 | stateful panicking closures against `filterSpec`, `mapSpec` | proved |
| C19, C20 | `haszero` by borrow analysis for all widths, masks as geometric sums | proved |
| C21 | iterator state machine against a list with two ends | proved |
| C22–C24 | | proved |
| C25, C26, C27 | abstract allocator; "does not allocate" = same result for every allocator | C25 proved; C26, C27 partial: false, C26_reserve_full, C27_quadratic |
| C28 | no `ub` in any history, under `Sound` | partial: false for `split_off`, Vec `append` and `reserve` of `usize::MAX`, C28_*_ub |
| C29 | `from_discr` sees only valid numbers; three theorems for three classes | partial: false, C29_wrong |
| C30 | constants as the compiler evaluates them | partial: false beyond 2^32 variants, C30_wide* |
| C31 | corollary of C01 | partial as C01 |
| C32 | arithmetic of the README formulas | proved |
| C33, C34 | raw API as an array of numbers; effect of too large numbers | proved |
| C35–C37 | codec combinators, induction over type expressions, tuples, arrays | proved |
| C38 | `values()` against lists; `nth` overflow | partial: false for huge `nth`, C38_nth_overflow_* |
| C39–C42 | `Packed*`; generated code of the derive macro over heterogeneous field lists | proved |
| C43, C44 | histories of sets against predicates on values | proved relative to `BitSet.Lawful` |
| C45 | histories with an allocator per call, continued after refusals | partial as C01 |
| C46 | block layout; writes through `storage_mut` | proved |
| C47 | `for`, `Debug`, clients that choose the next call from earlier answers | proved |
| C48 | capacities only grow; inline storage needs no heap | monotony proved, inline part partial as C01 |
| C49 | `extend`/`collect` from live iterators | proved: simulation between the interleaved code (`Live.lean`) and the model on observations (`Src`), then compositions |
| C50 | no overflow in the `EnumLike` impls | proved: machine-arithmetic model (`Machine.lean`) refines the model on natural numbers for every type that compiles |
| C51 | amortised growth | proved for every geometric allocator: binary digits of the capacity grow with every reallocation (`Props/Amortised.lean`) |
| C52 | the derive macro as a program that prints tokens | proved: the printed tokens parse (`RustText.lean`: grammar and meaning) to a tree whose meaning is the machine model of C50 |
| C53 | histories with unsafe calls (`Unsafe.lean`) | partial as C28; exactness of the contract proved |
| C54 | live iterators into and out of `EnumSet`, `for`, `Debug` (`Interop.lean`); refinement to lists of members, by induction on the items, C49_source for the vector side | proved |
| C55 | derived `Eq/Ord/Hash/Clone` over the laws of `BitSet`; lexicographic order characterised by membership | proved |
| C56 | `Hostile.lean`: all methods that call user code once more, over arbitrary stateful implementations of `EnumLike` and `Clone`; the invariant "alive variables are well-formed" over all histories; equality with `EnumVec.lean` for well-behaved implementations | proved |
| C57 | simulation: an honest implementation either panics or does the same step as the function model; `for_each`, `retain` by induction over the elements, for every point of panic | proved |
| C58 | per method: the state is read-only up to the panic, or the first `len` elements of the storage stay (invariant through all loops) | proved |
| C59 | parser of the header as specification, meaning of a header as a set of instances of the generic type; the header read back from the printed tokens | proved |
| C60 | `ExactSpec.lean`: for every operation the exact condition under which it is `Vec`'s, as an if-and-only-if per call and per history | proved |
| C61 | `UbSpec.lean`: for every call, safe or unsafe, the exact condition under which it is undefined behaviour, in all states, also with storage shorter than the length; per call and per history; which safe call makes storage too short | proved |
| C62 | `MacroRules.lean`: `tuple_impls!`, `array_impls!`, `reverse_idx_*!` with their literal invocations, search for the impl of a type, projections that may fail; induction on the number of rows and of components | proved |
| C63 | `NumSpec.lean`: calls on lists of numbers (`numStep`); the instance of all numbers of `bits` bits obeys the contract, all calls that do not read through `from_discr` are literally its calls, so C60 is transported from it; the others by induction over the loops | proved |
| C64 | `PanicSpec.lean`: the condition for each call (`Op.Panics`, `Op.Refused`, `Op.Undefined`) on lists of numbers; from C63 where the call agrees with that on numbers, and from the exact theorems C06, C08, C15, C16, C61 on the instance of all numbers where it does not | proved |
| C65 | `FootSpec.lean`: blocks and capacity as a function of sizes (`Foot.step`), and along histories (`Foot.run`, with the lengths of C63's vectors of numbers); proved call by call: the calls that do not ask for memory preserve both and never fail with `capacity` (`Still`), the others by following every request to the allocator (`FootRun`) | proved |
| C66 | `reserve`'s `+ 1` with the overflow of both builds; exact conditions for `reserve`, `extend`, `collect`, live iterators (`Props/AtLimit.lean`); the conditions `Inst.AtLimit`, `Inst.Drops` (`Spec.lean`) appear in all other theorems on calls that reserve | partial: false, C66_reserve_release, C66_repeat |
| C67 | `Stateful.lean`; simulation: one call asks no question twice with different answers, because a granted request for n blocks is followed only by larger ones; the trace of a call gives a function of the request | proved |
| C68 | `EnumSetCode.lean`: all of `EnumSet` over arbitrary user code, with live iterators, `from_bit_set`, `Debug`; refinement to sets of numbers written as increasing lists (`EnumSetCodeSpec.lean`) | proved |
| C69 | `CheckValues.lean`: the checker as a program that returns or panics; its two loops by induction over the numbers from k; exact condition for passing | partial: passing does not imply the contract |
| C70 | `AccessSpec.lean`: reads as independence of the result and effect from the other blocks, writes as other blocks kept; proved from logged programs (`Access.lean`) by relating two runs that agree on the logged blocks | proved (not covered: `split_off`, which has no defined behaviour except at the end of the vector, C16; constructors are `extend`, `extend_with_value` on the empty vector) |
| C71 | length of the log; the log is complete by `C71_logs` (same result without the log, and C70 holds for the logged blocks); bounds by induction over the loops | proved |
| C72 | `CallsSpec.lean`: an observer in the world of `Hostile.lean` lists the calls; `C72_watching`: it changes nothing (the simulation of C57, made exact); the lists by symbolic execution and induction over the loops | proved |
| C73 what every call really does | `realStep` in `RealSpec.lean`: results and stored numbers also where `insert`, `remove`, `extend` are wrong; it reads the unused bits and stale numbers of the real state | cases on the calls: where they are right, C63; otherwise the exact lemmas on blocks (C59, C60, `Lemmas/Real.lean`); readable numbers: `KeepsReadable` is necessary and sufficient (`Props/Readable.lean`), which makes C29 exact |
| C74 the same, memory refused or not | `fullStep` in `FullSpec.lean`: `realStep` or, where `Foot.step` (C65) says that memory is refused, `refusedStep` with the exact number of elements appended; histories with an allocator per call (`Recover.lean`) or with state (`Stateful.lean`) | how far `extend` and `resize` come: induction over the pushes, stages of `extend_with_value` (`Lemmas/Granted.lean`); the rest from C65, C67, C73 |
| C75 threads | `ThreadsSpec.lean`: a schedule is a list of (thread, call); closures of a thread have its own state; `Borrowed` is Rust's rule for references. Calls are atomic and there is no weak memory: by the theorem, threads that obey the rule share nothing that is written | every call depends only on the variables it uses and the state of its thread (`step_local`), induction on the schedule |
| C76 refactoring | `LawsSpec.lean`: `Law` (27 rewrite rules of `Vec`) and the congruence `Equal` generated by them | the rules hold on lists (`C76_vec`); transferred with C01 (`_partial`: for allowed calls; the counterexample is `C76_refactor_wrong`) |
| C77 end to end | `EndToEndSpec.lean`: `compiled` is the instantiation of `EnumVec` with a machine impl (`Mach`, C50) of the element type, called as user code (`Hostile.lean`, C56); `Macro.Impl.mach` is the impl in the text printed by the derive macro (C52); `Accepted`: the constants have values | composition of C30, C50, C52, C56 and C01; no overflow and no panic of the impl is assumed, both are consequences of `Accepted` |
| C78 the text is the model | `Source/Text.lean` has the texts as strings; `rust_fn` proves by kernel evaluation what the parser makes of each. The interpreter works statement by statement on an environment of local variables and a heap of two vectors, a hasher and an iterator: overflow checks of the build, bounds checks, `unsafe` unchecked accesses, real `while` loops (bounded by 2^64 resp. 2^32 rounds; stuck after that), early `return`, `Option`/`Range`/`drain`/`resize`/iterator adaptors of std as they are called, closures of the user. Proved per method by symbolic execution (`simp` with the rules of the interpreter), by induction for the loops, where the model recurses on a number of rounds instead; then for every call of a history from every state with `num < 2^64`, blocks within the capacity, capacity of at most `isize::MAX` bytes (`AllocSmall`: what `Vec` documents; used only for `storage_len + count_blocks` in `extend_with_value`, whose overflow check the model leaves out), and these bounds are an invariant. C78_like_vec restates C01 for the text. `clone` is derived, without text. The bound 20 on the depth of calls and the one on loops can be reached by no call (that is part of the theorem: the interpreter is never stuck) | proved |
| C79 the text of the constants | `Source/ConstText.lean` has the texts of `StorageBlock`, `STORAGE_BLOCK_SIZE`, `BITS_PER_ELEM`, `ERROR_TOO_MANY_VARIANTS`, `ERROR_ZERO_SIZED`, `ELEMS_PER_BLOCK`, `ELEMENT_MASK` of each of the six modules; same lexer and parser; `Source/ConstEval.lean` evaluates them with types, overflow being a compile error. The sum of 32 comparisons by induction. C79_model: these are the constants the interpreter of C78 uses | proved |
| C80 the text of the `EnumLike` impls | `Source/LikeText.lean` has the texts of the `impl` items of `enum_like/src/lib.rs` (`()`, `bool`, `Option<T>`, `Result<T, S>`, `(T,)`, `(T, S)`, `[T; 0]`, `PackedU8`, `PackedU16`, `Values<T>` and its `Iterator`); `Source/LikeSyntax.lean` parses them (`match` with guards, tuples, structs), `Source/LikeEval.lean` runs them for arbitrary impls of `T` and `S`. Equality with `Machine.lean`/`Values.lean` by case analysis on what the components do; `C80_lawful`, `C80_nested`, `C80_values_all` state the contract directly about the texts. | `Props/SourceLike.lean` |
| C81 the text of `enum_set` | `Source/SetText.lean` has the texts of all `impl` items of `enum_set/src/lib.rs`; `Source/LikeSyntax.lean` parses them, `Source/SetEval.lean` runs them for any implementation of the operations of `bit_set::BitSet` and any user code with effects. `textExec` runs the text for any public call; equality with `EnumSetCode.lean` call by call, the loops of `extend` and `fmt` by induction; histories by induction; composed with C68 this gives sets of numbers. Derived impls have no text; `size_hint` is the subject of C94. | `Props/SourceSet.lean` |
| C82 all texts together | `WholeText` is the least family of impls closed under the texts of `enum_like` (C80) and the tokens printed by the derive macro (C52); by induction each keeps the contract and uses all numbers. `AcceptedText` says that the constants' text (C79) evaluates. Composed with C78, C79, C81 and C83. The interpreter of `EnumVec`'s text calls `to_discr` and `from_discr` as functions (`EnumLike.ofMach`); `C82_lawful` is what makes this exact: they do not panic. Tuples and arrays are those of C84 (their macros from text: C85). | `Props/SourceWhole.lean` |
| C83 `EnumSet` as sets of values | `EnumSetValSpec.lean` is the specification: sets are predicates on values, iterators are lists of values. Refinement of the sets of numbers of C68 call by call, then induction on the history. | `Props/EnumSetValues.lean` |
| C84 tuples and arrays | `KeepsContract` (the contract for the values with a predicate) is preserved by the pair impl and by each step of the search that C62 models; induction on the number of components. Arrays use the impl of the tuple. Tuples and arrays of any types are then subtypes of the values of C62 and become constructors of `WholeText` (C82). The case of compilers where `mem::uninitialized` panics is C62_array_uninit. | `Props/MacroLawful.lean` |
| C85 macros from text | `Source/MacroEngine.lean`: lexer, token trees, patterns, matching, transcription, and `Expands`, an inductive relation for complete expansion. `MacroTextSpec.lean`: the text of the items. Induction on the rows; both directions (the expansion is unique, and it exists exactly if the model has items). The printed text determines the items (injectivity), so that the search of C62 is over what is printed. | `Props/SourceMacro.lean` |
| C86 rest of the text | The interpreter of C78 with a formatter as one more kind of value; `Source/Rest.lean` says what `debug_list`, `entries` and `finish` of std do. Induction on the items left. `mksource.py` checks that every function outside of comments and tests is in `Text.lean` or `RestText.lean`. | `Props/SourceRest.lean` |
| C87 `enum_vec!` from text | The engine of C85 with `expr` fragments (up to a `,`, `;` or `=>` outside of delimiters) and separators. Specification: `ExprText`, `commas`, `trailing`, `fromElemText`, `fromSliceText` in `MacroTextSpec.lean`. Induction on the list for both directions. | `Props/SourceEnumVec.lean` |
| C88 printed items, run | `Source/ItemEval.lean`: a meaning for the printed token trees: parts between commas, tuples, projections, types looked up by name, `mem::replace` on cells. The type of an expression is the impl of its parts; `.to_discr()` on a tuple uses the impl found for these. Proved equal to `TupleItem.impl` and `ArrayItem.impl` by induction on the lists of indices; composed with C85 and C84. | `Props/SourceItems.lean` |
| C89 derive from text | `Source/QuoteEngine.lean`: templates of `quote!` (holes, `#( … )*`), read from text, and filling. `Source/QuoteText.lean`: all 32 templates of the macro, generated from /repo. `Source/DeriveEval.lean`: the functions of the macro with every template filled from its text. Equality with the printer of C52 and C59, function by function; then C52 and C59 are restated for the text. | `Props/SourceDerive.lean` |
| C90 all from texts | `Source/ItemLookup.lean`: the expanded text is cut into items; the impl of a tuple or array type is the only item whose header matches, and the impls that its body calls are searched in the same text. Proved equal to the search of C62 by induction on the number of components (so C84 applies), with existence up to 32 and none beyond. `FullText` is `WholeText` of C82 with the derive templates of C89 and this search in place of the model's printer and search; C82 then gives the contract, `EnumVec` and `EnumSet`. | `Props/SourceFull.lean` |
| C91 values() from texts | `ValuesTextSpec.lean`: histories of calls on iterators and their copies, on lists and by the texts of C80. Invariant: each variable holds the text's encoding of an iterator that has the list's rest to yield (`Left`, C38). Packed values by C39 and C80. | `Props/SourceValues.lean` |
| C92 coherence | The items of C90: an item's header matches exactly the tuple types of its length (arrays: of its size), whatever impls the components have; the items of the two calls have the lengths 3 to 32 and the sizes 1 to 32, once each (C62, C85). The search of C90 succeeds only with one match. | `Props/SourceCoherent.lean` |
| C93 counting and dealing | `DealSpec.lean`: the program of example/src/enum_set.rs with arbitrary players and indices. Counting: the numbers in a set as a `Finset`, over a lawful `BitSet`. Dealing: induction on the moves; the dealt pairs and the rest are a permutation of the deck. | `Props/Deal.lean` |
| C94 size_hint of set iterators | `HintSpec.lean`: calls of `next` by the text (C81), counted. The result of `size_hint` of `bit-set` is symbolic in the interpreter (`SV.hint l`: any function of the numbers still to come). Induction on these numbers. | `Props/SourceHint.lean` |
| C95… | see `properties.jsonl` and `MANIFEST.json` | |

## 5. Findings in the code

Each is proved of the model (theorem in brackets).

1. `remove` corrupts elements when unused high bits of a block are set, which `insert` and `resize`/`from_elem` do; it can even produce invalid
   discriminants [C08_remove_wrong, C08_remove_wrong_after_insert, C08_remove_invalid, C01_history_wrong, C29_wrong].
2. `insert`/`remove` shift a block by its full width if elements are as wide as a block: debug panic, release corruption [C06_fullwidth_*, C08_remove_fullwidth_*].
3. `insert(index > len)` silently pushes [C07_insert_past]; near `usize::MAX` it panics after pushing [C07_insert_max].
4. `append` on Vec storage leaves `other` with its length and no storage if `self.len()` is a multiple of the elements per block; the next `get` on it is UB
   [C15_append_wrong, C28_append_ub].
5. `split_off(at)` is UB for every `at < len` [C16_split_off_ub].
6. `extend_with_value` allocates (number of blocks)² blocks and keeps that capacity [C27_quadratic].
7. `BITS_PER_ELEM` stops at 32, so with 64/128-bit blocks types with more than 2^32 variants compile and lose data [C30_wide_wrong].
8. `reserve` asks for one block too many, so it reallocates exactly when the new length equals the capacity [C26_reserve_full]; collecting exactly 128 booleans into
   a `SmallEnumVec` allocates although the README promises inline storage [C48_collect_spills].
9. `Values::nth(n)`: overflow panics in debug builds and rewinds the iterator in release builds [C38_nth_overflow_*].
10. `Hash` does not feed the length [C23_hash_no_len].
11. `extend` with an iterator that yields fewer items than its size hint, or panics, leaves the vector longer than what was yielded [C14_extend_panics].
12. README: the efficiency limits are 4, 5, 10, 21, 42, not 4, 4, 11, 22, 42 [C32_limits]; it mentions a method `.value()` that does not exist.
13. Derive rejects variants with zero fields in braces or parentheses; `EnumValues` documentation example 2 has the wrong order; documentation of
    `EnumSet::is_subset/is_superset` is copy-pasted.
14. `EnumSet::from_bit_set` accepts numbers that are no discriminants; iterating then panics [C44_from_bit_set].
15. Vectors of nearly `usize::MAX` elements: `blocks_for_elements` saturates, so `shrink_to_fit` cuts off the last block and reading the last element is UB. On 32-bit targets this
    needs 512 MiB of booleans (elements of 1, 2 or 3 bits are concerned); only safe calls, no `append`, no `split_off` [C28_limit_ub, C28_narrow_ub].
16. Memory safety does not depend on `EnumLike` being implemented correctly (C28 holds under `Sound`), although the trait is `unsafe` for that reason; not even on its being deterministic or panic-free
    [C56_memory_safety].
17. `push`, `insert` and `extend` set the length before they call `to_discr` or `next`: if that panics, the vector has new elements nobody pushed [C58_not_atomic].
18. `to_discr` of arrays calls the deprecated `mem::uninitialized()`, which is undefined behaviour for most enums; recent compilers make it panic for types whose values cannot be 0x01 bytes
    (e.g. `#[repr(u16)]` enums), and then `to_discr` of every non-empty array of them panics [C62_array_uninit].
19. `reserve` computes `desired_cap / ELEMS_PER_BLOCK + 1` blocks. With one element per block (more than half the block's bits per element, e.g. 17 to 256 variants in `vec_u8`) and a total of exactly
    `usize::MAX` the `+ 1` overflows: debug builds panic, release builds wrap to 0 and **drop all blocks** but keep the length, so the next `get` is UB. `std::iter::repeat(x).collect()` gives exactly that
    size hint: in release builds it is UB at the first item [C66_reserve_release, C66_repeat, C28_reserve_ub, C56_hint_ub].
20. `check_values_of`, the checker in the tests of `enum_like` and `example`, accepts implementations whose discriminants are not below `NUM_VARIANTS`, and those whose `values()` misses values
    [C69_misses, C69_misses_unlisted; exact condition C69_iff].

## 6. Tests of the model and of the theorems

`lean/Verif/RepoTests.lean` transcribes the unit tests of the repository (all `#[test]`s of `enum_vec`, `enum_like`, `enum_set` and `example`; long loops shortened) and evaluates
them on the model in the kernel, for all six modules. They are tests of the model's fidelity, no property rests on them. All pass, the two `should_panic` ones panic.

`seeded/mutants.py` lists realistic bugs as edits of the model; `run.py` applies each to a scratch copy, rebuilds, and reports which property theorems fail
(directly or because a lemma they use fails); `witness.py` searches for a run of the edited model that differs from `Vec`, to know that the claim is really false of it.
`LOG.jsonl` has the results. No mutant builds. Where a mutant did not break the theorems of the claim it falsifies, theorems were added (field `tightened`).

`seeded/auto.py` applies small generic edits (operators, constants, negated conditions, swapped kinds of faults) to every definition of the model and rebuilds a scratch copy. The survivors were looked at one by one; none falsifies a claim:
`blkShr` and `blkMul` in `Basic.lean` (cases that no call reaches: the shift is always below the width, the products never overflow), the wrapped result of `uSub` in release builds (only used where it is exact), the kind of fault in
`MacroRules.lean` (`illTyped`: no value of the type has that form), in `EnumVec.lean` and `Access.lean` (positions that are in bounds whenever they are reached) and in `Recover.lean`.

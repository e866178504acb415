# Design: a Lean 4 model of libdynd

## Approach

* The model is a set of small, total, computable Lean functions, one per C++ function (or kernel),
  under `lean/Verif/Model/`. Each definition cites the file and lines it models and says what it simplifies.
* Specifications that do not mention the model (plain lists, `Nat`/`Int` arithmetic, sets of indices,
  rational values, ...) live in `lean/Verif/Spec/` or at the head of the property file that uses them.
* Property theorems live in `lean/Verif/Props/*.lean`, one file per area, each followed by
  `example`s that show a concrete non-trivial case meeting the hypotheses. Helper lemmas live in
  `lean/Verif/Lemmas/` or in the model file.
* C++ outcomes are explicit: `Res α = ok a | throw e | ub why`. Out-of-bounds accesses, signed
  overflow, shifts out of range, undefined float conversions are `ub`; non-terminating loops are
  modelled with fuel and the theorem is "no fuel suffices" or as a distinct outcome.
* Machine integers: `Int`/`Nat` with explicit range checks where overflow is undefined behaviour,
  explicit `% 2^n` where the C++ arithmetic wraps.
* Where the code violates the property, the negation is proved on a concrete witness (theorem suffix
  `_violated`), and the strongest true part is proved with suffix `_partial`.

## Per-property plan

| Id | Model | Proof |
|----|-------|-------|
| C01 | `apply_single_index` over Int | case split + omega |
| C02 | `apply_single_linear_index` with UB outcomes for 64-bit overflow | case analysis, characterise selected index set |
| C03 | n-d strided views (offset, list of (size,stride)); sequence of index ops | induction over dims and op sequences |
| C04 | `shape_can_broadcast` loop | induction on lists, spec by `getD` from the right |
| C05 | `is_valid_perm` with flag vector | invariant on the flag vector; `List.Perm` spec |
| C06 | `strides_to_axis_perm` with unrolled cases; `std::sort` abstracted as any sorted permutation for n>3 | case analysis, sort specification |
| C07 | `compare_strides` + insertion sort | loop invariant `Perm` |
| C08 | `axis_perm_to_strides` as written | violated: witness; description of what is computed |
| C09 | contiguity loops | induction; row-major offset spec |
| C10 | `irange` constructors/operators | direct, together with C02 |
| C11-C14 | codecs over byte/unit lists, `Res` for throw/UB | bit arithmetic by `omega`, induction for strings |
| C15 | `noerror_next_*` | violated: witness of non-progress and OOB read |
| C16 | escape printer + unescape parser | per-character lemma + induction |
| C17-C19 | Lundh/Boyer-Moore search loop with index bounds as UB | skip-soundness lemma, strong induction; C19 violated witness |
| C20 | direct | induction |
| C21 | abstract representation (SSO bytes / heap buffer with capacity) | refinement to byte list; violated for resize in SSO; partial otherwise |
| C22 | fixed_string assignment kernel loops | induction |
| C23 | `is_overflow` templates for all width/sign pairs | omega for symbolic widths |
| C24-C26 | digit loops with wrap-around | induction; C24 violated witness |
| C27 | floats as rationals + NaN/inf; comparisons against rounded limits | case analysis; violated at 2^63 and NaN |
| C28-C30 | bit patterns as `Nat` fields, value as dyadic rationals | arithmetic + finite case analysis |
| C31-C32 | two 64-bit words as `Nat` mod 2^64 | arithmetic |
| C33-C34 | bit patterns for sentinel types; chunked strided loops | case analysis, induction on chunks |
| C35 | promotion table | decision over the full finite table |
| C36 | type syntax tree, printer to characters, recursive-descent parser | structural induction with parser-remainder lemma |
| C37 | `match` on type trees with an environment | structural induction |
| C38 | offsets computation | induction |
| C39-C41 | value trees, JSON printer/parser over bytes | structural induction |
| C42-C43 | `topological_sort`, dispatcher search | induction / invariants |
| C44-C45 | allocator state machines | invariant over operation histories |
| C46 | size negotiation fold | induction, order independence |
| C47-C51 | kernel loops | induction |
| C52 | hierarchical reduction kernels over abstract memory | induction over dimensions |
| C53 | storagebuf growth | invariant over histories |
| C54 | sorted permutation and inverse | arithmetic over `Perm` |
| C55 | view permutation, transpose, rotate on (size, stride) lists | element-by-element equality through the index map |
| C56 | broadcast strides (`broadcast_to_shape`, iterators) | address formula, induction over dims |
| C57 | `broadcast_input_shapes` fold over operands | least upper bound by induction |
| C58 | `new_axis` | address formula |
| C59 | `classify_strided_axis_order` | stable-sort spec |
| C60-C61 | casts on IEEE values as rationals | rounding lemmas from `Ieee` |
| C62 | 128-bit conversions | arithmetic mod 2^128 |
| C63 | `is_lossless_assignment` | value sets of the types; finite table with proofs about the sets |
| C64 | arrmeta-level indexing of fixed/tuple/struct trees | structural induction |
| C65-C66 | dispatcher histories | invariants over registrations |
| C67 | elwise kernels for n operands of any rank | induction over result dims |
| C68 | ragged reduction kernels | induction over rows |
| C69 | datashape parser, fuel = recursion depth | no-ub and remainder-shrinks invariant |
| C70 | JSON reader | no-ub, shrinking remainder and typing invariant |
| C71 | line/column search and marker printer | induction over lines |
| C72 | JSON writer against the RFC grammar | structural induction |
| C73 | comparison kernels with the usual arithmetic conversions; int/float through round-to-nearest | exact characterisation of the safe type pairs and values |
| C74 | arithmetic, bit and shift kernels with C++ overflow rules | arithmetic modulo 2^width, bitwise |
| C75 | `/` and `%` with the zero check as written | truncated division |
| C76 | compound kernels over a strided memory | induction on the count |
| C77 | `forward_na` over any callable and argument list | induction on the index list |
| C78 | callable resolution (fixed-size arrays, name matching), jobs executed over a byte memory | induction on the fields, frame conditions |
| C79 | comparison callables and kernels, single and strided | induction on the fields; counterexamples |
| C80 | sum, min, max and all steps with the identities used | fold induction; lifted through the reduction model |
| C81 | strided iterators and sort kernel over the contract of std::sort | iterator positions biject with indices |
| C82 | the chunked compose loop | induction on the remaining count, any chunk split |
| C83 | `array_iter` and its iterdata (per dimension pointer and stride, broadcasting terminator) | the odometer's orbit equals the row-major grid, induction on the shape |
| C84 | `equals_exact`, view of a leading var dimension | C83 plus case analysis; comparison outcomes are parameters |
| C85 | `empty_like`, stride reordering | mixed-radix rank along a permutation; any sort meeting its contract |
| C86 | `reshape` | row-major ranks; 64-bit products checked |
| C87 | `concatenate` as two slice assignments | list lemmas on slices |
| C88 | `old_range` count and fill per integer type | division characterised by multiplication |
| C89 | `try_view`, `view_concrete`, `old_view` | induction on the dimensions |
| C90 | `callable::call`, argument counting, keyword binding and resolution of left-out keywords | invariants of the binding loops, against a specification by positions and names |
| C91 | `intrusive_ptr`, counted blocks, `get_data_memblock`, view construction | invariant count = number of references, over all histories |
| C92 | atomic retain/release/delete steps of threads | invariant over a small-step interleaving semantics, with a termination measure |
| C93 | `shortvector`, `multi_shortvector` | simulation of a specification on lists, with an ownership invariant |
| C94 | `get_dtype`, `transform_child_types`, `with_replaced_dtype`, `with_new_axis`, `replace_dtype`, `array(values, tp)` | types as stacks of layers; induction on the stack |
| C95 | `get_canonical_type` of every type class | induction on a predicate of pointer-free types |
| C96 | `substitute_shape` | induction on the shape |
| C97 | resolution and kernels of `outer` | induction on the number of dimensions, argument by argument |
| C98 | loops with index state, `where_kernel` | induction on levels; invariant size = capacity of the result |
| C99 | shape of nested containers, init kernels writing to memory blocks | induction on the dimensions; frame and read-back conditions for every write |
| C100 | access flags of handles, the memory they see, and every operation that makes, views or writes arrays | invariant over histories: no handle that sees the block may write |
| C101 | destruction of data and arrmeta as a sequence of releases and frees | mutual induction on types; the sequence is a permutation of what the type owns |
| C102 | the registry as a list, its operations, the parser's use of a name | invariant over all sequences of calls |
| C103 | the scalar parse kernels on byte lists, the dispatcher as a match on the type | texts specified by an inductive relation; soundness and completeness of each kernel |
| C104 | `complex<T>` over a partial rounding function on the rationals; IEEE nearest-even defined and shown to be an instance | componentwise error analysis, Cauchy–Schwarz, Mathlib's ℂ as specification |
| C105 | division, comparison, compound assignment with operands by reference (other object, self, own component) | error analysis of the quotient; aliasing as an explicit read of the current value |
| C106 | `format_datashape` as a function of type, indentation, arrmeta present, data tree | induction over the type: the text parses (round-trip machinery of C36, extended to line breaks and trailing commas) to a separately specified type |
| C107 | the tree of `registry_entry`, dotted lookup, insert with observers, histories of calls | induction over names and over the tree: lookup equals a name-by-name specification, insertion equals a frame specification, invariants over histories |
| C108 | `iterator`/`const_iterator` over C arrays (addresses) and over containers of containers (positions; past-the-end reads undefined) | closed form of the iterator after k increments, by induction on the depth; invariant of the outermost level for the violation |
| C109 | the C interface: `dynd_malloc_buffer`, constructors, vtable entries `parameters` and `alignment`, `dynd_incref`/`dynd_decref`, `check_equal`, over a memory of words (a block read as a type while written as a buffer) | representation predicate from memory to type trees kept by all operations; induction over histories; induction over types for alignment and equality; the last `decref` computed |
| C110 | `array::at_array` with both versions of `apply_linear_index` for fixed, variable-size and pointer levels, and the filling of block references | induction over the levels with the returned offset, arrmeta, data pointer and owner in the invariant, against a separate definition of picking an element by Python's rules; violations computed |
| C111 | `strided_array_summarized` with its loops (leading, trailing, trimming, filling, grid), `print_indented`, `print_data` of the structured types, `operator<<` | closed forms of the loops by induction over fuel, then an inductive predicate "these texts in order with commas between" for the output; unique reading of the text by removing blanks; violations in general form |
| C112 | `dynd_incref` and `dynd_decref` as atomic steps of threads with views of what happens before | invariant over all schedules: count = references held, every access published or known to a holder, one thread between last decrement and release |
| C113 | every operator of `bool1` on its stored byte | simulation of histories by a specification on truth values; the deviations in closed form |
| C114 | functions built from `apply` and the combinators: call graph, kernel requests, single and strided entries | induction over the function: graph read back as its tree; both entries against a memory semantics of one element; the declared types of compounds in closed form |
| C115 | `float128` on bit patterns | against the IEEE binary128 format as an instance of the Fmt specification: fields in closed form (loop invariant of the normalisation), values as rationals; monotonicity of magnitudes for the order |
| C116 | sparse graphs through the arrmeta, distances, the grid | layout as a predicate on arrmeta and buffer; loop invariants (soundness by walks, order of the queue, closedness, counting of unreached nodes for termination and overflow); `make_grid` by invariants over cells; distance in the grid by induction over walks |
| C117 | the assignment function: table, choice, kernels | every edge of the overload graph leads to one vertex, so the sort is computed for all type identities; a pattern calculus reduces matching to finite tables; induction over the pairs of types for resolution and instantiation together; violations for all types by induction on the stack depth |
| C118 | operators: table, choice, kernels, result type | the overload graph has depth one, so the sort is computed from the edges for every set of pairs; matching reduces to a finite table of patterns; induction over the pairs of types for resolution and instantiation together; violations by induction on the stack depth |
| C119 | functions of one argument on nested arrays | the overload table is sorted as in C118; induction over the list of dimensions, joint invariant of resolution, instantiation and run: the cells written so far view as the mapped prefix, fresh memory stays disjoint; violations on symbolic or concrete arrays |
| C120 | operators of two arguments on nested arrays | spec `combine` (broadcasting of nested values) and `Bcast` (dimensions); induction over `Bcast`, joint invariant of resolution, instantiation and run as in C119 with the error for sizes that do not fit; violations on symbolic or concrete arrays |
| C121 | assignment between nested arrays with a given destination | spec `fillWith` (value stored), `CopyFits` (dimensions), `Ready`/`Stores` (memory of the destination); induction over `CopyFits`, joint invariant of resolution, instantiation and run as in C120; violations on symbolic or concrete arrays |
| C122 | nd::take on arrays of any nesting | the selection loop = the element kernel run over the list of selected addresses; that loop is a loop of C121 over positions, so its invariant applies; violations on symbolic arrays |
| C123 | sum, min, max and all on arrays of any nesting | resolution and instantiation proved equal to the level lists of C52 by induction on the dimensions; first/followup kernels of fixed dimensions over a var one by induction on the levels; bytes = elements by a simulation when the start writes a whole element; violations symbolic in size and memory |
| C124 | sorting and searching arrays as called | resolution by the tables of C117/C118 (less_table) and a table of total_order; the search is proved equal to the loop of C81 on elements read from bytes; the sort by the contract of std::sort, whose requirement (strict weak order) is proved per element type, and disproved with NaNs and missing values |
| C125 | string functions called on arrays of any nesting | the check is proved equal to a specification of broadcasting dimensions; the run by bcast_runs (C120); the elements by the theorems about string search (C17–C20); two violations |
| C126 | arrays of random numbers | the binding through `Call` and `TypeMatch` is proved for all types; the run by induction over the dimensions, for new arrays and for existing ones of any strides; a relation (`Draws`) says which draws the elements are; three violations |
| C127 | fields by name | types and arrmeta as trees; the view's arrmeta is shown, by induction over the dimensions, to lead from every position to the place of the field in the original (`locate`, a walk along steps); copied arrmeta leads to the same places as the original |
| C128 | nd::serialize | the events of the reduction kernels (C123) run on objects that are byte sequences; the result is shown equal to the concatenation of the elements' bytes; reading back by position and injectivity by induction over the elements |
| C129 | nd::asarray | the match (C77), the substitution of sizes (C96), `nd::empty` and the assignment (C121) composed; the dimensions of the result are specified from the sizes the value shows, by recursion over the requested dimensions |
| C130 | assign_na as called | binding of the call (C90) with the matcher (C77), the table of overloads (C119) and the kernels without operands (C126) composed |
| C131 | limits of the number types | binding (C90) and choice (C119) composed; the constants compared with all finite values |

No listed property is considered inexpressible. Threading, wall-clock and the OS (memmap) are not modelled.

## Trusted base

* Lean 4.33.0's kernel (and, for the library lemmas used, Mathlib as checked by the same kernel). Axioms: at most `propext`,
  `Quot.sound` and `Classical.choice`, listed per theorem at the end. No axioms of our own, no compiled evaluation
  (`decide` and `decide +kernel` only; both are checked by the kernel).
* The reading of the C++ in /repo: the code was neither built nor run. Each definition of the model cites the lines it models.
  Whoever doubts a theorem has to compare those lines with the definition; the proofs need no reading.
* The platform is LP64, little endian, two's complement, 8-bit bytes, IEEE-754 binary16/32/64 with round to nearest even.
* Contracts of things not in /repo, taken as hypotheses or definitions: `malloc`/`realloc` return fresh disjoint aligned memory or
  NULL; `memcpy`, `memmove`, `memset`, `memchr`, `memcmp`; `std::sort` returns a sorted permutation (any one);
  `std::vector`, `std::map`, `std::unordered_map`, `std::string` behave as sequences and maps; hardware float conversion rounds to
  nearest even.
* Out of scope everywhere: threads and reference counts (no C++ thread is started by the code modelled), stack depth, exceptions
  thrown by operator new inside the standard library unless a theorem mentions them.

### What is modelled

| Model file | Code |
|---|---|
| Basic | outcomes: value, exception, undefined behaviour (out-of-bounds access, signed overflow, ...) |
| Index | `irange`, `apply_single_index`, `apply_single_linear_index`; n-d `apply_linear_index` on fixed dims; `nd::array` permute, rotate, transpose, new axis |
| Shape | `shape_tools`: broadcasting, permutations, stride sorting, classification, contiguity |
| Utf, Escape | `string_encodings` (next/append, strict and no-error, UTF-8/16/32, ASCII, Latin-1, UCS-2), transcoding kernels, fixed-string kernels, escape printer, `unescape_string`, quoted-string parsers |
| Search, Sso | `string_search.hpp` and the string functions; `sso_bytestring` |
| Ints, FloatCast, Half, Int128 | checked casts, overflow tests, integer parsing and printing; float casts; `float16`; `int128`/`uint128` |
| Option, Promote | NA sentinels, option assignment kernels; `promote_types_arithmetic`, `is_lossless_assignment` |
| Struct | default layout of fixed dims, tuples and structs, arrmeta-level indexing, field lookup |
| Dispatch | `topological_sort`, dispatcher insertion, ambiguity test, lookup |
| MemBlock, StorageBuf | pod, zeroinit and object-array memory blocks; `storagebuf`, kernel builder, call graph |
| Kernels | take, masked take, binary search, range, byteswap |
| Categorical, Elwise, Reduction | `categorical_type`; elwise call resolution and kernels; reduction call resolution and kernels, ragged reductions |
| Types, TypeMatch | the type syntax, equality, `match`, type-variable substitution |
| Datashape | datashape printer and parser |
| Arith | comparison, arithmetic, division, compound and `forward_na` kernels on builtin integers (and float comparisons), with the C++ conversion and overflow rules they rely on |
| Records | assignment and equality of tuples and structs: callables, kernels, strided wrappers |
| Stats | sum, min, max, all; sort over strided iterators; buffered composition of two kernels |
| ArrayOps | `array_iter`, `equals_exact`, `empty_like` and stride reordering, `reshape`, `concatenate`, `old_range`, `old_view` |
| Call | argument binding of `callable::call` |
| RefCount | `intrusive_ptr`, use counts of memory blocks, ownership of views, interleavings of threads |
| ShortVec | `shortvector`, `multi_shortvector` |
| TypeOps | `get_dtype`, `transform_child_types` and the visitors `with_replaced_dtype`, `replace_dtype`; `with_new_axis`, `get_canonical_type`, `substitute_shape`, `view_scalars` (1-D) |
| Functional | `outer` (resolution, kernels), `compose_kernel` (chunks, buffer), `where_kernel` with the index state of `elwise` (one argument, `res_ignore`) |
| Construct | `container_traits::shape`, `init_kernel` for initializer lists and vectors (fixed dimensions; var for innermost lists), the buffer of the new array; sizes unbounded, alignment ignored |
| Access | access flags: creation, views, `data()`, assignment, sort, `eval_copy`; an array is its flags and the list of its places |
| Destroy | `~buffer_memory_block`, `data_destruct(_strided)`, `arrmeta_destruct`, `~objectarray_memory_block`; arrmeta is part of the type, blocks are those whose last reference is dropped |
| Registry | `new_id`, `lookup_id_by_name`, `register_known_type_id_constructor`, the name branch of the datashape parser; types and functions are numbers |
| JsonScalar | `nd::json::parse` and the parse kernels for bool, integers, string and option; the call graph and the dispatcher are a match on the type |
| Complex | `complex<float>`, `complex<double>` arithmetic, comparison, compound assignment; finite values in the normal range (anything else is `none`), the sign of zero, mixed component types and stream output left out |
| Format | `format_datashape` for types and arrays, single- and multi-line; the data is a tree instead of pointers and arrmeta offsets |
| FnRegistry | `registry_entry` and `registered`: the whole class except the default constructor, `find` and iterators; callables and observers are numbers, `std::map` is a list in key order |
| NestIter | all of `iterator.hpp`; for C arrays forming the address of the array after the last one is not counted as undefined |
| Abi | `include/dynd/abi` and `src/dynd/abi` types; counters are naturals (no overflow, no concurrency), one word per field (64-bit layout), assertions compiled out in constructors; `check_equal` from the example |
| RaggedIdx | `array.cpp` `at_array`; `apply_linear_index` of `fixed_dim_type.cpp`, `var_dim_type.cpp`, `pointer_type.cpp`; `operator()`, `vals_at` of `array.hpp`; data memory as two functions (pointer and size at an address), scalars at the leaves, address arithmetic in unbounded integers; tuples and structs (C100), reference counts (C91) elsewhere |
| Print | `type.cpp` `strided_array_summarized`, `print_indented`, `hexadecimal_print_summarized`; `print_data` of the dimension, tuple, struct, option, pointer and bytes types; `operator<<` of `array.cpp`; the texts of builtin scalars and strings are parameters (C16, C26), stream width as padding on the left, all elements printed in advance although those not shown never are |
| AbiCount | `refcount.h` `dynd_incref`, `dynd_decref` as atomic steps of any number of threads; `atomic.h` (value returned by each branch); happens-before as views: release decrement publishes the view, relaxed increment continues the release sequence, acquire fence takes over what was read; handing a reference to another thread is synchronised; other branches of `atomic.h` (load, store) not modelled |
| Bool1 | `bool1.hpp`: constructors, conversions, logical, arithmetic, compound and comparison operators on the stored `char` (signed), comparison with integers; `is_avail_builtin` for bool |
| Combinators | `apply` kernels (value, void, `return_wrapper`; keywords), `constant`, `left_compound`/`right_compound`, `forward_na`, `state`, fixed `elwise` levels: flat call graph, instantiation by kernel request, `call`/`single`/`strided` entries with function-pointer mismatch as UB; `is_na`/`assign_na`/`assign` children as functions on values |
| Quad | `float128` (float128.hpp, float128.cpp) on its two words: constructors from integers, `bool`, `bool1`, `double`, `float16`; classification, truth value, `less_nonan`, `less_equal_nonan`; the operators all throw (CUDA variants and `common_type` not modelled) |
| Csr | sparse graphs of examples/abi_sparse.cpp over the `dense`, `tuple` and `sparse` arrmeta: `make_grid`, `select_node_data_entry`, `node_data`, `neighbors`, `sssp`, `verify_grid_sssp`, `main`; words by address, wraparound arithmetic, accesses outside the buffer as UB; `std::priority_queue` by its contract, with ties resolved by an arbitrary function and a changed order of queued elements as UB (types, headers and failing `malloc` not modelled) |
| AssignFn | `nd::assign`: the overloads of `make_assign` and their signatures, `insert`, the choice of an overload, all `resolve` functions of assign_callable.hpp with the elwise dispatch, the call graph and its instantiation into a tree of kernels (the kernels only by identity; array metadata and symbolic destination types not modelled; array overloads of `is_na`/`assign_na` left out) |
| Operators | the two-argument operators: the overloads of `make_binary_arithmetic`, `make_comparison_children`, `make_equal` and `insert`, the choice of an overload, `resolve` of forward_na, elwise (entry, dispatch and per dimension) and of the equality of tuples and structs with the type of the result, instantiation into a tree of kernels (which built-in pairs have a kernel and its result type are parameters; array metadata not modelled) |
| UnaryOps | functions of one argument: the overloads of `make_unary_arithmetic` and `is_na`, lifted functions, the choice of an overload, elwise `resolve`, instantiation with the array metadata of source and destination, and the loops run on a memory of cells and var records (the scalar kernels are parameters; a var destination gets fresh memory); the argument check of the in-place operators |
| BinaryRun | operators of two arguments on arrays: instantiation of the elwise nodes of Operators with the metadata of both operands and of the result, the loops run on a memory of cells and var records (the scalar kernels are parameters; tuples and structs as elements are not modelled) |
| CopyRun | dst.assign(src) on arrays: instantiation of the elwise nodes of AssignFn with the metadata of source and destination, the loops run on a memory of cells and var records (the conversion of one element is a parameter; tuples and structs as elements are not modelled) |
| TakeRun | nd::take as called: resolution, the order of the nodes in the call graph, the closure of the masked node, the selection loop on addresses, the result row (shrinking it in place; the scalar assignment kernel is a parameter) |
| ReduceRun | nd::sum, nd::min, nd::max, nd::all as called: tables, the identity and its width, result type, nodes, instantiation from array metadata, the kernels of fixed dimensions above a var dimension, the bytes of the result (the operation of the scalar kernel is a parameter) |
| SortRun | nd::sort and nd::binary_search as called: the check against `Fixed * Scalar`, the comparison chosen for the element type (`less` into a bool1, total_order), the kernels and their comparison per element (`forward_na` included), the run on memory, the lookup of a category (std::sort is a parameter with its contract) |
| StringCall | the string functions as called on arrays: the check of the arguments against `Dims... * string` (with the dimensions left uninitialised as a parameter), the resolution by elwise, the kernels on two strings |
| RandomFill | `nd::random::uniform` and `nd::rand`: binding of `a`, `b` and the destination, missing bounds, elwise with no arguments, the choice of the distribution, the run over the destination; the distributions and the generator of the C++ library are parameters |
| FieldAccess | `array::p`, `nd::access`, `nd::field_access`; `at_array` and `apply_linear_index` of fixed and `var` dimensions and structs for the indices these use |
| SerializeRun | `nd::serialize`: resolution, instantiation and run (on the kernels of ReduceRun) |
| AsArray | `nd::asarray`, `get_shape` of arrays of fixed and var dimensions |
| NaCall | `nd::assign_na` and `array::assign_na` as called: binding of the destination, choice, run |
| LimitsCall | `nd::limits::max` and `min` as called: table, binding of the destination, choice, the value written |
| Json | `format_json`, `parse_json`, `validate_json`, error positions |

Each definition says where it simplifies. Points where execution would leave the model end in the outcome `unmodelled`, which
theorems treat as an exception (never as success).

### What is not modelled

`memmap`, `convert` and expression types, `adapt_type`, `pyobject`/`json` types, math
functions (float arithmetic other than conversions, the four operations on finite values and what the models named above contain),
random numbers, date/time parsing, GPU code, weak memory orderings, `apply` callables, printing of array data, plugin loading.


## Results

Status as in MANIFEST.json. Theorems ending in `_violated` (and the counterexample theorems named in the notes) prove that the
code, as modelled, breaks the property; theorems ending in `_partial` prove it under restrictions that are part of the statement.

| Id | Property | Status | Note |
|----|----|----|----|
| C01 | Single index resolves Python-style or throws | proved | exact outcome for every index and size |
| C02 | Slicing a dimension with irange selects exactly the requested in-bounds elements | partial | exact element set, exact throw set and no UB for /step/ <= INT64_MAX-n; the code overflows (UB) for larger steps, shown by slice_huge_step_violated |
| C03 | A sliced strided view addresses exactly the sliced elements of its parent, and slices compose | proved | any history of index steps on any strided array |
| C04 | Broadcast compatibility test is exactly the right-aligned size-1-or-equal rule | proved | iff with the right-aligned rule, all ranks |
| C05 | Permutation validity test is exact | proved | true iff a permutation of 0..n-1, no UB |
| C06 | Axis ordering derived from strides is a permutation sorted by stride | partial | sorted permutation for every rank; ties keep C order only up to 3 dims (std::sort is not stable: violated at 4+); INT64_MIN stride is UB |
| C07 | Multi-operand axis ordering is always a permutation | partial | permutation for every set of operands; ambiguous comparisons keep C order except that the two-dimensional shortcut moves axes on a tie |
| C08 | Allocating with a memory layout order gives non-overlapping in-bounds elements | partial | axis_perm_to_strides stores sizes instead of strides (violated, with exact description of what it computes); default C layout proved |
| C09 | C-/Fortran-contiguity tests are sound and complete | partial | the type-level test is incomplete for size-1 dims (violated); everything else proved |
| C10 | irange expression algebra | partial | the code violates the claim for -1 < irange() and 0 > irange() and at INT64_MAX; all other bounds proved |
| C11 | UTF-8 encode then decode is the identity | proved | every scalar value, every encoding, any room and any following units |
| C12 | UTF-8 decoder accepts only well-formed sequences and stays in bounds | proved | checked decoders accept exactly the well-formed sequences and never read past the end |
| C13 | UTF-16 / UCS-2 / UTF-32 / ASCII codecs round trip and reject invalid units | partial | exact on scalar values; writing a surrogate is accepted by the UTF-16/32 writers (append_surrogate_violated) |
| C14 | Transcoding a string preserves its code points, or throws | partial | error-checked transcoding preserves the code point sequence; string_range_as_utf8_string copies ascii/utf8 without checking (violated witness) |
| C15 | Unchecked decoding always terminates and stays in bounds | partial | agreement on valid input proved for all encodings; progress fails for utf8 and bounds fail for utf16 (violated witnesses) |
| C16 | Escaped printing of a string can be read back | partial | full round trip for the string reader; for the datashape reader only the BMP, with the counterexample for all supplementary code points |
| C17 | string_find returns the first occurrence | proved | all haystacks and non-empty needles |
| C18 | string_rfind returns the last occurrence | partial | proved for needles of two or more bytes; false for one-byte needles (always -1 on haystacks of two or more bytes) |
| C19 | string_count counts the non-overlapping left-to-right occurrences, and string_replace replaces exactly those | partial | exact under CountSafe; memory safe for all needles of two or more bytes; the code misses adjacent occurrences and reads past the end for one-byte needles (violated witnesses) |
| C20 | startswith / endswith / concat are exact | proved |  |
| C21 | Byte/char strings with small-string optimisation behave like a byte sequence under any operation history | partial | all histories except self-append and in-object resize losing size bits, for which the claim is false |
| C22 | Assignment into a fixed-size string either preserves the text (NUL padded) or raises | partial | Exact for the error-checked modes; the remaining cases are shown to fail by the violated theorems listed. |
| C23 | Checked integer assignment is exact or raises | proved | All widths >= 8 bits, all signedness pairs, all values: exact if representable, overflow error otherwise; bool accepts exactly 0/1. |
| C24 | Parsing an unsigned integer returns its value or raises | partial | Proved: full characterisation of accepted texts, exact when representable, otherwise raise or value mod 2^bits. The remaining clause (always raise when unrepresentable) is false of the code: parse_unsigned_violated gives a counterexample for every width. |
| C25 | Parsing a signed integer returns its value or raises | partial | Exact-or-raise proved whenever the magnitude is below 2^bits (parser) / 2^64 (assignment kernel). Violations proved: "300" as int8 is 44; a negative string assigned to int64 negates INT64_MIN (undefined behaviour). |
| C26 | Printed integers parse back | proved | All integer types, all values. |
| C27 | Checked float-to-integer assignment never invokes undefined conversion | partial | exact characterisation for every bit pattern; the claim fails exactly for NaN (overflow mode) and for the value one past a maximum that the float format cannot represent, where the conversion is undefined (violated theorems cover all such inputs) |
| C28 | Half-precision values survive a round trip through float32/float64 | proved | every bit pattern, symbolically (not by enumeration) |
| C29 | float32/float64 to float16 conversion rounds to nearest-even or raises | proved | CorrectToHalf: nearest-even, exact-or-throw underflow, overflow to infinity or throw, NaN stays NaN; all 2^32 / 2^64 bit patterns |
| C30 | Half-precision comparisons agree with the numeric order | partial | the order and classification clauses are proved; the truth-value clause is false of the code: every half converts to true |
| C31 | 128-bit integer addition, subtraction, negation and comparison are exact modulo 2^128 | partial | +, ~, signed negation, comparisons exact for all values; subtraction exact unless the low word subtracted is zero, where it is off by 2^64; += is never right; unsigned negation characterised; ! of uint128 wrong |
| C32 | 128-bit multiplication/division by 32-bit and decimal printing are exact | partial | all exact for uint128 and for int128 except the product of the minimum, which recurses forever |
| C33 | Missing values: assign_na makes is_avail false, ordinary values stay available | partial | exact for bool, all integers, float, double, complex, void; violated for string and bytes, whose NA is never detected; pointer raises "not implemented" and is left out |
| C34 | Option assignment over strided data maps each element independently | partial | exact for count <= 128 (one chunk); the code is wrong for every longer strided assignment (undefined behaviour or restarting at the source start, both proved); option to value proved for any count |
| C35 | Arithmetic type promotion is order independent and lossless | partial | exact set of commuting and of lossless pairs of builtin types; commutation for all types without float16; the code violates both parts for the listed pairs |
| C36 | Datashape text of a type parses back to the same type | partial | All types of any nesting and width satisfying the spec predicate Describable; every condition of it that the library does not itself demand is a defect of the printer or parser, with a counterexample theorem. |
| C37 | Concrete types match only themselves; type-variable matches are consistent | partial | Types of any depth against concrete types. Exactly the instances match for patterns without ellipsis, powers and Dim; soundness also with ellipsis and fixed powers; substitution gives the candidate back for kind-free, non-variadic patterns. The excluded patterns are shown to violate the property. |
| C38 | Struct/tuple fields are aligned, disjoint and inside the data size | proved | any nesting of fixed dims, tuples, structs whose sizes stay below 2^63; beyond size_t the size silently wraps (proved) |
| C39 | JSON output of an array parses back to the same array | partial | Round trip for every value of every nesting of bool, integers up to 64 bits, well-formed strings, options of those, structs (both styles), fixed and var dimensions; the excluded cases (tuples, options of unsigned integers whose value equals the missing value, negative int64 at the limit, malformed strings) are shown to fail. |
| C40 | validate_json accepts exactly JSON documents it can skip, and never reads past the end | partial | Exact language of validate_json for all byte strings, and it contains all of RFC 8259; it also accepts raw control characters, other whitespace and unknown escapes (proved), so it is not exactly JSON. |
| C41 | Parsing a JSON object into a struct fills each field exactly as given | partial | For member names and values without surrogate-pair escapes; a missing optional unsigned field is left unwritten (proved violation). |
| C42 | Overload ordering is a topological order | proved | all finite graphs / overload sets and histories of registrations; for an empty set the output iterator leaves the range (proved) |
| C43 | Multiple dispatch selects a most specific matching overload | proved | any match relation, any history of registrations |
| C44 | Memory-block allocations are aligned, disjoint and stay valid | partial | Proved for every history (allocations incl. failing ones, resizes of the last allocation, client writes, finalize, reset) under the malloc contract, for requests below 2^63 bytes and no reset after a failed malloc; the two excluded cases are violated. |
| C45 | Resizing the last allocation preserves its contents; zero-initialised blocks hand out zeros | partial | False of the code: a POD block that must move its last allocation reads out of bounds (unless malloc returns the adjacent address), in-place growth of a zeroinit block is not cleared, object blocks clear the wrong element and copy too little. Proved: content preserved in place, and moves of zeroinit blocks. |
| C46 | Elementwise application broadcasts variable dimensions by the broadcasting rule | partial | The kernels for one run-time dimension satisfy the property in full; the choice of kernel does not: exactly when a var operand meets a scalar and no longer fixed operand, the result type says var but a fixed-destination kernel is used. Nested var dimensions: C119 and C120. |
| C47 | Boolean-mask take returns exactly the masked elements in order | proved | The selection itself, elements being opaque. The call with its metadata, memory and nested elements is C122, where ragged arguments are shown to be undefined. |
| C48 | Index take gathers the requested elements or raises | partial | The kernel is right (indexed_take_exact), but a call never runs it: the nodes of the element assignment come first in the call graph, so whatever the indices are, the first element is copied to the first place and nothing else is written (indexed_take_call_violation). |
| C49 | binary_search finds an element iff present | proved |  |
| C50 | Integer range has exactly the elements start+k*step before stop | proved | The hypothesis is exactly the no-overflow condition of the property; the overflow case is shown to be undefined behaviour. |
| C51 | Byte swapping is an involution, in place or copying | proved |  |
| C52 | A reduction along axes equals the fold of the elements along those axes | partial | Any rank, strides, axis set and operation, one operand. Holds when at most one dimension is kept or keepdims is set, reduced dimensions other than the last are non-empty and result strides are non-zero; each restriction is shown to be necessary by a violation theorem. |
| C53 | Growing the kernel buffer preserves already-built kernels | proved | For every sequence of appends and writes of total size below 2^60. Out of memory is outside the property; the destructor of a call graph is undefined after it (shown). |
| C54 | Categorical values and category codes are in bijection | partial | As the code stands every construction from a non-empty unsorted list calls a NULL kernel (proved). Proved: presorted construction; and the full bijection for the constructor and factor_categorical when working comparison/copy kernels are supplied. |
| C55 | Permuting, transposing or rotating a view keeps every element | partial | permute_type_dims duplicates dimensions when a non-final prefix of the axis list is itself a permutation, e.g. [1,0,2] (violated); exact for all other axis lists; transpose and rotate exact |
| C56 | Broadcasting an operand to a shape addresses the stretched element | proved | strides and throw set exact |
| C57 | The broadcast shape of several operands is the least common one | proved | any number of operands |
| C58 | Inserting a new axis keeps every element | proved | all ranks |
| C59 | Axis-order classification is exact | partial | the classifier is wrong for some rank-3 inputs (violated) |
| C60 | Inexact-checked integer-to-float assignment is exact or raises | partial | exact-or-raise proved except where the rounded value is one past the source maximum: there the check itself is undefined |
| C61 | Checked float-to-float assignment is exact, nearest or raises | proved | all bit patterns of float and double, all pairs |
| C62 | Conversions into and out of 128-bit integers preserve the value | partial | int128 from integers exact; uint128 from negatives not sign-extended; int128 to double loses the sign |
| C63 | The lossless-assignment test is exact | proved | all pairs of builtin numeric types, against the sets of representable values |
| C64 | Indexing nested arrays of tuples and structs addresses exactly the designated scalars | partial | exact for every index list in which a range of fields is only the last index; the code is wrong for a range of fields followed by more indices (proved) |
| C65 | A rejected overload leaves the overload set intact | partial | calls that matched keep working; other calls and registrations then dereference a null child (proved violation) |
| C66 | Overload selection does not depend on registration order | partial | holds when the matching overloads have a most specific one; the ambiguity check does not guarantee this (proved violation) |
| C67 | Elementwise application over fixed-dimension arrays of any rank follows the broadcasting rule | partial | Holds for operands in which no size-1 dimension is followed by a longer one; violated otherwise (theorem elwise_leading_one_violated). |
| C68 | Reducing a ragged array folds exactly the elements of each row | partial | Holds for var data without arrmeta offset (and a non-empty outer dimension when it is reduced); violated otherwise. |
| C69 | Reading a type description always ends | partial | All texts whose digit runs have at most nine digits; longer numbers overflow atoi (violation proved). Stack depth not modelled; parts outside the model end in the exception unmodelled. |
| C70 | Reading JSON into any type ends with a complete, well-formed value or an exception | partial | All byte strings and types without int64 (whose negation overflows, see C25); unwritten absent unsigned options are admitted by the predicate and shown in json_missing_unsigned_violated. |
| C71 | JSON errors are reported at the right line and column | partial | Exact for every text and position; at the end of a text that is empty or ends in a newline a bare runtime_error escapes instead (proved). That each parse error carries the right position is not modelled. |
| C72 | format_json writes valid JSON | partial | Validity holds for every value of every modelled type, malformed strings and field names included (format_json_valid), and success for the values of C39 (format_json_valid_partial). The rest is false of the code: a byte that cannot begin a character makes the loop run forever; complex numbers, infinities and not-a-numbers are written in a notation that is not JSON. The digits of finite floating point numbers are not modelled. |
| C73 | Comparisons of numbers follow the numbers | partial | Right for exactly the type pairs and integers characterised by the _safe_iff theorems; signed against unsigned of at least the width (and 32 bits) is proved wrong, as is equality with floats for integers that are not represented. bool, complex and strings are not modelled here. |
| C74 | Integer arithmetic is exact or wraps as documented | partial | All pairs of integer types; overflow of signed result types and bad shift counts are undefined behaviour (proved). |
| C75 | Division truncates toward zero and zero divisors raise | partial | The zero check looks at the dividend twice: signed by unsigned zero is undefined behaviour, unsigned by 0.0 raises (proved); minimum by -1 is undefined. |
| C76 | In-place arithmetic updates each element once from its old value | partial | Integers; a zero divisor is never checked in place (proved violation). |
| C77 | Operators on optional values are missing exactly when an argument is missing | partial | The propagation is exact; a result that equals the stored missing value reads as missing (proved for sums of signed integers). |
| C78 | Assigning tuples and structs copies every field to its counterpart | partial | At most eight fields (nine write outside a std::array, proved) and, for reordered structs, fields without arrmeta or in the same order (otherwise the wrong arrmeta is used, proved). |
| C79 | Equality of tuples and structs is field-wise equality | partial | Field-wise for equal layouts evaluated one at a time; names and surplus fields are ignored, the second operand is read with the arrmeta of the first, and strided evaluation reads through the wrong instance (each a proved violation). |
| C80 | sum, min, max and all compute what their names say | partial | Integers exactly; floats without NaN whose extremum is finite (identities are the finite limits, proved violation); sums of floats not modelled. That nd::sum starts from 0 holds for 4-byte elements only: see C123. |
| C81 | sort permutes exactly the elements of the array into order | partial | Positive strides, no NaN; std::sort is assumed to meet its contract. Negative strides break the iterator order and NaN the comparison contract (proved). |
| C82 | Composing two functions behaves as one after the other for any number of elements | proved | First theorem: callables that may throw, source and destination apart. The others: total callables, source and destination in one memory (in place, or overlapping so that nothing is read after it was written). |
| C83 | Array iterators visit every element once, with broadcasting | partial | Proved for every rank, size and stride; two-operand iteration needs stride 0 in stretched dimensions. The full claim is false: a size-1 dimension with the non-zero stride that nd::empty gives it is walked past its only element (iter_stretched_violated). |
| C84 | equals_exact compares types and every element | partial | Exact for fixed dimensions of any rank and layout and for a leading var dimension of equal lengths. False for var dimensions of different lengths (raises type_error), inner var dimensions (raises runtime_error) and NaN (identity shortcut). |
| C85 | Copies are dense and keep the axis order | partial | Density for all strides; axis order for non-negative strides. False for negative strides and for sources with trailing var dimensions. |
| C86 | reshape keeps the elements in row-major order | partial | Proved for sources contiguous in row-major order. False otherwise: strides of the source are ignored. |
| C87 | concatenate returns the elements of both arrays | partial | Proved for a non-empty second operand; raises otherwise. |
| C88 | old_range returns begin + k*step strictly before end | partial | Proved except for the minimal step of a signed type and 64-bit ranges whose extent does not fit; these are shown to fail. |
| C89 | view reinterprets the same elements or refuses | partial | The success condition and element addresses are exact for all ranks; false for struct dtypes with non-default offsets (the view uses default offsets). view_scalars of a contiguous 1-D array covers the same bytes; false for targets that are not plain data, and division by zero for a target of size 0 (proved). |
| C90 | A callable call binds each argument to exactly one declared parameter | partial | Soundness, completeness and independence of keyword order for all signatures. False: passing dst hides a missing required keyword; extra positional arguments of variadic signatures are not type-checked; a null keyword argument is dereferenced; keyword-variadic signatures refuse every extra keyword. |
| C91 | A block lives exactly as long as something points to it | partial | Proved for all histories in which no assignment has its source inside what the destination alone keeps alive, and members point to older blocks (no cycles). False otherwise: p = p and p = p->member on a last pointer touch a freed block; != compares for equality. |
| C92 | Reference counts are safe in any thread schedule | proved | Sequentially consistent interleavings of the atomic operations; members of a block are not reassigned while it is shared. |
| C93 | Dimension vectors behave like vectors under any history | partial | All histories without init from the own storage (reads freed memory, proved) and self-swap. Bundles: exactly the init sequences that never shrink back into the object are well-defined; others free twice. |
| C94 | Replacing a dtype or adding axes keeps everything else of the type | partial | Full for types with fixed, Fixed and var dimensions and options. Proved violations: type variable, Dim and ellipsis dimensions are returned unchanged; replacing more dimensions than exist above a builtin dtype is undefined behaviour (also in the array(values, tp) constructor); array::replace_dtype turns untouched struct fields into the type type. |
| C95 | The canonical type is canonical | partial | Full for types without pointers; with pointers it is false (proved): not idempotent, more dimensions, and ?pointer[?T] has no canonical type. |
| C96 | Filling a shape into a symbolic array type | partial | Full for non-empty shapes and types made of fixed, Fixed and var dimensions over a dtype; an empty shape with a type that has dimensions, and an option of an array, are undefined behaviour (proved). |
| C97 | Outer application | partial | Arguments with fixed dimensions and scalars, any rank and strides, up to three arguments; with more (one of them not a scalar) the table of implementations is read out of bounds. A destination given by the caller is not compared with the arguments (exact for any destination of the right rank; a larger one makes it read past the arguments). Var dimensions, which the kernel would misread, are not modelled. |
| C98 | Positions of matching elements | partial | One argument with fixed dimensions. Exact in one dimension; with more dimensions only the leading index is recorded, elements after a leading dimension of size 1 are missed, a matching scalar and a non-empty destination are undefined behaviour. Predicates of several arguments are not modelled. |
| C99 | Arrays from nested containers | partial | Full for rectangular containers and for innermost initializer lists of different sizes. An empty container around other containers, sizes that differ at another depth, and vectors of different sizes are undefined behaviour (proved). Alignment and overflow of sizes are not modelled. |
| C100 | Read-only and immutable arrays | partial | Full for pointer writes, views and copies. Assignment, compound assignment, callables with dst and sort ignore the permissions and change immutable arrays; transposing, reshaping and new axes raise on read-only arrays although they write nothing (both proved). Arrays are lists of memory places; types are not modelled here. |
| C101 | Destroying an array releases everything it owns exactly once | partial | Full for string, bytes, type and plain leaves under fixed, var, tuple, struct and option, and for pointers to types without destructor. Arrays of callables, of arrays and of pointers to strings raise inside the destructor; one adapt field makes the whole record leak; a view of a var array that outlives the array reads freed arrmeta (all proved). Sharing of blocks is modelled as holding the last reference. |
| C102 | The type registry | partial | Full except: an id made with a name already in use is never found by it, and a registration giving a type and an argument parser without a constructor raises but leaves the type registered, so that it cannot be corrected (both proved). Types and functions are opaque numbers; pointers into the registry are not modelled. |
| C103 | Reading one value from JSON text | partial | Exactness, soundness and absence of undefined behaviour are proved for all texts, with two exceptions proved as violations: every string with an escape is stored with the escape, and integers too large for the type may wrap around (the defect of C24). ?uint8, ?uint16, ?uint64 always raise; structs and dimensions have entries without a kernel. Floating point types have no entry. |
| C104 | Complex addition, subtraction, multiplication and conjugation | proved | Against the complex field of Mathlib, for every rounding with the stated properties; IEEE round-to-nearest-even of binary32 and binary64 is proved to be one. Assumes operations are rounded one by one (no contraction). Overflow, underflow, infinities and NaN are outside: nothing is claimed then. |
| C105 | Complex division, comparison and compound assignment | partial | The error bounds hold whenever the computation stays in range. Violations proved: z != t for a scalar t answers whether they are equal; z /= z.m_real leaves the imaginary part undivided; a divisor of 2^513 or more has no quotient, even by itself. |
| C106 | The description of an array is readable and true of the array | partial | Proved for all types with plain field names, no variadic struct and no symbolic type under a fixed dimension (format_datashape is total on them, free of undefined behaviour, and its text parses to the specified type, single- and multi-line). The rest is false of the code: field names are not quoted, the dots of a struct are dropped, the size above a symbolic element type is replaced by Fixed. |
| C107 | The registry of callables finds what was registered | partial | Lookup, insertion, observers, keeping and order are proved for all registries, texts and histories. path() is right for registries built from braces and for fresh entries inserted at the top; it is wrong for entries inserted into a nested namespace or inserted a second time, and an entry whose name has a dot can be inserted but is found by no path (violations proved). |
| C108 | Iterating a nested container visits every element once | partial | Proved for C arrays of every depth and positive extents (all a C++ array can have) and for one level of any container. For containers of separately stored containers with N >= 2 the loop never ends normally (proved for every content and every N): elements are seen in order, but the increment after the last one reads past the end, and empty rows are not skipped. |
| C109 | C interface: types are what they were made as, and are released with their last reference | partial | Proved for every history in which no last reference is dropped. Violated by the code: dynd_malloc_buffer fills the start of the buffer as a dynd_buffer, where the release pointer is word 0, but a dynd_type has its reference count there and its release pointer in word 1, so dropping the last reference of any constructed type calls the address of the type as a function; types that are part of another are not counted as referenced; malloc failure and constructor calls with no parameters are not detected, and surplus parameters are dropped. |
| C110 | Indexing arrays with variable-size dimensions and pointers | partial | Proved (acceptance, elements, owning blocks) for all types, arrmeta, data and index lists in which no integer falls on a variable-size dimension after a kept dimension or a pointer, and pointers name their block. The rest is false of the code, proved: an integer on the rows after a range, and vals_at on a variable-size array, are not checked against the row size, do not count from the end and ignore the offset of the arrmeta; an integer on a pointer to a variable-size array writes arrmeta the result type has no room for; a pointer into its own array, found through a variable-size dimension, gets the wrong owner. |
| C111 | Printing an array | partial | Proved for every array except where the code is wrong, which is proved too: with eight elements printed one per row the last is never looked at (the same text for every last element); two elements of together more than ten lines, and short elements of which the last is alone in its row, are shown without a comma before the last one; an eighth element of 74 or more characters after seven short ones is a remainder by zero; optional strings, bytes, most unsigned integers and all structured values are shown as NA. Elements of 36 to 73 characters in a grid: only definedness is proved. |
| C112 | C interface: reference counts in any thread schedule | partial | Proved in full where the C11 or C++11 definitions of the atomic operations are compiled, for any number of threads and below 2^64 references. With the other definitions (gcc intrinsics; MSVC in C, or in C++ without /Zc:__cplusplus) fetch_sub returns the new value: the only reference releases nothing and one of two releases an object still in use (both proved). The memory model is that of release sequences on one location on which only read-modify-write operations are performed. |
| C113 | Truth values | partial | Proved for all histories of operations with truth values as results. False of the code: the compound operators change the stored byte without normalising it: true += true (any number of times up to 254) compares equal to true, adds differently and is missing as an optional value, after 255 times it is false; false -= true is true and missing; dividing by false is undefined. char is taken to be signed. |
| C114 | Functions built from combinators act on runs as on single elements | partial | Proved for every nesting of the combinators except the last sentence, which the code violates: left_compound declares the type of the first parameter but hands the argument over as the second, right_compound the other way round, so a function whose two parameters have different types reads its argument as the wrong type; right_compound of a function with fewer than two parameters is undefined. |
| C115 | 128-bit floating point numbers have the value of what they are made from | partial | Proved in full: finite float64 and float16 sources, bool, the predicates, less_nonan, and less_equal_nonan except 0 <= -0. False of the code, proved: infinity and NaN become finite (exponent 0x7ff0); every integer of up to 32 bits becomes 2^456 times itself (the bias is written 16838), the smallest int and every nonzero 64-bit integer are undefined; bool1 leaves the number uninitialised; 0 <= -0 is false; every operator throws. |
| C116 | Sparse graphs are read as the graph their metadata describes | proved | Full. std::priority_queue is modelled by its contract, malloc is assumed to succeed (its result is not tested), and the types and headers of the arrays are those of C109. reversed_indices_ignored shows why the indices of a row must be at increasing addresses. |
| C117 | Every assignment finds its conversion | partial | Proved: the table is built without an error in a known order for every sharing of type objects, at most one overload but the fallback is meant for a pair (option <- option: two, and the copying one is chosen), and for the pairs of Works (numbers, text, types, options with a missing value, arrays with broadcasting, tuples and structs of up to 8 fields, nested to any depth) the tree of kernels is the right one. False of the code, proved: a pair without a conversion (a number to a string, a string to an unsigned number, anything categorical, ...) overflows the stack instead of an error; fixed_bytes and pointers never work; int32 to fixed_string builds the parser; option[string] <- string never ends; a string for an optional number leaves nodes behind, so the next field of a tuple gets the wrong kernel; bool, float32 and fixed_string below an array or a struct read a type that is gone; registering any overload reverses the order, so that optional values are then assigned with the kernel that fails on a missing value. |
| C118 | Every two-argument operator finds its kernel and its result type | partial | Proved: the tables are built without an error for every sharing of type objects; for every pair of OpOK (built-in pairs, missing values, arrays with broadcasting, tuples and structs of up to 8 fields) the kernels and the result type are the right ones; undefined comparisons and sizes that do not fit are refused. False of the code, proved: an arithmetic operator on a pair it is not defined for calls itself without end instead of an error; var and a scalar build the kernel for a fixed result although the result is var; comparing tuples of more than 8 fields or with a shorter second tuple is undefined, fields that can be missing store the marker into a plain bool, an array only in the second tuple recurses without end, struct field names are ignored; adding an overload makes every operation with an optional operand recurse without end. |
| C119 | Functions of one argument work elementwise on arrays of any nesting | partial | Proved: the tables are built without an error for every sharing of type objects; on every nesting of fixed and var dimensions in which no dimension of size 1 stands before another dimension, the result has the same dimensions and every element is the function of the corresponding one; other element types are refused. False of the code, proved: after a dimension of size 1 the metadata of the operand is not advanced, so the loop goes by a wrong stride (outside the array) or reads the metadata as of another kind; operators of one argument refuse optional elements; a given destination type is not checked; self += rhs and self /= rhs are refused for all arrays; is_na of an optional array tests one element. |
| C120 | Operators of two arguments combine arrays element by element | partial | Proved for every pair of nestings in the relation Bcast (which is symmetric), from the choice of the overload to the result in memory: the result has the announced dimensions and is the operands combined with broadcasting, or the broadcast error is reported. False of the code, proved: a size-1 dimension before a longer one reads outside the array; a matrix and a ragged row, ragged rows and fixed rows, and a ragged row and a scalar use array metadata as of another kind. Not modelled: elements that are tuples or structs (their resolution is in C118), three or more operands. |
| C121 | Assigning an array copies every element, with broadcasting | partial | Proved for every pair of nestings in the relation CopyFits and every destination whose elements do not share memory, from the choice of the overload to memory: the destination has the value given by broadcasting (spec fillWith), or the error is reported, and nothing else that was there has changed; a copy into a new array has the value of the source. False of the code, proved: a source with a dimension of size 1 before a longer one is read outside (copying [[7, 8]] gives [[7, 99]]); a ragged row assigned to a matrix, and fixed rows assigned to a ragged array of rows, use array metadata as of another kind. Not modelled: elements that are tuples or structs, source and destination overlapping. |
| C122 | take selects elements of arrays of any nesting | partial | Proved for masks: for an array whose first dimension is fixed and whose elements have any nesting without a size-1 dimension before a longer one (CopyFits b b), with any strides and offsets, the call from resolution to memory gives exactly the selected elements, and refuses a mask of another size or type. False of the code, proved: with indices the element assignment runs instead of the take, on the first element; a ragged array or a ragged mask has its metadata read as of another kind. Not modelled: elements that are tuples or structs, a result type given by the caller. |
| C123 | sum, min, max and all called on arrays of any nesting | partial | Proved from the choice of the kernels to the bytes of the result for fixed dimensions of any number, sizes and strides, for a last dimension that is var and reduced below any fixed dimensions, and for scalars, on every element type whose size is that of the starting value (nd::min, nd::max, nd::all, and nd::sum on elements of 4 bytes). False of the code otherwise: the identity of nd::sum is stored as an int whatever the element type, so sums of 8-byte elements (int64, uint64, float64) start from uninitialised memory in their upper half and sums of 1- and 2-byte elements overwrite the bytes after the result; a var dimension that is not the last makes the call run past the call graph; a var dimension that is kept is reduced nevertheless and the number stored over the record. Undefined integer overflow of partial sums is C80. |
| C124 | Sorting and searching arrays as called | partial | Proved from the check of the arguments to memory: sorting for booleans, integers up to 64 bits, floats without NaN and strings at any positive stride, with std::sort known only by its contract; searching for int32, bool and string elements and a value of the same type; what is refused. False of the code: with a missing value the comparison writes 2, which counts as true, so an optional element comes before itself; a NaN makes the comparison no strict weak order; a reversed view has its end before its beginning (all three undefined in std::sort); the value searched for is not converted, its bytes are read as an element; element types without an overload of total_order cannot be searched, so no categorical type over them can look a category up. |
| C125 | String functions called on arrays of any nesting | partial | Proved for the functions of two strings, from the check of the arguments to memory, for every pair of nestings in the relation Bcast (C120); the elements for non-empty needles, for rfind needles of two bytes or more, for count as in C18; with two arguments, or when no argument has more dimensions than the first, the answer of the check does not depend on uninitialised memory, and what is refused is characterised exactly. False of the code: the check of three arguments keeps uninitialised dimensions (string_replace may refuse arguments that fit); a ragged row and one string use array metadata as of another kind, and the other cases of C120. The run of string_replace (three arguments) and string_split are not modelled. |
| C126 | Random arrays: every element is a fresh draw between the bounds | partial | Holds for every array type with one of the eight element types, new or existing, when the bounds are permitted ones. Violated: for uint64 a left-out bound makes the call fail (there is no missing value of uint64); bounds with a > b, also when one is the default (uniform with only b = -1 for int32, only a = 2 for float64), are not checked and are undefined behaviour in the C++ distribution; two bounds with no destination fail although the type of the result is known; a var dimension that has no memory gets one element (random_new_partial). The distributions, the generator and floating point numbers are parameters; which part of a complex number is drawn first is unspecified in C++ and a parameter. |
| C127 | Fields by name | partial | a.p(name) is proved exact for all fixed and var dimensions, arrmeta, field types and names without NUL; unknown names and non-structs raise. Violated: nd::field_access with an unknown name indexes with -1 (undefined behaviour); a std::string name is cut at its first NUL; a pointer to an array of structs, though indexing passes through it, has no fields. |
| C128 | nd::serialize | partial | Proved from the call to the contents of the result for every built-in element type, for fixed dimensions of any number, sizes and strides, and for a last dimension that is var and reduced. False of the code: a scalar raises instead of being serialised; a var dimension that is not the last makes the call run past the call graph; a var dimension that is kept is reduced nevertheless, into a place that is a record. Without keepdims, two kept dimensions are those of C80. A bytes object is a unit (its appending is C21); elements that are not of a built-in type are not modelled. |
| C129 | nd::asarray | partial | Proved for arrays of any nesting of fixed and var dimensions and for requested types whose dimensions are sizes, Fixed or var and whose element type is concrete; the copy is proved for the pairs of dimensions and element types of C121 and C99. False of the code: an array without dimensions asked for as one with a Fixed dimension makes the call read a shape that does not exist. Requested types of other forms (C77, C96) are covered only where they admit the array; structs are not; the strings of the new array are units (C21). |
| C130 | Assigning a missing value | partial | Proved from the call to memory for optional scalars of every type that has a missing value, and for everything that is refused. False of the code: an array of optional elements is refused for every element type (the type of the function is () -> ?Any), although there are overloads for arrays; of an optional fixed array only the first element is written. Which bytes a missing value is, and that is_na recognises them: C33. |
| C131 | Limits of the number types | proved | The call is bound and dispatched as in C90 and C119. That the constants are the greatest and the least finite value is stated with IEEE values (C29), not with bits. |

## Axioms of each theorem

Output of `#print axioms` for the theorems in MANIFEST.json. P = `propext`, Q = `Quot.sound`, C = `Classical.choice`, all three Lean's own; no other axiom occurs.

### P

* C09: `c_contiguous_complete`, `type_c_contiguous_sound`
* C12: `decode_in_bounds`
* C13: `append_surrogate_violated`
* C15: `noerror_agrees`, `noerror_utf16_oob_violated`
* C19: `pieces_unique`
* C21: `sso_self_append_violated`
* C22: `fixed_fixed_exact_fit_violated`, `fixed_string_nul_violated`
* C25: `parse_signed_violated`, `trim_spec`
* C32: `W128.smul32_violated`
* C33: `ordinary_is_available`, `na_bits_are_nan`, `string_na_violated`, `builtin_unsigned_violated`
* C35: `promote_builtin_comm_iff`
* C37: `pow_var_skips_dims`, `ellipsis_growth_uninitialised`, `typevar_dim_matches_option`, `bytes_kind_misses_fixed_bytes`, `subst_drops_variadic`, `subst_callable_keywords`, `subst_callable_inside`, `binding_depends_on_identity`, `failed_match_leaves_bindings`
* C39: `json_surrogate_pair_violated`
* C41: `json_missing_unsigned_violated`
* C42: `topo_sort_empty_violated`
* C44: `alloc_overflow_violated`, `reset_after_failure_violated`
* C45: `pod_resize_example_violated`, `object_resize_inplace_violated`, `object_resize_move_violated`
* C46: `elwise_var_scalar_violated`
* C52: `reduction_scalar`, `reduction_two_kept_violated`, `reduction_empty_outer_violated`, `reduction_empty_result_violated`, `reduction_zero_stride_violated`
* C53: `call_graph_failure_violated`
* C54: `categorical_ctor_violated`
* C55: `permute_violated`
* C59: `classify_axis_order_violated`
* C64: `field_index_duplicate_violated`
* C65: `rejected_overload_violated`
* C66: `registration_order_violated`
* C67: `elwise_leading_one_violated`
* C70: `json_missing_unsigned_violated`
* C73: `compare_int_trichotomy`
* C75: `divide_zero_partial`
* C77: `forward_na_exact`
* C78: `tuple_assign_nine_fields_violated`
* C82: `compose_accepts`
* C83: `iter_stretched_violated`
* C84: `equals_exact_self`, `equals_exact_nan_violated`
* C86: `reshape_strided_violated`
* C88: `old_range_wide_violated`
* C89: `old_view_layout_violated`
* C92: `threads_freed_once`
* C95: `canonical_pointer_violated`
* C98: `where_scalar_violated`
* C100: `readonly_transpose_violated`
* C102: `register_raise_partial`, `register_raise_violated`
* C103: `json_option_unsigned`, `json_scalar_containers_violated`
* C106: `shown_size`
* C108: `nested_iter_empty_row_violated`
* C109: `abi_parameters_exact`, `abi_no_memory`
* C110: `vals_at_unchecked`, `pointer_to_ragged_ub`, `pointer_block_violated`
* C113: `bool1_compare_exact`, `bool1_print_exact`, `bool1_div_violated`
* C114: `left_compound_types_violated`, `right_compound_types_violated`
* C122: `take_index_type`
* C128: `serialize_scalar_violated`

### PCQ

* C01: `single_index_exact`
* C02: `slice_selects_exactly`, `slice_single_exact`
* C03: `view_index_exact`, `view_history_exact`, `view_write_exact`
* C04: `shape_can_broadcast_exact`
* C05: `is_valid_perm_exact`
* C06: `strides_to_axis_perm_sorted`, `strides_to_axis_perm_ties_partial`
* C07: `multistrides_perm`, `multistrides_ambiguous_c_order`, `multistrides_sorted`, `multistrides_sorted_keys`
* C08: `default_layout_disjoint`, `axis_perm_to_strides_violated`
* C09: `c_contiguous_sound`, `rowRank_bounds`, `rowRank_inj`
* C10: `irange_lt_denotes`, `irange_le_denotes`, `irange_leL_denotes`, `irange_ge_denotes`, `irange_ltL_denotes_partial`, `irange_gtL_denotes_partial`, `irange_full_denotes`
* C11: `decode_exact`, `encode_exact`, `encode_decode_roundtrip`
* C12: `decode_exact`, `decode_encode_roundtrip`
* C13: `encode_exact`, `encode_unit_bound`
* C14: `as_utf8_exact`, `string_set_exact`, `string_from_fixed_exact`, `fixed_string_assign_exact`, `fixed_fixed_assign_exact`, `fixed_string_roundtrip`, `encodeAll_inj`, `as_utf8_ascii_unchecked_violated`
* C16: `escaped_print_read_roundtrip`, `escaped_datashape_roundtrip_partial`, `escaped_datashape_supplementary_violated`
* C17: `string_find_exact`, `string_contains_exact`
* C18: `string_rfind_exact_partial`
* C19: `string_count_exact_partial`, `string_replace_exact_partial`, `string_split_exact_partial`, `string_replace_byte_exact`, `string_replace_sound`, `string_count_memchr_violated`
* C20: `string_startswith_exact`, `string_endswith_exact`
* C21: `sso_history_partial`, `sso_eq_exact`, `sso_resize_violated`
* C22: `fixed_string_assign_exact`, `fixed_fixed_assign_exact`, `fixed_string_roundtrip`
* C23: `int_assign_exact`, `int_assign_bool_exact`
* C24: `parse_unsigned_partial`, `parse_unsigned_sound`, `parse_unsigned_total`, `parse_unsigned_violated`
* C25: `parse_signed_partial`, `parse_signed_exact`, `parse_signed_sound`, `string_to_signed_partial`, `string_to_int64_nonneg_partial`
* C26: `print_parse_int`, `printInt_text`, `print_assign_int`
* C27: `float_to_int_overflow_partial`, `float_to_int_fractional_partial`, `float_to_bool_exact`, `complex_to_int`, `IsTrunc.unique`, `float_to_int_overflow_violated`, `float_to_int_fractional_violated`
* C28: `half_to_float_exact`, `half_to_double_exact`, `half_round_trip`
* C29: `float_to_half_correct`, `double_to_half_correct`
* C30: `half_order_exact`, `half_class_exact`, `half_operators_exact`
* C31: `W128.add_exact`, `W128.addU64_exact`, `W128.bnot_exact`, `W128.neg_exact`, `W128.sub_exact_partial`, `W128.subU64_exact_partial`, `W128.unegate_exact_partial`, `W128.compare_exact`, `W128.truth_exact`, `W128.signed_exact`, `W128.sub_violated`
* C32: `W128.mul32_exact`, `W128.divrem32_exact`, `W128.uprint_exact`, `W128.sprint_exact`, `W128.smul32_exact_partial`
* C33: `assign_na_is_na`, `is_na_iff_reserved`, `builtin_agrees`
* C34: `opt_assign_exact_partial`, `optSpec_pointwise`, `opt_assign_pointwise_partial`, `opt_assign_long_violated`, `opt_assign_wraps_violated`, `opt_to_value_exact`, `opt_to_value_na_throws`, `opt_narrowing_violated`
* C35: `promote_comm_partial`, `promote_lossless_iff`, `promote_lossless_violated`
* C36: `datashape_roundtrip_partial`, `datashape_text_injective_partial`, `pow_fixed_base_violated`, `empty_variadic_violated`, `typevar_reserved_violated`, `callable_keyword_quoted_violated`, `callable_variadic_violated`, `fixed_string_zero_violated`, `dim_fragment_violated`, `categorical_rejected_violated`, `fixed_bytes_size_violated`, `parser_drops_text_violated`
* C37: `match_concrete_iff`, `match_iff_partial`, `match_false_iff`, `match_total`, `match_sound_partial`, `match_subst_partial`, `match_subst_callable_partial`, `match_subst_ellipsis_partial`, `match_same_irrelevant`
* C38: `default_layout`, `default_size_exact`, `layoutSample_ok`
* C39: `parse_json_means`, `format_json_means`, `json_roundtrip_partial`, `json_negative_int64_violated`, `json_malformed_string_violated`
* C40: `validate_json_exact`, `validate_json_accepts_rfc`, `validate_json_lax_violated`, `skip_json_total`
* C41: `json_object_fields_partial`, `json_object_order_partial`, `json_object_missing_raises_partial`
* C42: `topo_sort_exact`, `buildEdges_spec`, `assign_ordered`, `dispatcher_ordered`, `assign_succeeds_iff`
* C43: `dispatch_most_specific`, `assign_succeeds_iff`
* C44: `memblock_allocations_good`, `memblock_alloc_total`
* C45: `zeroinit_resize_partial`, `pod_resize_partial`, `pod_resize_violated`, `zeroinit_resize_inplace_violated`
* C46: `elwise_result_kind_partial`
* C47: `masked_take_exact`
* C48: `indexed_take_exact`, `indexed_take_call_violation`, `indexed_take_result`
* C49: `binary_search_exact`
* C50: `range_exact`
* C51: `byteswap_reverses`, `byteswap_involution`, `pairswap_reverses`, `byteswap_value_reverses`
* C52: `reduction_fold_partial`, `reduction_fresh_partial`
* C53: `kernels_preserved`, `call_graph_walk`
* C54: `categorical_new_partial`, `categorical_presorted`, `factor_categorical_partial`
* C55: `permute_exact_partial`, `permute_invalid_throws`, `transpose_exact`, `rotate_exact`
* C56: `broadcast_to_shape_exact`
* C57: `broadcast_input_shapes_exact`, `incremental_broadcast_axis_exact`
* C58: `new_axis_exact`
* C60: `int_to_float_inexact_partial`, `int_to_float_inexact_violated`
* C61: `float_to_float_inexact`, `float_to_float_overflow`
* C62: `W128.sOfInt_exact`, `W128.uOfInt_exact_partial`, `W128.stoF64_violated`
* C63: `is_lossless_exact`
* C64: `nested_index_exact_partial`, `field_range_then_index_violated`, `field_index_exact`, `field_index_distinct`
* C65: `rejected_overload_partial`
* C66: `registration_order_partial`
* C67: `elwise_fixed_partial`, `elwise_fixed_given_partial`
* C68: `ragged_total_partial`, `ragged_rows_partial`
* C69: `datashape_parse_total_partial`, `datashape_depth_enough`, `datashape_long_number_violated`, `datashape_dim_wraps_violated`
* C70: `parse_json_wellformed_partial`, `parse_json_into_wellformed_partial`, `json_negative_int64_violated`
* C71: `error_position_exact`, `error_marker_points`, `error_position_end_violated`
* C72: `format_json_valid`, `format_json_valid_partial`, `format_json_complex_violated`, `format_json_special_violated`
* C73: `compare_int_exact_partial`, `compare_int_value`, `compare_int_safe_iff`, `compare_int_violated`, `compare_int_swap`, `compare_int_float_exact_partial`, `compare_int_float_value`, `compare_int_float_safe_iff`, `compare_int_float_sound`, `compare_int_float_violated`, `compare_float_int_swap`, `compare_float_exact`, `small_represented`, `widen_exact`
* C74: `arith_int_exact`, `arith_narrow_exact`, `minus_exact`, `bitwise_exact`, `bitwise_not_exact`, `right_shift_exact`, `left_shift_exact`, `left_shift_unsigned`, `left_shift_violated`
* C75: `divide_value`, `divide_exact_partial`, `divide_zero_violated`, `divide_min_violated`, `divide_float_violated`, `isQuotRem_unique`
* C76: `compound_add_exact`, `compound_add_no_overflow`, `compound_div_zero_violated`
* C77: `opt_add_partial`, `opt_add_violated`
* C78: `tuple_assign_positional_partial`, `struct_assign_by_name_partial`, `struct_assign_same_order`, `struct_assign_no_arrmeta`, `struct_assign_reordered_arrmeta_violated`, `run_jobs_exact`, `run_jobs_throw`, `record_assign_effect`
* C79: `record_compare_exact_partial`, `struct_equal_ignores_names_violated`, `record_equal_ignores_extra_violated`, `record_equal_fewer_fields_violated`, `record_equal_strided_violated`, `record_equal_second_arrmeta_violated`
* C80: `sum_exact`, `sum_overflow_violated`, `sum_wraps`, `min_float_partial`, `max_float_partial`, `min_float_infinite_violated`, `reduce_sum_min_max_partial`
* C81: `strided_iterator_positions`, `sort_float_partial`, `sort_nan_violated`
* C82: `compose_exact`, `compose_mem_exact`, `compose_mem_elements`, `compose_in_place`
* C83: `iter_one_exact`, `iter_write_read_partial`, `iter_write_read_raises`, `iter_read_read_partial`
* C84: `equals_exact_fixed_partial`, `equals_exact_var_partial`, `equals_exact_inner_var_violated`
* C85: `empty_like_dense`, `empty_like_order_partial`
* C87: `concatenate_exact_partial`, `concatenate_empty_violated`
* C88: `old_range_exact_partial`, `old_range_exact_small`
* C89: `old_view_exact`
* C90: `call_binding_sound`, `call_binding_complete`, `call_required_keywords_bound`, `call_keyword_order_irrelevant`, `call_ok_or_invalid`, `call_dst_hides_missing_keyword_violated`, `call_extra_positional_unchecked_violated`
* C91: `pointers_never_touch_freed`, `pointers_count_exact`, `pointers_no_leak`, `pointers_freed_once`, `view_shares_data`, `view_data_lives`, `view_data_fixed`, `self_assign_last_violated`, `assign_own_member_violated`
* C92: `threads_never_touch_freed`, `threads_held_live`, `threads_no_leak`, `threads_releases_finish`
* C93: `multi_shortvector_lifetime`
* C94: `new_axis_type_laws`, `array_replace_dtype_struct_violated`
* C95: `canonical_exact`
* C96: `substitute_shape_exact`
* C97: `outer_exact`, `outer_given_exact`, `outer_many_violated`, `outer_given_violated`
* C98: `where_exact_partial`, `where_one_dim`, `where_given_violated`
* C99: `nested_array_partial`, `nested_empty_violated`, `nested_ragged_violated`
* C101: `destroy_exact_partial`, `destroy_view`
* C103: `json_scalar_exact_partial`, `json_scalar_sound_partial`, `json_scalar_total`, `parseBool_exact`, `json_scalar_escape_violated`, `json_scalar_overflow_violated`
* C104: `complex_add_error`, `complex_sub_error`, `complex_mul_error`, `complex_scalar_error`, `complex_add_comm`, `complex_mul_comm`, `complex_sub_eq_add_neg`, `complex_sub_self`, `complex_conj_conj`, `complex_conj_add`, `complex_conj_mul`, `complex_mul_scalar_same`, `complex_add_scalar_same`, `complex_int_exact`, `rnd32_isRounding`, `rnd64_isRounding`
* C105: `complex_div_error`, `scalar_div_complex_error`, `complex_scalar_error`, `complex_div_self`, `complex_conj_div`, `complex_int_div_exact`, `complex_eq_exact`, `complex_assign_self`, `complex_ne_scalar_violated`, `complex_div_own_real_violated`, `complex_div_range_violated`
* C106: `format_type_exact_partial`, `format_array_exact_partial`, `shown_fits`, `shown_sharpens`, `format_names_violated`, `format_variadic_violated`, `format_symbolic_violated`
* C107: `registry_paths_partial`, `registry_paths_insert_partial`, `registry_paths_nested_violated`, `registry_paths_alias_violated`, `registry_dot_violated`
* C108: `nested_iter_array_exact`, `nested_iter_array_end`, `nested_iter_array_eq`, `allIdx_nodup`
* C109: `abi_alignment_exact`, `abi_alignment_divides`
* C110: `ragged_index_exact_partial`, `ragged_index_inside_partial`, `ragged_column_partial`, `ragged_column_unchecked`, `ragged_column_violated`
* C111: `print_rows_partial`, `print_grid_partial`, `print_defined_partial`, `print_words_unique_partial`, `shown_unique`, `printArray_text`, `printArray_unique`, `print_bytes_unique`, `print_two_eq`, `print_eight_violated`, `print_long_element_violated`, `print_comma_violated`, `print_option_violated`
* C112: `abi_threads_safe`, `abi_threads_count`, `abi_threads_released_once`, `abi_threads_no_leak`
* C113: `bool1_history_partial`, `bool1_arith_exact`, `bool1_add_violated`
* C115: `quad_of_double_exact`, `quad_of_half_exact`, `quad_class_exact`, `quad_less_exact`, `quad_less_eq_partial`, `quad_of_bool`, `quad_of_double_special_violated`, `quad_less_eq_violated`, `quad_of_int8_violated`, `quad_of_int16_violated`, `quad_of_int32_violated`, `quad_of_unsigned_violated`, `quad_of_int64_violated`
* C116: `sssp_exact`, `make_grid_exact`, `gridAdj_cells`, `grid_distance`, `sparse_example_exact`
* C117: `assign_table`, `assign_choice`, `assign_builds_right_partial`, `too_many_dims_rejected`, `size_mismatch_rejected`, `tuple_length_rejected`, `no_conversion_overflows`, `option_uint_rejected`, `fixed_bytes_never`, `fixed_string_from_int_wrong`, `pointer_never`, `option_string_never`, `array_of_bool_from_string_ub`, `option_int_in_tuple_wrong`, `overload_breaks_options`, `overload_breaks_option_int`
* C118: `arith_table`, `less_table`, `eq_table`, `arith_call_partial`, `less_call_partial`, `eq_call_partial`, `compare_undefined_rejected`, `operator_sizes_rejected`, `arith_undefined_overflow_violation`, `var_scalar_violation`, `eq_tuple_size_violation`, `eq_tuple_short_violation`, `eq_tuple_missing_violation`, `eq_tuple_dim_violation`, `eq_struct_names_violation`, `arith_overload_violation`
* C119: `unary_table`, `is_na_table`, `run_nested`, `unary_call_partial`, `unary_rejected`, `unary_operands`, `is_na_call_partial`, `is_na_rejected`, `lifted_call_partial`, `unary_leading_one`, `unary_one_var_violation`, `unary_optional_violation`, `unary_dst_type_violation`, `in_place_violation`, `is_na_option_array_violation`
* C120: `bcast_runs`, `op_arrays`, `arith_arrays_partial`, `less_arrays_partial`, `eq_arrays_partial`, `binary_leading_one_violation`, `binary_matrix_var_violation`, `binary_var_matrix_violation`, `binary_var_scalar_violation`
* C121: `copy_joint`, `assign_arrays_partial`, `assign_new_array_partial`, `fresh_ready`, `assign_leading_one_violation`, `assign_matrix_var_violation`, `assign_fixed_to_var_violation`
* C122: `masked_take_call_partial`, `takeLoop_ok`, `indexed_take_call_violation`, `indexed_take_result`, `masked_take_var_violation`, `take_var_mask_violation`
* C123: `reduce_call_partial`, `reduce_rows_partial`, `reduce_scalar_partial`, `reduce_int_partial`, `reduce_start_others`, `reduce_rejected`, `reduce_resolve`, `reduce_wide_violated`, `reduce_narrow_violated`, `reduce_outer_var_violated`, `reduce_kept_var_violated`
* C124: `sort_call_partial`, `sort_rejected`, `search_call_partial`, `search_rejected`, `sort_option_violated`, `sort_nans_violated`, `sort_backwards_violated`, `search_key_violated`, `category_lookup_violated`
* C125: `string_call_partial`, `string_element_partial`, `string_rejected`, `check_two`
* C126: `random_new_partial`, `random_into_partial`, `random_rejected`, `random_offset`, `random_bound_types`, `random_uint64_violated`, `random_bounds_violated`, `random_type_violated`
* C127: `field_by_name`, `field_unknown`, `field_of_scalar`, `field_copy_source`, `field_copy_violated`, `field_nul_violated`, `field_pointer_violated`
* C128: `serialize_call_partial`, `serialize_rows_partial`, `serialize_whole_partial`, `allBytes_inj`, `serialize_outer_var_violated`, `serialize_kept_var_violated`
* C129: `asarray_same`, `asarray_new_partial`, `asarray_convert_partial`, `asarray_rejected`, `asarray_again`, `asarray_admitted`, `asarray_symbolic_rejected`, `asarray_scalar_violated`
* C130: `assign_na_scalar`, `assign_na_then_is_na`, `assign_na_new`, `assign_na_rejected`, `assign_na_unsupported`, `assign_na_no_dst`, `assign_na_array_violated`, `assign_na_option_array_violated`
* C131: `limits_call`, `limits_rejected`, `limit_max_greatest`, `limit_min_least`

### PQ

* C02: `slice_throws_iff`, `slice_no_overflow`
* C03: `too_many_indices_never_ok`
* C06: `strides_to_axis_perm_ties_violated`, `strides_to_axis_perm_min_violated`
* C07: `multistrides_two_dim_tie_violated`
* C08: `axis_perm_to_strides_actual`
* C09: `f_contiguous_sound`, `rowRank_surj`
* C13: `encode_utf8_length`
* C15: `noerror_progress_partial`, `noerror_utf8_in_bounds`, `noerror_utf8_no_progress_violated`
* C18: `string_rfind_single_violated`
* C19: `string_count_adjacent_violated`
* C20: `string_concat_exact`
* C24: `parse_unsigned_exact`, `UIntText.unique`
* C25: `string_to_int64_violated`
* C30: `half_bool_violated`
* C31: `W128.subU64_violated`, `W128.addAssign_violated`
* C35: `promote_var_fixed_violated`
* C37: `tyEq_iff`, `dim_kind_forgets_bindings`
* C38: `default_size_overflow_violated`
* C39: `json_tuple_format_violated`, `json_unsigned_option_violated`
* C46: `elwise_var_fresh`, `elwise_var_existing`, `elwise_fixed_existing`, `elwise_var_order`
* C49: `strictWeak_int`, `strictWeak_lex`
* C57: `broadcast_shape_unique`
* C59: `classify_c_order`, `classify_rank2_exact_partial`
* C62: `W128.uOfInt_violated`
* C69: `shortNumbers_of_no_digit`
* C72: `format_json_digits`, `format_json_stuck_violated`
* C76: `compound_strided_exact`, `compound_strided_accumulates`
* C79: `record_equal_not_equal`
* C80: `min_int_exact`, `max_int_exact`, `all_exact`
* C81: `strided_iterator_negative_violated`, `sort_int_partial`
* C84: `equals_exact_var_length_violated`
* C85: `empty_like_negative_violated`, `empty_like_var_violated`
* C86: `reshape_contiguous_partial`, `reshape_total_raises`
* C89: `view_scalars_exact`
* C90: `call_keyword_type_checked`, `call_null_keyword_violated`, `call_variadic_keywords_refused_violated`
* C91: `pointer_not_equal_violated`
* C93: `shortvector_is_vector`, `shortvector_no_leak`, `shortvector_short_no_alloc`, `multi_shortvector_cells`, `shortvector_init_self_violated`
* C94: `get_dtype_exact`, `get_dtype_too_many`, `replaced_dtype_exact`, `replaced_dtype_laws`, `new_axis_type_exact`, `array_from_type`, `array_replace_dtype_exact`, `replaced_dtype_symbolic_violated`, `replaced_dtype_too_many_violated`
* C95: `canonical_fixed`
* C96: `substitute_shape_violated`
* C97: `outer_in_bounds`
* C98: `index_exact`, `index_leading_one_violated`
* C100: `readonly_kept_partial`, `readonly_start`, `readonly_copy`, `poke_checked`, `view_inherits`, `readonly_assign_violated`
* C101: `destroy_unfinished_violated`, `destroy_expression_violated`, `late_block_violated`
* C102: `id_forever`, `new_id_fresh`, `lookup_exact`, `register_exact`, `registered_name_parses`, `unknown_name`, `lookup_duplicate_violated`
* C107: `registered_exact`, `registered_total`, `registry_insert_exact`, `registry_observe_exact`, `registry_keeps`, `registry_noub`, `sorted_put`, `sorted_init`, `registry_dot_unreachable`
* C108: `mem_allIdx`, `nested_iter_flat_exact`, `nested_iter_rows_partial`, `nested_iter_vector_violated`
* C109: `abi_make_exact`, `abi_equal_exact`, `abi_history_exact`, `abi_last_reference_constructed`, `abi_last_reference_builtin`, `abi_part_not_referenced`, `abi_unary_drops`, `abi_unary_nothing`
* C112: `abi_threads_finish`, `abi_threads_happens_before`, `abi_fallback_leak_violated`, `abi_fallback_use_after_release_violated`
* C114: `built_single_exact`, `built_call_exact`, `built_strided_exact`, `cbInst_resolve`, `apply_elements`, `left_compound_accumulates`, `right_compound_accumulates`
* C116: `reversed_indices_ignored`
* C117: `handles_unique`
* C119: `lifted_rejected`, `unary_leading_one_violation`
* C120: `combine_swap`
* C125: `check_longest_first_partial`, `bcast_aligned`, `string_replace_violated`, `string_var_scalar_violated`
* C126: `random_symbolic`
* C128: `allBytes_element`

### none

* C02: `slice_huge_step_violated`
* C09: `type_c_contiguous_incomplete_violated`
* C10: `irange_ltL_violated`, `irange_gtL_violated`, `irange_le_max_violated`
* C31: `W128.unot_violated`
* C35: `promote_builtin_total`, `promote_comm_violated`
* C50: `range_zero_step`, `range_short_forms`, `range_overflow_violated`
* C68: `ragged_offset_violated`, `ragged_empty_violated`
* C74: `arith_uint16_mul_violated`
* C81: `sort_reversed_violated`
* C86: `reshape_slice_violated`, `reshape_bad_shape_violated`
* C88: `old_range_zero_step`, `old_range_min_step_violated`
* C89: `view_scalars_violated`
* C98: `where_two_dims_violated`
* C113: `bool1_avail`, `bool1_sub_violated`
* C115: `quad_operators_violated`
* C120: `bcast_swap`


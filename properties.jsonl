{"id": "C01", "title": "Single index resolves Python-style or throws", "statement": "Indexing a dimension of size n with an integer i (a.at(i), take by index) reads element i when 0<=i<n, element n+i when -n<=i<0, and otherwise raises index_out_of_bounds; it never yields an address outside the dimension.", "quantifier": "all index values i and all dimension sizes n representable in 64 bits", "why_tests_cant": "unbounded integer inputs on both sides of every boundary", "anchors": ["include/dynd/shape_tools.hpp: apply_single_index", "include/dynd/kernels/take_kernel.hpp: indexed_take_ck"]}
{"id": "C02", "title": "Slicing a dimension with irange selects exactly the requested in-bounds elements", "statement": "Applying an irange (start,finish,step) to a dimension of size n either throws irange_out_of_bounds/too-many-indices style errors or yields (start index, stride multiplier, new size) such that the j-th element of the result is element start'+j*step of the source, each such index lies in [0,n), and the selected set is exactly the arithmetic progression the irange denotes under the documented clamping rules.", "quantifier": "all dimension sizes and all 64-bit start/finish/step triples (with the step range for which the C++ arithmetic is defined)", "why_tests_cant": "four-way case split on sign/clamping over 64-bit integers; off-by-one errors only show for particular residues", "anchors": ["src/dynd/shape_tools.cpp: apply_single_linear_index", "include/dynd/irange.hpp: irange"]}
{"id": "C03", "title": "A sliced strided view addresses exactly the sliced elements of its parent, and slices compose", "statement": "After any sequence of irange/integer indexing steps on a strided array, every element of the resulting view is located at the address of the corresponding element of the original array, hence inside the original buffer; writing through the view changes exactly those elements.", "quantifier": "all shapes, strides, element sizes, and all finite sequences of index operations", "why_tests_cant": "unbounded nesting and arbitrary (also negative and zero) strides", "anchors": ["src/dynd/types/fixed_dim_type.cpp: apply_linear_index", "src/dynd/shape_tools.cpp: apply_single_linear_index"]}
{"id": "C04", "title": "Broadcast compatibility test is exactly the right-aligned size-1-or-equal rule", "statement": "shape_can_broadcast(dst, src) is true iff src has no more dimensions than dst and, aligned at the right, every src dimension equals the dst dimension or is 1.", "quantifier": "all pairs of shapes of any rank", "why_tests_cant": "unbounded rank and sizes", "anchors": ["src/dynd/shape_tools.cpp: shape_can_broadcast"]}
{"id": "C05", "title": "Permutation validity test is exact", "statement": "is_valid_perm(n, perm) accepts exactly the permutations of 0..n-1 and never touches memory outside its flag buffer for entries it accepts or rejects.", "quantifier": "all n and all integer arrays of length n", "why_tests_cant": "n! accepted inputs among infinitely many candidates", "anchors": ["include/dynd/shape_tools.hpp: is_valid_perm"]}
{"id": "C06", "title": "Axis ordering derived from strides is a permutation sorted by stride", "statement": "strides_to_axis_perm returns, for any strides, a permutation of the axes along which the absolute strides are non-decreasing (fastest axis first), with C order kept for ties; the hand-unrolled 0..3-dimensional code agrees with the general sort.", "quantifier": "all ranks and all strides (excluding INT64_MIN whose negation is undefined)", "why_tests_cant": "hand-coded case trees; unbounded rank", "anchors": ["src/dynd/shape_tools.cpp: strides_to_axis_perm"]}
{"id": "C07", "title": "Multi-operand axis ordering is always a permutation", "statement": "multistrides_to_axis_perm returns a permutation of the axes for every set of operand strides, even when operands disagree, and never moves an axis when every comparison is ambiguous (C order preserved).", "quantifier": "all operand counts, ranks and strides", "why_tests_cant": "insertion sort driven by a non-transitive comparison; only induction covers all comparisons", "anchors": ["src/dynd/shape_tools.cpp: multistrides_to_axis_perm, compare_strides"]}
{"id": "C08", "title": "Allocating with a memory layout order gives non-overlapping in-bounds elements", "statement": "The strides computed from a shape and an axis permutation (axis_perm_to_strides) place distinct elements at distinct addresses inside the allocated block.", "quantifier": "all shapes, element sizes and axis permutations", "why_tests_cant": "unbounded rank/sizes", "anchors": ["src/dynd/shape_tools.cpp: axis_perm_to_strides"]}
{"id": "C09", "title": "C-/Fortran-contiguity tests are sound and complete", "statement": "strides_are_c_contiguous answers true only if the element with multi-index (i0,..,ik) is at offset elsize * (row-major rank of the index), so the data is one dense run; it is true for default row-major strides of any shape; dimensions of size 1 (or empty arrays) do not cause a wrong 'true'. Likewise strides_are_f_contiguous for column-major order.", "quantifier": "all shapes, strides and element sizes", "why_tests_cant": "unbounded rank; degenerate dimensions", "anchors": ["include/dynd/shape_tools.hpp: strides_are_c_contiguous, strides_are_f_contiguous"]}
{"id": "C10", "title": "irange expression algebra", "statement": "Ranges built with the operators (a<=irange()<b, irange()/step, .by) denote the index sets the notation suggests; in particular irange()<=last and irange()>=last include `last` and the sentinels for 'unbounded' are used exactly when the bound is the last element.", "quantifier": "all 64-bit bounds", "why_tests_cant": "sentinel handling at extreme values", "anchors": ["include/dynd/irange.hpp"]}
{"id": "C11", "title": "UTF-8 encode then decode is the identity", "statement": "For every Unicode scalar value, appending it with the UTF-8 encoder and decoding the produced bytes returns the same code point and consumes exactly the bytes written, whatever bytes follow.", "quantifier": "all 1,112,064 scalar values and all suffixes", "why_tests_cant": "boundary code points and arbitrary trailing data", "anchors": ["src/dynd/string_encodings.cpp: append_utf8, next_utf8", "thirdparty/utf8/source/utf8/checked.h"]}
{"id": "C12", "title": "UTF-8 decoder accepts only well-formed sequences and stays in bounds", "statement": "Decoding at any position of any byte string either throws (leaving no out-of-bounds read) or returns a scalar value (never a surrogate, never above 0x10FFFF) whose canonical encoding is exactly the bytes consumed; overlong forms are rejected.", "quantifier": "all finite byte strings and start positions", "why_tests_cant": "256^n inputs", "anchors": ["src/dynd/string_encodings.cpp: next_utf8", "thirdparty/utf8/source/utf8/core.h: validate_next"]}
{"id": "C13", "title": "UTF-16 / UCS-2 / UTF-32 / ASCII codecs round trip and reject invalid units", "statement": "For each fixed encoding, append followed by next is the identity on the code points that encoding can represent; code points it cannot represent raise string_encode_error; lone surrogates raise string_decode_error.", "quantifier": "all code points, all encodings, all buffers", "why_tests_cant": "surrogate arithmetic and buffer-boundary conditions", "anchors": ["src/dynd/string_encodings.cpp: append_*/next_*"]}
{"id": "C14", "title": "Transcoding a string preserves its code points, or throws", "statement": "Assigning a string in encoding A to a string type of encoding B produces text with the same sequence of code points, and converting back gives the original; if some code point is not representable the assignment raises instead of altering the text.", "quantifier": "all strings, all encoding pairs", "why_tests_cant": "unbounded strings; buffer growth in the middle of a conversion", "anchors": ["src/dynd/string_encodings.cpp", "include/dynd/kernels/assignment_kernels.hpp: fixed_string/string assignment"]}
{"id": "C15", "title": "Unchecked decoding always terminates and stays in bounds", "statement": "The nocheck decoders used by printing and JSON output make progress on every input and never read past the end of the string.", "quantifier": "all byte strings, including malformed ones", "why_tests_cant": "malformed inputs are unbounded", "anchors": ["src/dynd/string_encodings.cpp: noerror_next_utf8, noerror_next_utf16"]}
{"id": "C16", "title": "Escaped printing of a string can be read back", "statement": "Printing a string as a quoted escaped literal and unescaping that literal yields the original code points.", "quantifier": "all finite sequences of Unicode scalar values", "why_tests_cant": "unbounded strings, every control/quote/backslash/astral character", "anchors": ["src/dynd/string_encodings.cpp: print_escaped_utf8_string, print_escaped_unicode_codepoint", "src/dynd/parse_util.cpp: unescape_string, parse_doublequote_string_no_ws, datashape::parse_quoted_string"]}
{"id": "C17", "title": "string_find returns the first occurrence", "statement": "string_find(h, n) for a non-empty n is the least byte offset at which n occurs in h, and -1 iff n does not occur; no byte outside either string is read.", "quantifier": "all haystacks and needles", "why_tests_cant": "skip-table search: errors appear only for particular repetitive patterns", "anchors": ["include/dynd/string_search.hpp: string_search, string_search_1char", "include/dynd/string.hpp: string_find, string_contains"]}
{"id": "C18", "title": "string_rfind returns the last occurrence", "statement": "string_rfind(h, n) for a non-empty n is the greatest byte offset at which n occurs in h, and -1 iff n does not occur.", "quantifier": "all haystacks and needles", "why_tests_cant": "same as string_find, in reverse", "anchors": ["include/dynd/string_search.hpp: string_search_reverse, string_search_1char_reverse"]}
{"id": "C19", "title": "string_count counts the non-overlapping left-to-right occurrences, and string_replace replaces exactly those", "statement": "string_count(h,n) equals the number of non-overlapping occurrences found scanning left to right, and string_replace(h,old,new) is h with exactly those occurrences replaced.", "quantifier": "all strings", "why_tests_cant": "depends on skip distance after a match; unbounded patterns", "anchors": ["include/dynd/string_search.hpp: string_search", "include/dynd/string.hpp: string_count, string_replace"]}
{"id": "C20", "title": "startswith / endswith / concat are exact", "statement": "string_startswith(s,t) iff t is a prefix of s; string_endswith iff suffix; string_concat is list concatenation for any number of operands.", "quantifier": "all strings and operand counts", "why_tests_cant": "unbounded inputs", "anchors": ["include/dynd/string.hpp: string_startswith, string_endswith, string_concat"]}
{"id": "C21", "title": "Byte/char strings with small-string optimisation behave like a byte sequence under any operation history", "statement": "Any sequence of construct/assign/copy/move/clear/reserve/resize/append on nd::bytes or nd::string leaves size() and contents equal to those of a plain byte list subjected to the same operations, with the heap/SSO representation unobservable.", "quantifier": "all operation histories and all sizes", "why_tests_cant": "histories crossing the SSO boundary in every direction", "anchors": ["include/dynd/types/sso_bytestring.hpp"]}
{"id": "C22", "title": "Assignment into a fixed-size string either preserves the text (NUL padded) or raises", "statement": "Assigning a string to fixed_string[N] stores its code points followed by zero padding up to N units when it fits; when it does not fit, a checked assignment raises and never writes beyond N units.", "quantifier": "all strings, encodings, N", "why_tests_cant": "unbounded strings and boundary at exactly N units with multi-unit characters", "anchors": ["include/dynd/kernels/assignment_kernels.hpp: fixed_string assignment kernels"]}
{"id": "C23", "title": "Checked integer assignment is exact or raises", "statement": "Assigning between any two builtin integer types (8..64 bit, signed/unsigned) with an error mode other than nocheck stores exactly the mathematical source value or raises an overflow error, and raises only if the value is not representable.", "quantifier": "all source values, all 64 type pairs", "why_tests_cant": "2^64 values per pair, sign/width mixtures", "anchors": ["include/dynd/parse_util.hpp: is_overflow", "include/dynd/assignment.hpp: overflow_cast", "include/dynd/kernels/assignment_kernels.hpp"]}
{"id": "C24", "title": "Parsing an unsigned integer returns its value or raises", "statement": "Parsing a decimal digit string as an unsigned integer type returns the exact value if representable and raises an overflow error otherwise.", "quantifier": "all digit strings of any length, all widths", "why_tests_cant": "unbounded digit strings; wrap-around detection", "anchors": ["include/dynd/parse_util.hpp: parse<T> (unsigned, checked)"]}
{"id": "C25", "title": "Parsing a signed integer returns its value or raises", "statement": "Converting a string with optional leading '-' to a signed integer type returns the exact value (including the most negative value) or raises.", "quantifier": "all strings, widths", "why_tests_cant": "asymmetric range limits", "anchors": ["include/dynd/parse_util.hpp: parse<T> (signed), overflow_check", "include/dynd/kernels/assignment_kernels.hpp: string to signed int"]}
{"id": "C26", "title": "Printed integers parse back", "statement": "Formatting an integer in decimal and parsing it back yields the same value, for every builtin integer type.", "quantifier": "all values of all integer types", "why_tests_cant": "2^64 values", "anchors": ["include/dynd/parse_util.hpp", "src/dynd/json_formatter.cpp"]}
{"id": "C27", "title": "Checked float-to-integer assignment never invokes undefined conversion", "statement": "Assigning a floating-point value to an integer type with overflow checking stores the value truncated toward zero if the value lies within the limits of the type, and raises otherwise; with fractional checking it stores the value if it is an integer within the limits and raises otherwise - for every float including NaN, infinities and values at the limits. A bool target accepts exactly 0 and 1; a complex source with a non-zero imaginary part raises.", "quantifier": "all float32/float64 values, all integer targets", "why_tests_cant": "boundary values rounded by the float representation of INT_MAX", "anchors": ["include/dynd/assignment.hpp: overflow_cast, fractional_cast"]}
{"id": "C28", "title": "Half-precision values survive a round trip through float32/float64", "statement": "Converting any float16 bit pattern to float32 (or float64) and back returns the same bits, and the widened value denotes the same real number.", "quantifier": "all 65536 bit patterns", "why_tests_cant": "subnormals, NaN payloads, signed zero - exhaustively", "anchors": ["src/dynd/float16.cpp: halfbits_to_float, float_to_halfbits, halfbits_to_double, double_to_halfbits"]}
{"id": "C29", "title": "float32/float64 to float16 conversion rounds to nearest-even or raises", "statement": "For every finite float whose magnitude lies in float16's normal range the conversion result is the nearest float16, ties to even; underflow is exact or raises; overflow yields infinity or raises.", "quantifier": "all 2^32 / 2^64 bit patterns", "why_tests_cant": "2^64 inputs", "anchors": ["src/dynd/float16.cpp: float_to_halfbits, double_to_halfbits"]}
{"id": "C30", "title": "Half-precision comparisons agree with the numeric order", "statement": "less_nonan/less_equal_nonan on non-NaN halves agree with the order of the real values they denote; truth value of a half is 'non-zero'.", "quantifier": "all pairs of float16 bit patterns", "why_tests_cant": "2^32 pairs", "anchors": ["include/dynd/float16.hpp"]}
{"id": "C31", "title": "128-bit integer addition, subtraction, negation and comparison are exact modulo 2^128", "statement": "int128/uint128 +, -, unary -, +=, ~, comparisons compute the two's-complement result modulo 2^128.", "quantifier": "all pairs of 128-bit values", "why_tests_cant": "2^256 pairs; carry/borrow corner cases", "anchors": ["include/dynd/int128.hpp", "include/dynd/uint128.hpp"]}
{"id": "C32", "title": "128-bit multiplication/division by 32-bit and decimal printing are exact", "statement": "uint128 * uint32, / uint32, divrem and operator<< compute the exact product mod 2^128, quotient, remainder and decimal digits.", "quantifier": "all 128-bit values and 32-bit operands", "why_tests_cant": "2^160 pairs", "anchors": ["src/dynd/uint128.cpp", "src/dynd/int128.cpp"]}
{"id": "C33", "title": "Missing values: assign_na makes is_avail false, ordinary values stay available", "statement": "After assigning NA to an option value of any supported value type, is_na is true; after assigning an ordinary value other than the reserved NA pattern, is_na is false and the value reads back.", "quantifier": "all option value types, all values", "why_tests_cant": "sentinel collisions across whole value ranges", "anchors": ["include/dynd/kernels/is_na_kernel.hpp", "include/dynd/kernels/assign_na_kernel.hpp"]}
{"id": "C34", "title": "Option assignment over strided data maps each element independently", "statement": "Assigning a strided run of option values copies each available value and propagates each NA to the same position, for any count; assigning option to non-option raises if any element is NA.", "quantifier": "all counts, strides and NA patterns", "why_tests_cant": "chunked loop: behaviour beyond the chunk size needs induction", "anchors": ["include/dynd/kernels/assignment_kernels.hpp: option_to_option_ck, option_to_value_ck"]}
{"id": "C35", "title": "Arithmetic type promotion is order independent and lossless", "statement": "The promoted type of (a,b) equals that of (b,a), and every value of either operand type is representable in the promoted type.", "quantifier": "all pairs of builtin types", "why_tests_cant": "19x19 table with hand-written cases, plus option/dim recursion", "anchors": ["src/dynd/type_promotion.cpp: promote_types_arithmetic"]}
{"id": "C36", "title": "Datashape text of a type parses back to the same type", "statement": "For every type built from builtin scalars, fixed/var dims, option, pointer, tuple, struct, function, string, bytes, typevars and ellipsis, parsing the printed datashape yields an equal type.", "quantifier": "all types of any nesting depth, all field names", "why_tests_cant": "infinitely many types; quoting of field names", "anchors": ["src/dynd/types/datashape_parser.cpp", "src/dynd/types/*_type.cpp: print_type"]}
{"id": "C37", "title": "Concrete types match only themselves; type-variable matches are consistent", "statement": "A pattern without type variables matches a concrete type iff they are equal up to the documented kinds; when a pattern with type variables matches, substituting the bound variables in the pattern gives back the candidate, and repeated variables are bound to equal types.", "quantifier": "all pattern/candidate type pairs of any depth", "why_tests_cant": "infinitely many types", "anchors": ["src/dynd/types/*_type.cpp: match", "src/dynd/types/substitute_typevars.cpp"]}
{"id": "C38", "title": "Struct/tuple fields are aligned, disjoint and inside the data size", "statement": "Default field offsets of a tuple/struct are multiples of each field's alignment, non-overlapping, in increasing order, and the last field ends within the struct's data size, which is a multiple of its alignment.", "quantifier": "all field lists (any count, sizes, alignments)", "why_tests_cant": "unbounded field lists", "anchors": ["include/dynd/types/tuple_type.hpp: fill_default_data_offsets", "src/dynd/types/tuple_type.cpp: get_default_data_size", "include/dynd/type.hpp: inc_to_alignment"]}
{"id": "C39", "title": "JSON output of an array parses back to the same array", "statement": "parse_json(type, format_json(a)) equals a for arrays built from bool, integers, strings, options, tuples/structs, fixed and var dimensions.", "quantifier": "all values of all such types", "why_tests_cant": "unbounded nesting and contents", "anchors": ["src/dynd/json_formatter.cpp", "src/dynd/json_parser.cpp"]}
{"id": "C40", "title": "validate_json accepts exactly JSON documents it can skip, and never reads past the end", "statement": "validate_json accepts every document of the JSON grammar, every accepted text is one grammatical value surrounded by whitespace, and on malformed or truncated input it raises without reading beyond the end.", "quantifier": "all byte strings", "why_tests_cant": "all truncations and nestings", "anchors": ["src/dynd/json_parser.cpp: skip_json_value, validate_json"]}
{"id": "C41", "title": "Parsing a JSON object into a struct fills each field exactly as given", "statement": "For an object literal, each struct field receives the value under its name irrespective of the order of keys; unknown keys are ignored; a missing optional field becomes NA; a missing required field raises.", "quantifier": "all key orders, all field sets", "why_tests_cant": "factorially many key orders", "anchors": ["src/dynd/json_parser.cpp: parse_struct_json_from_object"]}
{"id": "C42", "title": "Overload ordering is a topological order", "statement": "The dispatcher's sorted overload list is a permutation of the registered overloads in which every strictly more specific signature precedes the less specific ones; a cyclic relation raises.", "quantifier": "all finite overload sets and supersede relations", "why_tests_cant": "unbounded graphs", "anchors": ["include/dynd/dispatcher.hpp: topological_sort"]}
{"id": "C43", "title": "Multiple dispatch selects a most specific matching overload", "statement": "When some registered signature matches the argument types, the call goes to a matching signature that no other matching signature strictly supersedes; when none matches it raises.", "quantifier": "all overload sets and argument types", "why_tests_cant": "interaction of ordering, caching and linear search", "anchors": ["include/dynd/dispatcher.hpp: dispatcher::operator()"]}
{"id": "C44", "title": "Memory-block allocations are aligned, disjoint and stay valid", "statement": "Every allocation returned by a pod/zeroinit memory block is aligned, lies inside memory owned by the block, and overlaps no earlier live allocation, for any sequence of alloc requests.", "quantifier": "all allocation histories, sizes, alignments", "why_tests_cant": "unbounded histories; chunk-boundary effects", "anchors": ["include/dynd/memblock/pod_memory_block.hpp: alloc", "include/dynd/memblock/zeroinit_memory_block.hpp: alloc"]}
{"id": "C45", "title": "Resizing the last allocation preserves its contents; zero-initialised blocks hand out zeros", "statement": "resize on the most recent allocation keeps the first min(old,new) bytes and leaves other allocations untouched; a zeroinit/objectarray block returns memory whose new part is zero.", "quantifier": "all histories of alloc/resize with data writes", "why_tests_cant": "only histories that exhaust a chunk reach the copy path", "anchors": ["include/dynd/memblock/pod_memory_block.hpp: resize", "include/dynd/memblock/zeroinit_memory_block.hpp: resize", "include/dynd/memblock/objectarray_memory_block.hpp: resize"]}
{"id": "C46", "title": "Elementwise application broadcasts variable dimensions by the broadcasting rule", "statement": "Applying an elementwise function to operands whose dimension sizes are known only at run time yields the broadcast size (common size with 1s stretched) and element i combines element i (or 0 for size 1) of each operand; incompatible sizes raise; the result does not depend on operand order.", "quantifier": "all operand counts and sizes", "why_tests_cant": "unbounded operand lists, zero-size operands", "anchors": ["include/dynd/kernels/elwise_kernel.hpp"]}
{"id": "C47", "title": "Boolean-mask take returns exactly the masked elements in order", "statement": "For an array and a mask of fixed size, take(a, mask) returns the subsequence of elements whose mask entry is true, in order, and refuses a mask of another size; the selection loop never leaves the arrays.", "quantifier": "all lengths, masks and element values", "why_tests_cant": "run-length loop over 2^n masks", "anchors": ["include/dynd/kernels/take_kernel.hpp: masked_take_ck"]}
{"id": "C48", "title": "Index take gathers the requested elements or raises", "statement": "take(a, idx) returns [a[i] for i in idx] with Python negative indices, raising on the first out-of-range index.", "quantifier": "all index lists", "why_tests_cant": "unbounded lists", "anchors": ["include/dynd/kernels/take_kernel.hpp: indexed_take_ck"]}
{"id": "C49", "title": "binary_search finds an element iff present", "statement": "On an array sorted with respect to the total order, binary_search returns an index holding an element equivalent to the key if one exists and -1 otherwise, and terminates on every array.", "quantifier": "all arrays and keys, any strict weak order", "why_tests_cant": "unbounded arrays", "anchors": ["include/dynd/kernels/binary_search_kernel.hpp"]}
{"id": "C50", "title": "Integer range has exactly the elements start+k*step before stop", "statement": "nd::range(start, stop, step) for integer types has as elements exactly start+k*step for k=0.. while strictly before stop (in the direction of step), and raises for step 0.", "quantifier": "all start/stop/step whose arithmetic does not overflow", "why_tests_cant": "all residues and signs", "anchors": ["include/dynd/callables/range_callable.hpp", "include/dynd/kernels/range_kernel.hpp"]}
{"id": "C51", "title": "Byte swapping is an involution, in place or copying", "statement": "byteswap reverses the bytes of each element; the in-place and out-of-place paths agree; applying it twice restores the data; pairwise byteswap does the same to each half; byteswap_value agrees with byte reversal.", "quantifier": "all element sizes and contents", "why_tests_cant": "all sizes incl. odd ones", "anchors": ["include/dynd/kernels/byteswap_kernels.hpp"]}
{"id": "C52", "title": "A reduction along axes equals the fold of the elements along those axes", "statement": "Reducing a strided array over a set of axes with an operation and identity yields, at each output position, the left fold (in row-major order) over the reduced elements, with or without keepdims, reading and writing only in-bounds elements, also for empty dimensions.", "quantifier": "all ranks, shapes, strides, axis sets, operations", "why_tests_cant": "hierarchical kernels: unbounded rank and axis subsets", "anchors": ["include/dynd/kernels/reduction_kernel.hpp", "include/dynd/callables/base_reduction_callable.hpp"]}
{"id": "C53", "title": "Growing the kernel buffer preserves already-built kernels", "statement": "Appending kernels to a kernel builder keeps previously built kernels' contents, gives each kernel an aligned, disjoint slot, and never writes past the capacity, for every sequence of sizes.", "quantifier": "all sequences of kernel sizes", "why_tests_cant": "realloc only on particular size sequences", "anchors": ["include/dynd/storagebuf.hpp", "include/dynd/kernels/kernel_builder.hpp", "include/dynd/callables/call_graph.hpp"]}
{"id": "C54", "title": "Categorical values and category codes are in bijection", "statement": "For a categorical type built from distinct categories, encoding a category gives a code below the count that decodes to the same category; unknown categories raise; duplicates are rejected; the storage integer can hold all codes.", "quantifier": "all category lists and total orders", "why_tests_cant": "permutation/inverse-permutation bookkeeping", "anchors": ["src/dynd/types/categorical_type.cpp"]}
{"id": "C55", "title": "Permuting, transposing or rotating a view keeps every element", "statement": "a.permute(axes) yields a view whose element at the permuted multi-index is the parent's element at the original multi-index; transpose reverses and rotate cycles the axes the same way; an axis list that is not a permutation raises.", "quantifier": "all ranks, shapes, strides and axis lists", "why_tests_cant": "every permutation at every rank", "anchors": ["src/dynd/array.cpp: permute, permute_type_dims, transpose, rotate"]}
{"id": "C56", "title": "Broadcasting an operand to a shape addresses the stretched element", "statement": "Broadcasting a strided operand to a target shape gives strides under which every target multi-index addresses the operand element at the right-aligned index with size-1 dimensions pinned to 0; an incompatible shape raises.", "quantifier": "all ranks, shapes, strides", "why_tests_cant": "all combinations of ranks and sizes", "anchors": ["src/dynd/array.cpp: broadcast_to_shape"]}
{"id": "C57", "title": "The broadcast shape of several operands is the least common one", "statement": "Broadcasting the shapes of several operands yields, for each right-aligned axis, the common size where 1 stretches, is compatible with every operand, is unique, independent of operand order, and raises exactly when two sizes other than 1 disagree.", "quantifier": "any number of operands of any rank", "why_tests_cant": "folds over unboundedly many operands", "anchors": ["src/dynd/array.cpp: broadcast_input_shapes, incremental_broadcast"]}
{"id": "C58", "title": "Inserting a new axis keeps every element", "statement": "a.new_axis(i, n) inserts size-1 dimensions at position i; every element of the result is the parent's element with those indices dropped.", "quantifier": "all ranks, positions, counts", "why_tests_cant": "all positions at all ranks", "anchors": ["src/dynd/array.cpp: new_axis"]}
{"id": "C59", "title": "Axis-order classification is exact", "statement": "Classifying a strided operand as C order / Fortran order / neither is correct: the answer 'C order' is given exactly when absolute strides are non-increasing, 'F order' when they are non-decreasing, over the axes of size above 1.", "quantifier": "all ranks, shapes, strides", "why_tests_cant": "all stride patterns", "anchors": ["src/dynd/shape_tools.cpp: classify_strided_axis_order", "src/dynd/types/fixed_dim_type.cpp: classify_axis_order"]}
{"id": "C60", "title": "Inexact-checked integer-to-float assignment is exact or raises", "statement": "Assigning an integer to float32/float64 with inexact checking stores exactly that integer when the format can represent it and raises otherwise, for every value of every integer type.", "quantifier": "all integer types up to 64 bits, all values, both formats", "why_tests_cant": "2^64 values; the interesting ones are near powers of two", "anchors": ["include/dynd/assignment.hpp: check_cast(ArgType, inexact_check_t)"]}
{"id": "C61", "title": "Checked float-to-float assignment is exact, nearest or raises", "statement": "Assigning between float32 and float64 with inexact checking stores an equal value when the target has one and raises otherwise (NaN raises, infinities are kept); with overflow checking a finite value beyond the largest target value raises and any other is stored as a nearest target value.", "quantifier": "all bit patterns, all pairs of formats", "why_tests_cant": "2^64 bit patterns", "anchors": ["include/dynd/assignment.hpp: overflow_cast, check_cast"]}
{"id": "C62", "title": "Conversions into and out of 128-bit integers preserve the value", "statement": "Converting a builtin integer to int128 (or a non-negative one to uint128) gives the same number, a negative one to uint128 its value modulo 2^128, and converting int128 to double keeps the sign.", "quantifier": "all 64-bit values, all int128 values", "why_tests_cant": "unbounded value space; sign extension bugs hide at the top bit", "anchors": ["include/dynd/int128.hpp", "include/dynd/uint128.hpp"]}
{"id": "C63", "title": "The lossless-assignment test is exact", "statement": "is_lossless_assignment(dst, src) between builtin numeric types answers true exactly when every value of src is representable in dst.", "quantifier": "all pairs of builtin numeric types, all values", "why_tests_cant": "quantifies over all values of 128-bit integer and float types", "anchors": ["src/dynd/type.cpp: is_lossless_assignment"]}
{"id": "C64", "title": "Indexing nested arrays of tuples and structs addresses exactly the designated scalars", "statement": "Indexing an array built from fixed dimensions, tuples and structs with any list of integer indices and ranges yields a view whose scalars are exactly those Python's a[i, j:k, ...] designates (fields counted as positions), at their original addresses; looking a field up by name finds the first field of that name.", "quantifier": "all nested types, arrmeta, index lists", "why_tests_cant": "Nesting depth, numbers of fields and index combinations are unbounded; tests only index a few shapes.", "anchors": ["src/dynd/types/tuple_type.cpp:103-184", "src/dynd/types/struct_type.cpp:193-282 apply_linear_index", "src/dynd/types/struct_type.cpp:28-35 get_field_index", "src/dynd/types/fixed_dim_type.cpp:73-142"]}
{"id": "C65", "title": "A rejected overload leaves the overload set intact", "statement": "When registering an overload raises because it is ambiguous with existing ones, every later call and registration behaves as if the registration had not been attempted.", "quantifier": "all overload sets, rejected overloads, later argument types", "why_tests_cant": "Quantifies over all failed registrations and all subsequent calls.", "anchors": ["include/dynd/dispatcher.hpp:176-241 assign, insert", "include/dynd/dispatcher.hpp:254-289 operator()"]}
{"id": "C66", "title": "Overload selection does not depend on registration order", "statement": "If two dispatchers hold the same overloads registered in different orders, a call selects equivalent signatures in both (the ambiguity check guarantees a best choice).", "quantifier": "all overload sets, registration orders and arguments", "why_tests_cant": "All permutations of all overload sets.", "anchors": ["include/dynd/dispatcher.hpp:176-229 assign, ambiguous", "include/dynd/dispatcher.hpp:254-289 operator()"]}
{"id": "C67", "title": "Elementwise application over fixed-dimension arrays of any rank follows the broadcasting rule", "statement": "Applying a scalar function elementwise to arrays with fixed dimensions produces an array of the shape given by the broadcasting rule (right-aligned, size-1 dimensions stretched), or fills a given destination all operands broadcast to, calling the function exactly once per result element on the operand elements the rule prescribes; incompatible shapes raise.", "quantifier": "all numbers of operands, ranks, shapes, strides", "why_tests_cant": "nested kernels of unbounded depth; the number of combinations of ranks and stretched dimensions is unbounded", "anchors": ["include/dynd/callables/base_elwise_callable.hpp", "include/dynd/callables/elwise_callable.hpp", "include/dynd/callables/elwise_entry_callable.hpp", "include/dynd/kernels/elwise_kernel.hpp"]}
{"id": "C68", "title": "Reducing a ragged array folds exactly the elements of each row", "statement": "Reducing the variable dimension of an array of N variable-length rows yields for each row the left fold of its elements starting from the identity (the identity for an empty row); reducing both dimensions folds all elements of all rows in order; nothing else is written.", "quantifier": "all row counts, row lengths, strides, operations", "why_tests_cant": "unbounded rows and row lengths", "anchors": ["include/dynd/kernels/reduction_kernel.hpp: reduction_kernel<var_dim_type,...>", "include/dynd/callables/base_reduction_callable.hpp"]}
{"id": "C69", "title": "Reading a type description always ends", "statement": "For every text, constructing a type from it ends with a type or a C++ exception: no undefined behaviour, no endless loop, whatever bytes the text contains.", "quantifier": "all texts of any length and nesting", "why_tests_cant": "infinitely many texts; malformed ones are the interesting ones", "anchors": ["src/dynd/types/datashape_parser.cpp: type_from_datashape, parse_top, parse_stmt, parse, parse_datashape_nooption, parse_struct, parse_tuple_or_funcproto, parse_funcproto_kwds", "src/dynd/parse_util.cpp: parse_quoted_string, parse_name_no_ws"]}
{"id": "C70", "title": "Reading JSON into any type ends with a complete, well-formed value or an exception", "statement": "For every byte string, parse_json into a type built from bool, integers, strings, options, structs, tuples, fixed and var dimensions either raises or yields a value of that type: booleans 0/1 (or missing), integers in range, strings well-formed UTF-8, every field and element written; it never accesses memory outside the text or the array and always ends. The same when reading into an array that already holds a value.", "quantifier": "all byte strings, all such types, any nesting", "why_tests_cant": "malformed, truncated and adversarial inputs of unbounded length; memory growth depends on the element count", "anchors": ["src/dynd/json_parser.cpp: parse_json, parse_strided_dim_json, parse_var_dim_json, parse_struct_json_from_object, parse_tuple_json_from_list, parse_option_json", "include/dynd/parse_util.hpp: parse_number_json, string_to_number"]}
{"id": "C71", "title": "JSON errors are reported at the right line and column", "statement": "For an error at any position of a text the exception names the line (1 + the number of newlines before it) and the column (1 + the characters since the last newline), quotes that line and the one before, and prints a caret under the offending character.", "quantifier": "all texts, all positions", "why_tests_cant": "lines of unbounded number and length; abbreviated display of long lines", "anchors": ["src/dynd/json_parser.cpp: get_error_line_column, print_json_parse_error_marker"]}
{"id": "C72", "title": "format_json writes valid JSON", "statement": "Whatever the array contains, the text format_json produces is one JSON value in the sense of RFC 8259, accepted by validate_json, whatever characters its strings and field names contain, and regardless of how often the output buffer had to grow.", "quantifier": "all values, types, string contents and both struct styles", "why_tests_cant": "unbounded nesting and contents; buffer growth depends on the total length", "anchors": ["src/dynd/json_formatter.cpp: format_json, print_escaped_unicode_codepoint, output_data::ensure_capacity"]}
{"id": "C73", "title": "Comparisons of numbers follow the numbers", "statement": "equal, not_equal, less, less_equal, greater and greater_equal on builtin integers and floats of any two types answer what the mathematical comparison of the two values answers (NaN unordered, infinities beyond all numbers).", "quantifier": "all pairs of types, all pairs of values", "why_tests_cant": "2^128 pairs of values for each pair of types; the wrong answers are at the conversions", "anchors": ["include/dynd/kernels/equal_kernel.hpp", "include/dynd/kernels/not_equal_kernel.hpp", "include/dynd/kernels/less_kernel.hpp", "include/dynd/kernels/less_equal_kernel.hpp", "include/dynd/kernels/greater_kernel.hpp", "include/dynd/kernels/greater_equal_kernel.hpp", "include/dynd/comparison_common.hpp"]}
{"id": "C74", "title": "Integer arithmetic is exact or wraps as documented", "statement": "add, subtract, multiply, minus, the bitwise operations and the shifts on integers of any two types give the exact result when it fits the result type, the value modulo 2^width for unsigned result types, and never undefined behaviour.", "quantifier": "all pairs of integer types, all pairs of values", "why_tests_cant": "2^128 pairs of values for each of 64 pairs of types", "anchors": ["include/dynd/kernels/arithmetic.hpp: inline_add, inline_subtract, inline_multiply, inline_minus, inline_bitwise_and, inline_bitwise_or, inline_bitwise_xor, inline_bitwise_not, inline_left_shift, inline_right_shift"]}
{"id": "C75", "title": "Division truncates toward zero and zero divisors raise", "statement": "divide and mod on integers of any two types give quotient and remainder with truncation toward zero; an integer divided by integer zero raises zero_division_error and nothing else does; no input is undefined behaviour.", "quantifier": "all pairs of integer types, all pairs of values", "why_tests_cant": "2^128 pairs of values; the check is selected by template arguments, so tests of some type pairs say nothing about others", "anchors": ["include/dynd/kernels/arithmetic.hpp: needs_zero_check, inline_divide, inline_mod"]}
{"id": "C76", "title": "In-place arithmetic updates each element once from its old value", "statement": "a += b and a /= b on arrays store in every element of a the old value combined with the corresponding element of b (exactly when the result fits), change nothing else, and division by zero raises.", "quantifier": "all types, lengths, strides and values", "why_tests_cant": "unbounded lengths and strides; aliasing between elements", "anchors": ["include/dynd/kernels/compound_add_kernel.hpp", "include/dynd/kernels/compound_div_kernel.hpp"]}
{"id": "C77", "title": "Operators on optional values are missing exactly when an argument is missing", "statement": "A two-argument arithmetic or comparison callable applied to optional values yields a missing value if one of the arguments is missing, and otherwise the available result of the operation on the values.", "quantifier": "all argument values and combinations of optional and plain arguments", "why_tests_cant": "all values, including those whose result coincides with the stored missing value", "anchors": ["include/dynd/kernels/forward_na_kernel.hpp", "include/dynd/callables/forward_na_callable.hpp", "include/dynd/binary_arithmetic.hpp"]}
{"id": "C78", "title": "Assigning tuples and structs copies every field to its counterpart", "statement": "Assigning a tuple or struct to another with the same number of fields stores in every destination field the source field at the same position (tuples) or of the same name (structs), and changes nothing else; a different number of fields or an unknown name raises before anything is written; if a field raises, the fields before it have been written.", "quantifier": "all field counts, types, layouts, field orders and values", "why_tests_cant": "the number and the order of fields is unbounded; small field counts work although larger ones do not", "anchors": ["include/dynd/callables/assign_callable.hpp:680-823", "include/dynd/kernels/tuple_assignment_kernels.hpp: tuple_unary_op_ck", "include/dynd/kernels/base_strided_kernel.hpp"]}
{"id": "C79", "title": "Equality of tuples and structs is field-wise equality", "statement": "equal on two tuples (structs) of the same kind answers true exactly when all corresponding fields are equal, not_equal is its negation, and records with different numbers of fields or different names are not reported equal.", "quantifier": "all field counts, layouts, values", "why_tests_cant": "unbounded number of fields and layouts", "anchors": ["include/dynd/callables/equal_callable.hpp", "include/dynd/kernels/equal_kernel.hpp", "include/dynd/kernels/not_equal_kernel.hpp", "include/dynd/callables/not_equal_callable.hpp"]}
{"id": "C80", "title": "sum, min, max and all compute what their names say", "statement": "sum over any list of numbers is the exact sum when it fits the result type, min and max the least and greatest element, all true exactly when every element is true, for arrays of any shape and layout.", "quantifier": "all lengths, element types, values, strides", "why_tests_cant": "unbounded lengths; extreme values and empty inputs", "anchors": ["include/dynd/kernels/sum_kernel.hpp", "include/dynd/kernels/min_kernel.hpp", "include/dynd/kernels/max_kernel.hpp", "include/dynd/kernels/all_kernel.hpp"]}
{"id": "C81", "title": "sort permutes exactly the elements of the array into order", "statement": "Sorting a one-dimensional array of any length, stride and numeric element type leaves the same elements in non-decreasing order in its positions and changes no other memory.", "quantifier": "all lengths, strides, values", "why_tests_cant": "unbounded lengths; strided iterator arithmetic", "anchors": ["include/dynd/kernels/sort_kernel.hpp", "include/dynd/bytes.hpp: strided_iterator"]}
{"id": "C82", "title": "Composing two functions behaves as one after the other for any number of elements", "statement": "The composition of two callables applied to an array of any length stores g(f(x)) at every position and, if an element raises, raises; nothing outside the destination changes.", "quantifier": "all functions, lengths, strides", "why_tests_cant": "the intermediate buffer has 128 elements: behaviour may change at each multiple", "anchors": ["include/dynd/kernels/compose_kernel.hpp"]}
{"id": "C83", "title": "Array iterators visit every element once, with broadcasting", "statement": "Iterating over an array with array_iter visits every element exactly once in row-major order; iterating over two arrays visits every index of the broadcast shape with the elements the broadcasting rule prescribes, and raises broadcast_error if the shapes do not broadcast.", "quantifier": "all ranks, sizes (including 0), strides and data pointers of one or two arrays", "why_tests_cant": "the odometer has to be right at every carry of every shape; tests see a few small shapes", "anchors": ["include/dynd/array_iter.hpp: array_iter::next", "src/dynd/types/fixed_dim_type.cpp: iterdata_construct, iterdata_incr, iterdata_reset", "src/dynd/type.cpp: iterdata_broadcasting_terminator_incr"]}
{"id": "C84", "title": "equals_exact compares types and every element", "statement": "a.equals_exact(b) is true exactly if both arrays have the same type and every pair of elements at the same index compares equal, whatever the memory layouts, and never raises.", "quantifier": "all pairs of arrays: ranks, sizes, strides, var dimensions, element values including NaN", "why_tests_cant": "strides, ranks and values are unbounded; the answer depends on every element", "anchors": ["src/dynd/array.cpp: array::equals_exact", "src/dynd/view.cpp: view_concrete"]}
{"id": "C85", "title": "Copies are dense and keep the axis order", "statement": "The result of empty_like/eval_copy has the shape of the source, uses exactly number of elements times element size bytes with every element at its own place, and orders its axes in memory like the source.", "quantifier": "all ranks, sizes and source strides (any sorting function meeting std::sort's contract)", "why_tests_cant": "a permutation of any number of axes, cumulative products; tests try C and F order of rank 2 or 3", "anchors": ["src/dynd/types/fixed_dim_type.cpp: reorder_default_constructed_strides", "src/dynd/array.cpp: empty_like, array::eval_copy", "src/dynd/shape_tools.cpp: strides_to_axis_perm"]}
{"id": "C86", "title": "reshape keeps the elements in row-major order", "statement": "reshape(a, shape) returns an array of the given shape whose r-th element in row-major order is the r-th element of a, and raises invalid_argument if the numbers of elements differ.", "quantifier": "all source arrays (shapes, strides) and all new shapes", "why_tests_cant": "any rank and size on both sides; the stride computation must agree with row-major ranks everywhere", "anchors": ["src/dynd/array.cpp: nd::reshape, make_strided_array_from_data"]}
{"id": "C87", "title": "concatenate returns the elements of both arrays", "statement": "concatenate(x, y) of two one-dimensional arrays of the same dtype has the elements of x followed by those of y.", "quantifier": "all lengths including 0 and all elements", "why_tests_cant": "the index arithmetic depends on the lengths; an empty operand is a boundary tests miss", "anchors": ["src/dynd/array.cpp: nd::concatenate", "src/dynd/shape_tools.cpp: apply_single_linear_index"]}
{"id": "C88", "title": "old_range returns begin + k*step strictly before end", "statement": "old_range<T>(begin, end, step) for a builtin integer type returns exactly the values begin + k*step strictly before end in the direction of step, in order; a zero step raises runtime_error.", "quantifier": "all begin, end, step of every builtin integer type of 8 to 64 bits", "why_tests_cant": "2^192 argument triples; boundaries at the ends of each type", "anchors": ["src/dynd/array_range.cpp: range_counter::count, range_specialization::old_range, nd::old_range"]}
{"id": "C89", "title": "view reinterprets the same elements or refuses", "statement": "Viewing an array as another type succeeds exactly if the sizes agree and the dtype can be reinterpreted (same type, or plain data of the same size and sufficient alignment); each element of the view is the element of the array at the same index; otherwise type_error is raised.", "quantifier": "all ranks, sizes, strides, dtypes and target types, including a leading var dimension viewed as fixed", "why_tests_cant": "the recursion runs over types of any depth", "anchors": ["src/dynd/view.cpp: try_view, view_concrete, old_view"]}
{"id": "C90", "title": "A callable call binds each argument to exactly one declared parameter", "statement": "When a call of a callable is accepted, the number of positional arguments fits its signature, every positional argument matches the type of its parameter, every keyword argument names a declared keyword (or dst), matches its type, and is handed to the kernel in that keyword's slot; no keyword is passed twice; every required keyword is bound; optional keywords left out get a missing value; the order in which the caller writes keywords does not matter. A call that meets these conditions is accepted, any other is refused with invalid_argument.", "quantifier": "all signatures (any number of positional and keyword parameters, variadic or not), all argument lists and keyword orders", "why_tests_cant": "the combinations of keywords, orders, omissions and duplicates are unbounded and the binding loops use several interacting counters", "anchors": ["/repo/include/dynd/callable.hpp", "/repo/src/dynd/callable.cpp", "/repo/include/dynd/callables/base_callable.hpp"]}
{"id": "C91", "title": "A block lives exactly as long as something points to it", "statement": "In every history of creating, copying, moving, assigning, swapping and destroying pointers, arrays and views, the use count of a block is the number of pointers to it; a block is freed exactly when the last chain of pointers from the program to it goes, once, and nothing touches it afterwards; a view keeps the block that holds its data alive whatever happens to the array it was taken of; when all pointers are gone everything has been freed.", "quantifier": "all histories of pointer operations on any number of blocks with any number of pointer members, and all chains of views", "why_tests_cant": "use-after-free and leaks depend on the whole history; tests see single ones", "anchors": ["/repo/include/dynd/config.hpp:intrusive_ptr", "/repo/include/dynd/memblock/base_memory_block.hpp:intrusive_ptr_release", "/repo/include/dynd/memblock/buffer_memory_block.hpp", "/repo/src/dynd/buffer.cpp:get_data_memblock"]}
{"id": "C92", "title": "Reference counts are safe in any thread schedule", "statement": "When several threads copy and drop their own pointers to shared blocks, in any interleaving of the atomic increments and decrements, no thread touches a freed block, a block is deleted at most once and by one thread only, releases in progress always finish, and once all threads have dropped their pointers everything has been freed.", "quantifier": "all numbers of threads and blocks and all interleavings of retain, release and delete steps", "why_tests_cant": "the number of schedules is unbounded and a test run exercises one of them", "anchors": ["/repo/include/dynd/memblock/base_memory_block.hpp:intrusive_ptr_retain", "/repo/include/dynd/memblock/base_memory_block.hpp:intrusive_ptr_release"]}
{"id": "C93", "title": "Dimension vectors behave like vectors under any history", "statement": "Short vectors (the dimension and stride vectors of the library) hold what was written to them under every history of construction, re-initialisation, moves, swaps, writes and destruction, whatever their sizes; short ones use no heap memory; no operation touches freed or foreign memory; when all are destroyed, all heap memory has been freed once. The same holds for bundles of short vectors under any sequence of init calls.", "quantifier": "all histories of operations on any number of vectors of any sizes, all in-object capacities", "why_tests_cant": "whether storage is inside the object or on the heap changes along the history; tests cover a few transitions", "anchors": ["/repo/include/dynd/shortvector.hpp"]}
{"id": "C94", "title": "Replacing a dtype or adding axes keeps everything else of the type", "statement": "For every array type built from fixed, Fixed and var dimensions and options: get_dtype(k) is the part below the dimensions; with_replaced_dtype(r, k) puts r in its place and keeps all dimensions above, so that the result's dtype is r, replacing by the own dtype is the identity and the last of several replacements wins; with_new_axis(i, n) inserts n dimensions of size one below the first i; array::replace_dtype does the same exactly if the layouts are compatible. Asking for more dimensions than there are raises type_error.", "quantifier": "all nestings of dimensions and options, all dtypes and replacements, all numbers of kept dimensions and axis positions", "why_tests_cant": "the nesting depth is unbounded; tests try two or three types", "anchors": ["src/dynd/type.cpp: with_replaced_dtype, with_new_axis, pow", "include/dynd/type.hpp: get_dtype", "src/dynd/array.cpp: replace_dtype", "include/dynd/array.hpp: array(values, tp)"]}
{"id": "C95", "title": "The canonical type is canonical", "statement": "Every type has a canonical type (which eval, eval_copy and copy use for their result) with the same number of dimensions, which is its own canonical type; a type without pointers and non-UTF-32 chars is its own canonical type.", "quantifier": "all types of any nesting", "why_tests_cant": "types nest without bound", "anchors": ["include/dynd/type.hpp: get_canonical_type", "src/dynd/types/*.cpp: get_canonical_type"]}
{"id": "C96", "title": "Filling a shape into a symbolic array type", "statement": "Filling the sizes of an array into the leading dimensions of a symbolic type gives each Fixed dimension its size and keeps every other part; it succeeds exactly if there are no more sizes than dimensions, every Fixed dimension gets a known size and every fixed dimension a matching or unknown one; otherwise type_error is raised.", "quantifier": "all numbers and kinds of dimensions, all shapes, all dtypes", "why_tests_cant": "unbounded numbers of dimensions", "anchors": ["src/dynd/types/substitute_shape.cpp: substitute_shape", "src/dynd/asarray.cpp", "src/dynd/view.cpp: old_view"]}
{"id": "C97", "title": "Outer application", "statement": "Calling outer(f) on arrays returns an array whose shape is the arguments' shapes one after the other (scalars contributing nothing), with f applied exactly once for every element of that shape, in row-major order, to the elements of the arguments selected by their own parts of the index; no element outside an argument is ever read.", "quantifier": "all numbers of arguments, ranks, shapes and strides", "why_tests_cant": "tests use one, two and three one-dimensional arguments of a few elements", "anchors": ["include/dynd/kernels/outer_kernel.hpp", "include/dynd/callables/outer_callable.hpp", "include/dynd/callables/outer_entry_callable.hpp"]}
{"id": "C98", "title": "Positions of matching elements", "statement": "where(f)(a) lists, in order, the positions of the elements of a for which f holds, and an elementwise function that asks for its position is told the index of the element it is called on.", "quantifier": "all shapes, strides, predicates and destinations", "why_tests_cant": "the test has one array of five elements", "anchors": ["include/dynd/kernels/where_kernel.hpp", "include/dynd/kernels/state_kernel.hpp", "include/dynd/callables/elwise_callable.hpp: state_traits", "include/dynd/callables/elwise_entry_callable.hpp"]}
{"id": "C99", "title": "Arrays from nested containers", "statement": "An array made from nested initializer lists or vectors has, at every depth, the common size of the containers at that depth (a var dimension where the sizes differ), and element [i][j]\u2026 of the array is exactly the value listed there; nothing is written outside the array's memory.", "quantifier": "all nesting depths, all numbers of elements at every level, element sizes, values", "why_tests_cant": "the nesting and the sizes are unbounded; tests list a few literals", "anchors": ["include/dynd/type.hpp: container_traits::shape", "include/dynd/kernels/init_kernel.hpp", "include/dynd/buffer.hpp: make_array, empty"]}
{"id": "C100", "title": "Read-only and immutable arrays", "statement": "An array without write permission never gives out a writable data pointer; every view taken from it has the same permissions; once no array of a program may write to a memory block, its contents stay the same whatever operations follow; read-only arrays can be viewed in every way that writes nothing.", "quantifier": "every program (sequence of array creations, views, copies, assignments, sorts and pointer writes) and every array in it", "why_tests_cant": "The promise is about every later operation on every alias of the memory; a test exercises one sequence.", "anchors": ["include/dynd/buffer.hpp: buffer::data", "src/dynd/array.cpp: assign, eval_copy, permute, new_axis, combine_into_tuple", "include/dynd/kernels/base_strided_kernel.hpp: call"]}
{"id": "C101", "title": "Destroying an array releases everything it owns exactly once", "statement": "When the last reference to an array goes, every string, bytes object or type object in its data and in the memory blocks it refers to is released exactly once, every chunk of memory is freed exactly once and after its contents, nothing is raised, and destroying a view leaves the data of its owner alone.", "quantifier": "every type and layout (fixed and var dimensions, tuples, structs, options, pointers, nested in any way), every number of elements and chunks", "why_tests_cant": "Leaks, double frees and use after free depend on the nesting of types and on element counts crossing the 128-element chunks; tests see none of them unless run under a checker for each type.", "anchors": ["include/dynd/memblock/buffer_memory_block.hpp: ~buffer_memory_block", "src/dynd/types/fixed_dim_type.cpp, tuple_type.cpp, option_type.cpp: data_destruct, data_destruct_strided, arrmeta_destruct", "include/dynd/memblock/objectarray_memory_block.hpp: ~objectarray_memory_block"]}
{"id": "C102", "title": "The type registry", "statement": "A type id, once handed out, is never handed out again and keeps its name, its base and what was registered for it; looking up a name always finds the same id; a program can register a type under a new name and then write it in type descriptions; a registration that raises changes nothing.", "quantifier": "every sequence of id creations and registrations, every name and id", "why_tests_cant": "The registry is global mutable state: the promise is about every later call, not about one.", "anchors": ["src/dynd/type_registry.cpp: new_id, lookup_id_by_name, register_known_type_id_constructor", "src/dynd/types/datashape_parser.cpp: parse_datashape_nooption"]}
{"id": "C103", "title": "Reading one value from JSON text", "statement": "nd::json::parse of a bool, an integer of up to 64 bits, a string or an optional one of these accepts exactly the JSON texts of values of the type with whitespace around them (true, false, 0, 1 and quoted truth words for bool; null, NA, None or nothing for a missing value), gives the value the text stands for, raises on everything else including trailing text, and never does anything undefined.", "quantifier": "all texts, all scalar types", "why_tests_cant": "texts are unbounded; tests read a handful", "anchors": ["include/dynd/parse.hpp: nd::json::parse", "include/dynd/kernels/parse_kernel.hpp", "src/dynd/parse.cpp: make_dynamic_parse", "src/dynd/parse_util.cpp: json::parse_bool", "include/dynd/callables/parse_callable.hpp"]}
{"id": "C104", "title": "Complex addition, subtraction, multiplication and conjugation", "statement": "For complex[float32] and complex[float64] numbers, + and - (also with a real scalar on either side) have the relative error of a single rounding and * at most five; + and * commute bit for bit, a-b is a+(-b), a-a is zero, conjugation is an involution and commutes with + and *; complex integers with components of up to 25 bits are added, subtracted and multiplied exactly in complex[float64].", "quantifier": "all pairs of finite complex numbers whose intermediate results stay in the normal range of the component type", "why_tests_cant": "tests compare a few products with std::complex; an error bound and an identity of bit patterns speak about all 2^256 pairs", "anchors": ["include/dynd/complex.hpp: operator+, operator-, operator*, conj", "include/dynd/kernels/conj_kernel.hpp"]}
{"id": "C105", "title": "Complex division, comparison and compound assignment", "statement": "The quotient of two complex numbers has relative error at most thirteen roundings whenever the quotient is a number of the type, a/a is exactly 1, a product of small complex integers divided by a factor gives the other factor; == and != tell whether two numbers (or a number and a scalar) are the same; z op= x gives z op x, whatever x refers to.", "quantifier": "all finite operands, including an operand that is the assigned number or one of its components", "why_tests_cant": "the failing cases are divisors whose square leaves the range, a mixed-type !=, and an aliased operand; tests use separate, moderate operands", "anchors": ["include/dynd/complex.hpp: operator/, operator/=, operator*=, operator==, operator!="]}
{"id": "C106", "title": "The description of an array is readable and true of the array", "statement": "The datashape text written for a type or for an array, on one line or with line breaks and indentation, is accepted by the datashape parser and gives back the type it was made from, except that strings of fixed size are shown as strings and var dimensions reached through structs and one-element dimensions are shown with their current size; every size that is shown is the size of all the dimensions at that place; different types are told apart by the text.", "quantifier": "every type (any nesting of structs, dimensions and other types), every array data of it, single-line and multi-line, every prefix", "why_tests_cant": "nesting and data are unbounded; a test prints a few arrays", "anchors": ["src/dynd/types/datashape_formatter.cpp: format_datashape, format_struct_datashape, format_dim_datashape, format_string_datashape", "src/dynd/types/datashape_parser.cpp: type_from_datashape"]}
{"id": "C107", "title": "The registry of callables finds what was registered", "statement": "registered(path) returns the entry reached by going from namespace to namespace by the names between the dots, and raises invalid_argument exactly when one of them is missing; insert({name, entry}) raises if the name is taken, and otherwise makes the entry and everything in it reachable under the namespace it was inserted into, changes nothing else, and calls each observer of that namespace once, in the order of registration; nothing that was registered is ever lost or replaced; entries are visited in the order of their names; and path() of each entry is the text that finds it.", "quantifier": "every registry, every path text, every name and entry inserted, every history of insertions and observations", "why_tests_cant": "paths, trees and histories are unbounded, and tests look up a few fixed names in the registry the library starts with", "anchors": ["include/dynd/registry.hpp: registry_entry, registered", "src/dynd/registry.cpp: registered"]}
{"id": "C108", "title": "Iterating a nested container visits every element once", "statement": "The loop from dynd::begin<N>(c) to dynd::end<N>(c) over a container nested N deep visits every element exactly once, in order with the innermost index running fastest, ends, and has no undefined behaviour; the iterator compares equal to the end exactly after the last element.", "quantifier": "every nesting depth N, every number of elements at every level, C arrays and containers of containers", "why_tests_cant": "depths and sizes are unbounded and the tests only walk three C arrays", "anchors": ["include/dynd/iterator.hpp: iterator, const_iterator, begin, end"]}
{"id": "C109", "title": "C interface: types are what they were made as, and are released with their last reference", "statement": "Types made through the C interface (dense, sparse and tuple constructors over the builtin primitive types) read back as exactly what they were made from: the parameters in order, the alignment the largest among the builtin types inside (1 if none; every one of them divides it), equality true exactly for types built the same way. Whatever further types are made and references taken and dropped, existing types are unchanged and hold as many references as were taken and not dropped; dropping the last one releases the type and never reads or calls anything else.", "quantifier": "every history of constructor calls, dynd_incref and dynd_decref over types of any width and depth", "why_tests_cant": "types nest without bound and histories are unbounded; the release field is only read when the last reference goes, which no test does", "anchors": ["include/dynd/abi/metadata.h: dynd_malloc_buffer", "include/dynd/abi/refcount.h: dynd_incref, dynd_decref", "include/dynd/abi/type.h", "src/dynd/abi/metadata.c", "src/dynd/abi/types/tuple.cpp: make_tuple", "src/dynd/abi/types/dense.cpp", "src/dynd/abi/types/sparse.cpp", "src/dynd/abi/types/primitive.cpp", "examples/abi_sparse.cpp: check_equal"]}
{"id": "C110", "title": "Indexing arrays with variable-size dimensions and pointers", "statement": "Indexing an array whose type mixes fixed dimensions, variable-size dimensions and pointers, a(i0, i1, ...), either throws or gives an array whose element at positions js is the very element (address and owning block) that Python's rules pick in the original: integers counted from the end when negative and checked against the size of the dimension or of the row, ranges as in C02, on variable-size dimensions only the full range. It throws exactly when there are too many indices, an integer or range is out of bounds, or a proper range falls on a variable-size dimension; no element outside the original array is reachable through the result.", "quantifier": "every nesting of fixed, variable-size and pointer levels, every arrmeta (strides, offsets, blocks), every data (row pointers and sizes), every list of indices", "why_tests_cant": "types, row sizes, strides and index lists are unbounded; the tests index a few literal arrays", "anchors": ["src/dynd/array.cpp: array::at_array", "src/dynd/types/fixed_dim_type.cpp: fixed_dim_type::apply_linear_index", "src/dynd/types/var_dim_type.cpp: var_dim_type::apply_linear_index", "src/dynd/types/pointer_type.cpp: pointer_type::apply_linear_index", "include/dynd/array.hpp: array::operator(), array::vals_at"]}
{"id": "C111", "title": "Printing an array", "statement": "Writing an array to a stream shows its elements in order, separated by commas: all of them when they fit the budget of rows and columns, otherwise some of the first and some of the last with an ellipsis for those left out in between; the text of an element is changed only by moving its second and later lines to the right, missing optional values (and only those) are shown as NA, and no array makes printing undefined. So two arrays of the same type with the same complete text of words or numbers have the same elements.", "quantifier": "every list of element texts, of any number, length and number of lines, and every nesting of dimensions, tuples, options, pointers and bytes", "why_tests_cant": "element texts and counts are unbounded; the tests print a few literal arrays", "anchors": ["src/dynd/type.cpp: strided_array_summarized, print_indented, line_count, summarize_stats, hexadecimal_print_summarized", "src/dynd/array.cpp: operator<<", "src/dynd/types/option_type.cpp: is_avail_builtin, option_type::print_data", "src/dynd/types/tuple_type.cpp: print_data", "src/dynd/types/bytes_type.cpp: print_data"]}
{"id": "C112", "title": "C interface: reference counts in any thread schedule", "statement": "When several threads take, use, hand on and drop their own references to an object of the C interface with dynd_incref and dynd_decref, in any interleaving, the count is the number of references held, the release function is called exactly once, by the thread that drops the last reference, and every use of the object by any thread happens before that call; nothing touches the object afterwards.", "quantifier": "every number of threads and every interleaving of their atomic steps, with release and acquire ordering as written in the code and not stronger", "why_tests_cant": "schedules are unbounded and the missing orderings do not show on strongly ordered processors; no test uses threads", "anchors": ["include/dynd/abi/refcount.h: dynd_incref, dynd_decref", "include/dynd/abi/atomic.h: dynd_atomic_fetch_add, dynd_atomic_fetch_sub, dynd_atomic_thread_fence"]}
{"id": "C113", "title": "Truth values", "statement": "A truth value (bool1) is true or false whatever is done with it: assignment, negation, the logical operators and those compound operators that have a truth value as their result leave exactly the byte of that value, arithmetic is that of 0 and 1, comparisons with each other and with numbers are those of 0 and 1, two values that compare equal behave alike, and a truth value is never missing when it is looked at as an optional value.", "quantifier": "every history of operations, every stored byte, every number compared with", "why_tests_cant": "histories are unbounded; the tests look at single operations", "anchors": ["include/dynd/bool1.hpp: bool1", "src/dynd/types/option_type.cpp: is_avail_builtin"]}
{"id": "C114", "title": "Functions built from combinators act on runs as on single elements", "statement": "A function built with functional::apply (returning a value, nothing, or through a return_wrapper; with keywords), constant, left_compound, right_compound, missing-value forwarding, a state argument and elementwise loops does to one element what its parts say, whether called on arrays, on pointers or inside a loop; applied to a run of n elements with any strides it leaves memory (and any state kept by the C++ functions) as n applications one after the other would, even when the result overlaps the arguments; every kernel is entered through the entry it was built for. A compound function asks for an argument of the type of the parameter it is handed to.", "quantifier": "every nesting of the combinators, every C++ function (stateful or throwing), every number of elements, addresses and strides", "why_tests_cant": "the kernels of a nesting are chained through an untyped call graph and function pointers; tests run a few nestings on a few elements", "anchors": ["include/dynd/kernels/apply.hpp", "include/dynd/kernels/apply_callable_kernel.hpp", "include/dynd/kernels/compound_kernel.hpp", "include/dynd/kernels/constant_kernel.hpp", "include/dynd/kernels/forward_na_kernel.hpp", "include/dynd/kernels/state_kernel.hpp", "include/dynd/kernels/base_strided_kernel.hpp", "src/dynd/functional.cpp: nd::functional::left_compound, right_compound, constant"]}
{"id": "C115", "title": "128-bit floating point numbers have the value of what they are made from", "statement": "A float128 made from a float64, float16, integer or truth value has exactly its value and sign (infinity and NaN stay infinity and NaN); its classification predicates and truth value say what they mean for every bit pattern; less_nonan and less_equal_nonan order it by value, with the two zeros equal; arithmetic and comparison operators compute.", "quantifier": "every float64, float16, 8-, 16-, 32- and 64-bit integer, truth value, and every pair of 128-bit patterns", "why_tests_cant": "2^64 doubles, subnormals of every magnitude and 2^256 pairs of patterns cannot be enumerated; wrong exponents only show for certain sources", "anchors": ["include/dynd/float128.hpp: float128, less_nonan, less_equal_nonan, isnan_, isinf_, isfinite_, iszero, operator bool", "src/dynd/float128.cpp: float128::float128, leading_zerobits"]}
{"id": "C116", "title": "Sparse graphs are read as the graph their metadata describes", "statement": "For a graph stored as dense(tuple(size_t, sparse(...))) in any layout its array metadata can describe with the indices of a row at increasing addresses (interleaved, offset before or after the base pointer, any strides), the shortest-path routine of the ABI example stays inside the buffer, terminates, never disturbs the order of its queue, stores in each node the least number of edges from the source (or the largest size_t if there is none) whatever the order among equals, and changes nothing but the node data. The grid builder fills its buffer with exactly the grid graph for every side length that fits the address space, selecting one node field describes the same graph, and the whole example succeeds for every side length.", "quantifier": "every metadata layout, graph, source, tie order of the queue, side length and buffer address", "why_tests_cant": "graphs, layouts and tie orders are unbounded; out-of-bounds offsets and stale queue keys only show for particular shapes", "anchors": ["examples/abi_sparse.cpp: make_grid, select_node_data_entry, node_data, neighbors, sssp, verify_grid_sssp, main", "include/dynd/abi/types/sparse.h: dynd_type_sparse_arrmeta", "include/dynd/abi/types/dense.h: dynd_type_dense_arrmeta"]}
{"id": "C117", "title": "Every assignment finds its conversion", "statement": "Assigning between two concrete types chooses one overload, the one meant for that pair, however the overloads were registered and whichever type objects are shared; it builds a complete kernel for the whole nesting of arrays, tuples, structs (fields matched by name) and options, each part converting exactly the part of the source that belongs to it with the requested error mode, or reports that there is no conversion. Registering an unrelated overload changes nothing else.", "quantifier": "every pair of concrete types, nested to any depth, every error mode, every sharing of type objects", "why_tests_cant": "the pairs of types are infinitely many, and the outcome depends on the order of some 260 overloads after 32 insertions and on the order in which the closures of the call graph run", "anchors": ["src/dynd/assignment.cpp: make_assign, assign", "include/dynd/callables/assign_callable.hpp: assign_callable::resolve", "include/dynd/dispatcher.hpp: dispatcher::insert, operator()", "include/dynd/callables/base_dispatch_callable.hpp: resolve", "include/dynd/callables/elwise_dispatch_callable.hpp: resolve", "include/dynd/callables/elwise_entry_callable.hpp: resolve", "include/dynd/kernels/kernel_builder.hpp: operator()"]}
{"id": "C118", "title": "Every two-argument operator finds its kernel and its result type", "statement": "Calling an arithmetic, bitwise or comparison operator on two concrete types builds the kernel for that pair and announces the type it writes: built-in values use the kernel of their pair; a missing operand makes the result missing; arrays are combined dimension by dimension, sizes having to agree unless one is 1 or var, the one with fewer dimensions repeated; tuples and structs are compared field by field. Anything the operator is not defined for is reported as an error. Adding an overload for other types changes nothing for these.", "quantifier": "every pair of concrete types nested to any depth, every set of built-in pairs, every sharing of type objects", "why_tests_cant": "the pairs of types are infinitely many, and the outcome depends on the order of the overloads after sorting and on recursion through the call graph", "anchors": ["include/dynd/binary_arithmetic.hpp: make_binary_arithmetic", "include/dynd/comparison_common.hpp: make_comparison_children", "src/dynd/equal.cpp: make_equal", "include/dynd/callables/equal_callable.hpp: equal_callable::resolve", "include/dynd/callables/forward_na_callable.hpp: resolve", "include/dynd/callables/elwise_entry_callable.hpp: resolve", "include/dynd/callables/elwise_dispatch_callable.hpp: resolve", "include/dynd/callables/base_elwise_callable.hpp: resolve", "include/dynd/dispatcher.hpp: dispatcher::insert"]}
{"id": "C119", "title": "Functions of one argument work elementwise on arrays of any nesting", "statement": "Calling +, -, ~, !, sqrt, cbrt, is_na or one of cos, sin, tan, exp on an array gives an array of the same dimensions whose elements are the function of the corresponding elements, whatever the strides and offsets of the operand and however fixed and variable-sized dimensions are nested; a missing element gives a missing result; elements the function is not defined for are refused; a given result must have the right type. self += rhs and self /= rhs change self to the sum or quotient.", "quantifier": "every nesting of fixed and var dimensions, every size, stride, offset and content, every element type, every sharing of type objects", "why_tests_cant": "nesting, sizes and memory layouts are unbounded; the kernels read the operand's metadata at places that depend on every outer dimension", "anchors": ["include/dynd/unary_arithmetic.hpp: make_unary_arithmetic", "src/dynd/option.cpp: make_is_na", "src/dynd/math.cpp: nd::cos, nd::sin, nd::tan, nd::exp", "include/dynd/callables/base_elwise_callable.hpp: resolve", "include/dynd/callables/elwise_callable.hpp: subresolve, elwise_callable::operator()", "include/dynd/kernels/elwise_kernel.hpp", "include/dynd/compound_arithmetic.hpp", "src/dynd/array.cpp: operator+=, operator/="]}
{"id": "C120", "title": "Operators of two arguments combine arrays element by element", "statement": "Calling an arithmetic, bitwise or comparison operator on two arrays gives the array whose elements are the operator applied to the corresponding elements, whatever the strides and offsets of the operands and however fixed and variable-sized dimensions are nested; dimensions are matched from the innermost, a size of 1 is repeated, an operand with fewer dimensions is repeated as a whole; sizes that turn out not to fit are reported as a broadcast error. Nothing outside the operands is read.", "quantifier": "every pair of nestings of fixed and var dimensions, every size, stride, offset and content, every element type the operator is defined for, every sharing of type objects", "why_tests_cant": "nesting, sizes and memory layouts are unbounded; the sizes of variable-sized dimensions are known only while the kernels run, row by row", "anchors": ["include/dynd/callables/base_elwise_callable.hpp: resolve", "include/dynd/callables/elwise_dispatch_callable.hpp: resolve", "include/dynd/callables/elwise_callable.hpp: subresolve", "include/dynd/kernels/elwise_kernel.hpp", "src/dynd/callables/base_callable.cpp: base_callable::call"]}
{"id": "C121", "title": "Assigning an array copies every element, with broadcasting", "statement": "dst.assign(src) gives every element of an existing array the converted value of the corresponding element of the source, whatever the strides and offsets of both and however fixed and variable-sized dimensions are nested: dimensions are matched from the innermost, a source dimension of size 1 is repeated, a source with fewer dimensions is repeated as a whole, a row of a variable-sized dimension that is not there yet takes the size of the source's row, and one that is there keeps its size. Sizes that do not fit, and conversions that fail, are reported. No memory but the elements of the destination and new rows is changed, and nothing outside the source is read.", "quantifier": "every pair of nestings of fixed and var dimensions, every size, stride, offset, content and earlier state of the destination, every pair of element types that has a conversion, every sharing of type objects", "why_tests_cant": "nesting, sizes, memory layouts and the earlier state of the destination are unbounded; rows are allocated while the kernels run", "anchors": ["src/dynd/array.cpp: array::assign", "src/dynd/assignment.cpp: make_assign", "include/dynd/callables/elwise_callable.hpp: subresolve", "include/dynd/callables/base_elwise_callable.hpp: resolve", "include/dynd/kernels/elwise_kernel.hpp", "src/dynd/callables/base_callable.cpp: base_callable::call"]}
{"id": "C122", "title": "take selects elements of arrays of any nesting", "statement": "Calling nd::take(a, mask) on an array of any nesting, strides and offsets returns a new variable-sized array of exactly the elements whose mask entry is set, in order, each a full copy of the nested element; a mask of another size is refused. nd::take(a, indices) returns the elements at the indices. Fixed and variable-sized arguments are treated alike; an index type that is neither is refused. Only memory of the arguments is read and only the result is written.", "quantifier": "every nesting of the elements, every size, stride, offset and content, every mask and list of indices, every element type that can be copied", "why_tests_cant": "lengths, masks, indices and nestings are unbounded; which kernel runs depends on the order in which the parts of the call put their nodes into the call graph", "anchors": ["include/dynd/callables/take_dispatch_callable.hpp: take_dispatch_callable, take_callable, indexed_take_callable", "include/dynd/kernels/take_kernel.hpp: masked_take_ck, indexed_take_ck", "src/dynd/callables/base_callable.cpp: base_callable::call", "src/dynd/index.cpp: nd::take"]}
{"id": "C123", "title": "sum, min, max and all called on arrays of any nesting", "statement": "nd::sum, nd::min, nd::max and nd::all called on an array of any nesting of fixed and variable-sized dimensions, with any axes and with or without keepdims, return an array of the kept dimensions (reduced ones of size 1 with keepdims) whose every element is the sum, least, greatest element or conjunction of exactly the operand's elements that belong to it, for every element type the function accepts; other element types are refused. Only the bytes of the result are written and its earlier content has no influence.", "quantifier": "every nesting of dimensions, every size, stride, row length, set of axes, element type, content of the operand and of the memory the result is allocated in", "why_tests_cant": "nestings, sizes and layouts are unbounded; whether the result starts from clean memory depends on what the allocator returns", "anchors": ["src/dynd/sum.cpp", "src/dynd/statistics.cpp", "src/dynd/logic.cpp: all", "include/dynd/callables/base_reduction_callable.hpp", "include/dynd/callables/reduction_callable.hpp", "include/dynd/kernels/reduction_kernel.hpp", "include/dynd/callables/base_apply_callable.hpp: resolve_return_type", "include/dynd/kernels/apply_callable_kernel.hpp: single"]}
{"id": "C124", "title": "Sorting and searching arrays as called", "statement": "nd::sort(a) on any one-dimensional array of fixed size whose elements can be compared with each other leaves the array holding exactly its elements, in order, and changes no other memory, for every stride (also negative) and every content, NaNs and missing values included; anything else is refused before the array is touched. nd::binary_search(a, v) on a sorted one-dimensional array answers with the position of an element equal to v, or -1 if there is none, for every element type with an order and every value that can be converted to it; and so every value can be looked up among the categories of a categorical type.", "quantifier": "every element type, size, stride, address, content of the array, and every value searched for and its type", "why_tests_cant": "contents, sizes and layouts are unbounded; whether std::sort may be used at all depends on the comparison being a strict weak order on the elements", "anchors": ["src/dynd/sort.cpp", "src/dynd/search.cpp", "src/dynd/total_order.cpp", "include/dynd/callables/sort_callable.hpp", "include/dynd/kernels/sort_kernel.hpp", "include/dynd/callables/binary_search_callable.hpp", "include/dynd/kernels/binary_search_kernel.hpp", "include/dynd/callables/total_order_callable.hpp", "include/dynd/kernels/total_order_kernel.hpp", "src/dynd/types/categorical_type.cpp: get_value_from_category"]}
{"id": "C125", "title": "String functions called on arrays of any nesting", "statement": "nd::string_find, string_rfind, string_count, string_contains, string_startswith, string_endswith, string_concatenation and string_replace called on arrays of strings of any nesting that can be broadcast together return an array of the broadcast dimensions in which every element is what the function says about the strings combined there (the first or last position of the needle, the number of its successive occurrences, whether it occurs, begins or ends the string, the strings one after the other). Arguments that do not hold strings, or whose dimensions do not fit together, are refused with an error, and the answer depends on the arguments alone.", "quantifier": "every nesting of fixed and variable-sized dimensions, every size, stride, offset and row length, every string", "why_tests_cant": "nestings, sizes and strings are unbounded; the check of the arguments keeps a list of dimensions whose memory is not initialised", "anchors": ["src/dynd/string.cpp", "src/dynd/functional.cpp: elwise, elwise_make_type", "src/dynd/callable.cpp: check_arg, callable::call", "src/dynd/types/ellipsis_dim_type.cpp: match", "src/dynd/types/dim_fragment_type.cpp: broadcast_with_type", "include/dynd/callables/elwise_entry_callable.hpp", "include/dynd/callables/base_elwise_callable.hpp", "include/dynd/kernels/elwise_kernel.hpp", "include/dynd/string.hpp"]}
{"id": "C126", "title": "Random arrays: every element is a fresh draw between the bounds", "statement": "nd::random::uniform called with bounds a, b and a destination, or nd::rand(tp), fills an array of int32, int64, uint32, uint64, float32, float64 or complex numbers, of any dimensions: every element of the result is drawn anew with the bounds given (0 and the largest integer, 1, or 1+1i when left out), lies between them, and the elements are successive draws of the generator in row-major order; an existing destination of any strides gets exactly its own elements written. Other element types, and bounds of another type than the elements, are refused.", "quantifier": "every array type (nesting of fixed and var dimensions), every element type, every pair of bounds given or left out, every existing destination with its strides and memory, every state of the generator and every implementation of the C++ distributions that keeps the library's contract", "why_tests_cant": "tests draw a few arrays with one pair of bounds; that each element is written exactly once from its own draw, for every nesting and every stride, and which combinations of left-out bounds work for which type, they cannot enumerate", "anchors": ["src/dynd/random.cpp uniform", "include/dynd/callables/uniform_callable.hpp uniform_callable::resolve", "include/dynd/kernels/uniform_kernel.hpp uniform_kernel", "include/dynd/kernels/elwise_kernel.hpp elwise_kernel<.., 0>", "src/dynd/callable.cpp callable::call", "src/dynd/option.cpp make_assign_na", "include/dynd/random.hpp rand"]}
{"id": "C127", "title": "Fields by name", "statement": "For an array a whose elements are structs, whatever fixed and variable-size dimensions surround them, a.p(name) is a view of the same dimensions whose element at every position is the field called name of the element of a there - same address, same owner, nothing copied, whatever the type of the field - and everything inside it; a name no field has, or elements that are not structs, raise an exception. nd::field_access(a, name) copies from that same place, or raises.", "quantifier": "all nestings of dimensions around the struct, all fields and field types, all arrmeta, all names", "why_tests_cant": "types, offsets, strides and names are unbounded; the tests read a few fields of a few literal structs", "anchors": ["src/dynd/access.cpp", "src/dynd/array.cpp: array::p", "include/dynd/callables/field_access_callable.hpp", "include/dynd/kernels/field_access_kernel.hpp", "src/dynd/types/struct_type.cpp: apply_linear_index, get_field_index"]}
{"id": "C128", "title": "nd::serialize", "statement": "nd::serialize(a), with any axes and with or without keepdims, returns an array of bytes of the kept dimensions (reduced ones of size 1 with keepdims) in which every element is the raw bytes of exactly the operand's elements that belong to it, one after the other in row-major order, whatever the operand's strides, row lengths and place in memory. Without axes it is one bytes value of (number of elements) x (size of an element) bytes, in which the element at any index is found at its row-major position, so two arrays of the same shape and type serialise to the same bytes exactly when all their elements have the same bytes. What the result's memory held before has no influence and nothing else is changed. A scalar is serialised to its own bytes.", "quantifier": "every nesting of dimensions, every size, stride, row length, set of axes, built-in element type and content of the operand and of memory", "why_tests_cant": "sizes, strides and row lengths are unbounded; the two unit tests serialise one contiguous vector and one contiguous matrix of int without axes", "anchors": ["src/dynd/io.cpp", "include/dynd/callables/serialize_callable.hpp", "include/dynd/kernels/serialize_kernel.hpp", "include/dynd/callables/base_reduction_callable.hpp", "include/dynd/callables/reduction_callable.hpp", "include/dynd/kernels/reduction_kernel.hpp", "include/dynd/array.hpp: make_array"]}
{"id": "C129", "title": "nd::asarray", "statement": "nd::asarray(a, tp) returns the array a itself when a is of the type tp, or of a type the symbolic tp admits. Otherwise it returns a new array of the requested element type and dimensions, every Fixed dimension having the size a has there, whose elements are those of a converted as nd::assign converts them (repeated as broadcasting asks for); a is not changed, and asking again for the same type with the result gives the result itself. When the sizes a is known to have contradict tp, or leave a Fixed dimension open, an exception is raised.", "quantifier": "all nestings of fixed and var dimensions of the array, all sizes, strides and row lengths, all requested dimensions (a size, Fixed or var), all pairs of element types", "why_tests_cant": "types, sizes and contents are unbounded; the unit tests ask for a few literal types of literal vectors", "anchors": ["src/dynd/asarray.cpp", "src/dynd/types/substitute_shape.cpp", "src/dynd/type.cpp: type::match, get_shape", "src/dynd/types/fixed_dim_type.cpp: get_shape", "src/dynd/types/var_dim_type.cpp: get_shape", "src/dynd/array.cpp: assign", "include/dynd/array.hpp: empty"]}
{"id": "C130", "title": "Assigning a missing value", "statement": "x.assign_na() makes every element of x missing: nd::is_na of x is true afterwards at every element, and nothing else in memory is changed. nd::assign_na({}, {{\"dst_tp\", t}}) returns a new array of type t whose elements are all missing. A destination whose elements are not of an optional type with a missing value, and a call without a destination, raise an exception.", "quantifier": "every optional element type, every nesting of dimensions around it, every strides and memory, every address", "why_tests_cant": "types and memory are unbounded; the unit tests assign NA to literal scalars of a few types", "anchors": ["src/dynd/option.cpp: make_assign_na", "src/dynd/array.cpp: array::assign_na", "include/dynd/callables/assign_na_callable.hpp", "include/dynd/kernels/assign_na_kernel.hpp", "src/dynd/callable.cpp: callable::call", "include/dynd/callables/base_dispatch_callable.hpp"]}
{"id": "C131", "title": "Limits of the number types", "statement": "nd::limits::max and nd::limits::min, called with a destination of an integer type of 8 to 64 bits or of float32 or float64, write the greatest, respectively the least, finite value of that type into it and change nothing else; called with dst_tp they return a new array of that type with that value. For any other type, an array type among them, and without a destination, they raise and write nothing.", "quantifier": "every type of the destination, every state of the memory, every way of giving the destination", "why_tests_cant": "A test writes a few types and compares with the same C++ constant the kernel uses; that no value of the type is greater, and that every other type is refused, ranges over all values and all types.", "anchors": ["src/dynd/limits.cpp: nd::limits::max, nd::limits::min", "include/dynd/kernels/limits/max_kernel.hpp", "include/dynd/kernels/limits/min_kernel.hpp", "include/dynd/callables/limits/max_callable.hpp", "include/dynd/callables/limits/min_callable.hpp", "include/dynd/callables/base_dispatch_callable.hpp: base_dispatch_callable::resolve", "src/dynd/callable.cpp: callable::call"]}

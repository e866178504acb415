{
 "claims": [
  {
   "property": "C01",
   "status": "proved",
   "theorems": [
    "Dynd.single_index_exact"
   ],
   "note": "exact outcome for every index and size"
  },
  {
   "property": "C02",
   "status": "partial",
   "theorems": [
    "Dynd.slice_selects_exactly",
    "Dynd.slice_single_exact",
    "Dynd.slice_throws_iff",
    "Dynd.slice_no_overflow",
    "Dynd.slice_huge_step_violated"
   ],
   "note": "exact element set, exact throw set and no UB for |step| <= INT64_MAX-n; the code overflows (UB) for larger steps, shown by slice_huge_step_violated"
  },
  {
   "property": "C03",
   "status": "proved",
   "theorems": [
    "Dynd.view_index_exact",
    "Dynd.view_history_exact",
    "Dynd.view_write_exact",
    "Dynd.too_many_indices_never_ok"
   ],
   "note": "any history of index steps on any strided array"
  },
  {
   "property": "C04",
   "status": "proved",
   "theorems": [
    "Dynd.shape_can_broadcast_exact"
   ],
   "note": "iff with the right-aligned rule, all ranks"
  },
  {
   "property": "C05",
   "status": "proved",
   "theorems": [
    "Dynd.is_valid_perm_exact"
   ],
   "note": "true iff a permutation of 0..n-1, no UB"
  },
  {
   "property": "C06",
   "status": "partial",
   "theorems": [
    "Dynd.strides_to_axis_perm_sorted",
    "Dynd.strides_to_axis_perm_ties_partial",
    "Dynd.strides_to_axis_perm_ties_violated",
    "Dynd.strides_to_axis_perm_min_violated"
   ],
   "note": "sorted permutation for every rank; ties keep C order only up to 3 dims (std::sort is not stable: violated at 4+); INT64_MIN stride is UB"
  },
  {
   "property": "C07",
   "status": "partial",
   "theorems": [
    "Dynd.multistrides_perm",
    "Dynd.multistrides_ambiguous_c_order",
    "Dynd.multistrides_sorted",
    "Dynd.multistrides_sorted_keys",
    "Dynd.multistrides_two_dim_tie_violated"
   ],
   "note": "permutation for every set of operands; ambiguous comparisons keep C order except that the two-dimensional shortcut moves axes on a tie"
  },
  {
   "property": "C08",
   "status": "partial",
   "theorems": [
    "Dynd.default_layout_disjoint",
    "Dynd.axis_perm_to_strides_violated",
    "Dynd.axis_perm_to_strides_actual"
   ],
   "note": "axis_perm_to_strides stores sizes instead of strides (violated, with exact description of what it computes); default C layout proved"
  },
  {
   "property": "C09",
   "status": "partial",
   "theorems": [
    "Dynd.f_contiguous_sound",
    "Dynd.c_contiguous_sound",
    "Dynd.c_contiguous_complete",
    "Dynd.type_c_contiguous_sound",
    "Dynd.type_c_contiguous_incomplete_violated",
    "Dynd.rowRank_bounds",
    "Dynd.rowRank_inj",
    "Dynd.rowRank_surj"
   ],
   "note": "the type-level test is incomplete for size-1 dims (violated); everything else proved"
  },
  {
   "property": "C10",
   "status": "partial",
   "theorems": [
    "Dynd.irange_lt_denotes",
    "Dynd.irange_le_denotes",
    "Dynd.irange_leL_denotes",
    "Dynd.irange_ge_denotes",
    "Dynd.irange_ltL_denotes_partial",
    "Dynd.irange_gtL_denotes_partial",
    "Dynd.irange_full_denotes",
    "Dynd.irange_ltL_violated",
    "Dynd.irange_gtL_violated",
    "Dynd.irange_le_max_violated"
   ],
   "note": "the code violates the claim for -1 < irange() and 0 > irange() and at INT64_MAX; all other bounds proved"
  },
  {
   "property": "C100",
   "status": "partial",
   "theorems": [
    "Dynd.readonly_kept_partial",
    "Dynd.readonly_start",
    "Dynd.readonly_copy",
    "Dynd.poke_checked",
    "Dynd.view_inherits",
    "Dynd.readonly_assign_violated",
    "Dynd.readonly_transpose_violated"
   ],
   "note": "Full for pointer writes, views and copies. Assignment, compound assignment, callables with dst and sort ignore the permissions and change immutable arrays; transposing, reshaping and new axes raise on read-only arrays although they write nothing (both proved). Arrays are lists of memory places; types are not modelled here."
  },
  {
   "property": "C101",
   "status": "partial",
   "theorems": [
    "Dynd.destroy_exact_partial",
    "Dynd.destroy_view",
    "Dynd.destroy_unfinished_violated",
    "Dynd.destroy_expression_violated",
    "Dynd.late_block_violated"
   ],
   "note": "Full for string, bytes, type and plain leaves under fixed, var, tuple, struct and option, and for pointers to types without destructor. Arrays of callables, of arrays and of pointers to strings raise inside the destructor; one adapt field makes the whole record leak; a view of a var array that outlives the array reads freed arrmeta (all proved). Sharing of blocks is modelled as holding the last reference."
  },
  {
   "property": "C102",
   "status": "partial",
   "theorems": [
    "Dynd.id_forever",
    "Dynd.new_id_fresh",
    "Dynd.lookup_exact",
    "Dynd.register_exact",
    "Dynd.registered_name_parses",
    "Dynd.unknown_name",
    "Dynd.register_raise_partial",
    "Dynd.lookup_duplicate_violated",
    "Dynd.register_raise_violated"
   ],
   "note": "Full except: an id made with a name already in use is never found by it, and a registration giving a type and an argument parser without a constructor raises but leaves the type registered, so that it cannot be corrected (both proved). Types and functions are opaque numbers; pointers into the registry are not modelled."
  },
  {
   "property": "C103",
   "status": "partial",
   "theorems": [
    "Dynd.json_scalar_exact_partial",
    "Dynd.json_scalar_sound_partial",
    "Dynd.json_scalar_total",
    "Dynd.json_option_unsigned",
    "Dynd.parseBool_exact",
    "Dynd.json_scalar_escape_violated",
    "Dynd.json_scalar_overflow_violated",
    "Dynd.json_scalar_containers_violated"
   ],
   "note": "Exactness, soundness and absence of undefined behaviour are proved for all texts, with two exceptions proved as violations: every string with an escape is stored with the escape, and integers too large for the type may wrap around (the defect of C24). ?uint8, ?uint16, ?uint64 always raise; structs and dimensions have entries without a kernel. Floating point types have no entry."
  },
  {
   "property": "C104",
   "status": "proved",
   "theorems": [
    "Dynd.complex_add_error",
    "Dynd.complex_sub_error",
    "Dynd.complex_mul_error",
    "Dynd.complex_scalar_error",
    "Dynd.complex_add_comm",
    "Dynd.complex_mul_comm",
    "Dynd.complex_sub_eq_add_neg",
    "Dynd.complex_sub_self",
    "Dynd.complex_conj_conj",
    "Dynd.complex_conj_add",
    "Dynd.complex_conj_mul",
    "Dynd.complex_mul_scalar_same",
    "Dynd.complex_add_scalar_same",
    "Dynd.complex_int_exact",
    "Dynd.rnd32_isRounding",
    "Dynd.rnd64_isRounding"
   ],
   "note": "Against the complex field of Mathlib, for every rounding with the stated properties; IEEE round-to-nearest-even of binary32 and binary64 is proved to be one. Assumes operations are rounded one by one (no contraction). Overflow, underflow, infinities and NaN are outside: nothing is claimed then."
  },
  {
   "property": "C105",
   "status": "partial",
   "theorems": [
    "Dynd.complex_div_error",
    "Dynd.scalar_div_complex_error",
    "Dynd.complex_scalar_error",
    "Dynd.complex_div_self",
    "Dynd.complex_conj_div",
    "Dynd.complex_int_div_exact",
    "Dynd.complex_eq_exact",
    "Dynd.complex_assign_self",
    "Dynd.complex_ne_scalar_violated",
    "Dynd.complex_div_own_real_violated",
    "Dynd.complex_div_range_violated"
   ],
   "note": "The error bounds hold whenever the computation stays in range. Violations proved: z != t for a scalar t answers whether they are equal; z /= z.m_real leaves the imaginary part undivided; a divisor of 2^513 or more has no quotient, even by itself."
  },
  {
   "property": "C106",
   "status": "partial",
   "theorems": [
    "Dynd.format_type_exact_partial",
    "Dynd.format_array_exact_partial",
    "Dynd.shown_fits",
    "Dynd.shown_sharpens",
    "Dynd.shown_size",
    "Dynd.format_names_violated",
    "Dynd.format_variadic_violated",
    "Dynd.format_symbolic_violated"
   ],
   "note": "Proved for all types with plain field names, no variadic struct and no symbolic type under a fixed dimension (format_datashape is total on them, free of undefined behaviour, and its text parses to the specified type, single- and multi-line). The rest is false of the code: field names are not quoted, the dots of a struct are dropped, the size above a symbolic element type is replaced by Fixed."
  },
  {
   "property": "C107",
   "status": "partial",
   "theorems": [
    "Dynd.registered_exact",
    "Dynd.registered_total",
    "Dynd.registry_insert_exact",
    "Dynd.registry_observe_exact",
    "Dynd.registry_keeps",
    "Dynd.registry_noub",
    "Dynd.sorted_put",
    "Dynd.sorted_init",
    "Dynd.registry_paths_partial",
    "Dynd.registry_paths_insert_partial",
    "Dynd.registry_paths_nested_violated",
    "Dynd.registry_paths_alias_violated",
    "Dynd.registry_dot_violated",
    "Dynd.registry_dot_unreachable"
   ],
   "note": "Lookup, insertion, observers, keeping and order are proved for all registries, texts and histories. path() is right for registries built from braces and for fresh entries inserted at the top; it is wrong for entries inserted into a nested namespace or inserted a second time, and an entry whose name has a dot can be inserted but is found by no path (violations proved)."
  },
  {
   "property": "C108",
   "status": "partial",
   "theorems": [
    "Dynd.nested_iter_array_exact",
    "Dynd.nested_iter_array_end",
    "Dynd.nested_iter_array_eq",
    "Dynd.mem_allIdx",
    "Dynd.allIdx_nodup",
    "Dynd.nested_iter_flat_exact",
    "Dynd.nested_iter_rows_partial",
    "Dynd.nested_iter_vector_violated",
    "Dynd.nested_iter_empty_row_violated"
   ],
   "note": "Proved for C arrays of every depth and positive extents (all a C++ array can have) and for one level of any container. For containers of separately stored containers with N >= 2 the loop never ends normally (proved for every content and every N): elements are seen in order, but the increment after the last one reads past the end, and empty rows are not skipped."
  },
  {
   "property": "C109",
   "status": "partial",
   "theorems": [
    "Dynd.abi_make_exact",
    "Dynd.abi_parameters_exact",
    "Dynd.abi_alignment_exact",
    "Dynd.abi_alignment_divides",
    "Dynd.abi_equal_exact",
    "Dynd.abi_history_exact",
    "Dynd.abi_last_reference_constructed",
    "Dynd.abi_last_reference_builtin",
    "Dynd.abi_part_not_referenced",
    "Dynd.abi_no_memory",
    "Dynd.abi_unary_drops",
    "Dynd.abi_unary_nothing"
   ],
   "note": "Proved for every history in which no last reference is dropped. Violated by the code: dynd_malloc_buffer fills the start of the buffer as a dynd_buffer, where the release pointer is word 0, but a dynd_type has its reference count there and its release pointer in word 1, so dropping the last reference of any constructed type calls the address of the type as a function; types that are part of another are not counted as referenced; malloc failure and constructor calls with no parameters are not detected, and surplus parameters are dropped."
  },
  {
   "property": "C11",
   "status": "proved",
   "theorems": [
    "Dynd.decode_exact",
    "Dynd.encode_exact",
    "Dynd.encode_decode_roundtrip"
   ],
   "note": "every scalar value, every encoding, any room and any following units"
  },
  {
   "property": "C110",
   "status": "partial",
   "theorems": [
    "Dynd.ragged_index_exact_partial",
    "Dynd.ragged_index_inside_partial",
    "Dynd.ragged_column_partial",
    "Dynd.ragged_column_unchecked",
    "Dynd.ragged_column_violated",
    "Dynd.vals_at_unchecked",
    "Dynd.pointer_to_ragged_ub",
    "Dynd.pointer_block_violated"
   ],
   "note": "Proved (acceptance, elements, owning blocks) for all types, arrmeta, data and index lists in which no integer falls on a variable-size dimension after a kept dimension or a pointer, and pointers name their block. The rest is false of the code, proved: an integer on the rows after a range, and vals_at on a variable-size array, are not checked against the row size, do not count from the end and ignore the offset of the arrmeta; an integer on a pointer to a variable-size array writes arrmeta the result type has no room for; a pointer into its own array, found through a variable-size dimension, gets the wrong owner."
  },
  {
   "property": "C111",
   "status": "partial",
   "theorems": [
    "Dynd.print_rows_partial",
    "Dynd.print_grid_partial",
    "Dynd.print_defined_partial",
    "Dynd.print_words_unique_partial",
    "Dynd.shown_unique",
    "Dynd.printArray_text",
    "Dynd.printArray_unique",
    "Dynd.print_bytes_unique",
    "Dynd.print_two_eq",
    "Dynd.print_eight_violated",
    "Dynd.print_long_element_violated",
    "Dynd.print_comma_violated",
    "Dynd.print_option_violated"
   ],
   "note": "Proved for every array except where the code is wrong, which is proved too: with eight elements printed one per row the last is never looked at (the same text for every last element); two elements of together more than ten lines, and short elements of which the last is alone in its row, are shown without a comma before the last one; an eighth element of 74 or more characters after seven short ones is a remainder by zero; optional strings, bytes, most unsigned integers and all structured values are shown as NA. Elements of 36 to 73 characters in a grid: only definedness is proved."
  },
  {
   "property": "C112",
   "status": "partial",
   "theorems": [
    "Dynd.abi_threads_safe",
    "Dynd.abi_threads_count",
    "Dynd.abi_threads_released_once",
    "Dynd.abi_threads_no_leak",
    "Dynd.abi_threads_finish",
    "Dynd.abi_threads_happens_before",
    "Dynd.abi_fallback_leak_violated",
    "Dynd.abi_fallback_use_after_release_violated"
   ],
   "note": "Proved in full where the C11 or C++11 definitions of the atomic operations are compiled, for any number of threads and below 2^64 references. With the other definitions (gcc intrinsics; MSVC in C, or in C++ without /Zc:__cplusplus) fetch_sub returns the new value: the only reference releases nothing and one of two releases an object still in use (both proved). The memory model is that of release sequences on one location on which only read-modify-write operations are performed."
  },
  {
   "property": "C113",
   "status": "partial",
   "theorems": [
    "Dynd.bool1_history_partial",
    "Dynd.bool1_arith_exact",
    "Dynd.bool1_compare_exact",
    "Dynd.bool1_print_exact",
    "Dynd.bool1_avail",
    "Dynd.bool1_add_violated",
    "Dynd.bool1_sub_violated",
    "Dynd.bool1_div_violated"
   ],
   "note": "Proved for all histories of operations with truth values as results. False of the code: the compound operators change the stored byte without normalising it: true += true (any number of times up to 254) compares equal to true, adds differently and is missing as an optional value, after 255 times it is false; false -= true is true and missing; dividing by false is undefined. char is taken to be signed."
  },
  {
   "property": "C114",
   "status": "partial",
   "theorems": [
    "Dynd.built_single_exact",
    "Dynd.built_call_exact",
    "Dynd.built_strided_exact",
    "Dynd.cbInst_resolve",
    "Dynd.apply_elements",
    "Dynd.left_compound_accumulates",
    "Dynd.right_compound_accumulates",
    "Dynd.left_compound_types_violated",
    "Dynd.right_compound_types_violated"
   ],
   "note": "Proved for every nesting of the combinators except the last sentence, which the code violates: left_compound declares the type of the first parameter but hands the argument over as the second, right_compound the other way round, so a function whose two parameters have different types reads its argument as the wrong type; right_compound of a function with fewer than two parameters is undefined."
  },
  {
   "property": "C115",
   "status": "partial",
   "theorems": [
    "Dynd.quad_of_double_exact",
    "Dynd.quad_of_half_exact",
    "Dynd.quad_class_exact",
    "Dynd.quad_less_exact",
    "Dynd.quad_less_eq_partial",
    "Dynd.quad_of_bool",
    "Dynd.quad_of_double_special_violated",
    "Dynd.quad_less_eq_violated",
    "Dynd.quad_of_int8_violated",
    "Dynd.quad_of_int16_violated",
    "Dynd.quad_of_int32_violated",
    "Dynd.quad_of_unsigned_violated",
    "Dynd.quad_of_int64_violated",
    "Dynd.quad_operators_violated"
   ],
   "note": "Proved in full: finite float64 and float16 sources, bool, the predicates, less_nonan, and less_equal_nonan except 0 <= -0. False of the code, proved: infinity and NaN become finite (exponent 0x7ff0); every integer of up to 32 bits becomes 2^456 times itself (the bias is written 16838), the smallest int and every nonzero 64-bit integer are undefined; bool1 leaves the number uninitialised; 0 <= -0 is false; every operator throws."
  },
  {
   "property": "C116",
   "status": "proved",
   "theorems": [
    "Dynd.sssp_exact",
    "Dynd.make_grid_exact",
    "Dynd.gridAdj_cells",
    "Dynd.grid_distance",
    "Dynd.sparse_example_exact",
    "Dynd.reversed_indices_ignored"
   ],
   "note": "Full. std::priority_queue is modelled by its contract, malloc is assumed to succeed (its result is not tested), and the types and headers of the arrays are those of C109. reversed_indices_ignored shows why the indices of a row must be at increasing addresses."
  },
  {
   "property": "C117",
   "status": "partial",
   "theorems": [
    "Dynd.assign_table",
    "Dynd.assign_choice",
    "Dynd.handles_unique",
    "Dynd.assign_builds_right_partial",
    "Dynd.too_many_dims_rejected",
    "Dynd.size_mismatch_rejected",
    "Dynd.tuple_length_rejected",
    "Dynd.no_conversion_overflows",
    "Dynd.option_uint_rejected",
    "Dynd.fixed_bytes_never",
    "Dynd.fixed_string_from_int_wrong",
    "Dynd.pointer_never",
    "Dynd.option_string_never",
    "Dynd.array_of_bool_from_string_ub",
    "Dynd.option_int_in_tuple_wrong",
    "Dynd.overload_breaks_options",
    "Dynd.overload_breaks_option_int"
   ],
   "note": "Proved: the table is built without an error in a known order for every sharing of type objects, at most one overload but the fallback is meant for a pair (option <- option: two, and the copying one is chosen), and for the pairs of Works (numbers, text, types, options with a missing value, arrays with broadcasting, tuples and structs of up to 8 fields, nested to any depth) the tree of kernels is the right one. False of the code, proved: a pair without a conversion (a number to a string, a string to an unsigned number, anything categorical, ...) overflows the stack instead of an error; fixed_bytes and pointers never work; int32 to fixed_string builds the parser; option[string] <- string never ends; a string for an optional number leaves nodes behind, so the next field of a tuple gets the wrong kernel; bool, float32 and fixed_string below an array or a struct read a type that is gone; registering any overload reverses the order, so that optional values are then assigned with the kernel that fails on a missing value."
  },
  {
   "property": "C118",
   "status": "partial",
   "theorems": [
    "Dynd.arith_table",
    "Dynd.less_table",
    "Dynd.eq_table",
    "Dynd.arith_call_partial",
    "Dynd.less_call_partial",
    "Dynd.eq_call_partial",
    "Dynd.compare_undefined_rejected",
    "Dynd.operator_sizes_rejected",
    "Dynd.arith_undefined_overflow_violation",
    "Dynd.var_scalar_violation",
    "Dynd.eq_tuple_size_violation",
    "Dynd.eq_tuple_short_violation",
    "Dynd.eq_tuple_missing_violation",
    "Dynd.eq_tuple_dim_violation",
    "Dynd.eq_struct_names_violation",
    "Dynd.arith_overload_violation"
   ],
   "note": "Proved: the tables are built without an error for every sharing of type objects; for every pair of OpOK (built-in pairs, missing values, arrays with broadcasting, tuples and structs of up to 8 fields) the kernels and the result type are the right ones; undefined comparisons and sizes that do not fit are refused. False of the code, proved: an arithmetic operator on a pair it is not defined for calls itself without end instead of an error; var and a scalar build the kernel for a fixed result although the result is var; comparing tuples of more than 8 fields or with a shorter second tuple is undefined, fields that can be missing store the marker into a plain bool, an array only in the second tuple recurses without end, struct field names are ignored; adding an overload makes every operation with an optional operand recurse without end."
  },
  {
   "property": "C119",
   "status": "partial",
   "theorems": [
    "Dynd.unary_table",
    "Dynd.is_na_table",
    "Dynd.run_nested",
    "Dynd.unary_call_partial",
    "Dynd.unary_rejected",
    "Dynd.unary_operands",
    "Dynd.is_na_call_partial",
    "Dynd.is_na_rejected",
    "Dynd.lifted_call_partial",
    "Dynd.lifted_rejected",
    "Dynd.unary_leading_one",
    "Dynd.unary_leading_one_violation",
    "Dynd.unary_one_var_violation",
    "Dynd.unary_optional_violation",
    "Dynd.unary_dst_type_violation",
    "Dynd.in_place_violation",
    "Dynd.is_na_option_array_violation"
   ],
   "note": "Proved: the tables are built without an error for every sharing of type objects; on every nesting of fixed and var dimensions in which no dimension of size 1 stands before another dimension, the result has the same dimensions and every element is the function of the corresponding one; other element types are refused. False of the code, proved: after a dimension of size 1 the metadata of the operand is not advanced, so the loop goes by a wrong stride (outside the array) or reads the metadata as of another kind; operators of one argument refuse optional elements; a given destination type is not checked; self += rhs and self /= rhs are refused for all arrays; is_na of an optional array tests one element."
  },
  {
   "property": "C12",
   "status": "proved",
   "theorems": [
    "Dynd.decode_exact",
    "Dynd.decode_in_bounds",
    "Dynd.decode_encode_roundtrip"
   ],
   "note": "checked decoders accept exactly the well-formed sequences and never read past the end"
  },
  {
   "property": "C120",
   "status": "partial",
   "theorems": [
    "Dynd.bcast_runs",
    "Dynd.op_arrays",
    "Dynd.arith_arrays_partial",
    "Dynd.less_arrays_partial",
    "Dynd.eq_arrays_partial",
    "Dynd.combine_swap",
    "Dynd.bcast_swap",
    "Dynd.binary_leading_one_violation",
    "Dynd.binary_matrix_var_violation",
    "Dynd.binary_var_matrix_violation",
    "Dynd.binary_var_scalar_violation"
   ],
   "note": "Proved for every pair of nestings in the relation Bcast (which is symmetric), from the choice of the overload to the result in memory: the result has the announced dimensions and is the operands combined with broadcasting, or the broadcast error is reported. False of the code, proved: a size-1 dimension before a longer one reads outside the array; a matrix and a ragged row, ragged rows and fixed rows, and a ragged row and a scalar use array metadata as of another kind. Not modelled: elements that are tuples or structs (their resolution is in C118), three or more operands."
  },
  {
   "property": "C121",
   "status": "partial",
   "theorems": [
    "Dynd.copy_joint",
    "Dynd.assign_arrays_partial",
    "Dynd.assign_new_array_partial",
    "Dynd.fresh_ready",
    "Dynd.assign_leading_one_violation",
    "Dynd.assign_matrix_var_violation",
    "Dynd.assign_fixed_to_var_violation"
   ],
   "note": "Proved for every pair of nestings in the relation CopyFits and every destination whose elements do not share memory, from the choice of the overload to memory: the destination has the value given by broadcasting (spec fillWith), or the error is reported, and nothing else that was there has changed; a copy into a new array has the value of the source. False of the code, proved: a source with a dimension of size 1 before a longer one is read outside (copying [[7, 8]] gives [[7, 99]]); a ragged row assigned to a matrix, and fixed rows assigned to a ragged array of rows, use array metadata as of another kind. Not modelled: elements that are tuples or structs, source and destination overlapping."
  },
  {
   "property": "C122",
   "status": "partial",
   "theorems": [
    "Dynd.masked_take_call_partial",
    "Dynd.takeLoop_ok",
    "Dynd.take_index_type",
    "Dynd.indexed_take_call_violation",
    "Dynd.indexed_take_result",
    "Dynd.masked_take_var_violation",
    "Dynd.take_var_mask_violation"
   ],
   "note": "Proved for masks: for an array whose first dimension is fixed and whose elements have any nesting without a size-1 dimension before a longer one (CopyFits b b), with any strides and offsets, the call from resolution to memory gives exactly the selected elements, and refuses a mask of another size or type. False of the code, proved: with indices the element assignment runs instead of the take, on the first element; a ragged array or a ragged mask has its metadata read as of another kind. Not modelled: elements that are tuples or structs, a result type given by the caller."
  },
  {
   "property": "C123",
   "status": "partial",
   "theorems": [
    "Dynd.reduce_call_partial",
    "Dynd.reduce_rows_partial",
    "Dynd.reduce_scalar_partial",
    "Dynd.reduce_int_partial",
    "Dynd.reduce_start_others",
    "Dynd.reduce_rejected",
    "Dynd.reduce_resolve",
    "Dynd.reduce_wide_violated",
    "Dynd.reduce_narrow_violated",
    "Dynd.reduce_outer_var_violated",
    "Dynd.reduce_kept_var_violated"
   ],
   "note": "Proved from the choice of the kernels to the bytes of the result for fixed dimensions of any number, sizes and strides, for a last dimension that is var and reduced below any fixed dimensions, and for scalars, on every element type whose size is that of the starting value (nd::min, nd::max, nd::all, and nd::sum on elements of 4 bytes). False of the code otherwise: the identity of nd::sum is stored as an int whatever the element type, so sums of 8-byte elements (int64, uint64, float64) start from uninitialised memory in their upper half and sums of 1- and 2-byte elements overwrite the bytes after the result; a var dimension that is not the last makes the call run past the call graph; a var dimension that is kept is reduced nevertheless and the number stored over the record. Undefined integer overflow of partial sums is C80."
  },
  {
   "property": "C124",
   "status": "partial",
   "theorems": [
    "Dynd.sort_call_partial",
    "Dynd.sort_rejected",
    "Dynd.search_call_partial",
    "Dynd.search_rejected",
    "Dynd.sort_option_violated",
    "Dynd.sort_nans_violated",
    "Dynd.sort_backwards_violated",
    "Dynd.search_key_violated",
    "Dynd.category_lookup_violated"
   ],
   "note": "Proved from the check of the arguments to memory: sorting for booleans, integers up to 64 bits, floats without NaN and strings at any positive stride, with std::sort known only by its contract; searching for int32, bool and string elements and a value of the same type; what is refused. False of the code: with a missing value the comparison writes 2, which counts as true, so an optional element comes before itself; a NaN makes the comparison no strict weak order; a reversed view has its end before its beginning (all three undefined in std::sort); the value searched for is not converted, its bytes are read as an element; element types without an overload of total_order cannot be searched, so no categorical type over them can look a category up."
  },
  {
   "property": "C125",
   "status": "partial",
   "theorems": [
    "Dynd.string_call_partial",
    "Dynd.string_element_partial",
    "Dynd.string_rejected",
    "Dynd.check_two",
    "Dynd.check_longest_first_partial",
    "Dynd.bcast_aligned",
    "Dynd.string_replace_violated",
    "Dynd.string_var_scalar_violated"
   ],
   "note": "Proved for the functions of two strings, from the check of the arguments to memory, for every pair of nestings in the relation Bcast (C120); the elements for non-empty needles, for rfind needles of two bytes or more, for count as in C18; with two arguments, or when no argument has more dimensions than the first, the answer of the check does not depend on uninitialised memory, and what is refused is characterised exactly. False of the code: the check of three arguments keeps uninitialised dimensions (string_replace may refuse arguments that fit); a ragged row and one string use array metadata as of another kind, and the other cases of C120. The run of string_replace (three arguments) and string_split are not modelled."
  },
  {
   "property": "C126",
   "status": "partial",
   "theorems": [
    "Dynd.random_new_partial",
    "Dynd.random_into_partial",
    "Dynd.random_rejected",
    "Dynd.random_symbolic",
    "Dynd.random_offset",
    "Dynd.random_bound_types",
    "Dynd.random_uint64_violated",
    "Dynd.random_bounds_violated",
    "Dynd.random_type_violated"
   ],
   "note": "Holds for every array type with one of the eight element types, new or existing, when the bounds are permitted ones. Violated: for uint64 a left-out bound makes the call fail (there is no missing value of uint64); bounds with a > b, also when one is the default (uniform with only b = -1 for int32, only a = 2 for float64), are not checked and are undefined behaviour in the C++ distribution; two bounds with no destination fail although the type of the result is known; a var dimension that has no memory gets one element (random_new_partial). The distributions, the generator and floating point numbers are parameters; which part of a complex number is drawn first is unspecified in C++ and a parameter."
  },
  {
   "property": "C127",
   "status": "partial",
   "theorems": [
    "Dynd.field_by_name",
    "Dynd.field_unknown",
    "Dynd.field_of_scalar",
    "Dynd.field_copy_source",
    "Dynd.field_copy_violated",
    "Dynd.field_nul_violated",
    "Dynd.field_pointer_violated"
   ],
   "note": "a.p(name) is proved exact for all fixed and var dimensions, arrmeta, field types and names without NUL; unknown names and non-structs raise. Violated: nd::field_access with an unknown name indexes with -1 (undefined behaviour); a std::string name is cut at its first NUL; a pointer to an array of structs, though indexing passes through it, has no fields."
  },
  {
   "property": "C128",
   "status": "partial",
   "theorems": [
    "Dynd.serialize_call_partial",
    "Dynd.serialize_rows_partial",
    "Dynd.serialize_whole_partial",
    "Dynd.allBytes_element",
    "Dynd.allBytes_inj",
    "Dynd.serialize_scalar_violated",
    "Dynd.serialize_outer_var_violated",
    "Dynd.serialize_kept_var_violated"
   ],
   "note": "Proved from the call to the contents of the result for every built-in element type, for fixed dimensions of any number, sizes and strides, and for a last dimension that is var and reduced. False of the code: a scalar raises instead of being serialised; a var dimension that is not the last makes the call run past the call graph; a var dimension that is kept is reduced nevertheless, into a place that is a record. Without keepdims, two kept dimensions are those of C80. A bytes object is a unit (its appending is C21); elements that are not of a built-in type are not modelled."
  },
  {
   "property": "C129",
   "status": "partial",
   "theorems": [
    "Dynd.asarray_same",
    "Dynd.asarray_new_partial",
    "Dynd.asarray_convert_partial",
    "Dynd.asarray_rejected",
    "Dynd.asarray_again",
    "Dynd.asarray_admitted",
    "Dynd.asarray_symbolic_rejected",
    "Dynd.asarray_scalar_violated"
   ],
   "note": "Proved for arrays of any nesting of fixed and var dimensions and for requested types whose dimensions are sizes, Fixed or var and whose element type is concrete; the copy is proved for the pairs of dimensions and element types of C121 and C99. False of the code: an array without dimensions asked for as one with a Fixed dimension makes the call read a shape that does not exist. Requested types of other forms (C77, C96) are covered only where they admit the array; structs are not; the strings of the new array are units (C21)."
  },
  {
   "property": "C13",
   "status": "partial",
   "theorems": [
    "Dynd.encode_exact",
    "Dynd.encode_unit_bound",
    "Dynd.encode_utf8_length",
    "Dynd.append_surrogate_violated"
   ],
   "note": "exact on scalar values; writing a surrogate is accepted by the UTF-16/32 writers (append_surrogate_violated)"
  },
  {
   "property": "C130",
   "status": "partial",
   "theorems": [
    "Dynd.assign_na_scalar",
    "Dynd.assign_na_then_is_na",
    "Dynd.assign_na_new",
    "Dynd.assign_na_rejected",
    "Dynd.assign_na_unsupported",
    "Dynd.assign_na_no_dst",
    "Dynd.assign_na_array_violated",
    "Dynd.assign_na_option_array_violated"
   ],
   "note": "Proved from the call to memory for optional scalars of every type that has a missing value, and for everything that is refused. False of the code: an array of optional elements is refused for every element type (the type of the function is () -> ?Any), although there are overloads for arrays; of an optional fixed array only the first element is written. Which bytes a missing value is, and that is_na recognises them: C33."
  },
  {
   "property": "C131",
   "status": "proved",
   "theorems": [
    "Dynd.limits_call",
    "Dynd.limits_rejected",
    "Dynd.limit_max_greatest",
    "Dynd.limit_min_least"
   ],
   "note": "The call is bound and dispatched as in C90 and C119. That the constants are the greatest and the least finite value is stated with IEEE values (C29), not with bits."
  },
  {
   "property": "C14",
   "status": "partial",
   "theorems": [
    "Dynd.as_utf8_exact",
    "Dynd.string_set_exact",
    "Dynd.string_from_fixed_exact",
    "Dynd.fixed_string_assign_exact",
    "Dynd.fixed_fixed_assign_exact",
    "Dynd.fixed_string_roundtrip",
    "Dynd.encodeAll_inj",
    "Dynd.as_utf8_ascii_unchecked_violated"
   ],
   "note": "error-checked transcoding preserves the code point sequence; string_range_as_utf8_string copies ascii/utf8 without checking (violated witness)"
  },
  {
   "property": "C15",
   "status": "partial",
   "theorems": [
    "Dynd.noerror_agrees",
    "Dynd.noerror_progress_partial",
    "Dynd.noerror_utf8_in_bounds",
    "Dynd.noerror_utf8_no_progress_violated",
    "Dynd.noerror_utf16_oob_violated"
   ],
   "note": "agreement on valid input proved for all encodings; progress fails for utf8 and bounds fail for utf16 (violated witnesses)"
  },
  {
   "property": "C16",
   "status": "partial",
   "theorems": [
    "Dynd.escaped_print_read_roundtrip",
    "Dynd.escaped_datashape_roundtrip_partial",
    "Dynd.escaped_datashape_supplementary_violated"
   ],
   "note": "full round trip for the string reader; for the datashape reader only the BMP, with the counterexample for all supplementary code points"
  },
  {
   "property": "C17",
   "status": "proved",
   "theorems": [
    "Dynd.string_find_exact",
    "Dynd.string_contains_exact"
   ],
   "note": "all haystacks and non-empty needles"
  },
  {
   "property": "C18",
   "status": "partial",
   "theorems": [
    "Dynd.string_rfind_exact_partial",
    "Dynd.string_rfind_single_violated"
   ],
   "note": "proved for needles of two or more bytes; false for one-byte needles (always -1 on haystacks of two or more bytes)"
  },
  {
   "property": "C19",
   "status": "partial",
   "theorems": [
    "Dynd.string_count_exact_partial",
    "Dynd.string_replace_exact_partial",
    "Dynd.string_split_exact_partial",
    "Dynd.string_replace_byte_exact",
    "Dynd.string_replace_sound",
    "Dynd.pieces_unique",
    "Dynd.string_count_adjacent_violated",
    "Dynd.string_count_memchr_violated"
   ],
   "note": "exact under CountSafe; memory safe for all needles of two or more bytes; the code misses adjacent occurrences and reads past the end for one-byte needles (violated witnesses)"
  },
  {
   "property": "C20",
   "status": "proved",
   "theorems": [
    "Dynd.string_startswith_exact",
    "Dynd.string_endswith_exact",
    "Dynd.string_concat_exact"
   ],
   "note": ""
  },
  {
   "property": "C21",
   "status": "partial",
   "theorems": [
    "Dynd.sso_history_partial",
    "Dynd.sso_eq_exact",
    "Dynd.sso_resize_violated",
    "Dynd.sso_self_append_violated"
   ],
   "note": "all histories except self-append and in-object resize losing size bits, for which the claim is false"
  },
  {
   "property": "C22",
   "status": "partial",
   "theorems": [
    "Dynd.fixed_string_assign_exact",
    "Dynd.fixed_fixed_assign_exact",
    "Dynd.fixed_string_roundtrip",
    "Dynd.fixed_fixed_exact_fit_violated",
    "Dynd.fixed_string_nul_violated"
   ],
   "note": "Exact for the error-checked modes; the remaining cases are shown to fail by the violated theorems listed."
  },
  {
   "property": "C23",
   "status": "proved",
   "theorems": [
    "Dynd.int_assign_exact",
    "Dynd.int_assign_bool_exact"
   ],
   "note": "All widths >= 8 bits, all signedness pairs, all values: exact if representable, overflow error otherwise; bool accepts exactly 0/1."
  },
  {
   "property": "C24",
   "status": "partial",
   "theorems": [
    "Dynd.parse_unsigned_partial",
    "Dynd.parse_unsigned_exact",
    "Dynd.parse_unsigned_sound",
    "Dynd.parse_unsigned_total",
    "Dynd.UIntText.unique",
    "Dynd.parse_unsigned_violated"
   ],
   "note": "Proved: full characterisation of accepted texts, exact when representable, otherwise raise or value mod 2^bits. The remaining clause (always raise when unrepresentable) is false of the code: parse_unsigned_violated gives a counterexample for every width."
  },
  {
   "property": "C25",
   "status": "partial",
   "theorems": [
    "Dynd.parse_signed_partial",
    "Dynd.parse_signed_exact",
    "Dynd.parse_signed_sound",
    "Dynd.parse_signed_violated",
    "Dynd.string_to_signed_partial",
    "Dynd.string_to_int64_nonneg_partial",
    "Dynd.string_to_int64_violated",
    "Dynd.trim_spec"
   ],
   "note": "Exact-or-raise proved whenever the magnitude is below 2^bits (parser) / 2^64 (assignment kernel). Violations proved: \"300\" as int8 is 44; a negative string assigned to int64 negates INT64_MIN (undefined behaviour)."
  },
  {
   "property": "C26",
   "status": "proved",
   "theorems": [
    "Dynd.print_parse_int",
    "Dynd.printInt_text",
    "Dynd.print_assign_int"
   ],
   "note": "All integer types, all values."
  },
  {
   "property": "C27",
   "status": "partial",
   "theorems": [
    "Dynd.float_to_int_overflow_partial",
    "Dynd.float_to_int_fractional_partial",
    "Dynd.float_to_bool_exact",
    "Dynd.complex_to_int",
    "Dynd.IsTrunc.unique",
    "Dynd.float_to_int_overflow_violated",
    "Dynd.float_to_int_fractional_violated"
   ],
   "note": "exact characterisation for every bit pattern; the claim fails exactly for NaN (overflow mode) and for the value one past a maximum that the float format cannot represent, where the conversion is undefined (violated theorems cover all such inputs)"
  },
  {
   "property": "C28",
   "status": "proved",
   "theorems": [
    "Dynd.half_to_float_exact",
    "Dynd.half_to_double_exact",
    "Dynd.half_round_trip"
   ],
   "note": "every bit pattern, symbolically (not by enumeration)"
  },
  {
   "property": "C29",
   "status": "proved",
   "theorems": [
    "Dynd.float_to_half_correct",
    "Dynd.double_to_half_correct"
   ],
   "note": "CorrectToHalf: nearest-even, exact-or-throw underflow, overflow to infinity or throw, NaN stays NaN; all 2^32 / 2^64 bit patterns"
  },
  {
   "property": "C30",
   "status": "partial",
   "theorems": [
    "Dynd.half_order_exact",
    "Dynd.half_class_exact",
    "Dynd.half_operators_exact",
    "Dynd.half_bool_violated"
   ],
   "note": "the order and classification clauses are proved; the truth-value clause is false of the code: every half converts to true"
  },
  {
   "property": "C31",
   "status": "partial",
   "theorems": [
    "Dynd.W128.add_exact",
    "Dynd.W128.addU64_exact",
    "Dynd.W128.bnot_exact",
    "Dynd.W128.neg_exact",
    "Dynd.W128.sub_exact_partial",
    "Dynd.W128.subU64_exact_partial",
    "Dynd.W128.unegate_exact_partial",
    "Dynd.W128.compare_exact",
    "Dynd.W128.truth_exact",
    "Dynd.W128.signed_exact",
    "Dynd.W128.sub_violated",
    "Dynd.W128.subU64_violated",
    "Dynd.W128.addAssign_violated",
    "Dynd.W128.unot_violated"
   ],
   "note": "+, ~, signed negation, comparisons exact for all values; subtraction exact unless the low word subtracted is zero, where it is off by 2^64; += is never right; unsigned negation characterised; ! of uint128 wrong"
  },
  {
   "property": "C32",
   "status": "partial",
   "theorems": [
    "Dynd.W128.mul32_exact",
    "Dynd.W128.divrem32_exact",
    "Dynd.W128.uprint_exact",
    "Dynd.W128.sprint_exact",
    "Dynd.W128.smul32_exact_partial",
    "Dynd.W128.smul32_violated"
   ],
   "note": "all exact for uint128 and for int128 except the product of the minimum, which recurses forever"
  },
  {
   "property": "C33",
   "status": "partial",
   "theorems": [
    "Dynd.assign_na_is_na",
    "Dynd.ordinary_is_available",
    "Dynd.is_na_iff_reserved",
    "Dynd.na_bits_are_nan",
    "Dynd.builtin_agrees",
    "Dynd.string_na_violated",
    "Dynd.builtin_unsigned_violated"
   ],
   "note": "exact for bool, all integers, float, double, complex, void; violated for string and bytes, whose NA is never detected; pointer raises \"not implemented\" and is left out"
  },
  {
   "property": "C34",
   "status": "partial",
   "theorems": [
    "Dynd.opt_assign_exact_partial",
    "Dynd.optSpec_pointwise",
    "Dynd.opt_assign_pointwise_partial",
    "Dynd.opt_assign_long_violated",
    "Dynd.opt_assign_wraps_violated",
    "Dynd.opt_to_value_exact",
    "Dynd.opt_to_value_na_throws",
    "Dynd.opt_narrowing_violated"
   ],
   "note": "exact for count <= 128 (one chunk); the code is wrong for every longer strided assignment (undefined behaviour or restarting at the source start, both proved); option to value proved for any count"
  },
  {
   "property": "C35",
   "status": "partial",
   "theorems": [
    "Dynd.promote_builtin_total",
    "Dynd.promote_builtin_comm_iff",
    "Dynd.promote_comm_violated",
    "Dynd.promote_comm_partial",
    "Dynd.promote_lossless_iff",
    "Dynd.promote_lossless_violated",
    "Dynd.promote_var_fixed_violated"
   ],
   "note": "exact set of commuting and of lossless pairs of builtin types; commutation for all types without float16; the code violates both parts for the listed pairs"
  },
  {
   "property": "C36",
   "status": "partial",
   "theorems": [
    "Dynd.datashape_roundtrip_partial",
    "Dynd.datashape_text_injective_partial",
    "Dynd.pow_fixed_base_violated",
    "Dynd.empty_variadic_violated",
    "Dynd.typevar_reserved_violated",
    "Dynd.callable_keyword_quoted_violated",
    "Dynd.callable_variadic_violated",
    "Dynd.fixed_string_zero_violated",
    "Dynd.dim_fragment_violated",
    "Dynd.categorical_rejected_violated",
    "Dynd.fixed_bytes_size_violated",
    "Dynd.parser_drops_text_violated"
   ],
   "note": "All types of any nesting and width satisfying the spec predicate Describable; every condition of it that the library does not itself demand is a defect of the printer or parser, with a counterexample theorem."
  },
  {
   "property": "C37",
   "status": "partial",
   "theorems": [
    "Dynd.tyEq_iff",
    "Dynd.match_concrete_iff",
    "Dynd.match_iff_partial",
    "Dynd.match_false_iff",
    "Dynd.match_total",
    "Dynd.match_sound_partial",
    "Dynd.match_subst_partial",
    "Dynd.match_subst_callable_partial",
    "Dynd.match_subst_ellipsis_partial",
    "Dynd.match_same_irrelevant",
    "Dynd.dim_kind_forgets_bindings",
    "Dynd.pow_var_skips_dims",
    "Dynd.ellipsis_growth_uninitialised",
    "Dynd.typevar_dim_matches_option",
    "Dynd.bytes_kind_misses_fixed_bytes",
    "Dynd.subst_drops_variadic",
    "Dynd.subst_callable_keywords",
    "Dynd.subst_callable_inside",
    "Dynd.binding_depends_on_identity",
    "Dynd.failed_match_leaves_bindings"
   ],
   "note": "Types of any depth against concrete types. Exactly the instances match for patterns without ellipsis, powers and Dim; soundness also with ellipsis and fixed powers; substitution gives the candidate back for kind-free, non-variadic patterns. The excluded patterns are shown to violate the property."
  },
  {
   "property": "C38",
   "status": "proved",
   "theorems": [
    "Dynd.default_layout",
    "Dynd.default_size_exact",
    "Dynd.layoutSample_ok",
    "Dynd.default_size_overflow_violated"
   ],
   "note": "any nesting of fixed dims, tuples, structs whose sizes stay below 2^63; beyond size_t the size silently wraps (proved)"
  },
  {
   "property": "C39",
   "status": "partial",
   "theorems": [
    "Dynd.parse_json_means",
    "Dynd.format_json_means",
    "Dynd.json_roundtrip_partial",
    "Dynd.json_tuple_format_violated",
    "Dynd.json_unsigned_option_violated",
    "Dynd.json_negative_int64_violated",
    "Dynd.json_malformed_string_violated",
    "Dynd.json_surrogate_pair_violated"
   ],
   "note": "Round trip for every value of every nesting of bool, integers up to 64 bits, well-formed strings, options of those, structs (both styles), fixed and var dimensions; the excluded cases (tuples, options of unsigned integers whose value equals the missing value, negative int64 at the limit, malformed strings) are shown to fail."
  },
  {
   "property": "C40",
   "status": "partial",
   "theorems": [
    "Dynd.validate_json_exact",
    "Dynd.validate_json_accepts_rfc",
    "Dynd.validate_json_lax_violated",
    "Dynd.skip_json_total"
   ],
   "note": "Exact language of validate_json for all byte strings, and it contains all of RFC 8259; it also accepts raw control characters, other whitespace and unknown escapes (proved), so it is not exactly JSON."
  },
  {
   "property": "C41",
   "status": "partial",
   "theorems": [
    "Dynd.json_object_fields_partial",
    "Dynd.json_object_order_partial",
    "Dynd.json_object_missing_raises_partial",
    "Dynd.json_missing_unsigned_violated"
   ],
   "note": "For member names and values without surrogate-pair escapes; a missing optional unsigned field is left unwritten (proved violation)."
  },
  {
   "property": "C42",
   "status": "proved",
   "theorems": [
    "Dynd.topo_sort_exact",
    "Dynd.buildEdges_spec",
    "Dynd.assign_ordered",
    "Dynd.dispatcher_ordered",
    "Dynd.assign_succeeds_iff",
    "Dynd.topo_sort_empty_violated"
   ],
   "note": "all finite graphs / overload sets and histories of registrations; for an empty set the output iterator leaves the range (proved)"
  },
  {
   "property": "C43",
   "status": "proved",
   "theorems": [
    "Dynd.dispatch_most_specific",
    "Dynd.assign_succeeds_iff"
   ],
   "note": "any match relation, any history of registrations"
  },
  {
   "property": "C44",
   "status": "partial",
   "theorems": [
    "Dynd.memblock_allocations_good",
    "Dynd.memblock_alloc_total",
    "Dynd.alloc_overflow_violated",
    "Dynd.reset_after_failure_violated"
   ],
   "note": "Proved for every history (allocations incl. failing ones, resizes of the last allocation, client writes, finalize, reset) under the malloc contract, for requests below 2^63 bytes and no reset after a failed malloc; the two excluded cases are violated."
  },
  {
   "property": "C45",
   "status": "partial",
   "theorems": [
    "Dynd.zeroinit_resize_partial",
    "Dynd.pod_resize_partial",
    "Dynd.pod_resize_violated",
    "Dynd.pod_resize_example_violated",
    "Dynd.zeroinit_resize_inplace_violated",
    "Dynd.object_resize_inplace_violated",
    "Dynd.object_resize_move_violated"
   ],
   "note": "False of the code: a POD block that must move its last allocation reads out of bounds (unless malloc returns the adjacent address), in-place growth of a zeroinit block is not cleared, object blocks clear the wrong element and copy too little. Proved: content preserved in place, and moves of zeroinit blocks."
  },
  {
   "property": "C46",
   "status": "partial",
   "theorems": [
    "Dynd.elwise_var_fresh",
    "Dynd.elwise_var_existing",
    "Dynd.elwise_fixed_existing",
    "Dynd.elwise_var_order",
    "Dynd.elwise_result_kind_partial",
    "Dynd.elwise_var_scalar_violated"
   ],
   "note": "The kernels for one run-time dimension satisfy the property in full; the choice of kernel does not: exactly when a var operand meets a scalar and no longer fixed operand, the result type says var but a fixed-destination kernel is used. Nested var dimensions: C119 and C120."
  },
  {
   "property": "C47",
   "status": "proved",
   "theorems": [
    "Dynd.masked_take_exact"
   ],
   "note": "The selection itself, elements being opaque. The call with its metadata, memory and nested elements is C122, where ragged arguments are shown to be undefined."
  },
  {
   "property": "C48",
   "status": "partial",
   "theorems": [
    "Dynd.indexed_take_exact",
    "Dynd.indexed_take_call_violation",
    "Dynd.indexed_take_result"
   ],
   "note": "The kernel is right (indexed_take_exact), but a call never runs it: the nodes of the element assignment come first in the call graph, so whatever the indices are, the first element is copied to the first place and nothing else is written (indexed_take_call_violation)."
  },
  {
   "property": "C49",
   "status": "proved",
   "theorems": [
    "Dynd.binary_search_exact",
    "Dynd.strictWeak_int",
    "Dynd.strictWeak_lex"
   ],
   "note": ""
  },
  {
   "property": "C50",
   "status": "proved",
   "theorems": [
    "Dynd.range_exact",
    "Dynd.range_zero_step",
    "Dynd.range_short_forms",
    "Dynd.range_overflow_violated"
   ],
   "note": "The hypothesis is exactly the no-overflow condition of the property; the overflow case is shown to be undefined behaviour."
  },
  {
   "property": "C51",
   "status": "proved",
   "theorems": [
    "Dynd.byteswap_reverses",
    "Dynd.byteswap_involution",
    "Dynd.pairswap_reverses",
    "Dynd.byteswap_value_reverses"
   ],
   "note": ""
  },
  {
   "property": "C52",
   "status": "partial",
   "theorems": [
    "Dynd.reduction_fold_partial",
    "Dynd.reduction_fresh_partial",
    "Dynd.reduction_scalar",
    "Dynd.reduction_two_kept_violated",
    "Dynd.reduction_empty_outer_violated",
    "Dynd.reduction_empty_result_violated",
    "Dynd.reduction_zero_stride_violated"
   ],
   "note": "Any rank, strides, axis set and operation, one operand. Holds when at most one dimension is kept or keepdims is set, reduced dimensions other than the last are non-empty and result strides are non-zero; each restriction is shown to be necessary by a violation theorem."
  },
  {
   "property": "C53",
   "status": "proved",
   "theorems": [
    "Dynd.kernels_preserved",
    "Dynd.call_graph_walk",
    "Dynd.call_graph_failure_violated"
   ],
   "note": "For every sequence of appends and writes of total size below 2^60. Out of memory is outside the property; the destructor of a call graph is undefined after it (shown)."
  },
  {
   "property": "C54",
   "status": "partial",
   "theorems": [
    "Dynd.categorical_new_partial",
    "Dynd.categorical_presorted",
    "Dynd.factor_categorical_partial",
    "Dynd.categorical_ctor_violated"
   ],
   "note": "As the code stands every construction from a non-empty unsorted list calls a NULL kernel (proved). Proved: presorted construction; and the full bijection for the constructor and factor_categorical when working comparison/copy kernels are supplied."
  },
  {
   "property": "C55",
   "status": "partial",
   "theorems": [
    "Dynd.permute_exact_partial",
    "Dynd.permute_violated",
    "Dynd.permute_invalid_throws",
    "Dynd.transpose_exact",
    "Dynd.rotate_exact"
   ],
   "note": "permute_type_dims duplicates dimensions when a non-final prefix of the axis list is itself a permutation, e.g. [1,0,2] (violated); exact for all other axis lists; transpose and rotate exact"
  },
  {
   "property": "C56",
   "status": "proved",
   "theorems": [
    "Dynd.broadcast_to_shape_exact"
   ],
   "note": "strides and throw set exact"
  },
  {
   "property": "C57",
   "status": "proved",
   "theorems": [
    "Dynd.broadcast_input_shapes_exact",
    "Dynd.broadcast_shape_unique",
    "Dynd.incremental_broadcast_axis_exact"
   ],
   "note": "any number of operands"
  },
  {
   "property": "C58",
   "status": "proved",
   "theorems": [
    "Dynd.new_axis_exact"
   ],
   "note": "all ranks"
  },
  {
   "property": "C59",
   "status": "partial",
   "theorems": [
    "Dynd.classify_c_order",
    "Dynd.classify_axis_order_violated",
    "Dynd.classify_rank2_exact_partial"
   ],
   "note": "the classifier is wrong for some rank-3 inputs (violated)"
  },
  {
   "property": "C60",
   "status": "partial",
   "theorems": [
    "Dynd.int_to_float_inexact_partial",
    "Dynd.int_to_float_inexact_violated"
   ],
   "note": "exact-or-raise proved except where the rounded value is one past the source maximum: there the check itself is undefined"
  },
  {
   "property": "C61",
   "status": "proved",
   "theorems": [
    "Dynd.float_to_float_inexact",
    "Dynd.float_to_float_overflow"
   ],
   "note": "all bit patterns of float and double, all pairs"
  },
  {
   "property": "C62",
   "status": "partial",
   "theorems": [
    "Dynd.W128.sOfInt_exact",
    "Dynd.W128.uOfInt_exact_partial",
    "Dynd.W128.uOfInt_violated",
    "Dynd.W128.stoF64_violated"
   ],
   "note": "int128 from integers exact; uint128 from negatives not sign-extended; int128 to double loses the sign"
  },
  {
   "property": "C63",
   "status": "proved",
   "theorems": [
    "Dynd.is_lossless_exact"
   ],
   "note": "all pairs of builtin numeric types, against the sets of representable values"
  },
  {
   "property": "C64",
   "status": "partial",
   "theorems": [
    "Dynd.nested_index_exact_partial",
    "Dynd.field_range_then_index_violated",
    "Dynd.field_index_exact",
    "Dynd.field_index_distinct",
    "Dynd.field_index_duplicate_violated"
   ],
   "note": "exact for every index list in which a range of fields is only the last index; the code is wrong for a range of fields followed by more indices (proved)"
  },
  {
   "property": "C65",
   "status": "partial",
   "theorems": [
    "Dynd.rejected_overload_partial",
    "Dynd.rejected_overload_violated"
   ],
   "note": "calls that matched keep working; other calls and registrations then dereference a null child (proved violation)"
  },
  {
   "property": "C66",
   "status": "partial",
   "theorems": [
    "Dynd.registration_order_partial",
    "Dynd.registration_order_violated"
   ],
   "note": "holds when the matching overloads have a most specific one; the ambiguity check does not guarantee this (proved violation)"
  },
  {
   "property": "C67",
   "status": "partial",
   "theorems": [
    "Dynd.elwise_fixed_partial",
    "Dynd.elwise_fixed_given_partial",
    "Dynd.elwise_leading_one_violated"
   ],
   "note": "Holds for operands in which no size-1 dimension is followed by a longer one; violated otherwise (theorem elwise_leading_one_violated)."
  },
  {
   "property": "C68",
   "status": "partial",
   "theorems": [
    "Dynd.ragged_total_partial",
    "Dynd.ragged_rows_partial",
    "Dynd.ragged_offset_violated",
    "Dynd.ragged_empty_violated"
   ],
   "note": "Holds for var data without arrmeta offset (and a non-empty outer dimension when it is reduced); violated otherwise."
  },
  {
   "property": "C69",
   "status": "partial",
   "theorems": [
    "Dynd.datashape_parse_total_partial",
    "Dynd.datashape_depth_enough",
    "Dynd.shortNumbers_of_no_digit",
    "Dynd.datashape_long_number_violated",
    "Dynd.datashape_dim_wraps_violated"
   ],
   "note": "All texts whose digit runs have at most nine digits; longer numbers overflow atoi (violation proved). Stack depth not modelled; parts outside the model end in the exception unmodelled."
  },
  {
   "property": "C70",
   "status": "partial",
   "theorems": [
    "Dynd.parse_json_wellformed_partial",
    "Dynd.parse_json_into_wellformed_partial",
    "Dynd.json_negative_int64_violated",
    "Dynd.json_missing_unsigned_violated"
   ],
   "note": "All byte strings and types without int64 (whose negation overflows, see C25); unwritten absent unsigned options are admitted by the predicate and shown in json_missing_unsigned_violated."
  },
  {
   "property": "C71",
   "status": "partial",
   "theorems": [
    "Dynd.error_position_exact",
    "Dynd.error_marker_points",
    "Dynd.error_position_end_violated"
   ],
   "note": "Exact for every text and position; at the end of a text that is empty or ends in a newline a bare runtime_error escapes instead (proved). That each parse error carries the right position is not modelled."
  },
  {
   "property": "C72",
   "status": "partial",
   "theorems": [
    "Dynd.format_json_valid",
    "Dynd.format_json_valid_partial",
    "Dynd.format_json_digits",
    "Dynd.format_json_stuck_violated",
    "Dynd.format_json_complex_violated",
    "Dynd.format_json_special_violated"
   ],
   "note": "Validity holds for every value of every modelled type, malformed strings and field names included (format_json_valid), and success for the values of C39 (format_json_valid_partial). The rest is false of the code: a byte that cannot begin a character makes the loop run forever; complex numbers, infinities and not-a-numbers are written in a notation that is not JSON. The digits of finite floating point numbers are not modelled."
  },
  {
   "property": "C73",
   "status": "partial",
   "theorems": [
    "Dynd.compare_int_exact_partial",
    "Dynd.compare_int_value",
    "Dynd.compare_int_safe_iff",
    "Dynd.compare_int_violated",
    "Dynd.compare_int_trichotomy",
    "Dynd.compare_int_swap",
    "Dynd.compare_int_float_exact_partial",
    "Dynd.compare_int_float_value",
    "Dynd.compare_int_float_safe_iff",
    "Dynd.compare_int_float_sound",
    "Dynd.compare_int_float_violated",
    "Dynd.compare_float_int_swap",
    "Dynd.compare_float_exact",
    "Dynd.small_represented",
    "Dynd.widen_exact"
   ],
   "note": "Right for exactly the type pairs and integers characterised by the _safe_iff theorems; signed against unsigned of at least the width (and 32 bits) is proved wrong, as is equality with floats for integers that are not represented. bool, complex and strings are not modelled here."
  },
  {
   "property": "C74",
   "status": "partial",
   "theorems": [
    "Dynd.arith_int_exact",
    "Dynd.arith_narrow_exact",
    "Dynd.arith_uint16_mul_violated",
    "Dynd.minus_exact",
    "Dynd.bitwise_exact",
    "Dynd.bitwise_not_exact",
    "Dynd.right_shift_exact",
    "Dynd.left_shift_exact",
    "Dynd.left_shift_unsigned",
    "Dynd.left_shift_violated"
   ],
   "note": "All pairs of integer types; overflow of signed result types and bad shift counts are undefined behaviour (proved)."
  },
  {
   "property": "C75",
   "status": "partial",
   "theorems": [
    "Dynd.divide_value",
    "Dynd.divide_exact_partial",
    "Dynd.divide_zero_partial",
    "Dynd.divide_zero_violated",
    "Dynd.divide_min_violated",
    "Dynd.divide_float_violated",
    "Dynd.isQuotRem_unique"
   ],
   "note": "The zero check looks at the dividend twice: signed by unsigned zero is undefined behaviour, unsigned by 0.0 raises (proved); minimum by -1 is undefined."
  },
  {
   "property": "C76",
   "status": "partial",
   "theorems": [
    "Dynd.compound_add_exact",
    "Dynd.compound_add_no_overflow",
    "Dynd.compound_strided_exact",
    "Dynd.compound_strided_accumulates",
    "Dynd.compound_div_zero_violated"
   ],
   "note": "Integers; a zero divisor is never checked in place (proved violation)."
  },
  {
   "property": "C77",
   "status": "partial",
   "theorems": [
    "Dynd.forward_na_exact",
    "Dynd.opt_add_partial",
    "Dynd.opt_add_violated"
   ],
   "note": "The propagation is exact; a result that equals the stored missing value reads as missing (proved for sums of signed integers)."
  },
  {
   "property": "C78",
   "status": "partial",
   "theorems": [
    "Dynd.tuple_assign_positional_partial",
    "Dynd.tuple_assign_nine_fields_violated",
    "Dynd.struct_assign_by_name_partial",
    "Dynd.struct_assign_same_order",
    "Dynd.struct_assign_no_arrmeta",
    "Dynd.struct_assign_reordered_arrmeta_violated",
    "Dynd.run_jobs_exact",
    "Dynd.run_jobs_throw",
    "Dynd.record_assign_effect"
   ],
   "note": "At most eight fields (nine write outside a std::array, proved) and, for reordered structs, fields without arrmeta or in the same order (otherwise the wrong arrmeta is used, proved)."
  },
  {
   "property": "C79",
   "status": "partial",
   "theorems": [
    "Dynd.record_compare_exact_partial",
    "Dynd.record_equal_not_equal",
    "Dynd.struct_equal_ignores_names_violated",
    "Dynd.record_equal_ignores_extra_violated",
    "Dynd.record_equal_fewer_fields_violated",
    "Dynd.record_equal_strided_violated",
    "Dynd.record_equal_second_arrmeta_violated"
   ],
   "note": "Field-wise for equal layouts evaluated one at a time; names and surplus fields are ignored, the second operand is read with the arrmeta of the first, and strided evaluation reads through the wrong instance (each a proved violation)."
  },
  {
   "property": "C80",
   "status": "partial",
   "theorems": [
    "Dynd.sum_exact",
    "Dynd.sum_overflow_violated",
    "Dynd.sum_wraps",
    "Dynd.min_int_exact",
    "Dynd.max_int_exact",
    "Dynd.all_exact",
    "Dynd.min_float_partial",
    "Dynd.max_float_partial",
    "Dynd.min_float_infinite_violated",
    "Dynd.reduce_sum_min_max_partial"
   ],
   "note": "Integers exactly; floats without NaN whose extremum is finite (identities are the finite limits, proved violation); sums of floats not modelled. That nd::sum starts from 0 holds for 4-byte elements only: see C123."
  },
  {
   "property": "C81",
   "status": "partial",
   "theorems": [
    "Dynd.strided_iterator_positions",
    "Dynd.strided_iterator_negative_violated",
    "Dynd.sort_int_partial",
    "Dynd.sort_float_partial",
    "Dynd.sort_reversed_violated",
    "Dynd.sort_nan_violated"
   ],
   "note": "Positive strides, no NaN; std::sort is assumed to meet its contract. Negative strides break the iterator order and NaN the comparison contract (proved)."
  },
  {
   "property": "C82",
   "status": "proved",
   "theorems": [
    "Dynd.compose_exact",
    "Dynd.compose_mem_exact",
    "Dynd.compose_mem_elements",
    "Dynd.compose_in_place",
    "Dynd.compose_accepts"
   ],
   "note": "First theorem: callables that may throw, source and destination apart. The others: total callables, source and destination in one memory (in place, or overlapping so that nothing is read after it was written)."
  },
  {
   "property": "C83",
   "status": "partial",
   "theorems": [
    "Dynd.iter_one_exact",
    "Dynd.iter_write_read_partial",
    "Dynd.iter_write_read_raises",
    "Dynd.iter_read_read_partial",
    "Dynd.iter_stretched_violated"
   ],
   "note": "Proved for every rank, size and stride; two-operand iteration needs stride 0 in stretched dimensions. The full claim is false: a size-1 dimension with the non-zero stride that nd::empty gives it is walked past its only element (iter_stretched_violated)."
  },
  {
   "property": "C84",
   "status": "partial",
   "theorems": [
    "Dynd.equals_exact_fixed_partial",
    "Dynd.equals_exact_self",
    "Dynd.equals_exact_var_partial",
    "Dynd.equals_exact_nan_violated",
    "Dynd.equals_exact_var_length_violated",
    "Dynd.equals_exact_inner_var_violated"
   ],
   "note": "Exact for fixed dimensions of any rank and layout and for a leading var dimension of equal lengths. False for var dimensions of different lengths (raises type_error), inner var dimensions (raises runtime_error) and NaN (identity shortcut)."
  },
  {
   "property": "C85",
   "status": "partial",
   "theorems": [
    "Dynd.empty_like_dense",
    "Dynd.empty_like_order_partial",
    "Dynd.empty_like_negative_violated",
    "Dynd.empty_like_var_violated"
   ],
   "note": "Density for all strides; axis order for non-negative strides. False for negative strides and for sources with trailing var dimensions."
  },
  {
   "property": "C86",
   "status": "partial",
   "theorems": [
    "Dynd.reshape_contiguous_partial",
    "Dynd.reshape_total_raises",
    "Dynd.reshape_strided_violated",
    "Dynd.reshape_slice_violated",
    "Dynd.reshape_bad_shape_violated"
   ],
   "note": "Proved for sources contiguous in row-major order. False otherwise: strides of the source are ignored."
  },
  {
   "property": "C87",
   "status": "partial",
   "theorems": [
    "Dynd.concatenate_exact_partial",
    "Dynd.concatenate_empty_violated"
   ],
   "note": "Proved for a non-empty second operand; raises otherwise."
  },
  {
   "property": "C88",
   "status": "partial",
   "theorems": [
    "Dynd.old_range_exact_partial",
    "Dynd.old_range_exact_small",
    "Dynd.old_range_zero_step",
    "Dynd.old_range_min_step_violated",
    "Dynd.old_range_wide_violated"
   ],
   "note": "Proved except for the minimal step of a signed type and 64-bit ranges whose extent does not fit; these are shown to fail."
  },
  {
   "property": "C89",
   "status": "partial",
   "theorems": [
    "Dynd.old_view_exact",
    "Dynd.old_view_layout_violated",
    "Dynd.view_scalars_exact",
    "Dynd.view_scalars_violated"
   ],
   "note": "The success condition and element addresses are exact for all ranks; false for struct dtypes with non-default offsets (the view uses default offsets). view_scalars of a contiguous 1-D array covers the same bytes; false for targets that are not plain data, and division by zero for a target of size 0 (proved)."
  },
  {
   "property": "C90",
   "status": "partial",
   "theorems": [
    "Dynd.call_binding_sound",
    "Dynd.call_binding_complete",
    "Dynd.call_required_keywords_bound",
    "Dynd.call_keyword_order_irrelevant",
    "Dynd.call_ok_or_invalid",
    "Dynd.call_keyword_type_checked",
    "Dynd.call_dst_hides_missing_keyword_violated",
    "Dynd.call_extra_positional_unchecked_violated",
    "Dynd.call_null_keyword_violated",
    "Dynd.call_variadic_keywords_refused_violated"
   ],
   "note": "Soundness, completeness and independence of keyword order for all signatures. False: passing dst hides a missing required keyword; extra positional arguments of variadic signatures are not type-checked; a null keyword argument is dereferenced; keyword-variadic signatures refuse every extra keyword."
  },
  {
   "property": "C91",
   "status": "partial",
   "theorems": [
    "Dynd.pointers_never_touch_freed",
    "Dynd.pointers_count_exact",
    "Dynd.pointers_no_leak",
    "Dynd.pointers_freed_once",
    "Dynd.view_shares_data",
    "Dynd.view_data_lives",
    "Dynd.view_data_fixed",
    "Dynd.self_assign_last_violated",
    "Dynd.assign_own_member_violated",
    "Dynd.pointer_not_equal_violated"
   ],
   "note": "Proved for all histories in which no assignment has its source inside what the destination alone keeps alive, and members point to older blocks (no cycles). False otherwise: p = p and p = p->member on a last pointer touch a freed block; != compares for equality."
  },
  {
   "property": "C92",
   "status": "proved",
   "theorems": [
    "Dynd.threads_never_touch_freed",
    "Dynd.threads_held_live",
    "Dynd.threads_no_leak",
    "Dynd.threads_releases_finish",
    "Dynd.threads_freed_once"
   ],
   "note": "Sequentially consistent interleavings of the atomic operations; members of a block are not reassigned while it is shared."
  },
  {
   "property": "C93",
   "status": "partial",
   "theorems": [
    "Dynd.shortvector_is_vector",
    "Dynd.shortvector_no_leak",
    "Dynd.shortvector_short_no_alloc",
    "Dynd.multi_shortvector_cells",
    "Dynd.multi_shortvector_lifetime",
    "Dynd.shortvector_init_self_violated"
   ],
   "note": "All histories without init from the own storage (reads freed memory, proved) and self-swap. Bundles: exactly the init sequences that never shrink back into the object are well-defined; others free twice."
  },
  {
   "property": "C94",
   "status": "partial",
   "theorems": [
    "Dynd.get_dtype_exact",
    "Dynd.get_dtype_too_many",
    "Dynd.replaced_dtype_exact",
    "Dynd.replaced_dtype_laws",
    "Dynd.new_axis_type_exact",
    "Dynd.new_axis_type_laws",
    "Dynd.array_from_type",
    "Dynd.array_replace_dtype_exact",
    "Dynd.replaced_dtype_symbolic_violated",
    "Dynd.replaced_dtype_too_many_violated",
    "Dynd.array_replace_dtype_struct_violated"
   ],
   "note": "Full for types with fixed, Fixed and var dimensions and options. Proved violations: type variable, Dim and ellipsis dimensions are returned unchanged; replacing more dimensions than exist above a builtin dtype is undefined behaviour (also in the array(values, tp) constructor); array::replace_dtype turns untouched struct fields into the type type."
  },
  {
   "property": "C95",
   "status": "partial",
   "theorems": [
    "Dynd.canonical_fixed",
    "Dynd.canonical_exact",
    "Dynd.canonical_pointer_violated"
   ],
   "note": "Full for types without pointers; with pointers it is false (proved): not idempotent, more dimensions, and ?pointer[?T] has no canonical type."
  },
  {
   "property": "C96",
   "status": "partial",
   "theorems": [
    "Dynd.substitute_shape_exact",
    "Dynd.substitute_shape_violated"
   ],
   "note": "Full for non-empty shapes and types made of fixed, Fixed and var dimensions over a dtype; an empty shape with a type that has dimensions, and an option of an array, are undefined behaviour (proved)."
  },
  {
   "property": "C97",
   "status": "partial",
   "theorems": [
    "Dynd.outer_exact",
    "Dynd.outer_given_exact",
    "Dynd.outer_in_bounds",
    "Dynd.outer_many_violated",
    "Dynd.outer_given_violated"
   ],
   "note": "Arguments with fixed dimensions and scalars, any rank and strides, up to three arguments; with more (one of them not a scalar) the table of implementations is read out of bounds. A destination given by the caller is not compared with the arguments (exact for any destination of the right rank; a larger one makes it read past the arguments). Var dimensions, which the kernel would misread, are not modelled."
  },
  {
   "property": "C98",
   "status": "partial",
   "theorems": [
    "Dynd.index_exact",
    "Dynd.where_exact_partial",
    "Dynd.where_one_dim",
    "Dynd.index_leading_one_violated",
    "Dynd.where_two_dims_violated",
    "Dynd.where_scalar_violated",
    "Dynd.where_given_violated"
   ],
   "note": "One argument with fixed dimensions. Exact in one dimension; with more dimensions only the leading index is recorded, elements after a leading dimension of size 1 are missed, a matching scalar and a non-empty destination are undefined behaviour. Predicates of several arguments are not modelled."
  },
  {
   "property": "C99",
   "status": "partial",
   "theorems": [
    "Dynd.nested_array_partial",
    "Dynd.nested_empty_violated",
    "Dynd.nested_ragged_violated"
   ],
   "note": "Full for rectangular containers and for innermost initializer lists of different sizes. An empty container around other containers, sizes that differ at another depth, and vectors of different sizes are undefined behaviour (proved). Alignment and overflow of sizes are not modelled."
  }
 ]
}
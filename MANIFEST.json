{
 "claims": [
  {
   "property": "C01",
   "status": "partial",
   "theorems": [
    "Verif.Value.C01_integer_roundtrip",
    "Verif.Value.C01_symbol_roundtrip",
    "Verif.Value.C01_constants_roundtrip",
    "Verif.Value.C01_float_roundtrip_partial",
    "Verif.Value.C01_float_roundtrip_fails",
    "Verif.Value.C01_roundtrip_partial",
    "Verif.Eq.C01_decoders"
   ],
   "note": "Full for integers, symbols, constants. For floats the code loses exactly two bit patterns: -0.0 and 2^-255 (whose packed word is the reserved word of 0.0); negation proved, all other patterns proved."
  },
  {
   "property": "C02",
   "status": "partial",
   "theorems": [
    "Verif.Value.C02_no_alias_partial",
    "Verif.Value.C02_no_alias_fails",
    "Verif.Value.C02_kinds_disjoint",
    "Verif.Value.C02_immediate_not_address"
   ],
   "note": "Kinds never alias; payloads are injective except that 2^-255 and -0.0 alias 0.0 in the code."
  },
  {
   "property": "C03",
   "status": "proved",
   "theorems": [
    "Verif.Value.C03_truthiness",
    "Verif.Value.C03_objects_true",
    "Verif.Value.C03_operators",
    "Verif.Value.C03_not"
   ],
   "note": "All immediates and all heap references. The internal uninitialized marker is also falsy."
  },
  {
   "property": "C04",
   "status": "proved",
   "theorems": [
    "Verif.Arith.C04_add",
    "Verif.Arith.C04_sub",
    "Verif.Arith.C04_addi",
    "Verif.Arith.C04_subi",
    "Verif.Arith.C04_mul",
    "Verif.Arith.C04_neg",
    "Verif.Arith.C04_next_pred_abs"
   ],
   "note": "all integers, through the overflow checks and promotion/demotion"
  },
  {
   "property": "C05",
   "status": "proved",
   "theorems": [
    "Verif.Arith.C05_divmod_law",
    "Verif.Arith.C05_law_unique",
    "Verif.Arith.C05_zero_division"
   ],
   "note": "all integers; the law determines quotient and remainder"
  },
  {
   "property": "C06",
   "status": "proved",
   "theorems": [
    "Verif.Arith.C06_order",
    "Verif.Arith.C06_order_imm",
    "Verif.Arith.C06_eq",
    "Verif.Arith.C06_eq_imm",
    "Verif.Arith.C06_compare",
    "Verif.Arith.C06_other"
   ],
   "note": "all integers, both the general and the immediate-operand instructions"
  },
  {
   "property": "C07",
   "status": "partial",
   "theorems": [
    "Verif.Arith.C07_shl_small_exact",
    "Verif.Arith.C07_shl_partial",
    "Verif.Arith.C07_shl_fails",
    "Verif.Arith.C07_shr_partial",
    "Verif.Arith.C07_shr_fails",
    "Verif.Arith.C07_negative_amount",
    "Verif.Arith.C07_huge_amount_partial",
    "Verif.Arith.C07_huge_amount_fails"
   ],
   "note": "the code loses bits for small<<n with n<64 and overflow, and gives 0 for negative>>n with 64<=n<2^32-1: both shown by counterexample; exact behaviour proved elsewhere"
  },
  {
   "property": "C08",
   "status": "proved",
   "theorems": [
    "Verif.Arith.C08_gcd",
    "Verif.Arith.C08_lcm"
   ],
   "note": "all integers; binary gcd loop by well-founded induction"
  },
  {
   "property": "C09",
   "status": "partial",
   "theorems": [
    "Verif.Arith.C09_pow_partial",
    "Verif.Arith.C09_pow_fails"
   ],
   "note": "exponents below 2^32; above that the code gives Infinity"
  },
  {
   "property": "C10",
   "status": "partial",
   "theorems": [
    "Verif.Arith.C10_and",
    "Verif.Arith.C10_or",
    "Verif.Arith.C10_xor_partial",
    "Verif.Arith.C10_not_partial",
    "Verif.Arith.C10_xor_not_fails",
    "Verif.Arith.C10_index_partial",
    "Verif.Arith.C10_index_negative",
    "Verif.Arith.C10_index_fails",
    "Verif.Arith.C10_index_imm_agrees",
    "Verif.Arith.C10_bit_length",
    "Verif.Arith.C10_even"
   ],
   "note": "^ and ~ are not defined for big integers in the code; a[i] is wrong for negative small a and i>63"
  },
  {
   "property": "C11",
   "status": "partial",
   "theorems": [
    "Verif.Arith.C11_digits_partial",
    "Verif.Arith.C11_zero",
    "Verif.Arith.C11_digits_fails"
   ],
   "note": "the code stops at the first zero digit"
  },
  {
   "property": "C12",
   "status": "partial",
   "theorems": [
    "Verif.Arith.C12_times",
    "Verif.Arith.C12_upto_partial",
    "Verif.Arith.C12_downto_partial",
    "Verif.Arith.C12_step_partial",
    "Verif.Arith.C12_step_count",
    "Verif.Arith.C12_step_default",
    "Verif.Arith.C12_step_zero",
    "Verif.Arith.C12_step_no_overflow",
    "Verif.Arith.C12_big_fails"
   ],
   "note": "times for all integers; upto/downto/step for 63-bit values, the code panics on big receivers"
  },
  {
   "property": "C13",
   "status": "proved",
   "theorems": [
    "Verif.IdTable.C13_interning",
    "Verif.IdTable.C13_reserved",
    "Verif.IdTable.C13_derived"
   ],
   "note": "all histories with fewer than 2^32-40 names"
  },
  {
   "property": "C14",
   "status": "partial",
   "theorems": [
    "Verif.Arr.C14_read",
    "Verif.Arr.C14_write_partial",
    "Verif.Arr.C14_read_after_write",
    "Verif.Arr.C14_before_start_fails"
   ],
   "note": "writing before the start raises RangeError where Ruby documents IndexError"
  },
  {
   "property": "C15",
   "status": "partial",
   "theorems": [
    "Verif.Arr.C15_window_partial",
    "Verif.Arr.C15_window_fails",
    "Verif.Arr.C15_range_partial",
    "Verif.Arr.C15_range_fails"
   ],
   "note": "windows starting outside the array give [] instead of nil; some ranges panic"
  },
  {
   "property": "C16",
   "status": "proved",
   "theorems": [
    "Verif.Arr.C16_splice",
    "Verif.Arr.C16_errors",
    "Verif.Arr.C16_splice_range"
   ],
   "note": ""
  },
  {
   "property": "C17",
   "status": "partial",
   "theorems": [
    "Verif.Hash.C17_lookup",
    "Verif.Hash.C17_size",
    "Verif.Hash.C17_delete",
    "Verif.Hash.C17_fetch",
    "Verif.Hash.C17_keys_equiv",
    "Verif.Hash.C17_hashed_lookup",
    "Verif.Hash.C17_hash_as_key_fails"
   ],
   "note": "proved for every key equality that is an equivalence; the key equality of the code is one on keys that contain no hash (C19)"
  },
  {
   "property": "C18",
   "status": "partial",
   "theorems": [
    "Verif.Hash.C18_order_partial",
    "Verif.Hash.C18_merge",
    "Verif.Hash.C18_values",
    "Verif.Hash.C18_delete_partial",
    "Verif.Hash.C18_delete_fails"
   ],
   "note": "deleting an entry other than the last moves the last entry into its place"
  },
  {
   "property": "C19",
   "status": "partial",
   "theorems": [
    "Verif.Hash.C19_refl",
    "Verif.Hash.C19_symm_partial",
    "Verif.Hash.C19_trans_partial",
    "Verif.Hash.C19_hash_partial",
    "Verif.Hash.C19_hash_of_hash_fails",
    "Verif.Hash.C19_string_fails",
    "Verif.Hash.C19_finer",
    "Verif.Hash.C19_kinds"
   ],
   "note": "keys containing a hash are excluded: eql hashes with another insertion order hash differently; equal strings in different representations are different keys"
  },
  {
   "property": "C20",
   "status": "proved",
   "theorems": [
    "Verif.Sort.C20_sorted",
    "Verif.Sort.C20_sort_array",
    "Verif.Sort.C20_sort_block",
    "Verif.Sort.C20_incomparable",
    "Verif.Sort.C20_sort_by"
   ],
   "note": "merge_sort with its insertion, run detection, collapse and merge loops, sort_array, sort_by; comparison may change state"
  },
  {
   "property": "C21",
   "status": "proved",
   "theorems": [
    "Verif.Sort.C21_stable",
    "Verif.Sort.C20_sort_array",
    "Verif.Sort.C20_sort_block",
    "Verif.Sort.C20_sort_by"
   ],
   "note": "every class of equal elements keeps its order"
  },
  {
   "property": "C22",
   "status": "proved",
   "theorems": [
    "Verif.Sort.C22_permutation"
   ],
   "note": "arbitrary comparison, raising at any point"
  },
  {
   "property": "C23",
   "status": "proved",
   "theorems": [
    "Verif.Arr.C23_bsearch"
   ],
   "note": ""
  },
  {
   "property": "C24",
   "status": "partial",
   "theorems": [
    "Verif.Arr.C24_rotate",
    "Verif.Arr.C24_reverse",
    "Verif.Arr.C24_retain",
    "Verif.Arr.C24_compact",
    "Verif.Arr.C24_uniq",
    "Verif.Arr.C24_uniq_complete",
    "Verif.Arr.C24_flatten",
    "Verif.Arr.C24_flatten_level",
    "Verif.Arr.C24_flatten_bang",
    "Verif.Arr.C24_zip",
    "Verif.Arr.C24_transpose",
    "Verif.Arr.C24_transpose_error_partial",
    "Verif.Arr.C24_transpose_error_fails",
    "Verif.Arr.C24_drop_partial",
    "Verif.Arr.C24_drop_fails",
    "Verif.Arr.C24_first_last"
   ],
   "note": "drop(n) with n at or above the size raises; transpose skips its size check when the first row is empty; first(n), last(n) are not implemented"
  },
  {
   "property": "C25",
   "status": "partial",
   "theorems": [
    "Verif.Arr.C25_deque",
    "Verif.Arr.C25_shift_n_partial",
    "Verif.Arr.C25_shift_n_fails"
   ],
   "note": "shift(n) with n above the size removes nothing; pop(n) is not implemented"
  },
  {
   "property": "C26",
   "status": "partial",
   "theorems": [
    "Verif.Heap.C26_reachable_intact",
    "Verif.Heap.C26_nothing_else",
    "Verif.Heap.C26_collection",
    "Verif.Heap.Kinds.C26_kinds_partial",
    "Verif.Heap.Kinds.C26_kinds_reachable",
    "Verif.Heap.Kinds.C26_unmarked_holders_fails"
   ],
   "note": "The collector keeps everything reachable through what it visits, over all histories. What it visits misses some references of Method, Binding, unresumed Fiber and singleton class objects: refuted for those, proved for the rest. Native stack overflow in the recursive mark is not modelled."
  },
  {
   "property": "C27",
   "status": "proved",
   "theorems": [
    "Verif.Heap.C27_alloc_unused"
   ],
   "note": ""
  },
  {
   "property": "C28",
   "status": "proved",
   "theorems": [
    "Verif.Heap.C28_garbage_reclaimed",
    "Verif.Heap.C28_free_count",
    "Verif.Heap.C28_grows_only_when_full",
    "Verif.Heap.C28_reuse",
    "Verif.Heap.C28_empty_pages_released"
   ],
   "note": ""
  },
  {
   "property": "C29",
   "status": "proved",
   "theorems": [
    "Verif.ISeq.C29_fetch_emit",
    "Verif.ISeq.C29_layouts_agree",
    "Verif.ISeq.C29_forward_jump",
    "Verif.ISeq.C29_backward_jump",
    "Verif.ISeq.C29_patch"
   ],
   "note": "Code longer than 2 GiB excluded (32-bit displacements)."
  },
  {
   "property": "C30",
   "status": "proved",
   "theorems": [
    "Verif.ISeq.C30_optimize_same_histories",
    "Verif.ISeq.C30_entry_points",
    "Verif.ISeq.C30_optimize_completes"
   ],
   "note": "For well-formed code (jumps and table entries lead to instructions), any meaning of the non-jump instructions."
  },
  {
   "property": "C31",
   "status": "partial",
   "theorems": [
    "Verif.Codegen.C31_compiled_code_agrees_partial",
    "Verif.Codegen.C31_compiled_code_does_what_ruby_does_partial",
    "Verif.Codegen.C31_no_other_outcome_partial",
    "Verif.Codegen.C31_unused_bignum_fails",
    "Verif.Codegen.C31_rescue_as_operand_fails",
    "Verif.Codegen.C31_literal_array",
    "Verif.Codegen.C31_truth"
   ],
   "note": "All programs of the modelled subset that satisfy Supported (which excludes the programs for which the code is wrong: two witnesses are proved). The specification is a big-step evaluator, parametric in the meaning of operators and calls; runs of the source that do not terminate are not covered. Agreement with Ruby itself on the Plain subset."
  },
  {
   "property": "C32",
   "status": "partial",
   "theorems": [
    "Verif.Codegen.C32_and_skips_partial",
    "Verif.Codegen.C32_and_continues_partial",
    "Verif.Codegen.C32_or_skips_partial",
    "Verif.Codegen.C32_or_continues_partial",
    "Verif.Codegen.C32_or_assign_skips_partial",
    "Verif.Codegen.C32_or_assign_assigns_partial"
   ],
   "note": "Operands restricted to Supported expressions (see C31)."
  },
  {
   "property": "C33",
   "status": "partial",
   "theorems": [
    "Verif.Codegen.C33_first_matching_branch_partial",
    "Verif.Codegen.C33_duplicate_labels_fails",
    "Verif.Codegen.C33_float_subject_fails",
    "Verif.Codegen.C33_no_subject_fails"
   ],
   "note": "First match by === for compiled code; with dispatch tables if labels are distinct and === agrees with key equality on the subject. Without these conditions the property is false of the code (three witnesses)."
  },
  {
   "property": "C34",
   "status": "proved",
   "theorems": [
    "Verif.Codegen.C34_innermost_definition",
    "Verif.Codegen.C34_distinct_variables",
    "Verif.Codegen.C34_slots_are_distinct",
    "Verif.Codegen.C34_slots_are_stable",
    "Verif.Codegen.C34_insert_answers_slot",
    "Verif.Codegen.C34_insert_new_answers_slot"
   ],
   "note": ""
  },
  {
   "property": "C35",
   "status": "partial",
   "theorems": [
    "Verif.Class.C35_ancestors_exist",
    "Verif.Class.C35_ancestors_partial",
    "Verif.Class.C35_lookup_order_partial",
    "Verif.Class.C35_singleton_lookup_partial",
    "Verif.Class.C35_prepend_to_receiver_fails",
    "Verif.Class.C35_include_after_prepend_fails",
    "Verif.Class.C35_singleton_object_fails",
    "Verif.Class.C35_self_include_fails",
    "Verif.Class.C35_extend_partial",
    "Verif.Class.C35_include_many_partial",
    "Verif.Class.C35_prepend_many_partial",
    "Verif.Class.C35_include_order_fails",
    "Verif.Class.C35_prepend_order_fails",
    "Verif.Class.C35_include_error_fails",
    "Verif.Class.C35_not_module"
   ],
   "note": "All histories of class, module, include, prepend, def and singleton creation. Missing: receivers whose own class has prepended modules, include after prepend into the same class, and undefined names on objects with a singleton class; each is refuted by a witness."
  },
  {
   "property": "C36",
   "status": "partial",
   "theorems": [
    "Verif.Class.C36_call_partial",
    "Verif.Class.C36_find_partial",
    "Verif.Class.C36_call_ancestors_partial",
    "Verif.Class.C36_wraparound_fails",
    "Verif.Class.C36_singleton_of_singleton_fails"
   ],
   "note": "All runs of class-changing commands and calls. Missing: more than 2^32 version changes and singleton classes of singleton classes (both refuted by witnesses), and class addresses reused by the collector (not modelled)."
  },
  {
   "property": "C37",
   "status": "partial",
   "theorems": [
    "Verif.Class.C37_lookup_partial",
    "Verif.Class.C37_scope_partial",
    "Verif.Class.C37_cached_partial",
    "Verif.Class.C37_class_body_fails",
    "Verif.Class.C37_subclass_instance_fails",
    "Verif.Class.C37_inherited_scope_fails",
    "Verif.Class.C37_include_stale_fails",
    "Verif.Class.C37_shared_slot_fails"
   ],
   "note": "Lookup follows Ruby in methods on direct instances of the enclosing class and at top level; the cache is transparent while no module is included and a use is run for one class of self. The other cases are refuted by witnesses. Autoload is not modelled."
  },
  {
   "property": "C38",
   "status": "partial",
   "theorems": [
    "Verif.Args.C38_method_partial",
    "Verif.Args.C38_block_partial",
    "Verif.Args.C38_delegate",
    "Verif.Args.C38_keywords_to_plain_method_fails",
    "Verif.Args.C38_missing_keyword_fails",
    "Verif.Args.C38_keyword_after_star_fails",
    "Verif.Args.C38_block_array_fails",
    "Verif.Args.C38_block_post_fails",
    "Verif.Args.C38_block_abort_fails"
   ],
   "note": "Methods: parameter lists with required, optional, rest, trailing, keyword, keyword-rest and block parameters bind as specified, any sizes; excluded are the cases refuted by the _fails theorems. Blocks and ... forwarding likewise."
  },
  {
   "property": "C39",
   "status": "partial",
   "theorems": [
    "Verif.Args.C39_call_partial",
    "Verif.Args.C39_array_partial",
    "Verif.Args.C39_empty_range_fails",
    "Verif.Args.C39_nil_fails"
   ],
   "note": "Splat of arrays, integer ranges and other objects; just-empty ranges abort in calls, *nil passes nil; to_a of other objects not modelled."
  },
  {
   "property": "C40",
   "status": "partial",
   "theorems": [
    "Verif.Frame.C40_call_returns_partial"
   ],
   "note": "Any nesting of calls, blocks, Procs, builtin functions, returns and exceptions. Missing: runs in which the body of a Proc uses the literal block of its method (C41_yield_in_lambda_fails), fibers."
  },
  {
   "property": "C41",
   "status": "partial",
   "theorems": [
    "Verif.Frame.C41_closures_share_variables_partial",
    "Verif.Frame.C41_overflow_only_when_full",
    "Verif.Frame.C41_yield_in_lambda_fails",
    "Verif.Frame.C41_stale_variables_fails"
   ],
   "note": "Simulation by environments that are never copied, for all runs in which the body of a Proc does not use the literal block of its method; the two _fails theorems show what happens otherwise. Fibers and local variables added by eval in a binding are not modelled."
  },
  {
   "property": "C42",
   "status": "partial",
   "theorems": [
    "Verif.Codegen.C42_rescued_by_first_match_partial",
    "Verif.Codegen.C42_not_rescued_goes_on_partial",
    "Verif.Codegen.C42_nothing_raised_partial",
    "Verif.Unwind.Deep.C42_exception_through_any_number_of_frames",
    "Verif.Unwind.C42_frames_above_the_handler_are_removed",
    "Verif.Unwind.C42_unrescued_reaches_the_caller",
    "Verif.Unwind.C42_frames_do_what_the_source_says_partial",
    "Verif.Unwind.C42_rescued_across_frames_partial",
    "Verif.Unwind.C42_not_rescued_across_frames_partial",
    "Verif.Unwind.C42_methods_compile",
    "Verif.Blocks.Leave.C42_through_blocks_partial",
    "Verif.Blocks.Leave.C115_leave_partial"
   ],
   "note": "Within one frame for Supported bodies; across any number of frames of methods with required parameters; through blocks and builtin methods with rescue clauses as handler stacks (Blocks/Leave, both directions). Missing: exception tables, argument errors and blocks in one model."
  },
  {
   "property": "C43",
   "status": "partial",
   "theorems": [
    "Verif.Codegen.C43_ensure_runs_once_partial",
    "Verif.Codegen.C43_unrescued_exception_fails",
    "Verif.Codegen.C43_exception_in_rescue_fails",
    "Verif.Codegen.C43_break_fails",
    "Verif.Codegen.C43_nested_return_fails",
    "Verif.Codegen.C43_return_in_rescue_fails"
   ],
   "note": "Proved for the ways out on which the code runs the clause; refuted for the others."
  },
  {
   "property": "C44",
   "status": "partial",
   "theorems": [
    "Verif.Fiber.C44_refines_partial",
    "Verif.Fiber.C44_resume_returns",
    "Verif.Fiber.C44_resume_enters",
    "Verif.Fiber.C44_yield_returns",
    "Verif.Fiber.C44_finished",
    "Verif.Fiber.C44_end",
    "Verif.Fiber.C44_double_resume_fails"
   ],
   "note": "The interpreter's stack-pointer machine refines the textbook coroutines for every program and history in which no running fiber is resumed; what resume, yield and dead fibers return is proved on the textbook. Resuming a running fiber is undefined behaviour in the code (C44_double_resume_fails)."
  },
  {
   "property": "C45",
   "status": "partial",
   "theorems": [
    "Verif.Fiber.C45_order",
    "Verif.Fiber.C45_next",
    "Verif.Fiber.Enum.C45_each",
    "Verif.Fiber.Enum.C45_map",
    "Verif.Fiber.Enum.C45_with_index",
    "Verif.Fiber.Enum.C45_next_then_each"
   ],
   "note": "Order, completeness and independence of next/each/map/with_index for every finite iteration. Missing: infinite iterations in each/map (they do not end), and iterations that resume their own enumerator (undefined in the code)."
  },
  {
   "property": "C46",
   "status": "partial",
   "theorems": [
    "Verif.Range.C46_to_a_partial",
    "Verif.Range.C46_each_partial",
    "Verif.Range.C46_map_partial",
    "Verif.Range.C46_map_pure_partial",
    "Verif.Range.C46_flat_map_partial",
    "Verif.Range.C46_all_partial",
    "Verif.Range.C46_first_partial",
    "Verif.Range.C46_last_partial",
    "Verif.Range.C46_negative_count",
    "Verif.Range.C46_include",
    "Verif.Range.C46_include_other",
    "Verif.Range.C46_create",
    "Verif.Range.C46_big_bounds_fails",
    "Verif.Range.C46_to_a_chars",
    "Verif.Range.C46_all_truth"
   ],
   "note": "Proved for every pair of 63-bit bounds (to_a, each, map, flat_map, all?, first, last) and for integers of every size for include? and creation. False beyond 63 bits: listing such a range aborts the interpreter (C46_big_bounds_fails)."
  },
  {
   "property": "C47",
   "status": "partial",
   "theorems": [
    "Verif.Str.C47_add",
    "Verif.Str.C47_concat",
    "Verif.Str.C47_concat_byte",
    "Verif.Str.C47_appends",
    "Verif.Str.C47_mul",
    "Verif.Str.C47_usable",
    "Verif.Str.C47_concat_usable",
    "Verif.Str.C47_fits",
    "Verif.Str.C47_self_append_fails",
    "Verif.Str.C47_joined_bytes_fails",
    "Verif.Str.C47_mul_fits",
    "Verif.Str.C47_as_text_partial"
   ],
   "note": "Concatenation, << and * proved to append exactly; proved to fail: s << s, and pieces of raw bytes that together are text."
  },
  {
   "property": "C48",
   "status": "proved",
   "theorems": [
    "Verif.Str.C48_lexicographic",
    "Verif.Str.C48_consistent_eq",
    "Verif.Str.C48_antisymmetric",
    "Verif.Str.C48_transitive",
    "Verif.Str.C48_operators",
    "Verif.Str.C48_representation",
    "Verif.Str.C48_not_string"
   ],
   "note": "Order on strings is lexicographic on bytes, total, transitive, consistent with == and independent of representation."
  },
  {
   "property": "C49",
   "status": "partial",
   "theorems": [
    "Verif.Parser.C49_depth",
    "Verif.Parser.C49_program",
    "Verif.Parser.C49_expression",
    "Verif.Parser.C49_unambiguous",
    "Verif.Parser.C49_short_assign",
    "Verif.Parser.C49_assign_argument_fails",
    "Verif.Parser.C49_paren_mul_assign_fails",
    "Verif.Parser.C49_trailing_space_fails",
    "Verif.Parser.C49_unclosed_call_fails",
    "Verif.Parser.C49_power_minus_fails",
    "Verif.Parser.C49_safe_command_fails",
    "Verif.Parser.C49_rescue_else_fails",
    "Verif.Parser.C49_assign_literal_fails",
    "Verif.Parser.C49_scope_space_fails",
    "Verif.Parser.C49_not_fails",
    "Verif.Parser.C49_statements",
    "Verif.Parser.C49_statements_unambiguous",
    "Verif.Parser.C49_break_while_fails",
    "Verif.Parser.C49_mul_assign_scope_fails",
    "Verif.Parser.C49_method_names",
    "Verif.Parser.C49_setter_names",
    "Verif.Parser.C49_parameters_differ",
    "Verif.Parser.C49_end_of_line",
    "Verif.Parser.C49_constant_range"
   ],
   "note": "Print/parse round trip for programs built from literals, variables, constants, all binary and unary operators, ranges, arrays, indexing, ternaries, calls, method calls, assignments, op-assignments, defined? and statement lists, for every nesting (C49_program, C49_expression, C49_unambiguous, C49_short_assign); and for texts with modifiers, and/or, if/unless/while/until, jumps, multiple assignment and definitions of methods with required parameters (C49_statements). Hashes, blocks, lambdas, rescue, case, classes and command calls are not in the grammar. Names of methods and parameters: C49_method_names, C49_setter_names, C49_parameters_differ. The _fails theorems are inputs the parser gets wrong."
  },
  {
   "property": "C50",
   "status": "partial",
   "theorems": [
    "Verif.Lexer.C50_decimal",
    "Verif.Lexer.C50_hex",
    "Verif.Lexer.C50_bin_wraps",
    "Verif.Lexer.C50_bin_partial",
    "Verif.Lexer.C50_bin_fails",
    "Verif.Lexer.C50_float_partial",
    "Verif.Lexer.C50_imaginary_float_partial"
   ],
   "note": "Decimal and hexadecimal literals of any length with underscores, and binary literals below 2^63; larger binary literals wrap (C50_bin_fails)."
  },
  {
   "property": "C51",
   "status": "partial",
   "theorems": [
    "Verif.Source.C51_position_partial",
    "Verif.Source.C51_stretch_partial",
    "Verif.Source.C51_line_unique",
    "Verif.Source.C51_last_line_fails",
    "Verif.Source.C51_shown_partial",
    "Verif.Source.C51_multibyte_end_fails",
    "Verif.Source.C51_terminated",
    "Verif.Source.C51_heading_partial",
    "Verif.Source.C51_shown_each_partial"
   ],
   "note": "Proved for every text and every position on a line closed by a newline. False on an unterminated last line, which is always reported as line 1 (C51_last_line_fails), and reporting aborts on a multi-byte last character (C51_multibyte_end_fails)."
  },
  {
   "property": "C52",
   "status": "proved",
   "theorems": [
    "Verif.Loader.C52_at_most_once",
    "Verif.Loader.C52_true_at_most_once",
    "Verif.Loader.C52_false_only_if_known",
    "Verif.Loader.C52_again_is_false",
    "Verif.Loader.C52_first_runs",
    "Verif.Loader.C52_search",
    "Verif.Loader.C52_load_runs",
    "Verif.Loader.C52_caller_goes_on",
    "Verif.Loader.C52_relative",
    "Verif.Loader.C52_load_finds"
   ],
   "note": "For every program automaton, file system and $:, with nesting, mutual requires, exceptions and loads. A file that failed to load is not retried (C52_false_only_if_known shows when false is answered)."
  },
  {
   "property": "C53",
   "status": "partial",
   "theorems": [
    "Verif.Comparable.C53_operators_follow_cmp_partial",
    "Verif.Comparable.C53_trichotomy_partial",
    "Verif.Comparable.C53_key_order",
    "Verif.Comparable.C53_operator_eq",
    "Verif.Comparable.C53_exceptions_pass",
    "Verif.Comparable.C53_big_result_fails",
    "Verif.Comparable.C53_incomparable_fails",
    "Verif.Comparable.C53_operator_eq_exception"
   ],
   "note": "Proved for every <=> method (any effects) whose result is a 63-bit integer. False for larger integers and for nil: < and > abort the interpreter (C53_big_result_fails, C53_incomparable_fails)."
  },
  {
   "property": "C54",
   "status": "partial",
   "theorems": [
    "Verif.Frame.C54_handle_partial",
    "Verif.Frame.C54_handle_fails",
    "Verif.Frame.C54_pointer",
    "Verif.Frame.C54_code"
   ],
   "note": "Exact for code ids below 2^30; refuted from there on."
  },
  {
   "property": "C55",
   "status": "proved",
   "theorems": [
    "Verif.Frame.C55_flags"
   ],
   "note": "All creations and all sequences of updates, lengths below 2^32 (the stack has 8192 slots)."
  },
  {
   "property": "C56",
   "status": "partial",
   "theorems": [
    "Verif.Class.C56_case_equality",
    "Verif.Class.C56_is_a_class_partial",
    "Verif.Class.C56_module_fails",
    "Verif.Class.C56_prepended_class_fails",
    "Verif.Class.C56_superclass",
    "Verif.Class.C56_class_partial",
    "Verif.Class.C56_class_plain"
   ],
   "note": "Module#=== agrees with Module#ancestors for all histories; is_a? does so for classes with nothing prepended; refuted by witnesses for modules and prepended classes."
  },
  {
   "property": "C57",
   "status": "partial",
   "theorems": [
    "Verif.Ivar.C57_histories_partial",
    "Verif.Ivar.C57_read_after_write",
    "Verif.Ivar.C57_accessors",
    "Verif.Ivar.C57_packed_fails"
   ],
   "note": "Every history of reads, writes, accessors, dup, instance_variables and struct initialisation over objects on the heap refines independent variables. Receivers held in the word itself (integers, symbols, nil) have undefined behaviour (C57_packed_fails)."
  },
  {
   "property": "C58",
   "status": "partial",
   "theorems": [
    "Verif.Codegen.C58_values_by_position_partial",
    "Verif.Codegen.C58_array_by_position_partial",
    "Verif.Codegen.C58_repeated_target_fails",
    "Verif.Codegen.C58_value_fails"
   ],
   "note": "Targets are distinct local variables. Repeated targets are assigned from the last to the first, and the value of the whole is padded with nil (refuted by witnesses); a splat target is a syntax error in the code."
  },
  {
   "property": "C59",
   "status": "partial",
   "theorems": [
    "Verif.Literal.C59_fresh_partial",
    "Verif.Literal.C59_denotes_arr",
    "Verif.Literal.C59_nested_fails",
    "Verif.Literal.C59_string_in_array_fails"
   ],
   "note": "Proved for all programs whose constant literals contain no objects inside, over every history of evaluations, reads, writes and allocations. False for nested literals: the inner object is shared between evaluations (C59_nested_fails, C59_string_in_array_fails)."
  },
  {
   "property": "C60",
   "status": "partial",
   "theorems": [
    "Verif.Str.C60_join_split_partial",
    "Verif.Str.C60_join_split_default_partial",
    "Verif.Str.C60_nothing",
    "Verif.Str.C60_clean_char",
    "Verif.Str.C60_leading_empty_fails",
    "Verif.Str.C60_leading_blank_fails",
    "Verif.Str.C60_split_join_partial",
    "Verif.Str.C60_limit",
    "Verif.Str.C60_parts"
   ],
   "note": "Round trips proved away from empty leading pieces; join drops the separator while the result is empty (proved to fail)."
  },
  {
   "property": "C61",
   "status": "proved",
   "theorems": [
    "Verif.Stack.C61_push",
    "Verif.Stack.C61_pop",
    "Verif.Stack.C61_pop2",
    "Verif.Stack.C61_grow",
    "Verif.Stack.C61_extend",
    "Verif.Stack.C61_dup",
    "Verif.Stack.C61_insert",
    "Verif.Stack.C61_remove",
    "Verif.Stack.C61_sinkn",
    "Verif.Stack.C61_topn",
    "Verif.Stack.C61_sinkn_topn",
    "Verif.Stack.C61_take",
    "Verif.Stack.C61_resize",
    "Verif.Stack.C61_pop_args"
   ],
   "note": "Buffer of 8192 words with memmove; each instruction as a list transformation under room hypotheses; overflow of the buffer is outside the property and unchecked in the code."
  },
  {
   "property": "C62",
   "status": "proved",
   "theorems": [
    "Verif.Arr.C62_map",
    "Verif.Arr.C62_each",
    "Verif.Arr.C62_select",
    "Verif.Arr.C62_partition",
    "Verif.Arr.C62_find",
    "Verif.Arr.C62_inject"
   ],
   "note": ""
  },
  {
   "property": "C63",
   "status": "proved",
   "theorems": [
    "Verif.Arr.C63_slice_bang",
    "Verif.Arr.C63_slice_bang_outside",
    "Verif.Arr.C63_mul",
    "Verif.Arr.C63_sub"
   ],
   "note": ""
  },
  {
   "property": "C64",
   "status": "partial",
   "theorems": [
    "Verif.Hash.C64_merge",
    "Verif.Hash.C64_select",
    "Verif.Hash.C64_compact",
    "Verif.Hash.C64_invert",
    "Verif.Hash.C64_identity",
    "Verif.Hash.C64_select_identity_fails"
   ],
   "note": "select and reject on a compare_by_identity hash merge entries with equal keys"
  },
  {
   "property": "C65",
   "status": "proved",
   "theorems": [
    "Verif.Codegen.C65_accepts_exactly_the_legal",
    "Verif.Codegen.C65_size_of_code"
   ],
   "note": "Legal: variables in the tables the body sees, break/next in loops or in a block. Bound: weight of the tree; constant table with room for it (2^32 entries)."
  },
  {
   "property": "C66",
   "status": "partial",
   "theorems": [
    "Verif.Class.C66_super_partial",
    "Verif.Class.C66_second_super_fails",
    "Verif.Class.C66_module_skipped_fails"
   ],
   "note": "Holds for a method of the receiver's own class when that class has no modules; refuted by witnesses for a method found further up and for modules."
  },
  {
   "property": "C67",
   "status": "proved",
   "theorems": [
    "Verif.Ivar.C67_read",
    "Verif.Ivar.C67_write",
    "Verif.Ivar.C67_shared"
   ],
   "note": "For every heap, chain of classes and name; the chain is the list of classes reached by upper."
  },
  {
   "property": "C68",
   "status": "partial",
   "theorems": [
    "Verif.Str.C68_index",
    "Verif.Str.C68_index_length",
    "Verif.Str.C68_index_length_outside",
    "Verif.Str.C68_range_partial",
    "Verif.Str.C68_exclusive_range_fails",
    "Verif.Str.C68_range_past_end_fails",
    "Verif.Str.C68_assign_partial",
    "Verif.Str.C68_assign_outside",
    "Verif.Str.C68_assign_negative_fails",
    "Verif.Str.C68_slice",
    "Verif.Str.C68_slice_length"
   ],
   "note": "Index, index-length, range, assignment and slice!; proved to fail: exclusive ranges, ranges past the end, negative assignment."
  },
  {
   "property": "C69",
   "status": "proved",
   "theorems": [
    "Verif.Str.C69_padding",
    "Verif.Str.C69_empty_padding"
   ],
   "note": "Width, unchanged text and padding characters for all three."
  },
  {
   "property": "C70",
   "status": "proved",
   "theorems": [
    "Verif.Str.C70_digits",
    "Verif.Str.C70_letters",
    "Verif.Str.C70_count",
    "Verif.Str.C70_last_char_fails"
   ],
   "note": "Digits, lower-case and upper-case strings count; U+D7FF and U+10FFFF alone panic (recorded). char::is_alphanumeric is a parameter assumed true on ASCII letters and digits."
  },
  {
   "property": "C71",
   "status": "proved",
   "theorems": [
    "Verif.Str.C71_lines"
   ],
   "note": "Concatenation and shape of the lines."
  },
  {
   "property": "C72",
   "status": "proved",
   "theorems": [
    "Verif.Str.C72_strip"
   ],
   "note": "What is cut, what remains."
  },
  {
   "property": "C73",
   "status": "partial",
   "theorems": [
    "Verif.Lexer.C73_longest",
    "Verif.Lexer.C73_power_assign_fails",
    "Verif.Lexer.C73_token",
    "Verif.Lexer.C73_global_underscore_fails",
    "Verif.Lexer.C73_identifier_fails",
    "Verif.Lexer.C73_tokens",
    "Verif.Lexer.C73_space",
    "Verif.Lexer.C73_comment",
    "Verif.Lexer.C73_not_equal",
    "Verif.Lexer.C73_special_partial",
    "Verif.Lexer.C73_special_fails"
   ],
   "note": "All token kinds followed by white space or the end; longest operator; sequences. Not so: **= is not an operator, $_x, names that are not ASCII (the _fails theorems)."
  },
  {
   "property": "C74",
   "status": "partial",
   "theorems": [
    "Verif.Lexer.C74_double",
    "Verif.Lexer.C74_interpolated",
    "Verif.Lexer.C74_unterminated",
    "Verif.Lexer.C74_single",
    "Verif.Lexer.C74_byte_fails"
   ],
   "note": "Quoted literals with all escapes but octal ones, interpolation start, missing quote. Not so: byte escapes above 0x7f (C74_byte_fails)."
  },
  {
   "property": "C75",
   "status": "partial",
   "theorems": [
    "Verif.Lexer.C75_inspect_partial",
    "Verif.Lexer.C75_inspect_fails"
   ],
   "note": "Strings in which #{, #$, #@ do not occur; false otherwise (C75_inspect_fails)."
  },
  {
   "property": "C76",
   "status": "partial",
   "theorems": [
    "Verif.Pipeline.C76_text_does_what_it_says_partial",
    "Verif.Pipeline.C76_no_other_outcome",
    "Verif.Meaning.Named.C78_programs_do_what_they_say_partial",
    "Verif.Meaning.Named.OpAssign.C76_op_assign_once_fails"
   ],
   "note": "Composition of C49 (statements), C65 and C31. Missing: constructs outside the grammar of C49 or the compiler model (def, class, blocks, strings with interpolation, newlines as separators), programs excluded by Supported/Plain, for which C31 is false. C78_programs_do_what_they_say_partial states the same against an evaluator by names (Verif/Meaning/Named.lean) that shares nothing with the compiler."
  },
  {
   "property": "C77",
   "status": "partial",
   "theorems": [
    "Verif.Meaning.C77_integer_programs_compute_partial",
    "Verif.Meaning.Euclid.C77_euclid"
   ],
   "note": "Specification Verif/Meaning/Spec.lean is independent of the models. Part: programs without blocks, methods, strings, arrays and floats; break and next only as statements of a loop body; a multiple assignment has as many values as targets and its value is not used. The operators of the run are those of Verif.Arith (hypothesis Ops, met by World.numbers)."
  },
  {
   "property": "C78",
   "status": "partial",
   "theorems": [
    "Verif.Codegen.C78_compiled_code_is_wellformed",
    "Verif.Codegen.C78_optimized_code_ends_alike",
    "Verif.Codegen.C78_optimizer_completes_partial",
    "Verif.Codegen.C78_optimizer_completes_fails",
    "Verif.Codegen.C78_final_code_does_what_ruby_does_partial",
    "Verif.Pipeline.C78_text_does_what_it_says_partial",
    "Verif.Meaning.Named.C78_programs_do_what_they_say_partial"
   ],
   "note": "Well-formedness and equal outcomes hold for all bodies the compiler model accepts. Completion is false for loops whose condition begins with a next whose value is dropped (witness: while (next; true); end hangs the compiler), so it is proved for all other bodies. The composition with C31/C76 inherits their restrictions. C78_programs_do_what_they_say_partial states the same against an evaluator by names (Verif/Meaning/Named.lean) that shares nothing with the compiler."
  },
  {
   "property": "C79",
   "status": "partial",
   "theorems": [
    "Verif.Regexp.C79_matches_unique",
    "Verif.Regexp.C79_gsub_replaces_matches_partial",
    "Verif.Regexp.C79_gsub_every_match_fails",
    "Verif.Regexp.C79_gsub_expands_groups_fails",
    "Verif.Regexp.C79_gsub_block_partial",
    "Verif.Regexp.C79_gsub_block_end_fails",
    "Verif.Regexp.C79_scan_lists_matches_partial",
    "Verif.Regexp.C79_scan_stops_fails",
    "Verif.Regexp.C79_sub_replaces_first_match_partial",
    "Verif.Regexp.C79_sub_keeps_backslash_fails",
    "Verif.Regexp.C79_sub_block",
    "Verif.Regexp.C79_match_position_partial",
    "Verif.Regexp.C79_match_position_fails",
    "Verif.Regexp.C79_match_groups_partial",
    "Verif.Regexp.C79_match_optional_group_fails",
    "Verif.Regexp.C79_dollar_n",
    "Verif.Regexp.C79_gsub_reports_errors"
   ],
   "note": "sub (with text and with block): full. gsub with text: all matches but possibly an empty one at the end, no group expansion; gsub with block: patterns without an empty match at the end; scan: patterns without empty matches; =~: ASCII prefix; match: all groups present. Each gap has a _fails theorem. The matcher itself is a parameter under a contract."
  },
  {
   "property": "C80",
   "status": "partial",
   "theorems": [
    "Verif.Complex.C80_add_partial",
    "Verif.Complex.C80_sub_partial",
    "Verif.Complex.C80_mul_partial",
    "Verif.Complex.C80_big_operand_fails",
    "Verif.Complex.C80_integer_left",
    "Verif.Complex.C80_eq",
    "Verif.Complex.C80_eq_integer_fails",
    "Verif.Complex.C80_abs2",
    "Verif.Complex.C80_rect_partial",
    "Verif.Complex.C80_rect_fails",
    "Verif.Complex.C80_div_partial",
    "Verif.Complex.C80_div_fails",
    "Verif.Complex.C80_div_zero_fails"
   ],
   "note": "Integer on the left, ==, abs2: full. add/sub/mul with a complex or 63-bit integer on the right: full; a big integer on the right raises (fails theorem). div: exact quotients; rect: 63-bit parts. Float parts are out of scope."
  },
  {
   "property": "C81",
   "status": "partial",
   "theorems": [
    "Verif.Eq.C81_eq_partial",
    "Verif.Eq.C81_ne_partial",
    "Verif.Eq.C81_case_partial",
    "Verif.Eq.C81_literal_partial",
    "Verif.Eq.C81_include_partial",
    "Verif.Eq.C81_count_partial",
    "Verif.Eq.C81_equivalence_partial",
    "Verif.Eq.C81_float_fails",
    "Verif.Eq.C81_big_float_fails",
    "Verif.Eq.C81_nan_fails",
    "Verif.Eq.C81_cyclic_fails",
    "Verif.Eq.C81_own_method_fails",
    "Verif.Eq.C81_raise_fails",
    "Verif.Eq.C81_send_fails",
    "Verif.Eq.C81_float_literal_partial",
    "Verif.Eq.C81_floats_partial",
    "Verif.Eq.C81_int_float_partial",
    "Verif.Eq.C81_send_partial",
    "Verif.Eq.C81_case_class",
    "Verif.Eq.C81_case_regexp"
   ],
   "note": "Proved for all data without hashes and complex numbers, with no redefined builtin ==; single floats against floats, integers and literals (C81_floats_partial, C81_int_float_partial, C81_float_literal_partial), not inside arrays. == called as a method: C81_send_partial. Seven fails theorems state where the code departs from the property."
  },
  {
   "property": "C82",
   "status": "partial",
   "theorems": [
    "Verif.Methods.Factorial.C82_factorial",
    "Verif.Methods.C82_calls_do_what_methods_say_partial",
    "Verif.Methods.C82_programs_with_methods_do_what_they_say_partial",
    "Verif.Methods.C82_depth_does_not_matter",
    "Verif.Methods.C82_methods_compile_partial",
    "Verif.Methods.Factorial.C82_factorial_text",
    "Verif.Methods.C82_texts_with_methods_do_what_they_say_partial"
   ],
   "note": "Methods with required parameters only, defined before the other statements, bodies as in C78, no blocks. Proved for all such programs, from their text, for all arguments and all depths; C82_factorial and C82_factorial_text are instances."
  },
  {
   "property": "C83",
   "status": "partial",
   "theorems": [
    "Verif.Blocks.C83_return_in_block_is_value_of_yield",
    "Verif.Blocks.C83_break_in_block_resumes_yield",
    "Verif.Blocks.Exits.C83_return_ends_the_method_fails",
    "Verif.Blocks.Exits.C83_break_ends_the_call_fails",
    "Verif.Blocks.C83_blocks_do_what_the_source_says_partial",
    "Verif.Blocks.C83_call_without_block_keeps_variables_partial",
    "Verif.Blocks.C83_programs_compile",
    "Verif.Blocks.Sum.C83_block_adds_to_a_variable",
    "Verif.Blocks.C83_return_through_blocks"
   ],
   "note": "Proved for programs of methods and blocks with required parameters, bodies as in C78, in which no block ends with break or return: for those two the theorems say what happens instead, and _fails give programs where it is not what Ruby does."
  },
  {
   "property": "C84",
   "status": "partial",
   "theorems": [
    "Verif.Class.C84_instance_methods",
    "Verif.Class.C84_instance_methods_history_partial",
    "Verif.Class.C84_own_methods",
    "Verif.Class.C84_respond_to_partial",
    "Verif.Class.C84_compare",
    "Verif.Class.C84_compare_turned_partial",
    "Verif.Class.C84_mutual_modules_fails",
    "Verif.Class.C84_include_partial",
    "Verif.Class.C84_include_itself_fails",
    "Verif.Class.C84_included_modules_partial",
    "Verif.Class.C84_included_modules_fails",
    "Verif.Class.C84_owner_fails",
    "Verif.Class.C84_singleton_methods_fails",
    "Verif.Class.C84_singleton_methods_partial"
   ],
   "note": "Agreement of instance_methods, method_defined? and lookup for every class and every history; in terms of the history for orderly ones. _fails: mutual inclusion, include?(self), included_modules after prepend, owner, singleton_methods changes the object."
  },
  {
   "property": "C85",
   "status": "partial",
   "theorems": [
    "Verif.Class.C85_alias_defines_partial",
    "Verif.Class.C85_alias_stays",
    "Verif.Class.C85_alias_inherited_partial",
    "Verif.Class.C85_module_function_partial"
   ],
   "note": "C85_alias_stays holds for every history and every class. In terms of the history of definitions (_partial) only for classes that are not singletons and without prepended modules; module_function for modules without prepended modules."
  },
  {
   "property": "C86",
   "status": "partial",
   "theorems": [
    "Verif.Arr.Mutate.C86_each",
    "Verif.Arr.Mutate.C86_map",
    "Verif.Arr.Mutate.C86_select_partial",
    "Verif.Arr.Mutate.C86_find_partial",
    "Verif.Arr.Mutate.C86_inject_partial",
    "Verif.Arr.Mutate.C86_select_fails",
    "Verif.Arr.Mutate.C86_cleared_elements_fails",
    "Verif.Arr.Mutate.C86_map_bang_partial",
    "Verif.Arr.Mutate.C86_map_bang_fails",
    "Verif.Arr.Mutate.C86_bsearch_partial",
    "Verif.Arr.Mutate.C86_bsearch_fails",
    "Verif.Arr.Mutate.C86_bsearch_raises"
   ],
   "note": "each and map for every block whatever it does. select, reject, partition, find, any?, all?, inject for blocks that keep the length and place of the elements; map! for blocks that do not shorten; bsearch for blocks that leave the array alone. _fails show that each condition is needed."
  },
  {
   "property": "C87",
   "status": "partial",
   "theorems": [
    "Verif.Str.C87_to_s",
    "Verif.Str.C87_to_s_injective",
    "Verif.Str.C87_read_back_partial",
    "Verif.Str.C87_big_fails",
    "Verif.Str.C87_prefix_fails",
    "Verif.Str.C87_literal",
    "Verif.Str.C87_chr",
    "Verif.Str.C87_chr_ord_partial",
    "Verif.Str.C87_chr_ord_fails",
    "Verif.Str.C87_bytes_pack",
    "Verif.Str.C87_pack_bytes",
    "Verif.Str.C87_ord",
    "Verif.Str.C87_no_number"
   ],
   "note": "to_s, chr, bytes/pack and literals in full. Reading back with to_i and Integer() for 64-bit integers, chr.ord below 128; for all others the negation is proved."
  },
  {
   "property": "C88",
   "status": "partial",
   "theorems": [
    "Verif.Str.C88_format_partial",
    "Verif.Str.C88_too_few",
    "Verif.Str.C88_negative_hex_fails",
    "Verif.Str.C88_string_width_fails",
    "Verif.Str.C88_precision_fails",
    "Verif.Str.C88_float_precision_fails",
    "Verif.Str.C88_refused_fails"
   ],
   "note": "all formats made of characters, %% and the directives d x b s c f with width, zero flag and precision, for arguments of fitting kinds; too few arguments raise. Missing: what the five _fails theorems show to be wrong."
  },
  {
   "property": "C89",
   "status": "partial",
   "theorems": [
    "Verif.Str.C89_chars",
    "Verif.Str.C89_codepoints_injective",
    "Verif.Str.C89_each_char",
    "Verif.Str.C89_empty_sum",
    "Verif.Str.C89_search",
    "Verif.Str.C89_count_partial",
    "Verif.Str.C89_count_fails",
    "Verif.Str.C89_tr_partial",
    "Verif.Str.C89_tr_fails",
    "Verif.Str.C89_chomp_removes",
    "Verif.Str.C89_chomp_partial",
    "Verif.Str.C89_chomp_fails",
    "Verif.Str.C89_bytes_fails"
   ],
   "note": "chars, size, codepoints, each_char, start_with?, end_with?, include?, empty?, sum for all texts; count for sets without repetitions, ranges or negation; tr for one character; chomp exactly as it is (C89_chomp_removes) and Ruby's meaning for at most one line end."
  },
  {
   "property": "C90",
   "status": "partial",
   "theorems": [
    "Verif.Class.Vars.C90_shared_partial",
    "Verif.Class.Vars.C90_assigned",
    "Verif.Class.Vars.C90_unassigned",
    "Verif.Class.Vars.C90_lexical_fails",
    "Verif.Class.Vars.C90_module_fails",
    "Verif.Class.Vars.C90_overtaken_fails",
    "Verif.Class.Vars.C90_class_variables_partial",
    "Verif.Class.Vars.C90_class_variables_fails"
   ],
   "note": "For all histories of classes, modules, includes and assignments. Missing: assignments by modules or by classes above the owner, code whose self is not of the class it is written in (each refuted by a witness); prepended modules and singleton classes are not modelled here."
  },
  {
   "property": "C91",
   "status": "partial",
   "theorems": [
    "Verif.Hash.C91_each_partial",
    "Verif.Hash.C91_each_key_value_partial",
    "Verif.Hash.C91_assign",
    "Verif.Hash.C91_filter_partial",
    "Verif.Hash.C91_has_value_partial",
    "Verif.Hash.C91_add_fails",
    "Verif.Hash.C91_delete_fails",
    "Verif.Hash.C91_string_key_fails"
   ],
   "note": "For blocks that, called with an entry, neither add nor remove entries; the other cases are refuted by witnesses."
  },
  {
   "property": "C92",
   "status": "partial",
   "theorems": [
    "Verif.File.C92_expand_partial",
    "Verif.File.C92_expand_canonical",
    "Verif.File.C92_expand_fixed_partial",
    "Verif.File.C92_expand_home_partial",
    "Verif.File.C92_basename_partial",
    "Verif.File.C92_dirname_partial",
    "Verif.File.C92_join",
    "Verif.File.C92_join_slash",
    "Verif.File.C92_round_trip_partial",
    "Verif.File.C92_extname",
    "Verif.File.C92_tilde_fails",
    "Verif.File.C92_home_parent_fails",
    "Verif.File.C92_basename_fails",
    "Verif.File.C92_dirname_fails"
   ],
   "note": "For all texts; missing: paths with ~ elsewhere than at the start or left by .., basename and dirname of paths that end in . or .. (refuted by witnesses); Windows paths."
  },
  {
   "property": "C93",
   "status": "partial",
   "theorems": [
    "Verif.File.Glob.C93_glob_partial",
    "Verif.File.Glob.C93_glob_absolute_partial",
    "Verif.File.Glob.C93_hidden_fails",
    "Verif.File.Glob.C93_deep_fails",
    "Verif.File.Glob.C93_slash_fails",
    "Verif.File.Glob.C93_line_feed_fails"
   ],
   "note": "For all trees and all patterns without characters special in regular expressions (these go into the expression unescaped and are not modelled). Missing: hidden names that a part beginning with * or ? would match without its stars, names with line feeds, two ** one after the other (refuted by witnesses)."
  },
  {
   "property": "C94",
   "status": "partial",
   "theorems": [
    "Verif.Dispatch.C94_direct",
    "Verif.Dispatch.C94_outcome",
    "Verif.Dispatch.C94_send_partial",
    "Verif.Dispatch.C94_method",
    "Verif.Dispatch.C94_method_call",
    "Verif.Dispatch.C94_method_none",
    "Verif.Dispatch.C94_bind",
    "Verif.Dispatch.C94_bind_call_partial",
    "Verif.Dispatch.C94_respond_to",
    "Verif.Dispatch.C94_missing_partial",
    "Verif.Dispatch.C94_symbol_block",
    "Verif.Dispatch.C94_to_proc_partial",
    "Verif.Dispatch.C94_send_missing_fails",
    "Verif.Dispatch.C94_send_keywords_fails",
    "Verif.Dispatch.C94_missing_block_fails",
    "Verif.Dispatch.C94_no_method_fails",
    "Verif.Dispatch.C94_bind_call_fails",
    "Verif.Dispatch.C94_bind_fails",
    "Verif.Dispatch.C94_to_proc_fails",
    "Verif.Dispatch.C94_each_symbol_fails"
   ],
   "note": "For all hierarchies, argument lists and stacks. Missing (refuted by witnesses): keywords and method_missing in send, the block in method_missing and bind_call, NoMethodError, further arguments of Symbol#to_proc, symbols as blocks of times and Range#each."
  },
  {
   "property": "C95",
   "status": "partial",
   "theorems": [
    "Verif.Inspect.C95_apart_partial",
    "Verif.Inspect.C95_strings",
    "Verif.Inspect.C95_symbol_fails",
    "Verif.Inspect.C95_self",
    "Verif.Inspect.C95_cycle_fails",
    "Verif.Inspect.C95_heap"
   ],
   "note": "For all data without floats and objects; missing: symbols with a comma, bracket, equals sign or dot, cycles through two or more arrays (refuted by witnesses)."
  },
  {
   "property": "C96",
   "status": "partial",
   "theorems": [
    "Verif.Class.C96_own",
    "Verif.Class.C96_private",
    "Verif.Class.C96_others",
    "Verif.Class.C96_dup_partial",
    "Verif.Class.C96_dup_fails",
    "Verif.Class.C96_dup_class_fails"
   ],
   "note": "C96_own, C96_private and C96_others hold for all histories (x not a class: methods of a class are meant to reach its subclasses); missing: dup of objects with singleton methods and of classes (refuted by witnesses)."
  },
  {
   "property": "C97",
   "status": "partial",
   "theorems": [
    "Verif.Lexer.C97_q",
    "Verif.Lexer.C97_Q",
    "Verif.Lexer.C97_words",
    "Verif.Lexer.C97_words_defined",
    "Verif.Lexer.C97_here",
    "Verif.Lexer.C97_here_last",
    "Verif.Lexer.C97_unclosed",
    "Verif.Lexer.C97_q_fails",
    "Verif.Lexer.C97_tab_fails",
    "Verif.Lexer.C97_blank_fails",
    "Verif.Lexer.C97_kinds_fails",
    "Verif.Lexer.C97_squiggly_fails",
    "Verif.Lexer.C97_eof_fails",
    "Verif.Lexer.C97_unknown"
   ],
   "note": "proved for every literal without an escaped delimiter and every document with <<ID, <<'ID', <<\"ID\" and <<-; missing: the violations (refuted by witnesses), interpolation, and documents in backquotes."
  },
  {
   "property": "C98",
   "status": "partial",
   "theorems": [
    "Verif.Class.C98_handler_partial",
    "Verif.Class.C98_raise_class_partial",
    "Verif.Class.C98_error_partial",
    "Verif.Class.C98_raise_other",
    "Verif.Class.C98_library_partial",
    "Verif.Class.C98_module_fails",
    "Verif.Class.C98_prepended_fails",
    "Verif.Class.C98_string_fails",
    "Verif.Class.C98_class_message_fails",
    "Verif.Class.C98_again_fails",
    "Verif.Class.C98_library_fails",
    "Verif.Class.C98_message_fails",
    "Verif.Class.C98_class_of_error"
   ],
   "note": "proved for every reachable class graph and every nesting of clauses; missing: the violations (refuted by witnesses), clauses with modules or classes with prepended modules, exceptions with a singleton class, and user-defined new or initialize."
  },
  {
   "property": "C99",
   "status": "partial",
   "theorems": [
    "Verif.Class.C99_new",
    "Verif.Class.C99_reopen",
    "Verif.Class.C99_name_stays",
    "Verif.Class.C99_name_path",
    "Verif.Class.C99_name_unique",
    "Verif.Class.C99_value_fails",
    "Verif.Class.C99_nil_fails",
    "Verif.Class.C99_singleton_fails",
    "Verif.Class.C99_anonymous_fails",
    "Verif.Class.C99_superclass"
   ],
   "note": "proved for every history; missing: the violations (refuted by witnesses), autoload entries, and the texts `#<Class:…>` of singleton classes."
  },
  {
   "property": "C100",
   "status": "partial",
   "theorems": [
    "Verif.Arr.Search.C100_grep_partial",
    "Verif.Arr.Search.C100_any",
    "Verif.Arr.Search.C100_all",
    "Verif.Arr.Search.C100_count",
    "Verif.Arr.Search.C100_find_index",
    "Verif.Arr.Search.C100_delete",
    "Verif.Arr.Search.C100_max",
    "Verif.Arr.Search.C100_min_partial",
    "Verif.Arr.Search.C100_fill",
    "Verif.Arr.Search.C100_indexed",
    "Verif.Arr.Search.C100_indexed_ends",
    "Verif.Arr.Search.C100_flat_map_partial",
    "Verif.Arr.Search.C100_uniq_bang_partial",
    "Verif.Arr.Search.C100_grep_fails",
    "Verif.Arr.Search.C100_min_fails",
    "Verif.Arr.Search.C100_flat_map_fails",
    "Verif.Arr.Search.C100_flat_map_rest_fails",
    "Verif.Arr.Search.C100_uniq_bang_fails"
   ],
   "note": "proved for all arrays and calls; missing: the violations (refuted by witnesses), `count` and `find_index` with a block, the self-containing array in `uniq!` without block."
  },
  {
   "property": "C101",
   "status": "partial",
   "theorems": [
    "Verif.Dispatch.Send.C101_call_partial",
    "Verif.Dispatch.Send.C101_raises",
    "Verif.Dispatch.Send.C101_safe_partial",
    "Verif.Dispatch.Send.C101_super_partial",
    "Verif.Dispatch.Send.C101_implicit_super_partial",
    "Verif.Dispatch.Send.C101_safe_arg_fails",
    "Verif.Dispatch.Send.C101_safe_nil_arg_fails",
    "Verif.Dispatch.Send.C101_safe_block_fails",
    "Verif.Dispatch.Send.C101_safe_unused_fails",
    "Verif.Dispatch.Send.C101_safe_eq_fails",
    "Verif.Dispatch.Send.C101_empty_splat_fails",
    "Verif.Dispatch.Send.C101_many_fails",
    "Verif.Dispatch.Send.C101_super_block_fails",
    "Verif.Dispatch.Send.C101_implicit_super_fails",
    "Verif.Dispatch.Send.C101_block_super_fails"
   ],
   "note": "proved for all calls without `&.` below 65536 arguments; missing: the violations (refuted by witnesses), the ranges of C39_empty_range_fails."
  },
  {
   "property": "C102",
   "status": "partial",
   "theorems": [
    "Verif.Class.C102_constants_partial",
    "Verif.Class.C102_own",
    "Verif.Class.C102_listed",
    "Verif.Class.C102_get_partial",
    "Verif.Class.C102_defined_partial",
    "Verif.Class.C102_twice_fails",
    "Verif.Class.C102_object_fails",
    "Verif.Class.C102_prepended_fails",
    "Verif.Class.C102_module_fails",
    "Verif.Class.C102_own_defined_fails"
   ],
   "note": "proved for all histories without include after prepend; missing: the violations (refuted by witnesses), the order of the list, autoload."
  },
  {
   "property": "C103",
   "status": "partial",
   "theorems": [
    "Verif.Arr.Search.C103_minimum",
    "Verif.Arr.Search.C103_sound",
    "Verif.Arr.Search.C103_calls",
    "Verif.Arr.Search.C103_ends",
    "Verif.Arr.Search.C103_any_fails",
    "Verif.Arr.Search.C103_shrink_fails"
   ],
   "note": "find-minimum mode proved for all arrays and blocks; missing: find-any mode (refuted), blocks that shorten the array (refuted)."
  },
  {
   "property": "C104",
   "status": "partial",
   "theorems": [
    "Verif.Ivar.Struct.C104_class_partial",
    "Verif.Ivar.Struct.C104_create_partial",
    "Verif.Ivar.Struct.C104_too_many",
    "Verif.Ivar.Struct.C104_write",
    "Verif.Ivar.Struct.C104_inspect",
    "Verif.Ivar.Struct.C104_duplicate_fails",
    "Verif.Ivar.Struct.C104_subclass_fails"
   ],
   "note": "proved for distinct members and the class made by Struct.new itself; missing: duplicates and subclasses (refuted), the block, inspection that raises."
  },
  {
   "property": "C105",
   "status": "partial",
   "theorems": [
    "Verif.Float.C105_floats",
    "Verif.Float.C105_strict",
    "Verif.Float.C105_mixed_partial",
    "Verif.Float.C105_swap",
    "Verif.Float.C105_operators",
    "Verif.Float.C105_literal",
    "Verif.Float.C105_mixed_fails"
   ],
   "note": "proved for all floats and all packed integers except equality with integers above 2^53 (refuted); missing: bignums beside floats, floats kept as objects under < (sent as a method)."
  },
  {
   "property": "C106",
   "status": "partial",
   "theorems": [
    "Verif.Float.C106_floor_partial",
    "Verif.Float.C106_to_i_partial",
    "Verif.Float.C106_to_f",
    "Verif.Float.C106_round_trip",
    "Verif.Float.C106_kinds",
    "Verif.Float.C106_abs",
    "Verif.Float.C106_saturate_fails",
    "Verif.Float.C106_nan_fails",
    "Verif.Float.C106_round_trip_fails"
   ],
   "note": "proved for floats whose integer part is an i64; outside refuted."
  },
  {
   "property": "C107",
   "status": "partial",
   "theorems": [
    "Verif.Float.C107_same_sign_partial",
    "Verif.Float.C107_integers_partial",
    "Verif.Float.C107_mixed_partial",
    "Verif.Float.C107_fails",
    "Verif.Float.C107_zero_fails",
    "Verif.Float.C107_mixed_integers_partial"
   ],
   "note": "proved for operands of the same sign, and for floats that are integers of at most 52 bits with any signs; other signs refuted."
  },
  {
   "property": "C108",
   "status": "partial",
   "theorems": [
    "Verif.Kernel.C108_puts",
    "Verif.Kernel.C108_puts_text",
    "Verif.Kernel.C108_p",
    "Verif.Kernel.C108_print_partial",
    "Verif.Kernel.C108_loop_partial",
    "Verif.Kernel.C108_forever",
    "Verif.Kernel.C108_newline_fails",
    "Verif.Kernel.C108_print_fails",
    "Verif.Kernel.C108_subclass_fails",
    "Verif.Kernel.C108_result_fails",
    "Verif.Kernel.C108_shift_partial",
    "Verif.Kernel.C108_shift_fails"
   ],
   "note": "proved for finite nesting; missing: arrays that contain themselves, partial writes (refuted), subclasses of StopIteration (refuted)."
  },
  {
   "property": "C109",
   "status": "partial",
   "theorems": [
    "Verif.Eval.C109_eval_partial",
    "Verif.Eval.C109_one_new_variable_partial",
    "Verif.Eval.C109_second_new_variable_fails",
    "Verif.Eval.C109_many_variables_fails",
    "Verif.Eval.C109_nested_call_fails"
   ],
   "note": "proved for all histories in which a variable that is new beside another is assigned before it is read, a text calls no method after a nested evaluation, and a binding has at most 63 variables; each condition is refuted when dropped. Blocks inside texts are not modelled."
  },
  {
   "property": "C110",
   "status": "partial",
   "theorems": [
    "Verif.Float.C110_integers_partial",
    "Verif.Float.C110_close_partial",
    "Verif.Float.C110_zero",
    "Verif.Float.C110_fdiv_partial",
    "Verif.Float.C110_large_integers_fails",
    "Verif.Float.C110_close_fails",
    "Verif.Float.C110_infinite_fails"
   ],
   "note": "exact for integers and integral floats with |a| + |b| < 2**52; for all floats with a quotient below 2**53 the result is the floor or one more, and exact when the quotient is an integer; refuted beyond. Big integers are not modelled; the machine is any that rounds to nearest (one is constructed)."
  },
  {
   "property": "C111",
   "status": "partial",
   "theorems": [
    "Verif.Eval.Defined.C111_result_partial",
    "Verif.Eval.Defined.C111_assignment_fails",
    "Verif.Eval.Defined.C111_operand_fails",
    "Verif.Eval.Defined.C111_leftover_fails",
    "Verif.Eval.Defined.C111_short_circuit_fails",
    "Verif.Eval.Defined.C111_unset_local_fails",
    "Verif.Eval.Defined.C111_class_variable_fails"
   ],
   "note": "proved for careful expressions: no class variables, short circuits or assignments to locals or attributes, set locals, owners of operators, indexes and constants do not raise, receivers that raise leave nothing on the stack; each is refuted when dropped. The code of the receivers is one step here."
  },
  {
   "property": "C112",
   "status": "partial",
   "theorems": [
    "Verif.Time.C112_fields_partial",
    "Verif.Time.C112_refused",
    "Verif.Time.C112_next_day",
    "Verif.Time.C112_back",
    "Verif.Time.C112_difference_partial",
    "Verif.Time.C112_elapsed",
    "Verif.Time.C112_utc",
    "Verif.Time.C112_eight_fails",
    "Verif.Time.C112_wrap_fails",
    "Verif.Time.C112_carry_fails",
    "Verif.Time.C112_far_fails",
    "Verif.Time.C112_large_fails",
    "Verif.Time.C112_equal_fails",
    "Verif.Time.C112_fraction_fails",
    "Verif.Time.C112_equal_partial",
    "Verif.Time.C112_difference"
   ],
   "note": "differences are proved exact for multiples of 1/512 of a second up to 2**53/5**9 of them; wrapping years, far times, huge numbers of seconds, carries and equality across zones are refuted."
  },
  {
   "property": "C113",
   "status": "partial",
   "theorems": [
    "Verif.Temps.C113_map",
    "Verif.Temps.C113_flat_map",
    "Verif.Temps.C113_inject",
    "Verif.Temps.C113_zip",
    "Verif.Temps.C113_select_partial",
    "Verif.Temps.C113_partition_partial",
    "Verif.Temps.C113_uniq_bang_partial",
    "Verif.Temps.C113_sort_partial",
    "Verif.Temps.C113_sort_by_partial",
    "Verif.Temps.C113_next",
    "Verif.Temps.C113_temporary_area",
    "Verif.Temps.C113_map_values_partial",
    "Verif.Temps.C113_uniq_fails",
    "Verif.Temps.C113_select_fails",
    "Verif.Temps.C113_sort_fails",
    "Verif.Temps.C113_enumerator_each_fails",
    "Verif.Temps.C113_map_values_fails",
    "Verif.Temps.C113_released_fails"
   ],
   "note": "map, flat_map, inject, zip, scan and Enumerator#next are proved for every block; select, reject, partition, sort, sort_by and uniq! for blocks that do not change the receiver; uniq with a block, Enumerator#each and blocks with `&obj` are refuted."
  },
  {
   "property": "C114",
   "status": "partial",
   "theorems": [
    "Verif.Parser.Interp.C114_read_partial",
    "Verif.Parser.Interp.C114_unambiguous",
    "Verif.Parser.Interp.C114_value",
    "Verif.Parser.Interp.C114_unused",
    "Verif.Parser.Interp.C114_raises",
    "Verif.Parser.Interp.C114_code",
    "Verif.Parser.Interp.C114_ivar_fails",
    "Verif.Parser.Interp.C114_special_fails",
    "Verif.Parser.Interp.C114_hash_fails",
    "Verif.Parser.Interp.C114_nested_fails",
    "Verif.Parser.Interp.C114_level_fails",
    "Verif.Parser.Interp.C114_beside_fails",
    "Verif.Parser.Interp.C114_to_s_fails"
   ],
   "note": "Reading is proved for double quotes with embedded programs of the grammar of C49 (which has plain strings only) and global variables; instance variables, special variables and percent literals with parentheses are refuted. The value, the order of evaluation and exceptions are proved for all lists of parts."
  },
  {
   "property": "C115",
   "status": "partial",
   "theorems": [
    "Verif.Blocks.Leave.C115_leave_partial",
    "Verif.Blocks.Leave.C115_one_meaning",
    "Verif.Blocks.Leave.C115_value_or_exception",
    "Verif.Blocks.Leave.C42_through_blocks_partial",
    "Verif.Blocks.Leave.C115_unused_call_fails",
    "Verif.Blocks.Leave.C115_lambda_return_fails",
    "Verif.Blocks.Leave.C115_proc_return_fails",
    "Verif.Blocks.Leave.C115_passed_on_break_fails"
   ],
   "note": "Both directions (the interpreter ends with a value or exception exactly if the rules give it), for all programs without return and break in Proc objects, without unused calls of methods that have a return in a block, and without begin/rescue as a later operand; the excluded cases are refuted (the last one in C31_rescue_as_operand_fails). No ensure clauses (C43)."
  },
  {
   "property": "C116",
   "status": "partial",
   "theorems": [
    "Verif.Copy.C116_fresh",
    "Verif.Copy.C116_new_partial",
    "Verif.Copy.C116_copy_partial",
    "Verif.Copy.C116_write_partial",
    "Verif.Copy.C116_history_partial",
    "Verif.Copy.C116_class_fails",
    "Verif.Copy.C116_fiber_fails",
    "Verif.Copy.C116_subclass_fails",
    "Verif.Copy.C116_hash_default_fails",
    "Verif.Copy.C116_read_back"
   ],
   "note": "Proved for all histories; excluded and refuted: copies of classes (share methods), of fibers and enumerators (uninitialized), and of arrays and hashes that belong to subclasses or have instance variables (lost)."
  },
  {
   "property": "C117",
   "status": "partial",
   "theorems": [
    "Verif.Regexp.Pattern.C117_escape",
    "Verif.Regexp.Pattern.C117_text_partial",
    "Verif.Regexp.Pattern.C117_text_fails",
    "Verif.Regexp.Pattern.C117_pattern",
    "Verif.Regexp.Pattern.C117_literal",
    "Verif.Regexp.Pattern.C117_new_fails",
    "Verif.Regexp.Pattern.C117_backslash_fails"
   ],
   "note": "Proved for all texts that do not end with \\Z and all histories; refuted for those that do and for Regexp.new compared with literals."
  },
  {
   "property": "C118",
   "status": "partial",
   "theorems": [
    "Verif.Kernel.Exit.C118_course",
    "Verif.Kernel.Exit.C118_status_partial",
    "Verif.Kernel.Exit.C118_status_fails",
    "Verif.Kernel.Exit.C118_load_fails",
    "Verif.Kernel.Exit.C118_at_exit_fails",
    "Verif.Kernel.Exit.C118_exit_writes_fails",
    "Verif.Kernel.Exit.C118_abort",
    "Verif.Kernel.Exit.C118_argv_partial",
    "Verif.Kernel.Exit.C118_argv_fails"
   ],
   "note": "Output proved for all programs; status for programs that end normally, with abort or with code 0; the rest is refuted in general form."
  },
  {
   "property": "C119",
   "status": "partial",
   "theorems": [
    "Verif.Heap.Control.C119_switch",
    "Verif.Heap.Control.C119_counters",
    "Verif.Heap.Control.C119_start_partial",
    "Verif.Heap.Control.C119_start_fails",
    "Verif.Heap.Control.C119_disabled",
    "Verif.Heap.Control.C119_collects",
    "Verif.Heap.Control.C119_malloc",
    "Verif.Heap.Control.C119_previous_fails",
    "Verif.Heap.Control.C119_pages"
   ],
   "note": "Switching, counters, no collection while off, progress while on, and start while on proved for all histories; answers of enable/disable and start while off refuted."
  },
  {
   "property": "C120",
   "status": "partial",
   "theorems": [
    "Verif.Heap.Address.C120_mark",
    "Verif.Heap.Address.C120_apart",
    "Verif.Heap.Address.C120_object_id_partial",
    "Verif.Heap.Address.C120_object_id_fails",
    "Verif.Heap.Address.C120_live"
   ],
   "note": "Proved for all values of one word except the floats that C02 refutes."
  },
  {
   "property": "C121",
   "status": "partial",
   "theorems": [
    "Verif.Lexer.Regexp.C121_literal_partial",
    "Verif.Lexer.Regexp.C121_interpolation",
    "Verif.Lexer.Regexp.C121_unterminated",
    "Verif.Lexer.Regexp.C121_text",
    "Verif.Lexer.Regexp.C121_group_fails",
    "Verif.Lexer.Regexp.C121_nul_fails",
    "Verif.Lexer.Regexp.C121_stray_fails",
    "Verif.Lexer.Regexp.C121_bracket_fails",
    "Verif.Lexer.Regexp.C121_options_fails"
   ],
   "note": "Proved for all literals without references to groups 2 to 7, \\0 and unmatched closing brackets, which are refuted, as are two options and \\b in brackets behind an interpolation."
  },
  {
   "property": "C122",
   "status": "partial",
   "theorems": [
    "Verif.Lexer.Symbol.C122_symbol_partial",
    "Verif.Lexer.Symbol.C122_symbol_is_text",
    "Verif.Lexer.Symbol.C122_method_partial",
    "Verif.Lexer.Symbol.C122_call",
    "Verif.Lexer.Symbol.C122_call_signed",
    "Verif.Lexer.Symbol.C122_unique",
    "Verif.Lexer.Symbol.C122_equal_fails",
    "Verif.Lexer.Symbol.C122_global_fails",
    "Verif.Lexer.Symbol.C122_at_fails",
    "Verif.Lexer.Symbol.C122_end_fails",
    "Verif.Lexer.Symbol.C122_quoted"
   ],
   "note": "Proved for all names but those of global variables, and all texts behind them but == and =~ right behind an identifier and @ behind ! or ~, which are refuted, as is the error at the end of the text (a panic)."
  },
  {
   "property": "C123",
   "status": "partial",
   "theorems": [
    "Verif.Arr.Make.C123_new_partial",
    "Verif.Arr.Make.C123_new_error",
    "Verif.Arr.Make.C123_elem",
    "Verif.Arr.Make.C123_Array_partial",
    "Verif.Arr.Make.C123_block_fails",
    "Verif.Arr.Make.C123_float_fails",
    "Verif.Arr.Make.C123_size_fails",
    "Verif.Arr.Make.C123_order_fails",
    "Verif.Arr.Make.C123_subclass_fails",
    "Verif.Arr.Make.C123_result_fails"
   ],
   "note": "Proved for Array.new without a block and with sizes below 2**60, for Array[], allocate, and for Array(x) where x has at most one of to_ary and to_a; the rest is refuted. Classes with an initialize of their own are not modelled."
  },
  {
   "property": "C124",
   "status": "partial",
   "theorems": [
    "Verif.Regexp.Vars.C124_global",
    "Verif.Regexp.Vars.C124_special_partial",
    "Verif.Regexp.Vars.C124_before_match",
    "Verif.Regexp.Vars.C124_written",
    "Verif.Regexp.Vars.C124_failed_fails",
    "Verif.Regexp.Vars.C124_called_fails"
   ],
   "note": "Global variables: all histories. Variables of matches: as long as the fiber matches nothing else; a failed match and one in a called method are refuted."
  },
  {
   "property": "C125",
   "status": "partial",
   "theorems": [
    "Verif.Class.Exn.C125_new_partial",
    "Verif.Class.Exn.C125_message",
    "Verif.Class.Exn.C125_super_fails",
    "Verif.Class.Exn.C125_default_fails",
    "Verif.Class.Exn.C125_arguments_fails",
    "Verif.Class.Exn.C125_assign_fails",
    "Verif.Class.Exn.C125_allocate_fails"
   ],
   "note": "Classes whose initialize methods hand their arguments on, or that have none; a changed message, other arguments, message= and allocate are refuted."
  },
  {
   "property": "C126",
   "status": "partial",
   "theorems": [
    "Verif.Class.Visible.C126_allowed_partial",
    "Verif.Class.Visible.C126_public_partial",
    "Verif.Class.Visible.C126_private_fails",
    "Verif.Class.Visible.C126_module_function_fails",
    "Verif.Class.Visible.C126_unknown_fails",
    "Verif.Class.Visible.C126_error"
   ],
   "note": "Every call that Ruby allows runs the right method; the calls that Ruby forbids are refuted: visibility is not implemented."
  },
  {
   "property": "C127",
   "status": "partial",
   "theorems": [
    "Verif.Sleep.C127_waits_partial",
    "Verif.Sleep.C127_result",
    "Verif.Sleep.C127_negative",
    "Verif.Sleep.C127_large_fails",
    "Verif.Sleep.C127_nan_fails",
    "Verif.Sleep.C127_forever_fails",
    "Verif.Sleep.C127_round_fails"
   ],
   "note": "Numbers from 0 to below 2^64 and negative ones; the rest, the missing argument and the rounding are refuted."
  },
  {
   "property": "C128",
   "status": "partial",
   "theorems": [
    "Verif.Gets.C128_lines",
    "Verif.Gets.C128_unique",
    "Verif.Gets.C128_rest",
    "Verif.Gets.C128_invalid",
    "Verif.Gets.C128_end_fails",
    "Verif.Gets.C128_loop_fails"
   ],
   "note": "All lines of all inputs; the end of the input is refuted."
  },
  {
   "property": "C129",
   "status": "partial",
   "theorems": [
    "Verif.Freeze.C129_unchanged_partial",
    "Verif.Freeze.C129_set",
    "Verif.Freeze.C129_freeze",
    "Verif.Freeze.C129_change_fails",
    "Verif.Freeze.C129_frozen_fails"
   ],
   "note": "All programs that change no frozen object behave as in Ruby; freezing itself has no effect (refuted)."
  },
  {
   "property": "C130",
   "status": "partial",
   "theorems": [
    "Verif.Repl.C130_session_partial",
    "Verif.Repl.C130_every_input",
    "Verif.Repl.C130_failed",
    "Verif.Repl.C130_again_fails"
   ],
   "note": "All sessions whose entries do not raise the error of an unfinished text while they run; those are refuted."
  },
  {
   "property": "C131",
   "status": "partial",
   "theorems": [
    "Verif.Process.C131_clock_partial",
    "Verif.Process.C131_runs",
    "Verif.Process.C131_arguments",
    "Verif.Process.C131_pid_fails",
    "Verif.Process.C131_which_fails"
   ],
   "note": "The monotonic clock for 2^53 seconds; pid and the other clocks are refuted."
  },
  {
   "property": "C132",
   "status": "partial",
   "theorems": [
    "Verif.Lexer.C132_char_partial",
    "Verif.Lexer.C132_simple",
    "Verif.Lexer.C132_escape",
    "Verif.Lexer.C132_nothing",
    "Verif.Lexer.C132_quote_fails",
    "Verif.Lexer.C132_variable_fails",
    "Verif.Lexer.C132_name_fails",
    "Verif.Lexer.C132_blank_fails",
    "Verif.Lexer.C132_control_fails"
   ],
   "note": "All characters and escapes, where what follows the question mark can be read as a token; without that condition for letters, operators and escapes. Quotation marks and sigils can panic (refuted)."
  },
  {
   "property": "C133",
   "status": "partial",
   "theorems": [
    "Verif.File.C133_history_partial",
    "Verif.File.C133_untouched",
    "Verif.File.C133_write",
    "Verif.File.C133_missing",
    "Verif.File.C133_lines_partial",
    "Verif.File.C133_link_fails",
    "Verif.File.C133_lines_fails"
   ],
   "note": "All histories of writes, for reading paths without `..`; the file system's resolution of paths is a parameter and writes are all or nothing. readlines gives the lines without their newlines."
  }
 ]
}
{
 "claims": [
  {
   "property": "C01",
   "status": "proved",
   "theorems": [
    "Mjs.Props.C01_varint_roundtrip",
    "Mjs.Props.C01_varint_encode_clipped"
   ],
   "note": "all 64-bit numbers, any trailing bytes"
  },
  {
   "property": "C02",
   "status": "proved",
   "theorems": [
    "Mjs.Props.C02_varint_decode_safe",
    "Mjs.Props.C02_varint_decode_unsafe"
   ],
   "note": "all memories and buffer sizes"
  },
  {
   "property": "C03",
   "status": "proved",
   "theorems": [
    "Mjs.Props.C03_mbuf_step",
    "Mjs.Props.C03_mbuf_history",
    "Mjs.Props.C03_mbuf_insert_succeeds",
    "Mjs.Props.C03_mbuf_move",
    "Mjs.Props.C03_mbuf_insert_huge_overruns"
   ],
   "note": "sizes below 2^52; C03_mbuf_insert_huge_overruns shows that some bound is needed"
  },
  {
   "property": "C04",
   "status": "proved",
   "theorems": [
    "Mjs.Props.C04_one_kind",
    "Mjs.Props.C04_constructors",
    "Mjs.Props.C04_getType",
    "Mjs.Props.C04_getType_aborts_on_ffi"
   ],
   "note": "all 2^64 values; the last theorem records that the type query aborts on FFI function values"
  },
  {
   "property": "C05",
   "status": "proved",
   "theorems": [
    "Mjs.Props.C05_number_roundtrip",
    "Mjs.Props.C05_boolean_roundtrip",
    "Mjs.Props.C05_isnan"
   ],
   "note": ""
  },
  {
   "property": "C06",
   "status": "partial",
   "theorems": [
    "Mjs.Props.C06_foreign_roundtrip_partial",
    "Mjs.Props.C06_not_foreign_null",
    "Mjs.Props.C06_sign_extended_pointer_lost"
   ],
   "note": "the code violates the header's promise for sign-extended pointers: proved as C06_sign_extended_pointer_lost"
  },
  {
   "property": "C07",
   "status": "proved",
   "theorems": [
    "Mjs.Props.C07_copy_reads_back",
    "Mjs.Props.C07_foreign_reads_back",
    "Mjs.Props.C07_strings_last",
    "Mjs.Props.C07_copy_without_memory_overruns"
   ],
   "note": "For every store, source and history, as long as allocation requests are granted and the store is below 2^48 bytes; the last theorem shows that a refused allocation makes mjs_mk_string write outside its block."
  },
  {
   "property": "C08",
   "status": "proved",
   "theorems": [
    "Mjs.Props.C08_short_strings_canonical",
    "Mjs.Props.C08_short_long_distinct"
   ],
   "note": ""
  },
  {
   "property": "C09",
   "status": "proved",
   "theorems": [
    "Mjs.Props.C09_equality_is_byte_equality"
   ],
   "note": "For all readable strings in any representation."
  },
  {
   "property": "C10",
   "status": "proved",
   "theorems": [
    "Mjs.Props.C10_concat"
   ],
   "note": "While allocation requests are granted."
  },
  {
   "property": "C100",
   "status": "partial",
   "theorems": [
    "Mjs.Props.C100_name",
    "Mjs.Props.C100_fresh_partial",
    "Mjs.Props.C100_history_partial",
    "Mjs.Props.C100_up_to_date",
    "Mjs.Props.C100_off",
    "Mjs.Props.C100_others",
    "Mjs.Props.C100_violation_changed",
    "Mjs.Props.C100_violation_short",
    "Mjs.Props.C100_violation_descriptors"
   ],
   "note": "Proved for all histories in which scripts of the same name have the same code and files can be written in full and mapped; since the files may hold anything at the start, this includes files left by a crash in the middle of a write. The code violates the property if a script changes between two executions (the file that the first one's functions are mapped from is overwritten), if the disk is full, and by leaving the descriptors of mapped files open. Mappings are taken to show what the file holds, as on Linux; several engines are not modelled."
  },
  {
   "property": "C11",
   "status": "proved",
   "theorems": [
    "Mjs.Props.C11_slice",
    "Mjs.Props.C11_slice_to_end"
   ],
   "note": "For integer arguments in the range of int and strings below 2^31 bytes, while allocation requests are granted."
  },
  {
   "property": "C12",
   "status": "proved",
   "theorems": [
    "Mjs.Props.C12_indexOf"
   ],
   "note": "For integer start indices in the range of int and strings below 2^31 bytes."
  },
  {
   "property": "C13",
   "status": "partial",
   "theorems": [
    "Mjs.Props.C13_at_partial",
    "Mjs.Props.C13_at_before_begin"
   ],
   "note": "Proved for every index from -length on; for smaller indices the code returns the first byte, which the second theorem proves."
  },
  {
   "property": "C14",
   "status": "proved",
   "theorems": [
    "Mjs.Props.C14_literal_denotes",
    "Mjs.Props.C14_plain_text",
    "Mjs.Props.C14_any_body",
    "Mjs.Props.C14_embedded",
    "Mjs.Props.C14_other_escapes"
   ],
   "note": "For every body that the escape specification covers, every body at all (safety and size), and the embedding into the code buffer. C14_other_escapes records what the code does with escapes outside the specification."
  },
  {
   "property": "C15",
   "status": "partial",
   "theorems": [
    "Mjs.Props.C15_get_engine",
    "Mjs.Props.C15_get_partial",
    "Mjs.Props.C15_getZ_getV_partial",
    "Mjs.Props.C15_set_ok",
    "Mjs.Props.C15_del_partial",
    "Mjs.Props.C15_not_object",
    "Mjs.Props.C15_nul_keys_collide",
    "Mjs.Props.C15_nul_delete",
    "Mjs.Props.C15_foreign_key_lost"
   ],
   "note": "Last write wins, for every history of set (three entry points), delete, object, array and string creation on any number of objects, for keys without NUL bytes. C15_get_engine gives the exact behaviour for all keys. The code violates the property for keys with NUL bytes (C15_nul_keys_collide, C15_nul_delete) and for short foreign strings as keys (C15_foreign_key_lost)."
  },
  {
   "property": "C16",
   "status": "partial",
   "theorems": [
    "Mjs.Props.C16_iteration",
    "Mjs.Props.C16_iteration_partial"
   ],
   "note": "C16_iteration holds for all histories in terms of what the engine stores; the form in terms of what was written is for NUL-free keys (see C15)."
  },
  {
   "property": "C17",
   "status": "partial",
   "theorems": [
    "Mjs.Props.C17_proto_lookup_engine",
    "Mjs.Props.C17_proto_lookup_partial",
    "Mjs.Props.C17_create_object"
   ],
   "note": "All chains of any length, all keys; the form in terms of what was last written is for NUL-free keys (see C15)."
  },
  {
   "property": "C18",
   "status": "proved",
   "theorems": [
    "Mjs.Props.C18_get",
    "Mjs.Props.C18_length",
    "Mjs.Props.C18_set",
    "Mjs.Props.C18_del",
    "Mjs.Props.C18_push",
    "Mjs.Props.C18_push_method",
    "Mjs.Props.C18_not_array",
    "Mjs.Props.C18_length_engine",
    "Mjs.Props.C18_blank_key_counts"
   ],
   "note": "Total correctness on every history of array operations with indices below 2^32-1, other objects used arbitrarily in between. The length of objects with other keys is characterised too (strtoul reading of keys)."
  },
  {
   "property": "C19",
   "status": "proved",
   "theorems": [
    "Mjs.Props.C19_splice",
    "Mjs.Props.C19_type_errors"
   ],
   "note": "Lengths (array plus items) below 2^31, since the code counts with int. Total correctness given an allocator that grants memory."
  },
  {
   "property": "C20",
   "status": "partial",
   "theorems": [
    "Mjs.Props.C20_register_partial",
    "Mjs.Props.C20_members_partial",
    "Mjs.Props.C20_disown_first",
    "Mjs.Props.C20_registered_partial",
    "Mjs.Props.C20_registered_disown_fails"
   ],
   "note": "Registrations and removals are counted exactly for every history in which memory is found. Missing: mjs_disown before any mjs_own is undefined behaviour (C20_disown_first), and a registration that gets no memory is dropped silently (C20_registered_disown_fails)."
  },
  {
   "property": "C21",
   "status": "proved",
   "theorems": [
    "Mjs.Props.C21_first_cause",
    "Mjs.Props.C21_strerror",
    "Mjs.Props.C21_names"
   ],
   "note": "For every sequence of reports, replacements and clears."
  },
  {
   "property": "C22",
   "status": "proved",
   "theorems": [
    "Mjs.Props.C22_args_and_result",
    "Mjs.Props.C22_stack_bytes"
   ],
   "note": "List level for arguments and result; C22_stack_bytes ties the lists to the bytes of the buffer."
  },
  {
   "property": "C23",
   "status": "proved",
   "theorems": [
    "Mjs.Props.C23_alloc_fresh",
    "Mjs.Props.C23_live_not_free"
   ],
   "note": "All histories of allocation, writes to live cells (marking included) and sweeps."
  },
  {
   "property": "C24",
   "status": "proved",
   "theorems": [
    "Mjs.Props.C24_collects",
    "Mjs.Props.C24_kept",
    "Mjs.Props.C24_get"
   ],
   "note": "For every sound heap and root set; sound states are those of C63_sound. The recursion depth of gc_mark on the C stack is not modelled."
  },
  {
   "property": "C25",
   "status": "proved",
   "theorems": [
    "Mjs.Props.C25_reclaimed",
    "Mjs.Props.C25_sweep",
    "Mjs.Props.C25_reusable"
   ],
   "note": "Exactly the unreachable cells are on the free list afterwards; empty extra blocks are given back."
  },
  {
   "property": "C26",
   "status": "partial",
   "theorems": [
    "Mjs.Props.C26_partial",
    "Mjs.Props.C26_receiver_lost"
   ],
   "note": "Objects on the value stack, the call stack, the scopes, in this and in the last object read from survive. The receiver of a pending call does not: C26_receiver_lost runs a script whose receiver is collected and whose cell becomes the next argument."
  },
  {
   "property": "C27",
   "status": "proved",
   "theorems": [
    "Mjs.Props.C27_strings",
    "Mjs.Props.C27_sharing",
    "Mjs.Props.C27_compact"
   ],
   "note": "For every sound heap and every set of references."
  },
  {
   "property": "C28",
   "status": "proved",
   "theorems": [
    "Mjs.Props.C28_progress",
    "Mjs.Props.C28_reaches_end"
   ],
   "note": "For every NUL-terminated source and every position; the library functions strtod and strtoul are modelled by the extent of the text they accept."
  },
  {
   "property": "C29",
   "status": "partial",
   "theorems": [
    "Mjs.Props.C29_longest_match_partial",
    "Mjs.Props.C29_tilde"
   ],
   "note": "Longest match for all operators at every position, except where the text is ~=: there one token is read that is no operator (C29_tilde)."
  },
  {
   "property": "C30",
   "status": "proved",
   "theorems": [
    "Mjs.Props.C30_words"
   ],
   "note": "For every identifier-shaped lexeme."
  },
  {
   "property": "C31",
   "status": "partial",
   "theorems": [
    "Mjs.Props.C31_one_grouping",
    "Mjs.Props.C31_grouping_partial",
    "Mjs.Props.C31_and_either_way",
    "Mjs.Props.C31_or_either_way",
    "Mjs.Props.C31_long_chain_rejected"
   ],
   "note": "Each sequence of operands and operators, && and || among them, has exactly one tree with the standard grouping, and every text that is such a sequence compiles to the code of that tree (with C61_exec_value: evaluates so), for any number of operators within the parser's nesting count of 502. Several && or || in a row are grouped from the right, which C31_and_either_way and C31_or_either_way show to be the same. Missing, because false: longer sequences; C31_long_chain_rejected proves that the sum of 512 ones is a syntax error."
  },
  {
   "property": "C32",
   "status": "proved",
   "theorems": [
    "Mjs.Props.C32_expression_value",
    "Mjs.Props.C32_expression_error"
   ],
   "note": "For every expression of the modelled grammar, every loaded program and every engine state: if the evaluator over the syntax tree (Spec/Sem.lean) gives a value or an error, running the bytes gives the same value or error, the same objects and strings, and the stacks as before. Function values called in the expression are those of the loaded scripts; calls of C functions are left open by the semantics."
  },
  {
   "property": "C33",
   "status": "proved",
   "theorems": [
    "Mjs.Props.C33_and_false",
    "Mjs.Props.C33_or_true",
    "Mjs.Props.C33_second"
   ],
   "note": "The deciding operand is returned with exactly the heap after the first operand; otherwise the second operand is evaluated after the first and is the result."
  },
  {
   "property": "C34",
   "status": "proved",
   "theorems": [
    "Mjs.Props.C34_backpatch",
    "Mjs.Props.C34_jump",
    "Mjs.Props.C34_jump_false",
    "Mjs.Props.C34_jump_neutral",
    "Mjs.Props.C61_parse"
   ],
   "note": "Writing the distance and executing each jump, for bodies of any size below 2 GB; the parsing functions that call the generator produce the code with these jumps (C61_parse), and whole constructs run as they should (C32, C33, C35, C61_exec_value)."
  },
  {
   "property": "C35",
   "status": "proved",
   "theorems": [
    "Mjs.Props.C35_script_value",
    "Mjs.Props.C35_script_error",
    "Mjs.Props.C35_meaning_runs",
    "Mjs.Props.C35_unique",
    "Mjs.Props.C35_if_else",
    "Mjs.Props.C35_if_true",
    "Mjs.Props.C35_if_false",
    "Mjs.Props.C35_sequence",
    "Mjs.Props.C35_sequence_ends",
    "Mjs.Props.C35_while",
    "Mjs.Props.C35_for"
   ],
   "note": "For every script (all statement forms: if, else, while, for, for-in, break, continue, return, let, blocks, expression lists): running its bytes does what the evaluator of statements says, with no bound on iterations or nesting of calls beyond the 2 GB limits of the stacks. The rules C35_if_else .. C35_for restate the meaning of the statements without the evaluator (iteration by the inductive relation Loops)."
  },
  {
   "property": "C36",
   "status": "partial",
   "theorems": [
    "Mjs.Props.C36_ends_partial",
    "Mjs.Props.C36_result_unique",
    "Mjs.Props.C36_digit_at_end",
    "Mjs.Props.C36_blocks_rejected",
    "Mjs.Props.C36_stack_exhausted"
   ],
   "note": "Proved for every C string: with room for a number of nested calls linear in its length, parsing ends with code or a syntax error, the same one whatever the room; undefined behaviour only if the last byte is a digit. False, with proofs: a numeral of one digit at the very end is read behind the NUL; 513 blocks in sequence are rejected for depth; prefix operators use up any C stack (C36_stack_exhausted, for every stack size)."
  },
  {
   "property": "C37",
   "status": "proved",
   "theorems": [
    "Mjs.Props.C37_error_leaves_depths",
    "Mjs.Props.C37_script",
    "Mjs.Props.C37_this_not_restored"
   ],
   "note": "For arbitrary code the depths of all stacks are restored (the one exception, an underflow of the data stack, cannot happen in a compiled script: C37_script). C37_this_not_restored: this is not."
  },
  {
   "property": "C38",
   "status": "proved",
   "theorems": [
    "Mjs.Props.C38_call",
    "Mjs.Props.C38_return",
    "Mjs.Props.C38_result"
   ],
   "note": "Frame push and restore for arbitrary machine states."
  },
  {
   "property": "C39",
   "status": "partial",
   "theorems": [
    "Mjs.Props.C39_innermost",
    "Mjs.Props.C39_resolve",
    "Mjs.Props.C39_undeclared",
    "Mjs.Props.C39_read_partial",
    "Mjs.Props.C39_assign",
    "Mjs.Props.C39_let",
    "Mjs.Props.C39_apply_is_not_a_variable"
   ],
   "note": "Lookup, assignment, undeclared names and let are proved for all scope stacks, heaps and names. Reading fails for the name apply (C39_apply_is_not_a_variable)."
  },
  {
   "property": "C40",
   "status": "partial",
   "theorems": [
    "Mjs.Props.C40_order",
    "Mjs.Props.C40_order_int",
    "Mjs.Props.C40_order_other",
    "Mjs.Props.C40_nan",
    "Mjs.Props.C40_arith",
    "Mjs.Props.C40_rem",
    "Mjs.Props.C40_rem_zero",
    "Mjs.Props.C40_bits",
    "Mjs.Props.C40_shl",
    "Mjs.Props.C40_shr",
    "Mjs.Props.C40_ushr",
    "Mjs.Props.C40_shift_out_of_range",
    "Mjs.Props.C40_concat",
    "Mjs.Props.C40_type_error",
    "Mjs.Props.C40_pointer_error",
    "Mjs.Props.C40_equal_strings",
    "Mjs.Props.C40_equal",
    "Mjs.Props.C40_equal_numbers_partial",
    "Mjs.Props.C40_zeros",
    "Mjs.Props.C40_no_loose_equality",
    "Mjs.Props.C40_unary",
    "Mjs.Props.C40_minus_other",
    "Mjs.Props.C40_not",
    "Mjs.Props.C40_pointer_moves",
    "Mjs.Props.C40_pointer_too_far",
    "Mjs.Props.C40_pointer_below_zero",
    "Mjs.Props.C40_pointer_difference",
    "Mjs.Props.C40_pointer_sum"
   ],
   "note": "0 === -0 is false, shifts out of range are undefined, and a pointer minus a number greater than its address is a pointer near the last address; all are proved as findings. The floating point operations + - * / are parameters here (C76 is about them); the theorems on pointers as operands assume they are IEEE 754."
  },
  {
   "property": "C41",
   "status": "partial",
   "theorems": [
    "Mjs.Props.C41_truthiness_partial",
    "Mjs.Props.C41_ffi_function_is_false"
   ],
   "note": "All values of all kinds except FFI functions; those are false in conditions, which violates the property (C41_ffi_function_is_false)."
  },
  {
   "property": "C42",
   "status": "proved",
   "theorems": [
    "Mjs.Props.C42_offsets_stable",
    "Mjs.Props.C42_bytes_stable",
    "Mjs.Props.C42_functions_stable",
    "Mjs.Props.C42_file_name"
   ],
   "note": "For every history of loads, runs and calls of an engine that began without code; C functions may load scripts and change no code otherwise."
  },
  {
   "property": "C43",
   "status": "partial",
   "theorems": [
    "Mjs.Props.C43_line_partial",
    "Mjs.Props.C43_last_line_is_reported_as_1",
    "Mjs.Props.C43_long_jumps_shift_lines"
   ],
   "note": "Holds for code generated line by line with jumps below 128 bytes, before the last line. False on the last line and behind longer jumps (both proved)."
  },
  {
   "property": "C44",
   "status": "partial",
   "theorems": [
    "Mjs.Props.C44_partial",
    "Mjs.Props.C44_vertical_tab",
    "Mjs.Props.C44_lone_byte"
   ],
   "note": "Proved for strings of ASCII characters without vertical tab and UTF-8 groups; the two witnesses show that the round trip fails for a vertical tab and for bytes that are not UTF-8."
  },
  {
   "property": "C45",
   "status": "partial",
   "theorems": [
    "Mjs.Props.C45_snquote",
    "Mjs.Props.C45_serialize_partial",
    "Mjs.Props.C45_stringify",
    "Mjs.Props.C45_not_terminated"
   ],
   "note": "Complete for quoting and for mjs_json_stringify.  For the serializing function underneath, the NUL of a text that is cut off is missing when there is a [Circular] in it: C45_not_terminated shows that the code does not write it."
  },
  {
   "property": "C46",
   "status": "partial",
   "theorems": [
    "Mjs.Props.C46_partial",
    "Mjs.Props.C46_key_escape",
    "Mjs.Props.C46_empty_key",
    "Mjs.Props.C46_dot_key",
    "Mjs.Props.C46_empty_key_flattens",
    "Mjs.Props.C46_deep_array",
    "Mjs.Props.C46_long_key",
    "Mjs.Props.C46_control_rejected",
    "Mjs.Props.C46_violation_unicode",
    "Mjs.Props.C46_violation_latin1"
   ],
   "note": "Proved for every JSON text whose keys have no escapes, are not empty and do not end in a dot, whose paths fit 255 bytes, and whose \\u escapes are of ASCII characters; the code is wrong for the others, as the other theorems show."
  },
  {
   "property": "C47",
   "status": "partial",
   "theorems": [
    "Mjs.Props.C47_ends",
    "Mjs.Props.C47_parse_ends",
    "Mjs.Props.C47_partial",
    "Mjs.Props.C47_backslash",
    "Mjs.Props.C47_nul",
    "Mjs.Props.C47_root_number"
   ],
   "note": "termination, depth and position proved for every text and callback; freedom from out-of-bounds reads for texts without NUL that do not end in a backslash and callbacks that do not fail; the excluded cases are violations, proved as such"
  },
  {
   "property": "C48",
   "status": "partial",
   "theorems": [
    "Mjs.Props.C48_signatures_partial",
    "Mjs.Props.C48_exact",
    "Mjs.Props.C48_accepted",
    "Mjs.Props.C48_no_overread",
    "Mjs.Props.C48_violation_pointer",
    "Mjs.Props.C48_violation_two_lists",
    "Mjs.Props.C48_violation_void",
    "Mjs.Props.C48_blank_list",
    "Mjs.Props.C48_leading_comma"
   ],
   "note": "Every C declaration is accepted exactly if it can be called, everything accepted is well formed, and parsing never reads outside the string. Missing: that no string stops the process, which is false: three strings fail an assertion."
  },
  {
   "property": "C49",
   "status": "partial",
   "theorems": [
    "Mjs.Props.C49_call_partial",
    "Mjs.Props.C49_count",
    "Mjs.Props.C49_total",
    "Mjs.Props.C49_wrong_type_partial",
    "Mjs.Props.C49_result_partial",
    "Mjs.Props.C49_violation_int_called",
    "Mjs.Props.C49_violation_double_unchecked",
    "Mjs.Props.C49_violation_not_called",
    "Mjs.Props.C49_violation_mixed",
    "Mjs.Props.C49_violation_class",
    "Mjs.Props.C49_violation_function_type"
   ],
   "note": "Fitting arguments arrive, in order, for every accepted signature whose floating point parameters the code can pass; wrong counts and wrong pointers, strings and callbacks are refused; calls never stop the process. False in general: wrong ints are reported but the function is called, doubles are not checked, some accepted signatures are never called."
  },
  {
   "property": "C50",
   "status": "partial",
   "theorems": [
    "Mjs.Props.C50_registrations",
    "Mjs.Props.C50_call",
    "Mjs.Props.C50_reuse",
    "Mjs.Props.C50_free_partial",
    "Mjs.Props.C50_violation_cannot_free"
   ],
   "note": "For all histories; frees of JavaScript functions. False for callbacks that are foreign pointers or functions made by ffi: those cannot be freed."
  },
  {
   "property": "C51",
   "status": "partial",
   "theorems": [
    "Mjs.Props.C51_callback_partial",
    "Mjs.Props.C51_registered",
    "Mjs.Props.C51_return",
    "Mjs.Props.C51_violation_negative",
    "Mjs.Props.C51_violation_third",
    "Mjs.Props.C51_violation_crash",
    "Mjs.Props.C51_violation_stale_type"
   ],
   "note": "For callbacks without double, or with a double and user data only, with ints that are not negative. The other cases are shown to fail."
  },
  {
   "property": "C52",
   "status": "proved",
   "theorems": [
    "Mjs.Props.C52_store",
    "Mjs.Props.C52_load",
    "Mjs.Props.C52_roundtrip",
    "Mjs.Props.C52_double",
    "Mjs.Props.C52_double_load",
    "Mjs.Props.C52_address",
    "Mjs.Props.C52_outside"
   ],
   "note": "All values, widths 1..4 and doubles, byte orders, memory contents; accesses outside of the memory are undefined behaviour (C52_outside)."
  },
  {
   "property": "C53",
   "status": "partial",
   "theorems": [
    "Mjs.Props.C53_innermost",
    "Mjs.Props.C53_break_partial",
    "Mjs.Props.C53_continue_partial",
    "Mjs.Props.C53_break_ends_callers_loop"
   ],
   "note": "break and continue of the innermost loop of the same function are proved. The full statement is false of the code: C53_break_ends_callers_loop shows a function without a loop whose break ends the loop of its caller and leaves the call frame behind."
  },
  {
   "property": "C54",
   "status": "partial",
   "theorems": [
    "Mjs.Props.C54_returned",
    "Mjs.Props.C54_failed",
    "Mjs.Props.C54_like_call_partial",
    "Mjs.Props.C54_like_call_native_partial",
    "Mjs.Props.C54_like_call_failed",
    "Mjs.Props.C54_not_callable",
    "Mjs.Props.C54_foreign_partial",
    "Mjs.Props.C54_method",
    "Mjs.Props.C54_violation_no_return",
    "Mjs.Props.C54_violation_leak",
    "Mjs.Props.C54_violation_old_error"
   ],
   "note": "Proved for functions of scripts that return or fail: result, error, this, arguments in order and all stacks. The full claim is false: without return the function itself is the result, and calls of C functions leave a frame and a value on the stacks. Not covered: a function body left by break or continue (C53)."
  },
  {
   "property": "C55",
   "status": "partial",
   "theorems": [
    "Mjs.Props.C55_prints_one_text",
    "Mjs.Props.C55_prints_unique",
    "Mjs.Props.C55_bounded",
    "Mjs.Props.C55_numeral_reads_back",
    "Mjs.Props.C55_numbers",
    "Mjs.Props.C55_string",
    "Mjs.Props.C55_scratch_fits",
    "Mjs.Props.C55_concat",
    "Mjs.Props.C55_literal",
    "Mjs.Props.C55_takes",
    "Mjs.Props.C55_zero_padded",
    "Mjs.Props.C55_string_precision",
    "Mjs.Props.C55_char",
    "Mjs.Props.C55_pointer",
    "Mjs.Props.C55_large_unsigned_printed_negative",
    "Mjs.Props.C55_violation_zero_padded_negative",
    "Mjs.Props.C55_violation_number_width_ignored",
    "Mjs.Props.C55_violation_string_width",
    "Mjs.Props.C55_long_numbers",
    "Mjs.Props.C55_violation_modifiers"
   ],
   "note": "Buffer discipline for all formats and arguments; formats put together print their texts one after the other; integers, zero padding, strings with precision, characters and pointers print what they should. Violated for unsigned long above 2^63, for zero-padded negative numbers (one character too long), for widths of numbers without 0 (ignored) and widths of strings without a precision (the string's length is not subtracted), and for %llu, %llx, %hd, %hhd and %jd (the program is ended)."
  },
  {
   "property": "C56",
   "status": "proved",
   "theorems": [
    "Mjs.Props.C56_hex_roundtrip"
   ],
   "note": "All byte strings."
  },
  {
   "property": "C57",
   "status": "partial",
   "theorems": [
    "Mjs.Props.C57_zero_iff_equal",
    "Mjs.Props.C57_antisymmetric",
    "Mjs.Props.C57_transitive",
    "Mjs.Props.C57_lexicographic_partial",
    "Mjs.Props.C57_high_bytes_sort_low",
    "Mjs.Props.C57_strncmp",
    "Mjs.Props.C57_starts_with",
    "Mjs.Props.C57_strstr",
    "Mjs.Props.C57_strchr",
    "Mjs.Props.C57_strstrip"
   ],
   "note": "Total order proved for all strings; agreement with byte order only for ASCII, violated for bytes of 128 and more."
  },
  {
   "property": "C58",
   "status": "proved",
   "theorems": [
    "Mjs.Props.C58_compound",
    "Mjs.Props.C58_append",
    "Mjs.Props.C58_failed_assignment_clobbers",
    "Mjs.Props.C58_increment"
   ],
   "note": "For all objects and names (a variable is a property of its scope). The value of the compound assignment itself is the old value; a failing one assigns undefined."
  },
  {
   "property": "C59",
   "status": "proved",
   "theorems": [
    "Mjs.Props.C59_gap",
    "Mjs.Props.C59_gap_unique"
   ],
   "note": "C59_gap_unique shows that the specification of gaps determines them."
  },
  {
   "property": "C60",
   "status": "proved",
   "theorems": [
    "Mjs.Props.C60_strings"
   ],
   "note": ""
  },
  {
   "property": "C61",
   "status": "proved",
   "theorems": [
    "Mjs.Props.C61_parse",
    "Mjs.Props.C61_load",
    "Mjs.Props.C61_exec_value",
    "Mjs.Props.C61_exec_error"
   ],
   "note": "The grammar is Spec/Grammar.lean (token sequences that write scripts), the tokens of a text are Grammar.Tokens, the meaning of a script is Spec/Sem.lean. The parser model follows mjs_parser.c function by function, with the number of nested C calls as a parameter; the theorems hold for every sufficiently large number. Texts outside the grammar are not covered here (C36 covers that parsing ends)."
  },
  {
   "property": "C62",
   "status": "partial",
   "theorems": [
    "Mjs.Props.C61_parse",
    "Mjs.Props.C62_else_rejected",
    "Mjs.Props.C62_let_needs_semicolon",
    "Mjs.Props.C62_return_object_rejected",
    "Mjs.Props.C62_arguments_without_comma",
    "Mjs.Props.C62_elements_without_comma",
    "Mjs.Props.C62_unclosed_loop",
    "Mjs.Props.C62_large_numerals",
    "Mjs.Props.C62_line_after_increment"
   ],
   "note": "C61_parse: every text of the grammar in Spec/Grammar.lean is accepted with its meaning. The property as stated is false of the code: the C62 theorems are programs that are rejected, or texts taken for something else."
  },
  {
   "property": "C63",
   "status": "proved",
   "theorems": [
    "Mjs.Props.C63_variables",
    "Mjs.Props.C63_identity",
    "Mjs.Props.C63_get",
    "Mjs.Props.C63_collect",
    "Mjs.Props.C63_sound",
    "Mjs.Props.C63_set_del"
   ],
   "note": "Refinement of every history of API calls and collections to a specification without memory. Keys without NUL bytes; the allocator grants what the calls ask for."
  },
  {
   "property": "C64",
   "status": "proved",
   "theorems": [
    "Mjs.Props.C64_hex_literal"
   ],
   "note": "For every numeral below 2^53 that is not followed by a letter or digit: the tokenizer takes exactly the literal and the parser's numeral function gives its value."
  },
  {
   "property": "C65",
   "status": "partial",
   "theorems": [
    "Mjs.Props.C65_text_partial",
    "Mjs.Props.C65_partial",
    "Mjs.Props.C65_key_quote",
    "Mjs.Props.C65_ffi_aborts"
   ],
   "note": "Trees whose keys contain no quote, backslash or control character, are not empty and do not end in a dot, whose strings have the shape of UTF-8 without vertical tab, whose numbers print as numerals, and whose paths fit the parser. C65_key_quote and C65_ffi_aborts show that the code is wrong outside."
  },
  {
   "property": "C66",
   "status": "proved",
   "theorems": [
    "Mjs.Props.C66_string_method",
    "Mjs.Props.C66_array_method",
    "Mjs.Props.C66_slice",
    "Mjs.Props.C66_slice_to_end",
    "Mjs.Props.C66_indexOf",
    "Mjs.Props.C66_at",
    "Mjs.Props.C66_push",
    "Mjs.Props.C66_splice",
    "Mjs.Props.C66_at_errors",
    "Mjs.Props.C66_slice_errors",
    "Mjs.Props.C66_indexOf_errors",
    "Mjs.Props.C66_push_errors",
    "Mjs.Props.C66_splice_errors"
   ],
   "note": "The engine has the methods at the addresses it uses (Methods); memory is granted. The functions of Model/Builtin.lean are those of C12, C14 and C18."
  },
  {
   "property": "C67",
   "status": "partial",
   "theorems": [
    "Mjs.Props.C67_chr",
    "Mjs.Props.C67_chr_other",
    "Mjs.Props.C67_isNaN",
    "Mjs.Props.C67_die",
    "Mjs.Props.C67_create",
    "Mjs.Props.C67_create_null",
    "Mjs.Props.C67_stringify_partial",
    "Mjs.Props.C67_parse_partial",
    "Mjs.Props.C67_parse_errors",
    "Mjs.Props.C67_parse_invalid",
    "Mjs.Props.C67_missing"
   ],
   "note": "JSON.parse and JSON.stringify with the limits of C46 and C65. Object.create(null) is a TypeError (C67_create_null). chr of a number outside 0..255 is covered for integers of 32 bits; others make mjs_get_int overflow."
  },
  {
   "property": "C68",
   "status": "proved",
   "theorems": [
    "Mjs.Props.C68_create",
    "Mjs.Props.C68_function",
    "Mjs.Props.C68_method"
   ],
   "note": "C68_create: mjs_create succeeds and gives exactly the names; C68_function and C68_method: calls by these names reach the function. Examples run chr(65) and JSON.parse in a new engine. The resolver of FFI names and the arena of FFI signatures are not part of the model of mjs_create."
  },
  {
   "property": "C69",
   "status": "partial",
   "theorems": [
    "Mjs.Props.C69_not_string",
    "Mjs.Props.C69_skipped",
    "Mjs.Props.C69_unreadable",
    "Mjs.Props.C69_incorrect",
    "Mjs.Props.C69_first_value",
    "Mjs.Props.C69_first_error",
    "Mjs.Props.C69_again_value",
    "Mjs.Props.C69_once_partial",
    "Mjs.Props.C69_call_noted"
   ],
   "note": "Partial: that a file which was loaded well is not run again holds until code of the file is run once more; a function of the file called from C that fails is noted as a failed run of the file, so that the next load runs the whole file again (C69_call_noted). C69_once_partial is for environments whose C functions load code only through load (OnlyLoad; loadEnv_only shows one with load nested n deep). Files are a parameter; a path with a NUL is fopen(NULL)."
  },
  {
   "property": "C70",
   "status": "partial",
   "theorems": [
    "Mjs.Props.C70_integer",
    "Mjs.Props.C70_fraction",
    "Mjs.Props.C70_distinct",
    "Mjs.Props.C70_fits",
    "Mjs.Props.C70_name",
    "Mjs.Props.C70_json",
    "Mjs.Props.C70_nan",
    "Mjs.Props.C70_violation_large",
    "Mjs.Props.C70_violation_small"
   ],
   "note": "Proved in full for integers of the 64-bit range and all fractions; false for the numbers beyond (C70_violation_large: one text for all of them) and distinct tiny fractions share a text (C70_violation_small). The C library is assumed to write %lld and %f exactly, as glibc does."
  },
  {
   "property": "C71",
   "status": "partial",
   "theorems": [
    "Mjs.Props.C71_words",
    "Mjs.Props.C71_number",
    "Mjs.Props.C71_string",
    "Mjs.Props.C71_others",
    "Mjs.Props.C71_sprintf_partial",
    "Mjs.Props.C71_violation_empty",
    "Mjs.Props.C71_nonempty",
    "Mjs.Props.C71_print"
   ],
   "note": "False for the empty string, which mjs_sprintf does not write at all (C71_violation_empty); proved for every other value (C71_nonempty: no other value has an empty text). Functions made by ffi print as <???bits>, not part of the statement."
  },
  {
   "property": "C72",
   "status": "partial",
   "theorems": [
    "Mjs.Props.C72_same_partial",
    "Mjs.Props.C72_ends_partial",
    "Mjs.Props.C72_library_partial",
    "Mjs.Props.C72_builtin",
    "Mjs.Props.C72_created",
    "Mjs.Props.C72_possible"
   ],
   "note": "Missing: for-in (an iterator is the raw address of a property), values that only wait in arg_stack during a collection (C26 shows that these are lost), FFI signatures and registered host variables during the collection; C functions called by the script enter by the hypothesis Respects, which is proved for eight functions of the library (C72_builtin) but not for splice and those of JSON; strings below 512 MB."
  },
  {
   "property": "C73",
   "status": "partial",
   "theorems": [
    "Mjs.Props.C73_partial",
    "Mjs.Props.C73_stale"
   ],
   "note": "Proved for arguments that are no strings of more than five bytes; for those it is false (C73_stale): the function returns the place where the argument was before the collection. Not in it: for-in iterators on the stack, objects that only arg_stack refers to, FFI signatures, as for C72."
  },
  {
   "property": "C74",
   "status": "proved",
   "theorems": [
    "Mjs.Props.C74_copy",
    "Mjs.Props.C74_view",
    "Mjs.Props.C74_errors"
   ],
   "note": "In the terms of a call in a script. Allocations are granted. A NULL pointer with a positive length to copy has indeterminate bytes and is excluded."
  },
  {
   "property": "C75",
   "status": "partial",
   "theorems": [
    "Mjs.Props.C75_object_partial",
    "Mjs.Props.C75_undefined",
    "Mjs.Props.C75_violation_null",
    "Mjs.Props.C75_script_partial",
    "Mjs.Props.C75_script_undefined"
   ],
   "note": "Violated for a char * that is NULL (C75_violation_null). Proved for every structure and description otherwise; missing: pointers from 2^48 on, names that occur twice in a description, and description functions that use the engine (they may return numbers, booleans, null, undefined and pointers)."
  },
  {
   "property": "C76",
   "status": "proved",
   "theorems": [
    "Mjs.Props.C76_determined",
    "Mjs.Props.C76_nearest",
    "Mjs.Props.C76_exact",
    "Mjs.Props.C76_integers",
    "Mjs.Props.C76_monotone",
    "Mjs.Props.C76_commutes",
    "Mjs.Props.C76_infinity",
    "Mjs.Props.C76_sign",
    "Mjs.Props.C76_neutral",
    "Mjs.Props.C76_counting"
   ],
   "note": "About the arithmetic of the hardware as Model/Ieee computes it; that the C compiler's + - * / on double are the operations of IEEE 754 is part of the trusted base."
  },
  {
   "property": "C77",
   "status": "partial",
   "theorems": [
    "Mjs.Props.C77_strtod",
    "Mjs.Props.C77_literal_partial",
    "Mjs.Props.C77_json",
    "Mjs.Props.C77_integers_survive",
    "Mjs.Props.C77_fraction",
    "Mjs.Props.C62_large_numerals"
   ],
   "note": "In scripts proved for numbers up to 2^63 - 1024; larger integers become -2^63 (C62_large_numerals). A literal of one character at the very end of a text is left out: there the parser reads behind the end. -0 is written as 0 and read back so. That strtod of the C library rounds correctly, as glibc does, is part of the trusted base (Model/Strtod)."
  },
  {
   "property": "C78",
   "status": "proved",
   "theorems": [
    "Mjs.Props.C78_literal",
    "Mjs.Props.C78_distinct",
    "Mjs.Props.C78_call",
    "Mjs.Props.C78_apply"
   ],
   "note": "For code below 2 GB in total, the range of the int offsets. That the bytes of the code do what the semantics says is C32 and C35."
  },
  {
   "property": "C79",
   "status": "partial",
   "theorems": [
    "Mjs.Props.C79_string_index_partial",
    "Mjs.Props.C79_every_number",
    "Mjs.Props.C79_string_index_exact",
    "Mjs.Props.C79_violation_index_large",
    "Mjs.Props.C79_pointer_index_exact",
    "Mjs.Props.C79_pointer_assign_fraction",
    "Mjs.Props.C79_string_index_wraps",
    "Mjs.Props.C79_string_length",
    "Mjs.Props.C79_array_length",
    "Mjs.Props.C79_member_index_partial",
    "Mjs.Props.C79_member_dot_partial",
    "Mjs.Props.C79_apply_hides",
    "Mjs.Props.C79_assign_index",
    "Mjs.Props.C79_assign_dot",
    "Mjs.Props.C79_array_index",
    "Mjs.Props.C79_array_assign",
    "Mjs.Props.C79_pointer_index_partial",
    "Mjs.Props.C79_pointer_assign",
    "Mjs.Props.C79_pointer_assign_range_partial",
    "Mjs.Props.C79_pointer_assign_wraps",
    "Mjs.Props.C79_pointer_assign_type",
    "Mjs.Props.C79_no_member",
    "Mjs.Props.C79_no_such_member",
    "Mjs.Props.C79_no_assign"
   ],
   "note": "Proved for expressions with the text of numbers of Model/Print.lean, and for every number as an index of a string or a pointer. Violations, each a theorem: the index of a string is cut to 32 bits (C79_string_index_wraps), numbers beyond 64 bits and the infinities address the first byte (C79_violation_index_large), fractions stop the script when read (C79_string_index_exact, C79_pointer_index_exact) but are cut when stored to (C79_pointer_assign_fraction), the range check of p[i] = v looks at 32 bits of v (C79_pointer_assign_wraps), and o.apply is the built-in function whatever o has stored there (C79_apply_hides)."
  },
  {
   "property": "C80",
   "status": "partial",
   "theorems": [
    "Mjs.Props.C80_typeof_partial",
    "Mjs.Props.C80_one",
    "Mjs.Props.C80_violation_ffi"
   ],
   "note": "All kinds of values but the functions made by ffi, for which typeof aborts the process (C80_violation_ffi)."
  },
  {
   "property": "C81",
   "status": "partial",
   "theorems": [
    "Mjs.Props.C81_sound",
    "Mjs.Props.C81_complete_partial",
    "Mjs.Props.C81_whole_partial",
    "Mjs.Props.C81_violation_star",
    "Mjs.Props.C81_violation_dollar",
    "Mjs.Props.C81_violation_literal",
    "Mjs.Props.C81_plain",
    "Mjs.Props.C81_list",
    "Mjs.Props.C81_walk_once"
   ],
   "note": "False of the code at three points, which are proved: a star at the end of the text does not stand for nothing, *$ matches up to a slash, and $ also stands for itself. Proved otherwise: what is matched is there; what is there is matched, for alternatives that do not end in a star; the form with $. An empty match cannot be told from none: both return 0."
  },
  {
   "property": "C82",
   "status": "partial",
   "theorems": [
    "Mjs.Props.C82_partial",
    "Mjs.Props.C82_same_run",
    "Mjs.Props.C82_call",
    "Mjs.Props.C82_return",
    "Mjs.Props.C82_located",
    "Mjs.Props.C82_line_partial",
    "Mjs.Props.C82_frame",
    "Mjs.Props.C82_report",
    "Mjs.Props.C82_violation_line",
    "Mjs.Props.C82_violation_nested",
    "Mjs.Props.C82_violation_current"
   ],
   "note": "The trace of one run of mjs_execute lists the failure and the calls under way, innermost first; call frames 1, 2, ... give the same places.  The property is false in three ways, each proved: the place of the failure is taken one byte early, and its line that of the byte before, so a one-byte instruction that is the first of its line gets an earlier line (C82_violation_line); a script that fails inside load() has the calls of its caller listed twice (C82_violation_nested); frame number 0 is an offset within the current script taken for one within all code, a place in the first script (C82_violation_current)."
  },
  {
   "property": "C83",
   "status": "proved",
   "theorems": [
    "Mjs.Props.C83_balance",
    "Mjs.Props.C83_collection",
    "Mjs.Props.C83_destroy"
   ],
   "note": "For any of the three arenas.  Assumes, as the code does, that bit 1 of the first word of a cell in use is not set (it is a pointer).  The buffers that mjs_destroy frees one by one are not in the model."
  },
  {
   "property": "C84",
   "status": "partial",
   "theorems": [
    "Mjs.Props.C84_timegm_partial",
    "Mjs.Props.C84_all_days",
    "Mjs.Props.C84_before",
    "Mjs.Props.C84_early_partial",
    "Mjs.Props.C84_violation_early"
   ],
   "note": "The sum is computed in int: from 2038-01-19 03:14:08 on the behaviour is undefined, which the theorem says; before, the result is right. Before 1970 the result is -1 (C84_before for 1902 to 1969, C84_early_partial for all years where the sum stays in the range of int); before 1901 the behaviour is undefined (C84_violation_early)."
  },
  {
   "property": "C85",
   "status": "partial",
   "theorems": [
    "Mjs.Props.C85_escape_partial",
    "Mjs.Props.C85_violation_control",
    "Mjs.Props.C85_violation_tab",
    "Mjs.Props.C85_violation_overread",
    "Mjs.Props.C85_base64",
    "Mjs.Props.C85_base64_form"
   ],
   "note": "Base64 is fully proved. json_escape writes the control characters 15 to 31 and 127 as other characters, the vertical tab as an escape JSON does not have, and reads behind a text that is cut within a character: all three are proved, and everything else is proved right."
  },
  {
   "property": "C86",
   "status": "partial",
   "theorems": [
    "Mjs.Props.C86_ncasecmp",
    "Mjs.Props.C86_casecmp",
    "Mjs.Props.C86_total",
    "Mjs.Props.C86_vcasecmp_partial",
    "Mjs.Props.C86_strcasecmp_partial",
    "Mjs.Props.C86_strnstr",
    "Mjs.Props.C86_to64_partial",
    "Mjs.Props.C86_violation_vcasecmp_length",
    "Mjs.Props.C86_violation_high_bytes",
    "Mjs.Props.C86_violation_to64"
   ],
   "note": "C strings and search fully proved. Counted texts: mg_strcasecmp is undefined for bytes above 127 and mg_vcasecmp wrong for lengths that differ by 2^32; cs_to64 is undefined from 2^63 on (also for the least int64_t) and does not know a plus sign: all proved as violations."
  },
  {
   "property": "C87",
   "status": "partial",
   "theorems": [
    "Mjs.Props.C87_trees",
    "Mjs.Props.C87_prettify_partial",
    "Mjs.Props.C87_same_value",
    "Mjs.Props.C87_twice_partial",
    "Mjs.Props.C87_blanks_partial",
    "Mjs.Props.C87_violation_bracket",
    "Mjs.Props.C87_violation_empty_key",
    "Mjs.Props.C87_violation_long_key"
   ],
   "note": "Proved for all JSON texts whose keys have no escapes, are not empty and do not end in a dot or a closing bracket, and whose paths fit into 255 bytes. The code violates the rest: a key that ends in ']' is not printed, a member with an empty key is lost, and behind a long key elements are printed as members. Keys with escapes are not covered."
  },
  {
   "property": "C88",
   "status": "proved",
   "theorems": [
    "Mjs.Props.C88_array_elem",
    "Mjs.Props.C88_root_array"
   ],
   "note": "For JSON texts whose keys have no escapes, are not empty and do not end in a dot, and whose paths fit into 255 bytes."
  },
  {
   "property": "C89",
   "status": "partial",
   "theorems": [
    "Mjs.Props.C89_next_partial",
    "Mjs.Props.C89_all_partial",
    "Mjs.Props.C89_object_partial",
    "Mjs.Props.C89_array_partial",
    "Mjs.Props.C89_violation_prefix",
    "Mjs.Props.C89_violation_dot"
   ],
   "note": "Proved for texts whose keys have no escapes, dots or opening brackets, and for paths whose last key is not the beginning of another key. The code violates the rest: it takes members of \"ab\" siblings for members of \".a\", and it skips members whose keys have a dot or an opening bracket."
  },
  {
   "property": "C90",
   "status": "partial",
   "theorems": [
    "Mjs.Props.C90_replace_partial",
    "Mjs.Props.C90_add_partial",
    "Mjs.Props.C90_delete_partial",
    "Mjs.Props.C90_delete_first_partial",
    "Mjs.Props.C90_violation_string",
    "Mjs.Props.C90_violation_quotes",
    "Mjs.Props.C90_violation_append",
    "Mjs.Props.C90_violation_delete",
    "Mjs.Props.C90_violation_similar_key",
    "Mjs.Props.C90_violation_empty",
    "Mjs.Props.C90_violation_delete_neighbour",
    "Mjs.Props.C90_violation_delete_container"
   ],
   "note": "Replacement is proved for every value that is no string, in texts whose keys have no escapes, are not empty and do not end in a dot. Adding a member to the outermost object, also one inside new objects for the keys on the way, is proved where the last value is no string and no key begins with the first byte of the new one. Deleting a member of the outermost object is proved for words, numbers and empty containers, where it is the first, or the value before it is no string and no key before it begins with the same byte. The code violates the rest: the quotes of a string stay around the new value, adding or deleting a value behind a string cuts off its closing quote, a key that shares a prefix with the new one makes the new key disappear, an empty object is replaced, and deleting a container or a member behind a similar key breaks the text. Adding and deleting elements of arrays and members of inner objects is modelled, but there is no theorem for all texts."
  },
  {
   "property": "C91",
   "status": "partial",
   "theorems": [
    "Mjs.Props.C91_scanf_partial",
    "Mjs.Props.C91_paths",
    "Mjs.Props.C91_violation_bracket",
    "Mjs.Props.C91_violation_twice",
    "Mjs.Props.C91_violation_dot",
    "Mjs.Props.C91_violation_deep",
    "Mjs.Props.C91_violation_long"
   ],
   "note": "Proved for all texts whose keys have no escapes, are not empty and do not end in a dot, and all formats whose keys have no dot and whose paths fit, where a number is the last field of an inner object only if nothing but closing brackets follows; strtol, strtoul and sscanf are a parameter. The code violates the rest: behind a number the closing bracket is skipped, keys with dots are cut, values that occur twice are counted twice, and a long path or conversion is written behind the end of its buffer."
  },
  {
   "property": "C92",
   "status": "partial",
   "theorems": [
    "Mjs.Props.C92_print_partial",
    "Mjs.Props.C92_asprintf_partial",
    "Mjs.Props.C92_violation_quoted",
    "Mjs.Props.C92_violation_word",
    "Mjs.Props.C92_violation_exponent",
    "Mjs.Props.C92_violation_e",
    "Mjs.Props.C92_violation_long",
    "Mjs.Props.C92_violation_memory"
   ],
   "note": "Proved for all formats with bare keys or %Q keys, numerals without exponent, and the conversions lld, llu, zu, B, H, V, Q, .*Q, M and those of the C library whose arguments json_vprintf moves on rightly; what vsnprintf and callbacks print is a parameter. The code violates the rest: keys written with quotes and the words null, true and false are quoted (again), exponents are quoted, the arguments of %e are moved on wrongly, a conversion of more than 18 bytes is written behind the end of its buffer, and json_asprintf leaves out a piece where memory runs out. The length that is returned is not modelled."
  },
  {
   "property": "C93",
   "status": "partial",
   "theorems": [
    "Mjs.Props.C93_array_partial",
    "Mjs.Props.C93_integers",
    "Mjs.Props.C93_null",
    "Mjs.Props.C93_in_format",
    "Mjs.Props.C93_violation_short",
    "Mjs.Props.C93_violation_letter"
   ],
   "note": "Proved for all arrays and formats for which the format describes each element whatever lies in the rest of the union, with the type of argument that the code gives to the format; 64 bit integers are shown to be such a case, and the array may stand anywhere in a format (C93_in_format). The code violates the rest: elements shorter than an int are printed with bytes that were never written, and a format with one of the letters e, f, g in a key gets a double."
  },
  {
   "property": "C94",
   "status": "partial",
   "theorems": [
    "Mjs.Props.C94_standard",
    "Mjs.Props.C94_no_memory",
    "Mjs.Props.C94_minus",
    "Mjs.Props.C94_violation_error",
    "Mjs.Props.C94_violation_null"
   ],
   "note": "Proved for all texts and buffers below 2^31 bytes, with vsnprintf and malloc as parameters; the formatter of the code itself is shown to be of the first kind. Violated where vsnprintf fails for another reason than the size (the loop takes memory until there is none) and where a library that answers -1 finds no memory (a byte is written through the null pointer)."
  },
  {
   "property": "C95",
   "status": "partial",
   "theorems": [
    "Mjs.Props.C95_read",
    "Mjs.Props.C95_prettify_partial",
    "Mjs.Props.C95_twice_partial",
    "Mjs.Props.C95_kept_partial",
    "Mjs.Props.C95_print_read",
    "Mjs.Props.C95_closed",
    "Mjs.Props.C95_violation_rest",
    "Mjs.Props.C95_violation_nul",
    "Mjs.Props.C95_violation_open"
   ],
   "note": "Proved for all files without NULs, with the restrictions on keys of C87, if all reads and writes of the C library are complete. Violated where something stands behind the first value (it is lost), where a file that is no JSON text holds a NUL (what follows is lost), and where the file cannot be opened a second time (a null pointer is used)."
  },
  {
   "property": "C96",
   "status": "partial",
   "theorems": [
    "Mjs.Props.C96_scripts",
    "Mjs.Props.C96_script_partial",
    "Mjs.Props.C96_visits_partial",
    "Mjs.Props.C96_violation_map"
   ],
   "note": "Proved for all scripts: the header and the instructions are visited in order and once each, and then the last byte of the line map is taken for an instruction. If that byte is the number of an opcode with operands (for example, the last line with code is line 11), bytes behind the script are read: the code violates the property. What is logged is not modelled."
  },
  {
   "property": "C97",
   "status": "partial",
   "theorems": [
    "Mjs.Props.C97_prefix_partial",
    "Mjs.Props.C97_levels_partial",
    "Mjs.Props.C97_list_partial",
    "Mjs.Props.C97_violation_long",
    "Mjs.Props.C97_violation_line",
    "Mjs.Props.C97_violation_name"
   ],
   "note": "Proved for all file names, levels and lists, and line numbers below 100000. From 100000 on the number overwrites the end of the name, and bytes before the array are written if the name is too short: the code violates the property. Negative line numbers and time differences are not covered."
  },
  {
   "property": "C98",
   "status": "partial",
   "theorems": [
    "Mjs.Props.C98_collected_partial",
    "Mjs.Props.C98_declaration",
    "Mjs.Props.C98_copy",
    "Mjs.Props.C98_destroyed_partial",
    "Mjs.Props.C98_violation_collected"
   ],
   "note": "Proved for every accepted text whose callback has no parameters behind a void, in particular for all C declarations. The check of signatures stops at void, so that a callback may have a callback behind one, whose block is never freed: the code violates the property. Blocks allocated by texts that are refused are not covered."
  },
  {
   "property": "C99",
   "status": "partial",
   "theorems": [
    "Mjs.Props.C99_read",
    "Mjs.Props.C99_grown",
    "Mjs.Props.C99_failure",
    "Mjs.Props.C99_blocks_partial",
    "Mjs.Props.C99_violation_open",
    "Mjs.Props.C99_violation_tell"
   ],
   "note": "Proved for all contents and answers but two, for which the code violates the property: a file that has become shorter since its size was asked for stays open, and if ftell fails the file is written behind a block of size 0."
  }
 ]
}

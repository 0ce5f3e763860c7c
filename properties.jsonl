{"id": "C01", "title": "Varint length prefixes round-trip", "statement": "For every 64-bit number n, decoding the bytes produced by encoding n, followed by any other bytes, succeeds, returns n and reports exactly the number of bytes that the length function announced for n; that number is between 1 and 10.", "quantifier": "all 64-bit numbers and all byte strings that may follow the encoding", "why_tests_cant": "2^64 numbers times all continuations; every string length, jump operand and line-map entry in the engine goes through this encoding.", "anchors": ["src/common/cs_varint.c: cs_varint_llen, cs_varint_encode, cs_varint_decode"]}
{"id": "C02", "title": "Varint decoding never reads outside its buffer", "statement": "For every byte buffer, decoding either succeeds having read only bytes inside the buffer (at most 10 of them), or reports failure; it fails exactly when no byte among the first 10 available ones ends the number and the buffer is shorter than 10 bytes.", "quantifier": "all byte buffers of any length, including truncated and hostile ones", "why_tests_cant": "The claim is about every possible malformed buffer; an out-of-bounds read is invisible to a test that happens to have readable memory behind the buffer.", "anchors": ["src/common/cs_varint.c: cs_varint_decode"]}
{"id": "C03", "title": "Growable buffers behave like byte sequences", "statement": "For every history of insert, append, remove, resize, trim and clear on a buffer, with any pattern of allocation failures, the visible content equals what the same operations give on a plain byte sequence (a failed insert changes nothing and returns 0), and no operation touches memory outside the allocated block.", "quantifier": "all histories of buffer operations, all sizes, all allocator failure patterns", "why_tests_cant": "Reallocation boundaries and out-of-memory patterns form an unbounded set; the bug class (off-by-one memmove) corrupts memory silently.", "anchors": ["src/common/mbuf.c: mbuf_insert, mbuf_append, mbuf_remove, mbuf_resize, mbuf_trim, mbuf_clear, mbuf_move"]}
{"id": "C04", "title": "Every value has one type", "statement": "For every 64-bit value, at most one of the public classifiers (undefined, null, boolean, number, string, foreign, object-or-array, function, ffi signature) holds, and every constructor yields a value that its own classifier accepts and all others reject.", "quantifier": "all 2^64 values, all payloads given to the constructors", "why_tests_cant": "2^64 bit patterns; a clash of two tags shows up only for particular pointer or double payloads.", "anchors": ["src/mjs_core.h: MAKE_TAG", "src/mjs_primitive.c: mjs_is_number, mjs_is_boolean, mjs_is_foreign, mjs_is_function", "src/mjs_object.c: mjs_is_object", "src/mjs_array.c: mjs_is_array", "src/mjs_string.c: mjs_is_string", "src/mjs_core.c: mjs_get_type"]}
{"id": "C05", "title": "Numbers and booleans survive boxing", "statement": "Boxing any double and reading it back gives the same double bit for bit (any NaN gives a NaN), a boxed double is never mistaken for a pointer, string or other type, and a boxed boolean reads back as it was made.", "quantifier": "all double bit patterns, all C truth values", "why_tests_cant": "The range is all 2^64 doubles including every NaN payload; an attacker-chosen NaN payload that survives boxing is a forged pointer.", "anchors": ["src/mjs_primitive.c: mjs_mk_number, mjs_get_double, mjs_is_number, mjs_mk_boolean, mjs_get_bool"]}
{"id": "C06", "title": "Foreign pointers survive boxing", "statement": "Wrapping any legitimate C pointer as a foreign value and unwrapping it gives the same pointer; unwrapping a value that is not foreign gives NULL.  The header promises this also for sign-extended pointers such as (void *) -1.", "quantifier": "all 64-bit pointers that the library accepts as legitimate", "why_tests_cant": "Ranges over 2^49 pointers; tests use heap pointers from one half of the address space only.", "anchors": ["src/mjs_primitive.c: mjs_mk_foreign, mjs_get_ptr, mjs_pointer_to_value, get_ptr", "src/mjs_primitive_public.h: mjs_mk_foreign"]}
{"id": "C07", "title": "Copied strings read back unchanged, for ever", "statement": "A string made with copy from any bytes reads back with the same length and bytes immediately and after any further string creations; it is followed by a NUL byte.", "quantifier": "all byte strings (embedded NULs included), all histories of later string creations with any reallocation pattern", "why_tests_cant": "Representation switches at lengths 4/5/6, 127/128, 16383/16384...; and the claim quantifies over everything created later.", "anchors": ["src/mjs_string.c: mjs_mk_string, mjs_get_string, embed_string", "src/mjs_string_public.h"]}
{"id": "C08", "title": "Short strings have one representation", "statement": "Two strings of at most 5 bytes made with copy are the same 64-bit value exactly when their bytes are equal, and strings of at most 5 bytes never share a value with longer ones.", "quantifier": "all pairs of byte strings of length up to 5", "why_tests_cant": "About 2^80 pairs; property lookup and === rely on it by comparing raw values.", "anchors": ["src/mjs_string.c: mjs_mk_string", "src/mjs_object.c: mjs_get_own_property"]}
{"id": "C09", "title": "String equality is byte equality", "statement": "For any two string values, in any mix of inline, owned and foreign representation, === is true exactly when they have the same length and the same bytes.", "quantifier": "all pairs of string values in all representations", "why_tests_cant": "Unbounded contents and all representation pairs; embedded NULs break C-string based comparison.", "anchors": ["src/mjs_string.c: s_cmp", "src/mjs_exec.c: check_equal"]}
{"id": "C10", "title": "Concatenation concatenates", "statement": "For any strings a and b, a + b reads back as the bytes of a followed by the bytes of b, and a and b still read back unchanged, even when creating the result moves the string storage.", "quantifier": "all pairs of strings in all representations, all storage states", "why_tests_cant": "Unbounded contents and buffer states; the failure (stale pointer after reallocation) needs a particular buffer fill level.", "anchors": ["src/mjs_string.c: s_concat, mjs_mk_string", "src/mjs_exec.c: do_op"]}
{"id": "C11", "title": "slice returns the requested bytes", "statement": "s.slice(b, e) returns exactly the bytes with indices from b up to but excluding e, negative indices counting from the end, everything clamped to the string, empty when e < b.", "quantifier": "all strings, all integer arguments b and e representable as C int", "why_tests_cant": "All combinations of sign, order and out-of-range positions against all lengths.", "anchors": ["src/mjs_string.c: mjs_string_slice", "src/mjs_util.c: mjs_normalize_idx"]}
{"id": "C12", "title": "indexOf finds the first occurrence", "statement": "s.indexOf(t, from) returns the least index i >= clamp(from) where t occurs in s, and -1 exactly when there is none.", "quantifier": "all strings s and t, all int start positions", "why_tests_cant": "Leastness and absence are universal statements over all positions of unbounded strings.", "anchors": ["src/mjs_string.c: mjs_string_index_of", "src/common/mg_str.c: mg_strstr"]}
{"id": "C13", "title": "charCodeAt and at return the addressed byte", "statement": "s.at(i) is the i-th byte as a number 0..255 for 0 <= i < length, counts from the end for negative i, and is undefined for i >= length.  For i < -length there is no addressed byte.", "quantifier": "all strings and all int indices", "why_tests_cant": "All sign and range combinations over unbounded strings.", "anchors": ["src/mjs_string.c: mjs_string_char_code_at", "src/mjs_util.c: mjs_normalize_idx"]}
{"id": "C14", "title": "String literal escapes", "statement": "Decoding a string literal body writes exactly as many bytes as its sizing pass counted; a body without backslashes denotes itself; \\n \\t \\r \\b \\f \\v \\\\ \\\" \\' and \\xHH denote the standard bytes.", "quantifier": "all literal bodies, all buffer contents", "why_tests_cant": "If the two passes disagreed for one body, the string store would be overrun.", "anchors": ["src/mjs_string.c: unescape, nextesc, hex, embed_string"]}
{"id": "C15", "title": "Objects are maps from keys to values", "statement": "For every history of property writes and deletions through the C API on any number of objects, reading a key gives the value last written and not deleted since, undefined if none; operations on one key or object do not affect other keys or objects.", "quantifier": "all histories of set, get and delete over all objects and all keys", "why_tests_cant": "Histories are unbounded; key comparison switches representation by length, so collisions depend on particular keys.", "anchors": ["src/mjs_object.c: mjs_get, mjs_set, mjs_set_internal, mjs_del, mjs_get_own_property", "src/mjs_object_public.h"]}
{"id": "C16", "title": "Property iteration visits every key once", "statement": "Iterating an object that is not modified meanwhile returns every present key exactly once and then ends; keys come out most recently created first, and overwriting a value does not move its key.", "quantifier": "all objects reachable by any history of writes and deletes", "why_tests_cant": "Unbounded objects and histories.", "anchors": ["src/mjs_object.c: mjs_next, mjs_set_internal"]}
{"id": "C17", "title": "Prototype lookup finds the nearest definition", "statement": "Reading a key through the prototype chain returns the value held by the first object in the chain that has the key, undefined if no object has it; lookup ends for every acyclic chain.", "quantifier": "all heaps, all chains of any length, all keys", "why_tests_cant": "Chain length is unbounded.", "anchors": ["src/mjs_object.c: mjs_get_v_proto, mjs_op_create_object"]}
{"id": "C18", "title": "Arrays hold what was stored at each index", "statement": "After any history of array set, push and delete, reading index i returns what was last stored there, and length is one more than the greatest present index (0 if none); push stores at length.", "quantifier": "all histories of array operations with indices below 2^32-1", "why_tests_cant": "Unbounded histories; indices are stored as decimal strings, so the claim needs decimal printing to be injective and re-readable.", "anchors": ["src/mjs_array.c: mjs_array_get, mjs_array_set, mjs_array_del, mjs_array_push, mjs_array_length", "src/mjs_string.c: cstr_to_ulong", "src/common/str_util.c: c_itoa"]}
{"id": "C19", "title": "splice edits an array like a list", "statement": "On an array with elements at all indices below its length, splice(start, count, items...) returns the removed elements in order and leaves prefix ++ items ++ suffix, with start and count clamped as documented.", "quantifier": "all array lengths and contents, all starts, counts and item lists", "why_tests_cant": "In-place moves in both directions over unbounded arrays.", "anchors": ["src/mjs_array.c: mjs_array_splice, move_item", "src/mjs_util.c: mjs_normalize_idx"]}
{"id": "C20", "title": "own/disown keep an exact register", "statement": "After any history of own and disown calls, a C variable is registered exactly as many times as own was called minus successful disowns; disown returns 1 exactly when the variable was registered and never drops another variable.", "quantifier": "all histories of own and disown over all addresses", "why_tests_cant": "Unbounded histories with repetition; the swap-with-last removal fails only for certain positions.", "anchors": ["src/mjs_core.c: mjs_own, mjs_disown"]}
{"id": "C21", "title": "Errors keep their first cause", "statement": "Prepending an error on top of an existing one keeps the first error code and yields the message 'new: old'; setting an error replaces both; with no earlier error both do the same.", "quantifier": "all sequences of error reports", "why_tests_cant": "Histories of nested error reports are unbounded.", "anchors": ["src/mjs_core.c: mjs_set_errorf, mjs_prepend_errorf, mjs_set_errorv"]}
{"id": "C22", "title": "A C function sees its arguments and sets its result", "statement": "Inside a call, the argument count is the number of values passed, argument i is the i-th of them, undefined beyond; setting the return value removes the arguments and leaves exactly the result in place of the callee, with everything below untouched.", "quantifier": "all stacks, all argument lists", "why_tests_cant": "All stack depths and argument counts.", "anchors": ["src/mjs_core.c: mjs_nargs, mjs_arg, mjs_return, mjs_getretvalpos, vptr, mjs_pop"]}
{"id": "C23", "title": "Allocation never hands out a live cell", "statement": "For every history of allocations and collections, a newly allocated object or property cell is distinct from every cell that is still in use, and a cell in use is never put on the free list by allocation.", "quantifier": "all histories of allocate and collect, all arena growth patterns", "why_tests_cant": "Unbounded histories; two live objects sharing a cell corrupts data far from the cause.", "anchors": ["src/mjs_gc.c: gc_alloc_cell, gc_new_block, gc_sweep"]}
{"id": "C24", "title": "Collection keeps everything reachable", "statement": "Garbage collection leaves every object, property and ffi signature reachable from the values the engine registers as roots in place with the same contents.", "quantifier": "all heaps (cyclic and shared included), all root sets", "why_tests_cant": "All object graphs; a missed edge is a use-after-free for particular graphs only.", "anchors": ["src/mjs_gc.c: mjs_gc, gc_mark, gc_mark_object, gc_sweep"]}
{"id": "C25", "title": "Collection reclaims everything unreachable", "statement": "After a collection every cell not reachable from the roots is available for allocation again, and empty extra blocks are released.", "quantifier": "all heaps and root sets", "why_tests_cant": "Completeness is a statement about all unreachable cells in all graphs.", "anchors": ["src/mjs_gc.c: gc_sweep, mjs_gc"]}
{"id": "C26", "title": "Values held only by a pending call survive collection", "statement": "While the arguments of a method call are being evaluated, the receiver of the pending call survives any collection triggered meanwhile.", "quantifier": "all programs in which an argument expression triggers a collection", "why_tests_cant": "Depends on when a collection happens, which tests do not control.", "anchors": ["src/mjs_exec.c: OP_ARGS, OP_CALL", "src/mjs_gc.c: mjs_gc"]}
{"id": "C27", "title": "String compaction preserves live strings", "statement": "After a collection every string value held by a root or a surviving object reads back with the same bytes as before, wherever it was moved; two values that shared a string still do.", "quantifier": "all string stores, all sets of references with any sharing", "why_tests_cant": "The collector threads references through the string bytes themselves; correctness depends on all fill patterns and reference multiplicities.", "anchors": ["src/mjs_gc.c: gc_mark_string, gc_compact_strings, gc_mark_mbuf_pt"]}
{"id": "C28", "title": "Tokenizing always makes progress", "statement": "On every NUL-terminated source, each token request either consumes at least one character or reports end of input, never reads past the terminating NUL, and repeated requests reach the end.", "quantifier": "all source texts", "why_tests_cant": "Any byte sequence can be given as a script; non-progress is an endless loop.", "anchors": ["src/mjs_tok.c: pnext, skip_spaces_and_comments, getident, getstr, getnum"]}
{"id": "C29", "title": "Operators are tokenized by longest match", "statement": "At an operator character the tokenizer recognizes the longest operator of the language that is a prefix of the remaining input.", "quantifier": "all source texts and positions", "why_tests_cant": "All continuations of all operator prefixes.", "anchors": ["src/mjs_tok.c: pnext, longtok, longtok2, longtok3, longtok4"]}
{"id": "C30", "title": "Reserved words are never identifiers, and conversely", "statement": "An identifier-shaped lexeme becomes a keyword token exactly when it spells a reserved word, and each reserved word gives its own token.", "quantifier": "all identifier-shaped lexemes", "why_tests_cant": "Unbounded lexemes, prefixes and extensions of keywords.", "anchors": ["src/mjs_tok.c: is_reserved_word_token, pnext"]}
{"id": "C31", "title": "Binary operators group by precedence, left to right", "statement": "Parsing a binary operator expression produces code that evaluates it with the standard grouping: higher precedence first, equal precedence left to right.", "quantifier": "all operator expressions of any length over the arithmetic, shift, comparison, equality and bitwise operators", "why_tests_cant": "Unbounded expressions and operator combinations.", "anchors": ["src/mjs_parser.c: PARSE_LTR_BINOP, parse_mul_div_rem ... parse_logical_or, emit_op"]}
{"id": "C32", "title": "Compiled expressions compute their value", "statement": "Executing the code of an expression leaves exactly one more value on the data stack, namely the value the language semantics gives to the expression, or stops with an error if that semantics does.", "quantifier": "all expressions over literals, variables, unary, binary, logical and conditional operators; all variable environments", "why_tests_cant": "Unbounded expression trees; stack imbalance in one case corrupts later evaluation.", "anchors": ["src/mjs_parser.c", "src/mjs_exec.c: mjs_execute, exec_expr"]}
{"id": "C33", "title": "Short circuit operators do not evaluate the skipped operand", "statement": "a && b and a || b evaluate b only when a does not decide the result, and yield the deciding operand itself.", "quantifier": "all operand expressions", "why_tests_cant": "Operands are arbitrary expressions with arbitrary size of code to be jumped over.", "anchors": ["src/mjs_parser.c: PARSE_LTR_BINOP", "src/mjs_exec.c: OP_JMP_NEUTRAL_TRUE, OP_JMP_NEUTRAL_FALSE"]}
{"id": "C34", "title": "Jumps land where the source says, at any distance", "statement": "For if, else, while, for, the conditional operator, && and ||, the jump operand written after the body is generated makes execution continue exactly at the intended instruction, whatever the size of the jumped-over code.", "quantifier": "all bodies of any code size", "why_tests_cant": "Patching inserts bytes and moves code when the distance needs more than one byte: boundaries at 2^7, 2^14, 2^21...", "anchors": ["src/mjs_bcode.c: mjs_bcode_insert_offset", "src/mjs_parser.c: parse_if, parse_while, parse_ternary", "src/mjs_exec.c: OP_JMP*"]}
{"id": "C35", "title": "Structured statements run as written", "statement": "if/else runs exactly one branch according to the truth of the condition; while runs its body while the condition is true; statement lists run in order.", "quantifier": "all conditions and bodies, any number of iterations", "why_tests_cant": "Unbounded programs and iteration counts.", "anchors": ["src/mjs_parser.c: parse_if, parse_while, parse_statement_list", "src/mjs_exec.c: mjs_execute"]}
{"id": "C36", "title": "Parsing always ends, with code or an error", "statement": "For every source text parsing finishes; nesting beyond the limit gives a syntax error instead of exhausting the C stack; a program whose nesting is below the limit is not rejected for depth.", "quantifier": "all source texts", "why_tests_cant": "All inputs; unbounded nesting.", "anchors": ["src/mjs_parser.c: mjs_parse, parse_statement_list, parse_block, BINOP_STACK_FRAME_SIZE"]}
{"id": "C37", "title": "A failed script leaves no residue on the engine stacks", "statement": "When executing a script ends with an error, the data stack, call stack, argument stack, scope stack and loop stack have the depth they had before the script started, and the error code is returned.", "quantifier": "all scripts and all failure points", "why_tests_cant": "All programs and all error points inside nested calls and loops.", "anchors": ["src/mjs_exec.c: mjs_execute, exec_internal"]}
{"id": "C38", "title": "Calls return to the caller's state", "statement": "Entering and leaving a JS function restores this, the scope stack, the loop stack and the return address, and replaces callee and arguments by the result.", "quantifier": "all engine states, all frames", "why_tests_cant": "Arbitrary nesting of calls.", "anchors": ["src/mjs_exec.c: call_stack_push_frame, call_stack_restore_frame"]}
{"id": "C39", "title": "Variables resolve to the innermost scope", "statement": "Looking up a name finds the innermost scope that declares it; assignment changes only that binding; using an undeclared name, for reading or writing, is a ReferenceError; let creates the name, undefined, in the current scope only, and leaves a variable of that name that is already there as it is.", "quantifier": "all scope stacks, all names", "why_tests_cant": "Unbounded scope nesting and shadowing.", "anchors": ["src/mjs_exec.c: mjs_find_scope, op_assign, exec_expr, OP_CREATE, OP_NEW_SCOPE, OP_DEL_SCOPE"]}
{"id": "C40", "title": "Operators follow their type rules", "statement": "Arithmetic on two numbers yields the number, + on two strings concatenates, any other operand mix is a TypeError (or 0/NaN as documented); comparison operators yield booleans; === compares type and value.", "quantifier": "all operators and all operand values", "why_tests_cant": "All value pairs times all operators.", "anchors": ["src/mjs_exec.c: do_op, do_arith_op, exec_expr, check_equal"]}
{"id": "C41", "title": "Truthiness", "statement": "A value is false in a condition exactly when it is undefined, null, false, zero of either sign, NaN or the empty string.", "quantifier": "all 64-bit values", "why_tests_cant": "All 2^64 values.", "anchors": ["src/mjs_conversion.c: mjs_to_boolean_v, mjs_is_truthy"]}
{"id": "C42", "title": "Loaded code is stable", "statement": "Loading further scripts never changes the code already loaded: each offset keeps belonging to the same script and each function value keeps pointing at its body.", "quantifier": "all sequences of script loads, all offsets", "why_tests_cant": "Unbounded histories.", "anchors": ["src/mjs_bcode.c: mjs_bcode_part_get_by_offset, mjs_bcode_part_add, mjs_bcode_commit"]}
{"id": "C43", "title": "Stack traces name the right line", "statement": "The line number reported for a code offset is the line of the last source token emitted before that offset.", "quantifier": "all line maps and offsets", "why_tests_cant": "All maps, all offsets.", "anchors": ["src/mjs_util.c: mjs_get_lineno_by_offset", "src/mjs_bcode.c: add_lineno_map_item"]}
{"id": "C44", "title": "JSON string quoting", "statement": "Quoting a string for JSON yields a text which JSON.parse of this library accepts and maps back to the original bytes, and the reported length is the length of that text.", "quantifier": "all byte strings", "why_tests_cant": "All byte strings; one unescaped control character breaks consumers.", "anchors": ["src/mjs_json.c: snquote, append_hex", "src/frozen/frozen.c: json_parse_string, json_unescape"]}
{"id": "C45", "title": "Serialization never overruns its buffer", "statement": "With any buffer size, quoting and serializing write only inside the buffer, NUL-terminate it when it is not empty, and report the full length needed; a buffer one larger than the reported length receives the complete text.", "quantifier": "all values and all buffer sizes", "why_tests_cant": "All sizes against all contents; overruns are silent.", "anchors": ["src/mjs_json.c: snquote, to_json_or_debug, mjs_json_stringify", "src/common/str_util.c: c_vsnprintf"]}
{"id": "C46", "title": "JSON.parse builds the described value", "statement": "For every JSON text, parsing yields the value described: each object member becomes a property with its key, each array element the element at its index.", "quantifier": "all JSON texts", "why_tests_cant": "Unbounded nesting and arbitrary keys; the parser tracks nesting in a fixed-size path buffer.", "anchors": ["src/frozen/frozen.c: json_parse_value, json_parse_object, json_parse_array, CALL_BACK", "src/mjs_json.c: frozen_cb, mjs_json_parse"]}
{"id": "C47", "title": "JSON parsing always ends inside the text", "statement": "For every byte buffer, JSON parsing finishes, never moves beyond the end of the buffer, and reports success or an error.", "quantifier": "all byte buffers", "why_tests_cant": "All malformed inputs.", "anchors": ["src/frozen/frozen.c: json_doit, json_parse_*"]}
{"id": "C48", "title": "FFI signatures are accepted only if callable", "statement": "A signature accepted for a function has at most 6 arguments, a supported return type, no userdata without callback and no callback without userdata, and at most one of each; accepting or rejecting never crashes the engine.", "quantifier": "all signature strings", "why_tests_cant": "All strings; the accepted set is infinite.", "anchors": ["src/mjs_ffi.c: mjs_parse_ffi_signature, mjs_ffi_sig_validate, parse_cval_type, get_cb_impl_by_signature"]}
{"id": "C49", "title": "FFI calls check their arguments", "statement": "A call through FFI with the wrong number of arguments or an argument of the wrong type reports a TypeError and does not call the C function; otherwise the C function receives each argument converted to its declared type in order.", "quantifier": "all signatures, all argument lists", "why_tests_cant": "All combinations of declared and actual types.", "anchors": ["src/mjs_ffi.c: mjs_ffi_call2"]}
{"id": "C50", "title": "FFI callback registrations are exact", "statement": "Passing the same callback function and userdata again reuses the same registration; freeing removes exactly that registration and returns 1, or returns 0 and changes nothing if there is none.", "quantifier": "all histories of callback registrations and frees", "why_tests_cant": "Unbounded histories.", "anchors": ["src/mjs_ffi.c: ffi_get_matching, mjs_ffi_cb_free, mjs_ffi_call2"]}
{"id": "C51", "title": "FFI callbacks receive the C arguments", "statement": "When C code invokes a callback created for an accepted signature, the JS function receives for each argument the value that C passed at that position, converted according to the declared type.", "quantifier": "all accepted callback signatures", "why_tests_cant": "All combinations of argument types and positions.", "anchors": ["src/mjs_ffi.c: get_cb_impl_by_signature, ffi_cb_impl_*, ffi_cb_impl_generic"]}
{"id": "C52", "title": "Memory accessors round-trip", "statement": "Storing an integer of 1 to 4 bytes in either byte order and loading it with the same width and order gives it back (modulo the width, sign-extended for the signed accessor); a double stored is loaded with the same bits; a pointer stored is there in its 8 bytes; bytes outside the field are untouched. mem_get_ptr gives base plus the signed offset.", "quantifier": "all values, widths 1..4 and doubles, both byte orders, all memory contents", "why_tests_cant": "2^32 values times memory contents.", "anchors": ["src/mjs_dataview.c: mjs_mem_get_uint, mjs_mem_get_int, mjs_mem_set_uint, mjs_mem_set_int, mjs_mem_get_dbl, mjs_mem_set_dbl, mjs_mem_set_ptr, mjs_mem_get_ptr, mjs_mem_to_ptr"]}
{"id": "C53", "title": "break and continue act on the innermost enclosing loop", "statement": "break leaves the innermost loop of the function it is written in and continue starts its next iteration; the loop stack is balanced afterwards.", "quantifier": "all nestings of loops and calls", "why_tests_cant": "Unbounded nesting.", "anchors": ["src/mjs_exec.c: OP_LOOP, OP_BREAK, OP_CONTINUE", "src/mjs_parser.c: parse_for, parse_while"]}
{"id": "C54", "title": "Calling a function from C is transparent", "statement": "mjs_apply delivers this and the arguments in order, returns the function's result or error, and leaves the engine stacks as they were.", "quantifier": "all functions, argument lists and engine states", "why_tests_cant": "Histories of calls are unbounded: a leak per call is invisible in one call.", "anchors": ["src/mjs_exec.c: mjs_apply"]}
{"id": "C55", "title": "Formatted printing respects its buffer", "statement": "The built-in formatter writes at most the given number of bytes, always terminates a non-empty buffer, and returns the length the full text would have; decimal output of an integer reads back as that integer; widths pad to the width, precisions cut strings, and a format made of several parts prints the texts of the parts one after the other.", "quantifier": "all formats, argument lists and buffer sizes; all integers, strings, widths and precisions", "why_tests_cant": "All sizes and values.", "anchors": ["src/common/str_util.c: c_itoa, c_vsnprintf, c_snprintf"]}
{"id": "C56", "title": "Hex conversion round-trips", "statement": "Converting any bytes to hex text and back returns the bytes, and the text has two digits per byte.", "quantifier": "all byte strings", "why_tests_cant": "Unbounded inputs.", "anchors": ["src/common/str_util.c: cs_to_hex, cs_from_hex, fourbit"]}
{"id": "C57", "title": "Counted-string comparison is a total order", "statement": "Comparison of counted strings returns 0 exactly for equal strings, is antisymmetric and transitive, and agrees with lexicographic byte order; substring search returns the first match.", "quantifier": "all counted strings", "why_tests_cant": "All pairs and triples of strings.", "anchors": ["src/common/mg_str.c: mg_strcmp, mg_strncmp, mg_strstr, mg_str_starts_with, mg_strstrip, mg_strchr"]}
{"id": "C58", "title": "Compound assignment and increment", "statement": "x op= v stores the result of x op v in x; ++x and --x yield the new value, x++ and x-- the old value, and all change x by one.", "quantifier": "all variables, values and operators", "why_tests_cant": "All operators and values, also through object properties.", "anchors": ["src/mjs_exec.c: exec_expr, op_assign"]}
{"id": "C59", "title": "White space and comments", "statement": "Before each token exactly the white space and comments there are skipped, and the line counter grows by the number of line breaks skipped.", "quantifier": "all source texts and positions", "why_tests_cant": "Comments can be nested in any order, unterminated, or end with the text; tests see a few", "anchors": ["src/mjs_tok.c: skip_spaces_and_comments, pnext"]}
{"id": "C60", "title": "Extent of string literals", "statement": "A string literal extends to the first quote of its kind that is not protected by a backslash, or to the end of the text.", "quantifier": "all source texts, both quotes", "why_tests_cant": "Every sequence of backslashes and quotes matters", "anchors": ["src/mjs_tok.c: getstr, pnext"]}
{"id": "C61", "title": "Running a text does what it means", "statement": "If a source text is the writing of a script in the language (its tokens follow the grammar), parsing it produces exactly the code of that script, and mjs_exec of the text returns the value, or the error, that the script means, with the stacks as before.", "quantifier": "all source texts that write a script of the modelled grammar, all environments, all engine states with room on the stacks", "why_tests_cant": "Infinitely many programs; parser, code generator, loader and interpreter must agree on all of them.", "anchors": ["src/mjs_parser.c: mjs_parse and all parse_* functions", "src/mjs_tok.c: pnext", "src/mjs_exec.c: mjs_exec, mjs_exec_internal, mjs_execute"]}
{"id": "C62", "title": "The texts accepted are the programs", "statement": "A text that is a program of the supported language is accepted, a text that is not is rejected with a syntax error, and no text is taken for a different program.", "quantifier": "all source texts", "why_tests_cant": "Infinitely many texts near the borders of the grammar.", "anchors": ["src/mjs_parser.c: parse_if, parse_block_or_stmt, parse_let, parse_call_dot_mem, parse_array_literal, parse_while, parse_literal"]}
{"id": "C63", "title": "Collections are invisible to a program that registers its variables", "statement": "A C program keeps values in variables registered with mjs_own (or in values the engine holds), makes objects and strings, sets, deletes and reads properties, and collections happen at any point between its calls. Then every variable reads as if there were no collector: the same primitive values, strings with the same bytes, the same objects with the same properties, and no call fails that would not fail without collections.", "quantifier": "all histories of API calls and collections, all graphs of objects, all strings", "why_tests_cant": "The moments of collections, the sharing of strings and the object graphs are unbounded; an error shows only for particular combinations.", "anchors": ["src/mjs_gc.c: mjs_gc, gc_mark, gc_compact_strings", "src/mjs_core.c: mjs_own, mjs_disown, mjs_create", "src/mjs_object.c: mjs_set, mjs_get, mjs_del", "src/mjs_string.c: mjs_mk_string"]}
{"id": "C64", "title": "Hexadecimal literals denote their value", "statement": "In a script, 0x followed by hexadecimal digits, small or capital, is one literal whose value is the number the digits write, whenever that number is below 2^53; what follows the digits is read next.", "quantifier": "all sequences of hexadecimal digits with a value below 2^53, all scripts around them", "why_tests_cant": "The digit sequences and their contexts are unbounded; a test looks at some numerals only.", "anchors": ["src/mjs_parser.c: parse_literal", "src/mjs_tok.c: getnum, pnext"]}
{"id": "C65", "title": "JSON.parse undoes JSON.stringify", "statement": "For every tree of objects, arrays, strings, numbers, booleans and null, JSON.stringify gives a JSON text of its data, in which values without JSON form are left out of objects and null in arrays, and JSON.parse of this text gives a value with the same members and elements.", "quantifier": "all trees of values an engine can build, at any moment of its life, and all engines that read the text", "why_tests_cant": "Unbounded nesting, arbitrary keys and bytes; writer and parser are separate code and each has its own limits.", "anchors": ["src/mjs_json.c: to_json_or_debug, mjs_json_stringify, mjs_json_parse", "src/frozen/frozen.c: json_walk"]}
{"id": "C66", "title": "Methods of strings and arrays work in scripts", "statement": "In a script, s.slice, s.at and s.indexOf on a string and a.push, a.splice on an array do what C14, C12 and C18 say of the functions behind them: the call evaluates receiver and arguments in order, gives the result as the value of the call expression, changes the array and nothing else, and leaves scopes, this and error as they were; with a missing argument or one of the wrong type the call fails with a TypeError.", "quantifier": "all receivers and argument expressions, all values they evaluate to, all states of the engine a script can reach the call in", "why_tests_cant": "The receivers, arguments and states are unbounded, and the call passes through several stacks of the interpreter whose contents are arbitrary.", "anchors": ["src/mjs_exec.c: getprop_builtin_string, getprop_builtin_array, OP_CALL", "src/mjs_string.c: mjs_string_slice, mjs_string_index_of, mjs_string_char_code_at", "src/mjs_array.c: mjs_array_push, mjs_array_splice"]}
{"id": "C67", "title": "Built-in functions work in scripts", "statement": "In a script, chr(n) is the one-byte string for 0 <= n <= 255 and null otherwise, isNaN(x) tells whether x is NaN, die(m) fails with the message m, Object.create(p) is a new object with prototype p, or without prototype for null, JSON.stringify(v) is a JSON text of the data of v, JSON.parse(t) gives the data the text t describes; arguments that are missing or of the wrong type are TypeErrors, and nothing else of the engine changes.", "quantifier": "all argument expressions, all values they evaluate to, all states of the engine a script can reach the call in", "why_tests_cant": "Arguments and states are unbounded; the call passes through several stacks of the interpreter with arbitrary contents.", "anchors": ["src/mjs_builtin.c: mjs_chr", "src/mjs_core.c: mjs_die", "src/mjs_primitive.c: mjs_op_isnan", "src/mjs_object.c: mjs_op_create_object", "src/mjs_json.c: mjs_op_json_parse, mjs_op_json_stringify", "src/mjs_exec.c: OP_CALL"]}
{"id": "C68", "title": "A new engine has exactly the documented names", "statement": "If creating an engine succeeds and memory is not exhausted, the scripts of the new engine see exactly the global names global, load, print, ffi, ffi_cb_free, mkstr, getMJS, die, gc, chr, s2o, JSON, Object, NaN and isNaN, with global the global object itself, JSON an object with exactly parse and stringify, Object an object with exactly create, each bound to its own function; there is no error, this is undefined, and calling such a function by its name calls that function.", "quantifier": "all addresses of the functions and literals, all behaviours of an allocator that grants the requests, all argument lists of the calls", "why_tests_cant": "The claim is about absence too (no other name answers), and about every answer of the allocator and every sequence of later calls.", "anchors": ["src/mjs_core.c: mjs_create", "src/mjs_builtin.c: mjs_init_builtin", "src/mjs_object.c: mjs_set", "src/mjs_exec.c: getprop_builtin, OP_FIND_SCOPE, OP_GET"]}
{"id": "C69", "title": "load runs a file once, in the scope it is given, and reports its errors", "statement": "load(path) for a path that no loaded script has reads that file, runs its text and gives its value; with an object as second argument the file is run with that object as its innermost scope, and the scope is gone afterwards, also after an error. A path that was loaded and whose last run ended well is not read or run again: load gives undefined and changes nothing. If the last run failed, or a scope is given, the code loaded first is run again. A file that cannot be read, whose text is incorrect or that fails at run time makes load fail with that error, with the name of the file before the message, and the stacks of the caller are as before the call.", "quantifier": "every engine state in a call of load, every path and second argument, every content of the files, and every history of files that load files", "why_tests_cant": "The result depends on everything loaded and run before, on the text of the file and on where it fails; tests load a few files in one order.", "anchors": ["src/mjs_builtin.c:mjs_load", "src/mjs_builtin.c:mjs_get_loaded_file_bcode", "src/mjs_exec.c:mjs_exec_file", "src/mjs_exec.c:mjs_execute", "src/mjs_string.c:mjs_get_cstring"]}
{"id": "C70", "title": "The text of a number is exact for integers and right to six digits for fractions", "statement": "The text that the engine makes of a number (string conversion, property names, printing, JSON) is the exact decimal numeral of the number if it is an integer of the range of 64-bit integers, and otherwise the numeral with six digits after the point that is nearest to the number, ties to the even digit; distinct integers have distinct texts; every text of a number that is not NaN is a JSON numeral; it fits the buffer it is made in; and a number and the string with its text name the same property of an object.", "quantifier": "for all numbers (all 2^64 bit patterns that are numbers) and all objects", "why_tests_cant": "There are 2^64 doubles; rounding, collisions and buffer limits occur at patterns a test does not pick", "anchors": ["src/mjs_util.c:mjs_jprintf", "src/mjs_conversion.c:mjs_to_string", "src/frozen/frozen.c:json_vprintf"]}
{"id": "C71", "title": "Printing a value writes its text and stays inside the buffer", "statement": "Printing writes undefined, null, true and false as these words, numbers as their text, strings as their bytes with all bytes that are not printable ASCII written as \\xhh, objects, arrays, functions and foreign pointers as <object>, <array>, <function@address> and <foreign_ptr@address>. mjs_sprintf changes only the given buffer, for every value and every size, and leaves there the text, cut to the size, and a NUL byte. print writes the texts of all its arguments in order, each followed by a space, and a newline, returns undefined, and changes nothing else of the engine.", "quantifier": "for all values, all contents of strings, all buffers and sizes, and all argument lists", "why_tests_cant": "Whether a buffer overflows or lacks its NUL depends on value, size and content together; tests pick a few of each", "anchors": ["src/mjs_util.c:mjs_jprintf,mjs_sprintf,mjs_fprintf", "src/frozen/frozen.c:json_printer_buf", "src/mjs_builtin.c:mjs_print"]}
{"id": "C72", "title": "Collections and the places of things in memory are invisible to scripts", "statement": "Executing code gives the same error, the same message and a value that the host cannot tell apart (same numbers, same bytes of strings, same keys in the same order, however deep), whether or not garbage collections happen between its instructions and wherever the allocator places objects, properties and strings; afterwards both engines behave alike for whatever is executed next. If it ends in one of them, it ends in the other unless memory runs out. Two engines made by mjs_create are alike in this sense.", "quantifier": "for all code without for-in, all engines that differ only in where things are, all choices of when collections happen and all answers of the allocator", "why_tests_cant": "Tests run one schedule of collections and one memory layout; a value that a collection moves or loses shows only at the schedule and layout that hits it", "anchors": ["src/mjs_exec.c:mjs_execute", "src/mjs_gc.c:mjs_gc,maybe_gc", "src/mjs_core.c:mjs_create"]}
{"id": "C73", "title": "gc() returns its argument and changes nothing that scripts see", "statement": "A script's call of gc, full or not, leaves an engine that differs from the one before only in where things are in memory, and its value is its argument.", "quantifier": "for all states of an engine in a call of gc, all arguments, all places of the engine's variables and all answers of the allocator", "why_tests_cant": "Whether the argument survives depends on what is garbage, on the order of strings in the buffer and on what moves where", "anchors": ["src/mjs_builtin.c:mjs_do_gc", "src/mjs_gc.c:mjs_gc"]}
{"id": "C74", "title": "mkstr makes copies and views of C memory", "statement": "mkstr(ptr, len), mkstr(ptr, offset, len) and mkstr(ptr, offset, len, copy) give a string of len bytes from ptr + offset, with len -1 for a C string up to its NUL. With a true copy its bytes are those at the time of the call whatever happens to the memory later; otherwise they are always those that the memory holds. Other strings and objects do not change. Other arguments are a TypeError that says what is wrong, and nothing is made.", "quantifier": "for all pointers, offsets, lengths, contents of memory then and later, and all states of the engine", "why_tests_cant": "Tests see a few lengths and contents; that a view follows every later change and a copy follows none is about all later states of memory", "anchors": ["src/mjs_string.c:mjs_mkstr,mjs_mk_string"]}
{"id": "C75", "title": "s2o turns a C structure into an object with the same data", "statement": "mjs_struct_to_obj(base, defs), and s2o(base, defs) in a script, give an object whose keys are the names of the description, in its order, and whose values are those of the fields at their offsets: integers of each width and signedness as the same number, booleans, float and double as the same number, C strings and counted strings as strings with the same bytes, pointers as pointers, structures and pointers to structures as objects made the same way, to any depth, and NULL pointers as null. Nothing that existed before changes. If one of the two pointers is NULL or not a pointer the result is undefined.", "quantifier": "for all structures, descriptions and contents of memory, to any nesting depth, and all states of the engine with enough memory", "why_tests_cant": "Layouts, nesting and field contents are unbounded; tests fix a handful of structures", "anchors": ["src/mjs_object.c:mjs_struct_to_obj", "src/mjs_builtin.c:mjs_s2o", "src/mjs_object_public.h:mjs_c_struct_member,mjs_struct_field_type"]}
{"id": "C76", "title": "Arithmetic on numbers is that of IEEE 754", "statement": "For all numbers a and b, the value of a + b, a - b, a * b and a / b in a script is the double nearest to the exact result (of two equally near ones that with last bit 0). So it is exact whenever the exact result is a double, in particular for integers up to 2^53; it is monotone; + and * commute; results too large are infinities; infinities, zeros and their signs follow the rules of the standard; adding 1 counts exactly up to 2^53.", "quantifier": "for all pairs of doubles, including zeros, subnormal numbers and infinities, and all states of the engine", "why_tests_cant": "There are 2^128 pairs of operands; rounding mistakes show on few of them", "anchors": ["src/mjs_exec.c:do_arith_op,exec_expr", "src/mjs_primitive.c:mjs_mk_number"]}
{"id": "C77", "title": "Numbers in scripts and JSON mean the nearest double", "statement": "A decimal number in a script (digits, a fraction, an exponent), and a number in a text given to JSON.parse, becomes the double nearest to what is written, and the text behind it is read on where the number ends. An integer of 64 bits that JSON.stringify writes is read back by JSON.parse as the same number; any other number is read back as the double nearest to the six digits after the point that were written.", "quantifier": "for all decimal numbers of any length, at any place of any text, and all states of the engine", "why_tests_cant": "Numerals of any length and exponent; rounding mistakes show on rare digit sequences only", "anchors": ["src/mjs_parser.c:parse_literal", "src/mjs_tok.c:getnum", "src/mjs_exec.c:mjs_execute", "src/mjs_json.c:frozen_cb", "src/mjs_util.c:mjs_jprintf"]}
{"id": "C78", "title": "A function value keeps meaning the function it was made from", "statement": "The value of a function expression is a function; calling it, from a script or with mjs_apply, at any later time and however many scripts have been loaded since, runs the body of that expression with its parameters bound to the arguments. Two function expressions never have the same value.", "quantifier": "for all scripts, all function expressions in them at any nesting depth, and all scripts loaded before and after", "why_tests_cant": "Function values are offsets into code that grows; which function an offset means must be right for every layout and every number of scripts", "anchors": ["src/mjs_primitive.c:mjs_mk_function,mjs_is_function", "src/mjs_core.c:mjs_get_func_addr", "src/mjs_exec.c:mjs_execute,mjs_apply", "src/mjs_bcode.c:mjs_bcode_part_get_by_offset"]}
{"id": "C79", "title": "Members, elements and bytes in scripts", "statement": "In a script o.x and o[k] are the value last stored under that name in o or in the nearest of its prototypes, undefined if there is none; o.x = v and o[k] = v change that property of that object and nothing else; a[i] and a[i] = v address element i of an array, a.length is one more than the greatest index; s[i] is the i-th byte of a string as a string and s.length the number of bytes; p[i] reads and writes the byte i behind the address p and p[i] = v is refused unless v is 0 to 255. Numbers as keys mean their text. On any other value these are TypeErrors that change nothing.", "quantifier": "all scripts, object, key and value expressions, histories of the heap, and memory contents", "why_tests_cant": "Every combination of value kinds, keys, histories and integer ranges; the cuts to 32 bits show only for large indices", "anchors": ["src/mjs_object.c:mjs_get_v_proto,mjs_set_v", "src/mjs_exec.c:getprop_builtin,getprop_builtin_string,getprop_builtin_array,getprop_builtin_foreign,exec_expr", "src/mjs_array.c:mjs_array_get,mjs_array_set"]}
{"id": "C80", "title": "typeof names the kind of a value", "statement": "typeof e evaluates e and is a string that names the kind of its value: undefined, null, boolean, number, string, foreign_ptr, object, array or function. Every value has exactly one of these names.", "quantifier": "all expressions, values and states of the heap", "why_tests_cant": "All 64 bit patterns that are values, and every state of the string heap the result is put into", "anchors": ["src/mjs_core.c:mjs_get_type", "src/mjs_exec.c:exec_expr", "src/mjs_util.c:mjs_typeof"]}
{"id": "C81", "title": "Patterns match what they stand for, and lists are walked part by part", "statement": "mg_match_prefix_n tells whether a pattern, or one of its alternatives separated by | or comma, stands for the beginning of a text, and how long that is: ? stands for any byte, * for any text without slash, ** for any text, a letter for itself in either case, $ at the end for the end of the text. A loop over mg_next_comma_list_entry sees every part of a comma separated list in order, split at its first equal sign.", "quantifier": "all patterns, texts and lists", "why_tests_cant": "Patterns with stars need backtracking; tests can only sample patterns and texts.", "anchors": ["src/common/str_util.c: mg_match_prefix_n, mg_match_prefix, mg_next_comma_list_entry_n, mg_next_comma_list_entry"]}
{"id": "C82", "title": "A failure leaves a trace of the calls under way", "statement": "When a script fails, the stack trace that mjs_print_error prints has one line with file name and line number for the place of the failure and one for each call that was under way, the innermost first; mjs_get_offset_by_call_frame_num gives the places of the same calls one by one, number 0 being the current place, and -1 behind the last; mjs_print_error writes the trace, the message and the text of the error.", "quantifier": "every script, every failing instruction, every nesting of calls", "why_tests_cant": "traces depend on the whole history of calls and returns, and on how the code of each script was laid out", "anchors": ["src/mjs_core.c: mjs_gen_stack_trace, mjs_print_error", "src/mjs_util.c: mjs_get_offset_by_call_frame_num", "src/mjs_exec.c: mjs_execute"]}
{"id": "C83", "title": "Cells are destroyed, and their blocks given back, exactly once", "statement": "Over the whole life of an engine, from creation over any allocations and collections to mjs_destroy, the destructor of a cell (for a function made by ffi, the one that frees its callback signature) runs exactly once for each time the cell was handed out, never on a free cell and never on one that a collection kept; every block that an arena took from the C allocator is given back exactly once.", "quantifier": "every sequence of allocations, writes, collections and the final destruction, for every cell size, block size and addresses of the blocks", "why_tests_cant": "a leak or a double free shows only after a particular history of collections", "anchors": ["src/mjs_gc.c: gc_arena_destroy, gc_sweep, gc_free_block, gc_new_block", "src/mjs_ffi.c: mjs_ffi_sig_destructor", "src/mjs_core.c: mjs_destroy"]}
{"id": "C84", "title": "cs_timegm counts the seconds since 1970", "statement": "For every date and time of day from 1970 on, with the month counted from 0 and months beyond the year carried into it, cs_timegm is the number of seconds since the beginning of 1970 in the Gregorian calendar; for earlier years it is -1.", "quantifier": "all dates, all times of day, all representations of the month", "why_tests_cant": "The rules for leap years have exceptions to exceptions, and the dates are unbounded; tests can only check some.", "anchors": ["src/common/cs_time.c: cs_timegm"]}
{"id": "C85", "title": "What frozen writes as JSON strings and Base64 reads back as what was given", "statement": "json_escape prints, for every UTF-8 text, a text that stands for it between the quotes of a JSON string, and reads nothing but the given text. Base64 is written as in RFC 4648, and decoding it gives the bytes back.", "quantifier": "all texts, all bytes, whatever lies behind the text in memory", "why_tests_cant": "There are texts of every length; an error may concern a single byte value or a text cut at an odd place.", "anchors": ["src/frozen/frozen.c: json_escape, b64idx, b64rev, b64enc, b64dec"]}
{"id": "C86", "title": "Comparison without regard to case, search and integers", "statement": "Comparing two texts without regard to case answers 0 exactly if they differ in the case of letters only, and otherwise says which comes first in the order of the small letters, for C strings and counted texts; searching a C string in counted text finds its first place, reading nothing behind the text; reading an integer from text gives the number written.", "quantifier": "all texts, lengths and counts", "why_tests_cant": "The texts and their lengths are unbounded; signed characters, NUL bytes and lengths beyond 32 bits are the cases samples leave out.", "anchors": ["src/common/str_util.c: mg_ncasecmp, mg_casecmp, c_strnstr, cs_to64", "src/common/mg_str.c: mg_vcasecmp, mg_strcasecmp"]}
{"id": "C87", "title": "Pretty-printing a JSON text lays it out with one member or element per line and keeps its value", "statement": "For every JSON text, pretty-printing it (json_prettify) writes a JSON text with the same value: every element and every member is on a line of its own, indented by two blanks per level, keys and atoms are copied byte for byte, and empty arrays and objects stay closed. The blanks of the input do not matter, and printing the output again changes nothing.", "quantifier": "every JSON text, of every size and nesting depth the parser accepts, with every placement of blanks", "why_tests_cant": "The layout and the value must be right for every tree of values and every placement of blanks; tests try a few documents, and the keys for which it fails (a closing bracket at the end, the empty key, very long ones) are easily missed.", "anchors": ["src/frozen/frozen.c: json_prettify, prettify_cb, print_key, indent, json_walk"]}
{"id": "C88", "title": "Looking up an array element in a JSON text finds the value at that path", "statement": "For every JSON text, path and index, looking up an array element (json_scanf_array_elem) answers with the text of the last value whose path is the given path followed by the index in brackets, and with its length; strings come without their quotes. If there is no such value the answer is -1. With the empty path and a text that is an array this is the element with that index.", "quantifier": "every JSON text of every size and nesting depth whose paths fit into the path buffer, every path, every index", "why_tests_cant": "The right value must be found for every document, path and index; tests can only try a few of them.", "anchors": ["src/frozen/frozen.c: json_scanf_array_elem, json_scanf_array_elem_cb, json_walk"]}
{"id": "C89", "title": "Iterating over an object or array in a JSON text visits every member or element once, in order", "statement": "For every JSON text and every path in it, calling json_next_key or json_next_elem first with a null pointer and then with the previous result visits exactly the members or elements that belong to that path, each once, in the order in which they are written, with the right key or index and the right value, and then answers with a null pointer.", "quantifier": "every JSON text of every size and nesting depth whose paths fit into the path buffer, every path in it, every handle and the whole sequence of calls", "why_tests_cant": "Iteration must visit everything once for every document and every path; each call walks the whole text again, so tests of a few documents cannot show that no member is skipped, repeated or taken from another object.", "anchors": ["src/frozen/frozen.c: json_next, json_next_key, json_next_elem, json_next_cb, next_set_key, json_walk"]}
{"id": "C90", "title": "Setting a value in a JSON text changes that value and nothing else", "statement": "For every JSON text, every path of a value in it and every new value, json_setf prints the text with the new value in place of the old one and every other byte as it was, and answers 1. A value that is missing is added, and deleting a value leaves a JSON text without it.", "quantifier": "every JSON text of every size and nesting depth whose paths fit into the path buffer, every path in it, every new value", "why_tests_cant": "All other bytes must stay for every document, path and value; the position is pieced together from callbacks during a walk of the whole text, and tests with numbers do not show what happens to strings.", "anchors": ["src/frozen/frozen.c: json_vsetf, json_setf, json_vsetf_cb, get_matched_prefix_len, json_walk"]}
{"id": "C91", "title": "Reading values out of a JSON text finds exactly the values the format names", "statement": "For every JSON text and every format of nested keys, json_scanf stores each value the text has at a key the format names, read as the format says (a truth value, a string without its escapes, the bytes of a hexadecimal or Base64 text, a token, a number), ignores everything else, writes nothing for a value that is missing, and answers the number of values it stored.", "quantifier": "every JSON text of every size and nesting depth whose paths fit into the path buffer, every format of every nesting depth", "why_tests_cant": "The format is read by a loop that cuts and extends a path, and the text by callbacks compared with that path; that the two agree has to hold for every nesting of both, and tests use shallow formats with numbers at the end.", "anchors": ["src/frozen/frozen.c: json_vscanf, json_scanf, json_scanf_cb, json_walk, json_unescape, hexdec, b64dec"]}
{"id": "C92", "title": "Printing JSON with a format prints a JSON text of the value described", "statement": "For every format that describes a JSON value (objects with bare keys or keys from arguments, arrays, numerals, and conversions for integers, truth values, strings, hexadecimal and Base64 texts, numbers of the C library and callbacks) and arguments that fit it, json_printf prints a JSON text of exactly that value, in which strings from arguments have their escapes, and uses exactly the arguments of the format. json_asprintf returns this text.", "quantifier": "every format of every size and nesting depth, all arguments that fit it, all strings of valid UTF-8 in them", "why_tests_cant": "The format is scanned by a loop that quotes bare keys, copies punctuation and hands conversions to five different branches and to the C library, with the argument list moved on by a second reading of the conversion; that the two readings agree and that the pieces fit together has to hold for every nesting, and tests print a few literals.", "anchors": ["src/frozen/frozen.c: json_vprintf, json_printf, json_vasprintf, json_asprintf, json_sprinter, json_escape, b64enc"]}
{"id": "C93", "title": "Printing an array of C values prints the JSON array of them", "statement": "For every array of C values in memory and every format that describes an element, json_printf with %M and json_printf_array prints the JSON array of the described values in their order, separated by commas; a null pointer is printed as the empty array.", "quantifier": "every array of every length and element size, every format, everything that may lie in memory around the array", "why_tests_cant": "Elements are copied into a union of which only a part may be written, and the type of the argument is guessed from letters of the format; whether this prints the element has to hold for every content of the rest and every format, and tests print one array of int and one of double.", "anchors": ["src/frozen/frozen.c: json_printf_array, json_printf"]}
{"id": "C94", "title": "Printing into a buffer that may be too small gives the whole text", "statement": "For every format, arguments and buffer size, mg_asprintf leaves the whole text and a NUL in the caller's buffer if it fits there, and otherwise in new memory to which it sets the pointer; it answers the length of the text, or -1 with a null pointer where there is no memory, and writes nothing behind the buffer or the new memory. This holds for C libraries that answer the needed length and for those that answer -1.", "quantifier": "every text of every length, every buffer size, every content of the memory, both kinds of C libraries", "why_tests_cant": "The new size is computed from what the first call answered, or doubled until a call succeeds, and one branch puts the NUL itself; that the size fits exactly has to hold for every length and every buffer size, and the second branch cannot be reached with the C libraries tests are run with.", "anchors": ["src/common/str_util.c: mg_avprintf, mg_asprintf"]}
{"id": "C95", "title": "Laying out a JSON file keeps its value, and a file that is no JSON text is left as it is", "statement": "json_prettify_file replaces every file that holds a JSON text by that text laid out and a new line, doing so again changes nothing, and if it answers a negative number the file holds what it held before; what json_fprintf prints with a format that describes a value is read back by json_fread as a text of that value.", "quantifier": "every JSON text, every content of a file, every outcome of opening the file and taking memory", "why_tests_cant": "The file is opened for writing, and so emptied, before the text is parsed, and written again on an error; that nothing is lost has to hold for every content and every point where an error can be found.", "anchors": ["src/frozen/frozen.c: json_fread, json_prettify_file, json_vfprintf, json_fprintf"]}
{"id": "C96", "title": "Listing the code of a script visits its instructions and nothing else", "statement": "For every script, mjs_disasm visits the header and then each instruction of the code exactly once, in order, and reads nothing behind the code that it was given.", "quantifier": "every script, every file name, every line map", "why_tests_cant": "The disassembler has its own table of operand lengths and its own way to skip the line map; that it stays in step with what the parser emits has to hold for every script, with operands of every length.", "anchors": ["src/mjs_util.c: mjs_disasm, mjs_disasm_single"]}
{"id": "C97", "title": "Which messages are logged, and what their lines begin with", "statement": "cs_log_print_prefix lets a message through exactly if its level is not above the level of the first entry of cs_log_set_file_level whose name is a prefix of the line's prefix, or the log level if there is none; the line then begins with the file's name without directories, shortened if it has to be, a colon, the line number, and blanks up to column 24, and nothing outside the prefix is written.", "quantifier": "every file name, line number, level, log level and list of levels", "why_tests_cant": "The prefix is assembled from right to left in a fixed array from a guess of the number of digits; that guess, the shortening of the name and the choice of the level have to be right for every name, number and list.", "anchors": ["src/common/cs_dbg.c: cs_log_print_prefix, cs_log_set_file_level"]}
{"id": "C98", "title": "The memory of FFI signatures is given back", "statement": "When a function made by ffi is collected, a registration of a callback is given up, or the engine is destroyed, every block that was allocated for the signatures is freed.", "quantifier": "every signature text that is accepted, every list of registrations", "why_tests_cant": "Signatures own the signatures of their callbacks; that freeing one level is enough depends on what the parser accepts, for every text.", "anchors": ["src/mjs_ffi.c: mjs_ffi_sig_free, mjs_ffi_sig_copy, mjs_ffi_args_free_list, mjs_ffi_cb_free, mjs_parse_ffi_signature"]}
{"id": "C99", "title": "Reading a file gives all of it or nothing, and leaves nothing open", "statement": "cs_read_file, which load and mjs_exec_file read scripts with, returns a block with all bytes of the file and a NUL behind them, or NULL; in either case the file is closed, nothing is written outside the block, and nothing but the returned block stays allocated.", "quantifier": "every file content, every answer of fopen, fseek, ftell, malloc and fread", "why_tests_cant": "Failures of single calls, and files that change while they are read, are schedules that tests do not produce.", "anchors": ["src/common/cs_file.c: cs_read_file"]}
{"id": "C100", "title": "Scripts run the code that was made of them, with and without .jsc files", "statement": "When mjs_exec_file keeps the code of x.js in x.jsc, the functions of every script executed so far have the code that was made of it, whatever the file held before and whether or not it can be written; a file that is up to date is not written; other files are left alone; no file descriptor stays open.", "quantifier": "every history of scripts, every content of the files at the start, every answer of the operating system", "why_tests_cant": "Old files, failing writes and files that change between two executions are histories and crash points; the code is mapped from a file that outlives the engine.", "anchors": ["src/mjs_exec.c: mjs_exec_internal, mjs_exec_file", " src/common/cs_file.c: cs_mmap_file"]}

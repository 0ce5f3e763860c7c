# Formal model of cesanta/mjs in Lean 4: design

Source under study: `/repo/src` (line numbers in this document and in all comments refer to the files there).
Nothing of the code is built or run; the model is written from the text.

## 1. Layout

* `lean/Verif/Model/*.lean`: the model, one file per C file or per group of functions.  Every definition
  cites the C file and lines it models and says where it simplifies.
* `lean/Verif/Spec/*.lean`: small specifications written without the model's helpers.
* `lean/Verif/Lemmas/*.lean`: auxiliary lemmas.
* `lean/Verif/Props/*.lean`: the property theorems (names listed in `MANIFEST.json`), each with a concrete
  `example` that meets its hypotheses.
* `properties.jsonl`: the English properties; `MANIFEST.json`: property -> theorem names; `seeded/LOG.jsonl`:
  wrong programs tried against the theorems.

## 2. Conventions of the model

* C bytes are `UInt8`, values (`mjs_val_t`) are `BitVec 64`, sizes are `Nat` (a hypothesis bounds them where the
  code relies on it), C `int` is `Int` with the range stated where it matters.
* Undefined behaviour of C (out-of-bounds access, NULL dereference, failed assert, abort) is a separate outcome of
  the model functions (`Option.none` or an error constructor), never a default value.
* Allocation may fail: functions that allocate take the allocator's answer as an argument, and theorems quantify
  over it.
* Doubles are their 64 bits.  Floating point arithmetic is a parameter of the interpreter model (`Fpu`): theorems
  hold for every implementation of `+ - * /`.  C76 is about the operations of IEEE 754 (`Model/Ieee.lean`).
  Classification (`isnan`, zero, sign) and comparison are modelled on the bits.

## 3. Plan per property

| Property | What is modelled | How it is proved |
|---|---|---|
| C01, C02 | `cs_varint.c` on byte lists with an explicit read bound | induction on the number / on the buffer |
| C03 | `mbuf.c` on a block of `size` bytes with checked memmove/memcpy and an allocator oracle | refinement to list operations, induction over histories |
| C04-C06, C41 | tag arithmetic on `BitVec 64` | bit-level lemmas about the upper 16 bits |
| C07-C10 | `mjs_mk_string`, `mjs_get_string`, `embed_string`, `s_cmp`, `s_concat` over an mbuf store | store invariant, induction over histories |
| C11-C13 | `mjs_normalize_idx`, slice, indexOf, charCodeAt | decision logic, loop invariant for the search |
| C14 | `unescape`, `nextesc`, both passes | induction on the literal |
| C15-C17 | property lists of `mjs_object.c` | refinement to finite maps, induction over histories and chains |
| C18, C19 | `mjs_array.c` on top of objects, decimal printing and `strtoul` | refinement to index maps and lists |
| C20-C22 | `mjs_core.c` registers, errors, argument access | multiset counting, decision logic |
| C23-C26 | `mjs_gc.c` arenas, mark, sweep | reachability invariant of the marking, induction over cells |
| C27 | string marking by reference threading and compaction | invariant of the threaded chains |
| C28-C30 | `mjs_tok.c` | well-founded recursion, decision logic |
| C31-C36, C53 | `mjs_parser.c` (emission) and `mjs_exec.c` (execution) | compiler correctness by induction on syntax |
| C37-C40, C54, C58 | `mjs_exec.c` | decision logic, frame round trip |
| C42, C43 | `mjs_bcode.c`, line lookup | invariants over load histories |
| C44-C47 | `mjs_json.c`, `frozen.c` | induction on bytes, fuel-free termination |
| C48-C51 | `mjs_ffi.c` | decision logic over all type vectors, list invariants |
| C52 | `mjs_dataview.c` | arithmetic on byte lists |
| C65 | `to_json_or_debug`, `json_walk` | induction on the tree; C46 for the way back |
| C66, C67 | the C functions a script calls, through OP_CALL | the shell of a call once (`Lemmas/Natives`), then the property of each function |
| C68 | `mjs_create`, `mjs_init_builtin` | the history of objects (C15) extended by each assignment; calls by name on top |
| C69 | `mjs_load`, `mjs_get_loaded_file_bcode`, `mjs_exec_file`; the files are a parameter | the text theorems (C61) and the run theorems (C35) inside of a call; code only grows, and each run is noted at its script |
| C70 | `mjs_jprintf` of numbers, `%lld` and `%f` of glibc; the buffer of `mjs_to_string` | the exact rational behind a bit pattern (`Spec/Double`) against the numeral that the digits write; the text instantiates the parameter of the other theorems |
| C71 | `mjs_jprintf`, `mjs_sprintf`, `mjs_fprintf`, `json_printer_buf`, `print` | invariant over the pieces that are printed one after the other; kinds of values exclude each other (C04) |
| C72 | `mjs_execute` with `mjs_gc` between any two instructions; all instructions but `for`-`in` | two engines show one state without addresses (Spec/Invisible); simulation of every instruction, of a collection (through C23 and C25) and of `mjs_create`; induction over the run |
| C73 | `mjs_do_gc` (`gc()` called by a script), in any state of an engine that shows a state without addresses | `mjs_gc` leaves an engine that is alike (C72), the argument keeps its bits unless it is a long string; for a long string the call gives another one |
| C74 | `mjs_mkstr`, with the call in a script | decision logic of the arguments, then the creation of copies and of views (C07); what a string reads after any change of C memory |
| C75 | `mjs_struct_to_obj`, `mjs_s2o`, with the call in a script; the functions of a description are a parameter | a description of C layouts as a relation between memory and trees (Spec/Struct); each field builds a representation of its tree, induction over the relation; reading of objects as in C72 |
| C76 | `+ - * /` of `do_arith_op` with the operations of IEEE 754 as integer arithmetic on bit patterns (`Model/Ieee`) | `Spec/Ieee` says which double is nearest to a rational; one lemma about rounding a quotient carries all four operations |
| C77 | `strtod` (`Model/Strtod`, decimal and hexadecimal), as `getnum`, `parse_literal`, `OP_PUSH_DBL` and `frozen_cb` use it | `Spec/Decimal` says which rational a text writes; the rounding of C76, the tokens of C59, the value of a literal in the semantics; C46, C65 and C70 for JSON |
| C78 | `mjs_mk_function`, `mjs_get_func_addr`, the place of each function literal in the code (`Spec/Layout`) | addresses of literals are distinct and stay when scripts are added; C32 and C54 for the calls |
| C79 | `getprop_builtin`, `mjs_get_v_proto`, `mjs_set_v`, `exec_expr` (assignment), as the meaning of `.get`/`.assign` expressions (`Spec/Sem`) | the text of the key, then C15, C17, C18 for objects and arrays, C07 for strings, C13 for bytes |
| C80 | `mjs_get_type`, `typeof` | C04 for the kind, C07 for the text |
| C82 | `Model/Trace.lean`: the trace and the lookup of call frames, and the loop of `mjs_execute` with the trace. | `Props/Trace.lean`: induction over the frames of the call stack; the runs are those of the machine (`C82_same_run`). |
| C83 | `Model/Destroy.lean`: the destructor calls and block releases of `gc_sweep` and `gc_arena_destroy`. | `Props/Destroy.lean`: a ledger of what was handed out, destroyed, taken and returned, kept along every history of an arena (as C23, C25). |
| C81 | `Model/Glob.lean`: `mg_match_prefix_n`, `mg_next_comma_list_entry_n`. | `Spec/Glob.lean` says what a pattern stands for, its alternatives, and what a walk over a list is. `Props/Glob.lean`: soundness and completeness of the backtracking by induction on the pattern; lists by induction on the parts; three violations. |
| C84 | `Model/Time.lean`: `cs_timegm` with every `int` operation checked for overflow. | `Spec/Calendar.lean` numbers the days by going from each to the next. `Props/Time.lean`: the formula agrees with it, by induction; the result, or undefined behaviour when it does not fit in 32 bits. |
| C85 | `Model/JsonEsc.lean`: `json_escape`, `b64enc`, `b64dec`. | `Props/JsonEsc.lean`: what is printed stands for the text by the grammar of `Spec/Json.lean`, by induction on the UTF-8 text; three violations. Base64 against the bits of the text, and the round trip. |
| C86 | `Model/CaseCmp.lean`: `mg_ncasecmp`, `mg_casecmp`, `mg_vcasecmp`, `mg_strcasecmp`, `c_strnstr`, `cs_to64`. | `Spec/CaseCmp.lean` says when texts differ in case only and which comes first. `Props/CaseCmp.lean`: induction on the texts; three violations. |
| C87 | `Model/Pretty.lean`: `json_prettify`, `prettify_cb`, `print_key`, `indent`. | `Spec/JsonDoc.lean` has JSON texts as trees with all their bytes and blanks, what value a tree says, and how a tree is laid out. `Lemmas/JsonDoc.lean` shows which callbacks `json_walk` makes for a tree, in which order and with which paths; a fold over them gives the printed text. Three theorems show for which keys it fails. |
| C88 | `Model/Pretty.lean`: `json_scanf_array_elem`, `json_scanf_array_elem_cb`. | `Doc.parts` of the specification lists all parts of a text with their paths; the theorem says which of them is found, by a fold over the callbacks of `Lemmas/JsonDoc.lean`. |
| C89 | `Model/Pretty.lean`: `json_next`, `json_next_cb`, `next_set_key`. A handle is the number of bytes left. | `Child` says which parts of a text belong to a path. A fold over the callbacks shows that the first child behind the handle is found; the places of parts decrease in the order of the text, so that the calls visit all children one by one. Two theorems show for which keys it fails. |
| C90 | `Model/Setf.lean`: `json_vsetf`, `json_vsetf_cb`, `get_matched_prefix_len`; what the format of the new value prints is a parameter. | A fold over the callbacks shows that the place and the length of the last value with the path are kept to the end; `doc_where` shows where a part stands in the text. One theorem shows for every string that its quotes stay. For a new member, all callbacks have paths that share only the dot with the new one, so the place is the end of the last value; induction on the keys of the path shows the objects opened and closed around the new value. For a deletion (`Props/SetfDel.lean`, `Spec/JsonDel.lean`), the callbacks up to the value are as for a new member, and those behind it change nothing. |
| C91 | `Model/Scanf.lean`: `json_vscanf`, `json_scanf_cb`; `strtol`, `strtoul` and `sscanf` are a parameter. `Spec/Scanf.lean` has formats as trees. | An induction over formats shows which conversions the loop makes and with which paths; a fold over the callbacks shows that each conversion gets exactly the parts with its path, and `C91_paths` that these are the values at the end of its keys. |
| C92 | `Model/JPrintf.lean`: `json_vprintf`, `json_vasprintf`, `json_sprinter`; `vsnprintf` and callbacks are parameters. `Spec/JsonFmt.lean` says which value a format with arguments describes. | Printing is shown to go on from piece to piece (`PRuns`); an induction over the description of the value puts the pieces together to a JSON text. A conversion ends where a byte comes that is printed as it is, so what the C library gets is exactly the conversion. |
| C93 | `Model/JArray.lean`: `json_printf_array`; what was in the union before is a parameter. | Induction on the elements, with C92 for each of them. |
| C94 | `Model/Avprintf.lean`: `mg_avprintf`; `vsnprintf` and `malloc` are parameters, with two small specifications of what `vsnprintf` does. | The first call says how much memory is needed; for libraries that answer -1, induction on the rounds: the size grows in each. |
| C95 | `Model/JFile.lean`: `json_fread`, `json_prettify_file`, `json_fprintf`; a file is its content, and whether it can be opened and whether there is memory are parameters. | C87 and C92 for the texts; cases on what the parser answers for the file that is put back. |
| C96 | `Model/Disasm.lean`: `mjs_disasm`, as the positions that are visited. | The instructions are given as byte strings of their own; induction on the sequence of instructions, and on the syntax tree for the code of scripts. |
| C97 | `Model/Log.lean`: `cs_log_print_prefix`, with the array as a list of 24 bytes and writes before it as `none`. | The number is the standard numeral of `Spec/Numeral.lean`; induction on it from the right. The list of levels is what a walk (`Spec/Glob.lean`, C81) sees. |
| C98 | `Model/SigMem.lean`: `mjs_ffi_sig_free`, `mjs_ffi_sig_copy`, `mjs_ffi_args_free_list`, as the numbers of blocks freed and allocated. | The blocks that hang on a signature are an inductive relation; an invariant of the parser of C48 says that every callback is among the types. |
| C99 | `Model/ReadFile.lean`: `cs_read_file`, with what the C library answers as parameters and the files left open and blocks left allocated as results. | Case analysis on the answers; sizes as 64-bit numbers. |
| C100 | `Model/Jsc.lean`: the part of `mjs_exec_internal` that keeps code in files, and `cs_mmap_file`, over a map of files and a list of code parts, with what the operating system answers as parameters. | Invariant of histories: each part is in memory, or in a file that holds its code. |
| C64 | `getnum`, `parse_literal` | the digits by induction; the token as in C28 |
| C55-C57 | `str_util.c`, `mg_str.c` | induction; for formats put together: parsing a conversion neither looks at what follows it nor at later arguments |

Properties that the code violates are kept in full in `properties.jsonl`; for those the model carries a theorem that
exhibits the violation, and the part that does hold is proved under a name ending in `_partial`.

### JSON.parse (C46, C47)

`Model/Json.lean` follows `frozen.c` and the callback of `mjs_json.c`.  `Spec/Json.lean` is a grammar of JSON as a relation between texts
and values `J`, without reference to the parser; `Spec/JsonValue.lean` says when an engine value shows a `J`, by what the array and
object functions of C15 and C18 return.  C46 is proved by induction on the length of the text: each part of the text extends the history
of C15 by operations on new objects only, and by one assignment to the object around it.

### JSON.stringify (C44, C45)

`Model/JsonOut.lean` follows the writing functions with memory as a list of bytes, in which a write outside is an error.  The proofs go
through the text: `valText` is the same recursion without buffers, and every writing function is shown to put its text into whatever
buffer it gets (`W`), cut off at the size.  Pieces compose because the room left for a piece behind a cut is 0.

### The way back (C65)

`Spec/JsonTree.lean` says what the JSON value of a tree is (`Denotes`), in terms of the history of the objects, with what is left out.  `Lemmas/JsonRound.lean`
shows by induction that the text of a tree (`valText`) is a JSON text of this value: a tree has no cycles, so that nothing is written as
`[Circular]`, and the texts of the parts are shorter than the whole, which bounds the depth of the C stack.  Numbers are assumed to be printed as
numerals (`numText` is a parameter).

### FFI signatures (C48)

`Model/Ffi.lean` follows `mjs_parse_ffi_signature` with the text as two lists, the string and the memory behind it; a read behind
the string is the outcome `ub`, a failed assertion or `abort()` the outcome `abort`.  The recursion for function pointers has a fuel that
the length of the string bounds.  `Spec/Ffi.lean` writes down C declarations as text, without reference to the parser, and which of them
can be called; exactness is by induction on the parameter list, the form of whatever is accepted by an invariant of the loop over the
arguments.

### FFI calls and callbacks (C49, C50, C51)

`Model/FfiCall.lean` follows `mjs_ffi_call2` up to the C function (conversion of every argument, the exchange of callback and user data for a
made-up function and a registration, and `ffi_call`, which picks a C function type by the number and classes of the arguments), the conversion of
the result, `mjs_ffi_cb_free`, and the functions made up for callbacks up to `mjs_apply`.  Pointers that the engine makes are symbolic cells.  What
arrives in a C call is a list of words, doubles and floats; for callbacks, where caller and callee can disagree about the type, the
arguments are taken from registers as on x86-64 (integer and floating point arguments counted apart).  The conversions between `double` and
`float` are parameters.  `Spec/FfiCall.lean` says which values fit a type, what C is to receive, which registrations there
should be after a history, and what JavaScript is to receive.  Proved by an invariant of the conversion loop, a case analysis of `ffi_call`, and
induction over histories.  Partial: the code calls the C function although an `int` argument was of the wrong type, takes anything for a
`double`, and does not call at all with four parameters of which one is a `double`; see section 6.

### The parser (C31, C34, C36, C61)

`Model/Parser.lean` follows `mjs_parser.c` function by function over the state (tokenizer, code generator, nesting count).
Its outcomes are code, a syntax error, undefined behaviour, the C stack used up (`deep`, with the room as a parameter) and
a loop that does not end (`endless`; loops run on fuel that exceeds the length of the text, as do those of the tokenizer, so
running out of it would be visible).  `Spec/Grammar.lean` says which token sequences write which scripts, without the parser's
code.  C61 is proved by Hoare triples for each parsing function (`Lemmas/Parse*.lean`): on a text that writes a script the
parser emits the code of that script (`Model/Code.lean`), which C32-C35 prove to run as the semantics says.  C36 is proved by a
measure: every call of a parsing function either consumes a token or moves down a fixed rank.

### The collector (C23-C27, C63)

`Model/Gc.lean` is `mjs_gc.c` on a memory of slots: variables of the program and the engine, and the name and value fields of
property cells.  Strings are marked as the code does it: the length bytes of a string and its first six bytes become the head
of a chain through all slots that refer to it, and compaction walks the chains back.  `Spec/Gc.lean` defines reachability, and
what a collection has to leave (`Collected`), without the marks.  `gc_spec` (`Lemmas/GcAll.lean`) says that a collection from any
sound state ends and leaves exactly that.  C24, C25 and C27 are read off it.  C63 is about histories: `Spec/Client.lean` is a
program with variables that hold primitive values, byte strings and object names, with no memory and no collector; every
history of API calls and collections on the engine refines it as long as the variables are registered with `mjs_own`.
C26 ties the collector to the interpreter: `Model/GcVm.lean` lists the stacks of the engine among the roots as `mjs_gc` does.

### The interpreter (C32-C40, C53, C54, C58, C66, C67)

`Model/Exec.lean` is the virtual machine on the bytes of the code.  `Spec/Sem.lean` is a big-step semantics of the
language: it evaluates syntax trees, knows nothing of code or stacks, and shares with the machine only the primitive
operations on values (arithmetic, property access, assignment, string creation).  `Model/Code.lean` gives the code of a
tree.  The main lemma (`Lemmas/CompileDefs` to `CompileStmt`, `IH.all`) says that running the code of a tree does what
the semantics says, for every tree, nesting depth, state and stack contents.  `Lemmas/Script` carries it to loaded
scripts with headers, and `Props/Script`, `Props/Flow`, `Props/Vars` state the user's view.

`mjs_apply` (C54) runs the machine on the body of a function with a frame whose return address is the exit mark.  The main
lemma holds for both kinds of frames, so the body does what the semantics says and the exit of the nested machine finds the
stacks of the caller.  `Spec/Apply.lean` says what running a body means (`runBody`) and what has to be left afterwards
(`After`).

`Env` collects what stays a parameter: the text of a number (`%.17g`), the value of a numeral (`strtod`), the four
floating point operations, the C functions called by address and the FFI call.  Theorems hold for every `Env`.  C70, C76 and C77 are about
an `Env` with the texts and values of the C library (`Model/Print.lean`, `Model/Strtod.lean`) and the arithmetic of IEEE 754
(`Model/Ieee.lean`).

Calls of C functions are a parameter of the semantics (`Natives`, `Spec/Sem.lean`): what a function of the engine does to a
state, with a proof that the machine, which calls it with a frame, arguments and `this` on its stacks, does the same and
leaves the stacks as they have to be.  `Spec/Builtin.lean` (`Bodies`) gives the functions of `Model/Builtin.lean` this way:
each is a body (a function of `this`, the arguments and the heap) inside the common shell of `mjs_arg`, `mjs_return` and
`mjs_prepend_errorf`; `Lemmas/Natives.lean` is the proof for the shell.  C66 and C67 compose this with the properties of the
bodies that C12, C14, C18, C46 and C65 state: the results speak of the call in the script.

### Collections between instructions (C72)

`Spec/Invisible` describes an engine without addresses: objects have numbers in the order of their creation, strings are bytes, property
lists are lists of bytes and values.  `Shows vm s L g` says that the engine `vm` is in the state `s`, with the strings `L` in the buffer of
strings and object cells numbered by `g`; two engines are `Alike` if they show one state.  `Run` is the loop of `mjs_execute` in which a
collection may happen before every instruction (in the code `maybe_gc` decides that, from the counters of the arenas) and the allocator may
answer what it likes.  `SimVal`, `SimVm`, `SimOps` and `SimExec` show for every operation and every instruction but `for`-`in` that engines
that are alike stay alike; `SimGc` shows that a collection leaves an engine that shows the same state; `SimCreate` does it for `mjs_create`.
Not in it: iterators of `for`-`in` (raw addresses of properties, which the collector neither follows nor updates), strings and objects that
only `arg_stack` refers to, FFI signatures and host variables.  What C functions do is the hypothesis `Respects`; `SimNative` proves it for
the functions of the library `InLibrary` (`charCodeAt`, `indexOf`, `slice`, `push`, `chr`, `isNaN`, `die`, `Object.create`), and
`C72_library_partial` is about scripts that use only these.

## 4. Trusted base

Lean 4.33.0's kernel and the axioms `propext`, `Classical.choice`, `Quot.sound`.  The faithfulness of the model to the
C text is by reading (see the citation at each definition).  Where a theorem speaks of the value of a numeral, the text of a number or
arithmetic (C70, C76, C77, C52), the C library and the hardware are assumed to do what `Model/Strtod.lean`, `Model/Print.lean` and
`Model/Ieee.lean` compute: correctly rounded conversions, as glibc has them, and the operations of IEEE 754.

## 5. What is modelled

| C file | Modelled | Not modelled |
|---|---|---|
| `common/cs_varint.c` | everything | |
| `common/mbuf.c` | everything | |
| `common/str_util.c` | `c_vsnprintf` and its helpers, hex conversion (`Model/Printf`, `Model/MgStr`), patterns and comma lists (`Model/Glob`), comparison without case, search and `cs_to64` (`Model/CaseCmp`), `mg_avprintf` (`Model/Avprintf`) | `to_wchar` |
| `common/mg_str.c` | comparison, search | allocation of duplicates |
| `common/cs_time.c` | `cs_timegm` (`Model/Time`) | `cs_time`, which asks the operating system |
| `common/cs_dbg.c` | `cs_log_print_prefix` (`Model/Log`) | writing to the log file, time differences |
| `common/cs_file.c` | `cs_read_file` (`Model/ReadFile`), `cs_mmap_file` (`Model/Jsc`) | |
| `mjs_primitive.c`, tag macros | everything | |
| `mjs_string.c` | creation, reading, comparison, concatenation, slice, indexOf, at, escapes, `mkstr` (`Model/MkStr.lean`) | |
| `mjs_conversion.c` | `mjs_to_boolean`, `mjs_is_truthy`; number to text, a parameter in most theorems and `Model/Print.lean` for Linux | |
| `mjs_dataview.c` | everything (`Model/DataView.lean`) | |
| `mjs_object.c` | property lists, get/set/del/next, prototype lookup, `Object.create`, `mjs_struct_to_obj` (`Model/Struct.lean`; functions in descriptions are a parameter that gives numbers and the like) | |
| `mjs_array.c` | everything (`Model/Array.lean`) | |
| `mjs_core.c` | stacks of values (bytes and lists), owned values, errors, `mjs_nargs`, `mjs_arg`, `mjs_return`; `mjs_create` (`Model/Create.lean`) but for the FFI resolver and the arena of signatures; stack traces and `mjs_print_error` (`Model/Trace.lean`); of `mjs_destroy` the arenas (`Model/Destroy.lean`) | the rest of `mjs_destroy` |
| `mjs_builtin.c` | `mjs_init_builtin` (`Model/Create.lean`), `mjs_chr` (`Model/Builtin.lean`), `load` (`Model/Load.lean`, with `cs_read_file` as a parameter), `print` (`Model/Print.lean`), `gc` (`Model/GcBuiltin.lean`), `s2o` (`Model/Struct.lean`) | `getMJS` |
| `mjs_tok.c` | everything; `strtod` and `strtoul` by the extent of the text they accept; the value of `strtod` in `Model/Strtod.lean` | |
| `mjs_exec.c` | the whole interpreter: all opcodes, operators, built-in properties, frames, `mjs_apply` (`Model/Exec.lean`), `mjs_apply_` (`Model/Apply.lean`) | debugging output; the C functions a script calls are the parameter `cfun` of `Env`; the methods of strings and arrays, `chr`, `isNaN`, `die`, `Object.create`, `JSON.parse` and `JSON.stringify` are given in `Model/Builtin.lean` |
| `mjs_bcode.c`, `mjs_util.c` | code generation buffer, header, line map, `insert_offset`, commit, file and line lookup (`Model/Bcode.lean`), `mjs_jprintf`, `mjs_sprintf`, `mjs_fprintf` (`Model/Print.lean`), `mjs_disasm` (`Model/Disasm.lean`) | `mjs_dump` |
| `mjs_parser.c` | all parsing functions (`Model/Parser.lean`; the number of nested C calls is a parameter, and running out of it a distinct outcome); the code of each construct as a function of a syntax tree (`Model/Code.lean`) | memory running out while code is generated |
| `frozen/frozen.c` | `json_walk` and all parsing functions, `json_unescape` (`Model/Json.lean`), `json_printer_buf` and the formats that `mjs_jprintf` uses (`Model/Print.lean`), `json_escape` and Base64 (`Model/JsonEsc.lean`), `json_prettify`, `json_scanf_array_elem`, `json_next_key`, `json_next_elem` (`Model/Pretty.lean`), `json_setf` (`Model/Setf.lean`), `json_scanf` (`Model/Scanf.lean`), `json_printf`, `json_asprintf` (`Model/JPrintf.lean`), `json_printf_array` (`Model/JArray.lean`), `json_fread`, `json_prettify_file`, `json_fprintf` (`Model/JFile.lean`) | reads and writes of files that are cut short, the length that `json_printf` returns; `vsnprintf` in `json_printf`; `strtol` and `sscanf` in `json_scanf` |
| `mjs_json.c` | everything (`Model/Json.lean`, `Model/JsonOut.lean`): `frozen_cb`, `mjs_json_parse`, `snquote`, `to_json_or_debug`, `mjs_json_stringify` | `is_debug`, a failing `malloc`; the text of a number is a parameter |
| `mjs_ffi.c` | signatures: `mjs_parse_ffi_signature`, `parse_cval_type`, `find_paren`, `find_closing_paren`, `mjs_ffi_sig_validate`, `get_cb_impl_by_signature`, `mjs_ffi_call` (`Model/Ffi.lean`); calls: `mjs_ffi_call2`, `ffi_get_matching`, `mjs_ffi_cb_free`, `ffi_cb_impl_*` (`Model/FfiCall.lean`) | error texts; the C stack used by nested function pointers |
| `ffi/ffi.c` | `ffi_call`, `ffi_set_*` (`Model/FfiCall.lean`) | the conventions of C calls other than the classes of the arguments |
| `mjs_gc.c` | everything: arenas, allocation, marking of values, objects and signatures, string marking and compaction, sweep, `mjs_gc` (`Model/Arena.lean`, `Model/Gc.lean`) | the C stack used by the recursion of `gc_mark`; `MJS_MEMORY_STATS`; the destructor of an FFI signature |

## 6. Findings: where the code does not do what the property says

Each is a theorem about the model (the file is in brackets).

* `mjs_mk_foreign((void *) -1)` does not read back (C06) [Props/Value].
* `"s".at(i)` with `i < -length` reads outside the string (C13) [Props/StrApi].
* `\\c` for any other character `c` keeps only `c` (C14_other_escapes) [Props/Unescape].
* Keys longer than 5 bytes that agree up to their first NUL byte are one key for lookup; deletion compares all keys that
  way (C15) [Props/Object].
* A property created with a foreign string of at most 5 bytes as its key is never found again (C15) [Props/Object].
* FFI function values are false in a condition (C41) [Props/Convert].
* `%lu` of numbers from 2^63 on prints a negative number (C55) [Props/Printf].
* `%08d` of a negative number is nine characters long, `%8d` ignores the 8, and `%8s` puts eight blanks before every string (C55) [Props/PrintfWidth].
* `mg_strcmp` orders by signed bytes, not by unsigned bytes (C57) [Props/MgStr].
* `mbuf_insert` with lengths whose sum wraps around writes outside the block (C03) [Props/Mbuf].
* `mjs_mk_string` does not check for a failed allocation (C07) [Props/Str].
* The length of an array counts every key that `strtoul` reads in full, such as `" 5"` or `"+3"`, although reading index 5
  finds nothing (C18) [Props/Array].
* `mjs_disown` before anything was ever owned reads before a NULL buffer (C20) [Props/Core].
* `mjs_push` drops the value without a report when memory runs out (C22) [Props/Core].
* `~=` is read as one token that is no operator (C29) [Props/Tok].
* `break` or `continue` in a function that is called from a loop and has no loop of its own ends the caller's loop and
  leaves the frame of the call on the call stack (C53_break_ends_callers_loop) [Props/Flow].
* `mjs_apply` of a function that ends without `return` gives the function itself instead of undefined
  (C54_violation_no_return) [Props/Apply].
* `mjs_apply` of a C function leaves a frame of five entries and the result on the stacks, on every call without an error
  (C54_violation_leak) [Props/Apply].  By reading: a script function that calls `f.apply(...)` for a C function `f` therefore
  returns to the place after `apply` first and runs what follows twice.
* `mjs_apply` of a C function that does not fail reports the error of an earlier call (C54_violation_old_error)
  [Props/Apply].
* By reading: `mjs_apply` keeps a pointer into the data stack over the run of the function; when the stack grows it points to
  freed memory.  In the model this is the parameter `moved`.
* `Object.create(null)` is a TypeError: a prototype must be an object (C67_create_null) [Props/BuiltinFn].
* A variable named `apply` always reads as the built-in function `apply`, whatever was assigned to it (C39) [Props/Vars].
* `let x` for an `x` that the scope already has is accepted and keeps the old value (C39_let) [Props/Vars].
* After an error inside a function called as a method, `this` stays the callee's: `mjs_execute` restores the stack depths
  but not `this` (C37_this_not_restored) [Props/Machine].
* `0 === -0` is false: equal bits are compared (C40_zeros) [Props/Operators].
* A pointer minus a number greater than its address is a pointer near the last address, without an error (C40_pointer_below_zero); a number
  minus a pointer is a pointer (C40_pointer_moves) [Props/Pointer].
* `s[4294967296]` is `s[0]` (C79_string_index_wraps); `p[i] = 4294967303` stores 7 although values above 255 are refused
  (C79_pointer_assign_wraps); `o.apply` is the built-in function whatever was stored under this name (C79_apply_hides) [Props/Index].
* `s[1e300]` and `s[Infinity]` are `s[0]` (C79_violation_index_large); `s[1.5]` and `p[1.5]` stop the script, the latter with the message that
  an index must be a number, while `p[1.5] = 2.5` stores 2 at `p + 1` (C79_pointer_index_exact, C79_pointer_assign_fraction) [Props/IndexNumber].
* `typeof` of a function made by `ffi` aborts the process (C80_violation_ffi) [Props/TypeOf].
* Shift counts that are negative or too large have no defined result (C40_shift_out_of_range) [Props/Operators].
* The value of `x += v` is the old value of `x` (C58_compound) [Props/Assign].
* A compound assignment that fails with a TypeError still assigns: the variable becomes undefined
  (C58_failed_assignment_clobbers) [Props/Assign].
* The line reported for code of the last line of a script is 1: the lookup only answers when it meets a later entry
  (C43_last_line_is_reported_as_1) [Props/Lines].
* A jump over more than 127 bytes moves the code behind it but not the line map (C43_long_jumps_shift_lines) [Props/Lines].
* A sum of 512 ones is a syntax error: the parser counts each operator as a nesting level (C31_long_chain_rejected)
  [Props/Parse].
* A source whose last token is a numeral of one digit is read behind its NUL (C36_digit_at_end) [Props/ParseEnds].
* 513 blocks one after the other are rejected for depth: `parse_block` never counts down (C36_blocks_rejected)
  [Props/ParseEnds].
* Prefix operators are not counted as nesting: for every size of the C stack there is a text that uses it up
  (C36_stack_exhausted) [Props/ParseEnds].
* `if (a) b; else c;`, `{ let x = 1 }` and `if (x) return {a: 1};` are syntax errors; `f(1 2)`, `[1 2]` and an unclosed loop
  body are accepted; numerals from 2^63 on all become -2^63; a variable on the line after `a++` is not read (C62)
  [Props/ParseOdd].
* While the arguments of a method call are evaluated, its receiver is on `arg_stack` only, which is no root of the collector: in
  `({}).m({}.y,{})` a collection before the last argument frees the receiver, and the last argument becomes the same object
  (C26_receiver_lost) [Props/GcExec].
* `gc(s)` with a string `s` of more than five bytes returns the place where `s` was before the collection: in `b + gc(a)` the call can
  give `b` (C73_stale) [Props/GcBuiltin].
* `s2o` of a structure with a `char *` that is NULL takes the length of the string at address 0 (C75_violation_null) [Props/Struct].
* `mjs_own` drops the registration without a report when memory runs out (C20_registered_disown_fails) [Props/Client].
* `JSON.parse("12")` — a number at the end of the text — reads behind its copy of the text, which has no terminating NUL
  (C47_root_number); so does a text that ends with a backslash inside a string (C47_backslash); a NUL in a key can make the
  name of an array element begin before the path buffer (C47_nul) [Props/Json].
* Stack traces (C82) [Props/Trace]: the place of a failure is taken too early, so a one-byte instruction that comes first on its line is
  reported at an earlier line (C82_violation_line); a script that fails inside `load()` has the calls of its caller listed twice
  (C82_violation_nested); `mjs_get_offset_by_call_frame_num(mjs, 0)` is a place in the first script loaded, not in the running one
  (C82_violation_current).
* `JSON.parse` does not unescape keys (C46_key_escape), drops members with an empty key or a key ending in a dot
  (C46_empty_key, C46_dot_key), or moves their members to the object around (C46_empty_key_flattens), merges the elements of
  arrays nested 86 deep (C46_deep_array), and takes a key for the result in an object under a key of 254 bytes
  (C46_long_key) [Props/JsonValue].  Of the `\u` escapes, `\u0080` to `\u00ff` become one byte instead of UTF-8
  (C46_violation_latin1) and all above are refused (C46_violation_unicode) [Props/JsonUnicode].  It accepts missing and trailing commas and anything behind the value.
* `JSON.stringify` writes a vertical tab as `\v` and other bytes as they are, also if they are not UTF-8; `JSON.parse` rejects both (C44_vertical_tab,
  C44_lone_byte).  A serialization that is cut off inside of `[Circular]` has no NUL (C45_not_terminated) [Props/JsonOut].  Keys are
  written without escapes and cut at a NUL: the text of `{"\"": null}` is no JSON (C65_key_quote).  A function made by `ffi` has no type for
  `mjs_get_type`, so that `JSON.stringify` of anything that contains one aborts the process (C65_ffi_aborts) [Props/JsonRound].
* `ffi("int (*foo)(int)")` and `ffi("void ()()")` fail an assertion instead of being refused, and so does a callback with `void` between two
  user data (C48_violation_pointer, C48_violation_two_lists, C48_violation_void).  `f( )` is refused, `f(,int)` is taken for `f()`
  (C48_blank_list, C48_leading_comma) [Props/Ffi].
* A call through FFI with an argument that is no number for an `int` parameter sets a TypeError and still calls the C function, with 0
  (C49_violation_int_called).  A `double` parameter takes any value and passes its bits, a string's too (C49_violation_double_unchecked).  With four
  or more parameters of which one is floating point, or with a `double` and a `float`, nothing is called, no error is reported and the result
  is 0 (C49_violation_not_called, C49_violation_mixed).  A `float` parameter of a function with a `double` result is passed as a word
  (C49_violation_class).  A parameter `void foo(userdata)` without a star is a callback in which C receives the C function `foo`
  (C49_violation_function_type) [Props/FfiCall].
* A callback that is a foreign pointer or a function made by `ffi` can be registered but not freed (C50_violation_cannot_free) [Props/FfiCall].
* A negative `int` argument of a callback arrives as the number plus 2^32 (C51_violation_negative).  A callback `(userdata, double, int)` loses
  its third argument (C51_violation_third), `(int, userdata, double)` uses the number as the address of the registration (C51_violation_crash).  A
  function and user data passed again with another callback type keep the first type: JavaScript receives an address as a
  number (C51_violation_stale_type) [Props/FfiCall].
* A function of a loaded file that is called from C and fails makes the next `load` of the file run all of it again
  (C69_call_noted) [Props/Load].  By reading: a file that is still running has no result yet, so that two files that load each
  other do so until the C stack is used up; a path with a NUL byte in it is NULL for `fopen`; `load("<stdin>")` runs the code of
  the first `mjs_exec` again.
* The texts of numbers collide: all numbers from 2^63 on, below -2^63 and the infinities are the text `-9223372036854775808`
  (C70_violation_large, through undefined behaviour of C that x86-64 resolves so), all fractions below half a millionth are `0.000000`
  (C70_violation_small), so that `o[1e19]` and `o[1e20]` are one property (C70_name) [Props/NumText].
* `mjs_sprintf` of the empty string writes nothing, not even a NUL byte (C71_violation_empty) [Props/Print].
* `mg_match_prefix`: `a*` does not match `a` (C81_violation_star), `*$` matches `x` of `x/y` (C81_violation_dollar), `a$` matches the beginning
  of `a$b` (C81_violation_literal) [Props/Glob].
* `cs_timegm` computes in `int`: the second after 03:14:07 on 19 January 2038 is undefined behaviour (C84_timegm_partial), and so is every
  date before 1901 (C84_violation_early) [Props/Time].
* `json_escape` takes the hexadecimal digits modulo 15: the control characters 15 to 31 and 127 are written as other characters
  (C85_violation_control).  A vertical tab becomes `\v`, which JSON does not have (C85_violation_tab).  A text that is cut within a UTF-8
  character is read beyond its end (C85_violation_overread) [Props/JsonEsc].
* `mg_strcasecmp` passes negative numbers to `tolower` for bytes above 127 (C86_violation_high_bytes); `mg_vcasecmp` cuts the difference of the
  lengths to 32 bits (C86_violation_vcasecmp_length); `cs_to64` overflows for the least `int64_t` and answers 0 for `+5` (C86_violation_to64)
  [Props/CaseCmp].
* `json_prettify` decides from the last byte of the path whether it prints an element or a member. A key that ends in `]` is therefore not
  printed (C87_violation_bracket); a member with an empty key is lost, as the walker resets the path (C87_violation_empty_key); behind a key
  of 253 bytes elements are printed as members (C87_violation_long_key) [Props/Pretty].
* `json_next_key` compares paths as texts. In `{"a":{"x":1},"ab":2}` it finds `ab` among the members of `.a` (C89_violation_prefix), and it skips
  members whose keys have a dot or an opening bracket (C89_violation_dot) [Props/JsonNext].
* `json_setf` takes the place of a string to be what is between its quotes. Setting a string to `"y"` prints `""y""` (C90_violation_string,
  C90_violation_quotes); adding or deleting a member behind a string cuts off its closing quote (C90_violation_append,
  C90_violation_delete) [Props/Setf].
* `json_setf` compares paths byte by byte, not key by key. Setting `.ac` where there is `.ab` prints the value without its key
  (C90_violation_similar_key); deleting `.a` where there is `.ab` deletes what stands between them too
  (C90_violation_delete_neighbour); setting a member of `{}` replaces the object (C90_violation_empty); deleting an array or object
  that is not empty deletes only its closing bracket (C90_violation_delete_container) [Props/Setf].
* `json_scanf` skips closing brackets behind a number but keeps the path: `{a:{b:%d},c:%d}` looks for `.a.c` (C91_violation_bracket). A key with
  a dot leaves a part of itself in the path of the keys behind it (C91_violation_dot). A value that occurs twice is counted twice
  (C91_violation_twice). More than 255 opening brackets write behind the end of the path (C91_violation_deep), and a conversion of more than
  19 bytes behind the end of its buffer (C91_violation_long) [Props/Scanf].
* `json_printf` quotes every word in its format: `{"a": %d}` prints `{""a"": 5}`, `[null]` prints `["null"]` and `1e5` prints `1"e5"`
  (C92_violation_quoted, C92_violation_word, C92_violation_exponent). For `%e` (and every conversion of a `double` not ending in `f` or `g`) it takes an `int`
  from the arguments (C92_violation_e). A conversion of more than 18 bytes is written behind the end of its buffer (C92_violation_long). Where memory
  runs out, `json_asprintf` leaves out a piece of the text and goes on (C92_violation_memory) [Props/JPrintf].
* `json_printf_array` copies elements shorter than 8 bytes into a union without clearing it: 16 bit values printed with `%d` have bytes of the stack in
  them (C93_violation_short). A format with `e`, `f` or `g` anywhere, also in a key, gets a `double` (C93_violation_letter) [Props/JArray].
* `c_snprintf` calls `abort()` for `%llu`, `%llx`, `%hd`, `%hhd`, `%hu` and `%jd` (C55_violation_modifiers) [Props/PrintfLong].
* `mg_avprintf` takes every negative answer of `vsnprintf` for a buffer that is too small: for other errors it takes memory until there is none
  (C94_violation_error), and then writes to `(*buf)[-1]` through a null pointer (C94_violation_null) [Props/Avprintf].
* `json_prettify_file` drops what stands behind the first value of a file (C95_violation_rest); of a file that is no JSON text and holds a NUL it puts back only what stands before the NUL
  (C95_violation_nul); it does not check that the file could be opened again to put the text back (C95_violation_open) [Props/JFile].
* `mjs_disasm` (debug builds) skips the line map of a script but for its last byte, which it takes for an instruction; if that byte is the number of an opcode with operands, such as 11 for a
  script whose last line with code is line 11, it reads bytes behind the script (C96_violation_map) [Props/Disasm].
* `cs_log_print_prefix` takes every line number from 10000 on for one of five digits; a longer one overwrites the end of the file's name (C97_violation_long, C97_violation_name) or, if the name is short, memory before
  the array on the stack (C97_violation_line) [Props/Log].
* `ffi("void f(void (*)(userdata, void, void (*)(userdata)), userdata)")` is accepted, since the check that callbacks take no callbacks stops at `void`; the signature of the inner callback is never
  freed, neither when the function is collected nor when the engine is destroyed (C98_violation_collected) [Props/SigMem].
* `cs_read_file` does not close a file that turns out shorter than `ftell` told (C99_violation_open), and takes a failure of `ftell` for a size, so that it reads the file into a block of size 0
  (C99_violation_tell) [Props/ReadFile].
* With `.jsc` files, executing a script again after it has changed overwrites the file that the functions of the first execution are mapped from (C100_violation_changed); a full disk leaves part of
  the code (C100_violation_short); each mapping leaves a file descriptor open (C100_violation_descriptors) [Props/Jsc].

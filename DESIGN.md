# Verification of ratjs: design

The subject is the C source under `/repo` (ratjs, a JavaScript engine) at the
pinned commit.  The code is read, not run.  Every definition of the Lean model
cites the file and lines it models.  Properties are listed in
`properties.jsonl`; the status of each is in `MANIFEST.json`.

Layout of `lean/Verif`:

* `Verif/Model/*.lean` – executable models, one file per area, each definition
  with a source citation and a note on simplifications;
* `Verif/Spec/*.lean` – specifications that are more than a few lines (grammars,
  the steps of the standard), written without the functions of the model;
* `Verif/Lemmas/*.lean` – helper lemmas;
* `Verif/Props/*.lean` – the property theorems (named `C01_...`), small
  specifications and the concrete `example`s that meet the hypotheses.

A theorem whose name ends in `_violated` (or has `_violated_` in it) shows with
a concrete witness that the code does not have the property; `_partial` means
that a hypothesis is needed which the property does not mention.  What was done
to test the theorems against wrong programs is in `seeded/LOG.jsonl`.

Default build configuration of the repository is assumed: `ENABLE_BIG_INT=internal`
(`rjs_big_int_internal_opt.c`), all `ENABLE_*` features on.  Where a file is not
part of the default configuration (`rjs_conv_internal_opt.c`) it is said so.

## Trusted base

* Lean 4.33.0's kernel, and the axioms `propext`, `Classical.choice`,
  `Quot.sound`; every theorem named in `MANIFEST.json` depends on a subset of
  these three, checked with `#print axioms`.  No other axiom, no `sorry`, no
  `native_decide`/`bv_decide`.
* The hand translation from C to Lean.  Only the functions cited in the model
  files are modelled (next section).
* The meaning given to C: C11 with 64 bit `size_t` and pointers.  Undefined
  behaviour and failed assertions are distinct outcomes of the model where the
  property is about memory safety, arithmetic overflow or termination;
  elsewhere the comment of the definition says what excludes them.  Conversions
  to narrower signed types and shifts of negative numbers are taken as gcc does
  them where stated (C40, C61).
* Assumptions on functions that are not modelled, always as hypotheses or
  parameters of the theorems: the shortest digits of a number (`rjs_dtoa`) and
  reading decimal numerals (`rjs_strtod`): `Contract` in `Spec/JsonValue.lean`,
  parameters in C63; conversions between `float` and `double` (C40); ICU's
  character classes (C29, C47, C48); POSIX mutexes and condition variables
  (C49); the offset of local time, constant (C68, C69).
* The proofs speak of the model, for all inputs, states and schedules of user
  code that it has.  They do not cover the C compiler, the operating system,
  and failing allocations.

### What is modelled

| area | source | left out |
|------|--------|----------|
| sorting | rjs_sort.c, rjs_array_object_inc.c (sort) | comparators that write into the private copy |
| hash table | rjs_hash.c, rjs_hash.h | allocation failure |
| Map, Set | rjs_hash_object_inc.c, rjs_map_object_inc.c, rjs_set_object_inc.c | subclassing, species |
| red black tree | rjs_rbt.c | nodes are trees and zippers, not memory cells |
| linked list | rjs_list.h | – |
| collector, weak references | rjs_gc.c, rjs_weak_ref_opt.c, weak collections | when a collection starts (any time); reuse of addresses |
| finalization registries | rjs_finalization_registry_opt.c | argument checks |
| jobs | rjs_job.c | realms |
| promises | rjs_promise.c, rjs_promise_object_inc.c:77-700 | user code is any sequence of calls; capabilities of subclasses |
| BigInt | rjs_big_int_internal_opt.c | digits as characters; the double conversions of comparison |
| numbers | rjs_number.c, rjs_operation.h (conversions) | floating point arithmetic other than what is stated |
| strings | rjs_string.c, rjs_uri_functions_inc.c | regular expressions |
| character encodings | rjs_conv_internal_opt.c, rjs_conv.c | ICU and iconv |
| objects, arrays | rjs_object.c, rjs_array.c, rjs_operation.c | other exotic objects; getters and setters end an operation |
| array methods | rjs_array_object_inc.c | getters, inherited elements, species (C74, C75); `sort` is C01 |
| for-in | rjs_for_in_iterator.c, rjs_hash.c, rjs_string.c:937-961 | allocation failure |
| mapped arguments | rjs_arguments_object.c | keys that are not array indices; index properties of the prototype; allocation failure |
| private names | rjs_private_name_opt.c; own keys in rjs_object.c | allocation failure; attributes of ordinary properties in the shared table |
| class definitions | rjs_class_state_init, rjs_class_state_add_element (rjs_native_stack.c), rjs_initialize_instance_elements, rjs_define_field | user code is arbitrary functions on the state; private elements by C80; naming of anonymous functions; allocation failure |
| strings as numbers | parse_string (rjs_string.c), lex_number, lex_identifier, white space (rjs_lex.c), rjs_strtoi, rjs_strtod (rjs_dtoa.c) | of rjs_strtod the reading part is modelled, the computation of the double from digits and exponent is a parameter; doubles that are natural numbers are rounded explicitly; tokens that cannot give a number are not read to their end |
| parseFloat, parseInt | global_parseFloat, global_parseInt (rjs_global_object.c), rjs_strtoi, rjs_strtod, rjs_string_trim | the UTF-8 bytes of units from 128 on are not told apart from the units (the code tests for none of them); `errno` before the call is a parameter |
| Statements | bc_gen_stmt and its parts (rjs_bc_gen.c), rjs_bc_call, bc_pop_state (rjs_bc_call.c), state stack (rjs_native_stack.c), rjs_iterator_close, break/continue/labels (rjs_parser.c) | expressions are single commands with arbitrary effects; offsets are command indexes; registers are not packed; no yield, await, tail calls |
| Declarations | decl_push, decl_item_add, decl_pop, func_pop, for, catch, import and class declarations (rjs_parser.c), the tables of names (rjs_code_gen_inc.c:40-199) | names are numbers; let, const and class are one kind; the name `arguments` and recovery after other syntax errors are left out |
| Expressions | parse_expr_prio and the functions below it (rjs_parser.c:3193-5710) | object and array literals, patterns, arrows with parenthesised parameters or block bodies, async arrows and import are left out; function and class expressions and templates are single tokens; an error ends the parsing |
| Operators | equality, comparison, arithmetic dispatch, ToPrimitive and the other conversions (rjs_operation.c/.h, rjs_object.c, rjs_bc_call.c), comparison of big integers with numbers | reading properties and calling functions are parameters with any effect; so are the arithmetic of two numbers or two big integers and the conversions between strings and numbers |
| Resolve | names of modules: the lists of export entries, `resolve_export`, `module_init_env`, import bindings, namespace objects | the table of requests is replaced by the modules themselves; loading and evaluation are C34; functions and `var` of a module get their values by assignments; namespace objects by string keys only |
| Lex | tokens of scripts: input, white space and comments, names and words, private names, numbers, strings, templates with the stack of braces, regular expression literals, punctuators, the program that makes the tables of words | list of characters for the input (reading and putting back is proved apart); an error ends the text; no locations and messages; the value of a number is its text; regular expressions are not compiled |
| GlobalDecl | declarations of scripts and `eval`: tables of the parser, checks, creation of global functions, variables and lexical bindings, `delete` of global names, bindings of functions and of the environment of an `eval` | the global object is an ordinary object; of its prototypes only the properties found are kept; names are no array indices; no binding cache (C37); `HasBinding` of a `with` statement answers or throws without effects |
| Exotic | objects of strings and typed arrays: own properties, definitions, `in`, reading, assignment, deletion, keys; the ordinary operations they fall back on | properties are a list in the order of creation (storage: PropStore, Object); elements are the values they are read as (bytes: Buffer); number and string conversions are given; the prototypes are ordinary, of them only the property found is kept; user code run by a conversion can only detach the buffer |
| NumText | `toFixed`, `toExponential`, `toPrecision`, `toString` of numbers, the exact digit generation of `rjs_dtoa` (modes 2 and 3) | the faster ways of `rjs_dtoa` (meant to give the same); its mode 0, the text of `rjs_number_to_string` and the conversion of the argument are given |
| Destr | byte code of array and object patterns (assignments, declarations, parameters), the states of iterators and objects, their unwinding after exceptions | the program is any collection of state-changing and throwing steps; a rest element of an array has as many items as the fuel allows; every element takes the same number of registers; async iterators are not modelled |
| Cover | conversion of literals to assignment patterns and arrow parameters, `check_lh_expr`, `check_expr`, the rule of `__proto__`, `binding_param` | the source is the tree of the cover grammar (tokens are C89); no `yield`, `await`, rest parameters and bodies in braces; after the first error the answer is a SyntaxError (the parser goes on after some errors, and could then meet an assertion) |
| ObjFuncs | `Object.assign`, `keys`, `values`, `entries`, `defineProperty`, `defineProperties`, `freeze`, `seal`, `isFrozen`, `isSealed`, `preventExtensions`, `isExtensible`, `ToPropertyDescriptor`, the integrity levels | objects are arbitrary state-changing, throwing internal methods; the result arrays are lists; the bit a failing `get_own_property` leaves behind is any function of the state |
| RegMethods | `@@match`, `@@matchAll` and its iterator, `@@replace`, `@@search`, `@@split`, `test`, `toString` of `RegExp.prototype`, `rjs_regexp_exec` | expressions and matches are arbitrary state-changing, throwing steps; loops have a number of rounds; `rjs_get_substitution` (C52) is one step; result arrays are lists; a value that is no string read as one is the end `ub` |
| Iter | `rjs_get_iterator`, `rjs_iterator_next/complete/value/step/close`, methods of `%AsyncFromSyncIteratorPrototype%`, `if_abrupt_reject_promise`, `Promise.race`, the register `rt->error`, `rt->error_flag` | objects, functions and constructors are arbitrary state-changing, throwing steps that may leave anything in the register; the loop has a number of rounds; result objects have no identity; awaiting and the closing of async iterators are left out |
| CapSlots | `rjs_new_promise_capability`, `promise_capalibity_new_nf`, slots of the value stack | one value stack (a generator has its own); a frame gets its slots at once; user code is any sequence of calls, returns, reads, writes and calls of executors |
| ModLoad | `rjs_module_load_requested`, `module_load_req_data_add`, `module_load_req_modules`, `module_load_req_result`, `lookup_module`, `load_module` (rjs_module_opt.c:478-732, 1647-1801) | the host loads before it answers; linking and evaluation of earlier modules are not followed; error values are not followed |
| ModLate | `module_load_ok`, `module_load_error`, `module_load_req_data_add` with allocated modules (rjs_module_opt.c:478-657) | one load; every module but the first is answered later; the rounds over the list are taken together; error values are not followed |
| RegNum | `parse_regexp_number`, quantifiers and back references in `parse_term`, the check of back references (rjs_regexp.c:1047-1077, 1276-1294, 1325-1387, 1468-1474) | the text is a list of characters; leaving a signed type is the outcome `ub` |
| proxies | rjs_proxy_object_opt.c | targets that are proxies or other exotic objects |
| environments | rjs_environment.c, rjs_decl_env.c, rjs_object_env.c, rjs_global_env.c, rjs_eval_opt.c:151-216, rjs_native_stack.c:1151-1189 | import bindings, `@@unscopables`, accessors on the global object |
| generators | rjs_generator.c, rjs_generator_opt.c | the byte code inside is an arbitrary program |
| buffers | rjs_array_buffer_opt.c, rjs_data_view_object_inc.c, rjs_int_indexed_object_opt.c, rjs_typed_array_object_inc.c, rjs_atomics_object_inc.c, rjs_data_block_opt.c | – |
| waiting agents | rjs_data_block_opt.c:210-303, rjs_atomics_object_inc.c:1160-1319 | conversion of arguments |
| dates | rjs_date_object_inc.c | names of time zones, `Date.now` |
| modules | rjs_module_opt.c:834-1393 | loading, linking, native modules |
| JSON | rjs_json_opt.c, rjs_lex.c (JSON mode) | revivers, replacers, `toJSON`, the size of the C stack |
| regular expressions | rjs_regexp.c:1826-3011 | the parser of patterns (its numbering of groups is modelled), `\p`, the match indices |
| values | rjs_value.h | 32 bit machines |
| instanceof | rjs_operation.c:1221-1325 | proxies in prototype chains |

Not modelled at all: the parser of the language and the byte code generator and
interpreter, the parser of regular expressions, `Intl`, the host functions.

## Plan per property

| id | model | proof |
|----|-------|-------|
| C01 | `merge`/`sort` on lists with a comparison that may fail, recursion as in the C code | strong induction on length: permutation, sortedness, stability (sublist of equal keys kept), failure propagation |
| C02 | bucket array of lists, arbitrary hash function, growth rule | refinement to a partial map by induction over operations |
| C03 | hash lookup (by hash then equality) over entry list with insertion order | refinement to ordered association list under "equal keys have equal hashes"; negation with BigInt witness |
| C04 | entry list with iterator cursors, deletion marks | invariant over all interleavings |
| C05 | Inductive tree with insert/remove fix-up loops of the kernel style algorithm, zipper for the parent pointers | invariants by case analysis on the zipper |
| C06 | heap of next/prev pointers | representation predicate, frame reasoning |
| C07, C08 | graph heap, bounded mark stack with overflow flag, rescan loop, sweep | invariant "marked ⊆ reachable" and "reachable ⊆ marked at end"; termination by number of unmarked things |
| C09 | weak map scan/solve on top of the C07 model | negation with concrete heap; partial for values reachable otherwise |
| C10 | queue drained by a loop, jobs are functions producing more jobs | induction on runs |
| C11, C12 | promise state machine with status objects, thenable behaviour as an arbitrary schedule of calls | invariant over all schedules |
| C13, C14 | counters and called flags | invariant over all schedules; negation for allSettled |
| C15–C21 | magnitude digit lists base 2^32 with sign, every function as coded | value function to `Int`, refinement; negations for the coded errors |
| C22 | conversions on exact integers with C cast semantics as `Option` (undefined outside range) | arithmetic; negation for out of range inputs |
| C23, C24 | encoder/decoder on code unit lists, reads beyond the end are `ub` | round trip by induction; negations |
| C25 | converters with explicit buffer lengths, write beyond end is `ub` | round trip; negation |
| C26 | string to index parser | characterisation; negation; partial for canonical strings |
| C27–C29 | functions on code unit lists | direct induction |
| C30, C31 | indexed store: dense vector / tree with counters; null dereference is `ub` | refinement to partial map; negation; partial excluding the emptied tree |
| C32, C33, C55 | ordinary object as property list, descriptor validation as coded | invariant over all operation sequences |
| C34 | prototype pointers of a set of objects, walk as coded | invariant: no cycle |
| C35 | array with length, element attributes | invariant |
| C36 | declarative environment state machine | invariant |
| C37 | chains of environments, cached index pairs | refinement to uncached walk; negation for delete |
| C38, C39 | generator state machines with arbitrary body | invariant; negation |
| C40–C42 | byte lists | round trip, bounds |
| C43 | date functions on `Int` | arithmetic; negation for negative times |
| C44, C45 | module graph evaluation | invariant over depth first search; negation |
| C46 | proxy operations with arbitrary trap results over an ordinary target | case analysis |
| C47, C48 | JSON serialiser and recursive descent parser over code units | round trip; negation |
| C49 | waiter lists with agents | invariant over schedules |
| C50 | registrations with tokens | negation, partial |
| C51 | 64 bit patterns | bit arithmetic |
| C52 | substitution with bounds checked reads | negation, partial |
| C53 | prototype walk with aliasing of the operand | negation, partial |
| C54 | operation with conversion callback | negation, partial |
| C56 | repeated squaring on the digit lists | value function; negation |
| C57 | weak references in the collector model | invariant over all runs |
| C58 | shared record of `Promise.any` | invariant over all schedules |
| C59, C60 | functions on code unit lists | refinement to a specification by occurrences |
| C61, C62 | numbers as `m * 2 ^ e` | arithmetic; negations for undefined casts |
| C63 | layout of given digits | refinement to the steps of the standard; the text denotes the number |
| C64 | prototype chain walk of `set` | induction along the chain |
| C65 | loops over bytes | refinement; negation |
| C66 | read-modify-write as one step | decision |
| C67 | tail calls in the model of environments | negation |
| C68 | setters on `Int` with rounding | arithmetic; negations |
| C69 | parser and printers of dates | round trips and grammar; negations |
| C70 | the stack of jobs as a machine with small steps | the stack as a generator of the ordered list of ways (continuations inside one stack), then ways = the standard's ways; negations |
| C71 | same, accesses outside are a separate outcome | totality of the ways by induction on the pattern and the rest of the string |
| C72 | loop of `exec` over positions | induction on the positions left; negation |
| C73 | tests on one character | decision; negation |
| C74 | loops over an object with slots at all integers | refinement to operations on lists of optional values; negations |
| C75 | same, reading | refinement to operations on lists; negation |
| C76 | programs that ask their surroundings (free monad) | interpretation in any lawful monad; order of the events in every execution |
| C77 | `next` on an array that changes between calls | agreement with the standard's generator; negations |
| C78 | `for-in` over chains of objects that change, with the table of seen names and the two forms of string values | simulation of the standard's iterator by stages of the table; closed form for chains at rest; negations |
| C79 | Mapped `arguments` objects: own properties beside the bindings, names cleared when a connection ends | refinement to an object whose elements are the parameters; invariants of reachable states |
| C80 | Private names as addresses, environments, private elements in the table of the ordinary properties | refinement to names that are pairs (evaluation, identifier) and elements apart from the properties; origin of elements; erasure of private operations |
| C81 | Evaluation of a class body and of instances, code of names, initialisers and blocks arbitrary | equality with ClassDefinitionEvaluation and InitializeInstanceElements; two negations with witnesses |
| C82 | Strings of code units, tables of ICU by their known entries, digits and exponents of any length, the double of m · 10^e by contract | both directions of the grammar (value if a literal, NaN if not); negations with witnesses for what is accepted beyond |
| C83 | Strings of code units, any radix; literals and parts of the argument by a grammar of their own | value of the longest literal (of the digits) for all strings outside the listed situations; negations with witnesses inside them |
| C84 | The standard's evaluation of statements with completion records; code, interpreter and state stack in the model | simulation of every statement, hence equal results, effects and divergence for all programs outside the listed situations; negations with witnesses inside them; jumps and labels against the early errors |
| C85 | LexicallyDeclaredNames, VarDeclaredNames and the early errors of the standard, by recursion on the program; the stack of declarations in the model | simulation of every construct with an invariant on the stack: accepted iff no early error, tables equal as sets, for all nestings outside the listed situations; negations with witnesses inside them |
| C86 | the productions of 13.2-13.16, 15.3 and 15.5 as an inductive relation between a non-terminal, a list of tokens and a tree, with two switches for what the parser takes beyond and does not take; the recursive parser with fuel in the model | termination by a measure; completeness by induction on the derivation, soundness by induction on the fuel; from both: exactness and unambiguity; renaming of constants for texts with decided ones; negations with witnesses |
| C87 | mathematical values as rationals with infinities and NaN; ToPrimitive and the operators as relations between states with one rule for each way through the standard's text; equality of primitive values as a table without recursion | `bi_set_number` limb by limb; existence of a run of the specification and agreement of every run with the model, hence equivalence; general lemma for binary operators; negation with two dates |
| C88 | candidates of a name as paths in a graph, meaning by their number; beside it the standard's algorithm, proved to compute that | one generic search for the code's and the standard's tables: soundness, end by the number of nodes not yet seen, completeness by closedness of the visited set; names of a namespace likewise, with C01 and C27 for the order; invariant of environments; negations with programs of four modules |
| C89 | lexical grammar as inductive relations on lists of characters, one for each kind of token, and the division of a text into gaps and tokens with the braces that are open | trie of the generator: invariant that each entry stands for a prefix, hence longest match; each scanner sound and complete against its relation; counters of braces as an abstraction of the stack of open braces; negations with concrete texts |
| C90 | what is there before and after as a small view of the global environment; conditions of refusal and results as in 16.1.7, 19.2.1.3 and 9.1.1.4 | loops of checks as existential statements; loops of creation by one induction with a frame for the names not yet treated; tables of the parser as lists with their order; invariant over histories; negations with concrete programs |
| C91 | an abstract object with the program's own keys: elements named by decimal digits, other properties with their descriptors in order of creation; the internal methods of 10.4.3 and 10.4.5 on it | simulation of whole histories; resolved keys and descriptors of the two sides related one to one by C26's lemmas; sorted keys by uniqueness of ascending lists; invariants for histories with arbitrary keys; negations with concrete histories |
| C92 | the closest number by its distance among rationals, of two the larger; texts by grammar: digits before and behind the point, exponent, digits of a radix | invariant of the digit loop (value and remainder), rounding and removal of zeros on reversed lists, distance for all other candidates of any exponent; negations with 2.5, 25, -0, 0.5 and 2^63 |
| C93 | evaluation of the pattern as in the standard, written directly on the pattern with completions and the field [[Done]] | simulation of the byte code by structural induction over nested patterns, with the stack of states and registers as invariant; negations with concrete programs |
| C94 | validity (early errors and the two pattern grammars) and the tree, directly on the source | mutual structural induction over nested literals: the first pass accepts exactly the cover grammar, each conversion succeeds exactly on valid patterns, the late check sees exactly the rest; negations with concrete sources |
| C95 | the algorithms of the standard as sequences of actions | equality of the final state and result for all worlds, by induction over the list of keys; negations with a concrete world of proxies |
| C96 | the algorithms of 22.2.6 as sequences of actions (all searches before all replacements; pieces counted down from the limit) | equality of state and result for all worlds and rounds, by induction over the rounds; `replace` for calm, ordered matches; negations with a concrete world, one of them for every number of rounds |
| C97 | the algorithms of 7.4, 27.1.4 and 27.2.4.5 (ECMAScript 2023) as sequences of actions without a register; an error without an exception in the register is a third end | simulation of each C function by the action, for every register; induction over the rounds of `Promise.race`; negations with a concrete world |
| C98 | functions with variables of their own and a record for each executor; no addresses | simulation: the stack is the concatenation of the variables, executors of running functions know their place; negations with concrete programs |
| C99 | modules reachable through requests; all of them found and loaded; what earlier imports leave; no hash, list or rounds | invariant of the depth-first walk (hash, list, modules being gone through), then the rounds over the list by induction on its length; termination by counting the modules not in the hash; negation with a concrete graph |
| C100 | the grammar of quantifiers as inductive relations; digits by place value | loop of digits against place value by induction; inversion of the reader; negations with concrete patterns |

## Disagreements and defects found

Each entry names the theorem that exhibits it.  "UB" is undefined behaviour of C
(for most of these the property asks for a defined result).  The first list has
what scripts can reach in the default configuration.

### Memory safety, assertions, hangs

1. A `WeakMap` does not keep its values: they are freed while the entry points
   to them.  rjs_weak_map_object_inc.c.  `C09_violated`.
2. `solveJobs()` called by a job runs the same job again and frees it twice.
   rjs_job.c.  `C10_violated`.
3. `o[100] = 1; delete o[100]; o[0] = 1` writes through a null pointer; the same
   with `a.length = 0`.  rjs_object.c (conversion of an empty tree).
   `C30_violated`, `C30_violated_array`.
4. `Atomics.add` and the others use a null pointer if converting the index
   detaches the buffer, and freed memory if converting the value does.
   rjs_atomics_object_inc.c.  `C54_violated`.
5. `%1` at the end of a string is read past its end by `decodeURI`.
   rjs_uri_functions_inc.c.  `C24_violated_read`.
6. `$'` in a replacement reads outside of the string if user code gives a match
   longer than the rest.  rjs_string.c.  `C52_violated`.
7. Direct `eval` and the binding cache: wrong binding, failed assertion (null
   pointer without assertions), a read beyond the vector of bindings, a read of
   a freed binding.  rjs_decl_env.c:453, rjs_operation.c:2093-2106,
   rjs_eval_opt.c:151-182.  `C37_violated_eval_wrong`, `C37_violated_eval_null`,
   `C37_violated_eval_beyond`, `C37_violated_eval_freed`.
8. A tail call of a function with parameter expressions takes the variable
   environment for a function environment.  rjs_bc_call.c:81-84,
   rjs_native_stack.c:1151-1189.  `C67_violated_cast`.
9. `slice` of a typed array onto an overlapping array over the same buffer is an
   overlapping `memcpy`; with shared memory the lock is taken twice and the
   thread hangs.  rjs_typed_array_object_inc.c:1617, rjs_data_block_opt.c:139.
   `C65_violated`.
10. Async generators: `return()` called from an accessor `then` while the last
    answer is being resolved fails an assertion.  rjs_generator_opt.c:386, 427.
    `C39_violated_assert`.
11. Modules with top level `await`: failing assertions (`C45_violated_assert`,
    `C45_violated_undefined`: rjs_module_opt.c:986, 1038) and promises that never
    settle (`C45_violated_hang`, `C45_violated_late`, `C45_violated_again`:
    rjs_module_opt.c:976, 1049, 1262).
12. `Atomics.wait` and `notify`: a notification is lost if it meets a timeout
    (`C49_violated`); a spurious wake-up answers "ok" (`C49_violated_spurious`).
    rjs_data_block_opt.c:267-287.
13. The internal converter writes UTF-8 past the end of its buffer (not in the
    default configuration, which uses ICU).  rjs_conv_internal_opt.c.
    `C25_violated`, `C25_violated_buffer`.
14. `rjs_value_set_number` with a NaN that has a payload makes a value that is not
    a number, or a pointer (only for embedding programs).  `C51_violated`.

### Undefined conversions and overflows

15. Numbers of `2 ^ 63` and more: `ToInt32` and the like, `>>>` also for negative
    numbers and counts above 31, bitwise operators, parity in `**`, storing into
    integer typed arrays, `-(2n ** 63n)` in a `BigInt64Array`.  `C22_violated`,
    `C61_violated`, `C62_violated`, `C40_violated`.
16. `Date.UTC` with huge years; local setters and the constructor with NaN;
    numbers of more than 9 digits in the text of a date.
    `C43_violated_overflow`, `C68_violated_nan`, `C68_violated_new`,
    `C69_violated_overflow`, `C69_violated_overflow_all`.
17. `Atomics.wait` with a timeout of `2 ^ 64` ms.  `C49_violated_cast`.
18. `JSON.stringify(v, null, -Infinity)`.  rjs_json_opt.c:1045.  `C47_violated`.
19. `JSON.parse('"\\u{1100000}"')` shifts a negative number; the same in scripts.
    rjs_lex.c:272.  `C48_violated_undef`.
20. The counter of `Promise.allSettled` wraps round.  `C14_violated_counter`.

### Wrong results

21. BigInt: the borrow of a subtraction is never reset (`C15_add_violated`,
    `C15_subtract_violated`, `C17_violated`), the sign of a product
    (`C16_violated`), shifts of negative numbers (`C19_shl_violated`,
    `C19_shr_violated`), `asIntN` and `asUintN` of negative numbers
    (`C20_violated`), `(-5n) ** 1n` (`C56_violated`).
    rjs_big_int_internal_opt.c.
22. Map and Set: equal BigInts are different keys, `-0` is kept.
    `C03_violated_bigint`, `C03_violated_negzero`.
23. `o["01"]` and `o[" 1"]` are `o["1"]`.  rjs_string.c.  `C26_violated`.
24. `trim` removes U+0085.  `C29_violated`.
25. `decodeURI` accepts overlong forms, surrogates and code points above
    U+10FFFF.  `C24_violated_strict`.
26. `Promise.allSettled` counts an element twice if both of its callbacks are
    called.  rjs_promise_object_inc.c.  `C14_violated`.
27. A second registration with the same token replaces the first.
    rjs_finalization_registry_opt.c.  `C50_violated`.
28. A function that calls itself in tail position clears the variables captured by
    closures of the earlier call.  rjs_native_stack.c:1151-1189.  `C67_violated`.
29. A global property that was deleted reads as `undefined` (no ReferenceError)
    where its name is cached.  rjs_object_env.c:161-189.  `C37_violated_global`.
30. Async generators: a queued `next(v)` answered after the end gets `v` back
    (rjs_generator_opt.c:429-436, `C39_violated_value`); a `next` from an accessor
    `then` is answered out of order (`C39_violated_order`).
31. Dates before 1970: hour, minute, second are those of a truncated division
    (`C43_violated`, `C68_violated_negative`, `C69_violated_before`);
    `setUTCMilliseconds` passes the old milliseconds as minutes
    (rjs_date_object_inc.c:1993, `C68_violated`); years outside of 0 to 9999 are
    not written as specified (`C69_violated_year`); day 0 is accepted
    (`C69_violated_day`), 24:00 refused (`C69_violated_midnight`).
32. A module body runs before a module it imports has ended (gathered twice,
    rjs_module_opt.c:1062-1065).  `C45_violated_order`.
33. `Function.prototype[Symbol.hasInstance]` writes to its argument
    (rjs_operation.c:1276): as the callback of `filter` or `find` it replaces the
    element (`C53_violated`), as the trap of a proxy it makes the checks be made
    for another object (`C46_violated`, `C46_violated_has`,
    `C46_violated_delete`).
34. `JSON.parse` accepts texts that are not JSON: eleven kinds of deviation, each
    with a witness.  `C48_violated`, `C48_violated_numbers`.
35. Regular expressions: an iteration that takes nothing is accepted instead of
    being undone, so `/(a*)*/.exec("b")` has "" for the group
    (rjs_regexp.c:2526-2540, `C70_violated`), and the iterations that have to be
    made are not exempt from this test (`C70_violated_min`); groups that did not
    take part have no element in the result (2944-2950, `C72_violated`); with the
    flag `i` the limits of a range are changed to upper case (2127,
    `C73_violated`).
36. `splice` with fewer values inserted than removed runs to `len` instead of
    `len - del` (rjs_array_object_inc.c:2493), so on array-likes properties beyond
    the length are overwritten or deleted.  `C74_splice_violated`.
37. `unshift` (2908) and the growing loop of `splice` (2520) make one round too
    many, which throws if that element cannot be deleted.
    `C74_unshift_violated`.
38. Index arguments of magnitude 2^63 and more are converted to `int64_t`
    undefined: `includes`, `indexOf`, `lastIndexOf`, `with`.
    `C75_index_violated`.
39. An array iterator has no finished state: when the array has grown it gives
    elements again after its end (3353-3394), and after a throw it tries the same
    element again.  `C77_restart_violated`, `C77_throw_violated`.
40. **for-in: index names of prototypes twice.**  `rjs_for_in_iterator.c` keeps the names it has seen
    in a hash table.  An index string is hashed by its number, another string by its characters, but
    comparing the two turns the index string in place into an ordinary string, so that its hash code
    changes while it is in the table or on its way there.  `var o = Object.create({10: 1}); o.a = o.b =
    o.c = o.d = 1; for (x in o)` gives `10` twice; a name of a prototype hidden by the object's own
    property `10` is given too.  `C78_twice_violated`, `C78_hidden_violated`.
41. **for-in: names after a symbol.**  The loop over the keys ends at the first symbol (202-204); a
    proxy may list a symbol before a string.  `C78_symbol_violated`.
42. **Static private methods in the order of the text.**  `rjs_class_state_init`
    (rjs_native_stack.c:663-671) adds a static private method when its turn in the list of elements
    comes; the standard adds all of them before the first static field.
    `class C { static x = C.#m(); static #m() {} }` throws a TypeError.  `C81_order_violated`.
43. **Instances made by static code are bare.**  `bfo->clazz = clazz` (rjs_native_stack.c:697) comes
    after the loop that runs static fields and blocks, so `new C()` in them makes objects without
    fields and private methods.  `C81_ready_violated`.
44. **`Number()` and `BigInt()` read strings as script text.**  `parse_string` (rjs_string.c:588-708)
    calls `rjs_lex_get_token`, which skips comments: `Number("/**/1")`, `Number("1//")` are 1 and
    `Number("//")` is 0, all NaN in the standard.  White space may follow the sign (`Number("+ 1")` is 1),
    `Number("\\u0049nfinity")` is Infinity, and U+0085 counts as white space (ICU's White_Space).
    `C82_violated`.
45. **An undefined shift in `Number()`.**  `Number("\\u{1100000}")`: `lex_unicode_escape` sets the value to
    -1 and shifts it (rjs_lex.c:272).  `C82_undef_violated`.
46. **Integers in bases 2, 8 and 16 are rounded at every digit** (rjs_strtoi.c:95-96), instead of once:
    `Number("0x200000000000011")` (2^57 + 17) is 2^57, the nearest double is 2^57 + 32.  The same holds
    for such literals in scripts.  `C82_rounding_violated`.
47. **The exponent of a decimal number overflows an `int`** (rjs_dtoa.c:3661-3662, `Long` is `int`):
    `Number("1e2147483600")`, undefined behaviour in C.  The literal `1e9999999999` in a script does the
    same.  The check for more than 8 digits comes after the loop.  `C82_overflow_violated`.
48. **Exponents beyond ±19999 are cut off before the digits behind the point are subtracted**
    (rjs_dtoa.c:3663-3669): "0." with 19999 zeros and "1e20000" is 1, the code makes it 0.1.
    `C82_exponent_violated`.

49. **`parseFloat` takes "Inf" for Infinity** (rjs_dtoa.c scans `inf`, then `inity`, without regard to case):
    `parseFloat("INFIX")` is Infinity, the standard says NaN.  Literals that are too large give NaN
    (rjs_global_object.c:162-164): `parseFloat("1e1000")`, the standard says Infinity.  `errno` is not reset
    before: after any number that was too large or too small, `parseFloat("Infinity")` is NaN as well
    (`C83_float_violated`, `C83_errno_violated`).
50. **`parseInt` reads decimal fractions and exponents** (rjs_strtoi.c:69-72 calls `rjs_strtod`):
    `parseInt("3.7")` is 3.7, `parseInt("1e3")` is 1000, `parseInt(".5")` is 0.5
    (`C83_int10_violated`).
51. **`parseInt` without digits** (rjs_global_object.c:226 looks whether anything was read, a sign and the
    prefix count): `parseInt("-", 16)` is -0, `parseInt("0x")` is 0, the standard says NaN
    (`C83_int_violated`).  Integers that are too large give NaN instead of Infinity
    (`C83_int_large_violated`).
52. **A jump out of a `finally` block does not end a pending return** (rjs_bc_call.c:1112-1126,
    `bc_pop_state` in state FINALLY looks at `next_op`):
    `while (1) { try { return 1 } finally { break } } return 2` gives 1
    (`C84_finally_jump_violated`).
53. **Completion value of `try`** (rjs_bc_gen.c:3575-3603 does not reset the register at the catch
    clause): `eval("try { 1; throw 0 } catch (e) {}")` is 1 instead of undefined
    (`C84_catch_value_violated`).
54. **One slot for pending return values** (`sc->retv`):
    `try { return 1 } finally { try { try { return 2 } finally { throw 0 } } catch (e) {} }` returns 2
    (`C84_return_slot_violated`); falling off the end copies the slot too (rjs_bc_call.c:1365-1366), so
    `function f() { try { try { return 1 } finally { throw 2 } } catch (e) {} }` returns 1
    (`C84_fall_off_violated`).
55. **Closing an iterator while an error is pending** (rjs_iterator.c:265-302 looks at
    `rt->error_flag`, which is still set in a `finally` block, and after one that has overridden a
    throw): the exception of the `return` method is replaced by the old one
    (`C84_close_pending_violated`).
56. **An iterator's `return` method that catches something** clears `rt->error_flag`; the value, not the
    flag, is restored, so the catch clause around a `for`-`of` left by a throw gets undefined
    (`C84_close_catches_violated`).
57. **Labels of `try` statements** (rjs_parser.c:6905-6907: the label is known in the try block only):
    `l: try {} catch (e) { break l }` is a SyntaxError (`C84_label_try_violated`).

58. **`catch` without a parameter** pops a declaration it did not push (rjs_parser.c:6913-6931, the push is inside
    the branch for the parameter): `try {} catch {} let x` fails `decl_top`'s assertion, in a function a second such
    clause followed by `var` follows a NULL, and after one a `let` lands in another scope's declaration and so in
    no table (`C85_bare_catch_violated`).
59. **`for (let i …) { let i }`** is rejected (rjs_parser.c:6608-6633 looks up all names of the block, where the
    standard asks for the var names of the body, `C85_for_block_violated`).
60. **`function f() {} { var f }`** is rejected at the top of scripts and functions (the walk of `decl_item_add`
    takes any function for a lexical name), while the other order is accepted (`C85_inner_var_violated`).
61. **An imported name declared again** is accepted: imports are kept in a hash of their own
    (rjs_parser.c:8530-8548, `C85_import_violated`).

62. **`new new X()()`** is read as `(new (new X()))()`: behind `new new` the operand is read by a recursive call
    that takes the first arguments, and the outer `new` never looks for its own (rjs_parser.c:3840-3849,
    `C86_new_new_violated`).
63. **`new super.x()`** is refused (`parse_new_expr` calls `parse_expr_prio` with a priority above that of `super`,
    rjs_parser.c:5067-5075, `C86_new_super_violated`).
64. **`new a?.b()`** is accepted (`C86_new_opt_violated`).
65. **`(a,)`** is accepted and means `(a)`: a comma in front of `)` is allowed for parameters and not asked for `=>`
    afterwards (rjs_parser.c:3193-3308, `C86_paren_comma_violated`).
66. **`a?.b.(c)` and `a?.b.[c]`** are accepted: behind a `.` inside an optional chain the parts are read as behind
    `?.` (rjs_parser.c:4799-4893, `C86_dot_paren_violated`).
67. **Constants decided by the parser.**  `true && x`, `0.5 ? x : y` and the like are replaced by the operand in the
    tree before targets are looked at, so `(true && a) = 5` is an assignment to `a` (`C86_folded_target_violated`), and
    `(true && a.b)()` keeps `a` as its `this`.  `undefined ?? a` is taken for `a` although `undefined` is a
    name like others (rjs_parser.c:4058, `C86_undefined_violated`).
68. **Strict `delete a?.b`** is a SyntaxError (`check_delete_operand_internal` refuses every optional chain,
    rjs_parser.c:2038-2066, `C86_delete_opt_violated`).
69. **`yield #x in o`**: a private name is not among the tokens that begin an operand of `yield`
    (rjs_parser.c:4110-4124), so the rest is a SyntaxError (`C86_yield_private_violated`).
70. **`new Date(0) < new Date(86400000)`**: `do_bc_compare` (rjs_bc_call.c:604-606) converts objects with the
    hint `default`; IsLessThan uses the hint `number`. Dates, and all objects whose `@@toPrimitive` depends on the
    hint, are compared as strings (`C87_relational_violated`).
71. **`export * from` a module in which a name is ambiguous**: `resolve_export` (rjs_module_opt.c:1933) tests
    the result of the nested search with `if (r)`, and `RJS_AMBIGUOUS` is 3, so the name is taken for the first
    candidate instead of being ambiguous; the namespace object has a property the standard says it does not have
    (`C88_nested_ambiguity_violated`).
72. **`import {x} from "a"; export {x};`** stays a local export (rjs_parser.c:9254-9256; the standard's ParseModule
    makes it an indirect export of `a`). Together with `export {x} from "a"` under one `export *` the name is
    ambiguous (`C88_reexport_violated`); two modules which import `x` from each other and export it are linked
    instead of refused (`C88_circular_violated`), and with `export *` a legal program has an imported name which
    stands for itself: `module_env_op_get_binding_value` (rjs_module_env_opt.c:67) recurses until the C stack is
    used up (`C88_cycle_violated`).
73. **`/[\]/]/`**: `lex_regexp` (rjs_lex.c:1031-1046) takes a backslash inside of a class for an ordinary character,
    so that the `]` behind it ends the class and the next `/` the regular expression (`C89_class_violated`).
74. **`"\u{}"`** is accepted and stands for U+0000 (rjs_lex.c:245-285: no digit is asked for); the same in names and in
    templates, where the standard says that there is no cooked value (`C89_empty_violated`, `C89_template_violated`).
75. **`` `\u{1100000}` ``**: in a template `lex_unicode_escape` (rjs_lex.c:245-285) sets the value to -1 when it gets too
    large and goes on with `v <<= 4` of the negative number, which is undefined (`C89_template_violated`).
76. **`07.5`** is read as the one number 7.5 and **`07.toString()`** is refused (rjs_lex.c:556-559): the legacy octal
    integer takes a point, which the standard does not allow; the latter is legal (`C89_octal_violated`).
77. **`08.5_1`** is refused (rjs_lex.c:619-629): the standard forbids separators only in the integer part of such a
    number (`C89_separator_violated`).
78. **Order of functions** (rjs_parser.c:736-742): `function a(){} function b(){} function a(){}` makes the property `a`
    before `b`; the standard goes by the last declaration of each name, `b` before `a`.  `C90_order_violated`.
79. **`with ({x: 1}) { eval("var x = 2") }`** is a SyntaxError (rjs_eval_opt.c:82-93): the loop over the environments
    between the `eval` and its variables does not leave out those of `with` statements.  `C90_with_violated`.
80. **`try { throw 1 } catch (e) { eval("var e") }`** is a SyntaxError by the same loop; B.3.4 of the standard allows
    it.  `C90_catch_violated`.
81. **An error of a `has` trap is taken for yes** (rjs_eval_opt.c:88): `rjs_env_has_binding` answers -1, which is not
    zero; the program gets a SyntaxError in place of the error thrown.  `C90_throw_violated`.
82. **`delete toString`** in global code answers `false` (rjs_global_env.c:159-162): a name that is neither lexical nor
    an own property of the global object is not deletable here; the standard answers `true`.  `C90_delete_violated`.
83. **Every spelling of a number is a character of a string** (rjs_primitive_object.c:73-76): the key is converted with
    ToNumber instead of CanonicalNumericIndexString, so `new String("abc")[""]` is `"a"`, and `" 1"`, `"0x1"`, `"1.0"`
    are own properties too, though no list of keys has them.  `C91_spelling_violated`.
84. **`"abc"["1e300"]`** converts a `double` of 2^64 or more to `uint64_t` (rjs_primitive_object.c:92), which is
    undefined.  `C91_large_violated`.
85. **A detached typed array still lists its elements** (rjs_int_indexed_object_opt.c:309): the list is made from
    `array_length`, which detaching does not change; the keys listed (`Reflect.ownKeys`) are no own properties
    any more.  `C91_detached_violated`.
86. **`ta["01"] = 5` makes a property whose key is listed as a second "1"**: the key is not a canonical number, so it
    goes to the ordinary properties, which keep it as the array index 1 (C26).  `C91_repeat_violated`.
87. **An assignment through an heir of a typed array writes the typed array** (rjs_int_indexed_object_opt.c:258-272):
    `Object.create(ta)[0] = 5` sets `ta[0]`; since ECMAScript 2023 the receiver decides.  `C91_receiver_violated`.
88. **C92**: `toFixed`, `toExponential` and `toPrecision` round halves to even
    (`rjs_dtoa` without `ROUND_BIASED`), the standard wants the larger number:
    `2.5.toFixed(0)` is "2", `2.5.toExponential(0)` is "2e+0", `25..toPrecision(1)` is
    "2e+1" (`C92_half_violated`, `C92_half_exponential_violated`,
    `C92_half_precision_violated`).
89. **C92**: `(-0).toFixed(0)` is "-0" (rjs_number_object_inc.c:393 tests the sign bit;
    the other two methods also test for zero) (`C92_negative_zero_violated`).
90. **C92**: `toString(radix)` writes fractions in decimal whatever the radix
    (rjs_number_object_inc.c:659): `0.5.toString(2)` is "0.5" (`C92_radix_violated`).
91. **C92**: `toString(radix)` converts every number to `int64_t` (line 609), undefined for
    NaN, infinities and large numbers, and negates -2^63 (line 618)
    (`C92_cast_violated`).
92. **C93**: a rest element `[...a] = o` calls `return` of the iterator when reading `value` of a result
    throws (rjs_native_stack.c:466-467 leaves `done` false); the standard does not close an iterator that
    has thrown (`C93_rest_violated`).
93. **C93**: in declarations and parameters the target is looked up before a computed name is converted
    to a key (rjs_bc_gen.c:2843-2852), in assignments after it (940-982); the standard converts first
    (`C93_key_order_violated`).
94. **C93**: the faults 55 and 56 hold for patterns, too: the exception of a pattern becomes `undefined`
    if `return` catches something, and an exception of `return` is replaced by an older one which a
    `finally` block had overridden (`C93_catch_violated`, `C93_stale_violated`).
95. **C94**: `[(a)] = x` and `[(a.b)] = x` are SyntaxErrors, though valid: `expr_to_binding`
    (rjs_parser.c:3105-3108) has no case for parentheses (`C94_paren_violated`).
96. **C94**: `({...[a]} = o)` and `({...a,} = o)` are read (2421-2460, 3017-3025: the rest property may
    be a pattern, the comma leaves no trace), and so is `({...a, b}) => 0` (`C94_rest_violated`).
97. **C94**: `(a.b) => 0`, `([a.b]) => 0` and `([a.b] = 1) => 0` end in `assert(0)` of `binding_param`
    (1151-1152): any script can stop the engine while it is parsed (`C94_assert_violated`).
98. **C94**: `[a = {x = 1}] = b`, `(a = {x = 1}) => 0` and `({x = 1}).y = 2` are read: `check_expr_ast`
    (2144-2299) does not look at left sides, patterns and parameters (`C94_late_check_violated`).
99. **C94**: `[{__proto__: a, __proto__: b}] = x` and `({__proto__: a, __proto__: b}) => 0` are refused:
    only a following `=` lifts the rule (3561-3599; `C94_proto_violated`).
100. **C94**: strict `({eval}) => 0` and `({arguments = 1}) => 0` are read: names alone in braces are not
    entered in the list of names to be checked (3030-3047; `C94_strict_violated`).
101. **C94**: `(a,)` is read as an expression (3214-3262), and `((a) = 1) => 0` as a function
    (`C94_parentheses_violated`).
102. **C95**: `Object.defineProperties(o, {a: {value: 5}, b: 42})` throws after it has defined `a`: reading and
    defining alternate (rjs_object_object_inc.c:110-130; `C95_define_order_violated`).  So does `Object.create`.
103. **C95**: `if ((r = RJS_OK) && …` (rjs_object_object_inc.c, in the same loop) is an assignment: an exception of
    a `getOwnPropertyDescriptor` trap is lost (`C95_define_lost_violated`), and a key without a property is taken
    for enumerable if the one before was (`C95_define_missing_violated`).
104. **C95**: `Object.freeze` throws a TypeError if the last key of a proxy has no descriptor, after it has frozen
    everything: the result of the last look-up is given back (rjs_operation.c:970-994; `C95_freeze_violated`).
105. **C95**: `Object.isFrozen` and `Object.isSealed` lose the exception of an `isExtensible` trap and answer
    `false` (rjs_operation.c:1022; `C95_test_violated`).
106. **C96**: `"a".replace(/(b)?a/, (m, p) => typeof p)` is `"string"`: undefined captures are converted
    (rjs_regexp_object_inc.c:420-429; `C96_capture_violated`).
107. **C96**: replacement functions are called between the searches (512-580), in the standard after all of them:
    `re = /(?:)/g; "b".replace(re, () => {re.lastIndex = 0; return "x"})` never ends and its buffer grows
    (`C96_endless_violated`).
108. **C96**: `RegExp.prototype.toString.call({})` reads undefined as a string (849-857, without `ToString`): an
    assertion, or without assertions memory that is no string (`C96_toString_violated`).
109. **C96**: `/(?:)/gu[Symbol.matchAll](1).next()` reads the number as a string: the iterator gets the argument in
    place of the string made of it (375; `C96_matchAll_violated`).  Arguments that are objects are converted again for
    each search.
110. **C96**: the iterator of `matchAll` is not finished after an exception of the search
    (1165-1166; `C96_next_violated`).
111. **C97**: `if_abrupt_reject_promise` (rjs_promise_object_inc.c:66-75) leaves `rt->error_flag` set:
    `Promise.race(1); for (x of {[Symbol.iterator]() { return {next() { return {} }, return() { throw e }} }}) break`
    throws the TypeError of the first statement instead of `e` (`C97_stale_error_violated`; `Promise.all`,
    `allSettled` and `any` share the function).  An `await` clears the flag (rjs_bc_call.c:1369), so
    async-from-sync iterators do not show it.
112. **C97**: the result of the call of `reject` in `if_abrupt_reject_promise` is not looked at:
    `class C extends Promise { constructor(f) { super(() => {}); f(() => {}, () => { throw e }) } }`,
    `Promise.race.call(C, 1)` gives a promise instead of throwing `e` (`C97_reject_throws_violated`).
113. **C98**: the executor of `NewPromiseCapability` holds numbers of slots of the value stack
    (rjs_promise.c:585; include/ratjs/rjs_promise.h:49-57).  With
    `class C { constructor(f) { saved = f; f(() => {}, () => {}) } }`, `Promise.resolve.call(C, 1)`, a later
    `saved(x, y)` writes into slots of another function, throws or not by what is there, or fails the assertion
    of `rjs_value_get_pointer` (`C98_foreign_slot_violated`, `C98_other_record_violated`,
    `C98_outside_violated`).
114. **C99**: a load that fails leaves the module as one to be linked: `LOADING_FAILED` is
    overwritten with `UNLINKED` (rjs_module_opt.c:512-519).  The second `import()`
    of a module with a request that is not found goes to linking at once and meets
    the assertion at 760 instead of being rejected (`C99_failed_violated`); so does
    the `import()` of another module that asks for it, which is resolved although a request below
    was never found (`C99_second_violated`).
115. **C99, hosts that answer later**: `module_load_ok` (rjs_module_opt.c:586-600) goes through the requests of the
    module but does not put it on the list: it keeps the status "requested", so linking meets the assertion at 746
    (`C99_late_status_violated`), and a name it asks for that is not found does not reject the load
    (`C99_late_missing_violated`).  A host that rejects its promise without `rjs_load_module` leaves the
    module allocated, which counts as loaded (`C99_late_refused_violated`).  The loader of the program in
    src/exe answers at once and is not concerned.
116. **C100**: the number of a back reference is computed in an `int` (rjs_regexp.c:1279-1290), the limits of a
    quantifier in an `int64_t` (1062-1073), both without a check.  `/(a)\2147483648/` is undefined behaviour
    (`C100_backref_violated`).  Compiled to wrapping arithmetic `/(a)\4294967295/` has the index −1, which passes
    `index >= group_num` (1470, 2269) and reads in front of the array of captures (2274), and `/(a)\4294967297/`
    becomes `/(a)\1/` (`C100_wrapped_violated`).  `/a{9223372036854775808}/` is undefined behaviour too (`C100_quant_violated`).

### Seen while reading, not modelled

* `Object.getOwnPropertyDescriptor` gives RJS_FALSE for a missing property; bound and used as a getter it makes tests
  such as `rjs_get(…) == RJS_OK` fail, and `Object.values` repeats the item before.

* `let {...a, b} = o` is accepted (`parse_object_binding_pattern`, rjs_parser.c:5854-5869, does not look at what
  follows a rest property).
* `parse_ques_expr` compares with `r == RJS_FALSE` in place of `b` (rjs_parser.c:4063), so the left constant is never
  the result; the check of covered initialisers does not look into the targets of `++` and `--`.

* Registers are packed by the order of the commands (rjs_bc_gen.c:4165-4187), although a finally
  block runs in the middle of a jump: with a jump out of a finally block inside another one two
  completion values may share a register.

* Anonymous classes get their name after their evaluation (rjs_define_field 1833-1837, object
  literals): static blocks do not see it, and `rjs_set_function_name` (rjs_operation.c:1071)
  overwrites a static member called `name`.
* JSON: array elements are stored with `rjs_set_index`, so setters on
  `Array.prototype` are called (rjs_json_opt.c:168); `stringify` reads a property
  twice (lines 762, 845), visible with getters; nesting is limited by the C stack
  only.  A gap such as `--` gives a text that is not JSON, as the standard has it.
* After the detachment of a buffer the keys of a typed array are still listed
  (rjs_int_indexed_object_opt.c:295-319).
* `Atomics.wait` does not look again whether the buffer is detached
  (rjs_atomics_object_inc.c:1223), does not wrap the expected value of a
  `BigInt64Array` (1194-1196), and answers "ok" after EINVAL.
* `delete` of a global name that does not exist answers false
  (rjs_global_env.c:144-182).
* `padStart` converts the filler even if nothing is to be padded.
* A `return` at a `yield*` whose value has a throwing accessor `constructor` makes
  the engine throw at the `yield*` instead of calling `iterator.throw`.
* Data views are not freed completely (leak).
* Regular expressions: `canonicalize` lacks the rule that a character above 127 is
  not changed into one below (`/s/i` accepts U+017F); with `u` a back reference is
  compared by code units, so half a pair can match, and case folding of
  supplementary characters does not reach it; `lastIndex` inside a pair is not
  moved to its start.

### Simplifications that could hide something

* C46: the target is an ordinary object or array; reading the result of `ownKeys`
  counts as part of the call of the trap.
* C45: no class of graphs with top level `await` is proved to complete.
* C05, C30: the tree is a tree, its pointers are not modelled.
* C36, C37: accessors on the global object are not modelled.

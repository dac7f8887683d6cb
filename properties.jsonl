{"id": "C01", "title": "Sorting is a stable permutation", "statement": "rjs_sort (used by Array.prototype.sort, TypedArray sort and module ordering) returns, for every comparison function that is a total preorder, an array that is a permutation of the input, is ordered by the comparison function, and keeps elements that compare equal in their original relative order. If the comparison function fails, the failure is reported to the caller.", "quantifier": "all arrays of every length, all element values, all total-preorder comparison functions, all points at which the comparison function may fail", "why_tests_cant": "Tests sample some arrays and comparators; stability and the merge boundary cases depend on the length and on every pattern of equal elements.", "anchors": ["src/lib/rjs_sort.c: rjs_sort, sort, merge"]}
{"id": "C02", "title": "The hash table is a finite map", "statement": "After any sequence of insertions of absent keys, removals of present keys and lookups, a lookup in the hash table reports found exactly when the key was inserted and not removed since, returns the entry that was inserted for it, and the reported number of entries is the number of such keys, whatever the hash function returns and however often the bucket array grew.", "quantifier": "all operation sequences, all hash functions, all key sets, growth at any point", "why_tests_cant": "Growth happens at data dependent moments and moves every entry; a lost entry shows only for particular key sets and sizes.", "anchors": ["src/lib/rjs_hash.c: rjs_hash_lookup, rjs_hash_insert, rjs_hash_remove, hash_expand"]}
{"id": "C03", "title": "Map and Set are insertion ordered maps", "statement": "A Map (or Set) driven by any sequence of set/add, get/has, delete and clear calls answers every call as an insertion ordered association list would in which keys are compared with SameValueZero: a later set of an existing key keeps its position, a deleted and re-added key moves to the end.", "quantifier": "all histories of set/get/has/delete/clear, all keys including NaN, -0, strings and BigInts", "why_tests_cant": "The claim ranges over all histories and all key values; only the interplay of hash value and key equality over many keys reveals a key that is stored but not found.", "anchors": ["src/lib/rjs_hash_object_inc.c: hash_add, hash_get, hash_delete, hash_clear", "src/lib/rjs_hash.c: hash_op_value_key, hash_op_value_equal"]}
{"id": "C04", "title": "Map/Set iteration survives any mutation", "statement": "For every interleaving of next() calls of any number of live iterators with set/add, delete and clear calls, an iterator never returns an entry that was deleted before it was reached, never returns the same live entry twice, returns every entry that stays in the collection from the time the iterator is created (or the entry is added, before the iterator is exhausted), and never touches freed memory.", "quantifier": "all interleavings of iterator steps and mutations, any number of concurrent iterators", "why_tests_cant": "The bad cases are interleavings (delete the entry an iterator stands on, clear then add, two iterators on the same entry); tests only sample a few.", "anchors": ["src/lib/rjs_hash_object_inc.c: hash_iter_next, hash_delete, hash_clear", "src/lib/rjs_map_object_inc.c: Map_prototype_forEach"]}
{"id": "C05", "title": "The red-black tree stays an ordered, balanced index", "statement": "After any sequence of insertions at the position given by the search and removals, the tree contains exactly the nodes inserted and not removed, an in-order walk lists them in key order, no red node has a red child, and every path from the root to a leaf has the same number of black nodes (hence the height is at most 2*log2(n+1)).", "quantifier": "all sequences of insert and remove, all key sets, all tree shapes", "why_tests_cant": "Rebalancing has many shape dependent cases; several need trees with specific colour patterns that random tests rarely build.", "anchors": ["src/lib/rjs_rbt.c: rjs_rbt_insert, rbt_fixup, rjs_rbt_remove, rjs_rbt_first, rjs_rbt_last, rjs_rbt_prev, rjs_rbt_next", "src/lib/include/rjs_rbt.h: rjs_rbt_link"]}
{"id": "C06", "title": "Linked list operations are sequence operations", "statement": "The intrusive doubly linked list behaves like a mathematical sequence: append adds at the end, prepend at the front, remove deletes exactly the given node, join concatenates, and after any sequence of these operations walking forward and walking backward give the same nodes in opposite order; no other list is affected.", "quantifier": "all heaps of lists, all sequences of append/prepend/remove/join on distinct nodes", "why_tests_cant": "Pointer structures can be corrupted by one specific order of operations and look fine in one walking direction.", "anchors": ["include/ratjs/rjs_list.h: rjs_list_append, rjs_list_prepend, rjs_list_remove, rjs_list_join"]}
{"id": "C07", "title": "Garbage collection never frees a reachable thing", "statement": "A garbage collection, run on any heap graph (cyclic, arbitrarily deep or wide, with any number of things), frees no thing that is reachable from the roots, including when the bounded mark stack overflows any number of times.", "quantifier": "all heap graphs, all root sets, all orders of scanning, any number of mark stack overflows", "why_tests_cant": "Overflow of the mark stack needs large graphs of particular shapes and the set of graphs is infinite.", "anchors": ["src/lib/rjs_gc.c: rjs_gc_run, gc_scan_root, gc_scan_things, gc_sweep, rjs_gc_mark", "include/ratjs/rjs_gc.h: rjs_gc_mark"]}
{"id": "C08", "title": "Garbage collection frees everything unreachable", "statement": "After a garbage collection every thing that was not reachable from the roots has been released exactly once and every surviving thing is unmarked again, so the next collection starts from a clean state; hence memory is bounded by the reachable heap after each collection.", "quantifier": "all heap graphs and all sequences of mutations and collections", "why_tests_cant": "Leaks of unreachable cycles and stale marks surface only after particular histories.", "anchors": ["src/lib/rjs_gc.c: rjs_gc_run, gc_sweep, rjs_gc_add"]}
{"id": "C09", "title": "A live WeakMap keeps the values of its live keys", "statement": "As long as a WeakMap and a key are both reachable, get(key) returns the value that was last stored for the key, whatever garbage collections happen in between.", "quantifier": "all histories of WeakMap operations and garbage collections, all values including values reachable only through the WeakMap", "why_tests_cant": "It needs a garbage collection between set and get with a value that nothing else references; a test that keeps the value alive passes.", "anchors": ["src/lib/rjs_hash_object_inc.c: weak_hash_op_gc_scan", "src/lib/rjs_weak_map_object_inc.c", "src/lib/rjs_weak_ref_opt.c: rjs_solve_weak_refs"]}
{"id": "C10", "title": "Jobs run once, in the order they were queued", "statement": "rjs_solve_jobs runs every queued job exactly once in first-in first-out order; jobs queued while another job runs are run afterwards, and when it returns the queue is empty.", "quantifier": "all sets of jobs, including jobs which queue any number of further jobs", "why_tests_cant": "The order of jobs queued by jobs depends on the whole history.", "anchors": ["src/lib/rjs_job.c: rjs_job_enqueue, rjs_solve_jobs"]}
{"id": "C11", "title": "A promise settles at most once", "statement": "For every interleaving of calls of its resolving functions (any number of calls, resolve and reject mixed, with values, with thenables that call back any number of times, synchronously or later, with the promise itself, with thenables whose then getter throws or calls the resolving functions again) a promise leaves the pending state at most once and never changes its result afterwards; the internal assertion that the promise is pending never fails.", "quantifier": "all sequences of resolving function calls and thenable behaviours, all schedules of the job queue", "why_tests_cant": "Re-entrancy through then getters and thenables gives unboundedly many call patterns.", "anchors": ["src/lib/rjs_promise.c: promise_resolve_nf, promise_reject_nf, fulfill_promise, reject_promise, promise_then_job"]}
{"id": "C12", "title": "Promise reactions run exactly once and in order", "statement": "Every reaction registered with then is queued exactly once: in registration order when the promise settles, immediately when it is already settled; fulfil reactions only run after fulfilment and reject reactions only after rejection, with the promise's result.", "quantifier": "all interleavings of then calls and settlement", "why_tests_cant": "Registration before, during and after settlement, for any number of reactions.", "anchors": ["src/lib/rjs_promise.c: rjs_perform_proimise_then, trigger_promise_reactions, promise_reaction_job"]}
{"id": "C13", "title": "Promise.all resolves with all results in input order, once", "statement": "For every order in which the element promises call their resolve callbacks, including repeated calls of the same callback, Promise.all resolves exactly when every element has called at least once, and the result array holds at index i the first value passed for element i.", "quantifier": "all numbers of elements and all interleavings of callback calls, including duplicates and synchronous calls during the loop", "why_tests_cant": "All completion orders of n elements and duplicate calls cannot be enumerated.", "anchors": ["src/lib/rjs_promise_object_inc.c: perform_promise_all, promise_all_resolve"]}
{"id": "C14", "title": "Promise.allSettled counts each element once", "statement": "For every sequence of calls to the callbacks handed to the elements, Promise.allSettled resolves exactly when each element has settled, and only the first callback of each element counts.", "quantifier": "all interleavings of the fulfil and reject callbacks of all elements, including an element that calls both", "why_tests_cant": "Requires a thenable which calls both callbacks while other elements are pending.", "anchors": ["src/lib/rjs_promise_object_inc.c: perform_promise_all_settled, promise_all_settled_resolve, promise_all_settled_reject"]}
{"id": "C15", "title": "BigInt addition and subtraction are exact", "statement": "For all BigInts a and b of any size and sign, a + b and a - b (and ++, --, unary minus, ~) are the exact integer results in canonical form.", "quantifier": "all pairs of integers of unbounded size", "why_tests_cant": "Borrow and carry chains depend on unbounded digit patterns.", "anchors": ["src/lib/rjs_big_int_internal_opt.c: rjs_big_int_add, rjs_big_int_subtract, bi_add, bi_sub, bi_sub_greater, bi_self_sub_greater, rjs_big_int_inc, rjs_big_int_dec, rjs_big_int_bitwise_not"]}
{"id": "C16", "title": "BigInt multiplication is exact", "statement": "For all BigInts a and b, a * b is the exact product with the right sign.", "quantifier": "all pairs of integers of unbounded size", "why_tests_cant": "Special-cased digits (0, 1) inside longer numbers are rarely hit by random tests.", "anchors": ["src/lib/rjs_big_int_internal_opt.c: bi_mul, bi_mul_int, rjs_big_int_multiply"]}
{"id": "C17", "title": "BigInt division and remainder are exact", "statement": "For all BigInts a and b with b not zero, a / b is the quotient truncated towards zero and a % b the matching remainder, so a == (a/b)*b + a%b, |a%b| < |b| and a%b has the sign of a or is zero.", "quantifier": "all pairs of integers with non-zero divisor", "why_tests_cant": "Long division estimate/correction steps go wrong only for rare digit patterns.", "anchors": ["src/lib/rjs_big_int_internal_opt.c: bi_div, bi_div_int, rjs_big_int_divide, rjs_big_int_remainder"]}
{"id": "C18", "title": "BigInt and string conversions are inverse", "statement": "For every BigInt b and radix 2..36, parsing the digits printed by toString(radix) in that radix gives back b, and printing is canonical (no leading zeros, '-' only for negatives).", "quantifier": "all integers, all radixes", "why_tests_cant": "Unbounded length numbers; zero digits inside the number matter.", "anchors": ["src/lib/rjs_big_int_internal_opt.c: rjs_big_int_to_string, rjs_big_int_from_chars, bi_div_int, bi_mul_int, bi_self_add_int"]}
{"id": "C19", "title": "BigInt bit operations agree with infinite two's complement", "statement": "For all BigInts a and b, a & b, a | b and a ^ b are the results of the operation on the infinite two's complement representations, and a << n, a >> n equal floor(a * 2^n), floor(a / 2^n).", "quantifier": "all pairs of integers and all shift counts", "why_tests_cant": "Negative operands with particular digit patterns.", "anchors": ["src/lib/rjs_big_int_internal_opt.c: bi_bit_op, bi_complement, bi_shift"]}
{"id": "C20", "title": "BigInt.asIntN and asUintN reduce modulo 2^n", "statement": "BigInt.asUintN(n, a) is the integer in [0, 2^n) congruent to a modulo 2^n and BigInt.asIntN(n, a) the one in [-2^(n-1), 2^(n-1)).", "quantifier": "all bit counts n and all integers a", "why_tests_cant": "All pairs (n, a), in particular negative a with few digits and large n.", "anchors": ["src/lib/rjs_big_int_internal_opt.c: rjs_big_int_as_int_n, rjs_big_int_as_uint_n, bi_bits"]}
{"id": "C21", "title": "BigInt comparison is the integer order and representation is canonical", "statement": "Comparison of BigInts is the order of the integers they denote, equality holds exactly when they denote the same integer, zero has a single representation, and every operation returns a canonical value (no leading zero digits).", "quantifier": "all pairs of values any sequence of operations can produce", "why_tests_cant": "A non-canonical result breaks equality only later.", "anchors": ["src/lib/rjs_big_int_internal_opt.c: bi_compare, bi_compare_abs, rjs_big_int_same_value, bi_end, rjs_big_int_is_0"]}
{"id": "C22", "title": "Number to integer conversions are modular", "statement": "ToInt8/16/32 and ToUint8/16/32 of every finite number x are the integers of that width congruent to trunc(x) modulo 2^width, of NaN and infinities 0, and a >>> b equals floor(ToUint32(a) / 2^(ToUint32(b) mod 32)).", "quantifier": "all numbers", "why_tests_cant": "2^64 inputs, and out of range casts are undefined in C so a test on one machine says nothing.", "anchors": ["include/ratjs/rjs_operation.h: rjs_to_int32, rjs_to_uint32, rjs_to_int16, rjs_to_uint16, rjs_to_int8, rjs_to_uint8, rjs_to_uint8_clamp", "src/lib/rjs_number.c: rjs_number_unsigned_right_shift"]}
{"id": "C23", "title": "URI encoding and decoding are inverse", "statement": "For every string s without lone surrogates, encodeURIComponent(s) and encodeURI(s) succeed, contain only unreserved/reserved ASCII characters and %XX escapes, and decodeURIComponent(encodeURIComponent(s)) == s; for every string with a lone surrogate encoding throws URIError.", "quantifier": "all strings of UTF-16 code units", "why_tests_cant": "All code points in all contexts.", "anchors": ["src/lib/rjs_uri_functions_inc.c: uri_encode, uri_decode"]}
{"id": "C24", "title": "URI decoding is memory safe and strict", "statement": "decodeURI and decodeURIComponent read only the characters of their argument, whatever the argument, and throw URIError for every escape sequence that is not the shortest UTF-8 encoding of a Unicode scalar value.", "quantifier": "all strings, in particular those ending inside an escape, overlong forms, surrogates and values above U+10FFFF", "why_tests_cant": "The reads past the end happen only for truncated escapes and are invisible without a memory checker.", "anchors": ["src/lib/rjs_uri_functions_inc.c: uri_decode"]}
{"id": "C25", "title": "Character encoding conversion round trips and stays in bounds", "statement": "Converting any Unicode text from UTF-16 to UTF-8 (or UTF-32, UTF-16BE/LE) and back gives the same text, and the converter never writes more bytes than the output buffer can hold, however the text is cut into buffers.", "quantifier": "all texts, all buffer sizes, all ways of splitting the conversion into calls", "why_tests_cant": "Buffer boundaries fall inside characters only for particular sizes.", "anchors": ["src/lib/rjs_conv_internal_opt.c: utf8_to_uc, utf8_from_uc, rjs_conv_run", "src/lib/include/rjs_uchar.h: rjs_uc_to_surrogate_pair, rjs_surrogate_pair_to_uc"]}
{"id": "C26", "title": "Different property key strings name different properties", "statement": "For any two strings k1 != k2, writing o[k1] never changes what o[k2] reads: only canonical array index strings are identified with array indices.", "quantifier": "all pairs of strings", "why_tests_cant": "All strings; the confusion needs non-canonical numerals such as leading zeros or blanks.", "anchors": ["src/lib/rjs_string.c: rjs_string_to_index_internal"]}
{"id": "C27", "title": "String comparison is the lexicographic total order", "statement": "rjs_string_compare orders strings lexicographically by code unit: it is a total order, returns equal exactly for strings with the same code units, and rjs_string_equal agrees with it for all strings, interned or not.", "quantifier": "all pairs (and triples) of strings, all interning histories", "why_tests_cant": "Prefix cases, transitivity over all triples and the interning shortcut depend on history.", "anchors": ["src/lib/rjs_string.c: rjs_string_compare, rjs_string_equal, rjs_string_to_property_key"]}
{"id": "C28", "title": "String search returns the first (last) occurrence", "statement": "indexOf(p, pos) returns the smallest position >= pos at which p occurs, or -1 when there is none; lastIndexOf(p, pos) the largest position <= pos; both handle empty patterns and patterns longer than the string and never read outside the strings.", "quantifier": "all strings, patterns and positions", "why_tests_cant": "All overlaps of pattern and text.", "anchors": ["src/lib/rjs_string.c: rjs_string_index_of, rjs_string_last_index_of"]}
{"id": "C29", "title": "Padding and trimming", "statement": "padStart/padEnd return a string of exactly the requested length whose kept part is the original and whose padding is a prefix of the infinitely repeated filler; trim removes exactly the longest leading/trailing white space runs.", "quantifier": "all strings, fillers and lengths", "why_tests_cant": "All lengths modulo the filler length.", "anchors": ["src/lib/rjs_string.c: rjs_string_pad, rjs_string_trim"]}
{"id": "C30", "title": "Object property storage is a map from keys to properties", "statement": "However many indexed properties are added, updated and deleted in any order on an object, reading an index returns the property stored last for it and not deleted since, no matter whether the object currently keeps its indexed properties in a dense array or a tree and how often it switched; no operation dereferences a null or out of bounds pointer.", "quantifier": "all sequences of indexed property additions, updates and deletions", "why_tests_cant": "Switching between representations depends on counts and maxima over the whole history.", "anchors": ["src/lib/rjs_object.c: prop_add, prop_delete, prop_lookup, prop_array_fixup, prop_rbt_to_vec, prop_vec_to_rbt, update_array_item_max"]}
{"id": "C31", "title": "Own keys are listed in the specified order", "statement": "The own property keys of an ordinary object are exactly the live properties, each once: array indices in increasing numeric order, then strings in order of creation, then symbols in order of creation; deleting and re-adding a key moves it to the end.", "quantifier": "all histories of property creation and deletion", "why_tests_cant": "Order depends on the full history and on the storage representation.", "anchors": ["src/lib/rjs_object.c: rjs_ordinary_object_op_own_property_keys, prop_add, prop_delete"]}
{"id": "C32", "title": "Non-configurable properties keep their promises", "statement": "Once a property of an ordinary object is non-configurable it never disappears, never becomes configurable, never changes enumerability or kind; if it is also non-writable its value never changes. This holds under every sequence of define, set, delete and freeze operations with arbitrary descriptors.", "quantifier": "all sequences of operations with all descriptors", "why_tests_cant": "The number of descriptor combinations times the history is unbounded.", "anchors": ["src/lib/rjs_object.c: validate_and_apply_property, rjs_ordinary_object_op_delete, rjs_ordinary_object_op_set"]}
{"id": "C33", "title": "Non-extensible objects never grow", "statement": "After preventExtensions succeeds on an ordinary object no operation sequence adds a property to it, changes its prototype or makes it extensible again; a frozen object is observably constant for ever.", "quantifier": "all operation sequences after preventExtensions / freeze", "why_tests_cant": "Quantifies over all later histories.", "anchors": ["src/lib/rjs_object.c: rjs_ordinary_object_op_prevent_extensions, rjs_ordinary_object_op_set_prototype_of, rjs_ordinary_object_op_define_own_property", "src/lib/rjs_operation.c: rjs_set_integrity_level, rjs_test_integrity_level"]}
{"id": "C34", "title": "Prototype chains of ordinary objects are acyclic", "statement": "Whatever sequence of setPrototypeOf calls is made on ordinary objects, no prototype chain ever becomes cyclic, so property lookup terminates.", "quantifier": "all sequences of setPrototypeOf calls on any number of objects", "why_tests_cant": "Cycles of any length, built in any order.", "anchors": ["src/lib/rjs_object.c: rjs_ordinary_object_op_set_prototype_of"]}
{"id": "C35", "title": "Array length is always larger than every index", "statement": "After any sequence of element definitions, deletions and length assignments, the length of an array is larger than every array index property of it; shrinking the length deletes exactly the elements at or above the new length, or stops just above the highest non-configurable element and reports failure; a non-writable length is never changed.", "quantifier": "all sequences of element and length operations", "why_tests_cant": "All interleavings of sparse indices, attributes and lengths.", "anchors": ["src/lib/rjs_array.c: array_set_length, array_set_item, array_op_define_own_property", "src/lib/rjs_object.c: rjs_ordinary_object_delete_from_index"]}
{"id": "C36", "title": "Lexical bindings: dead zone and const", "statement": "In a declarative environment a binding read or written before initialisation throws ReferenceError, is initialised at most once, and an immutable binding keeps its initial value under every later sequence of reads and assignments (throwing TypeError for strict bindings).", "quantifier": "all sequences of create/initialise/get/set/delete on an environment", "why_tests_cant": "All interleavings.", "anchors": ["src/lib/rjs_decl_env.c: rjs_decl_env_op_initialize_binding, rjs_decl_env_op_set_mutable_binding, rjs_decl_env_op_get_binding_value"]}
{"id": "C37", "title": "The binding cache is invisible", "statement": "Name resolution with the binding cache enabled returns the same binding as walking the environment chain, for every sequence of evaluations of the same reference in the same scope structure, including scopes changed by eval and delete; it never returns a freed binding.", "quantifier": "all environment chains and all histories of binding creation and deletion by eval and delete", "why_tests_cant": "Needs a reference evaluated before and after the scope changed.", "anchors": ["src/lib/rjs_operation.c: rjs_resolve_binding, rjs_delete_binding", "src/lib/rjs_environment.c: rjs_env_disable_cache", "src/lib/rjs_decl_env.c: rjs_decl_env_lookup_binding, rjs_decl_env_op_delete_binding", "src/lib/rjs_eval_opt.c"]}
{"id": "C38", "title": "Generators are never re-entered and stay finished", "statement": "For every generator body and every sequence of next/return/throw calls, including calls made by the body itself while it runs, a running generator is not re-entered (TypeError), each yielded value is delivered once and in order, and once finished the generator answers next with {undefined, true}, return(v) with {v, true} and throw(e) by throwing e, for ever.", "quantifier": "all generator bodies and all sequences of resumptions", "why_tests_cant": "Behaviour over all histories.", "anchors": ["src/lib/rjs_generator_opt.c: generator_validate, rjs_generator_resume, rjs_generator_resume_abrupt"]}
{"id": "C39", "title": "Async generator requests are answered in order, once each", "statement": "Every next/return/throw call of an async generator returns a promise which is settled exactly once, the promises are settled in the order of the calls, and calls of next that are answered after the generator has finished get {value: undefined, done: true}.", "quantifier": "all schedules of requests, body steps and job queue runs", "why_tests_cant": "Requests queued while the body awaits, in any number and mix.", "anchors": ["src/lib/rjs_generator_opt.c: async_generator_enqueue, rjs_async_generator_complete_step, rjs_async_generator_drain_queue, async_generator_await_return"]}
{"id": "C40", "title": "Raw buffer reads return what was written", "statement": "For every element type, byte order and offset, writing a value to a buffer and reading it back with the same type and byte order gives the value converted to the element type, changes exactly the bytes of the element, and reading with the other byte order gives the byte-reversed value.", "quantifier": "all element types, values, offsets and byte orders", "why_tests_cant": "All bit patterns times types times byte orders.", "anchors": ["src/lib/rjs_array_buffer_opt.c: rjs_get_value_from_raw, rjs_set_value_in_raw"]}
{"id": "C41", "title": "DataView and typed array accesses stay inside the buffer", "statement": "No sequence of DataView and typed array constructions, reads, writes and detachments accesses a byte outside the viewed part of a buffer; DataView accesses out of range throw RangeError and accesses to a detached buffer throw TypeError.", "quantifier": "all view offsets/lengths, all request indices (including huge and fractional), detachment at any time", "why_tests_cant": "Integer overflow and boundary cases over the whole index range.", "anchors": ["src/lib/rjs_data_view_object_inc.c: get_view_value, set_view_value, DataView_constructor", "src/lib/rjs_int_indexed_object_opt.c: is_valid_int_index"]}
{"id": "C42", "title": "ArrayBuffer.slice copies exactly the requested range", "statement": "slice(start, end) on an ArrayBuffer returns a buffer whose bytes are the bytes of the original in the clamped range, for all relative, negative, huge and reversed bounds; no byte outside either buffer is touched.", "quantifier": "all buffer sizes and all start/end numbers", "why_tests_cant": "All combinations of signs, infinities and order.", "anchors": ["src/lib/rjs_array_buffer_object_inc.c: ArrayBuffer_prototype_slice"]}
{"id": "C43", "title": "Date field extraction is inverse to date construction", "statement": "For every valid time value t (integral milliseconds within +-8.64e15), the UTC year, month, day, hour, minute, second and millisecond reported by the Date getters are in their calendar ranges and Date.UTC applied to them gives t again; the weekday advances by one each day.", "quantifier": "all 1.7e16 time values, including dates before 1970", "why_tests_cant": "The range is far too large to enumerate; errors cluster at leap years and negative times.", "anchors": ["src/lib/rjs_date_object_inc.c: year_from_time, month_from_time, date_from_time, hour_from_time, min_from_time, sec_from_time, ms_from_time, week_day, make_day, make_time, make_date"]}
{"id": "C44", "title": "Each module body runs at most once, after its dependencies", "statement": "For every (possibly cyclic) import graph without top-level await and every order of evaluation requests, each module body runs at most once, a module body runs only after the bodies of all modules it imports have run except those in the same import cycle, an error of a dependency prevents the dependents from running, and evaluating again reports the same error.", "quantifier": "all import graphs, all sequences of evaluation requests, all sets of throwing modules", "why_tests_cant": "Graphs are unbounded; cycles interact with the depth first indices.", "anchors": ["src/lib/rjs_module_opt.c: rjs_module_evaluate, inner_module_evaluation, execute_module"]}
{"id": "C45", "title": "Module evaluation with top-level await always completes", "statement": "If every top-level await settles, every promise returned by module evaluation or import() settles, for every import graph and every order of evaluation requests.", "quantifier": "all import graphs with async modules, all completion orders, all later imports of already evaluated modules", "why_tests_cant": "Needs a second import of a subgraph after asynchronous completion.", "anchors": ["src/lib/rjs_module_opt.c: inner_module_evaluation, execute_valid_modules, async_module_execution_fulfilled, gather_available_ancestors"]}
{"id": "C46", "title": "Proxies cannot break the essential object invariants", "statement": "Whatever a proxy's traps return or throw, the results of getOwnPropertyDescriptor, defineProperty, has, get, set, deleteProperty, ownKeys, isExtensible, preventExtensions, getPrototypeOf and setPrototypeOf on the proxy respect the invariants of the language with respect to its (ordinary) target: e.g. a non-configurable target property cannot be reported absent and a non-writable non-configurable value cannot be reported differently.", "quantifier": "all trap results and all target objects", "why_tests_cant": "All handlers are arbitrary programs.", "anchors": ["src/lib/rjs_proxy_object_opt.c: proxy_object_op_get_own_property, proxy_object_op_define_own_property, proxy_object_op_has_property, proxy_object_op_get, proxy_object_op_set, proxy_object_op_delete, proxy_object_op_own_property_keys"]}
{"id": "C47", "title": "JSON round trip", "statement": "For every value built from null, booleans, strings, finite numbers, arrays and objects, JSON.parse(JSON.stringify(v)) is equal to v, for every indentation given by a number or a string of white space (or none).", "quantifier": "all JSON values of any depth and all strings including control characters, quotes and lone surrogates", "why_tests_cant": "Unbounded trees and strings.", "anchors": ["src/lib/rjs_json_opt.c: serialize_json_property, quote_json_string, parse_value", "src/lib/rjs_lex.c: rjs_lex_get_json_token"]}
{"id": "C48", "title": "JSON.parse accepts exactly JSON", "statement": "JSON.parse throws SyntaxError for every text that is not a JSON text.", "quantifier": "all texts", "why_tests_cant": "All malformed texts.", "anchors": ["src/lib/rjs_json_opt.c: parse_value, parse_array, parse_object", "src/lib/rjs_lex.c: rjs_lex_get_json_token"]}
{"id": "C49", "title": "Atomics.notify wakes the longest waiting agents and loses no wake-up", "statement": "For every interleaving of agents waiting, timing out and notifying on a shared buffer, notify(n) wakes min(n, number of waiters at that location) agents in the order they started to wait, each woken agent is removed from the waiter list so that another notify wakes another one, and every agent in the list is really blocked.", "quantifier": "all interleavings of wait, notify and timeout over any number of agents and locations", "why_tests_cant": "Schedules are not controllable by tests.", "anchors": ["src/lib/rjs_atomics_object_inc.c: Atomics_wait, Atomics_notify", "src/lib/rjs_data_block_opt.c: rjs_add_waiter, rjs_notify_waiter, rjs_get_waiter_list"]}
{"id": "C50", "title": "Every finalization registration is honoured", "statement": "Each register(target, held, token) call of a FinalizationRegistry leads to exactly one cleanup callback with its held value after the target is collected, unless unregister was called with its token before; registrations do not influence each other, even with the same token.", "quantifier": "all sequences of register, unregister and collections", "why_tests_cant": "Needs garbage collections at particular moments with several registrations.", "anchors": ["src/lib/rjs_finalization_registry_opt.c: rjs_finalization_register, rjs_finalization_unregister, rjs_solve_finalization_registry"]}
{"id": "C51", "title": "Value encoding is unambiguous", "statement": "Every JavaScript value has a 64 bit encoding from which its type and content are recovered: a number read back is the number stored (any NaN as NaN), no number can be mistaken for a pointer, boolean, null, undefined or index string, and vice versa.", "quantifier": "all 2^64 numbers and all pointers/indices that fit the encoding", "why_tests_cant": "2^64 bit patterns.", "anchors": ["include/ratjs/rjs_value.h: rjs_value_set_number, rjs_value_get_number, rjs_value_get_type, rjs_value_set_gc_thing"]}
{"id": "C52", "title": "Replacement templates never read outside the strings", "statement": "GetSubstitution on any template, match position, matched string and captures returns the expansion defined by the language and never reads outside the subject string.", "quantifier": "all templates, positions, captures, including results of user-defined exec methods", "why_tests_cant": "User-defined exec results can contain any position and match string.", "anchors": ["src/lib/rjs_string.c: rjs_get_substitution"]}
{"id": "C53", "title": "instanceof does not change its operand", "statement": "Evaluating v instanceof C never changes the value of any variable; after the evaluation v is still the same object.", "quantifier": "all prototype chains of any length", "why_tests_cant": "The result of instanceof itself is right, so tests of instanceof pass.", "anchors": ["src/lib/rjs_operation.c: rjs_ordinary_has_instance"]}
{"id": "C54", "title": "Atomics operations never touch a detached buffer", "statement": "No Atomics read-modify-write operation accesses the memory of a buffer that was detached while the arguments were being converted.", "quantifier": "all argument conversion side effects", "why_tests_cant": "Needs a conversion callback that detaches the buffer; the memory error is silent.", "anchors": ["src/lib/rjs_atomics_object_inc.c: Atomics_add, Atomics_compareExchange, Atomics_store, validate_atomic_access"]}
{"id": "C55", "title": "Property descriptors convert without loss", "statement": "Completing a property descriptor and storing it yields a property whose reported descriptor has exactly the requested fields plus the defaults for absent fields; redefining with the reported descriptor changes nothing.", "quantifier": "all descriptors and all existing properties", "why_tests_cant": "All 2^9 combinations of present fields times existing states.", "anchors": ["src/lib/rjs_object.c: validate_and_apply_property, rjs_ordinary_object_op_get_own_property", "src/lib/rjs_operation.c: rjs_complete_property_descriptor"]}
{"id": "C56", "title": "BigInt exponentiation is exact", "statement": "For all BigInts a and b with b not negative, a ** b is a to the power b (or a RangeError when b is too large); a negative b is a RangeError.", "quantifier": "all integers a, b", "why_tests_cant": "Repeated squaring over unbounded numbers; special cases for particular bases and exponents.", "anchors": ["src/lib/rjs_big_int_internal_opt.c: rjs_big_int_exponentiate, bi_exp, bi_map_get"]}
{"id": "C57", "title": "WeakRef.deref and WeakSet entries never name a freed thing", "statement": "After any history of mutator operations and garbage collections, the target of a weak reference is either a thing which still exists and was reachable from the roots at every collection since the reference was made, or the reference reads as empty; it reads as empty once a collection has found its target unreachable.", "quantifier": "all heap histories with any number of weak references and collections", "why_tests_cant": "A dangling weak reference depends on the exact interleaving of mutation, reachability and collection.", "anchors": ["src/lib/rjs_weak_ref_opt.c", "src/lib/rjs_gc.c: rjs_gc_run", "src/lib/rjs_weak_ref_object_inc.c"]}
{"id": "C58", "title": "Promise.any rejects exactly when all elements are rejected", "statement": "For every order in which the element promises call their callbacks, including repeated calls and calls during the iteration, Promise.any rejects with an AggregateError exactly when the iteration has ended and every element has called its reject callback; the errors are the first reasons in iteration order, and the counter never wraps round.", "quantifier": "all interleavings of the iteration with callback calls", "why_tests_cant": "Unbounded number of interleavings; synchronous thenables run callbacks inside the loop.", "anchors": ["src/lib/rjs_promise_object_inc.c: perform_promise_any, promise_any_reject"]}
{"id": "C59", "title": "String.prototype.split gives the parts between the separators", "statement": "For every string, separator and limit, split gives the parts of the string between the occurrences of the separator (leftmost first, not overlapping), cut off at the limit; with an empty separator the single code units; joining the parts with the separator gives the string back, and nothing outside of the string is read.", "quantifier": "all strings, separators and limits", "why_tests_cant": "All overlaps of separator and text, separators at both ends, every limit.", "anchors": ["src/lib/rjs_string_object_inc.c: String_prototype_split", "src/lib/rjs_string.c: rjs_string_index_of, rjs_string_substr"]}
{"id": "C60", "title": "String.prototype.replaceAll replaces every occurrence once", "statement": "For every string, pattern and replacement function (or template), replaceAll gives the string in which the occurrences of the pattern, leftmost first and not overlapping, are replaced by the replacement for their position and everything else is kept; an empty pattern occurs before every code unit and at the end; nothing outside of the strings is read.", "quantifier": "all strings, patterns, replacement functions and templates", "why_tests_cant": "Overlapping occurrences, empty patterns and templates with references to the text before and after the match.", "anchors": ["src/lib/rjs_string_object_inc.c: String_prototype_replaceAll", "src/lib/rjs_string.c: rjs_get_substitution"]}
{"id": "C61", "title": "Bitwise operators work on 32 bit integers", "statement": "For all numbers, &, | and ^ give the signed 32 bit integer whose bits are the conjunction, disjunction and exclusive disjunction of the lowest 32 bits of the integer parts, ~ the complement, << the integer times 2^k modulo 2^32 and >> the 32 bit integer divided by 2^k downwards, where k is the second operand modulo 32; NaN and the infinities count as 0.", "quantifier": "all pairs of numbers", "why_tests_cant": "2^128 pairs of operands; the conversions go through casts which are undefined for large numbers.", "anchors": ["src/lib/rjs_number.c: rjs_number_bitwise_not, rjs_number_bitwise_and, rjs_number_bitwise_or, rjs_number_bitwise_xor, rjs_number_left_shift, rjs_number_signed_right_shift"]}
{"id": "C62", "title": "Exponentiation follows the special cases of the standard", "statement": "For all numbers, base ** exponent is as the standard says for NaN, the zeros, the infinities, odd and other exponents and bases of absolute value one; the C function pow is used only for finite operands other than zero.", "quantifier": "all pairs of numbers", "why_tests_cant": "Special cases differ from those of the C function; parity of exponents of every size matters.", "anchors": ["src/lib/rjs_number.c: rjs_number_exponentiate", "include/ratjs/rjs_operation.h: rjs_is_integral_number"]}
{"id": "C63", "title": "Numbers are laid out as strings by the rules of the standard", "statement": "For all digits and exponents which the conversion to decimal can give, the string of a number has the form which the standard demands (plain, with a fraction, with leading zeros, or exponential), denotes exactly the value of these digits, and is written without leaving the digits or the buffer.", "quantifier": "all digit strings of up to 17 digits and all exponents of doubles", "why_tests_cant": "All combinations of digit count and exponent, with a fixed size buffer.", "anchors": ["src/lib/rjs_number.c: rjs_number_to_string"]}
{"id": "C64", "title": "Assignment obeys the property seen first on the prototype chain", "statement": "For every object, key, value and receiver, an assignment is decided by the first property with the key on the prototype chain: a read-only property, own or inherited, refuses it, an accessor's setter is called (none: refused), and otherwise a property of the receiver is defined, keeping the other attributes if it has a writable one already; nothing else changes.", "quantifier": "all objects, prototype chains, keys, values and receivers a program can make", "why_tests_cant": "Prototype chains of any length, receivers different from the object, and all combinations of own and inherited properties.", "anchors": ["src/lib/rjs_object.c: rjs_ordinary_object_op_set"]}
{"id": "C65", "title": "Bulk operations of typed arrays move exactly the right bytes", "statement": "For all typed arrays (also several over the same buffer) and all arguments, with calls back into the program and detachments in between, copyWithin, fill, set, slice and the construction from a typed array leave in memory exactly the elements which the standard demands (those that were there before the operation, converted to the element type), and change no other byte; a detached buffer throws a TypeError and a wrong offset a RangeError.", "quantifier": "all arrays, element types, offsets, relative indices, overlaps and side effects of conversions", "why_tests_cant": "Combinations of element types, overlap, shared memory and detachment during conversions; the errors are silent.", "anchors": ["src/lib/rjs_typed_array_object_inc.c: TypedArray_prototype_copyWithin, TypedArray_prototype_fill, TypedArray_prototype_set, TypedArray_prototype_slice, set_typed_array_from_typed_array, initialize_typed_array_from_typed_array"]}
{"id": "C66", "title": "Atomic read-modify-write operations return the old value and store the combination", "statement": "For every integer typed array which is not detached, every index in range and every value, Atomics.add, sub, and, or, xor and exchange return the value which the element had and leave in it, in one step, the combination of the old and the new value modulo 2^w, and change no other byte.", "quantifier": "all element types, indices, old and new values", "why_tests_cant": "All pairs of values of up to 64 bits, in the byte order of the machine.", "anchors": ["src/lib/rjs_atomics_object_inc.c: Atomics_add, Atomics_and, Atomics_exchange, Atomics_or, Atomics_sub, Atomics_xor"]}
{"id": "C67", "title": "Each call has its own bindings, also when it is a tail call", "statement": "A call of a function creates a new environment: the closures created by earlier calls go on reading and writing the bindings of their own call, also when a call in tail position reuses the frame of its caller, and no environment is treated as an environment of another kind.", "quantifier": "all functions, numbers of calls and captured variables", "why_tests_cant": "Needs a function that both captures a variable and calls itself in tail position; the result is a wrong value, or corruption of memory.", "anchors": ["src/lib/rjs_native_stack.c: rjs_call_state_call (1151-1189)", "src/lib/rjs_function_env.c: rjs_function_env_clear (236-255)", "src/lib/rjs_bc_call.c: 81-84"]}
{"id": "C68", "title": "Date setters change only the component they are given", "statement": "For every date and every argument, the setters (setDate, setMonth, setFullYear, setHours, setMinutes, setSeconds, setMilliseconds, in UTC and in local time with a constant offset) store the time value of the instant that has the given components and the previous values of all the others, carried over as in the proleptic Gregorian calendar, or NaN if this instant is outside the range of dates.", "quantifier": "all valid dates, all arguments including NaN and out of range ones", "why_tests_cant": "Every combination of components, carries in both directions, leap years, negative time values and NaN.", "anchors": ["src/lib/rjs_date_object_inc.c: date_set (1040-1120), setDate and so on (1480-2060)"]}
{"id": "C69", "title": "Dates converted to text are parsed back", "statement": "For every valid date, Date.parse of toISOString gives the time value again, and Date.parse of toString and of toUTCString give it rounded down to whole seconds, whatever the constant local offset in whole minutes; toISOString produces the format of ECMAScript, and every text in that format is parsed as the instant it denotes.", "quantifier": "all valid dates, all local offsets of whole minutes", "why_tests_cant": "A parser and a printer over seventeen quadrillion instants in years of one to six digits, with signs.", "anchors": ["src/lib/rjs_date_object_inc.c: to_date_string (332-377), date_parse (720-975), toISOString (2161-2190), toUTCString (2277-2313)"]}
{"id": "C70", "title": "A regular expression matches as the standard's matcher does", "statement": "For every pattern, every string and every position of it, matching at that position answers what the matcher of the standard answers: no match, or a match with the same end and the same captures, for alternatives, greedy and lazy quantifiers with limits, capturing groups, back references, lookahead and lookbehind (positive and negative).", "quantifier": "all patterns and strings, all positions", "why_tests_cant": "Backtracking explores exponentially many ways; the answer depends on their order.", "anchors": ["src/lib/rjs_regexp.c: match_regexp and the job operations (1826-2793)"]}
{"id": "C71", "title": "The regular expression matcher always ends and stays inside its memory", "statement": "For every pattern that the parser accepts, with and without the flag u, every string and every value of lastIndex, the matcher and exec end; they read the string, the vector of captures and the stack of jobs only inside their limits; a match begins where it was tried, ends at or after that, and all its captures are inside the string; lastIndex is written exactly with the flags g and y, with the end of the match or 0.", "quantifier": "all patterns, strings, flags, positions", "why_tests_cant": "Nested quantifiers over empty matches could loop for ever on some string; a wrong index in the stack shows only on particular backtracking.", "anchors": ["src/lib/rjs_regexp.c: match_regexp and the job operations (1826-2793), rjs_regexp_builtin_exec (2805-3011)"]}
{"id": "C72", "title": "exec finds the leftmost match from lastIndex", "statement": "exec answers null or the leftmost match at or after lastIndex (with y only at lastIndex; without g and y from 0), sets lastIndex as specified, and the result array has an element for every group: the captured string or undefined.", "quantifier": "all patterns, strings, flags, values of lastIndex", "why_tests_cant": "All positions of all strings.", "anchors": ["src/lib/rjs_regexp.c: rjs_regexp_builtin_exec (2805-3011), regexp_adv_str_index (1941-1960)"]}
{"id": "C73", "title": "Character classes and assertions accept the specified characters", "statement": "A class accepts a character exactly if some member of the class is the same character after Canonicalize (the opposite with ^); the dot accepts every character but line terminators (every character with s); ^, $, \\b and \\B hold exactly at line starts, line ends and word boundaries.", "quantifier": "all classes, all characters, all flags", "why_tests_cant": "Every pair of a class and a character, case folding included.", "anchors": ["src/lib/rjs_regexp.c: match_char, match_class_atom, match_class (2075-2159), match_atom (2341-2397)"]}
{"id": "C74", "title": "The mutating array methods change the elements as sequences", "statement": "push, pop, shift, unshift, reverse, fill, copyWithin and splice, on every array and array-like object whose elements are plain data properties, return the specified value and leave the object with exactly the elements of the corresponding operation on sequences: holes stay holes and move with their neighbours, overlapping copies act as if copied at once, nothing outside the elements changes.", "quantifier": "all arrays and array-likes with holes, all arguments including infinities and negative ones", "why_tests_cant": "Loops over moving elements with holes and overlap; errors by one show only for particular lengths, holes and counts.", "anchors": ["src/lib/rjs_array_object_inc.c: copyWithin (510), fill (761), pop (1633), push (1681), reverse (1919), shift (2008), splice (2410), unshift (2885)"]}
{"id": "C75", "title": "The reading array methods compute what they are specified to compute", "statement": "slice, concat, flat, toReversed, toSpliced, with, at, includes, indexOf, lastIndexOf and join give the result of the corresponding operation on the sequence of elements, for every value of their arguments, and leave the object unchanged.", "quantifier": "all arrays with holes, all nesting depths, all index arguments", "why_tests_cant": "Every combination of lengths, holes, negative and infinite indices and nesting.", "anchors": ["src/lib/rjs_array_object_inc.c: at, concat, flat, includes, indexOf, join, lastIndexOf, slice, toReversed, toSpliced, with"]}
{"id": "C76", "title": "The array methods with callbacks call the function for the right elements in the right order", "statement": "forEach, map, filter, every, some, reduce, reduceRight, find, findIndex, findLast, findLastIndex and flatMap call the function once per element that is there (find...: per index), in order, and compute the specified result from the answers; and whatever the callback does to the array, indices only go one way, none reaches the length at the start, and every value passed was read immediately before.", "quantifier": "all arrays with holes, all callbacks with any effects, exceptions included", "why_tests_cant": "The callback can change the array between any two steps; the possible executions are unbounded.", "anchors": ["src/lib/rjs_array_object_inc.c: every, filter, find, findIndex, findLast, findLastIndex, flatMap, forEach, map, reduce, reduceRight, some"]}
{"id": "C77", "title": "Array iterators give every element once and then end for good", "statement": "An iterator over an array gives the elements at the indices 0, 1, 2, ... below the length at the moment of the call; when it has ended, or something was thrown, every further call of next answers that it is done.", "quantifier": "all arrays changing between the calls, all numbers of calls", "why_tests_cant": "The array may shrink and grow between any two of unboundedly many calls.", "anchors": ["src/lib/rjs_array_object_inc.c: ArrayIteratorPrototype_next (3317-3400)"]}
{"id": "C78", "title": "for-in gives each name once, in order, without the hidden ones", "statement": "A for-in loop gives the names of the enumerable string properties of the object and of the objects of its prototype chain as the standard's iterator does: each name at most once, none hidden by a property of the same name of an object before, none whose property is gone when its turn comes, and the objects are asked the same questions in the same order.", "quantifier": "all prototype chains, all lists of keys, all changes between the calls, all numbers of calls", "why_tests_cant": "The table of seen names depends on how strings are stored and on which comparisons happened before; whether a name is found again depends on the number of names and their hash codes.", "anchors": ["src/lib/rjs_for_in_iterator.c: for_in_iterator_proto_next (142-225), hash_op_string_prop_key (28-39)", "src/lib/rjs_hash.c: rjs_hash_lookup (92-127), rjs_hash_insert (138-162)", "src/lib/rjs_string.c: rjs_string_equal (937-949), rjs_index_string_normalize (1379-1391)"]}
{"id": "C79", "title": "The arguments object shares its elements with the parameters", "statement": "In a sloppy function with simple parameters, element i of the arguments object and the parameter whose last occurrence is at position i are one variable: reading, assigning, redefining one is seen in the other, until the element is deleted, made read-only or made an accessor; then they are separate for good. No parameter has two elements.", "quantifier": "all parameter lists with repetitions, all argument lists, all sequences of definitions, assignments, deletions and reads of elements and parameters", "why_tests_cant": "The object keeps values of its own beside the bindings; a difference shows only after certain sequences of redefinitions, assignments and reads, of which there are unboundedly many.", "anchors": ["src/lib/rjs_arguments_object.c: arguments_has_property (56-80) to rjs_mapped_arguments_object_new"]}
{"id": "C80", "title": "Private names belong to one evaluation of a class and are invisible to everything else", "statement": "A private name is made by one evaluation of a class; #x refers to the innermost class around it that declares it; an object has a private element only if it was added to that object under that very name; get, set and #x in o answer as the standard says; operations on ordinary properties neither see nor change private elements, and the other way round.", "quantifier": "all sequences of class evaluations, private and ordinary operations on any objects", "why_tests_cant": "Private elements share one table with ordinary properties; a leak shows only for certain orders of operations and nestings of classes.", "anchors": ["src/lib/rjs_private_name_opt.c: private_name_add (104-134) to rjs_private_element_find (494-515)", "src/lib/rjs_object.c: rjs_property_key_list_add_own_keys (1173-1232)"]}
{"id": "C81", "title": "Class definitions make the class and the instances the standard describes", "statement": "Evaluating a class body evaluates the names of the elements and defines the public methods in order, then gives the constructor its list of instance elements and its static private methods, then evaluates the static fields and blocks in order; an instance gets all private methods, then its fields in order; each object is initialised at most once.", "quantifier": "all class bodies, all behaviours of the code in names, initialisers and blocks, exceptions included", "why_tests_cant": "Elements of five kinds in any order, with user code running in between that can see every intermediate state.", "anchors": ["src/lib/rjs_native_stack.c: rjs_class_state_init (601-711), rjs_class_state_add_element (756-911)", "src/lib/rjs_function.c: rjs_initialize_instance_elements (107-158)", "src/lib/rjs_operation.c: rjs_define_field (1825-1857)", "src/lib/rjs_bc_gen.c: bc_gen_class (3863-3984)"]}
{"id": "C82", "title": "Strings become the numbers they write, and nothing else does", "statement": "The conversion of a string to a number (or BigInt) gives the value of the literal for every string that is a StringNumericLiteral (StringIntegerLiteral) with white space around it, and NaN (a SyntaxError) for every other string; it always ends and is always defined.", "quantifier": "all strings of code units", "why_tests_cant": "The conversion runs the analyser of scripts on the string; what that accepts beyond the grammar of numbers lies in places where nobody looks, and rounding errors show only for certain long digit strings.", "anchors": ["src/lib/rjs_string.c: parse_string (588-708), rjs_string_to_number (716-729), rjs_string_to_big_int (741-745)", "src/lib/rjs_lex.c: lex_number (461-741), lex_identifier (816-926)", "src/lib/rjs_strtoi.c: rjs_strtoi (36-107)"]}
{"id": "C83", "title": "parseFloat and parseInt read the longest number at the start of the string", "statement": "parseFloat gives the value of the longest StrDecimalLiteral at the start of the string behind white space, NaN if there is none; parseInt gives the integer written by the longest run of digits of the radix behind white space, sign and the prefix 0x (radix 0 or 16), NaN if there are none or the radix is not 0 or from 2 to 36; both are always defined.", "quantifier": "all strings of code units, all radixes", "why_tests_cant": "The end of the number is found by scanners of C made for other grammars; strings that continue in a way these accept and the standard does not are never tried.", "anchors": ["src/lib/rjs_global_object.c: global_parseFloat (131-174), global_parseInt (176-240)", "src/lib/rjs_strtoi.c: rjs_strtoi (36-107)", "src/lib/rjs_dtoa.c: rjs_strtod (3480-3715)", "src/lib/rjs_string.c: rjs_string_trim (1101-1140)"]}
{"id": "C84", "title": "Statements run as the standard says", "statement": "The byte code made for a function body or an eval text, run by the interpreter, ends with the value or the exception the standard's evaluation of the statements gives, with the same effects in the same order, and runs forever exactly if that evaluation does: loops, labels, break and continue, switch, try with catch and finally, closing of iterators, completion values. The parser accepts exactly the jumps and labels without early error. No assertion fails.", "quantifier": "all programs of statements, all behaviours of expressions, bindings and iterators (exceptions included), all environments", "why_tests_cant": "Pending completions, jumps through finally blocks and closing of iterators combine without bound; what a wrong combination leaves behind is seen only by a later statement.", "anchors": ["src/lib/rjs_bc_gen.c: bc_gen_stmt (4018-4163), bc_gen_jump_stmt (2683-2728), bc_gen_try_stmt (3518-3680)", "src/lib/rjs_bc_call.c: rjs_bc_call (1226-1375), bc_pop_state (1091-1140)", "src/lib/rjs_native_stack.c: state_pop (80-165)", "src/lib/rjs_parser.c: parse_break_stmt (7022-7083), parse_continue_stmt (7094-7143), parse_try_stmt (6888-6990)"]}
{"id": "C85", "title": "Names declared twice are found, and each scope's table holds the names it declares", "statement": "The parser accepts a script or module exactly if none of the early errors of the standard about repeated declarations applies in any scope (two lexical names, a lexical name and a var name of the same or an inner block, a parameter and a lexical name of the body, a catch parameter and a lexical name of its block, repeated parameters where forbidden, repeated imports); the tables handed to the code generator hold for each scope each name the standard declares there, once, and no other. The stack of declarations is never read when empty and ends empty.", "quantifier": "all programs made of declarations, blocks, loops, catch clauses, functions and classes, nested to any depth, strict or not", "why_tests_cant": "A var name is checked against all scopes between it and its function, so a wrong answer needs a certain order and nesting of declarations; names in a wrong table show only when the code runs.", "anchors": ["src/lib/rjs_parser.c: decl_push (466-489), decl_item_add (566-690), decl_pop (762-), func_pop (1285-1365), parse_for_stmt (6612-6635), parse_try_stmt (6888-6990), hash_add_import (8530-8548)", "src/lib/rjs_code_gen_inc.c: 40-199"]}
{"id": "C86", "title": "Expressions are read with the standard's grammar", "statement": "The parser of expressions always ends. It accepts a text exactly if the standard's grammar derives it from Expression with the given [In], [Yield], [Await] and strict mode, early errors about targets and delete included, and the tree is the one the grammar gives: precedence and associativity of all operators, ** with no unary operator on its left, ?? not mixed with && and ||, new with and without arguments, calls, members, optional chains, private names in front of in, yield, arrows with one parameter, comma. It stops at the first token that cannot belong to the expression.", "quantifier": "all lists of tokens with line marks, all combinations of the parameters", "why_tests_cant": "One function with two priorities stands for some thirty non-terminals; wrong readings need rare combinations of neighbours (new new, new with ?., a decided constant in parentheses in front of =), and a text that should be refused is rarely written.", "anchors": ["src/lib/rjs_parser.c: parse_parentheses_or_params (3193-3308), parse_arguments (3612-3676), parse_super_expr (3680-3753), parse_new_expr (3815-3874), parse_logic_and_expr, parse_logic_or_expr, parse_ques_expr (3920-4080), parse_yield_expr (4086-4150), parse_cond_expr (4330-4380), expr_to_lh (4390-4425), parse_arrow_function (4500-4600), parse_opt_expr (4799-4893), parse_expr_prio (4897-5681)"]}
{"id": "C87", "title": "Operators on values of any type give what the standard gives", "statement": "For any two values (undefined, null, booleans, numbers, strings, symbols, big integers, objects): ==, ===, SameValue, SameValueZero and truth are the standard's relations; <, <=, >, >= compare strings by code units and numbers and big integers by their exact mathematical values, NaN being unordered; +, the other arithmetic operators and the unary ones convert the operands in the standard's order with the standard's hints, concatenate exactly if one primitive operand is a string, and throw a TypeError exactly for symbols and mixtures of big integers and numbers. ToPrimitive, ToNumber, ToString, ToPropertyKey do likewise, with every property read and call in the right order.", "quantifier": "all values, all objects with arbitrary (throwing, state-changing) conversion methods, all doubles and big integers", "why_tests_cant": "Eight types on both sides, conversion methods with effects, and exact comparison of a double with a big integer of any length: tests try a few pairs with plain objects.", "anchors": ["src/lib/rjs_operation.c: rjs_is_loosely_equal (1337-1471), rjs_is_strictly_equal (1482-1496), rjs_to_string_non_string (114-154)", "include/ratjs/rjs_operation.h: 266-693, rjs_get_method (1249-1269)", "src/lib/rjs_object.c: rjs_ordinary_to_primitive (1415-1452), rjs_object_to_primitive (1464-1500)", "src/lib/rjs_bc_call.c: do_bc_negative (275-293), do_bc_add (452-497), NUMERIC_BINARY_OP (513-547), do_bc_compare (595-676)", "src/lib/rjs_big_int_internal_opt.c: bi_set_number (183-240), rjs_big_int_compare_number (2189-2225)"]}
{"id": "C88", "title": "Imported and exported names stand for the variables the standard says", "statement": "The search for an exported name always ends and finds the variable or namespace the standard's ResolveExport finds: none, one, or an ambiguous name. A module is linked exactly if each indirect export and each import resolves to one. At any time after linking, reading an imported name gives what the variable has in the module that declares it, or a ReferenceError if it has no value yet; an imported name cannot be assigned. A namespace object has exactly the names that resolve to one binding, sorted by code units; their properties give the current values and can be neither changed nor deleted.", "quantifier": "all programs of any number of modules with any imports and exports (cycles, renamed names, export *, namespaces), all sequences of linking and assignments", "why_tests_cant": "Ambiguities and cycles appear only with several modules that export everything of each other; a name which resolves to the wrong variable with the same value is not noticed.", "anchors": ["src/lib/rjs_module_opt.c: module_init_env (312-429), resolve_export (1856-1952)", "src/lib/rjs_module_ns_object_opt.c: ops (62-345), get_export_names (377-449), rjs_module_ns_object_new (470-556)", "src/lib/rjs_module_env_opt.c: module_env_op_get_binding_value (47-75), rjs_env_create_import_binding (150-208)", "src/lib/rjs_parser.c: parse_export_decl (9047-9270)", "src/lib/rjs_code_gen_inc.c: 555-690"]}
{"id": "C89", "title": "A script is divided into the tokens of the standard", "statement": "The lexical analyser divides every text into white space, comments and tokens as the lexical grammar of the standard does, the longest punctuator first (?. only if no digit follows), with / read as a division or a regular expression as the parser asks, and } as the end of a block or the continuation of a template according to the braces opened; each token has the value the standard gives (decoded names and strings, cooked and raw templates, digits and base of numbers, reserved words with their escapes noticed). It refuses texts that have no such division, always ends, and is always defined. Reading a character and putting it back restores the input.", "quantifier": "all texts, all sequences of wishes of the parser, all tables of Unicode properties", "why_tests_cant": "The meaning of a character depends on all braces and templates opened before; the tables of words are tries made by a program; wrong readings of rare literals (legacy octal with a point, escapes in classes and templates) are not written in tests.", "anchors": ["src/lib/rjs_lex.c: lex_unicode_escape (242-301), lex_string (304-459), lex_number (462-741), lex_private_identifier (747-811), lex_identifier (817-926), lex_punctuator (932-990), lex_regexp (998-1088), lex_template (1093-1270), rjs_lex_get_token (1279-1432)", "src/lib/rjs_input.c: rjs_input_get_uc (216-261), rjs_input_unget_uc (269-297)", "gen/lextab/lextab.c", "gen/misc/identifier.h", "gen/misc/punctuator.h"]}
{"id": "C90", "title": "The declarations of scripts and eval make exactly the bindings of the standard, or none", "statement": "When a script begins, its declarations are refused with a SyntaxError exactly if a lexical name is already a variable, a lexical binding, or a non-configurable property of the global object, or a variable is already a lexical binding; with a TypeError exactly if the global object does not allow a function or variable; refused declarations change nothing. Otherwise the variables, the last function of each name and the lexical bindings are made with the attributes of the standard, in its order, and nothing else changes. A direct or indirect eval does the same in its own variable environment, with deletable variables; strict code changes nothing outside. delete of a global name follows the attributes. At no time is a name both lexical and a variable, and a lexical binding stays for ever.", "quantifier": "all states of the global object and environment, all lists of declarations, all environments between an eval and its variables, all histories of scripts, evals, deletions and assignments", "why_tests_cant": "Clashes arise between scripts loaded one after the other and depend on attributes and extensibility of the global object; that a refused script left nothing behind is seen only by a later script.", "anchors": ["src/lib/rjs_script.c: rjs_global_declaration_instantiation (337-484)", "src/lib/rjs_eval_opt.c: rjs_eval_declaration_instantiation (40-222), rjs_perform_eval (344-410)", "src/lib/rjs_global_env.c: 79-182, 325-547", "src/lib/rjs_decl_env.c: 175-370", "src/lib/rjs_object_env.c: 51-170", "src/lib/rjs_parser.c: decl_item_add (566-690), func_decl_ref_new (710-758)"]}
{"id": "C91", "title": "The objects of strings and typed arrays have exactly their elements and the other properties the program made", "statement": "Of the object of a string the characters, of a typed array the elements (none if its buffer is detached) are properties whose keys are their numbers in decimal digits; characters can never be written, configured or deleted; elements are always writable, enumerable and configurable, are written with the converted value exactly if they are still there after the conversion, and cannot be deleted or redefined otherwise; no other number is a property of a typed array or is looked for in its prototypes. All other keys behave as in ordinary objects. The list of keys has each own key once, elements first, then indices, strings and symbols.", "quantifier": "all strings and typed arrays of any length, all histories of the internal methods with any keys and descriptors, detaching and conversions with effects", "why_tests_cant": "Keys that are other spellings of a number, detaching in the middle of an assignment, and assignments through an heir of a typed array are not written in tests; that a key is listed twice is seen only by a program that lists keys.", "anchors": ["src/lib/rjs_primitive_object.c: string_get_own_property (64-102), string_object_op_* (104-173), rjs_primitive_object_new (208-258)", "src/lib/rjs_int_indexed_object_opt.c: 54-373", "src/lib/rjs_string.c: rjs_canonical_numeric_index_string_internal (554-591)", "src/lib/rjs_object.c: prop_resolve (192-217), 670-1252"]}
{"id": "C92", "title": "Numbers are written with the digits asked for, rounded to the closest", "statement": "toFixed(f), toExponential(f) and toPrecision(p) write the number with f digits behind the point, f + 1 digits, p digits that is closest to the value (of two equally close ones the larger), laid out as in 21.1.3.2, 21.1.3.3 and 21.1.3.5, with a sign exactly for numbers below zero; toString(radix) writes the value in the radix. Exactly the arguments the standard refuses give a RangeError, numbers that are not finite (for toFixed also those from 10^21 on) are written as ToString does, and nothing is read or written outside of the digits and the buffer.", "quantifier": "for all values p/q in the range of doubles (a superset of the doubles), all numbers of digits from 0 (1) to 100, all radixes", "why_tests_cant": "the values are unbounded in number and the rounding carries through any number of nines; ties, where the code rounds to even and the standard up, are rare among random doubles", "anchors": ["src/lib/rjs_number_object_inc.c:241-662", "src/lib/rjs_dtoa.c:4993-6225"]}
{"id": "C93", "title": "A destructuring pattern does exactly the steps of the standard, in their order", "statement": "An array or object pattern in an assignment, a declaration or a parameter list reads, calls and stores in the order of the standard: the target of an element is evaluated before its value is read, the name of a property before its target; an initialiser is evaluated exactly if the value is undefined; elisions and elements at the end of the iterator read nothing; rest elements get what is left, rest properties all enumerable own properties not named before. The iterator is closed exactly once if the pattern ends or throws while it is not at its end and has not thrown itself, and never otherwise; an exception of the pattern is kept when closing throws. The value of the expression is the value on the right. Whatever the program does, the stack of states is afterwards as before and no assertion fails.", "quantifier": "all patterns (nested to any depth), all programs given as arbitrary state-changing and throwing steps for properties, calls, initialisers, names, targets and stores", "why_tests_cant": "The order of the steps and the closing of iterators are seen only by getters, proxies and iterators that log or throw at one particular step of a nested pattern.", "anchors": ["src/lib/rjs_bc_gen.c: bc_gen_array_assi, bc_gen_object_assi, bc_gen_assi (847-1045), bc_gen_default_init, bc_gen_binding_elem_init, bc_gen_binding_prop_init, bc_gen_binding_assi (2730-2977)", "src/lib/rjs_native_stack.c: rjs_state_deinit (94-175), rjs_iter_state_step (297-330), rjs_iter_state_rest (438-479), copy_data_properties (1430-1492), rjs_object_assi_state_step, _rest (1567-1618)", "src/lib/rjs_iterator.c: 104-302", "src/lib/rjs_bc_call.c: 1023-1057, 1306-1363"]}
{"id": "C94", "title": "Literals become patterns exactly where the standard says so", "statement": "An array or object literal followed by =, and the parentheses before =>, are turned into the pattern or the parameters the standard has for them; a source the standard refuses is refused (no simple target, a name that strict mode forbids, something behind a rest element, n = e in a literal that remains a literal, __proto__ twice), a valid one is read, and the parser never meets one of its assertions.", "quantifier": "all expressions of the cover grammar, nested to any depth, in sloppy and strict mode", "why_tests_cant": "Whether a literal is a pattern is known only after it has been read; the checks are made at several places of which each sees a part of the nesting, and the combinations are unbounded.", "anchors": ["src/lib/rjs_parser.c: check_simple_assi_target 2087-2141, check_expr_ast 2144-2308, check_lh_expr 2373-2473, array_to_binding, object_to_binding, expr_to_binding 2906-3131, args_to_params 3136-3187, parse_parentheses_or_params 3192-3308, parse_array_literal 3311-3393, parse_object_literal 3396-3608, expr_to_lh, parse_assi_expr 4389-4485, parse_arrow_function 4490-4580, binding_param 1115-1205"]}
{"id": "C95", "title": "The functions of Object do the steps of the standard on arbitrary objects", "statement": "Object.assign, keys, values, entries, defineProperty, defineProperties, seal, freeze, isSealed, isFrozen, preventExtensions and isExtensible call the internal methods of their arguments (which may be proxies) in the standard's order with the standard's arguments, and end with the standard's result or exception. In particular a list of properties is read completely before anything is defined, and no exception is lost.", "quantifier": "all objects given as arbitrary state-changing and throwing internal methods, all lists of keys and sources", "why_tests_cant": "Every step may call code of the program; a lost exception or a definition made too early is seen only with a proxy or getter that throws at one particular key of a list of any length.", "anchors": ["src/lib/rjs_object_object_inc.c: 52-217, 223-328, 587-704, 735-749", "src/lib/rjs_operation.c: rjs_to_property_descriptor (252-354), rjs_set_integrity_level (936-1000), rjs_test_integrity_level (1010-1059)", "src/lib/rjs_object.c: rjs_object_assign (1534-1580)"]}
{"id": "C96", "title": "The methods of regular expressions do the steps of the standard with arbitrary expressions and matches", "statement": "RegExp.prototype's @@match, @@matchAll and its iterator, @@replace, @@search, @@split, test and toString search, read, convert, call and set lastIndex in the standard's order and give its result or exception, also if exec, lastIndex, flags and the matches are the program's own. Empty matches move on by one character (code point in unicode mode), a limit is kept exactly, a replacement function gets the captures as they are, and no value that is not a string is read as one.", "quantifier": "all expressions and matches given as arbitrary state-changing and throwing steps, all strings, any number of searches", "why_tests_cant": "The loops run as long as the expression finds matches, each of which may call code of the program; that a replacement is made too early is seen only if a function changes the expression it is called for.", "anchors": ["src/lib/rjs_regexp_object_inc.c: 127-247, 316-592, 595-864, 1143-1203", "src/lib/rjs_regexp.c: rjs_regexp_exec (3023-3053)", "src/lib/rjs_uchar_buffer.c: rjs_uchar_buffer_append_string (133-145)"]}
{"id": "C97", "title": "Iterators, async-from-sync iterators and Promise.race do the steps of the standard on arbitrary objects", "statement": "GetIterator (sync and async), IteratorStep, IteratorClose, next, return and throw of %AsyncFromSyncIteratorPrototype% and Promise.race make the standard's calls in the standard's order and end with its result or exception, whatever the objects, functions and constructors do and whatever went before. An exception is in the error register exactly as long as it is pending; one that became a rejected promise does not come back.", "quantifier": "all objects, functions and constructors given as arbitrary state-changing and throwing steps, all contents of the error register, any number of rounds", "why_tests_cant": "Every step may call code of the program, and the register carries over between calls that have nothing to do with each other.", "anchors": ["src/lib/rjs_iterator.c: 63-302, 393-408", "src/lib/rjs_async_function_object_inc.c: 111-315", "src/lib/rjs_promise_object_inc.c: 43-75, 704-799", "src/lib/rjs_error.c: rjs_throw, rjs_catch"]}
{"id": "C98", "title": "The executor of a promise capability touches its own capability only", "statement": "The executor that NewPromiseCapability hands to a constructor sets the resolving functions of the capability it was made for, once; every later call throws a TypeError; it never changes or looks at a variable of another function, whenever it is called and by whomever.", "quantifier": "all programs of calls, returns, reads and writes of variables, new capabilities and calls of executors, in any nesting", "why_tests_cant": "The constructor is the program's and may keep the executor; what its addresses then point at depends on the functions running at that moment.", "anchors": ["src/lib/rjs_promise.c: promise_capalibity_new_nf (536-552), rjs_new_promise_capability (561-604)", "include/ratjs/rjs_promise.h: rjs_promise_capability_init (49-57)", "include/ratjs/rjs_value.h: rjs_value_get_pointer (103-117)"]}
{"id": "C99", "title": "Loading a module succeeds exactly when everything it asks for loads", "statement": "For every graph of modules, cycles included, and every pattern of names that are not found and modules that cannot be loaded: the promise of rjs_module_load_requested is resolved if and only if every module asked for, directly or through others, was found and loaded; then each of them waits for linking and each of its requests has the module asked for; otherwise the module is left as one that failed. Loading ends for every finite graph.", "quantifier": "all finite or infinite module graphs, all sets of modules that fail to load with an error or a rejected promise, all nesting depths", "why_tests_cant": "The outcome depends on the shape of the graph: a failure deep inside a cycle must reach the root whatever the order in which the list is gone through.", "anchors": ["src/lib/rjs_module_opt.c:478-543", "src/lib/rjs_module_opt.c:545-657", "src/lib/rjs_module_opt.c:690-732", "src/lib/rjs_module_opt.c:1647-1801"]}
{"id": "C100", "title": "Quantifiers and back references of a pattern are read as written", "statement": "For every text behind an atom, the quantifier that is read (least and greatest number, greedy or not, and what is left of the text) is the one the grammar of the standard gives, with the numbers the digits write; a text without one is a SyntaxError or leaves the atom alone as the grammar says. A back reference is taken with the number written if there is such a group and is a SyntaxError otherwise. No number makes the reader compute outside the range of its type.", "quantifier": "all texts, digit strings of every length, all numbers of groups", "why_tests_cant": "The failures need numbers of 10 and of 19 digits; between them everything works, and a wrapped number that falls into the range of the groups looks like an ordinary reference.", "anchors": ["src/lib/rjs_regexp.c:1047-1077", "src/lib/rjs_regexp.c:1276-1294", "src/lib/rjs_regexp.c:1325-1387", "src/lib/rjs_regexp.c:1468-1474"]}

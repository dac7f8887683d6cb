{
 "claims": [
  {
   "property": "C01",
   "status": "proved",
   "theorems": [
    "Verif.Sort.C01_safe_permutation",
    "Verif.Sort.C01_sorted_stable",
    "Verif.Sort.C01_failure",
    "Verif.Sort.C01_logging",
    "Verif.Sort.C01_array_sort"
   ],
   "note": "The comparison function is assumed not to write into the array being sorted (Array.prototype.sort works on a private copy)."
  },
  {
   "property": "C02",
   "status": "proved",
   "theorems": [
    "Verif.Hash.C02_finite_map",
    "Verif.Hash.C02_history"
   ],
   "note": "For every hash function under which equal keys have equal hash values (a hash table has no meaning without)."
  },
  {
   "property": "C03",
   "status": "partial",
   "theorems": [
    "Verif.MapSet.C03_violated_bigint",
    "Verif.MapSet.C03_violated_negzero",
    "Verif.MapSet.C03_partial",
    "Verif.MapSet.C03_generic"
   ],
   "note": "The code violates the claim for equal BigInt keys at different addresses and for the key -0; proved for all other histories."
  },
  {
   "property": "C04",
   "status": "proved",
   "theorems": [
    "Verif.MapSet.C04_safe",
    "Verif.MapSet.C04_live",
    "Verif.MapSet.C04_visited_once",
    "Verif.MapSet.C04_added_visited_once"
   ],
   "note": "For keys whose hash respects equality (all but BigInts, see C03)."
  },
  {
   "property": "C05",
   "status": "proved",
   "theorems": [
    "Verif.RBT.C05_set",
    "Verif.RBT.C05_balanced",
    "Verif.RBT.C05_neighbours",
    "Verif.RBT.C05_walk"
   ],
   "note": "The model has trees and paths of ancestors in place of nodes with child and parent pointers."
  },
  {
   "property": "C06",
   "status": "proved",
   "theorems": [
    "Verif.LinkedList.C06_lists_are_sequences",
    "Verif.LinkedList.C06_step",
    "Verif.LinkedList.C06_removed_keeps_pointers"
   ],
   "note": ""
  },
  {
   "property": "C07",
   "status": "proved",
   "theorems": [
    "Verif.GC.C07_collect",
    "Verif.GC.C07_history"
   ],
   "note": ""
  },
  {
   "property": "C08",
   "status": "proved",
   "theorems": [
    "Verif.GC.C08_collect",
    "Verif.GC.C08_history"
   ],
   "note": ""
  },
  {
   "property": "C09",
   "status": "partial",
   "theorems": [
    "Verif.GC.C09_violated",
    "Verif.GC.C09_partial"
   ],
   "note": "The code violates the claim: the values of a WeakMap are not scanned, so a value which is not reachable otherwise is freed while the entry still points to it. Proved for values which are reachable otherwise."
  },
  {
   "property": "C10",
   "status": "partial",
   "theorems": [
    "Verif.Jobs.C10_violated",
    "Verif.Jobs.C10_fifo_partial",
    "Verif.Jobs.C10_order_partial"
   ],
   "note": "The code violates the claim when a job calls the extension function solveJobs: the running job, still linked, is run again and freed twice. Proved for all jobs which do not."
  },
  {
   "property": "C100",
   "status": "partial",
   "theorems": [
    "Verif.RegNum.C100_quant_partial",
    "Verif.RegNum.C100_no_quant",
    "Verif.RegNum.C100_backref_partial",
    "Verif.RegNum.C100_quant_violated",
    "Verif.RegNum.C100_backref_violated",
    "Verif.RegNum.C100_wrapped_violated"
   ],
   "note": "C100_quant_partial: for all texts a quantifier is read exactly as the grammar has it, for numbers below 2^63; C100_backref_partial: the same for back references below 2^31. Greater numbers leave the type (undefined behaviour): C100_quant_violated, C100_backref_violated; C100_wrapped_violated: with wrapping arithmetic a negative index passes the check of back references."
  },
  {
   "property": "C11",
   "status": "proved",
   "theorems": [
    "Verif.Promise.C11_settles_once",
    "Verif.Promise.C11_first_call_wins",
    "Verif.Promise.C11_first_call"
   ],
   "note": ""
  },
  {
   "property": "C12",
   "status": "proved",
   "theorems": [
    "Verif.Promise.C12_reactions",
    "Verif.Promise.C12_started",
    "Verif.Promise.C12_derived"
   ],
   "note": "That the queue itself runs jobs once and in order is C10."
  },
  {
   "property": "C13",
   "status": "proved",
   "theorems": [
    "Verif.PromiseAll.C13_all"
   ],
   "note": "Array.prototype is taken to have no index accessors."
  },
  {
   "property": "C14",
   "status": "partial",
   "theorems": [
    "Verif.PromiseAll.C14_violated",
    "Verif.PromiseAll.C14_violated_counter",
    "Verif.PromiseAll.C14_partial"
   ],
   "note": "The code violates the claim when an element calls both of its callbacks. Proved for elements which call only one of them, any number of times."
  },
  {
   "property": "C15",
   "status": "partial",
   "theorems": [
    "Verif.BigInt.C15_add_violated",
    "Verif.BigInt.C15_subtract_violated",
    "Verif.BigInt.C15_add_exact_iff",
    "Verif.BigInt.C15_subtract_exact_iff",
    "Verif.BigInt.C15_add_partial",
    "Verif.BigInt.C15_subtract_partial",
    "Verif.BigInt.C15_unary"
   ],
   "note": "The code violates the claim: a borrow is never reset in the limb-wise subtraction. The exact condition for a right result is proved as an equivalence; unary operations are proved for all values."
  },
  {
   "property": "C16",
   "status": "partial",
   "theorems": [
    "Verif.BigInt.C16_violated",
    "Verif.BigInt.C16_mul_exact_iff",
    "Verif.BigInt.C16_partial"
   ],
   "note": "The code violates the claim: wrong sign when the first factor is < -1 and the lowest limb of the second is 1 (and it is not +-1). The exact condition is proved."
  },
  {
   "property": "C17",
   "status": "partial",
   "theorems": [
    "Verif.BigInt.C17_violated",
    "Verif.BigInt.C17_div_zero",
    "Verif.BigInt.C17_partial"
   ],
   "note": "The code violates the claim for dividends >= 2^64 and divisors >= 2^32 (borrow error). Proved for all other operands."
  },
  {
   "property": "C18",
   "status": "proved",
   "theorems": [
    "Verif.BigInt.C18_toString",
    "Verif.BigInt.C18_parse",
    "Verif.BigInt.C18_round_trip"
   ],
   "note": "On digit values; the mapping of digit values to characters is not modelled."
  },
  {
   "property": "C19",
   "status": "partial",
   "theorems": [
    "Verif.BigInt.C19_bitops",
    "Verif.BigInt.C19_bits_determine",
    "Verif.BigInt.C19_shl_violated",
    "Verif.BigInt.C19_shr_violated",
    "Verif.BigInt.C19_shift_violated",
    "Verif.BigInt.C19_shift_partial",
    "Verif.BigInt.C19_shr_exact_iff",
    "Verif.BigInt.C19_shl_exact_iff",
    "Verif.BigInt.C19_shift_large"
   ],
   "note": "& | ^ proved for all operands. Shifts of negative numbers violate the claim; the exact condition is proved."
  },
  {
   "property": "C20",
   "status": "partial",
   "theorems": [
    "Verif.BigInt.C20_spec",
    "Verif.BigInt.C20_violated",
    "Verif.BigInt.C20_asIntN_violated",
    "Verif.BigInt.C20_asUintN_exact_iff",
    "Verif.BigInt.C20_asIntN_exact_iff",
    "Verif.BigInt.C20_partial"
   ],
   "note": "The code violates the claim for negative numbers and bit counts above 32 times the number of limbs; the exact condition is proved."
  },
  {
   "property": "C21",
   "status": "proved",
   "theorems": [
    "Verif.BigInt.C21_compare",
    "Verif.BigInt.C21_canonical",
    "Verif.BigInt.C21_equal_iff_same"
   ],
   "note": ""
  },
  {
   "property": "C22",
   "status": "partial",
   "theorems": [
    "Verif.NumConv.C22_violated",
    "Verif.NumConv.C22_signed_partial",
    "Verif.NumConv.C22_unsigned_partial",
    "Verif.NumConv.C22_integer",
    "Verif.NumConv.C22_shift_partial",
    "Verif.NumConv.C22_clamp"
   ],
   "note": "The code violates the claim: the conversions are undefined for numbers of 2^63 and more, and >>> converts its operands with a cast, which is undefined for negative and large numbers, and does not reduce the shift count. Proved for numbers which fit into 64 bits, >>> for operands in range."
  },
  {
   "property": "C23",
   "status": "proved",
   "theorems": [
    "Verif.Uri.C23_encode",
    "Verif.Uri.C23_lone_surrogate",
    "Verif.Uri.C23_round_trip"
   ],
   "note": ""
  },
  {
   "property": "C24",
   "status": "partial",
   "theorems": [
    "Verif.Uri.C24_violated_read",
    "Verif.Uri.C24_violated_strict",
    "Verif.Uri.C24_safe_partial",
    "Verif.Uri.C24_strict_partial",
    "Verif.Uri.C24_complete"
   ],
   "note": "The code violates the claim: a string which ends in a percent sign and one digit is read past its end, and sequences which are not the shortest form, surrogates and values above U+10FFFF are decoded. Proved for all other strings."
  },
  {
   "property": "C25",
   "status": "partial",
   "theorems": [
    "Verif.Conv.C25_violated",
    "Verif.Conv.C25_violated_buffer",
    "Verif.Conv.C25_run_partial",
    "Verif.Conv.C25_stream_partial",
    "Verif.Conv.C25_buffer_partial",
    "Verif.Conv.C25_round_trip_partial",
    "Verif.Conv.C25_any_input_partial"
   ],
   "note": "The internal converter violates the claim: the conversion to UTF-8 does not look at the room in its buffer. Proved for the other encodings, and for UTF-8 when the room is enough. The ICU and iconv converters are not modelled."
  },
  {
   "property": "C26",
   "status": "partial",
   "theorems": [
    "Verif.Str.C26_violated",
    "Verif.Str.C26_partial",
    "Verif.Str.C26_index_strings"
   ],
   "note": "The code violates the claim: a string of digits with leading zeros or with white space round it is taken to be an array index. Proved for all other strings."
  },
  {
   "property": "C27",
   "status": "proved",
   "theorems": [
    "Verif.Str.C27_compare",
    "Verif.Str.C27_order",
    "Verif.Str.C27_equal",
    "Verif.Str.C27_intern"
   ],
   "note": ""
  },
  {
   "property": "C28",
   "status": "proved",
   "theorems": [
    "Verif.Str.C28_indexOf",
    "Verif.Str.C28_lastIndexOf"
   ],
   "note": ""
  },
  {
   "property": "C29",
   "status": "partial",
   "theorems": [
    "Verif.Str.C29_pad",
    "Verif.Str.C29_violated",
    "Verif.Str.C29_trim_partial"
   ],
   "note": "Padding is proved. Trimming violates the claim for U+0085, which is removed; proved for strings without it. The Unicode White_Space set of the ICU library is taken as in the Unicode standard."
  },
  {
   "property": "C30",
   "status": "partial",
   "theorems": [
    "Verif.PropStore.C30_violated",
    "Verif.PropStore.C30_violated_array",
    "Verif.PropStore.C30_partial",
    "Verif.PropStore.C30_small",
    "Verif.Obj.C30_object_partial"
   ],
   "note": "Defect: `o[100]=1; delete o[100]; o[0]=1` writes through a null pointer (an empty tree is converted to an array which is not allocated); proved with a witness for the store and for whole arrays. Proved for all histories outside that case: the store is a map and nothing goes wrong, whatever the switches between array and tree. Second theorem: no operation on objects and arrays as a whole goes wrong otherwise."
  },
  {
   "property": "C31",
   "status": "proved",
   "theorems": [
    "Verif.Obj.C31_keys",
    "Verif.Obj.C31_order"
   ],
   "note": "All heaps a program can make with objects and arrays; order of creation stated over runs."
  },
  {
   "property": "C32",
   "status": "proved",
   "theorems": [
    "Verif.Obj.C32"
   ],
   "note": "All runs of define, set, delete, preventExtensions, setPrototypeOf, seal, freeze with all descriptors, ordinary objects and arrays."
  },
  {
   "property": "C33",
   "status": "proved",
   "theorems": [
    "Verif.Obj.C33",
    "Verif.Obj.C33_prevent",
    "Verif.Obj.C33_frozen",
    "Verif.Obj.C33_isFrozen"
   ],
   "note": ""
  },
  {
   "property": "C34",
   "status": "proved",
   "theorems": [
    "Verif.Obj.C34",
    "Verif.Obj.C34_lookup",
    "Verif.Obj.C34_setProto"
   ],
   "note": ""
  },
  {
   "property": "C35",
   "status": "proved",
   "theorems": [
    "Verif.Obj.C35",
    "Verif.Obj.C35_shrink",
    "Verif.Obj.C35_assign",
    "Verif.Obj.C35_readonly"
   ],
   "note": ""
  },
  {
   "property": "C36",
   "status": "partial",
   "theorems": [
    "Verif.Env.C36",
    "Verif.Env.C36_binding"
   ],
   "note": "Whole executions with any number of scopes, calls and scripts (C36), and every single binding under every operation incl. direct eval and delete (C36_binding); tail calls and, for C36, direct eval and deletions of global properties are excluded, where the cache is wrong (C37, C67)."
  },
  {
   "property": "C37",
   "status": "partial",
   "theorems": [
    "Verif.Env.C37_violated_global",
    "Verif.Env.C37_violated_eval_wrong",
    "Verif.Env.C37_violated_eval_null",
    "Verif.Env.C37_violated_eval_beyond",
    "Verif.Env.C37_violated_eval_freed",
    "Verif.Env.C37_partial",
    "Verif.Env.C37_determined"
   ],
   "note": "Violated by direct eval (wrong binding, assertion, read beyond the vector, freed binding) and by deletion of a global property. Proved for all executions of code without direct eval, deletion of global properties and tail calls."
  },
  {
   "property": "C38",
   "status": "proved",
   "theorems": [
    "Verif.Gen.C38_answers",
    "Verif.Gen.C38_running",
    "Verif.Gen.C38_assert",
    "Verif.Gen.C38_callable",
    "Verif.Gen.C38_finished",
    "Verif.Gen.C38_received",
    "Verif.Gen.C38_star",
    "Verif.Gen.C38_session",
    "Verif.Gen.C38_delegate"
   ],
   "note": "All runs of any number of generators calling each other, with yield*; and for every code of a generator, as a function of the requests received, every sequence of calls is answered as by the specification."
  },
  {
   "property": "C39",
   "status": "partial",
   "theorems": [
    "Verif.AsyncGen.C39_violated_value",
    "Verif.AsyncGen.C39_violated_assert",
    "Verif.AsyncGen.C39_violated_order",
    "Verif.AsyncGen.C39_safe_partial",
    "Verif.AsyncGen.C39_once_partial",
    "Verif.AsyncGen.C39_order_partial",
    "Verif.AsyncGen.C39_finished_partial",
    "Verif.AsyncGen.C39_session_partial",
    "Verif.AsyncGen.C39_session"
   ],
   "note": "Violated: a next queued with an argument and answered after the end gets its argument back; calls made from an accessor Object.prototype.then while the last promise is resolved fail assertions or are answered out of order. Proved for all other schedules; and for every code of a generator, the answers do not depend on the schedule and are those of calls made one after the other."
  },
  {
   "property": "C40",
   "status": "partial",
   "theorems": [
    "Verif.Raw.C40_violated",
    "Verif.Raw.C40_read_partial",
    "Verif.Raw.C40_write_partial",
    "Verif.Raw.C40_partial",
    "Verif.Raw.C40_order",
    "Verif.Raw.C40_outside"
   ],
   "note": "Violated (undefined casts) for numbers whose integer part does not fit into int64, and for the BigInt -2^63. Proved for all other values, all types, offsets and both orders; float<->double conversions are parameters."
  },
  {
   "property": "C41",
   "status": "proved",
   "theorems": [
    "Verif.Buffer.C41_inside",
    "Verif.Buffer.C41_faults",
    "Verif.Buffer.C41_view",
    "Verif.Buffer.C41_sort_region",
    "Verif.Buffer.C41_calls",
    "Verif.Buffer.C41_get",
    "Verif.Buffer.C41_set_index",
    "Verif.Buffer.C41_set",
    "Verif.Buffer.C41_view_offset",
    "Verif.Buffer.C41_view_length",
    "Verif.Buffer.C41_view_new",
    "Verif.Buffer.C41_typed_offset",
    "Verif.Buffer.C41_typed_length",
    "Verif.Buffer.C41_element_get",
    "Verif.Buffer.C41_element_set"
   ],
   "note": "All executions with calls back, detachments and suspended operations in any order. Values whose conversion is undefined (C40_violated) are excluded from the theorems about values, not from those about bounds."
  },
  {
   "property": "C42",
   "status": "proved",
   "theorems": [
    "Verif.Buffer.C42_call",
    "Verif.Buffer.C42_copy",
    "Verif.Buffer.C42_slice",
    "Verif.Buffer.C42_slice_to_end"
   ],
   "note": "Bytes touched: C41_inside (same model)."
  },
  {
   "property": "C43",
   "status": "partial",
   "theorems": [
    "Verif.Date.C43_calendar",
    "Verif.Date.C43_determined",
    "Verif.Date.C43_total",
    "Verif.Date.C43_partial",
    "Verif.Date.C43_exactly",
    "Verif.Date.C43_violated",
    "Verif.Date.C43_utc",
    "Verif.Date.C43_violated_overflow",
    "Verif.Date.C43_weekday"
   ],
   "note": "Violated: hour, minute, second and millisecond are wrong before 1970 (truncated division) unless the time is a whole number of hours; Date.UTC of huge arguments overflows. Year, month, date and weekday are proved for every valid time, and the round trip for exactly the times where the code is right."
  },
  {
   "property": "C44",
   "status": "proved",
   "theorems": [
    "Verif.Module.C44_once",
    "Verif.Module.C44_total",
    "Verif.Module.C44_order",
    "Verif.Module.C44_prevents",
    "Verif.Module.C44_result",
    "Verif.Module.C44_again"
   ],
   "note": "Modules without top level await (C44_once: all modules): all import graphs with cycles, all sequences of evaluations, all bodies. C44_prevents speaks of modules imported from outside of their cycle: inside a cycle a body may run though another module of the cycle imports a failed one, as in the standard."
  },
  {
   "property": "C45",
   "status": "partial",
   "theorems": [
    "Verif.Module.C45_violated_hang",
    "Verif.Module.C45_violated_late",
    "Verif.Module.C45_violated_again",
    "Verif.Module.C45_violated_assert",
    "Verif.Module.C45_violated_order",
    "Verif.Module.C45_violated_undefined"
   ],
   "note": "Violated in several ways (witnesses: promises that never settle, failing assertions, bodies that run too early). Without top level await every promise settles (C44_result). Missing: completion for a class of graphs with top level await."
  },
  {
   "property": "C46",
   "status": "partial",
   "theorems": [
    "Verif.Proxy.C46_violated",
    "Verif.Proxy.C46_violated_has",
    "Verif.Proxy.C46_violated_delete",
    "Verif.Proxy.C46_getPrototypeOf_partial",
    "Verif.Proxy.C46_setPrototypeOf_partial",
    "Verif.Proxy.C46_isExtensible_partial",
    "Verif.Proxy.C46_preventExtensions_partial",
    "Verif.Proxy.C46_getOwn_absent_partial",
    "Verif.Proxy.C46_getOwn_partial",
    "Verif.Proxy.C46_define_partial",
    "Verif.Proxy.C46_has_partial",
    "Verif.Proxy.C46_get_partial",
    "Verif.Proxy.C46_set_partial",
    "Verif.Proxy.C46_delete_partial",
    "Verif.Proxy.C46_ownKeys_partial",
    "Verif.Proxy.C46_ownKeys_only_partial",
    "Verif.Proxy.C46_forward",
    "Verif.Proxy.C46_forward_get",
    "Verif.Proxy.C46_other",
    "Verif.Proxy.C46_constant_partial"
   ],
   "note": "Violated when the trap is a native function that writes to its argument (Function.prototype[Symbol.hasInstance]): the checks are then made for another object. For all traps that do not write to their first argument (all script functions), all results and all ordinary or array targets each operation is decided exactly as the specification says."
  },
  {
   "property": "C47",
   "status": "partial",
   "theorems": [
    "Verif.Json.C47_partial",
    "Verif.Json.C47_violated"
   ],
   "note": "Violated for the indentations -Infinity and below -2^63 (undefined conversion to ssize_t). Proved for all JSON values of any depth (arrays, objects with any keys, numbers, all strings of code units) and all other numbers or strings of white space; the printed text is also shown to be JSON. Assumed: what rjs_dtoa and rjs_strtod compute (Contract), no toJSON, no setters on Array.prototype, enough C stack."
  },
  {
   "property": "C48",
   "status": "partial",
   "theorems": [
    "Verif.Json.C48_partial",
    "Verif.Json.C48_accepts",
    "Verif.Json.C48_unique",
    "Verif.Json.C48_rejects_partial",
    "Verif.Json.C48_ends",
    "Verif.Json.C48_violated",
    "Verif.Json.C48_violated_numbers",
    "Verif.Json.C48_violated_undef"
   ],
   "note": "Violated: eleven kinds of text that is not JSON are accepted (commas in front of brackets, names as keys, plus signs, NaN, comments, single quotes, control characters, ...). Proved for all texts: what is accepted is JSON up to these deviations and gives the value denoted; every JSON text is accepted with its value; everything else is a SyntaxError."
  },
  {
   "property": "C49",
   "status": "partial",
   "theorems": [
    "Verif.Waiter.C49_safe",
    "Verif.Waiter.C49_list",
    "Verif.Waiter.C49_notify",
    "Verif.Waiter.C49_exclusive",
    "Verif.Waiter.C49_no_lost",
    "Verif.Waiter.C49_release",
    "Verif.Waiter.C49_woken",
    "Verif.Waiter.C49_violated",
    "Verif.Waiter.C49_violated_spurious",
    "Verif.Waiter.C49_violated_cast",
    "Verif.Waiter.C49_partial"
   ],
   "note": "Violated: a notification that meets an agent whose time has just ended is lost (the agent answers timed-out, the next one is not woken); spurious wake-ups answer ok; timeouts of 2^64 ms are an undefined cast. Proved for all interleavings, with pointers and any malloc: the lists, the order and number of woken agents, memory safety, no lost wake-up between the reading and the sleep, release of the mutex; answers are right for runs without those races."
  },
  {
   "property": "C50",
   "status": "partial",
   "theorems": [
    "Verif.Finalization.C50_violated",
    "Verif.Finalization.C50_partial",
    "Verif.Finalization.C50_spec_once"
   ],
   "note": "The code violates the claim: a second registration with the same token replaces the first. Proved for registrations with distinct tokens."
  },
  {
   "property": "C51",
   "status": "partial",
   "theorems": [
    "Verif.Value.C51_violated",
    "Verif.Value.C51_kind_partial",
    "Verif.Value.C51_partial",
    "Verif.Value.C51_injective_partial",
    "Verif.Value.C51_number",
    "Verif.Raw.C51_buffer"
   ],
   "note": "Violated for NaNs with a payload given to rjs_value_set_number (only from outside of the engine). Proved for all other numbers, booleans, index strings and 48 bit pointers. Float elements read from memory are always numbers."
  },
  {
   "property": "C52",
   "status": "partial",
   "theorems": [
    "Verif.Str.C52_violated",
    "Verif.Str.C52_partial"
   ],
   "note": "The code violates the claim for matches made by user code which are longer than the rest of the string. Proved for matches inside of the string."
  },
  {
   "property": "C53",
   "status": "partial",
   "theorems": [
    "Verif.InstanceOf.C53_result",
    "Verif.InstanceOf.C53_typeError",
    "Verif.InstanceOf.C53_operator",
    "Verif.InstanceOf.C53_operand",
    "Verif.InstanceOf.C53_violated",
    "Verif.InstanceOf.C53_partial"
   ],
   "note": "The operator itself changes no variable (all prototype chains). Violated through Function.prototype[Symbol.hasInstance]: as the callback of filter or find it replaces the element by one of its prototypes."
  },
  {
   "property": "C54",
   "status": "partial",
   "theorems": [
    "Verif.Buffer.C54_violated",
    "Verif.Buffer.C54_region",
    "Verif.Buffer.C54_load_partial",
    "Verif.Buffer.C54_store_index_partial",
    "Verif.Buffer.C54_store_partial",
    "Verif.Buffer.C54_rmw_index_partial"
   ],
   "note": "Defect: Atomics.add and so on use the null pointer or freed memory when the buffer is detached during the conversion of the index or of the value. Proved for load and store, and for the others when the buffer is not detached."
  },
  {
   "property": "C55",
   "status": "proved",
   "theorems": [
    "Verif.Obj.C55",
    "Verif.Obj.C55_cases",
    "Verif.Obj.C55_complete",
    "Verif.Obj.C55_redefine"
   ],
   "note": "Refinement of the specification's ValidateAndApplyPropertyDescriptor."
  },
  {
   "property": "C56",
   "status": "partial",
   "theorems": [
    "Verif.BigInt.C56_violated",
    "Verif.BigInt.C56_negative",
    "Verif.BigInt.C56_exact_iff",
    "Verif.BigInt.C56_partial"
   ],
   "note": "The code violates the claim: (-5n) ** 1n is 5n. Exact in all other cases with an exponent below 2^32."
  },
  {
   "property": "C57",
   "status": "proved",
   "theorems": [
    "Verif.GC.C57_weakref"
   ],
   "note": ""
  },
  {
   "property": "C58",
   "status": "proved",
   "theorems": [
    "Verif.PromiseAll.C58_any"
   ],
   "note": ""
  },
  {
   "property": "C59",
   "status": "proved",
   "theorems": [
    "Verif.Str.C59_split",
    "Verif.Str.C59_split_chars",
    "Verif.Str.C59_join"
   ],
   "note": ""
  },
  {
   "property": "C60",
   "status": "proved",
   "theorems": [
    "Verif.Str.C60_replaceAll",
    "Verif.Str.C60_replaceAll_empty",
    "Verif.Str.C60_template"
   ],
   "note": ""
  },
  {
   "property": "C61",
   "status": "partial",
   "theorems": [
    "Verif.NumConv.C61_violated",
    "Verif.NumConv.C61_logic_partial",
    "Verif.NumConv.C61_not_partial",
    "Verif.NumConv.C61_left_partial",
    "Verif.NumConv.C61_right_partial"
   ],
   "note": "Violated (undefined cast) for numbers of 2^63 and more; proved for all others. Shifts of negative integers are taken as gcc does them."
  },
  {
   "property": "C62",
   "status": "partial",
   "theorems": [
    "Verif.NumConv.C62_violated",
    "Verif.NumConv.C62_partial"
   ],
   "note": "Violated (undefined cast) for exponents of 2^63 and more; proved for all others."
  },
  {
   "property": "C63",
   "status": "proved",
   "theorems": [
    "Verif.NumStr.C63_layout",
    "Verif.NumStr.C63_value"
   ],
   "note": "rjs_dtoa, which finds the shortest digits, is not modelled."
  },
  {
   "property": "C64",
   "status": "proved",
   "theorems": [
    "Verif.Obj.C64",
    "Verif.Obj.C64_seen"
   ],
   "note": "Reduced to the definition of a property of the receiver, which C55 (ordinary) and C35 (arrays) specify."
  },
  {
   "property": "C65",
   "status": "partial",
   "theorems": [
    "Verif.Buffer.C65_violated",
    "Verif.Buffer.C65_call",
    "Verif.Buffer.C65_arguments",
    "Verif.Buffer.C65_copyWithin",
    "Verif.Buffer.C65_fill",
    "Verif.Buffer.C65_set_partial",
    "Verif.Buffer.C65_construct_partial",
    "Verif.Buffer.C65_slice_partial"
   ],
   "note": "Defects: slice onto an overlapping array over the same buffer is an undefined memcpy; with shared memory it blocks for ever. Proved: copyWithin and fill entirely; set and construct except for undefined conversions (C40); slice for different memory or no overlap."
  },
  {
   "property": "C66",
   "status": "proved",
   "theorems": [
    "Verif.Buffer.C66_rmw"
   ],
   "note": "For buffers still attached (otherwise C54_violated). Atomicity is that of the C11 operation, which is one step of the model."
  },
  {
   "property": "C67",
   "status": "partial",
   "theorems": [
    "Verif.Env.C67_violated",
    "Verif.Env.C67_violated_cast",
    "Verif.Env.C67_partial"
   ],
   "note": "Violated: a function that calls itself in tail position clears the environment captured by closures."
  },
  {
   "property": "C68",
   "status": "partial",
   "theorems": [
    "Verif.Date.C68_violated",
    "Verif.Date.C68_violated_negative",
    "Verif.Date.C68_violated_nan",
    "Verif.Date.C68_violated_new",
    "Verif.Date.C68_new",
    "Verif.Date.C68_setDate",
    "Verif.Date.C68_setMonth",
    "Verif.Date.C68_setFullYear",
    "Verif.Date.C68_setFullYear_invalid",
    "Verif.Date.C68_setHours_partial",
    "Verif.Date.C68_setHours_all",
    "Verif.Date.C68_setMinutes_partial",
    "Verif.Date.C68_setSeconds_partial",
    "Verif.Date.C68_setMilliseconds_partial"
   ],
   "note": "Violated: setUTCMilliseconds passes the milliseconds as minutes, NaN is cast to int64 in local time, and times before 1970 lose their clock. Proved for arguments of magnitude Near and, where the clock is read, for times at which the code reads it rightly; a constant local offset."
  },
  {
   "property": "C69",
   "status": "partial",
   "theorems": [
    "Verif.Date.C69_parse_partial",
    "Verif.Date.C69_parse_date",
    "Verif.Date.C69_violated_midnight",
    "Verif.Date.C69_violated_day",
    "Verif.Date.C69_violated_overflow",
    "Verif.Date.C69_violated_overflow_all",
    "Verif.Date.C69_utc_text_partial",
    "Verif.Date.C69_string_text_partial",
    "Verif.Date.C69_format_partial",
    "Verif.Date.C69_violated_year",
    "Verif.Date.C69_violated_before",
    "Verif.Date.C69_iso_partial",
    "Verif.Date.C69_utc_partial",
    "Verif.Date.C69_string_partial"
   ],
   "note": "Violated: toISOString does not write years outside 0 to 9999 in the format; times before 1970 are printed wrongly; day 0 accepted; 24:00 rejected; long years overflow an int. Proved: all texts of the format are parsed rightly, and the round trips of all three printers for the times whose clock is read rightly."
  },
  {
   "property": "C70",
   "status": "partial",
   "theorems": [
    "Verif.RegExp.C70_partial",
    "Verif.RegExp.C70_violated",
    "Verif.RegExp.C70_violated_min"
   ],
   "note": "Violated: an iteration that takes nothing is accepted where the standard rejects it (/(a*)*/ on 'b'), and iterations that have to be made are not exempt (/(?:|(a)){1,2}b/ on 'ab'). Proved for all strings, positions and all patterns without the flag u in which atoms that are repeated a variable number of times take at least one character: the stack machine answers exactly what the standard's matcher answers, with all captures; missing: the flag u."
  },
  {
   "property": "C71",
   "status": "proved",
   "theorems": [
    "Verif.RegExp.C71_ends",
    "Verif.RegExp.C71_exec"
   ],
   "note": "All patterns as numbered by the parser, with and without the flag u; the tests on characters are arbitrary functions."
  },
  {
   "property": "C72",
   "status": "partial",
   "theorems": [
    "Verif.RegExp.C72_partial",
    "Verif.RegExp.C72_whole",
    "Verif.RegExp.C72_violated"
   ],
   "note": "Violated: the result array has no element for a group that did not take part. Proved without the flag u for the patterns of C70_partial: leftmost match, lastIndex and all captures are the standard's."
  },
  {
   "property": "C73",
   "status": "partial",
   "theorems": [
    "Verif.RegExp.C73_class_partial",
    "Verif.RegExp.C73_violated",
    "Verif.RegExp.C73_all",
    "Verif.RegExp.C73_lines",
    "Verif.RegExp.C73_boundary"
   ],
   "note": "Violated: with the flag i the limits of a range are changed to upper case, so /[_-a]/i refuses '_'. Proved for all classes without i, and with i for classes without ranges when case folding keeps digits, word characters and white space apart; missing: ranges with i, \\p."
  },
  {
   "property": "C74",
   "status": "partial",
   "theorems": [
    "Verif.ArrayOps.C74_push",
    "Verif.ArrayOps.C74_pop",
    "Verif.ArrayOps.C74_shift",
    "Verif.ArrayOps.C74_unshift_partial",
    "Verif.ArrayOps.C74_reverse",
    "Verif.ArrayOps.C74_fill",
    "Verif.ArrayOps.C74_copyWithin",
    "Verif.ArrayOps.C74_splice_array",
    "Verif.ArrayOps.C74_splice_partial",
    "Verif.ArrayOps.C74_too_long",
    "Verif.ArrayOps.C74_splice_violated",
    "Verif.ArrayOps.C74_unshift_violated"
   ],
   "note": "Violated: splice that shortens an array-like moves and deletes properties beyond its length; unshift and splice delete one element that should stay, which throws if it cannot be deleted. Proved for all arrays and array-likes with plain elements and any holes, all arguments; getters and inherited elements are left out."
  },
  {
   "property": "C75",
   "status": "partial",
   "theorems": [
    "Verif.ArrayOps.C75_slice",
    "Verif.ArrayOps.C75_concat",
    "Verif.ArrayOps.C75_toReversed",
    "Verif.ArrayOps.C75_toSpliced",
    "Verif.ArrayOps.C75_with_partial",
    "Verif.ArrayOps.C75_at",
    "Verif.ArrayOps.C75_includes_partial",
    "Verif.ArrayOps.C75_indexOf_partial",
    "Verif.ArrayOps.C75_lastIndexOf_partial",
    "Verif.ArrayOps.C75_join",
    "Verif.ArrayOps.C75_flat",
    "Verif.ArrayOps.C75_flat_default",
    "Verif.ArrayOps.C75_flat_inf",
    "Verif.ArrayOps.C75_index_violated"
   ],
   "note": "Violated: index arguments of magnitude 2^63 and more are an undefined conversion in includes, indexOf, lastIndexOf and with. Proved for all arrays with holes and all other arguments."
  },
  {
   "property": "C76",
   "status": "proved",
   "theorems": [
    "Verif.ArrayCalls.C76_forEach",
    "Verif.ArrayCalls.C76_every",
    "Verif.ArrayCalls.C76_some",
    "Verif.ArrayCalls.C76_map",
    "Verif.ArrayCalls.C76_map_range",
    "Verif.ArrayCalls.C76_filter",
    "Verif.ArrayCalls.C76_find",
    "Verif.ArrayCalls.C76_findLast",
    "Verif.ArrayCalls.C76_reduce",
    "Verif.ArrayCalls.C76_reduceRight",
    "Verif.ArrayCalls.C76_flatMap",
    "Verif.ArrayCalls.C76_calls_up",
    "Verif.ArrayCalls.C76_calls_down",
    "Verif.ArrayCalls.C76_calls_find",
    "Verif.ArrayCalls.C76_chained",
    "Verif.ArrayCalls.C76_chained_first"
   ],
   "note": "Results: callbacks with any effects (any lawful monad) that leave the array alone. Order, range and values of the calls: any surroundings."
  },
  {
   "property": "C77",
   "status": "partial",
   "theorems": [
    "Verif.ArrayIter.C77_agree_partial",
    "Verif.ArrayIter.C77_calm_partial",
    "Verif.ArrayIter.C77_unchanged",
    "Verif.ArrayIter.C77_restart_violated",
    "Verif.ArrayIter.C77_throw_violated"
   ],
   "note": "Violated: an iterator that has ended, or threw, gives elements again. Proved: agreement with the standard up to the end, and for ever if the array does not grow afterwards."
  },
  {
   "property": "C78",
   "status": "partial",
   "theorems": [
    "Verif.ForIn.C78_agree_partial",
    "Verif.ForIn.C78_once_partial",
    "Verif.ForIn.C78_names_partial",
    "Verif.ForIn.C78_sound",
    "Verif.ForIn.C78_twice_violated",
    "Verif.ForIn.C78_hidden_violated",
    "Verif.ForIn.C78_symbol_violated"
   ],
   "note": "Violated: an index name of a prototype may be given twice, or although it is hidden; names that a proxy lists after a symbol are lost. Proved: agreement with the standard when index names belong to the first object only and symbols come last; for all chains, a name is given only if its property was found enumerable just then."
  },
  {
   "property": "C79",
   "status": "proved",
   "theorems": [
    "Verif.Args.C79",
    "Verif.Args.C79_connected",
    "Verif.Args.C79_ended",
    "Verif.Args.C79_one"
   ],
   "note": "All sequences of operations. The prototype is taken to have no index properties; operations are given keys that are array indices."
  },
  {
   "property": "C80",
   "status": "proved",
   "theorems": [
    "Verif.Priv.C80",
    "Verif.Priv.C80_brand",
    "Verif.Priv.C80_separate"
   ],
   "note": "All sequences of operations. Getters, setters and methods are functions, never undefined. Of ordinary properties only the values are modelled."
  },
  {
   "property": "C81",
   "status": "partial",
   "theorems": [
    "Verif.Class.C81_partial",
    "Verif.Class.C81_plain",
    "Verif.Class.C81_instance",
    "Verif.Class.C81_twice",
    "Verif.Class.C81_order_violated",
    "Verif.Class.C81_ready_violated"
   ],
   "note": "Violated: static private methods are added in the order of the text, so a static field cannot call one written later; the list of instance elements is attached after the static code ran, so instances made by static code have neither fields nor private methods. Proved for all classes without these two situations, and for instances without conditions on the code run."
  },
  {
   "property": "C82",
   "status": "partial",
   "theorems": [
    "Verif.StrNum.C82_accepts",
    "Verif.StrNum.C82_partial",
    "Verif.StrNum.C82_total",
    "Verif.StrNum.C82_bigint",
    "Verif.StrNum.C82_bigint_partial",
    "Verif.StrNum.C82_violated",
    "Verif.StrNum.C82_undef_violated",
    "Verif.StrNum.C82_rounding_violated",
    "Verif.StrNum.C82_overflow_violated",
    "Verif.StrNum.C82_exponent_violated"
   ],
   "note": "Violated: comments, white space behind a sign, escapes in Infinity and U+0085 are accepted; an escape that is too large shifts -1; an exponent from 2147483600 on overflows an int, one beyond 19999 is taken for 19999; integers in bases 2, 8, 16 are rounded at every digit. Proved: every literal of any length has its value (exponent within 19999; in other bases: if it is a double), every other string without these things is NaN, the conversion ends. The reading part of rjs_strtod is modelled; assumed: from digits and exponent it computes the nearest double."
  },
  {
   "property": "C83",
   "status": "partial",
   "theorems": [
    "Verif.StrNum.C83_float_partial",
    "Verif.StrNum.C83_infinity_partial",
    "Verif.StrNum.C83_float_nan_partial",
    "Verif.StrNum.C83_parts",
    "Verif.StrNum.C83_int_partial",
    "Verif.StrNum.C83_int10_partial",
    "Verif.StrNum.C83_radix",
    "Verif.StrNum.C83_total",
    "Verif.StrNum.C83_float_violated",
    "Verif.StrNum.C83_errno_violated",
    "Verif.StrNum.C83_int10_violated",
    "Verif.StrNum.C83_int_violated",
    "Verif.StrNum.C83_int_large_violated",
    "Verif.StrNum.C83_undef_violated"
   ],
   "note": "Violated: parseFloat takes 'Inf' in any case for Infinity, gives NaN for literals that are too large, and NaN for 'Infinity' once errno is ERANGE; parseInt in base ten reads fractions and exponents, gives 0 for a sign or 0x without digits, NaN for integers that are too large; an exponent of ten digits overflows an int; U+0085 counts as white space. Proved: the longest literal is read and has its value, and the digits of any radix theirs, for all strings without these things (values in bases other than ten: below 2^53, or doubles in a base that is a power of two)."
  },
  {
   "property": "C84",
   "status": "partial",
   "theorems": [
    "Verif.Flow.C84_call_partial",
    "Verif.Flow.C84_return_partial",
    "Verif.Flow.C84_eval_partial",
    "Verif.Flow.C84_safe_partial",
    "Verif.Flow.C84_jumps_valid",
    "Verif.Flow.C84_jumps_accepted_partial",
    "Verif.Flow.C84_label_try_violated",
    "Verif.Flow.C84_finally_jump_violated",
    "Verif.Flow.C84_catch_value_violated",
    "Verif.Flow.C84_return_slot_violated",
    "Verif.Flow.C84_fall_off_violated",
    "Verif.Flow.C84_close_pending_violated",
    "Verif.Flow.C84_close_catches_violated"
   ],
   "note": "Violated: a jump out of a finally block does not replace a pending return; the completion value of a try block stays when its catch clause has none; one slot for the values of all pending returns, also read at the end of the body; closing an iterator while an error is pending, or catching something meanwhile, gives the wrong exception; a labelled try statement rejects breaks to its label from its catch and finally blocks. Proved for all other programs: same result, same effects, same divergence, no failed assertion; accepted jumps are valid for all programs. Expressions are arbitrary but atomic; no yield, await, tail calls; registers are not packed."
  },
  {
   "property": "C85",
   "status": "partial",
   "theorems": [
    "Verif.Decls.C85_safe_partial",
    "Verif.Decls.C85_script_sound_partial",
    "Verif.Decls.C85_module_sound_partial",
    "Verif.Decls.C85_script_complete_partial",
    "Verif.Decls.C85_module_complete_partial",
    "Verif.Decls.C85_script_tables_partial",
    "Verif.Decls.C85_module_tables_partial",
    "Verif.Decls.C85_bare_catch_violated",
    "Verif.Decls.C85_for_block_violated",
    "Verif.Decls.C85_inner_var_violated",
    "Verif.Decls.C85_import_violated"
   ],
   "note": "Violated: a catch clause without a parameter pops a declaration it did not push (failed assertion, NULL, or names in no table); for (let i...) { let i } and function f(){} { var f } are rejected; an imported name may be declared again. Proved for all other programs, of any nesting: accepted exactly if no early error applies, tables exact, stack safe."
  },
  {
   "property": "C86",
   "status": "partial",
   "theorems": [
    "Verif.Expr.C86_total",
    "Verif.Expr.C86_complete_partial",
    "Verif.Expr.C86_shape_partial",
    "Verif.Expr.C86_sound_partial",
    "Verif.Expr.C86_exact_partial",
    "Verif.Expr.C86_unambiguous",
    "Verif.Expr.C86_fold_partial",
    "Verif.Expr.C86_new_new_violated",
    "Verif.Expr.C86_new_super_violated",
    "Verif.Expr.C86_new_opt_violated",
    "Verif.Expr.C86_paren_comma_violated",
    "Verif.Expr.C86_dot_paren_violated",
    "Verif.Expr.C86_folded_target_violated",
    "Verif.Expr.C86_undefined_violated",
    "Verif.Expr.C86_delete_opt_violated",
    "Verif.Expr.C86_yield_private_violated"
   ],
   "note": "Violated: new new X()() is read as a call of the constructed object; new super.x(), strict delete a?.b and yield #x in o are refused or cut short; new a?.b(), (a,), a?.b.(c) and (true && a) = 5 are accepted; undefined ?? a is taken for a. Proved for all texts of any length: the parser ends; outside these situations it accepts exactly the standard's Expressions with the standard's trees; everything it accepts lies in the grammar widened by four named productions; precedence and association do not depend on constants. Left out: object and array literals and patterns, functions with => and parenthesised parameters or block bodies, async arrows, import."
  },
  {
   "property": "C87",
   "status": "partial",
   "theorems": [
    "Verif.Operators.C87_compare_number",
    "Verif.Operators.C87_number_compare",
    "Verif.Operators.C87_strict",
    "Verif.Operators.C87_same_value",
    "Verif.Operators.C87_same_value_zero",
    "Verif.Operators.C87_to_boolean",
    "Verif.Operators.C87_to_primitive",
    "Verif.Operators.C87_to_number",
    "Verif.Operators.C87_to_string",
    "Verif.Operators.C87_to_property_key",
    "Verif.Operators.C87_add",
    "Verif.Operators.C87_arith",
    "Verif.Operators.C87_unary",
    "Verif.Operators.C87_loose",
    "Verif.Operators.C87_relational_default",
    "Verif.Operators.C87_hint_free",
    "Verif.Operators.C87_relational_partial",
    "Verif.Operators.C87_relational_violated"
   ],
   "note": "Violated: the relational operators convert objects with the hint default instead of number, so that dates are compared as strings. Everything else is proved in full: for relational operators, the standard's algorithm with that one hint changed, and the standard's for operands without @@toPrimitive. The arithmetic of two numbers or two big integers and the conversions between strings and numbers are parameters (C15-C21, C56, C57, C82)."
  },
  {
   "property": "C88",
   "status": "partial",
   "theorems": [
    "Verif.Resolve.C88_ends",
    "Verif.Resolve.C88_standard",
    "Verif.Resolve.C88_one_meaning",
    "Verif.Resolve.C88_resolve_partial",
    "Verif.Resolve.C88_unambiguous_partial",
    "Verif.Resolve.C88_names",
    "Verif.Resolve.C88_names_partial",
    "Verif.Resolve.C88_link",
    "Verif.Resolve.C88_link_partial",
    "Verif.Resolve.C88_live_partial",
    "Verif.Resolve.C88_again_partial",
    "Verif.Resolve.C88_import_constant",
    "Verif.Resolve.C88_get_partial",
    "Verif.Resolve.C88_fixed",
    "Verif.Resolve.C88_descriptor",
    "Verif.Resolve.C88_link_once",
    "Verif.Resolve.C88_nested_ambiguity_violated",
    "Verif.Resolve.C88_reexport_violated",
    "Verif.Resolve.C88_cycle_violated",
    "Verif.Resolve.C88_circular_violated"
   ],
   "note": "Violated: a name ambiguous inside of an export * is taken for the first candidate; an imported name that is exported again counts as a variable of its own, which makes names ambiguous that are not, links modules the standard refuses, and lets the read of an imported name recurse forever. Proved: the search ends for all programs; without such re-exports every name with at most one meaning is resolved right, linking, reading and namespaces follow the standard (ambiguous names: if not nested); with them, a read that ends gives the right variable."
  },
  {
   "property": "C89",
   "status": "partial",
   "theorems": [
    "Verif.Lex.C89_read_partial",
    "Verif.Lex.C89_sound_partial",
    "Verif.Lex.C89_defined",
    "Verif.Lex.C89_ends",
    "Verif.Lex.C89_input",
    "Verif.Lex.C89_class_violated",
    "Verif.Lex.C89_empty_violated",
    "Verif.Lex.C89_octal_violated",
    "Verif.Lex.C89_separator_violated",
    "Verif.Lex.C89_template_violated"
   ],
   "note": "Violated: a backslash in a class of a regular expression is no escape, so that /[\\]/]/ ends early; \\u{} is accepted as U+0000; a template with too large a value in braces shifts a negative number; legacy octal digits followed by a point or an exponent and separators behind the point of 08.5_1 are misread. Proved for texts of any length and all tables of properties: outside these texts the tokens are exactly those of the standard in both directions, the division of the text and the braces of templates always; undefined behaviour comes only from too large values in braces; the loops end; the input can be put back. Numbers directly followed by an escape sequence are left open."
  },
  {
   "property": "C90",
   "status": "partial",
   "theorems": [
    "Verif.GlobalDecl.C90_script",
    "Verif.GlobalDecl.C90_order_partial",
    "Verif.GlobalDecl.C90_order_violated",
    "Verif.GlobalDecl.C90_eval",
    "Verif.GlobalDecl.C90_eval_partial",
    "Verif.GlobalDecl.C90_eval_func",
    "Verif.GlobalDecl.C90_eval_strict",
    "Verif.GlobalDecl.C90_with_violated",
    "Verif.GlobalDecl.C90_catch_violated",
    "Verif.GlobalDecl.C90_throw_violated",
    "Verif.GlobalDecl.C90_delete_partial",
    "Verif.GlobalDecl.C90_delete_violated",
    "Verif.GlobalDecl.C90_disjoint",
    "Verif.GlobalDecl.C90_lexical_forever",
    "Verif.GlobalDecl.C90_defined"
   ],
   "note": "Violated: functions declared twice are made in the order of their first declarations; eval in a with statement or catch clause refuses variables of that name, and takes an error of a has trap for yes; delete of an inherited global name answers no. Proved for all global environments and declarations: errors, the absence of changes when refused, and what is made are otherwise the standard's; the invariants for all histories. The global object is ordinary."
  },
  {
   "property": "C91",
   "status": "partial",
   "theorems": [
    "Verif.Exotic.C91_string_partial",
    "Verif.Exotic.C91_string_elements",
    "Verif.Exotic.C91_string_keys",
    "Verif.Exotic.C91_spelling_violated",
    "Verif.Exotic.C91_large_violated",
    "Verif.Exotic.C91_array_partial",
    "Verif.Exotic.C91_array_elements",
    "Verif.Exotic.C91_detached_violated",
    "Verif.Exotic.C91_repeat_violated",
    "Verif.Exotic.C91_receiver_violated",
    "Verif.Exotic.C91_listed_partial"
   ],
   "note": "Violated: every string that converts to the number of a character counts as its key ('' and ' 1' too), and a key of 2^64 or more is converted undefinedly; a detached typed array still lists its elements; a key like '01' makes a property beside the element and its key is listed twice; an assignment for an heir writes the element of the typed array. Proved: all histories with other keys give the results of the standard; for all histories whatever, the characters stay, keys of strings are listed once, typed arrays keep their length and the attributes of their elements. Conversions between numbers and strings are a contract (C63, C82); prototypes are ordinary and fixed."
  },
  {
   "property": "C92",
   "status": "partial",
   "theorems": [
    "Verif.NumText.C92_fixed_near",
    "Verif.NumText.C92_fixed_partial",
    "Verif.NumText.C92_fixed_default",
    "Verif.NumText.C92_half_violated",
    "Verif.NumText.C92_negative_zero_violated",
    "Verif.NumText.C92_exponential_partial",
    "Verif.NumText.C92_exponential_zero",
    "Verif.NumText.C92_exponential_shortest",
    "Verif.NumText.C92_half_exponential_violated",
    "Verif.NumText.C92_precision_partial",
    "Verif.NumText.C92_precision_zero",
    "Verif.NumText.C92_half_precision_violated",
    "Verif.NumText.C92_radix_partial",
    "Verif.NumText.C92_radix_violated",
    "Verif.NumText.C92_cast_violated",
    "Verif.NumText.C92_range",
    "Verif.NumText.C92_tostring",
    "Verif.NumText.C92_receiver"
   ],
   "note": "The number written is always one of the closest; it is the one of the standard if the value is not in the middle between two (there the code takes the even one, the standard the larger), and -0 gets a sign in toFixed. toString(radix) is right for integers of 63 bits; fractions are written in decimal and larger values are converted undefined. The exact computation of rjs_dtoa is modelled, not its fast ways; the shortest digits are given."
  },
  {
   "property": "C93",
   "status": "partial",
   "theorems": [
    "Verif.Destr.C93_partial",
    "Verif.Destr.C93_balanced",
    "Verif.Destr.C93_ends_partial",
    "Verif.Destr.C93_rest_violated",
    "Verif.Destr.C93_key_order_violated",
    "Verif.Destr.C93_catch_violated",
    "Verif.Destr.C93_stale_violated"
   ],
   "note": "Violated: a rest element whose value getter throws closes the iterator all the same; in declarations the target is looked up before a computed name is converted to a key (seen with a with statement over a proxy); an exception is lost if the return method called for it catches something; an exception of return is replaced by an older one that a finally block had overridden. Proved for all other programs and all patterns: the same steps, the same state and the same end as the standard's evaluation of the pattern (C93_partial), and an end without rest elements (C93_ends_partial). For all programs without exception: the stack of states is balanced and no assertion fails (C93_balanced). Missing: programs of the four kinds named."
  },
  {
   "property": "C94",
   "status": "partial",
   "theorems": [
    "Verif.Cover.C94_partial",
    "Verif.Cover.C94_paren_violated",
    "Verif.Cover.C94_rest_violated",
    "Verif.Cover.C94_assert_violated",
    "Verif.Cover.C94_late_check_violated",
    "Verif.Cover.C94_proto_violated",
    "Verif.Cover.C94_strict_violated",
    "Verif.Cover.C94_parentheses_violated"
   ],
   "note": "Violated: a target in parentheses inside of a pattern is refused; a pattern or a comma behind ... in an object pattern is read; a member in the parameters of an arrow function meets assert(0); n = e in an object literal is read in initialisers of patterns and parameters and in left sides; __proto__ twice in a nested pattern or a parameter is refused; strict mode reads eval and arguments alone in braces as parameters; (a,) is read as an expression and ((a) = 1) => 1 as a function. Proved for all expressions without these forms, nested to any depth: valid ones give the tree of the standard, all others a SyntaxError, and no assertion fails. Missing: the forms named; yield, await and rest parameters."
  },
  {
   "property": "C95",
   "status": "partial",
   "theorems": [
    "Verif.ObjFuncs.C95_assign",
    "Verif.ObjFuncs.C95_list",
    "Verif.ObjFuncs.C95_descriptor",
    "Verif.ObjFuncs.C95_define",
    "Verif.ObjFuncs.C95_seal",
    "Verif.ObjFuncs.C95_freeze_calls",
    "Verif.ObjFuncs.C95_freeze_partial",
    "Verif.ObjFuncs.C95_freeze_violated",
    "Verif.ObjFuncs.C95_test_partial",
    "Verif.ObjFuncs.C95_test_violated",
    "Verif.ObjFuncs.C95_extensible",
    "Verif.ObjFuncs.C95_define_properties_partial",
    "Verif.ObjFuncs.C95_define_order_violated",
    "Verif.ObjFuncs.C95_define_lost_violated",
    "Verif.ObjFuncs.C95_define_missing_violated"
   ],
   "note": "Violated: Object.defineProperties reads and defines alternately, loses exceptions of getOwnPropertyDescriptor and defines keys that are not there; Object.freeze throws if the last key has no descriptor; isFrozen and isSealed lose the exception of isExtensible. The others are proved for all objects."
  },
  {
   "property": "C96",
   "status": "partial",
   "theorems": [
    "Verif.RegMethods.C96_match",
    "Verif.RegMethods.C96_search",
    "Verif.RegMethods.C96_split",
    "Verif.RegMethods.C96_replace_partial",
    "Verif.RegMethods.C96_capture_violated",
    "Verif.RegMethods.C96_endless_violated",
    "Verif.RegMethods.C96_toString_partial",
    "Verif.RegMethods.C96_toString_violated",
    "Verif.RegMethods.C96_matchAll_partial",
    "Verif.RegMethods.C96_matchAll_violated",
    "Verif.RegMethods.C96_next_partial",
    "Verif.RegMethods.C96_next_violated"
   ],
   "note": "match, search, test and split are proved for all objects. Violated: replace calls the function between the searches (which may then never end) and gives it the string undefined for undefined captures; toString and matchAll read values that are no strings; the iterator goes on after an exception. GetSubstitution is one step (C52)."
  },
  {
   "property": "C97",
   "status": "partial",
   "theorems": [
    "Verif.Iter.C97_get_iterator",
    "Verif.Iter.C97_step",
    "Verif.Iter.C97_close_partial",
    "Verif.Iter.C97_close_error",
    "Verif.Iter.C97_from_sync",
    "Verif.Iter.C97_race_partial",
    "Verif.Iter.C97_stale_error_violated",
    "Verif.Iter.C97_reject_throws_violated"
   ],
   "note": "GetIterator, IteratorStep, closing because of an exception and the methods of async-from-sync iterators are proved for all worlds. Violated: an exception that became a rejected promise stays in the register and replaces the one of the next iterator's return method; an exception of a capability's reject function is lost. Partial: closing with a clear register; Promise.race for capabilities whose functions do not throw."
  },
  {
   "property": "C98",
   "status": "partial",
   "theorems": [
    "Verif.CapSlots.C98_partial",
    "Verif.CapSlots.C98_foreign_slot_violated",
    "Verif.CapSlots.C98_other_record_violated",
    "Verif.CapSlots.C98_outside_violated"
   ],
   "note": "Violated: the executor holds numbers of slots of the value stack; kept and called after the function that made the capability has returned, it writes into variables of whatever function is running, decides by them whether to throw, or meets an assertion. Partial: all programs that call executors only while that function is running."
  },
  {
   "property": "C99",
   "status": "partial",
   "theorems": [
    "Verif.ModLoad.C99_partial",
    "Verif.ModLoad.C99_imports_partial",
    "Verif.ModLoad.C99_ends",
    "Verif.ModLoad.C99_failed_violated",
    "Verif.ModLoad.C99_second_violated",
    "Verif.ModLate.C99_late_once_partial",
    "Verif.ModLate.C99_late_status_violated",
    "Verif.ModLate.C99_late_missing_violated",
    "Verif.ModLate.C99_late_refused_violated"
   ],
   "note": "C99_partial: for all module graphs, the promise is resolved iff everything asked for was found and loaded, and then all of it can be linked; C99_imports_partial: the same for any sequence of imports that share modules; C99_ends: for finite graphs loading ends. Partial: these hold for a host that loads before it answers; what follows a rejected load is false: C99_failed_violated: the module is left as one to be linked, with a request that has no module; C99_second_violated: a later import of a module that asks for it is resolved and linking meets an assertion. For a host that answers later: C99_late_once_partial: the promise is settled exactly once, after the last answer; with which result is false (C99_late_*_violated)."
  }
 ]
}

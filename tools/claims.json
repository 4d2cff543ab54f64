{
 "C10": {
  "status": "proved",
  "theorems": [
   "Libo.Props.C10_match_sound",
   "Libo.Props.addr_exhaustive"
  ],
  "note": "Every complete match reported for a well-formed pattern is a match in the pattern language of PatSpec.lean."
 },
 "C11": {
  "status": "partial",
  "theorems": [
   "Libo.Props.C11_match_complete_partial",
   "Libo.Props.C11_match_iff_partial",
   "Libo.Props.C11_full_fails"
  ],
  "note": "Proved for patterns without empty alternatives, with an explicit bound on when the backtrack limit can be hit. C11_full_fails: the code does not match /a{,b} against /a."
 },
 "C12": {
  "status": "proved",
  "theorems": [
   "Libo.Props.C12_plain_equality"
  ],
  "note": "Addresses containing '*' excluded: the library lets a lone-star address component match anything."
 },
 "C13": {
  "status": "proved",
  "theorems": [
   "Libo.Props.C13_partial_boundaries",
   "Libo.Props.C13_pattern_complete_partial",
   "Libo.Props.C13_address_complete_partial"
  ],
  "note": "Partial matches split pattern or address at a component boundary, with exact offsets; converse for patterns without empty alternatives."
 },
 "C14": {
  "status": "proved",
  "theorems": [
   "Libo.Props.C14_total",
   "Libo.Props.C14_leading_slash",
   "Libo.Props.C14_codes"
  ],
  "note": "Termination, no read outside the strings, offsets in range, documented codes, for all strings."
 },
 "C04": {
  "status": "partial",
  "theorems": [
   "Libo.Props.C04_sanity_tiles",
   "Libo.Props.C04_count",
   "Libo.Props.C04_iterate_safe_partial",
   "Libo.Props.C04_full_fails",
   "Libo.Props.C04_check_overread",
   "Libo.Props.C04_check_overflow",
   "Libo.Props.C04_accepted_unsafe"
  ],
  "note": "Proved for all byte buffers: an accepted buffer is exactly a header followed by size-prefixed slash-led messages and counting is safe. Iteration is proved safe when addresses and type tags are NUL terminated, which the check does not look at; witnesses show an accepted buffer whose iteration reads outside, and buffers on which the check itself reads outside or overflows int."
 },
 "C05": {
  "status": "proved",
  "theorems": [
   "Libo.Props.C05_iterate",
   "Libo.Props.C05_count"
  ],
  "note": "For every list of messages."
 },
 "C15": {
  "status": "proved",
  "theorems": [
   "Libo.Props.C15_remove",
   "Libo.Props.C15_remove_twice"
  ],
  "note": "For every list of messages and every address."
 },
 "C16": {
  "status": "proved",
  "theorems": [
   "Libo.Props.C16_append",
   "Libo.Props.C16_concat",
   "Libo.Props.C16_replace"
  ],
  "note": "For every list of messages and all relative sizes."
 },
 "C17": {
  "status": "partial",
  "theorems": [
   "Libo.Props.C17_union",
   "Libo.Props.C17_intersection",
   "Libo.Props.C17_difference",
   "Libo.Props.C17_union_keeps_duplicates",
   "Libo.Props.C17_empty_union_uninitialised"
  ],
  "note": "Proved for bundles with plain addresses that are not both empty; union keeps duplicates that were already inside the first bundle (witness), and the header of the union of two empty bundles is uninitialised (witness)."
 },
 "C18": {
  "status": "proved",
  "theorems": [
   "Libo.Props.C18_lookup",
   "Libo.Props.C18_first",
   "Libo.Props.C18_first_equal",
   "Libo.Props.C18_lookup_pattern_partial",
   "Libo.Props.C18_partial_mode_error_matches"
  ],
  "note": "Full-match mode, for all bundles and all queries. C18_partial_mode_error_matches: in partial mode an ill-formed query counts as a match."
 },
 "C19": {
  "status": "partial",
  "theorems": [
   "Libo.Props.C19_bound_partial",
   "Libo.Props.C19_full_fails"
  ],
  "note": "The code locates the type tags with the length of the query instead of the address found; proved when these padded lengths agree, refuted in general."
 },
 "C07": {
  "status": "proved",
  "theorems": [
   "Libo.Props.C07_string",
   "Libo.Props.C07_blob",
   "Libo.Props.C07_contents",
   "Libo.Props.C07_string_4GiB"
  ],
  "note": "Strings below 4 GiB (the mask has 32 bits; C07_string_4GiB shows the bound is needed)."
 },
 "C08": {
  "status": "proved",
  "theorems": [
   "Libo.Props.C08_roundtrip",
   "Libo.Props.C08_wire",
   "Libo.Props.C08_sizes",
   "Libo.Props.C08_encode_decode",
   "Libo.Props.C08_unsized_tags"
  ],
  "note": "Byte swapping for every width, the exact wire size of every fixed-size type tag, and the library's encode/decode entry points; the four tags without a size are shown to be undefined behaviour."
 },
 "C29": {
  "status": "partial",
  "theorems": [
   "Libo.Props.C29_add",
   "Libo.Props.C29_subtract_partial",
   "Libo.Props.C29_subtract_reversed_partial",
   "Libo.Props.C29_compare",
   "Libo.Props.C29_add_subtract",
   "Libo.Props.C29_immediate",
   "Libo.Props.C29_subtract_full_fails"
  ],
  "note": "All time tags; subtracting a later time tag does not borrow (C29_subtract_full_fails)."
 },
 "C30": {
  "status": "proved",
  "theorems": [
   "Libo.Props.C30_wire",
   "Libo.Props.C30_bundle"
  ],
  "note": "All time tags and all bundles."
 },
 "C31": {
  "status": "partial",
  "theorems": [
   "Libo.Props.C31_parse",
   "Libo.Props.C31_print_partial",
   "Libo.Props.C31_roundtrip_partial",
   "Libo.Props.C31_print_full_fails",
   "Libo.Props.C31_print_1950",
   "Libo.Props.C31_print_leap_end",
   "Libo.Props.C31_print_century",
   "Libo.Props.C31_print_wrong_year",
   "Libo.Props.C31_print_iff",
   "Libo.Props.C31_print_total",
   "Libo.Props.C31_text_parse",
   "Libo.Props.C31_text_print_partial",
   "Libo.Props.C31_text_roundtrip_partial",
   "Libo.Props.C31_text_fraction_fails",
   "Libo.Props.C31_text_size",
   "Libo.Props.C31_text_total"
  ],
  "note": "Parsing is right for all dates and texts with up to nine digits of the fraction. For every second it is decided which date is printed: the right one exactly in 1900 and from 2001 on except 31 December of leap years; the date of the day before in 1901-2000; a date 136 or 137 years later on the other days (31 December of leap years, 1 January after years divisible by four in 1901-2000). Every time tag has a text of 27 characters; its digits are the millionths of the fraction except in the last three microseconds of a second, where the fraction is lost. Text and back give the same second and the fraction within three millionths for printable dates."
 },
 "C27": {
  "status": "proved",
  "theorems": [
   "Libo.Props.C27_sequence",
   "Libo.Props.C27_clone"
  ],
  "note": "Heap model with explicit next/prev pointers; any history of operations, results, indices, both walks, callbacks and absence of leaks. Lists above 2^31 elements out of scope (int counters unbounded in the model)."
 },
 "C26": {
  "status": "proved",
  "theorems": [
   "Libo.Props.C26_map",
   "Libo.Props.C26_destructors",
   "Libo.Props.C26_no_leak",
   "Libo.Props.C26_new_overrun",
   "Libo.Props.C26_storeSafe_leaks",
   "Libo.Props.C26_keylen_matters"
  ],
  "note": "Any history on any keys (callers pass the key's own length). Also shown: sizes from 152287 on overrun the prime table, and storeSafe leaks an element on a duplicate key."
 },
 "C28": {
  "status": "partial",
  "theorems": [
   "Libo.Props.C28_alloc",
   "Libo.Props.C28_get",
   "Libo.Props.C28_set",
   "Libo.Props.C28_copy",
   "Libo.Props.C28_clear",
   "Libo.Props.C28_setBlock",
   "Libo.Props.C28_resize",
   "Libo.Props.C28_resize_zero",
   "Libo.Props.C28_copyInto_new",
   "Libo.Props.C28_copyInto_partial",
   "Libo.Props.C28_full_fails",
   "Libo.Props.C28_negative_index"
  ],
  "note": "Everything except copying into an existing array that is too small: the code never grows it (C28_full_fails). Negative indices are not refused (C28_negative_index)."
 },
 "C20": {
  "status": "partial",
  "theorems": [
   "Libo.Props.C20_edits_partial",
   "Libo.Props.C20_fresh",
   "Libo.Props.C20_full_fails",
   "Libo.Props.C20_negative_position"
  ],
  "note": "Proved for every edit history except reinserting a removed atom at the end with insertAtom, where the code keeps the stale next pointer and the list becomes circular (C20_full_fails). Histories that only insert new atoms are covered completely (C20_fresh)."
 },
 "C21": {
  "status": "partial",
  "theorems": [
   "Libo.Props.C21_edits_partial",
   "Libo.Props.C21_addressed",
   "Libo.Props.C21_no_dups",
   "Libo.Props.C21_full_fails",
   "Libo.Props.C21_removeMsg_count"
  ],
  "note": "Proved for every history of addMsg, addMsgWithoutDups, replaceMessage, removeMessage and clear in which replaceMessage/removeMessage are not run over a message whose address was never set (there strcmp gets NULL: C21_full_fails). With addressed messages nothing is excluded (C21_addressed). The public removeMsg does not adjust the count (C21_removeMsg_count)."
 },
 "C06": {
  "status": "partial",
  "theorems": [
   "Libo.Props.C06_agree_partial",
   "Libo.Props.C06_encoded_partial",
   "Libo.Props.C06_full_fails"
  ],
  "note": "Agreement of indexing, iteration and cache for non-negative indices on arbitrary bytes, and exact arguments for every encoded message; negative indices are not refused (witness)."
 },
 "C41": {
  "status": "partial",
  "theorems": [
   "Libo.Props.C41_rename_partial",
   "Libo.Props.validateAddress_iff",
   "Libo.Props.C41_no_typetags"
  ],
  "note": "Exact result for messages with a type tag string; without one the C copies from NULL (witness)."
 },
 "C09": {
  "status": "partial",
  "theorems": [
   "Libo.Props.C09_unserialised",
   "Libo.Props.C09_serialised_narrow",
   "Libo.Props.C09_serialised_wide_partial",
   "Libo.Props.C09_serialised_setter_partial",
   "Libo.Props.C09_full_fails",
   "Libo.Props.C09_more_failures",
   "Libo.Props.C09_float",
   "Libo.Props.C09_double"
  ],
  "note": "Unserialised form: all setters and getters, all values. Serialised form: proved for every getter not wider than the setter, and for wider getters with values that are not negative in a new atom (except int64 on u8/u16 atoms); the full claim is refuted with concrete witnesses (stored -1 as int8 reads back as 255 by the int32 getter). Conversions of strings and to floating point are not modelled."
 },
 "C01": {
  "status": "partial",
  "theorems": [
   "Libo.Props.C01_roundtrip_partial",
   "Libo.Props.C01_decode",
   "Libo.Props.C01_full_fails"
  ],
  "note": "Proved for every bundle of any size and nesting whose messages all have slash-led addresses; values are compared by type tag and by the bytes the type has. A message without address is lost in serialisation, so the full claim is refuted by C01_full_fails. Atoms whose tag promises a string, blob or bundle hold one (NULL pointers are not covered)."
 },
 "C02": {
  "status": "proved",
  "theorems": [
   "Libo.Props.C02_atom",
   "Libo.Props.C02_msg",
   "Libo.Props.C02_bundle",
   "Libo.Props.C02_limit"
  ],
  "note": "For atoms, messages and bundles, including messages without address; C02_limit shows that the 32 bit bound is needed. Atoms whose tag promises a string, blob or bundle hold one."
 },
 "C03": {
  "status": "proved",
  "theorems": [
   "Libo.Props.C03_accepted"
  ],
  "note": "Follows from the exact shape of the serialised bytes (C02) and the completeness of the sanity check (C05_count)."
 },
 "C40": {
  "status": "partial",
  "theorems": [
   "Libo.Props.C40_compare",
   "Libo.Props.C40_total",
   "Libo.Props.C40_strict_weak_order",
   "Libo.Props.C40_ranks",
   "Libo.Props.C40_larger_partial",
   "Libo.Props.C40_largest",
   "Libo.Props.C40_full_fails"
  ],
  "note": "The comparison is a strict weak order on all 7 bit tags and equals comparison by kind, width and signedness on the 14 types of the expression language, where the larger-type choice is symmetric and associative; getLargestType returns a maximum. The full claim fails: types missing from the table (time tags, blobs, bundles) make the choice depend on operand order, and tags above 127 are read outside the table (C40_full_fails)."
 },
 "C33": {
  "status": "partial",
  "theorems": [
   "Libo.Props.C33_unambiguous",
   "Libo.Props.C33_injective",
   "Libo.Props.C33_length",
   "Libo.Props.C33_escape",
   "Libo.Props.C33_quote_partial",
   "Libo.Props.C33_addQuotes",
   "Libo.Props.C33_full_fails",
   "Libo.Props.C33_small_buffer"
  ],
  "note": "Quoting with a caller's buffer writes exactly the literal (read back by an independent reader), lengths agree. Fails for osc_strfmt_addQuotesAndQuoteMeta with a NULL output pointer: it allocates one byte too few and writes outside (C33_full_fails); a buffer too small for the text is overrun too (C33_small_buffer)."
 },
 "C32": {
  "status": "partial",
  "theorems": [
   "Libo.Props.C32_bundle_partial",
   "Libo.Props.C32_message_partial",
   "Libo.Props.C32_full_fails"
  ],
  "note": "Proved for bundles of messages without address patterns whose total size keeps the size field's low byte between 1 and 127 (and below 65536), no argument-less message except the last, and for all such messages outside a bundle. The full claim is false of the code: C32_full_fails gives a 256-byte message reported as an error, a 128-byte message with a wrong counter, and an argument-less message that loses the boundary."
 },
 "C43": {
  "status": "proved",
  "theorems": [
   "Libo.Props.C43_first_byte",
   "Libo.Props.C43_identifier",
   "Libo.Props.C43_no_typetags",
   "Libo.Props.C43_typetag",
   "Libo.Props.C43_padding"
  ],
  "note": "For messages outside a bundle and the bundle header. The prefix before the offending byte is any valid address without brackets and any string of known type tags."
 },
 "C24": {
  "status": "partial",
  "theorems": [
   "Libo.Props.C24_query_partial",
   "Libo.Props.C24_conserved",
   "Libo.Props.C24_plain",
   "Libo.Props.C24_empty",
   "Libo.Props.C24_null",
   "Libo.Props.C24_full_fails"
  ],
  "note": "Proved for every bundle of well formed messages and every list of distinct selectors (NULLs allowed), with and without stripping, provided that stripping leaves a legal address and the message has type tags; C24_plain says what the result lists are for plain addresses. C24_full_fails: a repeated selector gets its messages twice, and stripping to an illegal address reads an uninitialised buffer."
 },
 "C25": {
  "status": "partial",
  "theorems": [
   "Libo.Props.C25_dispatch_partial",
   "Libo.Props.C25_empty",
   "Libo.Props.C25_table",
   "Libo.Props.C25_selectors_partial",
   "Libo.Props.C25_full_fails"
  ],
  "note": "Proved for every bundle and every table with a delegation method (osc_dispatch), and for tables that never had to grow (osc_dispatch_selectors); when stripping, only if the matched lengths of address and selector agree. Every handler is called once, with NULL bundles if nothing matched. C25_full_fails: stripping a pattern address cuts at the selector's length; a grown table holds dangling pointers."
 },
 "C34": {
  "status": "partial",
  "theorems": [
   "Libo.Props.C34_length",
   "Libo.Props.C34_reverse",
   "Libo.Props.C34_reverse_reverse",
   "Libo.Props.C34_first",
   "Libo.Props.C34_last",
   "Libo.Props.C34_rest",
   "Libo.Props.C34_butlast",
   "Libo.Props.C34_list",
   "Libo.Props.C34_length_list",
   "Libo.Props.C34_split",
   "Libo.Props.C34_nfill",
   "Libo.Props.C34_interleave",
   "Libo.Props.C34_nonzero",
   "Libo.Props.C34_nth_partial",
   "Libo.Props.C34_nth_blob",
   "Libo.Props.C34_full_fails"
  ],
  "note": "All listed functions for lists of any length and values (a nested bundle must be one that C01 covers, since it is copied by serialising). Missing: nth reads an index as int32, so a 64 bit index outside the list can be accepted (C34_full_fails); floating point indices."
 },
 "C44": {
  "status": "proved",
  "theorems": [
   "Libo.Props.C44_assign_to_index",
   "Libo.Props.C44_argnum"
  ],
  "note": "Integer positions; values are read as int32, like the code does."
 },
 "C35": {
  "status": "partial",
  "theorems": [
   "Libo.Props.C35_broadcast_partial",
   "Libo.Props.C35_error",
   "Libo.Props.C35_values",
   "Libo.Props.C35_argnum",
   "Libo.Props.C35_doubles",
   "Libo.Props.C35_one_double",
   "Libo.Props.C35_full_fails"
  ],
  "note": "Proved for all operators and lists except a one-element list with an empty one, where the code calls the operator once with a NULL operand (C35_full_fails). Also for functions of one or two doubles, for any conversion to double."
 },
 "C36": {
  "status": "partial",
  "theorems": [
   "Libo.Props.C36_add",
   "Libo.Props.C36_add_full",
   "Libo.Props.C36_add_overflow",
   "Libo.Props.C36_multiply",
   "Libo.Props.C36_multiply_overflow",
   "Libo.Props.C36_subtract_partial",
   "Libo.Props.C36_divide_zero",
   "Libo.Props.C36_divide_partial",
   "Libo.Props.C36_divide_overflow",
   "Libo.Props.C36_strings",
   "Libo.Props.C36_full_fails"
  ],
  "note": "Addition and multiplication for all types (overflow of the 32 and 64 bit signed types is undefined in C, as is 16 bit unsigned multiplication from 2^31 on). Subtraction is always done in int32 and division in uint8 uses int8 (C36_full_fails). Division by zero gives the string Inf in all types. Floating point operands are in C63."
 },
 "C45": {
  "status": "partial",
  "theorems": [
   "Libo.Props.C45_integers_partial",
   "Libo.Props.C45_integers_order",
   "Libo.Props.C45_strings",
   "Libo.Props.C45_string_number",
   "Libo.Props.C45_timetags",
   "Libo.Props.C45_mirror",
   "Libo.Props.C45_neq",
   "Libo.Props.C45_neq_nil",
   "Libo.Props.C45_and_or",
   "Libo.Props.C45_not_partial",
   "Libo.Props.C45_full_fails",
   "Libo.Props.C45_not_full_fails",
   "Libo.Props.C45_bundles_partial",
   "Libo.Props.C45_bundles_full_fails"
  ],
  "note": "Comparison converts to double, so integers above 2^53 are only compared up to rounding (C45_full_fails; C45_integers_order holds for all). != is an error for nil. ! is wrong for 64 and 8/16 bit numbers (C45_not_full_fails). Floating point numbers are in C63, a time tag with a number in C64."
 },
 "C46": {
  "status": "partial",
  "theorems": [
   "Libo.Props.C46_step_partial",
   "Libo.Props.C46_plus1_minus1",
   "Libo.Props.C46_full_fails"
  ],
  "note": "The code handles only int32 and uint64 as intended: int64 is treated as uint32, uint32 as int64, and 8 and 16 bit numbers give an atom without type (C46_full_fails). Floating point numbers are in C63."
 },
 "C38": {
  "status": "proved",
  "theorems": [
   "Libo.Props.C38_if",
   "Libo.Props.C38_if_then",
   "Libo.Props.C38_if_error",
   "Libo.Props.C38_test",
   "Libo.Props.C38_short",
   "Libo.Props.C38_long",
   "Libo.Props.C38_short_error",
   "Libo.Props.C38_if_truncates"
  ],
  "note": "For every table of names, environment, memory and bundle: if evaluates its test, then only the selected branch, from the memory and bundle the test left; && and || give the deciding value with memory and bundle exactly as the left operand left them, otherwise evaluate the right operand from there. The test of if is read as a 32 bit integer (C38_test; C38_if_truncates shows 2^32 counts as false)."
 },
 "C37": {
  "status": "partial",
  "theorems": [
   "Libo.Props.C37_assign_partial",
   "Libo.Props.bound_spec",
   "Libo.Props.C37_error",
   "Libo.Props.C37_invalid",
   "Libo.Props.C37_read_back",
   "Libo.Props.C37_full_fails"
  ],
  "note": "For every table of names, environment, memory and right side, with an address, a string or a computed string as target: code, values, memory and bundle after an assignment, also to a NULL bundle, and reading the values back. 'Once' holds when the bundle has no address twice (bound_spec); only the first of several messages to the address is replaced (C37_full_fails)."
 },
 "C47": {
  "status": "proved",
  "theorems": [
   "Libo.Props.C47_read"
  ],
  "note": "Also for patterns. The block of the bundle has to be smaller than 2 GB."
 },
 "C48": {
  "status": "proved",
  "theorems": [
   "Libo.Props.C48_exists",
   "Libo.Props.C48_list"
  ],
  "note": "For every table of names and environment. getmsgcount for fewer than 2^31 messages."
 },
 "C49": {
  "status": "proved",
  "theorems": [
   "Libo.Props.C49_delete"
  ],
  "note": "For every table of names and environment, and whatever unused space follows the bundle."
 },
 "C50": {
  "status": "proved",
  "theorems": [
   "Libo.Props.C50_timetag"
  ],
  "note": "For every table of names and environment."
 },
 "C39": {
  "status": "partial",
  "theorems": [
   "Libo.Props.C39_apply_partial",
   "Libo.Props.C39_apply_ends",
   "Libo.Props.C39_var",
   "Libo.Props.C39_name",
   "Libo.Props.C39_builtin",
   "Libo.Props.C39_map",
   "Libo.Props.C39_map_named",
   "Libo.Props.C39_reduce",
   "Libo.Props.C39_reduce_init",
   "Libo.Props.C39_sum",
   "Libo.Props.C39_full_fails",
   "Libo.Props.C39_reduce_full_fails",
   "Libo.Props.C39_map_full_fails"
  ],
  "note": "Application, map and both reductions proved for all functions, arguments and environments under the stated hypotheses. The full claim fails in three ways, each with a witness: applying a parameter replaces its name in the expression for good (C39_full_fails), reducing an empty list loses the starting value (C39_reduce_full_fails), and map passes strings through the environment (C39_map_full_fails). C39_builtin: names of built-in functions are not shadowed by parameters. Use of a function after map has freed its copy is not modelled."
 },
 "C42": {
  "status": "partial",
  "theorems": [
   "Libo.Props.C42_bundle_partial",
   "Libo.Props.C42_message_partial",
   "Libo.Props.C42_atom_partial",
   "Libo.Props.C42_array_partial",
   "Libo.Props.C42_full_fails"
  ],
  "note": "Proved in a memory model with pointers, allocation and free, for every value in every memory: bundle copy, deep message copy, atom copy and atom array copy give an equal value in fresh blocks, and any sequence of API calls that starts from the copy changes no block that existed before. Missing: bundles outside the wire limits (slash-led addresses, 31 bit sizes); osc_message_u_copy shares address and arguments with its source, for which the property is false (C42_full_fails)."
 },
 "C51": {
  "status": "partial",
  "theorems": [
   "Libo.Props.C51_bundle",
   "Libo.Props.C51_message",
   "Libo.Props.C51_atom",
   "Libo.Props.C51_array_partial",
   "Libo.Props.C51_copy_bundle",
   "Libo.Props.C51_copy_message",
   "Libo.Props.C51_full_fails"
  ],
  "note": "Proved for bundles, messages and atoms, and for copy followed by free. For atom arrays the property is false when they hold strings or blobs (C51_full_fails); proved that the blocks of the array only are released, and all of them if it holds neither. Temporary blocks (iterators, serialised buffers) are not modelled."
 },
 "C22": {
  "status": "partial",
  "theorems": [
   "Libo.Props.C22_partial",
   "Libo.Props.C22_into_partial",
   "Libo.Props.C22_paths_partial",
   "Libo.Props.C22_full_fails",
   "Libo.Props.C22_flat"
  ],
  "note": "Flattening in the memory model, into a new or an existing bundle, for every nested bundle, separator, level limit and both settings of remove_enclosing_address_if_empty: the result is exactly the leaves under their full addresses (last one of each address), the source is unchanged and no block is lost (C22_partial, C22_into_partial); without level limit: one message per full address, non-bundle arguments in order, no bundle left (C22_paths_partial). Missing: the C code reads a->next of an atom it has just freed, so in the strict reading of C every flatten of a bundle that has a nested bundle is undefined (C22_full_fails, for all such bundles); the partial theorems let that one read see the old value. Without nested bundles the strict reading holds too (C22_flat)."
 },
 "C23": {
  "status": "partial",
  "theorems": [
   "Libo.Props.C23_partial",
   "Libo.Props.C23_full_fails",
   "Libo.Props.C23_empty_lost",
   "Libo.Props.C23_empty_added"
  ],
  "note": "Proved in the memory model for every bundle of plain, pairwise unrelated paths with arguments other than bundles, when the atom that flattening frees is still readable (keep): the result holds the same messages, in some order. In the strict reading of C flattening reads freed memory whenever an address has several parts (C23_full_fails). Messages without arguments are lost (C23_empty_lost) or added (C23_empty_added) depending on the option of flatten."
 },
 "C52": {
  "status": "partial",
  "theorems": [
   "Libo.Props.C52_partial",
   "Libo.Props.C52_new_partial",
   "Libo.Props.C52_full_fails"
  ],
  "note": "Proved for the separator '/' with any level limit and destination. False for other separators: explode never ends if the separator occurs in an address and no slash follows it (C52_full_fails). Addresses with pattern characters are not covered."
 },
 "C53": {
  "status": "partial",
  "theorems": [
   "Libo.Props.C53_partial",
   "Libo.Props.C53_injective",
   "Libo.Props.C53_integers",
   "Libo.Props.C53_full_fails",
   "Libo.Props.C53_time",
   "Libo.Props.C53_time_fails"
  ],
  "note": "Proved for 32-bit integers, 8-bit characters but NUL and newline, strings, true, false, nil, nested bundles (also empty ones), doubles for which printf and strtod (parameters) are inverse, and time tags that printing and reading preserve (whole seconds with printable dates do: C53_time), with addresses the scanner accepts; the scanner's regular expressions with longest match are modelled. The full claim fails: C53_integers shows that integers of all other widths come back as 32-bit integers, cut off (C53_full_fails is a witness), C53_time_fails that half a second becomes less; blobs are not covered."
 },
 "C54": {
  "status": "partial",
  "theorems": [
   "Libo.Props.C54_partial",
   "Libo.Props.C54_exact_partial",
   "Libo.Props.C54_time_fails",
   "Libo.Props.C54_full_fails",
   "Libo.Props.C54_empty_fails",
   "Libo.Props.C54_blob_fails"
  ],
  "note": "Proved for unserialised bundles that are not empty and values other than unsigned 8-bit numbers below 100 and empty blobs: the size is the number of characters, and one more for each time tag (C54_time_fails); without time tags it is exact. For the other values the claim fails: C54_full_fails (size too small, the last quote is lost), C54_empty_fails (uninitialised byte returned), C54_blob_fails (reads behind the blob)."
 },
 "C55": {
  "status": "proved",
  "theorems": [
   "Libo.Props.C55",
   "Libo.Props.C55_unambiguous",
   "Libo.Props.C55_unclosed_string"
  ],
  "note": "For the grammar of osc_parser.y with its actions; bison itself is trusted to implement the grammar, and the model is a recursive descent proved equivalent to it. C55_unclosed_string is a finding about the scanner: a string that is never closed is accepted."
 },
 "C56": {
  "status": "partial",
  "theorems": [
   "Libo.Props.C56_strlen",
   "Libo.Props.C56_strcmp",
   "Libo.Props.C56_strncmp",
   "Libo.Props.C56_strchar",
   "Libo.Props.C56_strchar_range",
   "Libo.Props.C56_strfind",
   "Libo.Props.C56_strfind_empty",
   "Libo.Props.isFind_unique",
   "Libo.Props.C56_split",
   "Libo.Props.C56_split_chars",
   "Libo.Props.C56_join",
   "Libo.Props.C56_split_join",
   "Libo.Props.C56_join_split",
   "Libo.Props.C56_empty_parts_fails",
   "Libo.Props.C56_join_empty_fails",
   "Libo.Props.C56_join_uint8_fails",
   "Libo.Props.C56_full_fails"
  ],
  "note": "Proved for values that have a text without NUL: strings, numbers but unsigned 8-bit numbers, characters, true, false and nil. Splitting and joining undo each other only without empty parts (C56_empty_parts_fails) and for lists that are not empty: joining an empty list reads memory that was never written (C56_join_empty_fails), so the full claim fails (C56_full_fails). Unsigned 8-bit numbers below ten are lost in join (C56_join_uint8_fails). strfind of an empty text succeeds without a value (C56_strfind_empty). Blobs, time tags and bundles are not covered."
 },
 "C57": {
  "status": "partial",
  "theorems": [
   "Libo.Props.C57_int",
   "Libo.Props.C57_widen",
   "Libo.Props.C57_bool",
   "Libo.Props.C57_float64",
   "Libo.Props.C57_float64_time",
   "Libo.Props.C57_float32",
   "Libo.Props.C57_string_partial",
   "Libo.Props.C57_string_fails",
   "Libo.Props.C57_blob",
   "Libo.Props.C57_string_of_blob_fails",
   "Libo.Props.C57_dynamic",
   "Libo.Props.C57_dynamic_one",
   "Libo.Props.C57_blob_number",
   "Libo.Props.C57_blob_zero_fails",
   "Libo.Props.C57_blob_string_fails",
   "Libo.Props.C57_blob_int64_fails",
   "Libo.Props.C57_full_fails"
  ],
  "note": "Casts to integers and bool, casts of lists to blobs and casts with given types to integers are proved for integers, floating point numbers in range, true, false and nil. Text casts are proved for numbers from -99, strings and characters; signed 8-bit numbers below -99 lose a digit (C57_string_fails), and blobs are read past their end (C57_string_of_blob_fails). A single number cast to a blob gives its bytes for 8, 16 and 32 bits unless it is zero, which writes past the block (C57_blob_zero_fails), so the full claim fails (C57_full_fails); 64-bit integers lose their upper half, and strings overrun the block. Casts to float and double round to the nearest number, for all numbers. Casts of strings to numbers and of time tags and bundles are not modelled."
 },
 "C58": {
  "status": "partial",
  "theorems": [
   "Libo.Props.C58_bits_partial",
   "Libo.Props.C58_bits_refused",
   "Libo.Props.C58_bits_uint8_fails",
   "Libo.Props.C58_full_fails",
   "Libo.Props.C58_swap32",
   "Libo.Props.C58_swap64",
   "Libo.Props.C58_roundtrip32",
   "Libo.Props.C58_roundtrip64_partial",
   "Libo.Props.C58_roundtrip64_fails",
   "Libo.Props.C58_swap_other_fails"
  ],
  "note": "Proved for all integers, but the results of unsigned 8-bit integers are signed (C58_bits_uint8_fails, C58_full_fails), hton64 makes signed numbers unsigned so that negative ones do not come back (C58_roundtrip64_fails), and values other than integers of the width are replaced by elements without a value (C58_swap_other_fails)."
 },
 "C59": {
  "status": "proved",
  "theorems": [
   "Libo.Props.C59_parse_iff",
   "Libo.Props.C59_parseFn_iff",
   "Libo.Props.C59_unambiguous",
   "Libo.Props.C59_single",
   "Libo.Props.C59_two_operators",
   "Libo.Props.C59_parentheses",
   "Libo.Props.C59_prefix",
   "Libo.Props.C59_coalesce",
   "Libo.Props.C59_assign",
   "Libo.Props.C59_conditional",
   "Libo.Props.C59_balance"
  ],
  "note": "For all token sequences: the result of the parser is characterised by the tokens of a tree and the precedence condition, both defined without the parser. That bison resolves the conflicts of the grammar like the model is trusted."
 },
 "C60": {
  "status": "partial",
  "theorems": [
   "Libo.Props.C60_lookup",
   "Libo.Props.C60_functions",
   "Libo.Props.C60_call",
   "Libo.Props.C60_call_rejected",
   "Libo.Props.C60_infix",
   "Libo.Props.C60_op_assign",
   "Libo.Props.C60_not",
   "Libo.Props.C60_neg",
   "Libo.Props.C60_conditional",
   "Libo.Props.C60_list",
   "Libo.Props.C60_nth",
   "Libo.Props.C60_assign",
   "Libo.Props.C60_prefix_step",
   "Libo.Props.C60_postfix_step",
   "Libo.Props.C60_assign_element",
   "Libo.Props.C60_assign_elements",
   "Libo.Props.C60_assign_range",
   "Libo.Props.C60_assign_range_step",
   "Libo.Props.C60_assign_rejected",
   "Libo.Props.C60_coalesce",
   "Libo.Props.C60_coalesce_assign",
   "Libo.Props.C60_parentheses",
   "Libo.Props.C60_member",
   "Libo.Props.C60_value",
   "Libo.Props.C60_apply",
   "Libo.Props.C60_address_call",
   "Libo.Props.C60_bundle",
   "Libo.Props.C60_item",
   "Libo.Props.C60_lambda",
   "Libo.Props.C60_lambda_brackets_partial",
   "Libo.Props.C60_power",
   "Libo.Props.C60_power_full_fails",
   "Libo.Props.C60_lambda_full_fails"
  ],
  "note": "Proved for all operands and all notations, as equality of the expressions that are made (function, arguments, in order), and for calls with the table of all 196 functions. Missing because the code does not do it: ^ and ^= have no function (C60_power, C60_power_full_fails: 2 ^ 3 is accepted and evaluating it is undefined), and in lambda([x], ...) only the first and the last of the further arguments may be something else than an expression (C60_lambda_brackets_partial, C60_lambda_full_fails)."
 },
 "C61": {
  "status": "partial",
  "theorems": [
   "Libo.Props.C61_program_partial",
   "Libo.Props.C61_text_partial",
   "Libo.Props.C61_quote",
   "Libo.Props.C61_quote_other"
  ],
  "note": "End to end, from the text (C61_text_partial) or its tokens (C61_program_partial) and the bytes of a bundle to the bytes of the resulting bundle, by induction over syntax trees and lists of expressions; the semantics is in ExprSem.lean and ExprSemNum.lean. Covered: numbers of all types with correctly rounded floating point arithmetic, strings, time tags, addresses, variables, 118 functions (operators, lists, sums, extrema, rounding, remainders, square roots, exponents, constants, sequences, texts, type tags, casts, decimal texts of integers, scaling, cross products, determinants up to three rows, bits, byte order) and all operators except ^, conditionals, elements of lists, signs, ++ and --, assignments, ?? and ??=, lists, sequences of expressions, application of lambda expressions, assignment to elements and ranges, values by name, and apply, map, lreduce, rreduce (with lambda expressions or function names), if, andalso, orelse, assign, assign_to_index, bound, exists, delete, getmsgcount, getaddresses, value and quote called by name. Missing: the other functions, element assignment whose positions or values change the bundle, bundles as values; results that are NaN; cases in which the semantics has no result."
 },
 "C62": {
  "status": "proved",
  "theorems": [
   "Libo.Props.C62_scan",
   "Libo.Props.C62_unambiguous",
   "Libo.Props.C62_blanks",
   "Libo.Props.C62_parse",
   "Libo.Props.C62_division_full_fails"
  ],
  "note": "Round trip: Written (ExprScanSpec.lean) says how tokens may be written; the scanner is modelled by the regular expressions of the file with longest match. C62_division_full_fails shows that the blanks around / cannot be left out. Exponents of floating point numbers and words that contain control characters are left out of the specification; strtod is a parameter."
 },
 "C63": {
  "status": "proved",
  "theorems": [
   "Libo.Props.C63_arith",
   "Libo.Props.C63_divide",
   "Libo.Props.C63_exact_sum",
   "Libo.Props.C63_integers",
   "Libo.Props.C63_unique",
   "Libo.Props.C63_add_comm",
   "Libo.Props.C63_bits",
   "Libo.Props.C63_compare",
   "Libo.Props.C63_step"
  ],
  "note": "The double that a number stands for is described by IsDouble (nearest double for integers, exact widening for floats, encoding by C63_bits), the results by SumOf, DiffOf, ProductOf and QuotientOf of FpSpec.lean, which say nearest, ties to even; C63_unique: they determine the result. The sign and payload of NaN are not modelled. Assumes IEEE 754 doubles rounded once per operation."
 },
 "C64": {
  "status": "proved",
  "theorems": [
   "Libo.Props.C64_add",
   "Libo.Props.C64_subtract",
   "Libo.Props.C64_difference",
   "Libo.Props.C64_compare",
   "Libo.Props.C64_full_fails"
  ],
  "note": "Numbers that are negative or not below 2^32 seconds convert with undefined behaviour, and the scale factor is 2^32 - 1 instead of 2^32, so that fractions are off by up to two units (C64_full_fails has half a second). A number minus a time tag has the result of C29_subtract."
 },
 "C65": {
  "status": "partial",
  "theorems": [
   "Libo.Props.C65_min",
   "Libo.Props.C65_max",
   "Libo.Props.C65_none_fails",
   "Libo.Props.C65_extrema",
   "Libo.Props.C65_range",
   "Libo.Props.C65_clip",
   "Libo.Props.C65_ints",
   "Libo.Props.C65_clip_ints",
   "Libo.Props.C65_overflow_fails"
  ],
  "note": "Proved for all lists of numbers that have one that counts (not NaN; for min not positive infinity, for max not negative infinity), and for clip with all elements and bounds as long as the integer results fit into 32 bits. Missing because the code does not do it: a list with no such number gives an element without a value (C65_none_fails); integer results of range and clip are converted to 32 bits, which is undefined for larger ones, and so is range of an empty list (C65_overflow_fails). Strings as numbers are not modelled."
 },
 "C66": {
  "status": "partial",
  "theorems": [
   "Libo.Props.C66_sum",
   "Libo.Props.C66_product_partial",
   "Libo.Props.C66_mean",
   "Libo.Props.C66_dot",
   "Libo.Props.C66_sum_ints",
   "Libo.Props.C66_product_ints",
   "Libo.Props.C66_mean_ints",
   "Libo.Props.C66_fails"
  ],
  "note": "sum, mean and dot are proved for all lists of numbers of all types. Missing because the code does not do it: product never gives a double, not even for doubles, so 0.5 * 3 is 1 (C66_fails, C66_product_partial); integer results below -2^31 are undefined, for sum as well (C66_fails), and so are results that round to exactly 2^63 or 2^64. Strings as numbers are not modelled."
 },
 "C67": {
  "status": "proved",
  "theorems": [
   "Libo.Props.C67_rounding",
   "Libo.Props.C67_unique",
   "Libo.Props.C67_sign",
   "Libo.Props.C67_fmod"
  ],
  "note": "For all non-empty lists of numbers of all types; sign for lists without NaN (the code gives 1 for NaN). The functions floor, ceil, round, fabs and fmod of the C library are taken to be exact, as IEEE 754 requires, and are defined in ExprNum.lean; the theorems tie them to an independent description and to the loops of the code."
 },
 "C68": {
  "status": "partial",
  "theorems": [
   "Libo.Props.C68_modulo",
   "Libo.Props.C68_zero",
   "Libo.Props.C68_list",
   "Libo.Props.C68_aseq",
   "Libo.Props.C68_aseq_ends",
   "Libo.Props.C68_integers_full_fails",
   "Libo.Props.C68_fraction_fails"
  ],
  "note": "Proved for whole numbers up to 2^52 in magnitude (together with the divisor or step) of all number types, which includes all pairs of 32 bit integers, as far as the results fit: integer results that do not fit into 32 bits are undefined in the code (C68_integers_full_fails). Fractions are outside of the claim; there the rounding can make the code give m itself (C68_fraction_fails)."
 },
 "C69": {
  "status": "partial",
  "theorems": [
   "Libo.Props.C69_sort",
   "Libo.Props.C69_sort_equal_fails",
   "Libo.Props.C69_sortidx",
   "Libo.Props.C69_median",
   "Libo.Props.C69_empty_fails",
   "Libo.Props.sorts_insertion"
  ],
  "note": "sort is proved for lists in which no number occurs twice. If a number occurs twice (also as 1 and 1.0), the comparison function calls each of the two the greater one, which the C standard does not allow, so nothing can be said (C69_sort_equal_fails: the result is undefined whatever qsort does). sortidx and median are proved for all non-empty lists; of an empty list both are undefined (C69_empty_fails). qsort itself is a parameter with the contract of the C standard (Sorts); an insertion sort is shown to fulfil it."
 },
 "C70": {
  "status": "partial",
  "theorems": [
   "Libo.Props.C70_one",
   "Libo.Props.C70_two",
   "Libo.Props.C70_three",
   "Libo.Props.C70_triangular",
   "Libo.Props.C70_singular_fails",
   "Libo.Props.C70_shape"
  ],
  "note": "Exactness is proved for two and three rows of whole numbers; for four or more rows the theorem is about matrices with zeros below a diagonal without zeros, in any order of the rows. A general statement for four or more rows is missing (the result is rounded in every step). The last claim is false: for four or more rows that begin with 0 the result is NaN, because the tolerance handed to the decomposition is 0 and its test is 'less than' (C70_singular_fails). With one argument only its first element is used, whatever its length is (C70_one)."
 },
 "C71": {
  "status": "partial",
  "theorems": [
   "Libo.Props.C71_cumsum",
   "Libo.Props.C71_cumsum_overflow",
   "Libo.Props.C71_cumsum_double",
   "Libo.Props.C71_cumsum_float",
   "Libo.Props.C71_cross",
   "Libo.Props.C71_cross_uint16_fails",
   "Libo.Props.C71_cross_double",
   "Libo.Props.C71_cross_shape"
  ],
  "note": "Sums of int32 and int64 that do not fit are undefined (C71_cumsum_overflow), as are int32 and int64 products and differences in cross. The claim fails for cross of unsigned 16 bit integers: the products are computed as int and overflow from 2^31 on, although a product modulo 2^16 is meant (C71_cross_uint16_fails). Lists that mix floats with integers, and cross of floats or of doubles that are not whole, are not covered."
 },
 "C72": {
  "status": "partial",
  "theorems": [
   "Libo.Props.C72_hull",
   "Libo.Props.C72_exact",
   "Libo.Props.C72_vertical_fails",
   "Libo.Props.C72_collinear_fails",
   "Libo.Props.C72_errors"
  ],
  "note": "For whole coordinates of magnitude at most 2^25, where all double arithmetic of the algorithm is exact: termination, order, boundary, same hull, all vertices (C72_hull), exactly the vertices without three points on a line (C72_exact). The claim fails if all points have the same x (C72_vertical_fails), and with collinear points non-vertices may be returned (C72_collinear_fails). Error cases in C72_errors. Missing: coordinates for which the arithmetic rounds."
 },
 "C73": {
  "status": "partial",
  "theorems": [
   "Libo.Props.C73_bundle",
   "Libo.Props.C73_single",
   "Libo.Props.C73_error",
   "Libo.Props.C73_bytes",
   "Libo.Props.C73_blob_fails"
  ],
  "note": "Proved for addresses and lists in turn, for a single string, for errors and for the bytes of serialised bundles. bundle of a blob reads past the end of the block, whatever it holds (C73_blob_fails)."
 },
 "C74": {
  "status": "partial",
  "theorems": [
   "Libo.Props.C74_match",
   "Libo.Props.C74_partition",
   "Libo.Props.C74_empty_fails"
  ],
  "note": "Proved for every list of patterns without NUL and every nonempty list of addresses; which addresses a pattern describes is stated for patterns without empty alternatives within the backtrack limit (as C11 and C13). Without addresses an array of no elements is made (C74_empty_fails)."
 },
 "C75": {
  "status": "proved",
  "theorems": [
   "Libo.Props.C75_readstring",
   "Libo.Props.C75_errors",
   "Libo.Props.C75_strtotime",
   "Libo.Props.C75_floattotime",
   "Libo.Props.C75_floattotime_errors"
  ],
  "note": "Proved for all dates and times of the calendar and all floating point numbers in range; rests on C31_text_parse and C67."
 },
 "C76": {
  "status": "proved",
  "theorems": [
   "Libo.Props.C76_sqrt",
   "Libo.Props.C76_square",
   "Libo.Props.C76_unique",
   "Libo.Props.C76_remainder",
   "Libo.Props.C76_logb",
   "Libo.Props.C76_ilogb"
  ],
  "note": "Proved for all doubles, against a specification by exact squares and multiples. Values of logb and ilogb of zeros, infinities and NaN are left open by the statement (ilogb of these is implementation defined and not modelled)."
 },
 "C77": {
  "status": "proved",
  "theorems": [
   "Libo.Props.C77_one",
   "Libo.Props.C77_two",
   "Libo.Props.C77_bessel",
   "Libo.Props.C77_bessel_error",
   "Libo.Props.C77_l2norm",
   "Libo.Props.C77_l2norm_ints",
   "Libo.Props.C77_pitch",
   "Libo.Props.C77_pitch_error",
   "Libo.Props.C77_mtof_base",
   "Libo.Props.C77_ftom_base"
  ],
  "note": "The functions of the C library are parameters, so the theorems hold for every library; that note 69 is exactly the base needs exp(0)=1 and log(1)=0 of the library. C77_l2norm_ints needs that pow(n,2) is exact. Findings: gamma is documented as the logarithm of the gamma function, but it calls tgamma; nextafter takes two numbers but is registered with one argument and called through a pointer to a function of one argument, which is undefined and not modelled. The library names that belong to the names in expressions are in C60 (ExprNames)."
 },
 "C78": {
  "status": "partial",
  "theorems": [
   "Libo.Props.C78_nearest",
   "Libo.Props.C78_midi",
   "Libo.Props.C78_unique",
   "Libo.Props.C78_nearest_fails",
   "Libo.Props.C78_near_partial",
   "Libo.Props.C78_list"
  ],
  "note": "14 of the 18 constants are nearest to the real numbers (proved with the bounds for pi, e and the logarithms in Mathlib). The claim is false for the other four (C78_nearest_fails): degtorad and radtodeg are written with five to seven digits, the twelfth root of 2 and the thirteenth root of 3 are off in the last place. C78_near_partial says how near they are. The two constants in mtof and ftom are nearest too (C78_midi)."
 },
 "C79": {
  "status": "proved",
  "theorems": [
   "Libo.Props.C79_member",
   "Libo.Props.C79_computed",
   "Libo.Props.C79_error"
  ],
  "note": "For bundles smaller than 2 GB. A string as first argument (the name of the address of the bundle) and value(...) as second argument are modelled but no theorem speaks of them."
 },
 "C80": {
  "status": "partial",
  "theorems": [
   "Libo.Props.C80_assign",
   "Libo.Props.C80_new",
   "Libo.Props.C80_members",
   "Libo.Props.C80_read_back",
   "Libo.Props.C80_error",
   "Libo.Props.C80_error_full_fails"
  ],
  "note": "C80_assign, C80_new, C80_members and C80_read_back cover the two cases of the claim about the bundle when both first arguments are addresses. The sentence about errors is false: an error in x is lost (code 0, no value): C80_error, C80_error_full_fails. If x is one string, it must not be the name of a variable: the code evaluates it twice. First arguments that are expressions are modelled (except for normal functions such as nth) but no theorem speaks of them."
 },
 "C81": {
  "status": "partial",
  "theorems": [
   "Libo.Props.C81_eval_partial",
   "Libo.Props.C81_unbound"
  ],
  "note": "For the texts that C61 covers. Texts with a syntax error (the code ignores the return code of the parser) and values other than one string are not modelled."
 },
 "C82": {
  "status": "partial",
  "theorems": [
   "Libo.Props.C82_text_partial",
   "Libo.Props.C82_same_partial",
   "Libo.Props.C82_read_back_partial",
   "Libo.Props.C82_empty_fails",
   "Libo.Props.C82_full_fails"
  ],
  "note": "proved for all bundles that are not empty and values other than unsigned 8-bit numbers below 100 and empty blobs: the size is the number of characters plus one for each time tag, the block has the text and its NUL, it is the block that formatting the other form gives, and the parser reads it back (for the values of C53). The full statement fails: an empty bundle leaves the block uninitialised and 'A' loses its last quote, both proved with witnesses"
 },
 "C83": {
  "status": "partial",
  "theorems": [
   "Libo.Props.C83_union_partial",
   "Libo.Props.C83_union_new_partial",
   "Libo.Props.C83_intersection_partial",
   "Libo.Props.C83_intersection_new_partial",
   "Libo.Props.C83_first_partial",
   "Libo.Props.C83_bound_partial",
   "Libo.Props.C83_full_fails"
  ],
  "note": "Proved for bundles whose messages all have addresses without pattern characters. With pattern characters the claim is false (C83_full_fails): /a united with /* has one message. Messages without an address are not covered."
 },
 "C84": {
  "status": "partial",
  "theorems": [
   "Libo.Props.C84_flatten_partial",
   "Libo.Props.C84_flat",
   "Libo.Props.C84_full_fails",
   "Libo.Props.C84_explode_partial",
   "Libo.Props.C84_back_partial"
  ],
  "note": "Flattening with nested bundles is proved for the reading in which the freed atom is still readable (keep), as C22; in the strict reading of C it is undefined (C84_full_fails). Without nested bundles nothing is missing (C84_flat). Exploding for the separator / and addresses without pattern characters, as C52. The case that *dest of osc_bundle_s_explode is not NULL is not modelled."
 },
 "C85": {
  "status": "partial",
  "theorems": [
   "Libo.Props.C85_format_partial",
   "Libo.Props.C85_full_fails",
   "Libo.Props.C85_read"
  ],
  "note": "The text is as claimed while it has fewer than 768 bytes (C85_format_partial), and it can be read back whatever its length (C85_read). The claim fails for long texts: osc_expr_format lets the block grow only while fewer than 256 bytes are written and never looks at the length of the text, so every expression whose line has 768 bytes or more is written over the end of the block (C85_full_fails). The block given by a caller (*fmt not NULL) is not modelled."
 },
 "C86": {
  "status": "partial",
  "theorems": [
   "Libo.Props.C86_free",
   "Libo.Props.C86_copy_partial",
   "Libo.Props.C86_copy_of_lists",
   "Libo.Props.C86_copy_free",
   "Libo.Props.C86_full_fails"
  ],
  "note": "Freeing is proved in full (C86_free). A copy is the same expression for expressions without list arguments and without argument types in records (C86_copy_partial); what the copy is in general, and that copying and freeing leaves no trace, is proved for all expressions (C86_copy_of_lists, C86_copy_free). The full claim fails: osc_expr_arg_copy has no case for lists, the copy has a NULL list (C86_full_fails). Atoms are numbers and strings here; NULL optional names, whose places osc_expr_rec_copy leaves uninitialised, are taken as NULL."
 },
 "C87": {
  "status": "partial",
  "theorems": [
   "Libo.Props.C87_append_partial",
   "Libo.Props.C87_prepend_partial",
   "Libo.Props.C87_full_fails"
  ],
  "note": "Proved for expressions that have arguments, and for one new argument to an expression without any. The full claim fails: several arguments added to an expression without arguments are counted as one (C87_full_fails)."
 },
 "C88": {
  "status": "partial",
  "theorems": [
   "Libo.Props.C88_negate_partial",
   "Libo.Props.C88_signed",
   "Libo.Props.C88_lowest",
   "Libo.Props.C88_float",
   "Libo.Props.C88_double",
   "Libo.Props.C88_other",
   "Libo.Props.C88_other_serialised",
   "Libo.Props.C88_serialised_partial",
   "Libo.Props.C88_serialised_float",
   "Libo.Props.C88_serialised_double",
   "Libo.Props.C88_forms_agree",
   "Libo.Props.C88_full_fails"
  ],
  "note": "Proved for every type and value except as the code violates the claim: unsigned numbers become signed ones (the value is minus the number in the signed type of the same size), so the type is not kept (C88_full_fails), and for the least 32 and 64 bit integers the C code has no defined result (C88_lowest)."
 },
 "C89": {
  "status": "partial",
  "theorems": [
   "Libo.Props.C89_ints",
   "Libo.Props.C89_floats",
   "Libo.Props.C89_bools",
   "Libo.Props.C89_small_block",
   "Libo.Props.C89_message",
   "Libo.Props.C89_texts_partial",
   "Libo.Props.C89_grow_partial",
   "Libo.Props.C89_overflow",
   "Libo.Props.C89_full_fails"
  ],
  "note": "Arrays of numbers and truth values are proved for all lists; a given block that is too small is written outside (C89_small_block). The text function counts no room for separators and the final zero: proved for texts that fit in the block (C89_texts_partial, C89_grow_partial); the full claim fails for a string of 256 bytes (C89_overflow, C89_full_fails). An edit that makes a serialized negative double zero true survived (seeded/LOG.jsonl): the theorems do not cover that case."
 },
 "C90": {
  "status": "partial",
  "theorems": [
   "Libo.Props.C90_size",
   "Libo.Props.C90_blob_partial",
   "Libo.Props.C90_blob_more",
   "Libo.Props.C90_full_fails",
   "Libo.Props.C90_other_fails",
   "Libo.Props.C90_bundle"
  ],
  "note": "Sizes and copies of bundles are proved. A copy of a blob is proved for lengths that are not multiples of four; else four bytes after the blob are read (C90_blob_more, C90_full_fails), and for other atoms the function writes past its block (C90_other_fails)."
 },
 "C91": {
  "status": "partial",
  "theorems": [
   "Libo.Props.C91_header_partial",
   "Libo.Props.C91_id",
   "Libo.Props.C91_null",
   "Libo.Props.C91_full_fails"
  ],
  "note": "Proved for every given block. Without a block the second function allocates 8 bytes and writes 16 (C91_null, C91_full_fails)."
 },
 "C92": {
  "status": "proved",
  "theorems": [
   "Libo.Props.C92_value",
   "Libo.Props.C92_value_none",
   "Libo.Props.C92_unbound"
  ],
  "note": "C92_value: the first matching message, by induction over the messages of the block and over its values; C92_value_none and C92_unbound: the other cases."
 },
 "C93": {
  "status": "partial",
  "theorems": [
   "Libo.Props.C93_store",
   "Libo.Props.C93_missing",
   "Libo.Props.C93_address_fails"
  ],
  "note": "C93_store: result and bundle after it, with the bytes of the other messages untouched, and the error cases with positions and values; C93_missing: no matching message. The claim that the message keeps its address is false when /a is a pattern (C93_address_fails: the message gets the pattern as its address). Not covered: expressions for positions or values that change the bundle, where the code goes on with the old block."
 },
 "C94": {
  "status": "proved",
  "theorems": [
   "Libo.Props.C94_least",
   "Libo.Props.C94_special"
  ],
  "note": "All texts of the standard's form for a finite double: the answer is the least number of decimals; 0 for infinities and NaNs. The C library's %a is specified by the C standard's description (exact value, at most 20 digits after the point, exponents up to 9999), not modelled."
 },
 "C95": {
  "status": "partial",
  "theorems": [
   "Libo.Props.C95_call",
   "Libo.Props.C95_call_unknown",
   "Libo.Props.C95_alloc",
   "Libo.Props.C95_add",
   "Libo.Props.C95_add_again",
   "Libo.Props.C95_rebind",
   "Libo.Props.C95_unknown",
   "Libo.Props.C95_frame",
   "Libo.Props.C95_rename_partial",
   "Libo.Props.C95_longer_fails",
   "Libo.Props.C95_freed_fails",
   "Libo.Props.C95_free"
  ],
  "note": "Calls, adding with room, rebinding and renaming to a free name that is not longer are proved for every table, with strings as blocks of a heap. The full property fails for the code as it is: a longer name moves the string the hash table refers to (C95_longer_fails), and after renaming the hash table refers to the caller's string (C95_freed_fails). Two edits survived when tried (seeded/LOG.jsonl): the pointer to the selector after renaming, and an old entry kept behind its replacement."
 },
 "C96": {
  "status": "partial",
  "theorems": [
   "Libo.Props.C96_append",
   "Libo.Props.C96_prepend_partial",
   "Libo.Props.C96_prepend_string",
   "Libo.Props.C96_insert_partial",
   "Libo.Props.C96_insert_string",
   "Libo.Props.C96_insert_pointer",
   "Libo.Props.C96_alloc",
   "Libo.Props.C96_atom",
   "Libo.Props.C96_atom_free",
   "Libo.Props.C96_lost",
   "Libo.Props.C96_full_fails",
   "Libo.Props.C96_negative_fails"
  ],
  "note": "Proved for appending and allocating (all kinds of values), and for prepending and inserting at non-negative positions (everything but const strings). The full statement fails: prepending or inserting a string given as const char * leaves a block that belongs to nobody (C96_lost for all messages, strings and positions; C96_full_fails), and inserting at a negative position breaks the list of arguments (C96_negative_fails). osc_message_u_insertStringPtr copies instead of keeping the pointer (C96_insert_pointer). Atoms allocated with a value hold it, and freeing them gives the memory back (C96_atom, C96_atom_free). The functions that take serialized bundles and osc_message_u_allocWithArray are not covered."
 },
 "C97": {
  "status": "proved",
  "theorems": [
   "Libo.Props.C97_array",
   "Libo.Props.C97_message",
   "Libo.Props.C97_alloc",
   "Libo.Props.C97_add",
   "Libo.Props.C97_replace",
   "Libo.Props.C97_addArray"
  ],
  "note": "Built on the layouts of C42; in the memory model (blocks, links, ownership). Values that can be copied: bundles inside messages have slash-led addresses and strings without NUL, as in C42."
 },
 "C98": {
  "status": "partial",
  "theorems": [
   "Libo.Props.C98_now_partial",
   "Libo.Props.C98_now_back",
   "Libo.Props.C98_now_full_fails",
   "Libo.Props.C98_order_partial",
   "Libo.Props.C98_order_full_fails",
   "Libo.Props.C98_fromUnix",
   "Libo.Props.C98_toUnix",
   "Libo.Props.C98_unix_tag_unix_partial",
   "Libo.Props.C98_unix_full_fails",
   "Libo.Props.C98_tag_unix_tag",
   "Libo.Props.C98_agree_partial",
   "Libo.Props.C98_agree_full_fails"
  ],
  "note": "Proved within the NTP era and outside of the last seven microseconds of a second, where the fraction wraps and the time tag is a second early (C98_now_full_fails, C98_order_full_fails, C98_now_back). Unix times after the era do not come back (C98_unix_full_fails), and conversion of Unix times uses local time while the time tag for now does not (C98_agree_full_fails)."
 },
 "C99": {
  "status": "partial",
  "theorems": [
   "Libo.Props.C99_padded",
   "Libo.Props.C99_quotes",
   "Libo.Props.C99_quotes_buffer",
   "Libo.Props.C99_quotes_partial",
   "Libo.Props.C99_quotes_empty",
   "Libo.Props.C99_quotes_full_fails",
   "Libo.Props.C99_quotes_inside",
   "Libo.Props.C99_quotes_again",
   "Libo.Props.C99_setString_new",
   "Libo.Props.C99_setString_partial",
   "Libo.Props.C99_setString_full_fails",
   "Libo.Props.C99_setString_outside",
   "Libo.Props.C99_setTimetag"
  ],
  "note": "Quotes inside of a text are not escaped and the empty text reads a byte before it (C99_quotes_full_fails, C99_quotes_inside); storing a string does not look at the room of the argument (C99_setString_full_fails). Not covered: a time tag stored in an argument without data, and adding quotes to a text with a NUL inside the given length (edits there survive, see seeded/LOG.jsonl)."
 },
 "C100": {
  "status": "partial",
  "theorems": [
   "Libo.Props.C100_scale",
   "Libo.Props.C100_error",
   "Libo.Props.C100_ints",
   "Libo.Props.C100_ends_full_fails",
   "Libo.Props.C100_no_range"
  ],
  "note": "The upper end of an integer range does not always become the upper end of the output range, scale(49, 0, 49, 0, 1) is 0 (C100_ends_full_fails); an input range of one number gives no finite number (C100_no_range). Everything else is proved."
 },
 "C101": {
  "status": "partial",
  "theorems": [
   "Libo.Props.C101_descriptions",
   "Libo.Props.C101_identifier_partial",
   "Libo.Props.C101_identifier_fails",
   "Libo.Props.C101_report_partial",
   "Libo.Props.C101_plain",
   "Libo.Props.C101_no_handler",
   "Libo.Props.C101_report_full_fails",
   "Libo.Props.C101_nothing_fails",
   "Libo.Props.C101_long_fails",
   "Libo.Props.C101_expr_partial",
   "Libo.Props.C101_unknown_function_partial",
   "Libo.Props.C101_target_partial",
   "Libo.Props.C101_syntax_partial",
   "Libo.Props.C101_end_fails",
   "Libo.Props.C101_end_zero_partial",
   "Libo.Props.C101_expr_full_fails"
  ],
  "note": "Proved for texts without percent signs in names and expressions and with something behind the place of the error. The code violates the rest: names and expressions are used as formats (C101_report_full_fails, C101_expr_full_fails; the operator % is enough), an error at the end of an expression reads an unterminated copy (C101_end_fails), long file names are written out of bounds (C101_long_fails), a call with nothing to say uses an uninitialized buffer (C101_nothing_fails), and the description of a missing bundle identifier is cut off (C101_identifier_fails). Modelled conversions: %d, %s, %%."
 },
 "C102": {
  "status": "proved",
  "theorems": [
   "Libo.Props.C102_state",
   "Libo.Props.C102_iterate",
   "Libo.Props.C102_free",
   "Libo.Props.C102_spec"
  ],
  "note": "Blocks of results with both links, the iterator and the table; bundles of matches are the lists of their messages (their bytes are in C24)."
 },
 "C103": {
  "status": "partial",
  "theorems": [
   "Libo.Props.C103_alloc",
   "Libo.Props.C103_name",
   "Libo.Props.C103_signature",
   "Libo.Props.C103_required",
   "Libo.Props.C103_optional",
   "Libo.Props.C103_function_extra",
   "Libo.Props.C103_lambda",
   "Libo.Props.C103_nothing",
   "Libo.Props.C103_name_twice_fails"
  ],
  "note": "Proved for fields that are set once, and for the way the parser makes lambdas (C103_lambda, with the whole memory as before after freeing). Setting a name again loses the block of the old one: C103_name_twice_fails holds for all such records. Missing: the code would have to free the old copy; the parser sets each field once."
 },
 "C104": {
  "status": "partial",
  "theorems": [
   "Libo.Props.C104_copy",
   "Libo.Props.C104_copy_stays",
   "Libo.Props.C104_first",
   "Libo.Props.C104_msg_deepFree",
   "Libo.Props.C104_cache",
   "Libo.Props.C104_msg_copy_partial",
   "Libo.Props.C104_empty_fails",
   "Libo.Props.C104_copy_into_fails",
   "Libo.Props.C104_msg_copy_full_fails",
   "Libo.Props.C104_first_deepFree_fails"
  ],
  "note": "Deep copies to a new handle, first messages, caches and freeing are proved. The code violates the rest, each for all memories that meet the case: an empty bundle reads an unwritten pointer (C104_empty_fails), a deep copy into a used handle loses its bytes (C104_copy_into_fails), a copied message shares the caches (C104_msg_copy_full_fails), and freeing a first message with its bytes frees inside of the bundle (C104_first_deepFree_fails)."
 },
 "C105": {
  "status": "partial",
  "theorems": [
   "Libo.Props.C105_doc",
   "Libo.Props.C105_addresses",
   "Libo.Props.C105_types",
   "Libo.Props.C105_types_partial",
   "Libo.Props.C105_types_full_fails",
   "Libo.Props.C105_category_partial",
   "Libo.Props.C105_category_full_fails"
  ],
  "note": "C105_doc, C105_addresses: all records whose types have a text that fits. C105_types gives the text for all combinations and says exactly when it is undefined: no kind (nothing is written to the buffer), or more than 60 bytes (functions are missing in the size of the buffer), see C105_types_full_fails. Category names of 115 bytes or more overflow a buffer of 128 bytes: C105_category_full_fails."
 },
 "C106": {
  "status": "partial",
  "theorems": [
   "Libo.Props.C106_index_partial",
   "Libo.Props.C106_index_full_fails",
   "Libo.Props.C106_addresses_partial",
   "Libo.Props.C106_addresses_full_fails",
   "Libo.Props.C106_categories_partial",
   "Libo.Props.C106_categories_full_fails",
   "Libo.Props.C106_table_partial",
   "Libo.Props.C106_table_full_fails"
  ],
  "note": "Proved for addresses that fit into 128 bytes, for names that are no words for operators, and for lines of at most 63 bytes; in the other cases the claims fail, as the _full_fails theorems show: a longer address overflows the buffer on the stack, + and add in one category would have one address, and four lines of 64 bytes overflow the heap buffer, because it grows only if fewer than 64 bytes are left, whatever the length of the line."
 }
}
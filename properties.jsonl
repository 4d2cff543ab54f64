{"id": "C01", "title": "Serialising and deserialising a bundle loses nothing", "statement": "If a program builds a bundle (any number of messages, any argument types, bundles nested inside arguments to any depth), serialises it and deserialises the bytes, it gets back the same messages in the same order, each with the same address and the same typed argument values.", "quantifier": "every unserialised bundle of any size and nesting depth whose addresses and strings contain no NUL byte and whose serialised size fits the 32-bit size fields", "why_tests_cant": "the space of bundles is infinite (unbounded messages, arguments and nesting); tests can only sample a few shapes", "anchors": ["osc_bundle_u.c:osc_bundle_u_serialize", "osc_bundle_u.c:osc_bundle_u_nserialize", "osc_message_u.c:osc_message_u_nserialize", "osc_atom_u.c:osc_atom_u_nserialize", "osc_bundle_s.c:osc_bundle_s_deserialize", "osc_message_s.c:osc_message_s_deserialize", "osc_atom_s.c:osc_atom_s_deserializeInto"]}
{"id": "C02", "title": "Reported serialised size equals the bytes written", "statement": "The size reported for a bundle, message or atom (the call with no buffer) is exactly the number of bytes the serialiser writes when given a buffer of that size, it is a multiple of 4, and every message is preceded by a size field that is exactly the length of its body.", "quantifier": "every unserialised bundle, message and atom whose serialised size fits the 32-bit size fields", "why_tests_cant": "must hold for all combinations of argument types, string lengths modulo 4 and nesting", "anchors": ["osc_bundle_u.c:osc_bundle_u_getSerializedSize", "osc_bundle_u.c:osc_bundle_u_nserialize", "osc_message_u.c:osc_message_u_nserialize", "osc_atom_u.c:osc_atom_u_nserialize", "osc_util.c:osc_util_getPaddingForNBytes"]}
{"id": "C03", "title": "Serialised output is accepted by the library's own validity check", "statement": "Every bundle the library serialises passes the bundle sanity check used on incoming packets, provided each message address starts with a slash.", "quantifier": "every unserialised bundle with slash-led addresses and serialised size below 2^31", "why_tests_cant": "a test can check particular bundles; acceptance must hold for everything the serialiser can emit", "anchors": ["osc_error.c:osc_error_bundleSanityCheck", "osc_error.c:osc_error_msgSanityCheck", "osc_bundle_u.c:osc_bundle_u_nserialize"]}
{"id": "C04", "title": "A bundle that passes the sanity check can be iterated safely", "statement": "If the sanity check accepts a received buffer, then iterating over its messages terminates, never reads a size field or a message outside the buffer, and the messages visited tile the bytes after the header exactly.", "quantifier": "every byte buffer of every length (arbitrary network input)", "why_tests_cant": "adversarial input: 256^n buffers for every n; one malformed length field is enough to run off the end", "anchors": ["osc_error.c:osc_error_bundleSanityCheck", "osc_bundle_iterator_s.c:osc_bundle_iterator_s_hasNext", "osc_bundle_iterator_s.c:osc_bundle_iterator_s_next"]}
{"id": "C05", "title": "Bundle iteration visits every message once, in order", "statement": "Iterating over a well-formed serialised bundle yields exactly the messages it was built from, each once and in order, and then stops; the message count reported by the bundle equals the number of messages iterated.", "quantifier": "every list of messages", "why_tests_cant": "unbounded number and sizes of messages", "anchors": ["osc_bundle_iterator_s.c:osc_bundle_iterator_s_hasNext", "osc_bundle_iterator_s.c:osc_bundle_iterator_s_next", "osc_bundle_s.c:osc_bundle_s_getMsgCount"]}
{"id": "C06", "title": "Random access to an argument agrees with iteration", "statement": "The n-th argument fetched by index, with or without cached offsets, is the same typed value as the n-th argument produced by iterating over the message; indices outside the message are refused.", "quantifier": "every well-formed message and every index", "why_tests_cant": "argument offsets depend on all preceding argument sizes, so the property ranges over all argument-type sequences", "anchors": ["osc_message_s.c:osc_message_s_getArg", "osc_message_s.c:osc_message_s_cacheDataOffsets", "osc_message_iterator_s.c:osc_message_iterator_s_next"]}
{"id": "C07", "title": "Strings and blobs are padded to four-byte boundaries with at least the required terminator", "statement": "The padded length of a string is the smallest multiple of 4 strictly larger than the string length; the padded length of a blob is the smallest multiple of 4 not smaller than its size field plus its contents.", "quantifier": "every length representable in 32 bits", "why_tests_cant": "all lengths, not only the residues a test happens to use, and the 32-bit mask has to be shown harmless", "anchors": ["osc_util.c:osc_util_getPaddedStringLen", "osc_util.c:osc_util_getPaddingForNBytes", "osc_util.c:osc_util_getBlobLength", "osc_strfmt.c:osc_strfmt_strlenPadded"]}
{"id": "C08", "title": "Network byte order conversion is lossless", "statement": "Converting a 16-, 32-, 64- or 128-bit value to network order and back gives the value back, and the bytes on the wire are most-significant first.", "quantifier": "every 16-, 32-, 64- and 128-bit value", "why_tests_cant": "2^64 and 2^128 values cannot be enumerated", "anchors": ["osc_byteorder.h:hton32", "osc_byteorder.h:hton64", "osc_mem.c:osc_mem_encodeByteorder", "osc_mem.c:osc_mem_decodeByteorder"]}
{"id": "C09", "title": "A typed value reads back as stored, before and after serialisation", "statement": "A value stored in an atom by a typed setter is returned unchanged by the getter of the same type, both on the unserialised atom and on its serialised form, and other integer getters return the value converted to the requested width in both forms.", "quantifier": "every value of every integer type, both representations, all getter/setter pairs", "why_tests_cant": "the product of all values of all widths with all type pairs", "anchors": ["osc_atom_u.c:osc_atom_u_setInt8", "osc_atom_u.c:osc_atom_u_getInt32", "osc_atom_s.c:osc_atom_s_getInt32", "osc_atom_s.c:osc_atom_s_getInt", "osc_atom_u.c:osc_atom_u_nserialize"]}
{"id": "C10", "title": "Address matching agrees with the pattern language (soundness)", "statement": "If matching a pattern against an address reports a complete match, then the address really belongs to the language the pattern describes: components correspond one to one, '?' stands for one character, '*' for any run of characters inside one component, [..] for one character of the set or range (or outside it with '!'), {a,b} for one of the alternatives.", "quantifier": "every pattern and every address without stars", "why_tests_cant": "patterns and addresses are unbounded strings and the matcher backtracks; soundness depends on every backtracking path", "anchors": ["osc_match.c:osc_match", "osc_match.c:osc_match_range", "osc_match.h:OSC_MATCH_BACKTRACK_LIMIT"]}
{"id": "C11", "title": "Address matching finds every match (completeness)", "statement": "If an address belongs to the language of a well-formed pattern, matching reports a complete match, unless the documented backtracking limit is hit.", "quantifier": "every well-formed pattern and every address", "why_tests_cant": "requires showing that no backtracking branch is dropped, for all strings", "anchors": ["osc_match.c:osc_match"]}
{"id": "C12", "title": "Plain addresses match by equality", "statement": "For a pattern without special characters, a complete match is reported exactly when pattern and address are the same string.", "quantifier": "every pair of strings starting with a slash, without special characters", "why_tests_cant": "infinitely many strings", "anchors": ["osc_match.c:osc_match"]}
{"id": "C13", "title": "Partial matches end on component boundaries", "statement": "When only the pattern is consumed, the matched part of the address ends right before a slash and the remaining address is what a container below that address would be asked for; when only the address is consumed the unmatched part of the pattern starts with a slash.", "quantifier": "every pattern and address for which the matcher reports a partial match", "why_tests_cant": "unbounded strings, offsets depend on the backtracking history", "anchors": ["osc_match.c:osc_match", "osc_query.c:osc_query_select"]}
{"id": "C14", "title": "Malformed patterns are reported, not matched", "statement": "A pattern or address without a leading slash is reported with its own error code and zero offsets; an error is never confused with a match flag by comparing to the complete-match value; matching always terminates and the offsets never exceed the string lengths.", "quantifier": "every pair of strings", "why_tests_cant": "termination and bounds must hold for every input including malformed ones", "anchors": ["osc_match.c:osc_match", "osc_match.h:OSC_MATCH_ERROR_PATTERN_NO_LEADING_SLASH"]}
{"id": "C15", "title": "Removing an address from a bundle removes exactly that address", "statement": "Removing an address leaves every message with a different address untouched, byte for byte and in order, and no message with the removed address; removing it again changes nothing.", "quantifier": "every serialised bundle and every address", "why_tests_cant": "in-place memmove over unbounded data; any arrangement of matching and non-matching messages", "anchors": ["osc_bundle_s.c:osc_bundle_s_removeMessage"]}
{"id": "C16", "title": "Appending, concatenating and replacing messages keep the rest of the bundle", "statement": "Appending a message to a serialised bundle adds it at the end and changes nothing else; concatenating gives the messages of the first followed by those of the second; replacing a message substitutes that message only, whatever the relative sizes of the old and new message.", "quantifier": "every serialised bundle and message", "why_tests_cant": "unbounded contents; size differences in both directions", "anchors": ["osc_bundle_s.c:osc_bundle_s_appendMessage", "osc_bundle_s.c:osc_bundle_s_concat", "osc_bundle_s.c:osc_bundle_s_replaceMessage", "osc_bundle_s.c:osc_bundle_s_wrapMessage"]}
{"id": "C17", "title": "Union, intersection and difference behave as set operations on addresses", "statement": "For bundles with plain addresses, the union contains an address exactly when one of the inputs does and prefers the first bundle's value, the intersection contains exactly the addresses present in both with the first bundle's values, and the difference contains exactly the addresses present in one input only; the output contains no address twice.", "quantifier": "every pair of bundles with plain addresses", "why_tests_cant": "all interleavings of shared and unshared addresses, including duplicates within one input", "anchors": ["osc_bundle_s.c:osc_bundle_s_union", "osc_bundle_s.c:osc_bundle_s_intersection", "osc_bundle_s.c:osc_bundle_s_difference", "osc_bundle_u.c:osc_bundle_u_union", "osc_bundle_u.c:osc_bundle_u_intersection"]}
{"id": "C18", "title": "Looking up an address returns exactly the matching messages, in order", "statement": "A full-match lookup returns the messages whose address matches the query, in bundle order, and none else; the existence test is true exactly when the lookup is non-empty; the first-match query returns the first of them.", "quantifier": "every bundle and every query pattern", "why_tests_cant": "unbounded bundles and patterns", "anchors": ["osc_bundle_s.c:osc_bundle_s_lookupAddress", "osc_bundle_s.c:osc_bundle_s_addressExists", "osc_bundle_s.c:osc_bundle_s_getFirstFullMatch", "osc_bundle_u.c:osc_bundle_u_lookupAddress", "osc_bundle_u.c:osc_bundle_u_addressExists"]}
{"id": "C19", "title": "A bound test looks at the arguments of the message that was found", "statement": "Asking whether an address is bound answers whether the first matching message has at least one argument.", "quantifier": "every bundle and every query pattern", "why_tests_cant": "depends on the relation between the lengths of the query and of the stored address", "anchors": ["osc_bundle_s.c:osc_bundle_s_addressIsBound", "osc_bundle_u.c:osc_bundle_u_addressIsBound"]}
{"id": "C20", "title": "Editing the argument list of a message behaves like editing a list", "statement": "After any sequence of appending, prepending, inserting and removing arguments the message contains exactly the arguments a plain list would, the count is right, and walking forward and backward gives the same sequence.", "quantifier": "every sequence of edits of any length", "why_tests_cant": "pointer updates at head, tail and middle interact; histories are unbounded", "anchors": ["osc_message_u.c:osc_message_u_appendAtom", "osc_message_u.c:osc_message_u_prependAtom", "osc_message_u.c:osc_message_u_insertAtom", "osc_message_u.c:osc_message_u_removeAtom", "osc_message_u.c:osc_message_u_getArg"]}
{"id": "C21", "title": "Editing the message list of a bundle behaves like editing a list", "statement": "After any sequence of adding (with or without duplicate removal) and removing messages, a bundle holds exactly the messages a plain list would, in order, its count is right and its links are consistent; adding without duplicates leaves at most one message with that address.", "quantifier": "every sequence of operations of any length", "why_tests_cant": "the tail pointer is deliberately null for one-element bundles, so histories matter", "anchors": ["osc_bundle_u.c:osc_bundle_u_addMsg", "osc_bundle_u.c:osc_bundle_u_addMsgWithoutDups", "osc_bundle_u.c:osc_bundle_u_removeMessage", "osc_bundle_u.c:osc_bundle_u_removeMsg"]}
{"id": "C22", "title": "Flattening keeps every leaf value under its full path", "statement": "Flattening a nested bundle produces one message per address path that has non-bundle arguments, whose address is the concatenation of the enclosing addresses (with the separator) and whose arguments are the non-bundle arguments in order; without a level limit no bundle remains in the result.", "quantifier": "every nested bundle of any depth", "why_tests_cant": "unbounded nesting and branching; arguments are removed from the list while it is being iterated", "anchors": ["osc_bundle_u.c:osc_bundle_u_flatten"]}
{"id": "C23", "title": "Exploding and then flattening gives the original messages", "statement": "Exploding a bundle of plain slash-separated addresses into nested bundles and flattening the result gives back the same addresses with the same arguments.", "quantifier": "every bundle whose addresses are distinct plain paths none of which is a proper prefix of another", "why_tests_cant": "all sets of paths of any depth", "anchors": ["osc_bundle_u.c:osc_bundle_u_explode", "osc_message_u.c:osc_message_u_explode", "osc_bundle_u.c:osc_bundle_u_flatten"]}
{"id": "C24", "title": "A query distributes every message to every selector it matches", "statement": "Querying a bundle with several selectors puts a message into the complete or partial result of each selector it matches and into the unmatched part exactly when it matches none; nothing is lost or duplicated and order is kept.", "quantifier": "every bundle and every list of selectors", "why_tests_cant": "unbounded bundles and selector lists, overlapping selectors", "anchors": ["osc_query.c:osc_query_select", "osc_rset.c:osc_rset_result_addCompleteMatch", "osc_rset.c:osc_rset_addUnmatched"]}
{"id": "C25", "title": "Dispatch calls each matching handler with the right messages", "statement": "Dispatching a bundle through a table of selectors calls each handler for exactly the messages its selector matches.", "quantifier": "every bundle and every table", "why_tests_cant": "unbounded tables and bundles", "anchors": ["osc_dispatch.c:osc_dispatch_selectors", "osc_vtable.c:osc_vtable_callWithEntry"]}
{"id": "C26", "title": "The hash table behaves like a map", "statement": "After any sequence of stores, safe stores, removals and clears, looking up a key returns the value most recently stored for it (first stored for safe stores) and nothing for absent keys; iteration visits every entry once.", "quantifier": "every sequence of operations on any keys, including keys that collide", "why_tests_cant": "collisions and chains make behaviour history dependent; unbounded histories", "anchors": ["osc_hashtab.c:osc_hashtab_store", "osc_hashtab.c:osc_hashtab_storeSafe", "osc_hashtab.c:osc_hashtab_lookup", "osc_hashtab.c:osc_hashtab_remove", "osc_hashtab.c:osc_hashtab_foreach"]}
{"id": "C27", "title": "The linked list behaves like a sequence", "statement": "After any sequence of prepend, append, pop-head, pop-tail, pop-nth and clear the list contains the elements a plain sequence would, the count is right, peeking at any index returns the element at that position, and walking from either end gives the same sequence.", "quantifier": "every sequence of operations of any length", "why_tests_cant": "pointer surgery at both ends and in the middle over unbounded histories", "anchors": ["osc_linkedlist.c:osc_linkedlist_prepend", "osc_linkedlist.c:osc_linkedlist_append", "osc_linkedlist.c:osc_linkedlist_popNth", "osc_linkedlist.c:osc_linkedlist_peekNth"]}
{"id": "C28", "title": "Arrays keep their elements and never touch memory outside", "statement": "Getting an element by a valid index returns that element and an index at or past the end is refused; resizing keeps the common prefix and zero-fills growth; copying one array into another at an offset either fits or grows the destination.", "quantifier": "every array, index, size and offset", "why_tests_cant": "all sizes and offsets including those around the boundaries", "anchors": ["osc_array.c:osc_array_get", "osc_array.c:osc_array_resize", "osc_array.c:osc_array_copyInto", "osc_array.c:osc_array_copy"]}
{"id": "C29", "title": "Time tag arithmetic is exact on the 64-bit scale", "statement": "Time tags are fixed-point numbers of 32.32 bits: adding two adds them modulo 2^64, subtracting gives the exact difference, comparing is a total order consistent with that number, and adding then subtracting returns to the start.", "quantifier": "every pair of time tags", "why_tests_cant": "2^128 pairs; carries and borrows only occur on a sparse set", "anchors": ["osc_timetag.c:osc_timetag_add", "osc_timetag.c:osc_timetag_subtract", "osc_timetag.c:osc_timetag_compare"]}
{"id": "C30", "title": "Time tags survive the wire and the bundle header", "statement": "Encoding a time tag into a bundle header and decoding it gives the same time tag, setting the time tag of a bundle and reading it back gives the same value and leaves the messages unchanged.", "quantifier": "every time tag and every bundle", "why_tests_cant": "2^64 time tags times unbounded bundles", "anchors": ["osc_timetag.c:osc_timetag_encodeForHeader", "osc_timetag.c:osc_timetag_decodeFromHeader", "osc_bundle_s.c:osc_bundle_s_setTimetag", "osc_bundle_s.c:osc_bundle_s_getTimetag"]}
{"id": "C31", "title": "Calendar conversion of time tags is right", "statement": "Printing a time tag as an ISO 8601 date gives the proleptic Gregorian calendar date of that second, and parsing it back gives the same second.", "quantifier": "every second in the representable range", "why_tests_cant": "2^32 seconds and calendar irregularities (leap years, century rule)", "anchors": ["osc_timetag.c:osc_timetag_toISO8601", "osc_timetag.c:osc_timetag_fromISO8601"]}
{"id": "C32", "title": "The serial checker accepts every well-formed stream and marks message ends", "statement": "Feeding the bytes of a bundle or message one at a time to the serial state machine reports no error at any byte. Inside each message of a bundle the counter is the number of bytes still to come, so it is zero exactly after the last byte of each message and the machine is then ready for the next message; in a message sent on its own the counter tells how many bytes have been received.", "quantifier": "every well-formed bundle and message, every position in the stream", "why_tests_cant": "state machine over unbounded byte streams", "anchors": ["osc_serial.c:osc_serial_processByte"]}
{"id": "C33", "title": "Quoted strings are unambiguous", "statement": "Quoting a string for the text format escapes exactly the quote and backslash characters, so the quoted text contains no unescaped quote inside and removing the escapes gives the original string; the length computed in advance is exactly the length written.", "quantifier": "every string", "why_tests_cant": "all strings, all positions of special characters, all buffer sizes", "anchors": ["osc_strfmt.c:osc_strfmt_quotedStringWithQuotedMeta", "osc_strfmt.c:osc_strfmt_stringWithQuotedMeta", "osc_strfmt.c:osc_strfmt_countMeta", "osc_strfmt.c:osc_strfmt_addQuotesAndQuoteMeta"]}
{"id": "C34", "title": "List functions of the expression language obey list laws", "statement": "reverse is an involution that keeps all elements, first/rest and butlast/last split a list without loss, length is additive over list construction, nth selects by position and fails on out-of-range indices, nfill repeats, interleave takes elements in rotation, nonzero returns the indices of the true elements.", "quantifier": "every list of values", "why_tests_cant": "lists of every length and content", "anchors": ["osc_expr.c:osc_expr_reverse", "osc_expr.c:osc_expr_first", "osc_expr.c:osc_expr_rest", "osc_expr.c:osc_expr_butlast", "osc_expr.c:osc_expr_last", "osc_expr.c:osc_expr_nth", "osc_expr.c:osc_expr_list", "osc_expr.c:osc_expr_interleave", "osc_expr.c:osc_expr_nfill", "osc_expr.c:osc_expr_nonzero"]}
{"id": "C35", "title": "Binary operators broadcast over lists", "statement": "Applying a binary operator to two lists combines element by element up to the shorter list, a one-element list is combined with every element of the other, and an error in any element makes the whole operation fail.", "quantifier": "every pair of lists and every operator", "why_tests_cant": "all length combinations including empty and one-element lists", "anchors": ["osc_expr.c:osc_expr_2arg", "osc_expr.c:osc_expr_2arg_dbl_dbl"]}
{"id": "C36", "title": "Integer arithmetic promotes to the wider operand type and wraps there", "statement": "Adding, subtracting, multiplying or dividing two integer values computes in the wider of the two operand types, so a result that fits that type is exact; division by zero is reported as a value, never a crash.", "quantifier": "every pair of integer values of every width", "why_tests_cant": "all value pairs in all type combinations", "anchors": ["osc_expr.c:osc_expr_add", "osc_expr.c:osc_expr_subtract", "osc_expr.c:osc_expr_multiply", "osc_expr.c:osc_expr_divide", "osc_typetag.c:osc_typetag_compare"]}
{"id": "C37", "title": "Assignment binds exactly the named address", "statement": "After assigning a list of values to an address, the bundle contains that address once bound to those values at its old position (or at the end when new), and every other message is unchanged.", "quantifier": "every bundle, address and value list", "why_tests_cant": "unbounded bundles and values", "anchors": ["osc_expr.c:osc_expr_specFunc_assign", "osc_bundle_s.c:osc_bundle_s_getFirstEqualAddr", "osc_bundle_s.c:osc_bundle_s_replaceMessage"]}
{"id": "C38", "title": "Conditional and short-circuit forms evaluate only what they must", "statement": "if evaluates only the branch selected by its condition; && and || do not evaluate their right operand when the left decides; effects of unevaluated branches on the bundle never happen.", "quantifier": "every expression and every bundle", "why_tests_cant": "arbitrary nested expressions with side effects", "anchors": ["osc_expr.c:osc_expr_specFunc_if", "osc_expr.c:osc_expr_specFunc_andalso", "osc_expr.c:osc_expr_specFunc_orelse"]}
{"id": "C39", "title": "Function application is lexically scoped", "statement": "Applying a function binds its parameters for the body only: arguments are evaluated in the caller's environment, parameters shadow outer bindings inside the body and the caller's environment is unchanged afterwards; map applies the function position by position and concatenates the results, reduce folds from the stated side.", "quantifier": "every function, argument list and environment", "why_tests_cant": "unbounded expressions and environments", "anchors": ["osc_expr.c:osc_expr_specFunc_apply", "osc_expr.c:osc_expr_specFunc_map", "osc_expr.c:osc_expr_specFunc_reduce"]}
{"id": "C40", "title": "Type tag ordering is consistent", "statement": "Comparing type tags is a strict weak order that ranks numeric types by width with floating types above integers, so the larger-type choice is symmetric and associative.", "quantifier": "every pair and triple of type tags", "why_tests_cant": "256^3 triples, finite but far beyond hand tests; consistency is what operators rely on", "anchors": ["osc_typetag.c:osc_typetag_compare", "osc_typetag.c:osc_typetag_getLargestType"]}
{"id": "C41", "title": "Renaming a message changes only its address", "statement": "Renaming a message in a copy gives a message with the new address and the same type tags and arguments, with consistent sizes; an invalid new address is refused.", "quantifier": "every message and every new address", "why_tests_cant": "all combinations of old and new address lengths modulo 4", "anchors": ["osc_message_s.c:osc_message_s_renameCopy"]}
{"id": "C42", "title": "Bundles keep message copies independent", "statement": "Copying a bundle, message or array gives a value equal to the source, and later edits of the copy do not change the source.", "quantifier": "every bundle, message and array, every later sequence of edits", "why_tests_cant": "aliasing bugs show only under particular histories", "anchors": ["osc_message_u.c:osc_message_u_deepCopy", "osc_bundle_u.c:osc_bundle_u_copy", "osc_atom_u.c:osc_atom_u_copyInto"]}
{"id": "C43", "title": "The serial checker reports malformed input at the offending byte", "statement": "A stream that starts with neither '#' nor '/', a misspelt bundle identifier, a message whose address is not followed by a comma, an unknown type tag, and non-zero padding after an address are each reported as an error as soon as the offending byte has been processed.", "quantifier": "every byte value, every address and type tag string before the offending byte", "why_tests_cant": "every prefix and every byte value; the address and type tag string are unbounded", "anchors": ["osc_serial.c:osc_serial_processByte", "osc_serial.c:osc_serial_errorp"]}
{"id": "C44", "title": "Assigning to list positions changes exactly those positions", "statement": "Assigning values to positions of a list gives a list of the same length in which exactly the named positions hold the assigned values (a single value goes to all of them, the last write to a position counts, positions outside the list are skipped) and every other position is unchanged; the argument list itself is not changed.", "quantifier": "every list, every list of integer positions and every list of values", "why_tests_cant": "all combinations of lengths and of inside, outside, repeated and negative positions", "anchors": ["osc_expr.c:osc_expr_assign_to_index", "osc_atom_array_u.c:osc_atom_array_u_copy"]}
{"id": "C45", "title": "Comparisons follow the order of the values", "statement": "The operators <, <=, >, >=, == and != decide the order of integers as numbers whatever their types, of strings by their bytes, and of time tags by time; a string is greater than every number; > and >= are < and <= with exchanged operands, != is the negation of ==; & and | and ! combine the truth of values.", "quantifier": "every pair of values of the compared types", "why_tests_cant": "all value pairs, all combinations of integer types, all strings", "anchors": ["osc_expr.c:osc_expr_lt", "osc_expr.c:osc_expr_le", "osc_expr.c:osc_expr_gt", "osc_expr.c:osc_expr_gte", "osc_expr.c:osc_expr_eq", "osc_expr.c:osc_expr_neq", "osc_expr.c:osc_expr_and", "osc_expr.c:osc_expr_or", "osc_expr.c:osc_expr_not", "osc_expr.c:osc_expr_compareTimetag"]}
{"id": "C46", "title": "Increment and decrement keep the type", "statement": "Incrementing or decrementing a list of integers adds or subtracts one from every element and keeps its type.", "quantifier": "every list of integers of every type", "why_tests_cant": "all values of all types and all lengths", "anchors": ["osc_expr.c:osc_expr_plus1", "osc_expr.c:osc_expr_minus1"]}
{"id": "C47", "title": "An address in an expression reads the bundle", "statement": "An address used as a value evaluates to the argument values of the first message in the bundle whose address it matches completely, in order and with their types; when no message matches, evaluation reports an unbound address. Reading changes nothing.", "quantifier": "every bundle, every address or pattern", "why_tests_cant": "all bundles and all patterns", "anchors": ["osc_expr.c:osc_expr_evalArgInLexEnv", "osc_bundle_s.c:osc_bundle_s_getFirstFullMatch"]}
{"id": "C48", "title": "Expressions can ask about the bundle", "statement": "In an expression, exists(/a) is true exactly when some message of the bundle is completely matched by /a; getaddresses() gives the addresses of all messages in order; getmsgcount() gives their number; emptybundle() is true exactly when there are none. None of them changes the bundle.", "quantifier": "every bundle, every address or pattern", "why_tests_cant": "all bundles and all patterns", "anchors": ["osc_expr.c:osc_expr_specFunc_existsorbound", "osc_expr.c:osc_expr_specFunc_getaddresses", "osc_expr.c:osc_expr_specFunc_getmsgcount", "osc_expr.c:osc_expr_specFunc_emptybundle"]}
{"id": "C49", "title": "delete removes exactly the named messages", "statement": "delete with a list of addresses removes every message to one of these addresses from the bundle and nothing else; the other messages and the time tag stay as they were, in order.", "quantifier": "every bundle and every list of addresses", "why_tests_cant": "all bundles, including those with several messages to one address, adjacent or not", "anchors": ["osc_expr.c:osc_expr_specFunc_delete", "osc_bundle_s.c:osc_bundle_s_removeMessage"]}
{"id": "C50", "title": "Expressions can set and read the time tag of the bundle", "statement": "settimetag stores its time tag in the header of the bundle and leaves all messages as they are; gettimetag gives the time tag in the header, so that it returns what settimetag stored.", "quantifier": "every time tag and every bundle", "why_tests_cant": "all 64 bit time tags, all bundles", "anchors": ["osc_expr.c:osc_expr_specFunc_settimetag", "osc_expr.c:osc_expr_specFunc_gettimetag"]}
{"id": "C51", "title": "Freeing releases everything once and nothing else", "statement": "Freeing a bundle, message, atom or atom array releases every memory block it consists of, nested bundles included, exactly once, and no other block; copying a bundle or message and then freeing the copy leaves the allocated memory as it was.", "quantifier": "every well formed value in every memory, whatever other blocks are allocated", "why_tests_cant": "all tree shapes and nesting depths and all other contents of memory; leaks and double frees show up in no return value", "anchors": ["osc_bundle_u.c:osc_bundle_u_free", "osc_message_u.c:osc_message_u_free", "osc_atom_u.c:osc_atom_u_free", "osc_atom_array_u.c:osc_atom_array_u_free"]}
{"id": "C52", "title": "Exploding puts each message where the parts of its address lead", "statement": "Exploding a bundle puts every message into nested bundles, one for each part of its address between separators down to the level limit, where a part that is already there is opened again rather than added twice; the arguments arrive unchanged, the source and all other memory are unchanged, and no block is lost.", "quantifier": "every bundle with plain addresses, every separator, every level limit, every destination", "why_tests_cant": "all sets of paths of any depth; leaks and unbounded recursion show up only for some addresses", "anchors": ["osc_bundle_u.c:osc_bundle_u_explode", "osc_message_u.c:osc_message_u_explode", "osc_message_u.c:osc_message_u_explode_impl"]}
{"id": "C53", "title": "The text of a bundle reads back as the same bundle", "statement": "Parsing the text that formatting a bundle gives yields a bundle with the same messages in the same order, with the same addresses and the same typed values, nested bundles included; different bundles have different texts.", "quantifier": "every bundle of every nesting depth, every address, string and number", "why_tests_cant": "all nesting depths, all strings with quotes and backslashes, all integers", "anchors": ["osc_bundle_u.c:osc_bundle_u_format", "osc_parser.y:osc_parser_parseString", "osc_scanner.l"]}
{"id": "C54", "title": "The formatted size is the number of characters written", "statement": "The size that is returned for the text of a bundle is exactly the number of characters that formatting writes; formatting into a new buffer gives the whole text ended by a NUL, and writing into a bigger buffer changes no byte behind the NUL.", "quantifier": "every bundle of every nesting depth, every buffer that is big enough", "why_tests_cant": "all types, numbers of messages and arguments and nesting depths; one character too few shows up as a lost character or an overrun only for some values", "anchors": ["osc_bundle_u.c:osc_bundle_u_getFormattedSize", "osc_bundle_u.c:osc_bundle_u_format", "osc_bundle_u.c:osc_bundle_u_nformat", "osc_message_u.c:osc_message_u_nformat", "osc_atom_u.c:osc_atom_u_nformat"]}
{"id": "C55", "title": "The text parser accepts exactly its grammar", "statement": "A sequence of tokens is accepted by the parser of the text form exactly if the grammar of messages, lists, values and nested bundles derives it, and the bundle that comes out is the one the derivation describes; no sequence describes two bundles.", "quantifier": "every sequence of tokens", "why_tests_cant": "infinitely many sequences of any length and nesting depth, accepted and rejected", "anchors": ["osc_parser.y"]}
{"id": "C56", "title": "The string functions of the expression language compute on the texts of values", "statement": "strlen gives the number of characters of every element; strcmp orders texts by their bytes, of the given length if there is one; strchar gives the characters at the given places and fails if one is out of range; strfind gives every place where the text occurs from the left without overlap; split gives the parts between separators and join puts the separator between the texts, without writing past its buffer; joining and splitting with a character that no part contains undo each other.", "quantifier": "every string, separator, list of strings, characters and numbers", "why_tests_cant": "all strings, including overlapping occurrences, separators at the ends, empty strings and lists, and every buffer size", "anchors": ["osc_expr.c:osc_expr_strlen", "osc_expr.c:osc_expr_strcmp", "osc_expr.c:osc_expr_strchar", "osc_expr.c:osc_expr_strfind", "osc_expr.c:osc_expr_split", "osc_expr.c:osc_expr_join"]}
{"id": "C57", "title": "Casts of the expression language convert values as their types say", "statement": "A cast to an integer type keeps every number that fits the type, reduces other integers modulo two to the width and drops the fraction of floating point numbers; a cast to float or double gives the number of that type nearest to the value, with ties to even; a cast to bool gives the truth of every value; a cast to string gives its text; a cast of a list to blob makes one byte of every element; a cast with types given as values uses one type for all values or one for each; a number cast to a blob becomes its bytes, the most significant first. A time tag cast to a double is its seconds, exactly if they are whole and otherwise up to 2^-19 seconds.", "quantifier": "every list of values and every type", "why_tests_cant": "all numbers of ten types in all pairs, all floating point numbers, lists of every length", "anchors": ["osc_expr.c:osc_expr_explicitCast", "osc_expr.c:osc_expr_explicitCast_dynamic", "osc_atom_u.c:osc_atom_u_getBlobCopy"]}
{"id": "C58", "title": "Bitwise and byte order functions work on the bits of integers", "statement": "bitand and bitor apply the operation to the bits of the first numbers of two lists, in the largest integer type of all the elements, which is the type of the result, and refuse anything but integers; hton32, ntoh32, hton64 and ntoh64 reverse the bytes of every integer in all the arguments, after widening it; ntoh takes back what hton did.", "quantifier": "every two lists of integers of any types, every list of arguments", "why_tests_cant": "all numbers and all pairs of types", "anchors": ["osc_expr.c:osc_expr_bitand", "osc_expr.c:osc_expr_bitor", "osc_expr.c:osc_expr_hton32", "osc_expr.c:osc_expr_ntoh32", "osc_expr.c:osc_expr_hton64", "osc_expr.c:osc_expr_ntoh64"]}
{"id": "C59", "title": "The parser of the expression language groups operators as declared", "statement": "The parser accepts a sequence of tokens exactly if it is the tokens of a syntax tree in which every operand belongs to the operator with the higher precedence (at equal precedence to the left one, for assignments and conditionals to the right one), and the result is that tree, of which there is only one; signs and ! apply before every infix operator, ?? and ??= do too, assignments take everything to their right; texts whose parentheses, brackets or braces do not balance are errors; the same holds for the text of a function.", "quantifier": "every sequence of tokens of any length, every syntax tree", "why_tests_cant": "infinitely many texts, with nesting of any depth and all combinations of operators", "anchors": ["osc_expr_parser.y:osc_expr_parser_parseExpr", "osc_expr_parser.y:osc_expr_parser_parseFunction"]}
{"id": "C60", "title": "Every notation of the expression language is a function call", "statement": "The parser makes the same expression of an infix operator as of a call of its function (a + b and add(a, b), a && b and andalso(a, b)), of c ? t : f as of if(c, t, f), of [a, b] as of list(a, b), of l[[i]] as of nth(l, i), of -e as of 0 - e, of a op= b as of assign(a, a op b), of a = e as of assign(a, e), of ++a as of a = plus1(a), of a++ as of prog1(a, ++a), of a ?? e as of if(bound(a), a, e), of a ??= e as of a = a ?? e, of assignments to elements and ranges as of assign_to_index, of a.b as of getbundlemember(a, b), of braces as of bundle, of backquotes as of value; a lambda expression has its parameters and one body expression for each further argument; a call is accepted exactly if a function with that name exists that takes this number of arguments, and assignments only to names that begin with a slash.", "quantifier": "all syntax trees, all names, any number of arguments", "why_tests_cant": "infinitely many expressions with arbitrary operands", "anchors": ["osc_expr_parser.y:osc_expr_parser_parseExpr", "osc_expr_func.h:osc_expr_funcsym", "osc_expr.c:osc_expr_lookupFunction"]}
{"id": "C61", "title": "A text of the expression language computes what a simple semantics of the language says", "statement": "There is a semantics of the expression language on values (lists of numbers, strings, time tags and truth values) and bindings of addresses to values that does not know the parser, the function table, the evaluator and the byte layout of bundles. Parsing a text and evaluating it with a serialized bundle changes the bundle to one with exactly the bindings that the semantics gives, keeps its header, and returns the values that the semantics gives, or the error code if evaluation fails; operands are evaluated from left to right with the changes they make, conditionals and && and || evaluate only what decides, and after an error the bundle has the bindings made before it.", "quantifier": "all texts of any length and nesting, all bundles with any bindings", "why_tests_cant": "infinitely many texts and bundles; the effects of assignments nested in expressions depend on each other", "anchors": ["osc_expr.c:osc_expr_eval", "osc_expr_parser.y:osc_expr_parser_parseExpr", "osc_expr_func.h:osc_expr_funcsym"]}
{"id": "C62", "title": "The text of an expression is read as the tokens it is written from", "statement": "A text that consists of operators, brackets, integers, hexadecimal numbers, floating point numbers, characters, truth values, nil, addresses, words, strings in quotes (with a backslash before each quote inside), and quote(...) with balanced parentheses, with any amount of blanks, tabs, line ends and comments between them, is read as exactly these tokens with these values, provided that no token is directly followed by a character that could continue it. Hence no text can be read in two ways, every sequence of tokens can be written (with blanks behind each), and a text written from the tokens of a syntax tree is parsed as this tree. Blanks matter in one unexpected place: 4 / 2 is a quotient, but 4/2 is the number 4 followed by the address /2 and a syntax error.", "quantifier": "all texts of any length, all sequences of tokens with arbitrary values, all layouts", "why_tests_cant": "infinitely many token sequences and layouts; the longest-match rule makes each token depend on what follows it", "anchors": ["osc_expr_scanner.l:osc_expr_scanner_lex", "osc_expr_parser.y:osc_expr_parser_parseExpr"]}
{"id": "C63", "title": "Arithmetic and comparison with floating point numbers in expressions is that of IEEE 754 doubles", "statement": "If at least one operand of +, -, * or / in the expression language is a float or a double and the other is any number (float, double, integer of any width, true or false), the result is the double nearest to the exact sum, difference, product or quotient of the two numbers (ties to even, infinities and NaN as usual), after integers are converted to the nearest double; dividing by zero gives the string \"Inf\". ++ and -- add and subtract one in the type of the operand. The comparisons of any two numbers are those of the doubles they stand for; with a NaN only != is true. The bits of the operands and results are the binary32 and binary64 encodings.", "quantifier": "all pairs of numbers of all types and all bit patterns", "why_tests_cant": "there are 2^128 pairs of doubles; rounding errors show on few of them", "anchors": ["osc_expr.c:osc_expr_add", "osc_expr.c:osc_expr_subtract", "osc_expr.c:osc_expr_multiply", "osc_expr.c:osc_expr_divide", "osc_expr.c:osc_expr_lt", "osc_expr.c:osc_expr_plus1", "osc_atom_u.c:osc_atom_u_getDouble"]}
{"id": "C64", "title": "Time tags and seconds in expressions", "statement": "A time tag plus or minus a non-negative number of seconds is the time tag moved by that number, exactly if it is whole and otherwise up to two units of 2^-32 seconds (the sum modulo 2^32 seconds); the difference of two time tags, the later one first, is the number of seconds between them, exactly if it is whole and otherwise up to 2^-19 seconds; a time tag is compared with a whole number of seconds in the order of time.", "quantifier": "all time tags and all non-negative numbers of seconds of every number type below 2^32", "why_tests_cant": "2^64 time tags and as many numbers; the rounding is different for each", "anchors": ["osc_timetag.c:osc_timetag_float_to_ntp", "osc_timetag.c:osc_timetag_ntp_to_float", "osc_expr.c:osc_expr_add", "osc_expr.c:osc_expr_subtract", "osc_expr.c:osc_expr_compareTimetag"]}
{"id": "C65", "title": "The least and the greatest number of a list, and clipping", "statement": "min and max of a list of numbers of any types return the element whose number is the least or the greatest, with its type (of several equal ones the last; NaN is skipped); extrema returns both; range returns their difference, correctly rounded. clip brings every number of a list between two bounds (the upper bound wins if they are in the wrong order, NaN stays) and leaves strings, blobs, booleans and bundles as they are; the result is a double if the element or a bound is of a floating point type and an integer otherwise.", "quantifier": "all lists of numbers of all types, all bounds", "why_tests_cant": "lists of any length with all orders of elements, ties, infinities and NaN among 2^64 bit patterns", "anchors": ["osc_expr.c:osc_expr_min", "osc_expr.c:osc_expr_max", "osc_expr.c:osc_expr_extrema", "osc_expr.c:osc_expr_range", "osc_expr.c:osc_expr_clip"]}
{"id": "C66", "title": "Sums, products, means and scalar products of lists", "statement": "sum adds all numbers of all its arguments one after the other with correct rounding and returns a double if one of them is of a floating point type, otherwise the sum in the first of int32, uint32, int64, uint64, double that is wide enough; product does the same with multiplication; mean is the sum divided by the number of elements, correctly rounded; dot adds the products of corresponding elements up to the length of the shorter list. For integers whose magnitudes add up to at most 2^53 the sum is exact and the mean is the double nearest to the true mean.", "quantifier": "all lists of numbers of all types, of any length", "why_tests_cant": "lists of any length; every addition rounds, and the type of the result depends on the value of the whole sum", "anchors": ["osc_expr.c:osc_expr_sum", "osc_expr.c:osc_expr_product", "osc_expr.c:osc_expr_mean", "osc_expr.c:osc_expr_dot"]}
{"id": "C67", "title": "Whole parts, absolute values, signs and remainders of lists", "statement": "floor, ceil and round give for every number of a list the greatest whole number not above it, the least not below it and the nearest one (halves away from zero) as a double; abs gives the absolute value, sign gives -1, 0 or 1 as an integer; fmod gives for every pair of numbers the exact remainder of the division with the sign of the dividend, NaN for a divisor 0. Infinities and NaN are kept by the roundings.", "quantifier": "all non-empty lists of numbers of all types", "why_tests_cant": "2^64 doubles and lists of any length; halves, subnormal numbers and numbers above 2^53 behave differently", "anchors": ["osc_expr.c:osc_expr_1arg_dbl", "osc_expr.c:osc_expr_2arg_dbl_dbl", "osc_expr.c:osc_expr_sign"]}
{"id": "C68", "title": "Remainders and arithmetic sequences", "statement": "n % m of whole numbers of any number types is the number between 0 and |m| (exclusive) that differs from n by a multiple of m, although it is computed with rounded doubles; for m = 0 it is n. aseq(n, m, d) is the list n, n + d, n + 2d, ... of exactly those numbers that lie between n and m; the step defaults to 1 or -1; a step of 0 or in the wrong direction is an error, and equal ends give a list of one element. The results are doubles if an argument is of a floating point type and 32 bit integers otherwise.", "quantifier": "all whole numbers up to 2^52 in all number types, all lists of 32 bit integers", "why_tests_cant": "2^64 pairs of 32 bit integers alone; a quotient that is rounded up to the next whole number would be wrong for a few of them only", "anchors": ["osc_expr.c:_osc_expr_fmod", "osc_expr.c:osc_expr_mod", "osc_expr.c:osc_expr_aseq"]}
{"id": "C69", "title": "Sorting and the median", "statement": "sort returns the values of all its arguments in ascending order: the numbers of all types first, by their value, then the strings in the order of their bytes; no value is lost or added. sortidx returns the positions of the elements in that order, each exactly once. median of numbers is the middle one in ascending order, and for an even number of them half the sum of the two in the middle, correctly rounded.", "quantifier": "all lists of numbers of all types (NaN excepted) and strings, of any length, and all implementations of qsort that C permits", "why_tests_cant": "lists of any length and every qsort; whether the comparison function fulfils what qsort demands is a statement about all triples of values", "anchors": ["osc_expr.c:osc_expr_sort", "osc_expr.c:osc_expr_qsortcb", "osc_expr.c:osc_expr_sortidx", "osc_expr.c:osc_expr_qsortIndexcb", "osc_expr.c:osc_expr_median", "osc_expr.c:comp"]}
{"id": "C70", "title": "Determinants", "statement": "det(row1, ..., rown) is the determinant of the matrix with these rows: of two rows of whole numbers up to 2^26 in magnitude and of three rows of whole numbers up to 100000 it is exact; of a matrix with zeros below the diagonal it is the product of the diagonal, and every exchange of two rows changes the sign; of a matrix whose first column is zero it is 0. Rows of the wrong length are an error.", "quantifier": "all matrices of numbers of all types, of any size", "why_tests_cant": "the 3x3 case alone has 2^158 inputs; larger matrices go through a decomposition with row exchanges of any order", "anchors": ["osc_expr.c:osc_expr_det", "osc_expr.c:LUPDecompose", "osc_expr.c:LUPDeterminant"]}
{"id": "C71", "title": "Running sums and vector products", "statement": "cumsum(list) has as many elements as the list; its k-th element is the sum of the first k elements of the list. Of integers the result has the largest of their types, and sums are reduced modulo two to the width for unsigned and narrow types; of numbers with a double among them, and of floats, every sum is the one before plus the next number, correctly rounded. cross(p, q) of two lists of three integers is (p2 q3 - p3 q2, p3 q1 - p1 q3, p1 q2 - p2 q1) in the largest of their types, and exact for whole doubles up to 2^26; other lengths are an error.", "quantifier": "all lists of numbers of any length; all pairs of lists", "why_tests_cant": "lists of any length with every mixture of ten types; the sums that overflow are a small part of the inputs", "anchors": ["osc_expr.c:osc_expr_cumsum", "osc_expr.c:osc_expr_cross", "osc_expr.c:osc_expr_cross_uint16", "osc_typetag.c:osc_typetag_getLargestType"]}
{"id": "C72", "title": "Convex hull of a list of points", "statement": "The expression function quickhull, called with points whose coordinates are whole numbers of magnitude at most 2^25 (one list x y x y ..., or a list of x and a list of y; at least three points), ends and returns points of the input, in the order of the input, each of them on the boundary of the convex hull, such that no input point lies farther in any direction than all returned points: the returned points have the same convex hull as the input, and every vertex of the hull is returned. If no three points are on a line, the result is exactly the vertices. As the code stands this fails when all points have the same x (only the first point is returned), and with collinear points non-vertices may be returned. Too few points, lists of different lengths and a wrong number of arguments give no list and no error code.", "quantifier": "for all lists of points with whole coordinates of magnitude at most 2^25, in all number types, and all directions", "why_tests_cant": "The convex hull property quantifies over all directions and all point sets, and the recursion has no obvious bound; tests cannot show that it always ends.", "anchors": ["osc_expr.c:4470-4578"]}
{"id": "C73", "title": "Bundles made from lists", "statement": "The expression function bundle, called with no or with at least two arguments that are addresses (strings) and lists of values in turn, returns one bundle with these messages in this order, each with its values; a last address without a list, or a single string, makes a message without values; a text that does not begin with a slash makes a message without an address. Anything but a string where an address has to be is an error and returns nothing. A single list of numbers that are the bytes of a serialised bundle returns this bundle. A single blob that holds a serialised bundle should return it as well: as the code stands, it reads past the end of every blob.", "quantifier": "for all numbers of arguments and all lists of values of all types, and all bundles", "why_tests_cant": "the number of arguments, the lists and the nested bundles are unbounded", "anchors": ["osc_expr.c:osc_expr_bundle"]}
{"id": "C74", "title": "Sorting addresses by patterns", "statement": "The expression function match, called with a list of patterns and a list of addresses, returns for every pattern a bundle with the pattern, the addresses that the pattern describes, the addresses that a proper initial part of the components of the pattern describes, and all other addresses: every address is in exactly one of the three lists, and their order is kept. Addresses that are not strings are left out; for a pattern that is not a string there is no bundle. Without addresses the behaviour is undefined.", "quantifier": "for all lists of patterns and addresses (the descriptions for patterns without empty alternatives whose search stays within the limit of the matcher)", "why_tests_cant": "pattern languages are infinite; that an address is in exactly one list and in the right one for every pattern cannot be tested", "anchors": ["osc_expr.c:osc_expr_match", "osc_match.c:osc_match"]}
{"id": "C75", "title": "Strings and numbers as time tags in the expression language", "statement": "The expression function readstring returns a single string unchanged; strtotime of a date and time of the calendar in the form of ISO 8601, with up to nine digits of a fraction, is the time tag with this second (modulo 2^32) and this fraction, up to three units of 2^-32 seconds; floattotime of a float or double that is at least 0 and less than 2^32 is the time tag that differs from it by less than two units of 2^-32 seconds, and exactly this one for whole numbers. Longer or empty lists and values of other types (integers also) are errors and return nothing.", "quantifier": "for all dates from 1900 to 9999, all times of day, all fractions, and all floating point numbers in range", "why_tests_cant": "about 10^10 seconds with a thousand million fractions each, and about 2^62 doubles", "anchors": ["osc_expr.c:osc_expr_readstring", "osc_expr.c:osc_expr_strtotime", "osc_expr.c:osc_expr_floattotime"]}
{"id": "C76", "title": "Square roots, remainders and exponents in the expression language", "statement": "sqrt of a list of numbers has for every element the double nearest to the real square root (ties to even), so the square roots of squares of whole numbers below 2^26 are exact; a negative number gives NaN, zeros keep their sign. remainder gives x - n*y, where n is the whole number nearest to the quotient (the even one of two), exactly and without rounding, with the sign of x if it is zero. logb and ilogb give the exponent e with 2^e <= |x| < 2^(e+1).", "quantifier": "for all lists of numbers and all doubles", "why_tests_cant": "2^64 doubles for one argument and 2^128 pairs for two; rounding errors appear for few of them only", "anchors": ["osc_expr_func.h:osc_expr_funcsym", "osc_expr.c:osc_expr_1arg_dbl", "osc_expr.c:osc_expr_2arg_dbl_dbl"]}
{"id": "C77", "title": "Functions of the C library, norms and MIDI notes in the expression language", "statement": "The functions of math.h in the expression language apply the function of the C library with the documented name to every element of the list, or to the pairs of elements of two lists, and return doubles. jn and yn are called with the whole number and the double at the heads of their lists. l2norm is the correctly rounded square root of the sum of the squares. mtof(x, base) and ftom(x, base) compute base*exp((x-69)*ln2/12) and 69+log(x/base)*12/ln2, where each operation is rounded once; the base is 440 if it is missing; note 69 has exactly the frequency base, and the frequency base is exactly note 69. Elements that are not numbers are returned as they are.", "quantifier": "for all lists of numbers, all notes and frequencies, and all C libraries", "why_tests_cant": "the claim is for every list and for every behaviour of the C library", "anchors": ["osc_expr.c:osc_expr_1arg_dbl", "osc_expr.c:osc_expr_2arg_dbl_dbl", "osc_expr.c:osc_expr_l2norm", "osc_expr.c:osc_expr_mtof", "osc_expr.c:osc_expr_ftom"]}
{"id": "C78", "title": "The constants of the expression language", "statement": "Every constant (pi, twopi, halfpi, quarterpi, oneoverpi, twooverpi, degtorad, radtodeg, e, lntwo, lnten, logtwoe, logtene, sqrttwo, sqrthalf, phi, the twelfth root of 2 and the thirteenth root of 3) returns one double, whatever the arguments are, and this is the double nearest to the real number of this name.", "quantifier": "for all constants and all arguments; nearest among all doubles", "why_tests_cant": "the real numbers are irrational, so that a test compares only with another approximation", "anchors": ["osc_expr.c:osc_expr_pi", "osc_expr.c:osc_expr_degtorad", "osc_expr.c:osc_expr_thirteenth_root_of_3"]}
{"id": "C79", "title": "Members of nested bundles are read from the nested bundle", "statement": "getbundlemember(x, /b), also written x./b, where the first value of x is a bundle, gives the values of the first message to /b in that bundle, and the error of an unbound address if there is none. If the second argument is an expression or a string, its value, computed in the outer bundle, is the address. The outer bundle is as the evaluation of the arguments left it. If x has no value, or its first value is neither a bundle nor a string, the result is an error.", "quantifier": "for all nested bundles with addresses without a star and values of any type (nested bundles included), all addresses without pattern characters, all arguments x and all states of the evaluator", "why_tests_cant": "bundles can be nested and filled in unboundedly many ways", "anchors": ["osc_expr.c:osc_expr_specFunc_getBundleMember"]}
{"id": "C80", "title": "Assignment to a member of a nested bundle changes this member only", "statement": "/a./b = x (assigntobundlemember) binds /a, at its place in the outer bundle, to the nested bundle in which /b is bound to the values of x, at the place of the first message to /b or at the end; the other members, the further values of /a, the other messages and the time tag of the outer bundle are unchanged. If /a is not bound it is bound to an empty bundle first, also when x has an error. Reading the member afterwards gives the values of x, and every other member as before. An error in x should be the result.", "quantifier": "for all outer and nested bundles, all values and right-hand sides, all states of the evaluator", "why_tests_cant": "the claim is for all contents of both bundles and all right-hand sides, including those that change the outer bundle", "anchors": ["osc_expr.c:osc_expr_specFunc_assignToBundleMember"]}
{"id": "C81", "title": "eval has the effect of the text on the bundle", "statement": "eval(x), where x is a string, reads the string as a text of the expression language and changes the bundle as this text does, stopping at the first error; the result is one 32 bit integer: 0, or the code of the error. If x is an unbound address, this is the error and nothing is evaluated.", "quantifier": "for all texts of the language covered by C61, all bundles and all states of the evaluator", "why_tests_cant": "there are infinitely many texts and bundles", "anchors": ["osc_expr.c:osc_expr_specFunc_eval"]}
{"id": "C82", "title": "The text of a bundle is the same for both of its forms", "statement": "Formatting a bundle in the wire format gives the same size and the same text as formatting the bundle that is read from it, whatever the time tag in its header is and whatever stands behind it in memory; the text is ended by a NUL, no byte behind that is written, and reading the text gives the same messages and values again.", "quantifier": "every bundle in the wire format of every nesting depth, every buffer that is big enough", "why_tests_cant": "the two forms have separate formatting functions for bundles, messages and values, which must agree for all types, numbers of messages and arguments, and nesting depths", "anchors": ["osc_bundle_s.c:osc_bundle_s_getFormattedSize", "osc_bundle_s.c:osc_bundle_s_format", "osc_bundle_s.c:osc_bundle_s_nformat", "osc_bundle_s.c:osc_bundle_s_nformatNestedBndl", "osc_message_s.c:osc_message_s_nformat", "osc_atom_s.c:osc_atom_s_nformat"]}
{"id": "C83", "title": "Union and intersection of bundles in memory", "statement": "The union of two bundles of message objects has, behind the messages that were in the bundle it is written to, the first message of each address of the first and then of the second bundle, unless the address was there; the intersection has those of the first bundle whose address the second has too. The messages are copies: the two bundles and everything else in memory are unchanged, and no block is lost; the two may be the same bundle. Looking for an address gives a pointer to the first message to it, or NULL if there is none; the address is bound if this message has an argument.", "quantifier": "all bundles of all nesting depths in all memories, also when one bundle is both sources", "why_tests_cant": "the claim is about all lists of messages and all heaps, including that no other block changes", "anchors": ["osc_bundle_u.c:osc_bundle_u_union", "osc_bundle_u.c:osc_bundle_u_intersection", "osc_bundle_u.c:osc_bundle_u_addressIsBound", "osc_bundle_u.c:osc_bundle_u_getFirstFullMatch"]}
{"id": "C84", "title": "Flattening and exploding bundles of the wire format", "statement": "Flattening a bundle in the wire format gives a new block with a bundle of its leaves under their full addresses, the last one of each address; exploding gives a new block with a bundle in which each message is where the parts of its address lead. The header of the result is that of a new bundle whatever the header of the source is. Apart from the result memory is as before: the source is unchanged and everything that was needed on the way is freed. Exploding and then flattening gives the same messages again.", "quantifier": "every bundle in the wire format of every nesting depth in every memory, every level limit, and every separator for flattening", "why_tests_cant": "the claim is about all bundles and heaps, including that no block is left over and none is used after it was freed", "anchors": ["osc_bundle_s.c:osc_bundle_s_flatten", "osc_bundle_s.c:osc_bundle_s_explode"]}
{"id": "C85", "title": "The text of parsed expressions", "statement": "Formatting a parsed program gives one line per expression: in parentheses the name of the function and the arguments with single spaces between them, numbers and strings as values are formatted, lists as their elements, functions as (lambda (p, q) body ). The returned length is the length of the text, a NUL follows it, and nothing is written outside of the block. The text determines the expressions: a reader of nested lists that knows only parentheses, blanks and string literals finds the names, arguments and functions again.", "quantifier": "every list of expressions of every nesting depth, with atoms, lists, addresses, expressions and functions as arguments", "why_tests_cant": "expressions nest without a bound, and writing beyond the block depends on the length of the whole text", "anchors": ["osc_expr.c:osc_expr_format", "osc_expr.c:osc_expr_format_r"]}
{"id": "C86", "title": "Copying and freeing parsed expressions", "statement": "A copy of an expression is the same expression in blocks of its own: no block is shared with the source, the source does not change, and every block allocated belongs to the copy. Freeing a list of expressions frees every block of it exactly once and no other, including arguments, strings, lists, records of functions with the names of their parameters, and bodies. So copying and freeing the copy leaves the memory as it was.", "quantifier": "every expression of every nesting depth, with every kind of argument, in every memory", "why_tests_cant": "the claim is about all heaps and all shapes of expressions, including that no block is leaked, shared or freed twice", "anchors": ["osc_expr.c:osc_expr_copy", "osc_expr.c:osc_expr_copyAllLinked", "osc_expr.c:osc_expr_arg_copy", "osc_expr.c:osc_expr_free", "osc_expr.c:osc_expr_arg_freeList", "osc_expr_rec.c:osc_expr_rec_copy", "osc_expr_rec.c:osc_expr_rec_free"]}
{"id": "C87", "title": "Adding arguments to an expression", "statement": "After appending (prepending) a list of arguments to an expression its arguments are the old ones followed by the new ones (the new ones followed by the old ones), its argument count is the number of its arguments, and no other block has changed.", "quantifier": "every expression, every list of new arguments, every memory", "why_tests_cant": "lists have every length, and the claim is about all blocks of the heap", "anchors": ["osc_expr.c:osc_expr_appendArg", "osc_expr.c:osc_expr_prependArg"]}
{"id": "C88", "title": "Negation of atoms", "statement": "Negating an atom that holds a number gives an atom of the same type that holds minus that number; floats and doubles get the other sign and nothing else changes; atoms of every other type stay as they are. Negating an atom that lies in a message changes the bytes of that atom only, and reading it afterwards gives the same as for the other form.", "quantifier": "every type, every value, every buffer around the atom", "why_tests_cant": "the claim is about all values of all integer types, including the least ones, where C leaves the result open", "anchors": ["osc_atom_u.c:osc_atom_u_negate", "osc_atom_s.c:osc_atom_s_negate"]}
{"id": "C89", "title": "Arrays of numbers and one text from a list of atoms", "statement": "The array functions give one element per atom, in order, each what the getter of that type gives, in a new block or in the given block, and never write outside a block that has room for all of them. The text function gives the texts of all the atoms in order, each followed by the separator if there is one, in a block that is large enough.", "quantifier": "every list of atoms of every type in both forms, every given block, every separator", "why_tests_cant": "lists and texts have every length, and writing beyond a block need not show in a test", "anchors": ["osc_atom_array_u.c:osc_atom_array_u_getDoubleArray", "osc_atom_array_u.c:osc_atom_array_u_getInt32Array", "osc_atom_array_u.c:osc_atom_array_u_getStringArray", "osc_atom_array_s.c:osc_atom_array_s_getInt32Array", "osc_atom_array_s.c:osc_atom_array_s_getBoolArray"]}
{"id": "C90", "title": "Sizes of atoms, and copies of blobs and bundles out of a message", "statement": "The size of an atom is the number of bytes of its value: four or eight for numbers, the length of a string or of the contents of a blob without padding, the size of the serialised form of a bundle, nothing for true, false and nil. A copy of a blob (bundle) of a message has exactly the bytes of the blob (bundle) and no other byte of the message is read.", "quantifier": "every value of every type, every blob and bundle, every message around it", "why_tests_cant": "reading a few bytes too many stays unseen unless the blob is last in its block", "anchors": ["osc_atom_u.c:osc_atom_u_sizeof", "osc_atom_s.c:osc_atom_s_getBlobCopy", "osc_atom_s.c:osc_atom_s_getBndlCopy"]}
{"id": "C91", "title": "Writing the header of a bundle", "statement": "Setting the bundle identifier writes the eight bytes \"#bundle\\0\" at the start of the block and leaves the rest; the variant that also clears the time tag writes the 16 bytes of an empty header, and allocates a block for them if none is given.", "quantifier": "every block of every length and content, and no block", "why_tests_cant": "writing past a newly allocated block of eight bytes usually shows no effect", "anchors": ["osc_bundle_s.c:osc_bundle_s_setBundleID", "osc_bundle_s.c:osc_bundle_s_setBundleID_b"]}
{"id": "C92", "title": "Values by the text of an address", "statement": "value(x), where the first value of x is a string, gives the values of the first message whose address that string, taken as a pattern, matches completely. If no message matches, if there is no bundle block, or if the first value of x is not a string, the result is empty and not an error; an unbound address in x is an error. The bundle is not changed.", "quantifier": "every bundle of well-formed messages, every argument expression, every string, all values the message can hold", "why_tests_cant": "which of several matching messages is taken, and what is read of nested or empty messages, depends on unboundedly many bundles", "anchors": ["osc_expr.c:osc_expr_value", "osc_bundle_s.c:osc_bundle_s_lookupAddress", "osc_message_s.c:osc_message_s_getArg"]}
{"id": "C93", "title": "Assignment to elements of an address", "statement": "/a[[i]] = x, with i and x that do not change the bundle, takes the values of the first message that /a matches, stores the values of x at the positions i (one value at all positions, one position takes the first value, otherwise pairwise; positions outside are ignored), and replaces that message, at its place, by one with these values, which are also the result; all other messages and the header stay. The message keeps its address. Without a matching message, without positions or values, or with one position outside for several values it is an error and the bundle is not changed.", "quantifier": "every bundle of well-formed messages, every address, all lists of positions and values of every integer type", "why_tests_cant": "an off-by-one in the replacement of bytes shows only for certain sizes of messages before and after; a pattern as address loses the address of the message", "anchors": ["osc_expr.c:osc_expr_assignToIndex", "osc_bundle_s.c:osc_bundle_s_replaceMessage"]}
{"id": "C94", "title": "The number of decimals needed to print a number", "statement": "The number of decimals computed for a finite double is the least one with which the number can be written exactly in decimal; for infinities and NaNs it is 0. This holds for every text the C standard allows for the hexadecimal form of the number, from which it is computed.", "quantifier": "every double, every leading digit a C library may choose", "why_tests_cant": "the answer depends on the place of the last bit in a hexadecimal digit, on zero digits at the end and on the exponent; tests with one C library see one leading digit", "anchors": ["osc_strfmt.c:osc_strfmt_precision"]}
{"id": "C95", "title": "Handlers can be called, rebound and renamed by name", "statement": "In a table of handlers with room for its entries, a call by a name calls the method registered under this name with its context, and says so if there is none; adding under a new name registers it, adding under a known name and rebinding replace method and context of this name only; renaming moves a handler to the new name and leaves all others; unknown names are errors that change nothing. Strings that belong to the caller may be changed or freed afterwards. Freeing the table frees the name of every handler exactly once and nothing of the caller's.", "quantifier": "all tables, all names, all sequences of these operations", "why_tests_cant": "the hash table refers to strings without copying them, so that what a lookup finds depends on which strings were overwritten, moved or freed since, and on collisions of hashes", "anchors": ["osc_vtable.c:osc_vtable_addEntry", "osc_vtable.c:osc_vtable_renameEntry", "osc_vtable.c:osc_vtable_rebindSelector", "osc_hashtab.c:osc_hashtab_store", "osc_vtable.c:osc_vtable_free"]}
{"id": "C96", "title": "Making messages value by value puts each value where it was asked for and loses no memory", "statement": "For every kind of value (integers of 8 to 64 bits, floats, doubles, true, false, nil, time tags, strings, blobs, bundles) the function that appends it to a message makes it the last argument, the function that prepends it makes it the first, and the function that inserts it at a position puts it there (behind the last one if the position is too large), with the other arguments and the address unchanged; the atom returned holds the value and is part of the message. Afterwards the message owns its previous blocks, those the caller gave away and new ones, all other memory is as it was, and every other new block is freed. The functions that allocate a message with an address and a value give a message with just that.", "quantifier": "all messages, all values, all positions, all states of the memory", "why_tests_cant": "a test does not see a lost block, and cannot try all lengths and positions", "anchors": ["osc_message_u.c:osc_message_u_appendInt8", "osc_message_u.c:osc_message_u_prependString", "osc_message_u.c:osc_message_u_insertString", "osc_message_u.c:osc_message_u_insertAtom", "osc_message_u.c:osc_message_u_allocWithFloat"]}
{"id": "C97", "title": "Copies put into messages, bundles and arrays are complete, in order, and in blocks of their own", "statement": "The array made from the arguments of a message holds copies of all of them in order, in new memory, with the message unchanged. Appending an array to a message appends copies of all elements in order and leaves the array unchanged; allocating a message from an array does the same for a new message. Adding a copy of a message to a bundle puts an equal message behind the ones in it; with replacement, the messages to the same address are removed and freed first, also if the message copied is one of them. Adding copies of an array of messages adds them all in order. In all cases the container owns its blocks, everything it no longer holds is freed and all other memory is unchanged.", "quantifier": "all messages, arrays and bundles, all values that can be copied (strings and blobs that fit the size fields), all states of the memory", "why_tests_cant": "tests see neither lost blocks nor changes of unrelated memory, and cannot try all shapes", "anchors": ["osc_message_u.c:osc_message_u_getArgArrayCopy", "osc_message_u.c:osc_message_u_setArgArrayCopy", "osc_bundle_u.c:osc_bundle_u_addMsgCopy", "osc_bundle_u.c:osc_bundle_u_addMsgWithoutDupsCopy", "osc_bundle_u.c:osc_bundle_u_addMsgArrayCopy"]}
{"id": "C98", "title": "Time tags made from the system clock say the time of the clock, and Unix times come back from time tags", "statement": "The time tag for now says the time of the clock to within eight microseconds, and of two readings of the clock the later one has the later time tag. A Unix time converted to a time tag says whole seconds since 1900 by the local clock, converting it back gives the same Unix time, and a time tag converted to a Unix time and back keeps its seconds. The Unix time of the clock and the time tag for now say the same second.", "quantifier": "all readings of the clock with 0 to 999999 microseconds, all zones of less than a day, all Unix times and time tags", "why_tests_cant": "the faults are in seven of a million microseconds, in other time zones and after 2036", "anchors": ["osc_timetag.c:osc_timetag_now", "osc_timetag.c:osc_timetag_ut_to_ntp", "osc_timetag.c:osc_timetag_ntp_to_ut"]}
{"id": "C99", "title": "Helpers for texts: quotes, padded lengths, and strings and time tags stored into arguments", "statement": "The padded length of a string is the smallest multiple of four with room for the string and a NUL. Adding quotes gives the text with a quote at each end that has none, in a buffer that is always large enough, and adding them again changes nothing; the result is a quoted string that reads back as the text. A string or a time tag stored into an argument of a message reads back, and nothing outside of the argument changes.", "quantifier": "all texts, buffers and places", "why_tests_cant": "tests try few lengths; reading before an empty text and writing behind an argument often go unnoticed", "anchors": ["osc_strfmt.c:osc_strfmt_addQuotes", "osc_strfmt.c:osc_strfmt_strlenPadded", "osc_atom_s.c:osc_atom_s_setString", "osc_atom_s.c:osc_atom_s_setTimetag"]}
{"id": "C100", "title": "Scaling a list from one range to another", "statement": "scale maps every number of a list by the line through the ends of an input range and an output range, with each step of the computation rounded to a double, and leaves everything else as it is; an output range of one number gives this number. The result is a double if the number or an end of a range has a floating point type and otherwise the whole part as an int32. For integers with a whole slope the numbers are exactly those on the line. The ends of the input range become the ends of the output range.", "quantifier": "all lists, all ranges", "why_tests_cant": "rounding makes the ends come out wrong only for some ranges", "anchors": ["osc_expr.c:osc_expr_scale"]}
{"id": "C101", "title": "What a handler of errors is given", "statement": "The handler that is installed is given, once for each error, one text: the names of file and function and the number of the line if there are any, the description of the code, and the text of the caller with its values filled in, of which at most the first 4095 bytes are kept; its result is returned, and without a handler nothing happens. Every code has a description; different codes have different ones, and the one for unrecognized codes is given for exactly the codes that the library does not have. For an error in an expression the text shows the expression broken before and behind the place of the error, followed by what is wrong, for all expressions and all places.", "quantifier": "all codes, names, texts, values, expressions and places of errors", "why_tests_cant": "texts of expressions that are taken for formats, and texts without terminator, do harm only for some expressions and contents of the memory", "anchors": ["osc_error.c:osc_error_handler", "osc_error.c:osc_error_string", "osc_expr_parser.y:osc_expr_error_formatLocation", "osc_expr_parser.y:osc_expr_error", "osc_expr_parser.y:yyerror", "osc_expr_parser.y:osc_expr_parser_reportUnknownFunctionError", "osc_expr_parser.y:osc_expr_parser_reportInvalidLvalError"]}
{"id": "C102", "title": "Sets of query results: order, iteration and freeing", "statement": "A set of results has one result for every selector that something was added for, in the order in which the selectors were first used, with all the messages that were added for it; a selector finds its result and no other. Iterating gives each result once in this order and then ends, and goes on correctly when results are added meanwhile. Freeing the set frees every result exactly once.", "quantifier": "all sequences of calls", "why_tests_cant": "orders of calls that break links or free a result twice are found only by chance", "anchors": ["osc_rset.c:osc_rset_appendResult", "osc_rset.c:osc_rset_initIterator", "osc_rset.c:osc_rset_hasNext", "osc_rset.c:osc_rset_next", "osc_rset.c:osc_rset_free", "osc_rset.c:osc_rset_addCompleteMatch", "osc_rset.c:osc_rset_addPartialMatch"]}
{"id": "C103", "title": "Records of functions made step by step own copies of what they are given", "statement": "A new function record is empty. Setting its name, its signature, its required or optional arguments (names and types) makes the record hold equal copies in new memory, leaves every other field and every other block as it was, and setting the C function or the body stores just that. So what a lambda is made from may be freed afterwards, and freeing the record gives back the body and releases everything the record was made of, also when a field was set more than once.", "quantifier": "all records, names, argument lists and memories", "why_tests_cant": "leaks and shared blocks do not show in results, and depend on which fields are set in which order", "anchors": ["osc_expr_rec.c:osc_expr_rec_alloc", "osc_expr_rec.c:osc_expr_rec_setName", "osc_expr_rec.c:osc_expr_rec_setSignature", "osc_expr_rec.c:osc_expr_rec_setArgs", "osc_expr_rec.c:osc_expr_rec_setRequiredArgs", "osc_expr_rec.c:osc_expr_rec_setOptionalArgs", "osc_expr_rec.c:osc_expr_rec_setFunction", "osc_expr_rec.c:osc_expr_rec_setExtra", "osc_expr_rec.c:osc_expr_rec_free"]}
{"id": "C104", "title": "Handles of serialized bundles and messages: copies, first messages and freeing", "statement": "A deep copy of a serialized bundle has the same length and the same bytes in memory of its own, so that the original may be freed with its bytes, and freeing the copy releases just what the copy took; an empty bundle can be made. The handle of the first message of a bundle points behind the header, and freeing it leaves the bundle alone. Cached offsets are in memory of the handle and are freed with it. A copied message handle and its original can both be freed. Nothing is freed twice, nothing gets lost and no field is read before it is written.", "quantifier": "all memories, bundles, messages and lengths", "why_tests_cant": "sharing, leaks and uninitialised reads do not show in the results of a run", "anchors": ["osc_bundle_s.c:osc_bundle_s_alloc", "osc_bundle_s.c:osc_bundle_s_allocEmptyBundle", "osc_bundle_s.c:osc_bundle_s_deepCopy", "osc_bundle_s.c:osc_bundle_s_free", "osc_bundle_s.c:osc_bundle_s_deepFree", "osc_bundle_s.c:osc_bundle_s_getFirstMsg", "osc_message_s.c:osc_message_s_alloc", "osc_message_s.c:osc_message_s_free", "osc_message_s.c:osc_message_s_deepFree", "osc_message_s.c:osc_message_s_copy", "osc_message_s.c:osc_message_s_cacheDataOffsets"]}
{"id": "C105", "title": "The documentation of functions says everything once, at its own address", "statement": "The documentation bundle of a function has exactly one message for its name, signature, text, numbers of required and optional arguments, categories, and for the name and the types of each argument that has a name, numbered from 1, and no other message; all addresses differ. The text of the types of an argument lists the names of its kinds in a fixed order with commas in between, for all combinations of kinds. Asking for a category looks up its name with the common beginning in front exactly once, for names of any length.", "quantifier": "all records, all combinations of types, all category names", "why_tests_cant": "buffers that are too small for some combination, and numbers that collide, show only for inputs that the built-in table does not have", "anchors": ["osc_expr.c:osc_expr_formatFunctionDoc", "osc_expr.c:osc_expr_formatTypes", "osc_expr.c:osc_expr_getDocForFunction", "osc_expr.c:osc_expr_getFunctionsForCategory"]}
{"id": "C106", "title": "The index of functions lists each function in each of its categories, and the list of compiled functions has a line for each", "statement": "The index bundle has exactly one message for every pair of a function and one of its categories, in the order of the table, with the category and the function in its address, operators written as words, and the name of the function as its value, for tables with names of any length. Different pairs have different addresses. The list of categories has one message without values for each. The text about compiled functions has one line for each entry with its address and its object, for any number of entries and addresses of any length, and never leaves its buffer.", "quantifier": "all tables of functions and categories, all lists of compiled functions", "why_tests_cant": "the buffer overflows only after a certain number of lines of certain lengths; addresses collide only for names that the built-in table keeps in different categories", "anchors": ["osc_expr.c:osc_expr_makeFunctionBundle", "osc_expr.c:osc_expr_makeCategoryBundle", "osc_expr.c:osc_expr_formatFunctionTable", "osc_expr.c:osc_expr_doFormatFunctionTable"]}

{"id": "C01", "title": "128-bit addition, subtraction, negation and multiplication are arithmetic modulo 2^128", "statement": "For every pair of i128 (u128) values, the unchecked +, -, unary - and * compute the two's-complement (unsigned) value of the mathematical result reduced modulo 2^128.", "quantifier": "all pairs of 128-bit words (2^256 pairs), signed and unsigned", "why_tests_cant": "The carry and partial-product logic is split over two 64-bit limbs; a wrong carry shows on a vanishing fraction of the 2^256 operand pairs.", "anchors": ["grayc/src/runtime/bigint.h:gray_i128_add", "grayc/src/runtime/bigint.h:gray_i128_sub", "grayc/src/runtime/bigint.h:gray_i128_neg", "grayc/src/runtime/bigint.h:gray_i128_mul", "grayc/src/runtime/bigint.h:gray_u128_add", "grayc/src/runtime/bigint.h:gray_u128_sub", "grayc/src/runtime/bigint.h:gray_u128_mul"]}
{"id": "C02", "title": "Overflow-checked 128-bit + and - are exact or panic", "statement": "i128/u128 addition and subtraction return the exact mathematical result when it is representable and panic exactly when it is not (STANDARD 3.1.9).", "quantifier": "all pairs of 128-bit values", "why_tests_cant": "Both directions (no missed overflow, no spurious panic) range over 2^256 pairs; the boundary is a surface, not a handful of cases.", "anchors": ["grayc/src/runtime/bigint.h:gray_i128_add_checked", "grayc/src/runtime/bigint.h:gray_i128_sub_checked", "grayc/src/runtime/bigint.h:gray_u128_add_checked", "grayc/src/runtime/bigint.h:gray_u128_sub_checked"]}
{"id": "C03", "title": "Overflow-checked 128-bit multiplication is exact or panics", "statement": "i128/u128 multiplication returns the exact product when representable and panics exactly when it is not. (Claimed by STANDARD 3.1.9; the code violates it for i128 MIN * -1, which the model must expose.)", "quantifier": "all pairs of 128-bit values", "why_tests_cant": "The check divides the wrapped product back; whether that detects every overflow is a number-theoretic statement over all pairs, and it has a single failing pair among 2^256.", "anchors": ["grayc/src/runtime/bigint.h:gray_i128_mul_checked", "grayc/src/runtime/bigint.h:gray_u128_mul_checked"]}
{"id": "C04", "title": "128-bit division and modulo are truncated division", "statement": "For every nonzero divisor u128 / and % give the Euclidean quotient and remainder; i128 / truncates toward zero and % takes the dividend's sign, so that a = (a/b)*b + a%b.", "quantifier": "all dividends, all nonzero divisors", "why_tests_cant": "Bit-serial long division runs 128 steps on an arbitrary remainder; correctness is a loop invariant over all steps and operands.", "anchors": ["grayc/src/runtime/bigint.h:gray_u128_divmod", "grayc/src/runtime/bigint.h:gray_i128_div", "grayc/src/runtime/bigint.h:gray_i128_mod", "grayc/src/runtime/bigint.h:gray_u128_div", "grayc/src/runtime/bigint.h:gray_u128_mod"]}
{"id": "C05", "title": "256-bit addition, negation and multiplication are arithmetic modulo 2^256", "statement": "For every pair of i256 (u256) values, unchecked +, unary - and * equal the mathematical result modulo 2^256.", "quantifier": "all pairs of 256-bit words", "why_tests_cant": "Four-limb schoolbook multiplication with carries has 2^512 inputs; carry errors are exponentially rare under random testing.", "anchors": ["grayc/src/runtime/bigint.h:gray_i256_add", "grayc/src/runtime/bigint.h:gray_i256_neg", "grayc/src/runtime/bigint.h:gray_i256_mul", "grayc/src/runtime/bigint.h:gray_u256_add", "grayc/src/runtime/bigint.h:gray_u256_mul"]}
{"id": "C06", "title": "256-bit subtraction is arithmetic modulo 2^256", "statement": "For every pair of i256 (u256) values, a - b equals the mathematical difference modulo 2^256. (The borrow computation wraps when a subtrahend limb is 2^64-1 and a borrow comes in, so the code violates this; the model must expose exactly when.)", "quantifier": "all pairs of 256-bit words", "why_tests_cant": "The failing pairs need an all-ones middle limb together with an incoming borrow (probability about 2^-64 for random operands).", "anchors": ["grayc/src/runtime/bigint.h:gray_i256_sub", "grayc/src/runtime/bigint.h:gray_u256_sub"]}
{"id": "C07", "title": "256-bit division and modulo are truncated division", "statement": "For every nonzero divisor, u256 and i256 / and % give the truncated quotient and remainder. (Uses the same borrow chain as C06: must be exposed where it fails.)", "quantifier": "all dividends, all nonzero divisors", "why_tests_cant": "256-step loop invariant over all operands; failures need special divisor limbs.", "anchors": ["grayc/src/runtime/bigint.h:gray_u256_divmod", "grayc/src/runtime/bigint.h:gray_i256_div", "grayc/src/runtime/bigint.h:gray_i256_mod"]}
{"id": "C08", "title": "Wide-integer comparisons are the numeric order", "statement": "For i128, u128, i256, u256 the six comparison operators agree with comparison of the represented integers; hence they form a total order with == meaning equality of values.", "quantifier": "all pairs of values of each of the four types", "why_tests_cant": "Limb-wise lexicographic comparison with mixed signedness; all pairs matter.", "anchors": ["grayc/src/runtime/bigint.h:gray_i128_lt", "grayc/src/runtime/bigint.h:gray_u128_lt", "grayc/src/runtime/bigint.h:gray_i256_lt", "grayc/src/runtime/bigint.h:gray_u256_lt"]}
{"id": "C09", "title": "Wide-integer decimal text round-trips", "statement": "Converting any i128/u128/i256/u256 to a string and parsing the decimal text back yields the same value, including the minimum values; the text is the canonical decimal numeral.", "quantifier": "all values of each wide type", "why_tests_cant": "2^256 values; digit loop length and the sign/minimum corner depend on the value.", "anchors": ["grayc/src/runtime/bigint.h:gray_i128_to_string", "grayc/src/runtime/bigint.h:gray_u128_to_string", "grayc/src/runtime/bigint.h:gray_i256_to_string", "grayc/src/runtime/bigint.h:gray_u256_to_string", "grayc/src/runtime/bigint.h:gray_u128_from_decimal", "grayc/src/runtime/bigint.h:gray_i128_from_decimal"]}
{"id": "C10", "title": "Wide-to-64-bit casts are value-preserving or panic", "statement": "cast of an i128/u128/i256/u256 to int/uint returns the same integer if it fits in the target and panics exactly when it does not.", "quantifier": "all values of each wide type", "why_tests_cant": "Both soundness and completeness of the range test over 2^256 values.", "anchors": ["grayc/src/runtime/bigint.h:gray_i128_to_i64", "grayc/src/runtime/bigint.h:gray_i128_to_u64", "grayc/src/runtime/bigint.h:gray_u128_to_i64", "grayc/src/runtime/bigint.h:gray_u128_to_u64", "grayc/src/runtime/bigint.h:gray_i256_to_i64", "grayc/src/runtime/bigint.h:gray_u256_to_u64"]}
{"id": "C11", "title": "Casts between wide types preserve the value or fail", "statement": "cast between two wide integer types either yields the same integer or produces a runtime error (STANDARD 3.4: conversions that would lose information produce errors). (Narrowing and sign-changing wide casts reinterpret silently; must be exposed.)", "quantifier": "all values of each wide source type", "why_tests_cant": "Requires comparing the represented integer before and after for all values.", "anchors": ["grayc/src/runtime/bigint.h:gray_u128_from_i128", "grayc/src/runtime/bigint.h:gray_i128_from_u128", "grayc/src/runtime/bigint.h:gray_i256_from_i128", "grayc/src/runtime/bigint.h:gray_u256_from_u128", "grayc/src/runtime/bigint.h:gray_i128_from_i256", "grayc/src/runtime/bigint.h:gray_u128_from_u256"]}
{"id": "C12", "title": "Division by zero never yields a value", "statement": "For every integer type, x / 0 and x % 0 panic (STANDARD 5.2.1, 11.7). (Wide integers return 0 instead; must be exposed.)", "quantifier": "all dividends of every integer type", "why_tests_cant": "Universal over dividends and types.", "anchors": ["grayc/src/runtime/bigint.h:gray_u128_divmod", "grayc/src/runtime/bigint.h:gray_u256_divmod", "grayc/src/codegen/codegen.c:emit_expression"]}
{"id": "C13", "title": "int arithmetic is exact or panics", "statement": "For int, + - * unary- ++ -- return the exact mathematical result when it lies in [-2^63, 2^63-1] and panic exactly otherwise; no C-level signed overflow is ever executed.", "quantifier": "all pairs of 64-bit signed values", "why_tests_cant": "2^128 operand pairs; needs absence of both missed overflows and spurious panics.", "anchors": ["grayc/src/runtime/runtime.h:gray_add_check", "grayc/src/runtime/runtime.h:gray_sub_check", "grayc/src/runtime/runtime.h:gray_mul_check", "grayc/src/runtime/runtime.h:gray_neg_check", "grayc/src/runtime/runtime.h:gray_inc_check", "grayc/src/runtime/runtime.h:gray_dec_check"]}
{"id": "C14", "title": "uint arithmetic is exact or panics", "statement": "For uint, + - * return the exact mathematical result when it lies in [0, 2^64-1] and panic exactly otherwise.", "quantifier": "all pairs of 64-bit unsigned values", "why_tests_cant": "2^128 operand pairs.", "anchors": ["grayc/src/runtime/runtime.h:gray_uadd_check", "grayc/src/runtime/runtime.h:gray_usub_check", "grayc/src/runtime/runtime.h:gray_umul_check"]}
{"id": "C15", "title": "Sized signed arithmetic is exact or panics", "statement": "For i8, i16, i32: +, -, *, unary - on in-range operands return the exact result when it is in the type's range and panic exactly otherwise, without executing a C-level overflow.", "quantifier": "all pairs of in-range operands of each type", "why_tests_cant": "Universal over types and pairs, includes absence of undefined behaviour in intermediate arithmetic.", "anchors": ["grayc/src/runtime/runtime.h:gray_sized_add_check", "grayc/src/runtime/runtime.h:gray_sized_sub_check", "grayc/src/runtime/runtime.h:gray_sized_mul_check", "grayc/src/runtime/runtime.h:gray_sized_neg_check"]}
{"id": "C16", "title": "Sized unsigned arithmetic is exact or panics", "statement": "For u8/byte, u16, u32: +, -, * on in-range operands return the exact result when it is in range and panic exactly otherwise, without executing a C-level signed overflow. (u32*u32 is multiplied in int64; must be exposed.)", "quantifier": "all pairs of in-range operands of each type", "why_tests_cant": "The failing u32 products lie above 2^63; undefined behaviour is not observable by a passing test.", "anchors": ["grayc/src/runtime/runtime.h:gray_usized_add_check", "grayc/src/runtime/runtime.h:gray_usized_sub_check", "grayc/src/runtime/runtime.h:gray_usized_mul_check"]}
{"id": "C17", "title": "Integer division and modulo on int panic exactly when undefined", "statement": "Emitted int/sized division and modulo panic exactly when the divisor is zero or the quotient overflows (MIN / -1); otherwise q truncates toward zero and a = q*b + r with |r| < |b| and r having the sign of a.", "quantifier": "all pairs of operands, each signed width", "why_tests_cant": "Universal over pairs; the guard is duplicated in several emission sites.", "anchors": ["grayc/src/codegen/codegen.c:emit_expression", "grayc/src/codegen/codegen.c:sized_int_bounds"]}
{"id": "C18", "title": "Range loops visit exactly the documented values", "statement": "for i in range(start,end[,step]) visits start, start+step, ... strictly before end, each once and in order, terminates, and panics only for a zero step (STANDARD 5.7). (Overflow of the increment near the type's limits and negated-variable steps violate this; must be exposed.)", "quantifier": "all start, end, step values", "why_tests_cant": "Loops can be 2^64 steps long; termination and exactness need induction.", "anchors": ["grayc/src/codegen/codegen.c:emit_for_statement", "grayc/src/runtime/runtime.h:gray_add_check"]}
{"id": "C19", "title": "Maps behave as finite maps for every operation sequence", "statement": "For every sequence of insert, overwrite, lookup, has, remove and clear operations on a map, every lookup returns the value of the most recent insert of that key not followed by its removal, len is the number of live keys, and no operation loops forever, whatever the hash function's collisions.", "quantifier": "all finite operation sequences, all keys and values, all hash functions", "why_tests_cant": "The open-addressing table with tombstones and rehashing has unboundedly many reachable layouts; bugs need particular collision/tombstone patterns.", "anchors": ["grayc/src/runtime/map.c:find_slot", "grayc/src/runtime/map.c:rehash", "grayc/src/runtime/map.c:gray_map_set", "grayc/src/runtime/map.c:gray_map_get", "grayc/src/runtime/map.c:gray_map_remove", "grayc/src/runtime/map.c:gray_map_clear"]}
{"id": "C20", "title": "Map iteration enumerates live entries once, in insertion order", "statement": "After any operation sequence, iterating a map (for_each, get_keys, get_values, to-string) visits every live key exactly once, in order of first insertion since it was last absent.", "quantifier": "all finite operation sequences", "why_tests_cant": "Needs an invariant tying the order array to the table across rehash and removal.", "anchors": ["grayc/src/runtime/map.c:rehash", "grayc/src/runtime/map.c:gray_map_remove", "grayc/src/codegen/codegen.c:emit_loop_body_with_arena"]}
{"id": "C21", "title": "Mutating a map while it is being iterated panics", "statement": "While a for_each over a map is active, every operation that would change its key set panics and leaves the map unchanged (STANDARD 6.3.2). (clear does not check; must be exposed.)", "quantifier": "all map states with an active iterator, all mutating operations", "why_tests_cant": "Universal over states and operations.", "anchors": ["grayc/src/runtime/map.c:gray_map_set", "grayc/src/runtime/map.c:gray_map_remove", "grayc/src/runtime/map.c:gray_map_clear"]}
{"id": "C22", "title": "copy of a value is an independent equal value", "statement": "copy() of a map, array or struct gives a value with the same contents and order, however deeply nested; later operations on either side, at any depth, are not visible on the other.", "quantifier": "all values of all types, all later operation sequences on both sides", "why_tests_cant": "Independence quantifies over all nestings of types and all future operation sequences.", "anchors": ["grayc/src/codegen/codegen.c:emit_value_deep_copy", "grayc/src/codegen/codegen.c:emit_struct_deep_copy", "grayc/src/codegen/codegen.c:type_needs_deep_copy", "grayc/src/runtime/map.c:gray_map_copy", "grayc/src/runtime/array.c:gray_array_copy", "STANDARD.md:11.3"]}
{"id": "C23", "title": "Arrays behave as lists for every operation sequence", "statement": "For every sequence of append, indexed read/write, insert_at, remove_at, prepend, remove_first/last, clear and reverse on an array, the contents equal those of the corresponding list operations; an operation panics exactly when the list operation is undefined (index out of range or empty), and no access leaves the allocated storage.", "quantifier": "all finite operation sequences, all indices", "why_tests_cant": "Capacity growth and shifting memmoves interact over unbounded sequences.", "anchors": ["grayc/src/runtime/array.c:gray_array_push", "grayc/src/runtime/array.c:gray_array_get_ptr", "grayc/src/runtime/array.c:gray_array_set", "grayc/src/stdlib/arrays.c:gray_arrays_insert_at", "grayc/src/stdlib/arrays.c:gray_arrays_remove_at"]}
{"id": "C24", "title": "base64 round-trips and emits only the base64 alphabet", "statement": "base64_decode(base64_encode(s)) = s for every byte string; the output length is 4*ceil(n/3), over the standard alphabet with padding only at the end.", "quantifier": "all byte strings", "why_tests_cant": "Unbounded length; three tail cases interact with padding.", "anchors": ["grayc/src/stdlib/encoding.c:gray_encoding_base64_encode", "grayc/src/stdlib/encoding.c:gray_encoding_base64_decode"]}
{"id": "C25", "title": "base64 decoding accepts exactly well-formed text and is injective", "statement": "base64_decode succeeds exactly on strings of length divisible by 4 over the alphabet with 0-2 trailing '='; distinct accepted strings decode to distinct byte strings. (Non-canonical trailing bits are accepted, so injectivity fails; must be exposed.)", "quantifier": "all strings", "why_tests_cant": "Acceptance language is infinite.", "anchors": ["grayc/src/stdlib/encoding.c:gray_encoding_base64_decode"]}
{"id": "C26", "title": "hex coding round-trips in both directions", "statement": "hex_decode(hex_encode(s)) = s for all byte strings, hex_decode fails exactly on odd-length or non-hex input, and hex_encode(hex_decode(t)) is t lower-cased.", "quantifier": "all byte strings / all texts", "why_tests_cant": "Unbounded length.", "anchors": ["grayc/src/stdlib/encoding.c:gray_encoding_hex_encode", "grayc/src/stdlib/encoding.c:gray_encoding_hex_decode"]}
{"id": "C27", "title": "URL percent-coding round-trips and emits only safe characters", "statement": "url_decode(url_encode(s)) = s for every byte string and url_encode emits only unreserved characters and %XX triplets.", "quantifier": "all byte strings", "why_tests_cant": "Unbounded length; interaction of '%', '+' and hex digits.", "anchors": ["grayc/src/stdlib/encoding.c:gray_encoding_url_encode", "grayc/src/stdlib/encoding.c:gray_encoding_url_decode"]}
{"id": "C28", "title": "Binary integer codecs round-trip and fix the byte order", "statement": "For every width (8..64) and both byte orders decode(encode(n)) = n, encode yields exactly width/8 bytes whose positional value is n, and le/be encodings are reverses of each other.", "quantifier": "all integers of each width", "why_tests_cant": "Universal over 2^64 values.", "anchors": ["grayc/src/stdlib/binary.c"]}
{"id": "C29", "title": "CSV text round-trips", "statement": "csv.parse(csv.encode(rows)) = rows for every table of strings. (Fails for e.g. rows whose only cell is empty; must be exposed and a correct subdomain proved.)", "quantifier": "all tables of byte strings", "why_tests_cant": "Unbounded tables; quoting interacts with separators, quotes and newlines.", "anchors": ["grayc/src/stdlib/csv.c:gray_csv_parse", "grayc/src/stdlib/csv.c:gray_csv_stringify"]}
{"id": "C30", "title": "UUIDs generated are valid and parse normalises", "statement": "For every 16 random bytes (and clock value) the generated v4 and v7 UUIDs pass is_valid and carry the right version and variant; parse accepts exactly what is_valid accepts, lower-cases it, and is idempotent; v7 identifiers of a later millisecond sort later.", "quantifier": "all random byte strings, all clock values, all candidate strings", "why_tests_cant": "2^128 random inputs and infinitely many candidate strings.", "anchors": ["grayc/src/stdlib/uuid.c"]}
{"id": "C31", "title": "join inverts split", "statement": "strings.join(strings.split(s, sep), sep) = s for every string s and nonempty separator, and no piece contains the separator.", "quantifier": "all strings and separators", "why_tests_cant": "Overlapping separator occurrences over unbounded strings.", "anchors": ["grayc/src/stdlib/strings.c:gray_strings_split", "grayc/src/stdlib/strings.c:gray_strings_join"]}
{"id": "C32", "title": "replace substitutes every leftmost non-overlapping occurrence", "statement": "strings.replace(s, old, new) equals joining with new the pieces of s split at old; strings.count is the number of substitutions; replacing x by x is the identity.", "quantifier": "all strings, all nonempty old, all new", "why_tests_cant": "Length precomputation and copying must agree for every overlap pattern (else buffer overflow).", "anchors": ["grayc/src/stdlib/strings.c:gray_strings_replace", "grayc/src/stdlib/strings.c:gray_strings_count"]}
{"id": "C33", "title": "substring search is exact", "statement": "contains/index_of/last_index_of/starts_with/ends_with return the first/last position at which the pattern really occurs, or -1/false exactly when it occurs nowhere.", "quantifier": "all strings and patterns", "why_tests_cant": "Universal over texts and patterns.", "anchors": ["grayc/src/stdlib/strings.c:gray_strings_contains", "grayc/src/stdlib/strings.c:gray_strings_index_of", "grayc/src/stdlib/strings.c:gray_strings_last_index_of"]}
{"id": "C34", "title": "UTF-8 code-point access matches the encoding", "statement": "For every sequence of Unicode scalar values, encoding it to a string gives char_count equal to its length and to_char(s,i) equal to its i-th code point, and to_char panics exactly for indices outside 0..char_count-1. (On malformed UTF-8 the two functions disagree; must be exposed.)", "quantifier": "all code point sequences, all indices", "why_tests_cant": "Unbounded strings of mixed width characters.", "anchors": ["grayc/src/stdlib/builtins.c:gray_builtin_to_char", "grayc/src/stdlib/builtins.c:gray_builtin_char_count", "grayc/src/stdlib/builtins.c:gray_builtin_char_to_utf8"]}
{"id": "C35", "title": "Version comparison is a total preorder", "statement": "compareSemver is reflexive, antisymmetric in sign, and transitive on all version strings, so that version sorting and 'latest' selection are well defined.", "quantifier": "all triples of strings", "why_tests_cant": "Transitivity over a comparison mixing numeric and text identifiers cannot be established by samples.", "anchors": ["cli/update.go:compareSemver", "cli/update.go:comparePreIdentifiers", "cli/update.go:parseSemver"]}
{"id": "C36", "title": "Version comparison agrees with SemVer precedence", "statement": "On well-formed SemVer 2.0 versions, isNewerVersion and compareSemver implement SemVer precedence. (Development builds from git-describe right after a stable tag are ordered before the tag; must be exposed.)", "quantifier": "all pairs of well-formed versions", "why_tests_cant": "Infinitely many versions.", "anchors": ["cli/update.go:compareSemver", "cli/update.go:isNewerVersion"]}
{"id": "C37", "title": "Update picks the newest eligible release and never downgrades", "statement": "gray update selects a release not older than every other eligible release on its channel and proceeds only when it is strictly newer than the running version; the release-note range lists exactly the releases in (current, latest].", "quantifier": "all release lists and current versions", "why_tests_cant": "All orderings of arbitrary release feeds.", "anchors": ["cli/update.go:pickLatestStable", "cli/update.go:pickLatestPrerelease", "cli/update.go:getReleasesInRange", "cli/update.go:runUpdate"]}
{"id": "C38", "title": "Installing an update never leaves the machine without a working binary", "statement": "Whatever step of the install sequence fails, afterwards either the complete new binary or the complete previous binary is installed at the executable path (no partial or missing file), as long as the restore rename itself works.", "quantifier": "all failure patterns of the file-system steps", "why_tests_cant": "Exponentially many failure combinations.", "anchors": ["cli/update.go:doInstall"]}
{"id": "C39", "title": "Archive extraction stays inside the destination", "statement": "For every archive entry name, the sanitised extraction path is either rejected or denotes a path inside the destination directory.", "quantifier": "all entry names", "why_tests_cant": "Path traversal search space is infinite.", "anchors": ["cli/update.go:sanitizeArchivePath"]}
{"id": "C40", "title": "Channels deliver each value once, in order, within capacity", "statement": "For every number of threads and every interleaving of send, receive, try_send, try_receive and close, the received values are a prefix of the sent values in order (FIFO, no loss, no duplication), and never more than capacity values are buffered.", "quantifier": "all thread counts, programs and interleavings", "why_tests_cant": "Interleavings are unbounded and scheduling-dependent.", "anchors": ["grayc/src/stdlib/channels.c:gray_channels_send", "grayc/src/stdlib/channels.c:gray_channels_receive", "grayc/src/stdlib/channels.c:gray_channels_close"]}
{"id": "C41", "title": "Channels do not lose wake-ups", "statement": "In every reachable state, if a blocked receiver could proceed (buffer nonempty or closed) some wake-up for it is pending or a thread that will signal it is active; symmetrically for blocked senders; so no thread sleeps forever while its operation is enabled.", "quantifier": "all thread counts, programs and interleavings", "why_tests_cant": "Lost wake-ups depend on rare schedules.", "anchors": ["grayc/src/stdlib/channels.c:gray_channels_send", "grayc/src/stdlib/channels.c:gray_channels_receive"]}
{"id": "C42", "title": "A thread handle is released exactly once", "statement": "For every interleaving of a thread finishing with join or detach of its handle, the handle's memory is freed at most once and never used after being freed. (The detach/exit race frees twice; must be exposed.)", "quantifier": "all interleavings", "why_tests_cant": "Race window of a few instructions.", "anchors": ["grayc/src/stdlib/threads.c"]}
{"id": "C43", "title": "The HTTP server never runs more than its connection limit of handlers", "statement": "In every interleaving of accepted connections and finishing handlers at most 1024 handlers are active, the counter equals the number of active handlers, and excess connections are refused.", "quantifier": "all interleavings of arrivals and completions", "why_tests_cant": "Needs an invariant over all schedules.", "anchors": ["grayc/src/stdlib/server.c:gray_server_listen"]}
{"id": "C44", "title": "Routing picks the first matching route with exactly its parameters", "statement": "A request is dispatched to the first registered route whose method and pattern match, and the handler sees exactly the path parameters of that route. (Parameters bound by earlier routes that failed to match leak into the request; must be exposed.)", "quantifier": "all route tables and request paths", "why_tests_cant": "All combinations of routes and paths.", "anchors": ["grayc/src/stdlib/server.c:match_route", "grayc/src/stdlib/server.c:handle_connection"]}
{"id": "C45", "title": "Path normalisation is idempotent and meaning-preserving", "statement": "io.normalize returns a path with no empty, '.' or non-leading '..' segments that denotes the same location (under lexical resolution), and normalising twice changes nothing. (Valid only up to 256 segments; the excess must be exposed.)", "quantifier": "all path strings", "why_tests_cant": "Arbitrary interleavings of '..' and segments.", "anchors": ["grayc/src/stdlib/io.c:gray_io_normalize"]}
{"id": "C46", "title": "Arena allocations never overlap and survive until released", "statement": "For every sequence of allocations, scope saves/restores and resets, live allocations are pairwise disjoint, lie inside owned blocks, are 8-byte aligned relative to the block and zero-initialised; restoring a scope releases exactly the allocations made since it was saved.", "quantifier": "all operation sequences and sizes", "why_tests_cant": "Unbounded allocation histories.", "anchors": ["grayc/src/runtime/runtime.c:gray_arena_alloc", "grayc/src/runtime/runtime.c:gray_scope_save", "grayc/src/runtime/runtime.c:gray_scope_restore"]}
{"id": "C47", "title": "Using a destroyed arena panics", "statement": "After an arena is destroyed, every further allocation from it and every second destroy panics instead of touching freed memory.", "quantifier": "all operation sequences", "why_tests_cant": "Universal over histories.", "anchors": ["grayc/src/runtime/runtime.c:gray_arena_alloc", "grayc/src/runtime/runtime.c:gray_arena_destroy"]}
{"id": "C48", "title": "JSON string escaping is invertible and produces legal JSON strings", "statement": "json.encode of any byte string yields a string literal that the JSON validator accepts and whose standard unescaping is the original bytes; the precomputed length equals the emitted length.", "quantifier": "all byte strings", "why_tests_cant": "Length precomputation vs emission must agree on every string (else heap overflow).", "anchors": ["grayc/src/stdlib/json.c:json_escaped_len", "grayc/src/stdlib/json.c:json_append_escaped"]}
{"id": "C49", "title": "json.is_valid accepts only JSON", "statement": "Every string accepted by json.is_valid is derivable in the JSON grammar (RFC 8259), every derivable string within the nesting limit is accepted, and the check always terminates. (Vertical tab and form feed are accepted as whitespace; must be exposed.)", "quantifier": "all byte strings", "why_tests_cant": "Infinite language, unbounded nesting.", "anchors": ["grayc/src/stdlib/json.c:gray_json_is_valid"]}
{"id": "C50", "title": "json.decode terminates on every input", "statement": "json.decode returns (a map or an error) for every input text. (It loops forever on some texts, including valid JSON with nested arrays; must be exposed.)", "quantifier": "all byte strings", "why_tests_cant": "Non-termination cannot be observed by a finite test.", "anchors": ["grayc/src/stdlib/json.c:gray_json_decode"]}
{"id": "C51", "title": "The lexer terminates on every source text", "statement": "Tokenising any source text produces finitely many tokens ending with end-of-file or a diagnostic, and every token before it consumes at least one character.", "quantifier": "all byte strings", "why_tests_cant": "Universal over source texts.", "anchors": ["grayc/src/lexer/lexer.c:lexer_next_token"]}
{"id": "C52", "title": "Digit separators are validated in every numeric literal", "statement": "Every accepted numeric literal has no leading, trailing or doubled underscore, in every base (STANDARD 2.7.1). (Hex, octal and binary literals skip the check; must be exposed.)", "quantifier": "all literal texts", "why_tests_cant": "Infinite literal language.", "anchors": ["grayc/src/lexer/lexer.c:read_number"]}
{"id": "C53", "title": "gray fmt changes only indentation", "statement": "For every source text, formatting preserves the line structure and every line's content apart from leading/trailing whitespace, so the token sequence is unchanged. (Lines inside raw strings can be altered; must be exposed.)", "quantifier": "all source texts", "why_tests_cant": "Universal over programs.", "anchors": ["grayc/src/fmt/fmt.c:gray_fmt_source", "grayc/src/fmt/fmt.c:line_is_in_raw_string"]}
{"id": "C54", "title": "gray fmt is idempotent", "statement": "Formatting an already formatted source returns it unchanged.", "quantifier": "all source texts", "why_tests_cant": "Universal over programs.", "anchors": ["grayc/src/fmt/fmt.c:gray_fmt_source", "grayc/src/fmt/fmt.c:build_depth_table"]}
{"id": "C55", "title": "Name lookup finds the innermost binding", "statement": "After any sequence of scope pushes and definitions, looking up a name yields the most recent definition in the innermost scope that defines it, and fails exactly when no enclosing scope does, regardless of hash collisions.", "quantifier": "all scope stacks and names", "why_tests_cant": "Hash-table growth and collisions over unbounded histories.", "anchors": ["grayc/src/typechecker/scope.c"]}
{"id": "C56", "title": "Expression parsing respects the documented precedence and associativity", "statement": "For every expression tree over the binary and unary operators, parsing its minimally parenthesised text (according to STANDARD 5.3) returns that tree.", "quantifier": "all expression trees", "why_tests_cant": "Unbounded nesting of 20 operators.", "anchors": ["grayc/src/parser/parser.c"]}
{"id": "C57", "title": "strconv integer conversions accept exactly the numerals", "statement": "For every string s and base 2..36, strconv.to_int(s, base) and to_uint(s, base) give the value of s when s is an (optionally signed) numeral of the base that fits, and panic (or return an error) on every other string and on every other base; to_int inverts from_int and to_uint inverts from_uint.", "quantifier": "all integers, all strings, all 64-bit bases", "why_tests_cant": "Infinitely many input strings.", "anchors": ["grayc/src/stdlib/strconv.c:gray_strconv_to_int", "grayc/src/stdlib/strconv.c:gray_strconv_to_uint", "grayc/src/stdlib/strconv.c:gray_strconv_to_int_result", "grayc/src/stdlib/strconv.c:gray_strconv_from_int"]}
{"id": "C58", "title": "Random helpers stay within their documented ranges and permute", "statement": "For every sequence of generator outputs: rand_int(min,max) lies in [min,max), shuffle returns a permutation, sample returns n elements at distinct positions, choice returns a member. (rand_int with a bound that is a multiple of 2^32 divides by zero; must be exposed.)", "quantifier": "all generator outputs, all arrays and bounds", "why_tests_cant": "All random streams.", "anchors": ["grayc/src/stdlib/random.c"]}
{"id": "C59", "title": "gcd, lcm, factorial and is_prime compute the mathematical functions", "statement": "math.gcd/lcm/factorial/is_prime return the mathematical value whenever it is representable. (Overflow behaviour and negative lcm must be exposed.)", "quantifier": "all 64-bit integers", "why_tests_cant": "2^128 pairs; trial division loops.", "anchors": ["grayc/src/stdlib/math.c"]}
{"id": "C60", "title": "Project names accepted by gray new stay in one directory", "statement": "Every accepted project name is a single, non-special path component (nonempty, no separator, not '.' or '..').", "quantifier": "all strings", "why_tests_cant": "Infinite candidate names.", "anchors": ["cli/new.go:isValidProjectName"]}
{"id": "C61", "title": "Overflow-checked 256-bit + - * are exact or panic", "statement": "For i256 and u256, a + b, a - b and a * b either yield the exact integer result or panic, and they panic only when the exact result is out of range.", "quantifier": "all pairs of 256-bit values", "why_tests_cant": "2^512 operand pairs; the failing pairs are sparse limb patterns.", "anchors": ["grayc/src/runtime/bigint.h:gray_i256_add_checked", "grayc/src/runtime/bigint.h:gray_u256_sub_checked", "grayc/src/runtime/bigint.h:gray_u256_mul_checked"]}
{"id": "C62", "title": "Integer literals denote their value", "statement": "A decimal, hexadecimal, octal or binary integer literal (with _ separators) is given exactly the value it spells when that value fits the declared type; for a 64-bit type the compiler's overflow flags are set exactly when the value does not fit; for i128/u128/i256/u256 the initialised variable holds the spelled value.", "quantifier": "all literals of every base and length", "why_tests_cant": "Literals are unbounded strings; the failing ones are those of 2^63 and more in a non-decimal base and those whose value is a multiple of 2^64.", "anchors": ["grayc/src/parser/parser.c:parse_int_literal", "grayc/src/codegen/codegen.c"]}
{"id": "C63", "title": "Mixed-type integer arithmetic is exact or panics", "statement": "For operands of any two integer types of at most 64 bits, the emitted + - * yields the exact mathematical result or panics; it never yields another value and never executes a C-level overflow.", "quantifier": "all pairs of types and all operand values", "why_tests_cant": "Universal over 11x11 type pairs and 2^128 values; the failures need an operand above 2^63 or near the limits.", "anchors": ["grayc/src/codegen/codegen.c:emit_expression", "grayc/src/codegen/codegen.c:int_type_rank", "grayc/src/codegen/codegen.c:sized_int_bounds"]}
{"id": "C64", "title": "Integer comparisons compare the values", "statement": "A comparison of two integer variables of any types is true exactly when it holds of their mathematical values.", "quantifier": "all comparison operators, pairs of types and values", "why_tests_cant": "Universal over values; fails only for a negative value against an unsigned type.", "anchors": ["grayc/src/codegen/codegen.c:emit_expression"]}
{"id": "C65", "title": "Compound assignment equals the written-out operation", "statement": "x op= v stores the value of x op v and panics exactly when that panics, for variables, array elements and map entries.", "quantifier": "all operators, integer types and values", "why_tests_cant": "Universal over values; the failing cases are overflow and division on elements, which are not exercised.", "anchors": ["grayc/src/codegen/codegen.c:emit_assign_statement", "grayc/src/codegen/codegen.c:sized_check_func", "grayc/src/codegen/codegen.c:gray_map_element_c_type"]}
{"id": "C66", "title": "Array elements read back what was stored", "statement": "Reading an array element yields the value last written to it, for every integer element type.", "quantifier": "all element types and values", "why_tests_cant": "The value read can depend on stack bytes beyond a temporary, which a run may happen to leave zero.", "anchors": ["grayc/src/codegen/codegen.c:emit_assign_statement", "grayc/src/runtime/array.h:GRAY_ARRAY_SET", "grayc/src/runtime/array.h:GRAY_ARRAY_GET"]}
{"id": "C67", "title": "Shifts that pass the guard are defined", "statement": "A shift by an amount outside 0..63 panics; any other shift is defined and equals multiplication modulo 2^64 or floor division by a power of two.", "quantifier": "all operand types, values and amounts", "why_tests_cant": "Undefined behaviour is not observable by a passing test.", "anchors": ["grayc/src/codegen/codegen.c:emit_expression"]}
{"id": "C68", "title": "Negation of wide integers is exact or panics", "statement": "Unary minus on i128 and i256 returns the exact negation or panics.", "quantifier": "all 128- and 256-bit values", "why_tests_cant": "Only the single minimum value fails.", "anchors": ["grayc/src/runtime/bigint.h:gray_i128_neg", "grayc/src/runtime/bigint.h:gray_i256_neg"]}
{"id": "C69", "title": "Negated integer literals denote their value", "statement": "A declaration int x = -n is rejected at compile time or gives x the value -n, for every literal n in every base.", "quantifier": "all literals", "why_tests_cant": "Literals are unbounded strings; the wrapped ones are accepted silently.", "anchors": ["grayc/src/codegen/codegen.c:emit_expression", "grayc/src/typechecker/typechecker.c:try_get_literal_int"]}
{"id": "C70", "title": "The literal range check accepts exactly the values that fit", "statement": "Declaring or assigning an integer literal to a variable of a type of at most 64 bits is accepted exactly when the value is in the type's range.", "quantifier": "all literals and integer types", "why_tests_cant": "Universal over literals; failures begin at 2^63.", "anchors": ["grayc/src/typechecker/typechecker.c:check_integer_range", "grayc/src/typechecker/typechecker.c:try_get_literal_int"]}
{"id": "C71", "title": "Range membership agrees with range loops", "statement": "x in range(start, end, step) is true exactly for the values a for loop over the same range visits, for every nonzero step, without undefined behaviour.", "quantifier": "all start, end, step, x", "why_tests_cant": "Universal over four 64-bit values.", "anchors": ["grayc/src/codegen/codegen.c:emit_expression"]}
{"id": "C72", "title": "for_each unlocks its collection however it ends", "statement": "After a for_each over a map or array that was not being iterated, the collection can be modified again, however the loop ended (to its end, break or return).", "quantifier": "all maps and arrays, all loop bodies", "why_tests_cant": "Quantifies over every loop body and exit path.", "anchors": ["grayc/src/codegen/codegen.c:emit_statement", "grayc/src/runtime/map.c:gray_map_set"]}
{"id": "C73", "title": "maps.contains_value decides by value", "statement": "contains_value(m, v) is true exactly when some live entry of m has a value equal (==) to v.", "quantifier": "all maps, all values, all value types", "why_tests_cant": "Depends on where strings are stored; equal literals share an address in simple tests.", "anchors": ["grayc/src/stdlib/maps.c:gray_maps_contains_value"]}
{"id": "C74", "title": "maps.merge is the union with priority to the second map", "statement": "merge(a, b) has, for every key, the value in b, or else the value in a, and lists the keys of a first.", "quantifier": "all pairs of maps, all hash functions", "why_tests_cant": "Universal over table layouts.", "anchors": ["grayc/src/stdlib/maps.c:gray_maps_merge"]}
{"id": "C75", "title": "maps.is_equal is equality of finite maps", "statement": "is_equal(a, b) is true exactly when both maps have the same keys with equal values, regardless of insertion order or layout.", "quantifier": "all pairs of maps, all hash functions", "why_tests_cant": "One inclusion is checked and counts are compared; equality needs a counting argument over all layouts.", "anchors": ["grayc/src/stdlib/maps.c:gray_maps_is_equal"]}
{"id": "C76", "title": "reverse, slice, concat and split_every are the list functions", "statement": "reverse(a) holds the elements of a in reverse order; concat(a, b) those of a then those of b; slice(a, s, e) those at positions s..e-1 that exist; split_every(a, n) cuts a into consecutive pieces of n elements, only the last possibly shorter.", "quantifier": "all arrays and all integer arguments", "why_tests_cant": "Universal over contents and 64-bit arguments; int32_t truncation shows only at arguments no test uses.", "anchors": ["grayc/src/stdlib/arrays.c:gray_arrays_reverse", "grayc/src/stdlib/arrays.c:gray_arrays_slice", "grayc/src/stdlib/arrays.c:gray_arrays_concat", "grayc/src/stdlib/arrays.c:gray_arrays_split_every"]}
{"id": "C77", "title": "contains, index_of, count and remove agree with equality", "statement": "On arrays of int and of string: contains is membership, index_of the first position or -1, count the number of occurrences, remove deletes the first occurrence only.", "quantifier": "all arrays, all values", "why_tests_cant": "Universal over contents.", "anchors": ["grayc/src/stdlib/arrays.c:gray_arrays_contains_int", "grayc/src/stdlib/arrays.c:gray_arrays_index_of_int", "grayc/src/stdlib/arrays.c:gray_arrays_count", "grayc/src/stdlib/arrays.c:gray_arrays_remove_int", "grayc/src/stdlib/arrays.c:gray_arrays_contains_str"]}
{"id": "C78", "title": "deduplicate keeps exactly the first occurrences", "statement": "deduplicate(a) holds the elements of a that have no equal element to their left, in order.", "quantifier": "all arrays of any element type", "why_tests_cant": "Elements are compared as raw bytes; equality by value and by bytes differ only for values built at run time.", "anchors": ["grayc/src/stdlib/arrays.c:gray_arrays_deduplicate"]}
{"id": "C79", "title": "get_sum returns the sum or panics", "statement": "get_sum on an array of int returns the mathematical sum, or stops with an overflow panic as every other integer addition does.", "quantifier": "all arrays of int", "why_tests_cant": "Overflow depends on the order and values of all elements.", "anchors": ["grayc/src/stdlib/arrays.c:gray_arrays_get_sum"]}
{"id": "C80", "title": "get_min and get_max return an extreme element", "statement": "get_min/get_max return an element of the array that is no larger/smaller than every element.", "quantifier": "all arrays of int", "why_tests_cant": "Universal over contents.", "anchors": ["grayc/src/stdlib/arrays.c:gray_arrays_get_min", "grayc/src/stdlib/arrays.c:gray_arrays_get_max"]}
{"id": "C81", "title": "Appending during for_each is safe", "statement": "STANDARD 6.3.2: a for_each body may append to the array it iterates; the new elements are not visited and are in the array after the loop.", "quantifier": "all arrays, all appended values", "why_tests_cant": "Quantifies over loop bodies and array sizes.", "anchors": ["grayc/src/runtime/array.c:gray_array_push", "grayc/src/codegen/codegen.c:emit_statement"]}
{"id": "C82", "title": "An element read is the element appended", "statement": "For every integer element type T, the elements of an array declared `mut a [T] = {}` and filled by append read back as the values appended.", "quantifier": "all integer element types, all value sequences", "why_tests_cant": "Quantifies over element types, lengths and values; the storage size and the access size are chosen in different parts of the compiler.", "anchors": ["grayc/src/codegen/codegen.c:emit_expression", "grayc/src/runtime/array.c:gray_array_push", "grayc/src/runtime/array.c:gray_array_get_ptr"]}
{"id": "C83", "title": "An element read is the element assigned", "statement": "For every integer element type T, after a[i] = v on an array initialised with a literal, a[i] reads v and every other element is unchanged.", "quantifier": "all integer element types, all arrays, positions and values", "why_tests_cant": "Quantifies over element types and contents.", "anchors": ["grayc/src/codegen/codegen.c:emit_statement", "grayc/src/runtime/array.c:gray_array_set"]}
{"id": "C84", "title": "contains is membership for every element type", "statement": "arrays.contains(a, v) is true exactly when v is an element of a, for every comparable element type.", "quantifier": "all element types, arrays and values", "why_tests_cant": "Every type but string goes through one int64_t loop; whether that is right depends on the element size and on the neighbours in memory.", "anchors": ["grayc/src/stdlib/arrays.c:gray_arrays_contains_int", "grayc/src/codegen/codegen.c:emit_arrays_call"]}
{"id": "C85", "title": "is_equal is equality of the element values", "statement": "arrays.is_equal(a, b) is true exactly when a and b hold equal values in the same order, however the arrays were built.", "quantifier": "all integer element types, all pairs of arrays", "why_tests_cant": "Quantifies over contents and histories of both arrays.", "anchors": ["grayc/src/stdlib/arrays.c:gray_arrays_is_equal_prim"]}
{"id": "C86", "title": "flatten concatenates the inner arrays", "statement": "arrays.flatten(a) holds the elements of the inner arrays in order, for every element type.", "quantifier": "all element sizes, all nested arrays", "why_tests_cant": "Quantifies over element sizes and shapes.", "anchors": ["grayc/src/stdlib/arrays.c:gray_arrays_flatten"]}
{"id": "C87", "title": "Callbacks receive the elements", "statement": "The callback of map, filter, any, all and reduce is called with the elements of the array.", "quantifier": "all integer element types, all literal arrays", "why_tests_cant": "Quantifies over element types and contents.", "anchors": ["grayc/src/codegen/codegen.c:emit_arrays_call"]}
{"id": "C88", "title": "url_decode accepts exactly complete escapes", "statement": "url_decode succeeds exactly on texts in which every '%' is followed by two hex digits, and yields the bytes the text stands for ('+' for a space); any other text panics with P0042.", "quantifier": "all texts", "why_tests_cant": "The accepted language is infinite.", "anchors": ["grayc/src/stdlib/encoding.c:gray_encoding_url_decode"]}
{"id": "C89", "title": "bytes.from_hex inverts to_hex and rejects other text", "statement": "bytes.from_hex accepts exactly hex texts of even length and yields their bytes; any other text is rejected.", "quantifier": "all texts", "why_tests_cant": "The accepted language is infinite; conversion specifications of sscanf accept unexpected texts.", "anchors": ["grayc/src/stdlib/bytes.c:gray_bytes_from_hex"]}
{"id": "C90", "title": "csv.parse reads RFC 4180 documents", "statement": "For every document of quoted and plain fields, with LF or CRLF line ends and an optional unterminated last record, csv.parse yields the values of the fields; it terminates on every text.", "quantifier": "all RFC 4180 documents, all texts for termination", "why_tests_cant": "Infinitely many documents; interactions of quoting, separators and line ends.", "anchors": ["grayc/src/stdlib/csv.c:gray_csv_parse"]}
{"id": "C91", "title": "Binary decoders check the length of their input", "statement": "Decoding a value of n bytes from an array with fewer bytes is a panic; with at least n bytes the first n determine the value.", "quantifier": "all widths and byte arrays", "why_tests_cant": "Out-of-bounds reads usually return plausible values instead of failing.", "anchors": ["grayc/src/stdlib/binary.c"]}
{"id": "C92", "title": "UUID functions always give well-formed results", "statement": "generate and generate_time_ordered always give a canonical UUID, and generate_compact is well defined on every value of type UUID, giving 32 hex digits for canonical ones.", "quantifier": "all random inputs including failure of the entropy source, all UUID struct values", "why_tests_cant": "Entropy failure and hand-made struct values are not exercised by tests.", "anchors": ["grayc/src/stdlib/uuid.c:gray_uuid_generate", "grayc/src/stdlib/uuid.c:gray_uuid_generate_compact"]}
{"id": "C93", "title": "strings.repeat gives n copies or panics", "statement": "strings.repeat(s, n) is the concatenation of n copies of s when that fits in 2^31-1 bytes; a negative count or a longer result is a panic.", "quantifier": "all strings and all 64-bit counts", "why_tests_cant": "Size overflow needs huge counts.", "anchors": ["grayc/src/stdlib/strings.c:gray_strings_repeat"]}
{"id": "C94", "title": "strings.join concatenates with separators or panics", "statement": "strings.join(parts, sep) is the parts with sep between neighbours, or a panic when the result is too long.", "quantifier": "all lists of strings and separators", "why_tests_cant": "Results beyond 2 GiB are not tested.", "anchors": ["grayc/src/stdlib/strings.c:gray_strings_join"]}
{"id": "C95", "title": "All ways to read a character of a string agree", "statement": "For every string s and index i in range, s[i], char_at(s,i), to_chars(s)[i] and the i-th element of for_each are the same value, the i-th byte as 0..255; other indices panic.", "quantifier": "all byte strings, all 64-bit indices", "why_tests_cant": "Bytes from 128 and indices from 2^31 are easily missed.", "anchors": ["grayc/src/stdlib/strings.c:gray_strings_char_at", "grayc/src/stdlib/strings.c:gray_strings_to_chars"]}
{"id": "C96", "title": "Character classification looks at the whole code point", "statement": "is_upper, is_lower, is_digit, is_alpha, is_alphanumeric hold exactly of the ASCII classes and is_whitespace exactly of space, tab, newline and return, for every code point.", "quantifier": "all code points", "why_tests_cant": "Over a million code points.", "anchors": ["grayc/src/stdlib/strings.c:gray_strings_is_upper", "grayc/src/stdlib/strings.c:gray_strings_is_whitespace"]}
{"id": "C97", "title": "Case, trim, slice, reverse and remove_prefix/suffix are exact", "statement": "Case conversion changes exactly the ASCII letters; trimming removes exactly the maximal blank ends; slice gives bytes start..end-1 clamped; reverse reverses; remove_prefix/suffix remove exactly one matching affix.", "quantifier": "all strings and indices", "why_tests_cant": "Universal over strings.", "anchors": ["grayc/src/stdlib/strings.c:gray_strings_trim", "grayc/src/stdlib/strings.c:gray_strings_slice", "grayc/src/stdlib/strings.c:gray_strings_reverse", "grayc/src/stdlib/strings.c:gray_strings_remove_prefix"]}
{"id": "C98", "title": "Code-point functions are consistent on malformed UTF-8", "statement": "On every byte string to_char accepts exactly the indices below char_count and yields Unicode scalar values only.", "quantifier": "all byte strings and indices", "why_tests_cant": "Malformed sequences of every kind.", "anchors": ["grayc/src/stdlib/builtins.c:gray_builtin_to_char", "grayc/src/stdlib/builtins.c:gray_builtin_char_count"]}
{"id": "C99", "title": "Interpolation keeps every part exactly", "statement": "The value of an interpolated string is the concatenation of its literal parts and the texts of its embedded values, in order, for every string that fits the string type.", "quantifier": "all lists of parts, strings with any bytes", "why_tests_cant": "Strings with zero bytes and results beyond 2 GiB are not tested.", "anchors": ["grayc/src/runtime/runtime.c:gray_string_format", "grayc/src/codegen/codegen.c:emit_expression"]}
{"id": "C100", "title": "Texts of arrays and maps are exact and never overrun the buffer", "statement": "The text of an array is its element texts between braces separated by a comma and a space, that of a map its key: value pairs; it is complete for every array and map and building it never writes outside its buffer.", "quantifier": "all arrays and maps of any length with element texts of any length", "why_tests_cant": "A fixed 4096 byte buffer with a check before, not after, each element.", "anchors": ["grayc/src/stdlib/builtins.c:gray_builtin_array_to_string", "grayc/src/stdlib/builtins.c:gray_builtin_map_to_string"]}
{"id": "C101", "title": "Casts between integers keep the value or panic", "statement": "cast(v, T) between integer types of at most 64 bits is v when T has v, and a panic otherwise.", "quantifier": "all 144 pairs of types, all values", "why_tests_cant": "144 pairs of types with boundary values.", "anchors": ["grayc/src/codegen/codegen.c:NODE_CAST_EXPR", "grayc/src/runtime/runtime.h:gray_cast_check", "grayc/src/runtime/runtime.h:gray_ucast_check"]}
{"id": "C102", "title": "Constructors keep the value or panic", "statement": "int(v), uint(v), char(v), byte(v) of an integer are v when the type has v and an error otherwise (STANDARD 3.4).", "quantifier": "all integer types and values", "why_tests_cant": "Boundary values of each pair.", "anchors": ["grayc/src/codegen/codegen.c:emit_builtin_call"]}
{"id": "C103", "title": "Floats convert to their integer part or panic", "statement": "Casting a float to an integer type gives the integer part when the type has it and panics otherwise, for every double including NaN and infinities, without undefined behaviour.", "quantifier": "all doubles, all 12 target types", "why_tests_cant": "Boundary doubles near 2^63 and 2^64, NaN, infinities.", "anchors": ["grayc/src/runtime/runtime.h:gray_float_to_int", "grayc/src/runtime/runtime.h:gray_float_to_uint", "grayc/src/codegen/codegen.c:NODE_CAST_EXPR"]}
{"id": "C104", "title": "Conversions between narrow and wide integers keep the value or panic", "statement": "Conversions between the types of at most 64 bits and i128, u128, i256, u256, by cast or constructor, keep the number or panic.", "quantifier": "all types and values", "why_tests_cant": "Sign boundaries between 64, 128 and 256 bits.", "anchors": ["grayc/src/codegen/codegen.c:NODE_CAST_EXPR", "grayc/src/codegen/codegen.c:emit_builtin_call"]}
{"id": "C105", "title": "int(\"...\") accepts exactly the decimal numerals in range", "statement": "For every string s, int(s) is the value of s when s is an optionally signed decimal numeral in the range of int, and panics otherwise.", "quantifier": "all strings", "why_tests_cant": "Infinitely many input strings.", "anchors": ["grayc/src/stdlib/builtins.c:gray_builtin_string_to_int"]}
{"id": "C106", "title": "is_integer, is_numeric and to_bool accept exactly the documented strings", "statement": "is_integer holds exactly of an optional sign followed by digits, is_numeric of an optional sign followed by digits with at most one point, to_bool accepts exactly true and false in any case.", "quantifier": "all strings", "why_tests_cant": "Infinitely many input strings.", "anchors": ["grayc/src/stdlib/strconv.c:gray_strconv_is_integer", "grayc/src/stdlib/strconv.c:gray_strconv_is_numeric", "grayc/src/stdlib/strconv.c:gray_strconv_to_bool"]}
{"id": "C107", "title": "Updates are downloaded only from the release directory", "statement": "Every address accepted by isTrustedUpdateURL has scheme https, host github.com and a path that leads below /grayscale-lang/grayscale/releases/download.", "quantifier": "all parsed addresses", "why_tests_cant": "Infinitely many addresses.", "anchors": ["cli/update.go:isTrustedUpdateURL"]}
{"id": "C108", "title": "Path functions agree about where a path leads", "statement": "path_join follows its parts one after the other (an absolute part starts again), a path is the join of its dirname and basename, is_absolute tells whether it starts at the root, and basename and extension are the last component and its suffix.", "quantifier": "all paths and lists of parts", "why_tests_cant": "Infinitely many paths.", "anchors": ["grayc/src/stdlib/io.c:gray_io_path_join", "grayc/src/stdlib/io.c:gray_io_dirname", "grayc/src/stdlib/io.c:gray_io_basename", "grayc/src/stdlib/io.c:gray_io_extension", "grayc/src/stdlib/io.c:gray_io_is_absolute"]}
{"id": "C109", "title": "The installed binary is a regular file of the archive", "statement": "The binary that extraction returns holds the bytes of a regular file of the archive whose base name is gray or gray.exe; an archive without such an entry is refused.", "quantifier": "all archives", "why_tests_cant": "Infinitely many archives.", "anchors": ["cli/update.go:extractTarGz"]}
{"id": "C110", "title": "Channels have no data race", "statement": "In no reachable state are two threads about to access the same field of a channel, one of them to write it.", "quantifier": "all thread counts, programs and interleavings", "why_tests_cant": "A race shows only under particular schedules, and its effect depends on the compiler.", "anchors": ["grayc/src/stdlib/channels.c:gray_channels_send", "grayc/src/stdlib/channels.c:gray_channels_try_send", "grayc/src/stdlib/channels.c:gray_channels_close"]}
{"id": "C111", "title": "A channel has room for its capacity", "statement": "For every capacity the buffer allocated for a channel holds as many values as the capacity says.", "quantifier": "all int64 capacities", "why_tests_cant": "2^64 capacities.", "anchors": ["grayc/src/stdlib/channels.c:gray_channels_open"]}
{"id": "C112", "title": "A value sent is not lost", "statement": "Every send that returns has put its value into the channel.", "quantifier": "all thread counts, programs and interleavings", "why_tests_cant": "Interleavings are unbounded and scheduling-dependent.", "anchors": ["grayc/src/stdlib/channels.c:gray_channels_send"]}
{"id": "C113", "title": "A response body arrives whole", "statement": "Every response that is not a redirect is sent as header lines, a blank line and exactly the body of the handler, with the length of the body in Content-Length.", "quantifier": "all statuses, content types, bodies and CORS origins", "why_tests_cant": "Bodies of all lengths and bytes; the buffer limit and NUL bytes are rarely tried.", "anchors": ["grayc/src/stdlib/server.c:handle_connection"]}
{"id": "C114", "title": "Responses carry only the header lines the server means to send", "statement": "For every handler response and accepted CORS origin the header lines sent are exactly the status line, the content type or location, the length, the CORS lines and the connection line.", "quantifier": "all responses and origins", "why_tests_cant": "Injection needs inputs an example-based test does not try.", "anchors": ["grayc/src/stdlib/server.c:handle_connection", "grayc/src/stdlib/server.c:gray_server_cors"]}
{"id": "C115", "title": "Query strings are split into their pairs", "statement": "For every query string the request holds exactly the pairs of the pieces between '&' that have a '='.", "quantifier": "all query strings", "why_tests_cant": "All arrangements of separators.", "anchors": ["grayc/src/stdlib/server.c:parse_request"]}
{"id": "C116", "title": "A request is seen as it was sent", "statement": "However a well-formed request arrives, the handler sees its method, path, query, headers and body.", "quantifier": "all requests and all splittings into pieces", "why_tests_cant": "How TCP splits a request depends on timing.", "anchors": ["grayc/src/stdlib/server.c:parse_request", "grayc/src/stdlib/server.c:handle_connection"]}
{"id": "C117", "title": "Destroying an arena frees every block", "statement": "However an arena was used, destroying it frees every block ever allocated for it.", "quantifier": "all sequences of allocations, scopes and resets", "why_tests_cant": "A leak shows in no result, and only after many rounds in memory use.", "anchors": ["grayc/src/runtime/runtime.c:gray_arena_alloc", "grayc/src/runtime/runtime.c:gray_arena_reset", "grayc/src/runtime/runtime.c:gray_arena_destroy"]}
{"id": "C118", "title": "min, max, clamp, abs and sign work on any numbers", "statement": "math.min and math.max return the smaller and the larger of their arguments whatever number types they have; sign is the sign and abs the absolute value of its argument (STANDARD 9.5).", "quantifier": "all integers of at most 64 bits, all floats", "why_tests_cant": "Mixed argument types and extreme values.", "anchors": ["grayc/src/stdlib/math.h:gray_math_min_int", "grayc/src/stdlib/math.h:gray_math_max_int", "grayc/src/stdlib/math.h:gray_math_clamp_int", "grayc/src/stdlib/math.h:gray_math_abs_int", "grayc/src/stdlib/math.h:gray_math_sign", "grayc/src/codegen/codegen.c:emit_math_call"]}
{"id": "C119", "title": "rand_float and rand_char keep to their documented ranges", "statement": "rand_float() is in [0, 1), and rand_char(min, max) returns the characters of [min, max].", "quantifier": "all generator outputs, all bounds", "why_tests_cant": "One generator output in 2^31 gives 1.0; that a character never comes out cannot be seen in finitely many runs.", "anchors": ["grayc/src/stdlib/random.c:gray_random_float_unit", "grayc/src/stdlib/random.c:gray_random_char_range", "grayc/src/stdlib/random.c:gray_random_char", "grayc/src/stdlib/random.c:gray_random_byte"]}
{"id": "C120", "title": "json.decode inverts json.encode on maps", "statement": "Decoding the encoded text of a map from strings to strings gives the map back.", "quantifier": "all maps", "why_tests_cant": "Every combination of characters in keys and values.", "anchors": ["grayc/src/stdlib/json.c:gray_json_encode_map", "grayc/src/stdlib/json.c:gray_json_decode", "grayc/src/stdlib/json.c:parse_json_string", "grayc/src/stdlib/json.c:json_append_escaped"]}
{"id": "C121", "title": "Splitting a JSON array ends and returns its elements", "statement": "gray_json_split_array returns on every text; of an array it returns the texts of the elements in order, whatever is nested in them.", "quantifier": "all texts, all arrays of values nested arbitrarily deep", "why_tests_cant": "Infinite language, unbounded nesting, termination.", "anchors": ["grayc/src/stdlib/json.c:gray_json_split_array"]}
{"id": "C122", "title": "The JSON encoders write valid JSON within the computed size", "statement": "For every map and array what is written is accepted by the validator and takes exactly the bytes counted in the first pass, so the terminating NUL is inside the buffer.", "quantifier": "all maps, all arrays of strings, integers and booleans, all indentations", "why_tests_cant": "The one-byte overflow happens in arena memory and goes unnoticed.", "anchors": ["grayc/src/stdlib/json.c:gray_json_encode_map", "grayc/src/stdlib/json.c:gray_json_encode_array_string", "grayc/src/stdlib/json.c:gray_json_encode_array_bool", "grayc/src/stdlib/json.c:gray_json_encode_array_int", "grayc/src/stdlib/json.c:gray_json_pretty_map"]}
{"id": "C123", "title": "#json structs survive stringify and parse", "statement": "The text made of a #json struct is valid JSON, and parsing it gives an equal struct.", "quantifier": "all structs, all field values", "why_tests_cant": "Field types the code generator does not know are dropped without a diagnostic.", "anchors": ["grayc/src/codegen/codegen.c:codegen_generate", "grayc/src/stdlib/json.c:gray_json_decode"]}
{"id": "C124", "title": "Keyword lookup finds exactly the reserved words", "statement": "A word gets the token type of the reserved word it spells, and is an identifier if it spells none; the binary search reads inside the table.", "quantifier": "all words", "why_tests_cant": "A table out of order loses a keyword for one spelling only.", "anchors": ["grayc/src/lexer/token.c:keywords", "grayc/src/lexer/token.c:token_lookup_identifier"]}
{"id": "C125", "title": "Separated tokens are read back", "statement": "The token list of a text made of tokens with white space and comments between them is the list of the tokens written, each with its text, gap mark and place, then the end.", "quantifier": "all sequences of tokens and gaps", "why_tests_cant": "Infinite language; comments, strings with interpolations, numbers and operators interact.", "anchors": ["grayc/src/lexer/lexer.c:lexer_next_token", "grayc/src/lexer/lexer.c:skip_whitespace_and_comments", "grayc/src/lexer/lexer.c:read_string"]}
{"id": "C126", "title": "Tokens have their line and column", "statement": "The line of a token is one more than the line terminators before it, its column one more than the bytes before it on the line, with the terminators of STANDARD 2.2.", "quantifier": "all source texts, all tokens", "why_tests_cant": "Positions after every mix of terminators, comments and multi-line strings.", "anchors": ["grayc/src/lexer/lexer.c:read_char", "grayc/src/lexer/lexer.c:skip_line_comment"]}
{"id": "C127", "title": "String literals are exactly those of the grammar", "statement": "A string literal is accepted iff its content is plain bytes, valid escapes and interpolations with matching braces up to the closing quote; a raw string up to the first backtick.", "quantifier": "all texts", "why_tests_cant": "Infinite language, unbounded nesting of braces.", "anchors": ["grayc/src/lexer/lexer.c:read_string", "grayc/src/lexer/lexer.c:read_raw_string"]}
{"id": "C128", "title": "Character literals hold one character", "statement": "Every character and escape sequence between single quotes is a literal, with the value it stands for in the C program.", "quantifier": "all characters, all escapes", "why_tests_cant": "Unicode has more than a million characters.", "anchors": ["grayc/src/lexer/lexer.c:read_char_literal", "grayc/src/parser/parser.c:parse_prefix", "grayc/src/codegen/codegen.c:emit_expression"]}
{"id": "C129", "title": "String literals keep their value in the C program", "statement": "The C string literal emitted, read by the rules of C11, with the length emitted, is the value of the literal.", "quantifier": "all contents, raw or not, in functions and outside", "why_tests_cant": "Octal and hexadecimal escapes of C take following digits; lengths are computed apart.", "anchors": ["grayc/src/codegen/codegen.c:emit_expression", "grayc/src/runtime/runtime.h:gray_string_lit_len"]}
{"id": "C130", "title": "! before a name is negation", "statement": "The text of ! and a name that is not a keyword is read as the operator and the name.", "quantifier": "all names", "why_tests_cant": "!in is an operator too, so names starting with in are special.", "anchors": ["grayc/src/lexer/lexer.c:lexer_next_token"]}
{"id": "C131", "title": "The condition of a statement ends at the brace of its block", "statement": "An operator expression before the `{` of a block (`if`, `as_long_as`, `when`) is read up to that brace, and gives its tree.", "quantifier": "all operator expressions, all names of structs in the file", "why_tests_cant": "The outcome depends on the last name, on earlier comparisons and on the names in the file.", "anchors": ["grayc/src/parser/parser.c"]}
{"id": "C132", "title": "A struct literal can be an argument in any operand", "statement": "A call with a struct literal as its argument is read as such when it is the right operand of any binary operator.", "quantifier": "all left operands, operators, field lists", "why_tests_cant": "The parser carries a flag through all nested expressions.", "anchors": ["grayc/src/parser/parser.c"]}
{"id": "C133", "title": "ensure calls are made when the function exits", "statement": "The calls named by the ensure statements a call of a function has reached are made exactly once when it exits, normally or by an early return, the last first; those not reached are not made, and a return value is computed before.", "quantifier": "all programs, nestings of if and loops, exits, outcomes of conditions, call depths", "why_tests_cant": "Which calls are made depends on the path taken through nested scopes.", "anchors": ["grayc/src/codegen/codegen.c:collect_ensures", "grayc/src/codegen/codegen.c:emit_ensure_cleanup", "grayc/src/codegen/codegen.c:emit_return_statement", "STANDARD.md"]}
{"id": "C134", "title": "Early exits release exactly the arenas of the scopes left", "statement": "At every operation of a program exactly the arenas of the scopes around it are alive and the innermost is current, whatever was left before by return, break or continue; no destroyed arena is used or destroyed again, and after a call the arenas, the current arena and the call depth are as before.", "quantifier": "all programs, nestings of if and loops, exits, outcomes of conditions, call depths, starting states", "why_tests_cant": "Early exits unwind any number of nested scopes with generated variable names; tests see neither leaks nor use after free.", "anchors": ["grayc/src/codegen/codegen.c:emit_if_statement", "grayc/src/codegen/codegen.c:emit_loop_body_with_arena", "grayc/src/codegen/codegen.c:emit_scratch_arena_unwind", "grayc/src/codegen/codegen.c:emit_loop_exit_unwind", "grayc/src/codegen/codegen.c:emit_function_declaration", "STANDARD.md"]}
{"id": "C135", "title": "No accepted function runs off its end without a return", "statement": "A function with a return type that the compiler accepts never reaches the end of its body without executing a return.", "quantifier": "all programs, paths, outcomes of conditions", "why_tests_cant": "The check is by syntax over all paths; running off the end is undefined in C.", "anchors": ["grayc/src/typechecker/typechecker.c:all_paths_return", "grayc/src/typechecker/typechecker.c:block_has_return"]}
{"id": "C136", "title": "Memory a variable refers to outlives the variable", "statement": "No program uses memory that was given back: the string, array, map or struct stored in a variable, an element or a field stays alive as long as the variable it was stored in can be used.", "quantifier": "all programs with functions, by-reference parameters, global variables, nested scopes; all outcomes of conditions, numbers of iterations, call depths", "why_tests_cant": "Freed arena memory usually keeps its contents for a while, so tests pass; which arena a store uses depends on the nesting of scopes and the kind of function.", "anchors": ["grayc/src/codegen/codegen.c:emit_assign_statement", "grayc/src/codegen/codegen.c:function_uses_caller_arena", "grayc/src/codegen/codegen.c:emit_function_return_escape", "grayc/src/codegen/codegen.c:emit_function_declaration", "STANDARD.md"]}
{"id": "C137", "title": "regex.is_match and regex.find give the POSIX leftmost-longest match", "statement": "For every valid pattern and text, is_match is true exactly when the pattern matches a part of the text, and find returns the part that begins first and of those the longest, or the empty string if there is none.", "quantifier": "all expressions, texts and patterns of any length and content", "why_tests_cant": "Matches far into long texts and texts with NUL are not in tests.", "anchors": ["grayc/src/stdlib/regex.c:gray_regex_match", "grayc/src/stdlib/regex.c:gray_regex_find", "grayc/src/stdlib/regex.c:compile_pattern", "grayc/src/stdlib/regex.c:to_cstr", "STANDARD.md"]}
{"id": "C138", "title": "regex.find_all returns all matches of the text", "statement": "find_all returns exactly the non-overlapping leftmost-longest matches of the pattern in the text, in order, each once, and reads no memory outside its buffer.", "quantifier": "all expressions including anchors and empty matches, texts of any length", "why_tests_cant": "Needs anchors or empty matches in combination with repeated searching, or texts longer than the buffer.", "anchors": ["grayc/src/stdlib/regex.c:gray_regex_find_all", "grayc/src/stdlib/regex.c:to_cstr", "STANDARD.md"]}
{"id": "C139", "title": "regex.replace replaces every match and nothing else", "statement": "replace returns the text with each match replaced by the replacement and everything else unchanged, writing only inside its buffer.", "quantifier": "all expressions, texts and replacements of any length", "why_tests_cant": "The overflow needs a long text with long replacements.", "anchors": ["grayc/src/stdlib/regex.c:gray_regex_replace", "grayc/src/stdlib/regex.c:to_cstr", "STANDARD.md"]}
{"id": "C140", "title": "regex.split returns the parts between the matches", "statement": "split returns exactly what is before, between and after the matches, so that nothing but the matches is lost.", "quantifier": "all expressions, texts of any length", "why_tests_cant": "Loses text only for patterns that match the empty string.", "anchors": ["grayc/src/stdlib/regex.c:gray_regex_split", "grayc/src/stdlib/regex.c:to_cstr", "STANDARD.md"]}
{"id": "C141", "title": "crypto.sha256 is SHA-256", "statement": "For every string of at most 2^31-1 bytes, crypto.sha256 returns the 64 lower-case hexadecimal digits of the SHA-256 digest that FIPS 180-4 defines for its bytes: the message padded with a 1 bit, the least number of 0 bits and the 64-bit length, split in 512-bit blocks, with the round constants being the fractional parts of cube roots of the first 64 primes and the initial value those of square roots of the first 8.", "quantifier": "all strings", "why_tests_cant": "A digest that differs in one constant, shift or padding rule is silently incompatible with every other implementation.", "anchors": ["grayc/src/stdlib/crypto.c:gray_crypto_sha256", "STANDARD.md"]}
{"id": "C142", "title": "crypto.md5 is MD5", "statement": "For every string of at most 2^31-1 bytes, crypto.md5 returns the 32 lower-case hexadecimal digits of the MD5 digest that RFC 1321 defines for its bytes, the table being floor(2^32 * |sin i|) for i = 1..64.", "quantifier": "all strings", "why_tests_cant": "Same as for SHA-256; the table of 64 constants is typed in by hand in the source.", "anchors": ["grayc/src/stdlib/crypto.c:gray_crypto_md5", "STANDARD.md"]}
{"id": "C143", "title": "crypto.random_hex gives every digit string equally often", "statement": "For every n >= 0, crypto.random_hex(n) is a string of n hexadecimal digits, and each such string arises from the same number of byte strings read from the system's random source.", "quantifier": "all lengths, all digit strings", "why_tests_cant": "Used for tokens: a bias or a short result makes them guessable.", "anchors": ["grayc/src/stdlib/crypto.c:gray_crypto_random_hex", "STANDARD.md"]}
{"id": "C144", "title": "Types are read to their end", "statement": "For every type of the language, however nested, written as tokens and followed by anything that can follow a type, the type parser consumes exactly the tokens of that type and returns its canonical text: [K:V] and map[K:V] have the same text, a module and a type name are joined by an underscore, sizes, pointers, parameters with & and results are kept.", "quantifier": "all well-formed types, all token lists after them", "why_tests_cant": "Every declaration, parameter, cast and generic instance is typed by this text; a type that is refused, or read with other text, changes what the program means.", "anchors": ["grayc/src/parser/parser.c:parse_complex_type", "grayc/src/parser/parser.c:read_type_name", "STANDARD.md"]}
{"id": "C145", "title": "A type's text tells what it is", "statement": "Taking the text of a type apart gives back its structure: the kind of a built-in type, the element type of an array, key and value types of a map, the target of a pointer, the parameter list with & marks and the result list of a function, and the struct or enum a (module-qualified) name stands for.", "quantifier": "all well-formed types, all sets of enum names, all module and type names", "why_tests_cant": "The checker and the code generator look at types only through this function; a wrong element or a wrong struct is compiled without a diagnostic.", "anchors": ["grayc/src/typechecker/types.c:type_from_name", "grayc/src/typechecker/types.c:parse_func_sig"]}
{"id": "C146", "title": "A bound wildcard is a type that fits", "statement": "Whenever the checker binds the wildcard of a parameter type against an argument type, what it is bound to is the text of a type, and the parameter type with that type in place of ? has exactly the argument's text.", "quantifier": "all well-formed parameter and argument types", "why_tests_cant": "The bound text is pasted into the C code of the instance; a wrong binding makes an instance whose parameters have other types than the arguments passed.", "anchors": ["grayc/src/typechecker/typechecker.c:bind_wildcard_string", "grayc/src/typechecker/typechecker.c:substitute_wildcard"]}
{"id": "C147", "title": "Every fitting argument is accepted", "statement": "If an argument's type is the parameter's type with some type in place of ?, the checker binds the wildcard to that type.", "quantifier": "all well-formed parameter types with a wildcard, all types for it", "why_tests_cant": "Otherwise a call the language allows is rejected.", "anchors": ["grayc/src/typechecker/typechecker.c:bind_wildcard_string", "STANDARD.md"]}
{"id": "C148", "title": "Checker and code generator bind alike", "statement": "Whenever the type checker binds a wildcard, the code generator's own binding function gives the same type for the same parameter and argument text.", "quantifier": "all parameter and argument texts", "why_tests_cant": "The checker records the instances to be emitted, the generator computes the name called; if they differ the C program calls a function that does not exist or another one.", "anchors": ["grayc/src/codegen/codegen.c:codegen_bind_wildcard", "grayc/src/typechecker/typechecker.c:bind_wildcard_string"]}
{"id": "C149", "title": "Instances have names of their own", "statement": "The C name of an instance of a generic function is the same at its definition and at its calls, differs from the names of all other instances of all generic functions, and from the names of the functions that are not generic.", "quantifier": "all function names, all types", "why_tests_cant": "Equal names are a C compile error or, worse, a call of the wrong instance.", "anchors": ["grayc/src/codegen/codegen.c", "grayc/src/util/constants.h"]}
{"id": "C150", "title": "Arguments of generic calls have their parameters' types", "statement": "If a call of a generic function is accepted, there is one type such that every argument has the type of its parameter with that type in place of ?.", "quantifier": "all parameter lists and argument lists", "why_tests_cant": "A call that is accepted with a wrong argument is compiled to C that misreads it.", "anchors": ["grayc/src/typechecker/typechecker.c:resolve_direct_call"]}
{"id": "C151", "title": "The distance of two names is their edit distance", "statement": "levenshtein(a, b) is the least number of single-character insertions, deletions and replacements, applied one after the other, that lead from a to b; the computation never accesses its row outside its bounds.", "quantifier": "all pairs of names of any length", "why_tests_cant": "The 'did you mean' hints rest on it; the row is a fixed stack array for names below 256 bytes and a heap array above, so an off-by-one would corrupt memory.", "anchors": ["grayc/src/typechecker/typechecker.c:levenshtein"]}
{"id": "C152", "title": "A suggestion is the nearest name in sight", "statement": "For an unknown name the suggestion is a variable in an enclosing scope or a function, one or two edits away, no other such name being nearer and none listed before it (innermost scope first, functions last) as near; there is no suggestion exactly when no such name is within two edits.", "quantifier": "all scope chains, function lists and names", "why_tests_cant": "The hint tells the user what to write; a far or invisible name misleads.", "anchors": ["grayc/src/typechecker/typechecker.c:suggest_similar_name"]}
{"id": "C153", "title": "A constant has the value written", "statement": "Integer constants declared outside functions that the compiler accepts have, in the compiled program, exactly the values of their expressions, and these lie within their types.", "quantifier": "all lists of constants with literals, negation, names of earlier constants and + - * / %", "why_tests_cant": "Constants are the numbers everything else is computed from; unlike expressions in functions they are emitted without overflow checks.", "anchors": ["grayc/src/typechecker/typechecker.c:typechecker_fold_const_int", "grayc/src/typechecker/typechecker.c:typechecker_register_const_int", "grayc/src/codegen/codegen.c:emit_expression"]}
{"id": "C154", "title": "A constant is rejected only if it leaves its type", "statement": "Integer constants of one type, all of whose operations stay within the type, are accepted by the type checker.", "quantifier": "all integer types of at most 64 bits and all lists of constants", "why_tests_cant": "A false overflow error cannot be worked around by the user.", "anchors": ["grayc/src/typechecker/typechecker.c:typechecker_fold_const_int"]}
{"id": "C155", "title": "A named array size is the constant the name refers to", "statement": "A fixed array size given by a name is the value of the integer constant the name refers to where it stands; a name that refers to no positive constant is rejected.", "quantifier": "all programs of nested blocks with constants, variables and sizes", "why_tests_cant": "The size decides how much the array holds.", "anchors": ["grayc/src/typechecker/typechecker.c:typechecker_resolve_array_size", "grayc/src/typechecker/typechecker.c:typechecker_register_const_int"]}
{"id": "C156", "title": "A format string says in C what it says in the program", "statement": "The format string of a call of printf, sprintf and their relatives that the type checker accepts is emitted as a C string literal that is a valid C format with the items of the value of the literal: the same text, %% and conversions with the same flags, width and precision.", "quantifier": "all string literals, raw or not, and all argument types", "why_tests_cant": "A format string that differs from the one checked makes printf read arguments that are not there (%n even writes).", "anchors": ["grayc/src/codegen/codegen.c:emit_format_string_normalized_extended", "grayc/src/typechecker/typechecker.c:resolve_stdlib_call"]}
{"id": "C157", "title": "Each conversion has an argument of its type", "statement": "In an accepted formatting call every conversion of the emitted format has one argument of the C type that C11 requires for it (after default argument promotions), and there are no further arguments.", "quantifier": "all accepted calls whose format is a string literal", "why_tests_cant": "printf with an argument of the wrong type is undefined behaviour and prints wrong numbers.", "anchors": ["grayc/src/codegen/codegen.c:emit_format_string_normalized_extended", "grayc/src/typechecker/typechecker.c:resolve_stdlib_call", "grayc/src/codegen/codegen.c:emit_format_arguments"]}
{"id": "C158", "title": "Padding fills up to the width", "statement": "pad_left, pad_right and center put copies of the given character before, after, or in halves before and after the text until it has the given number of characters, and leave longer text alone.", "quantifier": "all texts, widths and characters", "why_tests_cant": "Columns of a table line up only if the width counts characters.", "anchors": ["grayc/src/stdlib/fmt.c:gray_fmt_pad_left", "grayc/src/stdlib/fmt.c:gray_fmt_pad_right", "grayc/src/stdlib/fmt.c:gray_fmt_center"]}
{"id": "C159", "title": "Hexadecimal, octal and binary text of integers", "statement": "int_to_hex, int_to_octal and int_to_binary give the numeral of the integer in the base (of its 64-bit two's complement if it is negative): lower-case digits, exact value, no leading zeros; no access outside the buffer.", "quantifier": "all 64-bit integers", "why_tests_cant": "The buffer for binary digits is filled from the end; an off-by-one would corrupt memory.", "anchors": ["grayc/src/stdlib/fmt.c:gray_fmt_int_to_hex", "grayc/src/stdlib/fmt.c:gray_fmt_int_to_octal", "grayc/src/stdlib/fmt.c:gray_fmt_int_to_binary"]}
{"id": "C160", "title": "Formatted floating point numbers are complete", "statement": "float_fixed and float_sci return exactly the text that C formats for the number.", "quantifier": "all texts C may format", "why_tests_cant": "The text goes through a buffer of 64 bytes.", "anchors": ["grayc/src/stdlib/fmt.c:gray_fmt_float_fixed", "grayc/src/stdlib/fmt.c:gray_fmt_float_sci"]}
{"id": "C161", "title": "The buffer for generated code holds what was appended", "statement": "Starting from a buffer of at least one byte, any sequence of appends either ends with \"out of memory\" or leaves a buffer that holds the appended texts in order, followed by a 0 byte, and nothing is written outside the allocated object.", "quantifier": "all initial capacities, amounts of memory and sequences of appends", "why_tests_cant": "All generated code goes through this buffer; a wrong size computation corrupts the compiler or its output.", "anchors": ["grayc/src/util/buf.c:grow_buffer", "grayc/src/util/buf.c:append_bytes_to_buffer", "grayc/src/util/buf.c:append_format_to_buffer", "grayc/src/util/buf.c:append_indent_to_buffer"]}
{"id": "C162", "title": "An error stops the compilation", "statement": "Code is generated if and only if no stage reported an error; if none is generated, at least one error is shown, and otherwise all warnings that the user did not hide.", "quantifier": "all sequences of diagnostics of the parser and the checker and all settings of -q", "why_tests_cant": "A dropped error would let a wrong program through; a failure without message cannot be understood.", "anchors": ["grayc/src/util/error.c:diagnostic_add", "grayc/src/util/error.c:diagnostic_has_errors", "grayc/src/main.c:main"]}
{"id": "C163", "title": "Every error is shown and counted", "statement": "The errors shown are exactly those reported, and the summary gives their number.", "quantifier": "all sequences of diagnostics", "why_tests_cant": "Users rely on the list and the number of errors.", "anchors": ["grayc/src/util/error.c:diagnostic_add", "grayc/src/util/error.c:diagnostic_print_all", "grayc/src/util/error.c:diagnostic_print_summary"]}
{"id": "C164", "title": "-q hides exactly the named warnings", "statement": "-q with a list of codes is refused if a piece does not start with W; otherwise a warning is shown iff its code is not one of the pieces between commas; with -q alone no warning is shown. The summary counts the warnings that are shown.", "quantifier": "all arguments and all sequences of diagnostics", "why_tests_cant": "Hiding more than asked for hides problems.", "anchors": ["grayc/src/main.c:main", "grayc/src/util/error.c:is_warning_suppressed"]}
{"id": "C165", "title": "The source line shown is the line of the diagnostic", "statement": "With every diagnostic the line with its number in its file is shown, if the file can be read and has such a line.", "quantifier": "all files, all sequences of diagnostics (the cache holds four files)", "why_tests_cant": "A wrong line sends the reader to the wrong place; the cache could mix up files.", "anchors": ["grayc/src/util/error.c:build_line_index", "grayc/src/util/error.c:read_source_line_indexed", "grayc/src/util/error.c:print_diagnostic"]}
{"id": "C166", "title": "The underline stands under the span", "statement": "The carets below a source line stand under the characters from the start column to the end column and nowhere else.", "quantifier": "all lines of printable ASCII, all columns", "why_tests_cant": "The underline tells which part of the line is wrong.", "anchors": ["grayc/src/util/error.c:print_diagnostic"]}
{"id": "C167", "title": "The program gets the arguments given after the file", "statement": "`gray file.gray a b c` compiles and runs file.gray with the arguments a, b, c.", "quantifier": "all files, argument lists, positions of `--` and options", "why_tests_cant": "A program that reads its arguments needs them; anything else run instead of the named file is a surprise.", "anchors": ["cli/commands.go", "internal/grayc/grayc.go:Run", "grayc/src/main.c:main"]}
{"id": "C168", "title": "-q from the command line to the list of hidden warnings", "statement": "`gray -q all file` hides all warnings, `gray -q list file` hides those named, anything else is refused; the file compiled is the one given.", "quantifier": "all files and all texts given to -q", "why_tests_cant": "The option goes through two programs that have to agree about it.", "anchors": ["cli/commands.go", "internal/grayc/grayc.go:Run", "grayc/src/main.c:main"]}
{"id": "C169", "title": "The exit status is that of the program", "statement": "The exit status of `gray file.gray` is the one the program ended with.", "quantifier": "all exit statuses and signals", "why_tests_cant": "Scripts look at the exit status; the documentation of Run promises it.", "anchors": ["internal/grayc/grayc.go:Run", "grayc/src/main.c:main"]}
{"id": "C170", "title": "The C compiler gets the intended arguments", "statement": "The command handed to the shell is refused or is split by the shell into exactly the intended words, whatever the paths contain.", "quantifier": "all options, runtime directories, output files and archives", "why_tests_cant": "Otherwise a file name could inject commands or options.", "anchors": ["grayc/src/main.c:main"]}
{"id": "C171", "title": "Compilations do not share intermediate files", "statement": "Compilations with different output files write different intermediate C files.", "quantifier": "all pairs of output files", "why_tests_cant": "Two compilations at the same time would compile each other's code.", "anchors": ["grayc/src/main.c:main"]}
{"id": "C172", "title": "The program does not overwrite its source", "statement": "The default output of a .gray file is its base name without the extension, and is not empty.", "quantifier": "all paths that end in .gray", "why_tests_cant": "Otherwise compiling destroys the source.", "anchors": ["grayc/src/main.c:output_name_from_input"]}
{"id": "C173", "title": "Names in an imported module keep their meaning", "statement": "After an imported module is merged into the program, every name in its functions refers to the same local name, or to the renamed declaration of the module, as before.", "quantifier": "all modules and functions", "why_tests_cant": "Imports must not change what a module's code means.", "anchors": ["grayc/src/main.c:rewrite_labels", "grayc/src/main.c:main"]}
{"id": "C174", "title": "Importing a module leaves the entry file alone", "statement": "Importing a module does not change what the names in a function of the entry file refer to, if all of them are declared there.", "quantifier": "all programs and modules", "why_tests_cant": "Otherwise adding an import, or a function to a library, changes which function a program calls.", "anchors": ["grayc/src/main.c:rewrite_labels", "grayc/src/main.c:main"]}
{"id": "C175", "title": "Types in imported declarations are renamed", "statement": "In the types of parameters, fields and constants of an imported module every name of the module is renamed and nothing else.", "quantifier": "all types of any depth and all name tables", "why_tests_cant": "A type that keeps its old name is unknown, or another type, in the merged program.", "anchors": ["grayc/src/main.c:rewrite_type_name"]}
{"id": "C176", "title": "Types in imported function bodies are renamed", "statement": "In the bodies of imported functions types are renamed as in their signatures.", "quantifier": "all types and name tables", "why_tests_cant": "A local variable of a type of the module is the usual case.", "anchors": ["grayc/src/main.c:rewrite_labels"]}
{"id": "C177", "title": "Declarations of different modules stay apart", "statement": "Declarations of different modules, or of different names, get different names in the merged program.", "quantifier": "all pairs of modules and names", "why_tests_cant": "Two declarations with one name are an error, or one replaces the other.", "anchors": ["grayc/src/main.c:main"]}
{"id": "C178", "title": "Imported constants keep their order", "statement": "Constants and variables of an imported file are declared in the order in which they are written.", "quantifier": "all programs, files and pairs of declarations", "why_tests_cant": "A constant that uses an earlier one needs it to be declared before.", "anchors": ["grayc/src/main.c:main"]}
{"id": "C179", "title": "The set of imported files", "statement": "A file counts as imported exactly if it was marked, and belongs to the module for which it was marked first; lookup and marking end.", "quantifier": "all sequences of marks and all paths", "why_tests_cant": "The set decides whether a file is merged twice or not at all.", "anchors": ["grayc/src/main.c:already_imported", "grayc/src/main.c:mark_imported_with_module"]}
{"id": "C180", "title": "Names of modules", "statement": "The name of a module is the file name without `.gray` or the directory name, whatever directories precede it and with or without `./` and final slash.", "quantifier": "all directories and names", "why_tests_cant": "STANDARD 8.1 defines the name of a module this way.", "anchors": ["grayc/src/main.c:main"]}
{"id": "C181", "title": "Import paths are relative to the entry file", "statement": "A path in an import means the same file in every file of the program: it is relative to the directory of the entry file.", "quantifier": "all entry files, importing files and paths", "why_tests_cant": "STANDARD 8.1 says so explicitly.", "anchors": ["grayc/src/main.c:main"]}
{"id": "C182", "title": "The files of a directory", "statement": "The import of a directory takes all its source files that are not hidden, each once, in alphabetical order.", "quantifier": "all directories and their entries", "why_tests_cant": "The order of merging, and so the program, must not depend on the file system.", "anchors": ["grayc/src/main.c:scan_gray_files"]}
{"id": "C183", "title": "Every accepted import is usable", "statement": "If the imports are accepted, the declarations of each imported file are there under the name it was imported with.", "quantifier": "all lists of imports and all declarations in the files", "why_tests_cant": "An import that is accepted but adds nothing leads to errors elsewhere.", "anchors": ["grayc/src/main.c:main"]}
{"id": "C184", "title": "Statements are read as they are written", "statement": "The statements of a block are read as they were written, if no statement begins with an operator or with an opening bracket.", "quantifier": "all blocks of the statement grammar, of any length and nesting", "why_tests_cant": "Statements have no terminator, so where one ends is decided by the parser alone.", "anchors": ["grayc/src/parser/parser.c:parse_statement", "grayc/src/parser/parser.c:parse_block_statement", "grayc/src/parser/parser.c:parse_if_statement", "grayc/src/parser/parser.c:parse_when_statement"]}
{"id": "C185", "title": "Every block is closed", "statement": "In a program that is accepted there are as many `{` as `}`.", "quantifier": "all token lists that end with the end of the file", "why_tests_cant": "A forgotten brace moves the rest of the file into another function.", "anchors": ["grayc/src/parser/parser.c:parse_block_statement", "grayc/src/parser/parser.c:parse_when_statement"]}
{"id": "C186", "title": "No token is ignored", "statement": "The tokens of a block are a way to write its statements.", "quantifier": "all token lists and blocks accepted by the parser", "why_tests_cant": "A token without effect hides a mistake in the program.", "anchors": ["grayc/src/parser/parser.c:parse_statement", "grayc/src/parser/parser.c:parse_when_statement", "grayc/src/parser/parser.c:parse_for_statement", "grayc/src/parser/parser.c:parse_for_each_statement"]}
{"id": "C187", "title": "Results have the names and types that are written", "statement": "The results of a function have the names and types that are written; several names may share a type.", "quantifier": "all result lists of up to 16 results", "why_tests_cant": "A lost name or another type makes the function return something else.", "anchors": ["grayc/src/parser/parser.c:parse_func_declaration", "grayc/src/parser/parser.c:read_type_name"]}
{"id": "C188", "title": "Parameters have the types and default values of their group", "statement": "The parameters of a function have the names, types and default values that are written; those that share a type share its default value.", "quantifier": "all parameter lists of any length", "why_tests_cant": "The signature decides what calls mean.", "anchors": ["grayc/src/parser/parser.c:parse_func_declaration"]}
{"id": "C189", "title": "No parameter is lost", "statement": "Every parameter of a list that is accepted is a parameter of the function.", "quantifier": "all token lists", "why_tests_cant": "A parameter that is dropped hides a mistake in the declaration.", "anchors": ["grayc/src/parser/parser.c:parse_func_declaration"]}
{"id": "C190", "title": "Strings are split into the pieces that are written", "statement": "The text of a string literal is split into its texts and codes as written; every text the lexer accepts is made of such pieces; blank code is refused.", "quantifier": "all texts of string literals", "why_tests_cant": "The lexer and the parser both look for the end of a `${`, and have to agree.", "anchors": ["grayc/src/parser/parser.c:parse_interpolated_string", "grayc/src/parser/parser.c:string_has_interpolation"]}
{"id": "C191", "title": "Any expression can be interpolated", "statement": "A text that is an expression can be put between `${` and `}`.", "quantifier": "all texts", "why_tests_cant": "Otherwise moving an expression into a string changes it.", "anchors": ["grayc/src/parser/parser.c:parse_interpolated_string"]}
{"id": "C192", "title": "The code in a string is one expression", "statement": "The code between `${` and `}` is read as one expression, and nothing else is left.", "quantifier": "all codes that are accepted", "why_tests_cant": "What is left over is a mistake that is not reported.", "anchors": ["grayc/src/parser/parser.c:parse_interpolated_string"]}
{"id": "C193", "title": "A dollar sign before a name is reported", "statement": "A dollar sign before a name, outside of code and not escaped, is an error.", "quantifier": "all texts of string literals", "why_tests_cant": "The error is there to catch forgotten braces.", "anchors": ["grayc/src/parser/parser.c:parse_string_literal"]}
{"id": "C194", "title": "Declarations of several variables", "statement": "A declaration of several variables is read as it is written, or is an error, and nothing is written outside of the parser's arrays.", "quantifier": "any number of variables", "why_tests_cant": "The parser collects names and types in arrays of fixed size.", "anchors": ["grayc/src/parser/parser.c:parse_var_declaration"]}
{"id": "C195", "title": "Underscores in float literals have no meaning", "statement": "The value of a float literal is that of its text without underscores.", "quantifier": "all float literals", "why_tests_cant": "Separators must not change values.", "anchors": ["grayc/src/parser/parser.c:parse_float_literal"]}
{"id": "C196", "title": "The values of or_return are those that are written", "statement": "The values after `or_return` are those that are written.", "quantifier": "all lists of values", "why_tests_cant": "They are returned by the function in case of an error.", "anchors": ["grayc/src/parser/parser.c:maybe_apply_or_return"]}
{"id": "C197", "title": "Emitted operators group as in the source", "statement": "The C text of an accepted expression is read by the grammar of C with every operator applied to the operands it has in the source.", "quantifier": "all expressions with operators over numbers, strings and containers, of any depth", "why_tests_cant": "An operator that takes another operand computes another value without any message.", "anchors": ["grayc/src/codegen/codegen.c:emit_expression", "grayc/src/typechecker/typechecker.c:resolve_infix_expr"]}
{"id": "C198", "title": "Temporaries of the generated code do not capture variables", "statement": "The temporaries that the generated code declares inside an expression are never confused with variables of the program.", "quantifier": "all expressions with operators, with any variable names", "why_tests_cant": "A captured variable gives another value, or one that is not initialised.", "anchors": ["grayc/src/codegen/codegen.c:emit_expression", "grayc/src/typechecker/typechecker.c:check_reserved_name"]}
{"id": "C199", "title": "Operands are evaluated from left to right", "statement": "The calls in an expression are made from left to right (STANDARD 12.3), and the right operand of `&&` and `||` only if it is needed.", "quantifier": "all expressions with operators, all orders that C allows, all values of conditions", "why_tests_cant": "With side effects the order decides what a program does.", "anchors": ["grayc/src/codegen/codegen.c:emit_expression"]}
{"id": "C200", "title": "Operands are evaluated once", "statement": "Evaluating an expression makes the calls of the source, each of them once.", "quantifier": "all expressions with operators, all orders that C allows, all values of conditions", "why_tests_cant": "A call made twice or not at all repeats or loses its side effects.", "anchors": ["grayc/src/codegen/codegen.c:emit_expression"]}
{"id": "C201", "title": "Accepted expressions are valid C", "statement": "An expression that passes the type checker is written as an expression that the C compiler accepts, with the type it has in the source.", "quantifier": "all expressions with operators over numbers, strings and containers, of any depth, and all declarations", "why_tests_cant": "Otherwise a program without errors fails with messages about C code that its author has not written.", "anchors": ["grayc/src/typechecker/typechecker.c:resolve_infix_expr", "grayc/src/codegen/codegen.c:emit_expression"]}
{"id": "C202", "title": "The HTTP client takes URLs apart as the standard has it", "statement": "For every http URL of RFC 3986, the client connects to the host and port of the URL and asks for its path and query.", "quantifier": "all URLs made of user, host, port, path, query and fragment, of any length", "why_tests_cant": "A request that goes to another host or asks for something else is wrong, and may leak what it carries.", "anchors": ["grayc/src/stdlib/http.c:parse_url", "grayc/src/stdlib/http.c:do_request"]}
{"id": "C203", "title": "A request is the message the program asked for", "statement": "What the client sends is one message: the request line, the client's own fields, the program's fields, an empty line, and the body.", "quantifier": "all methods of the module, URLs, bodies and maps of headers", "why_tests_cant": "Text from a user that is put into a header must not be able to add headers or a second request.", "anchors": ["grayc/src/stdlib/http.c:do_request"]}
{"id": "C204", "title": "The head of a request stays within its buffer", "statement": "However many headers a program gives, nothing is written outside of the buffer for the head of the request.", "quantifier": "all methods, URLs, bodies and maps of headers, of any size", "why_tests_cant": "A write behind a buffer on the stack corrupts the program and can be used to take it over.", "anchors": ["grayc/src/stdlib/http.c:do_request"]}
{"id": "C205", "title": "A request names the host and port it is meant for", "statement": "The field Host of every request has the host, and the port if it is not 80.", "quantifier": "all requests that are sent", "why_tests_cant": "A server that serves several sites or redirects by this field answers for the wrong one.", "anchors": ["grayc/src/stdlib/http.c:do_request"]}
{"id": "C206", "title": "A request gives every field once", "statement": "If a program gives every header once, the message that is sent has no field twice.", "quantifier": "all methods, URLs, bodies and maps of headers with distinct names", "why_tests_cant": "Two fields Content-Type, Host or Content-Length make a message that servers refuse or read in different ways.", "anchors": ["grayc/src/stdlib/http.c:do_request"]}
{"id": "C207", "title": "A response's fields reach the program", "statement": "For every field of a response the program finds its value in the map of headers.", "quantifier": "all responses with a status line and well-formed fields, however they arrive", "why_tests_cant": "A program that follows Location or reads Set-Cookie depends on it.", "anchors": ["grayc/src/stdlib/http.c:parse_response"]}
{"id": "C208", "title": "A response's status and content reach the program", "statement": "The program gets the status of a response and its content.", "quantifier": "all responses of less than a megabyte, however they arrive", "why_tests_cant": "It is what a request is made for.", "anchors": ["grayc/src/stdlib/http.c:parse_response", "grayc/src/stdlib/http.c:do_request", "grayc/src/stdlib/net.c:gray_net_recv"]}
{"id": "C209", "title": "A response stays within its buffer", "statement": "The NUL after the received bytes is written within the buffer of the response.", "quantifier": "all sequences of pieces in which a response arrives", "why_tests_cant": "A server can otherwise make its client write behind a block of the heap.", "anchors": ["grayc/src/stdlib/http.c:do_request", "grayc/src/stdlib/net.c:gray_net_recv"]}
{"id": "C210", "title": "Receiving a response takes memory once", "statement": "A response takes no more of the arena than its largest possible size.", "quantifier": "all sequences of pieces in which a response arrives", "why_tests_cant": "Otherwise a server that answers slowly can use up the memory of its client.", "anchors": ["grayc/src/stdlib/http.c:do_request", "grayc/src/stdlib/net.c:gray_net_recv"]}
{"id": "C211", "title": "A request of the client is seen by a handler of the server", "statement": "What a program sends with the HTTP client is what a handler of this language's HTTP server sees: method, path, query, fields and body.", "quantifier": "all methods, plain URLs, bodies and well-formed headers", "why_tests_cant": "Two programs in the same language should be able to talk to each other.", "anchors": ["grayc/src/stdlib/http.c:do_request", "grayc/src/stdlib/server.c:parse_request"]}
{"id": "C212", "title": "A response of the server is read by the client", "statement": "The status, the content type and the body a handler answers are what the client gets.", "quantifier": "all answers that are not redirects", "why_tests_cant": "Two programs in the same language should be able to talk to each other.", "anchors": ["grayc/src/stdlib/http.c:parse_response", "grayc/src/stdlib/server.c:handle_connection"]}
{"id": "C213", "title": "Removing a directory removes nothing else", "statement": "io.remove_dir_all removes the directory it is given and what is below it, and nothing outside of it.", "quantifier": "all file systems, with symbolic links anywhere, all directories in them, and all orders in which a directory gives its names", "why_tests_cant": "What is deleted cannot be brought back, and a test directory rarely has a symbolic link in it.", "anchors": ["grayc/src/stdlib/io.c:remove_dir_recursive", "grayc/src/stdlib/io.c:gray_io_remove_dir_all"]}
{"id": "C214", "title": "Walking a directory lists what is in it", "statement": "io.walk lists every file and directory below its directory, once, and nothing else.", "quantifier": "all file systems and directories, of any depth, and all orders in which a directory gives its names", "why_tests_cant": "A backup or search that misses files, or lists one many times, goes unnoticed.", "anchors": ["grayc/src/stdlib/io.c:walk_recursive", "grayc/src/stdlib/io.c:gray_io_walk", "grayc/src/stdlib/io.c:gray_io_walk_result"]}
{"id": "C215", "title": "A copy has the data and the source keeps it", "statement": "If io.copy_file succeeds on a disk with enough room, both paths lead to the data.", "quantifier": "all file systems, files and pairs of paths, whatever their spelling", "why_tests_cant": "A copy that destroys its source loses data while it reports success.", "anchors": ["grayc/src/stdlib/io.c:gray_io_copy_file"]}
{"id": "C216", "title": "A write that reports success has written", "statement": "If io.write_file or io.append_file reports success, all of the data is in the file.", "quantifier": "all file systems, data of any size, and disks with any room left", "why_tests_cant": "Tests do not run on a full disk.", "anchors": ["grayc/src/stdlib/io.c:gray_io_write_file", "grayc/src/stdlib/io.c:gray_io_write_file_result", "grayc/src/stdlib/io.c:gray_io_append_file", "grayc/src/stdlib/io.c:gray_io_append_file_result", "grayc/src/stdlib/io.c:gray_io_write_bytes_result"]}
{"id": "C217", "title": "Making directories makes directories", "statement": "If io.make_dir_all reports success, the path leads to a directory.", "quantifier": "all file systems and paths, relative and absolute", "why_tests_cant": "What is written into the directory next fails.", "anchors": ["grayc/src/stdlib/io.c:gray_io_make_dir_all"]}
{"id": "C218", "title": "A move does not lose the file", "statement": "If io.move_file reports success, the new path leads to the data of the file.", "quantifier": "all file systems on any devices, files, pairs of paths, and disks with any room left", "why_tests_cant": "A move to another disk is a copy and a deletion; a test on one disk sees a rename.", "anchors": ["grayc/src/stdlib/io.c:gray_io_move_file", "grayc/src/stdlib/io.c:gray_io_copy_file"]}
{"id": "C219", "title": "The fallible calls return errors", "statement": "A call in its fallible form reports an error and does not end the program.", "quantifier": "all file systems and paths", "why_tests_cant": "A program that handles the error is ended all the same.", "anchors": ["grayc/src/stdlib/io.c:gray_io_move_file_result", "grayc/src/stdlib/io.c:gray_io_copy_file_result", "grayc/src/stdlib/io.c:gray_io_read_file_result", "grayc/src/stdlib/io.c:gray_io_delete_file_result"]}
{"id": "C220", "title": "The lines of a file are those written to it", "statement": "io.read_lines gives the lines a text has been made of.", "quantifier": "all lists of lines without line feeds, of any length", "why_tests_cant": "A file must survive being read and written line by line.", "anchors": ["grayc/src/stdlib/io.c:gray_io_read_lines", "grayc/src/stdlib/io.c:gray_io_read_lines_result"]}
{"id": "C221", "title": "Input of unknown size is read as a whole", "statement": "io.read_file of a pipe or terminal gives all of the input if it fits a string.", "quantifier": "all inputs, of any size", "why_tests_cant": "No test feeds a program a gigabyte.", "anchors": ["grayc/src/stdlib/io.c:gray_io_read_file", "grayc/src/stdlib/io.c:gray_io_read_file_result"]}
{"id": "C222", "title": "Temporary files are removed at the end", "statement": "The temporary files a program has made are gone when it has ended.", "quantifier": "all numbers of temporary files, and all names the system gives them", "why_tests_cant": "A service that makes many files fills the disk over time.", "anchors": ["grayc/src/stdlib/io.c:temp_registry_add", "grayc/src/stdlib/io.c:gray_io_temp_cleanup", "grayc/src/stdlib/io.c:gray_io_temp_file"]}
{"id": "C223", "title": "What exists can be deleted", "statement": "Whatever a path leads to can be deleted by one of the calls of the io module.", "quantifier": "all file systems and paths", "why_tests_cant": "A program that cleans up after itself is left with what it cannot remove.", "anchors": ["grayc/src/stdlib/io.c:gray_io_delete_file", "grayc/src/stdlib/io.c:gray_io_remove_dir", "grayc/src/stdlib/io.c:gray_io_remove_dir_all"]}
{"id": "C224", "title": "Accepted statements on wide integers are valid C", "statement": "If the type checker accepts a declaration, an assignment or a compound assignment to an i128, u128, i256 or u256 variable, the C text emitted for it is valid.", "quantifier": "all expressions of literals, variables, fields, pointers, constructors, casts, negations and operators, of any depth, and all variables", "why_tests_cant": "The emission depends on the shape of every operand, and tests use a variable and a literal.", "anchors": ["grayc/src/codegen/codegen.c:emit_bigint_operand", "grayc/src/codegen/codegen.c:resolve_bigint_type", "grayc/src/codegen/codegen.c:lookup_bigint_variable"]}
{"id": "C225", "title": "Wide operations work on the values written", "statement": "What an accepted statement on wide integers stores, if it is valid C, is the value of its expression: operands keep their numbers when they are converted.", "quantifier": "all statements on wide integers, all values of the variables and any runtime whose widening conversions and decimal texts are right", "why_tests_cant": "A conversion through the wrong 64-bit type changes the number by 2^64 without any error.", "anchors": ["grayc/src/codegen/codegen.c:emit_bigint_operand", "grayc/src/codegen/codegen.c:resolve_bigint_type"]}
{"id": "C226", "title": "A function is emitted independently of those before it", "statement": "The C text of a statement in a function does not depend on the functions before it.", "quantifier": "all lists of functions, all statements on wide integers", "why_tests_cant": "Adding a function elsewhere in the file breaks or changes one that worked.", "anchors": ["grayc/src/codegen/codegen.c:register_bigint_variable", "grayc/src/codegen/codegen.c:lookup_bigint_variable"]}
{"id": "C227", "title": "The checker and the C compiler agree on the type of wide expressions", "statement": "If an expression is accepted and its C text valid, the C text has the type the checker found.", "quantifier": "all expressions and all variables", "why_tests_cant": "Every later decision of the compiler rests on the type the checker found.", "anchors": ["grayc/src/codegen/codegen.c:resolve_bigint_type", "grayc/src/codegen/codegen.c:emit_bigint_operand", "grayc/src/typechecker/typechecker.c:resolve_infix_expr", "grayc/src/typechecker/typechecker.c:resolve_builtin_call"]}
{"id": "C228", "title": "A write to one variable leaves the others alone", "statement": "An assignment to, increment of or append to a variable, or a part of it, changes the value of no other variable (without pointers and ref).", "quantifier": "all straight-line programs over integers, arrays and structs of any nesting", "why_tests_cant": "Whether two variables share memory depends on the form of a declaration many statements earlier.", "anchors": ["grayc/src/codegen/codegen.c:emit_variable_declaration", "grayc/src/codegen/codegen.c:emit_assign_statement", "grayc/src/runtime/array.c:gray_array_push", "grayc/src/codegen/codegen.c:type_needs_deep_copy"]}
{"id": "C229", "title": "Constants and parameters keep their values", "statement": "The value of a variable not declared with mut (a constant, a parameter without &, a loop variable) never changes.", "quantifier": "all straight-line programs accepted by the checker", "why_tests_cant": "The check looks at the form of each target, of which there are unboundedly many.", "anchors": ["grayc/src/typechecker/typechecker.c:assignment_target_root_name", "grayc/src/codegen/codegen.c:emit_variable_declaration", "grayc/src/codegen/codegen.c:emit_assign_statement"]}
{"id": "C230", "title": "A call does not change the caller's variables through parameters without &", "statement": "Statements that write only to variables of the called function leave the variables of the caller as they were.", "quantifier": "all callers, parameters and function bodies (straight-line)", "why_tests_cant": "The standard promises value semantics for parameters; the array inside is shared.", "anchors": ["grayc/src/typechecker/typechecker.c:check_mutable_arg", "grayc/src/codegen/codegen.c:emit_assign_statement"]}
{"id": "C231", "title": "The checks on writes look at the variable", "statement": "Assignment, ++, mutating library calls, & arguments, ref and addr are accepted on a path within a variable only if the variable is declared with mut.", "quantifier": "all paths of fields and indices of any length, all symbol tables", "why_tests_cant": "Six separate checks, each with its own idea of how deep to look.", "anchors": ["grayc/src/typechecker/typechecker.c:assignment_target_root_name", "grayc/src/typechecker/typechecker.c:check_mutable_arg"]}
{"id": "C232", "title": "Arguments are evaluated where the call stands, defaults where the function stands", "statement": "In a call each parameter that is given has the value of its argument in the scope of the caller, and each other parameter has the value of its default in the scope of the function.", "quantifier": "all parameter lists, arguments and variable values", "why_tests_cant": "The call is written as C text in which parameter names, the caller's names and global names share one scope.", "anchors": ["grayc/src/codegen/codegen.c:emit_call_expression", "grayc/src/typechecker/typechecker.c:typechecker_resolve_named_arguments"]}
{"id": "C233", "title": "Named arguments reach their parameters, and a missing one is an error", "statement": "In an accepted call each parameter has the argument with its position or name or else its default; a call that leaves out a parameter without default is refused with an error.", "quantifier": "all parameter lists and argument lists of any length", "why_tests_cant": "Named arguments are reordered in place with gaps; the gaps are pointers.", "anchors": ["grayc/src/typechecker/typechecker.c:typechecker_resolve_named_arguments", "grayc/src/codegen/codegen.c:emit_call_expression"]}
{"id": "C234", "title": "Accepted arrays and maps have their elements at the C types the place reads", "statement": "If the checker takes an array or a map for a place, then at every level its elements are stored at the C type at which the place reads elements.", "quantifier": "all pairs of types of any depth, all places, all sets of named types", "why_tests_cant": "Elements are read through a cast; a wrong cast reads other bytes without any check.", "anchors": ["grayc/src/typechecker/typechecker.c:check_statement", "grayc/src/typechecker/typechecker.c:resolve_direct_call", "grayc/src/typechecker/typechecker.c:resolve_struct_value", "grayc/src/codegen/codegen.c:emit_expression"]}
{"id": "C235", "title": "Accepted values can be assigned in C", "statement": "If the checker takes a value for a place, C permits assigning its C type to that of the place.", "quantifier": "all pairs of types without wide integers, all places, all sets of named types", "why_tests_cant": "Otherwise an accepted program does not compile, or a pointer of another type is followed.", "anchors": ["grayc/src/typechecker/typechecker.c:check_statement", "grayc/src/typechecker/typechecker.c:resolve_direct_call", "grayc/src/typechecker/typechecker.c:resolve_struct_value", "grayc/src/codegen/codegen.c:gray_type_to_c_codegen"]}
{"id": "C236", "title": "Array elements are read back as they were stored", "statement": "After any writes, an element read by index, get_first, remove_last or arrays.map has the value last written there.", "quantifier": "all integer types of at most 64 bits, all arrays, all sequences of writes, all indices", "why_tests_cant": "Each operation chooses the C type of an element by a rule of its own.", "anchors": ["grayc/src/codegen/codegen.c:emit_expression", "grayc/src/codegen/codegen.c:emit_assign_statement", "grayc/src/codegen/codegen.c:emit_fixed_size_array_initializer", "grayc/src/codegen/codegen.c:emit_arrays_call", "grayc/src/runtime/array.c:gray_array_set", "grayc/src/stdlib/arrays.c:gray_arrays_remove_last_raw"]}
{"id": "C237", "title": "Integers that go to a place of another type keep their value or stop the program", "statement": "An integer that the checker takes for a place of another integer type arrives unchanged if it is in the range of the place, and otherwise the program stops.", "quantifier": "all pairs of integer types of at most 64 bits, all places, all values", "why_tests_cant": "Only declarations and arguments are checked; the rest is left to C.", "anchors": ["grayc/src/codegen/codegen.c:emit_narrowing_cast", "grayc/src/typechecker/typechecker.c:check_statement", "grayc/src/runtime/runtime.h:gray_cast_check"]}
{"id": "C238", "title": "The atomic operations for x86-64 are atomic", "statement": "Whatever calls of load, store, add, sub, cas, exchange, and, or and xor run at the same time, memory and results are those of the same calls made one after the other. A call that returns before another one starts comes first.", "quantifier": "all numbers of calls, sizes 8, 32 and 64, all arguments, all interleavings of instructions and of stores that leave a store buffer", "why_tests_cant": "The assembly is written by hand, and every lock-free program depends on it.", "anchors": ["grayc/src/runtime/arch/x86_64/atomic.s:gray_atomic_load", "grayc/src/runtime/arch/x86_64/atomic.s:gray_atomic_store", "grayc/src/runtime/arch/x86_64/atomic.s:gray_atomic_add", "grayc/src/runtime/arch/x86_64/atomic.s:gray_atomic_cas", "grayc/src/runtime/arch/x86_64/atomic.s:gray_atomic_and"]}
{"id": "C239", "title": "The atomic operations for ARM64 are atomic", "statement": "The same for the ARM64 assembly with its exclusive loads and stores, which may fail for no reason.", "quantifier": "all numbers of calls, sizes 8, 32 and 64, all register contents, all interleavings, all failures of exclusive stores", "why_tests_cant": "The loops are written by hand.", "anchors": ["grayc/src/runtime/arch/arm64/atomic.s:gray_atomic_add", "grayc/src/runtime/arch/arm64/atomic.s:gray_atomic_cas", "grayc/src/runtime/arch/arm64/atomic.s:gray_atomic_cas8", "grayc/src/runtime/arch/arm64/atomic.s:gray_atomic_exchange"]}
{"id": "C240", "title": "The spin lock for x86-64 is taken by one thread at a time, which sees all that was written under it", "statement": "At most one thread has the lock. A thread that has it reads from each cell what was last written there by a thread that had it. The lock is never lost, no thread is stuck inside a function, and an undisturbed thread that finds the lock free gets it.", "quantifier": "all numbers of threads, all uses of lock, trylock and unlock by the rules, all interleavings of instructions and of stores that leave a store buffer", "why_tests_cant": "The lock guards shared data, and store buffers could let a store escape from the guarded region.", "anchors": ["grayc/src/runtime/arch/x86_64/atomic.s:gray_spin_lock", "grayc/src/runtime/arch/x86_64/atomic.s:gray_spin_trylock", "grayc/src/runtime/arch/x86_64/atomic.s:gray_spin_unlock"]}
{"id": "C241", "title": "The spin lock for ARM64 is taken by one thread at a time", "statement": "At most one thread has the lock, the lock is never lost, and an undisturbed thread that finds it free gets it unless an exclusive store fails; then trylock goes back without it and leaves it free.", "quantifier": "all numbers of threads, all uses by the rules, all interleavings, all failures of exclusive stores", "why_tests_cant": "The loop around the exclusive store is written by hand.", "anchors": ["grayc/src/runtime/arch/arm64/atomic.s:gray_spin_lock", "grayc/src/runtime/arch/arm64/atomic.s:gray_spin_trylock", "grayc/src/runtime/arch/arm64/atomic.s:gray_spin_unlock"]}
{"id": "C242", "title": "An operation on a lock handle reaches the lock it was made for", "statement": "Locking, unlocking or destroying through a handle of a mutex or a spin lock reaches the lock that the handle was made for, or nothing. It never reaches freed memory or another lock.", "quantifier": "all sequences of making, copying, using and destroying, any number of variables, all addresses from malloc", "why_tests_cant": "Handles are copied like values, but what they point to is freed by hand.", "anchors": ["grayc/src/stdlib/sync.c:gray_sync_destroy", "grayc/src/stdlib/sync.c:gray_sync_lock", "grayc/src/stdlib/atomic.c:gray_atomic_mod_spinlock_destroy", "grayc/src/codegen/codegen.c:emit_sync_call", "grayc/src/codegen/codegen.c:emit_atomic_call"]}
{"id": "C243", "title": "os.exec gives what a program has written and how it has ended", "statement": "For a program that was started, the result of os.exec is marked ok, holds all the bytes the program wrote to each stream and its exit code. No byte is written outside of the buffers.", "quantifier": "all sequences of select, read and waitpid results, outputs of any size, all exit codes and signals", "why_tests_cant": "Programs decide on the result; the buffers grow by hand while two pipes are read in turn.", "anchors": ["grayc/src/stdlib/os.c:gray_os_exec"]}
{"id": "C244", "title": "An environment variable that was set reads back", "statement": "After os.set_env(n, v), os.get_env(n) gives v, and all other variables are as before; after os.unset_env(n) it gives the empty string.", "quantifier": "all environments, names and values", "why_tests_cant": "The result of setenv is not looked at, and names and values pass through C strings.", "anchors": ["grayc/src/stdlib/os.c:gray_os_get_env", "grayc/src/stdlib/os.c:gray_os_set_env", "grayc/src/stdlib/os.c:gray_os_unset_env"]}
{"id": "C245", "title": "gray watch watches the files that a program imports", "statement": "For each import of a path in the main file that the compiler accepts, the file the compiler reads for it is among the watched files.", "quantifier": "all source texts, imports, directories and file systems", "why_tests_cant": "The command is there to run the program again after a change to it or to its imports.", "anchors": ["cli/watch.go:collectFilesToWatch", "cli/watch.go:scanImports", "grayc/src/parser/parser.c:parse_import_statement"]}
{"id": "C246", "title": "gray watch notices every change", "statement": "After each change to a watched file the program runs again.", "quantifier": "all sequences of writing to files in place and replacing them, any number of files", "why_tests_cant": "Editors save either way.", "anchors": ["cli/watch.go:watchLoop", "cli/watch.go:watchFile", "cli/watch.go:watchDirectory"]}
{"id": "C247", "title": "gray watch runs the program soon after a change", "statement": "The program runs within a bounded time after a change, and no change is lost.", "quantifier": "all sequences of event times", "why_tests_cant": "Events are gathered with a timer that each event sets anew.", "anchors": ["cli/watch.go:watchLoop"]}
{"id": "C248", "title": "gray watch finds the file with the main function", "statement": "For a directory, the file that is run is the only one with a function main.", "quantifier": "all sets of files and texts", "why_tests_cant": "The file is found by a scan of the lines, not by the parser.", "anchors": ["cli/watch.go:findMainFile", "cli/watch.go:hasMainFunction"]}
{"id": "C249", "title": "gray doc finds every documented declaration", "statement": "A function, struct or enum with a #doc attribute before it gives an entry with its name, its signature and the description, whatever white space or comments are between; nothing else does.", "quantifier": "all source texts", "why_tests_cant": "The source is scanned line by line, not parsed.", "anchors": ["cli/doc.go:collectDocsFromFile", "cli/doc.go:extractDocString", "cli/doc.go:extractFuncName", "cli/doc.go:extractStructEnumName"]}
{"id": "C250", "title": "The generated documentation tells its entries apart", "statement": "From the text of the documentation the names, signatures and descriptions of all entries can be read back; every entry is in it.", "quantifier": "all lists of functions, structs and enums", "why_tests_cant": "Descriptions and signatures are written into the text as they are.", "anchors": ["cli/doc.go:generateMarkdown"]}
{"id": "C251", "title": "The unpacked compiler is the one of the running program", "statement": "After a program has unpacked its compiler, library and sources, the files on the disk are its own, whatever versions have been unpacked before, whole or in part.", "quantifier": "all sequences of builds, each stopped after any number of files", "why_tests_cant": "Files that are there with the right size are not written again.", "anchors": ["internal/grayc/embedded.go:extractEmbedded", "internal/grayc/embedded.go:extractSourceTree", "internal/grayc/embedded.go:writeIfMissing"]}
{"id": "C252", "title": "Unpacking works with two processes at a time", "statement": "When a process has gone through writing a file, the file is there and whole, whatever another process that writes the same file does.", "quantifier": "all interleavings of two processes, all contents", "why_tests_cant": "Builds run programs at the same time, and the temporary file has the same name in each.", "anchors": ["internal/grayc/embedded.go:writeIfMissing"]}
{"id": "C253", "title": "gray fmt --check succeeds only if all files are formatted", "statement": "The exit code of gray fmt --check is 0 only if everything named is there and formatted. Without --check it is 0 exactly if every file was read and formatted. Each file is gone through once.", "quantifier": "all lists of arguments and files", "why_tests_cant": "The check is used to guard changes to a repository.", "anchors": ["cli/fmt.go:runFmt", "cli/fmt.go:collectFmtFiles"]}
{"id": "C254", "title": "Ports, time limits and host names of sockets are those given", "statement": "A port is the port listened at, a positive time limit in milliseconds is the limit, negative limits all mean the same, and a host name is the name looked up.", "quantifier": "all 64 bit ports, all limits, all texts", "why_tests_cant": "The values are converted to narrower C types and to C strings.", "anchors": ["grayc/src/stdlib/net.c:gray_net_listen", "grayc/src/stdlib/net.c:gray_net_set_timeout", "grayc/src/stdlib/net.c:net_cstr"]}
{"id": "C255", "title": "Sending and receiving move everything or report an error", "statement": "A send that reports no error has sent all its data and never ends the program; a receive reports an error exactly if there was one.", "quantifier": "all data, all behaviours of the system", "why_tests_cant": "Programs check the error of the result and nothing else.", "anchors": ["grayc/src/stdlib/net.c:gray_net_send", "grayc/src/stdlib/net.c:gray_net_send_result", "grayc/src/stdlib/net.c:gray_net_recv", "grayc/src/stdlib/net.c:gray_net_recv_result"]}
{"id": "C256", "title": "A socket handle never reaches another socket", "statement": "Sending over a handle uses the socket for which the handle was made, or is an error, after any sequence of connecting, copying, sending and closing.", "quantifier": "all sequences of operations on any number of variables", "why_tests_cant": "Descriptors are used again by the system, and closing does not change the handle.", "anchors": ["grayc/src/stdlib/net.c:gray_net_close", "grayc/src/stdlib/net.c:gray_net_send", "grayc/src/stdlib/net.c:gray_net_dial"]}
{"id": "C257", "title": "Years and ticks can be asked for at every time", "statement": "time.year gives the year of every 64 bit time, and time.elapsed_ms is defined for every start.", "quantifier": "all calendars with years of 365 or 366 days, all 64 bit times", "why_tests_cant": "localtime returns no result for years that do not fit an int.", "anchors": ["grayc/src/stdlib/time.c:get_tm", "grayc/src/stdlib/time.c:gray_time_year", "grayc/src/stdlib/time.c:gray_time_elapsed_ms"]}
{"id": "C258", "title": "A struct that contains itself by value is reported", "statement": "A program has a struct that contains itself by value, through any number of other structs, exactly if E3061 is reported for some struct.", "quantifier": "all programs of structs", "why_tests_cant": "A C struct cannot contain itself, so a missed cycle surfaces as errors of the C compiler.", "anchors": ["grayc/src/typechecker/typechecker.c:struct_contains_by_value", "grayc/src/typechecker/typechecker.c:find_struct_in_program", "grayc/src/typechecker/typechecker.c:register_declarations"]}
{"id": "C259", "title": "The search for struct cycles takes time polynomial in the program", "statement": "The number of calls of the recursive search is bounded by a polynomial in the size of the program.", "quantifier": "all programs of structs", "why_tests_cant": "The search marks only the structs on the way to the present one and visits shared ones again.", "anchors": ["grayc/src/typechecker/typechecker.c:struct_contains_by_value"]}
{"id": "C260", "title": "C type definitions come after those they need", "statement": "Every struct and enum is defined in the C text, and after all types it contains by value.", "quantifier": "all programs of structs and enums", "why_tests_cant": "C needs complete types for members.", "anchors": ["grayc/src/codegen/codegen.c:codegen_generate"]}
{"id": "C261", "title": "The variants of an enum have different values", "statement": "The variants of an accepted enum have values, and all are different.", "quantifier": "all lists of initial values, with and without #flags", "why_tests_cant": "Variants are compared by value, and a when statement becomes a C switch.", "anchors": ["grayc/src/typechecker/typechecker.c:register_declarations", "grayc/src/codegen/codegen.c:codegen_generate"]}
{"id": "C262", "title": "The payload types of a variant are those written", "statement": "The types between the parentheses of a variant are read as they are written.", "quantifier": "all lists of types of one or more tokens", "why_tests_cant": "The reader takes one token for a type.", "anchors": ["grayc/src/parser/parser.c:parse_enum_declaration"]}
{"id": "C263", "title": "String variants have the value of their literal", "statement": "A variant of a string enum has at run time the bytes its literal denotes.", "quantifier": "all literals, interpreted and raw", "why_tests_cant": "The source text is put into the C literal without change, with its length beside it.", "anchors": ["grayc/src/codegen/codegen.c:codegen_generate"]}
{"id": "C264", "title": "The check of field types stays within its buffers", "statement": "Going through the text of a field type writes at most 256 bytes to each buffer.", "quantifier": "all texts", "why_tests_cant": "The parts of the text are copied to buffers on the stack with the length of the text.", "anchors": ["grayc/src/typechecker/typechecker.c:validate_field_type_recursive"]}
{"id": "C265", "title": "Tables of reserved names are searched exactly", "statement": "A name is found in the tables of C words, types, built-in functions, modules and standard structs exactly if it is in them.", "quantifier": "all names", "why_tests_cant": "The tables are searched by halves, which is right only as long as every entry is in its place.", "anchors": ["grayc/src/codegen/codegen.c:is_c_keyword", "grayc/src/util/reserved.h"]}
{"id": "C266", "title": "Variables get different C names that are no C keywords", "statement": "For any two names that may be declared, the C names are no keywords of C11, and are different if the names are.", "quantifier": "all pairs of identifiers", "why_tests_cant": "Two variables with one C name in one scope do not compile, or become one; a keyword does not compile.", "anchors": ["grayc/src/codegen/codegen.c:sanitize_name", "grayc/src/codegen/codegen.c:is_c_keyword", "grayc/src/typechecker/typechecker.c:check_reserved_name"]}
{"id": "C267", "title": "Names in the C text mean what they mean in the source", "statement": "In the C text of a function that passes the checks of names, every occurrence of a name refers to the declaration it refers to in the source, and no name is declared twice in a scope.", "quantifier": "all functions of declarations, assignments, field assignments through pointers, branches and loops, nested without bound", "why_tests_cant": "C scopes begin at the declarator, and the text adds variables of its own; a captured name is silent.", "anchors": ["grayc/src/codegen/codegen.c:emit_variable_declaration", "grayc/src/codegen/codegen.c:emit_if_statement", "grayc/src/codegen/codegen.c:emit_loop_body_with_arena", "grayc/src/codegen/codegen.c:emit_for_statement", "grayc/src/codegen/codegen.c:emit_function_declaration"]}
{"id": "C268", "title": "A loop variable has one name in the head of its loop", "statement": "In the head of a for loop over a range, the variable is declared, compared and counted up under its C name.", "quantifier": "all loop variables, bounds, and states of the buffers", "why_tests_cant": "The name is kept in one of four static buffers while the bounds are written.", "anchors": ["grayc/src/codegen/codegen.c:sanitize_name", "grayc/src/codegen/codegen.c:emit_for_statement"]}
{"id": "C269", "title": "Variables are read through a pointer exactly if they are references", "statement": "An occurrence of a variable is written with a dereference exactly if the variable is a reference or an & parameter.", "quantifier": "all programs of functions with references", "why_tests_cant": "References are recognised by name in a table that lives for the whole program.", "anchors": ["grayc/src/codegen/codegen.c:register_reference_variable", "grayc/src/codegen/codegen.c:is_reference_variable", "grayc/src/codegen/codegen.c:is_mutable_parameter"]}
{"id": "C270", "title": "Local variables are not replaced by constants of modules", "statement": "A variable of a function is written as that variable, whatever modules are in use.", "quantifier": "all names and all lists of modules in use", "why_tests_cant": "The checker finds the local variable, but the text gets the constant.", "anchors": ["grayc/src/codegen/codegen.c:emit_expression"]}
{"id": "C271", "title": "Structs and enums are used under the names they are defined with", "statement": "The C type written for a declared struct or enum is the one defined, also where the types of key and value of a map are written together.", "quantifier": "all declared types and all maps", "why_tests_cant": "Whether a type is the user's is guessed from capitals, and the name is kept in one static buffer.", "anchors": ["grayc/src/codegen/codegen.c:gray_type_to_c_codegen", "grayc/src/codegen/codegen.c:gray_map_element_c_type"]}
{"id": "C272", "title": "A call as a case value is read as a call", "statement": "A call written after `is` in a when statement is read as a call with these arguments.", "quantifier": "all function names and argument lists of identifiers and literals", "why_tests_cant": "The parser tells destructuring patterns from calls by looking at the tokens alone.", "anchors": ["grayc/src/parser/parser.c:parse_when_statement"]}
{"id": "C273", "title": "Nothing inside a when statement is dropped", "statement": "Every expression between the braces of an accepted when statement is part of one of its cases or of what follows.", "quantifier": "all token lists", "why_tests_cant": "A dropped token is code that does not run, without a message.", "anchors": ["grayc/src/parser/parser.c:parse_when_statement"]}
{"id": "C274", "title": "The first case that matches is run", "statement": "For a subject of integer type the text for the cases is C and runs the first case with a value equal to the subject or a range that contains it, and the default if there is none.", "quantifier": "all integer types, subjects, cases, values and ranges with steps", "why_tests_cant": "Comparisons are written as C comparisons, ranges as two comparisons and a remainder.", "anchors": ["grayc/src/codegen/codegen.c:emit_statement"]}
{"id": "C275", "title": "A strict when statement is exhaustive", "statement": "If a #strict when statement without default has no error, every value of the subject is that of a case.", "quantifier": "all enums, subjects of an enum type or int, and case values that are variants or integers", "why_tests_cant": "This is what #strict is for; a value without a case does nothing.", "anchors": ["grayc/src/typechecker/typechecker.c:check_statement"]}
{"id": "C276", "title": "Duplicate case values are reported", "statement": "A when statement is reported exactly if two of its values are equal.", "quantifier": "all lists of cases of integers, negative integers, strings, characters and variants", "why_tests_cant": "A second case with the same value never runs.", "anchors": ["grayc/src/typechecker/typechecker.c:check_statement"]}
{"id": "C277", "title": "Names of a pattern are those its body uses", "statement": "The names that an accepted pattern declares in C are those its body uses, differ from each other, and the enum that is written is that of the subject.", "quantifier": "all enums, patterns and lists of names", "why_tests_cant": "A pattern declares variables; all other declarations pass sanitize_name.", "anchors": ["grayc/src/codegen/codegen.c:emit_statement", "grayc/src/typechecker/typechecker.c:check_statement", "grayc/src/parser/parser.c:parse_when_statement"]}
{"id": "C278", "title": "Accepted comparisons of a when statement are C", "statement": "If the type of a case value is accepted for the type of the subject, the comparison that is written is C.", "quantifier": "all pairs of types that may be compared", "why_tests_cant": "A type error in the C text is reported for a file the user did not write.", "anchors": ["grayc/src/codegen/codegen.c:emit_statement", "grayc/src/typechecker/typechecker.c:check_statement"]}
{"id": "C279", "title": "Subject and case values are evaluated once and in order", "statement": "The subject of a when statement is evaluated once and first, then the expressions of the case values in the order in which they are written, each at most once, until one matches.", "quantifier": "all when statements of values and ranges, with any results of the comparisons", "why_tests_cant": "Case values may be calls.", "anchors": ["grayc/src/codegen/codegen.c:emit_statement"]}
{"id": "C280", "title": "Every statement that is compiled has been checked", "statement": "If no error is found in a block, every statement of it that is written to C is right.", "quantifier": "all blocks", "why_tests_cant": "Types of unchecked expressions are unknown to the code generator.", "anchors": ["grayc/src/typechecker/typechecker.c:check_block", "grayc/src/codegen/codegen.c:emit_block"]}
{"id": "C281", "title": "An unqualified call is compiled as it was checked", "statement": "If the checker accepts a call f(…) against a function, a variable or a library function, the code generator calls the same one.", "quantifier": "all programs of functions, structs with functions, imports, aliases and using statements, all scopes, names and numbers of arguments", "why_tests_cant": "The two look names up in different orders and tables; if they differ, a program runs a function that it did not name.", "anchors": ["grayc/src/typechecker/typechecker.c:resolve_direct_call", "grayc/src/codegen/codegen.c:emit_call_expression"]}
{"id": "C282", "title": "using is local to its file", "statement": "A using statement has no effect on the calls in other files.", "quantifier": "all programs, using statements and calls", "why_tests_cant": "The checker says so (\"prevents transitive import type leaking\"); imported files would otherwise change the program.", "anchors": ["grayc/src/typechecker/typechecker.c:using_module_accessible", "grayc/src/codegen/codegen.c:emit_call_expression"]}
{"id": "C283", "title": "Library functions that using makes available are known to the code generator", "statement": "Every library function that the checker accepts without its module's name is in the code generator's table.", "quantifier": "all 360 entries of the checker's table and its ten special cases", "why_tests_cant": "Both tables are written by hand.", "anchors": ["grayc/src/typechecker/typechecker.c:resolve_direct_call", "grayc/src/codegen/codegen.c:emit_call_expression"]}
{"id": "C284", "title": "Private functions are called in their own file only", "statement": "An accepted call of a private function stands in the function's file.", "quantifier": "all programs and calls", "why_tests_cant": "This is what private means (E4015).", "anchors": ["grayc/src/typechecker/typechecker.c:resolve_direct_call", "grayc/src/typechecker/typechecker.c:resolve_struct_or_module_call"]}
{"id": "C285", "title": "The number of arguments is checked", "statement": "In an accepted call x.m(…) every parameter gets an argument of the call or its default value, and there are no more arguments.", "quantifier": "all programs, calls, parameters and default values", "why_tests_cant": "Missing arguments are filled with 0 by the code generator.", "anchors": ["grayc/src/typechecker/typechecker.c:resolve_struct_or_module_call", "grayc/src/codegen/codegen.c:emit_call_expression"]}
{"id": "C286", "title": "Functions with different full names may be declared", "statement": "Declarations of functions are accepted if no two have the same name, where the name of a function of a module or struct includes the module or struct.", "quantifier": "all programs", "why_tests_cant": "Otherwise the names in an imported module restrict the names in the program.", "anchors": ["grayc/src/typechecker/typechecker.c:register_declarations"]}
{"id": "C287", "title": "Calls through variables call the function of the struct", "statement": "A call x.m(…), where x is a variable whose struct has a function m, calls it with x as the first argument.", "quantifier": "all programs, variables, functions and numbers of arguments", "why_tests_cant": "This is the instance call of the language.", "anchors": ["grayc/src/typechecker/typechecker.c:resolve_struct_or_module_call", "grayc/src/codegen/codegen.c:emit_call_expression"]}
{"id": "C288", "title": "A call with a dot is compiled as it was checked", "statement": "If the checker accepts x.m(…) against a function, the code generator calls the same one.", "quantifier": "all programs, scopes and calls", "why_tests_cant": "As C281, for modules, structs and variables.", "anchors": ["grayc/src/typechecker/typechecker.c:resolve_call_expr", "grayc/src/codegen/codegen.c:emit_call_expression"]}
{"id": "C289", "title": "Functions have different names in C", "statement": "In an accepted program the C names of the functions differ.", "quantifier": "all programs of functions and structs with functions", "why_tests_cant": "Equal names are an error of the C compiler.", "anchors": ["grayc/src/codegen/codegen.c:codegen_generate", "grayc/src/typechecker/typechecker.c:register_declarations"]}
{"id": "C290", "title": "Calls of functions that do not exist are reported", "statement": "The checker accepts a call only if it has found what is called.", "quantifier": "all programs, scopes and calls", "why_tests_cant": "Otherwise the C compiler's message about generated text is what the user sees.", "anchors": ["grayc/src/typechecker/typechecker.c:resolve_struct_or_module_call"]}
{"id": "C291", "title": "Assignments to accepted targets compile", "statement": "The C text of an assignment to a target that the checker accepts is valid C.", "quantifier": "all types, structs, variables and targets of variables, fields, indices, dereferences and calls", "why_tests_cant": "What the checker accepts and the C compiler refuses ends with an internal error that names no line of the program.", "anchors": ["grayc/src/codegen/codegen.c:emit_assign_statement", "grayc/src/codegen/codegen.c:emit_expression", "grayc/src/typechecker/typechecker.c:resolve_member_expr"]}
{"id": "C292", "title": "Nil is never dereferenced without a check", "statement": "Reading or writing an accepted path that compiles is never undefined; where nil is dereferenced, the program stops with P0080.", "quantifier": "all memories with bound references and checked indexing, all paths", "why_tests_cant": "The manual promises a panic for nil.", "anchors": ["grayc/src/codegen/codegen.c:emit_expression", "grayc/src/codegen/codegen.c:emit_assign_statement"]}
{"id": "C293", "title": "An assignment writes the place its target names", "statement": "If the assignment compiles and the target names a place (or an element or entry of an array or map at a place), that is what is written; addr and ref give the place named.", "quantifier": "all memories, types, variables and targets", "why_tests_cant": "Several forms of C text are used for the same target; each must lead to the same place.", "anchors": ["grayc/src/codegen/codegen.c:emit_assign_statement", "grayc/src/codegen/codegen.c:emit_expression", "grayc/src/codegen/codegen.c:emit_builtin_call"]}
{"id": "C294", "title": "Compound assignment computes what the operator computes", "statement": "x op= y stores what x op y gives, or stops as that does, whatever the form of the target.", "quantifier": "all forms of statements, operators, integer types and values", "why_tests_cant": "Overflow and division by zero are promised to stop the program.", "anchors": ["grayc/src/codegen/codegen.c:emit_assign_statement"]}
{"id": "C295", "title": "addr and ref of accepted paths compile", "statement": "The C text of addr(t) and ref(t) is valid C for every t that the checker accepts.", "quantifier": "all types, variables and paths", "why_tests_cant": "The checker's test (is_assignment_target, path_contains_map_index) is there to admit only what has an address.", "anchors": ["grayc/src/typechecker/typechecker.c:is_assignment_target", "grayc/src/typechecker/typechecker.c:path_contains_map_index", "grayc/src/codegen/codegen.c:emit_builtin_call"]}
{"id": "C296", "title": "Unknown fields are reported", "statement": "A path that the checker accepts has a type.", "quantifier": "all structs, variables and paths", "why_tests_cant": "Otherwise a misspelt field name is reported by the C compiler, or not at all.", "anchors": ["grayc/src/typechecker/typechecker.c:resolve_member_expr"]}
{"id": "C297", "title": "++ and -- compile on accepted operands", "statement": "The C text of t++ and t-- is valid C for every t that the checker accepts.", "quantifier": "all types, variables and paths", "why_tests_cant": "As for assignments.", "anchors": ["grayc/src/typechecker/typechecker.c:resolve_expression", "grayc/src/codegen/codegen.c:emit_expression"]}
{"id": "C298", "title": "Accepted paths can be read", "statement": "The C text of a path that the checker accepts and knows the type of is valid C.", "quantifier": "all types, variables and paths", "why_tests_cant": "As for assignments.", "anchors": ["grayc/src/typechecker/typechecker.c:resolve_expression", "grayc/src/codegen/codegen.c:emit_expression"]}
{"id": "C299", "title": "input returns the lines of the standard input", "statement": "input() returns the next line without its end, and the next call begins with the line after it.", "quantifier": "all inputs and lines", "why_tests_cant": "Programs that read their input line by line depend on it.", "anchors": ["grayc/src/stdlib/builtins.c:gray_builtin_input"]}
{"id": "C300", "title": "exit ends the program with the given status", "statement": "The status of exit(n) is 0 exactly if n is 0.", "quantifier": "all 64-bit n", "why_tests_cant": "A program that ends with exit(errors) must not succeed when there are errors.", "anchors": ["grayc/src/stdlib/builtins.c:gray_builtin_exit"]}
{"id": "C301", "title": "sleep waits for the given time", "statement": "sleep_s, sleep_ms and sleep_ns wait for the time given, and stop the program with P0083 if it is negative.", "quantifier": "all units and 64-bit durations", "why_tests_cant": "The error P0083 is there for negative durations; durations are 64-bit.", "anchors": ["grayc/src/stdlib/builtins.c:gray_builtin_sleep_s", "grayc/src/stdlib/builtins.c:gray_builtin_sleep_ms", "grayc/src/stdlib/builtins.c:gray_builtin_sleep_ns"]}
{"id": "C302", "title": "Characters are printed as they are converted", "statement": "Printing a character writes the bytes that conversion to a string gives.", "quantifier": "all 32-bit characters", "why_tests_cant": "The two encoders are separate code.", "anchors": ["grayc/src/stdlib/builtins.c:fput_utf8"]}
{"id": "C303", "title": "Failed queries are reported", "statement": "A query whose execution fails returns an error.", "quantifier": "all engines, databases and texts", "why_tests_cant": "The second result of sqlite.query is there for this.", "anchors": ["grayc/src/stdlib/sqlite.c:gray_sqlite_query", "grayc/src/stdlib/sqlite.c:gray_sqlite_query_result"]}
{"id": "C304", "title": "A row has the text of each of its columns", "statement": "In a row of the result, the key of each column has the text of that column.", "quantifier": "all columns and rows", "why_tests_cant": "The rows are the only result of a query.", "anchors": ["grayc/src/stdlib/sqlite.c:gray_sqlite_query"]}
{"id": "C305", "title": "query executes the whole text", "statement": "A query that reports no error has executed the statements that exec executes.", "quantifier": "all engines, databases and texts", "why_tests_cant": "A text with two statements is accepted by both functions.", "anchors": ["grayc/src/stdlib/sqlite.c:gray_sqlite_query_result", "grayc/src/stdlib/sqlite.c:gray_sqlite_exec"]}
{"id": "C306", "title": "Allocations of the compiler do not overlap", "statement": "The allocations from an arena of the compiler have the sizes asked for, lie within their blocks at multiples of 8, and share no byte.", "quantifier": "all initial sizes and sequences of sizes below 2^62", "why_tests_cant": "Everything the compiler builds lies in arenas.", "anchors": ["grayc/src/util/arena.c:arena_alloc", "grayc/src/util/arena.c:arena_create"]}
{"id": "C307", "title": "Printed values can be told apart", "statement": "Two arrays, maps, structs or pointers of a type that println shows with the same text are equal.", "quantifier": "all types and values", "why_tests_cant": "The quotes around strings and characters within containers are there to tell values apart.", "anchors": ["grayc/src/codegen/codegen.c:emit_value_print", "grayc/src/codegen/codegen.c:emit_composite_print"]}
{"id": "C308", "title": "The generator of printing code ends and restores its table", "statement": "Generating the code to print a value ends, with the table of structs being printed as it was.", "quantifier": "all struct declarations and types", "why_tests_cant": "The table is static, of 64 entries, and guards the recursion over struct declarations.", "anchors": ["grayc/src/codegen/codegen.c:emit_value_print"]}
{"id": "C309", "title": "Code that prints a container compiles", "statement": "The C text made to print an array, map or struct compiles.", "quantifier": "all struct declarations and types", "why_tests_cant": "The type checker accepts printing any array, map or struct.", "anchors": ["grayc/src/codegen/codegen.c:emit_value_print"]}
{"id": "C310", "title": "println and interpolation show an array alike", "statement": "println(a) writes the text that an interpolated string holds for the array a.", "quantifier": "all arrays of numbers, booleans, strings and characters", "why_tests_cant": "The two are separate code for the same purpose.", "anchors": ["grayc/src/codegen/codegen.c:emit_value_print", "grayc/src/stdlib/builtins.c:gray_builtin_array_to_string"]}
{"id": "C311", "title": "The initialiser of a struct literal is well-formed", "statement": "A struct literal without errors gives a list of initialisers that C can read.", "quantifier": "all structs and literals", "why_tests_cant": "The default values of fields left out are appended to those given; the comma depends on both.", "anchors": ["grayc/src/codegen/codegen.c:emit_expression", "grayc/src/typechecker/typechecker.c:resolve_struct_value"]}
{"id": "C312", "title": "The fields of a struct literal", "statement": "In a literal without errors a field has the value given to it, or else its default value, or else zeros; fields given twice or unknown are reported.", "quantifier": "all structs with distinct field names and all literals whose initialiser C can read", "why_tests_cant": "STANDARD.md: defaults are used when the field is omitted.", "anchors": ["grayc/src/codegen/codegen.c:emit_expression", "grayc/src/typechecker/typechecker.c:resolve_struct_value"]}
{"id": "C313", "title": "Values of fields have the type of the field", "statement": "A value that is accepted for a field has the type of the field, or one whose values become it.", "quantifier": "all types of known kind", "why_tests_cant": "C tells neither arrays nor maps of different elements apart.", "anchors": ["grayc/src/typechecker/typechecker.c:resolve_struct_value"]}
{"id": "C314", "title": "Numbers for integer fields", "statement": "A number can be written for a field of an integer type if and only if it is in the range of the type.", "quantifier": "integer types and all numbers", "why_tests_cant": "A field of the type u8 is for numbers up to 255.", "anchors": ["grayc/src/typechecker/typechecker.c:resolve_struct_value"]}
{"id": "C315", "title": "Array fields that are left out are empty arrays", "statement": "What is appended or inserted first into an array field that a literal left out can be read.", "quantifier": "all elements of at least one byte", "why_tests_cant": "The field holds zeros, with the element size 0.", "anchors": ["grayc/src/runtime/array.c:gray_array_push", "grayc/src/stdlib/arrays.c:gray_arrays_insert_at"]}
{"id": "C316", "title": "Map fields that are left out can be used", "statement": "No map within a struct made by a literal or by new is without slots.", "quantifier": "all structs and types of fields, at any nesting", "why_tests_cant": "The search computes a remainder by the number of slots.", "anchors": ["grayc/src/runtime/map.c:gray_map_set", "grayc/src/codegen/codegen.c:emit_expression"]}
{"id": "C317", "title": "Default values have the type of the field", "statement": "A default value that the field would not accept in a literal is reported.", "quantifier": "all struct declarations", "why_tests_cant": "The values are emitted at every literal that leaves the field out.", "anchors": ["grayc/src/typechecker/typechecker.c:resolve_struct_value"]}
{"id": "C318", "title": "The type of a node is the one set last", "statement": "After any calls of typetable_set, typetable_get gives the type set last for a node and nothing for others; all loops over slots end.", "quantifier": "all sequences of calls, all nodes and any hash function", "why_tests_cant": "The code generator takes the types of all expressions from this table.", "anchors": ["grayc/src/typechecker/typechecker.c:typetable_set", "grayc/src/typechecker/typechecker.c:typetable_get", "grayc/src/typechecker/typechecker.c:typetable_grow"]}
{"id": "C319", "title": "Types are shared by kind and name", "statement": "The constructors of types end, and give the same type for the same kind and name and different ones otherwise, with the kind and name asked for.", "quantifier": "all sequences of constructor calls, map literals and ranges, as long as the pool lasts", "why_tests_cant": "pool_insert does not compare names, and the index is never cleared in a compilation.", "anchors": ["grayc/src/typechecker/types.c:pool_find", "grayc/src/typechecker/types.c:pool_insert", "grayc/src/typechecker/types.c:type_alloc"]}
{"id": "C320", "title": "The pool of types is large enough", "statement": "A program with up to 4096 different types does not exhaust the pool of types.", "quantifier": "all sequences of constructor calls, map literals and ranges", "why_tests_cant": "The pool has 4096 entries, and the compiler stops with an internal error when there are more.", "anchors": ["grayc/src/typechecker/types.c:type_alloc", "grayc/src/typechecker/typechecker.c:resolve_expression"]}
{"id": "C321", "title": "Texts of types stay for three more calls", "statement": "A text returned by type_name is intact for three more calls of its kind, and replaced by the fourth.", "quantifier": "all states of the ring of buffers and all texts", "why_tests_cant": "Messages use several texts at once.", "anchors": ["grayc/src/typechecker/types.c:type_name"]}
{"id": "C322", "title": "Texts of types tell them apart", "statement": "Arrays of different elements have different texts.", "quantifier": "all names of elements", "why_tests_cant": "The texts are taken as the types of map literals and of generic instances.", "anchors": ["grayc/src/typechecker/types.c:type_name"]}
{"id": "C323", "title": "Accepted infix operators compile", "statement": "An infix operator that the checker accepts on two variables is emitted as C that compiles.", "quantifier": "all infix operators but in and not_in, all pairs of kinds of types and all names", "why_tests_cant": "What the checker lets through ends as an error of the C compiler.", "anchors": ["grayc/src/typechecker/typechecker.c:resolve_infix_expr", "grayc/src/codegen/codegen.c:emit_bigint_operand", "grayc/src/codegen/codegen.c:emit_expression"]}
{"id": "C324", "title": "Accepted infix operators are the defined ones", "statement": "The infix operators accepted on two operands are those that STANDARD.md 5.2 defines.", "quantifier": "all infix operators but in and not_in, all pairs of kinds of types and all names", "why_tests_cant": "The standard says which operands an operator takes.", "anchors": ["grayc/src/typechecker/typechecker.c:resolve_infix_expr"]}
{"id": "C325", "title": "Results have the C type of their type", "statement": "An accepted infix expression that compiles has the C type of the type that the checker gives to it.", "quantifier": "all infix operators but in and not_in, all pairs of kinds of types and all names", "why_tests_cant": "Declarations, arguments and printing go by the type of the checker.", "anchors": ["grayc/src/typechecker/typechecker.c:resolve_infix_expr", "grayc/src/codegen/codegen.c:resolve_bigint_type", "grayc/src/codegen/codegen.c:emit_bigint_operand"]}
{"id": "C326", "title": "Accepted prefix operators compile", "statement": "A prefix operator that is accepted is emitted as C that compiles, and has the C type of its result.", "quantifier": "all prefix operators and kinds of types", "why_tests_cant": "The check of bit_not takes all kinds of integers, of which the wide ones are structs in C.", "anchors": ["grayc/src/typechecker/typechecker.c:resolve_expression", "grayc/src/codegen/codegen.c:emit_expression"]}
{"id": "C327", "title": "Accepted casts work", "statement": "A cast that the checker accepts is emitted as a C expression of the type of its target.", "quantifier": "all pairs of kinds of types, with all kinds of elements for arrays", "why_tests_cant": "The list of casts goes by kinds, and the text by names.", "anchors": ["grayc/src/typechecker/typechecker.c:resolve_expression", "grayc/src/codegen/codegen.c:emit_expression", "grayc/src/codegen/codegen.c:emit_to_string"]}
{"id": "C328", "title": "Casts of arrays convert the elements", "statement": "A cast of an array converts each element to the target type, and one that is out of range stops the program.", "quantifier": "all integer types of up to 64 bits, all arrays and indices", "why_tests_cant": "STANDARD.md 3.4.1 has cast(ints, [u8]) and says that ranges are checked.", "anchors": ["grayc/src/codegen/codegen.c:emit_expression", "grayc/src/typechecker/typechecker.c:resolve_expression"]}
{"id": "C329", "title": "Casts to enums do not depend on what was checked before", "statement": "An integer can be cast to a declared enum, whatever the checker has come across before.", "quantifier": "all sets of enums used before, and all names with a capital letter", "why_tests_cant": "type_from_name looks for enums among the types made so far.", "anchors": ["grayc/src/typechecker/typechecker.c:resolve_expression", "grayc/src/typechecker/types.c:type_from_name"]}
{"id": "C330", "title": "The target of a cast is a type", "statement": "A cast is accepted only if its target is the name of a built-in or a declared type.", "quantifier": "all names, kinds of the value, and sets of declared and used enums", "why_tests_cant": "The parser takes any token as the target.", "anchors": ["grayc/src/typechecker/typechecker.c:resolve_expression", "grayc/src/typechecker/types.c:type_from_name", "grayc/src/parser/parser.c:parse_prefix"]}
{"id": "C331", "title": "A value of a tagged enum has its payloads", "statement": "All payloads of an accepted value of a tagged enum are arguments that were given.", "quantifier": "all enums, variants, and lists of arguments", "why_tests_cant": "A variant can be written without a call, explicitly or by a selector.", "anchors": ["grayc/src/typechecker/typechecker.c:resolve_call_expr", "grayc/src/typechecker/typechecker.c:resolve_member_expr", "grayc/src/typechecker/typechecker.c:resolve_implicit_enum", "grayc/src/codegen/codegen.c:emit_call_expression", "grayc/src/codegen/codegen.c:emit_expression"]}
{"id": "C332", "title": "Integer payloads arrive", "statement": "The payloads of an accepted constructor with integer payloads are the arguments.", "quantifier": "all lists of integer payload types, wide ones included, and of arguments", "why_tests_cant": "Initialisers without braces fill the words of a wide integer.", "anchors": ["grayc/src/typechecker/typechecker.c:resolve_call_expr", "grayc/src/codegen/codegen.c:emit_call_expression", "grayc/src/codegen/codegen.c:codegen_generate"]}
{"id": "C333", "title": "Payloads are of the declared types", "statement": "An argument of a constructor is accepted only if it is of the type of the payload or both are integers, and then the payload is set.", "quantifier": "all kinds of arguments and payloads", "why_tests_cant": "The check compares kinds, so any enum passes for any other.", "anchors": ["grayc/src/typechecker/typechecker.c:resolve_call_expr", "grayc/src/typechecker/typechecker.c:typechecker_type_from_name", "grayc/src/codegen/codegen.c:emit_call_expression"]}
{"id": "C334", "title": "A selector as payload means the enum of the payload", "statement": "A selector .v as argument of a constructor means the variant v of the enum that is the payload.", "quantifier": "all enums, payloads, variants, and types of the place", "why_tests_cant": "The expected type is not changed for the arguments of a constructor.", "anchors": ["grayc/src/typechecker/typechecker.c:resolve_call_expr", "grayc/src/typechecker/typechecker.c:resolve_implicit_enum"]}
{"id": "C335", "title": "maps.get_or_default gives the value or the default", "statement": "maps.get_or_default(m, k, d) is the value of k in m, or d if there is none.", "quantifier": "all integer types of up to 64 bits, all values, keys of any type, variables and literals as default", "why_tests_cant": "The value is read at the C type of the default; small values do not show it.", "anchors": ["grayc/src/codegen/codegen.c:emit_maps_call", "grayc/src/codegen/codegen.c:gray_map_element_c_type"]}
{"id": "C336", "title": "Keys of maps calls are those given", "statement": "maps.has_key and maps.get_or_default look for the key that is given.", "quantifier": "all integer types of keys, all keys, variables and literals", "why_tests_cant": "The key of get_or_default has the C type of its text; the bytes after it are read as well.", "anchors": ["grayc/src/codegen/codegen.c:emit_maps_call", "grayc/src/codegen/codegen.c:gray_map_element_c_type", "grayc/src/stdlib/maps.c:gray_maps_has_key"]}
{"id": "C337", "title": "maps.contains_value decides by value for integers", "statement": "maps.contains_value(m, v) is true exactly if some value of m equals v.", "quantifier": "all integer types of values, all maps, variables and literals", "why_tests_cant": "As many bytes are compared as a value has, whatever v is.", "anchors": ["grayc/src/codegen/codegen.c:emit_maps_call", "grayc/src/stdlib/maps.c:gray_maps_contains_value"]}
{"id": "C338", "title": "json.encode reads values at their types", "statement": "json.encode, which is accepted for every value, reads it at the C type in which it is kept.", "quantifier": "all types of single values, arrays and maps by name", "why_tests_cant": "The encoder of elements is chosen by the name of their type, with the one for strings or integers for all other names.", "anchors": ["grayc/src/codegen/codegen.c:emit_json_call", "grayc/src/typechecker/typechecker.c:typechecker_check_stdlib_arg_types", "grayc/src/stdlib/json.c:gray_json_encode_map", "grayc/src/stdlib/json.c:gray_json_encode_array_int"]}
{"id": "C339", "title": "Calls as gray man describes them are accepted", "statement": "For every function of the library that gray man documents and every list of arguments whose number and types are those of one of its signatures, the checker accepts the call.", "quantifier": "all documented signatures outside arrays, all lists of argument kinds", "why_tests_cant": "the manual has more than two hundred signatures, and the lists of arguments of the formatting functions are unbounded", "anchors": ["cli/stdlib_man_data.go:stdlibManDocs", "grayc/src/typechecker/typechecker.c:typechecker_check_stdlib_arg_types", "grayc/src/typechecker/typechecker.c:arg_kind_matches"]}
{"id": "C340", "title": "Calls with a number of arguments the manual does not have are refused", "statement": "For every documented function and every number of arguments for which it has no signature, the checker refuses the call.", "quantifier": "all documented functions, all numbers of arguments", "why_tests_cant": "wrong numbers are not tried for each of the functions, and there is no largest one", "anchors": ["cli/stdlib_man_data.go:stdlibManDocs", "grayc/src/typechecker/typechecker.c:typechecker_check_stdlib_arg_count", "grayc/src/codegen/codegen.c:emit_random_call"]}
{"id": "C341", "title": "Arguments of other types than the manual gives are refused", "statement": "For every documented function outside arrays and each of its parameters, an argument of a kind that cannot stand for the documented type is refused.", "quantifier": "all documented parameters, all kinds of arguments, any other arguments", "why_tests_cant": "each parameter would have to be tried with every wrong kind of argument", "anchors": ["cli/stdlib_man_data.go:stdlibManDocs", "grayc/src/typechecker/typechecker.c:typechecker_check_stdlib_arg_types", "grayc/src/typechecker/typechecker.c:find_stdlib_meta"]}
{"id": "C342", "title": "Names accepted after a module are functions of the runtime", "statement": "For the modules mem, threads, http, crypto and encoding, a name that the checker accepts after the name of the module is one for which the generated C refers to a function that exists.", "quantifier": "all names", "why_tests_cant": "tests call functions that exist", "anchors": ["grayc/src/typechecker/typechecker.c:emit_unknown_stdlib_function", "grayc/src/codegen/codegen.c:emit_mem_call", "grayc/src/codegen/codegen.c:emit_threads_call", "grayc/src/codegen/codegen.c:emit_crypto_call", "grayc/src/codegen/codegen.c:emit_encoding_call", "grayc/src/codegen/codegen.c:emit_http_call"]}
{"id": "C343", "title": "The fallible functions are those the manual gives an Error", "statement": "A documented function has a result (T, Error) exactly when the checker takes it for fallible, and then T is the type the checker gives to the value.", "quantifier": "all documented functions with an entry in the table of the checker", "why_tests_cant": "the two tables are written by hand and nothing compares them", "anchors": ["cli/stdlib_man_data.go:stdlibManDocs", "grayc/src/typechecker/typechecker.c:typechecker_is_fallible_stdlib", "grayc/src/typechecker/typechecker.c:typechecker_get_fallible_stdlib_type"]}
{"id": "C344", "title": "Every entry of the manual can be shown", "statement": "For every documented builtin, library entry and language entry there is a name for which gray man shows it, in whatever order the table of the library is visited.", "quantifier": "all entries of the three tables, all names, all orders of the table", "why_tests_cant": "that no name shows an entry is a statement about all names", "anchors": ["cli/commands.go:manCmd", "cli/builtins_man_data.go:builtinManDocs", "cli/stdlib_man_data.go:stdlibManDocs", "cli/lang_man_data.go:langManDocs"]}
{"id": "C345", "title": "A name in an index of the manual shows the entry listed", "statement": "gray man with a name that an index (of the builtins, of a module, of a category of the language) lists shows that entry.", "quantifier": "all names of all indexes, all aliases, all orders of the table", "why_tests_cant": "several hundred names, and the order in which a map is visited changes from run to run", "anchors": ["cli/commands.go:manCmd", "cli/stdlib_man_data.go:stdlibModuleGroups", "cli/lang_man_data.go:langCategories", "cli/lang_man_data.go:langSymbolAliases", "cli/commands.go:printBuiltinsIndex"]}
{"id": "C346", "title": "The indexes of the manual are complete", "statement": "Every documented entry is listed in an index, and every name listed in an index is documented.", "quantifier": "all entries, all indexes", "why_tests_cant": "the tables are written by hand; a missing line does not show", "anchors": ["cli/commands.go:printBuiltinsIndex", "cli/stdlib_man_data.go:stdlibModules", "cli/stdlib_man_data.go:stdlibModuleGroups", "cli/lang_man_data.go:langCategories"]}
{"id": "C347", "title": "What gray man shows does not depend on the order of a map", "statement": "For every table of the library and every name, what is shown is the same in every order in which the table is visited.", "quantifier": "all tables, all orders, all names", "why_tests_cant": "the order of a Go map is random; a test sees some of the orders", "anchors": ["cli/commands.go:manCmd"]}
{"id": "C348", "title": "gray man without documentation", "statement": "A trailing pair of parentheses is ignored, and a name for which there is no documentation is in none of the tables, neither as a key nor after a dot, as a type or as an alias.", "quantifier": "all tables of the library, all names", "why_tests_cant": "the names are unbounded", "anchors": ["cli/commands.go:manCmd"]}
{"id": "C349", "title": "random.choice reads elements as the array keeps them", "statement": "For every type of elements and every way to make an array, random.choice reads an element at the C type at which the array keeps it, or at its unsigned counterpart.", "quantifier": "all types of elements, arrays made by literals and by declarations", "why_tests_cant": "tests choose from arrays of ints and strings; a wrong C type often gives the right value", "anchors": ["grayc/src/codegen/codegen.c:emit_random_call", "grayc/src/codegen/codegen.c:gray_type_to_c_codegen"]}
{"id": "C350", "title": "mem.alloc gives back a value of the type of its argument", "statement": "The C value of mem.alloc(arena, value) has the C type of the value, as the type that the checker gives to the call says.", "quantifier": "all types of values, array literals of all types of elements", "why_tests_cant": "one test would be needed for each type", "anchors": ["grayc/src/codegen/codegen.c:emit_mem_call", "grayc/src/typechecker/typechecker.c:resolve_stdlib_call"]}
{"id": "C351", "title": "An extracted file has the embedded bytes", "statement": "Whenever any number of processes extract the embedded runtime at once, a process for which writeIfMissing has succeeded finds the embedded bytes in the file.", "quantifier": "all contents, all directories before, all interleavings of any number of processes, all ways to split the writes", "why_tests_cant": "interleavings of system calls of several processes cannot be forced by tests", "anchors": ["internal/grayc/embedded.go:writeIfMissing"]}
{"id": "C352", "title": "An interrupted extraction leaves no partial file", "statement": "If a process that extracts a file alone is stopped between any two system calls, or a write fails, the file is as it was before or has all the embedded bytes.", "quantifier": "all contents, all directories before, all points of interruption", "why_tests_cant": "the process would have to be stopped at every point", "anchors": ["internal/grayc/embedded.go:writeIfMissing"]}
{"id": "C353", "title": "A process that has written its file can rename it", "statement": "A process in writeIfMissing that has written all bytes finds path.tmp, so that the rename does not fail.", "quantifier": "all interleavings of any number of processes", "why_tests_cant": "interleavings of system calls of several processes cannot be forced by tests", "anchors": ["internal/grayc/embedded.go:writeIfMissing"]}
{"id": "C354", "title": "The directory of a build has the files of the build", "statement": "After a build has extracted its runtime, each file in its directory is the one of the build, whatever builds were extracted before.", "quantifier": "all hash functions, all sequences of builds, all files", "why_tests_cant": "tests extract one build into an empty directory", "anchors": ["internal/grayc/embedded.go:extractEmbedded", "internal/grayc/embedded.go:extractSourceTree", "internal/grayc/embedded.go:writeIfMissing"]}
{"id": "C355", "title": "GRAY_COMPILER_PATH wins", "statement": "If GRAY_COMPILER_PATH is set, the compiler that is used is the one it names; no compiler is found exactly if none of the five places has one.", "quantifier": "all states of the file system and of the environment", "why_tests_cant": "the places depend on the installation", "anchors": ["internal/grayc/grayc.go:Find", "internal/grayc/grayc.go:statFile"]}
{"id": "C356", "title": "Extractions at the same time end with the embedded bytes", "statement": "If any number of processes extract a file at once and no write fails, then once none of them is writing the file is as it was before or has all the embedded bytes; a process that has succeeded finds the embedded bytes, or those of a file of the same size that was there before.", "quantifier": "all contents, all directories before, all interleavings of any number of processes, all ways to split the writes", "why_tests_cant": "interleavings of system calls of several processes cannot be forced by tests", "anchors": ["internal/grayc/embedded.go:writeIfMissing"]}
{"id": "C357", "title": "The sources of the runtime are found from any directory below them", "statement": "The walk up from the working directory finds grayc/src in the nearest directory that has it, up to and including the root.", "quantifier": "all working directories below the root, all file systems", "why_tests_cant": "depends on the layout of the file system up to the root", "anchors": ["grayc/src/main.c:find_runtime_dir"]}
{"id": "C358", "title": "GRAY_RUNTIME wins", "statement": "If GRAY_RUNTIME is set, the runtime directory is the one it names; no runtime directory is found exactly if none of the places searched has one.", "quantifier": "all environments, all file systems, all locations of the binary", "why_tests_cant": "the places depend on the installation", "anchors": ["grayc/src/main.c:find_runtime_dir"]}

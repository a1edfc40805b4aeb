{
 "claims": [
  {
   "property": "C01",
   "status": "proved",
   "theorems": [
    "Verif.Props.C01_u128_repr",
    "Verif.Props.C01_u128_add",
    "Verif.Props.C01_u128_sub",
    "Verif.Props.C01_u128_mul",
    "Verif.Props.C01_i128_add",
    "Verif.Props.C01_i128_sub",
    "Verif.Props.C01_i128_neg",
    "Verif.Props.C01_i128_mul"
   ],
   "note": "Limb pairs read as integers; every unchecked operation equals Int arithmetic reduced mod 2^128."
  },
  {
   "property": "C02",
   "status": "proved",
   "theorems": [
    "Verif.Props.C02_u128_add",
    "Verif.Props.C02_u128_sub",
    "Verif.Props.C02_i128_add",
    "Verif.Props.C02_i128_sub",
    "Verif.Props.C02_i128_add_panics_only_after_ub"
   ],
   "note": "Exact or panic for all operands. Also proved: i128 addition panics only after the C expression has already overflowed int64 (undefined behaviour in C)."
  },
  {
   "property": "C03",
   "status": "partial",
   "theorems": [
    "Verif.Props.C03_u128_mul",
    "Verif.Props.C03_i128_mul_fails",
    "Verif.Props.C03_i128_mul_partial"
   ],
   "note": "u128 in full. i128 fails at MIN * -1 (returns MIN); proved for every other pair."
  },
  {
   "property": "C04",
   "status": "proved",
   "theorems": [
    "Verif.Props.C04_u128_div",
    "Verif.Props.C04_i128_div",
    "Verif.Props.C04_i128_div_exact",
    "Verif.Props.C04_i128_mod",
    "Verif.Props.C04_i128_divmod_law",
    "Verif.Props.C04_i128_min_div_neg_one"
   ],
   "note": "Loop invariant over the 128 shift-subtract steps; i128 truncates, MIN / -1 wraps to MIN."
  },
  {
   "property": "C05",
   "status": "proved",
   "theorems": [
    "Verif.Props.C05_u256_add",
    "Verif.Props.C05_u256_mul",
    "Verif.Props.C05_i256_add",
    "Verif.Props.C05_i256_mul",
    "Verif.Props.C05_i256_neg",
    "Verif.Props.C05_u256_repr"
   ],
   "note": "Carry and multiplication steps over four limbs; equality modulo 2^256."
  },
  {
   "property": "C06",
   "status": "partial",
   "theorems": [
    "Verif.Props.C06_u256_sub_iff_partial",
    "Verif.Props.C06_u256_sub_fails",
    "Verif.Props.C06_u256_sub_witness",
    "Verif.Props.C06_i256_sub_partial",
    "Verif.Props.C06_i256_sub_fails"
   ],
   "note": "False: a borrow into a limb where the subtrahend limb is 2^64-1 is lost. The exact set of failing operand pairs is characterised (iff)."
  },
  {
   "property": "C07",
   "status": "partial",
   "theorems": [
    "Verif.Props.C07_u256_div_partial",
    "Verif.Props.C07_u256_div_witness",
    "Verif.Props.C07_u256_div_fails",
    "Verif.Props.C07_i256_div_partial",
    "Verif.Props.C07_i256_div_fails"
   ],
   "note": "False for some divisors because of the same lost borrow; proved for every divisor meeting SafeDivisor (no all-ones upper limb), any dividend."
  },
  {
   "property": "C08",
   "status": "proved",
   "theorems": [
    "Verif.Props.C08_u128",
    "Verif.Props.C08_i128",
    "Verif.Props.C08_u256",
    "Verif.Props.C08_i256"
   ],
   "note": "All six operators, for each wide type."
  },
  {
   "property": "C09",
   "status": "proved",
   "theorems": [
    "Verif.Props.C09_u128_to_string",
    "Verif.Props.C09_u256_to_string",
    "Verif.Props.C09_i128_to_string",
    "Verif.Props.C09_i256_to_string",
    "Verif.Props.C09_u128_from_decimal",
    "Verif.Props.C09_u256_from_decimal",
    "Verif.Props.C09_u128_roundtrip",
    "Verif.Props.C09_u256_roundtrip",
    "Verif.Props.C09_i128_roundtrip",
    "Verif.Props.C09_i256_roundtrip",
    "Verif.Props.C09_from_decimal_wraps"
   ],
   "note": "Printing is canonical, stays in its buffer, and parsing inverts it for all four types and all values. from_decimal of out-of-range text wraps."
  },
  {
   "property": "C10",
   "status": "proved",
   "theorems": [
    "Verif.Props.C10_u128_to_i64",
    "Verif.Props.C10_u128_to_u64",
    "Verif.Props.C10_i128_to_u64",
    "Verif.Props.C10_i128_to_i64",
    "Verif.Props.C10_from_64",
    "Verif.Props.C10_u256_to_u64",
    "Verif.Props.C10_u256_to_i64",
    "Verif.Props.C10_i256_to_u64",
    "Verif.Props.C10_i256_to_i64",
    "Verif.Props.C10_from_64_to_256"
   ],
   "note": "Range test equals representability."
  },
  {
   "property": "C11",
   "status": "partial",
   "theorems": [
    "Verif.Props.C11_widen",
    "Verif.Props.C11_u128_of_i128_partial",
    "Verif.Props.C11_i128_of_u128_partial",
    "Verif.Props.C11_i128_of_i256_partial",
    "Verif.Props.C11_u128_of_u256_partial",
    "Verif.Props.C11_wide_cast_fails"
   ],
   "note": "Widening is exact; narrowing and sign-changing casts are reinterpretations, refuted by witness."
  },
  {
   "property": "C12",
   "status": "partial",
   "theorems": [
    "Verif.Props.C12_narrow_div_zero",
    "Verif.Props.C12_wide_div_zero_fails"
   ],
   "note": "Wide division by zero returns 0 (refuted). For all pairs of narrower types the emitted guard panics."
  },
  {
   "property": "C13",
   "status": "proved",
   "theorems": [
    "Verif.Props.C13_int_checked",
    "Verif.Props.C13_int_neg_step",
    "Verif.Props.C13_emitted"
   ],
   "note": "Helpers and emitted code, int and i64, including unary minus and ++/--."
  },
  {
   "property": "C14",
   "status": "proved",
   "theorems": [
    "Verif.Props.C14_uint_checked",
    "Verif.Props.C14_emitted",
    "Verif.Props.C14_uint_step"
   ],
   "note": "Helpers and emitted code, uint and u64, including ++/--."
  },
  {
   "property": "C15",
   "status": "proved",
   "theorems": [
    "Verif.Props.C15_sized_signed",
    "Verif.Props.C15_sized_neg_step"
   ],
   "note": "Emitted code for i8, i16, i32, including unary minus and ++/--; no intermediate overflow."
  },
  {
   "property": "C16",
   "status": "partial",
   "theorems": [
    "Verif.Props.C16_sized_unsigned_partial",
    "Verif.Props.C16_u32_mul_partial",
    "Verif.Props.C16_u32_mul_fails"
   ],
   "note": "Proved for u8, byte, u16 and u32 except u32 products of 2^63 and more, where the C multiplication overflows (witness)."
  },
  {
   "property": "C17",
   "status": "partial",
   "theorems": [
    "Verif.Props.C17_signed_div",
    "Verif.Props.C17_truncation",
    "Verif.Props.C17_unsigned_div",
    "Verif.Props.C17_mixed_witness",
    "Verif.Props.C17_mixed_fails"
   ],
   "note": "Exact for any two signed types and any two unsigned types. Mixed signedness fails: i32/u32 divides as unsigned, and an unsigned narrow type divided by a signed one emits an invalid C text."
  },
  {
   "property": "C18",
   "status": "partial",
   "theorems": [
    "Verif.Props.C18_visits_partial",
    "Verif.Props.C18_deterministic",
    "Verif.Props.C18_unit_step",
    "Verif.Props.C18_zero_step",
    "Verif.Props.C18_overflow_witness",
    "Verif.Props.C18_fails",
    "Verif.Props.C18_negated_zero_diverges",
    "Verif.Props.C18_negated_negative_skips",
    "Verif.Props.C18_uint_end_skips"
   ],
   "note": "For int bounds and a nonzero step whose direction follows its sign: exact values, order, termination, determinism; the only deviation is P0004 after the last value when the next one overflows. Refuted: overflow near the limits, -x steps with x <= 0 (skip or diverge), uint ends with negative start."
  },
  {
   "property": "C19",
   "status": "partial",
   "theorems": [
    "Verif.Props.C19_partial",
    "Verif.Props.C19_remove_result",
    "Verif.Props.C19_live_keys",
    "Verif.Props.C19_overflow_witness",
    "Verif.Props.C19_fails",
    "Verif.Props.C19_key_kinds"
   ],
   "note": "Proved for every lawful hash/equality (all four key kinds shown lawful), every history and capacity, while no assignment happens with more than 268435455 live keys; beyond that int32_t arithmetic overflows (refuted at 2^29 keys)."
  },
  {
   "property": "C20",
   "status": "partial",
   "theorems": [
    "Verif.Props.C20_entries_partial",
    "Verif.Props.C20_order",
    "Verif.Props.C20_for_each"
   ],
   "note": "Proved within the size limit of C19; for_each, get_keys, get_values."
  },
  {
   "property": "C21",
   "status": "partial",
   "theorems": [
    "Verif.Props.C21_set_remove_partial",
    "Verif.Props.C21_reads",
    "Verif.Props.C21_clear_witness",
    "Verif.Props.C21_fails",
    "Verif.Props.C21_clear_stops"
   ],
   "note": "set and remove panic; clear does not (refuted)."
  },
  {
   "property": "C22",
   "status": "partial",
   "theorems": [
    "Verif.Props.C22_partial",
    "Verif.Props.C22_witness",
    "Verif.Props.C22_fails",
    "Verif.Props.C22_sized_witness",
    "Verif.Props.C22_nesting_witness"
   ],
   "note": "The emitter is modelled on type names, what it emits on a heap of blocks. Proved for structs that do not contain themselves: contents equal, and after any interleaving of operations each side has what its own operations give. Refuted in general: for a struct which contains itself through an array (TreeNode with children [TreeNode]) only the first level is copied, and assigning to a grandchild of the copy changes the original. Also: [map[string:[int,3]]] is cut at the comma so that the inner arrays stay shared, and more than 64 nested structs unbalance the cycle guard."
  },
  {
   "property": "C23",
   "status": "partial",
   "theorems": [
    "Verif.Props.C23_partial",
    "Verif.Props.C23_index_witness",
    "Verif.Props.C23_remove_witness",
    "Verif.Props.C23_fails",
    "Verif.Props.C23_capacity_witness",
    "Verif.Props.C23_bytes_witness",
    "Verif.Props.C23_locked"
   ],
   "note": "Index arguments are int64_t expressions passed to int32_t parameters: a[4294967296] reads a[0]. Arrays of 2^30 or more elements cannot grow (signed overflow before the test), and get_last/remove_last multiply index and element size in int32_t. Within those bounds every program follows the list, panic codes included."
  },
  {
   "property": "C24",
   "status": "partial",
   "theorems": [
    "Verif.Props.C24_partial",
    "Verif.Props.C24_witness",
    "Verif.Props.C24_fails"
   ],
   "note": "Fails only for strings whose encoding exceeds INT32_MAX characters (the size computation overflows). For all others: exact bit-level meaning, alphabet, padding, length and round trip, and no write outside the buffer."
  },
  {
   "property": "C25",
   "status": "partial",
   "theorems": [
    "Verif.Props.C25_accepts_partial",
    "Verif.Props.C25_value_partial",
    "Verif.Props.C25_partial",
    "Verif.Props.C25_witness",
    "Verif.Props.C25_fails"
   ],
   "note": "Acceptance, decoded value and absence of buffer overruns are proved for every text. Injectivity fails (QQ== and QR==); it is proved for texts with zero trailing bits."
  },
  {
   "property": "C26",
   "status": "partial",
   "theorems": [
    "Verif.Props.C26_partial",
    "Verif.Props.C26_decode_partial",
    "Verif.Props.C26_witness",
    "Verif.Props.C26_fails"
   ],
   "note": "Fails only for strings of 2^30 bytes and more. Otherwise round trips in both directions, exact panics, exact text."
  },
  {
   "property": "C27",
   "status": "partial",
   "theorems": [
    "Verif.Props.C27_partial",
    "Verif.Props.C27_witness",
    "Verif.Props.C27_fails"
   ],
   "note": "Fails only when the encoding exceeds INT32_MAX characters. Otherwise exact text and round trip."
  },
  {
   "property": "C28",
   "status": "partial",
   "theorems": [
    "Verif.Props.C28_codecs_partial",
    "Verif.Props.C28_partial",
    "Verif.Props.C28_witness",
    "Verif.Props.C28_fails"
   ],
   "note": "All codecs of 8..256 bits and floats are exact in both byte orders, except decode_i64_be of negative numbers: it left-shifts a signed value, undefined by C11 6.5.7p4 (compilers in use give the right number)."
  },
  {
   "property": "C29",
   "status": "partial",
   "theorems": [
    "Verif.Props.C29_witness",
    "Verif.Props.C29_fails",
    "Verif.Props.C29_text_partial",
    "Verif.Props.C29_partial",
    "Verif.Props.C29_size_witness"
   ],
   "note": "Fails: csv.encode never quotes, so commas, line breaks, leading quotes and empty last fields are not preserved. Holds for tables that need no quoting and texts below 2^31 bytes; beyond that the size computation overflows."
  },
  {
   "property": "C30",
   "status": "proved",
   "theorems": [
    "Verif.Props.C30_valid",
    "Verif.Props.C30_generate",
    "Verif.Props.C30_version",
    "Verif.Props.C30_generateV7",
    "Verif.Props.C30_order",
    "Verif.Props.C30_parse",
    "Verif.Props.C30_nil"
   ],
   "note": ""
  },
  {
   "property": "C31",
   "status": "proved",
   "theorems": [
    "Verif.Props.C31_join_split",
    "Verif.Props.C31_empty"
   ],
   "note": "Proved for strings up to 2^31-1 bytes, which is every string the runtime can represent. The empty separator gives the string as one piece."
  },
  {
   "property": "C32",
   "status": "proved",
   "theorems": [
    "Verif.Props.C32_replace",
    "Verif.Props.C32_identity",
    "Verif.Props.C32_empty"
   ],
   "note": "Proved for every representable string, with the panic P0071 exactly when the result would not fit. Empty old leaves the string as it is."
  },
  {
   "property": "C33",
   "status": "proved",
   "theorems": [
    "Verif.Props.C33_index_of",
    "Verif.Props.C33_last_index_of",
    "Verif.Props.C33_tests"
   ],
   "note": "Proved for all strings and patterns, including the empty pattern."
  },
  {
   "property": "C34",
   "status": "proved",
   "theorems": [
    "Verif.Props.C34_encode",
    "Verif.Props.C34_access"
   ],
   "note": "Proved for all sequences of scalar values and all indices; malformed strings are C98."
  },
  {
   "property": "C35",
   "status": "proved",
   "theorems": [
    "Verif.Props.C35_preorder",
    "Verif.Props.C35_strict"
   ],
   "note": "Proved for all strings."
  },
  {
   "property": "C36",
   "status": "partial",
   "theorems": [
    "Verif.Props.C36_witness",
    "Verif.Props.C36_fails",
    "Verif.Props.C36_partial"
   ],
   "note": "Fails: identifiers like -5 are read as numbers, numbers from 2^63 are read as 0 or compared as text, and labels shaped like the trailer of git describe are cut off. Proved for all other versions, with or without a leading v."
  },
  {
   "property": "C37",
   "status": "partial",
   "theorems": [
    "Verif.Props.C37_witness",
    "Verif.Props.C37_fails",
    "Verif.Props.C37_partial",
    "Verif.Props.C37_complete_partial",
    "Verif.Props.C37_range_partial",
    "Verif.Props.C37_channel"
   ],
   "note": "Fails: a build made after a stable release (v3.0.0-4-g0cbcb58) is offered that older release. Proved: channel, maximality, strictly newer by compareSemver, completeness, and the range of release notes."
  },
  {
   "property": "C38",
   "status": "partial",
   "theorems": [
    "Verif.Props.C38_witness",
    "Verif.Props.C38_fails",
    "Verif.Props.C38_crash_witness",
    "Verif.Props.C38_partial",
    "Verif.Props.C38_recoverable_partial"
   ],
   "note": "Fails: the error of closing the written file is ignored, so a part of the binary may be installed and the backup removed; killed after the rename, nothing is at the executable path. Proved otherwise for every combination of failures, and that at every moment the old or the new binary is complete at one of the two paths."
  },
  {
   "property": "C39",
   "status": "proved",
   "theorems": [
    "Verif.Props.C39_inside",
    "Verif.Props.C39_check",
    "Verif.Props.C39_accepts"
   ],
   "note": "Proved for all entry names and destinations on Unix (Go's path/filepath modelled from its documentation)."
  },
  {
   "property": "C40",
   "status": "proved",
   "theorems": [
    "Verif.Props.C40_fifo",
    "Verif.Props.C40_contents",
    "Verif.Props.C40_capacity",
    "Verif.Props.C40_closed"
   ],
   "note": "Proved for all numbers of threads, programs and interleavings, with the exact contents of the buffer and indices in range."
  },
  {
   "property": "C41",
   "status": "proved",
   "theorems": [
    "Verif.Props.C41_receivers",
    "Verif.Props.C41_senders",
    "Verif.Props.C41_quiet",
    "Verif.Props.C41_no_deadlock",
    "Verif.Props.C41_ends"
   ],
   "note": "Proved: a sleeper that could go on has a wake-up under way; when nothing is left to do only operations that cannot go on sleep; and the operations under way end after boundedly many steps, whatever the scheduler does."
  },
  {
   "property": "C42",
   "status": "partial",
   "theorems": [
    "Verif.Props.C42_double_free_witness",
    "Verif.Props.C42_use_after_free_witness",
    "Verif.Props.C42_fails",
    "Verif.Props.C42_join_partial",
    "Verif.Props.C42_detach_partial"
   ],
   "note": "Fails: detach at the end of the thread frees the handle twice or uses it after it is freed. Proved for join, and for detach that does not overlap with the end of the thread."
  },
  {
   "property": "C43",
   "status": "proved",
   "theorems": [
    "Verif.Props.C43_invariant",
    "Verif.Props.C43_limit",
    "Verif.Props.C43_refused",
    "Verif.Props.C43_accepted"
   ],
   "note": "Proved for any number of listeners sharing the counter, all interleavings of arrivals, refusals, failures to start a thread and completions. The counter is the number of handlers plus the listeners between counting and starting or refusing."
  },
  {
   "property": "C44",
   "status": "partial",
   "theorems": [
    "Verif.Props.C44_witness",
    "Verif.Props.C44_fails",
    "Verif.Props.C44_partial",
    "Verif.Props.C44_exact_partial",
    "Verif.Props.C44_terminates",
    "Verif.Props.C44_empty_fails"
   ],
   "note": "Fails: parameters bound by earlier routes that failed to match stay in the request; a parameter also takes an empty segment. Proved: the first matching route is chosen and its own parameters have their values; exactly its parameters if earlier routes of the method have none."
  },
  {
   "property": "C45",
   "status": "partial",
   "theorems": [
    "Verif.Props.C45_witness",
    "Verif.Props.C45_fails",
    "Verif.Props.C45_partial"
   ],
   "note": "Fails: 257 '..' components write past the array of segments, and names after the 256th are dropped silently. Proved for paths without NUL up to 256 components."
  },
  {
   "property": "C46",
   "status": "proved",
   "theorems": [
    "Verif.Props.C46_disjoint",
    "Verif.Props.C46_alloc",
    "Verif.Props.C46_scope",
    "Verif.Props.C46_write_keeps"
   ],
   "note": "Proved for all sequences of allocations of at most 2^62 bytes, writes, nested scopes and resets outside scopes: live allocations are disjoint, aligned, inside blocks, zero at first and keep their bytes; ending a scope gives back the bytes in use at its beginning."
  },
  {
   "property": "C47",
   "status": "proved",
   "theorems": [
    "Verif.Props.C47_destroyed",
    "Verif.Props.C47_once"
   ],
   "note": "Proved, also through resets and scope marks."
  },
  {
   "property": "C48",
   "status": "partial",
   "theorems": [
    "Verif.Props.C48_witness",
    "Verif.Props.C48_fails",
    "Verif.Props.C48_partial"
   ],
   "note": "Fails for json.encode of a string, which is put between quotes unescaped (codegen.c:4748). Proved for strings in maps, arrays and structs: the literal is valid, denotes the bytes, determines them, and has the computed length."
  },
  {
   "property": "C49",
   "status": "partial",
   "theorems": [
    "Verif.Props.C49_witness",
    "Verif.Props.C49_fails",
    "Verif.Props.C49_partial",
    "Verif.Props.C49_ends"
   ],
   "note": "Fails: vertical tab and form feed are accepted as whitespace. Proved: the validator accepts exactly the RFC 8259 grammar with isspace as whitespace, nested 512 deep; its loops end. UTF-8 validity is not part of the grammar used."
  },
  {
   "property": "C50",
   "status": "partial",
   "theorems": [
    "Verif.Props.C50_witness",
    "Verif.Props.C50_fails",
    "Verif.Props.C50_partial",
    "Verif.Props.C50_flat",
    "Verif.Props.C50_last"
   ],
   "note": "Fails: {] and the valid {\"a\":[1]} are never decoded. Proved: decoding ends within one round per character or never does, the latter only for texts with ]; objects of strings, numbers and literals are decoded to their entries."
  },
  {
   "property": "C51",
   "status": "proved",
   "theorems": [
    "Verif.Props.C51_terminates",
    "Verif.Props.C51_gaps"
   ],
   "note": "Proved: every call before the end reads a byte, the end comes last, gaps end at neither space nor comment; model without a byte 0 in the source."
  },
  {
   "property": "C52",
   "status": "partial",
   "theorems": [
    "Verif.Props.C52_witness",
    "Verif.Props.C52_fails",
    "Verif.Props.C52_partial"
   ],
   "note": "Fails: 0x__1_ and 0x_ are accepted, literals with a prefix are not checked. Proved for decimal literals; for prefixed ones only the digits."
  },
  {
   "property": "C53",
   "status": "partial",
   "theorems": [
    "Verif.Props.C53_lines",
    "Verif.Props.C53_witness",
    "Verif.Props.C53_quote_witness",
    "Verif.Props.C53_fails",
    "Verif.Props.C53_partial",
    "Verif.Props.C53_single_partial"
   ],
   "note": "Refuted: a line of blanks in a raw string is emptied, and after a character literal '\"' lines of raw strings are re-indented. Proved: each line keeps its content after leading blanks (all texts); for sources without lexical errors and without a line break in a character literal, tokens keep kinds, lines and single-line texts, and multi-line texts change only in blanks at line beginnings."
  },
  {
   "property": "C54",
   "status": "partial",
   "theorems": [
    "Verif.Props.C54_witness",
    "Verif.Props.C54_fails",
    "Verif.Props.C54_partial"
   ],
   "note": "Refuted: a character literal holding a line break gets blanks inserted, becomes an error, and the second run stops counting braces there. Proved for all sources without lexical errors and without a line break in a character literal."
  },
  {
   "property": "C55",
   "status": "proved",
   "theorems": [
    "Verif.Props.C55_lookup"
   ],
   "note": "Proved for every sequence of push, pop and define, including table growth and collisions. The counters are unbounded in the model, and the fields set outside scope_define are left out."
  },
  {
   "property": "C56",
   "status": "partial",
   "theorems": [
    "Verif.Props.C56_grammar",
    "Verif.Props.C56_sound",
    "Verif.Props.C56_witness",
    "Verif.Props.C56_fails",
    "Verif.Props.C56_partial",
    "Verif.Props.C56_deep_partial",
    "Verif.Props.C56_minimal"
   ],
   "note": "The grammar of STANDARD 5.3 as a relation between tokens and trees (left associative, any redundant parentheses); the parser accepts exactly it, with nesting up to MAX_PARSE_DEPTH 256. The text with the fewest parentheses is proved to have the fewest tokens, is lexed by the lexer model, and is read back. Fails for texts nested more than 256 deep, which are all rejected (C56_deep_partial): parentheses, prefix operators and right operands count, left operands do not."
  },
  {
   "property": "C57",
   "status": "partial",
   "theorems": [
    "Verif.Props.C57_witness",
    "Verif.Props.C57_fails",
    "Verif.Props.C57_partial",
    "Verif.Props.C57_result_partial",
    "Verif.Props.C57_roundtrip_partial"
   ],
   "note": "Fails: strings are cut to 63 bytes (63 zeros and a 7 give 0), a zero byte ends the number, base 16 accepts 0x, and the base is cut to 32 bits. Proved for all other strings, with the agreement of the error-returning variants and the round trips."
  },
  {
   "property": "C58",
   "status": "partial",
   "theorems": [
    "Verif.Props.C58_witness",
    "Verif.Props.C58_sample_witness",
    "Verif.Props.C58_fails",
    "Verif.Props.C58_int_partial",
    "Verif.Props.C58_int_reach",
    "Verif.Props.C58_shuffle",
    "Verif.Props.C58_shuffle_reach",
    "Verif.Props.C58_sample_partial",
    "Verif.Props.C58_choice",
    "Verif.Props.C58_choice_sized_witness"
   ],
   "note": "Fails: rand_int with a bound that is a multiple of 2^32 divides by zero, an interval of 2^63 or more overflows, sample cuts its count to 32 bits, and choice of an i8, i16 or i32 array reads 8 bytes. Proved: all other bounds are kept and every value of a range below 2^31 can occur; shuffle permutes and can produce every permutation; sample returns distinct positions; choice returns a member and can return each."
  },
  {
   "property": "C59",
   "status": "partial",
   "theorems": [
    "Verif.Props.C59_gcd_witness",
    "Verif.Props.C59_lcm_witness",
    "Verif.Props.C59_prime_witness",
    "Verif.Props.C59_fails",
    "Verif.Props.C59_factorial",
    "Verif.Props.C59_gcd_partial",
    "Verif.Props.C59_lcm_partial",
    "Verif.Props.C59_prime_partial"
   ],
   "note": "Fails: gcd and lcm negate -2^63, lcm of one negative argument is negative, is_prime overflows for every prime from 3037000499^2 on (2^63 - 25 is proved to be one). Proved for all other integers; factorial exactly up to 20, undefined above."
  },
  {
   "property": "C60",
   "status": "proved",
   "theorems": [
    "Verif.Props.C60_exact",
    "Verif.Props.C60_single"
   ],
   "note": "Proved for all strings, with the exact set of accepted names (Unix)."
  },
  {
   "property": "C61",
   "status": "partial",
   "theorems": [
    "Verif.Props.C61_u256_add",
    "Verif.Props.C61_i256_add",
    "Verif.Props.C61_u256_sub_partial",
    "Verif.Props.C61_u256_sub_fails",
    "Verif.Props.C61_i256_sub_partial",
    "Verif.Props.C61_u256_mul_partial",
    "Verif.Props.C61_u256_mul_witness",
    "Verif.Props.C61_u256_mul_fails",
    "Verif.Props.C61_i256_mul_partial",
    "Verif.Props.C61_i256_mul_witness",
    "Verif.Props.C61_i256_mul_fails"
   ],
   "note": "Addition in full; subtraction outside the lost-borrow set; u256 multiplication can panic on a representable product; i256 MIN * -1 returns MIN."
  },
  {
   "property": "C62",
   "status": "partial",
   "theorems": [
    "Verif.Props.C62_parse_exact",
    "Verif.Props.C62_hex_witness",
    "Verif.Props.C62_decimal_witness",
    "Verif.Props.C62_wide_fails",
    "Verif.Props.C62_wide_partial"
   ],
   "note": "Parsed value and both overflow flags are exact for every literal. Wide initialisers are wrong for non-decimal literals of 2^63 and more and for decimal multiples of 2^64; proved for all others."
  },
  {
   "property": "C63",
   "status": "partial",
   "theorems": [
    "Verif.Props.C63_narrow_partial",
    "Verif.Props.C63_narrow_with_64_partial",
    "Verif.Props.C63_int_uint_partial",
    "Verif.Props.C63_byte_uint_witness",
    "Verif.Props.C63_i8_int_witness",
    "Verif.Props.C63_int_uint_witness",
    "Verif.Props.C63_fails"
   ],
   "note": "Proved for all pairs of narrow types but u32*u32, for narrow with 64-bit when operands and result fit int64, and for int with uint when both are nonnegative. Counterexamples outside."
  },
  {
   "property": "C64",
   "status": "partial",
   "theorems": [
    "Verif.Props.C64_cmp_partial",
    "Verif.Props.C64_witness",
    "Verif.Props.C64_fails"
   ],
   "note": "Proved for equal signedness or nonnegative values; refuted otherwise."
  },
  {
   "property": "C65",
   "status": "partial",
   "theorems": [
    "Verif.Props.C65_variable",
    "Verif.Props.C65_array_partial",
    "Verif.Props.C65_int_element_partial",
    "Verif.Props.C65_array_witness",
    "Verif.Props.C65_array_fails",
    "Verif.Props.C65_map_witness"
   ],
   "note": "Variables and fields: in full. Sized array elements for + - *. Elements of [int] and map entries are unchecked; array /= and %= store the right-hand side."
  },
  {
   "property": "C66",
   "status": "partial",
   "theorems": [
    "Verif.Props.C66_literal_partial",
    "Verif.Props.C66_assign_partial",
    "Verif.Props.C66_narrow_exact",
    "Verif.Props.C66_witness",
    "Verif.Props.C66_fails"
   ],
   "note": "Literal elements and same-width assignments proved for values below 2^63; narrow types depend on bytes beyond the temporary (exact iff)."
  },
  {
   "property": "C67",
   "status": "partial",
   "theorems": [
    "Verif.Props.C67_amount",
    "Verif.Props.C67_64_partial",
    "Verif.Props.C67_narrow_partial",
    "Verif.Props.C67_witness",
    "Verif.Props.C67_fails"
   ],
   "note": "Amount guard in full; right shifts and unsigned left shifts exact for in-width amounts; undefined cases exhibited."
  },
  {
   "property": "C68",
   "status": "partial",
   "theorems": [
    "Verif.Props.C68_i128_partial",
    "Verif.Props.C68_i256_partial",
    "Verif.Props.C68_min",
    "Verif.Props.C68_min256",
    "Verif.Props.C68_fails"
   ],
   "note": "Every value but the minimum."
  },
  {
   "property": "C69",
   "status": "partial",
   "theorems": [
    "Verif.Props.C69_partial",
    "Verif.Props.C69_witness",
    "Verif.Props.C69_fails",
    "Verif.Props.C69_min_check_ub"
   ],
   "note": "Emitted value right up to n = 2^63; beyond, accepted with a wrapped value."
  },
  {
   "property": "C70",
   "status": "partial",
   "theorems": [
    "Verif.Props.C70_declaration",
    "Verif.Props.C70_assignment_partial",
    "Verif.Props.C70_uint_rejected",
    "Verif.Props.C70_i8_accepted",
    "Verif.Props.C70_assignment_fails"
   ],
   "note": "Declarations in full. Reassignment below 2^63; from 2^63 on uint rejects values that fit and i8 accepts values that do not."
  },
  {
   "property": "C71",
   "status": "partial",
   "theorems": [
    "Verif.Props.C71_positive_partial",
    "Verif.Props.C71_no_step",
    "Verif.Props.C71_witness",
    "Verif.Props.C71_fails"
   ],
   "note": "Proved for positive steps and no step; negative steps answer false for visited values, zero step and large distances are undefined in C."
  },
  {
   "property": "C72",
   "status": "partial",
   "theorems": [
    "Verif.Props.C72_array_witness",
    "Verif.Props.C72_partial",
    "Verif.Props.C72_return_locks",
    "Verif.Props.C72_witness",
    "Verif.Props.C72_fails"
   ],
   "note": "Holds for normal end and break; return leaves the map locked (refuted)."
  },
  {
   "property": "C73",
   "status": "partial",
   "theorems": [
    "Verif.Props.C73_partial",
    "Verif.Props.C73_string_witness",
    "Verif.Props.C73_fails"
   ],
   "note": "Correct for types where memcmp is equality; string values are compared by address (refuted)."
  },
  {
   "property": "C74",
   "status": "partial",
   "theorems": [
    "Verif.Props.C74_merge_partial"
   ],
   "note": "For maps with together at most 268435455 entries; merge walks both maps before writing into the fresh result."
  },
  {
   "property": "C75",
   "status": "partial",
   "theorems": [
    "Verif.Props.C75_is_equal_partial"
   ],
   "note": "For the value comparison the code uses: contents for strings, memcmp otherwise (so arrays, maps and floats as values are compared by representation)."
  },
  {
   "property": "C76",
   "status": "partial",
   "theorems": [
    "Verif.Props.C76_reverse",
    "Verif.Props.C76_concat",
    "Verif.Props.C76_slice_partial",
    "Verif.Props.C76_slice_witness",
    "Verif.Props.C76_slice_fails",
    "Verif.Props.C76_split_partial",
    "Verif.Props.C76_split_witness",
    "Verif.Props.C76_split_fails",
    "Verif.Props.C76_split_overflow_witness"
   ],
   "note": "Fails for bounds and sizes outside int32_t (reduced modulo 2^32). Holds otherwise."
  },
  {
   "property": "C77",
   "status": "proved",
   "theorems": [
    "Verif.Props.C77_search",
    "Verif.Props.C77_remove"
   ],
   "note": "Proved for element types compared by value with matching element size (int, string). Other element types are C84."
  },
  {
   "property": "C78",
   "status": "partial",
   "theorems": [
    "Verif.Props.C78_partial",
    "Verif.Props.C78_witness",
    "Verif.Props.C78_fails"
   ],
   "note": "Fails for strings: memcmp of the GrayString struct compares addresses. Holds when equal values have equal bytes."
  },
  {
   "property": "C79",
   "status": "partial",
   "theorems": [
    "Verif.Props.C79_partial",
    "Verif.Props.C79_witness",
    "Verif.Props.C79_fails"
   ],
   "note": "Fails: unchecked int64_t addition (undefined behaviour on overflow). Holds when no prefix sum overflows."
  },
  {
   "property": "C80",
   "status": "partial",
   "theorems": [
    "Verif.Props.C80_partial",
    "Verif.Props.C80_witness",
    "Verif.Props.C80_fails"
   ],
   "note": "Fails on the empty array, where both return 0. Holds on every non-empty array."
  },
  {
   "property": "C81",
   "status": "partial",
   "theorems": [
    "Verif.Props.C81_witness",
    "Verif.Props.C81_fails",
    "Verif.Props.C81_partial"
   ],
   "note": "Fails on every non-empty array: gray_array_push panics with P0034 during iteration. What holds is that bodies that leave the array alone run to the end."
  },
  {
   "property": "C82",
   "status": "partial",
   "theorems": [
    "Verif.Props.C82_partial",
    "Verif.Props.C82_witness",
    "Verif.Props.C82_overread_witness",
    "Verif.Props.C82_offset_witness",
    "Verif.Props.C82_bounds",
    "Verif.Props.C82_fails"
   ],
   "note": "Fails for i8..i32 and u8..u32: elements are stored in sizeof(T) bytes and read as int64_t, so a read mixes neighbours or leaves the block. Holds for the 8-byte types."
  },
  {
   "property": "C83",
   "status": "partial",
   "theorems": [
    "Verif.Props.C83_partial",
    "Verif.Props.C83_witness",
    "Verif.Props.C83_fails"
   ],
   "note": "Fails for narrow T: a literal array has 8-byte slots and the assignment copies 8 bytes from a sizeof(T) variable. Holds for the 8-byte types."
  },
  {
   "property": "C84",
   "status": "partial",
   "theorems": [
    "Verif.Props.C84_char_witness",
    "Verif.Props.C84_bool_witness",
    "Verif.Props.C84_partial",
    "Verif.Props.C84_fails"
   ],
   "note": "Fails for char and bool (int64_t reads of 4- and 1-byte slots). Holds for integers in 8-byte slots."
  },
  {
   "property": "C85",
   "status": "partial",
   "theorems": [
    "Verif.Props.C85_partial",
    "Verif.Props.C85_witness",
    "Verif.Props.C85_float_witness",
    "Verif.Props.C85_fails"
   ],
   "note": "Fails for narrow T when one array was built from {} and the other from a literal, and for 0.0 against -0.0. Proved as byte equality whenever the element sizes agree."
  },
  {
   "property": "C86",
   "status": "partial",
   "theorems": [
    "Verif.Props.C86_partial",
    "Verif.Props.C86_string_witness",
    "Verif.Props.C86_bool_witness",
    "Verif.Props.C86_fails"
   ],
   "note": "Fails for strings (8 of 16 bytes copied) and bools. Holds for 8-byte elements."
  },
  {
   "property": "C87",
   "status": "partial",
   "theorems": [
    "Verif.Props.C87_partial",
    "Verif.Props.C87_unsigned_partial",
    "Verif.Props.C87_witness",
    "Verif.Props.C87_fails"
   ],
   "note": "Fails for narrow T on literal arrays (the slots are 8 bytes wide, the callback steps by sizeof(T)). Holds for the 8-byte types."
  },
  {
   "property": "C88",
   "status": "partial",
   "theorems": [
    "Verif.Props.C88_partial",
    "Verif.Props.C88_value_partial",
    "Verif.Props.C88_witness",
    "Verif.Props.C88_fails"
   ],
   "note": "Fails: a cut-off escape at the end of the text is copied literally. Acceptance of complete escapes, value, and the shape of everything accepted are proved."
  },
  {
   "property": "C89",
   "status": "partial",
   "theorems": [
    "Verif.Props.C89_partial",
    "Verif.Props.C89_witness",
    "Verif.Props.C89_fails"
   ],
   "note": "Fails: no validation; sscanf skips white space, takes signs, and leaves the variable uninitialised on other text; an odd digit is dropped. Holds on hex texts of even length."
  },
  {
   "property": "C90",
   "status": "partial",
   "theorems": [
    "Verif.Props.C90_quote_witness",
    "Verif.Props.C90_empty_witness",
    "Verif.Props.C90_fails",
    "Verif.Props.C90_partial",
    "Verif.Props.C90_terminates"
   ],
   "note": "Fails: doubled quotes are not unescaped and an empty last field is dropped. All other documents of any size are read correctly; termination holds on every text."
  },
  {
   "property": "C91",
   "status": "partial",
   "theorems": [
    "Verif.Props.C91_witness",
    "Verif.Props.C91_be_witness",
    "Verif.Props.C91_fails",
    "Verif.Props.C91_partial"
   ],
   "note": "Fails for every width: there is no length check and the decoders read outside the array."
  },
  {
   "property": "C92",
   "status": "partial",
   "theorems": [
    "Verif.Props.C92_witness",
    "Verif.Props.C92_fails",
    "Verif.Props.C92_partial",
    "Verif.Props.C92_length_partial",
    "Verif.Props.C92_canonical_partial"
   ],
   "note": "Fails: without entropy the result is the empty string, and generate_compact overruns or returns uninitialised bytes for non-canonical 36-byte values. Proved for canonical values."
  },
  {
   "property": "C93",
   "status": "partial",
   "theorems": [
    "Verif.Props.C93_witness",
    "Verif.Props.C93_fails",
    "Verif.Props.C93_partial"
   ],
   "note": "Fails: the length is multiplied in 64 bits without a check, so 4 bytes times 2^62 passes the size check and overruns a one-byte buffer. Holds whenever the product is below 2^63."
  },
  {
   "property": "C94",
   "status": "partial",
   "theorems": [
    "Verif.Props.C94_partial",
    "Verif.Props.C94_witness",
    "Verif.Props.C94_fails"
   ],
   "note": "Fails: results longer than 2^31-1 bytes overflow the 32-bit total (no panic). Holds for all others."
  },
  {
   "property": "C95",
   "status": "partial",
   "theorems": [
    "Verif.Props.C95_witness",
    "Verif.Props.C95_fails",
    "Verif.Props.C95_partial",
    "Verif.Props.C95_chars_partial"
   ],
   "note": "Fails: char_at and for_each give negative values for bytes from 128, and s[i] truncates the index to 32 bits. Holds for ASCII strings and 32-bit indices; from_chars inverts to_chars on every string."
  },
  {
   "property": "C96",
   "status": "partial",
   "theorems": [
    "Verif.Props.C96_witness",
    "Verif.Props.C96_fails",
    "Verif.Props.C96_partial"
   ],
   "note": "Fails: the code point is cut to its low byte (U+0141 is upper case), and vertical tab and form feed count as whitespace. Holds below 256 except for those two."
  },
  {
   "property": "C97",
   "status": "proved",
   "theorems": [
    "Verif.Props.C97_case",
    "Verif.Props.C97_trim_left",
    "Verif.Props.C97_trim_right",
    "Verif.Props.C97_trim",
    "Verif.Props.C97_slice",
    "Verif.Props.C97_reverse",
    "Verif.Props.C97_remove"
   ],
   "note": "Proved for all strings."
  },
  {
   "property": "C98",
   "status": "partial",
   "theorems": [
    "Verif.Props.C98_witness",
    "Verif.Props.C98_fails",
    "Verif.Props.C98_partial"
   ],
   "note": "Fails: after an incomplete sequence char_count skips bytes that to_char shows, and to_char gives surrogates and overlong forms. Proved: termination, count at most length, values below 2^21."
  },
  {
   "property": "C99",
   "status": "partial",
   "theorems": [
    "Verif.Props.C99_witness",
    "Verif.Props.C99_fails",
    "Verif.Props.C99_long_witness",
    "Verif.Props.C99_partial"
   ],
   "note": "Fails: an embedded string is cut at its first zero byte, the character 0 gives nothing, and results beyond 2^31-1 bytes become empty. Holds for all other parts."
  },
  {
   "property": "C100",
   "status": "partial",
   "theorems": [
    "Verif.Props.C100_partial",
    "Verif.Props.C100_safe_partial",
    "Verif.Props.C100_cut_witness",
    "Verif.Props.C100_overrun_witness",
    "Verif.Props.C100_map_witness",
    "Verif.Props.C100_fails"
   ],
   "note": "Fails: a string of 4092 bytes or more in an array, or as a map key, is written past the 4096 byte stack buffer, and longer texts are cut. Exact for texts up to 4001 bytes; no overrun if all element texts have at most 93 bytes."
  },
  {
   "property": "C101",
   "status": "partial",
   "theorems": [
    "Verif.Props.C101_witness",
    "Verif.Props.C101_fails",
    "Verif.Props.C101_partial",
    "Verif.Props.C101_value_partial"
   ],
   "note": "Fails: uint and u64 to i8/i16/i32 wraps through int64, any type to char is cut to 32 bits, a negative char to uint wraps. Proved for all other pairs, and for all pairs when the target has the value."
  },
  {
   "property": "C102",
   "status": "partial",
   "theorems": [
    "Verif.Props.C102_witness",
    "Verif.Props.C102_fails",
    "Verif.Props.C102_partial"
   ],
   "note": "Fails: the constructors are plain C casts: byte(300) is 44, uint(-1) is 2^64-1. Proved: exact in range, wraps modulo the width otherwise."
  },
  {
   "property": "C103",
   "status": "partial",
   "theorems": [
    "Verif.Props.C103_witness",
    "Verif.Props.C103_fails",
    "Verif.Props.C103_constant",
    "Verif.Props.C103_int_partial",
    "Verif.Props.C103_special_partial",
    "Verif.Props.C103_uint_partial",
    "Verif.Props.C103_narrow_partial",
    "Verif.Props.C103_ctor_partial",
    "Verif.Props.C103_char_partial",
    "Verif.Props.C103_wide_partial"
   ],
   "note": "Fails: narrow targets, char, byte and the uint, char and byte constructors are undefined behaviour outside the range; cast(-2^63, int) panics though representable; -0.5 to uint panics. Proved exact-or-panic for int and uint apart from those, and for narrow targets if the integer part fits an int."
  },
  {
   "property": "C104",
   "status": "partial",
   "theorems": [
    "Verif.Props.C104_witness",
    "Verif.Props.C104_fails",
    "Verif.Props.C104_widen_partial",
    "Verif.Props.C104_cast_partial",
    "Verif.Props.C104_ctor_partial"
   ],
   "note": "Fails: negative numbers to u128/u256 get 2^64 added, numbers from 2^63 to i128/i256 become negative, int/byte/char constructors and casts to char wrap. Proved for all casts to other types, for widening with a fitting sign, and for constructors in range."
  },
  {
   "property": "C105",
   "status": "partial",
   "theorems": [
    "Verif.Props.C105_witness",
    "Verif.Props.C105_fails",
    "Verif.Props.C105_partial"
   ],
   "note": "Fails: values out of range are clamped silently, text after a space and leading blanks are accepted, strings are cut to 63 bytes. Proved for strings without blanks and zero bytes up to 63 bytes, apart from the clamping."
  },
  {
   "property": "C106",
   "status": "proved",
   "theorems": [
    "Verif.Props.C106_integer",
    "Verif.Props.C106_numeric",
    "Verif.Props.C106_bool"
   ],
   "note": "Proved for all strings."
  },
  {
   "property": "C107",
   "status": "partial",
   "theorems": [
    "Verif.Props.C107_witness",
    "Verif.Props.C107_fails",
    "Verif.Props.C107_partial"
   ],
   "note": "Fails: '..' components lead to other repositories. Proved for paths without them."
  },
  {
   "property": "C108",
   "status": "partial",
   "theorems": [
    "Verif.Props.C108_witness",
    "Verif.Props.C108_fails",
    "Verif.Props.C108_join_partial",
    "Verif.Props.C108_split_partial",
    "Verif.Props.C108_absolute_partial",
    "Verif.Props.C108_here_partial",
    "Verif.Props.C108_basename_partial",
    "Verif.Props.C108_extension_partial"
   ],
   "note": "Fails: joining an empty first part gives an absolute path, and a leading backslash is a root for normalize but not for is_absolute. Proved for other paths without NUL."
  },
  {
   "property": "C109",
   "status": "partial",
   "theorems": [
    "Verif.Props.C109_witness",
    "Verif.Props.C109_fails",
    "Verif.Props.C109_partial",
    "Verif.Props.C109_none_partial"
   ],
   "note": "Fails: kinds of entries are not looked at, a directory or link named gray gives an empty binary. Proved for archives in which entries so named are regular files; refusal is exact."
  },
  {
   "property": "C110",
   "status": "partial",
   "theorems": [
    "Verif.Props.C110_witness",
    "Verif.Props.C110_fails",
    "Verif.Props.C110_partial"
   ],
   "note": "Fails: send and try_send read closed without the mutex while close writes it. Proved that this is the only race."
  },
  {
   "property": "C111",
   "status": "partial",
   "theorems": [
    "Verif.Props.C111_witness",
    "Verif.Props.C111_fails",
    "Verif.Props.C111_partial"
   ],
   "note": "Fails: the size in bytes wraps from 2^61 values on. Proved below."
  },
  {
   "property": "C112",
   "status": "partial",
   "theorems": [
    "Verif.Props.C112_witness",
    "Verif.Props.C112_fails",
    "Verif.Props.C112_partial"
   ],
   "note": "Fails: a send on a closed channel, or one that sleeps when it is closed, drops its value silently. Proved that values are dropped only once the channel is closed."
  },
  {
   "property": "C113",
   "status": "partial",
   "theorems": [
    "Verif.Props.C113_witness",
    "Verif.Props.C113_fails",
    "Verif.Props.C113_long_fails",
    "Verif.Props.C113_partial"
   ],
   "note": "Fails: a body is cut at its first NUL and at the end of the 65536 byte buffer while Content-Length says the whole length. Proved for bodies without NUL that fit."
  },
  {
   "property": "C114",
   "status": "partial",
   "theorems": [
    "Verif.Props.C114_witness",
    "Verif.Props.C114_fails",
    "Verif.Props.C114_cors_fails",
    "Verif.Props.C114_partial",
    "Verif.Props.C114_cors",
    "Verif.Props.C114_redirect",
    "Verif.Props.C114_reason"
   ],
   "note": "Fails: a redirect location with CR LF adds header lines; an origin over 351 bytes cuts the CORS lines and merges the next line. Proved without line breaks and NULs, for shorter origins and responses that fit."
  },
  {
   "property": "C115",
   "status": "partial",
   "theorems": [
    "Verif.Props.C115_witness",
    "Verif.Props.C115_fails",
    "Verif.Props.C115_partial"
   ],
   "note": "Fails: after a piece without '=' the next pair is swallowed into its key. Proved if at most the last piece has no '='."
  },
  {
   "property": "C116",
   "status": "partial",
   "theorems": [
    "Verif.Props.C116_witness",
    "Verif.Props.C116_fails",
    "Verif.Props.C116_partial",
    "Verif.Props.C116_no_colon"
   ],
   "note": "Fails: only the first piece is read. Proved for requests that arrive in one piece of at most 65535 bytes."
  },
  {
   "property": "C117",
   "status": "partial",
   "theorems": [
    "Verif.Props.C117_witness",
    "Verif.Props.C117_fails",
    "Verif.Props.C117_partial"
   ],
   "note": "Fails: after a reset or the end of a scope the next block made replaces the rest of the chain, which is then never freed; a loop loses a block per round. Proved for arenas that only allocate."
  },
  {
   "property": "C118",
   "status": "partial",
   "theorems": [
    "Verif.Props.C118_min_witness",
    "Verif.Props.C118_sign_witness",
    "Verif.Props.C118_abs_witness",
    "Verif.Props.C118_fails",
    "Verif.Props.C118_mixed_fails",
    "Verif.Props.C118_partial",
    "Verif.Props.C118_float_partial"
   ],
   "note": "Fails: min(3, 2.5) is 2, max(2^63, 1) of unsigned integers is 1, sign(0.5) is 0, abs(-2^63) is undefined. Proved for integers in the range of int."
  },
  {
   "property": "C119",
   "status": "partial",
   "theorems": [
    "Verif.Props.C119_witness",
    "Verif.Props.C119_char_witness",
    "Verif.Props.C119_fails",
    "Verif.Props.C119_char_fails",
    "Verif.Props.C119_partial",
    "Verif.Props.C119_bool"
   ],
   "note": "Fails: the largest generator output gives exactly 1.0, and rand_char('a', 'z') never returns 'z'. Proved: floats are in [0, 1] with 1 for one output only; characters are in [min, max) and each of these can occur."
  },
  {
   "property": "C120",
   "status": "partial",
   "theorems": [
    "Verif.Props.C120_witness",
    "Verif.Props.C120_fails",
    "Verif.Props.C120_partial"
   ],
   "note": "Fails: escapes are not undone, so a quote comes back as backslash quote. Proved: exactly the escaped map comes back, which is the map itself iff nothing needs escaping."
  },
  {
   "property": "C121",
   "status": "proved",
   "theorems": [
    "Verif.Props.C121_ends",
    "Verif.Props.C121_items",
    "Verif.Props.C121_empty"
   ],
   "note": "Proved for all texts and all arrays; elements keep the whitespace behind them."
  },
  {
   "property": "C122",
   "status": "partial",
   "theorems": [
    "Verif.Props.C122_witness",
    "Verif.Props.C122_fails",
    "Verif.Props.C122_partial"
   ],
   "note": "Fails: pretty_print of an empty map writes 5 bytes into 4. Proved for all else, validity included; counters are taken as unbounded (int in C)."
  },
  {
   "property": "C123",
   "status": "partial",
   "theorems": [
    "Verif.Props.C123_witness",
    "Verif.Props.C123_fails",
    "Verif.Props.C123_partial",
    "Verif.Props.C123_same_partial"
   ],
   "note": "Fails: fields of other types (i32, u8, arrays, structs) give {\"a\": }, which is invalid, and strings come back escaped. Proved for strings, int and bool fields; floats are not modelled."
  },
  {
   "property": "C124",
   "status": "proved",
   "theorems": [
    "Verif.Props.C124_keywords"
   ],
   "note": "Proved, with the order of the table."
  },
  {
   "property": "C125",
   "status": "proved",
   "theorems": [
    "Verif.Props.C125_tokens"
   ],
   "note": "Proved for tokens with white space between them; tokens without it are not covered, except in C130."
  },
  {
   "property": "C126",
   "status": "partial",
   "theorems": [
    "Verif.Props.C126_witness",
    "Verif.Props.C126_comment_witness",
    "Verif.Props.C126_fails",
    "Verif.Props.C126_partial"
   ],
   "note": "Fails: a carriage return alone ends neither a line nor a comment. Proved when each is followed by a line feed; columns are bytes."
  },
  {
   "property": "C127",
   "status": "proved",
   "theorems": [
    "Verif.Props.C127_strings",
    "Verif.Props.C127_raw"
   ],
   "note": "Proved in both directions."
  },
  {
   "property": "C128",
   "status": "partial",
   "theorems": [
    "Verif.Props.C128_witness",
    "Verif.Props.C128_hex_witness",
    "Verif.Props.C128_fails",
    "Verif.Props.C128_partial"
   ],
   "note": "Fails for characters outside ASCII and for \\x41; \\x alone is taken as the letter. Proved for ASCII characters and the other escapes."
  },
  {
   "property": "C129",
   "status": "partial",
   "theorems": [
    "Verif.Props.C129_witness",
    "Verif.Props.C129_raw_witness",
    "Verif.Props.C129_fails",
    "Verif.Props.C129_partial",
    "Verif.Props.C129_raw_partial"
   ],
   "note": "Fails: \"\\01\" is one byte, \"\\\\$\" loses its backslash, \"\\0\\x41\" gets length 4, raw strings with \\0 are cut in functions. Proved for all other literals without interpolation."
  },
  {
   "property": "C130",
   "status": "partial",
   "theorems": [
    "Verif.Props.C130_witness",
    "Verif.Props.C130_fails",
    "Verif.Props.C130_partial"
   ],
   "note": "Fails: !in_range is read as !in _range. Proved for names without in and a digit or underscore at the start."
  },
  {
   "property": "C131",
   "status": "partial",
   "theorems": [
    "Verif.Props.C131_witness",
    "Verif.Props.C131_when_witness",
    "Verif.Props.C131_fails",
    "Verif.Props.C131_partial",
    "Verif.Props.C131_compare_partial"
   ],
   "note": "Refuted: a condition that ends in a name with a capital first letter (`if DEBUG { }`, `if a && FLAG { }`) is read as a struct literal. A comparison on the way resets no_struct_literal to false (parser.c:1114), so `when a == b && FLAG {` fails too although `when` sets it. Holds when the last token is not such a name, and when the name is the right operand of a comparison."
  },
  {
   "property": "C132",
   "status": "partial",
   "theorems": [
    "Verif.Props.C132_partial",
    "Verif.Props.C132_witness",
    "Verif.Props.C132_fails"
   ],
   "note": "Refuted: the flag that suppresses struct literals on the right of a comparison stays set inside parentheses and arguments, so `d < f(P{x: 1})` is rejected. Holds for the other binary operators."
  },
  {
   "property": "C133",
   "status": "partial",
   "theorems": [
    "Verif.Props.C133_witness",
    "Verif.Props.C133_return_witness",
    "Verif.Props.C133_fails",
    "Verif.Props.C133_partial"
   ],
   "note": "Fails: ensure statements are collected from the whole body, so one after an early return runs although never reached; and they run before the return value is computed. Proved for functions whose ensures come first and whose return values do nothing."
  },
  {
   "property": "C134",
   "status": "proved",
   "theorems": [
    "Verif.Props.C134_meaning",
    "Verif.Props.C134_no_fault",
    "Verif.Props.C134_restored"
   ],
   "note": "Proved by simulation: the emitted C, with its numbered arena variables, against a meaning with nested scopes."
  },
  {
   "property": "C135",
   "status": "partial",
   "theorems": [
    "Verif.Props.C135_witness",
    "Verif.Props.C135_named_witness",
    "Verif.Props.C135_fails",
    "Verif.Props.C135_partial"
   ],
   "note": "Fails: a loop with a return in it counts as returning although a break leaves it, and functions with named return values are not checked. Proved without these two."
  },
  {
   "property": "C136",
   "status": "partial",
   "theorems": [
    "Verif.Props.C136_partial",
    "Verif.Props.C136_witness",
    "Verif.Props.C136_field_witness",
    "Verif.Props.C136_elem_witness",
    "Verif.Props.C136_ref_witness",
    "Verif.Props.C136_return_witness",
    "Verif.Props.C136_global_witness",
    "Verif.Props.C136_fails"
   ],
   "note": "Refuted: an array assigned inside an if or loop to a variable declared outside, a string assigned there to a field or an element, a by-reference function assigning a string when called in a loop, a by-reference function returning a new string from inside an if, and a function appending to a global array all leave the variable pointing into a destroyed arena (or a reset part of one). Proved for all programs without those statements: strings assigned and elements appended at any depth, arguments, results and calls are safe."
  },
  {
   "property": "C137",
   "status": "partial",
   "theorems": [
    "Verif.Props.C137_witness",
    "Verif.Props.C137_nul_witness",
    "Verif.Props.C137_fails",
    "Verif.Props.C137_partial"
   ],
   "note": "Refuted: only the first 8191 bytes of the text and nothing after a NUL is looked at. Proved for shorter texts and patterns without NUL."
  },
  {
   "property": "C138",
   "status": "partial",
   "theorems": [
    "Verif.Props.C138_witness",
    "Verif.Props.C138_end_witness",
    "Verif.Props.C138_overread_witness",
    "Verif.Props.C138_fails",
    "Verif.Props.C138_partial"
   ],
   "note": "Refuted: ^a is found three times in aaa, $ is found twice, and a pattern with an empty match reads past the 8192 byte buffer for any longer text. Proved for texts that fit, patterns without ^ and without $ or without empty matches."
  },
  {
   "property": "C139",
   "status": "partial",
   "theorems": [
    "Verif.Props.C139_overflow_witness",
    "Verif.Props.C139_witness",
    "Verif.Props.C139_anchor_witness",
    "Verif.Props.C139_fails",
    "Verif.Props.C139_partial"
   ],
   "note": "Refuted: four matches replaced by 4095 bytes followed by 4000 bytes of text overflow the stack buffer of 16384 bytes; with five matches the fifth is left as it is; ^a is replaced repeatedly. Proved for texts that fit, plain patterns and results under 12288 bytes."
  },
  {
   "property": "C140",
   "status": "partial",
   "theorems": [
    "Verif.Props.C140_witness",
    "Verif.Props.C140_fails",
    "Verif.Props.C140_partial"
   ],
   "note": "Refuted: splitting abc at x* gives five empty strings. Proved for texts that fit and patterns without ^ and empty matches."
  },
  {
   "property": "C141",
   "status": "proved",
   "theorems": [
    "Verif.Props.C141_sha256",
    "Verif.Props.C141_padded"
   ],
   "note": "SHA-256 specified on bits, with the constants defined from real square and cube roots of the n-th prime; the model is the C code on 32-bit words with its typed-in table. Strings of more than 2^31-1 bytes do not exist (len is int32_t)."
  },
  {
   "property": "C142",
   "status": "proved",
   "theorems": [
    "Verif.Props.C142_md5",
    "Verif.Props.C142_padded"
   ],
   "note": "MD5 specified after RFC 1321, with the table from the real sine; the 64 entries are checked against a Taylor bound."
  },
  {
   "property": "C143",
   "status": "partial",
   "theorems": [
    "Verif.Props.C143_partial",
    "Verif.Props.C143_witness",
    "Verif.Props.C143_fails",
    "Verif.Props.C143_panics"
   ],
   "note": "Fails for lengths from 2^31 on: (int32_t)length makes the length negative or too small. Proved for all lengths up to 2^31-1, together with the two panics."
  },
  {
   "property": "C144",
   "status": "partial",
   "theorems": [
    "Verif.Props.C144_partial",
    "Verif.Props.C144_witness",
    "Verif.Props.C144_fails"
   ],
   "note": "Refuted: [[map[string:int]]], [[^Point]], [^[int]], [[int, 3]] and map[lib.Color:int] are refused, and a single result type of 256 bytes or more is silently cut to 255. C144_partial: every type built from names, grids of names, short maps in grids, [^name], long maps with a one-token key and arrays of them, sized arrays of names and maps, pointers and functions within the buffer limits is read to its end with its text."
  },
  {
   "property": "C145",
   "status": "partial",
   "theorems": [
    "Verif.Props.C145_arrays",
    "Verif.Props.C145_partial",
    "Verif.Props.C145_witness",
    "Verif.Props.C145_fails"
   ],
   "note": "Refuted: the element type of an array is cut at its first comma ([map[string:[int,3]]] becomes an array of 'map[string:[int'), a type of a module with an underscore in its name is unknown (my_mod.Point), a user type named like an opaque library type loses its module (game.Thread becomes Thread). C145_arrays: for arrays, right exactly when the element's text has no comma. C145_partial: everything else, function signatures in full."
  },
  {
   "property": "C146",
   "status": "partial",
   "theorems": [
    "Verif.Props.C146_partial",
    "Verif.Props.C146_witness",
    "Verif.Props.C146_fails"
   ],
   "note": "Refuted: map[string:[?]] against map[string:[int,3]] binds ? to 'int,3', which is no type; map[?:[?]] accepts a map[int:int]. C146_partial: right for all parameters whose maps with a wildcard key have no other wildcard than the value ?, against arguments without a sized array where the parameter has an unsized one."
  },
  {
   "property": "C147",
   "status": "partial",
   "theorems": [
    "Verif.Props.C147_partial",
    "Verif.Props.C147_witness",
    "Verif.Props.C147_fails"
   ],
   "note": "Refuted: ^?, [?,3], func(?) and map[?:[?]] never bind. C147_partial: ? itself, arrays, and maps with the wildcard as key, in the value, or as both."
  },
  {
   "property": "C148",
   "status": "proved",
   "theorems": [
    "Verif.Props.C148_same"
   ],
   "note": "Proved for all texts, well-formed or not."
  },
  {
   "property": "C149",
   "status": "partial",
   "theorems": [
    "Verif.Props.C149_partial",
    "Verif.Props.C149_witness",
    "Verif.Props.C149_fails"
   ],
   "note": "Refuted: [^P] and ^[P] give the same name; a function first__int has the name of the instance of first for int; names over 255 bytes are cut at the definition but not at the call; a function name of 254 bytes or more makes the definition write outside its buffer. C149_partial: distinct and equal at both places for function names without double or final underscore, types made of alphanumeric names, arrays and maps, up to 255 bytes."
  },
  {
   "property": "C150",
   "status": "partial",
   "theorems": [
    "Verif.Props.C150_partial",
    "Verif.Props.C150_witness",
    "Verif.Props.C150_fails"
   ],
   "note": "Refuted: parameters without ? are not checked at all in a generic call (a string passes for an int), and an argument of type func passes for any wildcard type. C150_partial: when every parameter has a wildcard (of the soundly bound kinds) and every argument a known type, one type fits all of them and it is the binding returned."
  },
  {
   "property": "C151",
   "status": "proved",
   "theorems": [
    "Verif.Props.C151_distance",
    "Verif.Props.C151_unique"
   ],
   "note": "Proved in full against a step-by-step definition of editing (any edit at any position), for all byte strings."
  },
  {
   "property": "C152",
   "status": "proved",
   "theorems": [
    "Verif.Props.C152_suggestion",
    "Verif.Props.C152_none",
    "Verif.Props.C152_total"
   ],
   "note": "Proved in full."
  },
  {
   "property": "C153",
   "status": "partial",
   "theorems": [
    "Verif.Props.C153_partial",
    "Verif.Props.C153_int_witness",
    "Verif.Props.C153_neg_witness",
    "Verif.Props.C153_i8_witness",
    "Verif.Props.C153_uint_witness",
    "Verif.Props.C153_fails",
    "Verif.Props.C153_zero",
    "Verif.Props.C153_c_signed",
    "Verif.Props.C153_c_unsigned",
    "Verif.Props.C153_compiler_ub"
   ],
   "note": "Refuted: literals are written without suffix, so 86400 * 1000000000 overflows C's int; -1 is emitted as a call, which is no C constant; i8 and uint constants wrap; a constant zero divisor is not found. Partial: int/i64 constants without negated literals in which no operation has two 32-bit operands in C."
  },
  {
   "property": "C154",
   "status": "partial",
   "theorems": [
    "Verif.Props.C154_witness",
    "Verif.Props.C154_fails",
    "Verif.Props.C154_min",
    "Verif.Props.C154_partial"
   ],
   "note": "Refuted for uint and u64: folding is done in int64_t, so 2^63 - 1 + 1 is reported as overflow (E5039); and -9223372036854775808 makes the compiler negate the least int64. Partial: all other types, without negated literals from 2^63 on."
  },
  {
   "property": "C155",
   "status": "partial",
   "theorems": [
    "Verif.Props.C155_witness",
    "Verif.Props.C155_gone_witness",
    "Verif.Props.C155_var_witness",
    "Verif.Props.C155_big_witness",
    "Verif.Props.C155_fails",
    "Verif.Props.C155_partial"
   ],
   "note": "Refuted: the table of constants is flat and searched from the first entry: with a constant N in two functions the second function gets the size of the first; names out of scope and hidden by variables are accepted; a size of 2^32 + 1 becomes 1. Partial: no name declared twice, sizes in scope and below 2^31, constants that fold."
  },
  {
   "property": "C156",
   "status": "partial",
   "theorems": [
    "Verif.Props.C156_witness",
    "Verif.Props.C156_dangling_witness",
    "Verif.Props.C156_hex_witness",
    "Verif.Props.C156_raw_witness",
    "Verif.Props.C156_fails",
    "Verif.Props.C156_partial"
   ],
   "note": "Refuted: \\x25 is a percent sign for C but not for the check, so \"\\x25n\" passes; \\x41B is not kept apart; raw strings are emitted without escaping. Partial: literals of plain characters and simple escapes whose value is a C11 format (no %b)."
  },
  {
   "property": "C157",
   "status": "partial",
   "theorems": [
    "Verif.Props.C157_witness",
    "Verif.Props.C157_i32_witness",
    "Verif.Props.C157_more_witness",
    "Verif.Props.C157_b_witness",
    "Verif.Props.C157_fails",
    "Verif.Props.C157_partial",
    "Verif.Props.C157_single_partial"
   ],
   "note": "Refuted: %x, %X, %o are not widened for 64-bit arguments; %d and %u are widened for i32, u8 and so on, whose arguments have 32 bits; %c takes an int; %Lf, %ls and wide integers are accepted; %b takes anything and is no C11 conversion. Partial: the table `sound` (the documented uses with int, uint, float, string, char, byte)."
  },
  {
   "property": "C158",
   "status": "partial",
   "theorems": [
    "Verif.Props.C158_witness",
    "Verif.Props.C158_char_witness",
    "Verif.Props.C158_len_witness",
    "Verif.Props.C158_fails",
    "Verif.Props.C158_partial"
   ],
   "note": "Refuted: the width counts bytes, and of the padding character one byte is used; from width 2^31 on the length is negative. Partial: ASCII text and characters, widths below 2^31."
  },
  {
   "property": "C159",
   "status": "proved",
   "theorems": [
    "Verif.Props.C159_bases"
   ],
   "note": "Proved in full; snprintf is taken to write the digits."
  },
  {
   "property": "C160",
   "status": "partial",
   "theorems": [
    "Verif.Props.C160_witness",
    "Verif.Props.C160_fails",
    "Verif.Props.C160_partial"
   ],
   "note": "Refuted: text of 64 bytes ends in a 0 byte, longer text is read past the buffer (float_fixed(1.0, 63)). Partial: it holds exactly up to 63 bytes."
  },
  {
   "property": "C161",
   "status": "partial",
   "theorems": [
    "Verif.Props.C161_witness",
    "Verif.Props.C161_fails",
    "Verif.Props.C161_partial"
   ],
   "note": "Refuted for one case only: a formatted text of 2^31 bytes or more is left out silently (vsnprintf returns a negative number). Partial: everything else, including the absence of size_t overflow."
  },
  {
   "property": "C162",
   "status": "proved",
   "theorems": [
    "Verif.Props.C162_errors_stop"
   ],
   "note": "Proved in full, for the two places where main looks at the list (imports are counted to the second)."
  },
  {
   "property": "C163",
   "status": "partial",
   "theorems": [
    "Verif.Props.C163_witness",
    "Verif.Props.C163_fails",
    "Verif.Props.C163_partial"
   ],
   "note": "Refuted: from the 21st on errors are dropped and not counted; the summary then says 20. Partial: what is shown is a part of the reported list in its order, with the first 20 errors, and the summary gives min(20, n)."
  },
  {
   "property": "C164",
   "status": "proved",
   "theorems": [
    "Verif.Props.C164_quiet"
   ],
   "note": "Proved in full for the list as grayc receives it (C168 is about what the command line passes)."
  },
  {
   "property": "C165",
   "status": "partial",
   "theorems": [
    "Verif.Props.C165_witness",
    "Verif.Props.C165_fails",
    "Verif.Props.C165_partial"
   ],
   "note": "Refuted: lines are cut at 2047 bytes, and after a 0 byte no line is shown. Partial: all files without 0 bytes and with lines below 2048 bytes, with any eviction from the cache."
  },
  {
   "property": "C166",
   "status": "partial",
   "theorems": [
    "Verif.Props.C166_witness",
    "Verif.Props.C166_fails",
    "Verif.Props.C166_partial"
   ],
   "note": "Refuted for every diagnostic: the row of the line starts with number, space, bar, space (six cells), that of the underline with three spaces, bar, space (five). Partial: the carets are exactly the width of the printed number minus two cells too far left."
  },
  {
   "property": "C167",
   "status": "partial",
   "theorems": [
    "Verif.Props.C167_witness",
    "Verif.Props.C167_option_witness",
    "Verif.Props.C167_fails",
    "Verif.Props.C167_partial"
   ],
   "note": "Refuted: grayc takes the arguments as its own, so the last one replaces the input file, and the program is started without any. Partial: without further arguments the named file is run."
  },
  {
   "property": "C168",
   "status": "partial",
   "theorems": [
    "Verif.Props.C168_witness",
    "Verif.Props.C168_fails",
    "Verif.Props.C168_partial"
   ],
   "note": "Refuted: a text that does not start with W or E (e.g. `w1001`) hides all warnings and is then taken as the input file. Partial: no -q, `all`, and lists starting with W or E."
  },
  {
   "property": "C169",
   "status": "partial",
   "theorems": [
    "Verif.Props.C169_witness",
    "Verif.Props.C169_fails",
    "Verif.Props.C169_partial"
   ],
   "note": "Refuted: every status other than 0 becomes 1. Partial: 0 if and only if the program ended with 0."
  },
  {
   "property": "C170",
   "status": "partial",
   "theorems": [
    "Verif.Props.C170_witness",
    "Verif.Props.C170_fails",
    "Verif.Props.C170_partial"
   ],
   "note": "Refuted: a quote in the path of the prebuilt archive is not looked for, although it is in the other two paths. Partial: archives without quote (or none), for all other paths."
  },
  {
   "property": "C171",
   "status": "partial",
   "theorems": [
    "Verif.Props.C171_witness",
    "Verif.Props.C171_fails",
    "Verif.Props.C171_partial"
   ],
   "note": "Refuted: the name in /tmp depends on the base name only. Partial: different base names of up to 2000 bytes."
  },
  {
   "property": "C172",
   "status": "partial",
   "theorems": [
    "Verif.Props.C172_witness",
    "Verif.Props.C172_fails",
    "Verif.Props.C172_partial"
   ],
   "note": "Refuted for the file name `.gray`, which is its own output. Partial: all others. Files without extension, which grayc accepts, are overwritten as well."
  },
  {
   "property": "C173",
   "status": "partial",
   "theorems": [
    "Verif.Props.C173_witness",
    "Verif.Props.C173_fails",
    "Verif.Props.C173_default_witness",
    "Verif.Props.C173_funcRef_witness",
    "Verif.Props.C173_partial"
   ],
   "note": "Refuted: a local variable or parameter with the name of a module's declaration is captured; default values and function references `()f` keep their old names. Partial: at most 256 names, no bound name that the module declares, no function references, counted lengths."
  },
  {
   "property": "C174",
   "status": "partial",
   "theorems": [
    "Verif.Props.C174_witness",
    "Verif.Props.C174_fails",
    "Verif.Props.C174_partial"
   ],
   "note": "Refuted: a call of the entry file's own `helper` becomes a call of `lib.helper` if the imported module declares that name. Partial: functions in which no label is a name of the module."
  },
  {
   "property": "C175",
   "status": "partial",
   "theorems": [
    "Verif.Props.C175_witness",
    "Verif.Props.C175_fails",
    "Verif.Props.C175_partial"
   ],
   "note": "Refuted: function types are not entered. Partial: arrays, sized arrays, pointers and maps nested to any depth, up to 255 bytes of text."
  },
  {
   "property": "C176",
   "status": "partial",
   "theorems": [
    "Verif.Props.C176_witness",
    "Verif.Props.C176_fails",
    "Verif.Props.C176_partial"
   ],
   "note": "Refuted: the type is compared as a whole, so `[Node]` keeps its name. Partial: types that are just a name."
  },
  {
   "property": "C177",
   "status": "partial",
   "theorems": [
    "Verif.Props.C177_witness",
    "Verif.Props.C177_fails",
    "Verif.Props.C177_partial"
   ],
   "note": "Refuted: `net.http_get` and `net_http.get` are both `net_http_get`. Partial: within a module and for modules without underscore, up to 255 bytes."
  },
  {
   "property": "C178",
   "status": "partial",
   "theorems": [
    "Verif.Props.C178_witness",
    "Verif.Props.C178_fails",
    "Verif.Props.C178_partial"
   ],
   "note": "Refuted: every variable is inserted before those inserted earlier. Partial: the entry file keeps its order; the declarations of an imported file are exactly reversed."
  },
  {
   "property": "C179",
   "status": "partial",
   "theorems": [
    "Verif.Props.C179_partial",
    "Verif.Props.C179_witness",
    "Verif.Props.C179_fails"
   ],
   "note": "Refuted: after 256 files nothing is remembered. Partial: up to 256 marks, with any hash collisions."
  },
  {
   "property": "C180",
   "status": "proved",
   "theorems": [
    "Verif.Props.C180_moduleName"
   ],
   "note": "Proved for names of up to 255 bytes that do not themselves end in `.gray`."
  },
  {
   "property": "C181",
   "status": "partial",
   "theorems": [
    "Verif.Props.C181_witness",
    "Verif.Props.C181_fails",
    "Verif.Props.C181_partial"
   ],
   "note": "Refuted: paths are relative to the importing file. Partial: files in the directory of the entry file; and what the path is for the entry file."
  },
  {
   "property": "C182",
   "status": "partial",
   "theorems": [
    "Verif.Props.C182_witness",
    "Verif.Props.C182_fails",
    "Verif.Props.C182_partial"
   ],
   "note": "Refuted: files beyond the 256th are left out silently. Partial: up to 256 source files and paths of 2047 bytes."
  },
  {
   "property": "C183",
   "status": "partial",
   "theorems": [
    "Verif.Props.C183_witness",
    "Verif.Props.C183_fails",
    "Verif.Props.C183_partial"
   ],
   "note": "Refuted: a file imported under two names is there under the first only. Partial: no file under two names, entry file not imported."
  },
  {
   "property": "C184",
   "status": "partial",
   "theorems": [
    "Verif.Props.C184_partial",
    "Verif.Props.C184_operators_partial",
    "Verif.Props.C184_return",
    "Verif.Props.C184_witness",
    "Verif.Props.C184_fails"
   ],
   "note": "Refuted: a `return` without values takes the next statement as its value. Partial: blocks in which a `return` without values is last and a name alone is not followed by a name."
  },
  {
   "property": "C185",
   "status": "partial",
   "theorems": [
    "Verif.Props.C185_witness",
    "Verif.Props.C185_fails",
    "Verif.Props.C185_when",
    "Verif.Props.C185_map",
    "Verif.Props.C185_partial"
   ],
   "note": "Refuted: blocks and `when` may end with the file; a map literal with a comma at its end takes the brace of the block. Partial: blocks after which something is left are closed, at every depth."
  },
  {
   "property": "C186",
   "status": "partial",
   "theorems": [
    "Verif.Props.C186_partial",
    "Verif.Props.C186_witness",
    "Verif.Props.C186_attributes",
    "Verif.Props.C186_fails"
   ],
   "note": "Refuted: `private`, `#flags` and `#strict` before any statement, stray tokens between the cases of `when`, one parenthesis around the head of `for`, and more. Partial: the tokens are a way to write the statements in the grammar with exactly these slips."
  },
  {
   "property": "C187",
   "status": "partial",
   "theorems": [
    "Verif.Props.C187_partial",
    "Verif.Props.C187_witness",
    "Verif.Props.C187_fails"
   ],
   "note": "Refuted: in `(x, y [int])` the names are lost, in `(x, y m.T)` the types differ, `(a, b)` gives no results. Partial: lists in which several names share only types that are a name."
  },
  {
   "property": "C188",
   "status": "proved",
   "theorems": [
    "Verif.Props.C188_parameters"
   ],
   "note": "Proved for all lists of groups of value parameters and for lists of type parameters."
  },
  {
   "property": "C189",
   "status": "partial",
   "theorems": [
    "Verif.Props.C189_partial",
    "Verif.Props.C189_witness",
    "Verif.Props.C189_fails"
   ],
   "note": "Refuted: `do f(a int, b)` has the parameter `a` only. Partial: at most one token, after the last comma, is ignored."
  },
  {
   "property": "C190",
   "status": "proved",
   "theorems": [
    "Verif.Props.C190_pieces",
    "Verif.Props.C190_all",
    "Verif.Props.C190_blank"
   ],
   "note": "Proved."
  },
  {
   "property": "C191",
   "status": "partial",
   "theorems": [
    "Verif.Props.C191_partial",
    "Verif.Props.C191_witness",
    "Verif.Props.C191_fails"
   ],
   "note": "Refuted: `'}'` and `\"{\"`, since quotes are not looked at. Partial: texts in which braces match."
  },
  {
   "property": "C192",
   "status": "partial",
   "theorems": [
    "Verif.Props.C192_partial",
    "Verif.Props.C192_witness",
    "Verif.Props.C192_fails"
   ],
   "note": "Refuted: `\"${x y}\"` gives `x`. Partial: code that is an expression is read as that expression."
  },
  {
   "property": "C193",
   "status": "partial",
   "theorems": [
    "Verif.Props.C193_partial",
    "Verif.Props.C193_witness",
    "Verif.Props.C193_fails"
   ],
   "note": "Refuted: not in strings with some `${\u2026}`. Partial: exactly in strings without."
  },
  {
   "property": "C194",
   "status": "partial",
   "theorems": [
    "Verif.Props.C194_partial",
    "Verif.Props.C194_overrun",
    "Verif.Props.C194_fails"
   ],
   "note": "Refuted: the 17th variable is written one place after the end before the number is checked. Partial: up to 16 variables."
  },
  {
   "property": "C195",
   "status": "partial",
   "theorems": [
    "Verif.Props.C195_partial",
    "Verif.Props.C195_witness",
    "Verif.Props.C195_fails"
   ],
   "note": "Refuted: a literal with underscores is cut after 127 other bytes. Partial: up to 127."
  },
  {
   "property": "C196",
   "status": "partial",
   "theorems": [
    "Verif.Props.C196_partial",
    "Verif.Props.C196_first_partial",
    "Verif.Props.C196_witness",
    "Verif.Props.C196_fails"
   ],
   "note": "Refuted: the 17th value is lost, and its first token is dropped. Partial: up to 16."
  },
  {
   "property": "C197",
   "status": "partial",
   "theorems": [
    "Verif.Props.C197_witness",
    "Verif.Props.C197_fails",
    "Verif.Props.C197_partial",
    "Verif.Props.C197_sum"
   ],
   "note": "Refuted: for floats `(a + b) / c` is written `(double)a + b / _dv`, which is `a + b / c`. Partial: the text is always read in one way, and as the source says if and only if no sum or difference of floats is divided."
  },
  {
   "property": "C198",
   "status": "partial",
   "theorems": [
    "Verif.Props.C198_witness",
    "Verif.Props.C198_fails",
    "Verif.Props.C198_partial",
    "Verif.Props.C198_others"
   ],
   "note": "Refuted: with a variable `_dv`, `_dv / x` computes `x / x`; a shift by a variable `_sa` reads an uninitialised variable. Partial: expressions whose divisions, shifts and searches of maps do not mention `_dv`, `_sa` and `_ik`."
  },
  {
   "property": "C199",
   "status": "partial",
   "theorems": [
    "Verif.Props.C199_witness",
    "Verif.Props.C199_fails",
    "Verif.Props.C199_partial",
    "Verif.Props.C199_right_first"
   ],
   "note": "Refuted: `f() / g()` always calls `g` first, as every division and shift does, and the order in `f() + g()` is left to the C compiler. Partial: expressions in which of two operands not joined by `&&` or `||` at most one has calls."
  },
  {
   "property": "C200",
   "status": "partial",
   "theorems": [
    "Verif.Props.C200_witness",
    "Verif.Props.C200_fails",
    "Verif.Props.C200_partial"
   ],
   "note": "Refuted: `f() in range(1, 2)` and, for a character, `c in s()` make the call twice. Partial: expressions with no call left of `in range`, at the end of such a range, or right of `in` for a character in a string."
  },
  {
   "property": "C201",
   "status": "partial",
   "theorems": [
    "Verif.Props.C201_witness",
    "Verif.Props.C201_fails",
    "Verif.Props.C201_partial"
   ],
   "note": "Refuted: arrays joined by `&&` or ordered with `<`, and `1 in f()`, which takes the address of a result. Partial: accepted by the C compiler if and only if no container is ordered or joined and only variables are searched."
  },
  {
   "property": "C202",
   "status": "partial",
   "theorems": [
    "Verif.Props.C202_witness",
    "Verif.Props.C202_fails",
    "Verif.Props.C202_partial",
    "Verif.Props.C202_user",
    "Verif.Props.C202_long_partial"
   ],
   "note": "Refuted: `http://me:pw@h/x` connects to the host `me` on port 0, `http://h?q` to the host `h?q`, a fragment is sent, an empty port is 0. Partial: exact for URLs without user and fragment that fit the buffers; a user without a password always becomes part of the host."
  },
  {
   "property": "C203",
   "status": "partial",
   "theorems": [
    "Verif.Props.C203_witness",
    "Verif.Props.C203_fails",
    "Verif.Props.C203_partial",
    "Verif.Props.C203_unterminated",
    "Verif.Props.C203_long",
    "Verif.Props.C203_unique"
   ],
   "note": "Refuted: a header value with a line break adds a header of its own, and a path with a space changes the request line. Partial: exact without line breaks, NULs and spaces when the head has fewer than 4094 bytes; with 4094 or 4095 bytes the empty line is not sent; longer heads are not sent; a message is read in one way only."
  },
  {
   "property": "C204",
   "status": "partial",
   "theorems": [
    "Verif.Props.C204_partial",
    "Verif.Props.C204_witness",
    "Verif.Props.C204_fails",
    "Verif.Props.C204_one"
   ],
   "note": "Refuted: a header that does not fit, followed by one more, is written behind the buffer, since the size left is computed by an unsigned subtraction that wraps. Partial: this happens if and only if the lines before the last header take more than 4096 bytes; never with one header."
  },
  {
   "property": "C205",
   "status": "partial",
   "theorems": [
    "Verif.Props.C205_witness",
    "Verif.Props.C205_fails",
    "Verif.Props.C205_partial",
    "Verif.Props.C205_default"
   ],
   "note": "Refuted: the port is never given. Partial: the host always is, so that requests to port 80 are right."
  },
  {
   "property": "C206",
   "status": "partial",
   "theorems": [
    "Verif.Props.C206_witness",
    "Verif.Props.C206_fails",
    "Verif.Props.C206_partial"
   ],
   "note": "Refuted: a JSON body posted with its Content-Type is announced as a form as well. Partial: for headers other than Host, Content-Length, Content-Type and Connection."
  },
  {
   "property": "C207",
   "status": "partial",
   "theorems": [
    "Verif.Props.C207_witness",
    "Verif.Props.C207_fails",
    "Verif.Props.C207_partial",
    "Verif.Props.C207_last"
   ],
   "note": "Refuted: the last field is always lost. Partial: all fields but the last are found, the later of two of the same name."
  },
  {
   "property": "C208",
   "status": "partial",
   "theorems": [
    "Verif.Props.C208_witness",
    "Verif.Props.C208_fails",
    "Verif.Props.C208_partial",
    "Verif.Props.C208_cut",
    "Verif.Props.C208_interim"
   ],
   "note": "Refuted: content in chunks is given with the sizes of its chunks. Partial: status and content are exact otherwise. An interim response is taken for the response, and what is longer than the buffer is cut without notice."
  },
  {
   "property": "C209",
   "status": "partial",
   "theorems": [
    "Verif.Props.C209_partial",
    "Verif.Props.C209_full",
    "Verif.Props.C209_witness",
    "Verif.Props.C209_fails",
    "Verif.Props.C209_bound"
   ],
   "note": "Refuted: the loop asks for as many bytes as are left, and the NUL comes after them: a response that fills the buffer puts it one byte behind. Partial: within for shorter responses, never further than one byte."
  },
  {
   "property": "C210",
   "status": "partial",
   "theorems": [
    "Verif.Props.C210_partial",
    "Verif.Props.C210_witness",
    "Verif.Props.C210_fails"
   ],
   "note": "Refuted: every piece takes a buffer for all that may still arrive: half a megabyte in pieces of a kilobyte takes more than 256 megabytes. Partial: bounds by the number of pieces, from below and above."
  },
  {
   "property": "C211",
   "status": "partial",
   "theorems": [
    "Verif.Props.C211_witness",
    "Verif.Props.C211_fails",
    "Verif.Props.C211_partial"
   ],
   "note": "Refuted: the client sends head and body separately, and the server reads once, so that the handler sees an empty body. Partial: exact when both arrive together."
  },
  {
   "property": "C212",
   "status": "partial",
   "theorems": [
    "Verif.Props.C212_witness",
    "Verif.Props.C212_fails",
    "Verif.Props.C212_partial"
   ],
   "note": "Refuted: a body is cut at its first NUL. Partial: exact for bodies without NUL that fit the server's buffer; of the fields only Connection is lost."
  },
  {
   "property": "C213",
   "status": "partial",
   "theorems": [
    "Verif.Props.C213_witness",
    "Verif.Props.C213_fails",
    "Verif.Props.C213_partial",
    "Verif.Props.C213_only_removes",
    "Verif.Props.C213_success",
    "Verif.Props.C213_paths"
   ],
   "note": "Refuted: a symbolic link in the directory is followed, what is in the directory it leads to is deleted, and the call fails since the link itself stays. Partial: without symbolic links below, with enough file descriptors and no path of 4096 bytes, exactly the directory is gone and success reported; with links nothing is made or changed, and success means that nothing is left of the directory."
  },
  {
   "property": "C214",
   "status": "partial",
   "theorems": [
    "Verif.Props.C214_witness",
    "Verif.Props.C214_fails",
    "Verif.Props.C214_partial",
    "Verif.Props.C214_levels",
    "Verif.Props.C214_silent"
   ],
   "note": "Refuted: a symbolic link to a directory above is listed again and again. Partial: exact and without repetitions without symbolic links; what is deeper than the number of file descriptors is never listed, and the fallible call reports no error then."
  },
  {
   "property": "C215",
   "status": "partial",
   "theorems": [
    "Verif.Props.C215_witness",
    "Verif.Props.C215_fails",
    "Verif.Props.C215_partial",
    "Verif.Props.C215_same"
   ],
   "note": "Refuted: a file copied to itself, under any spelling, is emptied and success is reported. Partial: exact for a copy to another place, and nothing else is changed."
  },
  {
   "property": "C216",
   "status": "partial",
   "theorems": [
    "Verif.Props.C216_witness",
    "Verif.Props.C216_fails",
    "Verif.Props.C216_partial",
    "Verif.Props.C216_result",
    "Verif.Props.C216_append_partial"
   ],
   "note": "Refuted: on a full disk a short text is lost and success reported, since fclose is not checked; the fallible write does not look at what was written at all. Partial: exact account of what is in the file and what is reported; with enough room all is right."
  },
  {
   "property": "C217",
   "status": "partial",
   "theorems": [
    "Verif.Props.C217_witness",
    "Verif.Props.C217_fails",
    "Verif.Props.C217_partial"
   ],
   "note": "Refuted: a file at the end of the path counts as success. Partial: without files, links and backslashes on the way all directories exist afterwards and nothing else is changed."
  },
  {
   "property": "C218",
   "status": "partial",
   "theorems": [
    "Verif.Props.C218_witness",
    "Verif.Props.C218_fails",
    "Verif.Props.C218_partial"
   ],
   "note": "Refuted: moved to another device that is full, a file of fewer than 4096 bytes is gone from both, and success is reported. Partial: exact within a device, and to another with enough room."
  },
  {
   "property": "C219",
   "status": "partial",
   "theorems": [
    "Verif.Props.C219_witness",
    "Verif.Props.C219_fails",
    "Verif.Props.C219_partial"
   ],
   "note": "Refuted: a directory that cannot be renamed, for instance to another device, ends the program in io.move_file. Partial: this is the only case; reading, writing, appending, deleting and copying always return."
  },
  {
   "property": "C220",
   "status": "partial",
   "theorems": [
    "Verif.Props.C220_witness",
    "Verif.Props.C220_fails",
    "Verif.Props.C220_partial",
    "Verif.Props.C220_all"
   ],
   "note": "Refuted: a carriage return at the end of a line is lost. Partial: exact account of the lines of any text; right for lines that do not end in one, and for all lines ended by carriage return and line feed."
  },
  {
   "property": "C221",
   "status": "partial",
   "theorems": [
    "Verif.Props.C221_witness",
    "Verif.Props.C221_fails",
    "Verif.Props.C221_partial",
    "Verif.Props.C221_file_partial"
   ],
   "note": "Refuted: at 2^30 bytes the program ends though a string may have twice as many. Partial: exact for all sizes, and for files that have a size."
  },
  {
   "property": "C222",
   "status": "partial",
   "theorems": [
    "Verif.Props.C222_partial",
    "Verif.Props.C222_witness",
    "Verif.Props.C222_fails"
   ],
   "note": "Refuted: only the first 256 are. Partial: exactly the first 256 are gone, and nothing else is changed."
  },
  {
   "property": "C223",
   "status": "partial",
   "theorems": [
    "Verif.Props.C223_witness",
    "Verif.Props.C223_fails",
    "Verif.Props.C223_partial"
   ],
   "note": "Refuted: a symbolic link to a directory cannot be: io.delete_file ends the program, io.remove_dir fails, and io.remove_dir_all deletes what is in the directory and fails. Partial: files, empty directories, and directories without links."
  },
  {
   "property": "C224",
   "status": "partial",
   "theorems": [
    "Verif.Props.C224_witness_all",
    "Verif.Props.C224_conversions",
    "Verif.Props.C224_fails",
    "Verif.Props.C224_partial"
   ],
   "note": "Refuted: `x = 5`, `mut b i256 = a` for an i128 a, `i128(a)`, `a + (1 + 2)`, a sum of two fields, `mut x u128 = -5`, an i128 plus a uint variable and a u128 plus an int variable are accepted and emitted as invalid C. Partial: a grammar of expressions whose text is valid in any declaration or assignment."
  },
  {
   "property": "C225",
   "status": "partial",
   "theorems": [
    "Verif.Props.C225_witness",
    "Verif.Props.C225_fails",
    "Verif.Props.C225_partial"
   ],
   "note": "Refuted: `mut x u128 = b + n` with n = -3 adds 2^64 - 3, and `a += u` for an i128 a and a uint u of 2^63 subtracts. Partial: exact if every 64-bit operand is a number its conversion keeps; what the other operands are worth is given."
  },
  {
   "property": "C226",
   "status": "partial",
   "theorems": [
    "Verif.Props.C226_witness",
    "Verif.Props.C226_fails",
    "Verif.Props.C226_partial"
   ],
   "note": "Refuted: the list of wide variables is never emptied, so that an `int` n after a function with an `i128` n makes `a + n` and `n + 1` invalid C. Partial: independent if no narrow variable of the statement has the name of a wide one of an earlier function."
  },
  {
   "property": "C227",
   "status": "partial",
   "theorems": [
    "Verif.Props.C227_witness",
    "Verif.Props.C227_fails",
    "Verif.Props.C227_partial"
   ],
   "note": "Refuted: `i128(5)` and `1 + a` are `int` for the checker and structures in C, and a cast without a conversion function keeps the type of its operand. Partial: what the checker finds to be wide is so in C if the casts have conversions, and the types agree without constructors and with the wider operand on the left."
  },
  {
   "property": "C228",
   "status": "partial",
   "theorems": [
    "Verif.Props.C228_witness",
    "Verif.Props.C228_fails",
    "Verif.Props.C228_partial",
    "Verif.Props.C228_value_partial"
   ],
   "note": "Refuted: `mut b = a` (no written type), `mut r [int] = m[0]`, an array of arrays or a struct taken from a field, `m[0] = r`, `{r}`, `arrays.append(m, r)`, `const c [int, 2] = a` and declarations at file scope share the array; two appends to such names overwrite each other. Partial: holds for programs in which what is stored into written variables is built anew or copied by a form that copies; and a declaration always takes over the value."
  },
  {
   "property": "C229",
   "status": "partial",
   "theorems": [
    "Verif.Props.C229_witness",
    "Verif.Props.C229_fails",
    "Verif.Props.C229_partial"
   ],
   "note": "Refuted: `g[0][0] = 9`, `c[0].x = 9`, `c[0]++` and `arrays.append(g[0], 9)` on constants are accepted and change them, as do writes through a second name of the array. Partial: holds if the longer paths written to start at variables declared with mut and the rule of C228 is followed."
  },
  {
   "property": "C230",
   "status": "partial",
   "theorems": [
    "Verif.Props.C230_witness",
    "Verif.Props.C230_fails",
    "Verif.Props.C230_partial"
   ],
   "note": "Refuted: `p.items[0] = 9`, `g[0][0] = 9`, `a[0]++` and `mut b = a` with `b[0] = 9` in the function change the caller's array. Partial: whatever the caller did, functions that write only to what they built or copied are safe."
  },
  {
   "property": "C231",
   "status": "partial",
   "theorems": [
    "Verif.Props.C231_witness",
    "Verif.Props.C231_fails",
    "Verif.Props.C231_partial"
   ],
   "note": "Refuted for all but addr: assignments are checked for at most one step, ++, library calls, & arguments and ref only for the bare variable. Partial: exactly which paths each check refuses; addr is right at every depth, and no check refuses a mutable variable."
  },
  {
   "property": "C232",
   "status": "partial",
   "theorems": [
    "Verif.Props.C232_all_partial",
    "Verif.Props.C232_partial",
    "Verif.Props.C232_ref_partial",
    "Verif.Props.C232_witness_swap",
    "Verif.Props.C232_witness_self",
    "Verif.Props.C232_witness_capture",
    "Verif.Props.C232_witness_chain",
    "Verif.Props.C232_witness_ref",
    "Verif.Props.C232_witness_gap",
    "Verif.Props.C232_fails"
   ],
   "note": "Refuted: when a default is used, `f(b, a)` gives parameter b the new a, `f(a + 1)` reads an uninitialised variable, and defaults take variables of the caller. Partial: holds when all are given; when no argument mentions its own parameter or an earlier one and the defaults used mention given parameters or names with one meaning; and with an & parameter when defaults mention no parameter."
  },
  {
   "property": "C233",
   "status": "partial",
   "theorems": [
    "Verif.Props.C233_sound_partial",
    "Verif.Props.C233_complete_partial",
    "Verif.Props.C233_missing_partial",
    "Verif.Props.C233_crash_partial",
    "Verif.Props.C233_witness",
    "Verif.Props.C233_fails"
   ],
   "note": "Refuted: `f(b: 1)` with a required parameter a before b leaves a null pointer that the checker follows. Partial: accepted calls are right, well-formed calls are accepted, a missing parameter is never accepted, and exactly which calls crash."
  },
  {
   "property": "C234",
   "status": "partial",
   "theorems": [
    "Verif.Props.C234_call_partial",
    "Verif.Props.C234_decl_partial",
    "Verif.Props.C234_unchecked",
    "Verif.Props.C234_witness_byte",
    "Verif.Props.C234_witness_float",
    "Verif.Props.C234_witness_struct",
    "Verif.Props.C234_fails"
   ],
   "note": "Refuted: [int] and [byte] are taken for one another everywhere, [float] is declared from a variable of [int], [int] from an array of structs; assignments, fields, elements and further return values compare no element types at all. Partial: holds for arguments, first return values and declarations without those mixes and with distinct names."
  },
  {
   "property": "C235",
   "status": "partial",
   "theorems": [
    "Verif.Props.C235_partial",
    "Verif.Props.C235_witness_struct",
    "Verif.Props.C235_witness_field",
    "Verif.Props.C235_witness_nil",
    "Verif.Props.C235_witness_enum",
    "Verif.Props.C235_unchecked",
    "Verif.Props.C235_witness_display",
    "Verif.Props.C235_fails"
   ],
   "note": "Refuted: an integer for a struct, a struct for an integer field, an enum of strings for an integer, nil as the result of any function, anything as second return value or map entry, structs with one display name. Partial: holds in declarations, assignments, arguments, first return values and fields without these."
  },
  {
   "property": "C236",
   "status": "partial",
   "theorems": [
    "Verif.Props.C236_partial",
    "Verif.Props.C236_int_partial",
    "Verif.Props.C236_witness_set",
    "Verif.Props.C236_witness_made",
    "Verif.Props.C236_witness_take",
    "Verif.Props.C236_witness_walk",
    "Verif.Props.C236_witness_uint",
    "Verif.Props.C236_fails",
    "Verif.Props.C236_exact_partial",
    "Verif.Props.C236_no_size_partial"
   ],
   "note": "Refuted: a[0] = 5 in an [i32] made by a literal stores four unknown bytes, an [i32] made empty is read eight bytes at a time, remove_last on a literal of small elements writes past a variable, arrays.map walks it with the wrong stride, a uint from 2^63 is negative. Partial: holds for int and i64; in general exactly when sizes fit (the condition on reads is proved exact), and no size of a small type fits both a[i] and arrays.map."
  },
  {
   "property": "C237",
   "status": "partial",
   "theorems": [
    "Verif.Props.C237_kept_partial",
    "Verif.Props.C237_exact_partial",
    "Verif.Props.C237_changed",
    "Verif.Props.C237_witness_check",
    "Verif.Props.C237_witness_assign",
    "Verif.Props.C237_witness_return",
    "Verif.Props.C237_fails",
    "Verif.Props.C237_stops",
    "Verif.Props.C237_refused"
   ],
   "note": "Refuted: assignments, returns, fields and elements wrap (300 to an i8 gives 44), and a u64 of 2^64-1 passes the check for i8 as -1. Partial: values in range always arrive; the pairs and places for which the claim holds are given exactly."
  },
  {
   "property": "C238",
   "status": "proved",
   "theorems": [
    "Verif.Props.C238_atomic",
    "Verif.Props.C238_not_stuck"
   ],
   "note": "Instruction-level model with x86-TSO store buffers. A call that has not returned is never stuck."
  },
  {
   "property": "C239",
   "status": "partial",
   "theorems": [
    "Verif.Props.C239_atomic_partial",
    "Verif.Props.C239_not_stuck_partial",
    "Verif.Props.C239_atomic_fails"
   ],
   "note": "Refuted: gray_atomic_cas8 compares 32 bits (cmp w3, w1), but the bits above a uint8_t argument are not specified by the calling convention. With 0x105 for an expected byte of 5 the exchange is not made. Partial: it holds if those bits are zero. gray_atomic_cas8 is part of the runtime interface; generated code does not call it at present. Memory order between different cells is simplified to program order."
  },
  {
   "property": "C240",
   "status": "proved",
   "theorems": [
    "Verif.Props.C240_exclusive",
    "Verif.Props.C240_reads_last",
    "Verif.Props.C240_free",
    "Verif.Props.C240_not_stuck",
    "Verif.Props.C240_gets_it",
    "Verif.Props.C240_taken"
   ],
   "note": "Instruction-level model with x86-TSO store buffers and any data cells."
  },
  {
   "property": "C241",
   "status": "proved",
   "theorems": [
    "Verif.Props.C241_exclusive",
    "Verif.Props.C241_free",
    "Verif.Props.C241_gets_it",
    "Verif.Props.C241_spurious"
   ],
   "note": "Memory order between different cells is simplified to program order, so nothing is claimed about the data."
  },
  {
   "property": "C242",
   "status": "partial",
   "theorems": [
    "Verif.Props.C242_handles_fails",
    "Verif.Props.C242_mutex_after_destroy_witness",
    "Verif.Props.C242_spinlock_copy_witness",
    "Verif.Props.C242_other_lock_witness",
    "Verif.Props.C242_careful_partial",
    "Verif.Props.C242_single_spinlocks_partial"
   ],
   "note": "Refuted: a mutex destroyed twice is freed twice, a mutex can be locked after it was destroyed, a copy of a spin lock is not cleared, and an old handle reaches a new lock at the same address. Partial: it holds if no handle of a destroyed lock is used, and for spin locks that are not copied."
  },
  {
   "property": "C243",
   "status": "partial",
   "theorems": [
    "Verif.Props.C243_memory",
    "Verif.Props.C243_bounded",
    "Verif.Props.C243_result_fails",
    "Verif.Props.C243_interrupted_witness",
    "Verif.Props.C243_waitpid_witness",
    "Verif.Props.C243_read_witness",
    "Verif.Props.C243_too_much_witness",
    "Verif.Props.C243_result_partial",
    "Verif.Props.C243_arguments",
    "Verif.Props.C243_argument_cut_witness"
   ],
   "note": "The buffers are proved never to be overrun, and to hold no more than the limit. Refuted for the result: exit code 127 and too much output give the same as a missing program, an interrupted select or read cuts the output off with ok set, and an interrupted waitpid gives code 0. Partial: right in all other cases; arguments arrive unless they have zero bytes."
  },
  {
   "property": "C244",
   "status": "partial",
   "theorems": [
    "Verif.Props.C244_set_fails",
    "Verif.Props.C244_equals_witness",
    "Verif.Props.C244_zero_witness",
    "Verif.Props.C244_same_name_witness",
    "Verif.Props.C244_set_partial",
    "Verif.Props.C244_others",
    "Verif.Props.C244_unset_partial"
   ],
   "note": "Refuted: empty names and names with an equals sign are silently not set; names and values are cut at zero bytes. Partial: it holds for all other names and values. That other variables are left alone holds always."
  },
  {
   "property": "C245",
   "status": "partial",
   "theorems": [
    "Verif.Props.C245_nothing_watched",
    "Verif.Props.C245_imports_fails",
    "Verif.Props.C245_bare_witness",
    "Verif.Props.C245_scanned_partial"
   ],
   "note": "Refuted for all programs: the scan takes the quotes around a path for a part of it, so that only the main file is ever watched, unless files have quotes or @ in their names. Partial: paths as the scan finds them are watched."
  },
  {
   "property": "C246",
   "status": "partial",
   "theorems": [
    "Verif.Props.C246_changes_fails",
    "Verif.Props.C246_lost_forever",
    "Verif.Props.C246_changes_partial",
    "Verif.Props.C246_recovers_partial"
   ],
   "note": "Refuted: a file that is replaced by a new one is not noticed, and with a single file nothing is ever noticed again. Partial: it holds if files are only written in place; a replaced file is watched again after the next run."
  },
  {
   "property": "C247",
   "status": "partial",
   "theorems": [
    "Verif.Props.C247_runs",
    "Verif.Props.C247_followed_partial",
    "Verif.Props.C247_bounded_fails",
    "Verif.Props.C247_apart",
    "Verif.Props.C247_overlap_witness"
   ],
   "note": "Refuted: events that follow each other within 100 ms put the run off for ever; a run does not wait for the one before it. Partial: the runs begin exactly 100 ms after those events that no other follows within that time, so every change is followed by a run, and two runs begin at least 100 ms apart."
  },
  {
   "property": "C248",
   "status": "partial",
   "theorems": [
    "Verif.Props.C248_main_fails",
    "Verif.Props.C248_space_witness",
    "Verif.Props.C248_long_line_witness",
    "Verif.Props.C248_main_partial",
    "Verif.Props.C248_line_partial"
   ],
   "note": "Refuted: a line in a comment counts, a function written with other white space does not, nor one after a line of 64 KiB. Partial: the file found is the only one with a line that begins with 'do main('."
  },
  {
   "property": "C249",
   "status": "partial",
   "theorems": [
    "Verif.Props.C249_no_crash",
    "Verif.Props.C249_collect_fails",
    "Verif.Props.C249_unclosed",
    "Verif.Props.C249_comment_witness",
    "Verif.Props.C249_attribute_witness",
    "Verif.Props.C249_signature_witness",
    "Verif.Props.C249_brace_witness",
    "Verif.Props.C249_long_line_witness",
    "Verif.Props.C249_collect_partial"
   ],
   "note": "Proved that no text makes it crash. Refuted: a description on the same line goes to the next declaration, a comment or attribute in between drops it, a brace in a string or comment cuts the signature or swallows the rest of the file, and a long line ends everything. Partial: sources with each description on its own line right before its declaration give exactly their entries."
  },
  {
   "property": "C250",
   "status": "partial",
   "theorems": [
    "Verif.Props.C250_text_fails",
    "Verif.Props.C250_text_partial",
    "Verif.Props.C250_present"
   ],
   "note": "Proved that each entry is in the text. Refuted for the rest: a description can hold headings and code, so that it looks like another entry. Partial: the entries can be read back if descriptions have no number sign, and names and signatures no back tick."
  },
  {
   "property": "C251",
   "status": "partial",
   "theorems": [
    "Verif.Props.C251_unpack_fails",
    "Verif.Props.C251_unpack_partial"
   ],
   "note": "Refuted: the tag is a hash of compiler and library only, so that a build with another header of the same size uses the old one. Partial: it holds if builds of one tag are the same, also after interrupted runs."
  },
  {
   "property": "C252",
   "status": "partial",
   "theorems": [
    "Verif.Props.C252_together_fails",
    "Verif.Props.C252_failed_witness",
    "Verif.Props.C252_size_witness",
    "Verif.Props.C252_alone_partial"
   ],
   "note": "Refuted: the second process cuts the temporary file just before the first renames it, or finds it moved away and fails. Partial: it holds for one process at a time."
  },
  {
   "property": "C253",
   "status": "partial",
   "theorems": [
    "Verif.Props.C253_check_fails",
    "Verif.Props.C253_broken_witness",
    "Verif.Props.C253_once",
    "Verif.Props.C253_check_partial",
    "Verif.Props.C253_format"
   ],
   "note": "Refuted: files that do not exist and files with errors count as formatted with --check. Partial: exact for files that are there and without errors. The other two parts are proved."
  },
  {
   "property": "C254",
   "status": "partial",
   "theorems": [
    "Verif.Props.C254_witness",
    "Verif.Props.C254_fails",
    "Verif.Props.C254_limits_fail",
    "Verif.Props.C254_partial"
   ],
   "note": "Refuted: port 65616 is port 80; a limit of -1000 ms ends every wait at once while -1001 is ignored; names are cut at a zero byte and at 255 bytes. Partial: exact for ports below 65536, limits from 0 and short names without zero bytes."
  },
  {
   "property": "C255",
   "status": "partial",
   "theorems": [
    "Verif.Props.C255_witness",
    "Verif.Props.C255_fails",
    "Verif.Props.C255_killed_fails",
    "Verif.Props.C255_recv_fails",
    "Verif.Props.C255_partial"
   ],
   "note": "Refuted: short sends are no errors, a connection closed by the other side ends the program by SIGPIPE, the end of the data is reported as an error, and a read from no socket is not. Partial: repeated sends of the rest deliver the data in order and whole, and data that arrive are returned whole."
  },
  {
   "property": "C256",
   "status": "partial",
   "theorems": [
    "Verif.Props.C256_witness",
    "Verif.Props.C256_fails",
    "Verif.Props.C256_partial",
    "Verif.Props.C256_dial_partial"
   ],
   "note": "Refuted: after closing a connection and making another, the old handle reaches the new connection, and closing it again closes that. Partial: handles of open sockets reach their socket, and closing them closes it and no other, after any operations."
  },
  {
   "property": "C257",
   "status": "partial",
   "theorems": [
    "Verif.Props.C257_witness",
    "Verif.Props.C257_elapsed_fails",
    "Verif.Props.C257_fails",
    "Verif.Props.C257_partial",
    "Verif.Props.C257_year_fails"
   ],
   "note": "Refuted: a null pointer is followed for late times, the sum with 1900 overflows for the last 1900 years that localtime knows, and the difference of ticks overflows for negative starts. Partial: exact within 67721000000000000 seconds of 1970 and for starts that are not negative."
  },
  {
   "property": "C258",
   "status": "partial",
   "theorems": [
    "Verif.Props.C258_witness",
    "Verif.Props.C258_fails",
    "Verif.Props.C258_partial"
   ],
   "note": "Refuted: a ring of 34 structs is not reported, because the search stops after 32. Partial: a report is never wrong, and cycles through up to 32 other structs are found."
  },
  {
   "property": "C259",
   "status": "partial",
   "theorems": [
    "Verif.Props.C259_witness",
    "Verif.Props.C259_fails",
    "Verif.Props.C259_partial"
   ],
   "note": "Refuted: structs each with two fields of the next one need 2^33-1 calls. Partial: the number of calls is bounded by the geometric sum of the number of fields over the depth."
  },
  {
   "property": "C260",
   "status": "partial",
   "theorems": [
    "Verif.Props.C260_witness",
    "Verif.Props.C260_fails",
    "Verif.Props.C260_limit_fails",
    "Verif.Props.C260_partial"
   ],
   "note": "Refuted: an enum with a struct as payload is defined before the struct, and the 257th struct is not defined at all. Partial: with up to 256 structs without cycles every struct is defined once, after the structs it contains."
  },
  {
   "property": "C261",
   "status": "partial",
   "theorems": [
    "Verif.Props.C261_witness",
    "Verif.Props.C261_fails",
    "Verif.Props.C261_partial"
   ],
   "note": "Refuted: A = 1, B, C = 2 gives B and C the value 2; equal values that are not literals are not seen; the 32nd flag is not an int. Partial: exact for literals only, for rising values, for no initial values, and for up to 31 flags."
  },
  {
   "property": "C262",
   "status": "partial",
   "theorems": [
    "Verif.Props.C262_witness",
    "Verif.Props.C262_fails",
    "Verif.Props.C262_partial"
   ],
   "note": "Refuted: [int] is read as three types. Partial: every token is read as one type, so the types are those written exactly if each is one token."
  },
  {
   "property": "C263",
   "status": "partial",
   "theorems": [
    "Verif.Props.C263_witness",
    "Verif.Props.C263_fails",
    "Verif.Props.C263_partial"
   ],
   "note": "Refuted: one escape sequence adds a zero byte to the value, two read past the literal, and raw strings are read as C literals. Partial: an interpreted literal has its value exactly if it has no escape sequence; raw ones without backslash, quote and newline do."
  },
  {
   "property": "C264",
   "status": "partial",
   "theorems": [
    "Verif.Props.C264_array",
    "Verif.Props.C264_witness",
    "Verif.Props.C264_fails",
    "Verif.Props.C264_partial"
   ],
   "note": "Refuted: an array type of 258 bytes goes past the end of the buffer. Partial: texts of up to 257 bytes are safe, and for arrays this bound is exact."
  },
  {
   "property": "C265",
   "status": "proved",
   "theorems": [
    "Verif.Props.C265_tables",
    "Verif.Props.C265_order"
   ],
   "note": "Proved; also that order matters: a table out of order misses entries."
  },
  {
   "property": "C266",
   "status": "partial",
   "theorems": [
    "Verif.Props.C266_witness",
    "Verif.Props.C266_fails",
    "Verif.Props.C266_clash_fails",
    "Verif.Props.C266_partial"
   ],
   "note": "Refuted: _Bool and the other keywords of C11 with an underscore are not renamed; auto and _gray_auto get the same C name. Partial: right for names that do not begin with an underscore."
  },
  {
   "property": "C267",
   "status": "partial",
   "theorems": [
    "Verif.Props.C267_witness",
    "Verif.Props.C267_fails",
    "Verif.Props.C267_partial"
   ],
   "note": "Refuted: an inner `mut x int = x` reads itself, `for i in range(i, n)` starts at itself, `p.next = _dp` stores p in itself, a parameter declared again does not compile, a loop variable `free` and a parameter `int64_t` capture names of the text. Partial: right for names that do not begin with an underscore and are not used by the text, if no declaration mentions its own name and no parameter is declared again."
  },
  {
   "property": "C268",
   "status": "partial",
   "theorems": [
    "Verif.Props.C268_witness",
    "Verif.Props.C268_fails",
    "Verif.Props.C268_partial",
    "Verif.Props.C268_at_once"
   ],
   "note": "Refuted: with four names that are C words in the upper bound the loop counts another variable up. Partial: right if the variable is no C word or fewer than four such names occur in the bounds; names written at once are always right."
  },
  {
   "property": "C269",
   "status": "partial",
   "theorems": [
    "Verif.Props.C269_witness",
    "Verif.Props.C269_fails",
    "Verif.Props.C269_partial"
   ],
   "note": "Refuted: after a reference r in one function, an integer r in another is dereferenced. Partial: right if no name is that of a reference in one place and of another variable in another."
  },
  {
   "property": "C270",
   "status": "partial",
   "theorems": [
    "Verif.Props.C270_witness",
    "Verif.Props.C270_fails",
    "Verif.Props.C270_partial"
   ],
   "note": "Refuted: with `using math` a local variable E is written as 2.718.... Partial: a constant is written exactly if a module in use has one of that name."
  },
  {
   "property": "C271",
   "status": "partial",
   "theorems": [
    "Verif.Props.C271_witness",
    "Verif.Props.C271_fails",
    "Verif.Props.C271_map_fails",
    "Verif.Props.C271_partial"
   ],
   "note": "Refuted: an enum color is written as color and defined as GrayEnum_color; a map from Color to Point gets keys of the size of Point. Partial: right for names with a capital up to 244 bytes, and for maps of which not both types are the user's."
  },
  {
   "property": "C272",
   "status": "partial",
   "theorems": [
    "Verif.Props.C272_witness",
    "Verif.Props.C272_fails",
    "Verif.Props.C272_partial",
    "Verif.Props.C272_spellings"
   ],
   "note": "Refuted: `is square(k)` is taken for a pattern. Partial: calls without arguments or with an argument that is no identifier are read as calls, all others as patterns; the three spellings of patterns are read as such."
  },
  {
   "property": "C273",
   "status": "partial",
   "theorems": [
    "Verif.Props.C273_witness",
    "Verif.Props.C273_fails",
    "Verif.Props.C273_brace_fails",
    "Verif.Props.C273_end_fails",
    "Verif.Props.C273_partial",
    "Verif.Props.C273_errors"
   ],
   "note": "Refuted: tokens between cases that are neither `is` nor `default` are skipped, a block among them ends the statement, and the last brace may be missing. Partial: cases and at most one default in any number and order are read as written; two defaults and empty statements are errors."
  },
  {
   "property": "C274",
   "status": "partial",
   "theorems": [
    "Verif.Props.C274_witness",
    "Verif.Props.C274_fails",
    "Verif.Props.C274_step_fails",
    "Verif.Props.C274_ub_fails",
    "Verif.Props.C274_text_fails",
    "Verif.Props.C274_partial",
    "Verif.Props.C274_unique"
   ],
   "note": "Refuted: -1 matches the largest uint, a negative step in a variable never matches, a step of 0 and large differences are undefined, range(n) is not C. Partial: right for values as signed as the subject or not negative, and ranges with a start and a step that is positive or written with a minus."
  },
  {
   "property": "C275",
   "status": "partial",
   "theorems": [
    "Verif.Props.C275_witness",
    "Verif.Props.C275_fails",
    "Verif.Props.C275_other_fails",
    "Verif.Props.C275_partial"
   ],
   "note": "Refuted: integers are compared with the number of the variant and not its value, variants of other enums count, and subjects of type int are accepted. Partial: right if all case values are variants of the subject's enum, and then there is an error exactly if a variant is not named."
  },
  {
   "property": "C276",
   "status": "partial",
   "theorems": [
    "Verif.Props.C276_witness",
    "Verif.Props.C276_fails",
    "Verif.Props.C276_partial"
   ],
   "note": "Refuted: equal values in one case, negative integers, characters and variants are not reported. Partial: exact for integers and strings in different cases."
  },
  {
   "property": "C277",
   "status": "partial",
   "theorems": [
    "Verif.Props.C277_witness",
    "Verif.Props.C277_fails",
    "Verif.Props.C277_other_fails",
    "Verif.Props.C277_partial"
   ],
   "note": "Refuted: a name that is a C word is declared as it is and used under another name, `(x, x)` is accepted, and the enum that is written is ignored. Partial: the names agree exactly if none is a C word; accepted patterns have a variant of the enum and a name for each part of the payload."
  },
  {
   "property": "C278",
   "status": "partial",
   "theorems": [
    "Verif.Props.C278_witness",
    "Verif.Props.C278_fails",
    "Verif.Props.C278_partial",
    "Verif.Props.C278_same"
   ],
   "note": "Refuted: an i128 and an integer literal. Partial: the exact list: wide integers with other types, different sorts of enums, enums of strings or with payloads with numbers, variants of other enums."
  },
  {
   "property": "C279",
   "status": "partial",
   "theorems": [
    "Verif.Props.C279_witness",
    "Verif.Props.C279_fails",
    "Verif.Props.C279_partial",
    "Verif.Props.C279_subject"
   ],
   "note": "Refuted: the start of a range with a step is evaluated again after the end. Partial: right without steps; nothing after the value that matches is evaluated in any case."
  },
  {
   "property": "C280",
   "status": "partial",
   "theorems": [
    "Verif.Props.C280_witness",
    "Verif.Props.C280_fails",
    "Verif.Props.C280_partial",
    "Verif.Props.C280_last"
   ],
   "note": "Refuted: statements after a return are written but not checked. Partial: exactly what comes up to the first return is checked."
  },
  {
   "property": "C281",
   "status": "partial",
   "theorems": [
    "Verif.Props.C281_witness",
    "Verif.Props.C281_witness_file",
    "Verif.Props.C281_witness_var",
    "Verif.Props.C281_fails",
    "Verif.Props.C281_partial"
   ],
   "note": "Refuted: with `using math`, even in another file, calls of the program's own `max` become calls of the library's; a call of the function in the variable `total` becomes a call of a struct's function `total`. Partial: all using in the same file, no function or variable called like a library function of a used module, no function whose name after the first underscore is the called one, and none of the twenty names for which the tables differ."
  },
  {
   "property": "C282",
   "status": "partial",
   "theorems": [
    "Verif.Props.C282_witness",
    "Verif.Props.C282_fails",
    "Verif.Props.C282_partial"
   ],
   "note": "Refuted: the code generator does not look at files, so `using math` in an imported file changes the calls of the main file's own `max`. Partial: true of the checker."
  },
  {
   "property": "C283",
   "status": "partial",
   "theorems": [
    "Verif.Props.C283_witness",
    "Verif.Props.C283_fails",
    "Verif.Props.C283_partial"
   ],
   "note": "Refuted: `using strconv` and `to_int(\"5\")` is accepted and compiled as a call of a variable that does not exist. Partial: the unknown ones are exactly seventeen, all ten of strconv among them."
  },
  {
   "property": "C284",
   "status": "partial",
   "theorems": [
    "Verif.Props.C284_witness",
    "Verif.Props.C284_fails",
    "Verif.Props.C284_partial"
   ],
   "note": "Refuted: `secret()` calls the private function `secret` of an imported module, without using; only `lib.secret()` is an error. Partial: calls with a dot reach private functions only in functions of the same struct."
  },
  {
   "property": "C285",
   "status": "partial",
   "theorems": [
    "Verif.Props.C285_witness",
    "Verif.Props.C285_fails",
    "Verif.Props.C285_partial",
    "Verif.Props.C285_direct"
   ],
   "note": "Refuted: calls of functions of modules are not counted; `geo.area(3)` passes 0 as the second argument. Partial: right for functions of structs, and for calls without a dot that are checked against a function, if default values are the last ones."
  },
  {
   "property": "C286",
   "status": "partial",
   "theorems": [
    "Verif.Props.C286_witness",
    "Verif.Props.C286_fails",
    "Verif.Props.C286_partial"
   ],
   "note": "Refuted: if an imported module has a function `helper`, the main file's own `helper` is \"already declared\". Partial: accepted if no function is called like the rest of another's name after the first underscore."
  },
  {
   "property": "C287",
   "status": "partial",
   "theorems": [
    "Verif.Props.C287_witness",
    "Verif.Props.C287_fails",
    "Verif.Props.C287_partial"
   ],
   "note": "Refuted: if there is a function `p_move`, then `p.move()` for a variable `p` calls that one, unchecked and without `p`. Partial: right, in the checker and in the C text, if there is no such function."
  },
  {
   "property": "C288",
   "status": "partial",
   "theorems": [
    "Verif.Props.C288_witness",
    "Verif.Props.C288_fails",
    "Verif.Props.C288_partial"
   ],
   "note": "Refuted: a module of the program that is called like a library module is seen by the checker only; `server.listen` calls the library's. Partial: right if the name before the dot is no library module's, structs are not called like aliases and no function is called like the rest of another's name."
  },
  {
   "property": "C289",
   "status": "partial",
   "theorems": [
    "Verif.Props.C289_witness",
    "Verif.Props.C289_fails",
    "Verif.Props.C289_partial"
   ],
   "note": "Refuted: `tree_size` of `Node` and `size` of `Node_tree` are both gray_fn_Node_tree_size. Partial: right if struct names have no underscore and no function is called like a struct with an underscore behind it."
  },
  {
   "property": "C290",
   "status": "partial",
   "theorems": [
    "Verif.Props.C290_witness",
    "Verif.Props.C290_fails",
    "Verif.Props.C290_partial"
   ],
   "note": "Refuted: `geo.aera(3, 4)` and a call through a name that is nothing at all are accepted as void. Partial: calls without a dot are reported; the others have no function in the C text either, unless a module is called like a library module."
  },
  {
   "property": "C291",
   "status": "partial",
   "theorems": [
    "Verif.Props.C291_witness",
    "Verif.Props.C291_fails",
    "Verif.Props.C291_partial",
    "Verif.Props.C291_entries_partial",
    "Verif.Props.C291_pointers_partial"
   ],
   "note": "Refuted: `m[k].x = 1`, `m[a][b] = 1`, `p^.a.x = 1`, `p^[0] = 1`, `p^.m[k] = 1`, `p.items[0].x = 1`, `f().x = 1`, unknown fields, and a field more than 32 fields away from a pointer. Partial: the targets that compile are characterised exactly (Assignable), and four families are shown never to compile."
  },
  {
   "property": "C292",
   "status": "partial",
   "theorems": [
    "Verif.Props.C292_witness",
    "Verif.Props.C292_fails",
    "Verif.Props.C292_partial",
    "Verif.Props.C292_stop_partial"
   ],
   "note": "Refuted: `e.message` of a nil Error is emitted as `e->message`. Partial: true of all paths without a field of an Error, and every path that dereferences a nil pointer panics with P0080."
  },
  {
   "property": "C293",
   "status": "proved",
   "theorems": [
    "Verif.Props.C293_write",
    "Verif.Props.C293_addr"
   ],
   "note": ""
  },
  {
   "property": "C294",
   "status": "partial",
   "theorems": [
    "Verif.Props.C294_witness",
    "Verif.Props.C294_fails",
    "Verif.Props.C294_partial",
    "Verif.Props.C294_division_partial"
   ],
   "note": "Refuted: through pointers the C operators are used: `p^ += 1` at the largest int and `p.n /= 0` are undefined, an i8 of 127 becomes -128; `p.items[0] /= 2` stores 2. Partial: right without pointers on variables and fields, and through pointers whenever the exact result fits."
  },
  {
   "property": "C295",
   "status": "partial",
   "theorems": [
    "Verif.Props.C295_witness",
    "Verif.Props.C295_fails",
    "Verif.Props.C295_partial"
   ],
   "note": "Refuted: `addr(p^)`, `addr(p.a.x)`, `addr(p.items[0])`, `ref(p.n)`. Partial: ref compiles exactly for lvalues, addr for lvalues and for fields of a pointer and of p^."
  },
  {
   "property": "C296",
   "status": "partial",
   "theorems": [
    "Verif.Props.C296_witness",
    "Verif.Props.C296_fails",
    "Verif.Props.C296_partial"
   ],
   "note": "Refuted: `s.vx` (any name that begins with v), `p^.x`, `a[0].x` and `f().x` are accepted for fields that do not exist. Partial: fields of variables and of fields, with names that do not begin with v."
  },
  {
   "property": "C297",
   "status": "partial",
   "theorems": [
    "Verif.Props.C297_witness",
    "Verif.Props.C297_fails",
    "Verif.Props.C297_partial"
   ],
   "note": "Refuted: `p.n++`, `m[k]++`, `p.items[0]++`, `p^.n++`. Partial: exactly on lvalues."
  },
  {
   "property": "C298",
   "status": "partial",
   "theorems": [
    "Verif.Props.C298_witness",
    "Verif.Props.C298_fails",
    "Verif.Props.C298_partial",
    "Verif.Props.C298_fields_partial"
   ],
   "note": "Refuted: `m[a][0]` of a map of arrays, `p^[0]`, `f().items[0]` and `f().m[k]`. Partial: the paths that compile are characterised exactly (Valid)."
  },
  {
   "property": "C299",
   "status": "partial",
   "theorems": [
    "Verif.Props.C299_partial",
    "Verif.Props.C299_lines_partial",
    "Verif.Props.C299_witness",
    "Verif.Props.C299_fails"
   ],
   "note": "Refuted: a line with a zero byte is cut there, and if it is long its end is returned as the next line; a line over 4095 bytes is cut; the end of the input looks like an empty line. Partial: lines without zero bytes of at most 4095 bytes, and sequences of them; of longer ones the first 4095 bytes, with the next call at the next line."
  },
  {
   "property": "C300",
   "status": "partial",
   "theorems": [
    "Verif.Props.C300_witness",
    "Verif.Props.C300_fails",
    "Verif.Props.C300_partial"
   ],
   "note": "Refuted: exit(256) is success. Partial: the status is n mod 256, so right for 0 to 255."
  },
  {
   "property": "C301",
   "status": "partial",
   "theorems": [
    "Verif.Props.C301_witness",
    "Verif.Props.C301_fails",
    "Verif.Props.C301_partial"
   ],
   "note": "Refuted: sleep_s(4294967296) does not wait (cast to unsigned), sleep_ns(-1) is not an error. Partial: all milliseconds, seconds below 2^32, nanoseconds that are not negative; tv_nsec is always in range."
  },
  {
   "property": "C302",
   "status": "partial",
   "theorems": [
    "Verif.Props.C302_witness",
    "Verif.Props.C302_fails",
    "Verif.Props.C302_partial"
   ],
   "note": "Refuted beyond U+10FFFF: nothing is printed, the string is U+FFFD. Partial: equal for all code points, and UTF-8 for scalar values."
  },
  {
   "property": "C303",
   "status": "partial",
   "theorems": [
    "Verif.Props.C303_witness",
    "Verif.Props.C303_fails",
    "Verif.Props.C303_partial"
   ],
   "note": "Refuted: a failure in sqlite3_step ends the rows without an error. Partial: nil handles and failures in preparing are errors with no rows; otherwise the rows are those of one execution."
  },
  {
   "property": "C304",
   "status": "partial",
   "theorems": [
    "Verif.Props.C304_witness",
    "Verif.Props.C304_fails",
    "Verif.Props.C304_partial",
    "Verif.Props.C304_row_partial"
   ],
   "note": "Refuted: columns of the same name (a join) are merged, texts are cut at a zero byte, NULL looks like the empty text. Partial: with different names, the row is the list of the columns with their texts up to a zero byte."
  },
  {
   "property": "C305",
   "status": "partial",
   "theorems": [
    "Verif.Props.C305_witness",
    "Verif.Props.C305_fails",
    "Verif.Props.C305_partial"
   ],
   "note": "Refuted: only the first statement is executed, without an error. Partial: texts with nothing after the first statement."
  },
  {
   "property": "C306",
   "status": "proved",
   "theorems": [
    "Verif.Props.C306_arena"
   ],
   "note": ""
  },
  {
   "property": "C307",
   "status": "partial",
   "theorems": [
    "Verif.Props.C307_witness",
    "Verif.Props.C307_fails",
    "Verif.Props.C307_partial"
   ],
   "note": "Refuted: quotes within strings are not escaped, so {\"a\", \"b\"} is one string or two; a string ends at a zero byte; a struct within itself is shown as Node{...}; an instance of a generic struct is shown without its fields. Partial: texts are uniquely readable, at any nesting, if strings have no quotes and zeros, characters are Unicode scalar values, and no struct is within itself. Floats are given by their %g text."
  },
  {
   "property": "C308",
   "status": "partial",
   "theorems": [
    "Verif.Props.C308_witness",
    "Verif.Props.C308_fails",
    "Verif.Props.C308_partial"
   ],
   "note": "Refuted: within 64 nested structs a tree is followed without end, and 65 nested structs leave the depth at -1, so that the next print writes before the table. Partial: programs with up to 64 structs."
  },
  {
   "property": "C309",
   "status": "partial",
   "theorems": [
    "Verif.Props.C309_witness",
    "Verif.Props.C309_fails",
    "Verif.Props.C309_partial"
   ],
   "note": "Refuted: elements that are wide integers, enums of strings or with payloads, and fields whose name is changed for C. Partial: with up to 64 structs, exactly these fail to compile."
  },
  {
   "property": "C310",
   "status": "partial",
   "theorems": [
    "Verif.Props.C310_witness",
    "Verif.Props.C310_fails",
    "Verif.Props.C310_partial"
   ],
   "note": "Refuted: a string of 4092 bytes is printed, but interpolating its array writes outside of the buffer. Partial: texts of at most 4001 bytes, strings without zero bytes, Unicode characters. Floats are left out: println uses %g within containers, interpolation the shortest text that reads back."
  },
  {
   "property": "C311",
   "status": "partial",
   "theorems": [
    "Verif.Props.C311_witness",
    "Verif.Props.C311_fails",
    "Verif.Props.C311_partial"
   ],
   "note": "Refuted: S{} of a struct whose first field has no default value and a later one has begins with a comma. Partial: exactly these literals are spoilt; of all others C reads the fields given and then the defaults of the others."
  },
  {
   "property": "C312",
   "status": "proved",
   "theorems": [
    "Verif.Props.C312_fields",
    "Verif.Props.C312_checks"
   ],
   "note": "Names of fields are taken to stay apart in C; that is the subject of other claims."
  },
  {
   "property": "C313",
   "status": "partial",
   "theorems": [
    "Verif.Props.C313_witness",
    "Verif.Props.C313_fails",
    "Verif.Props.C313_partial",
    "Verif.Props.C313_accepts"
   ],
   "note": "Refuted: arrays and maps of other elements, functions of other signatures, integers for structs and structs for integers, integers for enums of strings and for wide integers. Partial: all other types."
  },
  {
   "property": "C314",
   "status": "partial",
   "theorems": [
    "Verif.Props.C314_witness",
    "Verif.Props.C314_fails",
    "Verif.Props.C314_partial"
   ],
   "note": "Refuted both ways: 5 for a u8 field is an error, 300 for an i8 field is accepted and stored as 44. Partial: accepted exactly for signed types; stored unchanged exactly if in the range."
  },
  {
   "property": "C315",
   "status": "partial",
   "theorems": [
    "Verif.Props.C315_witness",
    "Verif.Props.C315_fails",
    "Verif.Props.C315_partial",
    "Verif.Props.C315_append_partial",
    "Verif.Props.C315_insert_partial"
   ],
   "note": "Refuted: arrays.insert_at and arrays.prepend store nothing, and reading is undefined. Partial: appending gives the same array as appending to a new one; arrays made by new are right."
  },
  {
   "property": "C316",
   "status": "partial",
   "theorems": [
    "Verif.Props.C316_witness",
    "Verif.Props.C316_fails",
    "Verif.Props.C316_partial"
   ],
   "note": "Refuted: a map left out in a literal, and one within a struct within a struct made by new, have no slots; getting, has and setting divide by zero. Partial: these exactly."
  },
  {
   "property": "C317",
   "status": "partial",
   "theorems": [
    "Verif.Props.C317_witness",
    "Verif.Props.C317_fails",
    "Verif.Props.C317_partial"
   ],
   "note": "Refuted: the type checker does not look at default values. Partial: structs marked #json may have none."
  },
  {
   "property": "C318",
   "status": "proved",
   "theorems": [
    "Verif.Props.C318_table",
    "Verif.Props.C318_pointers"
   ],
   "note": "Growing is included: entries are moved to a table twice as large, and never does a growth happen within a growth."
  },
  {
   "property": "C319",
   "status": "proved",
   "theorems": [
    "Verif.Props.C319_shared"
   ],
   "note": "Map literals and ranges make types outside of the index; these never disturb it."
  },
  {
   "property": "C320",
   "status": "partial",
   "theorems": [
    "Verif.Props.C320_witness",
    "Verif.Props.C320_fails",
    "Verif.Props.C320_partial"
   ],
   "note": "Refuted: every map literal and every range takes an entry each time it is resolved, so 4097 loops over ranges exhaust the pool. Partial: the exact number of entries needed."
  },
  {
   "property": "C321",
   "status": "proved",
   "theorems": [
    "Verif.Props.C321_ring"
   ],
   "note": "Pointers, arrays and maps have a ring of four buffers each."
  },
  {
   "property": "C322",
   "status": "partial",
   "theorems": [
    "Verif.Props.C322_witness",
    "Verif.Props.C322_fails",
    "Verif.Props.C322_partial"
   ],
   "note": "Refuted: texts are cut at 127 bytes. Partial: elements of up to 125 bytes have whole, different texts."
  },
  {
   "property": "C323",
   "status": "partial",
   "theorems": [
    "Verif.Props.C323_witness",
    "Verif.Props.C323_fails",
    "Verif.Props.C323_exactly",
    "Verif.Props.C323_partial",
    "Verif.Props.C323_equality"
   ],
   "note": "Refuted: a struct == an int, && on arrays, maps, structs and wide integers, bit operators on wide integers, ordering of aggregates of different kinds, arithmetic on errors and functions. Exact list, and all other operands compile."
  },
  {
   "property": "C324",
   "status": "partial",
   "theorems": [
    "Verif.Props.C324_witness",
    "Verif.Props.C324_fails",
    "Verif.Props.C324_extra",
    "Verif.Props.C324_refused",
    "Verif.Props.C324_logic",
    "Verif.Props.C324_partial",
    "Verif.Props.C324_order",
    "Verif.Props.C324_arithmetic"
   ],
   "note": "Refuted both ways: logical operators are refused on strings, nil and void only, bools are compared with integers, errors and functions are computed with; an i128 is not compared with an i256. Both lists are exact."
  },
  {
   "property": "C325",
   "status": "partial",
   "theorems": [
    "Verif.Props.C325_witness",
    "Verif.Props.C325_exactly",
    "Verif.Props.C325_fails",
    "Verif.Props.C325_result",
    "Verif.Props.C325_partial"
   ],
   "note": "Refuted: an int + an i128 has the type int and is an i128 in C; so are all with a wide integer on the right only, or with a float. Exact list; comparisons are all right."
  },
  {
   "property": "C326",
   "status": "partial",
   "theorems": [
    "Verif.Props.C326_witness",
    "Verif.Props.C326_fails",
    "Verif.Props.C326_partial",
    "Verif.Props.C326_accepted"
   ],
   "note": "Refuted: bit_not of a wide integer. All others compile with the right type; what is accepted is characterised."
  },
  {
   "property": "C327",
   "status": "partial",
   "theorems": [
    "Verif.Props.C327_witness",
    "Verif.Props.C327_fails",
    "Verif.Props.C327_partial",
    "Verif.Props.C327_accepted"
   ],
   "note": "Refuted: strings to strings, enums of strings and tagged enums from and to integers, wide integers without a function between them (an i128 cast to u256 is still an i128). Exact list, and the casts accepted are characterised."
  },
  {
   "property": "C328",
   "status": "partial",
   "theorems": [
    "Verif.Props.C328_witness",
    "Verif.Props.C328_fails",
    "Verif.Props.C328_partial",
    "Verif.Props.C328_past"
   ],
   "note": "Refuted: the array is copied as it is, so 300 is read as 44, and elements of larger types are read past the end. Partial: for targets that are not larger, elements in range keep their values and the others are cut."
  },
  {
   "property": "C329",
   "status": "partial",
   "theorems": [
    "Verif.Props.C329_witness",
    "Verif.Props.C329_fails",
    "Verif.Props.C329_partial"
   ],
   "note": "Refuted: the first use of an enum in a cast is an error, as the name counts as that of a struct. Partial: accepted exactly if the type has been made before."
  },
  {
   "property": "C330",
   "status": "partial",
   "theorems": [
    "Verif.Props.C330_witness",
    "Verif.Props.C330_fails",
    "Verif.Props.C330_partial",
    "Verif.Props.C330_small"
   ],
   "note": "Refuted: cast(x, foo) and cast(x, 5) are accepted. Partial: names with a capital letter must be enums or Error; all others that are not built-in ones are accepted."
  },
  {
   "property": "C331",
   "status": "partial",
   "theorems": [
    "Verif.Props.C331_witness",
    "Verif.Props.C331_fails",
    "Verif.Props.C331_partial"
   ],
   "note": "Refuted: Shape.Circle without arguments is accepted, and its payload is zero. Partial: exact conditions for calls, which have all payloads."
  },
  {
   "property": "C332",
   "status": "partial",
   "theorems": [
    "Verif.Props.C332_witness",
    "Verif.Props.C332_fails",
    "Verif.Props.C332_partial",
    "Verif.Props.C332_same_partial",
    "Verif.Props.C332_other"
   ],
   "note": "Refuted: V(i128, int) given 5 and 7 holds 5 + 7*2^64 and 0; -1 for an i128 is 2^64-1; 300 for an i8 is 44. Partial: arguments of the types of the payloads all arrive; others are converted."
  },
  {
   "property": "C333",
   "status": "partial",
   "theorems": [
    "Verif.Props.C333_witness",
    "Verif.Props.C333_fails",
    "Verif.Props.C333_partial",
    "Verif.Props.C333_float"
   ],
   "note": "Refuted: a variant of any enum passes for a payload of any other, and sets the tag only if that is tagged; wide integers mixed with others. Exact list of what is accepted and of what is set."
  },
  {
   "property": "C334",
   "status": "partial",
   "theorems": [
    "Verif.Props.C334_witness",
    "Verif.Props.C334_fails",
    "Verif.Props.C334_partial"
   ],
   "note": "Refuted: it is taken for a variant of the enum that is constructed, and rejected or not C. Exact description."
  },
  {
   "property": "C335",
   "status": "partial",
   "theorems": [
    "Verif.Props.C335_witness",
    "Verif.Props.C335_fails",
    "Verif.Props.C335_partial"
   ],
   "note": "Refuted: with the default 0 an int is cut to 32 bits, and a byte is read as four. Partial: right for defaults that are variables of the value type; exact condition for literals."
  },
  {
   "property": "C336",
   "status": "partial",
   "theorems": [
    "Verif.Props.C336_witness",
    "Verif.Props.C336_fails",
    "Verif.Props.C336_partial",
    "Verif.Props.C336_types"
   ],
   "note": "Refuted: a literal as key of a map[int:..] is a C int of which 8 bytes are read; so is an i32 on its own map. has_key(m, 261) finds the byte 5. Partial: has_key is right for keys of the type; exact condition for get_or_default."
  },
  {
   "property": "C337",
   "status": "partial",
   "theorems": [
    "Verif.Props.C337_witness",
    "Verif.Props.C337_fails",
    "Verif.Props.C337_partial"
   ],
   "note": "Refuted: 261 is found in a map with the byte 5. Partial: right for all values of the type."
  },
  {
   "property": "C338",
   "status": "partial",
   "theorems": [
    "Verif.Props.C338_witness",
    "Verif.Props.C338_fails",
    "Verif.Props.C338_partial",
    "Verif.Props.C338_encoders"
   ],
   "note": "Refuted: a uint or byte is read as a map, an f64 in an array as an int, an i32 in a map as a string, and all keys as strings. Exact list."
  },
  {
   "property": "C339",
   "status": "partial",
   "theorems": [
    "Verif.Props.C339_witness",
    "Verif.Props.C339_fails",
    "Verif.Props.C339_partial"
   ],
   "note": "A printf with more than 98 values is refused; all other documented calls outside arrays are accepted."
  },
  {
   "property": "C340",
   "status": "partial",
   "theorems": [
    "Verif.Props.C340_witness",
    "Verif.Props.C340_fails",
    "Verif.Props.C340_partial",
    "Verif.Props.C340_refuses_partial"
   ],
   "note": "rand_float(x) with one argument is accepted and has no text in C; rand_char(c) ignores its argument; listen takes three arguments; the numbers of arguments of 27 functions of arrays are not checked. Exact for all other functions."
  },
  {
   "property": "C341",
   "status": "partial",
   "theorems": [
    "Verif.Props.C341_witness",
    "Verif.Props.C341_fails",
    "Verif.Props.C341_partial",
    "Verif.Props.C341_unchecked"
   ],
   "note": "server and sqlite take anything for routers, databases, statements, handlers and statuses; math.sign takes floats. All other documented parameters are checked."
  },
  {
   "property": "C342",
   "status": "partial",
   "theorems": [
    "Verif.Props.C342_witness",
    "Verif.Props.C342_any",
    "Verif.Props.C342_fails",
    "Verif.Props.C342_partial",
    "Verif.Props.C342_unreachable"
   ],
   "note": "Every name is accepted in crypto, encoding, http and binary; mem.make, mem.free and threads.spawn_arg are accepted without a function; mem.zero, fill and raw_copy exist but are refused."
  },
  {
   "property": "C343",
   "status": "partial",
   "theorems": [
    "Verif.Props.C343_witness",
    "Verif.Props.C343_fails",
    "Verif.Props.C343_partial"
   ],
   "note": "The rows of sqlite.query have the type map instead of map[string:string]; all others agree."
  },
  {
   "property": "C344",
   "status": "partial",
   "theorems": [
    "Verif.Props.C344_witness",
    "Verif.Props.C344_fails",
    "Verif.Props.C344_partial"
   ],
   "note": "The keyword new is never shown: gray man new is the builtin. All other entries are shown for their own keys."
  },
  {
   "property": "C345",
   "status": "partial",
   "theorems": [
    "Verif.Props.C345_witness",
    "Verif.Props.C345_fails",
    "Verif.Props.C345_partial",
    "Verif.Props.C345_aliases"
   ],
   "note": "Twelve types and the keyword new show the builtin of that name, sixteen names of modules are ambiguous or a module, the alias json shows the module. Exact for all other names."
  },
  {
   "property": "C346",
   "status": "partial",
   "theorems": [
    "Verif.Props.C346_witness",
    "Verif.Props.C346_fails",
    "Verif.Props.C346_partial",
    "Verif.Props.C346_sound",
    "Verif.Props.C346_modules"
   ],
   "note": "The builtin embed is documented and not listed; everything else is."
  },
  {
   "property": "C347",
   "status": "partial",
   "theorems": [
    "Verif.Props.C347_witness",
    "Verif.Props.C347_fails",
    "Verif.Props.C347_partial",
    "Verif.Props.C347_ambiguous"
   ],
   "note": "The proposals for an ambiguous name come in the order of the visit; everything else is independent of it."
  },
  {
   "property": "C348",
   "status": "proved",
   "theorems": [
    "Verif.Props.C348_parentheses",
    "Verif.Props.C348_nothing"
   ],
   "note": ""
  },
  {
   "property": "C349",
   "status": "partial",
   "theorems": [
    "Verif.Props.C349_witness",
    "Verif.Props.C349_fails",
    "Verif.Props.C349_partial",
    "Verif.Props.C349_index"
   ],
   "note": "Arrays of arrays, maps and pointers are read as 64-bit integers, and so are smaller integers of arrays not made by a literal; f32 of such arrays as double. Exact for all others; a[i] differs from choice for arrays, maps and pointers."
  },
  {
   "property": "C350",
   "status": "partial",
   "theorems": [
    "Verif.Props.C350_witness",
    "Verif.Props.C350_fails",
    "Verif.Props.C350_partial",
    "Verif.Props.C350_pointer"
   ],
   "note": "Values other than strings and array literals become pointers; literals of characters, bytes, structs, enums, arrays, maps and pointers get 64-bit integers as elements. Exact for all others."
  },
  {
   "property": "C351",
   "status": "partial",
   "theorems": [
    "Verif.Props.C351_witness",
    "Verif.Props.C351_fails",
    "Verif.Props.C351_size",
    "Verif.Props.C351_partial"
   ],
   "note": "Two processes share path.tmp: one truncates what the other renames, and the file is empty or partial after a success. A file of the same size with other bytes is kept. Proved for one process alone."
  },
  {
   "property": "C352",
   "status": "proved",
   "theorems": [
    "Verif.Props.C352_crash",
    "Verif.Props.C352_names",
    "Verif.Props.C352_again"
   ],
   "note": "Also: after any stopped processes, one that runs alone and succeeds leaves the embedded bytes unless a file of that size is there."
  },
  {
   "property": "C353",
   "status": "partial",
   "theorems": [
    "Verif.Props.C353_witness",
    "Verif.Props.C353_fails",
    "Verif.Props.C353_partial",
    "Verif.Props.C353_error",
    "Verif.Props.C353_gone"
   ],
   "note": "Another process may have renamed the shared path.tmp; then the extraction fails although no write has failed and the bytes are there. Proved for one process alone."
  },
  {
   "property": "C354",
   "status": "partial",
   "theorems": [
    "Verif.Props.C354_witness",
    "Verif.Props.C354_fails",
    "Verif.Props.C354_partial",
    "Verif.Props.C354_apart",
    "Verif.Props.C354_boundary"
   ],
   "note": "The tag of the directory does not depend on the source tree, and the sizes alone are compared: a changed header of the same size stays the old one. Exact condition proved."
  },
  {
   "property": "C355",
   "status": "partial",
   "theorems": [
    "Verif.Props.C355_witness",
    "Verif.Props.C355_fails",
    "Verif.Props.C355_partial",
    "Verif.Props.C355_none"
   ],
   "note": "A name that is no regular file is passed over without a message. Proved for regular files, with the exact condition for finding nothing."
  },
  {
   "property": "C356",
   "status": "proved",
   "theorems": [
    "Verif.Props.C356_heals",
    "Verif.Props.C356_all"
   ],
   "note": "Runs without failed writes; the wrong content of C351 lasts only while another process is still writing."
  },
  {
   "property": "C357",
   "status": "partial",
   "theorems": [
    "Verif.Props.C357_witness",
    "Verif.Props.C357_fails",
    "Verif.Props.C357_partial",
    "Verif.Props.C357_root"
   ],
   "note": "The walk stops before the root: sources in /grayc/src are found from / only. Exactly the nearest directory below the root is found."
  },
  {
   "property": "C358",
   "status": "partial",
   "theorems": [
    "Verif.Props.C358_witness",
    "Verif.Props.C358_fails",
    "Verif.Props.C358_partial",
    "Verif.Props.C358_order",
    "Verif.Props.C358_none"
   ],
   "note": "A directory without a readable runtime/runtime.h is passed over without a message. Proved for directories with it, with the exact condition for finding nothing."
  }
 ]
}
# Design of the formal model of SchoolyB/EZ (the Grayscale language)

The repository is the Grayscale language: a Go command line (`/repo/cli`,
`/repo/internal`) driving a C compiler and runtime (`/repo/grayc`). The model is
written in Lean 4 under `lean/Verif/`. Every definition carries a comment with the
file and lines it transcribes, and says where it simplifies.

## How the model is written

* Code becomes small total computable functions over `List`/`Nat`/`Int`/`BitVec`.
  C integers are `BitVec 64` (or 8/32/128/256) when the property is about overflow,
  and `Int`/`Nat` otherwise, with the range as an explicit hypothesis.
* A C `gray_panic_code_at` is an explicit `panic` outcome (`Except`), never ignored.
* C undefined behaviour that the code can reach (signed overflow, out of bounds
  access) is an explicit `ub` outcome, so "no UB" is a statement in the model.
* C loops are structural recursion, or recursion with an explicit fuel together with
  a theorem that the fuel suffices.
* Strings are byte lists (`List UInt8` or `List Nat` with a `< 256` hypothesis).
* Threads are labelled transition systems; a property holds for every reachable
  state of every number of threads.
* Specifications are separate, written in terms of integers, lists, finite maps and
  sets, and do not mention the model's helpers.
* A property that is false of the code is stated, its negation is proved with a
  concrete witness (`..._fails`), and the part that does hold is proved with suffix
  `_partial`.

## Trusted base

* Lean 4.33.0's kernel, and the axioms `propext`, `Classical.choice`, `Quot.sound`
  (each theorem depends on a subset of these; no other axiom, no `sorry`, no
  `native_decide`, no `bv_decide`). Finite checks (tables of 256 bytes, concrete witnesses)
  use `decide` or `decide +kernel`; the latter has the kernel evaluate the decision
  procedure and adds no axiom.
* The hand translation from Go/C to Lean. It is not extracted; each definition cites
  its source lines so that it can be compared by eye.
* The behaviour of libc, pthreads, the Go standard library, the file system and the C
  compiler, which appear as stated assumptions (see each module's header).

## Plan per property

| id | property | how it is modelled and proved |
|---|---|---|
| C01 | 128-bit addition, subtraction, negation and multiplication are arithmetic modulo 2^128 | `Bigint128`: limbs as `BitVec 64`; `toNat`/`toInt` of the pair; prove each op equals the `BitVec 128` operation, hence the residue mod 2^128. |
| C02 | Overflow-checked 128-bit + and - are exact or panic | same model with `Except`; prove result iff the exact integer is in range. |
| C03 | Overflow-checked 128-bit multiplication is exact or panics | same; `u128` proved in full, `i128` refuted at (MIN,-1) and proved elsewhere (`_partial`). |
| C04 | 128-bit division and modulo are truncated division | loop invariant over the 128 iterations: `quot*b + rem = a >> i` and `rem < b`. |
| C05 | 256-bit addition, negation and multiplication are arithmetic modulo 2^256 | `Bigint256`: limb lists with value Σ w_i 2^(64 i); induction over limbs for carry; double induction for mul. |
| C06 | 256-bit subtraction is arithmetic modulo 2^256 | refuted by concrete limbs; proved under the exact side condition (no all-ones limb meets a borrow). |
| C07 | 256-bit division and modulo are truncated division | refuted by a concrete divisor; proved for divisors whose upper limbs are not all-ones (covers the decimal conversion). |
| C08 | Wide-integer comparisons are the numeric order | lexicographic limb comparison = integer comparison. |
| C09 | Wide-integer decimal text round-trips | digit loop induction; parse is a left fold; composed with C04/C07. |
| C10 | Wide-to-64-bit casts are value-preserving or panic | range test equivalence. |
| C11 | Casts between wide types preserve the value or fail | refuted for sign-changing/narrowing; widening exact. |
| C12 | Division by zero never yields a value | refuted for wide integers by witness; proved for 64-bit and narrower via the emitted guard. |
| C13 | int arithmetic is exact or panics | `Checked`: transcription of the pre-checks over Int with C semantics (`ub` when an intermediate overflows). |
| C14 | uint arithmetic is exact or panics | same for unsigned. |
| C15 | Sized signed arithmetic is exact or panics | same for sized. |
| C16 | Sized unsigned arithmetic is exact or panics | add/sub in full; mul refuted for u32 (ub) and proved below 2^63. |
| C17 | Integer division and modulo on int panic exactly when undefined | emitted guard as a function; T-division facts from `Int.tdiv`. |
| C18 | Range loops visit exactly the documented values | loop as a transition system with panic; refuted near 2^63 and for negated-variable steps; partial elsewhere. |
| C19 | Maps behave as finite maps for every operation sequence | `HashMap`: table of slots, arbitrary hash function parameter; invariant (probe chains unbroken) and refinement to an association list. |
| C20 | Map iteration enumerates live entries once, in insertion order | the order array is part of the refinement relation. |
| C21 | Mutating a map while it is being iterated panics | per-operation theorem; refuted for clear. |
| C22 | copy of a map or array is an independent equal value | heap of blocks in arenas, copy as the emitted C performs it block by block; the copy's blocks are new, and reading either after writing the other gives what it gave before. |
| C23 | Arrays behave as lists for every operation sequence | `Arrays`: buffer with capacity; refinement to `List`. |
| C24 | base64 round-trips and emits only the base64 alphabet | `Encoding`: transcription of the loops; strong induction in steps of 3. |
| C25 | base64 decoding accepts exactly well-formed text and is injective | language characterisation; injectivity refuted. |
| C26 | hex coding round-trips in both directions | list induction. |
| C27 | URL percent-coding round-trips and emits only safe characters | list induction. |
| C28 | Binary integer codecs round-trip and fix the byte order | positional digit lists. |
| C29 | CSV text round-trips | state machine of the parser run on the encoder's output. |
| C30 | UUIDs generated are valid and parse normalises | byte-level model, bit operations by exhaustive case split on bytes where the domain is a single byte. |
| C31 | join inverts split | `Strings`: search loop transcription. |
| C32 | replace substitutes every leftmost non-overlapping occurrence | same. |
| C33 | substring search is exact | same. |
| C34 | UTF-8 code-point access matches the encoding | bit-level encoder, decoder on byte lists. |
| C35 | Version comparison is a total preorder | `Semver`: parser and comparator transcribed; order laws. |
| C36 | Version comparison agrees with SemVer precedence | specification of SemVer precedence on abstract versions. |
| C37 | Update picks the newest eligible release and never downgrades | folds over release lists. |
| C38 | Installing an update never leaves the machine without a working binary | install as a sequence of fallible file-system steps over a small store; all failure patterns. |
| C39 | Archive extraction stays inside the destination | path cleaning on segment lists. |
| C40 | Channels deliver each value once, in order, within capacity | `Channels`: LTS with mutex-atomic critical sections; ghost history; inductive invariant. |
| C41 | Channels do not lose wake-ups | same LTS with wait sets. |
| C42 | A thread handle is released exactly once | `Threads`: LTS; refuted by a trace; partial for join. |
| C43 | The HTTP server never runs more than its connection limit of handlers | LTS with counter. |
| C44 | Routing picks the first matching route with exactly its parameters | matcher transcription; refuted by witness; partial: the chosen route is first-match and its own params are bound. |
| C45 | Path normalisation is idempotent and meaning-preserving | segment stack machine; `_partial` under the 256 bound, refuted above it. |
| C46 | Arena allocations never overlap and survive until released | `Arena`: block list; disjointness invariant. |
| C47 | Using a destroyed arena panics | state machine. |
| C48 | JSON string escaping is invertible and produces legal JSON strings | list induction. |
| C49 | json.is_valid accepts only JSON | validator with fuel; soundness against an inductive grammar. |
| C50 | json.decode terminates on every input | non-terminating configuration: a step function with a fixed point that is not final. |
| C51 | The lexer terminates on every source text | scanner with measure. |
| C52 | Digit separators are validated in every numeric literal | refuted for hex; proved for decimal. |
| C53 | gray fmt changes only indentation | line-wise model. |
| C54 | gray fmt is idempotent | line-wise model. |
| C55 | Name lookup finds the innermost binding | `Scope`: open addressing without deletion. |
| C56 | Expression parsing respects the documented precedence and associativity | Pratt parser over tokens and a pretty printer. |
| C57 | strconv integer conversions round-trip | digit lists. |
| C58 | Random helpers stay within their documented ranges and permute | arbitrary stream parameter. |
| C59 | gcd, lcm, factorial and is_prime compute the mathematical functions | `Nat.gcd` etc. |
| C60 | Project names accepted by gray new stay in one directory | character predicate. |
| C61 | Overflow-checked 256-bit + - * are exact or panic | `Props/Wide256`. Addition in full; subtraction outside the lost-borrow set; u256 multiplication can panic on a representable product; i256 MIN * -1 returns MIN. |
| C62 | Integer literals denote their value | `Props/IntLiteral` over `Model/IntLiteral`. Parsed value and both overflow flags are exact for every literal. Wide initialisers are wrong for non-decimal literals of 2^63 and more and for decimal multiples of 2^64; proved for all others. |
| C63 | Mixed-type integer arithmetic is exact or panics | `Props/IntOps` over `Model/IntOps`. Proved for all pairs of narrow types but u32*u32, for narrow with 64-bit when operands and result fit int64, and for int with uint when both are nonnegative. Counterexamples outside. |
| C64 | Integer comparisons compare the values | `Props/IntOps` over `Model/IntOps`. Proved for equal signedness or nonnegative values; refuted otherwise. |
| C65 | Compound assignment equals the written-out operation | `Props/IntOps` over `Model/IntOps`. Variables and fields: in full. Sized array elements for + - *. Elements of [int] and map entries are unchecked; array /= and %= store the right-hand side. |
| C66 | Array elements read back what was stored | `Props/IntOps` over `Model/IntOps`. Literal elements and same-width assignments proved for values below 2^63; narrow types depend on bytes beyond the temporary (exact iff). |
| C67 | Shifts that pass the guard are defined | `Props/IntOps` over `Model/IntOps`. Amount guard in full; right shifts and unsigned left shifts exact for in-width amounts; undefined cases exhibited. |
| C68 | Negation of wide integers is exact or panics | `Props/WideNeg`. Every value but the minimum. |
| C69 | Negated integer literals denote their value | `Props/LiteralRange` over `Model/LiteralRange`. Emitted value right up to n = 2^63; beyond, accepted with a wrapped value. |
| C70 | The literal range check accepts exactly the values that fit | `Props/LiteralRange` over `Model/LiteralRange`. Declarations in full. Reassignment below 2^63; from 2^63 on uint rejects values that fit and i8 accepts values that do not. |
| C71 | Range membership agrees with range loops | `Props/RangeLoop` over `Model/RangeLoop`. Proved for positive steps and no step; negative steps answer false for visited values, zero step and large distances are undefined in C. |
| C72 | for_each unlocks its collection however it ends | `Props/Array`, `Props/Map`. Holds for normal end and break; return leaves the map locked (refuted). |
| C73 | maps.contains_value decides by value | `Props/MapLib`. Correct for types where memcmp is equality; string values are compared by address (refuted). |
| C74 | maps.merge is the union with priority to the second map | `Props/MapLib`. For maps with together at most 268435455 entries; merge walks both maps before writing into the fresh result. |
| C75 | maps.is_equal is equality of finite maps | `Props/MapLib`. For the value comparison the code uses: contents for strings, memcmp otherwise (so arrays, maps and floats as values are compared by representation). |
| C76 | reverse, slice, concat and split_every are the list functions | `Props/ArrayLib`. Fails for bounds and sizes outside int32_t (reduced modulo 2^32). Holds otherwise. |
| C77 | contains, index_of, count and remove agree with equality | `Props/ArrayLib`. Proved for element types compared by value with matching element size (int, string). Other element types are C84. |
| C78 | deduplicate keeps exactly the first occurrences | `Props/ArrayLib`. Fails for strings: memcmp of the GrayString struct compares addresses. Holds when equal values have equal bytes. |
| C79 | get_sum returns the sum or panics | `Props/ArrayLib`. Fails: unchecked int64_t addition (undefined behaviour on overflow). Holds when no prefix sum overflows. |
| C80 | get_min and get_max return an extreme element | `Props/ArrayLib`. Fails on the empty array, where both return 0. Holds on every non-empty array. |
| C81 | Appending during for_each is safe | `Props/Array`. Fails on every non-empty array: gray_array_push panics with P0034 during iteration. What holds is that bodies that leave the array alone run to the end. |
| C82 | An element read is the element appended | `Props/SizedArray`. Fails for i8..i32 and u8..u32: elements are stored in sizeof(T) bytes and read as int64_t, so a read mixes neighbours or leaves the block. Holds for the 8-byte types. |
| C83 | An element read is the element assigned | `Props/SizedArray`. Fails for narrow T: a literal array has 8-byte slots and the assignment copies 8 bytes from a sizeof(T) variable. Holds for the 8-byte types. |
| C84 | contains is membership for every element type | `Props/SizedArray`. Fails for char and bool (int64_t reads of 4- and 1-byte slots). Holds for integers in 8-byte slots. |
| C85 | is_equal is equality of the element values | `Props/SizedArray`. Fails for narrow T when one array was built from {} and the other from a literal, and for 0.0 against -0.0. Proved as byte equality whenever the element sizes agree. |
| C86 | flatten concatenates the inner arrays | `Props/SizedArray`. Fails for strings (8 of 16 bytes copied) and bools. Holds for 8-byte elements. |
| C87 | Callbacks receive the elements | `Props/SizedArray`. Fails for narrow T on literal arrays (the slots are 8 bytes wide, the callback steps by sizeof(T)). Holds for the 8-byte types. |
| C88 | url_decode accepts exactly complete escapes | `Props/Encoding`. Fails: a cut-off escape at the end of the text is copied literally. Acceptance of complete escapes, value, and the shape of everything accepted are proved. |
| C89 | bytes.from_hex inverts to_hex and rejects other text | `Props/Encoding`. Fails: no validation; sscanf skips white space, takes signs, and leaves the variable uninitialised on other text; an odd digit is dropped. Holds on hex texts of even length. |
| C90 | csv.parse reads RFC 4180 documents | `Props/Csv` over `Model/Csv`. Fails: doubled quotes are not unescaped and an empty last field is dropped. All other documents of any size are read correctly; termination holds on every text. |
| C91 | Binary decoders check the length of their input | `Props/Binary` over `Model/Binary`. Fails for every width: there is no length check and the decoders read outside the array. |
| C92 | UUID functions always give well-formed results | `Props/Uuid` over `Model/Uuid`. Fails: without entropy the result is the empty string, and generate_compact overruns or returns uninitialised bytes for non-canonical 36-byte values. Proved for canonical values. |
| C93 | strings.repeat gives n copies or panics | `Props/Strings`. Fails: the length is multiplied in 64 bits without a check, so 4 bytes times 2^62 passes the size check and overruns a one-byte buffer. Holds whenever the product is below 2^63. |
| C94 | strings.join concatenates with separators or panics | `Props/Strings`. Fails: results longer than 2^31-1 bytes overflow the 32-bit total (no panic). Holds for all others. |
| C95 | All ways to read a character of a string agree | `Props/Strings`. Fails: char_at and for_each give negative values for bytes from 128, and s[i] truncates the index to 32 bits. Holds for ASCII strings and 32-bit indices; from_chars inverts to_chars on every string. |
| C96 | Character classification looks at the whole code point | `Props/Strings`. Fails: the code point is cut to its low byte (U+0141 is upper case), and vertical tab and form feed count as whitespace. Holds below 256 except for those two. |
| C97 | Case, trim, slice, reverse and remove_prefix/suffix are exact | `Props/Strings`. Proved for all strings. |
| C98 | Code-point functions are consistent on malformed UTF-8 | `Props/Utf8` over `Model/Utf8`. Fails: after an incomplete sequence char_count skips bytes that to_char shows, and to_char gives surrogates and overlong forms. Proved: termination, count at most length, values below 2^21. |
| C99 | Interpolation keeps every part exactly | `Props/Interp` over `Model/Interp`. Fails: an embedded string is cut at its first zero byte, the character 0 gives nothing, and results beyond 2^31-1 bytes become empty. Holds for all other parts. |
| C100 | Texts of arrays and maps are exact and never overrun the buffer | `Props/Interp` over `Model/Interp`. Fails: a string of 4092 bytes or more in an array, or as a map key, is written past the 4096 byte stack buffer, and longer texts are cut. Exact for texts up to 4001 bytes; no overrun if all element texts have at most 93 bytes. |
| C101 | Casts between integers keep the value or panic | `Props/Cast` over `Model/Cast`. Fails: uint and u64 to i8/i16/i32 wraps through int64, any type to char is cut to 32 bits, a negative char to uint wraps. Proved for all other pairs, and for all pairs when the target has the value. |
| C102 | Constructors keep the value or panic | `Props/Cast` over `Model/Cast`. Fails: the constructors are plain C casts: byte(300) is 44, uint(-1) is 2^64-1. Proved: exact in range, wraps modulo the width otherwise. |
| C103 | Floats convert to their integer part or panic | `Props/Cast` over `Model/Cast`. Fails: narrow targets, char, byte and the uint, char and byte constructors are undefined behaviour outside the range; cast(-2^63, int) panics though representable; -0.5 to uint panics. Proved exact-or-panic for int and uint apart from those, and for narrow targets if the integer part fits an int. |
| C104 | Conversions between narrow and wide integers keep the value or panic | `Props/Cast` over `Model/Cast`. Fails: negative numbers to u128/u256 get 2^64 added, numbers from 2^63 to i128/i256 become negative, int/byte/char constructors and casts to char wrap. Proved for all casts to other types, for widening with a fitting sign, and for constructors in range. |
| C105 | int("...") accepts exactly the decimal numerals in range | `Props/Strconv` over `Model/Strconv`. Fails: values out of range are clamped silently, text after a space and leading blanks are accepted, strings are cut to 63 bytes. Proved for strings without blanks and zero bytes up to 63 bytes, apart from the clamping. |
| C106 | is_integer, is_numeric and to_bool accept exactly the documented strings | `Props/Strconv` over `Model/Strconv`. Proved for all strings. |
| C107 | Updates are downloaded only from the release directory | `Props/Path` over `Model/Path`. Fails: '..' components lead to other repositories. Proved for paths without them. |
| C108 | Path functions agree about where a path leads | `Props/Path` over `Model/Path`. Fails: joining an empty first part gives an absolute path, and a leading backslash is a root for normalize but not for is_absolute. Proved for other paths without NUL. |
| C109 | The installed binary is a regular file of the archive | `Props/Install` over `Model/Install`. Fails: kinds of entries are not looked at, a directory or link named gray gives an empty binary. Proved for archives in which entries so named are regular files; refusal is exact. |
| C110 | Channels have no data race | `Props/Channels`. Fails: send and try_send read closed without the mutex while close writes it. Proved that this is the only race. |
| C111 | A channel has room for its capacity | `Props/Channels`. Fails: the size in bytes wraps from 2^61 values on. Proved below. |
| C112 | A value sent is not lost | `Props/Channels`. Fails: a send on a closed channel, or one that sleeps when it is closed, drops its value silently. Proved that values are dropped only once the channel is closed. |
| C113 | A response body arrives whole | `Props/Server` over `Model/Server`. Fails: a body is cut at its first NUL and at the end of the 65536 byte buffer while Content-Length says the whole length. Proved for bodies without NUL that fit. |
| C114 | Responses carry only the header lines the server means to send | `Props/Server` over `Model/Server`. Fails: a redirect location with CR LF adds header lines; an origin over 351 bytes cuts the CORS lines and merges the next line. Proved without line breaks and NULs, for shorter origins and responses that fit. |
| C115 | Query strings are split into their pairs | `Props/Server` over `Model/Server`. Fails: after a piece without '=' the next pair is swallowed into its key. Proved if at most the last piece has no '='. |
| C116 | A request is seen as it was sent | `Props/Server` over `Model/Server`. Fails: only the first piece is read. Proved for requests that arrive in one piece of at most 65535 bytes. |
| C117 | Destroying an arena frees every block | `Props/Arena` over `Model/Arena`. Fails: after a reset or the end of a scope the next block made replaces the rest of the chain, which is then never freed; a loop loses a block per round. Proved for arenas that only allocate. |
| C118 | min, max, clamp, abs and sign work on any numbers | `Props/Math` over `Model/Math`. Fails: min(3, 2.5) is 2, max(2^63, 1) of unsigned integers is 1, sign(0.5) is 0, abs(-2^63) is undefined. Proved for integers in the range of int. |
| C119 | rand_float and rand_char keep to their documented ranges | `Props/Random` over `Model/Random`. Fails: the largest generator output gives exactly 1.0, and rand_char('a', 'z') never returns 'z'. Proved: floats are in [0, 1] with 1 for one output only; characters are in [min, max) and each of these can occur. |
| C120 | json.decode inverts json.encode on maps | `Props/Json`. Fails: escapes are not undone, so a quote comes back as backslash quote. Proved: exactly the escaped map comes back, which is the map itself iff nothing needs escaping. |
| C121 | Splitting a JSON array ends and returns its elements | `Props/Json`. Proved for all texts and all arrays; elements keep the whitespace behind them. |
| C122 | The JSON encoders write valid JSON within the computed size | `Props/Json`. Fails: pretty_print of an empty map writes 5 bytes into 4. Proved for all else, validity included; counters are taken as unbounded (int in C). |
| C123 | #json structs survive stringify and parse | `Props/Json`. Fails: fields of other types (i32, u8, arrays, structs) give {"a": }, which is invalid, and strings come back escaped. Proved for strings, int and bool fields; floats are not modelled. |
| C124 | Keyword lookup finds exactly the reserved words | `Props/Lexer` over `Model/Lexer`. Proved, with the order of the table. |
| C125 | Separated tokens are read back | `Props/LexText` over `Model/LitEmit`. Proved for tokens with white space between them; tokens without it are not covered, except in C130. |
| C126 | Tokens have their line and column | `Props/LexPlace`. Fails: a carriage return alone ends neither a line nor a comment. Proved when each is followed by a line feed; columns are bytes. |
| C127 | String literals are exactly those of the grammar | `Props/LexText` over `Model/LitEmit`. Proved in both directions. |
| C128 | Character literals hold one character | `Props/LexText` over `Model/LitEmit`. Fails for characters outside ASCII and for \x41; \x alone is taken as the letter. Proved for ASCII characters and the other escapes. |
| C129 | String literals keep their value in the C program | `Props/LitEmit` over `Model/LitEmit`. Fails: "\01" is one byte, "\\$" loses its backslash, "\0\x41" gets length 4, raw strings with \0 are cut in functions. Proved for all other literals without interpolation. |
| C130 | ! before a name is negation | `Props/LexText` over `Model/LitEmit`. Fails: !in_range is read as !in _range. Proved for names without in and a digit or underscore at the start. |
| C131 | The condition of a statement ends at the brace of its block | `Props/Parser` over `Model/Parser`. Refuted: a condition that ends in a name with a capital first letter (`if DEBUG { }`, `if a && FLAG { }`) is read as a struct literal. A comparison on the way resets no_struct_literal to false (parser.c:1114), so `when a == b && FLAG {` fails too although `when` sets it. Holds when the last token is not such a name, and when the name is the right operand of a comparison. |
| C132 | A struct literal can be an argument in any operand | `Props/Parser` over `Model/Parser`. Refuted: the flag that suppresses struct literals on the right of a comparison stays set inside parentheses and arguments, so `d < f(P{x: 1})` is rejected. Holds for the other binary operators. |
| C133 | ensure calls are made when the function exits | `Props/Flow` over `Model/Flow`. Fails: ensure statements are collected from the whole body, so one after an early return runs although never reached; and they run before the return value is computed. Proved for functions whose ensures come first and whose return values do nothing. |
| C134 | Early exits release exactly the arenas of the scopes left | `Props/Flow` over `Model/Flow`. Proved by simulation: the emitted C, with its numbered arena variables, against a meaning with nested scopes. |
| C135 | No accepted function runs off its end without a return | `Props/Flow` over `Model/Flow`. Fails: a loop with a return in it counts as returning although a break leaves it, and functions with named return values are not checked. Proved without these two. |
| C136 | Memory a variable refers to outlives the variable | `Props/Escape` over `Model/Escape`. Refuted: an array assigned inside an if or loop to a variable declared outside, a string assigned there to a field or an element, a by-reference function assigning a string when called in a loop, a by-reference function returning a new string from inside an if, and a function appending to a global array all leave the variable pointing into a destroyed arena (or a reset part of one). Proved for all programs without those statements: strings assigned and elements appended at any depth, arguments, results and calls are safe. |
| C137 | regex.is_match and regex.find give the POSIX leftmost-longest match | `Props/Regex` over `Model/Regex`. Refuted: only the first 8191 bytes of the text and nothing after a NUL is looked at. Proved for shorter texts and patterns without NUL. |
| C138 | regex.find_all returns all matches of the text | `Props/Regex` over `Model/Regex`. Refuted: ^a is found three times in aaa, $ is found twice, and a pattern with an empty match reads past the 8192 byte buffer for any longer text. Proved for texts that fit, patterns without ^ and without $ or without empty matches. |
| C139 | regex.replace replaces every match and nothing else | `Props/Regex` over `Model/Regex`. Refuted: four matches replaced by 4095 bytes followed by 4000 bytes of text overflow the stack buffer of 16384 bytes; with five matches the fifth is left as it is; ^a is replaced repeatedly. Proved for texts that fit, plain patterns and results under 12288 bytes. |
| C140 | regex.split returns the parts between the matches | `Props/Regex` over `Model/Regex`. Refuted: splitting abc at x* gives five empty strings. Proved for texts that fit and patterns without ^ and empty matches. |
| C141 | crypto.sha256 is SHA-256 | `Props/Sha256` over `Model/Crypto`. SHA-256 specified on bits, with the constants defined from real square and cube roots of the n-th prime; the model is the C code on 32-bit words with its typed-in table. Strings of more than 2^31-1 bytes do not exist (len is int32_t). |
| C142 | crypto.md5 is MD5 | `Props/Md5`. MD5 specified after RFC 1321, with the table from the real sine; the 64 entries are checked against a Taylor bound. |
| C143 | crypto.random_hex gives every digit string equally often | `Props/RandomHex` over `Model/Crypto`. Fails for lengths from 2^31 on: (int32_t)length makes the length negative or too small. Proved for all lengths up to 2^31-1, together with the two panics. |
| C144 | Types are read to their end | `Props/TypeName` over `Model/TypeName`. Refuted: [[map[string:int]]], [[^Point]], [^[int]], [[int, 3]] and map[lib.Color:int] are refused, and a single result type of 256 bytes or more is silently cut to 255. C144_partial: every type built from names, grids of names, short maps in grids, [^name], long maps with a one-token key and arrays of them, sized arrays of names and maps, pointers and functions within the buffer limits is read to its end with its text. |
| C145 | A type's text tells what it is | `Props/TypeView`. Refuted: the element type of an array is cut at its first comma ([map[string:[int,3]]] becomes an array of 'map[string:[int'), a type of a module with an underscore in its name is unknown (my_mod.Point), a user type named like an opaque library type loses its module (game.Thread becomes Thread). C145_arrays: for arrays, right exactly when the element's text has no comma. C145_partial: everything else, function signatures in full. |
| C146 | A bound wildcard is a type that fits | `Props/Wildcard`. Refuted: map[string:[?]] against map[string:[int,3]] binds ? to 'int,3', which is no type; map[?:[?]] accepts a map[int:int]. C146_partial: right for all parameters whose maps with a wildcard key have no other wildcard than the value ?, against arguments without a sized array where the parameter has an unsized one. |
| C147 | Every fitting argument is accepted | `Props/Wildcard`. Refuted: ^?, [?,3], func(?) and map[?:[?]] never bind. C147_partial: ? itself, arrays, and maps with the wildcard as key, in the value, or as both. |
| C148 | Checker and code generator bind alike | `Props/Wildcard`. Proved for all texts, well-formed or not. |
| C149 | Instances have names of their own | `Props/Wildcard`. Refuted: [^P] and ^[P] give the same name; a function first__int has the name of the instance of first for int; names over 255 bytes are cut at the definition but not at the call; a function name of 254 bytes or more makes the definition write outside its buffer. C149_partial: distinct and equal at both places for function names without double or final underscore, types made of alphanumeric names, arrays and maps, up to 255 bytes. |
| C150 | Arguments of generic calls have their parameters' types | `Props/Wildcard`. Refuted: parameters without ? are not checked at all in a generic call (a string passes for an int), and an argument of type func passes for any wildcard type. C150_partial: when every parameter has a wildcard (of the soundly bound kinds) and every argument a known type, one type fits all of them and it is the binding returned. |
| C151 | The distance of two names is their edit distance | `Props/Suggest` over `Model/Suggest`. Proved in full against a step-by-step definition of editing (any edit at any position), for all byte strings. |
| C152 | A suggestion is the nearest name in sight | `Props/Suggest` over `Model/Suggest`. Proved in full. |
| C153 | A constant has the value written | `Props/ConstFold` over `Model/ConstFold`. Refuted: literals are written without suffix, so 86400 * 1000000000 overflows C's int; -1 is emitted as a call, which is no C constant; i8 and uint constants wrap; a constant zero divisor is not found. Partial: int/i64 constants without negated literals in which no operation has two 32-bit operands in C. |
| C154 | A constant is rejected only if it leaves its type | `Props/ConstFold` over `Model/ConstFold`. Refuted for uint and u64: folding is done in int64_t, so 2^63 - 1 + 1 is reported as overflow (E5039); and -9223372036854775808 makes the compiler negate the least int64. Partial: all other types, without negated literals from 2^63 on. |
| C155 | A named array size is the constant the name refers to | `Props/ConstFold` over `Model/ConstFold`. Refuted: the table of constants is flat and searched from the first entry: with a constant N in two functions the second function gets the size of the first; names out of scope and hidden by variables are accepted; a size of 2^32 + 1 becomes 1. Partial: no name declared twice, sizes in scope and below 2^31, constants that fold. |
| C156 | A format string says in C what it says in the program | `Props/Printf` over `Model/Printf`. Refuted: \x25 is a percent sign for C but not for the check, so "\x25n" passes; \x41B is not kept apart; raw strings are emitted without escaping. Partial: literals of plain characters and simple escapes whose value is a C11 format (no %b). |
| C157 | Each conversion has an argument of its type | `Props/Printf` over `Model/Printf`. Refuted: %x, %X, %o are not widened for 64-bit arguments; %d and %u are widened for i32, u8 and so on, whose arguments have 32 bits; %c takes an int; %Lf, %ls and wide integers are accepted; %b takes anything and is no C11 conversion. Partial: the table `sound` (the documented uses with int, uint, float, string, char, byte). |
| C158 | Padding fills up to the width | `Props/Printf` over `Model/Printf`. Refuted: the width counts bytes, and of the padding character one byte is used; from width 2^31 on the length is negative. Partial: ASCII text and characters, widths below 2^31. |
| C159 | Hexadecimal, octal and binary text of integers | `Props/Printf` over `Model/Printf`. Proved in full; snprintf is taken to write the digits. |
| C160 | Formatted floating point numbers are complete | `Props/Printf` over `Model/Printf`. Refuted: text of 64 bytes ends in a 0 byte, longer text is read past the buffer (float_fixed(1.0, 63)). Partial: it holds exactly up to 63 bytes. |
| C161 | The buffer for generated code holds what was appended | `Props/Diag` over `Model/Diag`. Refuted for one case only: a formatted text of 2^31 bytes or more is left out silently (vsnprintf returns a negative number). Partial: everything else, including the absence of size_t overflow. |
| C162 | An error stops the compilation | `Props/Diag` over `Model/Diag`. Proved in full, for the two places where main looks at the list (imports are counted to the second). |
| C163 | Every error is shown and counted | `Props/Diag` over `Model/Diag`. Refuted: from the 21st on errors are dropped and not counted; the summary then says 20. Partial: what is shown is a part of the reported list in its order, with the first 20 errors, and the summary gives min(20, n). |
| C164 | -q hides exactly the named warnings | `Props/Diag` over `Model/Diag`. Proved in full for the list as grayc receives it (C168 is about what the command line passes). |
| C165 | The source line shown is the line of the diagnostic | `Props/Diag` over `Model/Diag`. Refuted: lines are cut at 2047 bytes, and after a 0 byte no line is shown. Partial: all files without 0 bytes and with lines below 2048 bytes, with any eviction from the cache. |
| C166 | The underline stands under the span | `Props/Diag` over `Model/Diag`. Refuted for every diagnostic: the row of the line starts with number, space, bar, space (six cells), that of the underline with three spaces, bar, space (five). Partial: the carets are exactly the width of the printed number minus two cells too far left. |
| C167 | The program gets the arguments given after the file | `Props/Cli` over `Model/Cli`. Refuted: grayc takes the arguments as its own, so the last one replaces the input file, and the program is started without any. Partial: without further arguments the named file is run. |
| C168 | -q from the command line to the list of hidden warnings | `Props/Cli` over `Model/Cli`. Refuted: a text that does not start with W or E (e.g. `w1001`) hides all warnings and is then taken as the input file. Partial: no -q, `all`, and lists starting with W or E. |
| C169 | The exit status is that of the program | `Props/Cli` over `Model/Cli`. Refuted: every status other than 0 becomes 1. Partial: 0 if and only if the program ended with 0. |
| C170 | The C compiler gets the intended arguments | `Props/Cli` over `Model/Cli`. Refuted: a quote in the path of the prebuilt archive is not looked for, although it is in the other two paths. Partial: archives without quote (or none), for all other paths. |
| C171 | Compilations do not share intermediate files | `Props/Cli` over `Model/Cli`. Refuted: the name in /tmp depends on the base name only. Partial: different base names of up to 2000 bytes. |
| C172 | The program does not overwrite its source | `Props/Cli` over `Model/Cli`. Refuted for the file name `.gray`, which is its own output. Partial: all others. Files without extension, which grayc accepts, are overwritten as well. |
| C173 | Names in an imported module keep their meaning | `Props/Merge` over `Model/Merge`. Refuted: a local variable or parameter with the name of a module's declaration is captured; default values and function references `()f` keep their old names. Partial: at most 256 names, no bound name that the module declares, no function references, counted lengths. |
| C174 | Importing a module leaves the entry file alone | `Props/Merge` over `Model/Merge`. Refuted: a call of the entry file's own `helper` becomes a call of `lib.helper` if the imported module declares that name. Partial: functions in which no label is a name of the module. |
| C175 | Types in imported declarations are renamed | `Props/Merge` over `Model/Merge`. Refuted: function types are not entered. Partial: arrays, sized arrays, pointers and maps nested to any depth, up to 255 bytes of text. |
| C176 | Types in imported function bodies are renamed | `Props/Merge` over `Model/Merge`. Refuted: the type is compared as a whole, so `[Node]` keeps its name. Partial: types that are just a name. |
| C177 | Declarations of different modules stay apart | `Props/Merge` over `Model/Merge`. Refuted: `net.http_get` and `net_http.get` are both `net_http_get`. Partial: within a module and for modules without underscore, up to 255 bytes. |
| C178 | Imported constants keep their order | `Props/Merge` over `Model/Merge`. Refuted: every variable is inserted before those inserted earlier. Partial: the entry file keeps its order; the declarations of an imported file are exactly reversed. |
| C179 | The set of imported files | `Props/Merge` over `Model/Merge`. Refuted: after 256 files nothing is remembered. Partial: up to 256 marks, with any hash collisions. |
| C180 | Names of modules | `Props/Merge` over `Model/Merge`. Proved for names of up to 255 bytes that do not themselves end in `.gray`. |
| C181 | Import paths are relative to the entry file | `Props/Merge` over `Model/Merge`. Refuted: paths are relative to the importing file. Partial: files in the directory of the entry file; and what the path is for the entry file. |
| C182 | The files of a directory | `Props/Merge` over `Model/Merge`. Refuted: files beyond the 256th are left out silently. Partial: up to 256 source files and paths of 2047 bytes. |
| C183 | Every accepted import is usable | `Props/Merge` over `Model/Merge`. Refuted: a file imported under two names is there under the first only. Partial: no file under two names, entry file not imported. |
| C184 | Statements are read as they are written | `Props/Stmt` over `Model/Stmt`. Refuted: a `return` without values takes the next statement as its value. Partial: blocks in which a `return` without values is last and a name alone is not followed by a name. |
| C185 | Every block is closed | `Props/StmtSound`. Refuted: blocks and `when` may end with the file; a map literal with a comma at its end takes the brace of the block. Partial: blocks after which something is left are closed, at every depth. |
| C186 | No token is ignored | `Props/StmtSound`. Refuted: `private`, `#flags` and `#strict` before any statement, stray tokens between the cases of `when`, one parenthesis around the head of `for`, and more. Partial: the tokens are a way to write the statements in the grammar with exactly these slips. |
| C187 | Results have the names and types that are written | `Props/StmtMore`. Refuted: in `(x, y [int])` the names are lost, in `(x, y m.T)` the types differ, `(a, b)` gives no results. Partial: lists in which several names share only types that are a name. |
| C188 | Parameters have the types and default values of their group | `Props/StmtMore`. Proved for all lists of groups of value parameters and for lists of type parameters. |
| C189 | No parameter is lost | `Props/StmtMore`. Refuted: `do f(a int, b)` has the parameter `a` only. Partial: at most one token, after the last comma, is ignored. |
| C190 | Strings are split into the pieces that are written | `Props/StmtMore`. Proved. |
| C191 | Any expression can be interpolated | `Props/StmtMore`. Refuted: `'}'` and `"{"`, since quotes are not looked at. Partial: texts in which braces match. |
| C192 | The code in a string is one expression | `Props/StmtMore`. Refuted: `"${x y}"` gives `x`. Partial: code that is an expression is read as that expression. |
| C193 | A dollar sign before a name is reported | `Props/StmtMore`. Refuted: not in strings with some `${…}`. Partial: exactly in strings without. |
| C194 | Declarations of several variables | `Props/StmtMore`. Refuted: the 17th variable is written one place after the end before the number is checked. Partial: up to 16 variables. |
| C195 | Underscores in float literals have no meaning | `Props/StmtMore`. Refuted: a literal with underscores is cut after 127 other bytes. Partial: up to 127. |
| C196 | The values of or_return are those that are written | `Props/StmtMore`. Refuted: the 17th value is lost, and its first token is dropped. Partial: up to 16. |
| C197 | Emitted operators group as in the source | `Props/Emit` over `Model/Emit`. Refuted: for floats `(a + b) / c` is written `(double)a + b / _dv`, which is `a + b / c`. Partial: the text is always read in one way, and as the source says if and only if no sum or difference of floats is divided. |
| C198 | Temporaries of the generated code do not capture variables | `Props/Emit` over `Model/Emit`. Refuted: with a variable `_dv`, `_dv / x` computes `x / x`; a shift by a variable `_sa` reads an uninitialised variable. Partial: expressions whose divisions, shifts and searches of maps do not mention `_dv`, `_sa` and `_ik`. |
| C199 | Operands are evaluated from left to right | `Props/Emit` over `Model/Emit`. Refuted: `f() / g()` always calls `g` first, as every division and shift does, and the order in `f() + g()` is left to the C compiler. Partial: expressions in which of two operands not joined by `&&` or `\|\|` at most one has calls. |
| C200 | Operands are evaluated once | `Props/Emit` over `Model/Emit`. Refuted: `f() in range(1, 2)` and, for a character, `c in s()` make the call twice. Partial: expressions with no call left of `in range`, at the end of such a range, or right of `in` for a character in a string. |
| C201 | Accepted expressions are valid C | `Props/EmitTypes`. Refuted: arrays joined by `&&` or ordered with `<`, and `1 in f()`, which takes the address of a result. Partial: accepted by the C compiler if and only if no container is ordered or joined and only variables are searched. |
| C202 | The HTTP client takes URLs apart as the standard has it | `Props/HttpClient` over `Model/HttpClient`. Refuted: `http://me:pw@h/x` connects to the host `me` on port 0, `http://h?q` to the host `h?q`, a fragment is sent, an empty port is 0. Partial: exact for URLs without user and fragment that fit the buffers; a user without a password always becomes part of the host. |
| C203 | A request is the message the program asked for | `Props/HttpClient` over `Model/HttpClient`. Refuted: a header value with a line break adds a header of its own, and a path with a space changes the request line. Partial: exact without line breaks, NULs and spaces when the head has fewer than 4094 bytes; with 4094 or 4095 bytes the empty line is not sent; longer heads are not sent; a message is read in one way only. |
| C204 | The head of a request stays within its buffer | `Props/HttpClient` over `Model/HttpClient`. Refuted: a header that does not fit, followed by one more, is written behind the buffer, since the size left is computed by an unsigned subtraction that wraps. Partial: this happens if and only if the lines before the last header take more than 4096 bytes; never with one header. |
| C205 | A request names the host and port it is meant for | `Props/HttpClient` over `Model/HttpClient`. Refuted: the port is never given. Partial: the host always is, so that requests to port 80 are right. |
| C206 | A request gives every field once | `Props/HttpClient` over `Model/HttpClient`. Refuted: a JSON body posted with its Content-Type is announced as a form as well. Partial: for headers other than Host, Content-Length, Content-Type and Connection. |
| C207 | A response's fields reach the program | `Props/HttpResponse`. Refuted: the last field is always lost. Partial: all fields but the last are found, the later of two of the same name. |
| C208 | A response's status and content reach the program | `Props/HttpResponse`. Refuted: content in chunks is given with the sizes of its chunks. Partial: status and content are exact otherwise. An interim response is taken for the response, and what is longer than the buffer is cut without notice. |
| C209 | A response stays within its buffer | `Props/HttpResponse`. Refuted: the loop asks for as many bytes as are left, and the NUL comes after them: a response that fills the buffer puts it one byte behind. Partial: within for shorter responses, never further than one byte. |
| C210 | Receiving a response takes memory once | `Props/HttpResponse`. Refuted: every piece takes a buffer for all that may still arrive: half a megabyte in pieces of a kilobyte takes more than 256 megabytes. Partial: bounds by the number of pieces, from below and above. |
| C211 | A request of the client is seen by a handler of the server | `Props/HttpResponse`. Refuted: the client sends head and body separately, and the server reads once, so that the handler sees an empty body. Partial: exact when both arrive together. |
| C212 | A response of the server is read by the client | `Props/HttpResponse`. Refuted: a body is cut at its first NUL. Partial: exact for bodies without NUL that fit the server's buffer; of the fields only Connection is lost. |
| C213 | Removing a directory removes nothing else | `Props/IoDirs`. Refuted: a symbolic link in the directory is followed, what is in the directory it leads to is deleted, and the call fails since the link itself stays. Partial: without symbolic links below, with enough file descriptors and no path of 4096 bytes, exactly the directory is gone and success reported; with links nothing is made or changed, and success means that nothing is left of the directory. |
| C214 | Walking a directory lists what is in it | `Props/IoDirs`. Refuted: a symbolic link to a directory above is listed again and again. Partial: exact and without repetitions without symbolic links; what is deeper than the number of file descriptors is never listed, and the fallible call reports no error then. |
| C215 | A copy has the data and the source keeps it | `Props/IoFiles`. Refuted: a file copied to itself, under any spelling, is emptied and success is reported. Partial: exact for a copy to another place, and nothing else is changed. |
| C216 | A write that reports success has written | `Props/IoFiles`. Refuted: on a full disk a short text is lost and success reported, since fclose is not checked; the fallible write does not look at what was written at all. Partial: exact account of what is in the file and what is reported; with enough room all is right. |
| C217 | Making directories makes directories | `Props/IoFiles`. Refuted: a file at the end of the path counts as success. Partial: without files, links and backslashes on the way all directories exist afterwards and nothing else is changed. |
| C218 | A move does not lose the file | `Props/IoMoves`. Refuted: moved to another device that is full, a file of fewer than 4096 bytes is gone from both, and success is reported. Partial: exact within a device, and to another with enough room. |
| C219 | The fallible calls return errors | `Props/IoMoves`. Refuted: a directory that cannot be renamed, for instance to another device, ends the program in io.move_file. Partial: this is the only case; reading, writing, appending, deleting and copying always return. |
| C220 | The lines of a file are those written to it | `Props/IoMoves`. Refuted: a carriage return at the end of a line is lost. Partial: exact account of the lines of any text; right for lines that do not end in one, and for all lines ended by carriage return and line feed. |
| C221 | Input of unknown size is read as a whole | `Props/IoMoves`. Refuted: at 2^30 bytes the program ends though a string may have twice as many. Partial: exact for all sizes, and for files that have a size. |
| C222 | Temporary files are removed at the end | `Props/IoMoves`. Refuted: only the first 256 are. Partial: exactly the first 256 are gone, and nothing else is changed. |
| C223 | What exists can be deleted | `Props/IoMoves`. Refuted: a symbolic link to a directory cannot be: io.delete_file ends the program, io.remove_dir fails, and io.remove_dir_all deletes what is in the directory and fails. Partial: files, empty directories, and directories without links. |
| C224 | Accepted statements on wide integers are valid C | `Props/WideOps` over `Model/WideOps`. Refuted: `x = 5`, `mut b i256 = a` for an i128 a, `i128(a)`, `a + (1 + 2)`, a sum of two fields, `mut x u128 = -5`, an i128 plus a uint variable and a u128 plus an int variable are accepted and emitted as invalid C. Partial: a grammar of expressions whose text is valid in any declaration or assignment. |
| C225 | Wide operations work on the values written | `Props/WideVals`. Refuted: `mut x u128 = b + n` with n = -3 adds 2^64 - 3, and `a += u` for an i128 a and a uint u of 2^63 subtracts. Partial: exact if every 64-bit operand is a number its conversion keeps; what the other operands are worth is given. |
| C226 | A function is emitted independently of those before it | `Props/WideVals`. Refuted: the list of wide variables is never emptied, so that an `int` n after a function with an `i128` n makes `a + n` and `n + 1` invalid C. Partial: independent if no narrow variable of the statement has the name of a wide one of an earlier function. |
| C227 | The checker and the C compiler agree on the type of wide expressions | `Props/WideVals`. Refuted: `i128(5)` and `1 + a` are `int` for the checker and structures in C, and a cast without a conversion function keeps the type of its operand. Partial: what the checker finds to be wide is so in C if the casts have conversions, and the types agree without constructors and with the wider operand on the left. |
| C228 | A write to one variable leaves the others alone | `Props/Store` over `Model/Store`. Refuted: `mut b = a` (no written type), `mut r [int] = m[0]`, an array of arrays or a struct taken from a field, `m[0] = r`, `{r}`, `arrays.append(m, r)`, `const c [int, 2] = a` and declarations at file scope share the array; two appends to such names overwrite each other. Partial: holds for programs in which what is stored into written variables is built anew or copied by a form that copies; and a declaration always takes over the value. |
| C229 | Constants and parameters keep their values | `Props/Store` over `Model/Store`. Refuted: `g[0][0] = 9`, `c[0].x = 9`, `c[0]++` and `arrays.append(g[0], 9)` on constants are accepted and change them, as do writes through a second name of the array. Partial: holds if the longer paths written to start at variables declared with mut and the rule of C228 is followed. |
| C230 | A call does not change the caller's variables through parameters without & | `Props/Store` over `Model/Store`. Refuted: `p.items[0] = 9`, `g[0][0] = 9`, `a[0]++` and `mut b = a` with `b[0] = 9` in the function change the caller's array. Partial: whatever the caller did, functions that write only to what they built or copied are safe. |
| C231 | The checks on writes look at the variable | `Props/Store` over `Model/Store`. Refuted for all but addr: assignments are checked for at most one step, ++, library calls, & arguments and ref only for the bare variable. Partial: exactly which paths each check refuses; addr is right at every depth, and no check refuses a mutable variable. |
| C232 | Arguments are evaluated where the call stands, defaults where the function stands | `Props/CallArgs` over `Model/CallArgs`. Refuted: when a default is used, `f(b, a)` gives parameter b the new a, `f(a + 1)` reads an uninitialised variable, and defaults take variables of the caller. Partial: holds when all are given; when no argument mentions its own parameter or an earlier one and the defaults used mention given parameters or names with one meaning; and with an & parameter when defaults mention no parameter. |
| C233 | Named arguments reach their parameters, and a missing one is an error | `Props/CallArgs` over `Model/CallArgs`. Refuted: `f(b: 1)` with a required parameter a before b leaves a null pointer that the checker follows. Partial: accepted calls are right, well-formed calls are accepted, a missing parameter is never accepted, and exactly which calls crash. |
| C234 | Accepted arrays and maps have their elements at the C types the place reads | `Props/Accept` over `Model/Accept`. Refuted: [int] and [byte] are taken for one another everywhere, [float] is declared from a variable of [int], [int] from an array of structs; assignments, fields, elements and further return values compare no element types at all. Partial: holds for arguments, first return values and declarations without those mixes and with distinct names. |
| C235 | Accepted values can be assigned in C | `Props/Accept` over `Model/Accept`. Refuted: an integer for a struct, a struct for an integer field, an enum of strings for an integer, nil as the result of any function, anything as second return value or map entry, structs with one display name. Partial: holds in declarations, assignments, arguments, first return values and fields without these. |
| C236 | Array elements are read back as they were stored | `Props/Elems` over `Model/Elems`. Refuted: a[0] = 5 in an [i32] made by a literal stores four unknown bytes, an [i32] made empty is read eight bytes at a time, remove_last on a literal of small elements writes past a variable, arrays.map walks it with the wrong stride, a uint from 2^63 is negative. Partial: holds for int and i64; in general exactly when sizes fit (the condition on reads is proved exact), and no size of a small type fits both a[i] and arrays.map. |
| C237 | Integers that go to a place of another type keep their value or stop the program | `Props/Convert` over `Model/Convert`. Refuted: assignments, returns, fields and elements wrap (300 to an i8 gives 44), and a u64 of 2^64-1 passes the check for i8 as -1. Partial: values in range always arrive; the pairs and places for which the claim holds are given exactly. |
| C238 | The atomic operations for x86-64 are atomic | `Props/Atomic` over `Model/Atomic`. Instruction-level model with x86-TSO store buffers. A call that has not returned is never stuck. |
| C239 | The atomic operations for ARM64 are atomic | `Props/Atomic` over `Model/Atomic`. Refuted: gray_atomic_cas8 compares 32 bits (cmp w3, w1), but the bits above a uint8_t argument are not specified by the calling convention. With 0x105 for an expected byte of 5 the exchange is not made. Partial: it holds if those bits are zero. gray_atomic_cas8 is part of the runtime interface; generated code does not call it at present. Memory order between different cells is simplified to program order. |
| C240 | The spin lock for x86-64 is taken by one thread at a time, which sees all that was written under it | `Props/Spin` over `Model/Spin`. Instruction-level model with x86-TSO store buffers and any data cells. |
| C241 | The spin lock for ARM64 is taken by one thread at a time | `Props/Spin` over `Model/Spin`. Memory order between different cells is simplified to program order, so nothing is claimed about the data. |
| C242 | An operation on a lock handle reaches the lock it was made for | `Props/LockHandles` over `Model/LockHandles`. Refuted: a mutex destroyed twice is freed twice, a mutex can be locked after it was destroyed, a copy of a spin lock is not cleared, and an old handle reaches a new lock at the same address. Partial: it holds if no handle of a destroyed lock is used, and for spin locks that are not copied. |
| C243 | os.exec gives what a program has written and how it has ended | `Props/Exec` over `Model/Exec`. The buffers are proved never to be overrun, and to hold no more than the limit. Refuted for the result: exit code 127 and too much output give the same as a missing program, an interrupted select or read cuts the output off with ok set, and an interrupted waitpid gives code 0. Partial: right in all other cases; arguments arrive unless they have zero bytes. |
| C244 | An environment variable that was set reads back | `Props/Exec` over `Model/Exec`. Refuted: empty names and names with an equals sign are silently not set; names and values are cut at zero bytes. Partial: it holds for all other names and values. That other variables are left alone holds always. |
| C245 | gray watch watches the files that a program imports | `Props/Watch` over `Model/Lexer`, `Model/Watch`. Refuted for all programs: the scan takes the quotes around a path for a part of it, so that only the main file is ever watched, unless files have quotes or @ in their names. Partial: paths as the scan finds them are watched. |
| C246 | gray watch notices every change | `Props/Watch` over `Model/Lexer`, `Model/Watch`. Refuted: a file that is replaced by a new one is not noticed, and with a single file nothing is ever noticed again. Partial: it holds if files are only written in place; a replaced file is watched again after the next run. |
| C247 | gray watch runs the program soon after a change | `Props/Watch` over `Model/Lexer`, `Model/Watch`. Refuted: events that follow each other within 100 ms put the run off for ever; a run does not wait for the one before it. Partial: the runs begin exactly 100 ms after those events that no other follows within that time, so every change is followed by a run, and two runs begin at least 100 ms apart. |
| C248 | gray watch finds the file with the main function | `Props/Watch` over `Model/Lexer`, `Model/Watch`. Refuted: a line in a comment counts, a function written with other white space does not, nor one after a line of 64 KiB. Partial: the file found is the only one with a line that begins with 'do main('. |
| C249 | gray doc finds every documented declaration | `Props/Doc` over `Model/Doc`. Proved that no text makes it crash. Refuted: a description on the same line goes to the next declaration, a comment or attribute in between drops it, a brace in a string or comment cuts the signature or swallows the rest of the file, and a long line ends everything. Partial: sources with each description on its own line right before its declaration give exactly their entries. |
| C250 | The generated documentation tells its entries apart | `Props/Doc` over `Model/Doc`. Proved that each entry is in the text. Refuted for the rest: a description can hold headings and code, so that it looks like another entry. Partial: the entries can be read back if descriptions have no number sign, and names and signatures no back tick. |
| C251 | The unpacked compiler is the one of the running program | `Props/Extract` over `Model/Extract`. Refuted: the tag is a hash of compiler and library only, so that a build with another header of the same size uses the old one. Partial: it holds if builds of one tag are the same, also after interrupted runs. |
| C252 | Unpacking works with two processes at a time | `Props/Extract` over `Model/Extract`. Refuted: the second process cuts the temporary file just before the first renames it, or finds it moved away and fails. Partial: it holds for one process at a time. |
| C253 | gray fmt --check succeeds only if all files are formatted | `Props/Extract` over `Model/Extract`. Refuted: files that do not exist and files with errors count as formatted with --check. Partial: exact for files that are there and without errors. The other two parts are proved. |
| C254 | Ports, time limits and host names of sockets are those given | `Props/Net` over `Model/Net`. Refuted: port 65616 is port 80; a limit of -1000 ms ends every wait at once while -1001 is ignored; names are cut at a zero byte and at 255 bytes. Partial: exact for ports below 65536, limits from 0 and short names without zero bytes. |
| C255 | Sending and receiving move everything or report an error | `Props/Net` over `Model/Net`. Refuted: short sends are no errors, a connection closed by the other side ends the program by SIGPIPE, the end of the data is reported as an error, and a read from no socket is not. Partial: repeated sends of the rest deliver the data in order and whole, and data that arrive are returned whole. |
| C256 | A socket handle never reaches another socket | `Props/Net` over `Model/Net`. Refuted: after closing a connection and making another, the old handle reaches the new connection, and closing it again closes that. Partial: handles of open sockets reach their socket, and closing them closes it and no other, after any operations. |
| C257 | Years and ticks can be asked for at every time | `Props/Net` over `Model/Net`. Refuted: a null pointer is followed for late times, the sum with 1900 overflows for the last 1900 years that localtime knows, and the difference of ticks overflows for negative starts. Partial: exact within 67721000000000000 seconds of 1970 and for starts that are not negative. |
| C258 | A struct that contains itself by value is reported | `Props/Decl` over `Model/Decl`. Refuted: a ring of 34 structs is not reported, because the search stops after 32. Partial: a report is never wrong, and cycles through up to 32 other structs are found. |
| C259 | The search for struct cycles takes time polynomial in the program | `Props/Decl` over `Model/Decl`. Refuted: structs each with two fields of the next one need 2^33-1 calls. Partial: the number of calls is bounded by the geometric sum of the number of fields over the depth. |
| C260 | C type definitions come after those they need | `Props/Decl` over `Model/Decl`. Refuted: an enum with a struct as payload is defined before the struct, and the 257th struct is not defined at all. Partial: with up to 256 structs without cycles every struct is defined once, after the structs it contains. |
| C261 | The variants of an enum have different values | `Props/Decl` over `Model/Decl`. Refuted: A = 1, B, C = 2 gives B and C the value 2; equal values that are not literals are not seen; the 32nd flag is not an int. Partial: exact for literals only, for rising values, for no initial values, and for up to 31 flags. |
| C262 | The payload types of a variant are those written | `Props/Decl` over `Model/Decl`. Refuted: [int] is read as three types. Partial: every token is read as one type, so the types are those written exactly if each is one token. |
| C263 | String variants have the value of their literal | `Props/Decl` over `Model/Decl`. Refuted: one escape sequence adds a zero byte to the value, two read past the literal, and raw strings are read as C literals. Partial: an interpreted literal has its value exactly if it has no escape sequence; raw ones without backslash, quote and newline do. |
| C264 | The check of field types stays within its buffers | `Props/Decl` over `Model/Decl`. Refuted: an array type of 258 bytes goes past the end of the buffer. Partial: texts of up to 257 bytes are safe, and for arrays this bound is exact. |
| C265 | Tables of reserved names are searched exactly | `Props/Names` over `Model/Names`. Proved; also that order matters: a table out of order misses entries. |
| C266 | Variables get different C names that are no C keywords | `Props/Names` over `Model/Names`. Refuted: _Bool and the other keywords of C11 with an underscore are not renamed; auto and _gray_auto get the same C name. Partial: right for names that do not begin with an underscore. |
| C267 | Names in the C text mean what they mean in the source | `Props/Names` over `Model/Names`. Refuted: an inner `mut x int = x` reads itself, `for i in range(i, n)` starts at itself, `p.next = _dp` stores p in itself, a parameter declared again does not compile, a loop variable `free` and a parameter `int64_t` capture names of the text. Partial: right for names that do not begin with an underscore and are not used by the text, if no declaration mentions its own name and no parameter is declared again. |
| C268 | A loop variable has one name in the head of its loop | `Props/Names` over `Model/Names`. Refuted: with four names that are C words in the upper bound the loop counts another variable up. Partial: right if the variable is no C word or fewer than four such names occur in the bounds; names written at once are always right. |
| C269 | Variables are read through a pointer exactly if they are references | `Props/Names` over `Model/Names`. Refuted: after a reference r in one function, an integer r in another is dereferenced. Partial: right if no name is that of a reference in one place and of another variable in another. |
| C270 | Local variables are not replaced by constants of modules | `Props/Names` over `Model/Names`. Refuted: with `using math` a local variable E is written as 2.718.... Partial: a constant is written exactly if a module in use has one of that name. |
| C271 | Structs and enums are used under the names they are defined with | `Props/Names` over `Model/Names`. Refuted: an enum color is written as color and defined as GrayEnum_color; a map from Color to Point gets keys of the size of Point. Partial: right for names with a capital up to 244 bytes, and for maps of which not both types are the user's. |
| C272 | A call as a case value is read as a call | `Props/When` over `Model/When`. Refuted: `is square(k)` is taken for a pattern. Partial: calls without arguments or with an argument that is no identifier are read as calls, all others as patterns; the three spellings of patterns are read as such. |
| C273 | Nothing inside a when statement is dropped | `Props/When` over `Model/When`. Refuted: tokens between cases that are neither `is` nor `default` are skipped, a block among them ends the statement, and the last brace may be missing. Partial: cases and at most one default in any number and order are read as written; two defaults and empty statements are errors. |
| C274 | The first case that matches is run | `Props/When` over `Model/When`. Refuted: -1 matches the largest uint, a negative step in a variable never matches, a step of 0 and large differences are undefined, range(n) is not C. Partial: right for values as signed as the subject or not negative, and ranges with a start and a step that is positive or written with a minus. |
| C275 | A strict when statement is exhaustive | `Props/When` over `Model/When`. Refuted: integers are compared with the number of the variant and not its value, variants of other enums count, and subjects of type int are accepted. Partial: right if all case values are variants of the subject's enum, and then there is an error exactly if a variant is not named. |
| C276 | Duplicate case values are reported | `Props/When` over `Model/When`. Refuted: equal values in one case, negative integers, characters and variants are not reported. Partial: exact for integers and strings in different cases. |
| C277 | Names of a pattern are those its body uses | `Props/When` over `Model/When`. Refuted: a name that is a C word is declared as it is and used under another name, `(x, x)` is accepted, and the enum that is written is ignored. Partial: the names agree exactly if none is a C word; accepted patterns have a variant of the enum and a name for each part of the payload. |
| C278 | Accepted comparisons of a when statement are C | `Props/When` over `Model/When`. Refuted: an i128 and an integer literal. Partial: the exact list: wide integers with other types, different sorts of enums, enums of strings or with payloads with numbers, variants of other enums. |
| C279 | Subject and case values are evaluated once and in order | `Props/When` over `Model/When`. Refuted: the start of a range with a step is evaluated again after the end. Partial: right without steps; nothing after the value that matches is evaluated in any case. |
| C280 | Every statement that is compiled has been checked | `Props/When` over `Model/When`. Refuted: statements after a return are written but not checked. Partial: exactly what comes up to the first return is checked. |
| C281 | An unqualified call is compiled as it was checked | `Props/Calls` over `Model/Calls`. Refuted: with `using math`, even in another file, calls of the program's own `max` become calls of the library's; a call of the function in the variable `total` becomes a call of a struct's function `total`. Partial: all using in the same file, no function or variable called like a library function of a used module, no function whose name after the first underscore is the called one, and none of the twenty names for which the tables differ. |
| C282 | using is local to its file | `Props/Calls` over `Model/Calls`. Refuted: the code generator does not look at files, so `using math` in an imported file changes the calls of the main file's own `max`. Partial: true of the checker. |
| C283 | Library functions that using makes available are known to the code generator | `Props/Calls` over `Model/Calls`. Refuted: `using strconv` and `to_int("5")` is accepted and compiled as a call of a variable that does not exist. Partial: the unknown ones are exactly seventeen, all ten of strconv among them. |
| C284 | Private functions are called in their own file only | `Props/CallForms`. Refuted: `secret()` calls the private function `secret` of an imported module, without using; only `lib.secret()` is an error. Partial: calls with a dot reach private functions only in functions of the same struct. |
| C285 | The number of arguments is checked | `Props/CallForms`. Refuted: calls of functions of modules are not counted; `geo.area(3)` passes 0 as the second argument. Partial: right for functions of structs, and for calls without a dot that are checked against a function, if default values are the last ones. |
| C286 | Functions with different full names may be declared | `Props/FuncNames`. Refuted: if an imported module has a function `helper`, the main file's own `helper` is "already declared". Partial: accepted if no function is called like the rest of another's name after the first underscore. |
| C287 | Calls through variables call the function of the struct | `Props/FuncNames`. Refuted: if there is a function `p_move`, then `p.move()` for a variable `p` calls that one, unchecked and without `p`. Partial: right, in the checker and in the C text, if there is no such function. |
| C288 | A call with a dot is compiled as it was checked | `Props/FuncNames`. Refuted: a module of the program that is called like a library module is seen by the checker only; `server.listen` calls the library's. Partial: right if the name before the dot is no library module's, structs are not called like aliases and no function is called like the rest of another's name. |
| C289 | Functions have different names in C | `Props/FuncNames`. Refuted: `tree_size` of `Node` and `size` of `Node_tree` are both gray_fn_Node_tree_size. Partial: right if struct names have no underscore and no function is called like a struct with an underscore behind it. |
| C290 | Calls of functions that do not exist are reported | `Props/FuncNames`. Refuted: `geo.aera(3, 4)` and a call through a name that is nothing at all are accepted as void. Partial: calls without a dot are reported; the others have no function in the C text either, unless a module is called like a library module. |
| C291 | Assignments to accepted targets compile | `Props/Target` over `Model/Target`. Refuted: `m[k].x = 1`, `m[a][b] = 1`, `p^.a.x = 1`, `p^[0] = 1`, `p^.m[k] = 1`, `p.items[0].x = 1`, `f().x = 1`, unknown fields, and a field more than 32 fields away from a pointer. Partial: the targets that compile are characterised exactly (Assignable), and four families are shown never to compile. |
| C292 | Nil is never dereferenced without a check | `Props/Target` over `Model/Target`. Refuted: `e.message` of a nil Error is emitted as `e->message`. Partial: true of all paths without a field of an Error, and every path that dereferences a nil pointer panics with P0080. |
| C293 | An assignment writes the place its target names | `Props/Target` over `Model/Target`.  |
| C294 | Compound assignment computes what the operator computes | `Props/Target` over `Model/Target`. Refuted: through pointers the C operators are used: `p^ += 1` at the largest int and `p.n /= 0` are undefined, an i8 of 127 becomes -128; `p.items[0] /= 2` stores 2. Partial: right without pointers on variables and fields, and through pointers whenever the exact result fits. |
| C295 | addr and ref of accepted paths compile | `Props/Target` over `Model/Target`. Refuted: `addr(p^)`, `addr(p.a.x)`, `addr(p.items[0])`, `ref(p.n)`. Partial: ref compiles exactly for lvalues, addr for lvalues and for fields of a pointer and of p^. |
| C296 | Unknown fields are reported | `Props/Target` over `Model/Target`. Refuted: `s.vx` (any name that begins with v), `p^.x`, `a[0].x` and `f().x` are accepted for fields that do not exist. Partial: fields of variables and of fields, with names that do not begin with v. |
| C297 | ++ and -- compile on accepted operands | `Props/Target` over `Model/Target`. Refuted: `p.n++`, `m[k]++`, `p.items[0]++`, `p^.n++`. Partial: exactly on lvalues. |
| C298 | Accepted paths can be read | `Props/Target` over `Model/Target`. Refuted: `m[a][0]` of a map of arrays, `p^[0]`, `f().items[0]` and `f().m[k]`. Partial: the paths that compile are characterised exactly (Valid). |
| C299 | input returns the lines of the standard input | `Props/Console` over `Model/Console`, `Model/Sqlite`. Refuted: a line with a zero byte is cut there, and if it is long its end is returned as the next line; a line over 4095 bytes is cut; the end of the input looks like an empty line. Partial: lines without zero bytes of at most 4095 bytes, and sequences of them; of longer ones the first 4095 bytes, with the next call at the next line. |
| C300 | exit ends the program with the given status | `Props/Console` over `Model/Console`, `Model/Sqlite`. Refuted: exit(256) is success. Partial: the status is n mod 256, so right for 0 to 255. |
| C301 | sleep waits for the given time | `Props/Console` over `Model/Console`, `Model/Sqlite`. Refuted: sleep_s(4294967296) does not wait (cast to unsigned), sleep_ns(-1) is not an error. Partial: all milliseconds, seconds below 2^32, nanoseconds that are not negative; tv_nsec is always in range. |
| C302 | Characters are printed as they are converted | `Props/Console` over `Model/Console`, `Model/Sqlite`. Refuted beyond U+10FFFF: nothing is printed, the string is U+FFFD. Partial: equal for all code points, and UTF-8 for scalar values. |
| C303 | Failed queries are reported | `Props/Console` over `Model/Console`, `Model/Sqlite`. Refuted: a failure in sqlite3_step ends the rows without an error. Partial: nil handles and failures in preparing are errors with no rows; otherwise the rows are those of one execution. |
| C304 | A row has the text of each of its columns | `Props/Console` over `Model/Console`, `Model/Sqlite`. Refuted: columns of the same name (a join) are merged, texts are cut at a zero byte, NULL looks like the empty text. Partial: with different names, the row is the list of the columns with their texts up to a zero byte. |
| C305 | query executes the whole text | `Props/Console` over `Model/Console`, `Model/Sqlite`. Refuted: only the first statement is executed, without an error. Partial: texts with nothing after the first statement. |
| C306 | Allocations of the compiler do not overlap | `Props/Console` over `Model/Console`, `Model/Sqlite`.  |
| C307 | Printed values can be told apart | `Props/Show` over `Model/Show`. Refuted: quotes within strings are not escaped, so {"a", "b"} is one string or two; a string ends at a zero byte; a struct within itself is shown as Node{...}; an instance of a generic struct is shown without its fields. Partial: texts are uniquely readable, at any nesting, if strings have no quotes and zeros, characters are Unicode scalar values, and no struct is within itself. Floats are given by their %g text. |
| C308 | The generator of printing code ends and restores its table | `Props/Show` over `Model/Show`. Refuted: within 64 nested structs a tree is followed without end, and 65 nested structs leave the depth at -1, so that the next print writes before the table. Partial: programs with up to 64 structs. |
| C309 | Code that prints a container compiles | `Props/Show` over `Model/Show`. Refuted: elements that are wide integers, enums of strings or with payloads, and fields whose name is changed for C. Partial: with up to 64 structs, exactly these fail to compile. |
| C310 | println and interpolation show an array alike | `Props/Show` over `Model/Show`. Refuted: a string of 4092 bytes is printed, but interpolating its array writes outside of the buffer. Partial: texts of at most 4001 bytes, strings without zero bytes, Unicode characters. Floats are left out: println uses %g within containers, interpolation the shortest text that reads back. |
| C311 | The initialiser of a struct literal is well-formed | `Props/StructLit` over `Model/StructLit`. Refuted: S{} of a struct whose first field has no default value and a later one has begins with a comma. Partial: exactly these literals are spoilt; of all others C reads the fields given and then the defaults of the others. |
| C312 | The fields of a struct literal | `Props/StructLit` over `Model/StructLit`. Names of fields are taken to stay apart in C; that is the subject of other claims. |
| C313 | Values of fields have the type of the field | `Props/StructLit` over `Model/StructLit`. Refuted: arrays and maps of other elements, functions of other signatures, integers for structs and structs for integers, integers for enums of strings and for wide integers. Partial: all other types. |
| C314 | Numbers for integer fields | `Props/StructLit` over `Model/StructLit`. Refuted both ways: 5 for a u8 field is an error, 300 for an i8 field is accepted and stored as 44. Partial: accepted exactly for signed types; stored unchanged exactly if in the range. |
| C315 | Array fields that are left out are empty arrays | `Props/StructLit` over `Model/StructLit`. Refuted: arrays.insert_at and arrays.prepend store nothing, and reading is undefined. Partial: appending gives the same array as appending to a new one; arrays made by new are right. |
| C316 | Map fields that are left out can be used | `Props/StructLit` over `Model/StructLit`. Refuted: a map left out in a literal, and one within a struct within a struct made by new, have no slots; getting, has and setting divide by zero. Partial: these exactly. |
| C317 | Default values have the type of the field | `Props/StructLit` over `Model/StructLit`. Refuted: the type checker does not look at default values. Partial: structs marked #json may have none. |
| C318 | The type of a node is the one set last | `Props/TypeTab` over `Model/TypeTab`. Growing is included: entries are moved to a table twice as large, and never does a growth happen within a growth. |
| C319 | Types are shared by kind and name | `Props/TypeTab` over `Model/TypeTab`. Map literals and ranges make types outside of the index; these never disturb it. |
| C320 | The pool of types is large enough | `Props/TypeTab` over `Model/TypeTab`. Refuted: every map literal and every range takes an entry each time it is resolved, so 4097 loops over ranges exhaust the pool. Partial: the exact number of entries needed. |
| C321 | Texts of types stay for three more calls | `Props/TypeTab` over `Model/TypeTab`. Pointers, arrays and maps have a ring of four buffers each. |
| C322 | Texts of types tell them apart | `Props/TypeTab` over `Model/TypeTab`. Refuted: texts are cut at 127 bytes. Partial: elements of up to 125 bytes have whole, different texts. |
| C323 | Accepted infix operators compile | `Props/Operators` over `Model/Operators`. Refuted: a struct == an int, && on arrays, maps, structs and wide integers, bit operators on wide integers, ordering of aggregates of different kinds, arithmetic on errors and functions. Exact list, and all other operands compile. |
| C324 | Accepted infix operators are the defined ones | `Props/Operators` over `Model/Operators`. Refuted both ways: logical operators are refused on strings, nil and void only, bools are compared with integers, errors and functions are computed with; an i128 is not compared with an i256. Both lists are exact. |
| C325 | Results have the C type of their type | `Props/Operators` over `Model/Operators`. Refuted: an int + an i128 has the type int and is an i128 in C; so are all with a wide integer on the right only, or with a float. Exact list; comparisons are all right. |
| C326 | Accepted prefix operators compile | `Props/Operators` over `Model/Operators`. Refuted: bit_not of a wide integer. All others compile with the right type; what is accepted is characterised. |
| C327 | Accepted casts work | `Props/CastCheck` over `Model/CastCheck`. Refuted: strings to strings, enums of strings and tagged enums from and to integers, wide integers without a function between them (an i128 cast to u256 is still an i128). Exact list, and the casts accepted are characterised. |
| C328 | Casts of arrays convert the elements | `Props/CastCheck` over `Model/CastCheck`. Refuted: the array is copied as it is, so 300 is read as 44, and elements of larger types are read past the end. Partial: for targets that are not larger, elements in range keep their values and the others are cut. |
| C329 | Casts to enums do not depend on what was checked before | `Props/CastCheck` over `Model/CastCheck`. Refuted: the first use of an enum in a cast is an error, as the name counts as that of a struct. Partial: accepted exactly if the type has been made before. |
| C330 | The target of a cast is a type | `Props/CastCheck` over `Model/CastCheck`. Refuted: cast(x, foo) and cast(x, 5) are accepted. Partial: names with a capital letter must be enums or Error; all others that are not built-in ones are accepted. |
| C331 | A value of a tagged enum has its payloads | `Props/Tagged` over `Model/Tagged`. Refuted: Shape.Circle without arguments is accepted, and its payload is zero. Partial: exact conditions for calls, which have all payloads. |
| C332 | Integer payloads arrive | `Props/Tagged` over `Model/Tagged`. Refuted: V(i128, int) given 5 and 7 holds 5 + 7*2^64 and 0; -1 for an i128 is 2^64-1; 300 for an i8 is 44. Partial: arguments of the types of the payloads all arrive; others are converted. |
| C333 | Payloads are of the declared types | `Props/Tagged` over `Model/Tagged`. Refuted: a variant of any enum passes for a payload of any other, and sets the tag only if that is tagged; wide integers mixed with others. Exact list of what is accepted and of what is set. |
| C334 | A selector as payload means the enum of the payload | `Props/Tagged` over `Model/Tagged`. Refuted: it is taken for a variant of the enum that is constructed, and rejected or not C. Exact description. |
| C335 | maps.get_or_default gives the value or the default | `Props/MapCalls` over `Model/MapCalls`. Refuted: with the default 0 an int is cut to 32 bits, and a byte is read as four. Partial: right for defaults that are variables of the value type; exact condition for literals. |
| C336 | Keys of maps calls are those given | `Props/MapCalls` over `Model/MapCalls`. Refuted: a literal as key of a map[int:..] is a C int of which 8 bytes are read; so is an i32 on its own map. has_key(m, 261) finds the byte 5. Partial: has_key is right for keys of the type; exact condition for get_or_default. |
| C337 | maps.contains_value decides by value for integers | `Props/MapCalls` over `Model/MapCalls`. Refuted: 261 is found in a map with the byte 5. Partial: right for all values of the type. |
| C338 | json.encode reads values at their types | `Props/JsonCalls` over `Model/JsonCalls`. Refuted: a uint or byte is read as a map, an f64 in an array as an int, an i32 in a map as a string, and all keys as strings. Exact list. |
| C339 | Calls as gray man describes them are accepted | `Props/Manual` over `Model/Manual`. A printf with more than 98 values is refused; all other documented calls outside arrays are accepted. |
| C340 | Calls with a number of arguments the manual does not have are refused | `Props/Manual` over `Model/Manual`. rand_float(x) with one argument is accepted and has no text in C; rand_char(c) ignores its argument; listen takes three arguments; the numbers of arguments of 27 functions of arrays are not checked. Exact for all other functions. |
| C341 | Arguments of other types than the manual gives are refused | `Props/Manual` over `Model/Manual`. server and sqlite take anything for routers, databases, statements, handlers and statuses; math.sign takes floats. All other documented parameters are checked. |
| C342 | Names accepted after a module are functions of the runtime | `Props/Manual` over `Model/Manual`. Every name is accepted in crypto, encoding, http and binary; mem.make, mem.free and threads.spawn_arg are accepted without a function; mem.zero, fill and raw_copy exist but are refused. |
| C343 | The fallible functions are those the manual gives an Error | `Props/Manual` over `Model/Manual`. The rows of sqlite.query have the type map instead of map[string:string]; all others agree. |
| C344 | Every entry of the manual can be shown | `Props/ManLookup` over `Model/ManLookup`. The keyword new is never shown: gray man new is the builtin. All other entries are shown for their own keys. |
| C345 | A name in an index of the manual shows the entry listed | `Props/ManLookup` over `Model/ManLookup`. Twelve types and the keyword new show the builtin of that name, sixteen names of modules are ambiguous or a module, the alias json shows the module. Exact for all other names. |
| C346 | The indexes of the manual are complete | `Props/ManLookup` over `Model/ManLookup`. The builtin embed is documented and not listed; everything else is. |
| C347 | What gray man shows does not depend on the order of a map | `Props/ManLookup` over `Model/ManLookup`. The proposals for an ambiguous name come in the order of the visit; everything else is independent of it. |
| C348 | gray man without documentation | `Props/ManLookup` over `Model/ManLookup`.  |
| C349 | random.choice reads elements as the array keeps them | `Props/Picks` over `Model/Picks`. Arrays of arrays, maps and pointers are read as 64-bit integers, and so are smaller integers of arrays not made by a literal; f32 of such arrays as double. Exact for all others; a[i] differs from choice for arrays, maps and pointers. |
| C350 | mem.alloc gives back a value of the type of its argument | `Props/Picks` over `Model/Picks`. Values other than strings and array literals become pointers; literals of characters, bytes, structs, enums, arrays, maps and pointers get 64-bit integers as elements. Exact for all others. |
| C351 | An extracted file has the embedded bytes | `Props/Unpack` over `Model/Unpack`. Two processes share path.tmp: one truncates what the other renames, and the file is empty or partial after a success. A file of the same size with other bytes is kept. Proved for one process alone. |
| C352 | An interrupted extraction leaves no partial file | `Props/Unpack`, `Props/UnpackMany` over `Model/Unpack`. Also: after any stopped processes, one that runs alone and succeeds leaves the embedded bytes unless a file of that size is there. |
| C353 | A process that has written its file can rename it | `Props/Unpack`, `Props/UnpackMany` over `Model/Unpack`. Another process may have renamed the shared path.tmp; then the extraction fails although no write has failed and the bytes are there. Proved for one process alone. |
| C354 | The directory of a build has the files of the build | `Props/Unpack` over `Model/Unpack`. The tag of the directory does not depend on the source tree, and the sizes alone are compared: a changed header of the same size stays the old one. Exact condition proved. |
| C355 | GRAY_COMPILER_PATH wins | `Props/Unpack` over `Model/Unpack`. A name that is no regular file is passed over without a message. Proved for regular files, with the exact condition for finding nothing. |
| C356 | Extractions at the same time end with the embedded bytes | `Props/UnpackMany`. Runs without failed writes; the wrong content of C351 lasts only while another process is still writing. |
| C357 | The sources of the runtime are found from any directory below them | `Props/RuntimeDir` over `Model/RuntimeDir`. The walk stops before the root: sources in /grayc/src are found from / only. Exactly the nearest directory below the root is found. |
| C358 | GRAY_RUNTIME wins | `Props/RuntimeDir` over `Model/RuntimeDir`. A directory without a readable runtime/runtime.h is passed over without a message. Proved for directories with it, with the exact condition for finding nothing. |

## Disagreements between documentation and code found while reading

These are proved in the model as `_fails` theorems (see the manifest).

* 256-bit subtraction and division: the borrow test `a < b + borrow` wraps when a limb
  of `b` is 2^64-1 (`bigint.h` i256_sub, u256_sub, u256_divmod).
* `i128`/`i256` MIN * -1 returns MIN instead of panicking.
* Wide division by zero returns 0; wide narrowing casts reinterpret silently.
* `u32 * u32` is computed in `int64_t`, which is undefined behaviour above 2^63.
* Range loops panic when the last increment overflows, and take the direction of
  `-x` from the syntax, not from the value.
* `maps.clear` during iteration is not rejected.
* Arithmetic: the checked `u256` product panics on some products that fit; wide literals
  that are not decimal lose their upper part; `from_decimal` wraps silently; `i128` checked
  addition overflows a signed intermediate; mixed signed/unsigned operations and
  comparisons follow C's conversions, not the values; `array /=` stores its right operand.
* Maps and arrays: the size counters are `int32_t`; `return` inside `for_each` leaves the
  collection locked; `contains_value` and `dedup` compare strings by address; indices are
  cut to 32 bits; elements of sized arrays are read through pointers of a wrong width.
* Strings: `strings.repeat` overflows its length; classifiers cut code points to a byte;
  UTF-8 decoding differs between functions; `to_string` of wide values overruns a buffer;
  interpolation cuts at NUL; casts and `strconv` truncate; `int()` clamps.
* Encodings: non-canonical base64 is accepted; some CSV tables do not round-trip; binary
  short reads return garbage; `uuid.generate` without entropy returns the empty string.
* Paths: `io.normalize` drops segments past 256 and overruns its table on relative `..`;
  `path_join` with an empty first part makes the path absolute; the trusted-URL test
  accepts `..`; the archive extractor follows links; a failing `Close` is not reported.
* Concurrency: a closed channel can lose sends, the open counter wraps, and
  `threads.detach` can race with thread exit and free the handle twice.
* HTTP: parameters of routes that failed to match leak into the request; responses are cut
  at NUL and at 64K; redirect targets are copied into headers; a request is one `recv`.
* Random and math: `rand_int` misses values for ranges of multiples of 2^32, `rand_float`
  can be 1.0, `rand_char` never gives its upper bound; `lcm` may be negative; `is_prime`
  overflows; `min`/`max` cut mixed arguments; `sign` of fractions is 0.
* JSON: `encode` does not escape strings, `decode` does not undo escapes and does not
  terminate on some inputs; `is_valid` accepts vertical tab and form feed; `pretty_print`
  of the empty map overruns; `#json` structs drop fields of other types.
* Lexer and literals: hex/octal/binary literals accept misplaced `_`; `!in_range` is read as
  `!in _range`; a lone carriage return ends no line; escapes in string literals are emitted
  as C escapes with another meaning (`"\01"`, `"\\$"`, `"\0\x41"`).
* `gray fmt` can change the content of multi-line raw strings and is not idempotent there.
* Parser: `if DEBUG {` is read as a struct literal; a comparison switches the suppression of
  struct literals off on its left and on inside arguments on its right; nesting beyond 256
  is rejected.
* Deep copy: structs containing their own type are copied one level deep; sized arrays in
  arrays of maps are shared; more than 64 nested structs unbalance the emitter's counter.
* Control flow: `ensure` statements run although never reached, and before the return value
  is computed; a loop with `break` counts as returning; named results are not checked.
* Escape: values stored from an inner scope into outer variables, fields, elements, globals
  or by-reference parameters may live in an arena that is gone afterwards (C136).
* Regular expressions: texts are cut at 8191 bytes; `^` matches after every match, `$`
  twice; `find_all` reads and `replace` writes outside its buffer for long texts; `split`
  loses text at empty matches.
* `crypto.random_hex` of 2^31 digits or more returns a string of negative length.
* Types (parser.c, types.c): `[[map[string:int]]]`, `[[^Point]]`, `[^[int]]`, `[[int, 3]]` and `map[lib.Color:int]` are refused; a single
  result type of 256 bytes or more is cut. The element type of an array is cut at its first comma, `my_mod.Point` is an unknown type,
  `game.Thread` is the library's `Thread`.
* Generics: parameters without `?` are not checked in a generic call; `^?`, `[?,3]`, `func(?)` and `map[?:[?]]` never bind;
  `map[string:[?]]` binds `int,3`; `[^P]` and `^[P]` share one instance; long instance names are cut at the definition only.
* Constants outside functions: `86400 * 1000000000` is computed in C's `int`; `const X int = -1` is emitted as a call and does not
  compile; `i8`… and `uint` constants wrap; `5 / Z` with a constant `Z = 0` is accepted; `uint` constants above 2^63 - 1 cannot be
  computed. A named array size is looked up in one flat table of the whole program, first entry first, and cut to 32 bits.
* Formatted output: `\x25` hides a percent sign from the check (`printf("\x25n")` is `%n`); raw format strings are emitted
  unescaped; `%x`, `%o` and `%c` read 32 bits of a 64-bit `int`, `%d` reads 64 bits of an `i32`; `%Lf`, `%ls`, wide integers and `%b`
  of anything are accepted. Padding counts bytes and uses one byte of the character; `float_fixed(1.0, 63)` reads past its buffer.
* Diagnostics: the underline always stands at least one cell too far left; errors beyond the 20th are neither shown nor counted;
  source lines are cut at 2047 bytes. A formatted piece of generated code of 2^31 bytes would be dropped silently.
* Command line: arguments given to `gray file.gray` never reach the program, and the last of them replaces the file; `-q w1001` hides
  all warnings and compiles a file `w1001`; exit statuses other than 0 become 1. The path of the runtime archive is not searched for
  quotes. The intermediate file depends on the base name only, and a source without extension is overwritten by its program.
* Imports: a call of the entry file's own function becomes a call of an imported module's function of the
  same name, even without `using` (C174). Locals with the name of a module's declaration are captured, and default values, function
  references `()f`, enum payloads, function types and compound types of locals keep their old names (C173, C175, C176).
  The names `net.http_get` and `net_http.get` collide (C177). A module's constants are merged in reverse order, so `const B = A + 1`
  is an error in an imported file (C178). Beyond 256 files the set of imported files forgets (C179), and a directory is cut at 256
  files (C182). Paths are relative to the importing file, contrary to STANDARD 8.1 (C181). A file imported under two names is there
  under the first only (C183).
* Statements: `return` on a line of its own takes the next statement as its value. A missing `}` at the end of the file is
  accepted. `{1: 2,}` reads on past its `}` and takes the one of the block. `private`, `#flags` and `#strict` are accepted before
  any statement. Tokens between the cases of `when` are skipped.
* Declarations and strings (C187–C196): a parameter group `(x, y [int])` and its results can lose their names; `do f(a int, b)` drops `b` without a word; a `'}'` inside `${…}` ends the piece; `"${x y}"` reads as `x`; a bare `$x` goes unreported beside a `${y}`; the 17th variable of one declaration overruns a fixed table; a float literal with `_` is cut at 127 bytes; the 17th `or_return` value is lost.
* Expressions in C (C197–C200, `Model/Emit.lean`). The grammar of C expressions with the statement expressions of GCC is a relation,
  and a reader for it shows that it is unambiguous; the text that code generation writes has exactly one reading. `(a + b) / c` with
  floats divides only `b`: the left operand of a division of floats is written without parentheses. The temporaries `_dv`, `_sa` and `_ik` can be
  names of the program's variables and then capture them. Divisions and shifts evaluate their right operand first, the order of the operands of
  the others is left to the C compiler, and `x in range(…)` evaluates `x` twice.
* The HTTP client (C202-C212). A header that does not fit the 4096-byte buffer, followed by one more, is written
  behind the buffer on the stack (C204); the NUL after a response can fall one byte behind the heap buffer (C209).
  Line breaks in header values are sent (C203). The last field of every response is lost (C207), and a user in a URL
  becomes the host (C202). The client sends head and body apart, and this language's server reads once (C211).
* Expressions in C, continued (C201): arrays can be joined by `&&` or ordered, and `1 in f()` takes the address of a
  result; the C compiler refuses both.
* The io module (C213–C223): `remove_dir_all` and `walk` follow symbolic links, so a link inside a tree leads
  to the removal of files outside of it, and a link to an ancestor makes `walk` go on until a limit of the system;
  `copy` of a file onto itself empties it; writes are not checked when the stream is closed, so a write to a full
  disk is reported as done; `make_dir_all` says yes when a file is in the way; a move between devices removes the
  source whether or not the copy was complete; from the 257th temporary file on nothing is removed at the end.
* Wide integers in expressions (C224–C227): the compiler finds out from the shape of an expression whether it is
  wide, and the checker from its type; where they differ the C text is invalid (`x = 5`, `a + (1 + 2)`, sums of
  fields), and a 64-bit operand converted with the signedness of the target is off by 2^64. The list of wide
  variables is never emptied, so a function can break the ones after it.
* Shared arrays and constants (C228–C231): `mut b = a`, elements taken out or put in, literals and appends share
  the array with its other names, while `mut b [int] = a` copies, so independence depends on the form of the
  declaration. Constants, and the caller's variables behind value parameters, are changed by accepted writes
  two steps deep, by `++` on an element or field, and through second names. The rule under which none of this
  happens is proved sufficient.
- Arguments (C232–C233): a call with a default is written as C declarations of the parameters one after the other, so an argument that
  mentions an earlier parameter's name takes the new value, and one that mentions its own name is uninitialised. Leaving out a required
  parameter before a named one makes the checker follow a null pointer.
- Accepted types (C234–C235): each kind of place has its own comparison. Assignments, fields and elements compare no element types of
  arrays; `[int]` and `[byte]` are taken for one another everywhere; an integer is taken for a struct in three places.
- Array elements (C236): a literal stores integers in eight bytes, an empty array has the size of the declared type, and every operation
  chooses its own type to read or write with. For types under eight bytes no size is right for both `a[i]` and `arrays.map`.
- Implicit integer conversions (C237): only declarations and arguments are checked. Assignments, returns, fields and elements wrap, and a
  `u64` of 2^64-1 passes the check for `i8` as -1.
- Atomic operations (C238, C239): the x86-64 assembly is atomic under store buffers. On ARM64 the exchange of a byte compares 32 bits of
  registers, of which the calling convention specifies eight.
- Spin locks (C240, C241): mutual exclusion holds on both processors; on x86-64 also the visibility of data. On ARM64 `trylock` may fail
  for no reason.
- Lock handles (C242): `sync.destroy` leaves the handle as it was, `spinlock_destroy` clears one variable but not its copies.
- Running programs (C243, C244): the buffers are safe for any output, but results are not whole after an interrupted call, above 64 MiB,
  or if the program itself ends with 127. Setting and getting environment variables agree.
- Watching (C245–C248): the scan for imports keeps the quotation marks, so that no import written in them is watched; files replaced by
  renaming are lost; a program that is changed at least every 100 ms never runs.
- Documentation (C249, C250): the texts are collected with their declarations as described; the Markdown is unambiguous only if no text
  contains a heading or a fence.
- Unpacking and `gray fmt` (C251–C253): the tag of the unpacked files ignores the sources, two processes share one temporary file, and the
  check passes for files that do not exist or cannot be formatted.
- Sockets and time (C254–C257): ports wrap at 65536, short sends are no errors, SIGPIPE ends the program, closed handles reach the next
  connection, and times whose year is no `int` follow a null pointer.
- Struct and enum declarations (C258–C264): a ring of 34 structs is not found, the search may take exponential time, an enum comes before
  the struct in its payload, the 257th struct is dropped, `A = 1, B, C = 2` has equal variants, the 32nd flag is no `int`, a payload
  `[int]` is read as three types, variants of string enums lose escapes, and field types from 258 bytes on overflow a buffer.
- Names in the C text (C265–C271): `_Bool` and `_gray_auto` are not renamed, an inner `mut x int = x` and `for i in range(i, n)` read
  themselves, `_dp`, `free` and `int64_t` capture or are captured, four C words in a bound change the name of the loop variable, references
  are recognised by name through the whole program, constants of modules in use replace local variables, enums without a capital are used
  under another name than defined, and maps between two user types have wrong key sizes.
- `when` statements (C272–C280): `is f(x)` is always a pattern, tokens between cases are skipped, -1 matches the largest `uint`, negative
  steps in variables never match, `range(n)` is no C, `#strict` takes numbers for positions and variants of any enum, repeated variants
  and negative numbers are not reported, `is .A(long)` declares another name than it uses, wide integers do not compare with literals,
  the start of a range with a step is evaluated twice, and statements after a `return` are compiled unchecked.
- Resolution of calls (C281–C290). The checker looks for an own function, then a variable, then the used modules of the same file; the code generator looks at the used
  modules of all files first, then at own functions, then at any function whose name after its first underscore is the called one. So an own `max` besides `using math`
  is checked as the own one and compiled as the library's. Seventeen library functions (all of strconv) are accepted without their module and not compiled. Private functions
  of imported modules can be called without a dot; calls `module.f(…)` are not checked for the number or the types of arguments; missing functions behind a dot are accepted.
- Paths (C291–C298). A path is emitted as nested C text, and every field of a pointer, every `p^` and every map entry is a statement expression, which is no lvalue. Assignments therefore have
  their own forms (`_dp->…`, `GRAY_ARRAY_SET`, `gray_map_set`), but only for the last steps of the path, so that `m[k].x = 1`, `p^.a.x = 1`, `p^[0] = 1` and `p.items[0].x = 1` pass the
  checker and are refused by the C compiler, as are `p.n++`, `m[k]++`, `addr(p^)`, and reading `m[a][0]` of a map of arrays. Field names are checked only on variables and fields, and any name
  that begins with `v` passes. Compound assignment through pointers uses the C operators without the checks for overflow and division by zero, and `p.items[i] /= 2` stores 2.
  `e.message` of a nil Error is the only unchecked dereference of nil.
- **Console and databases** (C299–C306, `Model/Console`, `Model/Sqlite`). `input()` cuts lines at zero bytes and at 4095 bytes, and a long line with a zero byte is returned in two pieces.
  `exit(256)` is success. `sleep_s` casts to `unsigned int`, so 2^32 seconds are none; `sleep_ns` has no check for negative durations. Characters beyond U+10FFFF are
  printed as nothing but converted to U+FFFD. `sqlite.query` drops errors of `sqlite3_step`, executes only the first statement of its text, and merges columns of the same name.
  The compiler's own arena is proved sound.
- Printing containers (C307–C310, `Model/Show`): quotes and zero bytes within strings are printed as they are, a struct within itself is
  `Node{...}`, instances of generic structs lose their fields, the guard against recursion counts 64 structs and leaves its table
  spoilt beyond, and wide integers, enums of strings or payloads and renamed fields give C text that does not compile.
- Struct literals (C311–C317, `Model/StructLit`): an empty literal may begin with a comma, the check of values compares kinds only,
  `u8` fields take no number and `i8` fields take all, fields left out are zeros (arrays without element size, maps without slots), and
  default values are not checked.
- Tables of types (C318–C322, `Model/TypeTab`): every map literal and every range takes an entry of the pool of 4096 types each time it is
  resolved, so 4097 loops over ranges stop the compiler; texts of types are cut at 127 bytes.
- Operators (C323–C326, `Model/Operators`): a struct may be compared with an int, the logical operators take arrays, maps and structs, the bit
  operators take wide integers, errors and functions are computed with and ordered, none of which compiles; `1 && 2` and `true == 1`
  are accepted; an `int` plus an `i128` has the type `int` and is an `i128` in C.
- Casts (C327–C330, `Model/CastCheck`): `cast(a, [u8])` copies the array as it is, so elements are cut without a check and larger types are read
  past the end; `cast(0, Direction)` is an error if the enum has not been used before; `cast(x, foo)` and `cast(x, 5)` are accepted; a string
  cast to `string`, an enum of strings cast to `int` and an `i128` cast to `u256` give C that does not compile.
- Tagged enums (C331–C334, `Model/Tagged`): `Shape.Circle` without arguments is a value with payload 0; a variant `V(i128, int)` given two ints puts
  both into the words of the `i128` and leaves the `int` 0; a variant of any enum passes as payload of any other; `.Red` as argument of a
  constructor is looked up in the enum that is constructed.
- Calls of `maps` and `json` (C335–C338, `Model/MapCalls`, `Model/JsonCalls`): `maps.get_or_default(m, k, 0)` reads values at the C type of the
  literal, so an `int` is cut to 32 bits; a literal or an `i32` as key of `get_or_default` has fewer bytes than are read; `has_key` and
  `contains_value` take 261 for the byte 5; `json.encode` of a `uint`, of an `[f64]`, of a `map[string:i32]` or of a `map[int:int]` reads the
  memory as something else.
- The library of `gray man` against the tables of the checker (C339–C343, `Model/Manual`): documented calls are accepted, except a `printf` of more
  than 98 values; `rand_float(x)` is accepted and has no text in C; the numbers of arguments of 27 functions of `arrays` are not checked; `server`
  and `sqlite` take anything as router, database, statement or handler; `crypto`, `encoding`, `http` and `binary` accept any name, `mem.make`,
  `mem.free` and `threads.spawn_arg` are accepted without a function, while `mem.zero`, `fill` and `raw_copy` exist but are refused.
- The names of `gray man` (C344–C348, `Model/ManLookup`): no name shows the keyword `new`; twelve types listed in the index `types` show the builtin of
  that name; fifteen names of modules are ambiguous and proposed in random order; `json` is the module, neither `server.json` nor the attribute; the
  builtin `embed` is in no index.
- C types of two more calls (C349, C350, `Model/Picks`): `random.choice` reads elements that are arrays, maps or pointers as 64-bit integers, unlike
  `a[i]`; `mem.alloc` has the type of its value for the checker but is a pointer to it in C, strings and some array literals apart.
- The embedded runtime (C351–C356, `Model/Unpack`, a transition system of any number of processes between system calls): a crash of one process never
  leaves a partial file, but two processes share `path.tmp`, so that one can succeed with an empty compiler and the other fail to rename
  (without failed writes the bytes are right again once nobody is writing); the tag of the
  directory leaves out the source tree and only sizes are compared, so a changed header of the same size stays old; a `GRAY_COMPILER_PATH` that is no
  file is ignored silently.
- The runtime directory (C357, C358, `Model/RuntimeDir`): the walk up from the working directory never looks in the root; a `GRAY_RUNTIME` without the
  header is ignored silently.

## Not modelled

Floating point functions (libm), SQLite itself (a parameter of `Model/Sqlite`), the parsing of POSIX regular expressions
(matching is specified as leftmost-longest), the C code generator beyond
the fragments named above (arithmetic, loops, guards, literals, interpolation, copies,
scopes and arenas), and the type checker beyond the checks named above.

import Verif.Model.Str

/-
The strings module: /repo/grayc/src/stdlib/strings.c, and string indexing and iteration as emitted
by /repo/grayc/src/codegen/codegen.c.

Simplifications.
* A string is the list of its bytes (Model/Str.lean), of length at most INT32_MAX; theorems state
  this bound where it matters.
* Arrays of strings are lists (Model/Array.lean has their own behaviour).
* Loops whose step depends on a match take the number of iterations they may run and give
  `.ok none` when it does not suffice; the functions pass `s.length + 1`, and the theorems show that
  it suffices.
* `memcmp` of bytes outside the string is `ub`.
* A C `char` is signed (as on x86-64 with gcc and clang), a language `char` is an `int32_t`.
-/
namespace Verif.Strings
open Verif Verif.Str

/-- `memcmp(s.data + i, sub.data, sub.len) == 0`. -/
def memEq (s : Str) (i : Nat) (sub : Str) : Outcome Bool :=
  if i + sub.length ≤ s.length then .ok ((s.drop i).take sub.length == sub) else .ub

/-- `toupper` and `tolower` in the C locale. -/
def toUpperB (c : Byte) : Byte := if isLower c then c - 32 else c
def toLowerB (c : Byte) : Byte := if isUpper c then c + 32 else c

/-- `gray_strings_to_upper` (strings.c:16-22), `gray_strings_to_lower` (strings.c:24-30). -/
def toUpper (s : Str) : Str := s.map toUpperB
def toLower (s : Str) : Str := s.map toLowerB

/-- `while (start < end && isspace(data[start])) start++`, as the rest of the text. -/
def skipSpace : Str → Str
  | [] => []
  | c :: r => if isSpace c then skipSpace r else c :: r

/-- `gray_strings_trim_left` (strings.c:39-43). -/
def trimLeft (s : Str) : Str := skipSpace s

/-- `gray_strings_trim_right` (strings.c:45-49). -/
def trimRight (s : Str) : Str := (skipSpace s.reverse).reverse

/-- `gray_strings_trim` (strings.c:32-37). -/
def trim (s : Str) : Str := trimRight (trimLeft s)

/-- The loop of `gray_strings_contains` and `gray_strings_index_of`: `n` positions left from `i`. -/
def findLoop (s sub : Str) : Nat → Nat → Outcome (Option Nat)
  | 0, _ => .ok none
  | n + 1, i => do
    let hit ← memEq s i sub
    if hit then .ok (some i) else findLoop s sub n (i + 1)

/-- `gray_strings_contains` (strings.c:51-58). -/
def contains (s sub : Str) : Outcome Bool :=
  if sub.length = 0 then .ok true
  else if s.length < sub.length then .ok false
  else do
    let r ← findLoop s sub (s.length - sub.length + 1) 0
    .ok r.isSome

/-- `gray_strings_starts_with` (strings.c:60-63). -/
def startsWith (s p : Str) : Outcome Bool :=
  if s.length < p.length then .ok false else memEq s 0 p

/-- `gray_strings_ends_with` (strings.c:65-68). -/
def endsWith (s p : Str) : Outcome Bool :=
  if s.length < p.length then .ok false else memEq s (s.length - p.length) p

/-- The value returned for a position. -/
def idx : Option Nat → Int
  | some i => i
  | none => -1

/-- `gray_strings_index_of` (strings.c:70-77). -/
def indexOf (s sub : Str) : Outcome Int :=
  if sub.length = 0 then .ok 0
  else if s.length < sub.length then .ok (-1)
  else do
    let r ← findLoop s sub (s.length - sub.length + 1) 0
    .ok (idx r)

/-- The loop of `gray_strings_last_index_of`: positions `n - 1` down to 0. -/
def lastLoop (s sub : Str) : Nat → Outcome (Option Nat)
  | 0 => .ok none
  | n + 1 => do
    let hit ← memEq s n sub
    if hit then .ok (some n) else lastLoop s sub n

/-- `gray_strings_last_index_of` (strings.c:79-86). -/
def lastIndexOf (s sub : Str) : Outcome Int :=
  if sub.length = 0 then .ok s.length
  else if s.length < sub.length then .ok (-1)
  else do
    let r ← lastLoop s sub (s.length - sub.length + 1)
    .ok (idx r)

/-- The loop of `gray_strings_count` (strings.c:91-96). -/
def countLoop (s sub : Str) : Nat → Nat → Nat → Outcome (Option Nat)
  | 0, _, _ => .ok none
  | n + 1, i, c =>
    if i + sub.length ≤ s.length then do
      let hit ← memEq s i sub
      if hit then countLoop s sub n (i + (sub.length - 1) + 1) (c + 1)
      else countLoop s sub n (i + 1) c
    else .ok (some c)

/-- `gray_strings_count` (strings.c:88-98). -/
def count (s sub : Str) : Outcome (Option Nat) :=
  if sub.length = 0 then .ok (some 0) else countLoop s sub (s.length + 1) 0 0

/-- `gray_strings_remove_prefix` (strings.c:104-108). -/
def removePrefix (s p : Str) : Outcome Str :=
  if s.length < p.length then .ok s
  else do
    let hit ← memEq s 0 p
    if hit then .ok (s.drop p.length) else .ok s

/-- `gray_strings_remove_suffix` (strings.c:110-114). -/
def removeSuffix (s p : Str) : Outcome Str :=
  if s.length < p.length then .ok s
  else do
    let hit ← memEq s (s.length - p.length) p
    if hit then .ok (s.take (s.length - p.length)) else .ok s

/-- `i <= s.len - old_s.len && memcmp(…) == 0` (strings.c:129). -/
def hitAt (s : Str) (i : Nat) (old : Str) : Outcome Bool :=
  if i + old.length ≤ s.length then memEq s i old else .ok false

/-- The copying loop of `gray_strings_replace` (strings.c:128-136). -/
def replaceLoop (cap : Nat) (s old new : Str) : Nat → Nat → Str → Outcome (Option Str)
  | 0, _, _ => .ok none
  | n + 1, i, out =>
    if i < s.length then do
      let hit ← hitAt s i old
      if hit then do
        let o ← put cap out new
        replaceLoop cap s old new n (i + old.length) o
      else do
        let o ← put cap out ((s.drop i).take 1)
        replaceLoop cap s old new n (i + 1) o
    else .ok (some out)

/-- `gray_strings_replace` (strings.c:116-140). The length is computed in `int64_t`, where it cannot
overflow: both factors are below 2^31. -/
def replace (s old new : Str) : Outcome (Option Str) :=
  if old.length = 0 then .ok (some s)
  else do
    match ← count s old with
    | none => .ok none
    | some c =>
      if c = 0 then .ok (some s)
      else
        let len : Int := s.length + c * ((new.length : Int) - old.length)
        if len < 0 ∨ (int32Max : Int) < len then .panic "P0071"
        else replaceLoop len.toNat s old new (s.length + 1) 0 []

/-- The loop of `gray_strings_repeat` (strings.c:151-153). -/
def repeatLoop (cap : Nat) (s : Str) : Nat → Str → Outcome Str
  | 0, out => .ok out
  | n + 1, out => do
    let o ← put cap out s
    repeatLoop cap s n o

/-- `gray_strings_repeat` (strings.c:142-157). The product is computed in `int64_t`. -/
def «repeat» (s : Str) (count : Int) : Outcome Str :=
  if count < 0 then .panic "P0072"
  else if count = 0 ∨ s.length = 0 then .ok []
  else if 2 ^ 63 ≤ (s.length : Int) * count then .ub
  else if (int32Max : Int) < s.length * count then .panic "P0073"
  else repeatLoop ((s.length : Int) * count).toNat s count.toNat []

/-- `gray_strings_reverse` (strings.c:159-165). -/
def reverse (s : Str) : Str := (List.range s.length).map fun i => s.getD (s.length - 1 - i) 0

/-- `gray_strings_slice` (strings.c:167-172). -/
def slice (s : Str) (start stop : Int) : Str :=
  let a := if start < 0 then 0 else start
  let b := if stop > s.length then (s.length : Int) else stop
  if a ≥ b then [] else (s.drop a.toNat).take (b - a).toNat

/-- The loop of `gray_strings_split` (strings.c:181-188). -/
def splitLoop (s sep : Str) : Nat → Nat → Nat → List Str → Outcome (Option (List Str))
  | 0, _, _, _ => .ok none
  | n + 1, start, i, parts =>
    if i + sep.length ≤ s.length then do
      let hit ← memEq s i sep
      if hit then
        let i' := i + (sep.length - 1)
        splitLoop s sep n (i' + 1) (i' + 1) (parts ++ [(s.drop start).take (i - start)])
      else splitLoop s sep n start (i + 1) parts
    else .ok (some (parts ++ [s.drop start]))

/-- `gray_strings_split` (strings.c:174-192). -/
def split (s sep : Str) : Outcome (Option (List Str)) :=
  if sep.length = 0 then .ok (some [s]) else splitLoop s sep (s.length + 1) 0 0 []

/-- The first pass of `gray_strings_join` (strings.c:197-202): all terms are non-negative, so some
addition overflows `int32_t` exactly if the sum is too large. -/
def joinTotal (sep : Str) : List Str → Nat
  | [] => 0
  | [s] => s.length
  | s :: t :: r => s.length + sep.length + joinTotal sep (t :: r)

/-- The second pass (strings.c:205-210) after the first element. -/
def joinLoop (cap : Nat) (sep : Str) : List Str → Str → Outcome Str
  | [], out => .ok out
  | s :: r, out => do
    let o ← put cap out sep
    let o ← put cap o s
    joinLoop cap sep r o

/-- `gray_strings_join` (strings.c:194-214). -/
def join (arr : List Str) (sep : Str) : Outcome Str :=
  match arr with
  | [] => .ok []
  | s :: r =>
    if int32Max < joinTotal sep (s :: r) then .ub
    else do
      let o ← put (joinTotal sep (s :: r)) [] s
      joinLoop (joinTotal sep (s :: r)) sep r o

/-- A C `char` converted to `int32_t`. -/
def charVal (b : Byte) : Int := b.toInt

/-- `gray_strings_to_chars` (strings.c:217-224): the bytes as unsigned numbers. -/
def toChars (s : Str) : List Int := s.map fun b => (b.toNat : Int)

/-- `gray_strings_from_chars` (strings.c:226-235): `(char)data[i]`. -/
def fromChars (cs : List Int) : Str := cs.map fun c => BitVec.ofInt 8 c

/-- `gray_strings_char_at` (strings.c:237-243), whose result `char` the caller converts to
`int32_t`. -/
def charAt (s : Str) (i : Int) : Outcome Int :=
  if i < 0 ∨ (s.length : Int) ≤ i then .panic "P0082" else .ok (charVal (s.getD i.toNat 0))

/-- `s[i]` (codegen.c:2572-2579): the index is converted to `int32_t` first. -/
def index (s : Str) (i : Int) : Outcome Int :=
  let e := Int.bmod i (2 ^ 32)
  if e < 0 ∨ (s.length : Int) ≤ e then .panic "P0082" else .ok (s.getD e.toNat 0).toNat

/-- The values of the loop variable of `for_each c in s` (codegen.c:8912-8921). -/
def eachChar (s : Str) : List Int := s.map charVal

/-- The argument of a classification function: an `int32_t` converted to `char`. -/
def charArg (c : Int) : Byte := BitVec.ofInt 8 c

/-- `gray_strings_is_alpha` … `gray_strings_is_lower` (strings.c:245-250). -/
def isAlphaC (c : Int) : Bool := isUpper (charArg c) || isLower (charArg c)
def isDigitC (c : Int) : Bool := isDigit (charArg c)
def isAlnumC (c : Int) : Bool := isAlnum (charArg c)
def isWhitespaceC (c : Int) : Bool := isSpace (charArg c)
def isUpperC (c : Int) : Bool := isUpper (charArg c)
def isLowerC (c : Int) : Bool := isLower (charArg c)

end Verif.Strings

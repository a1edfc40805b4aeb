import Verif.Model.Outcome

/-
Strings: `GrayString` (/repo/grayc/src/runtime/runtime.h), a pointer to bytes and an `int32_t`
length.

Simplifications.
* A string is the list of its bytes; sharing is not modelled (strings are immutable).
* `char` is 8 bits.  Comparisons of a (possibly signed) `char` with ASCII constants agree with
  comparisons of the byte, so bytes are unsigned here.
* Character classes (`isxdigit`, …) are those of the "C" locale; the runtime never calls setlocale.
* A function that fills a freshly allocated buffer writes through `put`, which is `ub` when the
  write would leave the buffer.  The terminating NUL has its own byte.
-/
namespace Verif.Str
open Verif

abbrev Byte := BitVec 8
abbrev Str := List Byte

/-- `INT32_MAX`. -/
def int32Max : Nat := 2147483647

/-- The byte of an ASCII character constant. -/
def ch (c : Char) : Byte := BitVec.ofNat 8 c.toNat

/-- The bytes of an ASCII string literal. -/
def lit (s : String) : Str := s.toList.map ch

/-- Appends `bs` to the `out` written so far in a buffer with room for `cap` bytes. -/
def put (cap : Nat) (out bs : Str) : Outcome Str :=
  if out.length + bs.length ≤ cap then .ok (out ++ bs) else .ub

/-- A test `lo <= c && c <= hi`. -/
def between (lo c hi : Byte) : Bool := decide (lo.toNat ≤ c.toNat ∧ c.toNat ≤ hi.toNat)

/-- `isdigit`. -/
def isDigit (c : Byte) : Bool := between 48 c 57
/-- `isupper`. -/
def isUpper (c : Byte) : Bool := between 65 c 90
/-- `islower`. -/
def isLower (c : Byte) : Bool := between 97 c 122
/-- `isxdigit`. -/
def isXDigit (c : Byte) : Bool := isDigit c || between 65 c 70 || between 97 c 102
/-- `isalnum`. -/
def isAlnum (c : Byte) : Bool := isDigit c || isUpper c || isLower c
/-- `isspace`. -/
def isSpace (c : Byte) : Bool := c == 32 || between 9 c 13

/-- One digit of `printf("%x")`. -/
def lowerHex (n : Nat) : Byte := BitVec.ofNat 8 (if n < 10 then 48 + n else 87 + n)
/-- One digit of `printf("%X")`. -/
def upperHex (n : Nat) : Byte := BitVec.ofNat 8 (if n < 10 then 48 + n else 55 + n)

/-- `(hi <= '9') ? hi - '0' : (hi <= 'F') ? hi - 'A' + 10 : hi - 'a' + 10`, on a hex digit. -/
def hexVal (c : Byte) : Nat :=
  if c.toNat ≤ 57 then c.toNat - 48 else if c.toNat ≤ 70 then c.toNat - 65 + 10
  else c.toNat - 97 + 10

end Verif.Str

import Verif.Model.Strings
import Verif.Model.Interp
import Verif.Model.IntOps
import Verif.Model.BigintText

/-
Numbers from and to strings: /repo/grayc/src/stdlib/strconv.c and `int("…")`
(`gray_builtin_string_to_int`, /repo/grayc/src/stdlib/builtins.c:306-317).

Simplifications.
* `strtoll`/`strtoull` are libc; they are modelled after C11 7.22.1.4 in the "C" locale (the compiler
  is run with `-std=c11`, main.c:1699, so there is no `0b` prefix): optional white space, optional sign,
  `0x` in base 16 only in front of a hexadecimal digit, digits, clamping with ERANGE.
* The error messages and the error value are dropped: the result variants return `none` for an error.
* Floating point conversions are not modelled.
-/
namespace Verif.Strconv
open Verif Verif.Str Verif.Strings Verif.Interp Verif.IntOps

/-- The value of a digit; 99 for other characters. -/
def digitVal (c : Byte) : Nat :=
  if isDigit c then c.toNat - 48
  else if isUpper c then c.toNat - 55
  else if isLower c then c.toNat - 87
  else 99

/-- The digits of the subject sequence: their value and the rest. -/
def digitsLoop (base : Nat) : Str → Nat → Nat × Str
  | [], acc => (acc, [])
  | c :: r, acc =>
    if digitVal c < base then digitsLoop base r (acc * base + digitVal c) else (acc, c :: r)

/-- The optional sign: whether it is a minus, and the rest. -/
def sign : Str → Bool × Str
  | [] => (false, [])
  | c :: r => if c = ch '-' then (true, r) else if c = ch '+' then (false, r) else (false, c :: r)

/-- The optional prefix of base 16. -/
def skipPrefix (base : Nat) : Str → Str
  | z :: x :: d :: r =>
    if base = 16 ∧ z = ch '0' ∧ (x = ch 'x' ∨ x = ch 'X') ∧ digitVal d < 16 then d :: r
    else z :: x :: d :: r
  | s => s

/-- The common part of `strtoll` and `strtoull`: sign, magnitude and the rest (`end`), or none if
there is no number (`end == buf`). -/
def strtox (buf : Str) (base : Nat) : Option (Bool × Nat × Str) :=
  let (neg, s) := sign (skipSpace buf)
  match skipPrefix base s with
  | [] => none
  | c :: r =>
    if digitVal c < base then
      let (n, rest) := digitsLoop base (c :: r) 0
      some (neg, n, rest)
    else none

/-- `strtoll`: the value, `end`, and whether ERANGE is set. -/
def strtoll (buf : Str) (base : Nat) : Option (Int × Str × Bool) :=
  (strtox buf base).map fun (neg, n, rest) =>
    let v : Int := if neg then -(n : Int) else n
    if v < -2 ^ 63 then (-2 ^ 63, rest, true)
    else if 2 ^ 63 ≤ v then (2 ^ 63 - 1, rest, true)
    else (v, rest, false)

/-- `strtoull`. -/
def strtoull (buf : Str) (base : Nat) : Option (Int × Str × Bool) :=
  (strtox buf base).map fun (neg, n, rest) =>
    if 2 ^ 64 ≤ n then (2 ^ 64 - 1, rest, true)
    else (if neg then (-(n : Int)) % 2 ^ 64 else n, rest, false)

/-- The first bytes of the string copied to the local buffer (`STRCONV_BUF_SIZE`,
`GRAY_FLOAT_STR_BUF` are 64). -/
def copied (s : Str) : Str := s.take 63

/-- `len > 0 && isspace(buf[0])`. -/
def startsBlank : Str → Bool
  | [] => false
  | c :: _ => isSpace c

/-- The loop looking for a minus sign (strconv.c:50-54, 126-133). -/
def minusLoop : Str → Bool
  | [] => false
  | c :: r => if c = ch '-' then true else if isSpace c then minusLoop r else false

/-- `gray_strconv_to_int` (strconv.c:22-37). The base parameter is a C int. -/
def toInt (s : Str) (base : Int) : Outcome Int :=
  let b := conv (32, true) base
  if b < 2 ∨ 36 < b then .panic "P0054"
  else if startsBlank (copied s) then .panic "P0055"
  else match strtoll (cstr (copied s)) b.toNat with
    | none => .panic "P0055"
    | some (v, rest, erange) => if rest ≠ [] ∨ erange then .panic "P0055" else .ok v

/-- `gray_strconv_to_uint` (strconv.c:39-61). -/
def toUint (s : Str) (base : Int) : Outcome Int :=
  let b := conv (32, true) base
  if b < 2 ∨ 36 < b then .panic "P0056"
  else if startsBlank (copied s) then .panic "P0057"
  else if minusLoop (copied s) then .panic "P0058"
  else match strtoull (cstr (copied s)) b.toNat with
    | none => .panic "P0057"
    | some (v, rest, erange) => if rest ≠ [] ∨ erange then .panic "P0057" else .ok v

/-- `gray_strconv_to_int_result` (strconv.c:89-113). -/
def toIntResult (s : Str) (base : Int) : Option Int :=
  let b := conv (32, true) base
  if b < 2 ∨ 36 < b then none
  else if startsBlank (copied s) then none
  else match strtoll (cstr (copied s)) b.toNat with
    | none => none
    | some (v, rest, erange) => if rest ≠ [] ∨ erange then none else some v

/-- `gray_strconv_to_uint_result` (strconv.c:115-148). -/
def toUintResult (s : Str) (base : Int) : Option Int :=
  let b := conv (32, true) base
  if b < 2 ∨ 36 < b then none
  else if startsBlank (copied s) then none
  else if minusLoop (copied s) then none
  else match strtoull (cstr (copied s)) b.toNat with
    | none => none
    | some (v, rest, erange) => if rest ≠ [] ∨ erange then none else some v

/-- `gray_builtin_string_to_int` (builtins.c:306-317); errno is not looked at. -/
def stringToInt (s : Str) : Outcome Int :=
  match strtoll (cstr (copied s)) 10 with
  | none => .panic "P0084"
  | some (v, rest, _) =>
    if rest = [] ∨ rest.head? = some (ch ' ') then .ok v else .panic "P0084"

/-- `gray_strconv_to_bool` (strconv.c:78-86); `strncasecmp` compares in lower case. -/
def toBool (s : Str) : Outcome Bool :=
  if s.length = 4 ∧ s.map toLowerB = lit "true" then .ok true
  else if s.length = 5 ∧ s.map toLowerB = lit "false" then .ok false
  else .panic "P0060"

/-- `gray_strconv_from_uint` (strconv.c:194-200). -/
def fromUint (n : Nat) : Str := (Bigint.decimalNat n).map (BitVec.ofNat 8)

/-- `gray_strconv_from_int` (strconv.c:186-192). -/
def fromInt (n : Int) : Str := if n < 0 then ch '-' :: fromUint n.natAbs else fromUint n.natAbs

/-- The loop of `gray_strconv_is_numeric` (strconv.c:225-235). -/
def numericLoop : Str → Bool → Bool → Bool
  | [], _, hasDigit => hasDigit
  | c :: r, hasDot, hasDigit =>
    if c = ch '.' then (if hasDot then false else numericLoop r true hasDigit)
    else if isDigit c then numericLoop r hasDot true
    else false

/-- `gray_strconv_is_numeric` (strconv.c:216-237). -/
def isNumeric : Str → Bool
  | [] => false
  | c :: r =>
    if c = ch '-' ∨ c = ch '+' then (if r = [] then false else numericLoop r false false)
    else numericLoop (c :: r) false false

/-- The loop of `gray_strconv_is_integer` (strconv.c:246-248). -/
def integerLoop : Str → Bool
  | [] => true
  | c :: r => if !isDigit c then false else integerLoop r

/-- `gray_strconv_is_integer` (strconv.c:239-250). -/
def isInteger : Str → Bool
  | [] => false
  | c :: r =>
    if c = ch '-' ∨ c = ch '+' then (if r = [] then false else integerLoop r)
    else integerLoop (c :: r)

end Verif.Strconv

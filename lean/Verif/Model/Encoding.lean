import Verif.Model.Str

/-
The encoding module: /repo/grayc/src/stdlib/encoding.c, and the hex and base64 functions of
/repo/grayc/src/stdlib/bytes.c.

Simplifications.
* Loops over an index are recursions on the rest of the input.
* Arithmetic on `uint32_t` values below 2^24 is on natural numbers; it cannot wrap.
* `int32_t` computations of output sizes that overflow are `ub`.
-/
namespace Verif.Enc
open Verif Verif.Str

/-- `b64_table` (encoding.c:16). -/
def table : Str := lit "ABCDEFGHIJKLMNOPQRSTUVWXYZabcdefghijklmnopqrstuvwxyz0123456789+/"

/-- `b64_table[n]`. -/
def sym (n : Nat) : Byte := table[n]?.getD 0

def eq : Byte := ch '='

/-- The four characters of one iteration (encoding.c:23-30); `b` and `c` are `none` past the end. -/
def quad (a : Byte) (b c : Option Byte) : Str :=
  let triple := (a.toNat <<< 16) ||| ((b.getD 0).toNat <<< 8) ||| (c.getD 0).toNat
  [sym ((triple >>> 18) &&& 0x3F), sym ((triple >>> 12) &&& 0x3F),
    if b.isSome then sym ((triple >>> 6) &&& 0x3F) else eq,
    if c.isSome then sym (triple &&& 0x3F) else eq]

/-- The loop of `gray_encoding_base64_encode` (encoding.c:22-31). -/
def b64EncLoop (cap : Nat) : Str → Str → Outcome Str
  | [], out => .ok out
  | [a], out => put cap out (quad a none none)
  | [a, b], out => put cap out (quad a (some b) none)
  | a :: b :: c :: rest, out => do
    let o ← put cap out (quad a (some b) (some c))
    b64EncLoop cap rest o

/-- `gray_encoding_base64_encode` (encoding.c:18-35). -/
def b64Encode (s : Str) : Outcome Str :=
  if int32Max < s.length + 2 ∨ int32Max < (s.length + 2) / 3 * 4 then .ub
  else b64EncLoop ((s.length + 2) / 3 * 4) s []

/-- `b64_val` (encoding.c:37-44); `none` is -1. -/
def b64Val (c : Byte) : Option Nat :=
  if isUpper c then some (c.toNat - 65)
  else if isLower c then some (c.toNat - 97 + 26)
  else if isDigit c then some (c.toNat - 48 + 52)
  else if c = ch '+' then some 62
  else if c = ch '/' then some 63
  else none

/-- `x_pad ? 0 : b64_val(x_ch)`. -/
def padVal (c : Byte) : Option Nat := if c = eq then some 0 else b64Val c

/-- The bytes written for a quad (encoding.c:83-87). -/
def quadBytes (a b c d : Nat) (cPad dPad : Bool) : Str :=
  let triple := (a <<< 18) ||| (b <<< 12) ||| (c <<< 6) ||| d
  [BitVec.ofNat 8 ((triple >>> 16) &&& 0xFF)] ++
    (if cPad then [] else [BitVec.ofNat 8 ((triple >>> 8) &&& 0xFF)]) ++
    (if dPad then [] else [BitVec.ofNat 8 (triple &&& 0xFF)])

/-- The body of the loop (encoding.c:64-88). -/
def b64Quad (cap : Nat) (a b c d : Byte) (last : Bool) (out : Str) : Outcome Str :=
  if (c = eq ∨ d = eq) ∧ last = false then .panic "P0037"
  else if c = eq ∧ d ≠ eq then .panic "P0038"
  else
    match b64Val a, b64Val b, padVal c, padVal d with
    | some va, some vb, some vc, some vd =>
      put cap out (quadBytes va vb vc vd (decide (c = eq)) (decide (d = eq)))
    | _, _, _, _ => .panic "P0039"

/-- The loop (encoding.c:63-89); the length is a multiple of 4. -/
def b64DecLoop (cap : Nat) : Str → Str → Outcome Str
  | a :: b :: c :: d :: rest, out => do
    let o ← b64Quad cap a b c d rest.isEmpty out
    b64DecLoop cap rest o
  | _, out => .ok out

/-- The padding count (encoding.c:55-57); the length is at least 4. -/
def padCount (s : Str) : Nat :=
  (if s[s.length - 1]? = some eq then 1 else 0) + (if s[s.length - 2]? = some eq then 1 else 0)

/-- `gray_encoding_base64_decode` (encoding.c:46-93). -/
def b64Decode (s : Str) : Outcome Str :=
  if s.length = 0 then .ok []
  else if s.length % 4 ≠ 0 then .panic "P0036"
  else b64DecLoop (s.length / 4 * 3 - padCount s) s []

/-- The loop of `gray_encoding_hex_encode` (encoding.c:100-102). -/
def hexEncLoop (cap : Nat) : Str → Str → Outcome Str
  | [], out => .ok out
  | b :: rest, out => do
    let o ← put cap out [lowerHex (b.toNat / 16), lowerHex (b.toNat % 16)]
    hexEncLoop cap rest o

/-- `gray_encoding_hex_encode` (encoding.c:97-106); `gray_bytes_to_hex` (bytes.c:41-51) is the
same. -/
def hexEncode (s : Str) : Outcome Str :=
  if int32Max < s.length * 2 then .ub else hexEncLoop (s.length * 2) s []

/-- The loop of `gray_encoding_hex_decode` (encoding.c:114-123). -/
def hexDecLoop (cap : Nat) : Str → Str → Outcome Str
  | hi :: lo :: rest, out =>
    if !isXDigit hi || !isXDigit lo then .panic "P0041"
    else do
      let o ← put cap out [BitVec.ofNat 8 ((hexVal hi <<< 4) ||| hexVal lo)]
      hexDecLoop cap rest o
  | _, out => .ok out

/-- `gray_encoding_hex_decode` (encoding.c:108-127). -/
def hexDecode (s : Str) : Outcome Str :=
  if s.length % 2 ≠ 0 then .panic "P0040" else hexDecLoop (s.length / 2) s []

/-- The characters url_encode copies (encoding.c:135). -/
def unreserved (c : Byte) : Bool :=
  isAlnum c || c == ch '-' || c == ch '_' || c == ch '.' || c == ch '~'

/-- The loop of `gray_encoding_url_encode` (encoding.c:133-140). `j` is an `int`: passing
`INT_MAX` overflows. -/
def urlEncLoop (cap : Nat) : Str → Str → Outcome Str
  | [], out => .ok out
  | c :: rest, out => do
    let o ← put cap out (if unreserved c then [c]
      else [ch '%', upperHex (c.toNat / 16), upperHex (c.toNat % 16)])
    if int32Max < o.length then .ub else urlEncLoop cap rest o

/-- `gray_encoding_url_encode` (encoding.c:129-144). -/
def urlEncode (s : Str) : Outcome Str := urlEncLoop (s.length * 3) s []

/-- One character outside a complete escape (encoding.c:159-163). -/
def plain (c : Byte) : Byte := if c = ch '+' then 32 else c

/-- The loop of `gray_encoding_url_decode` (encoding.c:149-164). -/
def urlDecLoop (cap : Nat) : Str → Str → Outcome Str
  | [], out => .ok out
  | [a], out => put cap out [plain a]
  | [a, b], out => do
    let o ← put cap out [plain a]
    put cap o [plain b]
  | a :: b :: c :: rest, out =>
    if a = ch '%' then
      if !isXDigit b || !isXDigit c then .panic "P0042"
      else do
        let o ← put cap out [BitVec.ofNat 8 ((hexVal b <<< 4) ||| hexVal c)]
        urlDecLoop cap rest o
    else do
      let o ← put cap out [plain a]
      urlDecLoop cap (b :: c :: rest) o

/-- `gray_encoding_url_decode` (encoding.c:146-168). -/
def urlDecode (s : Str) : Outcome Str := urlDecLoop s.length s []

/-! ### bytes.c -/

/-- `sscanf(p, "%02x", &byte)`: the input is the rest of the buffer up to its NUL. White space is
skipped, then at most two characters are read: a sign and a digit, or one or two digits.
`none`: nothing is assigned.  (`0x` with nothing after it inside the width also assigns 0 in
glibc and nothing in other libraries; it is `none` here.) -/
def scanHex2 : Str → Option Nat
  | [] => none
  | c :: rest =>
    if c = 0 then none
    else if isSpace c then scanHex2 rest
    else if c = ch '+' ∨ c = ch '-' then
      match rest with
      | d :: _ => if isXDigit d then
          some (if c = ch '-' then (256 - hexVal d) % 256 else hexVal d) else none
      | [] => none
    else if isXDigit c then
      match rest with
      | d :: _ => if isXDigit d then some (hexVal c * 16 + hexVal d)
          else if c = ch '0' ∧ (d = ch 'x' ∨ d = ch 'X') then none else some (hexVal c)
      | [] => some (hexVal c)
    else none

/-- The loop of `gray_bytes_from_hex` (bytes.c:33-38): `n` iterations left, `p` the rest of the
text. An unassigned `byte` is indeterminate. -/
def fromHexLoop : Nat → Str → Str → Outcome Str
  | 0, _, out => .ok out
  | n + 1, p, out =>
    match scanHex2 p with
    | none => .ub
    | some v => fromHexLoop n (p.drop 2) (out ++ [BitVec.ofNat 8 v])

/-- `gray_bytes_from_hex` (bytes.c:30-39). -/
def fromHex (s : Str) : Outcome Str := fromHexLoop (s.length / 2) s []

end Verif.Enc

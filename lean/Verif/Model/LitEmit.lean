import Verif.Model.Lexer

/-
Values of character and string literals: /repo/grayc/src/parser/parser.c:846-862 and 716-734, and their C text,
/repo/grayc/src/codegen/codegen.c:1081-1182.

Simplifications.
* `char` is signed in C, but the byte of a literal is given as it is; literals of the language have ASCII
  characters only (Props/LexText).
* The C text of a string is the text between the first and the last double quote, and the length is given
  apart: `none` when the C library or the C compiler measures it.
* A string with an interpolation takes another path (Model/Interp).
-/
namespace Verif.LitEmit
open Verif Verif.Str Verif.Lexer

/-- The value of a character literal (parser.c:846-862). -/
def charValue (t : Str) : Byte :=
  if at0 t 0 = 92 ∧ at0 t 1 ≠ 0 then
    if at0 t 1 = 110 then 10
    else if at0 t 1 = 116 then 9
    else if at0 t 1 = 114 then 13
    else if at0 t 1 = 92 then 92
    else if at0 t 1 = 39 then 39
    else if at0 t 1 = 48 then 0
    else at0 t 1
  else at0 t 0

/-- What is emitted for a character (codegen.c:1172-1182), without the quotes. -/
def emitChar (c : Byte) : Str :=
  if c = 10 then lit "\\n"
  else if c = 9 then lit "\\t"
  else if c = 13 then lit "\\r"
  else if c = 92 then lit "\\\\"
  else if c = 39 then lit "\\'"
  else if c = 0 then lit "\\0"
  else [c]

/-- The scan for null bytes (codegen.c:1088-1104): whether there is one, and `str_len`. -/
def scan : Str → Bool × Nat
  | [] => (false, 0)
  | 92 :: 120 :: 48 :: 48 :: r => (true, (scan r).2 + 1)
  | 92 :: 48 :: r => (true, (scan r).2 + 1)
  | 92 :: _ :: r => ((scan r).1, (scan r).2 + 1)
  | _ :: r => ((scan r).1, (scan r).2 + 1)

/-- The loop for raw strings (codegen.c:1111-1128). -/
def emitRaw : Str → Str
  | [] => []
  | c :: r =>
    (if c = 92 then [92, 92] else if c = 34 then [92, 34] else if c = 10 then [92, 110]
      else if c = 13 then [92, 114] else if c = 9 then [92, 116] else [c]) ++ emitRaw r

/-- `" "`, if the next byte is a hexadecimal digit (1140-1143). -/
def hexBreak (r : Str) : Str := if isXDigit (at0 r 0) then [34, 32, 34] else []

/-- The loop for other strings (codegen.c:1129-1158). -/
def emitPlain : Str → Str
  | [] => []
  | 92 :: 120 :: a :: r =>
    if isXDigit a then
      match r with
      | b :: r1 =>
        if isXDigit b then [92, 120, a, b] ++ (hexBreak r1 ++ emitPlain r1)
        else [92, 120, a] ++ emitPlain (b :: r1)
      | [] => [92, 120, a]
    else 92 :: emitPlain (120 :: a :: r)
  | 92 :: 36 :: r => 36 :: emitPlain r
  | c :: r => (if c = 10 then [92, 110] else if c = 13 then [92, 114] else [c]) ++ emitPlain r

/-- The C text of a string literal, and its length if it is written down (codegen.c:1105-1165). `top` says
that the literal is outside functions (`indent == 0`). -/
def emitString (top raw : Bool) (s : Str) : Str × Option Nat :=
  (if raw then emitRaw s else emitPlain s, if (scan s).1 && !top then some (scan s).2 else none)

end Verif.LitEmit

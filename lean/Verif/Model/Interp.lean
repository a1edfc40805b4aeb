import Verif.Model.Utf8

/-
Interpolated strings: the `gray_string_format` calls emitted by
/repo/grayc/src/codegen/codegen.c:1189-1373, `gray_string_format`
(/repo/grayc/src/runtime/runtime.c:152-171), and the texts of arrays and maps,
`gray_builtin_array_to_string` and `gray_builtin_map_to_string`
(/repo/grayc/src/stdlib/builtins.c:342-392, 484-537).

Simplifications.
* Numbers, floats and booleans are given by the text `printf` makes of them (`plain`).
* `snprintf` at position `pos` of the 4096-byte buffer drops what does not fit but advances `pos` by
  the full length. The model keeps the full text and takes its length as `pos`. Dropped bytes are
  never seen: once `pos` is at least 4096 the closing brace is written outside the buffer.
* Strings are below 2^31 - 8 bytes here, so `snprintf` never reports an unrepresentable length.
* Maps have string keys, and are the list of their live entries in order. (For maps with other keys
  the function reads the key as a `GrayString` all the same.)
-/
namespace Verif.Interp
open Verif Verif.Str

inductive Elem where
  | plain (t : Str)
  | str (s : Str)
  | chr (cp : Int)
  deriving DecidableEq

/-- What `%s` and `%.*s` print of a string: the bytes before the first NUL. -/
def cstr (s : Str) : Str := s.takeWhile (· != 0)

/-- `GRAY_TOSTRING_BUF_SIZE`, `GRAY_TOSTRING_SAFE_LIMIT` (builtins.c:20-21). -/
def bufSize : Nat := 4096
def safeLimit : Nat := bufSize - 96

/-- `buf[pos++] = c`. -/
def putc (out : Str) (c : Byte) : Outcome Str :=
  if out.length < bufSize then .ok (out ++ [c]) else .ub

/-- `pos += snprintf(buf + pos, sizeof(buf) - pos, …)`: beyond the end the size wraps around. -/
def snp (out t : Str) : Outcome Str :=
  if out.length ≤ bufSize then .ok (out ++ t) else .ub

/-- `cp_to_utf8` (builtins.c:335-340). -/
def cpToUtf8 (cp : Int) : Str :=
  if cp < 0x110000 then Utf8.charToUtf8 cp
  else
    let c := cp.toNat
    [BitVec.ofNat 8 (0xF0 ||| (c >>> 18)), BitVec.ofNat 8 (0x80 ||| ((c >>> 12) &&& 0x3F)),
      BitVec.ofNat 8 (0x80 ||| ((c >>> 6) &&& 0x3F)), BitVec.ofNat 8 (0x80 ||| (c &&& 0x3F))]

/-- One element (builtins.c:348-387): the character case writes only if there is room. -/
def putElem (out : Str) : Elem → Outcome Str
  | .plain t => snp out t
  | .str s => snp out (ch '"' :: cstr s ++ [ch '"'])
  | .chr cp =>
    if out.length + 2 + (cpToUtf8 cp).length < bufSize then
      .ok (out ++ (ch '\'' :: cpToUtf8 cp ++ [ch '\'']))
    else .ok out

/-- `if (i > 0) { buf[pos++] = ','; buf[pos++] = ' '; }`. -/
def putSep (first : Bool) (out : Str) : Outcome Str :=
  if first then .ok out
  else do
    let o ← putc out (ch ',')
    putc o (ch ' ')

/-- The loop over the elements (builtins.c:346-388). -/
def arrayLoop : Bool → List Elem → Str → Outcome Str
  | _, [], out => .ok out
  | first, e :: r, out =>
    if out.length < safeLimit then do
      let o ← putSep first out
      let o ← putElem o e
      arrayLoop false r o
    else .ok out

/-- `buf[pos++] = '}'; buf[pos] = '\0'` and the copy. -/
def finish (out : Str) : Outcome Str := do
  let o ← putc out (ch '}')
  let _ ← putc o 0
  .ok o

/-- `gray_builtin_array_to_string` (builtins.c:342-392). -/
def arrayText (a : List Elem) : Outcome Str := do
  let o ← arrayLoop true a [ch '{']
  finish o

/-- The loop over the entries (builtins.c:488-531). -/
def mapLoop : Bool → List (Str × Elem) → Str → Outcome Str
  | _, [], out => .ok out
  | first, (k, e) :: r, out =>
    if out.length < safeLimit then do
      let o ← putSep first out
      let o ← snp o (ch '"' :: cstr k ++ lit "\": ")
      let o ← putElem o e
      mapLoop false r o
    else .ok out

/-- `if (m->order_len == 0) { buf[pos++] = ':'; }`. -/
def emptyMark (m : List (Str × Elem)) (out : Str) : Outcome Str :=
  if m.length = 0 then putc out (ch ':') else .ok out

/-- `gray_builtin_map_to_string` (builtins.c:484-537). -/
def mapText (m : List (Str × Elem)) : Outcome Str := do
  let o ← mapLoop true m [ch '{']
  let o ← emptyMark m o
  finish o

/-- A part of an interpolated string. -/
inductive Part where
  | text (t : Str)
  | plain (t : Str)
  | str (s : Str)
  | chr (cp : Int)
  | arr (a : List Elem)
  | map (m : List (Str × Elem))
  deriving DecidableEq

/-- What a part contributes (codegen.c:1218-1243 for the formats, 1276-1372 for the arguments):
all but literal text, numbers and booleans go through `%s`. -/
def partText : Part → Outcome Str
  | .text t => .ok t
  | .plain t => .ok t
  | .str s => .ok (cstr s)
  | .chr cp => .ok (cstr (Utf8.charToUtf8 cp))
  | .arr a => do
    let t ← arrayText a
    .ok (cstr t)
  | .map m => do
    let t ← mapText m
    .ok (cstr t)

/-- All parts in order. -/
def partsText : List Part → Outcome Str
  | [] => .ok []
  | p :: r => do
    let t ← partText p
    let u ← partsText r
    .ok (t ++ u)

/-- `gray_string_format` (runtime.c:152-171): `vsnprintf` gives a negative number when the text is
longer than INT_MAX. -/
def format (ps : List Part) : Outcome Str := do
  let t ← partsText ps
  if int32Max < t.length then .ok [] else .ok t

end Verif.Interp

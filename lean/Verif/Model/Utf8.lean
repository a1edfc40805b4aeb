import Verif.Model.Str

/-
Code-point access: `gray_builtin_to_char`, `gray_builtin_char_count` and `gray_builtin_char_to_utf8`
in /repo/grayc/src/stdlib/builtins.c.

Simplifications.
* The pointer `p` is the rest of the string.
* The loops take the number of iterations they may run and give `.ok none` when it does not
  suffice; the functions pass the length of the string.
-/
namespace Verif.Utf8
open Verif Verif.Str

/-- The class of a lead byte: initial value and number of bytes (builtins.c:406-416). -/
def lead (b : Byte) : Nat × Nat :=
  if b.toNat < 0x80 then (b.toNat, 1)
  else if b &&& 0xE0 = 0xC0 then ((b &&& 0x1F).toNat, 2)
  else if b &&& 0xF0 = 0xE0 then ((b &&& 0x0F).toNat, 3)
  else if b &&& 0xF8 = 0xF0 then ((b &&& 0x07).toNat, 4)
  else (0xFFFD, 1)

/-- The loop over the continuation bytes (builtins.c:421-427): `none` for the `break`. -/
def contLoop : Nat → Str → Nat → Option Nat
  | 0, _, cp => some cp
  | _ + 1, [], _ => none
  | n + 1, c :: r, cp =>
    if c &&& 0xC0 ≠ 0x80 then none else contLoop n r ((cp <<< 6) ||| (c &&& 0x3F).toNat)

/-- One decoding step on `b :: r` (builtins.c:403-428): code point and number of bytes. -/
def step (b : Byte) (r : Str) : Nat × Nat :=
  if (b :: r).length < (lead b).2 then (0xFFFD, 1)
  else
    match contLoop ((lead b).2 - 1) r (lead b).1 with
    | some cp => (cp, (lead b).2)
    | none => (0xFFFD, 1)

/-- The loop of `gray_builtin_to_char` (builtins.c:402-432). -/
def toCharLoop (index : Int) : Nat → Str → Int → Outcome (Option Nat)
  | _, [], _ => .panic "P0050"
  | 0, _ :: _, _ => .ok none
  | n + 1, b :: r, i =>
    if i = index then .ok (some (step b r).1)
    else toCharLoop index n ((b :: r).drop (step b r).2) (i + 1)

/-- `gray_builtin_to_char` (builtins.c:395-436). -/
def toChar (s : Str) (index : Int) : Outcome (Option Nat) :=
  if index < 0 then .panic "P0049" else toCharLoop index s.length s 0

/-- The step of `gray_builtin_char_count` (builtins.c:444-449). -/
def leadLen (b : Byte) : Nat :=
  if b.toNat < 0x80 then 1
  else if b &&& 0xE0 = 0xC0 then 2
  else if b &&& 0xF0 = 0xE0 then 3
  else if b &&& 0xF8 = 0xF0 then 4
  else 1

/-- The loop of `gray_builtin_char_count` (builtins.c:442-452). -/
def countLoop : Nat → Str → Nat → Option Nat
  | _, [], c => some c
  | 0, _ :: _, _ => none
  | n + 1, b :: r, c => countLoop n ((b :: r).drop (leadLen b)) (c + 1)

/-- `gray_builtin_char_count` (builtins.c:438-454). -/
def charCount (s : Str) : Option Nat := countLoop s.length s 0

/-- `gray_builtin_char_to_utf8` (builtins.c:456-482) of an `int32_t`. -/
def charToUtf8 (cp : Int) : Str :=
  if cp < 0x80 then [BitVec.ofInt 8 cp]
  else
    let c := cp.toNat
    if cp < 0x800 then [BitVec.ofNat 8 (0xC0 ||| (c >>> 6)), BitVec.ofNat 8 (0x80 ||| (c &&& 0x3F))]
    else if cp < 0x10000 then
      [BitVec.ofNat 8 (0xE0 ||| (c >>> 12)), BitVec.ofNat 8 (0x80 ||| ((c >>> 6) &&& 0x3F)),
        BitVec.ofNat 8 (0x80 ||| (c &&& 0x3F))]
    else if cp < 0x110000 then
      [BitVec.ofNat 8 (0xF0 ||| (c >>> 18)), BitVec.ofNat 8 (0x80 ||| ((c >>> 12) &&& 0x3F)),
        BitVec.ofNat 8 (0x80 ||| ((c >>> 6) &&& 0x3F)), BitVec.ofNat 8 (0x80 ||| (c &&& 0x3F))]
    else [0xEF, 0xBF, 0xBD]

end Verif.Utf8

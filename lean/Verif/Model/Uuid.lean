import Verif.Model.Str

/-
The uuid module: /repo/grayc/src/stdlib/uuid.c.

Simplifications.
* The random source is an argument: `none` is a failure, `some bytes` sixteen bytes
  (uuid.c:30-40).  The clock is an argument, in milliseconds.
* `gray_uuid_parse` calls `gray_builtin_panic_msg`, a panic without a code: `.panic "user"`.
-/
namespace Verif.Uuid
open Verif Verif.Str

def hyphen : Byte := ch '-'

def hex2 (b : Byte) : Str := [lowerHex (b.toNat / 16), lowerHex (b.toNat % 16)]

/-- `gray_uuid_format_hyphenated` (uuid.c:42-50). -/
def format (b : List Byte) : Str :=
  (b.take 4).flatMap hex2 ++ hyphen :: ((b.drop 4).take 2).flatMap hex2 ++
    hyphen :: ((b.drop 6).take 2).flatMap hex2 ++ hyphen :: ((b.drop 8).take 2).flatMap hex2 ++
    hyphen :: ((b.drop 10).take 6).flatMap hex2

/-- `bytes[6] = (bytes[6] & 0x0F) | v; bytes[8] = (bytes[8] & 0x3F) | 0x80`. -/
def stamp (v : Byte) (b : List Byte) : List Byte :=
  (b.set 6 ((b.getD 6 0 &&& 0x0F) ||| v)).set 8 ((b.getD 8 0 &&& 0x3F) ||| 0x80)

/-- `gray_uuid_generate` (uuid.c:52-65). -/
def generate (rand : Option (List Byte)) : Str :=
  match rand with
  | none => []
  | some b => format (stamp 0x40 b)

/-- `bytes[0..5]` from the clock (uuid.c:104-109). -/
def clockBytes (ms : Nat) : List Byte :=
  [BitVec.ofNat 8 (ms >>> 40), BitVec.ofNat 8 (ms >>> 32), BitVec.ofNat 8 (ms >>> 24),
    BitVec.ofNat 8 (ms >>> 16), BitVec.ofNat 8 (ms >>> 8), BitVec.ofNat 8 ms]

/-- `gray_uuid_generate_time_ordered` (uuid.c:92-117). -/
def generateV7 (rand : Option (List Byte)) (ms : Nat) : Str :=
  match rand with
  | none => []
  | some b => format (stamp 0x70 (clockBytes ms ++ b.drop 6))

/-- The characters copied by `gray_uuid_generate_compact` (uuid.c:70-75). -/
def compactChars (s : Str) : Str := s.filter fun c => c != hyphen

/-- `gray_uuid_generate_compact` (uuid.c:67-79): a 33-byte local buffer, of which 32 are returned.
Writing beyond it, or returning bytes never written, is undefined. -/
def compact (s : Str) : Outcome Str :=
  if s.length ≠ 36 then .ok []
  else if 33 < (compactChars s).length then .ub
  else if (compactChars s).length < 32 then .ub
  else .ok ((compactChars s).take 32)

/-- One iteration of `gray_uuid_is_valid` (uuid.c:122-128). -/
def validAt (i : Nat) (c : Byte) : Bool :=
  if i = 8 ∨ i = 13 ∨ i = 18 ∨ i = 23 then c == hyphen
  else between 48 c 57 || between 97 c 102 || between 65 c 70

/-- The loop of `gray_uuid_is_valid`. -/
def validLoop : Nat → Str → Bool
  | _, [] => true
  | i, c :: r => validAt i c && validLoop (i + 1) r

/-- `gray_uuid_is_valid` (uuid.c:119-131). -/
def isValid (s : Str) : Bool := if s.length ≠ 36 then false else validLoop 0 s

/-- `gray_uuid_parse` (uuid.c:136-151). -/
def parse (s : Str) : Outcome Str :=
  if isValid s then .ok (s.map fun c => if between 65 c 70 then c - 65 + 97 else c)
  else .panic "user"

/-- `gray_uuid_nil` (uuid.c:157-161). -/
def nil : Str := lit "00000000-0000-0000-0000-000000000000"

end Verif.Uuid

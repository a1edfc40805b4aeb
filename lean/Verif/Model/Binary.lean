import Verif.Model.Str

/-
The binary module: /repo/grayc/src/stdlib/binary.c.

Simplifications.
* Little-endian machine; a value of `n` bytes is stored least significant byte first.
* `[byte]` arrays are lists of bytes.
* Reading more bytes than the array holds is `ub` (the spare capacity of the block is ignored: its
  content is not part of the array).
* The value of an integer of `n` bytes is its bit pattern, a natural number below 256^n; signed
  types reinterpret it (two's complement).
* Floats are their bit patterns.
-/
namespace Verif.Bin
open Verif Verif.Str

/-- The object representation of an `n`-byte number. -/
def objBytes : Nat → Nat → List Byte
  | 0, _ => []
  | n + 1, v => BitVec.ofNat 8 v :: objBytes n (v / 256)

/-- The number in an object representation. -/
def objVal : List Byte → Nat
  | [] => 0
  | b :: r => b.toNat + 256 * objVal r

/-- `make_bytes` (binary.c:14-21): all `_le` and 8-bit encoders. -/
def encodeLe (n v : Nat) : List Byte := objBytes n v

/-- `make_bytes_reversed` (binary.c:23-30): all `_be` encoders. -/
def encodeBe (n v : Nat) : List Byte := (objBytes n v).reverse

/-- The `_le` and 8-bit decoders: `memcpy(&v, bytes->data, n)`. -/
def decodeLe (n : Nat) (bs : List Byte) : Outcome Nat :=
  if bs.length < n then .ub else .ok (objVal (bs.take n))

/-- `d[i]`. -/
def at' (bs : List Byte) (i : Nat) : Outcome Nat :=
  match bs[i]? with
  | some b => .ok b.toNat
  | none => .ub

/-- `gray_binary_decode_i16_be`, `gray_binary_decode_u16_be` (binary.c:42-45, 51-54). -/
def decode16Be (bs : List Byte) : Outcome Nat := do
  let a ← at' bs 0
  let b ← at' bs 1
  .ok (((a <<< 8) ||| b) % 2 ^ 16)

/-- `gray_binary_decode_i32_be`, `gray_binary_decode_u32_be` (binary.c:60-63, 69-72). -/
def decode32Be (bs : List Byte) : Outcome Nat := do
  let a ← at' bs 0
  let b ← at' bs 1
  let c ← at' bs 2
  let d ← at' bs 3
  .ok ((a <<< 24) ||| (b <<< 16) ||| (c <<< 8) ||| d)

/-- The loop of `gray_binary_decode_u64_be` and of every limb of the wide decoders
(binary.c:91-93, 100-155): `n` iterations left from index `i`. -/
def limbLoop (bs : List Byte) : Nat → Nat → Nat → Outcome Nat
  | 0, _, v => .ok v
  | n + 1, i, v => do
    let b ← at' bs i
    limbLoop bs n (i + 1) (((v <<< 8) % 2 ^ 64) ||| b)

/-- `gray_binary_decode_u64_be` (binary.c:89-94). -/
def decodeU64Be (bs : List Byte) : Outcome Nat := limbLoop bs 8 0 0

/-- The loop of `gray_binary_decode_i64_be` (binary.c:78-83): `v` is an `int64_t`, and shifting a
negative value, or one whose double exceeds the type, is undefined (C11 6.5.7p4). -/
def i64Loop (bs : List Byte) : Nat → Nat → Int → Outcome Int
  | 0, _, v => .ok v
  | n + 1, i, v =>
    if v < 0 ∨ 2 ^ 63 ≤ v * 256 then .ub
    else do
      let b ← at' bs i
      i64Loop bs n (i + 1) (v * 256 + b)

/-- `gray_binary_decode_i64_be` (binary.c:78-83). -/
def decodeI64Be (bs : List Byte) : Outcome Int := i64Loop bs 8 0 0

/-- `gray_binary_decode_i128_be`, `gray_binary_decode_u128_be` (binary.c:100-122): the
value `hi·2^64 + lo`. -/
def decode128Be (bs : List Byte) : Outcome Nat := do
  let hi ← limbLoop bs 8 0 0
  let lo ← limbLoop bs 8 8 0
  .ok (hi * 2 ^ 64 + lo)

/-- `gray_binary_decode_i256_be`, `gray_binary_decode_u256_be` (binary.c:129-155). -/
def decode256Be (bs : List Byte) : Outcome Nat := do
  let w3 ← limbLoop bs 8 0 0
  let w2 ← limbLoop bs 8 8 0
  let w1 ← limbLoop bs 8 16 0
  let w0 ← limbLoop bs 8 24 0
  .ok (w3 * 2 ^ 192 + w2 * 2 ^ 128 + w1 * 2 ^ 64 + w0)

/-- The float decoders `_be` (binary.c:158-163, 167-172): the bytes are reversed and copied. -/
def decodeFloatBe (n : Nat) (bs : List Byte) : Outcome Nat :=
  if bs.length < n then .ub else .ok (objVal (bs.take n).reverse)

/-- Reading an `n`-byte pattern as a signed number. -/
def signed (n v : Nat) : Int := if v < 2 ^ (8 * n - 1) then v else (v : Int) - 2 ^ (8 * n)

end Verif.Bin

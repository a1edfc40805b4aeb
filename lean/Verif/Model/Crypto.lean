import Verif.Model.Str

/-!
# Hashes and random digits

Models `grayc/src/stdlib/crypto.c`: `gray_crypto_sha256` (23-81), `gray_crypto_md5` (85-144) and
`gray_crypto_random_hex` (146-178).

Simplifications.
* `size_t` is large enough: a string has less than 2^31 bytes.
* `memcpy` of a `uint32_t` or `uint64_t` and the cast of bytes to `uint32_t` are those of a little-endian machine.
* `printf("%08x")` is eight hexadecimal digits.
* What `/dev/urandom` gives is an argument: `none` if it cannot be opened or ends early.
-/

namespace Verif.Crypto
open Verif Verif.Str

abbrev Word := BitVec 32

/-! ## SHA-256 -/

/-- `sha256_k` (23-32). -/
def shaK : List Word :=
  [0x428a2f98, 0x71374491, 0xb5c0fbcf, 0xe9b5dba5, 0x3956c25b, 0x59f111f1, 0x923f82a4, 0xab1c5ed5,
   0xd807aa98, 0x12835b01, 0x243185be, 0x550c7dc3, 0x72be5d74, 0x80deb1fe, 0x9bdc06a7, 0xc19bf174,
   0xe49b69c1, 0xefbe4786, 0x0fc19dc6, 0x240ca1cc, 0x2de92c6f, 0x4a7484aa, 0x5cb0a9dc, 0x76f988da,
   0x983e5152, 0xa831c66d, 0xb00327c8, 0xbf597fc7, 0xc6e00bf3, 0xd5a79147, 0x06ca6351, 0x14292967,
   0x27b70a85, 0x2e1b2138, 0x4d2c6dfc, 0x53380d13, 0x650a7354, 0x766a0abb, 0x81c2c92e, 0x92722c85,
   0xa2bfe8a1, 0xa81a664b, 0xc24b8b70, 0xc76c51a3, 0xd192e819, 0xd6990624, 0xf40e3585, 0x106aa070,
   0x19a4c116, 0x1e376c08, 0x2748774c, 0x34b0bcb5, 0x391c0cb3, 0x4ed8aa4a, 0x5b9cca4f, 0x682e6ff3,
   0x748f82ee, 0x78a5636f, 0x84c87814, 0x8cc70208, 0x90befffa, 0xa4506ceb, 0xbef9a3f7, 0xc67178f2]

def rotr (x : Word) (n : Nat) : Word := (x >>> n) ||| (x <<< (32 - n))
def chF (x y z : Word) : Word := (x &&& y) ^^^ (~~~x &&& z)
def maj (x y z : Word) : Word := (x &&& y) ^^^ (x &&& z) ^^^ (y &&& z)
def ep0 (x : Word) : Word := rotr x 2 ^^^ rotr x 13 ^^^ rotr x 22
def ep1 (x : Word) : Word := rotr x 6 ^^^ rotr x 11 ^^^ rotr x 25
def sig0 (x : Word) : Word := rotr x 7 ^^^ rotr x 18 ^^^ (x >>> 3)
def sig1 (x : Word) : Word := rotr x 17 ^^^ rotr x 19 ^^^ (x >>> 10)

def padded (len : Nat) : Nat := ((len + 8) / 64 + 1) * 64

/-- `msg[at] = b`, for `(at, b)` in order. -/
def writes (msg : Str) (l : List (Nat × Byte)) : Str := l.foldl (fun m w => m.set w.1 w.2) msg

/-- Lines 49-56. -/
def shaMsg (data : Str) : Str :=
  let len := data.length
  writes (data ++ 0x80 :: List.replicate (padded len - len - 1) 0)
    ((List.range 8).map fun i => (padded len - 1 - i, BitVec.ofNat 8 ((len * 8) >>> (i * 8))))

/-- `msg[i]` as a word. -/
def byteAt (msg : Str) (i : Nat) : Word := (msg.getD i 0).setWidth 32

/-- Lines 60-62. -/
def shaFirst (msg : Str) (i : Nat) : List Word :=
  (List.range 16).map fun j =>
    (byteAt msg (i + j * 4) <<< 24) ||| (byteAt msg (i + j * 4 + 1) <<< 16) |||
      (byteAt msg (i + j * 4 + 2) <<< 8) ||| byteAt msg (i + j * 4 + 3)

/-- Lines 63-64: one word more. -/
def shaNext (w : List Word) (j : Nat) : List Word :=
  w ++ [sig1 (w.getD (j - 2) 0) + w.getD (j - 7) 0 + sig0 (w.getD (j - 15) 0) + w.getD (j - 16) 0]

def shaWords (msg : Str) (i : Nat) : List Word := (List.range' 16 48).foldl shaNext (shaFirst msg i)

structure Sha where
  a : Word
  b : Word
  c : Word
  d : Word
  e : Word
  f : Word
  g : Word
  h : Word
  deriving DecidableEq, Repr

/-- Lines 67-71. -/
def shaRound (w : List Word) (s : Sha) (j : Nat) : Sha :=
  let t1 := s.h + ep1 s.e + chF s.e s.f s.g + shaK.getD j 0 + w.getD j 0
  let t2 := ep0 s.a + maj s.a s.b s.c
  ⟨t1 + t2, s.a, s.b, s.c, s.d + t1, s.e, s.f, s.g⟩

/-- Lines 58-73, for the block at `i`. -/
def shaBlock (msg : Str) (s : Sha) (i : Nat) : Sha :=
  let r := (List.range 64).foldl (shaRound (shaWords msg i)) s
  ⟨s.a + r.a, s.b + r.b, s.c + r.c, s.d + r.d, s.e + r.e, s.f + r.f, s.g + r.g, s.h + r.h⟩

/-- Lines 43-46. -/
def shaInit : Sha :=
  ⟨0x6a09e667, 0xbb67ae85, 0x3c6ef372, 0xa54ff53a, 0x510e527f, 0x9b05688c, 0x1f83d9ab, 0x5be0cd19⟩

/-- `"%08x"`. -/
def hex8 (x : Word) : Str := [28, 24, 20, 16, 12, 8, 4, 0].map fun n => lowerHex ((x.toNat >>> n) % 16)

def sha256 (data : Str) : Str :=
  let s := ((List.range (padded data.length / 64)).map (· * 64)).foldl (shaBlock (shaMsg data)) shaInit
  hex8 s.a ++ hex8 s.b ++ hex8 s.c ++ hex8 s.d ++ hex8 s.e ++ hex8 s.f ++ hex8 s.g ++ hex8 s.h

/-! ## MD5 -/

def md5S : List Nat :=
  [7, 12, 17, 22, 7, 12, 17, 22, 7, 12, 17, 22, 7, 12, 17, 22,
   5, 9, 14, 20, 5, 9, 14, 20, 5, 9, 14, 20, 5, 9, 14, 20,
   4, 11, 16, 23, 4, 11, 16, 23, 4, 11, 16, 23, 4, 11, 16, 23,
   6, 10, 15, 21, 6, 10, 15, 21, 6, 10, 15, 21, 6, 10, 15, 21]

def md5K : List Word :=
  [0xd76aa478, 0xe8c7b756, 0x242070db, 0xc1bdceee, 0xf57c0faf, 0x4787c62a, 0xa8304613, 0xfd469501,
   0x698098d8, 0x8b44f7af, 0xffff5bb1, 0x895cd7be, 0x6b901122, 0xfd987193, 0xa679438e, 0x49b40821,
   0xf61e2562, 0xc040b340, 0x265e5a51, 0xe9b6c7aa, 0xd62f105d, 0x02441453, 0xd8a1e681, 0xe7d3fbc8,
   0x21e1cde6, 0xc33707d6, 0xf4d50d87, 0x455a14ed, 0xa9e3e905, 0xfcefa3f8, 0x676f02d9, 0x8d2a4c8a,
   0xfffa3942, 0x8771f681, 0x6d9d6122, 0xfde5380c, 0xa4beea44, 0x4bdecfa9, 0xf6bb4b60, 0xbebfbc70,
   0x289b7ec6, 0xeaa127fa, 0xd4ef3085, 0x04881d05, 0xd9d4d039, 0xe6db99e5, 0x1fa27cf8, 0xc4ac5665,
   0xf4292244, 0x432aff97, 0xab9423a7, 0xfc93a039, 0x655b59c3, 0x8f0ccc92, 0xffeff47d, 0x85845dd1,
   0x6fa87e4f, 0xfe2ce6e0, 0xa3014314, 0x4e0811a1, 0xf7537e82, 0xbd3af235, 0x2ad7d2bb, 0xeb86d391]

def fF (x y z : Word) : Word := (x &&& y) ||| (~~~x &&& z)
def fG (x y z : Word) : Word := (x &&& z) ||| (y &&& ~~~z)
def fH (x y z : Word) : Word := x ^^^ y ^^^ z
def fI (x y z : Word) : Word := y ^^^ (x ||| ~~~z)
def rotl (x : Word) (n : Nat) : Word := (x <<< n) ||| (x >>> (32 - n))

/-- Lines 111-118. -/
def md5Msg (data : Str) : Str :=
  let len := data.length
  data ++ (0x80 :: List.replicate (padded len - len - 9) 0 : Str) ++
    (List.range 8).map fun i => BitVec.ofNat 8 ((len * 8) >>> (i * 8))

/-- `M[g]` in the block at `offset`. -/
def md5Word (msg : Str) (offset g : Nat) : Word :=
  byteAt msg (offset + g * 4) ||| (byteAt msg (offset + g * 4 + 1) <<< 8) |||
    (byteAt msg (offset + g * 4 + 2) <<< 16) ||| (byteAt msg (offset + g * 4 + 3) <<< 24)

structure Md5 where
  a : Word
  b : Word
  c : Word
  d : Word
  deriving DecidableEq, Repr

/-- Lines 124-131. -/
def md5Step (m : Nat → Word) (s : Md5) (i : Nat) : Md5 :=
  let fg : Word × Nat :=
    if i < 16 then (fF s.b s.c s.d, i)
    else if i < 32 then (fG s.b s.c s.d, (5 * i + 1) % 16)
    else if i < 48 then (fH s.b s.c s.d, (3 * i + 5) % 16)
    else (fI s.b s.c s.d, (7 * i) % 16)
  ⟨s.d, s.b + rotl (s.a + fg.1 + md5K.getD i 0 + m fg.2) (md5S.getD i 0), s.b, s.c⟩

/-- Lines 120-134. -/
def md5Block (msg : Str) (s : Md5) (offset : Nat) : Md5 :=
  let r := (List.range 64).foldl (md5Step (md5Word msg offset)) s
  ⟨s.a + r.a, s.b + r.b, s.c + r.c, s.d + r.d⟩

def md5Init : Md5 := ⟨0x67452301, 0xefcdab89, 0x98badcfe, 0x10325476⟩

/-- Lines 137-140: the bytes of a word as they are in memory, each with `"%02x"`. -/
def hexLE (x : Word) : Str :=
  [4, 0, 12, 8, 20, 16, 28, 24].map fun n => lowerHex ((x.toNat >>> n) % 16)

def md5 (data : Str) : Str :=
  let s := ((List.range (padded data.length / 64)).map (· * 64)).foldl (md5Block (md5Msg data)) md5Init
  hexLE s.a ++ hexLE s.b ++ hexLE s.c ++ hexLE s.d

/-! ## Random digits -/

/-- A `GrayString`: the bytes in memory (without the NUL), and `len`. -/
structure Raw where
  mem : Str
  len : Int
  deriving DecidableEq, Repr

/-- `(int32_t)n`. -/
def toInt32 (n : Nat) : Int := (BitVec.ofNat 32 n).toInt

def hexChars : Str := lit "0123456789abcdef"

/-- `length` is an `int64_t`. -/
def randomHex (urandom : Nat → Option Str) (length : Int) : Outcome Raw :=
  if length < 0 then .panic "P0051"
  else if length = 0 then .ok ⟨[], 0⟩
  else if 2 ^ 63 ≤ length + 1 then .ub
  else
    match urandom ((length + 1) / 2).toNat with
    | none => .panic "P0052"
    | some raw =>
      .ok ⟨(List.range length.toNat).map fun i =>
          let nibble := if i % 2 = 0 then ((raw.getD (i / 2) 0).toNat >>> 4) % 16 else (raw.getD (i / 2) 0).toNat % 16
          hexChars.getD nibble 0,
        toInt32 length.toNat⟩

end Verif.Crypto

import Verif.Model.Bigint128
/-
256-bit integers of the Grayscale runtime.
Source: /repo/grayc/src/runtime/bigint.h.

`gray_i256` and `gray_u256` (bigint.h:21-22) are both `struct { uint64_t w[4]; }`, and the
C code moves between them with `memcpy`. The model uses one structure `W256` for both;
`W256.uval` reads it as a u256 and `W256.sval` as an i256. Where the i256 and the u256
function have the same body, the definition cites both.
The loops over the four limbs are unrolled.
-/
namespace Verif.Bigint

/-- `gray_i256` / `gray_u256`, bigint.h:21-22; `w0` is the least significant limb. -/
structure W256 where
  w0 : BitVec 64
  w1 : BitVec 64
  w2 : BitVec 64
  w3 : BitVec 64
  deriving DecidableEq, Repr

namespace W256

/-- Value as u256. -/
def uval (a : W256) : Nat :=
  a.w0.toNat + a.w1.toNat * 2 ^ 64 + a.w2.toNat * 2 ^ 128 + a.w3.toNat * 2 ^ 192

/-- Value as i256 (the top limb is signed). -/
def sval (a : W256) : Int :=
  (a.w0.toNat : Int) + a.w1.toNat * 2 ^ 64 + a.w2.toNat * 2 ^ 128 + a.w3.toInt * 2 ^ 192

/-- `GRAY_I256_ZERO`, `GRAY_U256_ZERO`, bigint.h:34-35. -/
def zero : W256 := ⟨0, 0, 0, 0⟩

/-- `a.w[k]` for `k < 4`. -/
def get (a : W256) : Nat → BitVec 64
  | 0 => a.w0
  | 1 => a.w1
  | 2 => a.w2
  | _ => a.w3

/-- `a.w[k] = x` for `k < 4`. -/
def set (a : W256) (k : Nat) (x : BitVec 64) : W256 :=
  match k with
  | 0 => { a with w0 := x }
  | 1 => { a with w1 := x }
  | 2 => { a with w2 := x }
  | _ => { a with w3 := x }

/-- `gray_i256_from_i64`, bigint.h:53-61. -/
def fromI64 (v : BitVec 64) : W256 :=
  let sign : BitVec 64 := if v.slt 0 then -1 else 0
  ⟨v, sign, sign, sign⟩

/-- `gray_u256_from_u64`, bigint.h:63-70. -/
def fromU64 (v : BitVec 64) : W256 := ⟨v, 0, 0, 0⟩

/-- `gray_i256_to_i64`, bigint.h:102-108. -/
def iToI64 (a : W256) : Outcome (BitVec 64) :=
  let signExt := a.w0.sshiftRight 63
  if a.w1 ≠ signExt ∨ a.w2 ≠ signExt ∨ a.w3 ≠ signExt then .panic "P0097" else .ok a.w0

/-- `gray_i256_to_u64`, bigint.h:110-115. -/
def iToU64 (a : W256) : Outcome (BitVec 64) :=
  if a.w1 ≠ 0 ∨ a.w2 ≠ 0 ∨ a.w3 ≠ 0 then .panic "P0098" else .ok a.w0

/-- `gray_u256_to_i64`, bigint.h:117-122. -/
def uToI64 (a : W256) : Outcome (BitVec 64) :=
  if a.w1 ≠ 0 ∨ a.w2 ≠ 0 ∨ a.w3 ≠ 0 ∨ a.w0 > 0x7FFFFFFFFFFFFFFF then .panic "P0099" else .ok a.w0

/-- `gray_u256_to_u64`, bigint.h:124-129. -/
def uToU64 (a : W256) : Outcome (BitVec 64) :=
  if a.w1 ≠ 0 ∨ a.w2 ≠ 0 ∨ a.w3 ≠ 0 then .panic "P0100" else .ok a.w0

/-- `gray_i256_from_i128`, bigint.h:145-153. -/
def fromI128 (a : I128) : W256 :=
  let sign : BitVec 64 := if a.hi.slt 0 then -1 else 0
  ⟨a.lo, a.hi, sign, sign⟩

/-- `gray_u256_from_u128`, bigint.h:155-162. -/
def fromU128 (a : U128) : W256 := ⟨a.lo, a.hi, 0, 0⟩

/-- `gray_i128_from_i256`, bigint.h:164-169. -/
def toI128 (a : W256) : I128 := ⟨a.w0, a.w1⟩

/-- `gray_u128_from_u256`, bigint.h:171-176. -/
def toU128 (a : W256) : U128 := ⟨a.w0, a.w1⟩

/-- One iteration of the addition loops, bigint.h:373-375 and 529-531: (sum, carry out). -/
def addStep (x y carry : BitVec 64) : BitVec 64 × BitVec 64 :=
  let sum := x + y + carry
  (sum, b2w (sum < x || (carry != 0 && sum == x)))

/-- `gray_i256_add`, bigint.h:369-378; `gray_u256_add`, bigint.h:525-534. -/
def add (a b : W256) : W256 :=
  let s0 := addStep a.w0 b.w0 0
  let s1 := addStep a.w1 b.w1 s0.2
  let s2 := addStep a.w2 b.w2 s1.2
  let s3 := addStep a.w3 b.w3 s2.2
  ⟨s0.1, s1.1, s2.1, s3.1⟩

/-- One iteration of the subtraction loops, bigint.h:384-386, 463-465 and 540-542:
(difference, borrow out). The comparison adds the borrow to the subtrahend limb in
`uint64_t`, so it can wrap. -/
def subStep (x y borrow : BitVec 64) : BitVec 64 × BitVec 64 :=
  (x - y - borrow, b2w (x < y + borrow))

/-- `gray_i256_sub`, bigint.h:380-389; `gray_u256_sub`, bigint.h:536-545; and the inlined
subtraction of `gray_u256_divmod`, bigint.h:461-467. -/
def sub (a b : W256) : W256 :=
  let s0 := subStep a.w0 b.w0 0
  let s1 := subStep a.w1 b.w1 s0.2
  let s2 := subStep a.w2 b.w2 s1.2
  let s3 := subStep a.w3 b.w3 s2.2
  ⟨s0.1, s1.1, s2.1, s3.1⟩

/-- One iteration of the negation loop, bigint.h:395-397. -/
def negStep (x carry : BitVec 64) : BitVec 64 × BitVec 64 :=
  let sum := ~~~x + carry
  (sum, b2w (sum < ~~~x))

/-- `gray_i256_neg`, bigint.h:391-400. -/
def neg (a : W256) : W256 :=
  let s0 := negStep a.w0 1
  let s1 := negStep a.w1 s0.2
  let s2 := negStep a.w2 s1.2
  let s3 := negStep a.w3 s2.2
  ⟨s0.1, s1.1, s2.1, s3.1⟩

/-- Inner loop body of the multiplications, bigint.h:408-425 and 552-565: multiply
`x = a.w[j]` by `y = b.w[i]`, add to `old = r.w[i+j]` and the carry; returns the new
`r.w[i+j]` and the new carry. (The i256 version first computes a value of `lo` that it then
overwrites; that dead store is dropped.) -/
def mulStep (old x y carry : BitVec 64) : BitVec 64 × BitVec 64 :=
  let alo := x &&& 0xFFFFFFFF
  let ahi := x >>> 32
  let blo := y &&& 0xFFFFFFFF
  let bhi := y >>> 32
  let p00 := alo * blo
  let p01 := alo * bhi
  let p10 := ahi * blo
  let p11 := ahi * bhi
  let mid := p01 + (p00 >>> 32)
  let lo := x * y
  let hiPart := p11 + (mid >>> 32) + (((mid &&& 0xFFFFFFFF) + p10) >>> 32)
  let r := old + lo + carry
  let carry' := hiPart + b2w (r < old + lo)
  (r, if old + lo < old then carry' + 1 else carry')

/-- `gray_i256_mul`, bigint.h:402-429; `gray_u256_mul`, bigint.h:547-569. Row `i` multiplies
by `b.w[i]` and touches `r.w[i..3]`. -/
def mul (a b : W256) : W256 :=
  -- i = 0
  let c00 := mulStep 0 a.w0 b.w0 0
  let c01 := mulStep 0 a.w1 b.w0 c00.2
  let c02 := mulStep 0 a.w2 b.w0 c01.2
  let c03 := mulStep 0 a.w3 b.w0 c02.2
  -- i = 1
  let c10 := mulStep c01.1 a.w0 b.w1 0
  let c11 := mulStep c02.1 a.w1 b.w1 c10.2
  let c12 := mulStep c03.1 a.w2 b.w1 c11.2
  -- i = 2
  let c20 := mulStep c11.1 a.w0 b.w2 0
  let c21 := mulStep c12.1 a.w1 b.w2 c20.2
  -- i = 3
  let c30 := mulStep c21.1 a.w0 b.w3 0
  ⟨c00.1, c10.1, c20.1, c30.1⟩

/-- The comparison loop of `gray_u256_divmod`, bigint.h:453-459: first differing limb from the
top decides, all equal counts as "greater or equal". -/
def geLoop (r b : W256) : Bool :=
  if r.w3 > b.w3 then true else if r.w3 < b.w3 then false
  else if r.w2 > b.w2 then true else if r.w2 < b.w2 then false
  else if r.w1 > b.w1 then true else if r.w1 < b.w1 then false
  else if r.w0 > b.w0 then true else if r.w0 < b.w0 then false
  else true

/-- `remainder <<= 1`, bigint.h:444-448. -/
def shl1 (r : W256) : W256 :=
  ⟨r.w0 <<< 1,
   (r.w1 <<< 1) ||| (r.w0 >>> 63),
   (r.w2 <<< 1) ||| (r.w1 >>> 63),
   (r.w3 <<< 1) ||| (r.w2 >>> 63)⟩

/-- One iteration of the long division of `gray_u256_divmod`, bigint.h:444-469, for bit `i`. -/
def divStep (a b : W256) (i : Nat) (quotient remainder : W256) : W256 × W256 :=
  let r := shl1 remainder
  let word := i / 64
  let bit := i % 64
  let r : W256 := { r with w0 := r.w0 ||| ((a.get word >>> bit) &&& 1) }
  if geLoop r b then
    (quotient.set word (quotient.get word ||| ((1 : BitVec 64) <<< bit)), sub r b)
  else (quotient, r)

/-- The loop `for (int i = n-1; i >= 0; i--)`, bigint.h:443-470. -/
def divLoop (a b : W256) : Nat → W256 × W256 → W256 × W256
  | 0, s => s
  | n + 1, s => divLoop a b n (divStep a b n s.1 s.2)

/-- All four limbs are zero. -/
def isZero (b : W256) : Bool := b.w0 == 0 && b.w1 == 0 && b.w2 == 0 && b.w3 == 0

/-- `gray_u256_divmod`, bigint.h:432-473. Returns (quotient, remainder). -/
def divmod (a b : W256) : W256 × W256 :=
  if b.isZero then (zero, zero)
  else if a.w1 = 0 ∧ a.w2 = 0 ∧ a.w3 = 0 ∧ b.w1 = 0 ∧ b.w2 = 0 ∧ b.w3 = 0 then
    (⟨a.w0 / b.w0, 0, 0, 0⟩, ⟨a.w0 % b.w0, 0, 0, 0⟩)
  else divLoop a b 256 (zero, zero)

/-- `gray_u256_div`, bigint.h:571-575. -/
def udiv (a b : W256) : W256 := (divmod a b).1

/-- `gray_u256_mod`, bigint.h:577-581. -/
def umod (a b : W256) : W256 := (divmod a b).2

/-- `gray_i256_is_neg`, bigint.h:475. -/
def isNeg (a : W256) : Bool := a.w3.slt 0

/-- The magnitudes prepared in `gray_i256_div`/`gray_i256_mod`, bigint.h:482-485, 496-500. -/
def magnitude (a : W256) : W256 := if a.isNeg then neg a else a

/-- `gray_i256_div`, bigint.h:477-490. -/
def idiv (a b : W256) : W256 :=
  if b.isZero then zero
  else
    let negative := a.isNeg != b.isNeg
    let q := (divmod a.magnitude b.magnitude).1
    if negative then neg q else q

/-- `gray_i256_mod`, bigint.h:492-505. -/
def imod (a b : W256) : W256 :=
  if b.isZero then zero
  else
    let rem := (divmod a.magnitude b.magnitude).2
    if a.isNeg then neg rem else rem

/-- `gray_i256_eq`, bigint.h:509-511; `gray_u256_eq`, bigint.h:585-587. -/
def eq (a b : W256) : Bool := a.w0 == b.w0 && a.w1 == b.w1 && a.w2 == b.w2 && a.w3 == b.w3

/-- `gray_i256_ne`, bigint.h:512; `gray_u256_ne`, bigint.h:588. -/
def ne (a b : W256) : Bool := !(eq a b)

/-- `gray_i256_lt`, bigint.h:513-518. -/
def ilt (a b : W256) : Bool :=
  if a.w3 ≠ b.w3 then a.w3.slt b.w3
  else if a.w2 ≠ b.w2 then a.w2 < b.w2
  else if a.w1 ≠ b.w1 then a.w1 < b.w1
  else a.w0 < b.w0
/-- `gray_i256_gt`, bigint.h:519. -/
def igt (a b : W256) : Bool := ilt b a
/-- `gray_i256_le`, bigint.h:520. -/
def ile (a b : W256) : Bool := !(igt a b)
/-- `gray_i256_ge`, bigint.h:521. -/
def ige (a b : W256) : Bool := !(ilt a b)

/-- `gray_u256_lt`, bigint.h:589-594. -/
def ult (a b : W256) : Bool :=
  if a.w3 ≠ b.w3 then a.w3 < b.w3
  else if a.w2 ≠ b.w2 then a.w2 < b.w2
  else if a.w1 ≠ b.w1 then a.w1 < b.w1
  else a.w0 < b.w0
/-- `gray_u256_gt`, bigint.h:595. -/
def ugt (a b : W256) : Bool := ult b a
/-- `gray_u256_le`, bigint.h:596. -/
def ule (a b : W256) : Bool := !(ugt a b)
/-- `gray_u256_ge`, bigint.h:597. -/
def uge (a b : W256) : Bool := !(ult a b)

/-- `gray_i256_add_checked`, bigint.h:707-716. -/
def iaddChecked (a b : W256) : Outcome W256 :=
  let r := add a b
  if (!a.isNeg && !b.isNeg && r.isNeg) || (a.isNeg && b.isNeg && !r.isNeg) then .panic "P0027"
  else .ok r

/-- `gray_i256_sub_checked`, bigint.h:718-727. -/
def isubChecked (a b : W256) : Outcome W256 :=
  let r := sub a b
  if (!a.isNeg && b.isNeg && r.isNeg) || (a.isNeg && !b.isNeg && !r.isNeg) then .panic "P0028"
  else .ok r

/-- `gray_i256_mul_checked`, bigint.h:729-740. -/
def imulChecked (a b : W256) : Outcome W256 :=
  let r := mul a b
  if !a.isZero && !b.isZero then
    if !(eq (idiv r b) a) then .panic "P0029" else .ok r
  else .ok r

/-- `gray_u256_add_checked`, bigint.h:742-748. -/
def uaddChecked (a b : W256) : Outcome W256 :=
  let r := add a b
  if ult r a then .panic "P0030" else .ok r

/-- `gray_u256_sub_checked`, bigint.h:750-755. -/
def usubChecked (a b : W256) : Outcome W256 :=
  if ult a b then .panic "P0031" else .ok (sub a b)

/-- `gray_u256_mul_checked`, bigint.h:757-768. -/
def umulChecked (a b : W256) : Outcome W256 :=
  let r := mul a b
  if !a.isZero && !b.isZero then
    if !(eq (udiv r b) a) then .panic "P0032" else .ok r
  else .ok r

end W256
end Verif.Bigint

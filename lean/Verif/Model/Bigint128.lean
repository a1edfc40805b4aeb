import Verif.Model.Outcome
/-
128-bit integers of the Grayscale runtime.
Source: /repo/grayc/src/runtime/bigint.h.

`uint64_t` and `int64_t` limbs are `BitVec 64`. Signed comparisons use `BitVec.slt`.
Simplification: the C code adds `int64_t` high limbs with `+`/`-`, which is undefined on
signed overflow; the model wraps (two's complement), and `I128.addHiOverflows` /
`I128.subHiOverflows` say when the C expression leaves `int64_t`.
The `file`/`line` arguments of the checked operations only affect the panic message and
are dropped.
-/
namespace Verif.Bigint

/-- `gray_u128`, bigint.h:20. -/
structure U128 where
  lo : BitVec 64
  hi : BitVec 64
  deriving DecidableEq, Repr

/-- `gray_i128`, bigint.h:19; `hi` is an `int64_t`. -/
structure I128 where
  lo : BitVec 64
  hi : BitVec 64
  deriving DecidableEq, Repr

/-- Mathematical value of an unsigned 128-bit pair. -/
def U128.val (a : U128) : Nat := a.lo.toNat + a.hi.toNat * 2 ^ 64

/-- Mathematical value of a signed 128-bit pair. -/
def I128.val (a : I128) : Int := (a.lo.toNat : Int) + a.hi.toInt * 2 ^ 64

/-- C's `cond ? 1 : 0`. -/
def b2w (b : Bool) : BitVec 64 := if b then 1 else 0

namespace U128

/-- `GRAY_U128_ZERO`, bigint.h:33. -/
def zero : U128 := ⟨0, 0⟩

/-- `gray_u128_from_u64`, bigint.h:46-51. -/
def fromU64 (v : BitVec 64) : U128 := ⟨v, 0⟩

/-- `gray_u128_add`, bigint.h:312-317. -/
def add (a b : U128) : U128 :=
  let lo := a.lo + b.lo
  ⟨lo, a.hi + b.hi + b2w (lo < a.lo)⟩

/-- `gray_u128_sub`, bigint.h:319-324. -/
def sub (a b : U128) : U128 :=
  ⟨a.lo - b.lo, a.hi - b.hi - b2w (a.lo < b.lo)⟩

/-- `gray_u128_mul`, bigint.h:326-342. -/
def mul (a b : U128) : U128 :=
  let a0 := a.lo &&& 0xFFFFFFFF
  let a1 := a.lo >>> 32
  let b0 := b.lo &&& 0xFFFFFFFF
  let b1 := b.lo >>> 32
  let p00 := a0 * b0
  let p01 := a0 * b1
  let p10 := a1 * b0
  let p11 := a1 * b1
  let mid := p01 + (p00 >>> 32)
  let carry := ((mid &&& 0xFFFFFFFF) + p10) >>> 32
  ⟨a.lo * b.lo, p11 + (mid >>> 32) + carry + a.lo * b.hi + a.hi * b.lo⟩

/-- One iteration of the long-division loop body, bigint.h:241-262, for bit `i`. -/
def divStep (a b : U128) (i : Nat) (quotient remainder : U128) : U128 × U128 :=
  -- remainder <<= 1
  let rhi := (remainder.hi <<< 1) ||| (remainder.lo >>> 63)
  let rlo := remainder.lo <<< 1
  -- bit i of a
  let rlo := if i ≥ 64 then rlo ||| ((a.hi >>> (i - 64)) &&& 1)
             else rlo ||| ((a.lo >>> i) &&& 1)
  if rhi > b.hi ∨ (rhi = b.hi ∧ rlo ≥ b.lo) then
    let borrow := b2w (rlo < b.lo)
    let r : U128 := ⟨rlo - b.lo, rhi - (b.hi + borrow)⟩
    let q : U128 := if i ≥ 64 then ⟨quotient.lo, quotient.hi ||| ((1 : BitVec 64) <<< (i - 64))⟩
                    else ⟨quotient.lo ||| ((1 : BitVec 64) <<< i), quotient.hi⟩
    (q, r)
  else
    (quotient, ⟨rlo, rhi⟩)

/-- The loop `for (int i = n-1; i >= 0; i--)` of `gray_u128_divmod`, bigint.h:239-263. -/
def divLoop (a b : U128) : Nat → U128 × U128 → U128 × U128
  | 0, s => s
  | n + 1, s => divLoop a b n (divStep a b n s.1 s.2)

/-- `gray_u128_divmod`, bigint.h:225-267. Returns (quotient, remainder). -/
def divmod (a b : U128) : U128 × U128 :=
  if b.hi = 0 ∧ b.lo = 0 then (zero, zero)
  else if a.hi = 0 ∧ b.hi = 0 then (⟨a.lo / b.lo, 0⟩, ⟨a.lo % b.lo, 0⟩)
  else divLoop a b 128 (zero, zero)

/-- `gray_u128_div`, bigint.h:344-348. -/
def div (a b : U128) : U128 := (divmod a b).1

/-- `gray_u128_mod`, bigint.h:350-354. -/
def mod (a b : U128) : U128 := (divmod a b).2

/-- `gray_u128_eq`, bigint.h:358. -/
def eq (a b : U128) : Bool := a.lo == b.lo && a.hi == b.hi
/-- `gray_u128_ne`, bigint.h:359. -/
def ne (a b : U128) : Bool := a.lo != b.lo || a.hi != b.hi
/-- `gray_u128_lt`, bigint.h:360-362. -/
def lt (a b : U128) : Bool := a.hi < b.hi || (a.hi == b.hi && a.lo < b.lo)
/-- `gray_u128_gt`, bigint.h:363. -/
def gt (a b : U128) : Bool := lt b a
/-- `gray_u128_le`, bigint.h:364. -/
def le (a b : U128) : Bool := !(gt a b)
/-- `gray_u128_ge`, bigint.h:365. -/
def ge (a b : U128) : Bool := !(lt a b)

/-- `gray_u128_add_checked`, bigint.h:679-685. -/
def addChecked (a b : U128) : Outcome U128 :=
  let r := add a b
  if lt r a then .panic "P0024" else .ok r

/-- `gray_u128_sub_checked`, bigint.h:687-692. -/
def subChecked (a b : U128) : Outcome U128 :=
  if lt a b then .panic "P0025" else .ok (sub a b)

/-- `gray_u128_mul_checked`, bigint.h:694-705. -/
def mulChecked (a b : U128) : Outcome U128 :=
  let r := mul a b
  let aZero := a.hi == 0 && a.lo == 0
  let bZero := b.hi == 0 && b.lo == 0
  if !aZero && !bZero then
    if !(eq (div r b) a) then .panic "P0026" else .ok r
  else .ok r

/-- `gray_u128_to_i64`, bigint.h:88-93. -/
def toI64 (a : U128) : Outcome (BitVec 64) :=
  if a.hi ≠ 0 ∨ a.lo > 0x7FFFFFFFFFFFFFFF then .panic "P0095" else .ok a.lo

/-- `gray_u128_to_u64`, bigint.h:95-100. -/
def toU64 (a : U128) : Outcome (BitVec 64) :=
  if a.hi ≠ 0 then .panic "P0096" else .ok a.lo

/-- `gray_u128_from_i128`, bigint.h:131-136. -/
def fromI128 (a : I128) : U128 := ⟨a.lo, a.hi⟩

end U128

namespace I128

/-- `GRAY_I128_ZERO`, bigint.h:32. -/
def zero : I128 := ⟨0, 0⟩

/-- `gray_i128_from_i64`, bigint.h:39-44. -/
def fromI64 (v : BitVec 64) : I128 := ⟨v, if v.slt 0 then -1 else 0⟩

/-- `gray_i128_from_u128`, bigint.h:138-143. -/
def fromU128 (a : U128) : I128 := ⟨a.lo, a.hi⟩

/-- `gray_i128_add`, bigint.h:180-185. -/
def add (a b : I128) : I128 :=
  let lo := a.lo + b.lo
  ⟨lo, a.hi + b.hi + b2w (lo < a.lo)⟩

/-- `gray_i128_sub`, bigint.h:187-192. -/
def sub (a b : I128) : I128 :=
  ⟨a.lo - b.lo, a.hi - b.hi - b2w (a.lo < b.lo)⟩

/-- `gray_i128_neg`, bigint.h:194-199. -/
def neg (a : I128) : I128 :=
  let lo := ~~~a.lo + 1
  ⟨lo, ~~~a.hi + b2w (lo == 0)⟩

/-- `gray_i128_mul`, bigint.h:201-222. -/
def mul (a b : I128) : I128 :=
  let a0 := a.lo &&& 0xFFFFFFFF
  let a1 := a.lo >>> 32
  let b0 := b.lo &&& 0xFFFFFFFF
  let b1 := b.lo >>> 32
  let p00 := a0 * b0
  let p01 := a0 * b1
  let p10 := a1 * b0
  let p11 := a1 * b1
  let mid := p01 + (p00 >>> 32)
  let carry := ((mid &&& 0xFFFFFFFF) + p10) >>> 32
  ⟨a.lo * b.lo, p11 + (mid >>> 32) + carry + a.lo * b.hi + a.hi * b.lo⟩

/-- The pair of unsigned magnitudes prepared by `gray_i128_div`/`mod`,
bigint.h:273-276 and 288-291. -/
def magnitude (a : I128) : U128 :=
  if a.hi.slt 0 then ⟨(neg a).lo, (neg a).hi⟩ else ⟨a.lo, a.hi⟩

/-- `gray_i128_div`, bigint.h:269-282. -/
def div (a b : I128) : I128 :=
  if b.lo = 0 ∧ b.hi = 0 then zero
  else
    let negative := (a.hi.slt 0) != (b.hi.slt 0)
    let q := (U128.divmod (magnitude a) (magnitude b)).1
    let result : I128 := ⟨q.lo, q.hi⟩
    if negative then neg result else result

/-- `gray_i128_mod`, bigint.h:284-297. -/
def mod (a b : I128) : I128 :=
  if b.lo = 0 ∧ b.hi = 0 then zero
  else
    let rem := (U128.divmod (magnitude a) (magnitude b)).2
    let result : I128 := ⟨rem.lo, rem.hi⟩
    if a.hi.slt 0 then neg result else result

/-- `gray_i128_eq`, bigint.h:301. -/
def eq (a b : I128) : Bool := a.lo == b.lo && a.hi == b.hi
/-- `gray_i128_ne`, bigint.h:302. -/
def ne (a b : I128) : Bool := a.lo != b.lo || a.hi != b.hi
/-- `gray_i128_lt`, bigint.h:303-305. -/
def lt (a b : I128) : Bool := a.hi.slt b.hi || (a.hi == b.hi && a.lo < b.lo)
/-- `gray_i128_gt`, bigint.h:306. -/
def gt (a b : I128) : Bool := lt b a
/-- `gray_i128_le`, bigint.h:307. -/
def le (a b : I128) : Bool := !(gt a b)
/-- `gray_i128_ge`, bigint.h:308. -/
def ge (a b : I128) : Bool := !(lt a b)

/-- `gray_i128_add_checked`, bigint.h:650-656. -/
def addChecked (a b : I128) : Outcome I128 :=
  let r := add a b
  if (!(a.hi.slt 0) && !(b.hi.slt 0) && r.hi.slt 0) ||
     (a.hi.slt 0 && b.hi.slt 0 && !(r.hi.slt 0)) then .panic "P0021" else .ok r

/-- `gray_i128_sub_checked`, bigint.h:658-664. -/
def subChecked (a b : I128) : Outcome I128 :=
  let r := sub a b
  if (!(a.hi.slt 0) && b.hi.slt 0 && r.hi.slt 0) ||
     (a.hi.slt 0 && !(b.hi.slt 0) && !(r.hi.slt 0)) then .panic "P0022" else .ok r

/-- `gray_i128_mul_checked`, bigint.h:666-677. -/
def mulChecked (a b : I128) : Outcome I128 :=
  let r := mul a b
  let aZero := a.hi == 0 && a.lo == 0
  let bZero := b.hi == 0 && b.lo == 0
  if !aZero && !bZero then
    if !(eq (div r b) a) then .panic "P0023" else .ok r
  else .ok r

/-- `gray_i128_to_i64`, bigint.h:74-79. `(int64_t)a.lo >> 63` is an arithmetic shift. -/
def toI64 (a : I128) : Outcome (BitVec 64) :=
  if a.hi ≠ a.lo.sshiftRight 63 then .panic "P0093" else .ok a.lo

/-- `gray_i128_to_u64`, bigint.h:81-86. -/
def toU64 (a : I128) : Outcome (BitVec 64) :=
  if a.hi ≠ 0 then .panic "P0094" else .ok a.lo

/-- The exact high-limb sum of `gray_i128_add` (bigint.h:183) leaves `int64_t`, which is
undefined behaviour in C: either `a.hi + b.hi` or that plus the carry. -/
def addHiOverflows (a b : I128) : Bool :=
  let s := a.hi.toInt + b.hi.toInt
  let c : Int := if a.lo + b.lo < a.lo then 1 else 0
  decide (s < -2 ^ 63 ∨ s ≥ 2 ^ 63 ∨ s + c ≥ 2 ^ 63)

end I128
end Verif.Bigint

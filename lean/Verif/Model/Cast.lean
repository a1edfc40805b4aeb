import Verif.Model.IntOps
import Verif.Model.Bigint256

/-
Type conversions: `cast(value, T)` (`NODE_CAST_EXPR`, /repo/grayc/src/codegen/codegen.c:2590-2782)
and the constructors `int(…)`, `uint(…)`, `char(…)`, `byte(…)`, `i128(…)` … (codegen.c:3797-3862),
on values that are integers or floats. The runtime checks are in
/repo/grayc/src/runtime/runtime.h:294-332.

Simplifications.
* Integer values are mathematical integers in the range of their C type; passing an argument to a
  parameter of another integer type is the C conversion (`conv`, `toI64`).
* A `double` is NaN, an infinity, or `m * 2^e`. C conversion to an integer type truncates, and is
  undefined when the result does not fit (C11 6.3.1.4p1).
* The decimal constants `±9.223372036854775e+18` denote the nearest doubles, `±(2^63 - 1024)`.
-/
namespace Verif.Cast
open Verif Verif.IntOps Verif.Bigint

/-- `cast(v, dst)` for an integer `v` of type `src` (codegen.c:2743-2779). -/
def castInt (src dst : IntTy) (v : Int) : Outcome Int :=
  match dst with
  | .i8 => castCheck (toI64 v) (-128) 127
  | .i16 => castCheck (toI64 v) (-32768) 32767
  | .i32 => castCheck (toI64 v) (-2147483648) 2147483647
  | .u8 => ucastCheck (toI64 v) 255
  | .byte => ucastCheck (toI64 v) 255
  | .u16 => ucastCheck (toI64 v) 65535
  | .u32 => ucastCheck (toI64 v) 4294967295
  | .uint => if kind src = .kInt then ucastCheck (toI64 v) maxU64 else .ok (conv (64, false) v)
  | .u64 => if kind src = .kInt then ucastCheck (toI64 v) maxU64 else .ok (conv (64, false) v)
  | .int => if src = .uint ∨ src = .u64 then uintToIntCheck v else .ok (conv (64, true) v)
  | .i64 => if src = .uint ∨ src = .u64 then uintToIntCheck v else .ok (conv (64, true) v)
  | .char => .ok (conv (32, true) v)

/-- The constructors of integer types. -/
inductive Ctor where
  | int | uint | char | byte
  deriving DecidableEq, Repr

def Ctor.ty : Ctor → IntTy
  | .int => .int | .uint => .uint | .char => .char | .byte => .byte

/-- `int(v)`, `uint(v)`, `char(v)`, `byte(v)` for an integer `v` (codegen.c:3817-3823, 3858-3862):
a plain C cast. -/
def ctorInt (c : Ctor) (v : Int) : Int := conv (cTy c.ty) v

/-- A `double`. -/
inductive Dbl where
  | nan
  | inf (neg : Bool)
  | fin (m e : Int)
  deriving DecidableEq

/-- Truncation toward zero. -/
def trunc (m e : Int) : Int := if 0 ≤ e then m * 2 ^ e.toNat else m.tdiv (2 ^ (-e).toNat)

/-- `v > c` for an integer `c`. -/
def Dbl.gt : Dbl → Int → Bool
  | .nan, _ => false
  | .inf neg, _ => !neg
  | .fin m e, c => if 0 ≤ e then decide (c < m * 2 ^ e.toNat) else decide (c * 2 ^ (-e).toNat < m)

/-- `v < c` for an integer `c`. -/
def Dbl.lt : Dbl → Int → Bool
  | .nan, _ => false
  | .inf neg, _ => neg
  | .fin m e, c => if 0 ≤ e then decide (m * 2 ^ e.toNat < c) else decide (m < c * 2 ^ (-e).toNat)

/-- `v >= c`. -/
def Dbl.ge (v : Dbl) (c : Int) : Bool :=
  match v with
  | .nan => false
  | v => !v.lt c

/-- C conversion of a `double` to an integer type. -/
def convFloat (t : Nat × Bool) (v : Dbl) : Outcome Int :=
  match v with
  | .fin m e => if conv t (trunc m e) = trunc m e then .ok (trunc m e) else .ub
  | _ => .ub

/-- `gray_float_to_int` (runtime.h:319-324). -/
def floatToInt (v : Dbl) : Outcome Int :=
  if v.gt 9223372036854774784 || v.lt (-9223372036854774784) || decide (v = .nan) then .panic "P0020"
  else convFloat (64, true) v

/-- `gray_float_to_uint` (runtime.h:327-332). -/
def floatToUint (v : Dbl) : Outcome Int :=
  if v.lt 0 || v.ge 18446744073709551616 || decide (v = .nan) then .panic "P0091"
  else convFloat (64, false) v

/-- `cast(v, dst)` for a float (codegen.c:2627-2637, 2743-2779): the arguments of the range checks
have type `int64_t`. -/
def castFloat (dst : IntTy) (v : Dbl) : Outcome Int :=
  match dst with
  | .int => floatToInt v
  | .i64 => floatToInt v
  | .uint => floatToUint v
  | .u64 => floatToUint v
  | .i8 => do let w ← convFloat (64, true) v; castCheck w (-128) 127
  | .i16 => do let w ← convFloat (64, true) v; castCheck w (-32768) 32767
  | .i32 => do let w ← convFloat (64, true) v; castCheck w (-2147483648) 2147483647
  | .u8 => do let w ← convFloat (64, true) v; ucastCheck w 255
  | .byte => do let w ← convFloat (64, true) v; ucastCheck w 255
  | .u16 => do let w ← convFloat (64, true) v; ucastCheck w 65535
  | .u32 => do let w ← convFloat (64, true) v; ucastCheck w 4294967295
  | .char => convFloat (32, true) v

/-- `int(v)` … for a float (codegen.c:3852-3862). -/
def ctorFloat (c : Ctor) (v : Dbl) : Outcome Int :=
  match c with
  | .int => floatToInt v
  | c => convFloat (cTy c.ty) v

/-! ### Wide integers -/

inductive WideTy where
  | i128 | u128 | i256 | u256
  deriving DecidableEq, Repr

/-- A wide integer. -/
inductive Wide where
  | i128 (a : I128)
  | u128 (a : U128)
  | i256 (a : W256)
  | u256 (a : W256)

/-- `i128(v)` and `cast(v, i128)` … for an integer `v` of at most 64 bits (codegen.c:2679-2687,
3806-3811). -/
def wideOf (t : WideTy) (v : Int) : Wide :=
  match t with
  | .i128 => .i128 (I128.fromI64 (BitVec.ofInt 64 v))
  | .u128 => .u128 (U128.fromU64 (BitVec.ofInt 64 v))
  | .i256 => .i256 (W256.fromI64 (BitVec.ofInt 64 v))
  | .u256 => .u256 (W256.fromU64 (BitVec.ofInt 64 v))

/-- `gray_*_to_i64` as a number. -/
def wideToI64 : Wide → Outcome Int
  | .i128 a => do let r ← I128.toI64 a; .ok r.toInt
  | .u128 a => do let r ← U128.toI64 a; .ok r.toInt
  | .i256 a => do let r ← W256.iToI64 a; .ok r.toInt
  | .u256 a => do let r ← W256.uToI64 a; .ok r.toInt

/-- `gray_*_to_u64` as a number. -/
def wideToU64 : Wide → Outcome Int
  | .i128 a => do let r ← I128.toU64 a; .ok (r.toNat : Int)
  | .u128 a => do let r ← U128.toU64 a; .ok (r.toNat : Int)
  | .i256 a => do let r ← W256.iToU64 a; .ok (r.toNat : Int)
  | .u256 a => do let r ← W256.uToU64 a; .ok (r.toNat : Int)

/-- `cast(v, dst)` from a wide integer (codegen.c:2688-2722). -/
def castWide (dst : IntTy) (v : Wide) : Outcome Int :=
  match dst with
  | .i8 => do let w ← wideToI64 v; castCheck w (-128) 127
  | .i16 => do let w ← wideToI64 v; castCheck w (-32768) 32767
  | .i32 => do let w ← wideToI64 v; castCheck w (-2147483648) 2147483647
  | .u8 => do let w ← wideToU64 v; ucastCheck (toI64 w) 255
  | .byte => do let w ← wideToU64 v; ucastCheck (toI64 w) 255
  | .u16 => do let w ← wideToU64 v; ucastCheck (toI64 w) 65535
  | .u32 => do let w ← wideToU64 v; ucastCheck (toI64 w) 4294967295
  | .uint => wideToU64 v
  | .u64 => wideToU64 v
  | .int => wideToI64 v
  | .i64 => wideToI64 v
  | .char => do let w ← wideToI64 v; .ok (conv (32, true) w)

/-- A wide integer of an unsigned type. -/
def Wide.unsigned : Wide → Bool
  | .u128 _ => true
  | .u256 _ => true
  | _ => false

/-- `int(v)`, `uint(v)`, `char(v)`, `byte(v)` from a wide integer (codegen.c:3827-3837). -/
def ctorWide (c : Ctor) (v : Wide) : Outcome Int :=
  if v.unsigned || decide (c = .uint) then do let w ← wideToU64 v; .ok (conv (cTy c.ty) w)
  else do let w ← wideToI64 v; .ok (conv (cTy c.ty) w)

end Verif.Cast

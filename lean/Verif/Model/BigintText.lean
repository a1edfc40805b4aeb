import Verif.Model.Bigint256
/-
Decimal text of the wide integers. Source: /repo/grayc/src/runtime/bigint.h.

A C string is the list of its bytes (as `Nat`) without the terminating NUL.
Assumption on libc: `snprintf(buf, n, "%" PRIu64, v)` writes the decimal numeral of `v`
(`decimalNat`) cut to `n - 1` bytes. Copying the buffer into the arena is dropped.
-/
namespace Verif.Bigint

/-- The decimal numeral printed by `%PRIu64` (libc), most significant digit first. -/
def decimalNat (n : Nat) : List Nat :=
  if n < 10 then [48 + n] else decimalNat (n / 10) ++ [48 + n % 10]

/-- Digit extraction of `gray_u128_to_string`, bigint.h:785-794. `pos` is the C variable
`pos`; the pre-decrement `buf[--pos]` writes before the buffer when `pos` is 0, which is the
`ub` outcome. `acc` is the text already in the buffer from `pos` on. -/
def u128Digits : Nat → U128 → List Nat → Outcome (Nat × List Nat)
  | pos, v, acc =>
    if v.hi ≠ 0 ∨ v.lo ≠ 0 then
      match pos with
      | 0 => .ub
      | pos + 1 =>
        let qr := U128.divmod v ⟨10, 0⟩
        u128Digits pos qr.1 ((48 + qr.2.lo.toNat) :: acc)
    else .ok (pos, acc)

/-- `gray_u128_to_string`, bigint.h:773-799. `U128_MAX_DIGITS` is 21 and `I256_MAX_DIGITS` is
40 (bigint.h:25-28). -/
def u128ToString (val : U128) : Outcome (List Nat) :=
  if val.hi = 0 then .ok ((decimalNat val.lo.toNat).take (21 - 1))
  else
    match u128Digits (40 - 1) val [] with
    | .ok (pos, acc) =>
      if pos = 40 - 1 then .ok (48 :: acc) else .ok acc
    | .panic c => .panic c
    | .ub => .ub

/-- `gray_i128_to_string`, bigint.h:801-815. -/
def i128ToString (val : I128) : Outcome (List Nat) :=
  if val.hi.slt 0 then
    let neg := I128.neg val
    match u128ToString ⟨neg.lo, neg.hi⟩ with
    | .ok digits => .ok (45 :: digits)
    | .panic c => .panic c
    | .ub => .ub
  else u128ToString ⟨val.lo, val.hi⟩

/-- Digit extraction of `gray_u256_to_string`, bigint.h:828-838. -/
def u256Digits : Nat → W256 → List Nat → Outcome (Nat × List Nat)
  | pos, v, acc =>
    if v.w0 ≠ 0 ∨ v.w1 ≠ 0 ∨ v.w2 ≠ 0 ∨ v.w3 ≠ 0 then
      match pos with
      | 0 => .ub
      | pos + 1 =>
        let qr := W256.divmod v ⟨10, 0, 0, 0⟩
        u256Digits pos qr.1 ((48 + qr.2.w0.toNat) :: acc)
    else .ok (pos, acc)

/-- `gray_u256_to_string`, bigint.h:818-844. `U256_MAX_DIGITS` is 80. -/
def u256ToString (val : W256) : Outcome (List Nat) :=
  if val.w1 = 0 ∧ val.w2 = 0 ∧ val.w3 = 0 then .ok ((decimalNat val.w0.toNat).take (21 - 1))
  else
    match u256Digits (80 - 1) val [] with
    | .ok (pos, acc) =>
      if pos = 80 - 1 then .ok (48 :: acc) else .ok acc
    | .panic c => .panic c
    | .ub => .ub

/-- `gray_i256_to_string`, bigint.h:846-859. -/
def i256ToString (val : W256) : Outcome (List Nat) :=
  if val.isNeg then
    match u256ToString (W256.neg val) with
    | .ok digits => .ok (45 :: digits)
    | .panic c => .panic c
    | .ub => .ub
  else u256ToString val

/-- Loop of `gray_u128_from_decimal`, bigint.h:604-610. `(uint64_t)(*s - '0')` is computed
from the byte value (ASCII input; bytes above 127 would be negative for a signed `char`). -/
def u128FromDecimalLoop : List Nat → U128 → U128
  | [], result => result
  | c :: s, result =>
    if c = 95 then u128FromDecimalLoop s result
    else u128FromDecimalLoop s
      (U128.add (U128.mul result ⟨10, 0⟩) ⟨BitVec.ofInt 64 ((c : Int) - 48), 0⟩)

/-- `gray_u128_from_decimal`, bigint.h:601-612. -/
def u128FromDecimal (s : List Nat) : U128 := u128FromDecimalLoop s U128.zero

/-- `gray_i128_from_decimal`, bigint.h:614-622. -/
def i128FromDecimal (s : List Nat) : I128 :=
  match s with
  | 45 :: s' => let u := u128FromDecimal s'; I128.neg ⟨u.lo, u.hi⟩
  | s => let u := u128FromDecimal s; ⟨u.lo, u.hi⟩

/-- Loop of `gray_u256_from_decimal`, bigint.h:628-635. -/
def u256FromDecimalLoop : List Nat → W256 → W256
  | [], result => result
  | c :: s, result =>
    if c = 95 then u256FromDecimalLoop s result
    else u256FromDecimalLoop s
      (W256.add (W256.mul result ⟨10, 0, 0, 0⟩) ⟨BitVec.ofInt 64 ((c : Int) - 48), 0, 0, 0⟩)

/-- `gray_u256_from_decimal`, bigint.h:624-637. -/
def u256FromDecimal (s : List Nat) : W256 := u256FromDecimalLoop s W256.zero

/-- `gray_i256_from_decimal`, bigint.h:639-646. -/
def i256FromDecimal (s : List Nat) : W256 :=
  match s with
  | 45 :: s' => W256.neg (u256FromDecimal s')
  | s => u256FromDecimal s

end Verif.Bigint

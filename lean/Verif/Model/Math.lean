import Verif.Model.Cast

/-
Integer functions of the math module (/repo/grayc/src/stdlib/math.c:34-63, math.h:29-103) and the
choice of the function called (/repo/grayc/src/codegen/codegen.c:4082-4123).

Simplifications.
* An `int64_t` is a mathematical integer; arithmetic that leaves its range is undefined (`chk`).
* Loops recurse with fuel; running out of it is reported as `ub`, and the theorems show that it never
  happens.
* A float argument of the `_int` functions is converted by the call (C11 6.5.2.2p7).
-/
namespace Verif.Math
open Verif Verif.IntOps Verif.Cast

/-- The result of an `int64_t` operation. -/
def chk (v : Int) : Outcome Int := if -2 ^ 63 ≤ v ∧ v < 2 ^ 63 then .ok v else .ub

/-- The loop of `gray_math_factorial` (math.c:38). -/
def factLoop : Nat → Int → Int → Int → Outcome Int
  | 0, _, _, _ => .ub
  | f + 1, n, i, result =>
    if i ≤ n then do
      let result ← chk (result * i)
      let i ← chk (i + 1)
      factLoop f n i result
    else .ok result

/-- `gray_math_factorial` (math.c:34-40). -/
def factorial (n : Int) : Outcome Int :=
  if n < 0 then .panic "P0070"
  else if n ≤ 1 then .ok 1
  else factLoop n.toNat n 2 1

/-- The loop of `gray_math_gcd` (math.c:45). -/
def gcdLoop : Nat → Int → Int → Outcome Int
  | 0, _, _ => .ub
  | f + 1, a, b => if b ≠ 0 then gcdLoop f b (a.tmod b) else .ok a

/-- `if (v < 0) v = -v;` (math.c:43-44, math.h:29). -/
def absI (v : Int) : Outcome Int := if v < 0 then chk (-v) else .ok v

/-- `gray_math_gcd` (math.c:42-47). -/
def gcd (a b : Int) : Outcome Int := do
  let a ← absI a
  let b ← absI b
  gcdLoop (b.toNat + 1) a b

/-- `gray_math_lcm` (math.c:49-53). -/
def lcm (a b : Int) : Outcome Int :=
  if a = 0 ∨ b = 0 then .ok 0
  else do
    let g ← gcd a b
    let q ← chk (a.tdiv g)
    chk (q * b)

/-- The loop of `gray_math_is_prime` (math.c:59-61). -/
def primeLoop : Nat → Int → Int → Outcome Bool
  | 0, _, _ => .ub
  | f + 1, n, i => do
    let sq ← chk (i * i)
    if sq ≤ n then
      if n.tmod i = 0 then .ok false
      else do
        let j ← chk (i + 2)
        if n.tmod j = 0 then .ok false
        else do
          let i ← chk (i + 6)
          primeLoop f n i
    else .ok true

/-- `gray_math_is_prime` (math.c:55-63). -/
def isPrime (n : Int) : Outcome Bool :=
  if n < 2 then .ok false
  else if n < 4 then .ok true
  else if n.tmod 2 = 0 ∨ n.tmod 3 = 0 then .ok false
  else primeLoop n.toNat n 5

/-! ### min, max, clamp, abs, sign of an integer and other numbers -/

/-- An argument: an integer of a type of at most 64 bits, or a float. -/
inductive Num where
  | int (v : Int)
  | flt (d : Dbl)
  deriving DecidableEq

/-- The argument converted to `int64_t`. -/
def argInt : Num → Outcome Int
  | .int v => .ok (toI64 v)
  | .flt d => convFloat (64, true) d

/-- `gray_math_min_int` (math.h:70). -/
def minInt (a b : Int) : Int := if a < b then a else b

/-- `gray_math_max_int` (math.h:84). -/
def maxInt (a b : Int) : Int := if b < a then a else b

/-- `gray_math_clamp_int` (math.h:98-100). -/
def clampInt (v lo hi : Int) : Int := if v < lo then lo else if hi < v then hi else v

/-- `math.min(a, b)` when the first argument is an integer (codegen.c:4096-4104). -/
def callMin (a : Int) (b : Num) : Outcome Int := do
  let y ← argInt b
  .ok (minInt (toI64 a) y)

def callMax (a : Int) (b : Num) : Outcome Int := do
  let y ← argInt b
  .ok (maxInt (toI64 a) y)

/-- `math.clamp(v, lo, hi)` when the first argument is an integer (codegen.c:4105-4115). -/
def callClamp (v : Int) (lo hi : Num) : Outcome Int := do
  let l ← argInt lo
  let h ← argInt hi
  .ok (clampInt (toI64 v) l h)

/-- `math.abs` of an integer (math.h:29). -/
def callAbs (v : Int) : Outcome Int := absI (toI64 v)

/-- `math.sign` (math.h:57; codegen.c:4117). -/
def callSign (n : Num) : Outcome Int := do
  let v ← argInt n
  .ok (if 0 < v then 1 else if v < 0 then -1 else 0)

end Verif.Math

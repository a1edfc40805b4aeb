import Verif.Model.SizedArray

/-
The random module (/repo/grayc/src/stdlib/random.c, math.c:23-32) and the call of `choice` and `sample`
(/repo/grayc/src/codegen/codegen.c:4929-4971).

Simplifications.
* A result of `rand()` is a number of [0, RAND_MAX] with RAND_MAX = 2^31 - 1 (glibc, macOS libc); how the
  numbers follow from the seed is not modelled.
* Division by zero and signed overflow are `ub`.
* `gray_random_float_unit` is the exact quotient; the rounding to a double keeps 0 and 1 and the order.
* In `shuffle` an element is moved as a whole (memcpy of the element size through a scratch slot of that
  size); the draw made at position `i` of the loop is `draw i`.
-/
namespace Verif.Random
open Verif

def randMax : Nat := 2147483647

/-- Conversion to `int`/`int32_t`. -/
def toI32 (v : Int) : Int := v.bmod (2 ^ 32)

/-- `rand() % k` for an `int` `k`. -/
def randMod (r : Nat) (k : Int) : Outcome Int := if k = 0 then .ub else .ok ((r : Int).tmod k)

/-- `gray_random_int_max` (35-39). -/
def intMax (r : Nat) (max : Int) : Outcome Int :=
  if max ≤ 0 then .ok 0 else randMod r (toI32 max)

/-- `gray_random_int_range` (41-45) and `gray_math_random_int` (math.c:23-27). -/
def intRange (r : Nat) (min max : Int) : Outcome Int :=
  if max ≤ min then .ok min
  else if 2 ^ 63 ≤ max - min then .ub
  else do
    let d ← randMod r (toI32 (max - min))
    .ok (min + d)

/-- `gray_random_float_unit` (26-29): numerator and denominator. -/
def floatUnit (r : Nat) : Nat × Nat := (r, randMax)

/-- `gray_random_bool` (47-50). -/
def randBool (r : Nat) : Bool := r % 2 == 0

/-- `gray_random_byte` (52-55). -/
def randByte (r : Nat) : Nat := r % 256

/-- `gray_random_char` (57-60). -/
def randChar (r : Nat) : Nat := 32 + r % 95

/-- `gray_random_char_range` (62-66). -/
def charRange (r : Nat) (min max : Int) : Outcome Int :=
  if max ≤ min then .ok min
  else if 2 ^ 31 ≤ max - min then .ub
  else do
    let d ← randMod r (max - min)
    .ok (min + d)

/-- Exchange of two elements. -/
def swap {α : Type} (l : List α) (i j : Nat) : List α :=
  match l[i]?, l[j]? with
  | some x, some y => (l.set i y).set j x
  | _, _ => l

/-- The loop of `gray_random_shuffle` (77-82). -/
def shuffleLoop {α : Type} (draw : Nat → Nat) : Nat → List α → List α
  | 0, l => l
  | i + 1, l => shuffleLoop draw i (swap l (i + 1) (draw (i + 1) % (i + 2)))

/-- `gray_random_shuffle` (68-84). -/
def shuffle {α : Type} (draw : Nat → Nat) (l : List α) : List α := shuffleLoop draw (l.length - 1) l

/-- `random.sample(arr, n)` (86-94): `n` is converted to `int32_t` by the call. -/
def sample {α : Type} (draw : Nat → Nat) (l : List α) (n : Int) : Outcome (List α) :=
  if (l.length : Int) < toI32 n then .panic "P0062"
  else if toI32 n < 0 then .panic "P0063"
  else .ok ((shuffle draw l).take (toI32 n).toNat)

/-- `random.choice(arr)` for elements that are read with their own size (codegen.c:4959-4969). -/
def choice {α : Type} (r : Nat) (l : List α) : Outcome α := do
  let i ← intMax r l.length
  match l[(toI32 i).toNat]? with
  | some x => .ok x
  | none => .panic "P0033"

/-- `random.choice(arr)` for integer elements: read as `int64_t` (codegen.c:4940). -/
def choiceInt (r : Nat) (a : SizedArr.BArr) : Outcome Int := do
  let i ← intMax r a.len
  let bs ← SizedArr.get a 8 (toI32 i)
  .ok (SizedArr.leInt bs)

end Verif.Random

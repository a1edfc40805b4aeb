import Verif.Model.IntLiteral
import Verif.Model.IntOps
/-
Compile-time range checks of integer literals, and the code emitted for negated literals.
Source: /repo/grayc/src/typechecker/typechecker.c, /repo/grayc/src/codegen/codegen.c.
Simplification: a checked expression is a literal, a negated literal, or a binary operation on
such expressions (any other node makes `try_get_literal_int` return false).
-/
namespace Verif.LiteralRange
open Verif.IntLiteral Verif.IntOps

/-- The operators folded by `try_get_literal_int`; `other` stands for every other operator. -/
inductive FoldOp where
  | plus | minus | times | slash | other
  deriving DecidableEq, Repr

/-- Expressions seen by `try_get_literal_int`. -/
inductive Expr where
  | lit (text : List Nat)
  | neg (text : List Nat)
  | bin (op : FoldOp) (l r : Expr)
  | opaque

/-- `node->data.int_value.value` as `int64_t`. -/
def signed (text : List Nat) : Int := (parse text).value.toInt

/-- An `int64_t` result in the compiler itself: out of range is undefined behaviour. -/
def inC (z : Int) : Outcome Int := if z < minI64 ∨ z > maxI64 then .ub else .ok z

/-- `try_get_literal_int`, typechecker.c:1865-1888. `none`: not a literal expression. -/
def tryLiteral : Expr → Option (Outcome Int)
  | .lit t => some (.ok (signed t))
  | .neg t => some (inC (-(signed t)))
  | .opaque => none
  | .bin op l r =>
    match tryLiteral l, tryLiteral r with
    | some (.ok a), some (.ok b) =>
      match op with
      | .plus => some (inC (a + b))
      | .minus => some (inC (a - b))
      | .times => some (inC (a * b))
      | .slash => if b = 0 then none else some (inC (a.tdiv b))
      | .other => none
    | none, _ => none
    | some (.ok _), none => none
    | some (.ok _), some o => some o
    | some o, _ => some o

/-- `check_integer_range`, typechecker.c:2056-2105: true if an error (E3036) is reported. -/
def rangeError (t : IntTy) (value : Int) : Bool :=
  match t with
  | .i8 => value < -128 || value > 127
  | .i16 => value < -32768 || value > 32767
  | .i32 => value < -2147483648 || value > 2147483647
  | .u8 | .byte => value < 0 || value > 255
  | .u16 => value < 0 || value > 65535
  | .u32 => value < 0 || value > 4294967295
  | .u64 | .uint => value < 0
  | _ => false

/-- Errors E3046 and E3036 of a declaration `t x = lit`, typechecker.c:8273-8306: true if the
declaration is accepted. -/
def declAccepts (t : IntTy) (text : List Nat) : Bool :=
  let p := parse text
  let u64Like := t = .u64 ∨ t = .uint
  if p.overflow then
    if p.overflowU64 then false else u64Like
  else !(rangeError t (signed text))

/-- Error E3036 of a reassignment `x = e`, typechecker.c:9095-9105. -/
def assignAccepts (t : IntTy) (e : Expr) : Outcome Bool :=
  match tryLiteral e with
  | none => .ok true
  | some (.ok v) => .ok (!(rangeError t v))
  | some (.panic c) => .panic c
  | some .ub => .ub

/-- Errors of a declaration `t x = -lit`: the E3046 test looks at direct literals only, so just
E3036 applies, typechecker.c:8277-8306. -/
def declNegAccepts (t : IntTy) (text : List Nat) : Outcome Bool := assignAccepts t (.neg text)

/-- Value of the C expression emitted for `-lit` in a context of type `int`,
codegen.c:1687-1702 and 1713-1733. -/
def emitNegLit (text : List Nat) : Outcome Int :=
  let v := signed text
  if v < 0 then .ok v else negCheck v

end Verif.LiteralRange

/-
Operators: the checks of `resolve_infix_expr` (/repo/grayc/src/typechecker/typechecker.c 5616-6062) and of prefix operators
(6889-6914), and the C text of both (/repo/grayc/src/codegen/codegen.c 1686-2137, with `resolve_bigint_type` 815-846 and
`emit_bigint_operand` 851-916).

Simplifications.
* Operands are variables (and `nil`), whose types are known; literals, `unknown` types and type parameters are left out. So are
  the literal zero divisor (5671-5700) and `const` initialisers, where the checks of division and overflow are not emitted.
* Of sized integers the width is left out here (see `IntOps`); the four wide ones, which are C structs, are kept apart.
* `in` and `not_in` are left out.
* C: a text that breaks a constraint of the language does not compile, even where compilers only warn (a pointer compared with
  an integer). Arithmetic on pointers to functions is taken as GNU C has it.
-/
namespace Verif.Operators

/-- The infix operators, `in` and `not_in` left out. -/
inductive Bin where
  | add | sub | mul | div | mod | eq | ne | lt | gt | le | ge | and | or | band | bor | bxor | shl | shr
  deriving DecidableEq, Repr

/-- Kinds of types (types.h 16-34), the wide integers and the shapes of enums told apart. -/
inductive K where
  | int | uint | byte | i128 | i256 | u128 | u256 | float | bool | char | string | array | map | struct
  | enumInt | enumStr | enumTag | pointer | error | func | nil | void
  deriving DecidableEq, Repr

/-- An operand: its kind, and the name of its type. -/
structure Opd where
  k : K
  name : String
  deriving DecidableEq, Repr

/-- `GrayType.kind`: wide integers are `TK_INT` or `TK_UINT`, all enums are `TK_ENUM`. -/
def tk : K → K
  | .i128 | .i256 => .int
  | .u128 | .u256 => .uint
  | .enumStr | .enumTag => .enumInt
  | k => k

/-- `is_int_kind` (1820-1822) -/
def intKind (k : K) : Bool := tk k == .int || tk k == .uint || tk k == .byte

/-- `is_bigint_type` (1854-1858) -/
def wide : K → Bool
  | .i128 | .i256 | .u128 | .u256 => true
  | _ => false

def isEnum (k : K) : Bool := tk k == .enumInt

def arith : Bin → Bool
  | .add | .sub | .mul | .div | .mod => true
  | _ => false

def order : Bin → Bool
  | .lt | .gt | .le | .ge => true
  | _ => false

def equality : Bin → Bool
  | .eq | .ne => true
  | _ => false

def bits : Bin → Bool
  | .band | .bor | .bxor => true
  | _ => false

def shift : Bin → Bool
  | .shl | .shr => true
  | _ => false

/-- One of the operands is of the kind. -/
def either (k l r : K) : Bool := tk l == k || tk r == k

/-- Both are. -/
def both (k l r : K) : Bool := tk l == k && tk r == k

/-- The wide operands that may be mixed (5735-5736) -/
def mixable (l r : K) : Bool := l == .i256 && r == .i128 || l == .u256 && r == .u128

/-- Kinds that may be compared with nil (5768-5774) -/
def nullable (k : K) : Bool := k == .nil || k == .pointer || k == .error

/-- E3001 of `==` and `!=` (5914-5934): kinds that differ, but for the pairs listed there. -/
def clash (l r : K) : Bool :=
  tk l != tk r && l != .nil && r != .nil &&
  !(intKind l && intKind r) &&
  !(l == .struct && intKind r) && !(intKind l && r == .struct) &&
  !(intKind l && r == .bool) && !(l == .bool && intKind r) &&
  !(isEnum l && intKind r) && !(intKind l && isEnum r) &&
  !(l == .enumStr && r == .string) && !(l == .string && r == .enumStr)

/-- Whether an error is reported; `same` says that the names of the types are equal. The checks guarded by `infix_errored` run
only if none has reported yet, which does not change whether any does. -/
def rejected (op : Bin) (l r : K) (same : Bool) : Bool :=
  -- E3038 (5644-5647)
  either .void l r ||
  -- E3002: ordering of strings (5650-5660), `%` with float (5663-5669), bool in arithmetic (5703-5715)
  either .string l r && order op ||
  op == .mod && either .float l r ||
  either .bool l r && arith op ||
  -- E3002: wide operands (5723-5745)
  (arith op || equality op || order op) && wide l && wide r && l != r && !mixable l r ||
  -- E3002 and E3092: nil (5754-5782)
  either .nil l r && !equality op ||
  equality op && (l == .nil && !nullable r || r == .nil && !nullable l) ||
  -- E3048 and E3002: strings (5785-5802)
  either .string l r && !equality op ||
  -- E3093 (5805-5819)
  arith op && (either .map l r || either .array l r || either .struct l r) ||
  -- E3078, E3120 (5826-5845)
  either .pointer l r && (arith op || order op) ||
  -- E3032, E3124 (5850-5867)
  equality op && isEnum l && isEnum r && (!same || l == .enumTag) ||
  -- E3049 (5875-5893)
  (arith op || order op) && (isEnum l || isEnum r) && !(order op && either .int l r) ||
  -- E3117 (5896-5913)
  equality op && (isEnum l && intKind r || intKind l && isEnum r) ||
  -- E3001 (5914-5948)
  equality op && clash l r ||
  equality op && both .pointer l r && !same ||
  -- E3074, E3076, E3077 (5953-5979)
  (equality op || order op) && (both .array l r || both .map l r || both .struct l r) ||
  -- E8001 (6020-6034)
  (bits op || shift op) && !((intKind l || l == .char) && (intKind r || r == .char))

/-- The kind of the result (6037-6052) -/
def result (op : Bin) (l r : K) : K :=
  if equality op || order op || op == .and || op == .or then .bool
  else if either .float l r then .float
  else if l == .string && op == .add then .string
  else l

/-! ### The C text -/

/-- What a C expression is: of integer type (enumerations and bool too), floating, a pointer, a wide integer, another struct. -/
inductive C where
  | whole | real | ptr | big (w : K) | agg
  deriving DecidableEq, Repr

/-- The C type of a variable -/
def cType : K → C
  | .int | .uint | .byte | .bool | .char | .enumInt => .whole
  | .float => .real
  | .pointer | .error | .func | .nil => .ptr
  | .i128 => .big .i128
  | .i256 => .big .i256
  | .u128 => .big .u128
  | .u256 => .big .u256
  | _ => .agg

/-- Scalars: `!x`, `x && y`, casts to integers -/
def scalar (k : K) : Bool := cType k == .whole || cType k == .real || cType k == .ptr

def number (k : K) : Bool := cType k == .whole || cType k == .real

/-- Strings, and enums of strings (1782-1798) -/
def strLike (k : K) : Bool := k == .string || k == .enumStr

/-- An operand given to the functions of the wide type `w` (851-916): the same type, the narrower one of its sign, or a scalar
variable cast to 64 bits; `nil` is no variable and goes as it is. -/
def fits (w k : K) : Bool :=
  k == w || mixable w k || scalar k && k != .nil

/-- Pointers that C compares or subtracts -/
def compatible (l r : K) (same : Bool) : Bool :=
  cType l == .ptr && cType r == .ptr && (l == .nil || r == .nil || l == r && same)

/-- `l op r` as C has it (2120-2136) -/
def plain (op : Bin) (l r : K) (same : Bool) : Option C :=
  if op == .and || op == .or then
    if scalar l && scalar r then some .whole else none
  else if arith op then
    if number l && number r then
      if cType l == .real || cType r == .real then some .real else some .whole
    else if op == .add && (cType l == .ptr && cType r == .whole || cType l == .whole && cType r == .ptr) then some .ptr
    else if op == .sub && cType l == .ptr && cType r == .whole then some .ptr
    else if op == .sub && compatible l r same then some .whole
    else none
  else
    if number l && number r || compatible l r same then some .whole else none

/-- The expression emitted for `l op r` (1765-2137); none if it does not compile. -/
def emit (op : Bin) (l r : K) (same : Bool) : Option C :=
  if (strLike l || strLike r) && op == .add then none
  else if (strLike l || strLike r) && equality op then
    if strLike l && strLike r then some .whole else none
  else if bits op then
    if cType l == .whole && cType r == .whole then some .whole else none
  else if shift op then
    if cType l == .whole && scalar r then some .whole else none
  else if (wide l || wide r) && (arith op || equality op || order op) then
    let w := if wide l then l else r
    if fits w l && fits w r then some (if arith op then .big w else .whole) else none
  else if op == .div || op == .mod then
    if either .float l r then
      if number l && number r && op != .mod then some .real else none
    else if cType l == .whole && cType r == .whole then some .whole else none
  else plain op l r same

/-! ### Prefix operators -/

inductive Un where
  | not | neg | bnot
  deriving DecidableEq, Repr

/-- `type_is_numeric` (types.c 290-293) -/
def numeric (k : K) : Bool := intKind k || k == .float || k == .char

/-- Unsigned names (1838-1844) -/
def unsigned (k : K) : Bool := tk k == .uint || k == .byte

/-- E3090, E3007, E3096, E8002 (6891-6910) -/
def rejectedUn (op : Un) (k : K) : Bool :=
  match op with
  | .not => k != .bool
  | .neg => !numeric k || unsigned k
  | .bnot => !(intKind k || k == .char)

/-- The expression emitted (1686-1763) -/
def emitUn (op : Un) (k : K) : Option C :=
  match op with
  | .not => if scalar k then some .whole else none
  | .neg =>
    if k == .i128 || k == .i256 then some (.big k)
    else if number k then some (cType k) else none
  | .bnot => if cType k == .whole then some .whole else none

end Verif.Operators

import Verif.Model.Outcome
/-
Integer operations of 64 bits and less: the runtime helpers and the choice among them made by
the code generator.
Sources: /repo/grayc/src/runtime/runtime.h, /repo/grayc/src/codegen/codegen.c,
/repo/grayc/src/typechecker/types.c.

Values are mathematical integers; the C types enter through the conversions `toI64`, `toU64`
and `conv` (C11 6.3.1.3, two's complement) and through the outcome `ub` for signed overflow.
Simplifications: operands are variables of their declared type (so their C type is the one of
`cTy`), evaluated once and without side effects; the file-scope constant path (`in_const_decl`)
is not modelled; file/line/type name arguments are dropped.
`__builtin_*_overflow` is modelled by its documented meaning (infinite precision, then range test).
-/
namespace Verif.IntOps

/-- The integer type names of the language with at most 64 bits. -/
inductive IntTy where
  | i8 | i16 | i32 | i64 | int | u8 | byte | u16 | u32 | u64 | uint | char
  deriving DecidableEq, Repr

/-- `TypeKind` of each name, types.c:362-385. -/
inductive Kind where
  | kInt | kUint | kByte | kChar
  deriving DecidableEq, Repr

def kind : IntTy → Kind
  | .i8 | .i16 | .i32 | .i64 | .int => .kInt
  | .u8 | .u16 | .u32 | .u64 | .uint => .kUint
  | .byte => .kByte
  | .char => .kChar

/-- C representation (`gray_type_to_c_codegen`, codegen.c:316-335): width and signedness. -/
def cTy : IntTy → Nat × Bool
  | .i8 => (8, true) | .i16 => (16, true) | .i32 => (32, true) | .i64 => (64, true)
  | .int => (64, true)
  | .u8 => (8, false) | .byte => (8, false) | .u16 => (16, false) | .u32 => (32, false)
  | .u64 => (64, false) | .uint => (64, false)
  | .char => (32, true)

/-- Conversion of a value to a C integer type of the given width and signedness. -/
def conv (t : Nat × Bool) (z : Int) : Int := if t.2 then z.bmod (2 ^ t.1) else z % 2 ^ t.1

/-- Conversion to `int64_t`. -/
def toI64 (z : Int) : Int := z.bmod (2 ^ 64)

/-- Conversion to `uint64_t`. -/
def toU64 (z : Int) : Int := z % 2 ^ 64

def minI64 : Int := -9223372036854775808
def maxI64 : Int := 9223372036854775807
def maxU64 : Int := 18446744073709551615

/-- The three checked binary operators. -/
inductive Op where
  | add | sub | mul
  deriving DecidableEq, Repr

/-- Mathematical meaning of the operator. -/
def Op.exact : Op → Int → Int → Int
  | .add, a, b => a + b
  | .sub, a, b => a - b
  | .mul, a, b => a * b

/-! ### Runtime helpers -/

/-- `gray_add_check`, `gray_sub_check`, `gray_mul_check`, runtime.h:169-188. -/
def check (op : Op) (a b : Int) : Outcome Int :=
  let r := op.exact a b
  if r < minI64 ∨ r > maxI64 then
    .panic (match op with | .add => "P0004" | .sub => "P0005" | .mul => "P0006")
  else .ok r

/-- `gray_neg_check`, runtime.h:190-195. -/
def negCheck (a : Int) : Outcome Int :=
  let r := 0 - a
  if r < minI64 ∨ r > maxI64 then .panic "P0007" else .ok r

/-- `gray_inc_check`, runtime.h:197-199. -/
def incCheck (a : Int) : Outcome Int := check .add a 1

/-- `gray_dec_check`, runtime.h:201-203. -/
def decCheck (a : Int) : Outcome Int := check .sub a 1

/-- `gray_uadd_check`, `gray_usub_check`, `gray_umul_check`, runtime.h:206-225. -/
def ucheck (op : Op) (a b : Int) : Outcome Int :=
  match op with
  | .add => if a + b > maxU64 then .panic "P0008" else .ok (a + b)
  | .sub => if b > a then .panic "P0009" else .ok (a - b)
  | .mul => if a * b > maxU64 then .panic "P0010" else .ok (a * b)

/-- `gray_sized_add_check`, `gray_sized_sub_check`, `gray_sized_mul_check`, runtime.h:228-250.
The operation itself is plain `int64_t` arithmetic. -/
def sizedCheck (op : Op) (a b lo hi : Int) : Outcome Int :=
  let r := op.exact a b
  if r < minI64 ∨ r > maxI64 then .ub
  else if r < lo ∨ r > hi then
    .panic (match op with | .add => "P0011" | .sub => "P0012" | .mul => "P0013")
  else .ok r

/-- `gray_sized_neg_check`, runtime.h:252-258. -/
def sizedNegCheck (a lo hi : Int) : Outcome Int :=
  if -a > maxI64 then .ub
  else if -a < lo ∨ -a > hi then .panic "P0014" else .ok (-a)

/-- `gray_usized_add_check`, `gray_usized_sub_check`, `gray_usized_mul_check`,
runtime.h:264-292. Operands are `int64_t`. -/
def usizedCheck (op : Op) (a b hi : Int) : Outcome Int :=
  let r := op.exact a b
  if r < minI64 ∨ r > maxI64 then .ub
  else if r < 0 then .panic "P0016"
  else if r > hi then .panic (match op with | .mul => "P0017" | _ => "P0015")
  else .ok r

/-- `gray_cast_check`, runtime.h:295-301. -/
def castCheck (v lo hi : Int) : Outcome Int :=
  if v < lo ∨ v > hi then .panic "P0018" else .ok v

/-- `gray_ucast_check`, runtime.h:303-309; `v` is an `int64_t`. -/
def ucastCheck (v hi : Int) : Outcome Int :=
  if v < 0 ∨ v > hi then .panic "P0019" else .ok v

/-- `gray_uint_to_int_check`, runtime.h:312-317; `v` is a `uint64_t`. -/
def uintToIntCheck (v : Int) : Outcome Int :=
  if v > maxI64 then .panic "P0018" else .ok v

/-! ### Choice of helper -/

/-- `int_type_rank`, codegen.c:171-182. -/
def rank : IntTy → Nat
  | .i8 | .u8 | .byte => 1
  | .i16 | .u16 => 2
  | .i32 | .u32 => 3
  | .i64 | .u64 | .int | .uint => 4
  | .char => 0

/-- `sized_int_bounds`, codegen.c:187-200: (optional minimum, maximum, unsigned). The minimum is
`none` (a NULL string) for unsigned types. -/
def bounds : IntTy → Option (Option Int × Int × Bool)
  | .i8 => some (some (-128), 127, false)
  | .i16 => some (some (-32768), 32767, false)
  | .i32 => some (some (-2147483648), 2147483647, false)
  | .u8 | .byte => some (none, 255, true)
  | .u16 => some (none, 65535, true)
  | .u32 => some (none, 4294967295, true)
  | _ => none

/-- The type whose bounds are used for `l op r`, codegen.c:2053-2068. -/
def sizedName (l r : IntTy) : IntTy :=
  let lb := 1 ≤ rank l ∧ rank l ≤ 3
  let rb := 1 ≤ rank r ∧ rank r ≤ 3
  if lb ∧ rb then (if rank r > rank l then r else l)
  else if lb then l
  else if rb then r
  else if rank r > rank l then r else l

/-- Emitted `l + r`, `l - r`, `l * r` on integer operands, codegen.c:2045-2119. Passing an
operand to a helper converts it to the parameter type. The result is the value of the C
expression (an `int64_t` or `uint64_t`). -/
def emitArith (op : Op) (l r : IntTy) (a b : Int) : Outcome Int :=
  match bounds (sizedName l r) with
  | some (some lo, hi, _) => sizedCheck op (toI64 a) (toI64 b) lo hi
  | some (none, hi, _) => usizedCheck op (toI64 a) (toI64 b) hi
  | none =>
    if kind l = .kUint ∨ kind r = .kUint then ucheck op (toU64 a) (toU64 b)
    else check op (toI64 a) (toI64 b)

/-- Emitted unary minus on a signed type, codegen.c:1713-1733. -/
def emitNeg (t : IntTy) (a : Int) : Outcome Int :=
  match bounds t with
  | some (some lo, hi, _) => sizedNegCheck a lo hi
  | _ => negCheck a

/-- Emitted `x++` (`inc = true`) and `x--`, codegen.c:2144-2215: the new value of `x`. -/
def emitStep (inc : Bool) (t : IntTy) (a : Int) : Outcome Int :=
  let op := if inc then Op.add else Op.sub
  match bounds t with
  | some (some lo, hi, _) => sizedCheck op a 1 lo hi
  | some (none, hi, _) => usizedCheck op a 1 hi
  | none => if kind t = .kUint then ucheck op a 1
            else if inc then incCheck a else decCheck a

/-! ### Plain C operators on two operands -/

/-- Integer promotion (C11 6.3.1.1): narrower than `int` becomes `int`. -/
def promote (t : Nat × Bool) : Nat × Bool := if t.1 < 32 then (32, true) else t

/-- Usual arithmetic conversions (C11 6.3.1.8) for promoted widths 32 and 64. -/
def common (x y : Nat × Bool) : Nat × Bool :=
  let p := promote x
  let q := promote y
  if p.1 = q.1 then (p.1, p.2 && q.2)
  else if p.1 > q.1 then p else q

/-- C `x == -1` where `x` has C type `t`. -/
def eqMinusOne (t : Nat × Bool) (x : Int) : Bool :=
  let c := common t (32, true)
  conv c x == conv c (-1)

/-- C `x / y` and `x % y` on operands of types `l` and `r`, after the guards. -/
def cDiv (isMod : Bool) (l r : IntTy) (a b : Int) : Outcome Int :=
  let c := common (cTy l) (cTy r)
  let x := conv c a
  let y := conv c b
  if y = 0 then .ub
  else if c.2 ∧ x = -2 ^ (c.1 - 1) ∧ y = -1 then .ub
  else .ok (if isMod then x.tmod y else x.tdiv y)

/-- The minimum printed into the emitted overflow guard: that of the left type, or `INT64_MIN` when
it has no bounds (codegen.c:2005-2013). -/
def divMin (l : IntTy) : Option Int :=
  match bounds l with
  | some (m, _, _) => m
  | none => some minI64

/-- Emitted `l / r` and `l % r`, codegen.c:1994-2035. `none`: the format string receives a NULL
minimum and the generated text `(null)` is not valid C. -/
def emitDiv (isMod : Bool) (l r : IntTy) (a b : Int) : Option (Outcome Int) :=
  let isSigned := kind l = .kInt ∨ kind r = .kInt
  if isSigned then
    match divMin l with
    | none => none
    | some m =>
      some (if b = 0 then .panic "P0078"
        else if toI64 a = m ∧ eqMinusOne (cTy r) b then .panic "P0079"
        else cDiv isMod l r a b)
  else some (if b = 0 then .panic "P0078" else cDiv isMod l r a b)

/-- Comparison operators are emitted as the C operators, codegen.c:2123-2136. -/
inductive Cmp where
  | eq | ne | lt | gt | le | ge
  deriving DecidableEq, Repr

def Cmp.holds : Cmp → Int → Int → Bool
  | .eq, a, b => a == b
  | .ne, a, b => a != b
  | .lt, a, b => a < b
  | .gt, a, b => a > b
  | .le, a, b => a ≤ b
  | .ge, a, b => a ≥ b

def emitCmp (c : Cmp) (l r : IntTy) (a b : Int) : Bool :=
  let t := common (cTy l) (cTy r)
  c.holds (conv t a) (conv t b)

/-- Emitted `l bit_shift_left r` / `bit_shift_right`, codegen.c:1835-1845: the amount is checked
against 0..63, then the C operator is applied to the promoted left operand. C11 6.5.7: an amount
of at least the width is undefined; so is a left shift of a negative value or one whose result
does not fit a signed type. Right shift of a negative value is arithmetic (gcc/clang). -/
def emitShift (left : Bool) (l : IntTy) (a amount : Int) : Outcome Int :=
  let sa := toI64 amount
  if sa < 0 ∨ sa ≥ 64 then .panic "P0092"
  else
    let t := promote (cTy l)
    if sa ≥ t.1 then .ub
    else if left then
      if t.2 then
        if a < 0 ∨ a * 2 ^ sa.toNat ≥ 2 ^ (t.1 - 1) then .ub else .ok (a * 2 ^ sa.toNat)
      else .ok (conv t (a * 2 ^ sa.toNat))
    else .ok (a / 2 ^ sa.toNat)

/-! ### Compound assignment -/

/-- The five compound operators. -/
inductive AOp where
  | arith (op : Op)
  | div
  | mod
  deriving DecidableEq, Repr

/-- The minimum in the guard of `x /= v`: that of a sized signed type, else `INT64_MIN`
(codegen.c:7990-8000). -/
def compoundMin (t : IntTy) : Int :=
  match bounds t with
  | some (some lo, _, _) => lo
  | _ => minI64

/-- Storing a C value in a variable of type `t`. -/
def storeVar (t : IntTy) : Outcome Int → Outcome Int
  | .ok q => .ok (conv (cTy t) q)
  | o => o

/-- `x op= v` on a variable (or field) of type `t` with `v` of type `s`,
codegen.c:7909-8012: the new value of `x`. `char` targets take the plain C operator and are not
modelled here (`none`). -/
def compoundVar (op : AOp) (t s : IntTy) (x v : Int) : Option (Outcome Int) :=
  match op with
  | .arith o =>
    match bounds t with
    | some (some lo, hi, _) => some (sizedCheck o (toI64 x) (toI64 v) lo hi)
    | some (none, hi, _) => some (usizedCheck o (toI64 x) (toI64 v) hi)
    | none =>
      if kind t = .kUint ∨ kind t = .kByte then some (ucheck o (toU64 x) (toU64 v))
      else if kind t = .kInt then some (check o (toI64 x) (toI64 v))
      else none
  | .div | .mod =>
    let isMod := op == .mod
    if kind t = .kChar then none
    else if kind t = .kInt then
      some (if v = 0 then .panic "P0078"
        else if toI64 x = compoundMin t ∧ eqMinusOne (cTy s) v then .panic "P0079"
        else storeVar t (cDiv isMod t s x v))
    else some (if v = 0 then .panic "P0078" else storeVar t (cDiv isMod t s x v))

/-- Plain C `x + v`, `x - v`, `x * v` in the common type: undefined on signed overflow, modular
for unsigned types. -/
def cArith (o : Op) (l r : IntTy) (x v : Int) : Outcome Int :=
  let c := common (cTy l) (cTy r)
  let z := o.exact (conv c x) (conv c v)
  if c.2 then (if z < -2 ^ (c.1 - 1) ∨ z ≥ 2 ^ (c.1 - 1) then .ub else .ok z)
  else .ok (conv c z)

/-- `arr[i] op= v` where the elements have type `t`, codegen.c:7631-7684 (index in bounds): the
value stored in the element. Sized element types are checked; for the others `+ - *` are the
plain C operators, and `/=`, `%=` fall through to the branch that stores the right-hand side. -/
def compoundArray (op : AOp) (t s : IntTy) (x v : Int) : Outcome Int :=
  match op with
  | .arith o =>
    match bounds t with
    | some (some lo, hi, _) => sizedCheck o (toI64 x) (toI64 v) lo hi
    | some (none, hi, _) => usizedCheck o (toI64 x) (toI64 v) hi
    | none =>
      match cArith o t s x v with
      | .ok z => .ok (conv (cTy t) z)
      | o => o
  | .div | .mod => .ok (conv (cTy t) v)

/-- C type of a map value of integer type (`gray_map_element_c_type`, codegen.c:441-460): `int64_t`
except for `char` and `byte`. -/
def mapCTy : IntTy → Nat × Bool
  | .char => (32, true)
  | .byte => (8, false)
  | _ => (64, true)

/-- `m[k] op= v` on an existing key, codegen.c:7710-7765: plain C operators on the stored value
(read as `mapCTy`) and `v`. -/
def compoundMap (op : AOp) (t s : IntTy) (x v : Int) : Outcome Int :=
  let c := common (mapCTy t) (cTy s)
  let x' := conv c (conv (mapCTy t) x)
  let v' := conv c v
  let r : Outcome Int := match op with
    | .arith o =>
      let z := o.exact x' v'
      if c.2 then (if z < -2 ^ (c.1 - 1) ∨ z ≥ 2 ^ (c.1 - 1) then .ub else .ok z) else .ok (conv c z)
    | .div => if v' = 0 ∨ (c.2 ∧ x' = -2 ^ (c.1 - 1) ∧ v' = -1) then .ub else .ok (x'.tdiv v')
    | .mod => if v' = 0 ∨ (c.2 ∧ x' = -2 ^ (c.1 - 1) ∧ v' = -1) then .ub else .ok (x'.tmod v')
  match r with
  | .ok z => .ok (conv (mapCTy t) z)
  | o => o

/-! ### Array element storage -/

/-- Storage width in bits of the elements of an array literal (codegen.c:1384-1396, 1487-1523):
8 for `byte`, 32 for `char`, 64 for every other integer type. -/
def elemBits : IntTy → Nat
  | .byte => 8
  | .char => 32
  | _ => 64

/-- C type used to read an element (`NODE_INDEX_EXPR`, codegen.c:2462-2472). -/
def readCTy : IntTy → Nat × Bool
  | .byte => (8, false)
  | .char => (32, true)
  | _ => (64, true)

/-- `arr[i] = v`, codegen.c:7574-7582 and 7662-7683 with `GRAY_ARRAY_SET` (array.h:47): a temporary
of the element's C type is filled with `v` and `elemBits` bits are copied from its address. When
the temporary is narrower than the element, the upper part comes from the memory after it, which
is the parameter `junk`. The result is the element's new bit pattern (little endian). -/
def storeElem (t : IntTy) (v : Int) (junk : Nat) : Nat :=
  let w := (cTy t).1
  let bits := (v % 2 ^ w).toNat
  if elemBits t ≤ w then bits % 2 ^ elemBits t
  else bits + 2 ^ w * (junk % 2 ^ (elemBits t - w))

/-- `arr[i]`, codegen.c:2455-2490 with `GRAY_ARRAY_GET` (array.h:46). -/
def loadElem (t : IntTy) (cell : Nat) : Int := conv (readCTy t) cell

/-- An element written by an array literal: the value converted to the storage type. -/
def initElem (t : IntTy) (v : Int) : Nat := (v % 2 ^ elemBits t).toNat

end Verif.IntOps

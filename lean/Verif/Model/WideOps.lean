/-!
Wide integers in expressions: which C text the compiler emits for arithmetic and comparisons on
`i128`, `u128`, `i256` and `u256`, and how the type checker sees the same expressions.

Source: grayc/src/codegen/codegen.c 768-916 (`is_bigint_type`, `register_bigint_variable`,
`lookup_bigint_variable`, `resolve_bigint_type`, `emit_bigint_operand`), 1049-1064, 1690-1745 (prefix
expressions), 1955-1990 (infix expressions), 2675-2743 (casts), 3797-3815 (constructors), 7281-7301 and
7423-7540 (declarations), 7916-7948 (compound assignment), 8103-8117 (assignment), 8754-8760 (parameters);
grayc/src/typechecker/typechecker.c 4404-4429, 5577-6053, 6693, 6891-6904, 7158, 8112-8181, 8567-8578,
9227-9241; grayc/src/runtime/bigint.h for the functions that exist.

Simplifications.
* Of the integer types of at most 64 bits only `int` and `uint` are kept: the narrower ones are converted by
  the same two functions.
* Names are numbers; two names are equal if the strings are.
* Fields, elements and results of calls are `other`: the compiler treats them alike, they are neither
  literals nor labels. What they hold is given by a memory.
* The C text is a tree, not a string: every call emitted is closed, so the text has one reading.
* What the runtime functions compute is a parameter (`Rt`): the other claims about wide integers say what it
  is. Here it is only asked which functions are called, with which values.
* Logical operators and shifts are left out.
-/
namespace Verif.WideOps

/-- The wide types, codegen.c:769-773. -/
inductive W
  | i128 | u128 | i256 | u256
deriving DecidableEq

/-- Whether a wide type is signed. -/
def W.signed : W → Bool
  | .i128 | .i256 => true
  | .u128 | .u256 => false

/-- `int_type_name_rank` of the wide types, typechecker.c:1833-1834. -/
def W.rank : W → Nat
  | .i128 | .u128 => 5
  | .i256 | .u256 => 6

/-- The types of the expressions considered. -/
inductive Ty
  | int | uint | bool
  | wide (w : W)
deriving DecidableEq

/-- Operators. -/
inductive Op
  | add | sub | mul | div | mod
  | eq | ne | lt | gt | le | ge
  | band | bor | bxor
deriving DecidableEq

/-- Arithmetic operators. -/
def Op.arith : Op → Bool
  | .add | .sub | .mul | .div | .mod => true
  | _ => false

/-- Comparisons. -/
def Op.cmp : Op → Bool
  | .eq | .ne | .lt | .gt | .le | .ge => true
  | _ => false

/-- Operators with a function for wide integers, codegen.c:1961-1972. -/
def Op.hasFn (o : Op) : Bool := o.arith || o.cmp

/-- Names of variables. -/
abbrev Name := Nat

/-- Expressions. -/
inductive Expr
  /-- An integer literal. -/
  | lit (n : Nat)
  /-- A variable. -/
  | var (x : Name)
  /-- A field, an element or the result of a call, of a type. -/
  | other (t : Ty) (k : Nat)
  /-- `p^` for a pointer to a type. -/
  | deref (t : Ty) (k : Nat)
  /-- `i128(e)` and the like. -/
  | ctor (w : W) (e : Expr)
  /-- `cast(e, i128)` and the like. -/
  | cast (w : W) (e : Expr)
  /-- `-e`. -/
  | neg (e : Expr)
  /-- `l op r`. -/
  | bin (op : Op) (l r : Expr)
deriving DecidableEq

/-- Two wide types that may meet in an operation, typechecker.c:5730-5733. -/
def meets (a b : W) : Bool :=
  a = b || (a = .i256 && b = .i128) || (a = .u256 && b = .u128)

/-- Whether the type checker refuses an operator for two types, typechecker.c:5703-5741 and 6025-6040. -/
def refuses (op : Op) (l r : Ty) : Bool :=
  (!op.cmp && (l = .bool || r = .bool)) ||
  (op.hasFn && match l, r with
    | .wide a, .wide b => !meets a b
    | _, _ => false)

/-- The type the type checker gives to an expression; `none` if it is refused. -/
def typeOf (Γ : Name → Ty) : Expr → Option Ty
  | .lit _ => some .int
  | .var x => some (Γ x)
  | .other t _ => some t
  | .deref t _ => some t
  | .ctor w e => match typeOf Γ e with
    | some _ => some (if w.signed then .int else .uint)
    | none => none
  | .cast w e => match typeOf Γ e with
    | some _ => some (.wide w)
    | none => none
  | .neg e => match typeOf Γ e with
    | some .int => some .int
    | some (.wide w) => if w.signed then some (.wide w) else none
    | _ => none
  | .bin op l r => match typeOf Γ l, typeOf Γ r with
    | some a, some b =>
      if refuses op a b then none
      else if (op = .div || op = .mod) && r = .lit 0 then none
      else if op.cmp then some .bool else some a
    | _, _ => none

/-- The variables the compiler has registered as wide, codegen.c:786-803: the last entry of a name counts. -/
abbrev Reg := List (Name × W)

/-- `lookup_bigint_variable`, codegen.c:798-803; the list is kept with the last entry first. -/
def lookup : Reg → Name → Option W
  | [], _ => none
  | (y, w) :: r, x => if y = x then some w else lookup r x

/-- `resolve_bigint_type`, codegen.c:815-846. -/
def resolve (R : Reg) : Expr → Option W
  | .var x => lookup R x
  | .ctor w _ => some w
  | .cast w _ => some w
  | .neg e => resolve R e
  | .bin _ l r => match resolve R l with
    | some w => some w
    | none => resolve R r
  | .deref (.wide w) _ => some w
  | _ => none

/-- C expressions that are emitted. -/
inductive C
  /-- An integer constant. -/
  | num (v : Int)
  | var (x : Name)
  /-- A field, an element, a call or a dereferenced pointer. -/
  | mem (t : Ty) (k : Nat)
  /-- `gray_W_from_u64((uint64_t)c)`, or `gray_W_from_i64((int64_t)c)`. -/
  | make (uns : Bool) (w : W) (c : C)
  /-- `gray_W_from_decimal("v")`. -/
  | dec (w : W) (v : Int)
  /-- `gray_W_from_V(c)`. -/
  | conv (w v : W) (c : C)
  /-- `gray_W_neg(c)`. -/
  | neg (w : W) (c : C)
  /-- `gray_W_op(a, b)`. -/
  | op (w : W) (op : Op) (a b : C)
  /-- Negation of 64-bit integers. -/
  | neg64 (c : C)
  /-- An operation on integers of at most 64 bits, checked or not. -/
  | op64 (uns : Bool) (op : Op) (a b : C)
deriving DecidableEq

/-- `emit_bigint_operand`, codegen.c:851-916; `c` is what `emit_expression` gives for the operand, `t` its type
if the caller knows it. -/
def operand (R : Reg) (w : W) (e : Expr) (t : Option Ty) (c : C) : C :=
  match e with
  | .lit n => if n < 2 ^ 63 then .make (!w.signed) w (.num n) else .dec w n
  | .neg (.lit n) => if n < 2 ^ 63 then .make false w (.num (-n)) else .dec w (-n)
  | .var x => match lookup R x with
    | some v =>
      if v = w then c
      else if w = .i256 ∧ v = .i128 then .conv .i256 .i128 c
      else if w = .u256 ∧ v = .u128 then .conv .u256 .u128 c
      else c
    | none =>
      let uns := match t with
        | some t => decide (t = .uint)
        | none => !w.signed
      .make uns w c
  | _ => c

/-- The cross-type functions of the runtime, bigint.h:131-178. -/
def hasConv (w v : W) : Bool :=
  match w, v with
  | .u128, .i128 | .i128, .u128 | .i256, .i128 | .u256, .u128 | .i128, .i256 | .u128, .u256 => true
  | _, _ => false

/-- The type a cast takes its operand to have, codegen.c:2676-2677. -/
def castSource (Γ : Name → Ty) (R : Reg) (e : Expr) : Option W :=
  match typeOf Γ e with
  | some (.wide v) => some v
  | _ => resolve R e

/-- Whether the compiler takes 64-bit arithmetic to be unsigned, codegen.c:2101. -/
def unsigned64 (Γ : Name → Ty) (l r : Expr) : Bool :=
  typeOf Γ l = some .uint || typeOf Γ r = some .uint

/-- `emit_expression` for the expressions considered. -/
def emit (Γ : Name → Ty) (R : Reg) : Expr → C
  | .lit n => .num (min n (2 ^ 64 - 1))
  | .var x => .var x
  | .other t k => .mem t k
  | .deref t k => .mem t k
  | .ctor w e => match resolve R e with
    | some v => .conv w v (emit Γ R e)
    | none => .make (!w.signed) w (emit Γ R e)
  | .cast w e => match castSource Γ R e with
    | some v => if hasConv w v then .conv w v (emit Γ R e) else emit Γ R e
    | none => .make (!w.signed) w (emit Γ R e)
  | .neg e => match resolve R e with
    | some w => if w.signed then .neg w (emit Γ R e) else .neg64 (emit Γ R e)
    | none => .neg64 (emit Γ R e)
  | .bin op l r =>
    if op.hasFn then
      match (match resolve R l with | some w => some w | none => resolve R r) with
      | some w => .op w op (operand R w l (typeOf Γ l) (emit Γ R l)) (operand R w r (typeOf Γ r) (emit Γ R r))
      | none => .op64 (unsigned64 Γ l r) op (emit Γ R l) (emit Γ R r)
    else .op64 (unsigned64 Γ l r) op (emit Γ R l) (emit Γ R r)

/-- Statements. -/
inductive Stmt
  /-- `mut x W = e`. -/
  | decl (x : Name) (w : W) (e : Expr)
  /-- `x = e` for a wide variable. -/
  | assign (x : Name) (w : W) (e : Expr)
  /-- `x op= e` for a wide variable. -/
  | compound (op : Op) (x : Name) (w : W) (e : Expr)

/-- Rank of a type, 0 if it is not an integer, typechecker.c:1826-1836. -/
def Ty.rank : Ty → Nat
  | .int | .uint => 4
  | .bool => 0
  | .wide w => w.rank

/-- Whether a type is signed, typechecker.c:1847-1852. -/
def Ty.signed : Ty → Bool
  | .int => true
  | .uint | .bool => false
  | .wide w => w.signed

/-- A value of a type may be given to a wide variable, typechecker.c:8112-8181 and 9227-9241. -/
def fitsRank (w : W) (t : Ty) : Bool := t ≠ .bool && t.rank ≤ w.rank

/-- Whether the type checker accepts a statement; `Γ` are the variables after a declaration. -/
def accepts (Γ : Name → Ty) : Stmt → Bool
  | .decl x w e => decide (Γ x = .wide w) && match typeOf Γ e with
    | some t => fitsRank w t && (match e with
        | .var y => w.signed || !(Γ y).signed
        | _ => true)
    | none => false
  | .assign x w e => decide (Γ x = .wide w) && match typeOf Γ e with
    | some t => fitsRank w t
    | none => false
  | .compound op x w e => op.arith && decide (Γ x = .wide w) && match typeOf Γ e with
    | some t => fitsRank w t
    | none => false

/-- What is emitted for the value of a declared wide variable, codegen.c:7423-7540. -/
def declValue (Γ : Name → Ty) (R : Reg) (w : W) (e : Expr) : C :=
  match e with
  | .lit n => if n < 2 ^ 63 then .make (!w.signed) w (.num n) else .dec w n
  | .neg (.lit n) => if n < 2 ^ 63 then .make false w (.num (-n)) else .dec w (-n)
  | .bin op l r =>
    if op.arith then .op w op (operand R w l none (emit Γ R l)) (operand R w r none (emit Γ R r))
    else emit Γ R e
  | _ => if resolve R e = none then .make (!w.signed) w (emit Γ R e) else emit Γ R e

/-- The value stored by a statement; in a declaration the name is registered before its value is emitted. -/
def stored (Γ : Name → Ty) (R : Reg) : Stmt → C
  | .decl x w e => declValue Γ ((x, w) :: R) w e
  | .assign _ _ e => emit Γ R e
  | .compound op x w e => .op w op (.var x) (operand R w e none (emit Γ R e))

/-- The types of C: the scalar types are converted into each other, the wide ones are structures. -/
inductive CTy
  | scalar
  | wide (w : W)
deriving DecidableEq

/-- The C type of a type. -/
def Ty.c : Ty → CTy
  | .wide w => .wide w
  | _ => .scalar

/-- The C type of what is emitted; `none` if the C compiler refuses it. `gray_i128_from_u64` and the like for
the other signed type, and `gray_u128_from_i64` and the like for the other unsigned type, do not exist. -/
def ctype (Δ : Name → CTy) : C → Option CTy
  | .num _ => some .scalar
  | .var x => some (Δ x)
  | .mem t _ => some t.c
  | .make u w c => if u = !w.signed ∧ ctype Δ c = some .scalar then some (.wide w) else none
  | .dec w _ => some (.wide w)
  | .conv w v c => if hasConv w v ∧ ctype Δ c = some (.wide v) then some (.wide w) else none
  | .neg w c => if w.signed ∧ ctype Δ c = some (.wide w) then some (.wide w) else none
  | .op w op a b =>
    if op.hasFn ∧ ctype Δ a = some (.wide w) ∧ ctype Δ b = some (.wide w) then
      some (if op.cmp then .scalar else .wide w)
    else none
  | .neg64 c => if ctype Δ c = some .scalar then some .scalar else none
  | .op64 _ _ a b => if ctype Δ a = some .scalar ∧ ctype Δ b = some .scalar then some .scalar else none

/-- The variable a statement stores to. -/
def Stmt.wide : Stmt → W
  | .decl _ w _ => w
  | .assign _ w _ => w
  | .compound _ _ w _ => w

/-- The C compiler accepts a statement: the value has the type of the variable. -/
def validC (Γ : Name → Ty) (R : Reg) (Δ : Name → CTy) (s : Stmt) : Prop :=
  ctype Δ (stored Γ R s) = some (.wide s.wide)

instance (Γ R Δ s) : Decidable (validC Γ R Δ s) := by unfold validC; infer_instance

/-- What the functions of the runtime compute; `none` is a panic. -/
structure Rt where
  op : W → Op → Int → Int → Option Int
  neg : W → Int → Option Int
  conv : W → W → Int → Option Int
  dec : W → Int → Option Int
  op64 : Bool → Op → Int → Int → Option Int
  neg64 : Int → Option Int

/-- Conversion of a number to `int64_t`. -/
def toI64 (v : Int) : Int := (v + 2 ^ 63) % 2 ^ 64 - 2 ^ 63

/-- Conversion of a number to `uint64_t`. -/
def toU64 (v : Int) : Int := v % 2 ^ 64

/-- The value of a C expression. -/
def ceval (rt : Rt) (σ : Name → Int) (μ : Ty → Nat → Int) : C → Option Int
  | .num v => some v
  | .var x => some (σ x)
  | .mem t k => some (μ t k)
  | .make u _ c => match ceval rt σ μ c with
    | some v => some (if u then toU64 v else toI64 v)
    | none => none
  | .dec w v => rt.dec w v
  | .conv w v c => match ceval rt σ μ c with
    | some a => rt.conv w v a
    | none => none
  | .neg w c => match ceval rt σ μ c with
    | some a => rt.neg w a
    | none => none
  | .op w o a b => match ceval rt σ μ a, ceval rt σ μ b with
    | some x, some y => rt.op w o x y
    | _, _ => none
  | .neg64 c => match ceval rt σ μ c with
    | some a => rt.neg64 a
    | none => none
  | .op64 u o a b => match ceval rt σ μ a, ceval rt σ μ b with
    | some x, some y => rt.op64 u o x y
    | _, _ => none

/-- A function: parameters of wide types, and the variables of wide types declared in its body, in the order of
the text. -/
structure Fn where
  params : List (Name × W)
  locals : List (Name × W)

/-- What is registered after functions have been emitted: nothing is ever taken out again, codegen.c:786-794,
8754-8760 and 9324. -/
def registered : List Fn → Reg
  | [] => []
  | f :: fs => registered fs ++ (f.params ++ f.locals).reverse

end Verif.WideOps

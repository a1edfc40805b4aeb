import Verif.Model.LiteralRange
import Verif.Model.Str

/-!
# Integer constants

Models
* `typechecker_fold_const_int`, `typechecker_register_const_int`, `typechecker_resolve_array_size`
  (`grayc/src/typechecker/typechecker.c` 1890-2047) and their use for a declaration (7704-7746) and a fixed-size array (7879-7897);
* the other diagnostics for the initialiser of an integer constant: E3046 and E3036 (8273-8306), E3002 (5673-5699);
* the C initialiser emitted for a constant outside functions (`grayc/src/codegen/codegen.c` 1049-1063, 1683-1733, 1996, 2086, 2112-2136,
  7047-7052, 7418-7547), and its value in C.

Simplifications.
* Expressions are literals, negated literals, names, and the operations `+ - * / %` on expressions; types have at most 64 bits.
* Only declarations of constants of integer type are listed for `check` and `cRun`; names are unique there.
* The type mismatches between integer types (E3001) are left out; all witnesses use one type for all constants of a program.
* `int` in C has 32 bits, `long` and `long long` have 64.
-/

namespace Verif.ConstFold
open Verif Verif.Str Verif.IntLiteral Verif.IntOps
open Verif.LiteralRange (signed rangeError tryLiteral inC)

inductive BinOp where
  | add | sub | mul | div | mod
  deriving DecidableEq, Repr

inductive CExpr where
  | lit (text : List Nat)
  | neg (text : List Nat)
  | name (n : Str)
  | bin (op : BinOp) (l r : CExpr)
  deriving DecidableEq, Repr

/-- The table `const_int_names`, `const_int_values`, in the order of registration. -/
abbrev Table := List (Str × Int)

/-- Search from the first entry on, lines 2013-2019. -/
def find (tbl : Table) (n : Str) : Option Int := (tbl.find? (fun p => p.1 = n)).map (·.2)

/-- What `typechecker_fold_const_int` returns: true with a value, false, or false with `*overflowed` set. `ub`: undefined behaviour in
the compiler. -/
inductive Fold where
  | value (v : Int)
  | unknown
  | overflow
  | ub
  deriving DecidableEq, Repr

/-- `__builtin_add_overflow` and its relatives on `int64_t`. -/
def Fold.fit (z : Int) : Fold := if z < minI64 ∨ z > maxI64 then .overflow else .value z

/-- Plain `int64_t` arithmetic. -/
def Fold.raw (z : Int) : Fold := if z < minI64 ∨ z > maxI64 then .ub else .value z

/-- Lines 2032-2045. The remainder is undefined where the quotient is. -/
def foldOp (op : BinOp) (a b : Int) : Fold :=
  match op with
  | .add => .fit (a + b)
  | .sub => .fit (a - b)
  | .mul => .fit (a * b)
  | .div => if b ≠ 0 then .raw (a.tdiv b) else .unknown
  | .mod => if b ≠ 0 then (if a = minI64 ∧ b = -1 then .ub else .value (a.tmod b)) else .unknown

/-- Lines 2024-2031: both operands are folded. -/
def foldBin (op : BinOp) : Fold → Fold → Fold
  | .ub, _ => .ub
  | _, .ub => .ub
  | .value a, .value b => foldOp op a b
  | .overflow, _ => .overflow
  | _, .overflow => .overflow
  | .unknown, _ => .unknown
  | _, .unknown => .unknown

/-- `typechecker_fold_const_int`, lines 1993-2047. -/
def fold (tbl : Table) : CExpr → Fold
  | .lit t => if (parse t).overflowU64 then .overflow else .value (signed t)
  | .neg t => if (parse t).overflowU64 then .overflow else .raw (-(signed t))
  | .name n => match find tbl n with
    | some v => .value v
    | none => .unknown
  | .bin op l r => foldBin op (fold tbl l) (fold tbl r)

/-! ## Diagnostics for a declaration -/

/-- The expression as `try_get_literal_int` sees it. -/
def CExpr.plain : CExpr → LiteralRange.Expr
  | .lit t => .lit t
  | .neg t => .neg t
  | .name _ => .opaque
  | .bin op l r => .bin (match op with
      | .add => .plus | .sub => .minus | .mul => .times | .div => .slash | .mod => .other) l.plain r.plain

/-- Accepted, rejected, or undefined behaviour in the compiler. -/
inductive Verdict where
  | accept | reject | ub
  deriving DecidableEq, Repr

def Verdict.and : Verdict → Verdict → Verdict
  | .ub, _ => .ub
  | _, .ub => .ub
  | .accept, v => v
  | .reject, _ => .reject

/-- E3002, lines 5673-5699: a divisor that is a literal zero. -/
def zeroCheck : CExpr → Verdict
  | .bin op l r =>
    let here := match op with
      | .div | .mod => match tryLiteral r.plain with
        | some (.ok v) => if v = 0 then .reject else .accept
        | some .ub => .ub
        | _ => .accept
      | _ => .accept
    (zeroCheck l).and ((zeroCheck r).and here)
  | _ => .accept

/-- E3046 and E3036, lines 8273-8306. -/
def rangeCheck (t : IntTy) (e : CExpr) : Verdict :=
  match e with
  | .lit text => if LiteralRange.declAccepts t text then .accept else .reject
  | e => match tryLiteral e.plain with
    | some (.ok v) => if rangeError t v then .reject else .accept
    | some .ub => .ub
    | _ => .accept

/-- The types whose constants are folded, lines 7723-7729: all but `byte` and `char`. -/
def tracked : IntTy → Bool
  | .byte | .char => false
  | _ => true

structure Decl where
  name : Str
  ty : IntTy
  e : CExpr
  deriving DecidableEq, Repr

/-- E5039, lines 7730-7745. -/
def foldCheck (tbl : Table) (d : Decl) : Verdict :=
  if tracked d.ty then
    match fold tbl d.e with
    | .overflow => .reject
    | .ub => .ub
    | _ => .accept
  else .accept

/-- The table after the declaration, lines 7733-7737. -/
def register (tbl : Table) (d : Decl) : Table :=
  if tracked d.ty then
    match fold tbl d.e with
    | .value v => tbl ++ [(d.name, v)]
    | _ => tbl
  else tbl

/-- Checking the constants of a program in order. -/
def check (tbl : Table) : List Decl → Verdict
  | [] => .accept
  | d :: ds => ((foldCheck tbl d).and ((zeroCheck d.e).and (rangeCheck d.ty d.e))).and (check (register tbl d) ds)

/-! ## The C initialisers of constants outside functions -/

/-- A value of a C integer type of the given width and signedness. -/
structure CVal where
  w : Nat
  s : Bool
  v : Int
  deriving DecidableEq, Repr

/-- What a C compiler makes of an initialiser: a constant, not a constant expression (an error), or an operation outside the range of its
type (C11 6.6p4, 6.5p5). -/
inductive CRes where
  | const (c : CVal)
  | notConst
  | ub
  deriving DecidableEq, Repr

/-- An operation in a type: signed results must be in range, unsigned ones wrap. -/
def cOp (t : Nat × Bool) (op : BinOp) (a b : Int) : CRes :=
  if (op = .div ∨ op = .mod) ∧ b = 0 then .ub
  else
    let q := match op with
      | .add => a + b
      | .sub => a - b
      | .mul => a * b
      | _ => a.tdiv b
    let r := match op with
      | .mod => a.tmod b
      | _ => q
    if t.2 then
      if q < -(2 ^ (t.1 - 1)) ∨ q > 2 ^ (t.1 - 1) - 1 then .ub else .const ⟨t.1, true, r⟩
    else .const ⟨t.1, false, r % 2 ^ t.1⟩

def cBin (op : BinOp) : CRes → CRes → CRes
  | .notConst, _ => .notConst
  | _, .notConst => .notConst
  | .ub, _ => .ub
  | _, .ub => .ub
  | .const a, .const b =>
    let t := common (a.w, a.s) (b.w, b.s)
    cOp t op (conv t a.v) (conv t b.v)

/-- The constants already defined: name, type, value. -/
abbrev CEnv := List (Str × IntTy × Int)

/-- Literals are written in decimal, without suffix unless they need one, codegen.c 1049-1063: the type of `%lld` is `int` if the value
fits and `long` otherwise. -/
def cLit (text : List Nat) : CVal :=
  let p := parse text
  if p.overflow then ⟨64, false, p.value.toNat⟩
  else if signed text ≤ 2147483647 then ⟨32, true, signed text⟩
  else ⟨64, true, signed text⟩

/-- The emitted initialiser, as C reads it. A negated literal below 2^63 is a call of `gray_neg_check` (codegen.c 1713-1733). -/
def cInit (env : CEnv) : CExpr → CRes
  | .lit t => .const (cLit t)
  | .neg t => if signed t < 0 then .const ⟨64, true, signed t⟩ else .notConst
  | .name n => match env.find? (fun p => p.1 = n) with
    | some (_, t, v) => .const ⟨(cTy t).1, (cTy t).2, v⟩
    | none => .notConst
  | .bin op l r => cBin op (cInit env l) (cInit env r)

/-- The C program: compiled with these constants, rejected by the C compiler, or undefined. -/
inductive CProg where
  | values (env : CEnv)
  | error
  | ub
  deriving DecidableEq, Repr

/-- All constants in order; storing converts to the declared type (codegen.c 7047-7052 or the initialisation itself). -/
def cRun (env : CEnv) : List Decl → CProg
  | [] => .values env
  | d :: ds =>
    match cInit env d.e with
    | .const c => cRun (env ++ [(d.name, d.ty, conv (cTy d.ty) c.v)]) ds
    | .notConst => .error
    | .ub => .ub

/-! ## Fixed-size arrays with a constant as size -/

/-- What happens while a program is checked, in order: blocks begin and end, constants of integer type and other variables or parameters
are declared, the size of an array is named. -/
inductive Ev where
  | enter
  | leave
  | const (d : Decl)
  | var (n : Str)
  | size (n : Str)
  deriving DecidableEq, Repr

/-- `(int)resolved`, line 1977. -/
def toInt32 (z : Int) : Int := z.bmod (2 ^ 32)

/-- What becomes of a size: a number written into the type, E3125 (not a constant), or E3126 (not greater than zero). -/
inductive Size where
  | ok (v : Int)
  | notConst
  | notPositive
  deriving DecidableEq, Repr

/-- `typechecker_resolve_array_size`, lines 1913-1990, for a size that is a name. -/
def resolveSize (tbl : Table) (n : Str) : Size :=
  match find tbl n with
  | none => .notConst
  | some v => if v ≤ 0 then .notPositive else .ok (toInt32 v)

/-- The sizes found for a program: one entry for each `size`. -/
def sizes (tbl : Table) : List Ev → List Size
  | [] => []
  | .const d :: es => sizes (register tbl d) es
  | .size n :: es => resolveSize tbl n :: sizes tbl es
  | _ :: es => sizes tbl es

end Verif.ConstFold

import Verif.Model.Str

/-! The C text of expressions with operators, `emit_expression` of `grayc/src/codegen/codegen.c` (1005-1055, 1686-2136), and the
operand checks of `grayc/src/typechecker/typechecker.c` (5616-6060, 6891-6920, 7119-7145) that decide which of them are compiled.

Simplifications. Of the types only the kind is kept; the wide integers, enums, structs, pointers, `nil` and wildcards are left out,
and so are constants outside functions (`in_const_decl`, modelled in `Model/ConstFold.lean`). Which of the checked
helper functions is called, and their arguments that are literals, is the subject of `Model/IntOps.lean`; here they are told
apart by the operator only. A `(T)` is one token and so is an `if (…) { gray_panic… }`, whose condition looks at
temporaries only. Calls have no or two arguments; steps of ranges are in `Model/RangeLoop.lean`. A literal, and a label of a variable
passed by reference, is one token. -/

namespace Verif.Emit
open Verif Verif.Str

inductive Kind where
  | int | uint | byte | char | float | bool | str | arr | map
  deriving DecidableEq, Repr

inductive Op where
  | add | sub | mul | div | mod | eq | ne | lt | gt | le | ge | and | or | band | bor | bxor | shl | shr
  deriving DecidableEq, Repr

/-- Expressions; variables and calls with the kind that the type table has for them. -/
inductive Ex where
  | var (x : Str) (k : Kind)
  | lit (n : Nat) (k : Kind)
  | call0 (f : Str) (k : Kind)
  | call2 (f : Str) (a b : Ex) (k : Kind)
  | neg (e : Ex)
  | not (e : Ex)
  | bnot (e : Ex)
  | inf (o : Op) (l r : Ex)
  /-- `l in r` and `l not_in r` for a string, an array or a map. -/
  | mem (negated : Bool) (l r : Ex)
  /-- `l in range(s, e)` and `l not_in range(s, e)`. -/
  | range (negated : Bool) (l s e : Ex)
  deriving DecidableEq, Repr

def Op.isCompare : Op → Bool
  | .eq | .ne | .lt | .gt | .le | .ge => true
  | _ => false

def Op.isLogic : Op → Bool
  | .and | .or => true
  | _ => false

def Op.isArith : Op → Bool
  | .add | .sub | .mul => true
  | _ => false

def Op.isDiv : Op → Bool
  | .div | .mod => true
  | _ => false

def Op.isBit : Op → Bool
  | .band | .bor | .bxor => true
  | _ => false

def Op.isShift : Op → Bool
  | .shl | .shr => true
  | _ => false

/-- The kind of an infix expression (typechecker.c:6041-6053). -/
def infKind (o : Op) (kl kr : Kind) : Kind :=
  if o.isCompare || o.isLogic then .bool
  else if kl = .float ∨ kr = .float then .float
  else kl

def kind : Ex → Kind
  | .var _ k => k
  | .lit _ k => k
  | .call0 _ k => k
  | .call2 _ _ _ k => k
  | .neg e => kind e
  | .not _ => .bool
  | .bnot e => kind e
  | .inf o l r => infKind o (kind l) (kind r)
  | .mem .. => .bool
  | .range .. => .bool

/-- `is_int_kind` (typechecker.c:1820). -/
def intKind (k : Kind) : Bool := k = .int || k = .uint || k = .byte

/-- The kinds for which code generation checks `+ - *` (codegen.c:2040-2041), and `left_ok` of the bit operators (6029). -/
def intish (k : Kind) : Bool := intKind k || k = .char

/-- The checks of `resolve_infix_expr` on the kinds of the operands. Literal zero divisors are left out. -/
def okInf (o : Op) (kl kr : Kind) : Bool :=
  -- 5649: ordering of strings
  !((kl = .str || kr = .str) && (o = .lt || o = .gt || o = .le || o = .ge)) &&
  -- 5662: modulo of floats
  !(o = .mod && (kl = .float || kr = .float)) &&
  -- 5702: bool in arithmetic
  !((kl = .bool || kr = .bool) && (o.isArith || o.isDiv)) &&
  -- 5778, 5785: strings
  !((kl = .str || kr = .str) && !(o = .eq || o = .ne)) &&
  -- 5797: arithmetic on containers
  !((o.isArith || o.isDiv) && (kl = .arr || kl = .map || kr = .arr || kr = .map)) &&
  -- 5913: comparison of different kinds
  !((o = .eq || o = .ne) && kl ≠ kr && !(intKind kl && intKind kr) && !(intKind kl && kr = .bool) && !(kl = .bool && intKind kr)) &&
  -- 5949, 5958: comparison of containers
  !(o.isCompare && kl = .arr && kr = .arr) && !(o.isCompare && kl = .map && kr = .map) &&
  -- 6025: bit operators
  !((o.isBit || o.isShift) && !(intish kl && intish kr))

/-- The check of `in` (5978-6022); of the elements and keys only the kind is known here to the right operand's type, so nothing
about them is asked. -/
def okMem (kl kr : Kind) : Bool :=
  if kr = .str then kl = .char || kl = .str else kr = .arr || kr = .map

def numeric (k : Kind) : Bool := intish k || k = .float

/-- The expressions that pass the type checker. -/
def accepted : Ex → Bool
  | .var .. | .lit .. | .call0 .. => true
  | .call2 _ a b _ => accepted a && accepted b
  | .neg e => accepted e && numeric (kind e) && !(kind e = .uint || kind e = .byte)
  | .not e => accepted e && kind e = .bool
  | .bnot e => accepted e && intish (kind e)
  | .inf o l r => accepted l && accepted r && okInf o (kind l) (kind r)
  | .mem _ l r => accepted l && accepted r && okMem (kind l) (kind r)
  | .range _ l s e => accepted l && accepted s && accepted e && intKind (kind l) && intKind (kind s) && intKind (kind e)

/-! ## C tokens -/

/-- Functions called by the generated program: those of the program (`gray_fn_…`) and those of the runtime. -/
inductive Fn where
  | user (f : Str)
  | negCheck
  | check (o : Op)
  | stringEq
  | contains
  | hasKey
  | memchr
  deriving DecidableEq, Repr

inductive Pre where
  | minus | bang | tilde | addr
  deriving DecidableEq, Repr

inductive Tok where
  | id (x : Str)
  | num (n : Nat)
  | fn (f : Fn)
  | lp | rp | comma
  | op (o : Op)
  | pre (p : Pre)
  /-- `(double)`, `(int64_t)`, … -/
  | cast
  /-- `({` and `})` -/
  | ope | cls
  | semi
  /-- `__auto_type x =` -/
  | auto (x : Str)
  /-- `double x =`, `int64_t x =`, … -/
  | decl (x : Str)
  /-- `if (…) { gray_panic_code_at(…); }` -/
  | guard
  | dot (f : Str)
  deriving DecidableEq, Repr

def dv : Str := lit "_dv"
def dn : Str := lit "_dn"
def sa : Str := lit "_sa"
def ik : Str := lit "_ik"
def null : Str := lit "NULL"

/-- The node is a `NODE_INFIX_EXPR`. -/
def isInfix : Ex → Bool
  | .inf .. | .mem .. | .range .. => true
  | _ => false

def isIntLit : Ex → Bool
  | .lit _ k => k = .int
  | _ => false

def paren (ts : List Tok) : List Tok := .lp :: ts ++ [.rp]

def wrap (e : Ex) (ts : List Tok) : List Tok := if isInfix e then paren ts else ts

/-- An infix expression (codegen.c:1765-2136), given the text of its operands. -/
def emitInf (o : Op) (l r : Ex) (tl tr : List Tok) : List Tok :=
  let kl := kind l
  let kr := kind r
  if (kl = .str ∨ kr = .str) ∧ o = .add then []
  else if (kl = .str ∨ kr = .str) ∧ o = .eq then [.fn .stringEq, .lp] ++ tl ++ [.comma] ++ tr ++ [.rp]
  else if (kl = .str ∨ kr = .str) ∧ o = .ne then [.pre .bang, .fn .stringEq, .lp] ++ tl ++ [.comma] ++ tr ++ [.rp]
  else if o.isBit then [.lp] ++ tl ++ [.op o] ++ tr ++ [.rp]
  else if o.isShift then
    [.ope, .decl sa, .cast, .lp] ++ tr ++ [.rp, .semi, .guard, .lp] ++ (if isIntLit l then [.cast] else []) ++ tl ++
      [.rp, .op o, .cast, .id sa, .semi, .cls]
  else if o.isDiv then
    if kl = .float ∨ kr = .float then
      [.ope, .decl dv, .cast] ++ tr ++ [.semi, .guard, .cast] ++ tl ++ [.op o, .id dv, .semi, .cls]
    else if kl = .int ∨ kr = .int then
      [.ope, .auto dv] ++ tr ++ [.semi, .guard, .auto dn] ++ tl ++ [.semi, .guard, .id dn, .op o, .id dv, .semi, .cls]
    else [.ope, .auto dv] ++ tr ++ [.semi, .guard] ++ tl ++ [.op o, .id dv, .semi, .cls]
  else if o.isArith && intish kl && intish kr then [.fn (.check o), .lp] ++ tl ++ [.comma] ++ tr ++ [.rp]
  else wrap l tl ++ [.op o] ++ wrap r tr

/-- Membership (codegen.c:1857-1949). -/
def emitMem (negated : Bool) (l r : Ex) (tl tr : List Tok) : List Tok :=
  (if negated then [.pre .bang] else []) ++
  if kind r = .map then
    [.ope, .decl ik] ++ tl ++ [.semi, .fn .hasKey, .lp, .pre .addr] ++ tr ++ [.comma, .pre .addr, .id ik, .rp, .semi, .cls]
  else if kind r = .str then
    if kind l = .char then
      [.lp, .fn .memchr, .lp] ++ tr ++ [.dot (lit "data"), .comma] ++ tl ++ [.comma, .cast] ++ tr ++
        [.dot (lit "len"), .rp, .op .ne, .id null, .rp]
    else [.fn .contains, .lp] ++ tr ++ [.comma] ++ tl ++ [.rp]
  else [.fn .contains, .lp, .pre .addr] ++ tr ++ [.comma] ++ tl ++ [.rp]

/-- `emit_expression`. -/
def emit : Ex → List Tok
  | .var x _ => [.id x]
  | .lit n _ => [.num n]
  | .call0 f _ => [.fn (.user f), .lp, .rp]
  | .call2 f a b _ => [.fn (.user f), .lp] ++ emit a ++ [.comma] ++ emit b ++ [.rp]
  | .neg e =>
    if kind e = .int then [.fn .negCheck, .lp] ++ emit e ++ [.rp]
    else [.lp, .pre .minus] ++ wrap e (emit e) ++ [.rp]
  | .not e => [.lp, .pre .bang] ++ wrap e (emit e) ++ [.rp]
  | .bnot e =>
    if kind e = .byte then [.lp, .cast, .lp, .pre .tilde, .lp] ++ emit e ++ [.rp, .rp, .rp]
    else [.lp, .pre .tilde, .lp] ++ emit e ++ [.rp, .rp]
  | .inf o l r => emitInf o l r (emit l) (emit r)
  | .mem n l r => emitMem n l r (emit l) (emit r)
  | .range n l s e =>
    (if n then [.pre .bang, .lp] else []) ++
      ([.lp] ++ emit l ++ [.op .ge] ++ emit s ++ [.op .and] ++ emit l ++ [.op .lt] ++ emit e ++ [.rp]) ++
      (if n then [.rp] else [])

end Verif.Emit

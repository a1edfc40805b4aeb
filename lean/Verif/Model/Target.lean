import Verif.Model.Outcome
import Verif.Model.IntOps
/-
Targets of assignments, of `++` and `--`, and arguments of `addr` and `ref`: which paths the checker
takes, what C is emitted for them, and which memory the C text refers to.
Sources: /repo/grayc/src/typechecker/typechecker.c (`resolve_expression` for labels 6766-6820, for
postfix operators 6921-6956, for indices 6968-7033; `resolve_member_expr` 6193-6338;
`is_assignment_target` 182-193; `path_contains_map_index` 216-232; `addr` and `ref` 3946-4016; the
statement 8940-9090), /repo/grayc/src/codegen/codegen.c (`emit_expression` for labels 1036-1043, for
`^` 2138-2143, for members 2391-2452, for indices 2455-2585; `emit_assign_statement` 7568-8118;
`addr` and `ref` 3546-3605), /repo/grayc/src/runtime/array.h:46-47.

Simplifications: variables, structs and fields are numbers; index expressions are numbers and have no
side effects; constants, enums, modules, `.v0` of results and generic functions are left out; an
integer, a float, a bool, an enum and so on is the one type `num` (the values stored are in the last
section). Memory is any function from places to what is stored there (`Mem`): C text that copies a
value before it is used (`({ ... })`) denotes the place the copy was taken from, and whether C allows
to write there is a separate question (`check`).
-/
namespace Verif.Target

/-- The types, as far as paths are concerned. -/
inductive Ty where
  | num
  | str
  | struct (s : Nat)
  | arr (e : Ty)
  | map (v : Ty)
  | ptr (e : Ty)
  | err
  deriving DecidableEq, Repr

/-- How a variable is bound: by value, by `mut r = ref(…)`, or as a parameter with `&`. -/
inductive Bound where
  | plain | ref | inout
  deriving DecidableEq, Repr

structure Env where
  /-- variables with the type a program reads them at -/
  var : Nat → Option (Bound × Ty)
  /-- the fields of the structs -/
  field : Nat → Nat → Option Ty
  /-- the names `message` and `code` -/
  errField : Nat → Bool
  /-- names that begin with the letter v -/
  startsV : Nat → Bool

/-- A path of the source text. -/
inductive Tgt where
  | var (x : Nat)
  | call (t : Ty)
  | field (o : Tgt) (f : Nat)
  | idx (o : Tgt) (i : Nat)
  | deref (o : Tgt)
  deriving DecidableEq, Repr

/-! ### The checker -/

/-- `struct_field_type`; `none` is `TYPE_UNKNOWN`. -/
def fieldOf (v : Env) (t : Ty) (f : Nat) : Option Ty :=
  match t with
  | .struct s => v.field s f
  | _ => none

/-- The type in the type table; `none` is `TYPE_UNKNOWN`. -/
def typeOf (v : Env) : Tgt → Option Ty
  | .var x => (v.var x).map Prod.snd
  | .call t => some t
  | .field o f =>
    match typeOf v o with
    | some (.struct s) => v.field s f
    | some (.ptr t) => fieldOf v t f
    | some .err => if v.errField f then some .str else none
    | _ => none
  | .idx o _ =>
    match typeOf v o with
    | some (.arr t) => some t
    | some (.map t) => some t
    | some .str => some .num
    | _ => none
  | .deref o =>
    match typeOf v o with
    | some (.ptr t) => some t
    | _ => none

/-- Is a field of a variable reported? (6193-6260; `sym->type` of a `ref` is a pointer) -/
def varField (v : Env) (b : Bound) (t : Ty) (f : Nat) : Bool :=
  match b, t with
  | .ref, t => (fieldOf v t f).isSome || v.startsV f
  | _, .struct s => (v.field s f).isSome || v.startsV f
  | _, .ptr t => (fieldOf v t f).isSome || v.startsV f
  | _, .err => v.errField f
  | _, _ => false

/-- Is a field of a field reported? (6293-6317) -/
def memberField (v : Env) (t : Option Ty) (f : Nat) : Bool :=
  match t with
  | some (.struct s) => (v.field s f).isSome || v.startsV f
  | some (.ptr t) => (fieldOf v t f).isSome || v.startsV f
  | none => true
  | _ => false

/-- Is a field of any other expression reported? (6318-6338) -/
def otherField (t : Option Ty) : Bool :=
  match t with
  | some (.struct _) => true
  | none => true
  | _ => false

/-- `resolve_expression` reports nothing. -/
def accepts (v : Env) : Tgt → Bool
  | .var x => (v.var x).isSome
  | .call _ => true
  | .field (.var x) f =>
    match v.var x with
    | some (b, t) => varField v b t f
    | none => false
  | .field (.field o g) f => accepts v (.field o g) && memberField v (typeOf v (.field o g)) f
  | .field (.call t) _ => otherField (some t)
  | .field (.idx o i) _ => accepts v (.idx o i) && otherField (typeOf v (.idx o i))
  | .field (.deref o) _ => accepts v (.deref o) && otherField (typeOf v (.deref o))
  | .idx o _ => accepts v o && (match typeOf v o with
    | some (.arr _) | some (.map _) | some .str | none => true
    | _ => false)
  | .deref o => accepts v o && (match typeOf v o with
    | some (.ptr _) | none => true
    | _ => false)

/-- The checks of the statement: kinds of nodes (E5025) and characters of strings (E3004). -/
def acceptsAssign (v : Env) (t : Tgt) : Bool :=
  accepts v t && match t with
    | .call _ => false
    | .idx o _ => typeOf v o != some .str
    | _ => true

/-! ### C expressions -/

/-- The forms of C text that are emitted for paths. -/
inductive C where
  | id (x : Nat)
  /-- `(*x)` -/
  | star (x : Nat)
  | call (t : Ty)
  | dot (e : C) (f : Nat)
  /-- `e->f` -/
  | arrow (e : C) (f : Nat)
  /-- `({ __auto_type _dp = e; if (!_dp) {panic} _dp->f; })` -/
  | nilArrow (e : C) (f : Nat)
  /-- `({ __auto_type _dp = e; if (!_dp) {panic} *_dp; })` -/
  | nilStar (e : C)
  /-- `GRAY_ARRAY_GET(e, T, i)`, which is `(*(T *)gray_array_get_ptr(&(e), i))` -/
  | aget (e : C) (i : Nat)
  /-- `({ __auto_type _adp = e; if (!_adp) {panic} GRAY_ARRAY_GET(_adp->f, T, i); })` -/
  | agetNil (e : C) (f i : Nat)
  /-- `({ GrayArray _ea = e; GRAY_ARRAY_GET(_ea, T, i); })` -/
  | agetTmp (e : C) (i : Nat)
  /-- `({ K _mk = k; void *_mv = gray_map_get(&e, &_mk); if (!_mv) {panic} *(T *)_mv; })` -/
  | mget (e : C) (k : Nat)
  /-- `({ GrayMap _mt = e; K _mk = k; … })` -/
  | mgetTmp (e : C) (k : Nat)
  /-- a character of a string -/
  | sget (e : C) (i : Nat)
  /-- `e[i]` -/
  | sub (e : C) (i : Nat)
  deriving DecidableEq, Repr

/-- Is the path a variable made by `ref`? (`is_reference_variable` of a label) -/
def isRef (v : Env) : Tgt → Bool
  | .var x => (v.var x).any fun p => p.1 == .ref
  | _ => false

/-- Is the type a pointer? -/
def isPtr : Option Ty → Bool
  | some (.ptr _) => true
  | _ => false

/-- The pointer of `p^`. -/
def derefOf : Tgt → Option Tgt
  | .deref o => some o
  | _ => none

/-- Is the path a call? -/
def isCall : Tgt → Bool
  | .call _ => true
  | _ => false

/-- Is the path an index expression? -/
def isIdx : Tgt → Bool
  | .idx _ _ => true
  | _ => false

/-- `emit_expression`; the second case of an index looks one step further back. -/
def emit (v : Env) : Tgt → C
  | .var x =>
    match v.var x with
    | some (.ref, _) | some (.inout, _) => .star x
    | _ => .id x
  | .call t => .call t
  | .deref o => .nilStar (emit v o)
  | .field o f =>
    if isRef v o then .dot (emit v o) f
    else match typeOf v o with
      | some (.ptr _) => .nilArrow (emit v o) f
      | some .err => .arrow (emit v o) f
      | _ => .dot (emit v o) f
  | .idx (.field (.deref q) f) i =>
    match typeOf v (.field (.deref q) f) with
    | some (.arr _) =>
      if isPtr (typeOf v (.deref q)) then .agetNil (emit v (.deref q)) f i else .agetNil (emit v q) f i
    | some (.map _) => .mgetTmp (emit v (.field (.deref q) f)) i
    | some .str => .sget (emit v (.field (.deref q) f)) i
    | _ => .sub (emit v (.field (.deref q) f)) i
  | .idx (.field o f) i =>
    match typeOf v (.field o f) with
    | some (.arr _) => if isPtr (typeOf v o) then .agetNil (emit v o) f i else .aget (emit v (.field o f)) i
    | some (.map _) =>
      if isPtr (typeOf v o) then .mgetTmp (emit v (.field o f)) i else .mget (emit v (.field o f)) i
    | some .str => .sget (emit v (.field o f)) i
    | _ => .sub (emit v (.field o f)) i
  | .idx o i =>
    match typeOf v o with
    | some (.arr _) => if isCall o then .agetTmp (emit v o) i else .aget (emit v o) i
    | some (.map _) => if isCall o || isIdx o then .mgetTmp (emit v o) i else .mget (emit v o) i
    | some .str => .sget (emit v o) i
    | _ => .sub (emit v o) i

/-- The C compiler: the type of an expression and whether it is an lvalue; `none` is an error.
A statement expression, a call and a member of what is no lvalue are no lvalues (C11 6.5.2.3, and the
manual of GCC on statement expressions); the address of what is no lvalue is an error (6.5.3.2). -/
def check (v : Env) : C → Option (Ty × Bool)
  | .id x =>
    match v.var x with
    | some (.plain, t) => some (t, true)
    | some (_, t) => some (.ptr t, true)
    | none => none
  | .star x =>
    match v.var x with
    | some (.ref, t) | some (.inout, t) => some (t, true)
    | _ => none
  | .call t => some (t, false)
  | .dot e f =>
    match check v e with
    | some (.struct s, l) => (v.field s f).map fun t => (t, l)
    | _ => none
  | .arrow e f =>
    match check v e with
    | some (.err, _) => if v.errField f then some (.str, true) else none
    | _ => none
  | .nilArrow e f =>
    match check v e with
    | some (.ptr (.struct s), _) => (v.field s f).map fun t => (t, false)
    | _ => none
  | .nilStar e =>
    match check v e with
    | some (.ptr t, _) => some (t, false)
    | _ => none
  | .aget e _ =>
    match check v e with
    | some (.arr t, true) => some (t, true)
    | _ => none
  | .agetNil e f _ =>
    match check v e with
    | some (.ptr (.struct s), _) =>
      match v.field s f with
      | some (.arr t) => some (t, false)
      | _ => none
    | _ => none
  | .agetTmp e _ =>
    match check v e with
    | some (.arr t, _) => some (t, false)
    | _ => none
  | .mget e _ =>
    match check v e with
    | some (.map t, true) => some (t, false)
    | _ => none
  | .mgetTmp e _ =>
    match check v e with
    | some (.map t, _) => some (t, false)
    | _ => none
  | .sget e _ =>
    match check v e with
    | some (.str, _) => some (.num, false)
    | _ => none
  | .sub _ _ => none

/-! ### Statements -/

/-- What an assignment becomes. -/
inductive Stmt where
  /-- `l op= v;` or, with a check, `{ T *_tgt = &(l); *_tgt = check(*_tgt, v); }` -/
  | plain (l : C)
  /-- `{ __auto_type _dp = e; if (!_dp) {panic} *_dp op= v; }` -/
  | viaStar (e : C)
  /-- `{ __auto_type _dp = e; if (!_dp) {panic} _dp->a.b.c op= v; }` -/
  | viaDp (e : C) (path : List Nat)
  /-- `GRAY_ARRAY_SET(e, T, i, v)` -/
  | aset (e : C) (i : Nat)
  /-- `{ __auto_type _asdp = e; if (!_asdp) {panic} GRAY_ARRAY_SET(_asdp->f, T, i, v); }` -/
  | asetNil (e : C) (f i : Nat)
  /-- `{ K _mk = k; T _mv = v; gray_map_set(arena, &e, &_mk, &_mv); }` -/
  | mset (e : C) (k : Nat)
  /-- the same with `&_mp->f` -/
  | msetNil (e : C) (f k : Nat)
  deriving DecidableEq, Repr

/-- The walk to the nearest pointer (7833-7845): the pointer and the fields from there on; `n` is what
is left of the 32 steps. -/
def chain (v : Env) : Nat → Tgt → Option (Tgt × List Nat)
  | n + 1, .field o f =>
    if isPtr (typeOf v o) && !isRef v o then some (o, [f])
    else (chain v n o).map fun p => (p.1, p.2 ++ [f])
  | _, _ => none

/-- A member as target (7814-7906, 8104). -/
def emitMember (v : Env) (o : Tgt) (f : Nat) : Stmt :=
  match derefOf o with
  | some q => .viaDp (emit v q) [f]
  | none =>
    match chain v 32 (.field o f) with
    | some (r, path) => .viaDp (emit v r) path
    | none => .plain (emit v (.field o f))

/-- An element or entry of a member as target (7584-7630, 7700-7708). -/
def emitMemberIdx (v : Env) (o : Tgt) (f i : Nat) : Stmt :=
  match typeOf v (.field o f) with
  | some (.arr _) =>
    if isPtr (typeOf v o) then .asetNil (emit v o) f i
    else match derefOf o with
      | some q => .asetNil (emit v q) f i
      | none => .aset (emit v (.field o f)) i
  | some (.map _) =>
    if isPtr (typeOf v o) then .msetNil (emit v o) f i else .mset (emit v (.field o f)) i
  | _ => .plain (emit v (.idx (.field o f) i))

/-- `emit_assign_statement`. -/
def emitAssign (v : Env) : Tgt → Stmt
  | .idx (.field o f) i => emitMemberIdx v o f i
  | .idx o i =>
    match typeOf v o with
    | some (.arr _) => .aset (emit v o) i
    | some (.map _) => .mset (emit v o) i
    | _ => .plain (emit v (.idx o i))
  | .deref q => .viaStar (emit v q)
  | .field o f => emitMember v o f
  | t => .plain (emit v t)

/-- The type at the end of a path of fields from a type. -/
def walk (v : Env) : Ty → List Nat → Option Ty
  | t, [] => some t
  | t, f :: r =>
    match fieldOf v t f with
    | some u => walk v u r
    | none => none

/-- The C compiler on the statement. -/
def checkStmt (v : Env) : Stmt → Bool
  | .plain l => (check v l).any fun p => p.2
  | .viaStar e => (check v e).any fun p => isPtr (some p.1)
  | .viaDp e path =>
    match check v e with
    | some (.ptr t, _) => (walk v t path).isSome
    | _ => false
  | .aset e _ =>
    match check v e with
    | some (.arr _, true) => true
    | _ => false
  | .asetNil e f _ =>
    match check v e with
    | some (.ptr t, _) => match fieldOf v t f with
      | some (.arr _) => true
      | _ => false
    | _ => false
  | .mset e _ =>
    match check v e with
    | some (.map _, true) => true
    | _ => false
  | .msetNil e f _ =>
    match check v e with
    | some (.ptr t, _) => match fieldOf v t f with
      | some (.map _) => true
      | _ => false
    | _ => false

/-! ### Memory -/

/-- Memory: places are of any type. -/
structure Mem (L : Type) where
  /-- where a variable is (for `ref` and `&`: where the pointer is) -/
  varAt : Nat → L
  /-- where the result of a call is -/
  callAt : L
  /-- where a field of the struct at a place is -/
  fieldAt : L → Nat → L
  /-- the pointer stored at a place, `none` for nil -/
  ptrAt : L → Option L
  /-- where an element of the array stored at a place is (`gray_array_get_ptr`) -/
  elemAt : L → Nat → Outcome L
  /-- where an entry of the map stored at a place is (`gray_map_get`) -/
  entryAt : L → Nat → Option L
  /-- where a character of the string stored at a place is -/
  charAt : L → Nat → Outcome L

/-- Dereferencing a pointer after the check for nil. -/
def guarded {L : Type} (m : Mem L) (l : L) : Outcome L :=
  match m.ptrAt l with
  | some p => .ok p
  | none => .panic "P0080"

/-- Dereferencing a pointer without a check. -/
def bare {L : Type} (m : Mem L) (l : L) : Outcome L :=
  match m.ptrAt l with
  | some p => .ok p
  | none => .ub

/-- An entry that must be there. -/
def present {L : Type} (m : Mem L) (l : L) (k : Nat) : Outcome L :=
  match m.entryAt l k with
  | some p => .ok p
  | none => .panic "P0081"

/-- Sequencing. -/
def andThen {α β : Type} (o : Outcome α) (f : α → Outcome β) : Outcome β :=
  match o with
  | .ok a => f a
  | .panic c => .panic c
  | .ub => .ub

/-- The place a C expression denotes, or was copied from. -/
def run {L : Type} (m : Mem L) : C → Outcome L
  | .id x => .ok (m.varAt x)
  | .star x => bare m (m.varAt x)
  | .call _ => .ok m.callAt
  | .dot e f => andThen (run m e) fun l => .ok (m.fieldAt l f)
  | .arrow e f => andThen (run m e) fun l => andThen (bare m l) fun p => .ok (m.fieldAt p f)
  | .nilArrow e f => andThen (run m e) fun l => andThen (guarded m l) fun p => .ok (m.fieldAt p f)
  | .nilStar e => andThen (run m e) fun l => guarded m l
  | .aget e i => andThen (run m e) fun l => m.elemAt l i
  | .agetNil e f i =>
    andThen (run m e) fun l => andThen (guarded m l) fun p => m.elemAt (m.fieldAt p f) i
  | .agetTmp e i => andThen (run m e) fun l => m.elemAt l i
  | .mget e k => andThen (run m e) fun l => present m l k
  | .mgetTmp e k => andThen (run m e) fun l => present m l k
  | .sget e i => andThen (run m e) fun l => m.charAt l i
  | .sub _ _ => .ub

/-- What an assignment writes: a place, an element of the array at a place, or an entry of the map at
a place (which is made if it is not there). -/
inductive Dest (L : Type) where
  | place (l : L)
  | elem (l : L) (i : Nat)
  | entry (l : L) (k : Nat)
  deriving DecidableEq, Repr

/-- What the statement writes. -/
def runStmt {L : Type} (m : Mem L) : Stmt → Outcome (Dest L)
  | .plain l => andThen (run m l) fun p => .ok (.place p)
  | .viaStar e => andThen (run m e) fun l => andThen (guarded m l) fun p => .ok (.place p)
  | .viaDp e path =>
    andThen (run m e) fun l => andThen (guarded m l) fun p => .ok (.place (path.foldl m.fieldAt p))
  | .aset e i => andThen (run m e) fun l => .ok (.elem l i)
  | .asetNil e f i =>
    andThen (run m e) fun l => andThen (guarded m l) fun p => .ok (.elem (m.fieldAt p f) i)
  | .mset e k => andThen (run m e) fun l => .ok (.entry l k)
  | .msetNil e f k =>
    andThen (run m e) fun l => andThen (guarded m l) fun p => .ok (.entry (m.fieldAt p f) k)

/-! ### `addr` and `ref` -/

/-- `is_assignment_target` -/
def isTarget : Tgt → Bool
  | .var _ => true
  | .call _ => false
  | .field o _ => isTarget o
  | .idx o _ => isTarget o
  | .deref _ => true

/-- `path_contains_map_index` -/
def hasEntry (v : Env) : Tgt → Bool
  | .var _ => false
  | .call _ => false
  | .field o _ => hasEntry v o
  | .idx o _ => (match typeOf v o with
    | some (.map _) => true
    | _ => false) || hasEntry v o
  | .deref o => hasEntry v o

/-- The checks of `addr` and `ref` (without those on constants). -/
def acceptsAddr (v : Env) (t : Tgt) : Bool := accepts v t && isTarget t && !hasEntry v t

/-- C text of `addr(t)` and `ref(t)`. -/
inductive Addr where
  /-- `&l` -/
  | amp (l : C)
  /-- `({ __auto_type _aadp = e; if (!_aadp) {panic} &_aadp->f; })` -/
  | ampNil (e : C) (f : Nat)
  deriving DecidableEq, Repr

/-- `addr(t)` -/
def emitAddr (v : Env) (t : Tgt) : Addr :=
  match t with
  | .field o f =>
    match derefOf o with
    | some q => .ampNil (emit v q) f
    | none => if isPtr (typeOf v o) then .ampNil (emit v o) f else .amp (emit v t)
  | t => .amp (emit v t)

/-- `ref(t)` of a variable or a path -/
def emitRef (v : Env) (t : Tgt) : Addr := .amp (emit v t)

/-- The C compiler on `addr(t)` and `ref(t)`. -/
def checkAddr (v : Env) : Addr → Bool
  | .amp l => (check v l).any fun p => p.2
  | .ampNil e f =>
    match check v e with
    | some (.ptr t, _) => (fieldOf v t f).isSome
    | _ => false

/-- The pointer computed. -/
def runAddr {L : Type} (m : Mem L) : Addr → Outcome L
  | .amp l => run m l
  | .ampNil e f => andThen (run m e) fun l => andThen (guarded m l) fun p => .ok (m.fieldAt p f)

/-! ### `++` and `--` -/

/-- The checks on the operand (6931-6950). -/
def acceptsStep (v : Env) (t : Tgt) : Bool :=
  accepts v t && (typeOf v t == some .num || typeOf v t == none) && match t with
    | .var _ | .field _ _ | .idx _ _ => true
    | _ => false

/-- `(l = check(l, 1, …))`, with the text of the operand twice (2144-2215). -/
def checkStep (v : Env) (t : Tgt) : Bool := (check v (emit v t)).any fun p => p.2

/-! ### The values that are stored -/

open Verif.IntOps

/-- `*_dp op= v` and `_dp->f op= v`: the C operator (7804, 7823, 7855, 7901). -/
def rawOp (op : AOp) (t s : IntTy) (x w : Int) : Outcome Int :=
  match op with
  | .arith o => storeVar t (cArith o t s x w)
  | .div => storeVar t (cDiv false t s x w)
  | .mod => storeVar t (cDiv true t s x w)

/-- `p.a[i] op= v` for a pointer `p` (7603-7628): C operators for `+ - *`; `/=` and `%=` store the
right side. -/
def ptrElemOp (op : AOp) (t s : IntTy) (x w : Int) : Outcome Int :=
  match op with
  | .arith o => storeVar t (cArith o t s x w)
  | .div | .mod => .ok (conv (cTy t) w)

/-- The value stored by `t op= w`, by the form of the statement. -/
def storeOp (st : Stmt) (op : AOp) (t s : IntTy) (x w : Int) : Option (Outcome Int) :=
  match st with
  | .plain _ => compoundVar op t s x w
  | .viaStar _ | .viaDp _ _ => some (rawOp op t s x w)
  | .aset _ _ => some (compoundArray op t s x w)
  | .asetNil _ _ _ => some (ptrElemOp op t s x w)
  | .mset _ _ | .msetNil _ _ _ => some (compoundMap op t s x w)

end Verif.Target

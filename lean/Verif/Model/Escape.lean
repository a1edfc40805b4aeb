/-!
# Where the data of variables lives

Models, from `grayc/src/codegen/codegen.c`, in which arena the emitted C puts the data a variable refers to:

* `emit_assign_statement`: elements of arrays (7566-7684, always as they are), entries of maps (7685-7787),
  whole arrays and maps (8033-8055, copied into the current arena), structs (8056-8075) and other variables
  (8077-8103), copied into `_gray_outer_arena` inside an `if` or a loop,
* `emit_variable_declaration` (7500-7525): arrays, maps and structs are copied if the value is a variable,
* `arrays.append` (5050-5073): inside an `if` or a loop the element is copied into `_gray_outer_arena`, in
  which the array grows too,
* `_gray_outer_arena` is the current arena at the outermost `if` or loop of the function (8399, 8478),
* `emit_function_declaration` (8736-8760): a function with a return type has an arena of its own, a function
  without gives back what was allocated in the caller's current arena since it began, and a function with a
  `&` parameter does neither (`function_uses_caller_arena`, 927-941),
* `emit_function_return_escape` (8205-8233): the value returned is copied into the caller's current arena,
  not in a function with a `&` parameter.

That the arenas alive are those of the scopes around, and the current one the innermost, is `C134`
(`Props/Flow.lean`); here a scope is an argument.

Simplifications.
* A value is what it refers to: a list of lists of blocks, first its own (the characters of a string, the
  table of an array or map), then those of each element or field.  A block has an arena and a serial number.
  Numbers and literal strings refer to nothing.
* A deep copy has a new block for each block (`C22` says where this fails).
* Operands of an expression are variables and elements; a call is a statement of its own, which declares a
  variable for the result.  An operator on strings makes a new string.
* Whether a condition holds and whether an array grows is decided by an arbitrary list of bits.
* `break`, `continue` and `ensure` are left to `Model/Flow.lean`.
-/

namespace Verif.Escape

/-! ## Values and memory -/

abbrev Block := Nat × Nat

abbrev Val := List (List Block)

structure M where
  /-- The C variables. -/
  store : Nat → Val
  locs : Nat
  arenas : Nat
  blocks : Nat
  /-- Given back: arena, and serial numbers from and to. -/
  freed : List (Nat × Nat × Nat)
  coins : List Bool

def isFreed (fs : List (Nat × Nat × Nat)) (b : Block) : Bool :=
  fs.any fun f => b.1 == f.1 && Nat.ble f.2.1 b.2 && Nat.blt b.2 f.2.2

/-- The block can be used: its arena is alive, and it was not given back. -/
def live (sc : List Nat) (t : M) (b : Block) : Bool := sc.contains b.1 && !isFreed t.freed b

def flip (t : M) : Bool × M :=
  match t.coins with
  | [] => (false, t)
  | c :: cs => (c, { t with coins := cs })

/-- What comes of running: out of steps, freed memory used, or a result. -/
inductive R (α : Type) where
  | more
  | bad
  | ok (a : α)

def R.bind {α β : Type} : R α → (α → R β) → R β
  | .more, _ => .more
  | .bad, _ => .bad
  | .ok a, f => f a

def R.isBad {α : Type} : R α → Bool
  | .bad => true
  | _ => false

def alloc (a : Nat) (t : M) : List Block × M := ([(a, t.blocks)], { t with blocks := t.blocks + 1 })

def copyBlocks (a : Nat) : Nat → List Block → List Block
  | _, [] => []
  | n, _ :: r => (a, n) :: copyBlocks a (n + 1) r

def copyFrom (a : Nat) : Nat → Val → Val
  | _, [] => []
  | n, l :: v => copyBlocks a n l :: copyFrom a (n + l.length) v

/-- A deep copy in arena `a`. -/
def copyVal (a : Nat) (v : Val) (t : M) : Val × M :=
  (copyFrom a t.blocks v, { t with blocks := t.blocks + v.flatten.length })

/-! ## Programs -/

inductive Ty where
  | plain
  | str
  | arr
  | map
  /-- With a field that is not plain. -/
  | struct
  deriving DecidableEq, Repr

inductive Expr where
  | lit
  | var (x : Nat)
  /-- `x[i]` or a field of `x`. -/
  | slot (x i : Nat)
  /-- An operator or a function of the library making a string of two values. -/
  | comp (a b : Expr)
  /-- `{}`, and an array, map or struct literal with one element more. -/
  | nil
  | cons (a b : Expr)
  deriving DecidableEq, Repr

inductive Stmt where
  | skip
  | seq (a b : Stmt)
  | decl (x : Nat) (ty : Ty) (e : Expr)
  | assign (x : Nat) (ty : Ty) (e : Expr)
  /-- `x[i] = e` for an array. -/
  | setElem (x i : Nat) (ty : Ty) (e : Expr)
  | setField (x i : Nat) (ty : Ty) (e : Expr)
  /-- `arrays.append(x, e)`, `x[k] = e` for a map. -/
  | push (x : Nat) (ty : Ty) (e : Expr)
  | use (e : Expr)
  /-- `mut x = f(args, &refs)`. -/
  | call (x f : Nat) (args : List Expr) (refs : List Nat)
  | ret (e : Expr)
  | ifS (a b : Stmt)
  | loop (a : Stmt)
  deriving Repr

structure Fn where
  params : List Nat
  rparams : List Nat
  valued : Bool
  body : Stmt

def Fn.refs (F : Fn) : Bool := !F.rparams.isEmpty

/-- Functions, and the names of the global variables, which are the first C variables. -/
structure Prog where
  fn : Nat → Fn
  globals : List Nat

/-! ## Running -/

abbrev Env := List (Nat × Nat)

def valOf (env : Env) (t : M) (x : Nat) : Val :=
  match env.lookup x with
  | some l => t.store l
  | none => []

/-- `sc` are the arenas alive, the current one first. -/
def eval (env : Env) (sc : List Nat) : Expr → M → R (Val × M)
  | .lit, t => .ok ([], t)
  | .var x, t => if (valOf env t x).flatten.all (live sc t) then .ok (valOf env t x, t) else .bad
  | .slot x i, t =>
    if ((valOf env t x).headD [] ++ (valOf env t x).getD (i + 1) []).all (live sc t) then
      .ok ([(valOf env t x).getD (i + 1) []], t)
    else .bad
  | .comp a b, t =>
    (eval env sc a t).bind fun p => (eval env sc b p.2).bind fun q =>
      let r := alloc (sc.headD 0) q.2
      .ok ([r.1], r.2)
  | .nil, t => let r := alloc (sc.headD 0) t; .ok ([r.1], r.2)
  | .cons a b, t =>
    (eval env sc a t).bind fun p => (eval env sc b p.2).bind fun q =>
      .ok (q.1.headD [] :: p.1.flatten :: q.1.drop 1, q.2)

/-- What is done with a value stored: nothing to keep, the value as it is, a copy in the current arena, a
copy in `_gray_outer_arena`. -/
inductive Dest where
  | drop
  | share
  | here
  | outer
  deriving DecidableEq, Repr

def labelDest (ty : Ty) (deep : Bool) : Dest :=
  match ty with
  | .plain => .drop
  | .arr => .here
  | .map => .here
  | .struct => if deep then .outer else .here
  | .str => if deep then .outer else .share

def elemDest (ty : Ty) : Dest :=
  match ty with
  | .plain => .drop
  | _ => .share

def fieldDest (ty : Ty) (deep : Bool) : Dest :=
  match ty with
  | .plain => .drop
  | .arr => .here
  | .map => .here
  | .struct => if deep then .outer else .here
  | .str => .share

def pushDest (ty : Ty) (deep : Bool) : Dest :=
  match ty with
  | .plain => .drop
  | _ => if deep then .outer else .share

def declDest (ty : Ty) (e : Expr) : Dest :=
  match ty, e with
  | .plain, _ => .drop
  | .str, _ => .share
  | _, .var _ => .here
  | _, _ => .share

def place (d : Dest) (base : Nat) (sc : List Nat) (v : Val) (t : M) : Val × M :=
  match d with
  | .drop => ([], t)
  | .share => (v, t)
  | .here => copyVal (sc.headD 0) v t
  | .outer => copyVal base v t

def setLoc (t : M) (l : Nat) (v : Val) : M := { t with store := fun k => if k = l then v else t.store k }

def setVar (env : Env) (t : M) (x : Nat) (v : Val) : M :=
  match env.lookup x with
  | some l => setLoc t l v
  | none => t

def newVar (env : Env) (t : M) (x : Nat) (v : Val) : Env × M :=
  ((x, t.locs) :: env, { setLoc t t.locs v with locs := t.locs + 1 })

inductive Out where
  | next
  | ret (v : Val)

/-- `f`, the values, the C variables passed by reference, the arenas alive. -/
abbrev Call := Nat → List Val → List Nat → List Nat → M → R (Val × M)

def evals (env : Env) (sc : List Nat) : List Expr → M → R (List Val × M)
  | [], t => .ok ([], t)
  | e :: es, t => (eval env sc e t).bind fun p => (evals env sc es p.2).bind fun q => .ok (p.1 :: q.1, q.2)

/-- At most `n` rounds. -/
def rounds (one : M → R (Out × M)) : Nat → M → R (Out × M)
  | 0, _ => .more
  | n + 1, t =>
    let c := flip t
    if c.1 then
      (one c.2).bind fun p =>
        match p.1 with
        | .next => rounds one n p.2
        | .ret v => .ok (.ret v, p.2)
    else .ok (.next, c.2)

/-- A statement of `F` at depth `d` below the function's own arena `base`; `saved` is the caller's. -/
def exec (F : Fn) (k : Call) (n : Nat) (base saved : Nat) :
    Stmt → Nat → Env → List Nat → M → R (Out × Env × M)
  | .skip, _, env, _, t => .ok (.next, env, t)
  | .seq a b, d, env, sc, t =>
    (exec F k n base saved a d env sc t).bind fun p =>
      match p.1 with
      | .next => exec F k n base saved b d p.2.1 sc p.2.2
      | .ret v => .ok (.ret v, p.2.1, p.2.2)
  | .decl x ty e, _, env, sc, t =>
    (eval env sc e t).bind fun p =>
      let q := place (declDest ty e) base sc p.1 p.2
      let r := newVar env q.2 x q.1
      .ok (.next, r.1, r.2)
  | .assign x ty e, d, env, sc, t =>
    (eval env sc e t).bind fun p =>
      let q := place (labelDest ty (d != 0)) base sc p.1 p.2
      .ok (.next, env, setVar env q.2 x q.1)
  | .setElem x i ty e, _, env, sc, t =>
    (eval env sc e t).bind fun p =>
      if ((valOf env p.2 x).headD []).all (live sc p.2) then
        let q := place (elemDest ty) base sc p.1 p.2
        .ok (.next, env, setVar env q.2 x ((valOf env p.2 x).set (i + 1) q.1.flatten))
      else .bad
  | .setField x i ty e, d, env, sc, t =>
    (eval env sc e t).bind fun p =>
      let q := place (fieldDest ty (d != 0)) base sc p.1 p.2
      .ok (.next, env, setVar env q.2 x ((valOf env p.2 x).set (i + 1) q.1.flatten))
  | .push x ty e, d, env, sc, t =>
    (eval env sc e t).bind fun p =>
      if ((valOf env p.2 x).headD []).all (live sc p.2) then
        let q := place (pushDest ty (d != 0)) base sc p.1 p.2
        let c := flip q.2
        if c.1 then
          let r := alloc (if d != 0 then base else sc.headD 0) c.2
          .ok (.next, env, setVar env r.2 x (r.1 :: (valOf env p.2 x).drop 1 ++ [q.1.flatten]))
        else
          .ok (.next, env, setVar env c.2 x ((valOf env p.2 x).headD [] :: (valOf env p.2 x).drop 1 ++ [q.1.flatten]))
      else .bad
  | .use e, _, env, sc, t => (eval env sc e t).bind fun p => .ok (.next, env, p.2)
  | .call x f args refs, _, env, sc, t =>
    (evals env sc args t).bind fun p =>
      (k f p.1 (refs.filterMap fun y => env.lookup y) sc p.2).bind fun q =>
        let r := newVar env q.2 x q.1
        .ok (.next, r.1, r.2)
  | .ret e, _, env, sc, t =>
    if F.valued then
      (eval env sc e t).bind fun p =>
        if F.refs then .ok (.ret p.1, env, p.2)
        else
          let q := copyVal saved p.1 p.2
          .ok (.ret q.1, env, q.2)
    else .ok (.ret [], env, t)
  | .ifS a b, d, env, sc, t =>
    let c := flip t
    let t' := { c.2 with arenas := c.2.arenas + 1 }
    (if c.1 then exec F k n base saved a (d + 1) env (c.2.arenas :: sc) t'
      else exec F k n base saved b (d + 1) env (c.2.arenas :: sc) t').bind fun p => .ok (p.1, env, p.2.2)
  | .loop a, d, env, sc, t =>
    (rounds (fun t => (exec F k n base saved a (d + 1) env (t.arenas :: sc) { t with arenas := t.arenas + 1 }).bind
      fun p => .ok (p.1, p.2.2)) n t).bind fun p => .ok (p.1, env, p.2)

/-- The parameters passed by value are new C variables. -/
def bindVals : List Nat → List Val → Env → M → Env × M
  | x :: xs, v :: vs, env, t => let r := newVar env t x v; bindVals xs vs r.1 r.2
  | _, _, env, t => (env, t)

def globalEnv (P : Prog) : Env := P.globals.zipIdx

def outVal : Out → Val
  | .next => []
  | .ret v => v

def callM (P : Prog) (k : Call) (n : Nat) : Call := fun f vs ls sc t =>
  let F := P.fn f
  let saved := sc.headD 0
  let own := F.valued && !F.refs
  let sc' := if own then t.arenas :: sc else sc
  let t' := if own then { t with arenas := t.arenas + 1 } else t
  let b := bindVals F.params vs (F.rparams.zip ls ++ globalEnv P) t'
  (exec F k n (sc'.headD 0) saved F.body 0 b.1 sc' b.2).bind fun p =>
    .ok (outVal p.1,
      if !F.valued && !F.refs then { p.2.2 with freed := (saved, t.blocks, p.2.2.blocks) :: p.2.2.freed } else p.2.2)

def run (P : Prog) : Nat → Call
  | 0 => fun _ _ _ _ _ => .more
  | n + 1 => callM P (run P n) n

/-! ## What is safe -/

/-- The depth at which a variable of the function was declared; `none` for a global variable. -/
abbrev Ctx := List (Nat × Option Nat)

/-- Data stored like this at depth `d` lives as long as the variable. -/
def fits (lvl : Option Nat) (d : Nat) : Dest → Bool
  | .drop => true
  | .outer => lvl.isSome
  | _ => lvl == some d

def fitsVar (ctx : Ctx) (x d : Nat) (de : Dest) : Bool :=
  match ctx.lookup x with
  | some lvl => fits lvl d de
  | none => true

/-- No store puts data into an arena that ends before the variable does, only variables of the innermost scope
are passed by reference, and a function with a `&` parameter returns no value from inside an `if` or a loop.
The numbers of arguments are right. -/
def chk (P : Prog) (F : Fn) : Stmt → Nat → Ctx → Option Ctx
  | .skip, _, c => some c
  | .seq a b, d, c => (chk P F a d c).bind (chk P F b d)
  | .decl x _ _, d, c => some ((x, some d) :: c)
  | .assign x ty _, d, c => if fitsVar c x d (labelDest ty (d != 0)) then some c else none
  | .setElem x _ ty _, d, c => if fitsVar c x d (elemDest ty) then some c else none
  | .setField x _ ty _, d, c => if fitsVar c x d (fieldDest ty (d != 0)) then some c else none
  | .push x _ _, _, c => if fitsVar c x 0 .outer then some c else none
  | .use _, _, c => some c
  | .call x f args refs, d, c =>
    if args.length == (P.fn f).params.length && refs.length == (P.fn f).rparams.length &&
      refs.all (fun y => c.lookup y == some (some d)) then some ((x, some d) :: c) else none
  | .ret _, d, c => if F.refs && F.valued && d != 0 then none else some c
  | .ifS a b, d, c => (chk P F a (d + 1) c).bind fun _ => (chk P F b (d + 1) c).bind fun _ => some c
  | .loop a, d, c => (chk P F a (d + 1) c).bind fun _ => some c

/-- The variables a function begins with. -/
def startCtx (P : Prog) (F : Fn) : Ctx :=
  (F.params.reverse ++ F.rparams).map (fun x => (x, some 0)) ++ P.globals.map fun x => (x, none)

def Prog.ok (P : Prog) (f : Nat) : Bool := (chk P (P.fn f) (P.fn f).body 0 (startCtx P (P.fn f))).isSome

end Verif.Escape

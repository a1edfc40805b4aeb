/-!
# Scopes, early exits and `ensure` in the emitted C

Models, from `grayc/src/codegen/codegen.c`,

* `emit_if_statement` (8392-8470), `emit_loop_body_with_arena` (8474-8505) with its callers
  (`emit_for_statement`, `emit_while_statement`, `emit_loop_statement`), `when` (9032-9205),
* `scope_arena_push`, `scope_arena_pop` (8159-8173), `emit_scratch_arena_unwind` (8178-8185),
  `emit_loop_exit_unwind` (8192-8201), `break` and `continue` (9022-9031),
* `collect_ensures`, `emit_ensure_cleanup` (8121-8153), `emit_return_statement` (8266-8385) with
  `emit_function_return_escape` (8208-8233), `emit_function_declaration` (8699-8793),
* `gray_enter_func`, `gray_exit_func` (`runtime/runtime.h` 152-166),

and, from `typechecker/typechecker.c`, `all_paths_return` and `block_has_return` (7499-7566) with their
use (10310-10339).

A statement of the language is a `Stmt`; `emit` turns it into C, a `Code`, in which arenas are made,
installed and destroyed through named C variables; `stepC` runs C.  `stepS` is the meaning by STANDARD.md
11.5 and 11.8: every `if` and every iteration is a scope with an arena of its own, which ends with it.

Simplifications.
* An expression is the list of what it does in order: operations (numbered, unknown) and calls of
  functions of the program.  An operation needs the current arena, in which it may allocate, to be alive;
  it is recorded with the arenas alive and the current one.
* A condition has a number; whether it holds is decided by an arbitrary function of all that was done
  before (`World`).  So a run is any run the program could make.
* A block is a chain of `seq` ended by `skip`; the chain `if … or … otherwise …` is `ifS` of a chain of
  `arm`; `when` is a chain of `arm` alone; `as_long_as` is `loop (some c)`, `loop` is `loop none`, and
  `for` and `for_each` are `loop (some c)` too, with the counting part of the condition.
* What the arenas hold is left to `Model/Arena.lean`; here only which are alive and which is current.  The
  watermark of a void function is represented by the arena it was taken of.
-/

namespace Verif.Flow

/-! ## Programs -/

inductive Atom where
  | op (n : Nat)
  | call (f : Nat)
  deriving DecidableEq, Repr

abbrev Expr := List Atom

inductive Stmt where
  | skip
  | seq (a b : Stmt)
  /-- An expression, declaration or assignment. -/
  | act (e : Expr)
  | ensure (e : Expr)
  /-- `return e`; `[]` for `return` alone and for a value that does nothing. -/
  | ret (e : Expr)
  | brk
  | cont
  /-- `if`: a scope around a chain of `arm`. -/
  | ifS (arms : Stmt)
  | arm (c : Nat) (e : Expr) (a b : Stmt)
  | loop (c : Option (Nat × Expr)) (body : Stmt)
  deriving DecidableEq, Repr

structure Fn where
  /-- It has a return type. -/
  valued : Bool
  /-- It has a `&` parameter (`function_uses_caller_arena`, 934-940). -/
  refs : Bool
  /-- It has a named return value. -/
  named : Bool := false
  body : Stmt

abbrev Prog := Nat → Fn

/-- What has been done, decides conditions. -/
abbrev World := Nat → List Nat → Bool

/-- A function with an arena of its own (8736-8748). -/
def Fn.private (f : Fn) : Bool := f.valued && !f.refs

/-! ## Running -/

/-- How a statement ends. -/
inductive Out where
  | next
  | brk
  | cont
  | ret
  deriving DecidableEq, Repr

/-- What comes of running: `fault` is undefined behaviour or a destroyed arena used. -/
inductive Res (σ : Type) where
  | fault
  | panic
  | ok (o : Out) (t : σ)
  deriving DecidableEq, Repr

/-- Goes on after an end without early exit. -/
def andThen {σ : Type} (r : Option (Res σ)) (k : σ → Option (Res σ)) : Option (Res σ) :=
  match r with
  | some (.ok .next t) => k t
  | r => r

/-- Runs an expression, given what operations and calls do. -/
def evalE {σ : Type} (op : Nat → σ → Option (Res σ)) (call : Nat → σ → Option (Res σ)) :
    Expr → σ → Option (Res σ)
  | [], t => some (.ok .next t)
  | .op n :: e, t => andThen (op n t) (evalE op call e)
  | .call f :: e, t => andThen (call f t) (evalE op call e)

/-- Runs rounds: a round that ends with `brk` was the last one. `n` bounds their number. -/
def loopN {σ : Type} (one : σ → Option (Res σ)) : Nat → σ → Option (Res σ)
  | 0, _ => none
  | n + 1, t =>
    match one t with
    | some (.ok .brk t) => some (.ok .next t)
    | some (.ok .next t) => loopN one n t
    | some (.ok .cont t) => loopN one n t
    | r => r

/-- The end of a call, normally or by `return`. -/
def endCall {σ : Type} (g : σ → σ) : Option (Res σ) → Option (Res σ)
  | some (.ok .next t) => some (.ok .next (g t))
  | some (.ok .ret t) => some (.ok .next (g t))
  | some (.ok _ _) => some .fault
  | r => r

/-- An operation done, with the arenas alive, innermost first, and the current one. -/
structure Ev where
  n : Nat
  alive : List Nat
  dflt : Nat
  deriving DecidableEq, Repr

def labels (tr : List Ev) : List Nat := tr.map Ev.n

/-- `GRAY_MAX_CALL_DEPTH` (`runtime/runtime.h` 154). -/
def maxDepth : Nat := 10000

/-! ## The meaning of a program

`sc` are the arenas of the scopes around, innermost first: they are the arenas alive, and the innermost is
the current one.  Nothing has to be unwound, as a scope is just an argument. -/

structure T where
  trace : List Ev
  next : Nat
  depth : Nat
  deriving DecidableEq, Repr

/-- The function `f` called with the operation. -/
def opS (sc : List Nat) (n : Nat) (t : T) : Option (Res T) :=
  some (.ok .next { t with trace := ⟨n, sc, sc.headD 0⟩ :: t.trace })

abbrev CallS := Nat → List Nat → T → Option (Res T)

def evalS (k : CallS) (sc : List Nat) (e : Expr) (t : T) : Option (Res T) :=
  evalE (opS sc) (fun f t => k f sc t) e t

/-- The expressions of a list, one after the other. -/
def evalAll {σ : Type} (ev : Expr → σ → Option (Res σ)) : List Expr → σ → Option (Res σ)
  | [], t => some (.ok .next t)
  | e :: es, t => andThen (ev e t) (evalAll ev es)

/-- A statement of a function whose `ensure` calls are `es`, last first. They are made at a `return`, before
its value is computed (8268). -/
def stepS (W : World) (es : List Expr) (k : CallS) (n : Nat) : Stmt → List Nat → T → Option (Res T)
  | .skip, _, t => some (.ok .next t)
  | .seq a b, sc, t => andThen (stepS W es k n a sc t) (stepS W es k n b sc)
  | .act e, sc, t => evalS k sc e t
  | .ensure _, _, t => some (.ok .next t)
  | .ret e, sc, t => andThen (evalAll (evalS k sc) es t) fun t =>
      andThen (evalS k sc e t) fun t => some (.ok .ret t)
  | .brk, _, t => some (.ok .brk t)
  | .cont, _, t => some (.ok .cont t)
  | .ifS a, sc, t => stepS W es k n a (t.next :: sc) { t with next := t.next + 1 }
  | .arm c e a b, sc, t => andThen (evalS k sc e t) fun t =>
      if W c (labels t.trace) then stepS W es k n a sc t else stepS W es k n b sc t
  | .loop c b, sc, t =>
      loopN (fun t =>
        match c with
        | none => stepS W es k n b (t.next :: sc) { t with next := t.next + 1 }
        | some (c, e) => andThen (evalS k sc e t) fun t =>
            if W c (labels t.trace) then stepS W es k n b (t.next :: sc) { t with next := t.next + 1 }
            else some (.ok .brk t)) n t

/-- `collect_ensures` (8121-8134): the `ensure` statements of the function's own block, in order. -/
def collect : Stmt → List Expr
  | .seq (.ensure e) b => e :: collect b
  | .seq _ b => collect b
  | _ => []

/-- A call: one level deeper, in a scope of its own if the function has a private arena; at the end of the
body the `ensure` calls are made (8758-8759). -/
def callS (W : World) (P : Prog) (k : CallS) (n : Nat) (f : Nat) (sc : List Nat) (t : T) : Option (Res T) :=
  let F := P f
  let es := (collect F.body).reverse
  let sc' := if F.private then t.next :: sc else sc
  let t' := if F.private then { t with next := t.next + 1 } else t
  if maxDepth < t'.depth + 1 then some .panic
  else
    endCall (fun t => { t with depth := t.depth - 1 })
      (andThen (stepS W es k n F.body sc' { t' with depth := t'.depth + 1 }) (evalAll (evalS k sc') es))

/-- Calls, with at most `n` levels of calls and rounds of a loop. -/
def runS (W : World) (P : Prog) : Nat → CallS
  | 0 => fun _ _ _ => none
  | n + 1 => callS W P (runS W P n) n

/-! ## C -/

/-- `_if_arena_i`/`_if_saved_i`, `_iter_arena_d`/`_saved_arena_d`, `_func_arena`/`_func_saved`. -/
inductive Name where
  | iff (i : Nat)
  | iter (d : Nat)
  | func
  deriving DecidableEq, Repr

inductive Code where
  | skip
  | seq (a b : Code)
  | act (e : Expr)
  | arm (c : Nat) (e : Expr) (a b : Code)
  | loop (c : Option (Nat × Expr)) (body : Code)
  | brk
  | cont
  | ret
  /-- `GrayArena *x = gray_arena_create(…); GrayArena *x_saved = gray_default_arena; gray_default_arena = x;` -/
  | create (x : Name)
  /-- `gray_default_arena = x_saved;` -/
  | setDefault (x : Name)
  /-- `gray_arena_destroy(x, …); free(x);` -/
  | destroy (x : Name)
  /-- The return value is copied into `_func_saved`. -/
  | escape
  /-- `GrayScopeMark _scope_mark = gray_scope_save(gray_default_arena);` -/
  | save
  /-- `gray_scope_restore(gray_default_arena, _scope_mark);` -/
  | restore
  | enter
  | leave
  deriving DecidableEq, Repr

def seqs : List Code → Code
  | [] => .skip
  | c :: cs => .seq c (seqs cs)

/-- `emit_scratch_arena_unwind`; the stack has the innermost scope first. -/
def unwind : List Name → Code
  | [] => .skip
  | x :: st => seqs [.setDefault x, .destroy x, unwind st]

/-- `emit_loop_exit_unwind`: up to and including the innermost loop's arena. -/
def unwindLoop : List Name → Code
  | [] => .skip
  | .iter d :: _ => seqs [.setDefault (.iter d), .destroy (.iter d)]
  | x :: st => seqs [.setDefault x, .destroy x, unwindLoop st]

/-- What `emit_return_statement` writes behind the computation of the value. -/
def exitCode (F : Fn) (st : List Name) : Code :=
  if F.refs then seqs [unwind st, .leave, .ret]
  else if F.valued then seqs [.escape, unwind st, .setDefault .func, .destroy .func, .leave, .ret]
  else seqs [unwind st, .restore, .leave, .ret]

/-- `emit_ensure_cleanup`; `es` has the last `ensure` first. -/
def cleanup (es : List Expr) : Code := seqs (es.map .act)

/-- `emit_statement`, with the stack of scope arenas, `loop_scope_depth` and the counter of `if` statements;
the counter is returned too. The value of a `return` is only computed in a function with a return type. -/
def emit (F : Fn) (es : List Expr) : Stmt → List Name → Nat → Nat → Code × Nat
  | .skip, _, _, i => (.skip, i)
  | .seq a b, st, d, i =>
    let p := emit F es a st d i
    let q := emit F es b st d p.2
    (.seq p.1 q.1, q.2)
  | .act e, _, _, i => (.act e, i)
  | .ensure _, _, _, i => (.skip, i)
  | .ret e, st, _, i => (seqs [cleanup es, .act (if F.valued then e else []), exitCode F st], i)
  | .brk, st, _, i => (.seq (unwindLoop st) .brk, i)
  | .cont, st, _, i => (.seq (unwindLoop st) .cont, i)
  | .ifS a, st, d, i =>
    let p := emit F es a (.iff i :: st) (d + 1) (i + 1)
    (seqs [.create (.iff i), p.1, .setDefault (.iff i), .destroy (.iff i)], p.2)
  | .arm c e a b, st, d, i =>
    let p := emit F es a st d i
    let q := emit F es b st d p.2
    (.arm c e p.1 q.1, q.2)
  | .loop c b, st, d, i =>
    let p := emit F es b (.iter d :: st) (d + 1) i
    (.loop c (seqs [.create (.iter d), p.1, .setDefault (.iter d), .destroy (.iter d)]), p.2)

/-- `emit_function_declaration`; `i` is the value of the counter of `if` statements. -/
def emitFn (F : Fn) (i : Nat) : Code :=
  let es := (collect F.body).reverse
  let body := (emit F es F.body [] 0 i).1
  if F.refs then seqs [.enter, body, cleanup es, .leave]
  else if F.valued then
    seqs [.create .func, .enter, body, cleanup es, .setDefault .func, .destroy .func, .leave]
  else seqs [.save, .enter, body, cleanup es, .restore, .leave]

structure S where
  trace : List Ev
  /-- The arenas alive, the youngest first. -/
  alive : List Nat
  dflt : Nat
  next : Nat
  depth : Nat
  /-- The variables: arena and saved arena. -/
  env : List (Name × (Nat × Nat))
  mark : Option Nat
  deriving DecidableEq, Repr

abbrev CallC := Nat → S → Option (Res S)

def opC (n : Nat) (s : S) : Option (Res S) :=
  if s.dflt ∈ s.alive then some (.ok .next { s with trace := ⟨n, s.alive, s.dflt⟩ :: s.trace })
  else some .fault

def evalC (k : CallC) (e : Expr) (s : S) : Option (Res S) := evalE opC k e s

def stepC (W : World) (k : CallC) (n : Nat) : Code → S → Option (Res S)
  | .skip, s => some (.ok .next s)
  | .seq a b, s => andThen (stepC W k n a s) (stepC W k n b)
  | .act e, s => evalC k e s
  | .arm c e a b, s => andThen (evalC k e s) fun s =>
      if W c (labels s.trace) then stepC W k n a s else stepC W k n b s
  | .loop c b, s =>
      loopN (fun s =>
        match c with
        | none => stepC W k n b s
        | some (c, e) => andThen (evalC k e s) fun s =>
            if W c (labels s.trace) then stepC W k n b s else some (.ok .brk s)) n s
  | .brk, s => some (.ok .brk s)
  | .cont, s => some (.ok .cont s)
  | .ret, s => some (.ok .ret s)
  | .create x, s => some (.ok .next { s with
      alive := s.next :: s.alive, dflt := s.next, next := s.next + 1, env := (x, (s.next, s.dflt)) :: s.env })
  | .setDefault x, s =>
    match s.env.lookup x with
    | some (_, d) => some (.ok .next { s with dflt := d })
    | none => some .fault
  | .destroy x, s =>
    match s.env.lookup x with
    | some (a, _) => if a ∈ s.alive then some (.ok .next { s with alive := s.alive.erase a }) else some .fault
    | none => some .fault
  | .escape, s =>
    match s.env.lookup .func with
    | some (_, d) => if d ∈ s.alive ∧ s.dflt ∈ s.alive then some (.ok .next s) else some .fault
    | none => some .fault
  | .save, s => some (.ok .next { s with mark := some s.dflt })
  | .restore, s => if s.mark = some s.dflt ∧ s.dflt ∈ s.alive then some (.ok .next s) else some .fault
  | .enter, s => if maxDepth < s.depth + 1 then some .panic else some (.ok .next { s with depth := s.depth + 1 })
  | .leave, s => some (.ok .next { s with depth := s.depth - 1 })

/-- A call in C: variables of its own. `ctr` is the counter with which each function was emitted. -/
def callC (W : World) (P : Prog) (ctr : Nat → Nat) (k : CallC) (n : Nat) (f : Nat) (s : S) : Option (Res S) :=
  endCall (fun s' => { s' with env := s.env, mark := s.mark })
    (stepC W k n (emitFn (P f) (ctr f)) { s with env := [], mark := none })

def runC (W : World) (P : Prog) (ctr : Nat → Nat) : Nat → CallC
  | 0 => fun _ _ => none
  | n + 1 => callC W P ctr (runC W P ctr n) n

/-! ## Checks of the type checker -/

/-- `break` and `continue` are in a loop (E2050, 9963-9969); a void function returns no value (E3006, 9392-9399); `return` in `main` is refused too (E3073). -/
def okS (valued inLoop : Bool) : Stmt → Bool
  | .seq a b => okS valued inLoop a && okS valued inLoop b
  | .ret e => valued || e = []
  | .brk => inLoop
  | .cont => inLoop
  | .ifS a => okS valued inLoop a
  | .arm _ _ a b => okS valued inLoop a && okS valued inLoop b
  | .loop _ b => okS valued true b
  | _ => true

def Fn.ok (F : Fn) : Bool := okS F.valued false F.body

def isRet : Stmt → Bool
  | .ret _ => true
  | _ => false

/-- `block_has_return`. -/
def hasRet : Stmt → Bool
  | .ret _ => true
  | .seq a b => hasRet a || hasRet b
  | .ifS a => hasRet a
  | .arm _ _ a b => hasRet a || hasRet b
  | .loop _ b => hasRet b
  | _ => false

/-- `all_paths_return`. -/
def allPaths : Stmt → Bool
  | .ret _ => true
  | .seq a b => isRet a || (if b = .skip then allPaths a else allPaths b)
  | .ifS a => allPaths a
  | .arm _ _ a b => allPaths a && allPaths b
  | .loop none b => hasRet b
  | _ => false

/-- The check for missing returns (E3024, E3035, 10310-10339): none for named return values. -/
def returnsOk (F : Fn) : Bool := !F.valued || F.named || (hasRet F.body && allPaths F.body)

/-! ## `ensure` as documented

STANDARD.md 6.6: `ensure` names a call to make when the function exits, normally or by an early return. -/

structure D where
  trace : List Nat
  depth : Nat
  /-- The calls to make, the last named first. -/
  pending : List Expr
  deriving DecidableEq, Repr

abbrev CallD := Nat → D → Option (Res D)

def opD (n : Nat) (t : D) : Option (Res D) := some (.ok .next { t with trace := n :: t.trace })

def evalD (k : CallD) (e : Expr) (t : D) : Option (Res D) := evalE opD k e t

def stepD (W : World) (k : CallD) (n : Nat) : Stmt → D → Option (Res D)
  | .skip, t => some (.ok .next t)
  | .seq a b, t => andThen (stepD W k n a t) (stepD W k n b)
  | .act e, t => evalD k e t
  | .ensure e, t => some (.ok .next { t with pending := e :: t.pending })
  | .ret e, t => andThen (evalD k e t) fun t => some (.ok .ret t)
  | .brk, t => some (.ok .brk t)
  | .cont, t => some (.ok .cont t)
  | .ifS a, t => stepD W k n a t
  | .arm c e a b, t => andThen (evalD k e t) fun t => if W c t.trace then stepD W k n a t else stepD W k n b t
  | .loop c b, t =>
      loopN (fun t =>
        match c with
        | none => stepD W k n b t
        | some (c, e) => andThen (evalD k e t) fun t =>
            if W c t.trace then stepD W k n b t else some (.ok .brk t)) n t

def callD (W : World) (P : Prog) (k : CallD) (n : Nat) (f : Nat) (t : D) : Option (Res D) :=
  if maxDepth < t.depth + 1 then some .panic
  else
    andThen (endCall id (stepD W k n (P f).body { t with depth := t.depth + 1, pending := [] })) fun t' =>
      andThen (evalAll (evalD k) t'.pending t') fun t'' =>
        some (.ok .next { t'' with depth := t''.depth - 1, pending := t.pending })

def runD (W : World) (P : Prog) : Nat → CallD
  | 0 => fun _ _ => none
  | n + 1 => callD W P (runD W P n) n

end Verif.Flow

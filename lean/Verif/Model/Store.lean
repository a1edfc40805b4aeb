/-!
# Variables that hold arrays and structs: what the checker lets a program write, and what a write changes

Part one is the checker's view of a write: which targets it refuses because the variable is not mutable
(grayc/src/typechecker/typechecker.c). Part two is the memory the emitted C works on: an array is a header
with the address of a block and a length, a struct is stored in place, and a variable, a field or an element
holds the header or the struct itself (grayc/src/codegen/codegen.c, grayc/src/runtime/array.c).

Simplifications. A struct is the list of its fields, written as nested pairs that end in `unit`. The only
scalar is the integer; strings are never changed in place and behave like scalars here. Maps, pointers and
`ref` variables have no values in part two (maps are headers too, and are copied where structs are).
A program is one sequence of statements; a variable is named by the number of variables declared before it.
-/

namespace Verif.Store

/-! ## Targets -/

/-- One step of an access path as written: `.f` (the number of the field), `[i]`, or `^`. -/
inductive Step where
  | field (k : Nat)
  | idx (i : Nat)
  | deref
  deriving DecidableEq, Repr

/-- A variable followed by steps, outermost last: `x.f[2].g`. -/
structure Path where
  root : Nat
  steps : List Step
  deriving DecidableEq, Repr

/-- What the symbol table knows of a variable (grayc/src/typechecker/scope.h): `mut`, and whether its type is a
pointer. Variables declared with `const`, parameters without `&` (typechecker.c:10155, 11687), loop variables
(9765, 9875-9892) and the variables bound by `when` (10627) are not mutable. -/
structure Sym where
  mutable : Bool
  pointer : Bool
  deriving DecidableEq, Repr

/-- Does the checker accept an assignment to the path? E3005, grayc/src/typechecker/typechecker.c:9041-9057:
the target is looked at when it is a variable, an index of a variable, or a field of a variable that is not a
pointer. -/
def assignOk (sym : Nat → Sym) (p : Path) : Bool :=
  match p.steps with
  | [] => (sym p.root).mutable
  | [.idx _] => (sym p.root).mutable
  | [.field _] => (sym p.root).mutable || (sym p.root).pointer
  | _ => true

/-- `++` and `--`, grayc/src/typechecker/typechecker.c:6943-6948: only a variable is looked at. -/
def incrOk (sym : Nat → Sym) (p : Path) : Bool :=
  match p.steps with
  | [] => (sym p.root).mutable
  | _ => true

/-- The first argument of a library function that changes it (`arrays.append`, `arrays.insert_at`,
`maps.clear`, …), E5007, grayc/src/typechecker/typechecker.c:2381-2393 and 2700-2715: only a variable is looked
at. -/
def mutatorOk (sym : Nat → Sym) (p : Path) : Bool :=
  match p.steps with
  | [] => (sym p.root).mutable
  | _ => true

/-- The argument for a parameter `&p`, E3027, `check_mutable_arg`,
grayc/src/typechecker/typechecker.c:2216-2246: variables are looked at, fields, elements and what pointers point
to are let through. -/
def refArgOk (sym : Nat → Sym) (p : Path) : Bool :=
  match p.steps with
  | [] => (sym p.root).mutable
  | _ => true

/-- `mut r = ref(path)`, E3079, grayc/src/typechecker/typechecker.c:8728-8752: only a variable is looked at. -/
def refOk (sym : Nat → Sym) (p : Path) : Bool :=
  match p.steps with
  | [] => (sym p.root).mutable
  | _ => true

/-- `addr(path)`, E3122, grayc/src/typechecker/typechecker.c:3961-3971 with `assignment_target_root_name`
(199-211), which follows fields and indices down to the variable and gives up at a `^`. -/
def addrOk (sym : Nat → Sym) (p : Path) : Bool :=
  if .deref ∈ p.steps then true else (sym p.root).mutable

/-! ## Values and blocks -/

/-- Types: `int`, arrays, and structs as nested pairs that end in `unit`. -/
inductive Ty where
  | int
  | unit
  | arr (e : Ty)
  | pair (a b : Ty)
  deriving DecidableEq, Repr

/-- C values: a number, an array header (block and length; the capacity is the size of the block), a struct. -/
inductive V where
  | int (n : Int)
  | unit
  | hdl (b l : Nat)
  | pair (a b : V)
  deriving DecidableEq, Repr

/-- Blocks by address. The arenas are not given back here. -/
abbrev Heap := List (List V)

/-- The block at an address. -/
def buf (h : Heap) (b : Nat) : List V := h.getD b []

/-- The block of a new array, grayc/src/runtime/array.c:14-35: the elements, or four unused slots. -/
def fresh (vs : List V) : List V := if vs = [] then List.replicate 4 .unit else vs

/-- A machine-level step: into the first or second half of a pair, or to an element. -/
inductive Sel where
  | fst
  | snd
  | idx (i : Nat)
  deriving DecidableEq, Repr

/-- Field `k` of nested pairs. There are no pointers in this part. -/
def sel1 : Step → Option (List Sel)
  | .field k => some (List.replicate k .snd ++ [.fst])
  | .idx i => some [.idx i]
  | .deref => none

def sels : List Step → Option (List Sel)
  | [] => some []
  | s :: r => match sel1 s, sels r with
    | some a, some b => some (a ++ b)
    | _, _ => none

/-- The value at a path, with its type: fields by C's `.`, elements by `GRAY_ARRAY_GET`, which panics (here:
`none`) out of bounds (grayc/src/runtime/array.c:37-42). -/
def readV (h : Heap) : Ty → V → List Sel → Option (Ty × V)
  | t, v, [] => some (t, v)
  | .pair a _, .pair u _, .fst :: r => readV h a u r
  | .pair _ b, .pair _ w, .snd :: r => readV h b w r
  | .arr e, .hdl b l, .idx i :: r =>
    if i < l then
      match (buf h b)[i]? with
      | some v => readV h e v r
      | none => none
    else none
  | _, _, _ => none

/-- A change of what is at a path: `upd` is applied to the value there, and the result is stored in its
place (`GRAY_ARRAY_SET`, a C assignment, or a call with the address). -/
def modV (upd : Ty → V → Option (V × Heap)) (h : Heap) : Ty → V → List Sel → Option (V × Heap)
  | t, v, [] => upd t v
  | .pair a _, .pair u w, .fst :: r =>
    match modV upd h a u r with
    | some (u', h') => some (.pair u' w, h')
    | none => none
  | .pair _ b, .pair u w, .snd :: r =>
    match modV upd h b w r with
    | some (w', h') => some (.pair u w', h')
    | none => none
  | .arr e, .hdl b l, .idx i :: r =>
    if i < l then
      match (buf h b)[i]? with
      | some v =>
        match modV upd h e v r with
        | some (v', h') => some (.hdl b l, h'.set b ((buf h' b).set i v'))
        | none => none
      | none => none
    else none
  | _, _, _ => none

/-- Copies of the elements in turn. -/
def copyL (f : Heap → V → V × Heap) : Heap → List V → List V × Heap
  | h, [] => ([], h)
  | h, v :: vs => ((f h v).1 :: (copyL f (f h v).2 vs).1, (copyL f (f h v).2 vs).2)

/-- The deep copy of a value, as printed by `emit_value_deep_copy`
(grayc/src/codegen/codegen.c:526-745; the subject of C22): a new block for every array in it. -/
def copy : Ty → Heap → V → V × Heap
  | .pair a b, h, .pair u w =>
    (.pair (copy a h u).1 (copy b (copy a h u).2 w).1, (copy b (copy a h u).2 w).2)
  | .arr e, h, .hdl b l =>
    let r := copyL (fun h v => copy e h v) h ((buf h b).take l)
    (.hdl r.2.length r.1.length, r.2 ++ [fresh r.1])
  | _, h, v => (v, h)

/-- `gray_array_push`, grayc/src/runtime/array.c:54-73, on the header in place: a full block is replaced by one
of at least four and otherwise twice as many slots. The panic during `for_each` and the limit of the
capacity are left out. -/
def push (h : Heap) (w : V) : Ty → V → Option (V × Heap)
  | .arr _, .hdl b l =>
    if (buf h b).length ≤ l then
      let cap := if (buf h b).length < 4 then 4 else 2 * (buf h b).length
      some (.hdl h.length (l + 1),
        h ++ [(buf h b).take l ++ w :: List.replicate (cap - (l + 1)) .unit])
    else some (.hdl b (l + 1), h.set b ((buf h b).set l w))
  | _, _ => none

/-! ## Statements -/

/-- Expressions: a number, a path, an array literal (`nil` with its element type, then `snoc` for every
element), a struct literal. -/
inductive Exp where
  | int (n : Int)
  | path (p : Path)
  | nil (e : Ty)
  | snoc (a e : Exp)
  | unit
  | pair (a b : Exp)
  deriving DecidableEq, Repr

structure Var where
  ty : Ty
  mutable : Bool
  val : V
  deriving DecidableEq, Repr

structure State where
  vars : List Var
  heap : Heap
  deriving DecidableEq, Repr

/-- What a path reads. -/
def readP (s : State) (p : Path) : Option (Ty × V) :=
  match s.vars[p.root]?, sels p.steps with
  | some x, some ss => readV s.heap x.ty x.val ss
  | _, _ => none

/-- The type and the value of an expression, and the heap with the blocks of its literals. The value of a path
is what is there, header and all: array literals and struct literals put the C expressions of their elements
into a C initialiser (grayc/src/codegen/codegen.c:1601-1680). The block of a literal is made once in C; here
each element added makes a block, of which the last is used. -/
def eval (vars : List Var) : Heap → Exp → Option (Ty × V × Heap)
  | h, .int n => some (.int, .int n, h)
  | h, .unit => some (.unit, .unit, h)
  | h, .path p => match readP ⟨vars, h⟩ p with
    | some (t, v) => some (t, v, h)
    | none => none
  | h, .nil e => some (.arr e, .hdl h.length 0, h ++ [fresh []])
  | h, .snoc a e =>
    match eval vars h a with
    | some (.arr t, .hdl b l, h1) =>
      match eval vars h1 e with
      | some (t', w, h2) =>
        if t' = t then some (.arr t, .hdl h2.length (((buf h2 b).take l).length + 1),
          h2 ++ [(buf h2 b).take l ++ [w]])
        else none
      | none => none
    | _ => none
  | h, .pair a b =>
    match eval vars h a with
    | some (ta, va, h1) =>
      match eval vars h1 b with
      | some (tb, vb, h2) => some (.pair ta tb, .pair va vb, h2)
      | none => none
    | none => none

/-- How a declaration gives the type: not at all, with the type (`[T]` or the name of a struct), or as `[T,N]`. -/
inductive Form where
  | inferred
  | plain
  | sized
  deriving DecidableEq, Repr

/-- Is the last step a field (a member expression)? -/
def lastField (p : Path) : Bool :=
  match p.steps.getLast? with
  | some (.field _) => true
  | _ => false

/-- Does the emitted declaration copy its initialiser? `emit_variable_declaration`: arrays with a size are
never copied (grayc/src/codegen/codegen.c:7102-7135), arrays of arrays from a variable (7137-7167), other arrays from
a variable or a field but not at file scope (7170-7207), structs from a variable (7514-7526), and nothing is
copied when the type is not written. -/
def declCopies (top : Bool) (f : Form) (t : Ty) (e : Exp) : Bool :=
  match e with
  | .path p =>
    match f with
    | .plain =>
      match t with
      | .arr (.arr _) => p.steps.isEmpty
      | .arr _ => !top && (p.steps.isEmpty || lastField p)
      | _ => p.steps.isEmpty
    | _ => false
  | _ => false

/-- Does the emitted assignment copy its right side? `emit_assign_statement`: not when the target is an
element (7661-7684), otherwise always for arrays and for structs that hold any (8019-8076). -/
def assignCopies (p : Path) : Bool :=
  match p.steps.getLast? with
  | some (.idx _) => false
  | _ => true

inductive Stmt where
  /-- `mut`/`const` with an initialiser; `top` at file scope -/
  | decl (top : Bool) (mutable : Bool) (f : Form) (t : Ty) (e : Exp)
  /-- a parameter without `&` gets its argument, or a loop variable its element: the C value as it is
  (grayc/src/codegen/codegen.c:6910-6985) -/
  | bind (t : Ty) (e : Exp)
  | assign (p : Path) (e : Exp)
  | incr (p : Path)
  | append (p : Path) (e : Exp)
  deriving DecidableEq, Repr

def isArrayLit : Exp → Bool
  | .nil _ => true
  | .snoc _ _ => true
  | _ => false

def isArr : Ty → Bool
  | .arr _ => true
  | _ => false

/-- The symbols of the declared variables. -/
def syms (vars : List Var) (x : Nat) : Sym :=
  match vars[x]? with
  | some v => ⟨v.mutable, false⟩
  | none => ⟨false, false⟩

/-- The checks of part one and those on declarations: E3050 (an array literal needs a written type), E3054 (no
size with `mut`), E3055 (`const` needs a size), grayc/src/typechecker/typechecker.c:7862-7921. The C compiler
refuses some further statements, which it takes for writes to `const` objects: codegen.c:7396-7410 prints
`const` for constants other than arrays with a written type. None of the examples relies on it. -/
def accepts (vars : List Var) : Stmt → Bool
  | .decl _ m f t e =>
    (f ≠ .inferred || !isArrayLit e) &&
    (f = .inferred || !isArr t || (if m then f = .plain else f = .sized)) &&
    (f ≠ .sized || isArr t)
  | .bind _ _ => true
  | .assign p _ => assignOk (syms vars) p
  | .incr p => incrOk (syms vars) p
  | .append p _ => mutatorOk (syms vars) p

/-- Store a changed variable. -/
def change (s : State) (x : Nat) (ss : List Sel) (h : Heap) (upd : Ty → V → Option (V × Heap)) :
    Option State :=
  match s.vars[x]? with
  | some v =>
    match modV upd h v.ty v.val ss with
    | some (v', h') => some ⟨s.vars.set x ⟨v.ty, v.mutable, v'⟩, h'⟩
    | none => none
  | none => none

/-- The effect of a statement; `none` is a panic, or a program that is not well-typed. -/
def exec (s : State) : Stmt → Option State
  | .decl top m f t e =>
    match eval s.vars s.heap e with
    | some (t', v, h) =>
      if t' = t then
        if declCopies top f t e then some ⟨s.vars ++ [⟨t, m, (copy t h v).1⟩], (copy t h v).2⟩
        else some ⟨s.vars ++ [⟨t, m, v⟩], h⟩
      else none
    | none => none
  | .bind t e =>
    match eval s.vars s.heap e with
    | some (t', v, h) => if t' = t then some ⟨s.vars ++ [⟨t, false, v⟩], h⟩ else none
    | none => none
  | .assign p e =>
    match sels p.steps, eval s.vars s.heap e with
    | some ss, some (t', v, h) =>
      if assignCopies p then
        change s p.root ss (copy t' h v).2
          (fun t _ => if t' = t then some ((copy t' h v).1, (copy t' h v).2) else none)
      else change s p.root ss h (fun t _ => if t' = t then some (v, h) else none)
    | _, _ => none
  | .incr p =>
    match sels p.steps with
    | some ss => change s p.root ss s.heap (fun _ v =>
        match v with
        | .int n => some (.int (n + 1), s.heap)
        | _ => none)
    | none => none
  | .append p e =>
    match sels p.steps, eval s.vars s.heap e with
    | some ss, some (t', w, h) =>
      change s p.root ss h (fun t v => if t = .arr t' then push h w t v else none)
    | _, _ => none

/-- A statement of an accepted program. -/
def step (s : State) (c : Stmt) : Option State := if accepts s.vars c then exec s c else none

def run (s : State) : List Stmt → Option State
  | [] => some s
  | c :: cs => match step s c with
    | some s' => run s' cs
    | none => none

def init : State := ⟨[], []⟩

/-- The variable a statement writes to. -/
def target : Stmt → Option Nat
  | .decl .. => none
  | .bind .. => none
  | .assign p _ => some p.root
  | .incr p => some p.root
  | .append p _ => some p.root

/-! ## The value a program sees -/

/-- The contents of a value, all the way down. -/
inductive D where
  | int (n : Int)
  | unit
  | pair (a b : D)
  | nil
  | cons (a b : D)
  | other
  deriving DecidableEq, Repr

def D.list : List D → D
  | [] => .nil
  | d :: ds => .cons d (D.list ds)

/-- What printing or comparing the value would show. -/
def deep (h : Heap) : Ty → V → D
  | .int, .int n => .int n
  | .unit, .unit => .unit
  | .pair a b, .pair u w => .pair (deep h a u) (deep h b w)
  | .arr e, .hdl b l => D.list (((buf h b).take l).map (fun v => deep h e v))
  | _, _ => .other

/-- The value of a variable. -/
def valueOf (s : State) (x : Nat) : Option D :=
  match s.vars[x]? with
  | some v => some (deep s.heap v.ty v.val)
  | none => none

end Verif.Store

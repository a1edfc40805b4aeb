import Verif.Model.Str
import Verif.Model.Lexer
import Verif.Model.Diag

/-!
# Names in the generated C text

* Tables of names: `/repo/grayc/src/util/reserved.h` and `is_c_keyword`, `/repo/grayc/src/codegen/codegen.c:155-165`, searched with
  `bsearch`.
* `sanitize_name` (codegen.c:214-221) with its four buffers.
* Variables, blocks and loops: `emit_variable_declaration` (7402-7410, for a written type), `emit_if_statement` (8392-8458),
  `emit_loop_body_with_arena` (8461-8501), `emit_for_statement` (8503-8586), assignment to a field of a pointer (7898-7903) and
  `emit_function_declaration` (8699-8790), as far as names are concerned.
* The checks of names: `check_reserved_name` (`/repo/grayc/src/typechecker/typechecker.c:7271-7278`), E2038, E5016, E5035 (7782-7811,
  10019-10040), E4003 (8606-8613), and the scopes of blocks, loops and functions (9745-9758, 9761-9808, 10004-10156).
* Names of variables in expressions: codegen.c:1009-1047, with `is_mutable_parameter` (918-925) and the table of references (753-766).
* Names of types: `gray_type_to_c_codegen` (codegen.c:301-437).

Simplifications.
* A program is a function without result and without `&` parameters; all variables are `int` with the type written, or pointers to structs.
* An expression is the sum of some variables; of the calls in it only the check of additions is kept.
* The C scopes are those of C11, with `__auto_type` variables visible after their initial value only.
* Variables of the file, and names from other modules, are left out.
-/

namespace Verif.Names
open Verif Verif.Str

/-! ### Tables -/

/-- `bsearch` of the C library: in the entries from `lo` to before `hi`; `f` is more than their number. -/
def bsearch (tab : List Str) (key : Str) : Nat → Nat → Nat → Bool
  | 0, _, _ => false
  | f + 1, lo, hi =>
    if lo < hi then
      let mid := (lo + hi) / 2
      match tab[mid]? with
      | none => false
      | some e =>
        match Lexer.strcmp key e with
        | .eq => true
        | .lt => bsearch tab key f lo mid
        | .gt => bsearch tab key f (mid + 1) hi
    else false

def search (tab : List Str) (key : Str) : Bool := bsearch tab key (tab.length + 1) 0 tab.length

/-- `keywords` of `is_c_keyword`. -/
def cWords : List Str :=
  [lit "NULL", lit "auto", lit "bool", lit "break", lit "case", lit "char", lit "const", lit "continue", lit "default", lit "do",
   lit "double", lit "else", lit "enum", lit "extern", lit "false", lit "float", lit "for", lit "goto", lit "if", lit "inline",
   lit "int", lit "long", lit "register", lit "restrict", lit "return", lit "short", lit "signed", lit "sizeof", lit "static",
   lit "struct", lit "switch", lit "true", lit "typedef", lit "union", lit "unsigned", lit "void", lit "volatile", lit "while"]

/-- `gray_reserved_type_names` -/
def typeNames : List Str :=
  [lit "Error", lit "SourceLocation", lit "bool", lit "byte", lit "char", lit "f32", lit "f64", lit "float", lit "func",
   lit "i128", lit "i16", lit "i256", lit "i32", lit "i64", lit "i8", lit "int", lit "map", lit "nil", lit "string", lit "u128",
   lit "u16", lit "u256", lit "u32", lit "u64", lit "u8", lit "uint", lit "void"]

/-- `gray_builtin_func_names` -/
def builtinNames : List Str :=
  [lit "addr", lit "assert", lit "c_string", lit "cast", lit "char_count", lit "copy", lit "embed", lit "eprint", lit "eprintln",
   lit "error", lit "exit", lit "here", lit "input", lit "len", lit "panic", lit "print", lit "println", lit "ref",
   lit "size_of", lit "sleep_ms", lit "sleep_ns", lit "sleep_s", lit "to_char", lit "type_of"]

/-- `gray_stdlib_module_names` -/
def moduleNames : List Str :=
  [lit "arrays", lit "atomic", lit "binary", lit "bytes", lit "channels", lit "crypto", lit "csv", lit "encoding", lit "fmt",
   lit "http", lit "io", lit "json", lit "maps", lit "math", lit "mem", lit "net", lit "os", lit "random", lit "regex",
   lit "server", lit "sqlite", lit "strconv", lit "strings", lit "sync", lit "threads", lit "time", lit "uuid"]

/-- `gray_reserved_stdlib_struct_names` -/
def structNames : List Str :=
  [lit "Arena", lit "Channel", lit "Database", lit "HttpRequest", lit "HttpResponse", lit "Listener", lit "Mutex", lit "Router",
   lit "Socket", lit "SourceLocation", lit "SpinLock", lit "Thread", lit "UUID"]

/-- `is_c_keyword` -/
def isCWord (n : Str) : Bool := search cWords n

/-- What `sanitize_name` writes: at most 255 bytes. -/
def cName (n : Str) : Str := if isCWord n then (lit "_gray_" ++ n).take 255 else n

/-! ### The buffers of `sanitize_name` -/

structure Ring where
  bufs : List Str
  slot : Nat

/-- A result of `sanitize_name`: the name itself, or a buffer. -/
inductive Ptr where
  | name (s : Str)
  | buf (i : Nat)

def san (r : Ring) (n : Str) : Ptr × Ring :=
  if isCWord n then (.buf (r.slot % 4), ⟨r.bufs.set (r.slot % 4) ((lit "_gray_" ++ n).take 255), r.slot + 1⟩)
  else (.name n, r)

/-- The text a pointer leads to at a time. -/
def read (r : Ring) : Ptr → Str
  | .name s => s
  | .buf i => r.bufs.getD i []

/-- The names of an expression are written at once. -/
def sanAll : Ring → List Str → List Str × Ring
  | r, [] => ([], r)
  | r, n :: ns =>
    let q := san r n
    let t := read q.2 q.1
    let rest := sanAll q.2 ns
    (t :: rest.1, rest.2)

/-- `for v in range(a, b)` (8516, 8561-8565, 8574): the names of the loop variable where it is declared, compared and counted up. -/
def header (r : Ring) (v : Str) (a b : List Str) : Str × Str × Str :=
  let q := san r v
  let t1 := read q.2 q.1
  let ra := (sanAll q.2 a).2
  let t2 := read ra q.1
  let rb := (sanAll ra b).2
  (t1, t2, read rb q.1)

/-! ### Scopes -/

structure Var where
  name : Str
  id : Nat
  deriving DecidableEq

/-- A block of statements. Occurrences of variables carry the declaration they mean. -/
inductive Block where
  | nil
  /-- `mut x int = e` -/
  | decl (x : Var) (e : List Var) (r : Block)
  /-- `x = e` -/
  | assign (x : Var) (e : List Var) (r : Block)
  /-- `p.f = e` for a pointer `p` -/
  | setField (p : Var) (e : List Var) (r : Block)
  | ifs (c : List Var) (t f : Block) (r : Block)
  | whl (c : List Var) (b : Block) (r : Block)
  /-- `for i in range(a, b)` -/
  | forr (i : Var) (a b : List Var) (body : Block) (r : Block)

structure Func where
  params : List Var
  body : Block

/-- An identifier of the language, other than the blank `_`. -/
def isIdent (n : Str) : Bool :=
  (match n with
    | [] => false
    | c :: r => (Lexer.isAlpha c || c == 95) && r.all fun d => isAlnum d || d == 95)
  && n != [95] && decide (Lexer.lookupWord n = .ident)

/-- No E2038, E5016, E5035. -/
def notBuiltin (n : Str) : Bool := !search typeNames n && !search builtinNames n && !search moduleNames n

/-- No E4006. -/
def notReserved (n : Str) : Bool :=
  (lit "_gray_").isPrefixOf n || !((lit "gray_").isPrefixOf n || (lit "Gray").isPrefixOf n)

/-- What an occurrence means: the innermost declaration. -/
def meant (env : List Var) (n : Str) : Option Var := env.find? fun v => v.name == n

def okExpr (env : List Var) (e : List Var) : Prop := ∀ v ∈ e, meant env v.name = some v

/-- Blocks without errors of names, with occurrences that mean what is meant. `seen` are the variables of the present scope that are
declared with a line, which parameters and loop variables are not (E4003). -/
def Res : List Var → List Str → Block → Prop
  | _, _, .nil => True
  | env, seen, .decl x e r =>
    okExpr env e ∧ x.name ∉ seen ∧ isIdent x.name = true ∧ notReserved x.name = true
      ∧ (x.name.head? = some 95 ∨ notBuiltin x.name = true) ∧ Res (x :: env) (x.name :: seen) r
  | env, seen, .assign x e r => okExpr env (x :: e) ∧ Res env seen r
  | env, seen, .setField p e r => okExpr env (p :: e) ∧ Res env seen r
  | env, seen, .ifs c t f r => okExpr env c ∧ Res env [] t ∧ Res env [] f ∧ Res env seen r
  | env, seen, .whl c b r => okExpr env c ∧ Res env [] b ∧ Res env seen r
  | env, seen, .forr i a b body r =>
    okExpr env a ∧ okExpr env b ∧ isIdent i.name = true ∧ Res (i :: env) [] body ∧ Res env seen r

/-- A function without errors of names. -/
def Func.Ok (f : Func) : Prop :=
  (f.params.map Var.name).Nodup ∧ (∀ p ∈ f.params, isIdent p.name = true ∧ notBuiltin p.name = true)
    ∧ Res f.params.reverse [] f.body

/-- What a C name stands for. -/
inductive Ref where
  | user (id : Nat)
  /-- a variable of the generated text -/
  | temp
  /-- something outside of the function -/
  | ext
  deriving DecidableEq

/-- The C text, as far as scopes are concerned; occurrences carry what they mean. -/
inductive Ev where
  | opn
  | cls
  | decl (n : Str) (r : Ref)
  | use (n : Str) (r : Ref)

def ext (s : String) : Ev := .use (lit s) .ext

def emitE (e : List Var) : List Ev :=
  (if 2 ≤ e.length then [ext "gray_add_check"] else []) ++ e.map fun v => .use (cName v.name) (.user v.id)

/-- `GrayArena *_gray_outer_arena = gray_default_arena;` -/
def outer (d : Nat) : List Ev :=
  if d = 0 then [ext "GrayArena", .decl (lit "_gray_outer_arena") .temp, ext "gray_default_arena"] else []

/-- `GrayArena *a = gray_arena_create(n); GrayArena *s = gray_default_arena; gray_default_arena = a;` -/
def arenaIn (a s : Str) : List Ev :=
  [ext "GrayArena", .decl a .temp, ext "gray_arena_create", ext "GrayArena", .decl s .temp, ext "gray_default_arena",
   ext "gray_default_arena", .use a .temp]

/-- `gray_default_arena = s; gray_arena_destroy(a, __FILE__, __LINE__); free(a);` -/
def arenaOut (a s : Str) : List Ev :=
  [ext "gray_default_arena", .use s .temp, ext "gray_arena_destroy", .use a .temp, ext "free", .use a .temp]

def numbered (s : String) (n : Nat) : Str := lit s ++ Diag.dec n

/-- A block; `k` counts the `if` statements, `d` is `loop_scope_depth`. -/
def emitB : Block → Nat → Nat → List Ev × Nat
  | .nil, k, _ => ([], k)
  | .decl x e r, k, d =>
    let q := emitB r k d
    (ext "int64_t" :: .decl (cName x.name) (.user x.id) :: emitE e ++ q.1, q.2)
  | .assign x e r, k, d =>
    let q := emitB r k d
    (.use (cName x.name) (.user x.id) :: emitE e ++ q.1, q.2)
  | .setField p e r, k, d =>
    let q := emitB r k d
    (.opn :: emitE [p] ++ [.decl (lit "_dp") .temp, .use (lit "_dp") .temp, ext "gray_panic_code_at", .use (lit "_dp") .temp]
      ++ emitE e ++ [.cls] ++ q.1, q.2)
  | .ifs c t f r, k, d =>
    let a := numbered "_if_arena_" k
    let s := numbered "_if_saved_" k
    let q1 := emitB t (k + 1) (d + 1)
    let q2 := emitB f q1.2 (d + 1)
    let q := emitB r q2.2 d
    (.opn :: outer d ++ arenaIn a s ++ emitE c ++ .opn :: q1.1 ++ .cls :: .opn :: q2.1 ++ .cls :: arenaOut a s ++ [.cls] ++ q.1, q.2)
  | .whl c b r, k, d =>
    let a := numbered "_iter_arena_" d
    let s := numbered "_saved_arena_" d
    let q1 := emitB b k (d + 1)
    let q := emitB r q1.2 d
    (emitE c ++ .opn :: outer d ++ arenaIn a s ++ q1.1 ++ arenaOut a s ++ [.cls] ++ q.1, q.2)
  | .forr i a b body r, k, d =>
    let ar := numbered "_iter_arena_" d
    let s := numbered "_saved_arena_" d
    let n := cName i.name
    let q1 := emitB body k (d + 1)
    let q := emitB r q1.2 d
    ([.opn, ext "int64_t", .decl n (.user i.id)] ++ emitE a ++ .use n (.user i.id) :: emitE b ++ .use n (.user i.id) :: .opn :: outer d
      ++ arenaIn ar s ++ q1.1 ++ arenaOut ar s ++ [.cls, .cls] ++ q.1, q.2)

def emitF (f : Func) (k : Nat) : List Ev :=
  .opn :: f.params.flatMap (fun p => [ext "int64_t", .decl (cName p.name) (.user p.id)])
    ++ [ext "GrayScopeMark", .decl (lit "_scope_mark") .temp, ext "gray_scope_save", ext "gray_default_arena", ext "gray_enter_func"]
    ++ (emitB f.body k 0).1
    ++ [ext "gray_scope_restore", ext "gray_default_arena", .use (lit "_scope_mark") .temp, ext "gray_exit_func", .cls]

abbrev Stack := List (List (Str × Ref))

/-- What a C name stands for at a place. -/
def find (st : Stack) (n : Str) : Ref :=
  match st.flatten.find? fun e => e.1 == n with
  | some e => e.2
  | none => .ext

/-- Going through C text: nothing if a name is declared twice in a scope, or an occurrence does not mean what it should. -/
def run : Stack → List Ev → Option Stack
  | st, [] => some st
  | st, .opn :: r => run ([] :: st) r
  | st, .cls :: r => run st.tail r
  | [], .decl _ _ :: _ => none
  | top :: st, .decl n x :: r => if top.any fun e => e.1 == n then none else run (((n, x) :: top) :: st) r
  | st, .use n x :: r => if find st n = x then run st r else none

/-! ### Names of variables in expressions -/

/-- `_cg_consts` (1013-1025): name, module and C text. -/
def consts : List (Str × Str × Str) :=
  [(lit "PI", lit "math", lit "3.14159265358979323846"), (lit "E", lit "math", lit "2.71828182845904523536"),
   (lit "TAU", lit "math", lit "6.28318530717958647692"), (lit "PHI", lit "math", lit "1.61803398874989484820"),
   (lit "SQRT2", lit "math", lit "1.41421356237309504880"), (lit "LN2", lit "math", lit "0.69314718055994530942"),
   (lit "LN10", lit "math", lit "2.30258509299404568402"), (lit "INF", lit "math", lit "(1.0/0.0)"),
   (lit "NEG_INF", lit "math", lit "(-1.0/0.0)"), (lit "EPSILON", lit "math", lit "2.2204460492503131e-16"),
   (lit "MAC_OS", lit "os", lit "0"), (lit "LINUX", lit "os", lit "1"), (lit "WINDOWS", lit "os", lit "2"),
   (lit "OTHER", lit "os", lit "3"), (lit "O_RDONLY", lit "io", lit "0"), (lit "O_WRONLY", lit "io", lit "1"),
   (lit "O_RDWR", lit "io", lit "2"), (lit "BASE_2", lit "strconv", lit "2"), (lit "BASE_8", lit "strconv", lit "8"),
   (lit "BASE_10", lit "strconv", lit "10"), (lit "BASE_16", lit "strconv", lit "16"), (lit "BASE_36", lit "strconv", lit "36"),
   (lit "NIL_UUID", lit "uuid", lit "gray_uuid_nil()")]

inductive Out where
  | const (s : Str)
  | deref (s : Str)
  | plain (s : Str)
  deriving DecidableEq

/-- `NODE_LABEL` (1009-1047): the modules in use, the `&` parameters of the function, the table of references. -/
def emitLabel (using' : List Str) (muts refs : List Str) (n : Str) : Out :=
  match using'.findSome? (fun m => (consts.find? fun c => c.1 == n && c.2.1 == m).map fun c => c.2.2) with
  | some v => .const v
  | none => if muts.contains n then .deref (cName n) else if refs.contains n then .deref (cName n) else .plain (cName n)

/-- A step of the emission of a function: a variable that gets `ref(..)` as its value (7374-7392), or an occurrence of a variable;
`isRef` tells if the variable it means is a reference or an `&` parameter. -/
inductive Step where
  | declRef (n : Str)
  | use (n : Str) (isRef : Bool)

/-- The occurrences in a function with its `&` parameters, and the table after it. -/
def labels (using' muts : List Str) : List Step → List Str → List (Out × Str × Bool) × List Str
  | [], refs => ([], refs)
  | .declRef n :: r, refs => labels using' muts r (refs ++ [n])
  | .use n b :: r, refs =>
    let q := labels using' muts r refs
    ((emitLabel using' muts refs n, n, b) :: q.1, q.2)

/-- The functions of a program: the table is emptied before the first only (9320). -/
def allLabels (using' : List Str) : List (List Str × List Step) → List Str → List (Out × Str × Bool)
  | [], _ => []
  | (muts, f) :: r, refs =>
    let q := labels using' muts f refs
    q.1 ++ allLabels using' r q.2

/-! ### Names of types -/

/-- The names at the start of `gray_type_to_c_codegen`. -/
def builtinTypes : List (Str × Str) :=
  [(lit "int", lit "int64_t"), (lit "uint", lit "uint64_t"), (lit "i8", lit "int8_t"), (lit "i16", lit "int16_t"),
   (lit "i32", lit "int32_t"), (lit "i64", lit "int64_t"), (lit "u8", lit "uint8_t"), (lit "u16", lit "uint16_t"),
   (lit "u32", lit "uint32_t"), (lit "u64", lit "uint64_t"), (lit "i128", lit "gray_i128"), (lit "u128", lit "gray_u128"),
   (lit "i256", lit "gray_i256"), (lit "u256", lit "gray_u256"), (lit "float", lit "double"), (lit "f32", lit "float"),
   (lit "f64", lit "double"), (lit "bool", lit "bool"), (lit "char", lit "int32_t"), (lit "byte", lit "uint8_t"),
   (lit "string", lit "GrayString"), (lit "Error", lit "GrayError *"), (lit "error", lit "GrayError *"),
   (lit "HttpRequest", lit "GrayRequest"), (lit "HttpResponse", lit "GrayResponse"), (lit "Thread", lit "GrayThread"),
   (lit "Mutex", lit "GrayMutex"), (lit "SpinLock", lit "GraySpinLock"), (lit "Channel", lit "GrayChannel"),
   (lit "Socket", lit "GraySocket"), (lit "Listener", lit "GraySocket"), (lit "Database", lit "GraySqlite"),
   (lit "Router", lit "GrayRouter"), (lit "UUID", lit "GrayUUID"), (lit "func", lit "void *")]

/-- A result of `gray_type_to_c_codegen`: a text of its own, or the one buffer for user types. -/
inductive CType where
  | own (s : Str)
  | shared (s : Str)
  deriving DecidableEq

def CType.text : CType → Str
  | .own s => s
  | .shared s => s

def upper (c : Option Byte) : Bool := match c with | none => false | some c => isUpper c

/-- From after the first `_`. -/
def afterUnderscore (t : Str) : Option Str :=
  match t.dropWhile (· != 95) with
  | [] => none
  | _ :: r => some r

/-- `gray_type_to_c_codegen` without modules: the declared structs and enums, and a type; `n` bounds the depth, the texts get shorter. -/
def cType (structs enums : List Str) : Nat → Str → CType
  | 0, t => .own t
  | n + 1, t =>
    match builtinTypes.find? fun b => b.1 == t with
    | some b => .own b.2
    | none =>
      if (lit "func(").isPrefixOf t then .own (lit "void *")
      else if t.head? = some 94 then .own (((cType structs enums n t.tail).text ++ lit " *").take 255)
      else if t.head? = some 91 then .own (lit "GrayArray")
      else if (lit "map[").isPrefixOf t then .own (lit "GrayMap")
      else
        let rest := afterUnderscore t
        let qualified := match rest with | none => false | some r => upper r.head?
        if upper t.head? || qualified then
          if qualified && !(structs.contains t || enums.contains t) && rest.isSome then
            match cType structs enums n (rest.getD []) with
            | .own s => if s = rest.getD [] then .shared ((lit "GrayStruct_" ++ t).take 255) else .own s
            | .shared s => .shared s
          else if enums.contains t then .shared ((lit "GrayEnum_" ++ t).take 255)
          else .shared ((lit "GrayStruct_" ++ t).take 255)
        else .own t

/-- The C types of the key and the value of a map, as they are when both have been asked for (7218-7219, 7245). -/
def mapTypes (structs enums : List Str) (n : Nat) (k v : Str) : Str × Str :=
  match cType structs enums n k, cType structs enums n v with
  | .shared _, .shared b => (b, b)
  | a, b => (a.text, b.text)

end Verif.Names

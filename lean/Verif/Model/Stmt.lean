import Verif.Model.Parser

/-! The statement parser of `grayc/src/parser/parser.c` (lines 176-197, 1264-1986, 2123-2146, 2603-3250), and the pieces of
string and float literals (564-742).

Conventions are those of `Model/Parser.lean`: a function gets the tokens from `cur_token` on and gives those from
`peek_token` on; `none` means that an error has been reported, after which the program is not compiled (what is read after
that, and which errors follow, is not modelled). Parameters of the model are: the names of `prescan_struct_names`, the
type reader `parse_complex_type` (modelled in `Model/TypeName.lean`), the readers of struct and enum declarations and of
imports, the line of a token, and the tables of reserved names. The blocks that the parser puts in for
`or_return` and for declarations of several variables are kept as one node. `expr` gives none for `()` before a token that is
not a name, where the parser reports nothing: this is modelled for `()` at the beginning of a statement only. -/

namespace Verif.Stmt
open Verif Verif.Str Verif.Lexer Verif.Parser

inductive WhenVal where
  | pat (enum : Option Str) (implicit : Bool) (variant : Str) (binds : List Str)
  | val (e : Expr)

structure Param where
  name : Str
  mutable : Bool
  type : Option Str
  default : Option Expr
  isType : Bool

inductive Stmt where
  | expr (e : Expr)
  | assign (op : Kind) (target value : Expr)
  | decl (isPrivate mutable : Bool) (name : Str) (type : Option Str) (value : Option Expr)
  | multi (mutable : Bool) (vars : List (Str × Option Str)) (value : Expr)
  | orReturn (mutable : Bool) (name : Str) (type : Option Str) (value : Expr) (fallback : List Expr)
  | ret (values : List Expr)
  | block (body : List Stmt)
  | ifS (cond : Expr) (body : List Stmt) (alt : Option Stmt)
  | forS (var : Str) (iter : Expr) (body : List Stmt)
  | forEach (index : Option Str) (var : Str) (coll : Expr) (body : List Stmt)
  | whileS (cond : Expr) (body : List Stmt)
  | loop (body : List Stmt)
  | brk
  | cont
  | whenS (strict : Bool) (value : Expr) (cases : List (List WhenVal × Bool × List Stmt)) (dflt : Option (List Stmt))
  | ensure (e : Expr)
  | func (isPrivate : Bool) (name : Str) (params : List Param) (results : List (Option Str × Str)) (body : List Stmt)
  /-- A struct, an enum or an import: its attributes, its kind and its text. -/
  | other (attrs : List Str) (kind : Str) (text : Str)

structure Env where
  names : List Str
  ty : List Tok → Option (Str × List Tok)
  decl : List Tok → Option (Str × Str × List Tok)
  line : Tok → Nat
  reservedType : Str → Bool
  reservedParam : Str → Bool

/-- The line of the next token; only asked for when there is one. -/
def lineAt (env : Env) : List Tok → Nat
  | [] => 0
  | t :: _ => env.line t

/-- `expect_peek_token`: the tokens after it. -/
def expect (s : String) (ts : List Tok) : Option (List Tok) := if kindAt ts = sy s then some ts.tail else none

/-- `is_keyword_token` (157-173). -/
def isKeyword (k : Kind) : Bool :=
  ["mut", "const", "do", "return", "if", "or", "otherwise", "for", "for_each", "as_long_as", "loop", "break", "continue", "in",
   "not_in", "range", "import", "using", "struct", "enum", "nil", "new", "true", "false", "ensure", "or_return", "when",
   "module", "private"].any fun s => k = sy s

/-- The tokens that `synchronize_parser` stops at (184-191). -/
def isSync (k : Kind) : Bool :=
  k = .ident || ["do", "mut", "const", "return", "if", "for", "for_each", "as_long_as", "loop", "when", "import", "using",
    "break", "continue", "}"].any fun s => k = sy s

/-- `synchronize_parser` (176-197). -/
def sync (env : Env) (ts : List Tok) : List Tok :=
  (ts.dropWhile fun t => t.kind ≠ .eof && env.line t = lineAt env ts).dropWhile fun t => t.kind ≠ .eof && !isSync t.kind

/-- A statement for which `parse_grouped_expression` returns NULL and reports nothing (756-758). -/
def quiet (ts : List Tok) : Bool :=
  kindAt ts = sy "(" && kindAt ts.tail = sy ")" && kindAt ts.tail.tail ≠ .ident

/-- The tokens that begin a type (1447-1449, 1504-1506). -/
def beginsType (k : Kind) : Bool :=
  k = .ident || ["^", "[", "struct", "enum", "?"].any fun s => k = sy s

/-- `is_assignment_operator` (2989-2992). -/
def isAssign (k : Kind) : Bool := ["=", "+=", "-=", "*=", "/=", "%="].any fun s => k = sy s

def isCall : Expr → Bool
  | .call _ _ => true
  | _ => false

def hasWildcard (t : Str) : Bool := t.any (· == ch '?')

/-- An optional type. -/
def optType (env : Env) (ts : List Tok) : Option (Option Str × List Tok) :=
  if beginsType (kindAt ts) then (env.ty ts).map fun (t, r) => (some t, r) else some (none, ts)

def MAX_MULTI_VARS : Nat := 16

/-- What the loop over the names of a declaration of several variables leads to. -/
inductive Multi where
  | vars (vs : List (Str × Option Str)) (rest : List Tok)
  | error
  /-- Both arrays are written at this index. -/
  | overrun (i : Nat)

/-- The loop at 1497-1515; the variables so far are in reverse, and the next token is the comma, if any. -/
def multiVars (env : Env) : Nat → List (Str × Option Str) → List Tok → Multi
  | 0, _, _ => .error
  | f + 1, acc, ts =>
    if kindAt ts = sy "," then
      if MAX_MULTI_VARS ≤ acc.length then .overrun acc.length
      else match optType env ts.tail.tail with
        | none => .error
        | some (t, r) =>
          if acc.length + 1 > MAX_MULTI_VARS then .error
          else multiVars env f ((textAt ts.tail, t) :: acc) r
    else .vars acc.reverse ts

/-- The fallback values of `or_return` (1283-1294). -/
def fallbacks (names : List Str) : Nat → Bool → List Expr → List Tok → Option (List Expr × Bool × List Tok)
  | 0, _, _, _ => none
  | f + 1, n, acc, ts => do
    if 16 ≤ acc.length then some (acc.reverse, n, ts.tail)
    else
      let (e, n, r) ← parse names n ts
      if kindAt r = sy "," then fallbacks names f n (e :: acc) r.tail else some ((e :: acc).reverse, n, r)

/-- `maybe_apply_or_return` (1264-1375); the next token is the one after the value. -/
def orReturn (env : Env) (mutable : Bool) (name : Str) (type : Option Str) (v : Expr) (n : Bool)
    (ts : List Tok) : Option (Stmt × Bool × List Tok) :=
  if kindAt ts = sy "or_return" then
    let r := ts.tail
    if kindAt r ≠ .eof ∧ kindAt r ≠ sy ";" ∧ kindAt r ≠ sy "}" ∧ lineAt env r = lineAt env ts then do
      let (es, n, r) ← fallbacks env.names (r.length + 17) n [] r
      some (.orReturn mutable name type v es, n, r)
    else some (.orReturn mutable name type v [], n, r)
  else some (.decl false mutable name type (some v), n, ts)

/-- `= value` of a declaration (1554-1567), with `check_discard_target` (1383-1387). -/
def declValue (env : Env) (mutable : Bool) (name : Str) (type : Option Str) (n : Bool) (ts : List Tok) :
    Option (Stmt × Bool × List Tok) := do
  let (v, n, r) ← parse env.names n ts
  if name = lit "_" ∧ isCall v = false then none else orReturn env mutable name type v n r

/-- `parse_var_declaration` (1412-1570) from the name on. -/
def varDecl (env : Env) (mutable : Bool) (n : Bool) (ts : List Tok) : Option (Stmt × Bool × List Tok) :=
  if kindAt ts ≠ .ident ∧ kindAt ts ≠ sy "_" then none
  else if kindAt ts.tail = sy "nil" then none
  else match optType env ts.tail with
    | none => none
    | some (t, r) =>
      if t.any hasWildcard ∨ mutable = true ∧ (t = some (lit "struct") ∨ t = some (lit "enum")) then none
      else if textAt ts = lit "_" ∧ kindAt r ≠ sy "=" ∧ kindAt r ≠ sy "," then none
      else if kindAt r = sy "," then
        match multiVars env (r.length + 1) [(textAt ts, t)] r with
        | .vars vs r => do
          let r ← expect "=" r
          let (e, n, r) ← parse env.names n r
          some (.multi mutable vs e, n, r)
        | _ => none
      else if kindAt r = sy "=" then declValue env mutable (textAt ts) t n r.tail
      else some (.decl false mutable (textAt ts) t none, n, r)

/-- The loop over values with commas, of `return` (1582-1593). -/
def values (names : List Str) : Nat → Bool → List Expr → List Tok → Option (List Expr × Bool × List Tok)
  | 0, _, _, _ => none
  | f + 1, n, acc, ts => do
    let (e, n, r) ← parse names n ts
    if kindAt r = sy "," then values names f n (e :: acc) r.tail else some ((e :: acc).reverse, n, r)

/-- `parse_return_statement` (1572-1600) after its keyword. -/
def retS (names : List Str) (n : Bool) (ts : List Tok) : Option (Stmt × Bool × List Tok) :=
  if kindAt ts = sy "}" ∨ kindAt ts = .eof then some (.ret [], n, ts)
  else (values names (ts.length + 1) n [] ts).map fun (es, s) => (.ret es, s)

/-! ### Function declarations -/

/-- A parameter (1664-1753): the tokens from its first on. -/
def param (env : Env) (n : Bool) (ts : List Tok) : Option (Param × Bool × List Tok) :=
  let amp := kindAt ts = sy "&"
  let r := if amp then ts.tail else ts
  if kindAt r ≠ .ident ∧ kindAt r ≠ sy "_" ∨ kindAt r = .ident ∧ env.reservedParam (textAt r) = true then none
  else
    let q := r.tail
    let typed : Option (Option Str × Bool × List Tok) :=
      if kindAt q = sy "<" then do
        let q ← expect "?" q.tail
        let q ← expect ">" q
        some (some (lit "?"), true, q)
      else if kindAt q = .ident ∨ kindAt q = sy "^" ∨ kindAt q = sy "[" ∨ kindAt q = sy "?" then
        (env.ty q).map fun (t, r) => (some t, false, r)
      else if kindAt q = sy "&" then none
      else some (none, false, q)
    match typed with
    | none => none
    | some (t, ip, q) =>
      if kindAt q = sy "=" then do
        let (e, n, q) ← parse env.names n q.tail
        some (⟨textAt r, amp, t, some e, ip⟩, n, q)
      else some (⟨textAt r, amp, t, none, ip⟩, n, q)

/-- The loop over the parameters (1664-1770), and the `)` after it. After a comma the loop ends, too, when the second token
from there is `)`. -/
def paramLoop (env : Env) : Nat → Bool → List Param → List Tok → Option (List Param × Bool × List Tok)
  | 0, _, _, _ => none
  | f + 1, n, acc, ts => do
    let (p, n, r) ← param env n ts
    if kindAt r = sy "," then
      let q := r.tail
      if kindAt q = sy ")" ∨ kindAt q.tail = sy ")" ∨ kindAt q = .eof then
        let q ← expect ")" q.tail
        some ((p :: acc).reverse, n, q)
      else paramLoop env f n (p :: acc) q
    else if kindAt r = sy ")" then some ((p :: acc).reverse, n, r.tail) else none

/-- Types and defaults of grouped parameters (1777-1795), from the last to the first. -/
def backfill : List Param → Option (List Param)
  | [] => some []
  | p :: ps => do
    let qs ← backfill ps
    let p' := match p.type, qs with
      | none, q :: _ => { p with type := q.type, default := p.default.orElse fun _ => q.default }
      | _, _ => p
    if p'.type = none ∧ p'.default.isNone then none else some (p' :: qs)

/-- The parameters in parentheses, from the token after `(` on, with E2087 (1797-1810). -/
def paramList (env : Env) (n : Bool) (ts : List Tok) : Option (List Param × Bool × List Tok) :=
  if kindAt ts = sy ")" then some ([], n, ts.tail)
  else do
    let (ps, n, r) ← paramLoop env (ts.length + 1) n [] ts
    let ps ← backfill ps
    if ps.any (·.isType) ∧ ps.any (!·.isType) then none else some (ps, n, r)

/-- The names at 1862-1876 and the test for a type name of STANDARD. -/
def plainTypes : List Str :=
  ["int", "uint", "i8", "i16", "i32", "i64", "i128", "i256", "u8", "u16", "u32", "u64", "u128", "u256", "float", "f32", "f64",
   "string", "bool", "char", "byte"].map lit

def MAX_SHARED_RETURNS : Nat := 16

/-- `is_complex_type_start` (1885-1887). -/
def complexStart (ts : List Tok) : Bool :=
  textAt ts = lit "map" && kindAt ts.tail = sy "[" || textAt ts = lit "func" && kindAt ts.tail = sy "("

/-- `is_type` (1858-1882). -/
def isType (env : Env) (ts : List Tok) : Bool :=
  kindAt ts = .ident && (plainTypes.contains (textAt ts) || complexStart ts || typeName env.names (textAt ts))

/-- The names of a shared type (1911-1919): in reverse, with the tokens after them. -/
def sharedNames : Nat → List Str → List Tok → List Str × List Tok
  | 0, acc, ts => (acc, ts)
  | f + 1, acc, ts =>
    if kindAt ts = sy "," then
      let acc := textAt ts.tail :: acc
      if MAX_SHARED_RETURNS ≤ acc.length then (acc, ts.tail.tail) else sharedNames f acc ts.tail.tail
    else (acc, ts)

/-- The types of the shared names (1922-1933): `read_type_name` is called for each. -/
def sharedTypes : List Str → List (Option Str × Str) → List Tok → Option (List (Option Str × Str) × List Tok)
  | [], acc, ts => some (acc, ts)
  | x :: xs, acc, ts =>
    if MAX_SHARED_RETURNS ≤ acc.length then none
    else match xs with
      | [] => some ((some x, (readType ts).1) :: acc, (readType ts).2)
      | _ =>
        -- `cur_token` is the last token that was read
        sharedTypes xs ((some x, (readType ts).1) :: acc)
          (if kindAt ts ≠ sy "?" ∧ kindAt ts.tail = sy "." then ts.tail.tail else ts)

/-- The loop over the results in parentheses (1855-1951); the results so far are in reverse. -/
def results (env : Env) : Nat → List (Option Str × Str) → List Tok → Option (List (Option Str × Str) × List Tok)
  | 0, _, _ => none
  | f + 1, acc, ts => do
    if kindAt ts = sy ")" ∨ kindAt ts = .eof then some (acc.reverse, ts.tail)
    else
      let (acc, r) ←
        if kindAt ts = .ident ∧ complexStart ts = false ∧
            (kindAt ts.tail = .ident ∨ kindAt ts.tail = sy "?" ∨ kindAt ts.tail = sy "[" ∨ kindAt ts.tail = sy "^") then
          if MAX_SHARED_RETURNS ≤ acc.length then none
          else (env.ty ts.tail).map fun (t, r) => ((some (textAt ts), t) :: acc, r)
        else if kindAt ts = .ident ∧ kindAt ts.tail = sy "," ∧ isType env ts = false then
          let (xs, r) := sharedNames ts.length [textAt ts] ts.tail
          if kindAt r = .ident then sharedTypes xs.reverse acc r else some (acc, r)
        else if MAX_SHARED_RETURNS ≤ acc.length then none
        else (env.ty ts).map fun (t, r) => ((none, t) :: acc, r)
      results env f acc (if kindAt r = sy "," then r.tail else r)

/-- The results of a function (1812-1977), from the token after the parameters on. -/
def resultPart (env : Env) (ts : List Tok) : Option (List (Option Str × Str) × List Tok) :=
  if kindAt ts = sy "->" then
    let r := ts.tail
    if kindAt r = sy "{" ∨ kindAt r = sy "nil" then none
    else if kindAt r = sy "(" then results env (r.length + 1) [] r.tail
    else match env.ty r with
      | none => none
      | some (t, r) => if kindAt r = sy "^" then none else some ([(none, t)], r)
  else some ([], ts)

/-! ### Patterns of `when` -/

/-- The loop over the names in a pattern (2799-2804): the names and the tokens from `)` on. A comma is optional. -/
def bindNames : Nat → List Str → List Tok → Option (List Str × List Tok)
  | 0, _, _ => none
  | f + 1, acc, ts =>
    if kindAt ts = sy ")" then if acc = [] then none else some (acc.reverse, ts.tail)
    else if kindAt ts = .ident then
      bindNames f (textAt ts :: acc) (if kindAt ts.tail = sy "," then ts.tail.tail else ts.tail)
    else none

/-- The tokens of a value are a pattern (2775-2882). -/
def pattern (ts : List Tok) : Option (WhenVal × List Str × List Tok) :=
  let r := ts.tail
  if kindAt ts = .ident ∧ kindAt r = sy "(" then
    (bindNames r.length [] r.tail).map fun (bs, q) => (.pat none false (textAt ts) bs, bs, q)
  else if kindAt ts = .ident ∧ kindAt r = sy "." then
    if kindAt r.tail = .ident ∧ kindAt r.tail.tail = sy "(" then
      (bindNames r.length [] r.tail.tail.tail).map fun (bs, q) => (.pat (some (textAt ts)) false (textAt r.tail) bs, bs, q)
    else none
  else if kindAt ts = sy "." ∧ kindAt r = .ident then
    if kindAt r.tail = sy "(" then
      (bindNames r.length [] r.tail.tail).map fun (bs, q) => (.pat none true (textAt r) bs, bs, q)
    else none
  else none

/-- The values of a case (2933-2957). -/
def caseVals (names : List Str) : Nat → Bool → List WhenVal → Bool → List Tok →
    Option ((List WhenVal × Bool) × Bool × List Tok)
  | 0, _, _, _, _ => none
  | f + 1, n, acc, rg, ts => do
    let (e, n, r) ← parse names n ts
    let rg := rg || kindAt ts = sy "range"
    if kindAt r = sy "," then caseVals names f n (.val e :: acc) rg r.tail
    else some (((.val e :: acc).reverse, rg), n, r)

/-- The values or the pattern of a case. -/
def caseHead (env : Env) (ts : List Tok) : Option (List WhenVal × Bool × List Tok) :=
  match pattern ts with
  | some (p, bs, r) => if bs.any env.reservedType then none else some ([p], false, r)
  | none => (caseVals env.names (ts.length + 1) true [] false ts).map fun ((vs, rg), _, r) => (vs, rg, r)

/-! ### Statements -/

def Stmt.setPrivate : Stmt → Stmt
  | .func _ n p r b => .func true n p r b
  | .decl _ m n t v => .decl true m n t v
  | s => s

def Stmt.setStrict : Stmt → Stmt
  | .whenS _ v c d => .whenS true v c d
  | s => s

def Stmt.setFlags : Stmt → Stmt
  | .other a k t => if k = lit "enum" then .other (lit "#flags" :: a) k t else .other a k t
  | s => s

def Stmt.setJson : Stmt → Option Stmt
  | .other a k t => if k = lit "struct" then some (.other (lit "#json" :: a) k t) else none
  | _ => none

/-- The arguments of `#doc` (3156-3163): the tokens after them. -/
def skipDoc (ts : List Tok) : List Tok :=
  if kindAt ts = sy "(" then (ts.dropWhile fun t => t.kind ≠ sy ")" && t.kind ≠ .eof).tail else ts

/-- The collection of `for_each` (2677-2696). -/
def collection (names : List Str) (n : Bool) (ts : List Tok) : Option (Expr × Bool × List Tok) :=
  if kindAt ts = .ident ∧ kindAt ts.tail = sy "{" then some (.leaf .ident (textAt ts), n, ts.tail)
  else if kindAt ts = .ident ∧ kindAt ts.tail = sy "." then
    some (.member (.leaf .ident (textAt ts)) (textAt ts.tail.tail), n, ts.tail.tail.tail)
  else parse names n ts

def dropIf (b : Bool) (s : String) (ts : List Tok) : List Tok := if b = true ∧ kindAt ts = sy s then ts.tail else ts

/-- The default case, an assignment or an expression (3180-3215). -/
def simple (env : Env) (n : Bool) (ts : List Tok) : Option (Stmt × Bool × List Tok) :=
  if kindAt ts = .ident ∧ kindAt ts.tail = .ident then none
  else do
    let (e, n, r) ← parse env.names n ts
    if isAssign (kindAt r) then
      let (v, n, r') ← parse env.names n r.tail
      some (.assign (kindAt r) e v, n, r')
    else some (.expr e, n, r)

mutual

/-- `parse_statement` (2994-3217). -/
def stmt (env : Env) : Nat → Bool → List Tok → Option (Stmt × Bool × List Tok)
  | 0, _, _ => none
  | f + 1, n, ts =>
    let k := kindAt ts
    let r := ts.tail
    if k = sy "private" then (stmt env f n r).map fun (s, x) => (s.setPrivate, x)
    else if k = sy "mut" then if isKeyword (kindAt r) then none else varDecl env true n r
    else if k = sy "const" then
      if isKeyword (kindAt r) then none
      else if kindAt r = .ident ∧ (kindAt r.tail = sy "struct" ∨ kindAt r.tail = sy "enum") then
        (env.decl ts).map fun (k, t, r) => (.other [] k t, n, r)
      else varDecl env false n r
    else if k = sy "do" then
      if kindAt r = .ident then do
        let q ← expect "(" r.tail
        let (ps, n, q) ← paramList env n q
        let (rs, q) ← resultPart env q
        let q ← expect "{" q
        let (b, n, q) ← stmts env f n [] q
        some (.func false (textAt r) ps rs b, n, q)
      else none
    else if k = sy "return" then retS env.names n r
    else if k = sy "import" ∨ k = sy "using" then (env.decl ts).map fun (k, t, r) => (.other [] k t, n, r)
    else if k = sy "if" then ifS env f n r
    else if k = sy "for" then do
      let par := kindAt r = sy "("
      let r := if par then r.tail else r
      if (kindAt r = .ident ∨ kindAt r = sy "_") ∧ kindAt r.tail = sy "in" then
        if kindAt r.tail.tail = sy "range" then
          let (e, n, q) ← parse env.names n r.tail.tail
          let q ← expect "{" (dropIf par ")" q)
          let (b, n, q) ← stmts env f n [] q
          some (.forS (textAt r) e b, n, q)
        else none
      else
        let (e, n, q) ← parse env.names n r
        let q ← expect "{" (dropIf par ")" q)
        let (b, n, q) ← stmts env f n [] q
        some (.whileS e b, n, q)
    else if k = sy "for_each" then do
      let par := kindAt r = sy "("
      let r := if par then r.tail else r
      let two := kindAt r.tail = sy ","
      let v := if two then r.tail.tail else r
      let q ← expect "in" v.tail
      let (e, n, q) ← collection env.names n q
      let q ← if par then expect ")" q else some q
      let q ← expect "{" q
      let (b, n, q) ← stmts env f n [] q
      some (.forEach (if two then some (textAt r) else none) (textAt v) e b, n, q)
    else if k = sy "as_long_as" then do
      let (e, n, q) ← parse env.names n r
      let q ← expect "{" q
      let (b, n, q) ← stmts env f n [] q
      some (.whileS e b, n, q)
    else if k = sy "loop" then do
      let q ← expect "{" r
      let (b, n, q) ← stmts env f n [] q
      some (.loop b, n, q)
    else if k = sy "break" then some (.brk, n, r)
    else if k = sy "continue" then some (.cont, n, r)
    else if k = sy "when" then do
      let (e, _, q) ← parse env.names true r
      let q ← expect "{" q
      let ((cs, d), n, q) ← cases env f false [] none q
      some (.whenS false e cs d, n, q)
    else if k = sy "#strict" then (stmt env f n r).map fun (s, x) => (if kindAt r = sy "when" then s.setStrict else s, x)
    else if k = sy "#flags" then (stmt env f n r).map fun (s, x) => (s.setFlags, x)
    else if k = sy "#json" then do
      let (s, x) ← stmt env f n r
      let s ← s.setJson
      some (s, x)
    else if k = sy "#doc" then stmt env f n (skipDoc r)
    else if k = sy "ensure" then (parse env.names n r).map fun (e, s) => (.ensure e, s)
    else if k = sy "_" then if kindAt r = sy "=" then declValue env true (lit "_") none n r.tail else none
    else if k = sy "module" ∨ k = sy "#suppress" then none
    else simple env n ts

/-- The loop of `parse_block_statement` (1604-1630) after `{`: the statements so far are in reverse. The end of the file
ends it too. -/
def stmts (env : Env) : Nat → Bool → List Stmt → List Tok → Option (List Stmt × Bool × List Tok)
  | 0, _, _, _ => none
  | f + 1, n, acc, ts =>
    if kindAt ts = sy "}" ∨ kindAt ts = .eof then some (acc.reverse, n, ts.tail)
    else if quiet ts then stmts env f n acc (sync env ts.tail.tail)
    else match stmt env f n ts with
      | none => none
      | some (s, n, r) => stmts env f n (s :: acc) r

/-- `parse_if_statement` (2123-2146) after its keyword. -/
def ifS (env : Env) : Nat → Bool → List Tok → Option (Stmt × Bool × List Tok)
  | 0, _, _ => none
  | f + 1, n, ts => do
    let (c, n, r) ← parse env.names n ts
    let r ← expect "{" r
    let (b, n, r) ← stmts env f n [] r
    if kindAt r = sy "or" then
      let (a, n, r) ← ifS env f n r.tail
      some (.ifS c b (some a), n, r)
    else if kindAt r = sy "otherwise" then
      let r ← expect "{" r.tail
      let (a, n, r) ← stmts env f n [] r
      some (.ifS c b (some (.block a)), n, r)
    else some (.ifS c b none, n, r)

/-- The loop of `parse_when_statement` (2752-2976) after `{`; the cases so far are in reverse. -/
def cases (env : Env) : Nat → Bool → List (List WhenVal × Bool × List Stmt) → Option (List Stmt) → List Tok →
    Option ((List (List WhenVal × Bool × List Stmt) × Option (List Stmt)) × Bool × List Tok)
  | 0, _, _, _, _ => none
  | f + 1, n, acc, d, ts =>
    if kindAt ts = sy "}" ∨ kindAt ts = .eof then
      if acc.isEmpty ∧ d.isNone then none else some ((acc.reverse, d), n, ts.tail)
    else if kindAt ts = sy "is" then do
      let (vs, rg, r) ← caseHead env ts.tail
      let r ← expect "{" r
      let (b, n, r) ← stmts env f false [] r
      cases env f n ((vs, rg, b) :: acc) d r
    else if kindAt ts = sy "default" then
      if d.isSome then none
      else do
        let r ← expect "{" ts.tail
        let (b, n, r) ← stmts env f n [] r
        cases env f n acc (some b) r
    else cases env f n acc d ts.tail

end

/-- The loop of `parser_parse_program` (3244-3272). -/
def program (env : Env) : Nat → List Stmt → List Tok → Option (List Stmt)
  | 0, _, _ => none
  | f + 1, acc, ts =>
    if kindAt ts = .eof then some acc.reverse
    else if quiet ts then program env f acc (sync env ts.tail.tail)
    else match stmt env (3 * ts.length + 3) false ts with
      | none => none
      | some (s, _, r) => program env f (s :: acc) r

/-- `parser_parse_program`. -/
def parseProgram (env : Env) (ts : List Tok) : Option (List Stmt) := program env (ts.length + 1) [] ts

/-! ### Literals -/

/-- A piece of an interpolated string. -/
inductive Part where
  | text (s : Str)
  | code (s : Str)
  deriving DecidableEq

/-- `string_has_interpolation` (582-588). -/
def hasInterp : Str → Bool
  | [] => false
  | [_] => false
  | c :: d :: r => if c = ch '$' ∧ d = ch '{' then true else if c = ch '\\' then hasInterp r else hasInterp (d :: r)

/-- The loop that looks for the closing brace (622-626): the text before it, and what is from it on. -/
def closing : Nat → Str → Str × Str
  | 0, s => ([], s)
  | _, [] => ([], [])
  | n + 1, c :: r =>
    let n' := if c = ch '{' then n + 2 else if c = ch '}' then n else n + 1
    if n' = 0 then ([], c :: r) else (c :: (closing n' r).1, (closing n' r).2)

/-- `parse_interpolated_string` (590-711): the pieces; `seg` is the text since `seg_start`, in reverse, and `f` is more than
the length of the text. Blank code is error E2071. -/
def parts : Nat → Str → Str → Option (List Part)
  | 0, _, _ => none
  | f + 1, seg, s =>
    let flush := if seg = [] then [] else [Part.text seg.reverse]
    match s with
    | [] => some flush
    | [c] => some [.text (c :: seg).reverse]
    | c :: d :: r =>
      if c = ch '\\' then parts f (d :: c :: seg) r
      else if c = ch '$' ∧ d = ch '{' then
        if (closing 1 r).1.all isWs then none
        else do
          let ps ← parts f [] ((closing 1 r).2.drop 1)
          some (flush ++ .code (closing 1 r).1 :: ps)
      else parts f (c :: seg) (d :: r)

/-- The pieces of the text of a string token. -/
def interpolated (s : Str) : Option (List Part) := if hasInterp s then parts (s.length + 1) [] s else some [.text s]

/-- The test for error E2057 (716-727). -/
def bareDollar : Str → Bool
  | [] => false
  | [_] => false
  | c :: d :: r =>
    if c = ch '\\' then bareDollar r else if c = ch '$' ∧ (isAlpha d = true ∨ d = ch '_') then true else bareDollar (d :: r)

/-- `parse_string_literal` (711-733) reports no error of its own. -/
def stringOk (s : Str) : Bool := if hasInterp s then (interpolated s).isSome else !bareDollar s

/-- The expression of a piece of code (680-693): the parser stops after the first expression. -/
def interpExpr (names : List Str) (s : Str) : Option Expr := do
  let ts ← lex s
  let (e, _, _) ← parse names false ts
  some e

def FLOAT_LIT_BUF : Nat := 128

/-- The text that `parse_float_literal` (564-579) gives to `atof`. -/
def floatText (s : Str) : Str := if s.contains (ch '_') then (s.filter (· != ch '_')).take (FLOAT_LIT_BUF - 1) else s

end Verif.Stmt

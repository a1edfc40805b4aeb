import Verif.Model.Stmt
import Verif.Props.Parser
import Verif.Lemmas.ParseSuffix

/-! C184 to C186: statements. -/

namespace Verif.Props
open Verif Verif.Str Verif.Lexer Verif.Parser Verif.Stmt

/-! ### A grammar of statements -/

/-- The token is this keyword or sign. -/
def IsSym (t : Tok) (s : String) : Prop := t.kind = .sym (lit s)

/-- The token is a name. -/
def IsName (t : Tok) : Prop := t.kind = .ident ∧ t.text ≠ lit "_"

/-- What is written: a statement, the statements of a block, the rest of an `if` after its keyword, the cases of a `when`. -/
inductive Cat where
  | stmt (s : Stmt)
  | stmts (ss : List Stmt)
  | ifs (s : Stmt)
  | cases (cs : List (List WhenVal × Bool × List Stmt)) (d : Option (List Stmt))

/-- Values with commas between them. `L` is for the last, `X` is for the others. -/
inductive Vals (X L : Expr → List Tok → Prop) : List Expr → List Tok → Prop where
  | one {e : Expr} {w : List Tok} (h : L e w) : Vals X L [e] w
  | cons {e : Expr} {es : List Expr} {w u : List Tok} {c : Tok} (h : X e w) (hc : IsSym c ",") (hs : Vals X L es u) :
      Vals X L (e :: es) (w ++ c :: u)

/-- Names with commas between them. The last two are slips: a comma at the end, and no comma. -/
inductive BindToks (lax : Bool) : List Str → List Tok → Prop where
  | one {t : Tok} (h : t.kind = .ident) : BindToks lax [t.text] [t]
  | cons {t c : Tok} {bs : List Str} {u : List Tok} (h : t.kind = .ident) (hc : IsSym c ",") (hs : BindToks lax bs u) :
      BindToks lax (t.text :: bs) (t :: c :: u)
  | comma {t c : Tok} (hl : lax = true) (h : t.kind = .ident) (hc : IsSym c ",") : BindToks lax [t.text] [t, c]
  | join {t : Tok} {bs : List Str} {u : List Tok} (hl : lax = true) (h : t.kind = .ident) (hs : BindToks lax bs u) :
      BindToks lax (t.text :: bs) (t :: u)

/-- A pattern: `V(a, b)`, `.V(a, b)` or `E.V(a, b)`. -/
inductive PatToks (lax : Bool) : WhenVal → List Str → List Tok → Prop where
  | plain {v o c : Tok} {bs : List Str} {u : List Tok} (hv : v.kind = .ident) (ho : IsSym o "(") (hc : IsSym c ")")
      (h : BindToks lax bs u) : PatToks lax (.pat none false v.text bs) bs (v :: o :: (u ++ [c]))
  | dot {d v o c : Tok} {bs : List Str} {u : List Tok} (hd : IsSym d ".") (hv : v.kind = .ident) (ho : IsSym o "(")
      (hc : IsSym c ")") (h : BindToks lax bs u) : PatToks lax (.pat none true v.text bs) bs (d :: v :: o :: (u ++ [c]))
  | enum {x d v o c : Tok} {bs : List Str} {u : List Tok} (hx : x.kind = .ident) (hd : IsSym d ".") (hv : v.kind = .ident)
      (ho : IsSym o "(") (hc : IsSym c ")") (h : BindToks lax bs u) :
      PatToks lax (.pat (some x.text) false v.text bs) bs (x :: d :: v :: o :: (u ++ [c]))

/-- The collection of a `for_each`: a name, a member of a name, or another expression. -/
inductive Coll (wide : Bool) (Y : Expr → List Tok → Prop) : Expr → List Tok → Prop where
  | name {t : Tok} (h : t.kind = .ident) : Coll wide Y (.leaf .ident t.text) [t]
  | member {t d m : Tok} (h : t.kind = .ident) (hd : IsSym d ".") : Coll wide Y (.member (.leaf .ident t.text) m.text) [t, d, m]
  | other {e : Expr} {w : List Tok} (h : Y e w)
      (hn : wide = true ∨
        ∀ t r, w = t :: r → t.kind = .ident → ∃ d q, r = d :: q ∧ d.kind ≠ .sym (lit ".") ∧ d.kind ≠ .sym (lit "{")) :
      Coll wide Y e w

/-- How expressions (`X`, before `{` `B`), types (`T`), parameters with their `)` (`P`) and results (`Q`) are written, which statements may follow one another (`S`), which
names may be bound in a pattern (`N`), whether the forms are allowed for which C184 does not say how they are read (`wide`), and
whether the slips that the parser lets pass are allowed (`lax`). -/
structure Rules where
  X : Expr → List Tok → Prop
  B : Expr → List Tok → Prop
  T : Str → List Tok → Prop
  P : List Param → List Tok → Prop
  Q : List (Option Str × Str) → List Tok → Prop
  S : Stmt → List Stmt → List Tok → Prop
  N : Str → Prop
  wide : Bool
  lax : Bool

def assignOps : List Kind := ["=", "+=", "-=", "*=", "/=", "%="].map fun s => .sym (lit s)

/-- The attributes of a declaration. -/
def attributes : List Kind := ["private", "#strict", "#flags", "#json", "#doc"].map fun s => .sym (lit s)

/-- The statements that the grammar speaks of. -/
def Core : Stmt → Bool
  | .multi .. => false
  | .orReturn .. => false
  | .other .. => false
  | .block .. => false
  | _ => true

/-- The index variable of a `for_each`. -/
inductive Index (lax : Bool) : Option Str → List Tok → Prop where
  | none : Index lax none []
  | some {j m : Tok} (hj : j.kind = .ident ∨ lax = true) (hm : IsSym m ",") : Index lax (some j.text) [j, m]

/-- What is before the body of a loop. The last two lack a `)`. -/
inductive Head (R : Rules) : (List Stmt → Stmt) → List Tok → Prop where
  | whileL {k : Tok} {e : Expr} {w : List Tok} (hk : IsSym k "as_long_as") (h : R.B e w) : Head R (.whileS e) (k :: w)
  | cond {k : Tok} {e : Expr} {w : List Tok} (hk : IsSym k "for") (h : R.B e w) (hp : kindAt w ≠ .sym (lit "("))
      (hn : kindAt w = .ident → kindAt w.tail ≠ .sym (lit "in")) : Head R (.whileS e) (k :: w)
  | condP {k p q : Tok} {e : Expr} {w : List Tok} (hk : IsSym k "for") (hp : IsSym p "(") (h : R.X e w)
      (hn : kindAt w = .ident → kindAt w.tail ≠ .sym (lit "in")) (hq : IsSym q ")") : Head R (.whileS e) (k :: p :: (w ++ [q]))
  | range {k x i : Tok} {e : Expr} {w : List Tok} (hk : IsSym k "for") (hx : x.kind = .ident ∨ IsSym x "_") (hi : IsSym i "in")
      (h : R.B e w) (hr : kindAt w = .sym (lit "range")) : Head R (.forS x.text e) (k :: x :: i :: w)
  | rangeP {k p x i q : Tok} {e : Expr} {w : List Tok} (hk : IsSym k "for") (hp : IsSym p "(")
      (hx : x.kind = .ident ∨ IsSym x "_") (hi : IsSym i "in") (h : R.X e w) (hr : kindAt w = .sym (lit "range"))
      (hq : IsSym q ")") : Head R (.forS x.text e) (k :: p :: x :: i :: (w ++ [q]))
  | each {k x i : Tok} {ix : Option Str} {e : Expr} {v w : List Tok} (hk : IsSym k "for_each") (hv : Index R.lax ix v)
      (hx : x.kind = .ident ∨ R.lax = true) (hi : IsSym i "in") (h : Coll R.wide R.B e w) :
      Head R (.forEach ix x.text e) (k :: (v ++ x :: i :: w))
  | eachP {k p x i q : Tok} {ix : Option Str} {e : Expr} {v w : List Tok} (hk : IsSym k "for_each") (hp : IsSym p "(")
      (hv : Index R.lax ix v) (hx : x.kind = .ident ∨ R.lax = true) (hi : IsSym i "in") (h : Coll R.wide R.X e w) (hq : IsSym q ")") :
      Head R (.forEach ix x.text e) (k :: p :: (v ++ x :: i :: (w ++ [q])))
  | loop {k : Tok} (hk : IsSym k "loop") : Head R .loop [k]
  | condS {k p : Tok} {e : Expr} {w : List Tok} (hl : R.lax = true) (hk : IsSym k "for") (hp : IsSym p "(") (h : R.B e w) :
      Head R (.whileS e) (k :: p :: w)
  | rangeS {k p x i : Tok} {e : Expr} {w : List Tok} (hl : R.lax = true) (hk : IsSym k "for") (hp : IsSym p "(")
      (hx : x.kind = .ident ∨ IsSym x "_") (hi : IsSym i "in") (h : R.B e w) : Head R (.forS x.text e) (k :: p :: x :: i :: w)

/-- The statement with the mark of an attribute, or as it was. -/
inductive Marked : Stmt → Stmt → Prop where
  | same {s : Stmt} : Marked s s
  | decl {p m : Bool} {x : Str} {t : Option Str} {v : Option Expr} : Marked (.decl p m x t v) (.decl true m x t v)
  | when {b : Bool} {e : Expr} {cs : List (List WhenVal × Bool × List Stmt)} {d : Option (List Stmt)} :
      Marked (.whenS b e cs d) (.whenS true e cs d)
  | func {p : Bool} {x : Str} {ps : List Param} {rs : List (Option Str × Str)} {b : List Stmt} :
      Marked (.func p x ps rs b) (.func true x ps rs b)
  | other {s t : Stmt} (h : Core s = false) (h' : Core t = false) : Marked s t

/-- `Wr R c w`: the tokens are a way to write this. The last five are a declaration with neither type nor value,
statements that this grammar does not speak of, attributes, and the slips: attributes without effect, `()` with what is left of the
line, and tokens between the cases of a `when`. -/
inductive Wr (R : Rules) : Cat → List Tok → Prop where
  | expr {e : Expr} {w : List Tok} (h : R.X e w) : Wr R (.stmt (.expr e)) w
  | assign {e v : Expr} {o : Tok} {w u : List Tok} (h : R.X e w) (ho : o.kind ∈ assignOps) (hv : R.X v u) :
      Wr R (.stmt (.assign o.kind e v)) (w ++ o :: u)
  | decl {m : Bool} {v : Expr} {k x q : Tok} {u : List Tok} (hk : IsSym k (if m then "mut" else "const")) (hx : IsName x ∨ R.wide = true ∧ (x.kind = .ident ∨ IsSym x "_"))
      (hq : IsSym q "=") (hv : R.X v u) : Wr R (.stmt (.decl false m x.text none (some v))) (k :: x :: q :: u)
  | typed {m : Bool} {t : Str} {v : Expr} {k x q : Tok} {w u : List Tok} (hk : IsSym k (if m then "mut" else "const"))
      (hx : IsName x ∨ R.wide = true ∧ (x.kind = .ident ∨ IsSym x "_")) (ht : R.T t w) (hq : IsSym q "=") (hv : R.X v u) :
      Wr R (.stmt (.decl false m x.text (some t) (some v))) (k :: x :: (w ++ q :: u))
  | empty {m : Bool} {t : Str} {k x : Tok} {w : List Tok} (hk : IsSym k (if m then "mut" else "const")) (hx : IsName x ∨ R.wide = true ∧ (x.kind = .ident ∨ IsSym x "_"))
      (ht : R.T t w) : Wr R (.stmt (.decl false m x.text (some t) none)) (k :: x :: w)
  | discard {g : Expr} {as : List (Option Str × Expr)} {k q : Tok} {u : List Tok} (hk : IsSym k "_") (hq : IsSym q "=")
      (hv : R.X (.call g as) u) : Wr R (.stmt (.decl false true (lit "_") none (some (.call g as)))) (k :: q :: u)
  | func {k x o p c : Tok} {ps : List Param} {rs : List (Option Str × Str)} {b : List Stmt} {w v u : List Tok} (hk : IsSym k "do")
      (hx : x.kind = .ident) (ho : IsSym o "(") (hp : R.P ps w) (hr : R.Q rs v) (hb : IsSym p "{") (h : Wr R (.stmts b) u)
      (hc : IsSym c "}") : Wr R (.stmt (.func false x.text ps rs b)) (k :: x :: o :: (w ++ (v ++ p :: (u ++ [c]))))
  | ret0 {k : Tok} (hk : IsSym k "return") : Wr R (.stmt (.ret [])) [k]
  | ret {k : Tok} {es : List Expr} {w : List Tok} (hk : IsSym k "return") (h : Vals R.X R.X es w) :
      Wr R (.stmt (.ret es)) (k :: w)
  | ifS {k : Tok} {s : Stmt} {w : List Tok} (hk : IsSym k "if") (h : Wr R (.ifs s) w) : Wr R (.stmt s) (k :: w)
  | body {mk : List Stmt → Stmt} {o c : Tok} {b : List Stmt} {w u : List Tok} (h : Head R mk w) (ho : IsSym o "{")
      (hb : Wr R (.stmts b) u) (hc : IsSym c "}") : Wr R (.stmt (mk b)) (w ++ o :: (u ++ [c]))
  | brk {k : Tok} (hk : IsSym k "break") : Wr R (.stmt .brk) [k]
  | cont {k : Tok} (hk : IsSym k "continue") : Wr R (.stmt .cont) [k]
  | ensure {k : Tok} {e : Expr} {w : List Tok} (hk : IsSym k "ensure") (h : R.X e w) : Wr R (.stmt (.ensure e)) (k :: w)
  | when {k o c : Tok} {e : Expr} {cs : List (List WhenVal × Bool × List Stmt)} {d : Option (List Stmt)} {w u : List Tok}
      (hk : IsSym k "when") (h : R.B e w) (ho : IsSym o "{") (hb : Wr R (.cases cs d) u) (hc : IsSym c "}")
      (hn : cs ≠ [] ∨ d ≠ none) : Wr R (.stmt (.whenS false e cs d)) (k :: (w ++ o :: (u ++ [c])))
  | if1 {o c : Tok} {e : Expr} {b : List Stmt} {w u : List Tok} (h : R.B e w) (ho : IsSym o "{") (hb : Wr R (.stmts b) u)
      (hc : IsSym c "}") : Wr R (.ifs (.ifS e b none)) (w ++ o :: (u ++ [c]))
  | ifOr {o c k : Tok} {e : Expr} {b : List Stmt} {s : Stmt} {w u v : List Tok} (h : R.B e w) (ho : IsSym o "{")
      (hb : Wr R (.stmts b) u) (hc : IsSym c "}") (hk : IsSym k "or") (hs : Wr R (.ifs s) v) :
      Wr R (.ifs (.ifS e b (some s))) (w ++ o :: (u ++ c :: k :: v))
  | ifElse {o c k p q : Tok} {e : Expr} {b a : List Stmt} {w u v : List Tok} (h : R.B e w) (ho : IsSym o "{")
      (hb : Wr R (.stmts b) u) (hc : IsSym c "}") (hk : IsSym k "otherwise") (hp : IsSym p "{") (ha : Wr R (.stmts a) v)
      (hq : IsSym q "}") : Wr R (.ifs (.ifS e b (some (.block a)))) (w ++ o :: (u ++ c :: k :: p :: (v ++ [q])))
  | nil : Wr R (.stmts []) []
  | cons {s : Stmt} {ss : List Stmt} {w u : List Tok} (h : Wr R (.stmt s) w) (hs : Wr R (.stmts ss) u) (hf : R.S s ss u) :
      Wr R (.stmts (s :: ss)) (w ++ u)
  | noCase : Wr R (.cases [] none) []
  | vals {k o c : Tok} {es : List Expr} {b : List Stmt} {cs : List (List WhenVal × Bool × List Stmt)} {d : Option (List Stmt)}
      {rg : Bool} {w u v : List Tok} (hk : IsSym k "is") (h : Vals R.X R.B es w)
      (hp : R.wide = true ∨ rg = false ∧ ∀ t ∈ w, t.kind ≠ .sym (lit "(") ∧ t.kind ≠ .sym (lit "range"))
      (ho : IsSym o "{") (hb : Wr R (.stmts b) u) (hc : IsSym c "}") (hs : Wr R (.cases cs d) v) :
      Wr R (.cases ((es.map .val, rg, b) :: cs) d) (k :: (w ++ o :: (u ++ c :: v)))
  | pat {k o c : Tok} {p : WhenVal} {bs : List Str} {b : List Stmt} {cs : List (List WhenVal × Bool × List Stmt)}
      {d : Option (List Stmt)} {w u v : List Tok} (hk : IsSym k "is") (h : PatToks R.lax p bs w)
      (hn : ∀ b ∈ bs, R.N b)
      (ho : IsSym o "{") (hb : Wr R (.stmts b) u) (hc : IsSym c "}") (hs : Wr R (.cases cs d) v) :
      Wr R (.cases (([p], false, b) :: cs) d) (k :: (w ++ o :: (u ++ c :: v)))
  | dflt {k o c : Tok} {b : List Stmt} {cs : List (List WhenVal × Bool × List Stmt)} {u v : List Tok} (hk : IsSym k "default")
      (ho : IsSym o "{") (hb : Wr R (.stmts b) u) (hc : IsSym c "}") (hs : Wr R (.cases cs none) v) :
      Wr R (.cases cs (some b)) (k :: o :: (u ++ c :: v))
  | bare {m : Bool} {k x : Tok} (hl : R.wide = true) (hx : x.kind = .ident ∨ IsSym x "_") (hk : IsSym k (if m then "mut" else "const")) :
      Wr R (.stmt (.decl false m x.text none none)) [k, x]
  | alien {s : Stmt} {w : List Tok} (hl : R.wide = true) (hs : Core s = false) : Wr R (.stmt s) w
  | attr {s t : Stmt} {k : Tok} {a w : List Tok}
      (hl : R.lax = true ∨ R.wide = true ∧ (s ≠ t ∨ IsSym k "#doc")) (hk : k.kind ∈ attributes) (ha : ¬ IsSym k "#doc" → a = [])
      (h : Wr R (.stmt s) w) (ht : Marked s t) : Wr R (.stmt t) (k :: (a ++ w))
  | drop {o c : Tok} {ss : List Stmt} {j u : List Tok} (hl : R.lax = true) (ho : IsSym o "(") (hc : IsSym c ")")
      (hj : kindAt j ≠ .ident) (h : Wr R (.stmts ss) u) : Wr R (.stmts ss) (o :: c :: (j ++ u))
  | stray {t : Tok} {cs : List (List WhenVal × Bool × List Stmt)} {d : Option (List Stmt)} {w : List Tok} (hl : R.lax = true)
      (ht : ¬ IsSym t "is" ∧ ¬ IsSym t "default" ∧ ¬ IsSym t "}") (h : Wr R (.cases cs d) w) : Wr R (.cases cs d) (t :: w)

/-! ### C184: the statements of a block -/

def syms (l : List String) : List Kind := l.map fun s => .sym (lit s)

/-- The tokens that begin an expression. -/
def exprStarts : List Kind :=
  [.ident, .int, .float, .string, .raw, .char] ++ syms ["true", "false", "nil", "-", "!", "bit_not", ".", "(", "{", "cast", "new", "range"]

/-- The tokens that begin one of these statements. -/
def stmtStarts : List Kind :=
  exprStarts ++ syms ["mut", "const", "return", "if", "as_long_as", "for", "for_each", "loop", "break", "continue", "ensure", "when", "do", "_"]

/-- The tokens that begin a type. -/
def typeStarts : List Kind := .ident :: syms ["^", "[", "?"]

/-- These tokens are read as this expression, whatever follows, as long as `P` holds of it. (C56, C131 and C132 say which are.) -/
def Reads (names : List Str) (P : List Tok → Prop) (e : Expr) (w : List Tok) : Prop :=
  kindAt w ∈ exprStarts ∧ ∀ n rest, P rest → ∃ n', parse names n (w ++ rest) = some (e, n', rest) ∧ (n = false → n' = false)

/-- What follows does not go on with an expression and is not `{`. -/
def AtEnd (rest : List Tok) : Prop := EndsExpr rest ∧ kindAt rest ≠ .sym (lit "{")

def AtBrace (rest : List Tok) : Prop := kindAt rest = .sym (lit "{")

/-- A block or the file ends, or a statement begins that does not begin like an operand. -/
def Stop (rest : List Tok) : Prop := AtEnd rest ∧ kindAt rest ∈ .eof :: .sym (lit "}") :: stmtStarts

/-- These tokens are read as this type, before `=` and before the next statement. -/
def TypeReads (env : Env) (t : Str) (w : List Tok) : Prop :=
  kindAt w ∈ typeStarts ∧ ch '?' ∉ t ∧ t ≠ lit "struct" ∧ t ≠ lit "enum" ∧
    ∀ rest, Stop rest ∨ kindAt rest = .sym (lit "=") → env.ty (w ++ rest) = some (t, rest)

def isName : Stmt → Bool
  | .expr (.leaf .ident _) => true
  | _ => false

/-- The next statement does not begin with an operator, `(`, `[`, `.` or `{`. -/
def Starts (_ : Stmt) (_ : List Stmt) (u : List Tok) : Prop := AtEnd u

/-- Moreover a `return` without values is the last statement of its block, and a name alone is not followed by a name. -/
def StartsMore (s : Stmt) (_ : List Stmt) (u : List Tok) : Prop :=
  AtEnd u ∧ (s = .ret [] → u = []) ∧ (isName s = true → kindAt u ≠ .ident)

/-- These tokens and what is written of a function after them: parameters and results. -/
def ParamsRead (env : Env) (ps : List Param) (w : List Tok) : Prop :=
  ∀ rest, paramList env false (w ++ rest) = some (ps, false, rest)

def ResultsRead (env : Env) (rs : List (Option Str × Str)) (w : List Tok) : Prop :=
  ∀ rest, AtBrace rest → resultPart env (w ++ rest) = some (rs, rest)

/-- Statements without slips. -/
def rules (env : Env) (S : Stmt → List Stmt → List Tok → Prop) : Rules :=
  ⟨Reads env.names AtEnd, Reads env.names AtBrace, TypeReads env, ParamsRead env, ResultsRead env, S, fun b => env.reservedType b = false, false, false⟩

namespace St

local macro "skips" : tactic => `(tactic| repeat (refine (if_neg (by decide)).trans ?_))
local macro "here" : tactic => `(tactic| refine (if_pos (by decide)).trans ?_)

theorem reads {names : List Str} {P : List Tok → Prop} {e : Expr} {w rest : List Tok} (h : Reads names P e w) (hp : P rest) :
    parse names false (w ++ rest) = some (e, false, rest) := by
  obtain ⟨n', h1, h2⟩ := h.2 false rest hp
  rw [h1, h2 rfl]

theorem reads_ne {names : List Str} {P : List Tok → Prop} {e : Expr} {w : List Tok} (h : Reads names P e w) : w ≠ [] := by
  rintro rfl
  exact absurd h.1 (by decide +kernel)

theorem kindAt_append {w r : List Tok} (h : w ≠ []) : kindAt (w ++ r) = kindAt w := by
  cases w with
  | nil => exact absurd rfl h
  | cons => rfl

theorem expect_cons {t : Tok} {s : String} {r : List Tok} (h : IsSym t s) : Stmt.expect s (t :: r) = some r := if_pos h

theorem atEnd_of {t : Tok} {r : List Tok} {s : String} (h : IsSym t s)
    (hs : s ∈ [",", "}", ")", "=", "+=", "-=", "*=", "/=", "%="]) : AtEnd (t :: r) := by
  have k1 : ∀ s ∈ [",", "}", ")", "=", "+=", "-=", "*=", "/=", "%="], prec (.sym (lit s)) = 0 ∧ Kind.sym (lit s) ≠ .sym (lit "{") := by
    decide +kernel
  have h : t.kind = .sym (lit s) := h
  refine ⟨Ps.ends_iff.2 ?_, ?_⟩
  · show prec t.kind = 0
    rw [h]; exact (k1 s hs).1
  · show t.kind ≠ _
    rw [h]; exact (k1 s hs).2

theorem vals_pos {names : List Str} {P Q : List Tok → Prop} {es : List Expr} {w : List Tok}
    (h : Vals (Reads names P) (Reads names Q) es w) : kindAt w ∈ exprStarts := by
  cases h with
  | one h => exact h.1
  | cons h => rw [kindAt_append (reads_ne h)]; exact h.1

theorem starts_ne {w : List Tok} (h : kindAt w ∈ exprStarts) : w ≠ [] := by
  rintro rfl
  exact absurd h (by decide +kernel)

theorem vals_ok {names : List Str} {es : List Expr} {w : List Tok} (h : Vals (Reads names AtEnd) (Reads names AtEnd) es w) :
    ∀ (f : Nat) (acc : List Expr) (rest : List Tok), w.length ≤ f → AtEnd rest → kindAt rest ≠ .sym (lit ",") →
      values names f false acc (w ++ rest) = some (acc.reverse ++ es, false, rest) := by
  induction h with
  | @one e w h =>
    intro f acc rest hf hr hc
    have := List.length_pos_iff.2 (reads_ne h)
    obtain ⟨f, rfl⟩ : ∃ g, f = g + 1 := ⟨f - 1, by omega⟩
    rw [values, reads h hr]
    refine (if_neg hc).trans ?_
    simp
  | @cons e es w u c h hc hs ih =>
    intro f acc rest hf hr hk
    have := List.length_pos_iff.2 (reads_ne h)
    rw [List.length_append, List.length_cons] at hf
    obtain ⟨f, rfl⟩ : ∃ g, f = g + 1 := ⟨f - 1, by omega⟩
    rw [values, List.append_assoc, List.cons_append, reads h (atEnd_of hc (by decide))]
    refine (if_pos hc).trans ?_
    rw [List.tail_cons, ih f _ rest (by omega) hr hk]
    simp

theorem stop_ne {rest : List Tok} (h : Stop rest) :
    kindAt rest ≠ .sym (lit ",") ∧ isAssign (kindAt rest) = false ∧ kindAt rest ≠ sy "or_return" ∧ kindAt rest ≠ sy "or" ∧
      kindAt rest ≠ sy "otherwise" ∧ kindAt rest ≠ sy "=" := by
  have key : ∀ k ∈ Kind.eof :: .sym (lit "}") :: stmtStarts, k ≠ .sym (lit ",") ∧ isAssign k = false ∧ k ≠ sy "or_return" ∧
      k ≠ sy "or" ∧ k ≠ sy "otherwise" ∧ k ≠ sy "=" := by decide +kernel
  exact key _ h.2

theorem assign_mem {k : Kind} (h : k ∈ assignOps) : isAssign k = true ∧ ∃ s ∈ ["=", "+=", "-=", "*=", "/=", "%="], k = .sym (lit s) := by
  have key : ∀ k ∈ assignOps, isAssign k = true ∧ ∃ s ∈ ["=", "+=", "-=", "*=", "/=", "%="], k = .sym (lit s) := by decide +kernel
  exact key k h

/-- A statement that begins like an expression. -/
theorem stmt_simple {env : Env} {f : Nat} {n : Bool} {ts : List Tok} (h : kindAt ts ∈ exprStarts) :
    stmt env (f + 1) n ts = simple env n ts := by
  have key : ∀ k ∈ exprStarts, ∀ s ∈ ["private", "mut", "const", "do", "return", "import", "using", "if", "for", "for_each",
      "as_long_as", "loop", "break", "continue", "when", "#strict", "#flags", "#json", "#doc", "ensure", "_", "module",
      "#suppress"], k ≠ sy s := by decide +kernel
  have key := key _ h
  rw [stmt]
  simp only [List.mem_cons, List.not_mem_nil, or_false, forall_eq_or_imp, forall_eq] at key
  obtain ⟨h1, h2, h3, h4, h5, h6, h7, h8, h9, h10, h11, h12, h13, h14, h15, h16, h17, h18, h19, h20, h21, h22, h23⟩ := key
  refine (if_neg h1).trans ((if_neg h2).trans ((if_neg h3).trans ((if_neg h4).trans ((if_neg h5).trans ?_))))
  refine (if_neg (not_or.2 ⟨h6, h7⟩)).trans ((if_neg h8).trans ((if_neg h9).trans ((if_neg h10).trans ((if_neg h11).trans ?_))))
  refine (if_neg h12).trans ((if_neg h13).trans ((if_neg h14).trans ((if_neg h15).trans ((if_neg h16).trans ?_))))
  refine (if_neg h17).trans ((if_neg h18).trans ((if_neg h19).trans ((if_neg h20).trans ((if_neg h21).trans ?_))))
  exact if_neg (not_or.2 ⟨h22, h23⟩)

/-- The parser does not see a declaration with a forgotten keyword where it reads an expression. -/
theorem simple_parse {env : Env} {n n' : Bool} {e : Expr} {ts r : List Tok} (h : parse env.names n ts = some (e, n', r))
    (hn : kindAt ts = .ident → kindAt ts.tail = .ident → False) :
    simple env n ts = if isAssign (kindAt r) then
      (parse env.names n' r.tail).bind fun x => some (.assign (kindAt r) e x.1, x.2.1, x.2.2) else some (.expr e, n', r) := by
  rw [simple]
  refine (if_neg fun hh => hn hh.1 hh.2).trans ?_
  rw [h]
  rfl

theorem parse_two {names : List Str} {n : Bool} {t : Tok} {r : List Tok} (ht : t.kind = .ident) (hr : kindAt r = .ident) :
    parse names n (t :: r) = some (.leaf .ident t.text, n, r) := by
  unfold parse
  rw [Ps.expr_step (by decide), show 4 * (t :: r).length + 3 = (4 * r.length + 6) + 1 by simp; omega,
    Ps.prefix_ident ht (by rw [hr]; decide) (fun h => by rw [hr] at h; cases h)]
  exact Ps.loop_stop (by rw [hr]; decide +kernel)

theorem two_names {names : List Str} {P : List Tok → Prop} {e : Expr} {w rest : List Tok} (h : Reads names P e w) (hp : P rest)
    (h1 : kindAt (w ++ rest) = .ident) (h2 : kindAt (w ++ rest).tail = .ident) : isName (.expr e) = true ∧ kindAt rest = .ident := by
  cases w with
  | nil => exact absurd rfl (reads_ne h)
  | cons t w =>
    have h3 := reads h hp
    rw [List.cons_append] at h3
    rw [parse_two h1 (show kindAt (w ++ rest) = .ident from h2)] at h3
    simp only [Option.some.injEq, Prod.mk.injEq] at h3
    rw [← h3.1, ← h3.2.2]
    exact ⟨rfl, h2⟩

/-- What follows a statement, beyond `Stop`. -/
def After (s : Stmt) (rest : List Tok) : Prop :=
  (s = .ret [] → kindAt rest = .sym (lit "}") ∨ kindAt rest = .eof) ∧ (isName s = true → kindAt rest ≠ .ident)

variable {env : Env}

theorem expr_ok {e : Expr} {w rest : List Tok} {f : Nat} (h : Reads env.names AtEnd e w) (hr : Stop rest) (ha : After (.expr e) rest) :
    stmt env (f + 1) false (w ++ rest) = some (.expr e, false, rest) := by
  rw [stmt_simple (by rw [kindAt_append (reads_ne h)]; exact h.1), simple_parse (reads h hr.1)]
  · exact if_neg (by rw [(stop_ne hr).2.1]; decide)
  · intro h1 h2
    have := two_names h hr.1 h1 h2
    exact ha.2 this.1 this.2

theorem assign_ok {e v : Expr} {o : Tok} {w u rest : List Tok} {f : Nat} (h : Reads env.names AtEnd e w) (ho : o.kind ∈ assignOps)
    (hv : Reads env.names AtEnd v u) (hr : Stop rest) :
    stmt env (f + 1) false (w ++ o :: u ++ rest) = some (.assign o.kind e v, false, rest) := by
  obtain ⟨h1, s, hs, ho'⟩ := assign_mem ho
  have hA : AtEnd (o :: (u ++ rest)) := by
    refine atEnd_of (s := s) ho' ?_
    have key : ∀ s ∈ ["=", "+=", "-=", "*=", "/=", "%="], s ∈ [",", "}", ")", "=", "+=", "-=", "*=", "/=", "%="] := by decide
    exact key s hs
  rw [List.append_assoc, List.cons_append, stmt_simple (by rw [kindAt_append (reads_ne h)]; exact h.1), simple_parse (reads h hA)]
  · refine (if_pos h1).trans ?_
    rw [List.tail_cons, reads hv hr.1]
    rfl
  · intro h1 h2
    have := (two_names h hA h1 h2).2
    have this : o.kind = .ident := this
    rw [this] at ho'
    cases ho'

theorem type_wild {t : Str} (h : ch '?' ∉ t) : Option.any hasWildcard (some t) = false := by
  show hasWildcard t = false
  unfold hasWildcard
  rw [List.any_eq_false]
  intro c hc e
  exact h (by rw [beq_iff_eq] at e; rw [← e]; exact hc)

theorem type_start {w : List Tok} (h : kindAt w ∈ typeStarts) :
    w ≠ [] ∧ beginsType (kindAt w) = true ∧ kindAt w ≠ sy "nil" ∧ kindAt w ≠ sy "struct" ∧ kindAt w ≠ sy "enum" := by
  have key : ∀ k ∈ typeStarts, k ≠ .eof ∧ beginsType k = true ∧ k ≠ sy "nil" ∧ k ≠ sy "struct" ∧ k ≠ sy "enum" := by decide +kernel
  refine ⟨?_, (key _ h).2⟩
  rintro rfl
  exact (key _ h).1 rfl

/-- `=` and the value. -/
theorem value_ok {m : Bool} {x : Str} {t : Option Str} {v : Expr} {u rest : List Tok} (hx : x ≠ lit "_")
    (hv : Reads env.names AtEnd v u) (hr : Stop rest) :
    declValue env m x t false (u ++ rest) = some (.decl false m x t (some v), false, rest) := by
  rw [declValue, reads hv hr.1]
  refine (if_neg fun h => hx h.1).trans ?_
  exact if_neg (stop_ne hr).2.2.1

/-- A declaration from its name on: what the type and the token after it lead to. -/
theorem varDecl_eq {m n : Bool} {x : Tok} {r q : List Tok} {t : Option Str} (hx : x.kind = .ident) (hn : kindAt r ≠ sy "nil")
    (ht : optType env r = some (t, q)) (hw : t.any hasWildcard = false) (hs : t ≠ some (lit "struct") ∧ t ≠ some (lit "enum"))
    (hb : x.text ≠ lit "_") (hc : kindAt q ≠ sy ",") :
    varDecl env m n (x :: r) = if kindAt q = sy "=" then declValue env m x.text t n q.tail else
      some (.decl false m x.text t none, n, q) := by
  rw [varDecl]
  refine (if_neg fun h => h.1 hx).trans ?_
  refine (if_neg hn).trans ?_
  rw [List.tail_cons, ht]
  refine (if_neg ?_).trans ?_
  · rintro (h | ⟨_, h | h⟩)
    · rw [hw] at h; cases h
    · exact hs.1 h
    · exact hs.2 h
  refine (if_neg fun h => hb h.1).trans ?_
  exact if_neg hc

theorem mut_eq {n : Bool} {f : Nat} {k : Tok} {r : List Tok} (hk : IsSym k "mut") (hr : kindAt r = .ident) :
    stmt env (f + 1) n (k :: r) = varDecl env true n r := by
  rw [stmt]
  simp only [show kindAt (k :: r) = sy "mut" from hk, List.tail_cons, hr]
  skips
  here
  exact if_neg (by decide)

theorem const_eq {n : Bool} {f : Nat} {k : Tok} {r : List Tok} (hk : IsSym k "const") (hr : kindAt r = .ident)
    (hs : kindAt r.tail ≠ sy "struct") (he : kindAt r.tail ≠ sy "enum") :
    stmt env (f + 1) n (k :: r) = varDecl env false n r := by
  rw [stmt]
  simp only [show kindAt (k :: r) = sy "const" from hk, List.tail_cons, hr]
  skips
  here
  refine (if_neg (by decide)).trans ?_
  exact if_neg fun h => h.2.elim hs he

theorem decl_eq {m n : Bool} {f : Nat} {k x : Tok} {r : List Tok} (hk : IsSym k (if m then "mut" else "const"))
    (hx : x.kind = .ident) (hs : kindAt r ≠ sy "struct") (he : kindAt r ≠ sy "enum") :
    stmt env (f + 1) n (k :: x :: r) = varDecl env m n (x :: r) := by
  cases m with
  | true => exact mut_eq hk hx
  | false => exact const_eq hk hx hs he

theorem decl_ok {m : Bool} {v : Expr} {k x q : Tok} {u rest : List Tok} {f : Nat} (hk : IsSym k (if m then "mut" else "const"))
    (hx : IsName x) (hq : IsSym q "=") (hv : Reads env.names AtEnd v u) (hr : Stop rest) :
    stmt env (f + 1) false (k :: x :: q :: u ++ rest) = some (.decl false m x.text none (some v), false, rest) := by
  have hq : kindAt (q :: (u ++ rest)) = sy "=" := hq
  show stmt env (f + 1) false (k :: x :: q :: (u ++ rest)) = _
  have ht : optType env (q :: (u ++ rest)) = some (none, q :: (u ++ rest)) := if_neg (by rw [hq]; decide)
  rw [decl_eq hk hx.1 (by rw [hq]; decide) (by rw [hq]; decide),
    varDecl_eq hx.1 (by rw [hq]; decide) ht rfl ⟨by decide, by decide⟩ hx.2 (by rw [hq]; decide)]
  refine (if_pos hq).trans ?_
  exact value_ok hx.2 hv hr

theorem typed_ok {m : Bool} {t : Str} {v : Expr} {k x q : Tok} {w u rest : List Tok} {f : Nat}
    (hk : IsSym k (if m then "mut" else "const")) (hx : IsName x) (ht : TypeReads env t w) (hq : IsSym q "=")
    (hv : Reads env.names AtEnd v u) (hr : Stop rest) :
    stmt env (f + 1) false (k :: x :: (w ++ q :: u) ++ rest) = some (.decl false m x.text (some t) (some v), false, rest) := by
  have hq : kindAt (q :: (u ++ rest)) = sy "=" := hq
  obtain ⟨h1, h2, h3, h4, h5⟩ := type_start ht.1
  have e : k :: x :: (w ++ q :: u) ++ rest = k :: x :: (w ++ q :: (u ++ rest)) := by simp
  have hh : kindAt (w ++ q :: (u ++ rest)) = kindAt w := kindAt_append h1
  have hty : optType env (w ++ q :: (u ++ rest)) = some (some t, q :: (u ++ rest)) := by
    refine (if_pos (by rw [hh]; exact h2)).trans ?_
    rw [ht.2.2.2.2 _ (.inr hq)]
    rfl
  rw [e, decl_eq hk hx.1 (by rw [hh]; exact h4) (by rw [hh]; exact h5),
    varDecl_eq hx.1 (by rw [hh]; exact h3) hty (type_wild ht.2.1)
      ⟨fun h => ht.2.2.1 (Option.some.inj h), fun h => ht.2.2.2.1 (Option.some.inj h)⟩ hx.2 (by rw [hq]; decide)]
  refine (if_pos hq).trans ?_
  exact value_ok hx.2 hv hr

theorem empty_ok {m : Bool} {t : Str} {k x : Tok} {w rest : List Tok} {f : Nat} (hk : IsSym k (if m then "mut" else "const"))
    (hx : IsName x) (ht : TypeReads env t w) (hr : Stop rest) :
    stmt env (f + 1) false (k :: x :: w ++ rest) = some (.decl false m x.text (some t) none, false, rest) := by
  obtain ⟨h1, h2, h3, h4, h5⟩ := type_start ht.1
  have e : k :: x :: w ++ rest = k :: x :: (w ++ rest) := by simp
  have hh : kindAt (w ++ rest) = kindAt w := kindAt_append h1
  have hty : optType env (w ++ rest) = some (some t, rest) := by
    refine (if_pos (by rw [hh]; exact h2)).trans ?_
    rw [ht.2.2.2.2 _ (.inl hr)]
    rfl
  rw [e, decl_eq hk hx.1 (by rw [hh]; exact h4) (by rw [hh]; exact h5),
    varDecl_eq hx.1 (by rw [hh]; exact h3) hty (type_wild ht.2.1)
      ⟨fun h => ht.2.2.1 (Option.some.inj h), fun h => ht.2.2.2.1 (Option.some.inj h)⟩ hx.2 (stop_ne hr).1]
  exact if_neg (stop_ne hr).2.2.2.2.2

theorem ret_eq {n : Bool} {f : Nat} {k : Tok} {r : List Tok} (hk : IsSym k "return") :
    stmt env (f + 1) n (k :: r) = retS env.names n r := by
  rw [stmt]
  simp only [show kindAt (k :: r) = sy "return" from hk, List.tail_cons]
  skips
  here
  rfl

theorem ret0_ok {k : Tok} {rest : List Tok} {f : Nat} (hk : IsSym k "return")
    (hr : kindAt rest = .sym (lit "}") ∨ kindAt rest = .eof) : stmt env (f + 1) false ([k] ++ rest) = some (.ret [], false, rest) := by
  rw [List.singleton_append, ret_eq hk]
  exact if_pos hr

theorem ret_ok {k : Tok} {es : List Expr} {w rest : List Tok} {f : Nat} (hk : IsSym k "return")
    (h : Vals (Reads env.names AtEnd) (Reads env.names AtEnd) es w) (hr : Stop rest) :
    stmt env (f + 1) false (k :: w ++ rest) = some (.ret es, false, rest) := by
  have key : ∀ k ∈ exprStarts, k ≠ .sym (lit "}") ∧ k ≠ .eof := by decide +kernel
  have h1 := vals_pos h
  rw [List.cons_append, ret_eq hk, retS]
  refine (if_neg ?_).trans ?_
  · rw [kindAt_append (starts_ne h1)]
    exact fun hh => hh.elim (key _ h1).1 (key _ h1).2
  · rw [vals_ok h _ _ _ (by rw [List.length_append]; omega) hr.1 (stop_ne hr).1]
    rfl

theorem discard_ok {g : Expr} {as : List (Option Str × Expr)} {k q : Tok} {u rest : List Tok} {f : Nat} (hk : IsSym k "_")
    (hq : IsSym q "=") (hv : Reads env.names AtEnd (.call g as) u) (hr : Stop rest) :
    stmt env (f + 1) false (k :: q :: u ++ rest) = some (.decl false true (lit "_") none (some (.call g as)), false, rest) := by
  rw [stmt]
  rw [show k :: q :: u ++ rest = k :: q :: (u ++ rest) from rfl]
  simp only [show kindAt (k :: q :: (u ++ rest)) = sy "_" from hk, List.tail_cons]
  skips
  here
  refine (if_pos hq).trans ?_
  rw [declValue, reads hv hr.1]
  exact if_neg (stop_ne hr).2.2.1

theorem func_ok {k x o p : Tok} {ps : List Param} {rs : List (Option Str × Str)} {w v r : List Tok} {f : Nat} (hk : IsSym k "do")
    (hx : x.kind = .ident) (ho : IsSym o "(") (hp : ParamsRead env ps w) (hr : ResultsRead env rs v) (hb : IsSym p "{") :
    stmt env (f + 1) false (k :: x :: o :: (w ++ (v ++ p :: r))) =
      (stmts env f false [] r).bind fun y => some (.func false x.text ps rs y.1, y.2.1, y.2.2) := by
  rw [stmt]
  simp only [show kindAt (k :: x :: o :: (w ++ (v ++ p :: r))) = sy "do" from hk, List.tail_cons]
  skips
  here
  refine (if_pos hx).trans ?_
  simp only [Option.bind_eq_bind, expect_cons ho, Option.bind_some, hp (v ++ p :: r), hr (p :: r) hb, expect_cons hb, textAt]

theorem brk_ok {k : Tok} {rest : List Tok} {f : Nat} (hk : IsSym k "break") :
    stmt env (f + 1) false ([k] ++ rest) = some (.brk, false, rest) := by
  rw [List.singleton_append, stmt]
  simp only [show kindAt (k :: rest) = sy "break" from hk, List.tail_cons]
  skips
  here
  rfl

theorem cont_ok {k : Tok} {rest : List Tok} {f : Nat} (hk : IsSym k "continue") :
    stmt env (f + 1) false ([k] ++ rest) = some (.cont, false, rest) := by
  rw [List.singleton_append, stmt]
  simp only [show kindAt (k :: rest) = sy "continue" from hk, List.tail_cons]
  skips
  here
  rfl

theorem ensure_ok {k : Tok} {e : Expr} {w rest : List Tok} {f : Nat} (hk : IsSym k "ensure") (h : Reads env.names AtEnd e w)
    (hr : Stop rest) : stmt env (f + 1) false (k :: w ++ rest) = some (.ensure e, false, rest) := by
  rw [List.cons_append, stmt]
  simp only [show kindAt (k :: (w ++ rest)) = sy "ensure" from hk, List.tail_cons]
  skips
  here
  rw [reads h hr.1]
  rfl

theorem if_eq {n : Bool} {f : Nat} {k : Tok} {r : List Tok} (hk : IsSym k "if") : stmt env (f + 1) n (k :: r) = Stmt.ifS env f n r := by
  rw [stmt]
  simp only [show kindAt (k :: r) = sy "if" from hk, List.tail_cons]
  skips
  here
  rfl

theorem when_ok {k o : Tok} {e : Expr} {w r : List Tok} {f : Nat} (hk : IsSym k "when") (h : Reads env.names AtBrace e w)
    (ho : IsSym o "{") : stmt env (f + 1) false (k :: (w ++ o :: r)) =
      (Stmt.cases env f false [] none r).bind fun x => some (.whenS false e x.1.1 x.1.2, x.2.1, x.2.2) := by
  rw [stmt]
  simp only [show kindAt (k :: (w ++ o :: r)) = sy "when" from hk, List.tail_cons]
  skips
  here
  obtain ⟨n', h1, _⟩ := h.2 true (o :: r) ho
  rw [h1]
  simp only [Option.bind_eq_bind, Option.bind_some, expect_cons ho]

theorem name_parse {names : List Str} {t : Tok} {r : List Tok} (ht : t.kind = .ident) (hr : AtEnd r) :
    parse names false (t :: r) = some (.leaf .ident t.text, false, r) := by
  have h0 := Ps.ends_iff.1 hr.1
  unfold parse
  rw [Ps.expr_step (by decide), show 4 * (t :: r).length + 3 = (4 * r.length + 6) + 1 by simp; omega,
    Ps.prefix_ident ht (fun h => by rw [h, Ps.dot_prec] at h0; cases h0) (fun h => absurd h hr.2)]
  exact Ps.loop_stop (by omega)

theorem coll_ok {names : List Str} {P : List Tok → Prop} {e : Expr} {w : List Tok} {o : Tok} {r : List Tok}
    (h : Coll false (Reads names P) e w) (ho : P (o :: r)) (hp : IsSym o "{" ∨ AtEnd (o :: r)) :
    collection names false (w ++ o :: r) = some (e, false, o :: r) := by
  cases h with
  | name ht =>
    rcases hp with hp | hp
    · exact if_pos ⟨ht, hp⟩
    · refine (if_neg fun h => hp.2 h.2).trans ((if_neg fun h => ?_).trans (name_parse ht hp))
      have h0 := Ps.ends_iff.1 hp.1
      rw [show kindAt (o :: r) = sy "." from h.2, Ps.dot_prec] at h0
      cases h0
  | @member t d m ht hd =>
    refine (if_neg fun h => ?_).trans (if_pos ⟨ht, hd⟩)
    have hd : d.kind = sy "." := hd
    have h : d.kind = sy "{" := h.2
    rw [hd] at h
    exact absurd h (by decide)
  | other h hn =>
    cases w with
    | nil => exact absurd rfl (reads_ne h)
    | cons t w =>
      have h' : ¬ (kindAt (t :: w ++ o :: r) = .ident ∧ kindAt (t :: w ++ o :: r).tail = sy "{") := by
        rintro ⟨h1, h2⟩
        obtain ⟨d, q, rfl, h3, h4⟩ := (hn.resolve_left (by decide)) t w rfl h1
        exact h4 h2
      have h'' : ¬ (kindAt (t :: w ++ o :: r) = .ident ∧ kindAt (t :: w ++ o :: r).tail = sy ".") := by
        rintro ⟨h1, h2⟩
        obtain ⟨d, q, rfl, h3, h4⟩ := (hn.resolve_left (by decide)) t w rfl h1
        exact h3 h2
      exact (if_neg h').trans ((if_neg h'').trans (reads h ho))

theorem each_ok {ix : Option Str} {k x i o : Tok} {par : List Tok} {e : Expr} {v w r : List Tok} {f : Nat}
    (hk : IsSym k "for_each") (hp : par = [] ∨ ∃ p, par = [p] ∧ IsSym p "(") (hv : Index false ix v) (hx : x.kind = .ident)
    (hi : IsSym i "in") {q : List Tok} (hq : par = [] ∧ q = [] ∨ par ≠ [] ∧ ∃ c, q = [c] ∧ IsSym c ")")
    (hc : collection env.names false (w ++ (q ++ o :: r)) = some (e, false, q ++ o :: r)) (ho : IsSym o "{") :
    stmt env (f + 1) false (k :: (par ++ (v ++ x :: i :: (w ++ (q ++ o :: r))))) =
      (stmts env f false [] r).bind fun y => some (.forEach ix x.text e y.1, y.2.1, y.2.2) := by
  have hx0 : x.kind ≠ sy "(" := by rw [hx]; decide
  have hi' : i.kind ≠ sy "," := by
    have hi : i.kind = sy "in" := hi
    rw [hi]; decide
  rw [stmt]
  simp only [show kindAt (k :: (par ++ (v ++ x :: i :: (w ++ (q ++ o :: r))))) = sy "for_each" from hk, List.tail_cons]
  skips
  here
  rcases hp with rfl | ⟨p, rfl, hp⟩
  · obtain rfl : q = [] := by
      rcases hq with h | h
      · exact h.2
      · exact absurd rfl h.1
    cases hv with
    | none =>
      simp only [List.nil_append, show kindAt (x :: i :: (w ++ o :: r)) ≠ sy "(" from hx0, if_false, List.tail_cons,
        show kindAt (i :: (w ++ o :: r)) ≠ sy "," from hi', expect_cons hi, Option.bind_eq_bind, Option.bind_some]
      rw [List.nil_append] at hc
      rw [hc]
      simp only [Option.bind_some, expect_cons ho, textAt]
    | @some j m hj hm =>
      have hj : j.kind = .ident := hj.resolve_right (by decide)
      have hj0 : j.kind ≠ sy "(" := by rw [hj]; decide
      simp only [List.nil_append, List.cons_append, show kindAt (j :: m :: x :: i :: (w ++ o :: r)) ≠ sy "(" from hj0, if_false,
        List.tail_cons, show kindAt (m :: x :: i :: (w ++ o :: r)) = sy "," from hm, if_true, expect_cons hi, Option.bind_eq_bind,
        Option.bind_some]
      rw [List.nil_append] at hc
      rw [hc]
      simp only [Option.bind_some, expect_cons ho, textAt]
  · obtain ⟨c, rfl, hcl⟩ : ∃ c, q = [c] ∧ IsSym c ")" := by
      rcases hq with h | h
      · exact absurd h.1 (by simp)
      · exact h.2
    cases hv with
    | none =>
      simp only [List.nil_append, List.cons_append, show kindAt (p :: x :: i :: (w ++ c :: o :: r)) = sy "(" from hp, if_true,
        List.tail_cons, show kindAt (i :: (w ++ c :: o :: r)) ≠ sy "," from hi', if_false, expect_cons hi, Option.bind_eq_bind,
        Option.bind_some]
      rw [List.singleton_append] at hc
      rw [hc]
      simp only [Option.bind_some, expect_cons ho, expect_cons hcl, textAt]
    | @some j m hj hm =>
      simp only [List.nil_append, List.cons_append, show kindAt (p :: j :: m :: x :: i :: (w ++ c :: o :: r)) = sy "(" from hp,
        List.tail_cons, show kindAt (m :: x :: i :: (w ++ c :: o :: r)) = sy "," from hm, if_true, expect_cons hi,
        Option.bind_eq_bind, Option.bind_some]
      rw [List.singleton_append] at hc
      rw [hc]
      simp only [Option.bind_some, expect_cons ho, expect_cons hcl, textAt]

theorem drop_none {b : Bool} {s : String} {ts : List Tok} (h : kindAt ts ≠ sy s) : dropIf b s ts = ts := if_neg fun h' => h h'.2

/-- `for` with an optional parenthesis and a condition. -/
theorem cond_ok {k o : Tok} {par q : List Tok} {e : Expr} {w r : List Tok} {f : Nat} (hk : IsSym k "for")
    (hp : par = [] ∧ q = [] ∧ kindAt w ≠ sy "(" ∨ ∃ p c, par = [p] ∧ IsSym p "(" ∧ q = [c] ∧ IsSym c ")") (hw : w ≠ [])
    (hn : kindAt w = .ident → kindAt w.tail ≠ sy "in") (hb : kindAt w ≠ sy "_") (hi : ∀ t, w = [t] → kindAt (q ++ o :: r) ≠ sy "in")
    (h : parse env.names false (w ++ (q ++ o :: r)) = some (e, false, q ++ o :: r)) (ho : IsSym o "{") :
    stmt env (f + 1) false (k :: (par ++ (w ++ (q ++ o :: r)))) =
      (stmts env f false [] r).bind fun y => some (.whileS e y.1, y.2.1, y.2.2) := by
  have ho' : kindAt (o :: r) ≠ sy ")" := by
    have ho : kindAt (o :: r) = sy "{" := ho
    rw [ho]; decide
  have hh : kindAt (w ++ (q ++ o :: r)) = kindAt w := kindAt_append hw
  have hin : ¬ ((kindAt (w ++ (q ++ o :: r)) = .ident ∨ kindAt (w ++ (q ++ o :: r)) = sy "_") ∧
      kindAt (w ++ (q ++ o :: r)).tail = sy "in") := by
    rintro ⟨h1, h2⟩
    rw [hh] at h1
    have h1 := h1.resolve_right hb
    match w, hw, h1, h2 with
    | [t], _, h1, h2 => exact hi t rfl h2
    | t :: u :: w, _, h1, h2 => exact hn h1 h2
  rw [stmt]
  simp only [show kindAt (k :: (par ++ (w ++ (q ++ o :: r)))) = sy "for" from hk, List.tail_cons]
  skips
  here
  rcases hp with ⟨rfl, rfl, hp⟩ | ⟨p, c, rfl, hp, rfl, hc⟩
  · simp only [List.nil_append] at hin h ⊢
    have hp : kindAt (w ++ o :: r) ≠ sy "(" := by
      rw [kindAt_append hw]; exact hp
    simp only [hp, if_false, hin, h, Option.bind_eq_bind, Option.bind_some, drop_none ho', expect_cons ho]
  · simp only [List.singleton_append] at hin h ⊢
    have hd : dropIf true ")" (c :: o :: r) = o :: r := if_pos ⟨rfl, hc⟩
    simp only [show kindAt (p :: (w ++ c :: o :: r)) = sy "(" from hp, if_true, List.tail_cons, hin, if_false, h,
      Option.bind_eq_bind, Option.bind_some, hd, expect_cons ho, decide_true]

/-- `for` with an optional parenthesis and a range. -/
theorem range_ok {k x i o : Tok} {par q : List Tok} {e : Expr} {w r : List Tok} {f : Nat} (hk : IsSym k "for")
    (hp : par = [] ∧ q = [] ∨ ∃ p c, par = [p] ∧ IsSym p "(" ∧ q = [c] ∧ IsSym c ")") (hw : kindAt w = sy "range")
    (hx : x.kind = .ident ∨ IsSym x "_") (hi : IsSym i "in")
    (h : parse env.names false (w ++ (q ++ o :: r)) = some (e, false, q ++ o :: r)) (ho : IsSym o "{") :
    stmt env (f + 1) false (k :: (par ++ (x :: i :: (w ++ (q ++ o :: r))))) =
      (stmts env f false [] r).bind fun y => some (.forS x.text e y.1, y.2.1, y.2.2) := by
  have ho' : kindAt (o :: r) ≠ sy ")" := by
    have ho : kindAt (o :: r) = sy "{" := ho
    rw [ho]; decide
  have hw' : w ≠ [] := by
    rintro rfl
    exact absurd hw (by decide)
  have hx' : x.kind ≠ sy "(" := by
    rcases hx with hx | hx
    · rw [hx]; decide
    · have hx : x.kind = sy "_" := hx
      rw [hx]; decide
  rw [stmt]
  simp only [show kindAt (k :: (par ++ (x :: i :: (w ++ (q ++ o :: r))))) = sy "for" from hk, List.tail_cons]
  skips
  here
  rcases hp with ⟨rfl, rfl⟩ | ⟨p, c, rfl, hp, rfl, hc⟩
  · simp only [List.nil_append] at h ⊢
    have hh : kindAt (w ++ o :: r) = sy "range" := by rw [kindAt_append hw', hw]
    have hin : (kindAt (x :: i :: (w ++ o :: r)) = .ident ∨ kindAt (x :: i :: (w ++ o :: r)) = sy "_") ∧
      kindAt (x :: i :: (w ++ o :: r)).tail = sy "in" := ⟨hx, hi⟩
    simp only [show kindAt (x :: i :: (w ++ o :: r)) ≠ sy "(" from hx', if_false, hin, hh, h, Option.bind_eq_bind, Option.bind_some,
      drop_none ho', expect_cons ho, List.tail_cons, textAt, if_true]
    exact if_pos ⟨trivial, hi⟩
  · simp only [List.singleton_append] at h ⊢
    have hh : kindAt (w ++ c :: o :: r) = sy "range" := by rw [kindAt_append hw', hw]
    have hin : (kindAt (x :: i :: (w ++ c :: o :: r)) = .ident ∨ kindAt (x :: i :: (w ++ c :: o :: r)) = sy "_") ∧
      kindAt (x :: i :: (w ++ c :: o :: r)).tail = sy "in" := ⟨hx, hi⟩
    have hd : dropIf true ")" (c :: o :: r) = o :: r := if_pos ⟨rfl, hc⟩
    simp only [show kindAt (p :: x :: i :: (w ++ c :: o :: r)) = sy "(" from hp, if_true, hh, h,
      Option.bind_eq_bind, Option.bind_some, hd, expect_cons ho, List.tail_cons, textAt, decide_true]
    exact if_pos hin

theorem while_ok {k o : Tok} {e : Expr} {w r : List Tok} {f : Nat} (hk : IsSym k "as_long_as") (h : Reads env.names AtBrace e w)
    (ho : IsSym o "{") : stmt env (f + 1) false (k :: (w ++ o :: r)) =
      (stmts env f false [] r).bind fun y => some (.whileS e y.1, y.2.1, y.2.2) := by
  rw [stmt]
  simp only [show kindAt (k :: (w ++ o :: r)) = sy "as_long_as" from hk, List.tail_cons]
  skips
  here
  simp only [reads h (rest := o :: r) ho, Option.bind_eq_bind, Option.bind_some, expect_cons ho]

theorem loop_ok {k o : Tok} {r : List Tok} {f : Nat} (hk : IsSym k "loop") (ho : IsSym o "{") :
    stmt env (f + 1) false (k :: o :: r) = (stmts env f false [] r).bind fun y => some (.loop y.1, y.2.1, y.2.2) := by
  rw [stmt]
  simp only [show kindAt (k :: o :: r) = sy "loop" from hk, List.tail_cons]
  skips
  here
  simp only [Option.bind_eq_bind, Option.bind_some, expect_cons ho]

theorem head_ok {S : Stmt → List Stmt → List Tok → Prop} {mk : List Stmt → Stmt} {w : List Tok} (h : Head (rules env S) mk w) :
    kindAt w ∈ stmtStarts ∧ ∀ (f : Nat) (o : Tok) (r : List Tok), IsSym o "{" → stmt env (f + 1) false (w ++ o :: r) =
      (stmts env f false [] r).bind fun y => some (mk y.1, y.2.1, y.2.2) := by
  have hu : ∀ k ∈ exprStarts, k ≠ sy "_" := by decide +kernel
  cases h with
  | whileL hk h => exact ⟨by show Tok.kind _ ∈ _; rw [hk]; decide +kernel, fun f o r ho => while_ok hk h ho⟩
  | @cond k e w hk h hp hn =>
    refine ⟨by show Tok.kind _ ∈ _; rw [hk]; decide +kernel, fun f o r ho => ?_⟩
    have h : Reads env.names AtBrace _ _ := h
    have e1 : k :: w ++ o :: r = k :: ([] ++ (w ++ ([] ++ o :: r))) := rfl
    rw [e1]
    exact cond_ok (q := []) hk (.inl ⟨rfl, rfl, hp⟩) (reads_ne h) hn (hu _ h.1)
      (fun t _ => by rw [List.nil_append, show kindAt (o :: r) = sy "{" from ho]; decide) (reads h ho) ho
  | @condP k p q e w hk hp h hn hq =>
    refine ⟨by show Tok.kind _ ∈ _; rw [hk]; decide +kernel, fun f o r ho => ?_⟩
    have h : Reads env.names AtEnd _ _ := h
    have e1 : k :: p :: (w ++ [q]) ++ o :: r = k :: ([p] ++ (w ++ ([q] ++ o :: r))) := by simp
    rw [e1]
    exact cond_ok (q := [q]) hk (.inr ⟨p, q, rfl, hp, rfl, hq⟩) (reads_ne h) hn (hu _ h.1)
      (fun t _ => by rw [List.singleton_append, show kindAt (q :: o :: r) = sy ")" from hq]; decide)
      (reads h (atEnd_of hq (by decide))) ho
  | @range k x i e w hk hx hi h hr =>
    refine ⟨by show Tok.kind _ ∈ _; rw [hk]; decide +kernel, fun f o r ho => ?_⟩
    have e1 : k :: x :: i :: w ++ o :: r = k :: ([] ++ (x :: i :: (w ++ ([] ++ o :: r)))) := rfl
    rw [e1]
    exact range_ok (q := []) hk (.inl ⟨rfl, rfl⟩) hr hx hi (reads h ho) ho
  | @rangeP k p x i q e w hk hp hx hi h hr hq =>
    refine ⟨by show Tok.kind _ ∈ _; rw [hk]; decide +kernel, fun f o r ho => ?_⟩
    have e1 : k :: p :: x :: i :: (w ++ [q]) ++ o :: r = k :: ([p] ++ (x :: i :: (w ++ ([q] ++ o :: r)))) := by simp
    rw [e1]
    exact range_ok (q := [q]) hk (.inr ⟨p, q, rfl, hp, rfl, hq⟩) hr hx hi (reads h (atEnd_of hq (by decide))) ho
  | @each k x i ix e v w hk hv hx hi h =>
    refine ⟨by show Tok.kind _ ∈ _; rw [hk]; decide +kernel, fun f o r ho => ?_⟩
    have e1 : k :: (v ++ x :: i :: w) ++ o :: r = k :: ([] ++ (v ++ x :: i :: (w ++ ([] ++ o :: r)))) := by simp
    rw [e1]
    exact each_ok hk (.inl rfl) hv (hx.resolve_right (by intro h; cases h)) hi (.inl ⟨rfl, rfl⟩) (coll_ok h ho (.inl ho)) ho
  | @eachP k p x i q ix e v w hk hp hv hx hi h hq =>
    refine ⟨by show Tok.kind _ ∈ _; rw [hk]; decide +kernel, fun f o r ho => ?_⟩
    have e1 : k :: p :: (v ++ x :: i :: (w ++ [q])) ++ o :: r = k :: ([p] ++ (v ++ x :: i :: (w ++ ([q] ++ o :: r)))) := by simp
    rw [e1]
    exact each_ok hk (.inr ⟨p, rfl, hp⟩) hv (hx.resolve_right (by intro h; cases h)) hi (.inr ⟨by simp, q, rfl, hq⟩)
      (coll_ok h (atEnd_of hq (by decide)) (.inr (atEnd_of hq (by decide)))) ho
  | loop hk => exact ⟨by show Tok.kind _ ∈ _; rw [hk]; decide +kernel, fun f o r ho => loop_ok hk ho⟩
  | condS hl => cases hl
  | rangeS hl => cases hl

/-! Cases -/

theorem bind_ok {bs : List Str} {u : List Tok} (h : BindToks false bs u) : ∀ (f : Nat) (acc : List Str) (c : Tok) (r : List Tok),
    u.length + 1 ≤ f → IsSym c ")" → bindNames f acc (u ++ c :: r) = some (acc.reverse ++ bs, r) := by
  induction h with
  | @one t h =>
    intro f acc c r hf hc
    rw [List.length_singleton] at hf
    obtain ⟨f, rfl⟩ : ∃ g, f = g + 2 := ⟨f - 2, by omega⟩
    have hc : c.kind = sy ")" := hc
    have h1 : ¬ kindAt ([t] ++ c :: r) = sy ")" := by show ¬ t.kind = _; rw [h]; decide
    have h2 : ¬ kindAt ([t] ++ c :: r).tail = sy "," := by show ¬ c.kind = _; rw [hc]; decide
    rw [bindNames]
    refine (if_neg h1).trans ((if_pos h).trans ?_)
    rw [if_neg h2, bindNames]
    refine (if_pos hc).trans ((if_neg (by simp)).trans ?_)
    simp [textAt]
  | comma hl => cases hl
  | join hl => cases hl
  | @cons t m bs u h hm hs ih =>
    intro f acc c r hf hc
    simp only [List.length_cons] at hf
    obtain ⟨f, rfl⟩ : ∃ g, f = g + 1 := ⟨f - 1, by omega⟩
    have h1 : ¬ kindAt (t :: m :: u ++ c :: r) = sy ")" := by show ¬ t.kind = _; rw [h]; decide
    rw [bindNames]
    refine (if_neg h1).trans ((if_pos h).trans ?_)
    rw [if_pos (show kindAt (t :: m :: u ++ c :: r).tail = sy "," from hm)]
    show bindNames f (t.text :: acc) (u ++ c :: r) = _
    rw [ih f _ c r (by omega) hc]
    simp

theorem pat_ok {p : WhenVal} {bs : List Str} {w : List Tok} (h : PatToks false p bs w) (r : List Tok) :
    pattern (w ++ r) = some (p, bs, r) := by
  cases h with
  | @plain v o c bs u hv ho hc h =>
    have e : v :: o :: (u ++ [c]) ++ r = v :: o :: (u ++ c :: r) := by simp
    rw [e, pattern]
    refine (if_pos ⟨hv, ho⟩).trans ?_
    simp only [List.tail_cons]
    rw [bind_ok h _ _ c r (by simp) hc]
    rfl
  | @dot d v o c bs u hd hv ho hc h =>
    have e : d :: v :: o :: (u ++ [c]) ++ r = d :: v :: o :: (u ++ c :: r) := by simp
    have hd : d.kind = sy "." := hd
    have h1 : ¬ d.kind = .ident := by rw [hd]; decide
    rw [e, pattern]
    refine (if_neg fun h => h1 h.1).trans ((if_neg fun h => h1 h.1).trans ((if_pos ⟨hd, hv⟩).trans ((if_pos ho).trans ?_)))
    simp only [List.tail_cons]
    rw [bind_ok h _ _ c r (by simp; omega) hc]
    rfl
  | @enum x d v o c bs u hx hd hv ho hc h =>
    have e : x :: d :: v :: o :: (u ++ [c]) ++ r = x :: d :: v :: o :: (u ++ c :: r) := by simp
    have hd : d.kind = sy "." := hd
    have h1 : ¬ d.kind = sy "(" := by rw [hd]; decide
    rw [e, pattern]
    refine (if_neg fun h => h1 h.2).trans ((if_pos ⟨hx, hd⟩).trans ((if_pos ⟨hv, ho⟩).trans ?_))
    simp only [List.tail_cons]
    rw [bind_ok h _ _ c r (by simp; omega) hc]
    rfl

/-- Values without parentheses are not a pattern. -/
theorem not_pat {w : List Tok} {o : Tok} {r : List Tok} (hw : ∀ t ∈ w, t.kind ≠ sy "(") (ho : IsSym o "{") (hn : w ≠ []) :
    pattern (w ++ o :: r) = none := by
  have ho : o.kind = sy "{" := ho
  have ho1 : ¬ o.kind = sy "(" := by rw [ho]; decide
  have ho2 : ¬ o.kind = sy "." := by rw [ho]; decide
  have ho3 : ¬ o.kind = .ident := by rw [ho]; decide
  match w, hn, hw with
  | [a], _, hw =>
    refine (if_neg fun h => ho1 h.2).trans ((if_neg fun h => ho2 h.2).trans (if_neg fun h => ho3 h.2))
  | [a, b], _, hw =>
    have hb := hw b (by simp)
    refine (if_neg fun h => hb h.2).trans ?_
    by_cases h1 : kindAt ([a, b] ++ o :: r) = .ident ∧ kindAt ([a, b] ++ o :: r).tail = sy "."
    · exact (if_pos h1).trans (if_neg fun h => ho3 h.1)
    · refine (if_neg h1).trans ?_
      by_cases h2 : kindAt ([a, b] ++ o :: r) = sy "." ∧ kindAt ([a, b] ++ o :: r).tail = .ident
      · exact (if_pos h2).trans (if_neg ho1)
      · exact if_neg h2
  | a :: b :: c :: w, _, hw =>
    have hb := hw b (by simp)
    have hc := hw c (by simp)
    have hd : kindAt (w ++ o :: r) ≠ sy "(" := by
      cases w with
      | nil => exact ho1
      | cons d w => exact hw d (by simp)
    refine (if_neg fun h => hb h.2).trans ?_
    by_cases h1 : kindAt (a :: b :: c :: w ++ o :: r) = .ident ∧ kindAt (a :: b :: c :: w ++ o :: r).tail = sy "."
    · exact (if_pos h1).trans (if_neg fun h => hd h.2)
    · refine (if_neg h1).trans ?_
      by_cases h2 : kindAt (a :: b :: c :: w ++ o :: r) = sy "." ∧ kindAt (a :: b :: c :: w ++ o :: r).tail = .ident
      · exact (if_pos h2).trans (if_neg hc)
      · exact if_neg h2

theorem caseVals_ok {names : List Str} {es : List Expr} {w : List Tok} (h : Vals (Reads names AtEnd) (Reads names AtBrace) es w)
    (hw : ∀ t ∈ w, t.kind ≠ sy "range") :
    ∀ (f : Nat) (n : Bool) (acc : List WhenVal) (o : Tok) (r : List Tok), w.length ≤ f → IsSym o "{" →
      ∃ n', caseVals names f n acc false (w ++ o :: r) = some ((acc.reverse ++ es.map .val, false), n', o :: r) := by
  induction h with
  | @one e w h =>
    intro f n acc o r hf ho
    have := List.length_pos_iff.2 (reads_ne h)
    obtain ⟨f, rfl⟩ : ∃ g, f = g + 1 := ⟨f - 1, by omega⟩
    obtain ⟨n', h1, _⟩ := h.2 n (o :: r) ho
    have ho : kindAt (o :: r) = sy "{" := ho
    have h2 : kindAt (w ++ o :: r) ≠ sy "range" := by
      rw [kindAt_append (reads_ne h)]
      cases w with
      | nil => exact absurd rfl (reads_ne h)
      | cons t w => exact hw t (by simp)
    refine ⟨n', ?_⟩
    rw [caseVals, h1]
    refine (if_neg (by show ¬ kindAt (o :: r) = _; rw [ho]; decide)).trans ?_
    simp [h2]
  | @cons e es w u c h hc hs ih =>
    intro f n acc o r hf ho
    have := List.length_pos_iff.2 (reads_ne h)
    rw [List.length_append, List.length_cons] at hf
    obtain ⟨f, rfl⟩ : ∃ g, f = g + 1 := ⟨f - 1, by omega⟩
    obtain ⟨n1, h1, _⟩ := h.2 n (c :: (u ++ o :: r)) (atEnd_of hc (by decide))
    have h2 : kindAt (w ++ c :: (u ++ o :: r)) ≠ sy "range" := by
      rw [kindAt_append (reads_ne h)]
      cases w with
      | nil => exact absurd rfl (reads_ne h)
      | cons t w => exact hw t (by simp)
    obtain ⟨n2, h3⟩ := ih (fun t ht => hw t (by simp [ht])) f n1 (.val e :: acc) o r (by omega) ho
    refine ⟨n2, ?_⟩
    rw [List.append_assoc, List.cons_append, caseVals, h1]
    refine (if_pos hc).trans ?_
    rw [List.tail_cons, show (false || decide (kindAt (w ++ c :: (u ++ o :: r)) = sy "range")) = false by simp [h2], h3]
    simp

/-- What holds of a way to write something. -/
def Good (env : Env) : Cat → List Tok → Prop
  | .stmt s, w => kindAt w ∈ stmtStarts ∧ ∀ f rest, 3 * w.length ≤ f → Stop rest → After s rest →
      stmt env f false (w ++ rest) = some (s, false, rest)
  | .stmts ss, w => (w = [] ∨ kindAt w ∈ stmtStarts) ∧ (w = [] → ss = []) ∧ ∀ f acc (c : Tok) rest, 3 * w.length + 2 ≤ f →
      IsSym c "}" → stmts env f false acc (w ++ c :: rest) = some (acc.reverse ++ ss, false, rest)
  | .ifs s, w => isName s = false ∧ w ≠ [] ∧ ∀ f rest, 3 * w.length ≤ f → Stop rest → Stmt.ifS env f false (w ++ rest) = some (s, false, rest)
  | .cases cs d, w => ∀ f acc d0 (c : Tok) rest, 3 * w.length + 2 ≤ f → IsSym c "}" → (d0 = none ∨ d = none) →
      ¬ (acc = [] ∧ cs = [] ∧ d0 = none ∧ d = none) →
      Stmt.cases env f false acc d0 (w ++ c :: rest) = some ((acc.reverse ++ cs, d0.or d), false, rest)

theorem starts_ne' {w : List Tok} (h : kindAt w ∈ stmtStarts) : w ≠ [] := by
  rintro rfl
  exact absurd h (by decide +kernel)

theorem expr_starts {k : Kind} (h : k ∈ exprStarts) : k ∈ stmtStarts := List.mem_append_left _ h

theorem kind_start {t : Tok} {r : List Tok} {s : String} (h : IsSym t s) (hs : Kind.sym (lit s) ∈ stmtStarts) :
    kindAt (t :: r) ∈ stmtStarts := by
  show t.kind ∈ _
  have h : t.kind = _ := h
  rw [h]; exact hs

theorem atEnd_head {u v : List Tok} (h : u ≠ []) : AtEnd (u ++ v) ↔ AtEnd u := by
  unfold AtEnd
  rw [Ps.ends_iff, Ps.ends_iff, kindAt_append h]

theorem quiet_parse {names : List Str} {n : Bool} {ts : List Tok} (h : quiet ts = true) : parse names n ts = none := by
  simp only [quiet, Bool.and_eq_true, decide_eq_true_eq] at h
  obtain ⟨⟨h1, h2⟩, h3⟩ := h
  unfold parse
  rw [Ps.expr_step (by decide), prefixE]
  rw [if_neg (by rw [h1]; decide), if_neg (by rw [h1]; decide), if_neg (by rw [h1]; decide), if_neg (by rw [h1]; decide),
    if_pos h1, if_pos h2, if_neg h3]

theorem quiet_none {f : Nat} {n : Bool} {ts : List Tok} (h : quiet ts = true) : stmt env (f + 1) n ts = none := by
  have h1 : kindAt ts = sy "(" := by
    simp only [quiet, Bool.and_eq_true, decide_eq_true_eq] at h
    exact h.1.1
  rw [stmt_simple (by rw [h1]; decide +kernel), simple]
  refine (if_neg fun h2 => ?_).trans ?_
  · rw [h1] at h2
    exact absurd h2.1 (by decide)
  · rw [quiet_parse h]
    rfl

theorem stmts_end {f : Nat} {n : Bool} {acc : List Stmt} {c : Tok} {r : List Tok} (hc : IsSym c "}") :
    stmts env (f + 1) n acc (c :: r) = some (acc.reverse, n, r) := by
  rw [stmts]
  exact if_pos (.inl hc)

theorem stmts_step {f : Nat} {n n' : Bool} {acc : List Stmt} {s : Stmt} {ts r : List Tok} (hk : kindAt ts ∈ stmtStarts)
    (h : stmt env f n ts = some (s, n', r)) : stmts env (f + 1) n acc ts = stmts env f n' (s :: acc) r := by
  have key : ∀ k ∈ stmtStarts, k ≠ sy "}" ∧ k ≠ .eof := by decide +kernel
  rw [stmts]
  refine (if_neg fun hh => hh.elim (key _ hk).1 (key _ hk).2).trans ((if_neg fun hq => ?_).trans ?_)
  · cases f with
    | zero => rw [stmt] at h; cases h
    | succ f => rw [quiet_none hq] at h; cases h
  · rw [h]

theorem body_ok {f : Nat} {α : Type} {o c : Tok} {b : List Stmt} {u rest : List Tok} {g : List Stmt × Bool × List Tok → Option α}
    (hb : Good env (.stmts b) u) (hf : 3 * u.length + 2 ≤ f) (hc : IsSym c "}") :
    (stmts env f false [] (u ++ c :: rest)).bind g = g (b, false, rest) := by
  rw [hb.2.2 f [] c rest hf hc]
  rfl

theorem stop_close {c : Tok} {r : List Tok} (hc : IsSym c "}") : Stop (c :: r) := by
  refine ⟨atEnd_of hc (by decide), ?_⟩
  have hc : kindAt (c :: r) = _ := hc
  rw [hc]; decide +kernel

theorem wr_good {c : Cat} {w : List Tok} (h : Wr (rules env StartsMore) c w) : Good env c w := by
  induction h with
  | @expr e w h =>
    have h : Reads env.names AtEnd e w := h
    refine ⟨expr_starts h.1, fun f rest hf hr ha => ?_⟩
    have := List.length_pos_iff.2 (reads_ne h)
    obtain ⟨f, rfl⟩ : ∃ g, f = g + 1 := ⟨f - 1, by omega⟩
    exact expr_ok h hr ha
  | @assign e v o w u h ho hv =>
    have h : Reads env.names AtEnd e w := h
    refine ⟨by rw [kindAt_append (reads_ne h)]; exact expr_starts h.1, fun f rest hf hr ha => ?_⟩
    simp only [List.length_append, List.length_cons] at hf
    obtain ⟨f, rfl⟩ : ∃ g, f = g + 1 := ⟨f - 1, by omega⟩
    exact assign_ok h ho hv hr
  | @decl m v k x q u hk hx hq hv =>
    refine ⟨by cases m <;> exact kind_start hk (by decide +kernel), fun f rest hf hr ha => ?_⟩
    simp only [List.length_cons] at hf
    obtain ⟨f, rfl⟩ : ∃ g, f = g + 1 := ⟨f - 1, by omega⟩
    exact decl_ok hk (hx.resolve_right (by intro h; cases h.1)) hq hv hr
  | @typed m t v k x q w u hk hx ht hq hv =>
    refine ⟨by cases m <;> exact kind_start hk (by decide +kernel), fun f rest hf hr ha => ?_⟩
    simp only [List.length_cons] at hf
    obtain ⟨f, rfl⟩ : ∃ g, f = g + 1 := ⟨f - 1, by omega⟩
    exact typed_ok hk (hx.resolve_right (by intro h; cases h.1)) ht hq hv hr
  | @empty m t k x w hk hx ht =>
    refine ⟨by cases m <;> exact kind_start hk (by decide +kernel), fun f rest hf hr ha => ?_⟩
    simp only [List.length_cons] at hf
    obtain ⟨f, rfl⟩ : ∃ g, f = g + 1 := ⟨f - 1, by omega⟩
    exact empty_ok hk (hx.resolve_right (by intro h; cases h.1)) ht hr
  | @discard g as k q u hk hq hv =>
    refine ⟨kind_start hk (by decide +kernel), fun f rest hf hr ha => ?_⟩
    simp only [List.length_cons] at hf
    obtain ⟨f, rfl⟩ : ∃ g, f = g + 1 := ⟨f - 1, by omega⟩
    exact discard_ok hk hq hv hr
  | @func k x o p c ps rs b w v u hk hx ho hp hr hb h hc ih =>
    refine ⟨kind_start hk (by decide +kernel), fun f rest hf hr' ha => ?_⟩
    simp only [List.length_append, List.length_cons, List.length_nil] at hf
    obtain ⟨f, rfl⟩ : ∃ g, f = g + 1 := ⟨f - 1, by omega⟩
    have e1 : k :: x :: o :: (w ++ (v ++ p :: (u ++ [c]))) ++ rest = k :: x :: o :: (w ++ (v ++ p :: (u ++ c :: rest))) := by simp
    rw [e1, func_ok hk hx ho hp hr hb, body_ok (o := o) ih (by omega) hc]
  | ret0 hk =>
    refine ⟨kind_start hk (by decide +kernel), fun f rest hf hr ha => ?_⟩
    simp only [List.length_cons] at hf
    obtain ⟨f, rfl⟩ : ∃ g, f = g + 1 := ⟨f - 1, by omega⟩
    exact ret0_ok hk (ha.1 rfl)
  | ret hk h =>
    refine ⟨kind_start hk (by decide +kernel), fun f rest hf hr ha => ?_⟩
    simp only [List.length_cons] at hf
    obtain ⟨f, rfl⟩ : ∃ g, f = g + 1 := ⟨f - 1, by omega⟩
    exact ret_ok hk h hr
  | ifS hk h ih =>
    refine ⟨kind_start hk (by decide +kernel), fun f rest hf hr ha => ?_⟩
    simp only [List.length_cons] at hf
    obtain ⟨f, rfl⟩ : ∃ g, f = g + 1 := ⟨f - 1, by omega⟩
    rw [List.cons_append, if_eq hk]
    exact ih.2.2 f rest (by omega) hr
  | @body mk o c b w u h ho hb hc ih =>
    obtain ⟨h1, h2⟩ := head_ok h
    refine ⟨by rw [kindAt_append (starts_ne' h1)]; exact h1, fun f rest hf hr ha => ?_⟩
    simp only [List.length_append, List.length_cons, List.length_nil] at hf
    obtain ⟨f, rfl⟩ : ∃ g, f = g + 1 := ⟨f - 1, by omega⟩
    have e : w ++ o :: (u ++ [c]) ++ rest = w ++ o :: (u ++ c :: rest) := by simp
    rw [e, h2 f o _ ho, body_ok (o := o) ih (by omega) hc]
  | brk hk =>
    refine ⟨kind_start hk (by decide +kernel), fun f rest hf hr ha => ?_⟩
    simp only [List.length_cons] at hf
    obtain ⟨f, rfl⟩ : ∃ g, f = g + 1 := ⟨f - 1, by omega⟩
    exact brk_ok hk
  | cont hk =>
    refine ⟨kind_start hk (by decide +kernel), fun f rest hf hr ha => ?_⟩
    simp only [List.length_cons] at hf
    obtain ⟨f, rfl⟩ : ∃ g, f = g + 1 := ⟨f - 1, by omega⟩
    exact cont_ok hk
  | ensure hk h =>
    refine ⟨kind_start hk (by decide +kernel), fun f rest hf hr ha => ?_⟩
    simp only [List.length_cons] at hf
    obtain ⟨f, rfl⟩ : ∃ g, f = g + 1 := ⟨f - 1, by omega⟩
    exact ensure_ok hk h hr
  | @when k o c e cs d w u hk h ho hb hc hn ih =>
    refine ⟨kind_start hk (by decide +kernel), fun f rest hf hr ha => ?_⟩
    simp only [List.length_append, List.length_cons, List.length_nil] at hf
    obtain ⟨f, rfl⟩ : ∃ g, f = g + 1 := ⟨f - 1, by omega⟩
    have e1 : k :: (w ++ o :: (u ++ [c])) ++ rest = k :: (w ++ o :: (u ++ c :: rest)) := by simp
    rw [e1, when_ok hk h ho, ih f [] none c rest (by omega) hc (.inl rfl)
      (fun hh => hn.elim (fun a => a hh.2.1) (fun a => a hh.2.2.2))]
    simp
  | @if1 o c e b w u h ho hb hc ih =>
    have h : Reads env.names AtBrace e w := h
    refine ⟨rfl, by simp, fun f rest hf hr => ?_⟩
    simp only [List.length_append, List.length_cons, List.length_nil] at hf
    obtain ⟨f, rfl⟩ : ∃ g, f = g + 1 := ⟨f - 1, by omega⟩
    have e1 : w ++ o :: (u ++ [c]) ++ rest = w ++ o :: (u ++ c :: rest) := by simp
    rw [e1, Stmt.ifS]
    simp only [reads h (rest := o :: (u ++ c :: rest)) ho, Option.bind_eq_bind, Option.bind_some, expect_cons ho]
    rw [body_ok (o := o) ih (by omega) hc]
    exact (if_neg (stop_ne hr).2.2.2.1).trans (if_neg (stop_ne hr).2.2.2.2.1)
  | @ifOr o c k e b s w u v h ho hb hc hk hs ih1 ih2 =>
    have h : Reads env.names AtBrace e w := h
    refine ⟨rfl, by simp, fun f rest hf hr => ?_⟩
    simp only [List.length_append, List.length_cons, List.length_nil] at hf
    obtain ⟨f, rfl⟩ : ∃ g, f = g + 1 := ⟨f - 1, by omega⟩
    have e1 : w ++ o :: (u ++ c :: k :: v) ++ rest = w ++ o :: (u ++ c :: k :: (v ++ rest)) := by simp
    rw [e1, Stmt.ifS]
    simp only [reads h (rest := o :: (u ++ c :: k :: (v ++ rest))) ho, Option.bind_eq_bind, Option.bind_some, expect_cons ho]
    rw [body_ok (o := o) ih1 (by omega) hc]
    refine (if_pos hk).trans ?_
    rw [List.tail_cons, ih2.2.2 f rest (by omega) hr]
    rfl
  | @ifElse o c k p q e b a w u v h ho hb hc hk hp ha hq ih1 ih2 =>
    have h : Reads env.names AtBrace e w := h
    refine ⟨rfl, by simp, fun f rest hf hr => ?_⟩
    simp only [List.length_append, List.length_cons, List.length_nil] at hf
    obtain ⟨f, rfl⟩ : ∃ g, f = g + 1 := ⟨f - 1, by omega⟩
    have e1 : w ++ o :: (u ++ c :: k :: p :: (v ++ [q])) ++ rest = w ++ o :: (u ++ c :: k :: p :: (v ++ q :: rest)) := by simp
    rw [e1, Stmt.ifS]
    simp only [reads h (rest := o :: (u ++ c :: k :: p :: (v ++ q :: rest))) ho, Option.bind_eq_bind, Option.bind_some, expect_cons ho]
    rw [body_ok (o := o) ih1 (by omega) hc]
    have hk' : kindAt (k :: p :: (v ++ q :: rest)) = sy "otherwise" := hk
    refine (if_neg (by rw [hk']; decide)).trans ((if_pos hk').trans ?_)
    simp only [List.tail_cons, expect_cons hp, Option.bind_some]
    rw [body_ok (o := o) ih2 (by omega) hq]
  | nil =>
    refine ⟨.inl rfl, fun _ => rfl, fun f acc c rest hf hc => ?_⟩
    obtain ⟨f, rfl⟩ : ∃ g, f = g + 1 := ⟨f - 1, by omega⟩
    rw [List.nil_append, stmts_end hc, List.append_nil]
  | @cons s ss w u h hs hf0 ih1 ih2 =>
    obtain ⟨h1, h2⟩ := ih1
    have hw := starts_ne' h1
    have := List.length_pos_iff.2 hw
    refine ⟨.inr (by rw [kindAt_append hw]; exact h1), fun h => absurd (List.append_eq_nil_iff.1 h).1 hw, fun f acc c rest hf hc => ?_⟩
    rw [List.length_append] at hf
    obtain ⟨f, rfl⟩ : ∃ g, f = g + 1 := ⟨f - 1, by omega⟩
    have hS : Stop (u ++ c :: rest) ∧ After s (u ++ c :: rest) := by
      rcases eq_or_ne u [] with rfl | hu
      · refine ⟨stop_close hc, fun _ => .inl hc, fun _ => ?_⟩
        show c.kind ≠ _
        have hc : c.kind = _ := hc
        rw [hc]; exact nofun
      · refine ⟨⟨(atEnd_head hu).2 hf0.1, ?_⟩, fun h => absurd (hf0.2.1 h) hu, fun h => ?_⟩
        · rw [kindAt_append hu]
          exact List.mem_cons_of_mem _ (List.mem_cons_of_mem _ (ih2.1.resolve_left hu))
        · rw [kindAt_append hu]
          exact hf0.2.2 h
    rw [List.append_assoc, stmts_step (by rw [kindAt_append hw]; exact h1) (h2 f (u ++ c :: rest) (by omega) hS.1 hS.2),
      ih2.2.2 f _ c rest (by omega) hc]
    simp
  | noCase =>
    intro f acc d0 c rest hf hc _ hn
    obtain ⟨f, rfl⟩ : ∃ g, f = g + 1 := ⟨f - 1, by omega⟩
    rw [List.nil_append, Stmt.cases]
    refine (if_pos (.inl hc)).trans ((if_neg ?_).trans ?_)
    · rintro ⟨h1, h2⟩
      exact hn ⟨List.isEmpty_iff.1 h1, rfl, Option.isNone_iff_eq_none.1 h2, rfl⟩
    · simp
  | @vals k o c es b cs d rg w u v hk h hp ho hb hc hs ih1 ih2 =>
    intro f acc d0 c' rest hf hc' hd hn
    obtain ⟨rfl, hp'⟩ := hp.resolve_left (by intro h; cases h)
    simp only [List.length_append, List.length_cons, List.length_nil] at hf
    obtain ⟨f, rfl⟩ : ∃ g, f = g + 1 := ⟨f - 1, by omega⟩
    have e1 : k :: (w ++ o :: (u ++ c :: v)) ++ c' :: rest = k :: (w ++ o :: (u ++ c :: (v ++ c' :: rest))) := by simp
    have hk' : kindAt (k :: (w ++ o :: (u ++ c :: (v ++ c' :: rest)))) = sy "is" := hk
    have hh : caseHead env (w ++ o :: (u ++ c :: (v ++ c' :: rest))) = some (es.map .val, false, o :: (u ++ c :: (v ++ c' :: rest))) := by
      obtain ⟨n', h1⟩ := caseVals_ok h (fun t ht => (hp' t ht).2) ((w ++ o :: (u ++ c :: (v ++ c' :: rest))).length + 1) true [] o
        (u ++ c :: (v ++ c' :: rest)) (by rw [List.length_append]; omega) ho
      rw [caseHead, not_pat (fun t ht => (hp' t ht).1) ho (starts_ne (vals_pos h))]
      simp only [h1]
      simp
    rw [e1, Stmt.cases]
    refine (if_neg (by rw [hk']; decide)).trans ((if_pos hk').trans ?_)
    simp only [List.tail_cons, hh, Option.bind_eq_bind, Option.bind_some, expect_cons ho]
    rw [body_ok (o := o) ih1 (by omega) hc, ih2 f _ d0 c' rest (by omega) hc' hd (fun h => by simp at h)]
    simp
  | @pat k o c p bs b cs d w u v hk h hn ho hb hc hs ih1 ih2 =>
    intro f acc d0 c' rest hf hc' hd hn'
    simp only [List.length_append, List.length_cons, List.length_nil] at hf
    obtain ⟨f, rfl⟩ : ∃ g, f = g + 1 := ⟨f - 1, by omega⟩
    have e1 : k :: (w ++ o :: (u ++ c :: v)) ++ c' :: rest = k :: (w ++ o :: (u ++ c :: (v ++ c' :: rest))) := by simp
    have hk' : kindAt (k :: (w ++ o :: (u ++ c :: (v ++ c' :: rest)))) = sy "is" := hk
    have hh : caseHead env (w ++ o :: (u ++ c :: (v ++ c' :: rest))) = some ([p], false, o :: (u ++ c :: (v ++ c' :: rest))) := by
      rw [caseHead, pat_ok h]
      refine if_neg ?_
      rw [List.any_eq_true]
      rintro ⟨x, hx, hx'⟩
      have := hn x hx
      rw [show env.reservedType x = false from this] at hx'
      cases hx'
    rw [e1, Stmt.cases]
    refine (if_neg (by rw [hk']; decide)).trans ((if_pos hk').trans ?_)
    simp only [List.tail_cons, hh, Option.bind_eq_bind, Option.bind_some, expect_cons ho]
    rw [body_ok (o := o) ih1 (by omega) hc, ih2 f _ d0 c' rest (by omega) hc' hd (fun h => by simp at h)]
    simp
  | @dflt k o c b cs u v hk ho hb hc hs ih1 ih2 =>
    intro f acc d0 c' rest hf hc' hd hn'
    obtain rfl : d0 = none := hd.resolve_right (by simp)
    simp only [List.length_append, List.length_cons, List.length_nil] at hf
    obtain ⟨f, rfl⟩ : ∃ g, f = g + 1 := ⟨f - 1, by omega⟩
    have e1 : k :: o :: (u ++ c :: v) ++ c' :: rest = k :: o :: (u ++ c :: (v ++ c' :: rest)) := by simp
    have hk' : kindAt (k :: o :: (u ++ c :: (v ++ c' :: rest))) = sy "default" := hk
    rw [e1, Stmt.cases]
    refine (if_neg (by rw [hk']; decide)).trans ((if_neg (by rw [hk']; decide)).trans ((if_pos hk').trans ?_))
    refine (if_neg (by simp)).trans ?_
    simp only [List.tail_cons, Option.bind_eq_bind, Option.bind_some, expect_cons ho]
    rw [body_ok (o := o) ih1 (by omega) hc, ih2 f _ (some b) c' rest (by omega) hc' (.inr rfl) (fun h => by simp at h)]
    simp
  | bare hl => cases hl
  | alien hl => cases hl
  | attr hl => rcases hl with hl | hl
               · cases hl
               · cases hl.1
  | drop hl => cases hl
  | stray hl => cases hl

end St

/-- C184, the claim: the statements of a block are read as they were written, if no statement begins with an operator or with
`(`, `[`, `.` or `{`. -/
def C184_statement : Prop :=
  ∀ (env : Env) (ss : List Stmt) (w rest : List Tok) (c : Tok), Wr (rules env Starts) (.stmts ss) w → IsSym c "}" →
    ∀ f, 3 * w.length + 2 ≤ f → stmts env f false [] (w ++ c :: rest) = some (ss, false, rest)

/-- C184: so it is, if moreover a `return` without values comes last in its block and a name alone is not followed by a name.
Missing: `return` before other statements (they are read as its values, see `C184_return`). Declarations of several variables,
`or_return`, functions, structs and attributes are not in this grammar. -/
theorem C184_partial (env : Env) (ss : List Stmt) (w rest : List Tok) (c : Tok) (h : Wr (rules env StartsMore) (.stmts ss) w)
    (hc : IsSym c "}") (f : Nat) (hf : 3 * w.length + 2 ≤ f) : stmts env f false [] (w ++ c :: rest) = some (ss, false, rest) :=
  (St.wr_good h).2.2 f [] c rest hf hc

/-- C184: a way to write an operator tree can be used as an expression in a statement, and before `{` if it does not end with
a name that looks like a type. -/
theorem C184_operators_partial (names : List Str) (a : Nat) (e : OpTree) (w : List Tok) (ha : a ≤ 256) (h : Written 1 a e w) :
    Reads names AtEnd e.node w ∧
      ((∀ t, w.getLast? = some t → t.kind = .ident → ¬ LooksType names t.text) → Reads names AtBrace e.node w) := by
  have key : ∀ k ∈ Kind.sym (lit "(") :: (atomKinds ++ unaries.map Kind.sym), k ∈ exprStarts := by decide +kernel
  have h1 : kindAt w ∈ exprStarts := by
    have := Ps.written_head h []
    rw [List.append_nil] at this
    exact key _ this
  refine ⟨⟨h1, fun n rest hr => ?_⟩, fun hl => ⟨h1, fun n rest hr => ?_⟩⟩
  · obtain ⟨n', h2, h3⟩ := Ps.expr_of (names := names) (n := n) (d := 0) h (by omega) (Ps.ends_iff.1 hr.1) (fun e => absurd e hr.2)
    exact ⟨n', h3 _ (by rw [List.length_append]; omega), h2⟩
  · have hr' : kindAt rest = .sym (lit "{") := hr
    obtain ⟨n', h2, h3⟩ := Ps.expr_of (names := names) (n := n) (d := 0) h (by omega) (by rw [hr']; decide +kernel)
      (fun _ t ht hk => by
        cases e : typeName names t.text with
        | false => rfl
        | true => exact absurd (Ps.looks_iff.1 e) (hl t ht hk))
    exact ⟨n', h3 _ (by rw [List.length_append]; omega), h2⟩

/-- An environment for examples: types are single names. -/
def plainEnv : Env where
  names := []
  ty ts := some (textAt ts, ts.tail)
  decl _ := none
  line _ := 0
  reservedType _ := false
  reservedParam _ := false

def isReturnX : Option (List Stmt × Bool × List Tok) → Bool
  | some ([.ret [.leaf .ident x], .expr (.leaf .int y)], _, _) => x = lit "x" && y = lit "1"
  | some ([.ret [.leaf .ident x]], _, _) => x = lit "x"
  | _ => false

/-- C184: `return` on a line of its own, then `x`: the name is the value that is returned. -/
theorem C184_return : isReturnX (stmts plainEnv 20 false [] ((lex (lit "return\nx\n}")).getD [])) = true := by decide +kernel

/-- C184: `return`, then `x = 1`: an error. -/
theorem C184_witness : (stmts plainEnv 20 false [] ((lex (lit "return\nx = 1\n}")).getD [])).isNone = true := by decide +kernel

theorem C184_fails : ¬ C184_statement := fun h => by
  have hx : ∀ t : Tok, t.kind = .ident ∨ t.kind = .int → Reads plainEnv.names AtEnd (.leaf t.kind t.text) [t] := fun t ht =>
    (C184_operators_partial [] 1 (.atom t.kind t.text) [t] (by omega) (.atom (by rcases ht with ht | ht <;> rw [ht] <;> decide +kernel))).1
  let k : Tok := ⟨.sym (lit "return"), lit "return", true, 0⟩
  let x : Tok := ⟨.ident, lit "x", true, 0⟩
  let q : Tok := ⟨.sym (lit "="), lit "=", true, 0⟩
  let v : Tok := ⟨.int, lit "1", true, 0⟩
  let c : Tok := ⟨.sym (lit "}"), lit "}", true, 0⟩
  have hw : Wr (rules plainEnv Starts) (.stmts [.ret [], .assign q.kind (.leaf x.kind x.text) (.leaf v.kind v.text)])
      ([k] ++ (([x] ++ q :: [v]) ++ [])) :=
    .cons (.ret0 rfl) (.cons (.assign (hx x (.inl rfl)) (by decide +kernel) (hx v (.inr rfl))) .nil ⟨Ps.ends_iff.2 (by decide +kernel), by decide⟩)
      ⟨Ps.ends_iff.2 (by decide +kernel), by decide +kernel⟩
  have h1 := congrArg Option.isSome (h plainEnv _ _ [] c hw rfl 20 (by decide))
  exact absurd h1 (by decide +kernel)

/-- C184 is not void: `mut x int = 1` and `if x { loop { break } } otherwise { return x }` can be written, and so are read. -/
example : ∃ ss w, Wr (rules plainEnv StartsMore) (.stmts ss) w ∧ ss.length = 2 ∧ w.length = 18 := by
  have hx : ∀ t : Tok, t.kind = .ident ∨ t.kind = .int → Reads plainEnv.names AtEnd (.leaf t.kind t.text) [t] := fun t ht =>
    (C184_operators_partial [] 1 (.atom t.kind t.text) [t] (by omega) (.atom (by rcases ht with ht | ht <;> rw [ht] <;> decide +kernel))).1
  let s : String → Tok := fun s => ⟨.sym (lit s), lit s, true, 0⟩
  let x : Tok := ⟨.ident, lit "x", true, 0⟩
  let t : Tok := ⟨.ident, lit "int", true, 0⟩
  let v : Tok := ⟨.int, lit "1", true, 0⟩
  have hb : Reads plainEnv.names AtBrace (.leaf x.kind x.text) [x] :=
    (C184_operators_partial [] 1 (.atom x.kind x.text) [x] (by omega) (.atom (by decide +kernel))).2 (fun t ht _ => by
      cases ht
      rintro (h | ⟨c, h, h'⟩)
      · cases h
      · cases h'
        exact absurd h (by decide +kernel))
  have hl : Wr (rules plainEnv StartsMore) (.stmt (.loop [.brk])) ([s "loop"] ++ s "{" :: (([s "break"] ++ []) ++ [s "}"])) :=
    .body (.loop rfl) rfl (.cons (.brk rfl) .nil ⟨⟨Ps.ends_iff.2 (by decide +kernel), by decide +kernel⟩, fun _ => rfl, nofun⟩) rfl
  have hi : Wr (rules plainEnv StartsMore) (.stmt _) (s "if" :: ([x] ++ s "{" :: ((_ ++ []) ++ s "}" :: s "otherwise" :: s "{" :: (_ ++ [s "}"])))) :=
    .ifS rfl (.ifElse hb rfl (.cons hl .nil ⟨⟨Ps.ends_iff.2 (by decide +kernel), by decide +kernel⟩, nofun, nofun⟩) rfl rfl rfl
      (.cons (.ret (k := s "return") rfl (.one (hx x (.inl rfl)))) .nil ⟨⟨Ps.ends_iff.2 (by decide +kernel), by decide +kernel⟩, nofun, nofun⟩) rfl)
  have hd : Wr (rules plainEnv StartsMore) (.stmt _) (s "mut" :: x :: ([t] ++ s "=" :: [v])) :=
    .typed (m := true) (t := t.text) rfl (.inl ⟨rfl, by decide +kernel⟩)
      ⟨by decide +kernel, by decide +kernel, by decide +kernel, by decide +kernel, fun _ _ => rfl⟩ rfl (hx v (.inr rfl))
  exact ⟨_, _, .cons hd (.cons hi .nil ⟨⟨Ps.ends_iff.2 (by decide +kernel), by decide +kernel⟩, nofun, nofun⟩)
    ⟨⟨Ps.ends_iff.2 (by decide +kernel), by decide +kernel⟩, nofun, nofun⟩, rfl, rfl⟩

end Verif.Props

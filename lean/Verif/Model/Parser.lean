import Verif.Model.Lexer

/-! The expression parser of `grayc/src/parser/parser.c` (lines 28-41, 199-229, 743-1262, 2565-2601).

The tokens are those of `Model/Lexer.lean`; a list of tokens stands for the lexer, and past its end there is only
`TOK_EOF`, as with `lexer_next_token`. A function gets the list from `cur_token` on, and gives the list from `peek_token`
on when it returns. `none` means that the parser has reported an error, after which the program is not compiled; the
tokens that the parser skips to go on after an error are not modelled. One more case is `none`: `()` before a token other
than a name, where `parse_grouped_expression` returns NULL and reports nothing. Literals keep their text (their values are
in `Model/IntLiteral.lean` and `Model/LitEmit.lean`; interpolated strings are kept as text), and nodes do not keep their
position. The restored lexer state of the lookahead at 788-827 is that of before, so it is not modelled. -/

namespace Verif.Parser
open Verif Verif.Str Verif.Lexer

inductive Expr where
  /-- A name or a literal. -/
  | leaf (kind : Kind) (text : Str)
  | pre (op : Kind) (e : Expr)
  | bin (op : Kind) (l r : Expr)
  | post (e : Expr) (op : Kind)
  | call (f : Expr) (args : List (Option Str × Expr))
  | member (e : Expr) (name : Str)
  | index (e i : Expr)
  | variant (name : Str)
  | funcRef (e : Expr)
  | struct (name : Str) (fields : List (Str × Expr))
  | array (es : List Expr)
  | map (es : List (Expr × Expr))
  | cast (e : Expr) (isArray : Bool) (type : Str)
  | new (type : Str)
  | range (start : Option Expr) (stop : Expr) (step : Option Expr)

def sy (s : String) : Kind := .sym (lit s)

/-- The type of the next token. -/
def kindAt : List Tok → Kind
  | [] => .eof
  | t :: _ => t.kind

/-- The literal of the next token. -/
def textAt : List Tok → Str
  | [] => []
  | t :: _ => t.text

/-- `preceded_by_ws` of the next token. -/
def gapAt : List Tok → Bool
  | [] => false
  | t :: _ => t.gap

/-- `get_token_precedence` (199-229) with the values of `enum Precedence` (28-41); `PREC_LOWEST` is 0. -/
def precs : List (String × Nat) :=
  [("||", 1), ("&&", 2), ("==", 3), ("!=", 3), ("bit_and", 4), ("bit_or", 4), ("bit_xor", 4),
   ("<", 5), (">", 5), ("<=", 5), (">=", 5), ("in", 6), ("not_in", 6), ("bit_shift_left", 7), ("bit_shift_right", 7),
   ("+", 8), ("-", 8), ("*", 9), ("/", 9), ("%", 9), ("(", 11), ("[", 12), (".", 12), ("++", 13), ("--", 13), ("^", 13)]

def PREFIX : Nat := 10

def prec (k : Kind) : Nat :=
  match precs.find? fun p => k = sy p.1 with
  | some p => p.2
  | none => 0

/-- The binary operators in `parse_infix` (1214-1238). -/
def isBinary (k : Kind) : Bool :=
  ["+", "-", "*", "/", "%", "==", "!=", "<", ">", "<=", ">=", "&&", "||", "in", "not_in", "bit_and", "bit_or", "bit_xor",
   "bit_shift_left", "bit_shift_right"].any fun s => k = sy s

/-- `suppress_struct_lit` (1104-1110). -/
def suppresses (k : Kind) : Bool :=
  ["in", "not_in", "<", ">", "<=", ">=", "==", "!="].any fun s => k = sy s

/-- The tokens whose case in `parse_prefix` makes a node of that token alone (840-861), names apart. -/
def isLeaf (k : Kind) : Bool :=
  k = .int || k = .float || k = .string || k = .raw || k = .char || k = sy "true" || k = sy "false" || k = sy "nil"

def isPrefix (k : Kind) : Bool := k = sy "-" || k = sy "!" || k = sy "bit_not"

def MAX_DEPTH : Nat := 256

/-- The test at 808-809 and 832-833; `names` is the list of `prescan_struct_names`. -/
def typeName (names : List Str) (w : Str) : Bool :=
  names.contains w || (65 ≤ (at0 w 0).toNat && (at0 w 0).toNat ≤ 90)

/-- The member names of `parse_grouped_expression` (766-773): any token is taken as a member. -/
def dots : Expr → List Tok → Expr × List Tok
  | e, t :: u :: r => if t.kind = sy "." then dots (.member e u.text) r else (e, t :: u :: r)
  | e, [t] => if t.kind = sy "." then (.member e [], []) else (e, [t])
  | e, [] => (e, [])

/-- `read_type_name` (237-253). -/
def readType (ts : List Tok) : Str × List Tok :=
  if kindAt ts = sy "?" then (lit "?", ts.tail)
  else if kindAt ts.tail = sy "." then (textAt ts ++ lit "_" ++ textAt ts.tail.tail, ts.tail.tail.tail)
  else (textAt ts, ts.tail)

abbrev Res := Option (Expr × Bool × List Tok)

/-- `expect_peek_token` for this kind of token, as the last step. -/
def expecting (k : Kind) (e : Expr) (s : Bool × List Tok) : Res :=
  if kindAt s.2 = k then some (e, s.1, s.2.tail) else none

mutual

/-- `parse_expression` (1240-1262). `d` is `parser->depth` and `n` is `parser->no_struct_literal`. -/
def expr (names : List Str) : Nat → Nat → Nat → Bool → List Tok → Res
  | 0, _, _, _, _ => none
  | f + 1, p, d, n, ts =>
    if d + 1 > MAX_DEPTH then none
    else match prefixE names f (d + 1) n ts with
      | none => none
      | some (l, n, ts) => loop names f p (d + 1) n l ts

/-- The loop of `parse_expression` (1253-1257). -/
def loop (names : List Str) : Nat → Nat → Nat → Bool → Expr → List Tok → Res
  | 0, _, _, _, _, _ => none
  | f + 1, p, d, n, l, ts =>
    if kindAt ts ≠ .eof ∧ p < prec (kindAt ts) then
      match infixE names f d n l ts with
      | none => none
      | some (l, n, ts) => loop names f p d n l ts
    else some (l, n, ts)

/-- `parse_prefix` (787-1096). -/
def prefixE (names : List Str) : Nat → Nat → Bool → List Tok → Res
  | 0, _, _, _ => none
  | f + 1, d, n, ts =>
    let r := ts.tail
    if kindAt ts = .ident then
      if kindAt r = sy "." ∧ (97 ≤ (at0 (textAt ts) 0).toNat ∧ (at0 (textAt ts) 0).toNat ≤ 122) ∧
          kindAt r.tail = .ident ∧ kindAt r.tail.tail = sy "{" ∧ n = false ∧ typeName names (textAt r.tail) = true then
        fields names f d n (textAt ts ++ lit "_" ++ textAt r.tail) [] r.tail.tail.tail
      else if kindAt r = sy "{" ∧ n = false ∧ typeName names (textAt ts) = true then
        fields names f d n (textAt ts) [] r.tail
      else some (.leaf .ident (textAt ts), n, r)
    else if isLeaf (kindAt ts) then some (.leaf (kindAt ts) (textAt ts), n, r)
    else if isPrefix (kindAt ts) then
      match expr names f PREFIX d n r with
      | none => none
      | some (e, n, r) => some (.pre (kindAt ts) e, n, r)
    else if kindAt ts = sy "." then
      if kindAt r = .ident then some (.variant (textAt r), n, r.tail) else none
    else if kindAt ts = sy "(" then
      if kindAt r = sy ")" then
        if kindAt r.tail = .ident then
          some (.funcRef (dots (.leaf .ident (textAt r.tail)) r.tail.tail).1, n,
            (dots (.leaf .ident (textAt r.tail)) r.tail.tail).2)
        else none
      else match expr names f 0 d n r with
        | none => none
        | some (e, s) => expecting (sy ")") e s
    else if kindAt ts = sy "{" then braces names f d n r
    else if kindAt ts = sy "cast" then
      if kindAt r = sy "(" then
        match expr names f 0 d n r.tail with
        | none => none
        | some (e, n, r) =>
          if kindAt r = sy "," then
            if kindAt r.tail = sy "[" then
              if kindAt r.tail.tail.tail = sy "]" then
                expecting (sy ")") (.cast e true (textAt r.tail.tail)) (n, r.tail.tail.tail.tail)
              else none
            else expecting (sy ")") (.cast e false (textAt r.tail)) (n, r.tail.tail)
          else none
      else none
    else if kindAt ts = sy "new" then
      if kindAt r = sy "(" ∧ kindAt r.tail ≠ sy "?" then
        expecting (sy ")") (.new (readType r.tail).1) (n, (readType r.tail).2)
      else none
    else if kindAt ts = sy "range" then
      if kindAt r = sy "(" then
        match expr names f 0 d n r.tail with
        | none => none
        | some (a, n, r) =>
          if kindAt r = sy "," then
            match expr names f 0 d n r.tail with
            | none => none
            | some (b, n, r) =>
              if kindAt r = sy "," then
                match expr names f 0 d n r.tail with
                | none => none
                | some (c, s) => expecting (sy ")") (.range (some a) b (some c)) s
              else expecting (sy ")") (.range (some a) b none) (n, r)
          else expecting (sy ")") (.range none a none) (n, r)
      else none
    else none

/-- `parse_struct_literal` (2565-2601) after its `{`; the fields so far are in reverse. The end of the file ends it too. -/
def fields (names : List Str) : Nat → Nat → Bool → Str → List (Str × Expr) → List Tok → Res
  | 0, _, _, _, _, _ => none
  | f + 1, d, n, s, acc, ts =>
    if kindAt ts = sy "}" ∨ kindAt ts = .eof then some (.struct s acc.reverse, n, ts.tail)
    else if kindAt ts.tail = sy ":" then
      match expr names f 0 d n ts.tail.tail with
      | none => none
      | some (e, n, r) =>
        fields names f d n s ((textAt ts, e) :: acc) (if kindAt r = sy "," then r.tail else r)
    else none

/-- The case of `parse_prefix` for `{` (887-976), after that token. -/
def braces (names : List Str) : Nat → Nat → Bool → List Tok → Res
  | 0, _, _, _ => none
  | f + 1, d, n, ts =>
    if kindAt ts = sy "}" then some (.array [], n, ts.tail)
    else if kindAt ts = sy ":" ∧ kindAt ts.tail = sy "}" then some (.map [], n, ts.tail.tail)
    else if kindAt ts = sy "," then none
    else match expr names f 0 d n ts with
      | none => none
      | some (e, n, r) =>
        if kindAt r = sy ":" then
          match expr names f 0 d n r.tail with
          | none => none
          | some (v, n, r) => pairs names f d n [(e, v)] r
        else elems names f d n [e] r

/-- The loop for the entries of a map literal (926-948), and what follows it. A `}` after a comma is taken; otherwise the
literal may end without `}`. -/
def pairs (names : List Str) : Nat → Nat → Bool → List (Expr × Expr) → List Tok → Res
  | 0, _, _, _, _ => none
  | f + 1, d, n, acc, ts =>
    if kindAt ts = sy "," then
      if kindAt ts.tail = sy "}" then
        some (.map acc.reverse, n, if kindAt ts.tail.tail = sy "}" then ts.tail.tail.tail else ts.tail.tail)
      else match expr names f 0 d n ts.tail with
        | none => none
        | some (k, n, r) =>
          if kindAt r = sy ":" then
            match expr names f 0 d n r.tail with
            | none => none
            | some (v, n, r) => pairs names f d n ((k, v) :: acc) r
          else none
    else some (.map acc.reverse, n, if kindAt ts = sy "}" then ts.tail else ts)

/-- The loop for the elements of an array literal (957-974), and what follows it. -/
def elems (names : List Str) : Nat → Nat → Bool → List Expr → List Tok → Res
  | 0, _, _, _, _ => none
  | f + 1, d, n, acc, ts =>
    if kindAt ts = sy "," then
      if kindAt ts.tail = sy "}" then none
      else match expr names f 0 d n ts.tail with
        | none => none
        | some (e, n, r) => elems names f d n (e :: acc) r
    else some (.array acc.reverse, n, if kindAt ts = sy "}" then ts.tail else ts)

/-- `parse_infix` (1214-1238), `parse_infix_expression` (1098-1117), `parse_member_expression` (1180-1191),
`parse_index_expression` (1193-1204) and `parse_postfix_expression` (1206-1214); the first token is the operator. -/
def infixE (names : List Str) : Nat → Nat → Bool → Expr → List Tok → Res
  | 0, _, _, _, _ => none
  | f + 1, d, n, l, ts =>
    let r := ts.tail
    if isBinary (kindAt ts) then
      match expr names f (prec (kindAt ts)) d (suppresses (kindAt ts) || n) r with
      | none => none
      | some (e, n, r) => some (.bin (kindAt ts) l e, !suppresses (kindAt ts) && n, r)
    else if gapAt ts then none
    else if kindAt ts = sy "(" then
      if kindAt r = sy ")" then some (.call l [], n, r.tail)
      else args names f d n l [] r
    else if kindAt ts = sy "." then some (.member l (textAt r), n, r.tail)
    else if kindAt ts = sy "[" then
      match expr names f 0 d n r with
      | none => none
      | some (i, s) => expecting (sy "]") (.index l i) s
    else some (.post l (kindAt ts), n, r)

/-- The loop over the arguments in `parse_call_expression` (1137-1168). -/
def args (names : List Str) : Nat → Nat → Bool → Expr → List (Option Str × Expr) → List Tok → Res
  | 0, _, _, _, _, _ => none
  | f + 1, d, n, l, acc, ts =>
    let named := kindAt ts = .ident ∧ kindAt ts.tail = sy ":"
    let name := if named then some (textAt ts) else none
    match expr names f 0 d n (if named then ts.tail.tail else ts) with
    | none => none
    | some (e, n, r) =>
      if kindAt r = sy "," then args names f d n l ((name, e) :: acc) r.tail
      else expecting (sy ")") (.call l ((name, e) :: acc).reverse) (n, r)

end

/-- An expression at the start of these tokens, at `PREC_LOWEST` and not within another: the tree, the value of
`no_struct_literal` after it and the tokens from `peek_token` on. -/
def parse (names : List Str) (n : Bool) (ts : List Tok) : Res := expr names (4 * ts.length + 4) 0 0 n ts

end Verif.Parser

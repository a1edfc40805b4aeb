import Verif.Model.Str

/-!
# Types as text

The compiler carries every type as a string.  Models

* the parser's `read_type_name` and `parse_complex_type` (`grayc/src/parser/parser.c` 247-505), which turn tokens into that
  string;
* `type_from_name` with `parse_func_sig`, `split_top_commas`, `find_matching_paren` and `type_name`
  (`grayc/src/typechecker/types.c` 135-245, 324-352, 358-522), which take it apart;
* wildcards: `bind_wildcard_string`, `parse_map_key_value`, `substitute_wildcard` (`typechecker.c` 525-645), the checking of the
  arguments of a generic call (`resolve_direct_call`, 4570-4690) and `codegen_bind_wildcard` (`codegen.c` 258-299);
* the C names of the instances of a generic function (`codegen.c` 6655-6669 at a call, 9208-9220 at the definition).

Simplifications.
* Tokens carry their text; at the end of the source the token is the empty text.
* A diagnostic makes the result `none`, also where the parser goes on after it (E2025).
* `bsearch` in the sorted table of built-in types is a search in the list (`builtins_sorted` in `Props.TypeName`).
* The pool of types only serves to share them; whether a name is one of an enum is an argument.
-/

namespace Verif.TypeName
open Verif Verif.Str

/-! ## Tokens to text -/

inductive Tok where
  | lbr | rbr | caret | comma | colon | lpar | rpar | arrow | amp | quest | dot
  | int (s : Str)
  | ident (s : Str)
  | other (s : Str)
  deriving DecidableEq, Repr

/-- `literal`. -/
def Tok.text : Tok → Str
  | .lbr => lit "[" | .rbr => lit "]" | .caret => lit "^" | .comma => lit "," | .colon => lit ":"
  | .lpar => lit "(" | .rpar => lit ")" | .arrow => lit "->" | .amp => lit "&" | .quest => lit "?" | .dot => lit "."
  | .int s => s | .ident s => s | .other s => s

/-- `expect_peek_token`. -/
def expect (t : Tok) : List Tok → Option (List Tok)
  | x :: r => if x = t then some r else none
  | [] => none

/-- `n` times. -/
def expects (t : Tok) : Nat → List Tok → Option (List Tok)
  | 0, r => some r
  | n + 1, r => expect t r >>= expects t n

def headText : List Tok → Str
  | [] => []
  | c :: _ => c.text

/-- Lines 247-264. The current token is the first of the list; the list returned begins with the token after the name. -/
def readName : List Tok → Str × List Tok
  | .quest :: r => (lit "?", r)
  | c :: .dot :: r => (c.text ++ lit "_" ++ headText r, r.tail)
  | c :: r => (c.text, r)
  | [] => ([], [])

def mapText (k v : Str) : Str := lit "map[" ++ k ++ lit ":" ++ v ++ lit "]"

def lbrs : List Tok → Nat
  | .lbr :: r => lbrs r + 1
  | _ => 0

abbrev P := List Tok → Option (Str × List Tok)

/-- Lines 277-311: an array of arrays, with `depth` brackets read. -/
def nested (p : P) (depth : Nat) (l : List Tok) : Option (Str × List Tok) :=
  let wrap (depth : Nat) (inner : Str) (r : List Tok) : Option (Str × List Tok) :=
    expects .rbr depth r >>= fun r =>
      some (List.replicate depth (ch '[') ++ inner ++ List.replicate depth (ch ']'), r)
  match readName l with
  | (inner, .colon :: r) =>
    p r >>= fun (v, r) => expect .rbr r >>= fun r => wrap (depth - 1) (mapText inner v) r
  | (inner, r) => wrap depth inner r

/-- `, N]` or `]` after an element type. -/
def sized (elem : Str) : List Tok → Option (Str × List Tok)
  | .comma :: .int s :: r => expect .rbr r >>= fun r => some (lit "[" ++ elem ++ lit "," ++ s ++ lit "]", r)
  | .comma :: .ident s :: r => expect .rbr r >>= fun r => some (lit "[" ++ elem ++ lit "," ++ s ++ lit "]", r)
  | r => expect .rbr r >>= fun r => some (lit "[" ++ elem ++ lit "]", r)

/-- `MSG_BUF_LARGE` and `MSG_BUF_SIZE`. -/
def bufLarge : Nat := 512
def bufSize : Nat := 256

/-- Lines 425-443: the parameters, with `buf` written so far. -/
def params (p : P) : Nat → Str → List Tok → Option (Str × List Tok)
  | 0, _, _ => none
  | n + 1, buf, l =>
    let mu : Bool := match l with
      | .amp :: _ => true
      | _ => false
    p (if mu then l.tail else l) >>= fun (t, r) =>
      let s := (if buf = [] then [] else lit ",") ++ (if mu then lit "&" else []) ++ t
      if bufLarge ≤ buf.length + s.length then none
      else match r with
        | .comma :: r => params p n (buf ++ s) r
        | r => some (buf ++ s, r)

/-- Lines 459-474: the return types in parentheses, with `buf` written so far. -/
def returns (p : P) : Nat → Str → List Tok → Option (Str × List Tok)
  | 0, _, _ => none
  | n + 1, buf, l =>
    p l >>= fun (t, r) =>
      if t = lit "void" then none
      else
        let s := (if 1 < buf.length then lit "," else []) ++ t
        if bufSize ≤ buf.length + s.length then none
        else match r with
          | .comma :: r => returns p n (buf ++ s) r
          | r => some (buf ++ s, r)

/-- Lines 447-493: what follows the parameters. -/
def result (p : P) (ps : Str) : List Tok → Option (Str × List Tok)
  | .arrow :: .lpar :: r =>
    returns p r.length (lit "(") r >>= fun (s, r) =>
      expect .rpar r >>= fun r =>
        if bufSize ≤ s.length + 2 then none else some (lit "func(" ++ ps ++ lit ")->" ++ s ++ lit ")", r)
  | .arrow :: r =>
    p r >>= fun (t, r) =>
      if t = lit "void" then none else some (lit "func(" ++ ps ++ lit ")->" ++ t.take (bufSize - 1), r)
  | r => some (lit "func(" ++ ps ++ lit ")", r)

/-- Lines 270-505, with the recursive call as an argument. -/
def body (p : P) : P
  | .quest :: r => some (lit "?", r)
  | .lbr :: .lbr :: r => nested p (lbrs r + 2) (r.drop (lbrs r))
  | .lbr :: .caret :: r =>
    let (s, r) := readName r
    expect .rbr r >>= fun r => some (lit "[^" ++ s ++ lit "]", r)
  | .lbr :: r =>
    if r.take 2 = [.ident (lit "map"), .lbr] then p r >>= fun (e, r) => sized e r
    else if r.take 2 = [.ident (lit "func"), .lpar] then none
    else
      match readName r with
      | (k, .colon :: r) => p r >>= fun (v, r) => expect .rbr r >>= fun r => some (mapText k v, r)
      | (e, r) => sized e r
  | .caret :: r => p r >>= fun (t, r) => some (lit "^" ++ t, r)
  | l =>
    if l.take 2 = [.ident (lit "map"), .lbr] then
      expect .colon (l.drop 3) >>= fun r =>
        p r >>= fun (v, r) => expect .rbr r >>= fun r => some (mapText (headText (l.drop 2)) v, r)
    else if l.take 2 = [.ident (lit "func"), .lpar] then
      (match l.drop 2 with
        | .rpar :: _ => some ([], l.drop 2)
        | r => params p r.length [] r) >>= fun (ps, r) => expect .rpar r >>= fun r => result p ps r
    else some (readName l)

def parse : Nat → P
  | 0, _ => none
  | n + 1, l => body (parse n) l

/-- `parse_complex_type`. -/
def parseType (l : List Tok) : Option (Str × List Tok) := parse (l.length + 1) l

/-! ## Text to types -/

inductive Kind where
  | void | int | uint | float | bool | char | byte | string | nil | error | unknown
  deriving DecidableEq, Repr

/-- `GrayFuncSig`. -/
structure Sig where
  params : List (Bool × Str)
  returns : List Str
  deriving DecidableEq, Repr

/-- `GrayType`. -/
inductive View where
  | prim (k : Kind) (name : Str)
  | array (elem : Str)
  | map (name : Str) (kv : Option (Str × Str))
  | pointer (to : Str)
  | struct (name : Str)
  | enum (name : Str)
  | func (name : Str) (sig : Option Sig)
  deriving DecidableEq, Repr

/-- Lines 374-400. -/
def builtins : List (Str × Kind) :=
  [("Error", Kind.error), ("bool", .bool), ("byte", .byte), ("char", .char), ("f32", .float), ("f64", .float),
   ("float", .float), ("func", .unknown), ("i128", .int), ("i16", .int), ("i256", .int), ("i32", .int), ("i64", .int),
   ("i8", .int), ("int", .int), ("nil", .nil), ("string", .string), ("u128", .uint), ("u16", .uint), ("u256", .uint),
   ("u32", .uint), ("u64", .uint), ("u8", .uint), ("uint", .uint), ("void", .void)].map fun e => (lit e.1, e.2)

/-- Lines 138-149, from a position with a nesting depth: the position of the parenthesis that closes. -/
def findClose : Nat → Int → Str → Option Nat
  | _, _, [] => none
  | i, d, c :: r =>
    if c = ch '(' then findClose (i + 1) (d + 1) r
    else if c = ch ')' then if d - 1 = 0 then some i else findClose (i + 1) (d - 1) r
    else findClose (i + 1) d r

/-- Lines 154-184: `seg` is the segment so far. -/
def split : Int → Str → Str → List Str
  | d, seg, [] => if d = 0 then [seg] else []
  | d, seg, c :: r =>
    let d := if c = ch '(' ∨ c = ch '[' then d + 1 else if c = ch ')' ∨ c = ch ']' then d - 1 else d
    if d = 0 ∧ c = ch ',' then seg :: split d [] r else split d (seg ++ [c]) r

def splitTop (s : Str) : List Str := if s = [] then [] else split 0 [] s

/-- One parameter. -/
def sigParam (s : Str) : Bool × Str := if s.take 1 = lit "&" then (true, s.drop 1) else (false, s)

/-- Lines 225-243. -/
def sigReturns (after : Str) : List Str :=
  if after.take 2 = lit "->" then
    let ret := after.drop 2
    if ret.take 1 = lit "(" then
      if ret.getLast? = some (ch ')') then splitTop ((ret.drop 1).dropLast) else []
    else if ret = lit "void" then []
    else [ret]
  else []

/-- Lines 188-245. -/
def parseSig (name : Str) : Option Sig :=
  match findClose 4 0 (name.drop 4) with
  | none => none
  | some rp => some ⟨(splitTop ((name.take rp).drop 5)).map sigParam, sigReturns (name.drop (rp + 1))⟩

def opaques : List Str :=
  ["Thread", "Mutex", "SpinLock", "Channel", "Socket", "Listener", "Database", "Router", "HttpRequest", "HttpResponse",
   "UUID", "Arena", "SourceLocation"].map lit

def startsUpper : Str → Bool
  | c :: _ => isUpper c
  | [] => false

def notUnderscore (c : Byte) : Bool := c != ch '_'
def notComma (c : Byte) : Bool := c != ch ','
def notColon (c : Byte) : Bool := c != ch ':'
def notDot (c : Byte) : Bool := c != ch '.'

/-- Lines 497-521: names of user types. -/
def userType (isEnum : Str → Bool) (name : Str) : View :=
  let base := (name.dropWhile notDot).drop 1
  if name.any (fun c => !notDot c) && startsUpper base then .struct (name.takeWhile notDot ++ lit "_" ++ base)
  else if startsUpper name then (if isEnum name then .enum name else .struct name)
  else
    let base := (name.dropWhile notUnderscore).drop 1
    if name.any (fun c => !notUnderscore c) && startsUpper base then
      if isEnum name then .enum name else if base ∈ opaques then .struct base else .struct name
    else .prim .unknown (lit "unknown")

/-- Lines 471-492. -/
def mapView (name : Str) : View :=
  let start := name.drop 4
  if start.any (fun c => !notColon c) then
    let v := (start.dropWhile notColon).drop 1
    .map name (some (start.takeWhile notColon, if v.getLast? = some (ch ']') then v.dropLast else v))
  else .map name none

/-- `type_from_name`. -/
def fromName (isEnum : Str → Bool) (name : Str) : View :=
  if name.take 5 = lit "func(" then .func name (parseSig name)
  else match builtins.lookup name with
    | some k => .prim k name
    | none =>
      if name.take 1 = lit "^" then .pointer (name.drop 1)
      else if name.take 1 = lit "[" ∧ 2 < name.length ∧ name.getLast? = some (ch ']') then
        .array (((name.drop 1).dropLast).takeWhile notComma)
      else if name.take 4 = lit "map[" then mapView name
      else userType isEnum name

/-- `TYPE_NAME_MAX`. -/
def nameMax : Nat := 128

/-- `type_name`. -/
def typeName : View → Str
  | .prim _ n => n
  | .array e => (lit "[" ++ e ++ lit "]").take (nameMax - 1)
  | .map _ (some (k, v)) => (mapText k v).take (nameMax - 1)
  | .map n none => n
  | .pointer t => (lit "^" ++ t).take (nameMax - 1)
  | .struct n => n
  | .enum n => n
  | .func n _ => n

/-! ## Wildcards -/

def isWild (c : Byte) : Bool := c == ch '?'
def hasWild (s : Str) : Bool := s.any isWild

/-- `substitute_wildcard`. -/
def subst (s c : Str) : Str := s.flatMap fun b => if isWild b then c else [b]

/-- The loop of `parse_map_key_value`: the length of the key. -/
def keyLen : Int → Str → Option Nat
  | _, [] => none
  | d, c :: r =>
    if d = 0 ∧ c = ch ']' then none
    else if c = ch '[' then (keyLen (d + 1) r).map (· + 1)
    else if c = ch ']' then (keyLen (d - 1) r).map (· + 1)
    else if c = ch ':' ∧ d = 0 then some 0
    else (keyLen d r).map (· + 1)

/-- `parse_map_key_value`. -/
def keyValue (tn : Str) : Option (Str × Str) :=
  if tn.take 4 = lit "map[" then
    match keyLen 0 (tn.drop 4) with
    | none => none
    | some n => if tn.getLast? = some (ch ']') then some ((tn.drop 4).take n, ((tn.drop 4).drop (n + 1)).dropLast) else none
  else none

def bracketed (s : Str) : Bool := s.take 1 = lit "["

/-- `bind_wildcard_string`; `n` is more than the length of `p`. -/
def bind : Nat → Str → Str → Option Str
  | 0, _, _ => none
  | n + 1, p, a =>
    if p = lit "?" then if a = lit "unknown" then none else some a
    else if bracketed p && bracketed a then
      if p.length < 3 ∨ a.length < 3 then none
      else if p.getLast? ≠ some (ch ']') ∨ a.getLast? ≠ some (ch ']') then none
      else bind n (p.drop 1).dropLast (a.drop 1).dropLast
    else if p.take 4 = lit "map[" ∧ a.take 4 = lit "map[" then
      match keyValue p, keyValue a with
      | some (pk, pv), some (ak, av) =>
        if !hasWild pk && !hasWild pv then none
        else if !hasWild pk && ak != pk then none
        else if !hasWild pv && av != pv then none
        else if hasWild pk && hasWild pv && ak != av then none
        else if hasWild pk then bind n pk ak
        else bind n pv av
      | _, _ => none
    else none

def bindWildcard (p a : Str) : Option Str := bind (p.length + 1) p a

/-- The first `:` outside of brackets, as `codegen_bind_wildcard` looks for it. -/
def colonAt : Int → Str → Option Nat
  | _, [] => none
  | d, c :: r =>
    if c = ch '[' then (colonAt (d + 1) r).map (· + 1)
    else if c = ch ']' then (colonAt (d - 1) r).map (· + 1)
    else if c = ch ':' ∧ d = 0 then some 0
    else (colonAt d r).map (· + 1)

/-- `codegen_bind_wildcard`. -/
def genBind : Nat → Str → Str → Option Str
  | 0, _, _ => none
  | n + 1, p, a =>
    if !hasWild p then none
    else if p = lit "?" then some a
    else if 3 ≤ p.length ∧ bracketed p ∧ p.getLast? = some (ch ']') then
      if a.length < 3 ∨ !bracketed a ∨ a.getLast? ≠ some (ch ']') then none
      else genBind n (p.drop 1).dropLast (a.drop 1).dropLast
    else if 4 < p.length ∧ p.take 4 = lit "map[" ∧ p.getLast? = some (ch ']') then
      if a.length ≤ 4 ∨ a.take 4 ≠ lit "map[" ∨ a.getLast? ≠ some (ch ']') then none
      else
        let pi := (p.drop 4).dropLast
        let ai := (a.drop 4).dropLast
        match colonAt 0 pi, colonAt 0 ai with
        | some pc, some ac =>
          let first := if hasWild (pi.take pc) then genBind n (pi.take pc) (ai.take ac) else none
          match first with
          | some r => some r
          | none => if hasWild (pi.drop (pc + 1)) then genBind n (pi.drop (pc + 1)) (ai.drop (ac + 1)) else none
        | _, _ => none
    else none

/-- Checking a generic call (`typechecker.c` 4578-4655): the types of the parameters and of the arguments, the binding so far.
`none` if there is a diagnostic; there is none for an argument of kind `TK_UNKNOWN`, which a bare `func` also is. -/
def checkArgs : List (Str × Str) → Option Str → Option (Option Str)
  | [], b => some b
  | (p, a) :: l, b =>
    if !hasWild p then checkArgs l b
    else match bindWildcard p a with
      | none => if a = lit "unknown" ∨ a = lit "func" then checkArgs l b else none
      | some c => match b with
        | none => checkArgs l (some c)
        | some b => if b = c then checkArgs l (some b) else none

/-! ## Names of instances -/

def wordByte (c : Byte) : Byte := if isAlnum c || c == ch '_' then c else ch '_'

/-- The definition (9213-9218): a buffer of 256 bytes. -/
def defName (fn binding : Str) : Outcome Str :=
  if bufSize ≤ fn.length + 2 then .ub
  else .ok (lit "gray_fn_" ++ (fn ++ lit "__" ++ binding.map wordByte).take (bufSize - 1))

/-- The call (6655-6668). -/
def callName (fn binding : Str) : Str := lit "gray_fn_" ++ fn ++ lit "__" ++ binding.map wordByte

/-- The C name of a function that is not generic. -/
def plainName (fn : Str) : Str := lit "gray_fn_" ++ fn

end Verif.TypeName

import Verif.Model.RangeLoop
import Verif.Model.Names

/-!
# `when` statements

* `parse_when_statement`, `/repo/grayc/src/parser/parser.c:2737-2984`, on tokens.
* The checks, `/repo/grayc/src/typechecker/typechecker.c:10505-10770`: E3018, E2043, E3047, E3116, E3056; `check_block` (7611-7630).
* The C text, `/repo/grayc/src/codegen/codegen.c:9032-9190`.

Simplifications.
* In the parser, expressions are one token or a call with one token per argument, and a block is the tokens up to the matching brace.
* The C text is represented by what it computes; values of range bounds are of type `int`.
* Enums have the values given (C261 is about where these come from).
-/

namespace Verif.When
open Verif Verif.IntOps Verif.Str

/-! ### Parser -/

inductive Tok where
  | is_ | dflt | lb | rb | lp | rp | comma | dot
  | ident (s : Str)
  /-- any other expression of one token -/
  | lit (n : Nat)
  deriving DecidableEq

inductive Arg where
  | ident (s : Str)
  | lit (n : Nat)
  deriving DecidableEq

inductive Value where
  | arg (a : Arg)
  | call (f : Str) (args : List Arg)
  /-- `NODE_WHEN_PATTERN`: the enum if written, the variant and the bindings -/
  | pattern (enum : Option Str) (variant : Str) (names : List Str)
  deriving DecidableEq

/-- The loops over the names in parentheses (2797-2802): a comma may follow each name. The names and the rest from `)` on. -/
def bindings : List Tok → Option (List Str × List Tok)
  | .rp :: r => some ([], .rp :: r)
  | .ident s :: .comma :: r => (bindings r).map fun q => (s :: q.1, q.2)
  | .ident s :: r => (bindings r).map fun q => (s :: q.1, q.2)
  | _ => none

/-- The detection of patterns (2775-2890), after `is`; the rest is from after `)` on. -/
def pattern : List Tok → Option (Value × List Tok)
  | .ident v :: .lp :: r =>
    match bindings r with
    | some (b :: bs, .rp :: rest) => some (.pattern none v (b :: bs), rest)
    | _ => none
  | .ident e :: .dot :: .ident v :: .lp :: r =>
    match bindings r with
    | some (b :: bs, .rp :: rest) => some (.pattern (some e) v (b :: bs), rest)
    | _ => none
  | .dot :: .ident v :: .lp :: r =>
    match bindings r with
    | some (b :: bs, .rp :: rest) => some (.pattern none v (b :: bs), rest)
    | _ => none
  | _ => none

def arg : Tok → Option Arg
  | .ident s => some (.ident s)
  | .lit n => some (.lit n)
  | _ => none

/-- The arguments of a call, after `(`. -/
def args : List Tok → Option (List Arg × List Tok)
  | .rp :: r => some ([], r)
  | t :: .comma :: r => match arg t with | none => none | some a => (args r).map fun q => (a :: q.1, q.2)
  | t :: .rp :: r => (arg t).map fun a => ([a], r)
  | _ => none

/-- `parse_expression` -/
def expr : List Tok → Option (Value × List Tok)
  | .ident f :: .lp :: r => (args r).map fun q => (.call f q.1, q.2)
  | .ident s :: r => some (.arg (.ident s), r)
  | .lit n :: r => some (.arg (.lit n), r)
  | _ => none

/-- `is a, b, c` (2943-2960); the first value has been read. -/
def more : Nat → List Tok → Option (List Value × List Tok)
  | n + 1, .comma :: r =>
    match expr r with
    | none => none
    | some (v, rest) => (more n rest).map fun q => (v :: q.1, q.2)
  | _, r => some ([], r)

/-- After `is`, up to the brace. -/
def values (ts : List Tok) : Option (List Value × List Tok) :=
  match pattern ts with
  | some (p, rest) => some ([p], rest)
  | none =>
    match expr ts with
    | none => none
    | some (v, rest) => (more rest.length rest).map fun q => (v :: q.1, q.2)

/-- The tokens of a block, after its brace; `d` braces are open inside. -/
def block : Nat → List Tok → Option (List Tok × List Tok)
  | _, [] => none
  | 0, .rb :: r => some ([], r)
  | d + 1, .rb :: r => (block d r).map fun q => (.rb :: q.1, q.2)
  | d, .lb :: r => (block (d + 1) r).map fun q => (.lb :: q.1, q.2)
  | d, t :: r => (block d r).map fun q => (t :: q.1, q.2)

structure Parsed where
  cases : List (List Value × List Tok) := []
  default : Option (List Tok) := none
  deriving DecidableEq

/-- `.. {` and a block. -/
def body : List Tok → Option (List Tok × List Tok)
  | .lb :: r => block 0 r
  | _ => none

/-- The loop of `parse_when_statement` after the first brace, to after the last; `none` on errors. Other tokens are skipped. -/
def loop : Nat → List Tok → Parsed → Option (Parsed × List Tok)
  | 0, _, _ => none
  | _ + 1, [], p => some (p, [])
  | _ + 1, .rb :: r, p => some (p, r)
  | n + 1, .is_ :: r, p =>
    match values r with
    | none => none
    | some (vs, r1) =>
      match body r1 with
      | none => none
      | some (b, r2) => loop n r2 { p with cases := p.cases ++ [(vs, b)] }
  | n + 1, .dflt :: r, p =>
    if p.default.isSome then none
    else
      match body r with
      | none => none
      | some (b, r1) => loop n r1 { p with default := some b }
  | n + 1, _ :: r, p => loop n r p

/-- E2059 -/
def parse (ts : List Tok) : Option (Parsed × List Tok) :=
  match loop (ts.length + 1) ts {} with
  | some (p, r) => if p.cases = [] ∧ p.default = none then none else some (p, r)
  | none => none

/-! ### Selection of a case -/

/-- A value of a case for a subject of integer type. -/
inductive CaseVal where
  | val (t : IntTy) (z : Int)
  /-- `range(start, end, step)`; `none` for `range(end)` -/
  | range (start : Option Int) (e : Int) (st : RangeLoop.Step)

/-- Whether the text for a value is C: for `range(end)` the start is missing (9106, 9118). -/
def CaseVal.isC : CaseVal → Bool
  | .range none _ _ => false
  | _ => true

/-- `neg_step` (9101-9103) -/
def negStep : RangeLoop.Step → Bool
  | .neg _ => true
  | _ => false

/-- The step in C. -/
def stepC : RangeLoop.Step → Option (Outcome Int)
  | .none => none
  | .lit v => some (.ok v)
  | .neg x => some (negCheck x)
  | .var s => some (.ok s)

/-- Lines 9104-9124: `(x >= start && x < end && (x - start) % step == 0)` -/
def rangeTest (start e : Int) (st : RangeLoop.Step) (x : Int) : Outcome Bool :=
  if (if negStep st then x ≤ start ∧ x > e else x ≥ start ∧ x < e) then
    match stepC st with
    | none => .ok true
    | some o => o.bind fun s =>
      let d := x - start
      if d < minI64 ∨ d > maxI64 ∨ s = 0 ∨ (d = minI64 ∧ s = -1) then .ub else .ok (d.tmod s == 0)
  else .ok false

def CaseVal.test (ts : IntTy) (x : Int) : CaseVal → Outcome Bool
  | .val t z => .ok (emitCmp .eq ts t x z)
  | .range start e st => rangeTest (start.getD 0) e st x

/-- `a || b || c` -/
def anyTest (ts : IntTy) (x : Int) : List CaseVal → Outcome Bool
  | [] => .ok false
  | v :: vs => (v.test ts x).bind fun b => if b then .ok true else anyTest ts x vs

/-- The chain of `if`: the number of the case that runs, the number of cases for the default. -/
def select (ts : IntTy) (x : Int) : List (List CaseVal) → Outcome Nat
  | [] => .ok 0
  | c :: cs => (anyTest ts x c).bind fun b => if b then .ok 0 else (select ts x cs).bind fun n => .ok (n + 1)

/-! ### Evaluations -/

/-- The expressions of a case value, by their numbers: one, or start, end and step of a range. -/
inductive Parts where
  | one (e : Nat)
  | range (start e : Nat) (step : Option Nat)

/-- How far a value is evaluated: one that does not match may stop in the middle of a range. -/
inductive Reach where
  | hit
  /-- the first comparison of a range fails -/
  | first
  /-- the second comparison fails -/
  | second
  /-- the last comparison, or the only one, fails -/
  | last
  deriving DecidableEq

/-- The expressions evaluated for a value. -/
def Parts.evaluated : Parts → Reach → List Nat
  | .one e, _ => [e]
  | .range s _ _, .first => [s]
  | .range s e _, .second => [s, e]
  | .range s e none, _ => [s, e]
  | .range s e (some t), _ => [s, e, s, t]

/-- The expressions evaluated for a list of values, until one matches. -/
def evaluatedAll : List (Parts × Reach) → List Nat
  | [] => []
  | (p, .hit) :: _ => p.evaluated .hit
  | (p, r) :: ps => p.evaluated r ++ evaluatedAll ps

/-- All of a statement: the subject, number 0, is evaluated into `_gray_when..` first. -/
def evaluated (cases : List (List (Parts × Reach))) : List Nat := 0 :: evaluatedAll cases.flatten

/-! ### `#strict` -/

structure Enum where
  name : Str
  variants : List (Str × Int)

inductive SubjectTy where
  | int
  | enum (name : Str)
  deriving DecidableEq

inductive StrictVal where
  /-- `Enum.VARIANT` -/
  | member (e v : Str)
  /-- `.VARIANT` -/
  | implicit (v : Str)
  | int (z : Int)

def enumOf (es : List Enum) (n : Str) : Option Enum := es.find? fun e => e.name == n

/-- Enum values that exist; `.VARIANT` needs a subject of an enum type. Kinds are then always compatible (10572-10586). -/
def StrictVal.known (es : List Enum) (s : SubjectTy) : StrictVal → Bool
  | .member e v => match enumOf es e with | none => false | some d => d.variants.any fun w => w.1 == v
  | .implicit v =>
    match s with
    | .int => false
    | .enum n => match enumOf es n with | none => false | some d => d.variants.any fun w => w.1 == v
  | .int _ => true

/-- The enum the cases are about (10657-10678). -/
def strictEnum (es : List Enum) (s : SubjectTy) (vs : List StrictVal) : Option Str :=
  vs.findSome? fun v =>
    match v with
    | .member e _ => if (enumOf es e).isSome then some e else none
    | .implicit _ => match s with | .int => none | .enum n => some n
    | .int _ => none

/-- Whether a value covers the variant number `i` (10693-10718). -/
def StrictVal.covers (name : Str) (i : Nat) : StrictVal → Bool
  | .member _ v => v == name
  | .implicit v => v == name
  | .int z => z == i

/-- No E3056: a `#strict when` without default. -/
def strictOk (es : List Enum) (s : SubjectTy) (vs : List StrictVal) : Bool :=
  match strictEnum es s vs with
  | none => false
  | some n =>
    match enumOf es n with
    | none => true
    | some d => d.variants.zipIdx.all fun w => vs.any fun v => v.covers w.1.1 w.2

/-- The value of a variant. -/
def valueOf (es : List Enum) (e v : Str) : Option Int :=
  (enumOf es e).bind fun d => (d.variants.find? fun w => w.1 == v).map fun w => w.2

/-- Whether a value equals the subject at run time. -/
def StrictVal.hits (es : List Enum) (s : SubjectTy) (x : Int) : StrictVal → Bool
  | .member e v => valueOf es e v == some x
  | .implicit v => match s with | .int => false | .enum n => valueOf es n v == some x
  | .int z => z == x

/-! ### Duplicates -/

/-- A case value as E2043 sees it (10591-10604). -/
inductive LitVal where
  | int (z : Int)
  | str (s : Str)
  /-- `-z` -/
  | neg (z : Int)
  | chr (c : Nat)
  | variant (e v : Str)
  deriving DecidableEq

/-- `dup`; values of literals are kept in 64 bits. -/
def LitVal.dup : LitVal → LitVal → Bool
  | .int a, .int b => toI64 a == toI64 b
  | .str a, .str b => a == b
  | _, _ => false

/-- No E2043: every value is compared with those of the cases before. -/
def noDup : List (List LitVal) → List LitVal → Bool
  | [], _ => true
  | c :: cs, before => (c.all fun v => before.all fun p => !v.dup p) && noDup cs (before ++ c)

/-! ### Patterns -/

/-- The checks of a pattern for a subject of an enum type with payload counts: E2002 (parser.c:2915-2923), E3047 and E3116
(10533-10563). The enum that is written is replaced by that of the subject. -/
def patternOk (variants : List (Str × Nat)) (_written : Option Str) (v : Str) (names : List Str) : Bool :=
  names.all (fun n => !Names.search Names.typeNames n) &&
    match variants.find? fun w => w.1 == v with
    | none => false
    | some w => w.2 == names.length

/-- The names that are declared in C for a pattern (9160-9166), which are not passed to `sanitize_name`. -/
def declared (names : List Str) : List Str := names

/-! ### Types of case values -/

inductive VTy where
  | int | uint | byte | i128 | u128 | i256 | u256 | float | bool | char | string | enumInt | enumString | enumTagged
  deriving DecidableEq

def VTy.all : List VTy := [.int, .uint, .byte, .i128, .u128, .i256, .u256, .float, .bool, .char, .string, .enumInt, .enumString, .enumTagged]

inductive TK where
  | int | uint | byte | float | bool | char | string | enum
  deriving DecidableEq

def VTy.tk : VTy → TK
  | .int | .i128 | .i256 => .int
  | .uint | .u128 | .u256 => .uint
  | .byte => .byte
  | .float => .float
  | .bool => .bool
  | .char => .char
  | .string => .string
  | .enumInt | .enumString | .enumTagged => .enum

def TK.isInt : TK → Bool
  | .int | .uint | .byte => true
  | _ => false

/-- `compat` (10572-10586) -/
def compat (s v : VTy) : Bool :=
  s.tk = v.tk || (s.tk.isInt && v.tk.isInt) || (s.tk.isInt && v.tk = .enum) || (s.tk = .enum && v.tk.isInt)
    || (s.tk = .string && v = .enumString) || (s = .enumString && v.tk = .string)

/-- What C type a value has, as far as comparisons are concerned. -/
inductive CKind where
  | number | string | wide (w : VTy) | tagged
  deriving DecidableEq

def VTy.c : VTy → CKind
  | .i128 => .wide .i128
  | .u128 => .wide .u128
  | .i256 => .wide .i256
  | .u256 => .wide .u256
  | .string | .enumString => .string
  | .enumTagged => .tagged
  | _ => .number

/-- Whether the comparison for a subject and a value is C (9081-9149); `own` tells if a variant is one of the subject's enum. For tagged
enums variants are named by the member alone. -/
def validC (s v : VTy) (own : Bool) : Bool :=
  match s.c with
  | .tagged => if v.tk = .enum then own else v.c = .number
  | .string => v.c = .string
  | .wide w => v.c = .wide w
  | .number => v.c = .number

/-! ### Statements after `return` -/

inductive Stmt where
  | ret
  /-- a statement that is right or wrong -/
  | stmt (ok : Bool)
  deriving DecidableEq

/-- `check_block`: no error is reported; the flag tells whether a `return` was seen. -/
def checkBlock : List Stmt → Bool → Bool
  | [], _ => true
  | _ :: _, true => true
  | .ret :: r, false => checkBlock r true
  | .stmt ok :: r, false => ok && checkBlock r false

/-- `emit_block` (8386-8390): the statements that are written. -/
def emitBlock (b : List Stmt) : List Stmt := b

end Verif.When

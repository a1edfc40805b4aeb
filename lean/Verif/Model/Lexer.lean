import Verif.Model.Str

/-
The lexer: /repo/grayc/src/lexer/lexer.c and lexer/token.c.

Simplifications.
* The state is the text not yet read: its first byte is `ch`, and `ch == 0` means that it is empty. The
  source is a C string, so it has no byte 0 (`lexer_create` uses `strlen`), and it is shorter than 2^31.
  `read_char` at the end moves `position` past the terminating 0 in two places (after a quote or a
  backslash at the end of the text); the token is an error then, and the byte copied is the 0.
* Lines and columns are a function of the bytes read (`place`), as only `read_char` changes them.
* A token type is given by its name in `token_type_name` (token.c:77-176), and literals, identifiers, errors and
  the end by a constructor. The literal of an error token (its message) is left out; the error code is kept.
* `isalpha`, `isdigit`, `isxdigit` are those of the C locale (the compiler does not call `setlocale`).
-/
namespace Verif.Lexer
open Verif Verif.Str

def isAlpha (c : Byte) : Bool := isUpper c || isLower c

inductive Kind where
  | illegal (code : String)
  | eof | ident | int | float | string | raw | char
  /-- An operator, delimiter, attribute or keyword. -/
  | sym (name : Str)
  deriving DecidableEq

/-- The condition of `skip_whitespace` (39-43). -/
def isWs (c : Byte) : Bool := c == 32 || c == 9 || c == 13 || c == 10

/-- `skip_whitespace` (39-43). -/
def skipSpace (s : Str) : Str := s.dropWhile isWs

/-- `skip_line_comment` (45-50). -/
def skipLine (s : Str) : Str := s.dropWhile (· != 10)

/-- The loop of `skip_block_comment` (52-66); none when the comment is not closed. -/
def skipBlock : Str → Option Str
  | [] => none
  | c :: r => if c = 42 ∧ r.head? = some 47 then some (r.drop 1) else skipBlock r

/-- `skip_whitespace_and_comments` (68-82). None is error E1003; the text is then at its end. Each
round of the loop takes a unit of fuel. -/
def skip : Nat → Str → Option Str
  | 0, s => some s
  | f + 1, s =>
    match skipSpace s with
    | 47 :: 47 :: r => skip f (skipLine r)
    | 47 :: 42 :: r =>
      match skipBlock r with
      | none => none
      | some r => skip f r
    | s => some s

def isWordByte (c : Byte) : Bool := isAlpha c || c == 95 || isDigit c

/-- `read_identifier` (84-90). -/
def readWord (s : Str) : Str × Str := (s.takeWhile isWordByte, s.dropWhile isWordByte)

/-- `keywords` (token.c:21-64). -/
def keywords : List (Str × Str) :=
  [(lit "_", lit "_"), (lit "as_long_as", lit "as_long_as"), (lit "bit_and", lit "bit_and"),
   (lit "bit_not", lit "bit_not"), (lit "bit_or", lit "bit_or"), (lit "bit_shift_left", lit "bit_shift_left"),
   (lit "bit_shift_right", lit "bit_shift_right"), (lit "bit_xor", lit "bit_xor"), (lit "break", lit "break"),
   (lit "cast", lit "cast"), (lit "const", lit "const"), (lit "continue", lit "continue"),
   (lit "default", lit "default"), (lit "do", lit "do"), (lit "else", lit "otherwise"), (lit "ensure", lit "ensure"),
   (lit "enum", lit "enum"), (lit "false", lit "false"), (lit "for", lit "for"), (lit "for_each", lit "for_each"),
   (lit "if", lit "if"), (lit "import", lit "import"), (lit "in", lit "in"), (lit "is", lit "is"), (lit "loop", lit "loop"),
   (lit "module", lit "module"), (lit "mut", lit "mut"), (lit "new", lit "new"), (lit "nil", lit "nil"),
   (lit "not_in", lit "not_in"), (lit "or", lit "or"), (lit "or_return", lit "or_return"),
   (lit "otherwise", lit "otherwise"), (lit "private", lit "private"), (lit "range", lit "range"),
   (lit "return", lit "return"), (lit "struct", lit "struct"), (lit "true", lit "true"), (lit "use", lit "use"),
   (lit "using", lit "using"), (lit "when", lit "when"), (lit "while", lit "as_long_as")]

/-- The sign of `strcmp`. -/
def strcmp : Str → Str → Ordering
  | [], [] => .eq
  | [], _ :: _ => .lt
  | _ :: _, [] => .gt
  | a :: s, b :: t => if a.toNat < b.toNat then .lt else if b.toNat < a.toNat then .gt else strcmp s t

/-- The loop of `token_lookup_identifier` (token.c:70-79), on the table entries `lo … hi-1` (`hi` is one
more than in the source). -/
def lookupLoop (tab : List (Str × Str)) (id : Str) : Nat → Nat → Nat → Kind
  | 0, _, _ => .ident
  | f + 1, lo, hi =>
    if lo < hi then
      let mid := (lo + (hi - 1)) / 2
      match tab[mid]? with
      | none => .ident
      | some (k, t) =>
        match strcmp id k with
        | .eq => .sym t
        | .lt => lookupLoop tab id f lo mid
        | .gt => lookupLoop tab id f (mid + 1) hi
    else .ident

/-- `token_lookup_identifier` (token.c:68-79). -/
def lookupWord (id : Str) : Kind := lookupLoop keywords id (keywords.length + 1) 0 keywords.length

/-- The byte at an index, 0 at the end. -/
def at0 (s : Str) (i : Nat) : Byte := (s[i]?).getD 0

/-- A literal with prefix (99-128): `ok` are its digits. -/
def readPrefixed (ok : Byte → Bool) (s : Str) : Kind × Str × Str :=
  let p := fun c => ok c || c == 95
  let ds := (s.drop 2).takeWhile p
  (if ds = [] then .illegal "E1010" else .int, s.take 2 ++ ds, (s.drop 2).dropWhile p)

/-- The error the scan for doubled underscores leaves (161-163). -/
def hasDouble : Str → Bool
  | 95 :: 95 :: _ => true
  | _ :: r => hasDouble r
  | [] => false

/-- The checks at the first point (165-174): the error code they leave. -/
def pointCheck (s : Str) : Option String :=
  let i := (s.takeWhile (· != 46)).length
  if i < s.length then
    let e := if 0 < i ∧ at0 s (i - 1) = 95 then some "E1014" else none
    let e := if at0 s (i + 1) = 95 then some "E1015" else e
    if at0 s (i + 1) = 0 ∨ (¬ isDigit (at0 s (i + 1)) ∧ at0 s (i + 1) ≠ 95) then some "E1016" else e
  else none

/-- The checks of a literal (148-177), given that it does not start with a prefix (these literals have
returned already). Later errors replace earlier ones. -/
def numberCheck (s : Str) : Option String :=
  let e := if at0 s (s.length - 1) = 95 then some "E1013" else none
  let e := if hasDouble s then some "E1011" else e
  match pointCheck s with
  | some c => some c
  | none => e

def isDigitU (c : Byte) : Bool := isDigit c || c == 95

/-- The bytes after a point for which it belongs to the number (137-139). -/
def pointNext (c : Byte) : Bool :=
  isDigit c || c == 95 || c == 0 || c == 10 || c == 32 || c == 41 || c == 125 || c == 44 || c == 59

/-- The text and type of a decimal literal (131-146). -/
def readDecimal (s : Str) : Kind × Str × Str :=
  let a := s.takeWhile isDigitU
  match s.dropWhile isDigitU with
  | 46 :: r =>
    if pointNext (at0 r 0) then (.float, a ++ 46 :: r.takeWhile isDigitU, r.dropWhile isDigitU)
    else (.int, a, 46 :: r)
  | r => (.int, a, r)

/-- `read_number` (92-179), with the choice of the token type (549-558). -/
def readNumber (s : Str) : Kind × Str × Str :=
  if at0 s 0 = 48 ∧ (at0 s 1 = 120 ∨ at0 s 1 = 88) then readPrefixed isXDigit s
  else if at0 s 0 = 48 ∧ (at0 s 1 = 111 ∨ at0 s 1 = 79) then readPrefixed (between 48 · 55) s
  else if at0 s 0 = 48 ∧ (at0 s 1 = 98 ∨ at0 s 1 = 66) then readPrefixed (fun c => c == 48 || c == 49) s
  else
    let n := readDecimal s
    match numberCheck n.2.1 with
    | some e => (.illegal e, n.2.1, n.2.2)
    | none => n

/-- The escapes of a string that are not hexadecimal (205-208). -/
def strEscapes : Str := lit "ntr\\\"'0abfv$"

inductive StrEnd where
  | closed | newline | eof
  deriving DecidableEq

/-- The result of a string loop: the bytes read, how it ended, the text left at that place, the error. -/
structure StrRes where
  text : Str
  how : StrEnd
  rest : Str
  err : Option String
  deriving DecidableEq

/-- More bytes were read before. -/
def StrRes.pre (p : Str) (r : StrRes) : StrRes := { r with text := p ++ r.text }

/-- The loop of `read_string` (186-239): the text, the brace depth, and the error so far. -/
def strLoop : Str → Nat → Option String → StrRes
  | [], _, e => ⟨[], .eof, [], e⟩
  | 92 :: r, d, e =>
    match r with
    | [] => ⟨[92], .eof, [], e⟩
    | 120 :: r1 =>
      match r1 with
      | [] => ⟨[92, 120], .eof, [], some "E1006"⟩
      | a :: r2 =>
        if isXDigit a then
          match r2 with
          | [] => ⟨[92, 120, a], .eof, [], some "E1006"⟩
          | b :: r3 =>
            if isXDigit b then (strLoop r3 d e).pre [92, 120, a, b]
            else (strLoop (b :: r3) d (some "E1006")).pre [92, 120, a]
        else (strLoop (a :: r2) d (some "E1006")).pre [92, 120]
    | c :: r1 => (strLoop r1 d (if c ∈ strEscapes then e else some "E1006")).pre [92, c]
  | c :: r, d, e =>
    if c = 36 ∧ r.head? = some 123 then
      match r with
      | b :: r1 => (strLoop r1 (d + 1) e).pre [c, b]
      | [] => ⟨[c], .eof, [], e⟩
    else if c = 123 ∧ 0 < d then (strLoop r (d + 1) e).pre [c]
    else if c = 125 ∧ 0 < d then (strLoop r (d - 1) e).pre [c]
    else if c = 34 ∧ d = 0 then ⟨[], .closed, c :: r, e⟩
    else if c = 10 ∧ d = 0 then ⟨[], .newline, c :: r, some "E1023"⟩
    else (strLoop r d e).pre [c]

/-- `read_string` (181-250) with the choice of the token type (513-528); the text starts with the quote. -/
def readString (s : Str) : Kind × Str × Str :=
  let r := strLoop (s.drop 1) 0 none
  match r.how, r.err with
  | .closed, none => (.string, r.text, r.rest.drop 1)
  | .closed, some e => (.illegal e, r.text, r.rest.drop 1)
  | _, some e => (.illegal e, r.text, r.rest)
  | _, none => (.illegal "E1021", r.text, r.rest)

/-- `read_raw_string` (252-268; 530-534). -/
def readRaw (s : Str) : Kind × Str × Str :=
  let t := (s.drop 1).takeWhile (· != 96)
  match (s.drop 1).dropWhile (· != 96) with
  | [] => (.illegal "E1017", t, [])
  | _ :: r => (.raw, t, r)

/-- The escapes of a character literal (279-280). -/
def charEscapes : Str := lit "ntr\\'0x"

/-- The end of `read_char_literal` (290-305), after the first character. -/
def charEnd (text s : Str) (e : Option String) : Kind × Str × Str :=
  match e with
  | some e => (.illegal e, text, if s.head? = some 39 then s.drop 1 else s)
  | none =>
    match s with
    | [] => (.illegal "E1005", text, [])
    | c :: r =>
      if c = 39 then (.char, text, r)
      else
        let p := fun c : Byte => c != 39 && c != 10
        let left := (c :: r).dropWhile p
        (.illegal "E1018", text ++ (c :: r).takeWhile p, if left.head? = some 39 then left.drop 1 else left)

/-- `read_char_literal` (270-305; 536-541). -/
def readChar (s : Str) : Kind × Str × Str :=
  match s.drop 1 with
  | [] => charEnd [] [] none
  | 92 :: r =>
    match r with
    | [] => charEnd [92] [] none
    | c :: r => charEnd [92, c] r (if c ∈ charEscapes then none else some "E1007")
  | c :: r => charEnd [c] r none

/-- One of two operators, by the next byte. -/
def two (s : Str) (b : Byte) (long short : String) : Kind × Str × Str :=
  if at0 s 1 = b then (.sym (lit long), lit long, s.drop 2) else (.sym (lit short), lit short, s.drop 1)

def one (s : Str) (t : String) : Kind × Str × Str := (.sym (lit t), lit t, s.drop 1)

/-- The attributes (480-503), in the order of the tests. -/
def attrs : List Str := [lit "#suppress", lit "#strict", lit "#flags", lit "#doc", lit "#json"]

/-- The `switch` of `lexer_next_token` (352-568) for a text that is not empty. -/
def token (s : Str) : Kind × Str × Str :=
  match at0 s 0 with
  | 61 => two s 61 "==" "="
  | 43 => if at0 s 1 = 61 then (.sym (lit "+="), lit "+=", s.drop 2) else two s 43 "++" "+"
  | 45 =>
    if at0 s 1 = 62 then (.sym (lit "->"), lit "->", s.drop 2)
    else if at0 s 1 = 61 then (.sym (lit "-="), lit "-=", s.drop 2)
    else two s 45 "--" "-"
  | 33 =>
    if at0 s 1 = 61 then (.sym (lit "!="), lit "!=", s.drop 2)
    else if at0 s 1 = 105 ∧ at0 s 2 = 110 ∧ (s.length ≤ 3 ∨ isAlpha (at0 s 3) = false) then
      (.sym (lit "not_in"), lit "!in", s.drop 3)
    else one s "!"
  | 42 => two s 61 "*=" "*"
  | 47 => two s 61 "/=" "/"
  | 37 => two s 61 "%=" "%"
  | 60 => two s 61 "<=" "<"
  | 62 => two s 61 ">=" ">"
  | 38 => two s 38 "&&" "&"
  | 63 => one s "?"
  | 124 =>
    if at0 s 1 = 124 then (.sym (lit "||"), lit "||", s.drop 2) else (.illegal "E1020", s.take 1, s.drop 1)
  | 44 => one s ","
  | 58 => one s ":"
  | 59 => one s ";"
  | 40 => one s "("
  | 41 => one s ")"
  | 123 => one s "{"
  | 125 => one s "}"
  | 91 => one s "["
  | 93 => one s "]"
  | 46 => one s "."
  | 64 => one s "@"
  | 94 => one s "^"
  | 35 =>
    match attrs.find? (fun a => a.isPrefixOf s) with
    | some a => (.sym a, a, s.drop a.length)
    | none => (.illegal "E1019", s.take 1, s.drop 1)
  | 34 => readString s
  | 96 => readRaw s
  | 39 => readChar s
  | c =>
    if isAlpha c || c == 95 then
      let w := readWord s
      (lookupWord w.1, w.1, w.2)
    else if isDigit c then readNumber s
    else (.illegal "E1022", s.take 1, s.drop 1)

structure Tok where
  kind : Kind
  text : Str
  /-- `preceded_by_ws`. -/
  gap : Bool
  /-- The length of the text left where the token starts. -/
  left : Nat
  deriving DecidableEq

/-- `lexer_next_token` (338-577): the token and the text left. -/
def next (s : Str) : Tok × Str :=
  match skip (s.length + 1) s with
  | none => (⟨.illegal "E1003", [], true, 0⟩, [])
  | some [] => (⟨.eof, [], !s.isEmpty, 0⟩, [])
  | some (c :: r) =>
    let t := token (c :: r)
    (⟨t.1, t.2.1, decide ((c :: r).length ≠ s.length), (c :: r).length⟩, t.2.2)

/-- All tokens up to the end of the file, as the parser asks for them. -/
def lexLoop : Nat → Str → Option (List Tok)
  | 0, _ => none
  | f + 1, s =>
    let t := next s
    if t.1.kind = .eof then some [t.1]
    else match lexLoop f t.2 with
      | none => none
      | some ts => some (t.1 :: ts)

def lex (s : Str) : Option (List Tok) := lexLoop (s.length + 1) s

/-- Line and column after `read_char` (20-32) has read these bytes one by one, from line 1 and column 0. -/
def place (s : Str) : Nat × Nat := s.foldl (fun p c => if c = 10 then (p.1 + 1, 0) else (p.1, p.2 + 1)) (1, 0)

/-- Line and column of a token: `read_char` has read its first byte too (or 0 at the end). -/
def Tok.place (src : Str) (t : Tok) : Nat × Nat :=
  if t.left = 0 then ((Lexer.place src).1, (Lexer.place src).2 + 1)
  else Lexer.place (src.take (src.length - t.left + 1))

end Verif.Lexer

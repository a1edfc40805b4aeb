import Verif.Model.Lexer

/-
The formatter: /repo/grayc/src/fmt/fmt.c.

Simplifications.
* The source is a C string without a byte 0; the output is the list of bytes written (`fputc` and `fwrite` are taken to succeed).
* The depth table is a function from lines; counters are natural numbers, and `calloc` and `arena_create` are taken to succeed.
* Tokens come from Model/Lexer; there is no token of type `TOK_NEWLINE`, as the lexer makes none.
-/
namespace Verif.Fmt
open Verif Verif.Str Verif.Lexer

/-- The blanks removed at the beginning of a line (147). -/
def isBlank (c : Byte) : Bool := c == 32 || c == 9

/-- One token in the loop of `build_depth_table` (58-80): depth and table so far. -/
def depthStep (src : Str) (p : Nat × (Nat → Option Nat)) (t : Tok) : Nat × (Nat → Option Nat) :=
  let d := if t.kind = .sym (lit "}") then p.1 - 1 else p.1
  let l := (t.place src).1
  (if t.kind = .sym (lit "{") then d + 1 else d, fun x => if x = l then some ((p.2 x).getD d) else p.2 x)

/-- The tokens the loop sees: up to the end or the first error (59-60). -/
def seen (ts : List Tok) : List Tok :=
  ts.takeWhile fun t => match t.kind with
    | .eof => false
    | .illegal _ => false
    | _ => true

/-- The table of the loop (58-80). -/
def table (src : Str) : Nat → Option Nat := ((seen ((lex src).getD [])).foldl (depthStep src) (0, fun _ => none)).2

/-- The depth of a line after the gaps are filled (86-93). -/
def depthAt (src : Str) : Nat → Nat
  | 0 => 0
  | n + 1 => (table src (n + 1)).getD (depthAt src n)

/-- The loop of `line_is_in_raw_string` (108-123), with the number of lines to pass. -/
def rawLoop : Nat → Bool → Bool → Str → Bool
  | 0, raw, _, _ => raw
  | _ + 1, raw, _, [] => raw
  | n + 1, raw, str, 10 :: r => rawLoop n raw str r
  | n + 1, true, str, c :: r => rawLoop (n + 1) (c != 96) str r
  | n + 1, false, true, 92 :: _ :: r => rawLoop (n + 1) false true r
  | n + 1, false, true, c :: r => rawLoop (n + 1) false (c != 34) r
  | n + 1, false, false, c :: r => if c = 96 then rawLoop (n + 1) true false r else rawLoop (n + 1) false (c == 34) r

/-- `line_is_in_raw_string` (103-124). -/
def inRaw (src : Str) (line : Nat) : Bool := rawLoop (line - 1) false false src

/-- The lines the main loop goes through (135-142), with the bytes of the line so far. -/
def linesFrom : Str → Str → List Str
  | [], [] => []
  | cur, [] => [cur]
  | cur, c :: r => if c = 10 then cur :: linesFrom [] r else linesFrom (cur ++ [c]) r

/-- What is written for a line (144-165). -/
def outLine (src : Str) (n : Nat) (l : Str) : Str :=
  let content := l.dropWhile isBlank
  if content = [] then []
  else if inRaw src n then l
  else List.replicate (depthAt src n * 4) 32 ++ content

/-- The main loop, from a line on. -/
def outFrom (src : Str) : Nat → List Str → Str
  | _, [] => []
  | n, l :: ls => outLine src n l ++ 10 :: outFrom src (n + 1) ls

/-- `gray_fmt_source` (126-174). -/
def format (src : Str) : Str := outFrom src 1 (linesFrom [] src)

end Verif.Fmt

import Verif.Model.Str

/-!
# Regular expressions

Models `grayc/src/stdlib/regex.c`: `to_cstr` (33-38), `compile_pattern` (22-30), `gray_regex_match` (47-57),
`gray_regex_find` (59-78), `gray_regex_find_all` (80-105), `gray_regex_replace` (107-151) and
`gray_regex_split` (153-188).  The `_result` variants (192-250) differ for invalid patterns only.

Simplifications.
* `regcomp` is a function from pattern texts to expressions, given as an argument; `regexec` is the
  leftmost-longest match POSIX asks for, of expressions made of sets of bytes, `^`, `$`, sequence, alternative
  and repetition (without back references, which extended expressions do not have, and without `\<`).
* The rest of a buffer after the terminating NUL is not initialised; reading it is `ub`.
* Offsets fit in an `int`: a buffer has at most 16384 bytes.
-/

namespace Verif.Regex
open Verif Verif.Str

inductive Re where
  | eps
  | set (p : Byte → Bool)
  | bol
  | eol
  | seq (a b : Re)
  | alt (a b : Re)
  | star (a : Re)

/-- Where repetitions from `i` can end, in at most `n` rounds that match something. -/
def iter (f : Nat → List Nat) : Nat → Nat → List Nat
  | 0, i => [i]
  | n + 1, i => i :: ((f i).filter fun j => decide (i < j)).flatMap (iter f n)

/-- Where a match from `i` can end. -/
def ends (t : Str) : Re → Nat → List Nat
  | .eps, i => [i]
  | .set p, i =>
    match t[i]? with
    | some c => if p c then [i + 1] else []
    | none => []
  | .bol, i => if i = 0 then [i] else []
  | .eol, i => if i = t.length then [i] else []
  | .seq a b, i => (ends t a i).flatMap (ends t b)
  | .alt a b, i => ends t a i ++ ends t b i
  | .star a, i => iter (ends t a) (t.length - i) i

def longest : List Nat → Option Nat
  | [] => none
  | j :: r =>
    match longest r with
    | none => some j
    | some k => some (max j k)

/-- The first match from `i` on, trying `n` places. -/
def search (r : Re) (t : Str) : Nat → Nat → Option (Nat × Nat)
  | 0, _ => none
  | n + 1, i =>
    match longest (ends t r i) with
    | some j => some (i, j)
    | none => search r t n (i + 1)

/-- `regexec`. -/
def regexec (r : Re) (t : Str) : Option (Nat × Nat) := search r t (t.length + 1) 0

/-! ## The library -/

def patCap : Nat := 4096
def txtCap : Nat := 8192
def resCap : Nat := 16384

/-- What C sees of a string: everything before the first NUL. -/
def cstr (s : Str) : Str := s.takeWhile fun c => c != 0

/-- `to_cstr`: the bytes before the terminating NUL. -/
def toBuf (n : Nat) (s : Str) : Str := s.take (n - 1)

def compile (comp : Str → Option Re) (pat : Str) : Option Re := comp (cstr (toBuf patCap pat))

def isMatch (comp : Str → Option Re) (pat text : Str) : Bool :=
  match compile comp pat with
  | none => false
  | some r => (regexec r (cstr (toBuf txtCap text))).isSome

/-- `t[i, j)`. -/
def slice (t : Str) (i j : Nat) : Str := (t.take j).drop i

def find (comp : Str → Option Re) (pat text : Str) : Str :=
  match compile comp pat with
  | none => []
  | some r =>
    match regexec r (cstr (toBuf txtCap text)) with
    | none => []
    | some m => slice (toBuf txtCap text) m.1 m.2

/-- The loop with the cursor at `p` of the buffer `t`; `len` is the length of the text.  Each round moves the
cursor, so `t.length + 1 - p` rounds are enough. -/
def findAllFrom (r : Re) (t : Str) (len : Nat) : Nat → Nat → Outcome (List Str)
  | 0, _ => .ub
  | n + 1, p =>
    if t.length < p then .ub
    else
      match regexec r (cstr (t.drop p)) with
      | none => .ok []
      | some m =>
        if m.2 = 0 then
          if len ≤ p then .ok [slice t (p + m.1) (p + m.2)]
          else findAllFrom r t len n (p + 1) >>= fun l => .ok (slice t (p + m.1) (p + m.2) :: l)
        else findAllFrom r t len n (p + m.2) >>= fun l => .ok (slice t (p + m.1) (p + m.2) :: l)

def findAll (comp : Str → Option Re) (pat text : Str) : Outcome (List Str) :=
  match compile comp pat with
  | none => .ok []
  | some r => findAllFrom r (toBuf txtCap text) text.length ((toBuf txtCap text).length + 1) 0

/-- `out` is what was written to `result`. -/
def replaceFrom (r : Re) (t repl : Str) : Nat → Nat → Str → Outcome Str
  | 0, _, _ => .ub
  | n + 1, p, out =>
    if t.length < p then .ub
    else
      match regexec r (cstr (t.drop p)) with
      | none => put resCap out (cstr (t.drop p))
      | some m =>
        if out.length < resCap - patCap then
          put resCap out (slice t p (p + m.1)) >>= fun out =>
          put resCap out repl >>= fun out =>
            if m.2 = 0 then
              match (cstr (t.drop p)).head? with
              | none => put resCap out []
              | some c => put resCap out [c] >>= fun out => replaceFrom r t repl n (p + 1) out
            else replaceFrom r t repl n (p + m.2) out
        else put resCap out (cstr (t.drop p))

def replace (comp : Str → Option Re) (pat text repl : Str) : Outcome Str :=
  match compile comp pat with
  | none => .ok text
  | some r => replaceFrom r (toBuf txtCap text) (cstr (toBuf patCap repl)) ((toBuf txtCap text).length + 1) 0 []

def splitFrom (r : Re) (t : Str) : Nat → Nat → Outcome (List Str)
  | 0, _ => .ub
  | n + 1, p =>
    if t.length < p then .ub
    else
      match regexec r (cstr (t.drop p)) with
      | none => .ok [cstr (t.drop p)]
      | some m =>
        if m.2 = 0 then
          match (cstr (t.drop p)).head? with
          | none => .ok [slice t p (p + m.1), cstr (t.drop p)]
          | some _ => splitFrom r t n (p + 1) >>= fun l => .ok (slice t p (p + m.1) :: l)
        else splitFrom r t n (p + m.2) >>= fun l => .ok (slice t p (p + m.1) :: l)

def split (comp : Str → Option Re) (pat text : Str) : Outcome (List Str) :=
  match compile comp pat with
  | none => .ok [text]
  | some r => splitFrom r (toBuf txtCap text) ((toBuf txtCap text).length + 1) 0

end Verif.Regex

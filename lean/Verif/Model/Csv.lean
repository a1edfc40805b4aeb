import Verif.Model.Str

/-
The csv module: /repo/grayc/src/stdlib/csv.c.

Simplifications.
* Arrays are lists (their own behaviour is Model/Array.lean); the parser's pointer is the rest of
  the text.
* The two `while` loops of the parser that are not scans of one field take the number of iterations
  they may run as an argument and return `none` if it does not suffice; `parse` gives the length of
  the text, and `C90_terminates` shows that it always suffices.
-/
namespace Verif.Csv
open Verif Verif.Str

def quote : Byte := ch '"'
def comma : Byte := ch ','
def nl : Byte := 10
def cr : Byte := 13

/-- The scan of a quoted field (csv.c:30-33) after the opening quote: the bytes passed over and the
rest, which is empty or starts with the closing quote. -/
def scanQuoted : Str → Str × Str
  | [] => ([], [])
  | [c] => if c = quote then ([], [c]) else ([c], [])
  | c :: d :: r =>
    if c = quote then
      if d = quote then ((c :: d :: (scanQuoted r).1), (scanQuoted r).2) else ([], c :: d :: r)
    else (c :: (scanQuoted (d :: r)).1, (scanQuoted (d :: r)).2)

/-- The scan of an unquoted field (csv.c:39). -/
def scanPlain : Str → Str × Str
  | [] => ([], [])
  | c :: r =>
    if c = comma ∨ c = nl ∨ c = cr then ([], c :: r)
    else (c :: (scanPlain r).1, (scanPlain r).2)

/-- `if (s < end && *s == c) s++`. -/
def skip (c : Byte) : Str → Str
  | [] => []
  | d :: r => if d = c then r else d :: r

/-- One field (csv.c:26-46) of a text that is not at its end. -/
def field : Str → Str × Str
  | [] => ([], [])
  | c :: r =>
    if c = quote then ((scanQuoted r).1, skip comma ((scanQuoted r).2.drop 1))
    else ((scanPlain (c :: r)).1, skip comma (scanPlain (c :: r)).2)

/-- The loop over the fields of a row (csv.c:22-47). -/
def rowLoop : Nat → Str → Option (List Str × Str)
  | _, [] => some ([], [])
  | 0, _ :: _ => none
  | n + 1, c :: r =>
    if c = nl ∨ c = cr then some ([], c :: r)
    else
      match rowLoop n (field (c :: r)).2 with
      | none => none
      | some (fs, rest) => some ((field (c :: r)).1 :: fs, rest)

/-- The loop over the rows (csv.c:20-53). -/
def rowsLoop : Nat → Str → Option (List (List Str))
  | _, [] => some []
  | 0, _ :: _ => none
  | n + 1, c :: r =>
    match rowLoop (c :: r).length (c :: r) with
    | none => none
    | some (row, rest) =>
      match rowsLoop n (skip nl (skip cr rest)) with
      | none => none
      | some rows => some (row :: rows)

/-- `gray_csv_parse` (csv.c:15-55). -/
def parse (s : Str) : Option (List (List Str)) := rowsLoop s.length s

/-- The characters of a row (csv.c:92-97). -/
def rowText : List Str → Str
  | [] => []
  | [f] => f
  | f :: g :: r => f ++ comma :: rowText (g :: r)

/-- The text written by the second pass (csv.c:90-100). -/
def tableText : List (List Str) → Str
  | [] => []
  | row :: rest => rowText row ++ nl :: tableText rest

/-- The first pass (csv.c:79-87): `total` is an `int32_t`. The additions are made one by one and
all terms are positive, so some addition overflows exactly if the final value is too large. -/
def totalSize : List (List Str) → Nat
  | [] => 0
  | row :: rest => (row.map List.length).sum + (row.length - 1) + 1 + totalSize rest

/-- `gray_csv_stringify` on `[[string]]` (csv.c:76-103), called by `csv.encode`. -/
def encode (t : List (List Str)) : Outcome Str :=
  if int32Max < totalSize t then .ub else put (totalSize t) [] (tableText t)

end Verif.Csv

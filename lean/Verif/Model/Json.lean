import Verif.Model.Strconv

/-
The json module (/repo/grayc/src/stdlib/json.c) and the code made for json.encode of a string and for
`#json` structs (/repo/grayc/src/codegen/codegen.c:4748-4755 and 9734-9838).

Simplifications.
* A map is the list of its entries in the order of its slots; setting a key that is present replaces its
  value in place. Only maps from strings are encoded (map.c is modelled in Model/Map).
* A pointer into the text is the list of the bytes from there to the end. Behind the text stands a NUL,
  which is read when a text ends in a backslash (json.c:290).
* `int` counters of written bytes are unbounded in the writers; `jsonMax` states the bound.
* Loops over the text recurse with fuel; that it suffices is proved where the C loop ends.
* Floats (`%g`) are not modelled.
-/
namespace Verif.Json
open Verif Verif.Str

abbrev Entries := List (Str × Str)

/-! ### Encoder -/

/-- One character of `json_escaped_len` (25-28). -/
def charLen (c : Byte) : Nat :=
  if c = 34 ∨ c = 92 then 2
  else if c = 8 ∨ c = 12 ∨ c = 10 ∨ c = 13 ∨ c = 9 then 2
  else if c.toNat < 0x20 then 6
  else 1

/-- `json_escaped_len` (21-31). -/
def escapedLen (s : Str) : Nat := 2 + (s.map charLen).sum

/-- One character of `json_append_escaped` (38-51). -/
def escChar (c : Byte) : Str :=
  if c = 34 then [92, 34]
  else if c = 92 then [92, 92]
  else if c = 8 then [92, 98]
  else if c = 12 then [92, 102]
  else if c = 10 then [92, 110]
  else if c = 13 then [92, 114]
  else if c = 9 then [92, 116]
  else if c.toNat < 0x20 then [92, 117, 48, 48, lowerHex (c.toNat / 16), lowerHex (c.toNat % 16)]
  else [c]

/-- `json_append_escaped` (33-54). -/
def escaped (s : Str) : Str := 34 :: s.flatMap escChar ++ [34]

/-- The largest `int`: `pos` counts the bytes written. -/
def jsonMax : Nat := 2147483647

/-- Items separated by `sep`. -/
def joined (sep : Str) : List Str → Str
  | [] => []
  | [x] => x
  | x :: y :: r => x ++ sep ++ joined sep (y :: r)

/-- Length of the items as the first passes count it. -/
def joinedLen (sep : Nat) : List Nat → Nat
  | [] => 0
  | [x] => x
  | x :: y :: r => x + sep + joinedLen sep (y :: r)

/-- Pass 2 of `gray_json_encode_map` (75-90). -/
def encodeMap (m : Entries) : Str :=
  [123] ++ joined [44] (m.map fun e => escaped e.1 ++ [58] ++ escaped e.2) ++ [125]

/-- Pass 1 (64-73). -/
def encodeMapNeed (m : Entries) : Nat :=
  2 + joinedLen 1 (m.map fun e => escapedLen e.1 + 1 + escapedLen e.2)

/-- `gray_json_encode_array_string` (136-157). -/
def encodeStrings (l : List Str) : Str := [91] ++ joined [44] (l.map escaped) ++ [93]

def encodeStringsNeed (l : List Str) : Nat := 2 + joinedLen 1 (l.map escapedLen)

def boolText (b : Bool) : Str := if b then lit "true" else lit "false"

/-- `gray_json_encode_array_bool` (159-181). -/
def encodeBools (l : List Bool) : Str := [91] ++ joined [44] (l.map boolText) ++ [93]

def encodeBoolsNeed (l : List Bool) : Nat := 2 + joinedLen 1 (l.map fun b => if b then 4 else 5)

/-- The loop of `gray_json_encode_array_int` (101-107) in a buffer of `need + 1` bytes: a number is
written if it fits with its NUL; none for the other branch. -/
def intsLoop (need : Nat) : List Int → Bool → Str → Option Str
  | [], _, out => some out
  | v :: r, first, out =>
    let out := if first then out else out ++ [44]
    let t := Strconv.fromInt v
    if t.length < need + 1 - out.length then intsLoop need r false (out ++ t) else none

/-- `gray_json_encode_array_int` (95-111); none when the text is cut. -/
def encodeInts (l : List Int) : Option Str :=
  (intsLoop (2 + (if 0 < l.length then l.length * 22 - 1 else 0)) l true [91]).map fun out => out ++ [93]

/-- `json.encode(s)` of a string (codegen.c:4748-4755). -/
def encodeString (s : Str) : Str := 34 :: s ++ [34]

/-- Pass 2 of `gray_json_pretty_map` (502-524). -/
def prettyMap (m : Entries) (indent : Int) : Str :=
  [123, 10] ++ joined [44, 10]
    (m.map fun e => List.replicate indent.toNat 32 ++ escaped e.1 ++ [58, 32] ++ escaped e.2) ++ [10, 125]

/-- Pass 1 (489-500). -/
def prettyNeed (m : Entries) (indent : Int) : Nat :=
  3 + joinedLen 2 (m.map fun e => indent.toNat + escapedLen e.1 + 2 + escapedLen e.2) +
    (if 0 < m.length then 1 else 0)

/-! ### Validator -/

def skipWs (s : Str) : Str := s.dropWhile isSpace

/-- The characters that may follow a backslash. -/
def simpleEsc (c : Byte) : Bool :=
  c == 34 || c == 92 || c == 47 || c == 98 || c == 102 || c == 110 || c == 114 || c == 116

/-- The loop of `v_string_lit` (361-388), after the opening quote. -/
def vChars : Str → Option Str
  | [] => none
  | c :: r =>
    if c = 34 then some r
    else if c = 92 then
      match r with
      | [] => none
      | e :: r =>
        if simpleEsc e then vChars r
        else if e = 117 then
          match r with
          | h1 :: h2 :: h3 :: h4 :: r =>
            if isXDigit h1 && isXDigit h2 && isXDigit h3 && isXDigit h4 then vChars r else none
          | _ => none
        else none
    else if c.toNat < 0x20 then none
    else vChars r

/-- `v_string_lit` (357-389). -/
def vString : Str → Option Str
  | [] => none
  | c :: r => if c = 34 then vChars r else none

/-- One digit and more (403-405, 411-412). -/
def vDigits : Str → Option Str
  | [] => none
  | c :: r => if isDigit c then some (r.dropWhile isDigit) else none

/-- The integer part (395-401). -/
def vInt : Str → Option Str
  | [] => none
  | c :: r =>
    if c = 48 then some r
    else if between 49 c 57 then some ((c :: r).dropWhile isDigit)
    else none

/-- The fraction (403-407). -/
def vFrac : Str → Option Str
  | [] => some []
  | c :: r => if c = 46 then vDigits r else some (c :: r)

/-- The exponent (409-414). -/
def vExp : Str → Option Str
  | [] => some []
  | c :: r =>
    if c = 101 ∨ c = 69 then
      match r with
      | [] => none
      | g :: r' => if g = 43 ∨ g = 45 then vDigits r' else vDigits (g :: r')
    else some (c :: r)

/-- `v_number` (391-416). -/
def vNumber (s : Str) : Option Str :=
  match s with
  | [] => none
  | c :: r => do
    let s ← vInt (if c = 45 then r else c :: r)
    let s ← vFrac s
    vExp s

/-- `v_literal` (418-424). -/
def vLiteral (t s : Str) : Option Str := if s.take t.length = t then some (s.drop t.length) else none

/-- The loop of `v_array` (431-439), with `v_value` one level deeper. -/
def arrLoop (val : Str → Option Str) : Nat → Str → Option Str
  | 0, _ => none
  | f + 1, s =>
    match val (skipWs s) with
    | none => none
    | some r =>
      match skipWs r with
      | [] => none
      | c :: r => if c = 44 then arrLoop val f r else if c = 93 then some r else none

/-- `v_array` (426-440), after the bracket. -/
def vArray (val : Str → Option Str) (s : Str) : Option Str :=
  match skipWs s with
  | [] => arrLoop val 1 []
  | c :: r => if c = 93 then some r else arrLoop val (r.length + 2) (c :: r)

/-- The loop of `v_object` (447-460). -/
def objLoop (val : Str → Option Str) : Nat → Str → Option Str
  | 0, _ => none
  | f + 1, s =>
    match vString (skipWs s) with
    | none => none
    | some r =>
      match skipWs r with
      | [] => none
      | c :: r =>
        if c ≠ 58 then none
        else match val (skipWs r) with
          | none => none
          | some r =>
            match skipWs r with
            | [] => none
            | c :: r => if c = 44 then objLoop val f r else if c = 125 then some r else none

/-- `v_object` (442-461), after the brace. -/
def vObject (val : Str → Option Str) (s : Str) : Option Str :=
  match skipWs s with
  | [] => objLoop val 1 []
  | c :: r => if c = 125 then some r else objLoop val (r.length + 2) (c :: r)

/-- `v_value` (463-476); the number counts the levels that are left. -/
def vValue : Nat → Str → Option Str
  | 0, _ => none
  | n + 1, s =>
    match skipWs s with
    | [] => none
    | c :: r =>
      if c = 123 then vObject (vValue n) r
      else if c = 91 then vArray (vValue n) r
      else if c = 34 then vString (c :: r)
      else if c = 45 ∨ between 48 c 57 then vNumber (c :: r)
      else if c = 116 then vLiteral (lit "true") (c :: r)
      else if c = 102 then vLiteral (lit "false") (c :: r)
      else if c = 110 then vLiteral (lit "null") (c :: r)
      else none

/-- `gray_json_is_valid` (478-487). -/
def isValid (text : Str) : Bool :=
  match skipWs text with
  | [] => false
  | c :: r =>
    match vValue 513 (c :: r) with
    | none => false
    | some r => skipWs r == []

/-! ### Decoder -/

/-- `gray_map_set`. -/
def mapSet : Entries → Str → Str → Entries
  | [], k, v => [(k, v)]
  | (k', v') :: r, k, v => if k' = k then (k, v) :: r else (k', v') :: mapSet r k v

/-- The loop of `parse_json_string` (289-292): what is read and what is left, the closing quote with it. -/
def scanString : Str → Str × Str
  | [] => ([], [])
  | c :: r =>
    if c = 34 then ([], c :: r)
    else if c = 92 then
      match r with
      | [] => ([92, 0], [])
      | d :: r => let p := scanString r; (92 :: d :: p.1, p.2)
    else let p := scanString r; (c :: p.1, p.2)

/-- `parse_json_string` (284-297). -/
def parseString : Str → Str × Str
  | [] => ([], [])
  | c :: r =>
    if c ≠ 34 then ([], c :: r)
    else let p := scanString r; (p.1, p.2.drop 1)

def notDelim (c : Byte) : Bool := !(c == 44 || c == 125 || c == 93 || isSpace c)

/-- `parse_json_value_as_string` (299-311). -/
def parseValue (s : Str) : Str × Str :=
  match skipWs s with
  | [] => ([], [])
  | c :: r => if c = 34 then parseString (c :: r) else ((c :: r).takeWhile notDelim, (c :: r).dropWhile notDelim)

/-- `if (s < end && *s == c) s++;` -/
def skipOne (c : Byte) : Str → Str
  | [] => []
  | x :: r => if x = c then r else x :: r

/-- One round of the loop (320-331): none for `break`. -/
def decodeStep (s : Str) (m : Entries) : Option (Str × Entries) :=
  match skipWs s with
  | [] => none
  | c :: r =>
    if c = 125 then none
    else
      let k := parseString (c :: r)
      let v := parseValue (skipOne 58 (skipWs k.2))
      some (skipOne 44 (skipWs v.2), mapSet m k.1 v.1)

/-- The loop of `gray_json_decode`; none when it is still running after so many rounds. -/
def decodeLoop : Nat → Str → Entries → Option Entries
  | 0, _, _ => none
  | f + 1, s, m =>
    match decodeStep s m with
    | none => some m
    | some (s, m) => decodeLoop f s m

/-- `gray_json_decode` (313-333) within so many rounds. -/
def decode (rounds : Nat) (text : Str) : Option Entries :=
  match skipWs text with
  | [] => some []
  | c :: r => if c = 123 then decodeLoop rounds r [] else some []

/-! ### Splitting an array -/

/-- The scan of one element (546-565): what is read and what is left. -/
def scanElem : Str → Int → Int → Bool → Str × Str
  | [], _, _, _ => ([], [])
  | c :: r, brace, bracket, inStr =>
    if inStr then
      if c = 92 then
        match r with
        | [] => ([c], [])
        | d :: r => let p := scanElem r brace bracket true; (c :: d :: p.1, p.2)
      else let p := scanElem r brace bracket (c ≠ 34); (c :: p.1, p.2)
    else if c = 34 then let p := scanElem r brace bracket true; (c :: p.1, p.2)
    else if c = 123 then let p := scanElem r (brace + 1) bracket false; (c :: p.1, p.2)
    else if c = 125 then let p := scanElem r (brace - 1) bracket false; (c :: p.1, p.2)
    else if c = 91 then let p := scanElem r brace (bracket + 1) false; (c :: p.1, p.2)
    else if c = 93 then
      if bracket = 0 then ([], c :: r)
      else let p := scanElem r brace (bracket - 1) false; (c :: p.1, p.2)
    else if c = 44 ∧ brace = 0 ∧ bracket = 0 then ([], c :: r)
    else let p := scanElem r brace bracket false; (c :: p.1, p.2)

/-- The loop over the elements (537-577). -/
def splitLoop : Nat → Str → List Str → Option (List Str)
  | 0, _, _ => none
  | f + 1, s, out =>
    match skipWs s with
    | [] => some out
    | c :: r =>
      if c = 93 then some out
      else
        let p := scanElem (c :: r) 0 0 false
        splitLoop f (skipOne 44 (skipWs p.2)) (if p.1 = [] then out else out ++ [p.1])

/-- `gray_json_split_array` (529-581) within so many rounds. -/
def splitArray (rounds : Nat) (text : Str) : Option (List Str) :=
  match skipWs text with
  | [] => some []
  | c :: r => if c = 91 then splitLoop rounds r [] else some []

/-! ### `#json` structs -/

/-- The value of a field, by its type: string, int or i64, bool, or any other (floats apart). -/
inductive Field where
  | str (s : Str)
  | int (v : Int)
  | bool (b : Bool)
  | other
  deriving DecidableEq

/-- What is written for a value (codegen.c:9811-9823). -/
def Field.text : Field → Str
  | .str s => escaped s
  | .int v => Strconv.fromInt v
  | .bool b => boolText b
  | .other => []

/-- The room computed for a value (codegen.c:9777-9795). -/
def Field.need : Field → Nat
  | .str s => escapedLen s
  | .int _ => 21
  | .bool _ => 5
  | .other => 0

/-- `gray_json_stringify_<Name>` (codegen.c:9763-9828); a struct is the list of its fields. -/
def stringify (fs : List (Str × Field)) : Str :=
  [123] ++ joined [44, 32] (fs.map fun f => 34 :: f.1 ++ [34, 58, 32] ++ f.2.text) ++ [125]

/-- `_need` (codegen.c:9769-9796). -/
def stringifyNeed (fs : List (Str × Field)) : Nat :=
  2 + joinedLen 2 (fs.map fun f => 2 + f.1.length + 2 + f.2.need)

/-- `gray_map_get`. -/
def mapGet : Entries → Str → Option Str
  | [], _ => none
  | (k, v) :: r, key => if k = key then some v else mapGet r key

/-- The value given to a field (codegen.c:9745-9760); fields of other types are left zero. -/
def parseField (m : Entries) (name : Str) : Field → Outcome Field
  | .str _ => .ok (.str ((mapGet m name).getD []))
  | .int _ =>
    match mapGet m name with
    | none => .ok (.int 0)
    | some t => do
      let v ← Strconv.stringToInt t
      .ok (.int v)
  | .bool _ =>
    match mapGet m name with
    | none => .ok (.bool false)
    | some t => .ok (.bool (t == lit "true"))
  | .other => .ok .other

/-- The fields of `gray_json_parse_<Name>` after the decoding; the values of `fs` only give the types. -/
def parseFields (m : Entries) : List (Str × Field) → Outcome (List (Str × Field))
  | [] => .ok []
  | (n, f) :: r => do
    let v ← parseField m n f
    let vs ← parseFields m r
    .ok ((n, v) :: vs)

end Verif.Json

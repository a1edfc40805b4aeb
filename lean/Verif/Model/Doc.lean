import Verif.Model.Watch

/-!
# `gray doc`

`/repo/cli/doc.go`: `collectDocsFromFile` (lines 91-203), `extractDocString` (206-221), `extractFuncName` (224-231), `extractStructEnumName`
(234-241) and `generateMarkdown` (286-344).

* Lines and white space are as in `Verif.Watch`: `bufio.Scanner` stops without an error at a line that does not fit in its buffer.
* `sort.Slice` gives some order that is sorted by name; the entries of one name may come in any order.
-/

namespace Verif.Doc
open Verif Verif.Str Verif.Watch

structure Entry where
  name : Str
  kind : Str
  sig : Str
  desc : Str
  deriving DecidableEq, Repr

/-- `strings.Index` of a byte, as the parts before and after it. -/
def cut (c : Byte) : Str → Option (Str × Str)
  | [] => none
  | x :: r => if x = c then some ([], r) else (cut c r).map fun p => (x :: p.1, p.2)

/-- `strings.LastIndex` of a byte, as the part before it. -/
def cutLast (c : Byte) (s : Str) : Option Str := (cut c s.reverse).map fun p => p.2.reverse

/-- `extractDocString` -/
def docString (line : Str) : Str :=
  match cut 34 line with
  | some p => (cutLast 34 p.2).getD []
  | none =>
    match cut 39 line with
    | some p => (cutLast 39 p.2).getD []
    | none => []

def dropPrefix (p s : Str) : Str := if p.isPrefixOf s then s.drop p.length else s

/-- The first of `strings.Fields`; none if there is none. -/
def firstField (s : Str) : Option Str :=
  match s.dropWhile isSpace with
  | [] => none
  | r => some (r.takeWhile fun c => !isSpace c)

/-- `extractFuncName`; none if the index is out of range. -/
def funcName (line : Str) : Option Str :=
  let l := dropPrefix (lit "do ") (dropPrefix (lit "private ") line)
  match cut 40 l with
  | some p => some (trim p.1)
  | none => firstField l

/-- `extractStructEnumName` -/
def blockName (line : Str) : Str := (firstField (dropPrefix (lit "const ") line)).getD []

/-- `strings.Contains` -/
def contains (n : Str) : Str → Bool
  | [] => n.isPrefixOf []
  | c :: r => n.isPrefixOf (c :: r) || contains n r

/-- The braces that a line opens more than it closes. -/
def braces (l : Str) : Int := (l.count 123 : Int) - l.count 125

structure Block where
  name : Str
  kind : Str
  lines : List Str
  depth : Int
  deriving DecidableEq, Repr

structure St where
  pending : Str := []
  block : Option Block := none
  entries : List Entry := []
  deriving DecidableEq, Repr

def joinLines : List Str → Str
  | [] => []
  | [l] => l
  | l :: m :: r => l ++ 10 :: joinLines (m :: r)

/-- The head of a struct or an enum, lines 154-195. -/
def startBlock (st : St) (kind line : Str) : St :=
  if 0 < braces line then { st with block := some ⟨blockName (trim line), kind, [line], braces line⟩ }
  else { st with pending := [], entries := st.entries ++ [⟨blockName (trim line), kind, trim line, st.pending⟩] }

/-- The signature of a function, lines 139-143. -/
def sigOf (t : Str) : Str :=
  match cut 123 t with
  | some p => trim p.1
  | none => t

/-- One line, lines 116-200; none if the program stops. -/
def step (st : St) (line : Str) : Option St :=
  match st.block with
  | some b =>
    let depth := b.depth + braces line
    if depth ≤ 0 then
      some { pending := [], block := none, entries := st.entries ++ [⟨b.name, b.kind, joinLines (b.lines ++ [line]), st.pending⟩] }
    else some { st with block := some { b with lines := b.lines ++ [line], depth := depth } }
  | none =>
    let t := trim line
    if (lit "#doc(").isPrefixOf t then some { st with pending := docString t }
    else if st.pending ≠ [] ∧ t ≠ [] then
      if (lit "do ").isPrefixOf t || (lit "private do ").isPrefixOf t then
        (funcName t).map fun n => { st with pending := [], entries := st.entries ++ [⟨n, lit "function", sigOf t, st.pending⟩] }
      else if contains (lit " struct ") t && (lit "const ").isPrefixOf t then some (startBlock st (lit "struct") line)
      else if contains (lit " enum ") t && (lit "const ").isPrefixOf t then some (startBlock st (lit "enum") line)
      else some { st with pending := [] }
    else some st

def stepsOf (st : St) : List Str → Option St
  | [] => some st
  | l :: ls => (step st l).bind fun st => stepsOf st ls

/-- `collectDocsFromFile` -/
def collect (buffer : Nat) (text : Str) : Option (List Entry) := (stepsOf {} (scan buffer text)).map St.entries

/-! ### Writing -/

/-- One entry, lines 311-317. -/
def entryText (e : Entry) : Str :=
  lit "### " ++ e.name ++ lit "\n\n" ++ lit "```gray\n" ++ e.sig ++ lit "\n```\n\n" ++ (if e.desc = [] then [] else e.desc ++ lit "\n\n")

def part (title : Str) (es : List Entry) : Str := if es = [] then [] else lit "## " ++ title ++ lit "\n\n" ++ es.flatMap entryText

/-- `generateMarkdown`, of the entries of each kind in the order the sorting gives. -/
def markdown (functions structs enums : List Entry) : Str :=
  lit "# Documentation\n\n*Generated by `gray doc`*\n\n" ++ part (lit "Functions") functions ++ part (lit "Structs") structs ++
    part (lit "Enums") enums

end Verif.Doc

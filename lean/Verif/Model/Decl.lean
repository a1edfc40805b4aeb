import Verif.Model.Str

/-!
# Declarations of structs and enums

* The check for structs that contain themselves: `/repo/grayc/src/typechecker/typechecker.c`, `find_struct_in_program` (10788-10799),
  `struct_contains_by_value` (10807-10836) and its call in `register_declarations` (11167-11205).
* The types named in fields: `validate_field_type_recursive` (10842-10929).
* Values of enums: the check 11006-11023, and what is emitted, `/repo/grayc/src/codegen/codegen.c:9535-9625`.
* The order of the C declarations: codegen.c:9528-9697.
* Payload types of variants: `/repo/grayc/src/parser/parser.c:2504-2523`.

Simplifications.
* A struct is its name and the texts of its field types; names are different (two of the same name are reported as E4007).
* Generic structs are left out: they cannot be declared, because `?` is refused as a field type (parser.c:2341-2348).
* The initial value of a variant is an integer literal or another constant expression, given by its value.
* Names of types are bytes; the C type of a name is the name itself.
-/

namespace Verif.Decl
open Verif Verif.Str

structure Struct where
  name : Str
  fields : List Str
  deriving DecidableEq

abbrev Prog := List Struct

/-- `find_struct_in_program` -/
def find (p : Prog) (n : Str) : Option Struct := p.find? fun d => d.name == n

/-- Not empty, and not a pointer, an array or a map (10820-10822). -/
def byValue (t : Str) : Bool := !t.isEmpty && t.head? != some 94 && t.head? != some 91 && !(lit "map[").isPrefixOf t

/-- `struct_contains_by_value`; `k` is what is left of `visited_cap`. -/
def contains (p : Prog) (target : Str) : Nat → List Str → Struct → Bool
  | 0, _, _ => false
  | k + 1, visited, d =>
    if visited.contains d.name then false
    else d.fields.any fun t =>
      byValue t && (t == target || match find p t with
        | none => false
        | some c => contains p target k (d.name :: visited) c)

/-- `is_cycle` of a field (11175-11187). -/
def isCycle (p : Prog) (self t : Str) : Bool :=
  byValue t && (t == self || match find p t with
    | none => false
    | some c => contains p self 32 [] c)

/-- E3061 for a struct. -/
def refused (p : Prog) (d : Struct) : Bool := d.fields.any (isCycle p d.name)

/-- The number of calls of `struct_contains_by_value` within a call. -/
def calls (p : Prog) (target : Str) : Nat → List Str → Struct → Nat
  | 0, _, _ => 1
  | k + 1, visited, d =>
    if visited.contains d.name then 1
    else 1 + (d.fields.foldl (fun (st : Bool × Nat) t =>
      if st.1 then st
      else if byValue t then
        if t == target then (true, st.2)
        else match find p t with
          | none => st
          | some c => (contains p target k (d.name :: visited) c, st.2 + calls p target k (d.name :: visited) c)
      else st) (false, 0)).2

/-! ### The order of C declarations -/

/-- `deps_met` of struct `i` (9658-9671); `done` are those emitted. -/
def depsMet (ss : List Struct) (done : List Nat) (i : Nat) : Bool :=
  match ss[i]? with
  | none => true
  | some d => d.fields.all fun t => (List.range ss.length).all fun k =>
      !(k != i && !done.contains k && (match ss[k]? with | none => false | some e => e.name == t))

/-- One pass (9655-9686): structs in their order, those whose dependencies are there. -/
def pass (ss : List Struct) : List Nat → List Nat → List Nat
  | [], done => done
  | i :: r, done => pass ss r (if done.contains i then done else if depsMet ss done i then done ++ [i] else done)

/-- The passes (9654): at most as many as structs, and no more after all are emitted. -/
def passes (ss : List Struct) : Nat → List Nat → List Nat
  | 0, done => done
  | n + 1, done => if done.length < ss.length then passes ss n (pass ss (List.range ss.length) done) else done

/-- The order of all structs that are kept; those that are left come at the end (9689-9699). -/
def order (ss : List Struct) : List Nat :=
  let done := passes ss ss.length []
  done ++ (List.range ss.length).filter fun i => !done.contains i

def maxStructs : Nat := 256

/-- An enum: its name, and the payload types of its variants. -/
structure Enum where
  name : Str
  payload : List Str

/-- A type definition of the C text: its name, and the types it needs. -/
structure Item where
  name : Str
  needs : List Str

/-- The type definitions in their order: enums first (9528), then structs, of which 256 are kept (9634-9639). -/
def emitted (es : List Enum) (ss : List Struct) : List Item :=
  es.map (fun e => ⟨e.name, e.payload⟩)
    ++ (order (ss.take maxStructs)).filterMap fun i => ((ss.take maxStructs)[i]?).map fun d => ⟨d.name, d.fields⟩

/-! ### The values of enums -/

inductive Init where
  | auto
  /-- an integer literal -/
  | int (v : Int)
  /-- any other constant expression, such as `-1` -/
  | expr (v : Int)
  deriving DecidableEq

/-- E3033 (11006-11023) -/
def dupInts : List Init → Bool
  | [] => false
  | .int v :: r => r.contains (.int v) || dupInts r
  | _ :: r => dupInts r

/-- The values of the variants from index `j`, with `next` the value C gives without an initial value; nothing if `1 << j` is not an
`int`. -/
def values (flags : Bool) : Nat → Int → List Init → Option (List Int)
  | _, _, [] => some []
  | j, next, i :: r =>
    let v : Option Int := match i with
      | .int v => some v
      | .expr v => some v
      | .auto => if flags then (if j ≤ 30 then some (2 ^ j) else none) else some next
    match v with
    | none => none
    | some v => (values flags (j + 1) (v + 1) r).map (v :: ·)

/-- The value of a string variant (9548-9559): the text written between quotes, and the length. -/
def enumString (s : Str) : Str × Nat := (s, s.length)

/-! ### Payload types -/

inductive Tok where
  | word (s : Str)
  | comma
  | rparen
  deriving DecidableEq

/-- The text of a token. -/
def Tok.text : Tok → Str
  | .word s => s
  | .comma => lit ","
  | .rparen => lit ")"

/-- The loop 2510-2520: the types, and the tokens from the closing parenthesis. -/
def payloads : List Tok → List Str × List Tok
  | [] => ([], [])
  | .rparen :: r => ([], .rparen :: r)
  | [t] => ([t.text], [])
  | t :: .comma :: r => let p := payloads r; (t.text :: p.1, p.2)
  | t :: u :: r => let p := payloads (u :: r); (t.text :: p.1, p.2)

/-! ### Types of fields -/

/-- The first colon outside brackets (10880-10886). -/
def colonPos : Int → Nat → Str → Option Nat
  | _, _, [] => none
  | depth, n, c :: r =>
    if c = 91 then colonPos (depth + 1) (n + 1) r
    else if c = 93 then colonPos (depth - 1) (n + 1) r
    else if c = 58 ∧ depth = 0 then some n
    else colonPos depth (n + 1) r

/-- The numbers of bytes that are written to buffers of 256 bytes in `validate_field_type_recursive`; the texts get shorter, `n` bounds
the depth. -/
def writes : Nat → Str → List Nat
  | 0, _ => []
  | n + 1, s =>
    if s.head? = some 94 then writes n (s.dropWhile (· == 94))
    else if s.head? = some 91 then
      if 2 < s.length ∧ s.getLast? = some 93 then
        (s.length - 2 + 1) :: writes n (((s.drop 1).take (s.length - 2)).takeWhile (· != 44))
      else []
    else if (lit "map[").isPrefixOf s then
      if 5 < s.length ∧ s.getLast? = some 93 then
        let inner := (s.drop 4).take (s.length - 5)
        (s.length - 5 + 1) :: (match colonPos 0 0 inner with
          | none => []
          | some c => (c + 1) :: (writes n (inner.take c) ++ writes n (inner.drop (c + 1))))
      else []
    else []

def bufSize : Nat := 256

end Verif.Decl

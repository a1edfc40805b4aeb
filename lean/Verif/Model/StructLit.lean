import Verif.Model.Map
/-
Struct literals and `new`: the checks of `resolve_struct_value` (/repo/grayc/src/typechecker/typechecker.c 6342-6446), the check
of declarations (10449-10472), the C text of literals (/repo/grayc/src/codegen/codegen.c 1601-1685) and of `new` (2785-2842),
and what the array and map functions do with a field of zeros (/repo/grayc/src/runtime/array.c 35-73, map.c 143-240,
/repo/grayc/src/stdlib/arrays.c 20-62, codegen.c 5066-5071).

Simplifications.
* Literals of type parameters (`?`) and the instances of generic structs are left out: the parser admits no `?` in a field
  (E2070), so `is_generic` is never set.
* The expressions given are their values; C may evaluate them in any order.
* An allocation gives exactly the bytes asked for; the rounding up to 8 is left out.
-/
namespace Verif.StructLit
open Verif

/-! ### The check of a literal -/

/-- `TypeKind` (types.h 16-34) -/
inductive Kind where
  | void | int | uint | float | bool | char | byte | string | array | map | struct | enm | pointer | error | function | nil | unknown
  deriving DecidableEq, Repr

/-- `GrayType` (types.h 45-56); the two texts are those of the element, or of the key and the value; of a function, the
signature is the name. -/
structure Ty where
  kind : Kind
  name : Option String
  elem : String
  val : String
  deriving DecidableEq, Repr

/-- `is_int_kind` (1820-1822) -/
def isInt : Kind → Bool
  | .int | .uint | .byte => true
  | _ => false

/-- Both have names, and these differ. -/
def namesDiffer (a b : Ty) : Bool :=
  match a.name, b.name with
  | some x, some y => x != y
  | _, _ => false

/-- No E3001 (6416-6438). -/
def accepts (e v : Ty) : Bool :=
  !(v.kind != .unknown && e.kind != .unknown &&
    (e.kind != v.kind || (e.kind == .pointer && namesDiffer e v) || (e.kind == .struct && v.kind == .struct && namesDiffer e v)) &&
    !(isInt e.kind && v.kind == .enm) && !(e.kind == .enm && isInt v.kind) && !(e.kind == .struct && isInt v.kind) &&
    !(isInt e.kind && v.kind == .struct) && !(e.kind == .float && isInt v.kind) &&
    !(v.kind == .nil && (e.kind == .pointer || e.kind == .error)))

/-- A field of a declaration. -/
structure Field (α : Type) where
  name : String
  ty : Ty
  dflt : Option α

/-- The errors of a literal (6375-6445): E2015, E3010, E3001. -/
def dups : List String → List String → List String
  | _, [] => []
  | before, n :: r => (if n ∈ before then ["E2015"] else []) ++ dups (n :: before) r

def fieldErrors {α : Type} (fs : List (Field α)) : List (String × Ty × α) → List String
  | [] => []
  | (n, t, _) :: r =>
    (match fs.find? (fun f => f.name == n) with
     | none => ["E3010"]
     | some f => if accepts f.ty t then [] else ["E3001"]) ++ fieldErrors fs r

def litErrors {α : Type} (fs : List (Field α)) (given : List (String × Ty × α)) : List String :=
  dups [] (given.map Prod.fst) ++ fieldErrors fs given

/-- The errors of a declaration (10443-10471); default values are looked at only to refuse them. -/
def declErrors {α : Type} (json inFunc : Bool) (fs : List (Field α)) : List String :=
  (if inFunc then ["E2053"] else []) ++
  (if json then
    fs.flatMap fun f => (if f.ty.kind = .function then ["E3103"] else []) ++ (if f.dflt.isSome then ["E3109"] else [])
   else [])

/-! ### The C text of a literal -/

inductive Tok (α : Type) where
  | comma
  | item (n : String) (v : α)

/-- The fields given (1641-1662). -/
def emitGiven {α : Type} : Bool → List (String × α) → List (Tok α)
  | _, [] => []
  | first, (n, v) :: r => (if first then [] else [.comma]) ++ .item n v :: emitGiven false r

/-- The default values of the others (1664-1681). -/
def emitDefaults {α : Type} (given : List (String × α)) : Nat → List (Field α) → List (Tok α)
  | _, [] => []
  | i, f :: r =>
    (match f.dflt with
     | none => []
     | some v =>
       if given.any (fun g => g.1 == f.name) then []
       else (if 0 < given.length ∨ 0 < i then [.comma] else []) ++ [.item f.name v]) ++ emitDefaults given (i + 1) r

def emitLit {α : Type} (fs : List (Field α)) (given : List (String × α)) : List (Tok α) :=
  emitGiven true given ++ emitDefaults given 0 fs

/-- How C reads an initialiser list: items with commas between them, and perhaps one at the end. -/
def readInit {α : Type} : List (Tok α) → Option (List (String × α))
  | [] => some []
  | [.item n v] => some [(n, v)]
  | .item n v :: .comma :: r => (readInit r).map ((n, v) :: ·)
  | _ => none

/-- The value of a member: of several initialisers the last; `none` for zeros. -/
def member {α : Type} (l : List (String × α)) (n : String) : Option α := (l.reverse.find? fun p => p.1 == n).map Prod.snd

/-! ### Integers -/

/-- The integer types: signed or not, bits; `byte` has its own kind. -/
structure IntTy where
  kind : Kind
  lo : Int
  hi : Int

def int8 : IntTy := ⟨.int, -128, 127⟩
def int64 : IntTy := ⟨.int, -9223372036854775808, 9223372036854775807⟩
def uint8 : IntTy := ⟨.uint, 0, 255⟩
def uint64 : IntTy := ⟨.uint, 0, 18446744073709551615⟩

/-- A literal has the type `int` (6693). -/
def litAccepted (t : IntTy) : Bool := accepts ⟨t.kind, none, "", ""⟩ ⟨.int, none, "", ""⟩

/-- The conversion of C. -/
def stored (t : IntTy) (z : Int) : Int := (z - t.lo) % (t.hi - t.lo + 1) + t.lo

/-! ### Fields of zeros -/

/-- `GrayArray`, with the bytes at `data`. -/
structure Raw where
  esz : Nat
  len : Nat
  cap : Nat
  data : List (BitVec 8)
  deriving DecidableEq, Repr

/-- An array field that a literal leaves out. -/
def zeroArr : Raw := ⟨0, 0, 0, []⟩

/-- `gray_array_new` with the capacity 4 (array.c 12-22, codegen.c 2827) -/
def newArr (esz : Nat) : Raw := ⟨esz, 0, 4, List.replicate (4 * esz) 0⟩

/-- The growth of `gray_array_push` and `gray_arrays_insert_at`; capacities are below 2^30. -/
def grow (a : Raw) : Raw :=
  if a.cap ≤ a.len then
    let cap := if a.cap < 4 then 4 else a.cap * 2
    { a with cap := cap, data := a.data.take (a.len * a.esz) ++ List.replicate (cap * a.esz - a.len * a.esz) 0 }
  else a

/-- `memcpy(data + at, v, n)`: outside of the data or of the value it is undefined. -/
def store (data : List (BitVec 8)) (pos n : Nat) (v : List (BitVec 8)) : Outcome (List (BitVec 8)) :=
  if pos + n ≤ data.length ∧ n ≤ v.length then .ok (data.take pos ++ v.take n ++ data.drop (pos + n)) else .ub

/-- `gray_array_push` -/
def pushRaw (a : Raw) (v : List (BitVec 8)) : Outcome Raw := do
  let b := grow a
  let d ← store b.data (b.len * b.esz) b.esz v
  .ok { b with data := d, len := b.len + 1 }

/-- `arrays.append`: the generated code sets the size of the elements first. -/
def appendRaw (a : Raw) (v : List (BitVec 8)) : Outcome Raw :=
  pushRaw (if a.esz = 0 then { a with esz := v.length } else a) v

/-- `arrays.insert_at`, `arrays.prepend`: it does not. -/
def insertRaw (a : Raw) (i : Nat) (v : List (BitVec 8)) : Outcome Raw := do
  if a.len < i then .panic "P0043"
  else
    let b := grow a
    let tail := (b.data.drop (i * b.esz)).take ((b.len - i) * b.esz)
    let d ← store b.data ((i + 1) * b.esz) ((b.len - i) * b.esz) tail
    let d ← store d (i * b.esz) b.esz v
    .ok { b with data := d, len := b.len + 1 }

/-- `GRAY_ARRAY_GET` for an element of `w` bytes. -/
def getRaw (a : Raw) (w i : Nat) : Outcome (List (BitVec 8)) :=
  if a.len ≤ i then .panic "P0033"
  else if i * a.esz + w ≤ a.data.length then .ok ((a.data.drop (i * a.esz)).take w) else .ub

/-- A map field that a literal leaves out. -/
def zeroMap {K V : Type} : Map.GrayMap K V := { slots := [], order := [], count := 0, iterating := 0 }

/-- `gray_map_get`: the remainder by the capacity comes first. -/
def mapGet {K V : Type} (ops : Map.KeyOps K) (m : Map.GrayMap K V) (k : K) : Outcome (Option V) :=
  if m.capacity = 0 then .ub else Map.get ops m k

/-- `gray_map_has`, `gray_map_remove` -/
def mapHas {K V : Type} (ops : Map.KeyOps K) (m : Map.GrayMap K V) (k : K) : Outcome Bool :=
  if m.capacity = 0 then .ub else Map.has ops m k

/-- `gray_map_set`: twice no slots are no slots, so the remainder is by zero here too. -/
def mapSet {K V : Type} (ops : Map.KeyOps K) (m : Map.GrayMap K V) (k : K) (v : V) : Outcome (Map.GrayMap K V) :=
  if m.iterating > 0 then .panic "P0035"
  else if m.capacity = 0 then .ub else Map.setDepth ops 2 m k v

/-- Types of fields, for what is a container where. -/
inductive FT where
  | scalar
  | arr
  | map
  | struct (n : Nat)
  deriving DecidableEq, Repr

/-- How a field begins. -/
inductive Init where
  | given
  | dflt
  | made
  | zero
  deriving DecidableEq, Repr

/-- A field of a literal. -/
def litField (given hasDflt : Bool) : Init := if given then .given else if hasDflt then .dflt else .zero

/-- A field of `new` (2810-2835). -/
def newField (t : FT) (hasDflt : Bool) : Init :=
  if hasDflt then .dflt
  else
    match t with
    | .arr | .map => .made
    | _ => .zero

end Verif.StructLit

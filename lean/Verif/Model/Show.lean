import Verif.Model.Utf8
import Verif.Model.Outcome
/-
Printing of arrays, maps, structs and pointers with `print`, `println` and their kin: `emit_value_print` and
`emit_composite_print`, /repo/grayc/src/codegen/codegen.c 3121-3414.

`gen` is the generator itself (what it does with its static table `emit_value_print_visiting`, and whether the C text it
makes compiles); `shown` is what the generated program writes.

Simplifications.
* The texts of C expressions fit into their buffers (`elem_expr` etc., 256 bytes).
* A float is given by what `%g` makes of it; a pointer by its address, with 0 for nil.
* Structs are numbers. The table holds for each the name that is shown and the fields, if `find_struct_declaration` finds
  the declaration (it does not for an instance of a generic struct, whose type has the name `Box__int`).
* `shown` takes the table of structs being printed as if it had no end; `gen` has the limit of 64.
* `(long long)(x)` of a `gray_i128`, of a `GrayString` and of a struct is an error of the C compiler.
-/
namespace Verif.Show
open Verif Verif.Str

/-- Types, as `type_from_name` sees them. -/
inductive Ty where
  | int | uint | wide | float | bool | char | byte | str
  /-- an enum of numbers, of strings, with payloads -/
  | enm | strEnum | tagged
  | arr (t : Ty)
  | map (k v : Ty)
  | struct (n : Nat)
  | ptr
  | err
  deriving DecidableEq, Repr

inductive Val where
  | int (z : Int)
  | float (t : Str)
  | bool (b : Bool)
  | char (c : Int)
  | str (s : Str)
  | arr (l : List Val)
  | map (l : List (Val × Val))
  | struct (l : List Val)
  | ptr (a : Nat)

/-- What the generator knows of the structs of the program. -/
structure Env where
  /-- `display_name` -/
  name : Nat → Str
  /-- the fields of the declaration, if it is found -/
  fields : Nat → Option (List (Str × Ty))
  /-- `sanitize_name` leaves the name as it is; the C struct has the sanitised name, the printing code the bare one (3329) -/
  plain : Str → Bool

/-! ### What is written -/

/-- A digit. -/
def digit (d : Nat) : Byte := if d < 10 then BitVec.ofNat 8 (48 + d) else BitVec.ofNat 8 (87 + d)

/-- A number in base `b`. -/
def num (b : Nat) (n : Nat) : Str :=
  if _h : n < b ∨ b < 2 then [digit n] else num b (n / b) ++ [digit (n % b)]
termination_by n
decreasing_by exact Nat.div_lt_self (by omega) (by omega)

/-- `%lld` and `%llu` -/
def dec (z : Int) : Str := if z < 0 then 45 :: num 10 z.natAbs else num 10 z.natAbs

/-- `%.*s`: up to the first zero. -/
def cstr (s : Str) : Str := s.takeWhile (fun c => c != 0)

/-- The loops over elements, entries: a comma before all but the first (3199-3226, 3254-3277). -/
def items {α : Type} (f : α → Option Str) : Bool → List α → Option Str
  | _, [] => some []
  | first, x :: r =>
    match f x, items f false r with
    | some a, some b => some ((if first then [] else [44, 32]) ++ a ++ b)
    | _, _ => none

/-- The fields (3319-3333). -/
def fieldItems (f : Ty → Val → Option Str) : Bool → List (Str × Ty) → List Val → Option Str
  | _, [], [] => some []
  | first, (n, t) :: fs, x :: r =>
    match f t x, fieldItems f false fs r with
    | some a, some b => some ((if first then [] else [44, 32]) ++ n ++ [58, 32] ++ a ++ b)
    | _, _ => none
  | _, _, _ => none

/-- A key and its value (3260-3271). -/
def entry (f g : Val → Option Str) (p : Val × Val) : Option Str :=
  match f p.1, g p.2 with
  | some a, some b => some (a ++ [58, 32] ++ b)
  | _, _ => none

/-- What the code for a value of a type writes (3142-3374); `vis` are the structs whose fields are being printed; `none` if the
value is not of the type or the code does not compile; the number bounds the depth. -/
def shown (e : Env) : Nat → List Nat → Ty → Val → Option Str
  | 0, _, _, _ => none
  | n + 1, vis, t, v =>
    match t, v with
    | .int, .int z => some (dec z)
    | .byte, .int z => some (dec z)
    | .enm, .int z => some (dec z)
    | .uint, .int z => some (dec z)
    | .float, .float t => some t
    | .str, .str s => some (34 :: cstr s ++ [34])
    | .bool, .bool b => some (if b then lit "true" else lit "false")
    | .char, .char c => some (39 :: Utf8.charToUtf8 c ++ [39])
    | .arr t, .arr l =>
      match items (shown e n vis t) true l with
      | some a => some (123 :: a ++ [125])
      | none => none
    | .map k v, .map l =>
      match items (entry (shown e n vis k) (shown e n vis v)) true l with
      | some a => some (123 :: (if l.isEmpty then [58] else []) ++ a ++ [125])
      | none => none
    | .struct s, .struct l =>
      if s ∈ vis then some (e.name s ++ lit "{...}")
      else
        match e.fields s with
        | none => some (e.name s ++ lit "{}")
        | some fs =>
          match fieldItems (shown e n (s :: vis)) true fs l with
          | some a => some (e.name s ++ 123 :: a ++ [125])
          | none => none
    | .ptr, .ptr a => some (if a = 0 then lit "nil" else lit "0x" ++ num 16 a)
    | .err, .ptr a => some (dec a)
    | _, _ => none

/-! ### The generator -/

/-- `emit_value_print_visiting` up to `emit_value_print_depth`, last first; `debt` if the depth is negative. -/
structure G where
  vis : List Nat
  debt : Nat
  deriving DecidableEq, Repr

/-- `CYCLE_GUARD_DEPTH` -/
def guardDepth : Nat := 64

/-- What becomes of a call: out of fuel, an access outside of the table, or an end, with whether the C text compiles. -/
inductive R where
  | fuel
  | ub
  | done (compiles : Bool) (g : G)
  deriving DecidableEq, Repr

/-- Line 3313; with a negative depth it writes before the table. -/
def push (s : Nat) (g : G) : Option G :=
  if 0 < g.debt then none
  else if g.vis.length < guardDepth then some { g with vis := s :: g.vis } else some g

/-- Line 3335. -/
def pop (g : G) : G :=
  match g.vis with
  | [] => { g with debt := g.debt + 1 }
  | _ :: r => { g with vis := r }

def R.andThen (r : R) (k : G → R) : R :=
  match r with
  | .done b g =>
    match k g with
    | .done b' g' => .done (b && b') g'
    | x => x
  | x => x

/-- The loop over the fields. -/
def genFields (e : Env) (f : Ty → G → R) : List (Str × Ty) → G → R
  | [], g => .done true g
  | (n, t) :: fs, g => ((R.done (e.plain n) g).andThen (f t)).andThen (genFields e f fs)

/-- `emit_value_print` -/
def gen (e : Env) : Nat → Ty → G → R
  | 0, _, _ => .fuel
  | n + 1, t, g =>
    match t with
    | .wide | .strEnum | .tagged => .done false g
    | .arr t => gen e n t g
    | .map k v => (gen e n k g).andThen (gen e n v)
    | .struct s =>
      if s ∈ g.vis then .done true g
      else
        match push s g with
        | none => .ub
        | some g1 =>
          match e.fields s with
          | none => .done true (pop g1)
          | some fs =>
            match genFields e (gen e n) fs g1 with
            | .done b g2 => .done b (pop g2)
            | x => x
    | _ => .done true g

end Verif.Show

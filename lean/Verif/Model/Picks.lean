import Verif.Model.JsonCalls
/-
C types of `random.choice` (`emit_random_call`, /repo/grayc/src/codegen/codegen.c 4937-4967; its type is that of the elements,
/repo/grayc/src/typechecker/typechecker.c 2625-2636) and of `mem.alloc` (`emit_mem_call`, codegen.c 4038-4073; its type is that of the value,
typechecker.c 2279-2281).

Simplifications.
* Types are the names of `JsonCalls`, wide integers left out.
* An array has its elements as a literal makes them (`JsonCalls.arrayC`, 1486-1523), or at the C type of the element (7074, 7129, 7167-7205).
* Whether an argument is written as an expression that can be assigned to, and is then evaluated twice, is left out.
-/
namespace Verif.Picks
open Verif.JsonCalls

/-- C types -/
inductive C where
  | i8 | i16 | i32 | i64 | u8 | u16 | u32 | u64 | flt | dbl | bool | str | enum | struct | array | map | ptr
  /-- A pointer to a value of the type -/
  | to (n : Nm)
  deriving DecidableEq, Repr

/-- `gray_type_to_c_codegen` (316-370) -/
def typeC : Nm → Option C
  | .int | .i64 => some .i64
  | .i8 => some .i8
  | .i16 => some .i16
  | .i32 | .char => some .i32
  | .uint | .u64 => some .u64
  | .u8 | .byte => some .u8
  | .u16 => some .u16
  | .u32 => some .u32
  | .float | .f64 => some .dbl
  | .f32 => some .flt
  | .bool => some .bool
  | .string => some .str
  | .enum => some .enum
  | .struct => some .struct
  | .array => some .array
  | .map => some .map
  | .pointer | .error => some .ptr
  | .wide => none

/-- The C type of the elements of a literal (1486-1523) -/
def literalC (e : Nm) : Option C :=
  match kd e with
  | .float => some .dbl
  | .bool => some .bool
  | .string => some .str
  | .struct => some .struct
  | .array => some .array
  | .map => some .map
  | .enum => some .enum
  | .pointer => some .ptr
  | .char => some .i32
  | .byte => some .u8
  | .error => none
  | _ => if e = .wide then none else some .i64

/-- How an array was made -/
inductive Way where
  | literal | declared
  deriving DecidableEq, Repr

def keptC : Way → Nm → Option C
  | .literal, e => literalC e
  | .declared, e => typeC e

/-- The C type at which `choice` reads an element (4939-4954) -/
def choiceC (e : Nm) : Option C :=
  match kd e with
  | .float => some .dbl
  | .bool => some .bool
  | .string => some .str
  | .char => some .i32
  | .byte => some .u8
  | .struct | .enum => typeC e
  | _ => some .i64

/-- The C type at which `a[i]` reads an element (2456-2490) -/
def indexC (e : Nm) : Option C :=
  match kd e with
  | .int | .uint => if e = .wide then none else some .i64
  | .byte => some .u8
  | .float => some .dbl
  | .error => some .i64
  | _ => typeC e

/-- The value of `mem.alloc`: an array literal or not -/
inductive Val where
  | elems (e : Nm)
  | other (n : Nm)
  deriving DecidableEq, Repr

/-- The C value of `mem.alloc`, and for an array the C type of its elements (4043-4070) -/
def allocC : Val → Option (C × Option C)
  | .elems e =>
    match kd e with
    | .float => some (.array, some .dbl)
    | .string => some (.array, some .str)
    | .bool => some (.array, some .bool)
    | _ => some (.array, some .i64)
  | .other n => if n = .string then some (.str, none) else if n = .wide then none else some (.to n, none)

/-- What the value is in C without `mem.alloc` -/
def plainC : Val → Option (C × Option C)
  | .elems e => (literalC e).map fun c => (.array, some c)
  | .other n => (typeC n).map fun c => (c, none)

end Verif.Picks

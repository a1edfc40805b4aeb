import Verif.Model.Elems

/-!
# Integers that go to a place of another integer type

`grayc/src/codegen/codegen.c`: declarations with a written type and arguments go through `emit_narrowing_cast`
(lines 7032-7063, called at 6891, 6973 and 7544); everywhere else the value is written as it is and C converts it. The functions
called are in `grayc/src/runtime/runtime.h:294-308`. Types of at most 64 bits; constants outside of functions, for which the cast is
not checked, and default values are left out.
-/

namespace Verif.Convert

open Verif.Accept Verif.Elems

/-- C conversion to an integer type: the value modulo 2ⁿ. -/
def wrap (d : IntName) (z : Int) : Int := decode (signed d) (encode (width d) z)

/-- The targets of `emit_narrowing_cast`. -/
def narrowTarget : IntName → Bool
  | .i8 | .i16 | .i32 | .u8 | .u16 | .u32 | .byte => true
  | _ => false

/-- `smin` and `smax`, lines 7037-7043. -/
def bounds : IntName → Int × Int
  | .i8 => (-128, 127)
  | .i16 => (-32768, 32767)
  | .i32 => (-2147483648, 2147483647)
  | .u8 | .byte => (0, 255)
  | .u16 => (0, 65535)
  | .u32 => (0, 4294967295)
  | _ => (0, 0)

/-- The places with `emit_narrowing_cast`. -/
def checksRange : Place → Bool
  | .decl _ | .arg => true
  | _ => false

/-- What arrives; `none` if the program stops. The value is first converted to the parameter type `int64_t` of the check. -/
def store (p : Place) (d : IntName) (z : Int) : Option Int :=
  if checksRange p && narrowTarget d then
    let w := wrap .int z
    if w < (bounds d).1 ∨ (bounds d).2 < w then none else some (wrap d w)
  else some (wrap d z)

/-- E3019 and E5024, typechecker.c:8568-8578 and 9548-9557: a variable with a written signed type for an unsigned place. -/
def refused (p : Place) (label : Bool) (d v : IntName) : Bool :=
  label && !signed d && signed v && (match p with | .decl _ | .ret => true | _ => false)

/-- The checker takes an integer of type `v`, written as a variable or otherwise, for a place of type `d`. -/
def takes (p : Place) (label : Bool) (d v : IntName) : Bool := accept {} p (.int d) (.int v) && !refused p label d v

end Verif.Convert

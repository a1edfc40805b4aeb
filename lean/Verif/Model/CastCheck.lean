import Verif.Model.Operators
import Verif.Model.IntOps
/-
Which casts are accepted, and what becomes of arrays: the parser (/repo/grayc/src/parser/parser.c 989-1015), the check of
`NODE_CAST_EXPR` (/repo/grayc/src/typechecker/typechecker.c 7157-7226), `type_from_name` (types.c 396-525), and the C text
(/repo/grayc/src/codegen/codegen.c 2590-2783, `emit_to_string` 3017-3044). The values of casts of numbers are in `Cast`.

Simplifications.
* The value is a variable whose type is known.
* Sized integers are put with `int` and `uint`: their text differs in the check of the range only.
* Texts from strings to numbers (2623-2671), which the checker lets no cast reach, are left out.
* Of arrays, those of integers of up to 64 bits; the machine is little-endian. A cast between structs of one type is the
  extension of GNU C and of clang.
-/
namespace Verif.CastCheck
open Verif.Operators Verif.IntOps

/-- `type_is_numeric` (types.c 290-293) -/
def numeric (k : K) : Bool := tk k == .int || tk k == .uint || k == .float || k == .char || k == .byte

/-- The list of casts (7165-7203); `es` and `ed` are the elements of arrays. -/
def allowed (src dst es ed : K) : Bool :=
  tk src == tk dst && src != .array && src != .map && src != .struct ||
  numeric src && numeric dst ||
  src == .bool && numeric dst ||
  numeric src && dst == .bool ||
  (numeric src || src == .bool) && dst == .string ||
  isEnum src && (tk dst == .int || tk dst == .uint) ||
  (tk src == .int || tk src == .uint) && isEnum dst ||
  src == .array && dst == .array && numeric es && numeric ed

/-- The constructors between wide integers (2715-2737) -/
def wideFn (src dst : K) : Bool :=
  src == .i128 && dst == .u128 || src == .u128 && dst == .i128 || src == .i128 && dst == .i256 ||
  src == .u128 && dst == .u256 || src == .i256 && dst == .i128 || src == .u256 && dst == .u128

/-- A C cast `(T)(x)`: between scalars, or from a struct to its own type; strings and enums of strings have one type. -/
def cCast (src dst : K) (same : Bool) : Option C :=
  if scalar src && scalar dst then some (cType dst)
  else if strLike src && strLike dst || src == .array && dst == .array || src == dst && cType src == .agg && same then some .agg
  else none

/-- The text of a cast (2590-2783); `same` says that the two types have one name. -/
def castText (src dst : K) (same : Bool) : Option C :=
  if dst == .string then
    -- a character, or `emit_to_string`: a wide integer, an error, or a number given to one of the functions for numbers
    if src == .char || wide src || src == .error || number src then some .agg else none
  else if wide dst && !wide src then
    if scalar src then some (cType dst) else none
  else if wide src && !wide dst then
    if scalar dst then some (cType dst) else none
  else if wide src && wide dst then
    if wideFn src dst then some (cType dst) else some (cType src)
  else cCast src dst same

/-! ### Names of targets -/

/-- The table of built-in names (types.c 361-387) -/
def builtins : List (String × Option K) :=
  [("Error", some .error), ("bool", some .bool), ("byte", some .byte), ("char", some .char), ("f32", some .float),
   ("f64", some .float), ("float", some .float), ("func", none), ("i128", some .i128), ("i16", some .int), ("i256", some .i256),
   ("i32", some .int), ("i64", some .int), ("i8", some .int), ("int", some .int), ("nil", some .nil), ("string", some .string),
   ("u128", some .u128), ("u16", some .uint), ("u256", some .u256), ("u32", some .uint), ("u64", some .uint),
   ("u8", some .uint), ("uint", some .uint), ("void", some .void)]

def upper (c : Char) : Bool := 'A' ≤ c && c ≤ 'Z'

/-- `type_from_name` (396-525) for the text of one token, which has no `[`, `^`, or `(`; none is `TK_UNKNOWN`. `seen` are the enums
for which `type_enum` has been called; all count as enums of numbers. -/
def fromName (seen : List (List Char)) (name : List Char) : Option K :=
  match builtins.find? (fun b => b.1.toList == name) with
  | some b => b.2
  | none =>
    match name with
    | [] => none
    | c :: _ =>
      if upper c then some (if seen.contains name then .enumInt else .struct)
      else
        -- `strchr(name, '_')` and the character after it
        match name.dropWhile (· != '_') with
        | _ :: d :: _ => if upper d then some (if seen.contains name then .enumInt else .struct) else none
        | _ => none

/-- The check of `cast(x, name)`: an unknown kind is not checked (7164). -/
def accepts (seen : List (List Char)) (src : K) (name : List Char) : Bool :=
  match fromName seen name with
  | none => true
  | some dst => allowed src dst .int .int

/-! ### Arrays -/

/-- The `n` bytes of a number, the low one first -/
def bytesOf : Nat → Int → List Int
  | 0, _ => []
  | n + 1, v => v % 256 :: bytesOf n (v / 256)

/-- The number of some bytes -/
def numberOf : List Int → Int
  | [] => 0
  | b :: bs => b + 256 * numberOf bs

/-- The size of an integer in bytes -/
def sizeOf (t : IntTy) : Nat := (cTy t).1 / 8

/-- The memory of an array of `src` -/
def memory (src : IntTy) (vs : List Int) : List Int := vs.flatMap (bytesOf (sizeOf src))

/-- Element `i` of `cast(a, [dst])` of an array `a` of `src`: the struct is copied with its `elem_size` (`((GrayArray)(a))`, 2776-2778),
and the element is read as a `dst`; none if the read goes past the memory. -/
def castElem (src dst : IntTy) (vs : List Int) (i : Nat) : Option Int :=
  let chunk := ((memory src vs).drop (i * sizeOf src)).take (sizeOf dst)
  if chunk.length < sizeOf dst then none else some (conv (cTy dst) (numberOf chunk))

end Verif.CastCheck

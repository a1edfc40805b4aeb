/-
Which encoder `json.encode` calls, and what it reads: `emit_json_call` (/repo/grayc/src/codegen/codegen.c), the encoders
(/repo/grayc/src/stdlib/json.c 64-290), and the C types in which arrays made by literals (codegen.c 1478-1523) and maps (441-463) keep
their elements. The checker looks at the number of arguments only (/repo/grayc/src/typechecker/typechecker.c 926).

Simplifications.
* The elements of arrays and maps are of types with a name; arrays and maps in arrays and maps are one name each.
* Arrays are made by literals; others keep sized integers in their own size (see `Elems`).
-/
namespace Verif.JsonCalls

/-- Names of types, with one for each kind that is not a number; `wide` stands for the four wide integers. -/
inductive Nm where
  | int | i8 | i16 | i32 | i64 | uint | u8 | u16 | u32 | u64 | byte | char | float | f32 | f64 | bool | string | wide
  | enum | struct | array | map | pointer | error
  deriving DecidableEq, Repr

/-- The type of the argument -/
inductive Ty where
  | one (n : Nm)
  | array (e : Nm)
  | map (k v : Nm)
  deriving DecidableEq, Repr

/-- `TypeKind` (types.c 361-387) -/
inductive Kd where
  | int | uint | byte | char | float | bool | string | enum | struct | array | map | pointer | error
  deriving DecidableEq, Repr

/-- Signed wide integers have kind `int`, the others `uint`; here both are put with `int`. -/
def kd : Nm → Kd
  | .int | .i8 | .i16 | .i32 | .i64 | .wide => .int
  | .uint | .u8 | .u16 | .u32 | .u64 => .uint
  | .byte => .byte
  | .char => .char
  | .float | .f32 | .f64 => .float
  | .bool => .bool
  | .string => .string
  | .enum => .enum
  | .struct => .struct
  | .array => .array
  | .map => .map
  | .pointer => .pointer
  | .error => .error

/-- The C types of elements -/
inductive CT where
  | i64 | i32 | u8 | dbl | bool | str | enum | agg | ptr
  deriving DecidableEq, Repr

/-- The C type of the elements of a literal (1486-1523); none if an element cannot be one -/
def arrayC (e : Nm) : Option CT :=
  match kd e with
  | .float => some .dbl
  | .bool => some .bool
  | .string => some .str
  | .struct | .array | .map => some .agg
  | .enum => some .enum
  | .pointer => some .ptr
  | .char => some .i32
  | .byte => some .u8
  | .error => none
  | _ => if e = .wide then none else some .i64

/-- The C type of keys and values of maps (441-463) -/
def mapC (e : Nm) : Option CT :=
  match kd e with
  | .float => some .dbl
  | .string => some .str
  | .bool => some .bool
  | .char => some .i32
  | .byte => some .u8
  | .struct | .array | .map => some .agg
  | .pointer => some .ptr
  | .error => none
  | _ => if e = .wide then none else some .i64

/-- The encoders, the texts for single values included -/
inductive Enc where
  | mapInt | mapFloat | mapBool | mapStr | arrFloat | arrStr | arrBool | arrInt | num | real | truth | quoted
  /-- `gray_json_encode_map((GrayMap *)&tmp)` -/
  | asMap
  deriving DecidableEq, Repr

/-- The choice: elements go by name, single values by kind. -/
def encoder : Ty → Enc
  | .map _ v => if v = .int then .mapInt else if v = .float then .mapFloat else if v = .bool then .mapBool else .mapStr
  | .array e => if e = .float then .arrFloat else if e = .string then .arrStr else if e = .bool then .arrBool else .arrInt
  | .one n =>
    match kd n with
    | .int => .num
    | .float => .real
    | .bool => .truth
    | .string => .quoted
    | _ => .asMap

/-- At which C type the elements are read -/
def reads : Enc → Option CT
  | .mapInt | .arrInt => some .i64
  | .mapFloat | .arrFloat => some .dbl
  | .mapBool | .arrBool => some .bool
  | .mapStr | .arrStr | .asMap => some .str
  | _ => none

/-- Everything is read at the C type at which it is kept; keys are read as strings. -/
def sound (t : Ty) : Bool :=
  match t with
  | .map k v => mapC k == some .str && mapC v == reads (encoder t)
  | .array e => arrayC e == reads (encoder t)
  | .one n => encoder t != .asMap && n != .wide

/-- The value exists in C. -/
def exists? : Ty → Bool
  | .map k v => (mapC k).isSome && (mapC v).isSome
  | .array e => (arrayC e).isSome
  | .one _ => true

end Verif.JsonCalls

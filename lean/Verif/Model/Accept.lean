/-!
# Which types the checker takes where

`grayc/src/typechecker/typechecker.c` compares the type of a value with the type of the place it goes to separately for each
kind of place; `grayc/src/codegen/codegen.c` then writes C that reads the elements of an array or a map at the type of
the place, while the elements are where the array was made.

* Types are trees. The code compares texts (`strcmp` of `element_type`, `key_type`, `value_type`); equal trees have equal
  texts, and the other way round as long as no struct has the name of an enum. Arrays with a size are left out.
* Unknown types, against which nothing is checked, are left out, and so is everything that depends on the form of
  the value, apart from map literals in declarations: the ranges of literals, E3019 and E5024, `ref`.
* `type_from_name` of the name of an enum is a struct type; this is `elemKind`.
-/

namespace Verif.Accept

abbrev Name := List Char

inductive IntName where
  | int | i8 | i16 | i32 | i64 | i128 | i256 | uint | u8 | u16 | u32 | u64 | u128 | u256 | byte
  deriving DecidableEq, Repr

inductive FloatName where
  | float | f32 | f64
  deriving DecidableEq, Repr

inductive Ty where
  | int (n : IntName)
  | float (n : FloatName)
  | bool
  | char
  | string
  | error
  | nil
  | struct (s : Name)
  | enum (e : Name)
  | ptr (t : Ty)
  | arr (t : Ty)
  | map (k v : Ty)
  | func (sig : Name)
  deriving DecidableEq, Repr

/-- `TypeKind`. -/
inductive Kind where
  | int | uint | byte | float | bool | char | string | error | nil | struct | enum | pointer | array | map | function
  deriving DecidableEq, Repr

/-- types.c:355-395. -/
def intKind : IntName → Kind
  | .int | .i8 | .i16 | .i32 | .i64 | .i128 | .i256 => .int
  | .uint | .u8 | .u16 | .u32 | .u64 | .u128 | .u256 => .uint
  | .byte => .byte

def kind : Ty → Kind
  | .int n => intKind n
  | .float _ => .float
  | .bool => .bool
  | .char => .char
  | .string => .string
  | .error => .error
  | .nil => .nil
  | .struct _ => .struct
  | .enum _ => .enum
  | .ptr _ => .pointer
  | .arr _ => .array
  | .map _ _ => .map
  | .func _ => .function

/-- The kind of `type_from_name` of the text of a type. -/
def elemKind : Ty → Kind
  | .enum _ => .struct
  | t => kind t

/-- typechecker.c:1820. -/
def isInt (k : Kind) : Bool := k = .int ∨ k = .uint ∨ k = .byte

/-- typechecker.c:1826. -/
def rank : IntName → Nat
  | .i8 | .u8 | .byte => 1
  | .i16 | .u16 => 2
  | .i32 | .u32 => 3
  | .i64 | .u64 | .int | .uint => 4
  | .i128 | .u128 => 5
  | .i256 | .u256 => 6

/-- What the checker knows of named types: the name a programmer wrote for them, and which enums hold strings. -/
structure World where
  structDisplay : Name → Name := id
  enumDisplay : Name → Name := id
  stringEnum : Name → Bool := fun _ => false

/-- `strrchr(s, '_') + 1`. -/
def afterUnderscore : Name → Option Name
  | [] => none
  | c :: r =>
    match afterUnderscore r with
    | some s => some s
    | none => if c = '_' then some r else none

/-- Lines 338-341. -/
def sameStruct (W : World) (a b : Name) : Bool := a = b ∨ W.structDisplay a = W.structDisplay b

/-- Lines 342-345. -/
def sameEnum (W : World) (a b : Name) : Bool := a = b ∨ W.enumDisplay a = W.enumDisplay b

/-- Lines 348-357. Both kinds are those of `type_from_name`, so the last case of the code is not reached. -/
def sameElem (W : World) (a b : Ty) : Bool :=
  a = b ||
  match a, b with
  | .struct s, .struct t => sameStruct W s t
  | .enum s, .enum t => sameStruct W s t
  | .struct s, .enum t => sameStruct W s t
  | .enum s, .struct t => sameStruct W s t
  | _, _ => false

/-- Where a value goes. -/
inductive Place where
  /-- `mut x T = v`; whether `v` is a map literal -/
  | decl (lit : Bool)
  /-- `x = v` -/
  | assign
  /-- an argument of a function that is not generic -/
  | arg
  /-- the first value of `return` -/
  | ret
  /-- one of the other values of `return` -/
  | ret2
  /-- a field of a struct literal -/
  | field
  /-- `x.f = v` -/
  | setField
  /-- `a[i] = v` -/
  | elem
  /-- `m[k] = v`, and longer paths -/
  | deep
  deriving DecidableEq, Repr

/-- A number or enum to an integer type: the rule for kinds shared by many places. -/
def intToFloat (d v : Kind) : Bool := d = .float && isInt v

def enumToInt (d v : Kind) : Bool := isInt d && v = .enum

/-- Integer kinds that a declaration or assignment mixes: lines 8116-8118. -/
def intMix (d v : Kind) : Bool := isInt d && isInt v && !((d = .byte && v = .uint) || (d = .uint && v = .byte))

def nilable (d : Kind) : Bool := d = .pointer ∨ d = .error

/-- The rule for kinds, per place. Declarations 8044-8051, 8112-8142; assignments 9146-9175; arguments 4720-4727; the
first value of return 9442-9455; struct literals 6419-6437; fields 9246-9262; elements 9076-9084. -/
def kindOk (W : World) (p : Place) (d v : Ty) : Bool :=
  let dk := kind d
  let vk := kind v
  match p with
  | .decl _ =>
    if vk = .nil then dk = .pointer || dk = .error || dk = .nil
    else dk = vk || intMix dk vk || enumToInt dk vk || intToFloat dk vk ||
      (match d, v with | .string, .enum e => W.stringEnum e | _, _ => false)
  | .assign =>
    !(dk = .enum && isInt vk) &&
    (dk = vk || intMix dk vk || enumToInt dk vk || (dk = .struct && isInt vk) || intToFloat dk vk || (vk = .nil && nilable dk))
  | .arg => dk = vk || enumToInt dk vk || (dk = .enum && isInt vk) || (dk = .struct && isInt vk) || (isInt dk && vk = .bool) || intToFloat dk vk
  | .ret =>
    dk = vk || vk = .nil || (isInt dk && isInt vk) || enumToInt dk vk || intToFloat dk vk ||
      (match d, v with | .string, .enum e => W.stringEnum e | _, _ => false)
  | .field =>
    dk = vk || enumToInt dk vk || (dk = .enum && isInt vk) || (dk = .struct && isInt vk) || (isInt dk && vk = .struct) ||
      intToFloat dk vk || (vk = .nil && nilable dk)
  | .setField => dk = vk || (isInt dk && isInt vk) || enumToInt dk vk || intToFloat dk vk || (vk = .nil && nilable dk)
  | .elem =>
    elemKind d = vk || (isInt vk && isInt dk) || enumToInt dk vk || intToFloat dk vk || (vk = .float && isInt dk) ||
      (match d with | .enum _ => vk = .enum | _ => false)
  | .ret2 | .deep => true

/-- Lines 8163-8179 for names of structs. -/
def structAlias (d v : Name) : Bool := afterUnderscore d = some v ∨ afterUnderscore v = some d

/-- The rules for two types of one kind, per place: structs, enums, pointers, functions, and wide integers. -/
def nameOk (W : World) (p : Place) : Ty → Ty → Bool
  | .struct s, .struct t =>
    match p with
    | .decl _ => s = t || structAlias s t
    | .arg => sameStruct W t s
    | .assign | .ret | .field | .setField => s = t
    | .elem | .ret2 | .deep => true
  | .enum s, .enum t =>
    match p with
    | .decl _ => s = t
    | .arg => sameEnum W t s
    | .ret => sameEnum W t s
    | _ => true
  | .ptr a, .ptr b =>
    match p with
    | .decl _ | .assign | .ret | .field | .setField => a = b
    | .arg => a = b || (match a, b with | .struct s, .struct t => sameStruct W t s | _, _ => false)
    | .elem | .ret2 | .deep => true
  | .func s, .func t =>
    match p with
    | .decl _ | .arg | .ret | .setField => s = t
    | _ => true
  | .int a, .int b =>
    match p with
    | .decl _ | .assign | .arg => !(5 ≤ rank b && rank a < rank b)
    | _ => true
  | _, _ => true

/-- The rules for the elements of arrays: lines 8202-8227, 4785-4800, 9497-9511; none in the other places. -/
def arrOk (W : World) (p : Place) : Ty → Ty → Bool
  | .arr a, .arr b =>
    match p with
    | .decl _ =>
      sameElem W a b || (match a with | .func _ => true | _ => false) || (isInt (elemKind a) && isInt (elemKind b)) ||
        (isInt (elemKind a) && elemKind b = .struct) || (elemKind a = .float && isInt (elemKind b))
    | .arg | .ret => sameElem W b a || (isInt (elemKind a) && isInt (elemKind b))
    | _ => true
  | _, _ => true

/-- The rules for maps: lines 8229-8267, 4802-4818, 9513-9528; none in the other places. -/
def mapOk (p : Place) : Ty → Ty → Bool
  | .map k v, .map k' v' =>
    match p with
    | .decl lit =>
      (k = k' || (isInt (elemKind k) && isInt (elemKind k')) || (elemKind k = .float && elemKind k' = .float) ||
        (elemKind k = .float && isInt (elemKind k'))) &&
      (v = v' || (isInt (elemKind v) && isInt (elemKind v')) || (lit && elemKind v = .float && isInt (elemKind v')))
    | .arg | .ret => k = k' && v = v'
    | _ => true
  | _, _ => true

/-- The checker takes a value of type `v` for a place of type `d`. -/
def accept (W : World) (p : Place) (d v : Ty) : Bool := kindOk W p d v && nameOk W p d v && arrOk W p d v && mapOk p d v

/-! ### C types -/

/-- `gray_type_to_c_codegen`, lines 301-440, with the layout instead of the spelling. Enums of integers are `int`; enums with
payloads are left out. -/
inductive CTy where
  | int (bytes : Nat) (signed : Bool)
  | wide (words : Nat) (signed : Bool)
  | float (bytes : Nat)
  | bool
  | string
  | errorPtr
  | struct (s : Name)
  | ptr (t : CTy)
  | array
  | map
  | voidPtr
  deriving DecidableEq, Repr

def cInt : IntName → CTy
  | .int | .i64 => .int 8 true
  | .i8 => .int 1 true
  | .i16 => .int 2 true
  | .i32 => .int 4 true
  | .uint | .u64 => .int 8 false
  | .u8 | .byte => .int 1 false
  | .u16 => .int 2 false
  | .u32 => .int 4 false
  | .i128 => .wide 2 true
  | .i256 => .wide 4 true
  | .u128 => .wide 2 false
  | .u256 => .wide 4 false

def cTy (W : World) : Ty → CTy
  | .int n => cInt n
  | .float .f32 => .float 4
  | .float _ => .float 8
  | .bool => .bool
  | .char => .int 4 true
  | .string => .string
  | .error => .errorPtr
  | .nil => .voidPtr
  | .struct s => .struct s
  | .enum e => if W.stringEnum e then .string else .int 4 false
  | .ptr t => .ptr (cTy W t)
  | .arr _ => .array
  | .map _ _ => .map
  | .func _ => .voidPtr

/-- The C type at which the elements of `[t]` are stored by a literal and read by an index: lines 1487-1523 and 2456-2490. It
goes by the kind of the type, apart from wide integers. -/
def elemC (W : World) : Ty → CTy
  | .int .byte => .int 1 false
  | .int .i128 => .wide 2 true
  | .int .i256 => .wide 4 true
  | .int .u128 => .wide 2 false
  | .int .u256 => .wide 4 false
  | .int _ => .int 8 true
  | .float _ => .float 8
  | .error | .nil => .int 8 true
  | t => cTy W t

/-- The C type of the keys and values of a map, lines 441-461. -/
def mapC (W : World) : Ty → CTy
  | .int .byte => .int 1 false
  | .int _ => .int 8 true
  | .float _ => .float 8
  | .error | .nil => .int 8 true
  | t => cTy W t

end Verif.Accept

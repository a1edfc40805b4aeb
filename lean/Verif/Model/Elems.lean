import Verif.Model.Accept

/-!
# The elements of an array of integers, byte by byte

An array has its elements one after the other, `elem_size` bytes each (`grayc/src/runtime/array.c:14-78`). The size is
fixed when the array is made; each operation then goes through a C variable whose type `grayc/src/codegen/codegen.c`
chooses anew:

* `{1, 2, 3}` stores by the kind of the first element, lines 1487-1523: `int64_t` for numbers;
* `{}` for a variable with a written type, a declaration without a value, a literal with fewer elements than the size says,
  and the results of `arrays.map` and `arrays.filter` have the size of the C type of the element, `gray_type_to_c_codegen`,
  lines 7074, 7129, 7167-7205, 5308, 5322;
* `a[i]` and `for_each` read by kind, lines 2456-2490 and 8924-8946: `int64_t`, and `uint8_t` for `byte`;
* `a[i] = v` goes through a variable of the C type of the element, lines 7575-7583 and 7663-7684;
* `arrays.append`, `insert_at` and `prepend` go through an `int64_t` or `uint64_t`, lines 5018-5040, 5066-5084, 5215-5228;
* `get_first` and `get_last` read at the C type of the element, `remove_first` and `remove_last` copy `elem_size` bytes into
  a variable of that type, lines 5277-5300 and `grayc/src/stdlib/arrays.c:116-144`;
* `arrays.map`, `filter`, `any`, `all` and others go over `((T *)data)[i]`, lines 5300-5380.

A byte is `none` if nothing says what it is: the bytes after a variable whose address is copied from, and the bytes after the
last element. Values of type `byte` as elements of a literal or for `append` are left out, and so are wide integers,
`insert_at` in the middle, and removal.
-/

namespace Verif.Elems

open Verif.Accept

/-- `elem_size`, and the bytes of the elements. -/
structure Arr where
  size : Nat
  data : List (Option Nat)
  deriving DecidableEq, Repr

/-- The bytes of an integer in `w` bytes, the lowest first. -/
def encode : Nat → Int → List Nat
  | 0, _ => []
  | w + 1, z => (z % 256).toNat :: encode w (z / 256)

/-- The number of some bytes. -/
def number : List Nat → Nat
  | [] => 0
  | b :: r => b + 256 * number r

/-- The value of some bytes at a signed or unsigned type of their number. -/
def decode (signed : Bool) (l : List Nat) : Int :=
  if signed && decide (256 ^ l.length ≤ 2 * number l) then (number l : Int) - 256 ^ l.length else number l

/-- The bytes of the C type of an element. -/
def width : IntName → Nat
  | .i8 | .u8 | .byte => 1
  | .i16 | .u16 => 2
  | .i32 | .u32 => 4
  | .int | .i64 | .uint | .u64 => 8
  | .i128 | .u128 => 16
  | .i256 | .u256 => 32

def signed : IntName → Bool
  | .int | .i8 | .i16 | .i32 | .i64 | .i128 | .i256 => true
  | _ => false

/-- How an array comes about. -/
inductive Src where
  /-- a literal with all elements -/
  | lit
  /-- an empty or short literal with a written type, no value, or the result of `map` or `filter` -/
  | made
  deriving DecidableEq, Repr

def srcSize (d : IntName) : Src → Nat
  | .lit => 8
  | .made => width d

/-- `gray_array_from` with the given elements. -/
def build (d : IntName) (s : Src) (zs : List Int) : Arr := ⟨srcSize d s, (zs.flatMap (encode (srcSize d s))).map some⟩

/-- The first `n` bytes from the address of a variable of `w` bytes with a value. -/
def source (w n : Nat) (z : Int) : List (Option Nat) := ((encode w z).map some ++ List.replicate n none).take n

inductive Op where
  | set (i : Nat) (z : Int)
  | push (z : Int)
  deriving DecidableEq, Repr

/-- One write; `none` if the index is not in the array. -/
def write (d : IntName) (a : Arr) : Op → Option Arr
  | .set i z =>
    if a.data.length < i * a.size + a.size then none
    else some ⟨a.size, a.data.take (i * a.size) ++ source (width d) a.size z ++ a.data.drop (i * a.size + a.size)⟩
  | .push z => some ⟨a.size, a.data ++ source 8 a.size z⟩

def run (d : IntName) : Arr → List Op → Option Arr
  | a, [] => some a
  | a, o :: os => do run d (← write d a o) os

inductive Read where
  /-- `a[i]` and `for_each` -/
  | index
  /-- `get_first`, `get_last` -/
  | peek
  /-- `remove_first`, `remove_last` -/
  | take
  /-- `map`, `filter`, `any`, `all` -/
  | walk
  deriving DecidableEq, Repr

inductive Got where
  | value (z : Int)
  | garbage
  /-- bytes are written outside of a variable -/
  | smash
  deriving DecidableEq, Repr

/-- All bytes, if they are known. -/
def allKnown : List (Option Nat) → Option (List Nat)
  | [] => some []
  | none :: _ => none
  | some b :: r => do return b :: (← allKnown r)

/-- `r` bytes at an offset, at a signed or unsigned type. -/
def window (a : Arr) (sg : Bool) (off r : Nat) : Got :=
  if a.data.length < off + r then .garbage
  else
    match allKnown ((a.data.drop off).take r) with
    | some l => .value (decode sg l)
    | none => .garbage

/-- Reading element `i` in one of the ways. -/
def readAt (d : IntName) (a : Arr) (i : Nat) : Read → Got
  | .index => if d = .byte then window a false (i * a.size) 1 else window a true (i * a.size) 8
  | .peek => window a (signed d) (i * a.size) (width d)
  | .take =>
    if width d < a.size then .smash
    else if a.size < width d then .garbage
    else window a (signed d) (i * a.size) (width d)
  | .walk => window a (signed d) (i * width d) (width d)

end Verif.Elems

import Verif.Model.Array

/-
Arrays at byte level, for element types whose storage size differs from the size used to access
them: /repo/grayc/src/runtime/array.c, /repo/grayc/src/stdlib/arrays.c and the C types chosen by
/repo/grayc/src/codegen/codegen.c.

Simplifications.
* Little-endian two's complement machine (the targets the project ships binaries for).
* The block of an array is a list of bytes; new memory is zero (runtime.c:85 clears it).  An access
  that is not inside the block is `Outcome.ub`: what is there belongs to another allocation.
* Reading more bytes from a C object than it has is `Outcome.ub`.
* Sizes are below 2^30 bytes: the `int32_t` limits are the subject of Model/Array.lean.
-/
namespace Verif.SizedArr
open Verif

abbrev Byte := BitVec 8

/-- The `n` low bytes of `v`, least significant first. -/
def leBytes : Nat → Int → List Byte
  | 0, _ => []
  | n + 1, v => BitVec.ofInt 8 v :: leBytes n (v / 256)

/-- The unsigned number in a byte string. -/
def leNat : List Byte → Nat
  | [] => 0
  | b :: bs => b.toNat + 256 * leNat bs

/-- The `int64_t` (or `int32_t`, …) in a byte string. -/
def leInt (bs : List Byte) : Int :=
  if leNat bs < 2 ^ (8 * bs.length - 1) then (leNat bs : Int)
  else (leNat bs : Int) - 2 ^ (8 * bs.length)

/-- `GrayArray` (array.h:19-25) with its block. -/
structure BArr where
  esz : Nat
  len : Nat
  cap : Nat
  data : List Byte
  deriving DecidableEq, Repr

/-- `gray_array_new` (array.c:14-22). -/
def new (esz cap : Nat) : BArr :=
  { esz := esz, len := 0, cap := if 0 < cap then cap else 4
    data := List.replicate ((if 0 < cap then cap else 4) * esz) 0 }

/-- `gray_array_from` (array.c:24-35) on `count` elements of a C array. -/
def fromBytes (esz : Nat) (bytes : List Byte) (count : Nat) : BArr :=
  { esz := esz, len := count, cap := if 0 < count then count else 4
    data := bytes ++ List.replicate ((if 0 < count then count else 4) * esz - bytes.length) 0 }

/-- A read of `k` bytes at byte offset `o` of the block. -/
def load (a : BArr) (o k : Nat) : Outcome (List Byte) :=
  if o + k ≤ a.data.length then .ok ((a.data.drop o).take k) else .ub

/-- `memcpy` of the first `n` bytes of a C object to offset `o` of the block. -/
def store (a : BArr) (o n : Nat) (obj : List Byte) : Outcome BArr :=
  if n ≤ obj.length ∧ o + n ≤ a.data.length then
    .ok { a with data := a.data.take o ++ obj.take n ++ a.data.drop (o + n) }
  else .ub

/-- `GRAY_ARRAY_GET(arr, type, i)` with `sizeof(type) = k` (array.c:37-42, array.h:46). -/
def get (a : BArr) (k : Nat) (i : Int) : Outcome (List Byte) :=
  if i < 0 ∨ (a.len : Int) ≤ i then .panic "P0033" else load a (i.toNat * a.esz) k

/-- `GRAY_ARRAY_SET` (array.c:44-52): the object is a variable of the C type chosen by codegen. -/
def set (a : BArr) (i : Int) (obj : List Byte) : Outcome BArr :=
  if i < 0 ∨ (a.len : Int) ≤ i then .panic "P0033" else store a (i.toNat * a.esz) a.esz obj

/-- `gray_array_push` (array.c:54-73). -/
def push (a : BArr) (obj : List Byte) : Outcome BArr := do
  let newCap := if a.cap ≤ a.len then (if a.cap < 4 then 4 else a.cap * 2) else a.cap
  let b : BArr :=
    { a with cap := newCap, data := a.data ++ List.replicate (newCap * a.esz - a.data.length) 0 }
  let c ← store b (b.len * b.esz) b.esz obj
  .ok { c with len := c.len + 1 }

def pushAll (a : BArr) : List (List Byte) → Outcome BArr
  | [] => .ok a
  | o :: os => do
    let b ← push a o
    pushAll b os

/-! ### Integer element types -/

/-- Size in bytes and signedness of the integer element types. -/
inductive IntTy where
  | int | uint | i8 | i16 | i32 | i64 | u8 | u16 | u32 | u64
  deriving DecidableEq, Repr

/-- `sizeof` of `gray_type_to_c_codegen` (codegen.c:316-325). -/
def IntTy.size : IntTy → Nat
  | .i8 => 1 | .u8 => 1 | .i16 => 2 | .u16 => 2 | .i32 => 4 | .u32 => 4
  | _ => 8

def IntTy.signed : IntTy → Bool
  | .int => true | .i8 => true | .i16 => true | .i32 => true | .i64 => true
  | _ => false

def IntTy.inRange (t : IntTy) (v : Int) : Prop :=
  if t.signed then -2 ^ (8 * t.size - 1) ≤ v ∧ v < 2 ^ (8 * t.size - 1)
  else 0 ≤ v ∧ v < 2 ^ (8 * t.size)

/-- `mut a [T] = {}` or `mut a [T]` (codegen.c:7167, 7177-7181, 7203). -/
def declareEmpty (t : IntTy) : BArr := new t.size 4

/-- `mut a [T] = {v1, v2, …}` with integer literals: a C array of `int64_t` whatever `T` is
(codegen.c:1462, 1521-1529). -/
def declareLit (vs : List Int) : BArr :=
  fromBytes 8 (vs.flatMap (leBytes 8)) vs.length

/-- `arrays.append(a, v)`: the value is put in an `int64_t` or `uint64_t`
(codegen.c:5018-5022, 5053-5073). -/
def append (a : BArr) (v : Int) : Outcome BArr := push a (leBytes 8 v)

def appendAll (a : BArr) : List Int → Outcome BArr
  | [] => .ok a
  | v :: vs => do
    let b ← append a v
    appendAll b vs

/-- The expression `a[i]`: the C type is `int64_t` for every integer element type
(codegen.c:2463-2487).  for_each reads the same way (codegen.c:8925-8985). -/
def index (a : BArr) (i : Int) : Outcome Int := do
  let bs ← get a 8 i
  .ok (leInt bs)

/-- The statement `a[i] = v`: the C type is that of the element type (codegen.c:7574-7582). -/
def assign (t : IntTy) (a : BArr) (i : Int) (v : Int) : Outcome BArr :=
  set a i (leBytes t.size v)

/-- The element that map, filter, any, all and reduce pass to their callback: `((T *)data)[i]`
(codegen.c:5300-5367), for `i` below the length. -/
def callbackArg (t : IntTy) (a : BArr) (i : Nat) : Outcome Int := do
  let bs ← load a (i * t.size) t.size
  .ok (if t.signed then leInt bs else (leNat bs : Int))

/-! ### Library functions on other element types -/

/-- The loop of `gray_arrays_contains_int` (arrays.c:178-183), used for every element type but
`string` (codegen.c:5180-5193): `n` iterations left. -/
def containsIntLoop (a : BArr) (v : Int) : Nat → Nat → Outcome Bool
  | 0, _ => .ok false
  | n + 1, i => do
    let bs ← load a (i * a.esz) 8
    if leInt bs = v then .ok true else containsIntLoop a v n (i + 1)

def containsInt (a : BArr) (v : Int) : Outcome Bool := containsIntLoop a v a.len 0

/-- A literal of `char`s: `(int32_t[]){…}` (codegen.c:1519). -/
def charLit (cs : List Int) : BArr := fromBytes 4 (cs.flatMap (leBytes 4)) cs.length

/-- A literal of `bool`s: `(bool[]){…}` (codegen.c:1490). -/
def boolLit (bs : List Bool) : BArr :=
  fromBytes 1 (bs.map fun b => if b then 1 else 0) bs.length

/-- `gray_arrays_is_equal_prim` (arrays.c:237-242). -/
def isEqualPrim (a b : BArr) : Bool :=
  if a.len ≠ b.len then false
  else if a.esz ≠ b.esz then false
  else if a.len = 0 then true
  else a.data.take (a.len * a.esz) == b.data.take (a.len * a.esz)

/-- The inner loop of `gray_arrays_flatten` (arrays.c:303-305): 8 bytes are copied from each
element, whose address is its own element size times its index. -/
def flattenInner (inner : BArr) : Nat → Nat → BArr → Outcome BArr
  | 0, _, r => .ok r
  | n + 1, j, r => do
    let bs ← load inner (j * inner.esz) 8
    let r' ← push r bs
    flattenInner inner n (j + 1) r'

/-- `gray_arrays_flatten` (arrays.c:298-309) on the list of the inner arrays. -/
def flattenLoop : List BArr → BArr → Outcome BArr
  | [], r => .ok r
  | inner :: rest, r => do
    let r' ← flattenInner inner inner.len 0 r
    flattenLoop rest r'

def flatten (inners : List BArr) : Outcome BArr := flattenLoop inners (new 8 8)

end Verif.SizedArr

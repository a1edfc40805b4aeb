import Verif.Model.Outcome

/-
Dynamic arrays: /repo/grayc/src/runtime/array.c, array.h, and the functions of
/repo/grayc/src/stdlib/arrays.c that are built on them, with the argument passing of
`emit_arrays_call` (/repo/grayc/src/codegen/codegen.c:5011-5396).

Simplifications.
* Storage is counted in elements, not bytes: `cells` is the allocated block, `cap` its length,
  and a cell nobody has written is `none`.  Reading such a cell, or any cell outside the block,
  is `Outcome.ub`.  (Arrays whose element size disagrees with the type used to access them are
  treated at byte level in Model/SizedArray.lean.)
* `elem_size` does not change during the life of an array; it is the parameter `esz` of the
  functions that multiply it by an index in `int32_t` (`elemAt`).  The functions that multiply in
  `size_t` do not need it.
* Allocation always succeeds.
* `int32_t` overflow of `cap * 2` is `Outcome.ub`: the test `new_cap < cap` that follows it
  (array.c:59, arrays.c:34) comes after the undefined operation.
-/
namespace Verif.Arr

/-- `GrayArray` (array.h:19-25). -/
structure GrayArray (α : Type) where
  cells : List (Option α)
  len : Nat
  iterating : Nat
  deriving DecidableEq, Repr

variable {α : Type}

def GrayArray.cap (a : GrayArray α) : Nat := a.cells.length

def int32Max : Nat := 2147483647

/-- `GRAY_ARRAY_MIN_CAP` (array.h:16). -/
def minCap : Nat := 4

/-- Conversion of an `int64_t` argument to an `int32_t` parameter, which the compilers used
define as reduction modulo 2^32. -/
def toI32 (i : Int) : Int := (i + 2147483648) % 4294967296 - 2147483648

/-- `gray_array_new` (array.c:14-22) with a non-negative `initial_cap`. -/
def new (initialCap : Nat) : GrayArray α :=
  { cells := List.replicate (if 0 < initialCap then initialCap else minCap) none
    len := 0, iterating := 0 }

/-- `gray_array_from` (array.c:24-35). -/
def fromList (xs : List α) : GrayArray α :=
  { cells := if 0 < xs.length then xs.map some else List.replicate minCap none
    len := xs.length, iterating := 0 }

/-- One element read. -/
def cellAt (a : GrayArray α) (i : Nat) : Outcome α :=
  match a.cells[i]? with
  | some (some x) => .ok x
  | _ => .ub

/-- One element read at `(char *)data + i * elem_size` with both factors `int32_t`: overflow of the
product is undefined. -/
def elemAt (esz : Nat) (a : GrayArray α) (i : Nat) : Outcome α :=
  if int32Max < i * esz then .ub else cellAt a i

/-- One element write (`memcpy` of `elem_size` bytes). -/
def writeCell (cells : List (Option α)) (i : Nat) (x : α) : Outcome (List (Option α)) :=
  if i < cells.length then .ok (cells.set i (some x)) else .ub

/-- `memmove` of `n` elements inside the block. -/
def moveCells (cells : List (Option α)) (dst src n : Nat) : Outcome (List (Option α)) :=
  if dst + n ≤ cells.length ∧ src + n ≤ cells.length then
    .ok (cells.take dst ++ (cells.drop src).take n ++ cells.drop (dst + n))
  else .ub

/-- `memcpy` of the first `n` elements into a new block of `newCap` elements. -/
def copyCells (src : List (Option α)) (n newCap : Nat) : Outcome (List (Option α)) :=
  if n ≤ src.length ∧ n ≤ newCap then
    .ok (src.take n ++ List.replicate (newCap - n) none)
  else .ub

/-- Growing when full (array.c:57-69 and arrays.c:32-44). -/
def grow (a : GrayArray α) : Outcome (GrayArray α) :=
  if a.len < a.cap then .ok a
  else if a.cap < minCap then do
    let c ← copyCells a.cells a.len minCap
    .ok { a with cells := c }
  else if int32Max < a.cap * 2 then .ub
  else do
    let c ← copyCells a.cells a.len (a.cap * 2)
    .ok { a with cells := c }

/-- `gray_array_get_ptr` (array.c:37-42) on an `int32_t` index; the result is the cell number. -/
def getPtr (a : GrayArray α) (i : Int) : Outcome Nat :=
  if i < 0 ∨ (a.len : Int) ≤ i then .panic "P0033" else .ok i.toNat

/-- `GRAY_ARRAY_GET(arr, type, i)` (array.h:46): the index expression is an `int64_t`. -/
def get (a : GrayArray α) (i : Int) : Outcome α := do
  let p ← getPtr a (toI32 i)
  cellAt a p

/-- `gray_array_set` (array.c:44-52) as called by `GRAY_ARRAY_SET` (array.h:47). -/
def set (a : GrayArray α) (i : Int) (x : α) : Outcome (GrayArray α) :=
  if 0 < a.iterating then .panic "P0034"
  else if toI32 i < 0 ∨ (a.len : Int) ≤ toI32 i then .panic "P0033"
  else do
    let c ← writeCell a.cells (toI32 i).toNat x
    .ok { a with cells := c }

/-- `gray_array_push` (array.c:54-73). -/
def push (a : GrayArray α) (x : α) : Outcome (GrayArray α) :=
  if 0 < a.iterating then .panic "P0034"
  else do
    let b ← grow a
    let c ← writeCell b.cells b.len x
    .ok { b with cells := c, len := b.len + 1 }

/-- The shift of arrays.c:48-51. -/
def openGap (b : GrayArray α) (i : Nat) : Outcome (List (Option α)) :=
  if i < b.len then moveCells b.cells (i + 1) i (b.len - i) else .ok b.cells

/-- `gray_arrays_insert_at` (arrays.c:22-54) after conversion of the index to `int32_t`. -/
def insertAt32 (a : GrayArray α) (i : Int) (x : α) : Outcome (GrayArray α) :=
  if 0 < a.iterating then .panic "P0034"
  else if i < 0 ∨ (a.len : Int) < i then .panic "P0043"
  else do
    let b ← grow a
    let c ← openGap b i.toNat
    let d ← writeCell c i.toNat x
    .ok { b with cells := d, len := b.len + 1 }

/-- `arrays.insert_at(arr, i, x)` (codegen.c:5074-5119). -/
def insertAt (a : GrayArray α) (i : Int) (x : α) : Outcome (GrayArray α) :=
  insertAt32 a (toI32 i) x

/-- `gray_arrays_prepend` (arrays.c:56-58). -/
def prepend (a : GrayArray α) (x : α) : Outcome (GrayArray α) := insertAt32 a 0 x

/-- `gray_arrays_remove_at` (arrays.c:60-71) after conversion of the index to `int32_t`. -/
def removeAt32 (a : GrayArray α) (i : Int) : Outcome (GrayArray α) :=
  if 0 < a.iterating then .panic "P0034"
  else if i < 0 ∨ (a.len : Int) ≤ i then .panic "P0044"
  else do
    let c ← moveCells a.cells i.toNat (i.toNat + 1) (a.len - 1 - i.toNat)
    .ok { a with cells := c, len := a.len - 1 }

/-- `arrays.remove_at(arr, i)` (codegen.c:5120-5127). -/
def removeAt (a : GrayArray α) (i : Int) : Outcome (GrayArray α) := removeAt32 a (toI32 i)

/-- `gray_arrays_first_ptr` (arrays.c:116-120) and the read through it (codegen.c:5287-5290). -/
def first (a : GrayArray α) : Outcome α :=
  if a.len = 0 then .panic "P0045" else cellAt a 0

/-- `gray_arrays_last_ptr` (arrays.c:122-126) and the read through it. -/
def last (esz : Nat) (a : GrayArray α) : Outcome α :=
  if a.len = 0 then .panic "P0046" else elemAt esz a (a.len - 1)

/-- `gray_arrays_remove_first_raw` (arrays.c:128-135). -/
def removeFirst (a : GrayArray α) : Outcome (GrayArray α × α) :=
  if 0 < a.iterating then .panic "P0034"
  else if a.len = 0 then .panic "P0047"
  else do
    let x ← cellAt a 0
    let b ← removeAt32 a 0
    .ok (b, x)

/-- `gray_arrays_remove_last_raw` (arrays.c:137-144). -/
def removeLast (esz : Nat) (a : GrayArray α) : Outcome (GrayArray α × α) :=
  if 0 < a.iterating then .panic "P0034"
  else if a.len = 0 then .panic "P0048"
  else do
    let x ← elemAt esz a (a.len - 1)
    .ok ({ a with len := a.len - 1 }, x)

/-- `gray_arrays_clear` (arrays.c:101-105). -/
def clear (a : GrayArray α) : Outcome (GrayArray α) :=
  if 0 < a.iterating then .panic "P0034" else .ok { a with len := 0 }

/-- The loop of `gray_arrays_fill` (arrays.c:109-111), `n` iterations left. -/
def pushTimes (x : α) : Nat → GrayArray α → Outcome (GrayArray α)
  | 0, a => .ok a
  | n + 1, a => do
    let b ← push a x
    pushTimes x n b

/-- `arrays.fill(arr, x, count)` (arrays.c:107-112, codegen.c:5258-5275). -/
def fill (a : GrayArray α) (x : α) (count : Int) : Outcome (GrayArray α) := do
  let b ← clear a
  pushTimes x (toI32 count).toNat b

/-- `gray_array_copy` (array.c:75-77): a `memcpy` of the first `len` cells. -/
def copy (a : GrayArray α) : Outcome (GrayArray α) := do
  let c ← copyCells a.cells a.len (if 0 < a.len then a.len else minCap)
  .ok { cells := c, len := a.len, iterating := 0 }

/-! ### Transformations -/

/-- The loop of `gray_arrays_reverse` (arrays.c:260-262), `n` cells left. -/
def reverseLoop (esz : Nat) (a : GrayArray α) : Nat → GrayArray α → Outcome (GrayArray α)
  | 0, r => .ok r
  | n + 1, r => do
    let x ← elemAt esz a n
    let r' ← push r x
    reverseLoop esz a n r'

/-- `gray_arrays_reverse` (arrays.c:257-264). -/
def reverse (esz : Nat) (a : GrayArray α) : Outcome (GrayArray α) := reverseLoop esz a a.len (new a.len)

/-- `gray_array_from` on `n` cells of `a` starting at `start`. -/
def sub (a : GrayArray α) (start n : Nat) : Outcome (GrayArray α) := do
  let c ← copyCells (a.cells.drop start) n (if 0 < n then n else minCap)
  .ok { cells := c, len := n, iterating := 0 }

/-- `gray_arrays_slice` (arrays.c:266-272) on `int32_t` bounds. -/
def slice32 (esz : Nat) (a : GrayArray α) (start stop : Int) : Outcome (GrayArray α) :=
  if min stop a.len ≤ max start 0 then .ok (new 1)
  else if int32Max < (max start 0).toNat * esz then .ub
  else sub a (max start 0).toNat (min stop a.len - max start 0).toNat

/-- `arrays.slice(arr, start, end)` through the generic call of codegen.c:5370-5395. -/
def slice (esz : Nat) (a : GrayArray α) (start stop : Int) : Outcome (GrayArray α) :=
  slice32 esz a (toI32 start) (toI32 stop)

/-- The loop of `gray_arrays_concat` (arrays.c:277-279), `n` iterations left, counter `i`. -/
def concatLoop (esz : Nat) (b : GrayArray α) : Nat → Nat → GrayArray α → Outcome (GrayArray α)
  | 0, _, r => .ok r
  | n + 1, i, r => do
    let x ← elemAt esz b i
    let r' ← push r x
    concatLoop esz b n (i + 1) r'

/-- `gray_arrays_concat` (arrays.c:274-281). -/
def concat (esz : Nat) (a b : GrayArray α) : Outcome (GrayArray α) := do
  let r ← copy a
  concatLoop esz b b.len 0 r

/-- The search loops of arrays.c:73-99, 178-227: `n` iterations left, counter `i`. -/
def findLoop (esz : Nat) (p : α → Bool) (a : GrayArray α) : Nat → Nat → Outcome (Option Nat)
  | 0, _ => .ok none
  | n + 1, i => do
    let x ← elemAt esz a i
    if p x then .ok (some i) else findLoop esz p a n (i + 1)

/-- First position whose element satisfies the comparison. -/
def find (esz : Nat) (p : α → Bool) (a : GrayArray α) : Outcome (Option Nat) := findLoop esz p a a.len 0

/-- `gray_arrays_contains_*` (arrays.c:178-212), with the comparison of the instance. -/
def contains (esz : Nat) (p : α → Bool) (a : GrayArray α) : Outcome Bool := do
  let r ← find esz p a
  .ok r.isSome

/-- `gray_arrays_index_of_*` (arrays.c:214-227). -/
def indexOf (esz : Nat) (p : α → Bool) (a : GrayArray α) : Outcome Int := do
  match ← find esz p a with
  | some i => .ok (i : Int)
  | none => .ok (-1)

/-- `gray_arrays_remove_int/float/str` (arrays.c:73-99). -/
def removeValue (esz : Nat) (p : α → Bool) (a : GrayArray α) : Outcome (GrayArray α) := do
  match ← find esz p a with
  | some i => removeAt32 a i
  | none => .ok a

/-- The loop of `gray_arrays_count` (arrays.c:229-235). -/
def countLoop (esz : Nat) (p : α → Bool) (a : GrayArray α) : Nat → Nat → Nat → Outcome Nat
  | 0, _, c => .ok c
  | n + 1, i, c => do
    let x ← elemAt esz a i
    countLoop esz p a n (i + 1) (if p x then c + 1 else c)

def count (esz : Nat) (p : α → Bool) (a : GrayArray α) : Outcome Nat := countLoop esz p a a.len 0 0

/-- The outer loop of `gray_arrays_deduplicate` (arrays.c:287-294). -/
def dedupLoop (eqv : α → α → Bool) (a : GrayArray α) :
    Nat → Nat → GrayArray α → Outcome (GrayArray α)
  | 0, _, r => .ok r
  | n + 1, i, r => do
    let x ← cellAt a i
    let found ← contains 0 (fun y => eqv x y) r
    if found then dedupLoop eqv a n (i + 1) r
    else do
      let r' ← push r x
      dedupLoop eqv a n (i + 1) r'

/-- `gray_arrays_deduplicate` (arrays.c:283-296) with element comparison `eqv` (the C code uses
`memcmp` of the element bytes).  Offsets are `size_t` products here: no `esz`. -/
def dedup (eqv : α → α → Bool) (a : GrayArray α) : Outcome (GrayArray α) :=
  dedupLoop eqv a a.len 0 (new a.len)

/-- The loop of `gray_arrays_split_every` (arrays.c:316-320).  `fuel` bounds the iterations; the
counter `i` grows by at least 1 each time, so `len` of them are enough.  `i + size` is an
`int32_t` addition. -/
def splitLoop (a : GrayArray α) (size : Nat) :
    Nat → Nat → GrayArray (GrayArray α) → Outcome (GrayArray (GrayArray α))
  | 0, i, r => if i < a.len then .ub else .ok r
  | fuel + 1, i, r =>
    if i < a.len then
      if int32Max < i + size then .ub
      else do
        let chunk ← sub a i (if i + size ≤ a.len then size else a.len - i)
        let r' ← push r chunk
        splitLoop a size fuel (i + size) r'
    else .ok r

/-- `gray_arrays_split_every` (arrays.c:311-322) on an `int32_t` size. -/
def splitEvery32 (a : GrayArray α) (size : Int) : Outcome (GrayArray (GrayArray α)) :=
  splitLoop a (if size ≤ 0 then 1 else size.toNat) a.len 0 (new 4)

def splitEvery (a : GrayArray α) (size : Int) : Outcome (GrayArray (GrayArray α)) :=
  splitEvery32 a (toI32 size)

/-! ### Computation -/

def minI64 : Int := -9223372036854775808
def maxI64 : Int := 9223372036854775807

/-- The loop of `gray_arrays_get_sum` (arrays.c:340-342): plain C `+=` on `int64_t`. -/
def sumLoop (esz : Nat) (a : GrayArray Int) : Nat → Nat → Int → Outcome Int
  | 0, _, t => .ok t
  | n + 1, i, t => do
    let x ← elemAt esz a i
    if t + x < minI64 ∨ maxI64 < t + x then .ub else sumLoop esz a n (i + 1) (t + x)

/-- `gray_arrays_get_sum` (arrays.c:338-344). -/
def getSum (esz : Nat) (a : GrayArray Int) : Outcome Int := sumLoop esz a a.len 0 0

/-- The loops of `gray_arrays_get_min`/`get_max` (arrays.c:349-352, 359-362); `better v m` is
the C comparison. -/
def bestLoop (esz : Nat) (better : Int → Int → Bool) (a : GrayArray Int) : Nat → Nat → Int → Outcome Int
  | 0, _, m => .ok m
  | n + 1, i, m => do
    let v ← elemAt esz a i
    bestLoop esz better a n (i + 1) (if better v m then v else m)

/-- `gray_arrays_get_min` (arrays.c:346-354). -/
def getMin (esz : Nat) (a : GrayArray Int) : Outcome Int :=
  if a.len = 0 then .ok 0
  else do
    let m ← cellAt a 0
    bestLoop esz (fun v m => decide (v < m)) a (a.len - 1) 1 m

/-- `gray_arrays_get_max` (arrays.c:356-364). -/
def getMax (esz : Nat) (a : GrayArray Int) : Outcome Int :=
  if a.len = 0 then .ok 0
  else do
    let m ← cellAt a 0
    bestLoop esz (fun v m => decide (m < v)) a (a.len - 1) 1 m

/-! ### for_each over an array (codegen.c:8947-8977) -/

/-- How a loop body left. -/
inductive Exit where
  | next
  | brk
  | ret
  deriving DecidableEq, Repr

/-- A body maps the array and the current element to the array it leaves and how it left. -/
abbrev Body (α : Type) := GrayArray α → α → Outcome (GrayArray α × Exit)

/-- The `for` loop: `n` iterations left of the length taken at the start, counter `i`. -/
def eachLoop (body : Body α) : Nat → Nat → GrayArray α → Outcome (GrayArray α × Exit)
  | 0, _, a => .ok (a, .next)
  | n + 1, i, a => do
    let x ← get a (i : Int)
    match ← body a x with
    | (b, .next) => eachLoop body n (i + 1) b
    | (b, .brk) => .ok (b, .next)
    | (b, .ret) => .ok (b, .ret)

/-- The whole statement: length snapshot, `iterating++`, loop, `iterating--`.  A `return` inside
the body leaves the function before the decrement. -/
def forEach (body : Body α) (a : GrayArray α) : Outcome (GrayArray α × Exit) := do
  match ← eachLoop body a.len 0 { a with iterating := a.iterating + 1 } with
  | (b, .ret) => .ok (b, .ret)
  | (b, e) => .ok ({ b with iterating := b.iterating - 1 }, e)

end Verif.Arr

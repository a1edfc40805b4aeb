import Verif.Model.Utf8
/-
The builtins that deal with the process: `input`, `exit`, `sleep_s`, `sleep_ms`, `sleep_ns` and the
printing of characters, /repo/grayc/src/stdlib/builtins.c; and the allocator of the compiler,
/repo/grayc/src/util/arena.c.

Simplifications. The standard input is the list of bytes that are still to come, and reading does not
fail. A sleep lasts as long as it is asked to (no signals). `malloc` succeeds.
-/
namespace Verif.Console
open Verif Verif.Str

/-! ### input -/

/-- `fgets` with room for `n` bytes (besides the zero): what is read, and what is left. -/
def fgets : Nat → Str → Str × Str
  | 0, s => ([], s)
  | _ + 1, [] => ([], [])
  | n + 1, c :: r => if c = 10 then ([c], r) else ((c :: (fgets n r).1), (fgets n r).2)

/-- `strlen` of the buffer: the text before the first zero. -/
def cstr (s : Str) : Str := s.takeWhile (fun c => c != 0)

/-- The rest of the line (211-213). -/
def drain : Str → Str
  | [] => []
  | c :: r => if c = 10 then r else drain r

/-- `GRAY_INPUT_BUF_SIZE - 1` -/
def inputMax : Nat := 4095

/-- `gray_builtin_input` (200-216): the string, and what is left to read. -/
def input (s : Str) : Str × Str :=
  match (fgets inputMax s).1 with
  | [] => ([], (fgets inputMax s).2)
  | buf =>
    if (cstr buf).getLast? = some 10 then ((cstr buf).dropLast, (fgets inputMax s).2)
    else if (cstr buf).length = inputMax then (cstr buf, drain (fgets inputMax s).2)
    else (cstr buf, (fgets inputMax s).2)

/-- `n` calls of `input`. -/
def inputs : Nat → Str → List Str
  | 0, _ => []
  | n + 1, s => (input s).1 :: inputs n (input s).2

/-! ### exit -/

/-- `exit((int)code)` (246-248): the status the parent sees, the low 8 bits. -/
def exitStatus (code : Int) : Int := (code.bmod (2 ^ 32)) % 256

/-! ### sleep -/

/-- The unit of a sleep. -/
inductive SleepUnit where
  | s | ms | ns
  deriving DecidableEq, Repr

/-- Nanoseconds in a unit. -/
def SleepUnit.size : SleepUnit → Int
  | .s => 1000000000
  | .ms => 1000000
  | .ns => 1

/-- How many nanoseconds the builtins wait (252-274); `struct timespec` is seconds and nanoseconds. -/
def sleep (u : SleepUnit) (d : Int) : Outcome Int :=
  match u with
  | .s => if d < 0 then .panic "P0083" else if d > 0 then .ok (d % 2 ^ 32 * 1000000000) else .ok 0
  | .ms =>
    if d < 0 then .panic "P0083"
    else if d > 0 then .ok (d.tdiv 1000 * 1000000000 + d.tmod 1000 * 1000000)
    else .ok 0
  | .ns => if d > 0 then .ok (d.tdiv 1000000000 * 1000000000 + d.tmod 1000000000) else .ok 0

/-- The field `tv_nsec` that is passed to `nanosleep`. -/
def tvNsec (u : SleepUnit) (d : Int) : Int :=
  match u with
  | .s => 0
  | .ms => d.tmod 1000 * 1000000
  | .ns => d.tmod 1000000000

/-! ### Printing a character -/

/-- `fput_utf8` (50-66): the bytes written. -/
def fputUtf8 (c : Int) : Str :=
  if c < 0x80 then [BitVec.ofInt 8 c]
  else if c < 0x800 then [BitVec.ofNat 8 (0xC0 ||| (c.toNat >>> 6)), BitVec.ofNat 8 (0x80 ||| (c.toNat &&& 0x3F))]
  else if c < 0x10000 then
    [BitVec.ofNat 8 (0xE0 ||| (c.toNat >>> 12)), BitVec.ofNat 8 (0x80 ||| ((c.toNat >>> 6) &&& 0x3F)),
      BitVec.ofNat 8 (0x80 ||| (c.toNat &&& 0x3F))]
  else if c < 0x110000 then
    [BitVec.ofNat 8 (0xF0 ||| (c.toNat >>> 18)), BitVec.ofNat 8 (0x80 ||| ((c.toNat >>> 12) &&& 0x3F)),
      BitVec.ofNat 8 (0x80 ||| ((c.toNat >>> 6) &&& 0x3F)), BitVec.ofNat 8 (0x80 ||| (c.toNat &&& 0x3F))]
  else []

/-! ### The allocator of the compiler (arena.c) -/

/-- `Arena`: the sizes of the blocks, oldest first; what is used of the last one. -/
structure Arena where
  blocks : List Nat
  used : Nat
  dflt : Nat
  deriving DecidableEq, Repr

/-- `arena_create` (29-38) -/
def arenaCreate (n : Nat) : Arena := { blocks := [n], used := 0, dflt := n }

/-- `ALIGN_UP(size, 8)` in `size_t` (15) -/
def alignUp (n : Nat) : Nat := (n + 7) % 2 ^ 64 / 8 * 8

/-- Where an allocation lies: block, offset and length. -/
structure Span where
  block : Nat
  off : Nat
  len : Nat
  deriving DecidableEq, Repr

/-- Size of the current block. -/
def Arena.size (a : Arena) : Nat := a.blocks.getLast?.getD 0

/-- `arena_alloc` (41-58); the sum in `size_t`. -/
def arenaAlloc (a : Arena) (size : Nat) : Arena × Span :=
  let n := alignUp size
  if (a.used + n) % 2 ^ 64 > a.size then
    ({ a with blocks := a.blocks ++ [if n > a.dflt then n else a.dflt], used := n },
      { block := a.blocks.length, off := 0, len := size })
  else
    ({ a with used := a.used + n }, { block := a.blocks.length - 1, off := a.used, len := size })

/-- A sequence of allocations. -/
def arenaAllocs : Arena → List Nat → Arena × List Span
  | a, [] => (a, [])
  | a, n :: r =>
    ((arenaAllocs (arenaAlloc a n).1 r).1, (arenaAlloc a n).2 :: (arenaAllocs (arenaAlloc a n).1 r).2)

end Verif.Console

import Verif.Model.Str

/-!
# The compiler's output buffer and its diagnostics

Models
* `grayc/src/util/buf.c` (the buffer that holds the generated C code);
* `grayc/src/util/error.c` (collecting and showing diagnostics);
* the option `-q` of `grayc` (`grayc/src/main.c` 678-689 and 779-815).

Simplifications.
* Allocation fails, and the compiler exits, for sizes above `avail`, which no object in C exceeds (2^63 - 1). New memory holds some
  byte `junk`.
* The text that `vsnprintf` would write is a parameter. It returns a negative number if the text has 2^31 bytes or more.
* Output is without colours: these are escape sequences that take no room.
* Files do not change while diagnostics are shown.
-/

namespace Verif.Diag
open Verif Verif.Str

/-! ## Buffer -/

/-- Result of a step of the compiler: done, "out of memory" and exit, or undefined. -/
inductive R (α : Type) where
  | ok (a : α)
  | exit
  | ub
  deriving DecidableEq, Repr

def R.bind {α β : Type} (x : R α) (f : α → R β) : R β :=
  match x with
  | .ok a => f a
  | .exit => .exit
  | .ub => .ub

/-- Largest size for which allocation succeeds, and the content of new memory. -/
structure Mem where
  avail : Nat
  junk : Byte

/-- `Buf`, buf.h: `data` is the allocated object. -/
structure Buf where
  data : Str
  len : Nat
  cap : Nat
  deriving DecidableEq, Repr

/-- `size_t` arithmetic. -/
def u64 (n : Nat) : Nat := n % 2 ^ 64

/-- Writing into an object. -/
def write (d : Str) (pos : Nat) (s : Str) : R Str :=
  if pos + s.length ≤ d.length then .ok (d.take pos ++ s ++ d.drop (pos + s.length)) else .ub

/-- `realloc`. -/
def realloc (m : Mem) (d : Str) (n : Nat) : R Str :=
  if n ≤ m.avail then .ok (d.take n ++ List.replicate (n - d.length) m.junk) else .exit

/-- `grow_buffer`, 16-28. -/
def grow (m : Mem) (b : Buf) (needed : Nat) : R Buf :=
  if u64 (b.len + needed + 1) ≤ b.cap then .ok b
  else
    let twice := u64 (b.cap * 2)
    let newCap := if twice < u64 (b.len + needed + 1) then u64 (b.len + needed + 1) else twice
    (realloc m b.data newCap).bind fun d => .ok { b with data := d, cap := newCap }

/-- `buffer_create`, 30-41. -/
def create (m : Mem) (cap : Nat) : R Buf :=
  if cap ≤ m.avail then (write (List.replicate cap m.junk) 0 [0]).bind fun d => .ok ⟨d, 0, cap⟩ else .exit

/-- `append_bytes_to_buffer`, 48-53. -/
def appendBytes (m : Mem) (b : Buf) (s : Str) : R Buf :=
  (grow m b s.length).bind fun b =>
  (write b.data b.len s).bind fun d =>
  (write d (b.len + s.length) [0]).bind fun d =>
  .ok { b with data := d, len := b.len + s.length }

/-- `append_string_to_buffer`, 43-46: up to the first 0 byte. -/
def appendString (m : Mem) (b : Buf) (s : Str) : R Buf := appendBytes m b (s.takeWhile (· != 0))

/-- `append_format_to_buffer`, 55-71. -/
def appendFormat (m : Mem) (b : Buf) (text : Str) : R Buf :=
  if text.length ≥ 2 ^ 31 then .ok b
  else
    (grow m b text.length).bind fun b =>
    (write b.data b.len (text ++ [0])).bind fun d =>
    .ok { b with data := d, len := b.len + text.length }

/-- `append_char_to_buffer`, 73-77. -/
def appendChar (m : Mem) (b : Buf) (c : Byte) : R Buf :=
  (grow m b 1).bind fun b =>
  (write b.data b.len [c]).bind fun d =>
  (write d (b.len + 1) [0]).bind fun d =>
  .ok { b with data := d, len := b.len + 1 }

/-- The loop of `append_indent_to_buffer`. -/
def indentLoop (m : Mem) : Nat → Buf → R Buf
  | 0, b => .ok b
  | n + 1, b => (appendBytes m b (List.replicate 4 32)).bind (indentLoop m n)

/-- `append_indent_to_buffer`, 81-91: the string `spaces` has 64 characters; a negative number of bytes is a huge `size_t`. -/
def appendIndent (m : Mem) (b : Buf) (depth : Int) : R Buf :=
  let n := depth * 4
  if n ≥ 2 ^ 31 ∨ n < -2 ^ 31 then .ub
  else if n < 65 then
    if n < 0 then .ub else appendBytes m b (List.replicate n.toNat 32)
  else indentLoop m depth.toNat b

/-- Calls that the code generator makes. -/
inductive Op where
  | str (s : Str)
  | bytes (s : Str)
  | fmt (text : Str)
  | char (c : Byte)
  | indent (depth : Int)

def Op.run (m : Mem) (b : Buf) : Op → R Buf
  | .str s => appendString m b s
  | .bytes s => appendBytes m b s
  | .fmt t => appendFormat m b t
  | .char c => appendChar m b c
  | .indent d => appendIndent m b d

def runAll (m : Mem) : List Op → Buf → R Buf
  | [], b => .ok b
  | o :: os, b => (o.run m b).bind (runAll m os)

/-! ## Diagnostics -/

inductive Sev where
  | error | warning
  deriving DecidableEq, Repr

/-- `Diagnostic`, error.h 34-44; `code` and `file` may be missing. -/
structure Diagnostic where
  sev : Sev
  code : Option Str
  file : Option Str
  line : Int
  column : Int
  endColumn : Int
  deriving DecidableEq, Repr

/-- `DiagnosticList` without the source cache. -/
structure DList where
  items : List Diagnostic
  errors : Nat
  warnings : Nat
  all : Bool
  codes : List Str

def DList.new (all : Bool) (codes : List Str) : DList := ⟨[], 0, 0, all, codes⟩

/-- `diagnostic_add`, 87-112. -/
def DList.add (l : DList) (d : Diagnostic) : DList :=
  if d.sev = .error ∧ l.errors ≥ 20 then l
  else
    { l with
      items := l.items ++ [d]
      errors := if d.sev = .error then l.errors + 1 else l.errors
      warnings := if d.sev = .error then l.warnings else l.warnings + 1 }

def DList.addAll (l : DList) (ds : List Diagnostic) : DList := ds.foldl DList.add l

/-- `diagnostic_has_errors`, 200-202. -/
def DList.hasErrors (l : DList) : Bool := l.errors > 0

/-- `is_warning_suppressed`, 320-329. -/
def DList.suppressed (l : DList) (d : Diagnostic) : Bool :=
  if d.sev ≠ .warning then false
  else if l.all then true
  else match d.code with
    | some c => l.codes.any (· == c)
    | none => false

/-- `diagnostic_print_all`, 331-336: the diagnostics shown. -/
def DList.shown (l : DList) : List Diagnostic := l.items.filter fun d => !l.suppressed d

/-- `diagnostic_print_summary`, 338-350: the numbers of errors and warnings reported; nothing if both are 0. -/
def DList.summary (l : DList) : Nat × Nat :=
  (l.errors, (l.items.filter fun d => d.sev == .warning && !l.suppressed d).length)

/-- main.c 825-833, 1505-1523: diagnostics of the parser (and, if there is no error among them, of the imports and of the type checker)
are collected in one list. The result: what is shown, and whether code is generated. -/
def compile (all : Bool) (codes : List Str) (parse check : List Diagnostic) : List Diagnostic × Bool :=
  let l := (DList.new all codes).addAll parse
  if l.hasErrors then (l.shown, false)
  else
    let l := l.addAll check
    if l.hasErrors then (l.shown, false)
    else if l.warnings > 0 then (l.shown, true)
    else ([], true)

/-! ## The option `-q` -/

/-- `strtok(…, ",")`, repeated: `cur` is the piece being read, reversed. -/
def pieces : Str → Str → List Str
  | cur, [] => if cur = [] then [] else [cur.reverse]
  | cur, c :: s =>
    if c = 44 then (if cur = [] then pieces [] s else cur.reverse :: pieces [] s)
    else pieces (c :: cur) s

/-- main.c 783-814: `none` if a piece does not start with `W`. -/
def quietCodes (arg : Str) : Option (List Str) :=
  let ps := pieces [] arg
  if ps.all (fun p => p.head? == some 87) then some ps else none

/-! ## Source lines -/

/-- `build_line_index`, 55-68: the text from the start of each line on. `p` runs through the source, which ends at its first 0 byte. -/
def lineStarts : Str → List Str
  | [] => []
  | c :: s => if c = 0 then [] else if c = 10 then s :: lineStarts s else lineStarts s

def lineIndex (src : Str) : List Str := src :: lineStarts src

/-- `read_source_line_indexed`, 38-53. -/
def readLine (offsets : List Str) (n : Int) : Option Str :=
  if n < 1 ∨ n > offsets.length then none
  else
    match offsets[(n - 1).toNat]? with
    | none => none
    | some start =>
      let line := start.takeWhile (fun c => c != 0 && c != 10)
      some (if line.length ≥ 2048 then line.take 2047 else line)

/-- `DiagSourceSlot`, error.h 20-27. -/
structure Slot where
  path : Str
  source : Str
  index : List Str
  lastUse : Nat
  deriving DecidableEq, Repr

/-- Slot 0 and the three slots for files read from disk; `none`: empty (its `last_use` is 0). -/
structure Cache where
  main : Option Slot
  s1 : Option Slot
  s2 : Option Slot
  s3 : Option Slot
  clock : Nat
  deriving DecidableEq, Repr

/-- `diagnostic_set_source`, 188-198. -/
def Cache.start (path src : Str) : Cache := ⟨some ⟨path, src, lineIndex src, 0⟩, none, none, none, 0⟩

def hit (path : Str) (s : Option Slot) : Bool :=
  match s with
  | some s => s.path == path
  | none => false

def useOf (s : Option Slot) : Nat :=
  match s with
  | some s => s.lastUse
  | none => 0

def touch (t : Nat) (s : Option Slot) : Option Slot := s.map fun s => { s with lastUse := t }

/-- `print_diagnostic`, 244-281: the source line, and the cache afterwards. `disk` gives the content of files that can be read. -/
def Cache.line (disk : Str → Option Str) (c : Cache) (path : Str) (n : Int) : Option Str × Cache :=
  let t := (c.clock + 1) % 2 ^ 32
  let get := fun (s : Option Slot) => s.bind fun s => readLine s.index n
  if hit path c.main then (get c.main, { c with main := touch t c.main, clock := t })
  else if hit path c.s1 then (get c.s1, { c with s1 := touch t c.s1, clock := t })
  else if hit path c.s2 then (get c.s2, { c with s2 := touch t c.s2, clock := t })
  else if hit path c.s3 then (get c.s3, { c with s3 := touch t c.s3, clock := t })
  else match disk path with
    | none => (none, c)
    | some src =>
      let s : Slot := ⟨path, src, lineIndex src, t⟩
      let evict := if useOf c.s2 < useOf c.s1 then (if useOf c.s3 < useOf c.s2 then 3 else 2)
        else (if useOf c.s3 < useOf c.s1 then 3 else 1)
      (readLine s.index n,
        if evict = 1 then { c with s1 := some s, clock := t }
        else if evict = 2 then { c with s2 := some s, clock := t }
        else { c with s3 := some s, clock := t })

/-- The source lines shown for a sequence of places. -/
def Cache.lines (disk : Str → Option Str) : Cache → List (Str × Int) → List (Option Str)
  | _, [] => []
  | c, (p, n) :: ps => (c.line disk p n).1 :: Cache.lines disk (c.line disk p n).2 ps

/-- Decimal digits of a natural number. -/
def dec (n : Nat) : Str := (Nat.toDigits 10 n).map fun c => BitVec.ofNat 8 c.toNat

/-- `%3d` of a positive number. -/
def pad3 (n : Nat) : Str := List.replicate (3 - (dec n).length) 32 ++ dec n

/-- The row with the source line, 286-289: number, space, bar, space, line. -/
def sourceRow (line : Nat) (src : Str) : Str := pad3 line ++ [32, 124, 32] ++ src

/-- The row with the underline, 291-305: three spaces, bar, space, the distance, and the carets. -/
def underRow (column endColumn : Int) : Str :=
  let start := if column > 0 then column else 1
  let stop := if endColumn > 0 then endColumn else start
  let span := if stop - start + 1 < 1 then 1 else stop - start + 1
  [32, 32, 32, 124, 32] ++ List.replicate (start - 1).toNat 32 ++ List.replicate span.toNat 94

end Verif.Diag

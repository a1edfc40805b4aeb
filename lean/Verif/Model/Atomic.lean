/-!
# The hand-written atomic operations

`grayc/src/runtime/arch/x86_64/atomic.s` and `grayc/src/runtime/arch/arm64/atomic.s`, instruction by instruction, for any number of
calls that run at the same time.

* Memory is a set of cells of 64 bits; an operation of a smaller size works on the low bits of its cell. Operations on parts of
  a cell at another address are left out.
* x86-64 has a store buffer for each call, first in, first out, from which stores reach memory at any later time; loads see
  the own buffer first; `mfence` and instructions with a lock wait until it is empty (the x86-TSO model). A call starts
  with an empty buffer.
* On ARM64 loads and stores reach memory at once, in the order of the program; the barriers do nothing. For one cell this is what
  coherence gives; for several cells it is a simplification. An exclusive store may fail for no reason; it does fail if another
  call has stored to the cell since the exclusive load.
* A function that exists at sizes 64, 32 and 8 is one list of instructions with a size.
-/

namespace Verif.Atomic

abbrev Word := BitVec 64
abbrev Addr := Nat
abbrev Mem := Addr → Word

inductive Size where
  | b8 | b32 | b64
  deriving DecidableEq, Repr

def Size.bits : Size → Nat
  | .b8 => 8
  | .b32 => 32
  | .b64 => 64

/-- The low bits of a word. -/
def low (s : Size) (w : Word) : BitVec s.bits := w.setWidth s.bits

/-- A word with other low bits. -/
def put (s : Size) (c : Word) (v : BitVec s.bits) : Word := (c >>> s.bits) <<< s.bits ||| v.setWidth 64

/-- `*a = v`. -/
def poke (m : Mem) (a : Addr) (s : Size) (v : BitVec s.bits) : Mem := fun x => if x = a then put s (m a) v else m x

inductive Bit where
  | and | or | xor
  deriving DecidableEq, Repr

def Bit.op {n : Nat} : Bit → BitVec n → BitVec n → BitVec n
  | .and, a, b => a &&& b
  | .or, a, b => a ||| b
  | .xor, a, b => a ^^^ b

inductive Fn where
  | load | store | add | sub | cas | exchange
  | bit (o : Bit)
  deriving DecidableEq, Repr

/-- A call: the function, the size, the pointer, and the contents of the registers of the other arguments. -/
structure Call where
  fn : Fn
  size : Size
  addr : Addr
  a : Word
  b : Word

namespace X86

inductive Reg where
  | rax | rcx | rdx | rsi
  deriving DecidableEq, Repr

inductive Ins where
  | mfence
  /-- `mov (%rdi), r` -/
  | load (r : Reg)
  /-- `mov r, (%rdi)` -/
  | store (r : Reg)
  | mov (src dst : Reg)
  | neg (r : Reg)
  | bit (o : Bit) (src dst : Reg)
  /-- `lock xadd r, (%rdi)` -/
  | xadd (r : Reg)
  /-- `xchg r, (%rdi)` -/
  | xchg (r : Reg)
  /-- `lock cmpxchg r, (%rdi)` -/
  | cmpxchg (r : Reg)
  /-- `sete %al` -/
  | sete
  /-- `movzb %al, %rax` -/
  | movzb
  | jne (target : Nat)
  | ret
  deriving DecidableEq, Repr

/-- Lines 20-143, and 165-272 for the smaller sizes. -/
def code (s : Size) : Fn → List Ins
  | .load => [.mfence, .load .rax, .mfence, .ret]
  | .store => [.mfence, .store .rsi, .mfence, .ret]
  | .add => [.mov .rsi .rax, .xadd .rax, .ret]
  | .sub => [.neg .rsi, .mov .rsi .rax, .xadd .rax, .ret]
  | .cas => [.mov .rsi .rax, .cmpxchg .rdx, .sete, .movzb, .ret]
  | .exchange => if s = .b8 then [.mov .rsi .rax, .xchg .rax, .movzb, .ret] else [.mov .rsi .rax, .xchg .rax, .ret]
  | .bit o => [.load .rax, .mov .rax .rcx, .bit o .rsi .rcx, .cmpxchg .rcx, .jne 1, .ret]

/-- A store that has not reached memory. -/
structure Entry where
  addr : Addr
  size : Size
  val : BitVec size.bits

structure Thread where
  pc : Nat
  reg : Reg → Word
  zf : Bool
  buf : List Entry

/-- Writing a register: 32 bits clear the rest, 8 bits keep it. -/
def wr (s : Size) (r : Word) (v : BitVec s.bits) : Word := if s = .b8 then put s r v else v.setWidth 64

def Thread.set (t : Thread) (s : Size) (r : Reg) (v : BitVec s.bits) : Thread :=
  { t with pc := t.pc + 1, reg := fun x => if x = r then wr s (t.reg r) v else t.reg x }

/-- What a load sees: memory with the own stores that are still in the buffer. -/
def view (m : Mem) (t : Thread) : Mem := t.buf.foldl (fun m e => poke m e.addr e.size e.val) m

/-- One instruction of a call. Nothing happens after `ret`. -/
def exec (c : Call) (m : Mem) (t : Thread) : Option (Mem × Thread) :=
  match (code c.size c.fn)[t.pc]? with
  | some .mfence => if t.buf.isEmpty then some (m, { t with pc := t.pc + 1 }) else none
  | some (.load r) => some (m, { t with pc := t.pc + 1, reg := fun x => if x = r then (low c.size (view m t c.addr)).setWidth 64 else t.reg x })
  | some (.store r) => some (m, { t with pc := t.pc + 1, buf := t.buf ++ [⟨c.addr, c.size, low c.size (t.reg r)⟩] })
  | some (.mov s d) => some (m, t.set c.size d (low c.size (t.reg s)))
  | some (.neg r) => some (m, t.set c.size r (- low c.size (t.reg r)))
  | some (.bit o s d) => some (m, t.set c.size d (o.op (low c.size (t.reg d)) (low c.size (t.reg s))))
  | some (.xadd r) =>
    if t.buf.isEmpty then
      some (poke m c.addr c.size (low c.size (m c.addr) + low c.size (t.reg r)), t.set c.size r (low c.size (m c.addr)))
    else none
  | some (.xchg r) =>
    if t.buf.isEmpty then some (poke m c.addr c.size (low c.size (t.reg r)), t.set c.size r (low c.size (m c.addr))) else none
  | some (.cmpxchg r) =>
    if t.buf.isEmpty then
      if low c.size (m c.addr) = low c.size (t.reg .rax) then
        some (poke m c.addr c.size (low c.size (t.reg r)), { t with pc := t.pc + 1, zf := true })
      else some (m, { t.set c.size .rax (low c.size (m c.addr)) with zf := false })
    else none
  | some .sete => some (m, t.set .b8 .rax (if t.zf then 1 else 0))
  | some .movzb => some (m, { t with pc := t.pc + 1, reg := fun x => if x = .rax then (low .b8 (t.reg .rax)).setWidth 64 else t.reg x })
  | some (.jne n) => some (m, { t with pc := if t.zf then t.pc + 1 else n })
  | some .ret => none
  | none => none

/-- The oldest store of the buffer reaches memory. -/
def flush (m : Mem) (t : Thread) : Option (Mem × Thread) :=
  match t.buf with
  | [] => none
  | e :: r => some (poke m e.addr e.size e.val, { t with buf := r })

/-- A call at its start: the arguments are in `%rsi` and `%rdx`, the other registers hold anything. -/
def Start (c : Call) (t : Thread) : Prop := t.pc = 0 ∧ t.buf = [] ∧ t.reg .rsi = c.a ∧ t.reg .rdx = c.b

def returned (c : Call) (t : Thread) : Prop := (code c.size c.fn)[t.pc]? = some .ret

structure State where
  mem : Mem
  thread : Nat → Thread

/-- One step of one of the calls. -/
inductive Step (cs : Nat → Call) : State → State → Prop where
  | exec {s : State} {i : Nat} {m : Mem} {t : Thread} (h : exec (cs i) s.mem (s.thread i) = some (m, t)) :
      Step cs s ⟨m, fun j => if j = i then t else s.thread j⟩
  | flush {s : State} {i : Nat} {m : Mem} {t : Thread} (h : flush s.mem (s.thread i) = some (m, t)) :
      Step cs s ⟨m, fun j => if j = i then t else s.thread j⟩

end X86

namespace Arm

inductive Reg where
  | x0 | x1 | x2 | x3 | x4
  deriving DecidableEq, Repr

inductive Ins where
  | dmb
  | ldr (r : Reg)
  | str (r : Reg)
  | ldxr (r : Reg)
  /-- the status goes to the first register -/
  | stlxr (st r : Reg)
  | add (d a b : Reg)
  | sub (d a b : Reg)
  | bit (o : Bit) (d a b : Reg)
  | cmp (a b : Reg)
  | bne (target : Nat)
  | cbnz (r : Reg) (target : Nat)
  | clrex
  | mov (d a : Reg)
  | movi (d : Reg) (n : Nat)
  | ret
  deriving DecidableEq, Repr

/-- Lines 20-166, and 190-338 for the smaller sizes. -/
def code : Fn → List Ins
  | .load => [.dmb, .ldr .x0, .dmb, .ret]
  | .store => [.dmb, .str .x1, .dmb, .ret]
  | .add => [.ldxr .x2, .add .x3 .x2 .x1, .stlxr .x4 .x3, .cbnz .x4 0, .dmb, .mov .x0 .x2, .ret]
  | .sub => [.ldxr .x2, .sub .x3 .x2 .x1, .stlxr .x4 .x3, .cbnz .x4 0, .dmb, .mov .x0 .x2, .ret]
  | .bit o => [.ldxr .x2, .bit o .x3 .x2 .x1, .stlxr .x4 .x3, .cbnz .x4 0, .dmb, .mov .x0 .x2, .ret]
  | .cas => [.ldxr .x3, .cmp .x3 .x1, .bne 8, .stlxr .x4 .x2, .cbnz .x4 0, .dmb, .movi .x0 1, .ret, .clrex, .dmb, .movi .x0 0, .ret]
  | .exchange => [.ldxr .x2, .stlxr .x3 .x1, .cbnz .x3 0, .dmb, .mov .x0 .x2, .ret]

structure Thread where
  pc : Nat
  reg : Reg → Word
  /-- the last comparison was equal -/
  zf : Bool
  /-- the exclusive monitor is set -/
  mon : Bool

/-- Writing a register: 32 bits clear the rest. -/
def Thread.set (t : Thread) (r : Reg) (v : Word) : Thread := { t with pc := t.pc + 1, reg := fun x => if x = r then v else t.reg x }

/-- `cmp` of a function for bytes compares 32 bits. -/
def cmpSize : Size → Size
  | .b8 => .b32
  | s => s

/-- One instruction; `ok` says whether an exclusive store that may succeed does. The last part of the result: the cell was stored to. -/
def exec (c : Call) (ok : Bool) (m : Mem) (t : Thread) : Option (Mem × Thread × Bool) :=
  match (code c.fn)[t.pc]? with
  | some .dmb => some (m, { t with pc := t.pc + 1 }, false)
  | some (.ldr r) => some (m, t.set r ((low c.size (m c.addr)).setWidth 64), false)
  | some (.str r) => some (poke m c.addr c.size (low c.size (t.reg r)), { t with pc := t.pc + 1 }, true)
  | some (.ldxr r) => some (m, { t.set r ((low c.size (m c.addr)).setWidth 64) with mon := true }, false)
  | some (.stlxr st r) =>
    if t.mon && ok then some (poke m c.addr c.size (low c.size (t.reg r)), { t.set st 0 with mon := false }, true)
    else some (m, { t.set st 1 with mon := false }, false)
  | some (.add d a b) => some (m, t.set d ((low c.size (t.reg a) + low c.size (t.reg b)).setWidth 64), false)
  | some (.sub d a b) => some (m, t.set d ((low c.size (t.reg a) - low c.size (t.reg b)).setWidth 64), false)
  | some (.bit o d a b) => some (m, t.set d ((o.op (low c.size (t.reg a)) (low c.size (t.reg b))).setWidth 64), false)
  | some (.cmp a b) =>
    some (m, { t with pc := t.pc + 1, zf := decide (low (cmpSize c.size) (t.reg a) = low (cmpSize c.size) (t.reg b)) }, false)
  | some (.bne n) => some (m, { t with pc := if t.zf then t.pc + 1 else n }, false)
  | some (.cbnz r n) => some (m, { t with pc := if low .b32 (t.reg r) = 0 then t.pc + 1 else n }, false)
  | some .clrex => some (m, { t with pc := t.pc + 1, mon := false }, false)
  | some (.mov d a) => some (m, t.set d ((low c.size (t.reg a)).setWidth 64), false)
  | some (.movi d n) => some (m, t.set d (BitVec.ofNat 64 n), false)
  | some .ret => none
  | none => none

/-- A call at its start. -/
def Start (c : Call) (t : Thread) : Prop := t.pc = 0 ∧ t.reg .x1 = c.a ∧ t.reg .x2 = c.b

def returned (c : Call) (t : Thread) : Prop := (code c.fn)[t.pc]? = some .ret

structure State where
  mem : Mem
  thread : Nat → Thread

/-- Another call has stored to the cell. -/
def clear (cs : Nat → Call) (i : Nat) (w : Bool) (j : Nat) (t : Thread) : Thread :=
  if w && decide ((cs j).addr = (cs i).addr) then { t with mon := false } else t

inductive Step (cs : Nat → Call) : State → State → Prop where
  | exec {s : State} {i : Nat} {ok : Bool} {m : Mem} {t : Thread} {w : Bool} (h : exec (cs i) ok s.mem (s.thread i) = some (m, t, w)) :
      Step cs s ⟨m, fun j => if j = i then t else clear cs i w j (s.thread j)⟩

end Arm

end Verif.Atomic

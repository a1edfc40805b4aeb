/-!
# The hand-written spin locks

`gray_spin_lock`, `gray_spin_trylock` and `gray_spin_unlock` of `grayc/src/runtime/arch/x86_64/atomic.s:285-331` and
`grayc/src/runtime/arch/arm64/atomic.s:348-401`, instruction by instruction, for any number of threads that take and give back one lock
and read and write data while they have it.

* Cell 0 is the lock, all other cells are data. All are of 32 bits.
* x86-64 has store buffers as in `Verif.Atomic`; on ARM64 memory is reached in the order of the program.
* Threads keep to the rules: they give back only a lock that they have, and use the data only while they have it. `last` remembers
  what was written last to each cell, in the order in which the threads wrote; the code does not use it.
* The hints `pause` and `yield` do nothing.
-/

namespace Verif.Spin

abbrev Val := BitVec 32
abbrev Mem := Nat → Val

def poke (m : Mem) (a : Nat) (v : Val) : Mem := fun x => if x = a then v else m x

inductive Fn where
  | lock | trylock | unlock
  deriving DecidableEq, Repr

/-- Where a thread is. -/
inductive Place where
  /-- outside, without the lock -/
  | idle
  /-- between taking the lock and giving it back -/
  | critical
  | inside (f : Fn) (pc : Nat)
  deriving DecidableEq, Repr

namespace X86

inductive Ins where
  /-- `movl $1, %eax` -/
  | one
  /-- `xchgl %eax, (%rdi)` -/
  | xchg
  /-- `testl %eax, %eax` -/
  | test
  | jnz (n : Nat)
  | jmp (n : Nat)
  | pause
  /-- `cmpl $0, (%rdi)` -/
  | cmp
  /-- `sete %al` -/
  | sete
  /-- `movzbl %al, %eax` -/
  | movzb
  | mfence
  /-- `movl $0, (%rdi)` -/
  | zero
  | ret
  deriving DecidableEq, Repr

def code : Fn → List Ins
  | .lock => [.one, .xchg, .test, .jnz 5, .ret, .pause, .cmp, .jnz 5, .jmp 0]
  | .trylock => [.one, .xchg, .test, .sete, .movzb, .ret]
  | .unlock => [.mfence, .zero, .ret]

structure Thread where
  place : Place
  eax : Val
  zf : Bool
  /-- stores that have not reached memory -/
  buf : List (Nat × Val)

def view (m : Mem) (t : Thread) : Mem := t.buf.foldl (fun m e => poke m e.1 e.2) m

/-- Where a function goes back to. -/
def back (f : Fn) (eax : Val) : Place :=
  match f with
  | .lock => .critical
  | .trylock => if eax.setWidth 8 = (0 : BitVec 8) then .idle else .critical
  | .unlock => .idle

/-- One instruction. -/
def exec (f : Fn) (pc : Nat) (m : Mem) (t : Thread) : Option (Mem × Thread) :=
  match (code f)[pc]? with
  | some .one => some (m, { t with place := .inside f (pc + 1), eax := 1 })
  | some .xchg => if t.buf = [] then some (poke m 0 t.eax, { t with place := .inside f (pc + 1), eax := m 0 }) else none
  | some .test => some (m, { t with place := .inside f (pc + 1), zf := decide (t.eax = 0) })
  | some (.jnz n) => some (m, { t with place := .inside f (if t.zf then pc + 1 else n) })
  | some (.jmp n) => some (m, { t with place := .inside f n })
  | some .pause => some (m, { t with place := .inside f (pc + 1) })
  | some .cmp => some (m, { t with place := .inside f (pc + 1), zf := decide (view m t 0 = 0) })
  | some .sete => some (m, { t with place := .inside f (pc + 1), eax := (t.eax >>> 8) <<< 8 ||| (if t.zf then 1 else 0) })
  | some .movzb => some (m, { t with place := .inside f (pc + 1), eax := (t.eax.setWidth 8).setWidth 32 })
  | some .mfence => if t.buf = [] then some (m, { t with place := .inside f (pc + 1) }) else none
  | some .zero => some (m, { t with place := .inside f (pc + 1), buf := t.buf ++ [(0, 0)] })
  | some .ret => some (m, { t with place := back f t.eax })
  | none => none

structure State where
  mem : Mem
  thread : Nat → Thread
  last : Mem

def State.set (s : State) (i : Nat) (m : Mem) (t : Thread) : State := ⟨m, fun j => if j = i then t else s.thread j, s.last⟩

inductive Step : State → State → Prop where
  /-- a thread wants the lock -/
  | call {s : State} {i : Nat} {f : Fn} (h : (s.thread i).place = .idle) (hf : f ≠ .unlock) :
      Step s (s.set i s.mem { s.thread i with place := .inside f 0 })
  /-- a thread gives the lock back -/
  | free {s : State} {i : Nat} (h : (s.thread i).place = .critical) :
      Step s (s.set i s.mem { s.thread i with place := .inside .unlock 0 })
  /-- a thread that has the lock writes to the data -/
  | write {s : State} {i a : Nat} {v : Val} (h : (s.thread i).place = .critical) (ha : a ≠ 0) :
      Step s { s.set i s.mem { s.thread i with buf := (s.thread i).buf ++ [(a, v)] } with last := poke s.last a v }
  | exec {s : State} {i : Nat} {f : Fn} {pc : Nat} {m : Mem} {t : Thread} (h : (s.thread i).place = .inside f pc)
      (he : exec f pc s.mem (s.thread i) = some (m, t)) : Step s (s.set i m t)
  /-- the oldest store of a thread reaches memory -/
  | flush {s : State} {i a : Nat} {v : Val} {r : List (Nat × Val)} (h : (s.thread i).buf = (a, v) :: r) :
      Step s (s.set i (poke s.mem a v) { s.thread i with buf := r })

/-- At the start nobody has the lock. -/
def Start (s : State) : Prop := s.mem 0 = 0 ∧ s.last = s.mem ∧ ∀ i, (s.thread i).place = .idle ∧ (s.thread i).buf = []

inductive Reach (s : State) : State → Prop where
  | start : Reach s s
  | step {u v : State} : Reach s u → Step u v → Reach s v

end X86

namespace Arm

inductive Ins where
  /-- `ldxr w1, [x0]` -/
  | ldxr
  /-- `cbnz w1` -/
  | cbnz1 (n : Nat)
  /-- `mov w2, #1` -/
  | one
  /-- `stxr w3, w2, [x0]` -/
  | stxr
  /-- `cbnz w3` -/
  | cbnz3 (n : Nat)
  | dmb
  | yield
  /-- `ldr w1, [x0]` -/
  | ldr
  | b (n : Nat)
  | clrex
  /-- `mov w0, #v` -/
  | res (v : Nat)
  /-- `str wzr, [x0]` -/
  | zero
  | ret
  deriving DecidableEq, Repr

def code : Fn → List Ins
  | .lock => [.ldxr, .cbnz1 7, .one, .stxr, .cbnz3 0, .dmb, .ret, .yield, .ldr, .cbnz1 7, .b 0]
  | .trylock => [.ldxr, .cbnz1 8, .one, .stxr, .cbnz3 8, .dmb, .res 1, .ret, .clrex, .res 0, .ret]
  | .unlock => [.dmb, .zero, .ret]

structure Thread where
  place : Place
  w0 : Val
  w1 : Val
  w2 : Val
  w3 : Val
  /-- the exclusive monitor -/
  mon : Bool

def back (f : Fn) (w0 : Val) : Place :=
  match f with
  | .lock => .critical
  | .trylock => if w0.setWidth 8 = (0 : BitVec 8) then .idle else .critical
  | .unlock => .idle

/-- One instruction; `ok` says whether an exclusive store that may succeed does. The last part of the result: the lock was stored to. -/
def exec (ok : Bool) (f : Fn) (pc : Nat) (m : Mem) (t : Thread) : Option (Mem × Thread × Bool) :=
  match (code f)[pc]? with
  | some .ldxr => some (m, { t with place := .inside f (pc + 1), w1 := m 0, mon := true }, false)
  | some (.cbnz1 n) => some (m, { t with place := .inside f (if t.w1 = 0 then pc + 1 else n) }, false)
  | some .one => some (m, { t with place := .inside f (pc + 1), w2 := 1 }, false)
  | some .stxr =>
    if t.mon && ok then some (poke m 0 t.w2, { t with place := .inside f (pc + 1), w3 := 0, mon := false }, true)
    else some (m, { t with place := .inside f (pc + 1), w3 := 1, mon := false }, false)
  | some (.cbnz3 n) => some (m, { t with place := .inside f (if t.w3 = 0 then pc + 1 else n) }, false)
  | some .dmb => some (m, { t with place := .inside f (pc + 1) }, false)
  | some .yield => some (m, { t with place := .inside f (pc + 1) }, false)
  | some .ldr => some (m, { t with place := .inside f (pc + 1), w1 := m 0 }, false)
  | some (.b n) => some (m, { t with place := .inside f n }, false)
  | some .clrex => some (m, { t with place := .inside f (pc + 1), mon := false }, false)
  | some (.res v) => some (m, { t with place := .inside f (pc + 1), w0 := BitVec.ofNat 32 v }, false)
  | some .zero => some (poke m 0 0, { t with place := .inside f (pc + 1) }, true)
  | some .ret => some (m, { t with place := back f t.w0 }, false)
  | none => none

structure State where
  mem : Mem
  thread : Nat → Thread
  last : Mem

/-- Thread `i` goes on; if it has stored to the lock, the others lose their monitors. -/
def State.set (s : State) (i : Nat) (m : Mem) (t : Thread) (w : Bool) : State :=
  ⟨m, fun j => if j = i then t else if w then { s.thread j with mon := false } else s.thread j, s.last⟩

inductive Step : State → State → Prop where
  | call {s : State} {i : Nat} {f : Fn} (h : (s.thread i).place = .idle) (hf : f ≠ .unlock) :
      Step s (s.set i s.mem { s.thread i with place := .inside f 0 } false)
  | free {s : State} {i : Nat} (h : (s.thread i).place = .critical) :
      Step s (s.set i s.mem { s.thread i with place := .inside .unlock 0 } false)
  | write {s : State} {i a : Nat} {v : Val} (h : (s.thread i).place = .critical) (ha : a ≠ 0) :
      Step s { s.set i (poke s.mem a v) (s.thread i) false with last := poke s.last a v }
  | exec {s : State} {i : Nat} {ok : Bool} {f : Fn} {pc : Nat} {m : Mem} {t : Thread} {w : Bool} (h : (s.thread i).place = .inside f pc)
      (he : exec ok f pc s.mem (s.thread i) = some (m, t, w)) : Step s (s.set i m t w)

def Start (s : State) : Prop := s.mem 0 = 0 ∧ s.last = s.mem ∧ ∀ i, (s.thread i).place = .idle

inductive Reach (s : State) : State → Prop where
  | start : Reach s s
  | step {u v : State} : Reach s u → Step u v → Reach s v

end Arm

end Verif.Spin

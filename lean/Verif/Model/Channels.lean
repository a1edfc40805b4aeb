import Mathlib.Data.List.Basic

/-
Channels (/repo/grayc/src/stdlib/channels.c:15-129) as a transition system of threads.

Each access of a thread to shared memory, each mutex or condition variable call is one step; any
thread may make the next step. A thread that is idle may start any operation, so every program that
uses the channel is covered.

Simplifications.
* The loop test and the tests of `closed` next to it are one step: they run under the mutex.
* Steps are interleaved (sequential consistency). The unlocked read of `closed` is a data race; it is
  modelled as an atomic read here, and the race itself is a property of its own.
* Indices and counts are natural numbers (they stay below the capacity, an int64).
* Mutex and condition variables follow POSIX: wait releases the mutex and sleeps in one step, signal
  wakes one sleeper if there is one, sleepers may wake spuriously, a woken thread takes the mutex again.
* The buffer is a function from indices; that indices stay in range is proved. `malloc` fails never,
  except in `openBytes`.
* The handle is not NULL.
-/
namespace Verif.Channels

/-- Where a thread is. `t` tells a try operation. -/
inductive Pc where
  | idle
  /-- send: `if (!ch || ch->closed) return` without the mutex (46, 85) -/
  | sCheck (t : Bool) (v : Int)
  /-- `pthread_mutex_lock` (48, 87) -/
  | sLock (t : Bool) (v : Int)
  /-- loop test, or the test of try_send (49, 52, 88) -/
  | sTest (t : Bool) (v : Int)
  /-- about to call `pthread_cond_wait(&ch->not_full)` (50) -/
  | sGoWait (v : Int)
  /-- asleep on not_full -/
  | sWait (v : Int)
  /-- woken, wants the mutex -/
  | sWoken (v : Int)
  /-- `ch->buffer[ch->tail] = value` (56) -/
  | sWrite (v : Int)
  /-- `ch->tail = …` (57) -/
  | sTail (v : Int)
  /-- `ch->count++` (58) -/
  | sCount (v : Int)
  /-- `pthread_cond_signal(&ch->not_empty)` (59) -/
  | sSig
  /-- receive: lock (67, 105) -/
  | rLock (t : Bool)
  /-- loop test and the test after it (68, 71, 106) -/
  | rTest (t : Bool)
  | rGoWait
  | rWait
  | rWoken
  /-- `value = ch->buffer[ch->head]` (75) -/
  | rRead
  /-- `ch->head = …` (76) -/
  | rHead (v : Int)
  /-- `ch->count--` (77) -/
  | rCount (v : Int)
  /-- `pthread_cond_signal(&ch->not_full)` (78) -/
  | rSig
  /-- close: lock (123) -/
  | cLock
  /-- `ch->closed = true` (124) -/
  | cSet
  /-- broadcast not_full (125) -/
  | cB1
  /-- broadcast not_empty (126) -/
  | cB2
  /-- `pthread_mutex_unlock`, then return -/
  | unl
  deriving DecidableEq

/-- The channel and the threads. `sent`, `recv` and `lost` are for specification only: the values
pushed, the values taken and the values whose send returned without pushing. -/
structure St where
  cap : Nat
  buf : Nat → Int
  count : Nat
  head : Nat
  tail : Nat
  closed : Bool
  owner : Option Nat
  thr : List Pc
  sent : List Int
  recv : List Int
  lost : List Int

/-- Operations. -/
inductive Op where
  | send (v : Int) | trySend (v : Int) | receive | tryReceive | close

def entry : Op → Pc
  | .send v => .sCheck false v
  | .trySend v => .sCheck true v
  | .receive => .rLock false
  | .tryReceive => .rLock true
  | .close => .cLock

/-- What the scheduler chooses for a thread: start an operation when idle, make the next step (for a
signal, whom to wake), or wake spuriously. -/
inductive Act where
  | start (op : Op)
  | run
  | sig (who : Option Nat)
  | spur

def St.goto (s : St) (i : Nat) (p : Pc) : St := { s with thr := s.thr.set i p }

/-- The mutex is taken if it is free. -/
def St.acquire (s : St) (i : Nat) (p : Pc) : Option St :=
  if s.owner = none then some { s.goto i p with owner := some i } else none

def isSWait : Pc → Bool
  | .sWait _ => true
  | _ => false

def isRWait : Pc → Bool
  | .rWait => true
  | _ => false

def wakeS : Pc → Pc
  | .sWait v => .sWoken v
  | p => p

def wakeR : Pc → Pc
  | .rWait => .rWoken
  | p => p

/-- A send (not a try) that returns without pushing. -/
def St.drop (s : St) (t : Bool) (v : Int) : St :=
  if t then s else { s with lost := s.lost ++ [v] }

/-- The step that thread `i`, now at `p`, makes. -/
def runPc (s : St) (i : Nat) : Pc → Option St
  | .idle => none
  | .sCheck t v =>
    if s.closed then some ((s.drop t v).goto i .idle) else some (s.goto i (.sLock t v))
  | .sLock t v => s.acquire i (.sTest t v)
  | .sTest t v =>
    if t then
      if s.count = s.cap ∨ s.closed then some (s.goto i .unl) else some (s.goto i (.sWrite v))
    else
      if s.count = s.cap ∧ ¬ s.closed then some (s.goto i (.sGoWait v))
      else if s.closed then some ((s.drop t v).goto i .unl)
      else some (s.goto i (.sWrite v))
  | .sGoWait v => some { s.goto i (.sWait v) with owner := none }
  | .sWait _ => none
  | .sWoken v => s.acquire i (.sTest false v)
  | .sWrite v => some { s.goto i (.sTail v) with buf := fun k => if k = s.tail then v else s.buf k }
  | .sTail v => some { s.goto i (.sCount v) with tail := (s.tail + 1) % s.cap }
  | .sCount v => some { s.goto i .sSig with count := s.count + 1, sent := s.sent ++ [v] }
  | .sSig => none
  | .rLock t => s.acquire i (.rTest t)
  | .rTest t =>
    if t then
      if s.count = 0 then some (s.goto i .unl) else some (s.goto i .rRead)
    else
      if s.count = 0 ∧ ¬ s.closed then some (s.goto i .rGoWait)
      else if s.count = 0 ∧ s.closed then some (s.goto i .unl)
      else some (s.goto i .rRead)
  | .rGoWait => some { s.goto i .rWait with owner := none }
  | .rWait => none
  | .rWoken => s.acquire i (.rTest false)
  | .rRead => some (s.goto i (.rHead (s.buf s.head)))
  | .rHead v => some { s.goto i (.rCount v) with head := (s.head + 1) % s.cap }
  | .rCount v => some { s.goto i .rSig with count := s.count - 1, recv := s.recv ++ [v] }
  | .rSig => none
  | .cLock => s.acquire i .cSet
  | .cSet => some { s.goto i .cB1 with closed := true }
  | .cB1 => some { s with thr := (s.thr.set i .cB2).map wakeS }
  | .cB2 => some { s with thr := (s.thr.set i .unl).map wakeR }
  | .unl => some { s.goto i .idle with owner := none }

/-- A signal: wakes `who`, asleep as `asleep` tells, or nobody if nobody is. -/
def signal (s : St) (i : Nat) (asleep : Pc → Bool) (wake : Pc → Pc) (who : Option Nat) : Option St :=
  match who with
  | none => if s.thr.any asleep then none else some (s.goto i .unl)
  | some j =>
    match s.thr[j]? with
    | none => none
    | some q => if asleep q then some ((s.goto j (wake q)).goto i .unl) else none

/-- The step of thread `i` that the scheduler chooses. -/
def step (s : St) (i : Nat) (a : Act) : Option St :=
  match s.thr[i]? with
  | none => none
  | some p =>
    match a with
    | .start op => if p = .idle then some (s.goto i (entry op)) else none
    | .run => runPc s i p
    | .sig who =>
      if p = .sSig then signal s i isRWait wakeR who
      else if p = .rSig then signal s i isSWait wakeS who
      else none
    | .spur =>
      match p with
      | .sWait v => some (s.goto i (.sWoken v))
      | .rWait => some (s.goto i .rWoken)
      | _ => none

/-- `gray_channels_open` (27-42), with `n` threads that may use the channel. -/
def openCap (capacity : Int) : Nat := if capacity < 1 then 1 else capacity.toNat

def init (capacity : Int) (n : Nat) : St where
  cap := openCap capacity
  buf := fun _ => 0
  count := 0
  head := 0
  tail := 0
  closed := false
  owner := none
  thr := List.replicate n .idle
  sent := []
  recv := []
  lost := []

/-- The bytes asked of `malloc` for the buffer (30): a product of size_t. -/
def openBytes (capacity : Int) : Nat := 8 * openCap capacity % 2 ^ 64

/-- The states that can be reached. -/
inductive Reach (capacity : Int) (n : Nat) : St → Prop where
  | init : Reach capacity n (init capacity n)
  | step {s s' : St} (i : Nat) (a : Act) : Reach capacity n s → step s i a = some s' → Reach capacity n s'

end Verif.Channels

import Verif.Model.Str

/-!
# Sockets and time

`/repo/grayc/src/stdlib/net.c`: `net_cstr` (28-33), `gray_net_close` (72-76), `gray_net_send` (78-82), `gray_net_recv` (84-95),
`gray_net_listen` (97-126), `gray_net_set_timeout` (142-149), `gray_net_send_result` (258-267) and `gray_net_recv_result` (269-278);
`/repo/grayc/src/stdlib/time.c`: `get_tm` and the functions over it (32-43), `gray_time_elapsed_ms` (72-74).

* A descriptor is a number; the system gives the smallest that is free.
* `send` takes some of the bytes, or fails; if the other side has closed the connection, the process gets SIGPIPE, which nothing in the
  runtime handles, and ends.
* `recv` gives some bytes, the end, or an error.
* `localtime` gives no result if the year does not fit an `int`. Of the calendar only this is used: years have 365 or 366 days.
-/

namespace Verif.Net
open Verif Verif.Str

/-! ### Ports, time limits and names -/

/-- `htons((uint16_t)port)` -/
def listenPort (port : BitVec 64) : Nat := (port.truncate 16).toNat

/-- `tv_sec` and `tv_usec` of `gray_net_set_timeout`; C rounds towards zero. -/
def timeval (ms : Int) : Int × Int := (ms.tdiv 1000, ms.tmod 1000 * 1000)

/-- What the system takes: `tv_usec` has to be from 0 to 999999, and negative seconds mean 0 seconds (that is, at once). `none` leaves the
limit as it was, `some none` is no limit. -/
def setLimit (tv : Int × Int) : Option (Option Int) :=
  if tv.2 < 0 ∨ 1000000 ≤ tv.2 then none
  else if tv.1 < 0 then some (some 0)
  else if tv.1 = 0 ∧ tv.2 = 0 then some none
  else some (some (tv.1 * 1000000 + tv.2))

/-- `net_cstr` with the buffer of 256 bytes, as the C functions see it. -/
def hostText (s : Str) : Str := (s.take 255).takeWhile (· ≠ 0)

/-! ### Sending and receiving -/

/-- What the system does with a `send` of some bytes. -/
inductive Send where
  | took (n : Nat)
  | error
  | closed
  deriving DecidableEq, Repr

inductive Sent where
  | ok (n : Nat)
  | error
  /-- the process is ended by SIGPIPE -/
  | killed
  deriving DecidableEq, Repr

/-- `gray_net_send_result` of a socket that is open. -/
def send : Send → Sent
  | .took n => .ok n
  | .error => .error
  | .closed => .killed

inductive Recv where
  | data (b : Str)
  | eof
  | error
  deriving DecidableEq, Repr

def maxRecv : Nat := 1048576

/-- The size that is asked for, lines 85-88; none is no call. -/
def recvSize (fd max : Int) : Option Nat := if fd < 0 ∨ max ≤ 0 then none else some (min max.toNat maxRecv)

/-- `gray_net_recv_result`: the bytes, and whether there is an error. -/
def recv (fd max : Int) (r : Recv) : Str × Bool :=
  let b := match recvSize fd max with
    | none => []
    | some _ =>
      match r with
      | .data b => b
      | .eof => []
      | .error => []
  (b, b.length == 0 && decide (0 ≤ fd))

/-! ### Handles -/

/-- A socket variable: a descriptor, and the socket it was made for (which the program does not know). -/
structure Handle where
  fd : Nat
  socket : Nat
  deriving DecidableEq, Repr

structure St where
  /-- what is open at each descriptor -/
  table : List (Option Nat)
  var : Nat → Option Handle
  fresh : Nat

inductive Op where
  | dial (x : Nat)
  | copy (x y : Nat)
  | send (x : Nat)
  | close (x : Nat)
  deriving DecidableEq, Repr

/-- The smallest free descriptor. -/
def freeFd : List (Option Nat) → Nat
  | [] => 0
  | none :: _ => 0
  | some _ :: r => freeFd r + 1

def setFd : List (Option Nat) → Nat → Option Nat → List (Option Nat)
  | [], 0, s => [s]
  | [], n + 1, s => none :: setFd [] n s
  | _ :: r, 0, s => s :: r
  | a :: r, n + 1, s => a :: setFd r n s

def at' (t : List (Option Nat)) (n : Nat) : Option Nat := (t[n]?).join

def St.setVar (s : St) (x : Nat) (h : Option Handle) : St := { s with var := fun y => if y = x then h else s.var y }

/-- One operation: the new state, and the socket that the system uses for it. -/
def step (s : St) : Op → St × Option Nat
  | .dial x =>
    (({ s with table := setFd s.table (freeFd s.table) (some s.fresh), fresh := s.fresh + 1 } : St).setVar x (some ⟨freeFd s.table, s.fresh⟩), none)
  | .copy x y => (s.setVar y (s.var x), none)
  | .send x =>
    match s.var x with
    | none => (s, none)
    | some h => (s, at' s.table h.fd)
  | .close x =>
    match s.var x with
    | none => (s, none)
    | some h => ({ s with table := setFd s.table h.fd none }, at' s.table h.fd)

def initial : St := ⟨[], fun _ => none, 0⟩

def runOps (s : St) (l : List Op) : St := l.foldl (fun s o => (step s o).1) s

/-! ### Time -/

/-- `tm_year`, for the year of a time; none if `localtime` gives a null pointer, which is then followed. -/
def tmYear (calendar : Int → Int) (ts : Int) : Option Int :=
  if -2147483648 ≤ calendar ts - 1900 ∧ calendar ts - 1900 ≤ 2147483647 then some (calendar ts - 1900) else none

/-- `gray_time_year`: the sum is one of `int`s; none also if it is too large for one. -/
def year (calendar : Int → Int) (ts : Int) : Option Int :=
  match tmYear calendar ts with
  | none => none
  | some y => if y + 1900 ≤ 2147483647 then some (y + 1900) else none

/-- `gray_time_elapsed_ms`; none if the difference is not an `int64_t`. -/
def elapsed (now start : Int) : Option Int :=
  if -9223372036854775808 ≤ now - start ∧ now - start ≤ 9223372036854775807 then some ((now - start).tdiv 1000000) else none

end Verif.Net

/-!
# Running programs and the environment

`grayc/src/stdlib/os.c`: `gray_os_get_env`, `gray_os_set_env`, `gray_os_unset_env` (lines 46-58) and `gray_os_exec` (lines 105-228).

* The world is a list of rounds, one for each turn of the loop: `select` fails, or it says which of the two pipes can be read, and
  each `read` gives some bytes, the end, or an error. The list may end before the loop does; then there is no result.
* `pipe` and `fork` succeed. Descriptors are smaller than `FD_SETSIZE`.
* `waitpid` gives the status, or fails, for example when a signal arrives; the code does not look at its result.
* Memory for the output comes from an arena, which always has some.
-/

namespace Verif.Exec

abbrev Byte := BitVec 8

/-- What a C function sees of a string. -/
def cstr (s : List Byte) : List Byte := s.takeWhile (· ≠ 0)

/-! ### The environment -/

abbrev Env := List (List Byte × List Byte)

/-- `getenv`, lines 46-50. -/
def getEnv (e : Env) (name : List Byte) : List Byte :=
  match e.find? (fun x => x.1 == cstr name) with
  | some x => x.2
  | none => []

/-- `setenv(name, value, 1)`, lines 52-54. It fails if the name is empty or has an equals sign; the result is not looked at. -/
def setEnv (e : Env) (name value : List Byte) : Env :=
  if cstr name = [] ∨ 61 ∈ cstr name then e
  else (cstr name, cstr value) :: e.filter (fun x => x.1 != cstr name)

/-- `unsetenv`, lines 56-58. -/
def unsetEnv (e : Env) (name : List Byte) : Env :=
  if cstr name = [] ∨ 61 ∈ cstr name then e else e.filter (fun x => x.1 != cstr name)

/-! ### Running a program -/

inductive Rd where
  | data (b : List Byte)
  | eof
  | error
  deriving DecidableEq, Repr

inductive Round where
  /-- `select` fails -/
  | fails
  /-- the pipes that can be read, and what `read` gives -/
  | ready (out err : Option Rd)
  deriving DecidableEq, Repr

/-- How the program ended. -/
inductive Status where
  | exited (n : Nat)
  | signalled (n : Nat)
  deriving DecidableEq, Repr

/-- One of the two streams: the bytes kept, and the size of the memory they are in. -/
structure Stream where
  kept : List Byte := []
  cap : Nat := 4096
  done : Bool := false
  deriving DecidableEq, Repr

/-- `GRAY_EXEC_OUTPUT_MAX` -/
def outputMax : Nat := 64 * 1024 * 1024

inductive Got where
  | more (s : Stream)
  | tooMuch
  /-- a write outside of the memory -/
  | overrun
  deriving DecidableEq, Repr

/-- Lines 165-185 and 188-208, with the limit. -/
def take (limit : Nat) (s : Stream) : Rd → Got
  | .eof | .error => .more { s with done := true }
  | .data b =>
    if s.kept.length + b.length > limit then .tooMuch
    else
      let cap := if s.kept.length + b.length > s.cap then s.cap * 2 + b.length else s.cap
      if s.kept.length + b.length ≤ cap then .more { s with kept := s.kept ++ b, cap := cap } else .overrun

def offer (limit : Nat) (s : Stream) (r : Option Rd) : Got :=
  if s.done then .more s
  else
    match r with
    | none => .more s
    | some r => take limit s r

inductive Loop where
  | ended (out err : Stream)
  | truncated
  | overrun
  deriving DecidableEq, Repr

/-- Lines 155-209. -/
def loop (limit : Nat) (out err : Stream) : List Round → Option Loop
  | [] => if out.done && err.done then some (.ended out err) else none
  | .fails :: _ => some (.ended out err)
  | .ready o e :: rs =>
    if out.done && err.done then some (.ended out err)
    else
      match offer limit out o with
      | .overrun => some .overrun
      | .tooMuch => some .truncated
      | .more out' =>
        match offer limit err e with
        | .overrun => some .overrun
        | .tooMuch => some .truncated
        | .more err' => loop limit out' err' rs

structure Result where
  code : Nat
  out : List Byte
  err : List Byte
  ok : Bool
  deriving DecidableEq, Repr

def fail : Result := ⟨0, [], [], false⟩

inductive Outcome where
  | result (r : Result)
  | overrun
  deriving DecidableEq, Repr

/-- Lines 214-222: the status is 0 if `waitpid` has failed. -/
def exitCode : Option Status → Nat
  | none => 0
  | some (.exited n) => n
  | some (.signalled n) => 128 + n

/-- Lines 105-228, after the program has been started. -/
def execRounds (limit : Nat) (rs : List Round) (status : Option Status) : Option Outcome :=
  match loop limit {} {} rs with
  | none => none
  | some .overrun => some .overrun
  | some .truncated => some (.result fail)
  | some (.ended out err) =>
    some (.result (if exitCode status = 127 then fail else ⟨exitCode status, out.kept, err.kept, true⟩))

/-- The arguments of the program, lines 108-116. -/
def argv (cmd : List Byte) (args : List (List Byte)) : List (List Byte) := cstr cmd :: args.map cstr

end Verif.Exec

/-
The life of a thread handle (/repo/grayc/src/stdlib/threads.c:18-125).

One thread handle is followed: the end of the thread (`thread_entry` after the user function, 45-51)
and the user of the handle, who may ask `is_alive` any number of times and then call `join` or `detach`.
Each access to the handle's memory is one step. The body of the thread and the arena are left out.
Atomics are sequentially consistent, as in the code. `pthread_join` waits until the thread is done.
-/
namespace Verif.Threads

/-- The end of the thread. -/
inductive E where
  /-- the user function runs; next `atomic_store(&state->alive, 0)` (48) -/
  | run
  /-- next `atomic_load(&state->detached)` (50) -/
  | check
  /-- next `free(state)` (50) -/
  | release
  | done
  deriving DecidableEq

/-- The user of the handle. -/
inductive U where
  | idle
  /-- detach: next `atomic_load(&state->alive)` (106) -/
  | dLoad
  /-- the thread has exited: next `pthread_detach(state->pt)` (109) -/
  | dExited
  /-- next `free(state)` (110) -/
  | dFree
  /-- the thread lives: next `pthread_detach(state->pt)` (112) -/
  | dAlive
  | detached
  /-- join: `pthread_join` called, waits for the thread (93) -/
  | jWait
  /-- next `free(state)` (94) -/
  | jFree
  | joined
  deriving DecidableEq

/-- `frees` counts the calls of `free(state)`; `bad` tells that the memory was used or freed after it
had been freed. -/
structure S where
  e : E
  u : U
  alive : Bool
  det : Bool
  frees : Nat
  bad : Bool
  deriving DecidableEq

/-- The handle's memory is accessed. -/
def S.touch (s : S) : S := { s with bad := s.bad || decide (0 < s.frees) }

/-- The handle's memory is freed. -/
def S.free (s : S) : S := { s.touch with frees := s.frees + 1 }

/-- After `spawn_thread` (56-68). -/
def start : S := ⟨.run, .idle, true, false, 0, false⟩

/-- The next step of the thread (45-51). -/
def stepE (s : S) : Option S :=
  match s.e with
  | .run => some { s.touch with e := .check, alive := false }
  | .check => some { s.touch with e := if s.det then .release else .done }
  | .release => some { s.free with e := .done }
  | .done => none

/-- What an idle user may do. -/
inductive Call where
  | isAlive | join | detach

/-- `is_alive` (116-120), `join` (90-95), `detach` (97-114). -/
def stepCall (s : S) : Call → Option S
  | .isAlive => if s.u = .idle then some s.touch else none
  | .join => if s.u = .idle then some { s.touch with u := .jWait } else none
  | .detach => if s.u = .idle then some { s.touch with u := .dLoad, det := true } else none

/-- The next step of the user inside a call. -/
def stepU (s : S) : Option S :=
  match s.u with
  | .dLoad => some { s.touch with u := if s.alive then .dAlive else .dExited }
  | .dExited => some { s.touch with u := .dFree }
  | .dFree => some { s.free with u := .detached }
  | .dAlive => some { s.touch with u := .detached }
  | .jWait => if s.e = .done then some { s with u := .jFree } else none
  | .jFree => some { s.free with u := .joined }
  | _ => none

/-- Steps of the system. -/
inductive Step : S → S → Prop where
  | e {s s' : S} : stepE s = some s' → Step s s'
  | u {s s' : S} : stepU s = some s' → Step s s'
  | call {s s' : S} (c : Call) : stepCall s c = some s' → Step s s'

/-- The states that can be reached by steps allowed by `ok`. -/
inductive Reach (ok : S → S → Prop) : S → Prop where
  | start : Reach ok start
  | step {s s' : S} : Reach ok s → Step s s' → ok s s' → Reach ok s'

end Verif.Threads

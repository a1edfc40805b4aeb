/-!
# Handles of mutexes and spin locks

`grayc/src/stdlib/sync.c:15-46`, `grayc/src/stdlib/atomic.c:29-62` and their calls in `codegen.c:5813-5872`.

A handle is a structure with one pointer, which is copied like any other value. What is behind it comes from `malloc`, and `destroy`
frees it. `spinlock_destroy` gets the address of its argument and clears that one variable; `sync.destroy` gets a copy.

* Only one thread; whether a lock is taken does not matter here.
* `malloc` always succeeds and gives any address that is not in use.
* `made` numbers the locks in the order in which they were made. It is there for the statements only.
-/

namespace Verif.LockHandles

inductive Kind where
  | spin | mutex
  deriving DecidableEq, Repr

inductive Op where
  /-- `x = sync.mutex()` or `x = atomic.spinlock()`, with the address that `malloc` gives -/
  | make (k : Kind) (x p : Nat)
  /-- `y = x` -/
  | copy (x y : Nat)
  /-- any of the functions that lock and unlock -/
  | use (x : Nat)
  | destroy (x : Nat)
  deriving DecidableEq, Repr

structure Var where
  kind : Kind := .spin
  ptr : Option Nat := none
  made : Option Nat := none
  deriving DecidableEq, Repr

structure State where
  var : Nat → Var
  /-- the lock at an address, if the memory there is in use -/
  heap : Nat → Option Nat
  count : Nat

/-- What an operation reaches. -/
inductive Event where
  | nothing
  /-- the lock with this number -/
  | lock (n : Nat)
  /-- memory that has been freed -/
  | freed
  deriving DecidableEq, Repr

def State.setVar (s : State) (x : Nat) (v : Var) : State := { s with var := fun y => if y = x then v else s.var y }

def State.setHeap (s : State) (p : Nat) (l : Option Nat) : State := { s with heap := fun q => if q = p then l else s.heap q }

/-- The handle's lock, or whatever is at its address now. -/
def reach (s : State) (p : Nat) : Event :=
  match s.heap p with
  | some n => .lock n
  | none => .freed

/-- One operation. There is no result if `malloc` cannot give the address. -/
def step (s : State) : Op → Option (State × Event)
  | .make k x p =>
    if s.heap p = none then some ({ (s.setVar x ⟨k, some p, some s.count⟩).setHeap p (some s.count) with count := s.count + 1 }, .nothing)
    else none
  | .copy x y => some (s.setVar y (s.var x), .nothing)
  | .use x =>
    match (s.var x).ptr with
    | none => some (s, .nothing)
    | some p => some (s, reach s p)
  | .destroy x =>
    match (s.var x).ptr with
    | none => some (s, .nothing)
    | some p =>
      match (s.var x).kind with
      | .spin => some ((s.setHeap p none).setVar x { s.var x with ptr := none }, reach s p)
      | .mutex => some (s.setHeap p none, reach s p)

/-- No handles. -/
def start : State := ⟨fun _ => {}, fun _ => none, 0⟩

/-- Some operations; for each one the number of the lock its handle was made for, and what it reached. -/
def run (s : State) : List Op → Option (List (Option Nat × Event))
  | [] => some []
  | o :: r =>
    match step s o with
    | none => none
    | some (s', e) =>
      let want := match o with
        | .use x | .destroy x => (s.var x).made
        | _ => none
      (run s' r).map ((want, e) :: ·)

end Verif.LockHandles

/-
The embedded runtime: `writeIfMissing` (/repo/internal/grayc/embedded.go 132-145) run by any number of processes at once, `extractEmbedded` (48-101) with
`extractSourceTree` (106-126), and `Find` (/repo/internal/grayc/grayc.go 28-60).

Simplifications.
* One file is modelled for `writeIfMissing`: a directory with two names, `path` and `path.tmp`, inodes, and processes that are between two system calls.
  `os.WriteFile` is open with `O_CREATE` and `O_TRUNC`, writes of any pieces at the position of the process, and close.
* Opening and renaming do not fail for other reasons than a missing name; a write may fail and then leaves `path.tmp` behind, as the code does.
* For `extractEmbedded` the processes run one after the other, a file is its bytes, and the hash is any function.
* For `Find` the file system is the set of names of regular files; the directory of the binary and the lookup in `PATH` are given by their results.
-/
namespace Verif.Unpack

abbrev Data := List (BitVec 8)

/-- The directory and the inodes; inodes from `fresh` on are unused. -/
structure FS where
  inode : Nat → Data
  fresh : Nat
  path : Option Nat
  tmp : Option Nat

/-- Where a process is -/
inductive Pc where
  | start
  /-- after `os.Stat` found no file of that size -/
  | absent
  /-- `path.tmp` is open as this inode, at this position -/
  | writing (ino off : Nat)
  | renaming
  | done (ok : Bool)
  deriving DecidableEq

def upd (f : Nat → Data) (i : Nat) (d : Data) : Nat → Data := fun j => if j = i then d else f j

/-- open with `O_CREATE` and `O_TRUNC` -/
def openTmp (s : FS) : FS × Nat :=
  match s.tmp with
  | some i => ({ s with inode := upd s.inode i [] }, i)
  | none => ({ s with inode := upd s.inode s.fresh [], fresh := s.fresh + 1, tmp := some s.fresh }, s.fresh)

/-- Bytes written at a position; a gap is zeros. -/
def writeAt (d : Data) (off : Nat) (bs : Data) : Data :=
  (d ++ List.replicate (off - d.length) 0).take off ++ bs ++ d.drop (off + bs.length)

/-- One system call of a process in `writeIfMissing` with `data` -/
inductive Step (data : Data) : FS → Pc → FS → Pc → Prop
  | present {s i} : s.path = some i → (s.inode i).length = data.length → Step data s .start s (.done true)
  | absent {s} : (∀ i, s.path = some i → (s.inode i).length ≠ data.length) → Step data s .start s .absent
  | opened {s} : Step data s .absent (openTmp s).1 (.writing (openTmp s).2 0)
  | write {s i off} (n : Nat) : off + n ≤ data.length →
      Step data s (.writing i off) { s with inode := upd s.inode i (writeAt (s.inode i) off ((data.drop off).take n)) } (.writing i (off + n))
  | failed {s i off} : Step data s (.writing i off) s (.done false)
  | closed {s i} : Step data s (.writing i data.length) s .renaming
  | renamed {s i} : s.tmp = some i → Step data s .renaming { s with path := some i, tmp := none } (.done true)
  | gone {s} : s.tmp = none → Step data s .renaming s (.done false)

/-- One process alone -/
inductive Alone (data : Data) (s : FS) : FS → Pc → Prop
  | start : Alone data s s .start
  | step {s' pc s'' pc'} : Alone data s s' pc → Step data s' pc s'' pc' → Alone data s s'' pc'

/-- Any number of processes -/
inductive Many (data : Data) (s : FS) : FS → (Nat → Pc) → Prop
  | start : Many data s s fun _ => .start
  | step {s' pcs s'' pc'} (p : Nat) : Many data s s' pcs → Step data s' (pcs p) s'' pc' → Many data s s'' fun q => if q = p then pc' else pcs q

/-- What is read at `path` -/
def content (s : FS) : Option Data := s.path.map s.inode

/-! ### The directories of builds -/

/-- The embedded files: the compiler, the library and the source tree -/
structure Build where
  grayc : Data
  lib : Data
  src : List (String × Data)

/-- `~/.gray/runtime`: directories by their tags -/
abbrev Home := Data → String → Option Data

/-- `writeIfMissing` by one process -/
def put (d : String → Option Data) (f : String) (data : Data) : String → Option Data := fun g =>
  if g = f then (match d f with | some old => if old.length = data.length then some old else some data | none => some data) else d g

def files (b : Build) : List (String × Data) := ("grayc", b.grayc) :: ("libgrayrt.a", b.lib) :: b.src

def tag (hash : Data → Data) (b : Build) : Data := hash (b.grayc ++ b.lib)

/-- `extractEmbedded`; nothing is done if there is nothing embedded -/
def extract (hash : Data → Data) (h : Home) (b : Build) : Home :=
  if b.grayc.isEmpty || b.lib.isEmpty then h
  else fun t => if t = tag hash b then (files b).foldl (fun d f => put d f.1 f.2) (h t) else h t

/-! ### `Find` -/

structure World where
  /-- `GRAY_COMPILER_PATH`, empty if not set -/
  override : String
  regular : String → Bool
  embedded : Option String
  /-- `grayc` beside the running binary -/
  beside : Option String
  inPath : Option String

def find (w : World) : Option String :=
  if w.override ≠ "" ∧ w.regular w.override = true then some w.override
  else match w.embedded with
    | some p => some p
    | none =>
      match w.beside.filter w.regular with
      | some p => some p
      | none =>
        match w.inPath with
        | some p => some p
        | none => ["/usr/local/bin/grayc", "/usr/bin/grayc"].find? w.regular

end Verif.Unpack

/-!
# Unpacking the compiler, and `gray fmt`

`/repo/internal/grayc/embedded.go`: `extractEmbedded` (lines 46-98), `extractSourceTree` (103-123), `writeIfMissing` (129-144);
`/repo/cli/fmt.go`: `collectFmtFiles` (77-137), `runFmt` (141-213).

* A directory is a function from names to contents. The name `tmp n` is that of `n` with `.tmp` after it.
* The tag, a hash of the compiler and the library, is a function of these two, and no more is assumed of it. A build is the contents of
  the compiler, of the library and of the tree of sources.
* `os.WriteFile` is two steps: the file is opened and cut to nothing, then it is written. A name that was moved away while the file was open
  leaves the open file as it is.
-/

namespace Verif.Extract

abbrev Bytes := List (BitVec 8)

/-! ### One process -/

/-- The files of a build, in the order they are unpacked: compiler, library, sources. -/
structure Build where
  compiler : Bytes
  library : Bytes
  sources : List (Nat × Bytes)

/-- The names of the compiler and the library. -/
def compilerName : Nat := 0
def libraryName : Nat := 1

def Build.files (b : Build) : List (Nat × Bytes) := (compilerName, b.compiler) :: (libraryName, b.library) :: b.sources

abbrev Dir := Nat → Option Bytes

/-- `writeIfMissing`, without anything in between. -/
def writeIfMissing (d : Dir) (f : Nat × Bytes) : Dir :=
  match d f.1 with
  | some c => if c.length = f.2.length then d else fun n => if n = f.1 then some f.2 else d n
  | none => fun n => if n = f.1 then some f.2 else d n

/-- All of a user's directories, by tag. -/
abbrev Home := Nat → Dir

/-- `extractEmbedded`, with the tag as a function of the compiler and the library; the process may be stopped after `k` files. -/
def extract (tag : Bytes → Bytes → Nat) (h : Home) (b : Build) (k : Nat) : Home :=
  fun t => if t = tag b.compiler b.library then (b.files.take k).foldl writeIfMissing (h t) else h t

/-! ### Two processes that write the same file -/

/-- What a process does next with the file. -/
inductive Stage where
  | look
  | cut
  | write (inode : Nat)
  | move
  | done
  | failed
  deriving DecidableEq, Repr

/-- The names of the file and of its temporary file, and the contents of the files. -/
structure Disk where
  file : Option Nat
  tmp : Option Nat
  data : Nat → Bytes
  fresh : Nat

def Disk.put (d : Disk) (i : Nat) (b : Bytes) : Disk := { d with data := fun n => if n = i then b else d.data n }

/-- One step of `writeIfMissing`, lines 130-143. -/
def step (want : Bytes) (d : Disk) : Stage → Disk × Stage
  | .look =>
    match d.file with
    | some i => if (d.data i).length = want.length then (d, .done) else (d, .cut)
    | none => (d, .cut)
  | .cut =>
    match d.tmp with
    | some i => (d.put i [], .write i)
    | none => (({ d with tmp := some d.fresh, fresh := d.fresh + 1 } : Disk).put d.fresh [], .write d.fresh)
  | .write i => (d.put i want, .move)
  | .move =>
    match d.tmp with
    | some i => ({ d with file := some i, tmp := none }, .done)
    | none => (d, .failed)
  | .done => (d, .done)
  | .failed => (d, .failed)

/-- A schedule: true is the first process. -/
def run (want : Bytes) : Disk → Stage → Stage → List Bool → Disk × Stage × Stage
  | d, p, q, [] => (d, p, q)
  | d, p, q, true :: s => run want (step want d p).1 (step want d p).2 q s
  | d, p, q, false :: s => run want (step want d q).1 p (step want d q).2 s

/-- What the name of the file leads to. -/
def Disk.content (d : Disk) : Option Bytes := d.file.map d.data

/-! ### `gray fmt` -/

/-- What an argument names, lines 97-134: nothing, or the files of it (which may be none). -/
inductive Arg where
  | missing
  | files (l : List Nat)
  deriving DecidableEq, Repr

/-- `collectFmtFiles`: each file once. -/
def collect (args : List Arg) : List Nat :=
  (args.flatMap fun | .missing => [] | .files l => l).foldl (fun fs f => if f ∈ fs then fs else fs ++ [f]) []

/-- What happens with a file: it cannot be read, the formatter fails and leaves it as it was, or gives a text. -/
inductive File where
  | unreadable
  | broken (text : Bytes)
  | good (text formatted : Bytes)
  deriving DecidableEq, Repr

/-- One file with `--check`, lines 161-187: does it make the exit code 1? -/
def checkBad : File → Bool
  | .unreadable => true
  | .broken text => text != text
  | .good text formatted => text != formatted

/-- One file without `--check`, lines 190-206. -/
def formatBad : File → Bool
  | .unreadable => true
  | .broken _ => true
  | .good _ _ => false

/-- `runFmt`: the exit code. -/
def runFmt (look : Nat → File) (check : Bool) (args : List Arg) : Nat :=
  if (collect args).any (fun f => if check then checkBad (look f) else formatBad (look f)) then 1 else 0

end Verif.Extract

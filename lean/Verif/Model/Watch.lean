import Verif.Model.Path

/-!
# `gray watch`

`/repo/cli/watch.go`: `watchLoop` (lines 67-105), `collectFilesToWatch` (165-198), `scanImports` (200-232), `findMainFile` (249-275),
`hasMainFunction` (277-293).

* `strings.TrimSpace` removes the white space of ASCII; that of Unicode is not modelled.
* `bufio.Scanner` gives the lines up to one that does not fit in its buffer of 64 KiB; there is no error then, since it is not asked for.
* A file that cannot be opened is one without text.
* The file system is what `os.Stat` says of a path, and the list of `.gray` files that `filepath.Walk` finds below a directory.
* A watch belongs to a file, not to its name: if a new file takes the name, the old one is gone, and with it the watch (inotify).
* A timer that is due at the very moment of an event has fired.
-/

namespace Verif.Watch
open Verif Verif.Str Verif.Path

/-! ### Scanning the text -/

/-- `bufio.MaxScanTokenSize` -/
def maxLine : Nat := 65536

/-- The text between line ends. -/
def splitAt (c : Byte) : Str → List Str
  | [] => [[]]
  | x :: r =>
    if x = c then [] :: splitAt c r
    else match splitAt c r with
      | [] => [[x]]
      | p :: ps => (x :: p) :: ps

/-- What `scanner.Scan` goes through, with the size of the buffer. An empty line at the end of the text makes no difference. -/
def scan (buffer : Nat) (text : Str) : List Str := (splitAt 10 text).takeWhile (fun l => l.length < buffer)

/-- `strings.TrimSpace` -/
def trim (s : Str) : Str := ((s.dropWhile isSpace).reverse.dropWhile isSpace).reverse

/-- The part before the first `needle`. -/
def before (needle : Str) : Str → Str
  | [] => []
  | c :: r => if needle.isPrefixOf (c :: r) then [] else c :: before needle r

/-- The imports of one line, lines 216-229. -/
def lineImports (line : Str) : List Str :=
  let line := trim line
  if (lit "import ").isPrefixOf line then
    ((splitAt 44 (before (lit " using ") (line.drop 7))).map trim).filter (fun p => p != [])
  else []

/-- `scanImports` -/
def scanImports (buffer : Nat) (text : Str) : List Str := (scan buffer text).flatMap lineImports

/-! ### The files -/

inductive Kind where
  | file
  | dir
  deriving DecidableEq, Repr

structure World where
  stat : Str → Option Kind
  walk : Str → List Str

/-- `append` unless seen. -/
def addNew (files : List Str) (f : Str) : List Str := if f ∈ files then files else files ++ [f]

def gray : Str := lit ".gray"

/-- One import, lines 171-196. -/
def addImport (w : World) (dir : Str) (files : List Str) (imp : Str) : List Str :=
  if (lit "@").isPrefixOf imp then files
  else
    let resolved := goJoin dir imp
    if gray.isSuffixOf resolved then (if (w.stat resolved).isSome then addNew files resolved else files)
    else if w.stat resolved = some .dir then (w.walk resolved).foldl addNew files
    else if (w.stat (resolved ++ gray)).isSome then addNew files (resolved ++ gray)
    else files

/-- `collectFilesToWatch`, of the main file in `dir`. -/
def collect (w : World) (main dir text : Str) : List Str :=
  (scanImports maxLine text).foldl (addImport w dir) [main]

/-- `hasMainFunction` -/
def hasMain (buffer : Nat) (text : Str) : Bool := (scan buffer text).any fun l => (lit "do main(").isPrefixOf (trim l)

inductive Found where
  | noFiles
  | noMain
  | several (l : List Str)
  | file (f : Str)
  deriving DecidableEq, Repr

/-- `findMainFile`, of the files found, with their texts. -/
def findMain (files : List (Str × Str)) : Found :=
  if files = [] then .noFiles
  else
    match files.filter (fun f => hasMain maxLine f.2) with
    | [] => .noMain
    | [f] => .file f.1
    | l => .several (l.map Prod.fst)

/-! ### Events -/

/-- What happens to the files. -/
inductive Change where
  /-- the file of this name is written to in place -/
  | write (name : Nat)
  /-- a new file takes the name, as many editors do it -/
  | replace (name : Nat)
  deriving DecidableEq, Repr

/-- Which file has a name, the files that are watched, and the next number for a new file. -/
structure Disk where
  file : Nat → Nat
  watched : Nat → Bool
  fresh : Nat

/-- Whether an event that is not ignored (line 84) comes of a change, and the disk after it. -/
def happen (d : Disk) : Change → Bool × Disk
  | .write n => (d.watched (d.file n), d)
  | .replace n => (false, {
      file := fun m => if m = n then d.fresh else d.file m
      watched := fun f => f != d.file n && d.watched f
      fresh := d.fresh + 1 })

/-- Lines 90-92: the files of the names are watched again before the program runs. -/
def refresh (names : List Nat) (d : Disk) : Disk := { d with watched := fun f => d.watched f || names.any (fun n => d.file n == f) }

/-- Changes that are far apart: for each whether the program runs after it. -/
def watchRuns (names : List Nat) : Disk → List Change → List Bool
  | _, [] => []
  | d, c :: cs =>
    let r := happen d c
    r.1 :: watchRuns names (if r.1 then refresh names r.2 else r.2) cs

/-! ### The timer -/

/-- `debounceInterval` in milliseconds -/
def interval : Nat := 100

/-- The times when runs begin, given the time the timer is due and the times of the events. -/
def runs : Option Nat → List Nat → List Nat
  | timer, [] => timer.toList
  | timer, t :: ts => timer.toList.filter (fun d => d ≤ t) ++ runs (some (t + interval)) ts

end Verif.Watch

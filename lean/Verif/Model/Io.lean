import Verif.Model.Outcome
import Verif.Model.Interp

/-
Files and directories: the io module (/repo/grayc/src/stdlib/io.c:37-67 and 205-949).

The system underneath.
* A file system is the list of its entries: a path (the names from the root on) and what is there.
  The order of the list is the order in which `readdir` gives the names of a directory; a theorem for
  all lists is one for all orders.
* Paths are resolved as POSIX has it: `/` separates names, `.` and `..` have their meaning, symbolic
  links are followed up to a limit, a path of 4096 bytes or more is refused.  The current directory is
  the root.  A `/` at the end of a path has no meaning of its own.
* A directory that is open takes a file descriptor; `opendir` fails when there are none left.
* A file takes `room` more bytes: what is written after that is lost, and the call that hands the
  bytes to the system reports it.  `fwrite` hands on whole blocks at once and keeps the rest, which
  `fclose` hands on (the GNU C library, blocks of 4096 bytes).

Simplifications.
* No permissions, hard links, devices other than file systems, or other processes.
* The names of a directory are read before it is changed.
* Error texts are not modelled: a fallible call gives its value and whether there was an error.
-/
namespace Verif.Io
open Verif Verif.Str Verif.Interp

abbrev Name := Str
/-- The names from the root on. -/
abbrev Path := List Name

/-- What a path leads to. -/
inductive Kind where
  | file (data : Str)
  | dir
  | link (target : Str)
  deriving DecidableEq

abbrev FS := List (Path × Kind)

instance : DecidableEq FS := inferInstanceAs (DecidableEq (List (Path × Kind)))
instance : DecidableEq (Bool × FS) := inferInstance

/-! ### The system -/

/-- What is at a path; the root is a directory. -/
def get (fs : FS) (p : Path) : Option Kind :=
  if p = [] then some .dir else (fs.find? fun e => decide (e.1 = p)).map (·.2)

/-- The entry of a path is removed. -/
def erase (fs : FS) (p : Path) : FS := fs.filter fun e => decide (e.1 ≠ p)

/-- The parts of a text between separators. -/
def splitAt (c : Byte) : Str → List Str
  | [] => [[]]
  | b :: r =>
    if b = c then [] :: splitAt c r
    else match splitAt c r with
      | [] => [[b]]
      | h :: t => (b :: h) :: t

/-- The names of a path as text. -/
def comps (s : Str) : Path := (splitAt 47 s).filter fun n => decide (n ≠ [] ∧ n ≠ [46])

/-- `PATH_MAX`. -/
def pathMax : Nat := 4096
/-- The symbolic links followed in one path (Linux: `MAXSYMLINKS`). -/
def maxLinks : Nat := 40

/-- Names are followed from `acc` on; `next` goes on at a symbolic link.  The last name need not
exist. -/
def follow (fs : FS) (next : Path → Path → Option Path) (last : Bool) : Path → Path → Option Path
  | acc, [] => some acc
  | acc, n :: rest =>
    if get fs acc = some .dir then
      if n = [46, 46] then follow fs next last acc.dropLast rest
      else match get fs (acc ++ [n]) with
        | some (.link t) =>
          if rest = [] ∧ last = false then some (acc ++ [n])
          else next (if t.head? = some 47 then [] else acc) (comps t ++ rest)
        | some _ => follow fs next last (acc ++ [n]) rest
        | none => if rest = [] then some (acc ++ [n]) else none
    else none

/-- Names are followed through at most so many symbolic links. -/
def followMax (fs : FS) (last : Bool) : Nat → Path → Path → Option Path
  | 0 => follow fs (fun _ _ => none) last
  | n + 1 => follow fs (followMax fs last n) last

/-- The place a path as text leads to; `last` tells if a symbolic link at the end is followed. -/
def canon (fs : FS) (last : Bool) (p : Str) : Option Path :=
  if cstr p = [] ∨ pathMax ≤ (cstr p).length then none
  else followMax fs last maxLinks [] (comps (cstr p))

/-- `stat`. -/
def stat (fs : FS) (p : Str) : Option Kind := (canon fs true p).bind (get fs)

/-- `stat(path, &st) == 0 && S_ISDIR(st.st_mode)`. -/
def isDir (fs : FS) (p : Str) : Bool := decide (stat fs p = some .dir)

/-- The name an entry has in a directory, if it is in that directory. -/
def childOf (d p : Path) : Option Name :=
  if p ≠ [] ∧ p.dropLast = d then p.getLast? else none

/-- The names in a directory. -/
def names (fs : FS) (d : Path) : List Name := fs.filterMap fun e => childOf d e.1

/-- `opendir` and `readdir`, without `.` and `..`. -/
def list (fs : FS) (p : Str) : Option (List Name) :=
  match canon fs true p with
  | some d => if get fs d = some .dir then some (names fs d) else none
  | none => none

/-- `unlink`: not for directories. -/
def unlink (fs : FS) (p : Str) : Option FS :=
  match canon fs false p with
  | some q =>
    match get fs q with
    | some .dir => none
    | some _ => some (erase fs q)
    | none => none
  | none => none

/-- `rmdir`: for directories without entries, not for the root. -/
def rmdir (fs : FS) (p : Str) : Option FS :=
  match canon fs false p with
  | some q =>
    if q ≠ [] ∧ get fs q = some .dir ∧ names fs q = [] then some (erase fs q) else none
  | none => none

inductive Made where
  | made (fs : FS)
  /-- `EEXIST` -/
  | exists_
  /-- any other error -/
  | failed
  deriving DecidableEq

/-- `mkdir`. -/
def mkdir (fs : FS) (p : Str) : Made :=
  match canon fs false p with
  | some q =>
    match get fs q with
    | some _ => .exists_
    | none => .made (fs ++ [(q, .dir)])
  | none => .failed

/-- The data of a file is replaced. -/
def setData (fs : FS) (q : Path) (data : Str) : FS :=
  fs.map fun e => if e.1 = q then (q, .file data) else e

/-- `open` with `O_WRONLY | O_CREAT | O_TRUNC`, `fopen` with `"wb"`. -/
def openTrunc (fs : FS) (p : Str) : Option (Path × FS) :=
  match canon fs true p with
  | some q =>
    match get fs q with
    | some (.file _) => some (q, setData fs q [])
    | none => some (q, fs ++ [(q, .file [])])
    | _ => none
  | none => none

/-- `fopen` with `"ab"`: also the data that is there. -/
def openAppend (fs : FS) (p : Str) : Option (Path × Str × FS) :=
  match canon fs true p with
  | some q =>
    match get fs q with
    | some (.file d) => some (q, d, fs)
    | none => some (q, [], fs ++ [(q, .file [])])
    | _ => none
  | none => none

/-- The block size of the C library. -/
def block : Nat := 4096

/-- `fwrite(data) == len` on a file that takes `room` more bytes: the whole blocks are handed to the
system, the rest stays in the buffer. -/
def fwriteAll (room : Nat) (data : Str) : Bool := decide (data.length / block * block ≤ room)

/-- The data of an open file. -/
def dataOf (fs : FS) (q : Path) : Str :=
  match get fs q with
  | some (.file d) => d
  | _ => []

/-- `fopen` with `"rb"`, for what is not a directory. -/
def openRead (fs : FS) (p : Str) : Option Path :=
  match canon fs true p with
  | some q =>
    match get fs q with
    | some (.file _) => some q
    | _ => none
  | none => none

/-- A path and what is below it move to another place. -/
def moved (s d : Path) (fs : FS) : FS :=
  fs.map fun e => if s <+: e.1 then (d ++ e.1.drop s.length, e.2) else e

/-- `rename`; `dev` tells the device a place is on. -/
def rename (dev : Path → Nat) (fs : FS) (p p' : Str) : Option FS :=
  match canon fs false p, canon fs false p' with
  | some s, some d =>
    if s = [] ∨ d = [] ∨ dev s ≠ dev d then none
    else match get fs s, get fs d with
      | none, _ => none
      | some _, none => if s <+: d then none else some (moved s d fs)
      | some .dir, some .dir =>
        if s = d then some fs
        else if s <+: d ∨ names fs d ≠ [] then none
        else some (moved s d (erase fs d))
      | some .dir, some _ => none
      | some _, some .dir => none
      | some _, some _ => if s = d then some fs else some (moved s d (erase fs d))
  | _, _ => none

/-! ### Reading -/

/-- The loop for input without a size (237-256): how much has been read when it ends. `total` is
the size of the input. -/
def streamLoop (total : Nat) : Nat → Nat → Nat → Outcome Nat
  | 0, _, _ => .ub
  | fuel + 1, cap, len =>
    if len = cap ∧ int32Max / 2 < cap then .panic "P0053"
    else
      let cap := if len = cap then cap * 2 else cap
      let got := min (cap - len) (total - len)
      if got = 0 then .ok len else streamLoop total fuel cap (len + got)

/-- The input, read by the loop of 237-264. -/
def stream (input : Str) : Outcome Str :=
  match streamLoop input.length 64 4096 0 with
  | .ok n => .ok (input.take n)
  | .panic c => .panic c
  | .ub => .ub

/-- `gray_io_read_file` (207-265). -/
def readFile (fs : FS) (p : Str) : Outcome Str :=
  if isDir fs p then .panic "P0086"
  else match openRead fs p with
    | none => .ok []
    | some q =>
      let d := dataOf fs q
      if d.length ≤ int32Max then .ok d else stream d

/-- `gray_io_read_file_result` (551-617): the value, and whether there was an error. -/
def readFileResult (fs : FS) (p : Str) : Outcome (Str × Bool) :=
  if isDir fs p then .ok ([], true)
  else match openRead fs p with
    | none => .ok ([], true)
    | some q =>
      let d := dataOf fs q
      if d.length ≤ int32Max then .ok (d, false) else .ok ([], true)

/-- The loop of `gray_io_read_lines` (287-300). -/
def linesLoop : Nat → Str → List Str
  | 0, _ => []
  | fuel + 1, s =>
    if s = [] then []
    else
      let l := s.takeWhile (· != 10)
      let l' := if l.getLast? = some 13 then l.dropLast else l
      l' :: linesLoop fuel (s.drop (l.length + 1))

/-- The lines of a text. -/
def lines (s : Str) : List Str := linesLoop s.length s

/-- `gray_io_read_lines` (279-302). -/
def readLines (fs : FS) (p : Str) : Outcome (List Str) :=
  if isDir fs p then .panic "P0086"
  else match readFile fs p with
    | .ok s => .ok (lines s)
    | .panic c => .panic c
    | .ub => .ub

/-- `gray_io_read_lines_result` (851-886). -/
def readLinesResult (fs : FS) (p : Str) : Outcome (List Str × Bool) :=
  if isDir fs p then .ok ([], true)
  else match readFileResult fs p with
    | .ok (s, e) => if e then .ok ([], true) else .ok (lines s, false)
    | .panic c => .panic c
    | .ub => .ub

/-- `gray_io_file_exists` (304-306). -/
def fileExists (fs : FS) (p : Str) : Bool := (stat fs p).isSome

/-! ### Writing -/

/-- What is in a file after writing to it: what it took. -/
def written (fs : FS) (q : Path) (old : Str) (room : Nat) (data : Str) : FS :=
  setData fs q (old ++ data.take room)

/-- `gray_io_write_file` (334-343), `gray_io_write_bytes` (356-365). -/
def writeFile (fs : FS) (room : Nat) (p data : Str) : Outcome (Bool × FS) :=
  if isDir fs p then .panic "P0087"
  else match openTrunc fs p with
    | none => .ok (false, fs)
    | some (q, fs') => .ok (fwriteAll room data, written fs' q [] room data)

/-- `gray_io_write_file_result` (619-640), `gray_io_write_bytes_result` (909-930). -/
def writeFileResult (fs : FS) (room : Nat) (p data : Str) : Outcome (Bool × Bool × FS) :=
  if isDir fs p then .ok (false, true, fs)
  else match openTrunc fs p with
    | none => .ok (false, true, fs)
    | some (q, fs') => .ok (true, false, written fs' q [] room data)

/-- `gray_io_append_file` (345-354), `gray_io_append_bytes` (367-376). -/
def appendFile (fs : FS) (room : Nat) (p data : Str) : Outcome (Bool × FS) :=
  if isDir fs p then .panic "P0088"
  else match openAppend fs p with
    | none => .ok (false, fs)
    | some (q, old, fs') => .ok (fwriteAll room data, written fs' q old room data)

/-- `gray_io_append_file_result` (663-680), `gray_io_append_bytes_result` (932-949). -/
def appendFileResult (fs : FS) (room : Nat) (p data : Str) : Outcome (Bool × Bool × FS) :=
  if isDir fs p then .ok (false, true, fs)
  else match appendFile fs room p data with
    | .ok (b, fs') => .ok (b, !b, fs')
    | .panic c => .panic c
    | .ub => .ub

/-! ### Deleting, renaming, copying and moving -/

/-- `gray_io_delete_file` (394-399). -/
def deleteFile (fs : FS) (p : Str) : Outcome (Bool × FS) :=
  if isDir fs p then .panic "P0077"
  else match unlink fs p with
    | some fs' => .ok (true, fs')
    | none => .ok (false, fs)

/-- `gray_io_delete_file_result` (642-661). -/
def deleteFileResult (fs : FS) (p : Str) : Outcome (Bool × Bool × FS) :=
  if isDir fs p then .ok (false, true, fs)
  else match unlink fs p with
    | some fs' => .ok (true, false, fs')
    | none => .ok (false, true, fs)

/-- `gray_io_rename_file` (401-403). -/
def renameFile (dev : Path → Nat) (fs : FS) (p p' : Str) : Bool × FS :=
  match rename dev fs p p' with
  | some fs' => (true, fs')
  | none => (false, fs)

/-- `gray_io_copy_file` (407-427): the source is read after the target has been opened. -/
def copyFile (fs : FS) (room : Nat) (p p' : Str) : Outcome (Bool × FS) :=
  if isDir fs p then .panic "P0089"
  else match openRead fs p with
    | none => .ok (false, fs)
    | some s =>
      match openTrunc fs p' with
      | none => .ok (false, fs)
      | some (q, fs') =>
        let d := dataOf fs' s
        .ok (fwriteAll room d, written fs' q [] room d)

/-- `gray_io_copy_file_result` (694-712). -/
def copyFileResult (fs : FS) (room : Nat) (p p' : Str) : Outcome (Bool × Bool × FS) :=
  if isDir fs p then .ok (false, true, fs)
  else match copyFile fs room p p' with
    | .ok (b, fs') => .ok (b, !b, fs')
    | .panic c => .panic c
    | .ub => .ub

/-- `gray_io_move_file` (429-434). -/
def moveFile (dev : Path → Nat) (fs : FS) (room : Nat) (p p' : Str) : Outcome (Bool × FS) :=
  match rename dev fs p p' with
  | some fs' => .ok (true, fs')
  | none =>
    match copyFile fs room p p' with
    | .ok (true, fs') => .ok (true, (unlink fs' p).getD fs')
    | .ok (false, fs') => .ok (false, fs')
    | .panic c => .panic c
    | .ub => .ub

/-- `gray_io_move_file_result` (714-724). -/
def moveFileResult (dev : Path → Nat) (fs : FS) (room : Nat) (p p' : Str) :
    Outcome (Bool × Bool × FS) :=
  match moveFile dev fs room p p' with
  | .ok (b, fs') => .ok (b, !b, fs')
  | .panic c => .panic c
  | .ub => .ub

/-! ### Directories -/

/-- `GRAY_IO_PATH_BUF` (28). -/
def pathBuf : Nat := 4096

/-- `snprintf(child, sizeof(child), "%s/%s", path, name)`. -/
def childPath (p : Str) (n : Name) : Str := (p ++ 47 :: n).take (pathBuf - 1)

/-- `gray_io_make_dir` (453-455). -/
def makeDir (fs : FS) (p : Str) : Bool × FS :=
  match mkdir fs p with
  | .made fs' => (true, fs')
  | _ => (false, fs)

/-- The loop of `gray_io_make_dir_all` (463-469): `pre` is the text before, as it is in the buffer. -/
def mkdirLoop : FS → Str → Str → FS × Str
  | fs, pre, [] => (fs, pre)
  | fs, pre, c :: r =>
    if c = 47 ∨ c = 92 then mkdirLoop (makeDir fs pre).2 (pre ++ [47]) r
    else mkdirLoop fs (pre ++ [c]) r

/-- `gray_io_make_dir_all` (457-471). -/
def makeDirAll (fs : FS) (p : Str) : Bool × FS :=
  if p = [] ∨ pathBuf ≤ p.length then (false, fs)
  else
    let s := cstr p
    let (fs', buf) := mkdirLoop fs (s.take 1) (s.drop 1)
    match mkdir fs' buf with
    | .made fs'' => (true, fs'')
    | .exists_ => (true, fs')
    | .failed => (false, fs')

/-- `gray_io_remove_dir` (473-475). -/
def removeDir (fs : FS) (p : Str) : Bool × FS :=
  match rmdir fs p with
  | some fs' => (true, fs')
  | none => (false, fs)

/-- The loop of `remove_dir_recursive` (480-492); `rec` is the call for a directory. -/
def removeLoop (rec : FS → Str → Bool × FS) (p : Str) : List Name → Bool → FS → Bool × FS
  | [], ok, fs => (ok, fs)
  | n :: ns, ok, fs =>
    let child := childPath p n
    match stat fs child with
    | none => removeLoop rec p ns false fs
    | some .dir =>
      let (b, fs') := rec fs child
      removeLoop rec p ns (ok && b) fs'
    | some _ =>
      match unlink fs child with
      | some fs' => removeLoop rec p ns ok fs'
      | none => removeLoop rec p ns false fs

/-- `remove_dir_recursive` (477-496) with so many file descriptors left. -/
def removeRec : Nat → FS → Str → Bool × FS
  | 0, fs, _ => (false, fs)
  | fds + 1, fs, p =>
    match list fs p with
    | none => (false, fs)
    | some ns =>
      let (ok, fs') := removeLoop (removeRec fds) p ns true fs
      match rmdir fs' p with
      | some fs'' => (ok, fs'')
      | none => (false, fs')

/-- `gray_io_remove_dir_all` (498-500). -/
def removeDirAll (fds : Nat) (fs : FS) (p : Str) : Bool × FS := removeRec fds fs (cstr p)

/-- The loop of `walk_recursive` (511-527). -/
def walkLoop (fs : FS) (rec : Str → List Str) (full rel : Str) : List Name → List Str
  | [] => []
  | n :: ns =>
    let childRel := if rel = [] then n else rel ++ 47 :: n
    childRel ::
      ((if stat fs (childPath full n) = some .dir then rec childRel else []) ++
        walkLoop fs rec full rel ns)

/-- `walk_recursive` (502-529) with so many file descriptors left. -/
def walkRec (fs : FS) (base : Str) : Nat → Str → List Str
  | 0, _ => []
  | fds + 1, rel =>
    let full := if rel = [] then base.take (pathBuf - 1) else childPath base rel
    match list fs full with
    | none => []
    | some ns => walkLoop fs (walkRec fs base fds) full rel ns

/-- `gray_io_walk` (531-535). -/
def walk (fds : Nat) (fs : FS) (p : Str) : List Str := walkRec fs (cstr p) fds []

/-- `gray_io_walk_result` (789-801): only the directory itself is checked. -/
def walkResult (fds : Nat) (fs : FS) (p : Str) : List Str × Bool :=
  match fds, list fs (cstr p) with
  | 0, _ => ([], true)
  | _, none => ([], true)
  | fds + 1, some _ => (walk (fds + 1) fs p, false)

/-- `gray_io_list_dir` (438-451). -/
def listDir (fs : FS) (p : Str) : List Name := (list fs p).getD []

/-! ### Temporary files -/

/-- `GRAY_IO_MAX_TEMP_PATHS` (34). -/
def maxTemps : Nat := 256

/-- `temp_registry_add` (58-66), after the file or directory has been made. -/
def register (reg : List Str) (p : Str) : List Str :=
  if reg.length < maxTemps then reg ++ [p] else reg

/-- `gray_io_temp_file`, `gray_io_temp_dir` (378-392): `p` is the new name `mkstemp` has found. -/
def makeTemp (k : Kind) (st : FS × List Str) (p : Str) : FS × List Str :=
  (st.1 ++ [(comps p, k)], register st.2 p)

/-- `gray_io_temp_cleanup` (45-57). -/
def cleanup (fds : Nat) : List Str → FS → FS
  | [], fs => fs
  | p :: ps, fs =>
    match stat fs p with
    | none => cleanup fds ps fs
    | some .dir => cleanup fds ps (removeRec fds fs p).2
    | some _ => cleanup fds ps ((unlink fs p).getD fs)

end Verif.Io

import Verif.Model.Path

/-
Installing an update (/repo/cli/update.go:1044-1136, 1172-1300).

Simplifications.
* Of the file system only the executable path and its backup are kept, with their bytes and whether
  they may be executed. The other steps of doInstall work in a fresh temporary directory.
* `os.Rename` is atomic. What each system call does is given by `Faults`.
* Extraction is that of a readable archive: an entry is a name, a kind and the bytes tar.Reader gives
  (none for directories and links). Only the bytes of the extracted files are kept.
-/
namespace Verif.Install
open Verif Verif.Str Verif.Path

structure File where
  data : Str
  exe : Bool
  deriving DecidableEq

/-- The executable path and the backup path. -/
structure FS where
  exec : Option File
  backup : Option File
  deriving DecidableEq

/-- Which calls succeed. -/
structure Faults where
  /-- `os.Rename(execPath, backupPath)` -/
  rename : Bool
  /-- `os.Open(src)` of copyFile -/
  openSrc : Bool
  /-- `os.Create(dst)` of copyFile -/
  create : Bool
  /-- `io.Copy` fails after so many bytes -/
  copyFails : Option Nat
  /-- a delayed write error, reported by the ignored `out.Close()`: only so many bytes are kept -/
  closeLoses : Option Nat
  /-- `os.Chmod(execPath, 0755)` -/
  chmod : Bool
  /-- `os.Remove(execPath)` -/
  removeExec : Bool
  /-- `os.Rename(backupPath, execPath)` -/
  restore : Bool
  /-- `os.Remove(backupPath)` -/
  removeBackup : Bool

/-- Puts the backup back. -/
def doRestore (f : Faults) (fs : FS) : FS := if f.restore then ⟨fs.backup, none⟩ else fs

/-- `copyFile(binaryPath, execPath)` (update.go:1283-1300): the states after each step, and success. -/
def copyFile (f : Faults) (new : Str) (fs : FS) : List FS × Bool :=
  if !f.openSrc then ([], false)
  else if !f.create then ([], false)
  else
    let created : FS := { fs with exec := some ⟨[], false⟩ }
    match f.copyFails with
    | some k => ([created, { fs with exec := some ⟨new.take k, false⟩ }], false)
    | none =>
      match f.closeLoses with
      | some k => ([created, { fs with exec := some ⟨new.take k, false⟩ }], true)
      | none => ([created, { fs with exec := some ⟨new, false⟩ }], true)

/-- The last of the states. -/
def lastOr (fs : FS) (tr : List FS) : FS := tr.getLast?.getD fs

/-- The end of `doInstall` (update.go:1104-1136): the states after each step, starting with the first
one, and whether it reports success. -/
def install (f : Faults) (new : Str) (fs : FS) : List FS × Bool :=
  if !f.rename then ([fs], false)
  else
    let fs1 : FS := ⟨none, fs.exec⟩
    let (tr, ok) := copyFile f new fs1
    let fs2 := lastOr fs1 tr
    if !ok then ([fs, fs1] ++ tr ++ [doRestore f fs2], false)
    else if !f.chmod then
      let fs3 : FS := if f.removeExec then { fs2 with exec := none } else fs2
      ([fs, fs1] ++ tr ++ [fs3, doRestore f fs3], false)
    else
      let fs3 : FS := { fs2 with exec := fs2.exec.map fun x => { x with exe := true } }
      let fs4 : FS := if f.removeBackup then { fs3 with backup := none } else fs3
      ([fs, fs1] ++ tr ++ [fs3, fs4], true)

/-- The state at the end. -/
def final (f : Faults) (new : Str) (fs : FS) : FS := lastOr fs (install f new fs).1

/-! ### Extraction -/

inductive Kind where
  | file | dir | link
  deriving DecidableEq

structure Entry where
  name : Str
  kind : Kind
  data : Str
  deriving DecidableEq

/-- The extracted files, latest first. -/
abbrev Files := List (Str × Str)

/-- `wantFiles` (update.go:1188). -/
def wanted (n : Str) : Bool :=
  n == lit "gray" || n == lit "gray.exe" || n == lit "grayc" || n == lit "libgrayrt.a"

/-- The loop of extractTarGz (update.go:1191-1226): the files and `grayBinaryPath`. The kind of the
entry is not looked at. -/
def extractLoop : List Entry → Files → Option Str → Files × Option Str
  | [], fs, b => (fs, b)
  | e :: r, fs, b =>
    let name := goBase e.name
    if !wanted name then extractLoop r fs b
    else
      let data := if e.kind = .file then e.data else []
      extractLoop r ((name, data) :: fs)
        (if name == lit "gray" || name == lit "gray.exe" then some name else b)

/-- `extractTarGz` (update.go:1173-1232): the bytes of the file at the returned path. -/
def extract (es : List Entry) : Option Str :=
  match extractLoop es [] none with
  | (_, none) => none
  | (fs, some n) => (fs.find? fun p => p.1 == n).map (·.2)

end Verif.Install

import Verif.Model.Str

/-
File paths: the io module (/repo/grayc/src/stdlib/io.c:71-202), the checks of the CLI on project
names (/repo/cli/new.go:145-157), on archive entries and on download addresses
(/repo/cli/update.go:1025-1041, 1140-1170).

Simplifications.
* The loops of gray_io_normalize that find the tokens are one pass over the bytes; the bytes are not
  overwritten.
* `int` indices are natural numbers: a GrayString has at most INT32_MAX bytes.
* Go's path/filepath (Base, Clean, Join, Abs, IsAbs) is that of Unix, written from its documentation.
* Of a download address only the parsed scheme, host and (decoded) path are modelled.
-/
namespace Verif.Path
open Verif Verif.Str

/-! ### The io module -/

/-- `c == '/' || c == '\\'`. -/
def isSep (c : Byte) : Bool := c == 47 || c == 92

/-- `GRAY_IO_MAX_SEGMENTS` (io.c:31). -/
def maxSegments : Nat := 256

/-- One token (io.c:174-184) with the segments so far, the last one first. -/
def step (absolute : Bool) (seg : Str) (st : List Str) : Outcome (List Str) :=
  if seg = [] then .ok st
  else if seg = [46] then .ok st
  else if seg = [46, 46] then
    match st with
    | s :: st' =>
      if s ≠ [46, 46] then .ok st'
      else if !absolute then (if st.length < maxSegments then .ok (seg :: st) else .ub)
      else .ok st
    | [] => if !absolute then .ok [seg] else .ok []
  else if st.length < maxSegments then .ok (seg :: st)
  else .ok st

/-- The token loop (io.c:167-185): `cur` is the part of the current token already read. -/
def segLoop (absolute : Bool) : Str → Str → List Str → Outcome (List Str)
  | [], cur, st => step absolute cur st
  | c :: r, cur, st =>
    if c = 47 then do
      let st ← step absolute cur st
      segLoop absolute r [] st
    else segLoop absolute r (cur ++ [c]) st

/-- The loop that writes the segments (io.c:191-196). -/
def glueSlash : List Str → Str
  | [] => []
  | [s] => s
  | s :: t :: r => s ++ 47 :: glueSlash (t :: r)

/-- `gray_io_normalize` (io.c:154-202). -/
def normalize (path : Str) : Outcome Str :=
  if path = [] then .ok [46]
  else do
    let buf := (path.map fun c => if c = 92 then 47 else c).takeWhile (fun c => c != 0)
    let absolute := buf.head? == some 47
    let st ← segLoop absolute buf [] []
    let out := (if absolute then [47] else []) ++ glueSlash st.reverse
    .ok (if out = [] then [46] else out)

/-- `%.*s` stops at a NUL. -/
def upToNul (s : Str) : Str := s.takeWhile (fun c => c != 0)

/-- `gray_string_format` of the pieces: empty when longer than INT_MAX. -/
def formatted (t : Str) : Str := if int32Max < t.length then [] else t

/-- The last byte is a separator. -/
def endsSep (s : Str) : Bool :=
  match s.reverse with
  | [] => false
  | c :: _ => isSep c

/-- One step of `gray_io_path_join` (io.c:74-88). -/
def joinStep (result seg : Str) : Str :=
  match seg with
  | [] => result
  | c :: _ =>
    if isSep c then seg
    else if endsSep result then formatted (upToNul result ++ upToNul seg)
    else formatted (upToNul result ++ 47 :: upToNul seg)

/-- `gray_io_path_join` (io.c:71-90). -/
def pathJoin : List Str → Str
  | [] => [46]
  | p :: ps => ps.foldl joinStep p

/-- The loop that strips separators at the end, on the reversed path; one byte is kept (io.c:95-96). -/
def stripKeep : Str → Str
  | c :: d :: r => if isSep c then stripKeep (d :: r) else c :: d :: r
  | s => s

/-- `gray_io_dirname` (io.c:92-112). -/
def dirname (path : Str) : Str :=
  if path = [] then [46]
  else
    match (stripKeep path.reverse).dropWhile (fun c => !isSep c) with
    | [] => [46]
    | _ :: before => if before = [] then [47] else before.reverse

/-- `gray_io_basename` (io.c:114-127). -/
def basename (path : Str) : Str :=
  if path = [] then [46]
  else
    match path.reverse.dropWhile isSep with
    | [] => [47]
    | c :: r => ((c :: r).takeWhile (fun c => !isSep c)).reverse

/-- `gray_io_extension` (io.c:129-148). -/
def extension (path : Str) : Str :=
  let last := path.reverse.takeWhile (fun c => !isSep c)
  let tail := last.takeWhile (fun c => c != 46)
  match last.dropWhile (fun c => c != 46) with
  | [] => []
  | _ :: stem => if tail = [] then [] else if stem = [] then [] else 46 :: tail.reverse

/-- `gray_io_is_absolute` (io.c:150-152). -/
def isAbsolute (path : Str) : Bool := path.head? == some 47

/-! ### Go's path/filepath on Unix -/

/-- `filepath.IsAbs`. -/
def goIsAbs (p : Str) : Bool := p.head? == some 47

/-- `filepath.Base`. -/
def goBase (p : Str) : Str :=
  if p = [] then [46]
  else
    match p.reverse.dropWhile (fun c => c == 47) with
    | [] => [47]
    | c :: r => ((c :: r).takeWhile (fun c => c != 47)).reverse

/-- One element of a path in `filepath.Clean`; the elements kept so far are reversed. -/
def cleanStep (rooted : Bool) (st : List Str) (seg : Str) : List Str :=
  if seg = [] ∨ seg = [46] then st
  else if seg = [46, 46] then
    match st with
    | [] => if rooted then [] else [seg]
    | s :: st' => if s = [46, 46] then seg :: st else st'
  else seg :: st

/-- The elements between slashes. -/
def elements : Str → List Str
  | [] => [[]]
  | c :: r =>
    if c = 47 then [] :: elements r
    else match elements r with
      | [] => [[c]]
      | p :: ps => (c :: p) :: ps

/-- `filepath.Clean`. -/
def goClean (p : Str) : Str :=
  let st := (elements p).foldl (cleanStep (goIsAbs p)) []
  let out := (if goIsAbs p then [47] else []) ++ glueSlash st.reverse
  if out = [] then [46] else out

/-- `filepath.Join` of two elements. -/
def goJoin (a b : Str) : Str :=
  if a = [] then (if b = [] then [] else goClean b)
  else if b = [] then goClean a
  else goClean (a ++ 47 :: b)

/-- `filepath.Abs` in the working directory `wd`. -/
def goAbs (wd p : Str) : Str := if goIsAbs p then goClean p else goJoin wd p

/-- The check of sanitizeArchivePath (update.go:1164-1167). -/
def insideCheck (absDir absPath : Str) : Bool :=
  (absDir ++ [47]).isPrefixOf absPath || absPath == absDir

/-- `sanitizeArchivePath` (update.go:1138-1170); none is an error. -/
def sanitize (wd destDir filename : Str) : Option Str :=
  let cleanName := goClean (goBase filename)
  if cleanName = [] ∨ cleanName = [46] ∨ cleanName = [46, 46] then none
  else
    let destPath := goJoin destDir cleanName
    if insideCheck (goAbs wd destDir) (goAbs wd destPath) then some destPath else none

/-- `strings.Contains(name, "..")`. -/
def hasDotDot : Str → Bool
  | c :: d :: r => (c == 46 && d == 46) || hasDotDot (d :: r)
  | _ => false

/-- `isValidProjectName` (new.go:145-157). -/
def isValidProjectName (name : Str) : Bool :=
  if name = [] then false
  else if goIsAbs name || (name.head? == some 126) then false
  else if name.any (fun c => c == 47 || c == 92) || hasDotDot name then false
  else goClean name == name && goClean name != [46] && goClean name != [46, 46]

/-- `isTrustedUpdateURL` (update.go:1033-1041) of a parsed address. -/
def isTrusted (scheme host path : Str) : Bool :=
  scheme == lit "https" && host == lit "github.com" &&
    (lit "/grayscale-lang/grayscale/releases/download/").isPrefixOf path

end Verif.Path

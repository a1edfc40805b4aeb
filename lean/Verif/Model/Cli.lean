import Verif.Model.Diag

/-!
# The command line

Models
* the commands `gray file.gray …`, `gray check` and `gray build` as far as they call the compiler (`cli/commands.go` 29-86, 579-623;
  `cli/main.go` 35-43; `internal/grayc/grayc.go` 83-150, 190-207);
* the options of `grayc`, the names of its output files, the command given to the C compiler and the exit status
  (`grayc/src/main.c` 179-194, 640-710, 1544-1560, 1648-1832).

Simplifications.
* Cobra has already separated flags from arguments; `dash` is the number of arguments before `--`.
* Files exist, and the source compiles. Of an empty argument only that it starts with none of the characters asked for is used.
* The path of the runtime archive is a parameter (1668-1685), and so is the runtime directory (204-262).
-/

namespace Verif.Cli
open Verif Verif.Str Verif.Diag

/-! ## `gray` -/

/-- `strings.HasSuffix(args[0], ".gray")`. -/
def hasExt (s : Str) : Bool := (lit ".gray").isSuffixOf s

/-- The flag `--quiet` passed on, commands.go 42-46. -/
def quietArgs (quiet : Str) : List Str :=
  if quiet = lit "all" then [lit "--quiet"] else if quiet ≠ [] then [lit "--quiet", quiet] else []

/-- commands.go 585-617 and grayc.go 86-96: the arguments of `grayc` for `gray file.gray …`. -/
def runArgs (args : List Str) (dash : Option Nat) (quiet : Str) (noColor : Bool) : Option (List Str) :=
  match args with
  | [] => none
  | file :: rest =>
    if hasExt file = false then none
    else
      let extra := match dash with
        | some (d + 1) => args.drop (d + 1)
        | _ => rest
      some ([lit "run", file] ++ quietArgs quiet ++ (if noColor then [lit "--no-color"] else []) ++ extra)

/-- commands.go 29-55 and grayc.go 141-150 for a file. -/
def checkArgs (file quiet : Str) : Option (List Str) :=
  if hasExt file = false then none else some ([lit "check", file] ++ quietArgs quiet)

/-! ## `grayc` -/

/-- Variables of `main`, 625-637. -/
structure Config where
  input : Option Str := none
  output : Option Str := none
  emitC : Bool := false
  check : Bool := false
  run : Bool := false
  fmt : Bool := false
  verbose : Bool := false
  time : Bool := false
  noColor : Bool := false
  debug : Bool := false
  quietAll : Bool := false
  quietCodes : Option Str := none
  opt : Str := lit "-O2"
  deriving DecidableEq, Repr

/-- Version or usage is printed (status 0), the arguments are refused (status 1), or the compiler starts. -/
inductive Parsed where
  | info
  | refused
  | go (c : Config)
  deriving DecidableEq, Repr

/-- 640-715. `fuel` counts the arguments. -/
def parse : Nat → List Str → Config → Parsed
  | 0, _, c => if c.input = none then .refused else .go c
  | _ + 1, [], c => if c.input = none then .refused else .go c
  | n + 1, a :: as, c =>
    if a = lit "version" ∨ a = lit "--version" then .info
    else if a = lit "--help" ∨ a = lit "-h" then .info
    else if a = lit "-o" ∧ as ≠ [] then parse n as.tail { c with output := as.head? }
    else if a = lit "-c" then parse n as { c with emitC := true }
    else if a = lit "-O0" ∨ a = lit "-O1" ∨ a = lit "-O2" ∨ a = lit "-O3" then parse n as { c with opt := a }
    else if a = lit "-g" then parse n as { c with debug := true }
    else if a = lit "-v" ∨ a = lit "--verbose" then parse n as { c with verbose := true }
    else if a = lit "--time" then parse n as { c with time := true }
    else if a = lit "--no-color" then parse n as { c with noColor := true }
    else if a = lit "--quiet" ∨ a = lit "-q" then
      if as.head?.bind List.head? = some 87 then parse n as.tail { c with quietCodes := as.head? }
      else if as.head?.bind List.head? = some 69 then .refused
      else parse n as { c with quietAll := true }
    else if a = lit "check" ∧ c.input = none then parse n as { c with check := true }
    else if a = lit "build" ∧ c.input = none then parse n as c
    else if a = lit "run" ∧ c.input = none then parse n as { c with run := true }
    else if a = lit "--fmt" then parse n as { c with fmt := true }
    else if a.head? = some 45 then .refused
    else parse n as { c with input := some a }

def parseArgs (args : List Str) : Parsed := parse args.length args {}

/-- What a run of `grayc` does in the end. -/
inductive Action where
  | info
  | refused
  | format (file : Str)
  | check (file : Str)
  | emit (file : Str)
  | build (file : Str)
  /-- The program compiled from a file is run with the given arguments. -/
  | exec (file : Str) (args : List Str)
  deriving DecidableEq, Repr

/-- The order in `main`: formatting (731), `check` (1525), `-c` (1571), running (1796-1817, without arguments) or building. -/
def action : Parsed → Action
  | .info => .info
  | .refused => .refused
  | .go c =>
    match c.input with
    | none => .refused
    | some f =>
      if c.fmt then .format f
      else if c.check then .check f
      else if c.emitC then .emit f
      else if c.run then .exec f []
      else .build f

/-- 779-815: which warnings are hidden (`none`: refused). -/
def quietOf (c : Config) : Option (Bool × List Str) :=
  if c.quietAll then some (true, [])
  else match c.quietCodes with
    | none => some (false, [])
    | some arg => (quietCodes arg).map fun l => (false, l)

/-! ## Exit status -/

/-- How the program ended: by itself with a status, or by a signal. -/
inductive Ended where
  | exited (status : Nat)
  | signaled (sig : Nat)
  deriving DecidableEq, Repr

/-- `waitpid` (1806-1808) and the end of `main` (1831), then `execute` (grayc.go 190-207) and `main` of `gray`. -/
def exitStatus (e : Ended) : Nat :=
  let ret := match e with
    | .exited s => s
    | .signaled _ => 1
  let grayc := if ret ≠ 0 then 1 else 0
  grayc

/-! ## Names of files -/

/-- `strrchr(path, '/') + 1`, or the whole. -/
def baseName (path : Str) : Str := (path.reverse.takeWhile (· != 47)).reverse

/-- `output_name_from_input`, 180-194. -/
def outputName (input : Str) : Str :=
  let base := baseName input
  if base.length > 5 ∧ (lit ".gray").isSuffixOf base then base.take (base.length - 5) else base

/-- 1556-1560: the C file is named after the output file; the buffer has 2048 bytes. -/
def cFile (output : Str) : Str := (lit "/tmp/gray_" ++ baseName output ++ lit ".c").take 2047

/-! ## The C compiler -/

/-- Path in single quotes. -/
def quoted (s : Str) : Str := [39] ++ s ++ [39]

def runtimeSrcs : List Str := [lit "runtime/runtime.c", lit "runtime/array.c", lit "runtime/map.c"]

def stdlibSrcs : List Str := ["arrays", "binary", "builtins", "bytes", "channels", "crypto", "csv", "encoding", "fmt", "http", "io", "json", "maps",
  "math", "mem", "net", "os", "random", "regex", "server", "sqlite", "strings", "sync", "atomic", "threads", "time", "uuid", "strconv"].map
    fun s => lit "stdlib/" ++ lit s ++ lit ".c"

/-- The first part of the command, 1699-1702 and 1739-1742. -/
def cmdHead (opt : Str) (debug : Bool) (rt : Str) : Str :=
  lit "cc -std=c11 " ++ (if debug then lit "-g " ++ opt else opt) ++
  lit " -Wall -Wno-unused-function -Wno-unused-variable -Wno-unused-but-set-variable " ++
  lit "-Wno-tautological-compare -Wno-infinite-recursion " ++
  lit "-isystem " ++ quoted rt ++ lit "/runtime -isystem " ++ quoted rt ++ lit "/stdlib "

/-- The command before the redirection ` 2>&1`: with the archive (1698-1707), or with the sources of the runtime (1709-1747). -/
def command (opt : Str) (debug : Bool) (rt out c : Str) (lib : Option Str) : Str :=
  cmdHead opt debug rt ++ lit "-o " ++ quoted out ++ lit " " ++ quoted c ++ lit " " ++
  (match lib with
    | some l => quoted l ++ lit " "
    | none => (runtimeSrcs ++ stdlibSrcs).flatMap fun s => quoted (rt ++ [47] ++ s) ++ lit " ") ++
  lit "-lm -lpthread -Wl,-w"

/-- 1640-1658 and 1753-1762: quotes are refused in the runtime directory and the output path, and commands that do not fit in the
buffer. -/
def compileCmd (opt : Str) (debug : Bool) (rt out c : Str) (lib : Option Str) : Option Str :=
  if 39 ∈ rt ∨ 39 ∈ out then none
  else
    let cmd := command opt debug rt out c lib
    if cmd.length + 5 ≥ 8191 then none else some cmd

end Verif.Cli

import Verif.Model.Cli

/-!
# Importing files: renaming and merging

Models `grayc/src/main.c` 264-618 (renaming of types and labels, the set of imported files, the scan of a directory) and 834-1520
(resolution of imports; merging of declarations).

Simplifications.
* Of the syntax tree only what renaming looks at is kept: labels, function references, type names, and the places where names are
  bound. Everything that `rewrite_labels` passes through is `seq`.
* Strings are without 0 bytes. Pointer equality of `rewrite_type_name`'s result with its argument is the first component of the result.
* `realpath` has been applied to paths where the code does so; files can be read and are without errors.
-/

namespace Verif.Merge
open Verif Verif.Str Verif.Cli

/-- `snprintf` into `MSG_BUF_SIZE` bytes. -/
def cut (s : Str) : Str := s.take 255

/-- Original and new names; the first entry counts. -/
abbrev Names := List (Str × Str)

/-- The loops `strcmp(x, orig[i]) == 0`. -/
def ren (m : Names) (x : Str) : Str := ((m.find? fun p => p.1 == x).map (·.2)).getD x

def hasName (m : Names) (x : Str) : Bool := m.any fun p => p.1 == x

/-! ## Types, 276-347 -/

/-- The first separator outside brackets, 296-300 and 330-334. -/
def splitTop (sep : Byte) : Int → Str → Option (Str × Str)
  | _, [] => none
  | d, c :: s =>
    if c = 91 then (splitTop sep (d + 1) s).map fun p => (c :: p.1, p.2)
    else if c = 93 then (splitTop sep (d - 1) s).map fun p => (c :: p.1, p.2)
    else if c = sep ∧ d = 0 then some ([], s)
    else (splitTop sep d s).map fun p => (c :: p.1, p.2)

/-- 289-312: a type in brackets. `comma_pos` is -1 without a comma, which counts as true, so the text is always built again, unless
the comma comes first. -/
def bracket (rw : Str → Bool × Str) (t : Str) : Bool × Str :=
  match splitTop 44 0 t.tail.dropLast with
  | none => (true, cut ([91] ++ (rw t.tail.dropLast).2 ++ [93]))
  | some (e, size) => if e = [] then (false, t) else (true, cut ([91] ++ (rw e).2 ++ [44] ++ size ++ [93]))

/-- 325-346. -/
def mapType (rw : Str → Bool × Str) (t : Str) : Bool × Str :=
  match splitTop 58 0 (t.drop 4).dropLast with
  | none => (false, t)
  | some (k, v) =>
    if (rw k).1 = false ∧ (rw v).1 = false then (false, t)
    else (true, cut (lit "map[" ++ (rw k).2 ++ [58] ++ (rw v).2 ++ [93]))

/-- `rewrite_type_name`; the fuel is the length of the text. -/
def rewriteT (m : Names) : Nat → Str → Bool × Str
  | 0, t => (false, t)
  | n + 1, t =>
    if t.head? = some 91 ∧ t.getLast? = some 93 then bracket (rewriteT m n) t
    else if t.head? = some 94 then
      if (rewriteT m n t.tail).1 = false then (false, t) else (true, cut ([94] ++ (rewriteT m n t.tail).2))
    else if t.length > 5 ∧ (lit "map[").isPrefixOf t ∧ t.getLast? = some 93 then mapType (rewriteT m n) t
    else (hasName m t, ren m t)

def rewriteType (m : Names) (t : Str) : Str := (rewriteT m t.length t).2

/-! ## Labels, 350-532 -/

/-- Code as far as names go. -/
inductive Code where
  /-- Constants, the end of a list. -/
  | done
  | label (x : Str)
  /-- `()f`: a node that `rewrite_labels` does not enter. -/
  | funcRef (x : Str)
  /-- A struct literal, `cast` or `new` with its type. -/
  | typed (t : Str) (e : Code)
  | seq (a b : Code)
  /-- A declaration with its type and value, and the rest of the block. -/
  | decl (x t : Str) (v rest : Code)
  /-- A loop variable, or names bound by a pattern. -/
  | bind (x : Str) (e body : Code)
  deriving DecidableEq, Repr

/-- `rewrite_labels`. Types are compared as a whole. -/
def rewriteLabels (m : Names) : Code → Code
  | .done => .done
  | .label x => .label (ren m x)
  | .funcRef x => .funcRef x
  | .typed t e => .typed (ren m t) (rewriteLabels m e)
  | .seq a b => .seq (rewriteLabels m a) (rewriteLabels m b)
  | .decl x t v r => .decl x (ren m t) (rewriteLabels m v) (rewriteLabels m r)
  | .bind x e b => .bind x (rewriteLabels m e) (rewriteLabels m b)

/-! ## Declarations -/

structure Fun where
  name : Str
  params : List Str
  /-- Types of parameters and results. -/
  types : List Str
  /-- Default values of parameters. -/
  defaults : Code
  body : Code
  deriving DecidableEq, Repr

inductive Decl where
  | imp
  | using
  | var (name : Str) (mutable : Bool) (type : Str) (value : Code)
  | func (f : Fun)
  | struct (name : Str) (types : List Str) (defaults : Code) (funs : List Fun)
  | enum (name : Str) (types : List Str) (values : Code)
  deriving DecidableEq, Repr

def Decl.name? : Decl → Option Str
  | .imp => none
  | .using => none
  | .var n _ _ _ => some n
  | .func f => some f.name
  | .struct n _ _ _ => some n
  | .enum n _ _ => some n

/-- `snprintf("%s_%s", mod_name, name)`. -/
def prefixed (mod n : Str) : Str := cut (mod ++ [95] ++ n)

/-- 1270-1285: the names of a module. `MAX_IMPORTS` is 256. -/
def baseNames (mod : Str) (decls : List Decl) : Names := ((decls.filterMap Decl.name?).take 256).map fun n => (n, prefixed mod n)

/-- One entry more, if there is room and the name is new. -/
def addName (m : Names) (o n : Str) : Names := if m.length ≥ 256 ∨ hasName m o then m else m ++ [(o, n)]

/-- 1296-1325: entries for the other files of the directory. -/
def addSibling (mod : Str) (base : Names) (m : Names) (alias : Str) : Names :=
  addName (base.foldl (fun m p => addName m (cut (alias ++ [95] ++ p.1)) p.2) m) alias mod

/-- A module: its name, its files, and the names under which files of the directory import each other. -/
structure Module where
  name : Str
  files : List (List Decl)
  siblings : List Str
  deriving Repr

def Module.names (md : Module) : Names :=
  let base := baseNames md.name md.files.flatten
  md.siblings.foldl (addSibling md.name base) base

/-- 1399-1417 and 1437-1455. Default values keep their names. -/
def mergeFun (m : Names) (f : Fun) : Fun := { f with types := f.types.map (rewriteType m), body := rewriteLabels m f.body }

/-- What becomes of a declaration, 1339-1358 and 1397-1466. -/
def mergeDecl (mod : Str) (m : Names) : Decl → Decl
  | .imp => .imp
  | .using => .using
  | .var n mu t v => .var (prefixed mod n) mu (if mu then t else rewriteType m t) (rewriteLabels m v)
  | .func f => .func { mergeFun m f with name := prefixed mod f.name }
  | .struct n ts d fs => .struct (prefixed mod n) (ts.map (rewriteType m)) d (fs.map (mergeFun m))
  | .enum n ts v => .enum (prefixed mod n) ts v

def Decl.isVar : Decl → Bool
  | .var _ _ _ _ => true
  | _ => false

def Decl.isImp : Decl → Bool
  | .imp => true
  | _ => false

def Decl.isHead : Decl → Bool
  | .imp => true
  | .using => true
  | _ => false

/-- A statement of the program, and whether it is one of the entry file. -/
abbrev Stmt := Bool × Decl

/-- 1370-1383. -/
def insertVar (prog : List Stmt) (s : Stmt) : List Stmt :=
  let k := (prog.takeWhile fun s => s.2.isHead).length
  prog.take k ++ [s] ++ prog.drop k

/-- 1478-1493. -/
def insertOther (prog : List Stmt) (s : Stmt) : List Stmt :=
  let k := (prog.takeWhile fun s => s.2.isHead || s.2.isVar).length
  prog.take k ++ [s] ++ prog.drop k

/-- The two passes over a file. Imports of the file have been appended before (1240-1252). -/
def mergeFile (mod : Str) (m : Names) (prog : List Stmt) (file : List Decl) : List Stmt :=
  let p1 := (file.filter Decl.isVar).foldl (fun p d => insertVar p (false, mergeDecl mod m d)) prog
  (file.filter fun d => !d.isImp && !d.isVar).foldl (fun p d => insertOther p (false, mergeDecl mod m d)) p1

/-- `rewrite_labels` on a statement of the entry file (1501-1504): nested functions are entered, structs and enums are not. -/
def rewriteOwn (m : Names) : Decl → Decl
  | .var n mu t v => .var n mu (ren m t) (rewriteLabels m v)
  | .func f => .func { f with types := f.types.map (ren m), body := rewriteLabels m f.body }
  | d => d

/-- One import. -/
def importModule (prog : List Stmt) (md : Module) : List Stmt :=
  let p := md.files.foldl (mergeFile md.name md.names) prog
  p.map fun s => if s.1 then (true, rewriteOwn md.names s.2) else s

/-! ## Paths -/

/-- 916-919. -/
def stripDot (path : Str) : Str := if (lit "./").isPrefixOf path then path.drop 2 else path

/-- The directory of a file with a slash at the end, 860-866 and 1154-1159. -/
def dirOf (file : Str) : Str := if 47 ∈ file then file.take (file.length - (baseName file).length) else lit "./"

/-- 915-920: `source` is the directory of the importing file, if that is not the entry file. -/
def importPath (entry : Str) (source : Option Str) (path : Str) : Str := ((source.getD (dirOf entry)) ++ stripDot path).take 2047

/-- 983-1009: the name of a module without alias. -/
def moduleName (path : Str) : Str :=
  let rel := stripDot path
  let base := if baseName rel = [] ∧ rel.length > 1 then baseName rel.dropLast else baseName rel
  if base.length > 5 ∧ (lit ".gray").isSuffixOf base then base.take (base.length - 5) else cut base

/-! ## A directory, 599-618 -/

/-- `strcmp(a, b) <= 0`. -/
def leStr : Str → Str → Bool
  | [], _ => true
  | _ :: _, [] => false
  | a :: s, b :: t => if a = b then leStr s t else decide (a < b)

/-- Insertion into a sorted list. -/
def insertPath (p : Str) : List Str → List Str
  | [] => [p]
  | q :: l => if leStr p q then p :: q :: l else q :: insertPath p l

/-- `qsort` with `strcmp` on the paths. -/
def sortPaths (l : List Str) : List Str := l.foldr insertPath []

/-- `entries` are the names in the order of `readdir`. -/
def scanDir (dir : Str) (entries : List Str) : List Str :=
  let ok := entries.filter fun n => n.head? != some 46 && (decide (n.length ≥ 6) && (lit ".gray").isSuffixOf n)
  sortPaths ((ok.take 256).map fun n => (dir ++ [47] ++ n).take 2047)

/-! ## The set of imported files, 535-590 -/

/-- FNV-1a with 32 bits. -/
def fnv (s : Str) : BitVec 32 := s.foldl (fun h c => (h ^^^ c.setWidth 32) * 16777619#32) 2166136261#32

def slotOf (s : Str) : Nat := (fnv s).toNat % 512

structure Files where
  cells : List (Option (Str × Option Str))
  count : Nat
  deriving DecidableEq

def Files.empty : Files := ⟨List.replicate 512 none, 0⟩

/-- The loops over the cells: the first that is empty or holds the path. `none` is an endless loop. -/
def probe (cells : List (Option (Str × Option Str))) (p : Str) : Nat → Nat → Option Nat
  | 0, _ => none
  | n + 1, i =>
    if (cells[i]?.join).all (fun e => e.1 == p) then some i else probe cells p n ((i + 1) % 512)

/-- `already_imported`; `none` does not end. -/
def Files.has (f : Files) (p : Str) : Option Bool := (probe f.cells p 512 (slotOf p)).map fun i => (f.cells[i]?.join).isSome

/-- `imported_by_module`. -/
def Files.owner (f : Files) (p : Str) : Option (Option Str) :=
  (probe f.cells p 512 (slotOf p)).map fun i => (f.cells[i]?.join).bind (·.2)

/-- `mark_imported_with_module`. -/
def Files.mark (f : Files) (p : Str) (mod : Option Str) : Option Files :=
  if f.count ≥ 256 then some f
  else (probe f.cells p 512 (slotOf p)).map fun i =>
    if (f.cells[i]?.join).isSome then f else ⟨f.cells.set i (some (p, mod)), f.count + 1⟩

/-! ## The queue of imports -/

/-- An import of a file: the name it gets (alias or name of the file), the path, and the names declared in the file. -/
structure Item where
  name : Str
  path : Str
  decls : List Str
  deriving DecidableEq, Repr

/-- Names and paths seen, files imported, names of the merged declarations, and whether `E6001` was reported. -/
structure Queue where
  seen : List (Str × Str)
  files : List Str
  merged : List Str
  error : Bool
  deriving DecidableEq, Repr

/-- 1030-1065, 1097-1125 and the merging. -/
def importItem (q : Queue) (it : Item) : Queue :=
  match q.seen.find? fun s => s.1 == it.name with
  | some s => if s.2 = it.path then q else { q with error := true }
  | none =>
    let q := { q with seen := if q.seen.length < 256 then q.seen ++ [(it.name, it.path)] else q.seen }
    if it.path ∈ q.files then q
    else { q with files := it.path :: q.files, merged := q.merged ++ it.decls.map (prefixed it.name) }

def importAll (main : Str) (items : List Item) : Queue := items.foldl importItem ⟨[], [main], [], false⟩

end Verif.Merge

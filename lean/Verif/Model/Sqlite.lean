import Verif.Model.Console
/-
The `sqlite` module, /repo/grayc/src/stdlib/sqlite.c.

SQLite itself is a parameter: `prepare` reads the first statement of a text, `run` executes a statement
to its end, with the rows it gives, and whether the last `sqlite3_step` said `SQLITE_DONE`. The memory of
rows and strings is that of the arena and of `GrayMap` (modelled elsewhere): a row is a list of pairs,
in which `gray_map_set` replaces the value of a key that is there.
-/
namespace Verif.Sqlite
open Verif Verif.Str Verif.Console

/-- SQLite with databases in `S` and prepared statements in `P`. -/
structure Engine (S P : Type) where
  /-- `sqlite3_prepare_v2`: `none` is an error; otherwise the first statement, if there is one before the
  end of the text, and the rest of the text. -/
  prepare : S → Str → Option (Option P × Str)
  /-- `sqlite3_column_name` for all columns -/
  columns : S → P → List Str
  /-- rows with their texts (`none` is NULL), whether the end was `SQLITE_DONE`, the new state -/
  run : S → P → List (List (Option Str)) × Bool × S

variable {S P : Type}

/-- `gray_map_set` -/
def put (k v : Str) : List (Str × Str) → List (Str × Str)
  | [] => [(k, v)]
  | (k', v') :: r => if k' = k then (k, v) :: r else (k', v') :: put k v r

/-- The text of a column (60-66). -/
def value : Option Str → Str
  | some t => cstr t
  | none => []

/-- One row (55-68). -/
def rowOf : List Str → List (Option Str) → List (Str × Str) → List (Str × Str)
  | c :: cs, x :: xs, m => rowOf cs xs (put (cstr c) (value x) m)
  | _, _, m => m

/-- `gray_sqlite_query` (44-75): the rows and the new state. `db` is `none` for a nil handle. -/
def query (e : Engine S P) (db : Option S) (sql : Str) : List (List (Str × Str)) × Option S :=
  match db with
  | none => ([], none)
  | some σ =>
    match e.prepare σ (cstr sql) with
    | some (some p, _) => ((e.run σ p).1.map fun r => rowOf (e.columns σ p) r [], some (e.run σ p).2.2)
    | _ => ([], some σ)

/-- `gray_sqlite_query_result` (114-133): rows, whether there is an error, the new state. -/
def queryResult (e : Engine S P) (db : Option S) (sql : Str) : List (List (Str × Str)) × Bool × Option S :=
  match db with
  | none => ([], true, none)
  | some σ =>
    match e.prepare σ (cstr sql) with
    | some (some _, _) => ((query e (some σ) sql).1, false, (query e (some σ) sql).2)
    | _ => ([], true, some σ)

/-- `sqlite3_exec`: all statements of the text, up to the first failure; `n` bounds their number. -/
def execAll (e : Engine S P) : Nat → S → Str → Bool × S
  | 0, σ, _ => (true, σ)
  | n + 1, σ, sql =>
    match e.prepare σ sql with
    | none => (false, σ)
    | some (none, []) => (true, σ)
    | some (none, rest) => execAll e n σ rest
    | some (some p, rest) =>
      if (e.run σ p).2.1 then execAll e n (e.run σ p).2.2 rest else (false, (e.run σ p).2.2)

/-- `gray_sqlite_exec` and `gray_sqlite_exec_result` (36-42, 91-112): success, and the new state. -/
def exec (e : Engine S P) (db : Option S) (sql : Str) : Bool × Option S :=
  match db with
  | none => (false, none)
  | some σ => ((execAll e (cstr sql).length.succ σ (cstr sql)).1, some (execAll e (cstr sql).length.succ σ (cstr sql)).2)

end Verif.Sqlite

import Verif.Model.Str
import Verif.Model.Names

/-!
# Which function a call calls

* The checker's registry of functions: `register_func` (`/repo/grayc/src/typechecker/typechecker.c:498-521`), `find_func` (718-734),
  struct functions and functions (11260-11381), with the second name of functions of imported modules (11359-11379) and E4004 (11338-11341).
* Calls `f(…)`: `resolve_call_expr` (5608-5612), `resolve_direct_call` (4487-5149), `using_module_accessible` (30-38), `_using_funcs` (1485-1590).
* Calls `x.f(…)`: 5485-5580 and `resolve_struct_or_module_call` (3374-3931), `typechecker_is_stdlib_import` (1321-1327).
* The code generator: `emit_call_expression` (`/repo/grayc/src/codegen/codegen.c:5948-6206`, 6308-6600, 6771-6800), `find_function` (957-974),
  the collection of functions (9843-9881) and of `using` (9418-9440).

Simplifications.
* The program is the one after merging, so that the functions of module `m` are called `m_f`, and labels are renamed already.
* Where several entries have the same name the searches of the C code may return any; here they return the first.
* `using` statements of the function that is being compiled are in the list too, with their file.
* The handlers of the library modules accept the functions of the table `func_to_mod`; that some also look at the number of arguments is left out.
* Enum variants, C functions, generic functions, and calls of values other than variables are left out; a variable has a struct type, a function type
  or another type. Of the types of parameters the first one is kept, of the arguments their number.
-/

namespace Verif.Calls
open Verif Verif.Str

/-- A parameter: the text of its type, and whether it has a default value. -/
structure Param where
  ty : Str
  dflt : Bool
deriving DecidableEq, Repr

structure Fn where
  name : Str
  file : Str
  priv : Bool
  params : List Param
deriving DecidableEq, Repr

inductive Decl where
  | func (f : Fn)
  | struct (name : Str) (fnFields : List Str) (fns : List Fn)
deriving DecidableEq, Repr

/-- `S_f` -/
def sub (s f : Str) : Str := s ++ 95 :: f

/-- The text after the first underscore. -/
def afterUnderscore : Str → Option Str
  | [] => none
  | c :: r => if c = 95 then some r else afterUnderscore r

structure Prog where
  decls : List Decl
  /-- names (or aliases) of the imported modules, and whether they are library modules -/
  imports : List (Str × Bool)
  aliases : List (Str × Str)
  /-- modules of `using`, with their file -/
  usings : List (Str × Str)

/-- typechecker.c:407-412, codegen.c:745-750. -/
def Prog.real (p : Prog) (m : Str) : Str := ((p.aliases.find? fun a => a.1 == m).map (·.2)).getD m

/-! ### The checker -/

/-- The second name: 11359-11379. -/
def second (imports : List (Str × Bool)) (n : Str) : Option Str :=
  match n, afterUnderscore n with
  | 95 :: _, _ => none
  | _, some r => if r == lit "main" then none else if imports.any fun m => (m.1 ++ [95]).isPrefixOf n then some r else none
  | _, none => none

/-- The entries of a declaration: the name by which it is found, and the function under its full name. -/
def entries (imports : List (Str × Bool)) : Decl → List (Str × Fn)
  | .func f => (f.name, f) :: ((second imports f.name).map fun k => (k, f)).toList
  | .struct s _ fns => fns.map fun f => (sub s f.name, { f with name := sub s f.name })

/-- All entries, in order. -/
def Prog.registry (p : Prog) : List (Str × Fn) := p.decls.flatMap (entries p.imports)

/-- E4004: for the functions outside of structs. -/
def declared (reg : List (Str × Fn)) : Decl → Bool
  | .func f => reg.any fun e => e.1 == f.name
  | .struct _ _ _ => false

def dupFrom (imports : List (Str × Bool)) : List (Str × Fn) → List Decl → Bool
  | _, [] => false
  | reg, d :: ds => declared reg d || dupFrom imports (reg ++ entries imports d) ds

/-- Are the declarations accepted (E4004, E2037)? -/
def Prog.declsOk (p : Prog) : Bool :=
  !dupFrom p.imports [] p.decls &&
  p.decls.all fun d => match d with
    | .func _ => true
    | .struct _ _ fns => decide ((fns.map (·.name)).Nodup)

/-- `find_func`. -/
def Prog.findFunc (p : Prog) (n : Str) : Option Fn := (p.registry.find? fun e => e.1 == n).map (·.2)

/-- `typechecker_is_builtin`. -/
def builtins : List Str :=
  ["addr", "assert", "bool", "byte", "c_string", "cast", "char", "char_count", "copy", "embed", "eprint", "eprintln", "error", "exit", "f32",
   "f64", "float", "here", "i128", "i16", "i256", "i32", "i64", "i8", "input", "int", "len", "new", "panic", "print", "println", "range", "ref",
   "size_of", "sleep_ms", "sleep_ns", "sleep_s", "string", "to_char", "type_of", "u128", "u16", "u256", "u32", "u64", "u8", "uint"].map lit

/-- `_using_funcs` -/
def usingFuncs : List (Str × List Str) := [
  (lit "strings", [lit "to_upper", lit "to_lower", lit "trim", lit "trim_left", lit "trim_right", lit "remove_prefix",
    lit "remove_suffix", lit "replace", lit "repeat", lit "reverse", lit "slice", lit "join", lit "contains",
    lit "starts_with", lit "ends_with", lit "is_empty", lit "is_alpha", lit "is_digit", lit "is_alnum", lit "is_whitespace",
    lit "is_upper", lit "is_lower", lit "char_at", lit "to_chars", lit "from_chars", lit "index_of", lit "last_index_of",
    lit "count", lit "split"]),
  (lit "math", [lit "sign", lit "factorial", lit "gcd", lit "lcm", lit "floor", lit "ceil", lit "round", lit "trunc",
    lit "pow", lit "sqrt", lit "cbrt", lit "hypot", lit "exp", lit "exp2", lit "log", lit "log2", lit "log10", lit "log_base",
    lit "sin", lit "cos", lit "tan", lit "asin", lit "acos", lit "atan", lit "atan2", lit "sinh", lit "cosh", lit "tanh",
    lit "deg_to_rad", lit "rad_to_deg", lit "lerp", lit "distance", lit "is_prime", lit "is_even", lit "is_odd",
    lit "is_infinite", lit "is_nan", lit "is_finite"]),
  (lit "arrays", [lit "append", lit "insert_at", lit "prepend", lit "fill", lit "remove_at", lit "remove", lit "remove_first",
    lit "remove_last", lit "sort_asc", lit "sort_desc", lit "clear", lit "concat", lit "deduplicate", lit "flatten",
    lit "reverse", lit "slice", lit "split_every", lit "pair", lit "map", lit "filter", lit "reduce", lit "get_first",
    lit "get_last", lit "get_sum", lit "get_min", lit "get_max", lit "count", lit "index_of", lit "is_empty", lit "contains",
    lit "is_equal", lit "any", lit "all"]),
  (lit "maps", [lit "has_key", lit "is_empty", lit "contains_value", lit "remove_key", lit "clear", lit "is_equal",
    lit "merge", lit "get_or_default"]),
  (lit "random", [lit "rand_float", lit "rand_int", lit "rand_bool", lit "rand_byte", lit "rand_char", lit "seed"]),
  (lit "encoding", [lit "base64_encode", lit "base64_decode", lit "hex_encode", lit "hex_decode", lit "url_encode",
    lit "url_decode"]),
  (lit "crypto", [lit "sha256", lit "md5", lit "random_hex"]),
  (lit "regex", [lit "is_match", lit "is_valid", lit "find", lit "replace", lit "find_all", lit "split"]),
  (lit "json", [lit "is_valid", lit "decode", lit "encode", lit "stringify", lit "parse", lit "pretty_print"]),
  (lit "io", [lit "read_file", lit "read_bytes", lit "read_lines", lit "write_file", lit "append_file", lit "delete_file",
    lit "rename_file", lit "file_exists", lit "is_file", lit "is_directory", lit "file_size", lit "glob", lit "list_dir",
    lit "walk", lit "make_dir", lit "make_dir_all", lit "remove_dir", lit "remove_dir_all", lit "copy_file", lit "move_file",
    lit "is_absolute", lit "write_bytes", lit "append_bytes", lit "temp_file", lit "temp_dir", lit "path_join", lit "dirname",
    lit "basename", lit "extension", lit "normalize"]),
  (lit "os", [lit "args", lit "get_env", lit "set_env", lit "unset_env", lit "current_dir", lit "hostname", lit "arch",
    lit "current_os", lit "pid", lit "exec"]),
  (lit "time", [lit "now", lit "now_ms", lit "now_ns", lit "tick", lit "elapsed_ms", lit "diff", lit "year", lit "month",
    lit "day", lit "hour", lit "minute", lit "second", lit "weekday", lit "format", lit "to_iso", lit "date",
    lit "to_clock"]),
  (lit "strconv", [lit "to_int", lit "to_uint", lit "to_float", lit "to_bool", lit "from_int", lit "from_uint",
    lit "from_float", lit "from_bool", lit "is_numeric", lit "is_integer"]),
  (lit "uuid", [lit "generate_hyphenated", lit "generate", lit "generate_compact", lit "generate_random",
    lit "generate_time_ordered", lit "parse", lit "is_valid", lit "to_string"]),
  (lit "bytes", [lit "from_string", lit "from_hex", lit "from_base64", lit "to_string", lit "to_hex", lit "to_base64"]),
  (lit "binary", [lit "encode_i8", lit "encode_u8", lit "encode_i16_le", lit "encode_i16_be", lit "encode_u16_le",
    lit "encode_u16_be", lit "encode_i32_le", lit "encode_i32_be", lit "encode_u32_le", lit "encode_u32_be",
    lit "encode_i64_le", lit "encode_i64_be", lit "encode_u64_le", lit "encode_u64_be", lit "encode_i128_le",
    lit "encode_i128_be", lit "encode_u128_le", lit "encode_u128_be", lit "encode_i256_le", lit "encode_i256_be",
    lit "encode_u256_le", lit "encode_u256_be", lit "encode_f32_le", lit "encode_f32_be", lit "encode_f64_le",
    lit "encode_f64_be", lit "decode_i8", lit "decode_u8", lit "decode_i16_le", lit "decode_i16_be", lit "decode_u16_le",
    lit "decode_u16_be", lit "decode_i32_le", lit "decode_i32_be", lit "decode_u32_le", lit "decode_u32_be",
    lit "decode_i64_le", lit "decode_i64_be", lit "decode_u64_le", lit "decode_u64_be", lit "decode_i128_le",
    lit "decode_i128_be", lit "decode_u128_le", lit "decode_u128_be", lit "decode_i256_le", lit "decode_i256_be",
    lit "decode_u256_le", lit "decode_u256_be", lit "decode_f32_le", lit "decode_f32_be", lit "decode_f64_le",
    lit "decode_f64_be"]),
  (lit "csv", [lit "parse", lit "read_file", lit "headers", lit "write", lit "write_file", lit "encode"]),
  (lit "sqlite", [lit "open", lit "close", lit "exec", lit "query"]),
  (lit "threads", [lit "spawn", lit "spawn_arg", lit "join", lit "get_id", lit "detach", lit "is_alive", lit "current",
    lit "yield", lit "sleep", lit "thread_count"]),
  (lit "sync", [lit "mutex", lit "lock", lit "unlock", lit "try_lock", lit "destroy"]),
  (lit "atomic", [lit "load", lit "store", lit "add", lit "sub", lit "exchange", lit "cas", lit "and", lit "or", lit "xor",
    lit "spinlock", lit "spinlock_destroy", lit "spin_lock", lit "spin_trylock", lit "spin_unlock", lit "fence"]),
  (lit "channels", [lit "open", lit "send", lit "receive", lit "close", lit "try_send", lit "try_receive"]),
  (lit "server", [lit "add_router", lit "add_route", lit "listen", lit "cors", lit "use", lit "text", lit "json", lit "html",
    lit "redirect"]),
  (lit "http", [lit "get", lit "post", lit "put", lit "delete", lit "head", lit "patch"]),
  (lit "net", [lit "listen", lit "connect", lit "accept", lit "send", lit "receive", lit "resolve", lit "close",
    lit "set_timeout"]),
  (lit "fmt", [lit "sprintf", lit "format", lit "pad_left", lit "pad_right", lit "center", lit "int_to_hex",
    lit "int_to_binary", lit "int_to_octal", lit "float_fixed", lit "float_sci", lit "printf", lit "printfln", lit "eprintf",
    lit "eprintfln", lit "sprintfln"]),
  (lit "mem", [lit "arena", lit "usage", lit "free", lit "reset", lit "destroy", lit "init", lit "alloc", lit "make"])]

/-- The functions whose result type depends on the argument, before the table (5004-5063). -/
def special : List (Str × List Str) :=
  [(lit "math", [lit "abs", lit "neg", lit "min", lit "max", lit "clamp"]), (lit "random", [lit "choice", lit "shuffle", lit "sample"]),
   (lit "maps", [lit "get_keys", lit "get_values"])]

/-- `func_to_mod` -/
def funcToMod : List (Str × List Str) := [
  (lit "strings", [lit "to_upper", lit "to_lower", lit "trim", lit "trim_left", lit "trim_right", lit "remove_prefix",
    lit "remove_suffix", lit "replace", lit "repeat", lit "reverse", lit "slice", lit "join", lit "contains",
    lit "starts_with", lit "ends_with", lit "is_empty", lit "index_of", lit "last_index_of", lit "count", lit "split",
    lit "char_at", lit "to_chars", lit "from_chars", lit "is_alpha", lit "is_digit", lit "is_alnum", lit "is_whitespace",
    lit "is_upper", lit "is_lower"]),
  (lit "math", [lit "abs", lit "neg", lit "sign", lit "min", lit "max", lit "clamp", lit "floor", lit "ceil", lit "round",
    lit "trunc", lit "pow", lit "sqrt", lit "cbrt", lit "hypot", lit "exp", lit "exp2", lit "log", lit "log2", lit "log10",
    lit "log_base", lit "sin", lit "cos", lit "tan", lit "asin", lit "acos", lit "atan", lit "atan2", lit "sinh", lit "cosh",
    lit "tanh", lit "deg_to_rad", lit "rad_to_deg", lit "factorial", lit "gcd", lit "lcm", lit "is_prime", lit "is_even",
    lit "is_odd", lit "is_infinite", lit "is_nan", lit "is_finite", lit "lerp", lit "distance"]),
  (lit "arrays", [lit "append", lit "insert_at", lit "prepend", lit "remove", lit "remove_at", lit "sort_asc",
    lit "sort_desc", lit "concat", lit "get_sum", lit "get_min", lit "get_max", lit "clear", lit "get_first", lit "get_last",
    lit "remove_last", lit "remove_first", lit "fill", lit "deduplicate", lit "flatten", lit "reverse", lit "slice",
    lit "split_every", lit "pair", lit "count", lit "index_of", lit "is_empty", lit "contains", lit "is_equal", lit "map",
    lit "filter", lit "reduce", lit "any", lit "all"]),
  (lit "maps", [lit "has_key", lit "keys", lit "values", lit "get_keys", lit "get_values", lit "remove_key", lit "clear",
    lit "is_empty", lit "merge", lit "contains_value", lit "get_or_default", lit "is_equal"]),
  (lit "random", [lit "rand_float", lit "rand_int", lit "rand_bool", lit "rand_byte", lit "rand_char", lit "choice",
    lit "shuffle", lit "sample", lit "seed"]),
  (lit "encoding", [lit "base64_encode", lit "base64_decode", lit "hex_encode", lit "hex_decode", lit "url_encode",
    lit "url_decode"]),
  (lit "crypto", [lit "sha256", lit "md5", lit "random_hex"]),
  (lit "regex", [lit "is_valid", lit "is_match", lit "find", lit "find_all", lit "replace", lit "split"]),
  (lit "json", [lit "parse", lit "stringify", lit "encode", lit "decode", lit "is_valid", lit "pretty_print"]),
  (lit "io", [lit "read_file", lit "read_bytes", lit "read_lines", lit "write_file", lit "append_file", lit "delete_file",
    lit "rename_file", lit "file_exists", lit "is_file", lit "is_directory", lit "file_size", lit "glob", lit "list_dir",
    lit "make_dir", lit "make_dir_all", lit "remove_dir", lit "remove_dir_all", lit "walk", lit "copy_file", lit "move_file",
    lit "is_absolute", lit "path_join", lit "dirname", lit "basename", lit "extension", lit "normalize"]),
  (lit "os", [lit "args", lit "get_env", lit "set_env", lit "unset_env", lit "current_dir", lit "hostname", lit "arch",
    lit "current_os", lit "pid", lit "exec"]),
  (lit "time", [lit "now", lit "now_ms", lit "now_ns", lit "tick", lit "elapsed_ms", lit "diff", lit "year", lit "month",
    lit "day", lit "hour", lit "minute", lit "second", lit "weekday", lit "format", lit "to_iso", lit "date",
    lit "to_clock"]),
  (lit "uuid", [lit "generate_hyphenated", lit "generate", lit "is_valid", lit "generate_compact", lit "to_string",
    lit "generate_random", lit "generate_time_ordered", lit "parse"]),
  (lit "bytes", [lit "from_string", lit "from_hex", lit "from_base64", lit "to_string", lit "to_hex", lit "to_base64"]),
  (lit "binary", [lit "encode_i8", lit "encode_u8", lit "encode_i16_le", lit "encode_i16_be", lit "encode_u16_le",
    lit "encode_u16_be", lit "encode_i32_le", lit "encode_i32_be", lit "encode_u32_le", lit "encode_u32_be",
    lit "encode_i64_le", lit "encode_i64_be", lit "encode_u64_le", lit "encode_u64_be", lit "encode_i128_le",
    lit "encode_i128_be", lit "encode_u128_le", lit "encode_u128_be", lit "encode_i256_le", lit "encode_i256_be",
    lit "encode_u256_le", lit "encode_u256_be", lit "encode_f32_le", lit "encode_f32_be", lit "encode_f64_le",
    lit "encode_f64_be", lit "decode_i8", lit "decode_u8", lit "decode_i16_le", lit "decode_i16_be", lit "decode_u16_le",
    lit "decode_u16_be", lit "decode_i32_le", lit "decode_i32_be", lit "decode_u32_le", lit "decode_u32_be",
    lit "decode_i64_le", lit "decode_i64_be", lit "decode_u64_le", lit "decode_u64_be", lit "decode_i128_le",
    lit "decode_i128_be", lit "decode_u128_le", lit "decode_u128_be", lit "decode_i256_le", lit "decode_i256_be",
    lit "decode_u256_le", lit "decode_u256_be", lit "decode_f32_le", lit "decode_f32_be", lit "decode_f64_le",
    lit "decode_f64_be"]),
  (lit "csv", [lit "parse", lit "read_file", lit "headers", lit "write_file", lit "format", lit "encode"]),
  (lit "sqlite", [lit "open", lit "close", lit "exec", lit "query"]),
  (lit "threads", [lit "spawn", lit "join", lit "get_id", lit "detach", lit "is_alive", lit "current", lit "yield",
    lit "sleep", lit "thread_count"]),
  (lit "sync", [lit "mutex", lit "lock", lit "unlock", lit "try_lock", lit "destroy"]),
  (lit "atomic", [lit "load", lit "store", lit "add", lit "sub", lit "exchange", lit "cas", lit "and", lit "or", lit "xor",
    lit "spinlock", lit "spinlock_destroy", lit "spin_lock", lit "spin_trylock", lit "spin_unlock", lit "fence"]),
  (lit "channels", [lit "open", lit "send", lit "receive", lit "close", lit "try_send", lit "try_receive"]),
  (lit "server", [lit "add_router", lit "add_route", lit "listen", lit "cors", lit "use", lit "text", lit "json", lit "html",
    lit "redirect"]),
  (lit "http", [lit "get", lit "post", lit "put", lit "delete", lit "head", lit "patch"]),
  (lit "net", [lit "listen", lit "connect", lit "accept", lit "send", lit "receive", lit "resolve", lit "close"]),
  (lit "fmt", [lit "sprintf", lit "format", lit "printf", lit "printfln", lit "eprintf", lit "eprintfln", lit "sprintfln",
    lit "pad_left", lit "pad_right", lit "center", lit "int_to_hex", lit "int_to_binary", lit "int_to_octal",
    lit "float_fixed", lit "float_sci"]),
  (lit "mem", [lit "arena", lit "usage", lit "make", lit "alloc", lit "init", lit "free", lit "reset", lit "destroy"])]

def inTable (t : List (Str × List Str)) (m f : Str) : Bool := t.any fun g => g.1 == m && g.2.contains f

/-- What a call calls. -/
inductive Target where
  | builtin
  | lib (m f : Str)
  | fn (full : Str)
  /-- the function in a variable -/
  | var
  /-- the function in a field of a variable -/
  | field
deriving DecidableEq, Repr

/-- The checker's answer: the function and whether the number of arguments has been checked against it; an error; or no error and no function. -/
inductive Chk where
  | ok (t : Target) (counted : Bool)
  | err
  | silent
deriving DecidableEq, Repr

/-- Variables in scope. -/
inductive VTy where
  | func
  | struct (s : Str)
  | other
deriving DecidableEq, Repr

abbrev Vars := List (Str × VTy)
def Vars.get (vs : Vars) (n : Str) : Option VTy := (vs.find? fun v => v.1 == n).map (·.2)

/-- Default values: how many parameters have none. -/
def Fn.least (f : Fn) : Nat := (f.params.filter fun q => !q.dflt).length

/-- E5008. -/
def Fn.counts (f : Fn) (k : Nat) : Bool := decide (f.least ≤ k) && decide (k ≤ f.params.length)

/-- Modules of `using` that count in a file, with aliases resolved. -/
def Prog.visible (p : Prog) (file : Str) : List Str := (p.usings.filter fun u => u.2 == file).map fun u => p.real u.1

/-- One module of `using`: 5066-5113. -/
def Prog.viaUsing (p : Prog) (n m : Str) : Option Chk :=
  if inTable usingFuncs m n then some (.ok (.lib m n) false)
  else (p.findFunc (sub m n)).map fun f => if f.priv then .err else .ok (.fn f.name) false

/-- The module of a function whose result type depends on the argument. -/
def Prog.viaSpecial (p : Prog) (file n : Str) : Option Chk :=
  ((p.visible file).find? fun m => inTable special m n).map fun m => .ok (.lib m n) false

/-- A call `n(…)` with `k` arguments. -/
def Prog.checkCall (p : Prog) (file : Str) (vs : Vars) (n : Str) (k : Nat) : Chk :=
  if builtins.contains n then .ok .builtin true
  else match p.findFunc n with
  | some f => if f.counts k then .ok (.fn f.name) true else .err
  | none =>
    match vs.get n with
    | some .func => .ok .var true
    | some _ => .err
    | none =>
      match p.viaSpecial file n with
      | some r => r
      | none => ((p.visible file).findSome? (p.viaUsing n)).getD .err

/-- The functions of a struct, and its fields of function type. -/
def Prog.isStruct (p : Prog) (s : Str) : Bool := p.decls.any fun d => match d with
  | .struct n _ _ => n == s
  | .func _ => false

def Prog.hasFnField (p : Prog) (s m : Str) : Bool := p.decls.any fun d => match d with
  | .struct n fs _ => n == s && fs.contains m
  | .func _ => false

/-- `is_self_func` (3611-3622). -/
def selfFn (s : Str) (f : Fn) : Bool := match f.params with
  | [] => false
  | q :: _ => q.ty == s || q.ty == 94 :: s

/-- Is the name that of an imported library module? -/
def Prog.stdImport (p : Prog) (m : Str) : Bool := ((p.imports.find? fun i => i.1 == m).map (·.2)).getD false

/-- A call `x.m(…)` with `k` arguments, in functions of struct `inside`: the answer; the rewritten name before the dot; and whether the variable is put
before the arguments. -/
def Prog.checkMember (p : Prog) (inside : Option Str) (vs : Vars) (x m : Str) (k : Nat) : Chk × Str × Bool :=
  let r := p.real x
  if p.stdImport x then (if inTable usingFuncs r m || inTable special r m then .ok (.lib r m) true else .err, x, false)
  else if Names.moduleNames.contains r && !(p.imports.any fun i => i.1 == x || i.1 == r) then (.err, x, false)
  else if p.isStruct r then
    match p.findFunc (sub r m) with
    | none => (.err, x, false)
    | some f => (if (f.priv && inside != some r) || !f.counts k then .err else .ok (.fn f.name) true, x, false)
  else match p.findFunc (sub r m) with
  | some f => (if f.priv then .err else .ok (.fn f.name) false, x, false)
  | none =>
    match vs.get x with
    | some (.struct s) =>
      if p.hasFnField s m then (.ok .field false, x, false)
      else match p.findFunc (sub s m) with
      | none => (.silent, x, false)
      | some f =>
        if selfFn s f then (if (f.priv && inside != some s) || !f.counts (k + 1) then .err else .ok (.fn f.name) true, s, true)
        else (if (f.priv && inside != some s) || !f.counts k then .err else .ok (.fn f.name) true, s, false)
    | _ => (.silent, x, false)

/-! ### The code generator -/

/-- `all_funcs`. -/
def Prog.allFuncs (p : Prog) : List Fn := p.decls.flatMap fun d => match d with
  | .func f => [f]
  | .struct s _ fns => fns.map fun f => { f with name := sub s f.name }

/-- `find_function`. -/
def Prog.findFunction (p : Prog) (n : Str) : Option Fn := p.allFuncs.find? fun f => f.name == n

/-- One module of `using`: 6163-6206. -/
def Prog.emitUsing (p : Prog) (n : Str) (u : Str × Str) : Option Target :=
  let m := p.real u.1
  if inTable funcToMod m n then some (.lib m n) else (p.findFunction (sub m n)).map fun f => .fn f.name

/-- A call `n(…)`. -/
def Prog.emitCall (p : Prog) (n : Str) : Target :=
  if builtins.contains n then .builtin
  else match p.usings.findSome? (p.emitUsing n) with
  | some t => t
  | none =>
    match p.findFunction n with
    | some f => .fn f.name
    | none =>
      match p.allFuncs.find? fun f => afterUnderscore f.name == some n with
      | some f => .fn f.name
      | none => .var

/-- A call `x.m(…)` after the checker's rewriting; `none`: the text calls a function that is not there, `gray_x_m`. -/
def Prog.emitMember (p : Prog) (vs : Vars) (x m : Str) : Option Target :=
  let r := p.real x
  if inTable funcToMod r m then some (.lib r m)
  else match p.findFunction (sub r m) with
  | some f => some (.fn f.name)
  | none =>
    match vs.get x with
    | some (.struct s) => if p.hasFnField s m then some .field else (p.findFunction (sub s m)).map fun f => .fn f.name
    | _ => none

/-- The value of a parameter in a call `x.m(…)`: an argument, the default value, or `0` (6546-6566). -/
inductive Passed where
  | arg (i : Nat)
  | dflt
  | zero
deriving DecidableEq, Repr

/-- Values for parameters from number `i` on, with `k` arguments; arguments beyond the last parameter are passed too. -/
def passFrom (k : Nat) : Nat → List Param → List Passed
  | i, [] => (List.range' i (k - i)).map .arg
  | i, q :: qs => (if i < k then .arg i else if q.dflt then .dflt else .zero) :: passFrom k (i + 1) qs

def Fn.passed (f : Fn) (k : Nat) : List Passed := passFrom k 0 f.params

/-- The name of a function in C. -/
def cFn (n : Str) : Str := lit "gray_fn_" ++ n

end Verif.Calls

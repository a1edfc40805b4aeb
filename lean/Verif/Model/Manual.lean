import Verif.Model.Str
/-
The library as `gray man` describes it and as the checker knows it.

* `stdlibManDocs` (/repo/cli/stdlib_man_data.go 16-283): the signatures of functions; types, constants and descriptions are left out.
* `stdlib_func_meta` (/repo/grayc/src/typechecker/typechecker.c 815-1132) with `arg_kind_matches` (753-772), `find_stdlib_meta` (1144-1151),
  `typechecker_check_stdlib_arg_count` (1189-1210), `typechecker_check_stdlib_arg_types` (1234-1256), `typechecker_is_fallible_stdlib` (1154-1164),
  `typechecker_get_fallible_stdlib_type` (1166-1187).
* The names that `resolve_stdlib_call` accepts after the name of a module (2266-3210).
* What the code generator emits for `mem` (/repo/grayc/src/codegen/codegen.c 3970-4076), `threads` (5708-5764), `http` (4457-4515), `crypto` and
  `encoding` (4595-4609), and for `random.rand_float` and `rand_char` (4883-4925).

Simplifications.
* A type is its kind; handles of the library are structs, a `Channel` apart.
* `T` in `math` is a number, elsewhere `T`, `K` and `V` are any types.
* The checks that single functions have besides the table are left out: those of `arrays` on elements and callbacks, formats (see `Printf`), bases of
  `strconv`, sockets.
-/
namespace Verif.Manual
open Verif Verif.Str

/-- `TypeKind` -/
inductive Kind where
  | int | uint | byte | char | float | bool | string | array | map | struct | channel | enum | pointer | func | error | nil | void | unknown
  deriving DecidableEq, Repr

/-- `ExpectedArgKind` -/
inductive Arg where
  | string | int | float | bool | array | map | any | number | char | channel
  deriving DecidableEq, Repr

/-- `arg_kind_matches` -/
def fits : Arg → Kind → Bool
  | _, .unknown => true
  | .string, k => k == .string
  | .int, k => k == .int || k == .uint || k == .byte
  | .float, k => k == .float
  | .bool, k => k == .bool
  | .array, k => k == .array
  | .map, k => k == .map
  | .any, _ => true
  | .number, k => k == .int || k == .uint || k == .byte || k == .float
  | .char, k => k == .char
  | .channel, k => k == .channel

/-- An entry of `stdlib_func_meta`; `ok` is the type of the value of a function that may fail. -/
structure Meta where
  fn : Str
  least : Nat
  most : Nat
  checks : List (Nat × Arg)
  ok : Option Str
  deriving DecidableEq, Repr

/-- `stdlib_func_meta` -/
def metas : List (Str × List Meta) := [
  (lit "arrays", [
    ⟨lit "all", 2, 2, [(0, .array)], none⟩,
    ⟨lit "any", 2, 2, [(0, .array)], none⟩,
    ⟨lit "filter", 2, 2, [(0, .array)], none⟩,
    ⟨lit "map", 2, 2, [(0, .array)], none⟩,
    ⟨lit "reduce", 3, 3, [(0, .array)], none⟩,
    ⟨lit "remove", 2, 2, [(0, .array)], none⟩]),
  (lit "atomic", [
    ⟨lit "add", 2, 2, [], none⟩,
    ⟨lit "and", 2, 2, [], none⟩,
    ⟨lit "cas", 3, 3, [], none⟩,
    ⟨lit "exchange", 2, 2, [], none⟩,
    ⟨lit "fence", 0, 0, [], none⟩,
    ⟨lit "load", 1, 1, [], none⟩,
    ⟨lit "or", 2, 2, [], none⟩,
    ⟨lit "spin_lock", 1, 1, [], none⟩,
    ⟨lit "spin_trylock", 1, 1, [], none⟩,
    ⟨lit "spin_unlock", 1, 1, [], none⟩,
    ⟨lit "spinlock", 0, 0, [], none⟩,
    ⟨lit "spinlock_destroy", 1, 1, [], none⟩,
    ⟨lit "store", 2, 2, [], none⟩,
    ⟨lit "sub", 2, 2, [], none⟩,
    ⟨lit "xor", 2, 2, [], none⟩]),
  (lit "bytes", [
    ⟨lit "from_base64", 1, 1, [(0, .string)], none⟩,
    ⟨lit "from_hex", 1, 1, [(0, .string)], none⟩,
    ⟨lit "from_string", 1, 1, [(0, .string)], none⟩,
    ⟨lit "to_base64", 1, 1, [(0, .array)], none⟩,
    ⟨lit "to_hex", 1, 1, [(0, .array)], none⟩,
    ⟨lit "to_string", 1, 1, [(0, .array)], none⟩]),
  (lit "channels", [
    ⟨lit "close", 1, 1, [(0, .channel)], none⟩,
    ⟨lit "open", 1, 1, [], none⟩,
    ⟨lit "receive", 1, 1, [(0, .channel)], none⟩,
    ⟨lit "send", 2, 2, [(0, .channel), (1, .int)], none⟩,
    ⟨lit "try_receive", 1, 1, [(0, .channel)], none⟩,
    ⟨lit "try_send", 2, 2, [(0, .channel), (1, .int)], none⟩]),
  (lit "crypto", [
    ⟨lit "md5", 1, 1, [(0, .string)], none⟩,
    ⟨lit "random_hex", 1, 1, [(0, .int)], none⟩,
    ⟨lit "sha256", 1, 1, [(0, .string)], none⟩]),
  (lit "csv", [
    ⟨lit "encode", 1, 1, [(0, .array)], none⟩,
    ⟨lit "headers", 1, 1, [(0, .array)], none⟩,
    ⟨lit "parse", 1, 1, [(0, .string)], none⟩,
    ⟨lit "read_file", 1, 1, [(0, .string)], some (lit "[[string]]")⟩,
    ⟨lit "write_file", 2, 2, [(0, .string), (1, .array)], some (lit "bool")⟩]),
  (lit "encoding", [
    ⟨lit "base64_decode", 1, 1, [(0, .string)], none⟩,
    ⟨lit "base64_encode", 1, 1, [(0, .string)], none⟩,
    ⟨lit "hex_decode", 1, 1, [(0, .string)], none⟩,
    ⟨lit "hex_encode", 1, 1, [(0, .string)], none⟩,
    ⟨lit "url_decode", 1, 1, [(0, .string)], none⟩,
    ⟨lit "url_encode", 1, 1, [(0, .string)], none⟩]),
  (lit "fmt", [
    ⟨lit "center", 3, 3, [(0, .string), (1, .int), (2, .char)], none⟩,
    ⟨lit "eprintf", 1, 99, [(0, .string)], none⟩,
    ⟨lit "eprintfln", 1, 99, [(0, .string)], none⟩,
    ⟨lit "float_fixed", 2, 2, [(0, .number), (1, .int)], none⟩,
    ⟨lit "float_sci", 1, 1, [(0, .number)], none⟩,
    ⟨lit "format", 1, 99, [(0, .string)], none⟩,
    ⟨lit "int_to_binary", 1, 1, [(0, .int)], none⟩,
    ⟨lit "int_to_hex", 1, 1, [(0, .int)], none⟩,
    ⟨lit "int_to_octal", 1, 1, [(0, .int)], none⟩,
    ⟨lit "pad_left", 3, 3, [(0, .string), (1, .int), (2, .char)], none⟩,
    ⟨lit "pad_right", 3, 3, [(0, .string), (1, .int), (2, .char)], none⟩,
    ⟨lit "printf", 1, 99, [(0, .string)], none⟩,
    ⟨lit "printfln", 1, 99, [(0, .string)], none⟩,
    ⟨lit "sprintf", 1, 99, [(0, .string)], none⟩,
    ⟨lit "sprintfln", 1, 99, [(0, .string)], none⟩]),
  (lit "http", [
    ⟨lit "delete", 2, 2, [(0, .string), (1, .map)], some (lit "HttpResponse")⟩,
    ⟨lit "get", 2, 2, [(0, .string), (1, .map)], some (lit "HttpResponse")⟩,
    ⟨lit "head", 2, 2, [(0, .string), (1, .map)], some (lit "HttpResponse")⟩,
    ⟨lit "patch", 3, 3, [(0, .string), (1, .string), (2, .map)], some (lit "HttpResponse")⟩,
    ⟨lit "post", 3, 3, [(0, .string), (1, .string), (2, .map)], some (lit "HttpResponse")⟩,
    ⟨lit "put", 3, 3, [(0, .string), (1, .string), (2, .map)], some (lit "HttpResponse")⟩]),
  (lit "io", [
    ⟨lit "append_bytes", 2, 2, [(0, .string), (1, .array)], some (lit "bool")⟩,
    ⟨lit "append_file", 2, 2, [(0, .string), (1, .string)], some (lit "bool")⟩,
    ⟨lit "basename", 1, 1, [(0, .string)], none⟩,
    ⟨lit "copy_file", 2, 2, [(0, .string), (1, .string)], some (lit "bool")⟩,
    ⟨lit "delete_file", 1, 1, [(0, .string)], some (lit "bool")⟩,
    ⟨lit "dirname", 1, 1, [(0, .string)], none⟩,
    ⟨lit "extension", 1, 1, [(0, .string)], none⟩,
    ⟨lit "file_exists", 1, 1, [(0, .string)], none⟩,
    ⟨lit "file_size", 1, 1, [(0, .string)], some (lit "int")⟩,
    ⟨lit "glob", 1, 1, [(0, .string)], some (lit "[string]")⟩,
    ⟨lit "is_absolute", 1, 1, [(0, .string)], none⟩,
    ⟨lit "is_directory", 1, 1, [(0, .string)], none⟩,
    ⟨lit "is_file", 1, 1, [(0, .string)], none⟩,
    ⟨lit "list_dir", 1, 1, [(0, .string)], some (lit "[string]")⟩,
    ⟨lit "make_dir", 1, 1, [(0, .string)], some (lit "bool")⟩,
    ⟨lit "make_dir_all", 1, 1, [(0, .string)], some (lit "bool")⟩,
    ⟨lit "move_file", 2, 2, [(0, .string), (1, .string)], some (lit "bool")⟩,
    ⟨lit "normalize", 1, 1, [(0, .string)], none⟩,
    ⟨lit "path_join", 1, 1, [(0, .array)], none⟩,
    ⟨lit "read_bytes", 1, 1, [(0, .string)], some (lit "[byte]")⟩,
    ⟨lit "read_file", 1, 1, [(0, .string)], some (lit "string")⟩,
    ⟨lit "read_lines", 1, 1, [(0, .string)], some (lit "[string]")⟩,
    ⟨lit "remove_dir", 1, 1, [(0, .string)], some (lit "bool")⟩,
    ⟨lit "remove_dir_all", 1, 1, [(0, .string)], some (lit "bool")⟩,
    ⟨lit "rename_file", 2, 2, [(0, .string), (1, .string)], some (lit "bool")⟩,
    ⟨lit "temp_dir", 0, 0, [], some (lit "string")⟩,
    ⟨lit "temp_file", 0, 0, [], some (lit "string")⟩,
    ⟨lit "walk", 1, 1, [(0, .string)], some (lit "[string]")⟩,
    ⟨lit "write_bytes", 2, 2, [(0, .string), (1, .array)], some (lit "bool")⟩,
    ⟨lit "write_file", 2, 2, [(0, .string), (1, .string)], some (lit "bool")⟩]),
  (lit "json", [
    ⟨lit "decode", 1, 1, [(0, .string)], some (lit "map[string:string]")⟩,
    ⟨lit "encode", 1, 1, [], none⟩,
    ⟨lit "is_valid", 1, 1, [(0, .string)], none⟩,
    ⟨lit "parse", 1, 1, [(0, .string)], none⟩,
    ⟨lit "pretty_print", 2, 2, [(0, .map), (1, .int)], none⟩,
    ⟨lit "stringify", 1, 1, [], none⟩]),
  (lit "maps", [
    ⟨lit "clear", 1, 1, [(0, .map)], none⟩,
    ⟨lit "contains_value", 2, 2, [(0, .map)], none⟩,
    ⟨lit "get_keys", 1, 1, [(0, .map)], none⟩,
    ⟨lit "get_or_default", 3, 3, [(0, .map)], none⟩,
    ⟨lit "get_values", 1, 1, [(0, .map)], none⟩,
    ⟨lit "has_key", 2, 2, [(0, .map)], none⟩,
    ⟨lit "is_empty", 1, 1, [(0, .map)], none⟩,
    ⟨lit "is_equal", 2, 2, [(0, .map), (1, .map)], none⟩,
    ⟨lit "merge", 2, 2, [(0, .map), (1, .map)], none⟩,
    ⟨lit "remove_key", 2, 2, [(0, .map)], none⟩]),
  (lit "math", [
    ⟨lit "abs", 1, 1, [(0, .number)], none⟩,
    ⟨lit "acos", 1, 1, [(0, .number)], none⟩,
    ⟨lit "asin", 1, 1, [(0, .number)], none⟩,
    ⟨lit "atan", 1, 1, [(0, .number)], none⟩,
    ⟨lit "atan2", 2, 2, [(0, .number), (1, .number)], none⟩,
    ⟨lit "cbrt", 1, 1, [(0, .number)], none⟩,
    ⟨lit "ceil", 1, 1, [(0, .number)], none⟩,
    ⟨lit "clamp", 3, 3, [(0, .number), (1, .number), (2, .number)], none⟩,
    ⟨lit "cos", 1, 1, [(0, .number)], none⟩,
    ⟨lit "cosh", 1, 1, [(0, .number)], none⟩,
    ⟨lit "deg_to_rad", 1, 1, [(0, .number)], none⟩,
    ⟨lit "distance", 4, 4, [(0, .number), (1, .number), (2, .number), (3, .number)], none⟩,
    ⟨lit "exp", 1, 1, [(0, .number)], none⟩,
    ⟨lit "exp2", 1, 1, [(0, .number)], none⟩,
    ⟨lit "factorial", 1, 1, [(0, .int)], none⟩,
    ⟨lit "floor", 1, 1, [(0, .number)], none⟩,
    ⟨lit "gcd", 2, 2, [(0, .int), (1, .int)], none⟩,
    ⟨lit "hypot", 2, 2, [(0, .number), (1, .number)], none⟩,
    ⟨lit "is_even", 1, 1, [(0, .int)], none⟩,
    ⟨lit "is_finite", 1, 1, [(0, .number)], none⟩,
    ⟨lit "is_infinite", 1, 1, [(0, .number)], none⟩,
    ⟨lit "is_nan", 1, 1, [(0, .number)], none⟩,
    ⟨lit "is_odd", 1, 1, [(0, .int)], none⟩,
    ⟨lit "is_prime", 1, 1, [(0, .int)], none⟩,
    ⟨lit "lcm", 2, 2, [(0, .int), (1, .int)], none⟩,
    ⟨lit "lerp", 3, 3, [(0, .number), (1, .number), (2, .number)], none⟩,
    ⟨lit "log", 1, 1, [(0, .number)], none⟩,
    ⟨lit "log10", 1, 1, [(0, .number)], none⟩,
    ⟨lit "log2", 1, 1, [(0, .number)], none⟩,
    ⟨lit "log_base", 2, 2, [(0, .number), (1, .number)], none⟩,
    ⟨lit "max", 2, 2, [(0, .number), (1, .number)], none⟩,
    ⟨lit "min", 2, 2, [(0, .number), (1, .number)], none⟩,
    ⟨lit "neg", 1, 1, [(0, .number)], none⟩,
    ⟨lit "pow", 2, 2, [(0, .number), (1, .number)], none⟩,
    ⟨lit "rad_to_deg", 1, 1, [(0, .number)], none⟩,
    ⟨lit "round", 1, 1, [(0, .number)], none⟩,
    ⟨lit "sign", 1, 1, [(0, .number)], none⟩,
    ⟨lit "sin", 1, 1, [(0, .number)], none⟩,
    ⟨lit "sinh", 1, 1, [(0, .number)], none⟩,
    ⟨lit "sqrt", 1, 1, [(0, .number)], none⟩,
    ⟨lit "tan", 1, 1, [(0, .number)], none⟩,
    ⟨lit "tanh", 1, 1, [(0, .number)], none⟩,
    ⟨lit "trunc", 1, 1, [(0, .number)], none⟩]),
  (lit "mem", [
    ⟨lit "alloc", 2, 2, [], none⟩,
    ⟨lit "arena", 1, 1, [], none⟩,
    ⟨lit "destroy", 1, 1, [], none⟩,
    ⟨lit "fill", 3, 3, [], none⟩,
    ⟨lit "init", 2, 2, [], none⟩,
    ⟨lit "raw_copy", 3, 3, [], none⟩,
    ⟨lit "reset", 1, 1, [], none⟩,
    ⟨lit "usage", 1, 1, [], none⟩,
    ⟨lit "zero", 2, 2, [], none⟩]),
  (lit "net", [
    ⟨lit "accept", 1, 1, [], some (lit "Socket")⟩,
    ⟨lit "close", 1, 1, [], none⟩,
    ⟨lit "connect", 2, 2, [(0, .string), (1, .int)], some (lit "Socket")⟩,
    ⟨lit "listen", 1, 2, [(1, .int)], some (lit "Listener")⟩,
    ⟨lit "receive", 2, 2, [(1, .int)], some (lit "string")⟩,
    ⟨lit "resolve", 1, 1, [(0, .string)], some (lit "string")⟩,
    ⟨lit "send", 2, 2, [(1, .string)], some (lit "int")⟩,
    ⟨lit "set_timeout", 2, 2, [(1, .int)], none⟩]),
  (lit "os", [
    ⟨lit "arch", 0, 0, [], none⟩,
    ⟨lit "args", 0, 0, [], none⟩,
    ⟨lit "current_dir", 0, 0, [], none⟩,
    ⟨lit "current_os", 0, 0, [], none⟩,
    ⟨lit "exec", 2, 2, [(0, .string), (1, .array)], none⟩,
    ⟨lit "get_env", 1, 1, [(0, .string)], none⟩,
    ⟨lit "hostname", 0, 0, [], none⟩,
    ⟨lit "pid", 0, 0, [], none⟩,
    ⟨lit "set_env", 2, 2, [(0, .string), (1, .string)], none⟩,
    ⟨lit "unset_env", 1, 1, [(0, .string)], none⟩]),
  (lit "random", [
    ⟨lit "choice", 1, 1, [(0, .array)], none⟩,
    ⟨lit "rand_bool", 0, 0, [], none⟩,
    ⟨lit "rand_byte", 0, 0, [], none⟩,
    ⟨lit "rand_char", 0, 2, [(0, .char), (1, .char)], none⟩,
    ⟨lit "rand_float", 0, 2, [(0, .number), (1, .number)], none⟩,
    ⟨lit "rand_int", 1, 2, [(0, .int), (1, .int)], none⟩,
    ⟨lit "sample", 2, 2, [(0, .array), (1, .int)], none⟩,
    ⟨lit "seed", 1, 1, [(0, .int)], none⟩,
    ⟨lit "shuffle", 1, 1, [(0, .array)], none⟩]),
  (lit "regex", [
    ⟨lit "find", 2, 2, [(0, .string), (1, .string)], some (lit "string")⟩,
    ⟨lit "find_all", 2, 2, [(0, .string), (1, .string)], some (lit "[string]")⟩,
    ⟨lit "is_match", 2, 2, [(0, .string), (1, .string)], none⟩,
    ⟨lit "is_valid", 1, 1, [(0, .string)], none⟩,
    ⟨lit "replace", 3, 3, [(0, .string), (1, .string), (2, .string)], some (lit "string")⟩,
    ⟨lit "split", 2, 2, [(0, .string), (1, .string)], some (lit "[string]")⟩]),
  (lit "server", [
    ⟨lit "add_route", 4, 4, [], none⟩,
    ⟨lit "add_router", 0, 0, [], none⟩,
    ⟨lit "cors", 2, 2, [], none⟩,
    ⟨lit "html", 2, 2, [(1, .string)], none⟩,
    ⟨lit "json", 2, 2, [(1, .string)], none⟩,
    ⟨lit "listen", 2, 3, [(1, .int), (2, .string)], none⟩,
    ⟨lit "redirect", 2, 2, [(1, .string)], none⟩,
    ⟨lit "text", 2, 2, [(1, .string)], none⟩,
    ⟨lit "use", 2, 2, [], none⟩]),
  (lit "sqlite", [
    ⟨lit "close", 1, 1, [], none⟩,
    ⟨lit "exec", 2, 99, [], some (lit "bool")⟩,
    ⟨lit "open", 1, 1, [(0, .string)], some (lit "Database")⟩,
    ⟨lit "query", 2, 99, [], some (lit "[map]")⟩]),
  (lit "strconv", [
    ⟨lit "from_bool", 1, 1, [(0, .bool)], none⟩,
    ⟨lit "from_float", 1, 1, [(0, .float)], none⟩,
    ⟨lit "from_int", 1, 1, [(0, .int)], none⟩,
    ⟨lit "from_uint", 1, 1, [(0, .int)], none⟩,
    ⟨lit "is_integer", 1, 1, [(0, .string)], none⟩,
    ⟨lit "is_numeric", 1, 1, [(0, .string)], none⟩,
    ⟨lit "to_bool", 1, 1, [(0, .string)], some (lit "bool")⟩,
    ⟨lit "to_float", 1, 1, [(0, .string)], some (lit "float")⟩,
    ⟨lit "to_int", 1, 2, [(0, .string), (1, .int)], some (lit "int")⟩,
    ⟨lit "to_uint", 1, 2, [(0, .string), (1, .int)], some (lit "uint")⟩]),
  (lit "strings", [
    ⟨lit "char_at", 2, 2, [(0, .string), (1, .int)], none⟩,
    ⟨lit "contains", 2, 2, [(0, .string), (1, .string)], none⟩,
    ⟨lit "count", 2, 2, [(0, .string), (1, .string)], none⟩,
    ⟨lit "ends_with", 2, 2, [(0, .string), (1, .string)], none⟩,
    ⟨lit "from_chars", 1, 1, [(0, .array)], none⟩,
    ⟨lit "index_of", 2, 2, [(0, .string), (1, .string)], none⟩,
    ⟨lit "is_alnum", 1, 1, [(0, .char)], none⟩,
    ⟨lit "is_alpha", 1, 1, [(0, .char)], none⟩,
    ⟨lit "is_digit", 1, 1, [(0, .char)], none⟩,
    ⟨lit "is_empty", 1, 1, [(0, .string)], none⟩,
    ⟨lit "is_lower", 1, 1, [(0, .char)], none⟩,
    ⟨lit "is_upper", 1, 1, [(0, .char)], none⟩,
    ⟨lit "is_whitespace", 1, 1, [(0, .char)], none⟩,
    ⟨lit "join", 2, 2, [(0, .array), (1, .string)], none⟩,
    ⟨lit "last_index_of", 2, 2, [(0, .string), (1, .string)], none⟩,
    ⟨lit "remove_prefix", 2, 2, [(0, .string), (1, .string)], none⟩,
    ⟨lit "remove_suffix", 2, 2, [(0, .string), (1, .string)], none⟩,
    ⟨lit "repeat", 2, 2, [(0, .string), (1, .int)], none⟩,
    ⟨lit "replace", 3, 3, [(0, .string), (1, .string), (2, .string)], none⟩,
    ⟨lit "reverse", 1, 1, [(0, .string)], none⟩,
    ⟨lit "slice", 3, 3, [(0, .string), (1, .int), (2, .int)], none⟩,
    ⟨lit "split", 2, 2, [(0, .string), (1, .string)], none⟩,
    ⟨lit "starts_with", 2, 2, [(0, .string), (1, .string)], none⟩,
    ⟨lit "to_chars", 1, 1, [(0, .string)], none⟩,
    ⟨lit "to_lower", 1, 1, [(0, .string)], none⟩,
    ⟨lit "to_upper", 1, 1, [(0, .string)], none⟩,
    ⟨lit "trim", 1, 1, [(0, .string)], none⟩,
    ⟨lit "trim_left", 1, 1, [(0, .string)], none⟩,
    ⟨lit "trim_right", 1, 1, [(0, .string)], none⟩]),
  (lit "sync", [
    ⟨lit "destroy", 1, 1, [], none⟩,
    ⟨lit "lock", 1, 1, [], none⟩,
    ⟨lit "mutex", 0, 0, [], none⟩,
    ⟨lit "try_lock", 1, 1, [], none⟩,
    ⟨lit "unlock", 1, 1, [], none⟩]),
  (lit "threads", [
    ⟨lit "current", 0, 0, [], none⟩,
    ⟨lit "detach", 1, 1, [], none⟩,
    ⟨lit "get_id", 0, 0, [], none⟩,
    ⟨lit "is_alive", 1, 1, [], none⟩,
    ⟨lit "join", 1, 1, [], none⟩,
    ⟨lit "sleep", 1, 1, [], none⟩,
    ⟨lit "spawn", 1, 2, [], none⟩,
    ⟨lit "thread_count", 0, 0, [], none⟩,
    ⟨lit "yield", 0, 0, [], none⟩]),
  (lit "time", [
    ⟨lit "date", 1, 1, [(0, .int)], none⟩,
    ⟨lit "day", 1, 1, [(0, .int)], none⟩,
    ⟨lit "diff", 2, 2, [(0, .int), (1, .int)], none⟩,
    ⟨lit "elapsed_ms", 1, 1, [(0, .int)], none⟩,
    ⟨lit "format", 2, 2, [(0, .string), (1, .int)], none⟩,
    ⟨lit "hour", 1, 1, [(0, .int)], none⟩,
    ⟨lit "minute", 1, 1, [(0, .int)], none⟩,
    ⟨lit "month", 1, 1, [(0, .int)], none⟩,
    ⟨lit "now", 0, 0, [], none⟩,
    ⟨lit "now_ms", 0, 0, [], none⟩,
    ⟨lit "now_ns", 0, 0, [], none⟩,
    ⟨lit "second", 1, 1, [(0, .int)], none⟩,
    ⟨lit "tick", 0, 0, [], none⟩,
    ⟨lit "to_clock", 1, 1, [(0, .int)], none⟩,
    ⟨lit "to_iso", 1, 1, [(0, .int)], none⟩,
    ⟨lit "weekday", 1, 1, [(0, .int)], none⟩,
    ⟨lit "year", 1, 1, [(0, .int)], none⟩]),
  (lit "uuid", [
    ⟨lit "generate", 0, 0, [], none⟩,
    ⟨lit "generate_compact", 1, 1, [], none⟩,
    ⟨lit "generate_hyphenated", 0, 0, [], none⟩,
    ⟨lit "generate_random", 0, 0, [], none⟩,
    ⟨lit "generate_time_ordered", 0, 0, [], none⟩,
    ⟨lit "is_valid", 1, 1, [(0, .string)], none⟩,
    ⟨lit "parse", 1, 1, [(0, .string)], none⟩,
    ⟨lit "to_string", 1, 1, [], none⟩])]

/-- The names the checker knows in each module; those of `anyName` are left out. -/
def names : List (Str × List Str) := [
  (lit "arrays", [lit "all", lit "any", lit "append", lit "clear", lit "concat", lit "contains", lit "count", lit "deduplicate",
    lit "fill", lit "filter", lit "flatten", lit "get_first", lit "get_last", lit "get_max", lit "get_min", lit "get_sum",
    lit "index_of", lit "insert_at", lit "is_empty", lit "is_equal", lit "map", lit "pair", lit "prepend", lit "reduce",
    lit "remove", lit "remove_at", lit "remove_first", lit "remove_last", lit "reverse", lit "slice", lit "sort_asc",
    lit "sort_desc", lit "split_every"]),
  (lit "atomic", [lit "add", lit "and", lit "cas", lit "exchange", lit "fence", lit "load", lit "or", lit "spin_lock", lit "spin_trylock",
    lit "spin_unlock", lit "spinlock", lit "spinlock_destroy", lit "store", lit "sub", lit "xor"]),
  (lit "bytes", [lit "from_base64", lit "from_hex", lit "from_string", lit "to_base64", lit "to_hex", lit "to_string"]),
  (lit "channels", [lit "close", lit "open", lit "receive", lit "send", lit "try_receive", lit "try_send"]),
  (lit "csv", [lit "encode", lit "headers", lit "parse", lit "read_file", lit "write_file"]),
  (lit "fmt", [lit "center", lit "eprintf", lit "eprintfln", lit "float_fixed", lit "float_sci", lit "format", lit "int_to_binary",
    lit "int_to_hex", lit "int_to_octal", lit "pad_left", lit "pad_right", lit "printf", lit "printfln", lit "sprintf",
    lit "sprintfln"]),
  (lit "io", [lit "append_bytes", lit "append_file", lit "basename", lit "copy_file", lit "delete_file", lit "dirname",
    lit "extension", lit "file_exists", lit "file_size", lit "glob", lit "is_absolute", lit "is_directory", lit "is_file",
    lit "list_dir", lit "make_dir", lit "make_dir_all", lit "move_file", lit "normalize", lit "path_join", lit "read_bytes",
    lit "read_file", lit "read_lines", lit "remove_dir", lit "remove_dir_all", lit "rename_file", lit "temp_dir",
    lit "temp_file", lit "walk", lit "write_bytes", lit "write_file"]),
  (lit "json", [lit "decode", lit "encode", lit "is_valid", lit "parse", lit "pretty_print", lit "stringify"]),
  (lit "maps", [lit "clear", lit "contains_value", lit "get_keys", lit "get_or_default", lit "get_values", lit "has_key", lit "is_empty",
    lit "is_equal", lit "merge", lit "remove_key"]),
  (lit "math", [lit "abs", lit "acos", lit "asin", lit "atan", lit "atan2", lit "cbrt", lit "ceil", lit "clamp", lit "cos", lit "cosh",
    lit "deg_to_rad", lit "distance", lit "exp", lit "exp2", lit "factorial", lit "floor", lit "gcd", lit "hypot",
    lit "is_even", lit "is_finite", lit "is_infinite", lit "is_nan", lit "is_odd", lit "is_prime", lit "lcm", lit "lerp",
    lit "log", lit "log10", lit "log2", lit "log_base", lit "max", lit "min", lit "neg", lit "pow", lit "rad_to_deg",
    lit "round", lit "sign", lit "sin", lit "sinh", lit "sqrt", lit "tan", lit "tanh", lit "trunc"]),
  (lit "mem", [lit "alloc", lit "arena", lit "destroy", lit "free", lit "init", lit "make", lit "reset", lit "usage"]),
  (lit "net", [lit "accept", lit "close", lit "connect", lit "listen", lit "receive", lit "resolve", lit "send", lit "set_timeout"]),
  (lit "os", [lit "arch", lit "args", lit "current_dir", lit "current_os", lit "exec", lit "get_env", lit "hostname", lit "pid",
    lit "set_env", lit "unset_env"]),
  (lit "random", [lit "choice", lit "rand_bool", lit "rand_byte", lit "rand_char", lit "rand_float", lit "rand_int", lit "sample",
    lit "seed", lit "shuffle"]),
  (lit "regex", [lit "find", lit "find_all", lit "is_match", lit "is_valid", lit "replace", lit "split"]),
  (lit "server", [lit "add_route", lit "add_router", lit "cors", lit "html", lit "json", lit "listen", lit "redirect", lit "text",
    lit "use"]),
  (lit "sqlite", [lit "close", lit "exec", lit "open", lit "query"]),
  (lit "strconv", [lit "from_bool", lit "from_float", lit "from_int", lit "from_uint", lit "is_integer", lit "is_numeric", lit "to_bool",
    lit "to_float", lit "to_int", lit "to_uint"]),
  (lit "strings", [lit "char_at", lit "contains", lit "count", lit "ends_with", lit "from_chars", lit "index_of", lit "is_alnum",
    lit "is_alpha", lit "is_digit", lit "is_empty", lit "is_lower", lit "is_upper", lit "is_whitespace", lit "join",
    lit "last_index_of", lit "remove_prefix", lit "remove_suffix", lit "repeat", lit "replace", lit "reverse", lit "slice",
    lit "split", lit "starts_with", lit "to_chars", lit "to_lower", lit "to_upper", lit "trim", lit "trim_left",
    lit "trim_right"]),
  (lit "sync", [lit "destroy", lit "lock", lit "mutex", lit "try_lock", lit "unlock"]),
  (lit "threads", [lit "current", lit "detach", lit "get_id", lit "is_alive", lit "join", lit "sleep", lit "spawn", lit "spawn_arg",
    lit "thread_count", lit "yield"]),
  (lit "time", [lit "date", lit "day", lit "diff", lit "elapsed_ms", lit "format", lit "hour", lit "minute", lit "month", lit "now",
    lit "now_ms", lit "now_ns", lit "second", lit "tick", lit "to_clock", lit "to_iso", lit "weekday", lit "year"]),
  (lit "uuid", [lit "generate", lit "generate_compact", lit "generate_hyphenated", lit "generate_random", lit "generate_time_ordered",
    lit "is_valid", lit "parse", lit "to_string"])]

/-- The type of a parameter in the manual -/
inductive PTy where
  | string | int | uint | float | bool | char | byte | array | map | func | struct | number | any
  deriving DecidableEq, Repr

/-- A signature: how many of the last parameters have a default value, whether there is a `...args`, and the first type of a result `(T, Error)` -/
structure Sig where
  fn : Str
  params : List PTy
  opt : Nat
  rest : Bool
  result : Option Str
  deriving DecidableEq, Repr

/-- The manual -/
def manual : List (Str × List Sig) := [
  (lit "arrays", [
    ⟨lit "append", [.array, .any], 0, false, none⟩,
    ⟨lit "insert_at", [.array, .int, .any], 0, false, none⟩,
    ⟨lit "prepend", [.array, .any], 0, false, none⟩,
    ⟨lit "remove_at", [.array, .int], 0, false, none⟩,
    ⟨lit "remove", [.array, .any], 0, false, none⟩,
    ⟨lit "clear", [.array], 0, false, none⟩,
    ⟨lit "fill", [.array, .any, .int], 0, false, none⟩,
    ⟨lit "get_first", [.array], 0, false, none⟩,
    ⟨lit "get_last", [.array], 0, false, none⟩,
    ⟨lit "remove_first", [.array], 0, false, none⟩,
    ⟨lit "remove_last", [.array], 0, false, none⟩,
    ⟨lit "is_empty", [.array], 0, false, none⟩,
    ⟨lit "contains", [.array, .any], 0, false, none⟩,
    ⟨lit "index_of", [.array, .any], 0, false, none⟩,
    ⟨lit "count", [.array, .any], 0, false, none⟩,
    ⟨lit "is_equal", [.array, .array], 0, false, none⟩,
    ⟨lit "reverse", [.array], 0, false, none⟩,
    ⟨lit "slice", [.array, .int, .int], 0, false, none⟩,
    ⟨lit "concat", [.array, .array], 0, false, none⟩,
    ⟨lit "deduplicate", [.array], 0, false, none⟩,
    ⟨lit "flatten", [.array], 0, false, none⟩,
    ⟨lit "split_every", [.array, .int], 0, false, none⟩,
    ⟨lit "pair", [.array, .array], 0, false, none⟩,
    ⟨lit "get_sum", [.array], 0, false, none⟩,
    ⟨lit "get_min", [.array], 0, false, none⟩,
    ⟨lit "get_max", [.array], 0, false, none⟩,
    ⟨lit "sort_asc", [.array], 0, false, none⟩,
    ⟨lit "sort_desc", [.array], 0, false, none⟩,
    ⟨lit "map", [.array, .func], 0, false, none⟩,
    ⟨lit "filter", [.array, .func], 0, false, none⟩,
    ⟨lit "reduce", [.array, .any, .func], 0, false, none⟩]),
  (lit "bytes", [
    ⟨lit "from_string", [.string], 0, false, none⟩,
    ⟨lit "from_hex", [.string], 0, false, none⟩,
    ⟨lit "from_base64", [.string], 0, false, none⟩,
    ⟨lit "to_string", [.array], 0, false, none⟩,
    ⟨lit "to_hex", [.array], 0, false, none⟩,
    ⟨lit "to_base64", [.array], 0, false, none⟩]),
  (lit "csv", [
    ⟨lit "parse", [.string], 0, false, none⟩,
    ⟨lit "encode", [.array], 0, false, none⟩,
    ⟨lit "headers", [.array], 0, false, none⟩,
    ⟨lit "read_file", [.string], 0, false, some (lit "[[string]]")⟩,
    ⟨lit "write_file", [.string, .array], 0, false, some (lit "bool")⟩]),
  (lit "fmt", [
    ⟨lit "printf", [.string], 0, true, none⟩,
    ⟨lit "sprintf", [.string], 0, true, none⟩,
    ⟨lit "format", [.string], 0, true, none⟩,
    ⟨lit "printfln", [.string], 0, true, none⟩,
    ⟨lit "eprintf", [.string], 0, true, none⟩,
    ⟨lit "eprintfln", [.string], 0, true, none⟩,
    ⟨lit "sprintfln", [.string], 0, true, none⟩,
    ⟨lit "pad_left", [.string, .int, .char], 0, false, none⟩,
    ⟨lit "pad_right", [.string, .int, .char], 0, false, none⟩,
    ⟨lit "center", [.string, .int, .char], 0, false, none⟩,
    ⟨lit "int_to_hex", [.int], 0, false, none⟩,
    ⟨lit "int_to_binary", [.int], 0, false, none⟩,
    ⟨lit "int_to_octal", [.int], 0, false, none⟩,
    ⟨lit "float_fixed", [.float, .int], 0, false, none⟩,
    ⟨lit "float_sci", [.float], 0, false, none⟩]),
  (lit "http", [
    ⟨lit "get", [.string, .map], 0, false, some (lit "HttpResponse")⟩,
    ⟨lit "post", [.string, .string, .map], 0, false, some (lit "HttpResponse")⟩,
    ⟨lit "put", [.string, .string, .map], 0, false, some (lit "HttpResponse")⟩,
    ⟨lit "patch", [.string, .string, .map], 0, false, some (lit "HttpResponse")⟩,
    ⟨lit "delete", [.string, .map], 0, false, some (lit "HttpResponse")⟩,
    ⟨lit "head", [.string, .map], 0, false, some (lit "HttpResponse")⟩]),
  (lit "io", [
    ⟨lit "read_file", [.string], 0, false, some (lit "string")⟩,
    ⟨lit "read_bytes", [.string], 0, false, some (lit "[byte]")⟩,
    ⟨lit "read_lines", [.string], 0, false, some (lit "[string]")⟩,
    ⟨lit "file_exists", [.string], 0, false, none⟩,
    ⟨lit "is_file", [.string], 0, false, none⟩,
    ⟨lit "is_directory", [.string], 0, false, none⟩,
    ⟨lit "file_size", [.string], 0, false, some (lit "int")⟩,
    ⟨lit "write_file", [.string, .string], 0, false, some (lit "bool")⟩,
    ⟨lit "append_file", [.string, .string], 0, false, some (lit "bool")⟩,
    ⟨lit "write_bytes", [.string, .array], 0, false, some (lit "bool")⟩,
    ⟨lit "append_bytes", [.string, .array], 0, false, some (lit "bool")⟩,
    ⟨lit "delete_file", [.string], 0, false, some (lit "bool")⟩,
    ⟨lit "rename_file", [.string, .string], 0, false, some (lit "bool")⟩,
    ⟨lit "copy_file", [.string, .string], 0, false, some (lit "bool")⟩,
    ⟨lit "move_file", [.string, .string], 0, false, some (lit "bool")⟩,
    ⟨lit "list_dir", [.string], 0, false, some (lit "[string]")⟩,
    ⟨lit "make_dir", [.string], 0, false, some (lit "bool")⟩,
    ⟨lit "make_dir_all", [.string], 0, false, some (lit "bool")⟩,
    ⟨lit "remove_dir", [.string], 0, false, some (lit "bool")⟩,
    ⟨lit "remove_dir_all", [.string], 0, false, some (lit "bool")⟩,
    ⟨lit "walk", [.string], 0, false, some (lit "[string]")⟩,
    ⟨lit "glob", [.string], 0, false, some (lit "[string]")⟩,
    ⟨lit "temp_file", [], 0, false, some (lit "string")⟩,
    ⟨lit "temp_dir", [], 0, false, some (lit "string")⟩,
    ⟨lit "path_join", [.array], 0, false, none⟩,
    ⟨lit "dirname", [.string], 0, false, none⟩,
    ⟨lit "basename", [.string], 0, false, none⟩,
    ⟨lit "extension", [.string], 0, false, none⟩,
    ⟨lit "is_absolute", [.string], 0, false, none⟩,
    ⟨lit "normalize", [.string], 0, false, none⟩]),
  (lit "json", [
    ⟨lit "encode", [.any], 0, false, none⟩,
    ⟨lit "stringify", [.any], 0, false, none⟩,
    ⟨lit "decode", [.string], 0, false, some (lit "map[string:string]")⟩,
    ⟨lit "parse", [.string], 0, false, none⟩,
    ⟨lit "is_valid", [.string], 0, false, none⟩,
    ⟨lit "pretty_print", [.map, .int], 0, false, none⟩]),
  (lit "maps", [
    ⟨lit "get_keys", [.map], 0, false, none⟩,
    ⟨lit "get_values", [.map], 0, false, none⟩,
    ⟨lit "has_key", [.map, .any], 0, false, none⟩,
    ⟨lit "is_empty", [.map], 0, false, none⟩,
    ⟨lit "contains_value", [.map, .any], 0, false, none⟩,
    ⟨lit "is_equal", [.map, .map], 0, false, none⟩,
    ⟨lit "merge", [.map, .map], 0, false, none⟩,
    ⟨lit "get_or_default", [.map, .any, .any], 0, false, none⟩,
    ⟨lit "remove_key", [.map, .any], 0, false, none⟩,
    ⟨lit "clear", [.map], 0, false, none⟩]),
  (lit "math", [
    ⟨lit "abs", [.number], 0, false, none⟩,
    ⟨lit "neg", [.number], 0, false, none⟩,
    ⟨lit "sign", [.int], 0, false, none⟩,
    ⟨lit "min", [.number, .number], 0, false, none⟩,
    ⟨lit "max", [.number, .number], 0, false, none⟩,
    ⟨lit "clamp", [.number, .number, .number], 0, false, none⟩,
    ⟨lit "floor", [.float], 0, false, none⟩,
    ⟨lit "ceil", [.float], 0, false, none⟩,
    ⟨lit "round", [.float], 0, false, none⟩,
    ⟨lit "trunc", [.float], 0, false, none⟩,
    ⟨lit "pow", [.float, .float], 0, false, none⟩,
    ⟨lit "sqrt", [.float], 0, false, none⟩,
    ⟨lit "cbrt", [.float], 0, false, none⟩,
    ⟨lit "hypot", [.float, .float], 0, false, none⟩,
    ⟨lit "exp", [.float], 0, false, none⟩,
    ⟨lit "exp2", [.float], 0, false, none⟩,
    ⟨lit "log", [.float], 0, false, none⟩,
    ⟨lit "log2", [.float], 0, false, none⟩,
    ⟨lit "log10", [.float], 0, false, none⟩,
    ⟨lit "log_base", [.float, .float], 0, false, none⟩,
    ⟨lit "sin", [.float], 0, false, none⟩,
    ⟨lit "cos", [.float], 0, false, none⟩,
    ⟨lit "tan", [.float], 0, false, none⟩,
    ⟨lit "asin", [.float], 0, false, none⟩,
    ⟨lit "acos", [.float], 0, false, none⟩,
    ⟨lit "atan", [.float], 0, false, none⟩,
    ⟨lit "atan2", [.float, .float], 0, false, none⟩,
    ⟨lit "sinh", [.float], 0, false, none⟩,
    ⟨lit "cosh", [.float], 0, false, none⟩,
    ⟨lit "tanh", [.float], 0, false, none⟩,
    ⟨lit "deg_to_rad", [.float], 0, false, none⟩,
    ⟨lit "rad_to_deg", [.float], 0, false, none⟩,
    ⟨lit "is_even", [.int], 0, false, none⟩,
    ⟨lit "is_odd", [.int], 0, false, none⟩,
    ⟨lit "is_infinite", [.float], 0, false, none⟩,
    ⟨lit "is_nan", [.float], 0, false, none⟩,
    ⟨lit "is_finite", [.float], 0, false, none⟩,
    ⟨lit "factorial", [.int], 0, false, none⟩,
    ⟨lit "gcd", [.int, .int], 0, false, none⟩,
    ⟨lit "lcm", [.int, .int], 0, false, none⟩,
    ⟨lit "is_prime", [.int], 0, false, none⟩,
    ⟨lit "lerp", [.float, .float, .float], 0, false, none⟩,
    ⟨lit "distance", [.float, .float, .float, .float], 0, false, none⟩]),
  (lit "os", [
    ⟨lit "args", [], 0, false, none⟩,
    ⟨lit "get_env", [.string], 0, false, none⟩,
    ⟨lit "set_env", [.string, .string], 0, false, none⟩,
    ⟨lit "unset_env", [.string], 0, false, none⟩,
    ⟨lit "current_dir", [], 0, false, none⟩,
    ⟨lit "hostname", [], 0, false, none⟩,
    ⟨lit "current_os", [], 0, false, none⟩,
    ⟨lit "arch", [], 0, false, none⟩,
    ⟨lit "pid", [], 0, false, none⟩,
    ⟨lit "exec", [.string, .array], 0, false, none⟩]),
  (lit "random", [
    ⟨lit "rand_float", [], 0, false, none⟩,
    ⟨lit "rand_float", [.float, .float], 0, false, none⟩,
    ⟨lit "rand_int", [.int], 0, false, none⟩,
    ⟨lit "rand_int", [.int, .int], 0, false, none⟩,
    ⟨lit "rand_bool", [], 0, false, none⟩,
    ⟨lit "rand_byte", [], 0, false, none⟩,
    ⟨lit "rand_char", [], 0, false, none⟩,
    ⟨lit "rand_char", [.char, .char], 0, false, none⟩,
    ⟨lit "choice", [.array], 0, false, none⟩,
    ⟨lit "shuffle", [.array], 0, false, none⟩,
    ⟨lit "sample", [.array, .int], 0, false, none⟩,
    ⟨lit "seed", [.int], 0, false, none⟩]),
  (lit "server", [
    ⟨lit "add_router", [], 0, false, none⟩,
    ⟨lit "add_route", [.struct, .string, .string, .func], 0, false, none⟩,
    ⟨lit "listen", [.struct, .int], 0, false, none⟩,
    ⟨lit "cors", [.struct, .string], 0, false, none⟩,
    ⟨lit "use", [.struct, .func], 0, false, none⟩,
    ⟨lit "text", [.int, .string], 0, false, none⟩,
    ⟨lit "json", [.int, .string], 0, false, none⟩,
    ⟨lit "html", [.int, .string], 0, false, none⟩,
    ⟨lit "redirect", [.int, .string], 0, false, none⟩]),
  (lit "sqlite", [
    ⟨lit "open", [.string], 0, false, some (lit "Database")⟩,
    ⟨lit "close", [.struct], 0, false, none⟩,
    ⟨lit "exec", [.struct, .string], 0, false, some (lit "bool")⟩,
    ⟨lit "query", [.struct, .string], 0, false, some (lit "[map[string:string]]")⟩]),
  (lit "strconv", [
    ⟨lit "to_int", [.string, .int], 1, false, some (lit "int")⟩,
    ⟨lit "to_uint", [.string, .int], 1, false, some (lit "uint")⟩,
    ⟨lit "to_float", [.string], 0, false, some (lit "float")⟩,
    ⟨lit "to_bool", [.string], 0, false, some (lit "bool")⟩,
    ⟨lit "from_int", [.int], 0, false, none⟩,
    ⟨lit "from_uint", [.uint], 0, false, none⟩,
    ⟨lit "from_float", [.float], 0, false, none⟩,
    ⟨lit "from_bool", [.bool], 0, false, none⟩,
    ⟨lit "is_numeric", [.string], 0, false, none⟩,
    ⟨lit "is_integer", [.string], 0, false, none⟩]),
  (lit "strings", [
    ⟨lit "to_upper", [.string], 0, false, none⟩,
    ⟨lit "to_lower", [.string], 0, false, none⟩,
    ⟨lit "trim", [.string], 0, false, none⟩,
    ⟨lit "trim_left", [.string], 0, false, none⟩,
    ⟨lit "trim_right", [.string], 0, false, none⟩,
    ⟨lit "contains", [.string, .string], 0, false, none⟩,
    ⟨lit "starts_with", [.string, .string], 0, false, none⟩,
    ⟨lit "ends_with", [.string, .string], 0, false, none⟩,
    ⟨lit "index_of", [.string, .string], 0, false, none⟩,
    ⟨lit "last_index_of", [.string, .string], 0, false, none⟩,
    ⟨lit "count", [.string, .string], 0, false, none⟩,
    ⟨lit "is_empty", [.string], 0, false, none⟩,
    ⟨lit "remove_prefix", [.string, .string], 0, false, none⟩,
    ⟨lit "remove_suffix", [.string, .string], 0, false, none⟩,
    ⟨lit "replace", [.string, .string, .string], 0, false, none⟩,
    ⟨lit "repeat", [.string, .int], 0, false, none⟩,
    ⟨lit "reverse", [.string], 0, false, none⟩,
    ⟨lit "slice", [.string, .int, .int], 0, false, none⟩,
    ⟨lit "split", [.string, .string], 0, false, none⟩,
    ⟨lit "join", [.array, .string], 0, false, none⟩,
    ⟨lit "char_at", [.string, .int], 0, false, none⟩,
    ⟨lit "to_chars", [.string], 0, false, none⟩,
    ⟨lit "from_chars", [.array], 0, false, none⟩,
    ⟨lit "is_alpha", [.char], 0, false, none⟩,
    ⟨lit "is_digit", [.char], 0, false, none⟩,
    ⟨lit "is_alnum", [.char], 0, false, none⟩,
    ⟨lit "is_whitespace", [.char], 0, false, none⟩,
    ⟨lit "is_upper", [.char], 0, false, none⟩,
    ⟨lit "is_lower", [.char], 0, false, none⟩]),
  (lit "time", [
    ⟨lit "now", [], 0, false, none⟩,
    ⟨lit "now_ms", [], 0, false, none⟩,
    ⟨lit "now_ns", [], 0, false, none⟩,
    ⟨lit "year", [.int], 0, false, none⟩,
    ⟨lit "month", [.int], 0, false, none⟩,
    ⟨lit "day", [.int], 0, false, none⟩,
    ⟨lit "hour", [.int], 0, false, none⟩,
    ⟨lit "minute", [.int], 0, false, none⟩,
    ⟨lit "second", [.int], 0, false, none⟩,
    ⟨lit "weekday", [.int], 0, false, none⟩,
    ⟨lit "format", [.string, .int], 0, false, none⟩,
    ⟨lit "to_iso", [.int], 0, false, none⟩,
    ⟨lit "date", [.int], 0, false, none⟩,
    ⟨lit "to_clock", [.int], 0, false, none⟩,
    ⟨lit "diff", [.int, .int], 0, false, none⟩,
    ⟨lit "tick", [], 0, false, none⟩,
    ⟨lit "elapsed_ms", [.int], 0, false, none⟩])]

/-- The functions of a module -/
def group {α : Type} (t : List (Str × List α)) (m : Str) : List α :=
  match t.find? fun g => g.1 == m with
  | some g => g.2
  | none => []

/-- `find_stdlib_meta` -/
def entry (m f : Str) : Option Meta := (group metas m).find? fun e => e.fn == f

/-- E5008 is not reported. -/
def counted (m f : Str) (k : Nat) : Bool :=
  match entry m f with
  | none => true
  | some e => decide (e.least ≤ k) && decide (k ≤ e.most)

/-- E5026 is not reported. -/
def typed (m f : Str) (args : List Kind) : Bool :=
  match entry m f with
  | none => true
  | some e => e.checks.all fun c =>
    match args[c.1]? with
    | none => true
    | some k => fits c.2 k

/-- The modules for which every name is accepted -/
def anyName (m : Str) : Bool := m == lit "crypto" || m == lit "encoding" || m == lit "http" || m == lit "binary"

/-- No "unknown function" -/
def known (m f : Str) : Bool := anyName m || (group names m).contains f

/-- A call `m.f(…)` -/
def accepts (m f : Str) (args : List Kind) : Bool := known m f && counted m f args.length && typed m f args

/-- The functions for which the generator has a text that refers to a function of the runtime -/
def emitted : List (Str × List Str) := [
  (lit "mem", [lit "arena", lit "destroy", lit "reset", lit "usage", lit "raw_copy", lit "zero", lit "fill", lit "init", lit "alloc"]),
  (lit "threads", [lit "spawn", lit "join", lit "detach", lit "is_alive", lit "get_id", lit "current", lit "yield", lit "sleep", lit "thread_count"]),
  (lit "http", [lit "get", lit "post", lit "put", lit "delete", lit "head", lit "patch"]),
  (lit "crypto", [lit "sha256", lit "md5", lit "random_hex"]),
  (lit "encoding", [lit "base64_encode", lit "base64_decode", lit "hex_encode", lit "hex_decode", lit "url_encode", lit "url_decode"])]

/-- How many arguments the text for `rand_float` passes on; none: there is no text -/
def randFloat (k : Nat) : Option Nat := if k = 0 then some 0 else if k = 2 then some 2 else none

/-- The same for `rand_char` -/
def randChar (k : Nat) : Option Nat := if k = 2 then some 2 else some 0

end Verif.Manual

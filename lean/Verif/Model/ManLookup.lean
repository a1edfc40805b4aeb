import Verif.Model.Str
/-
`gray man`: which entry of the manual a name shows (`manCmd`, /repo/cli/commands.go 487-575), with the tables
`builtinManDocs` (/repo/cli/builtins_man_data.go 14-54), `stdlibManDocs`, `stdlibModules`, `stdlibModuleGroups` (/repo/cli/stdlib_man_data.go 16-430),
`langManDocs`, `langCategories`, `langSymbolAliases` (/repo/cli/lang_man_data.go 14-463), and the index of builtins (commands.go 343-371).

Simplifications.
* An entry is its key; the text printed for it is left out, so are the labels of the groups of an index.
* A Go map has distinct keys in an order that differs between runs: the table of the library is a parameter of the lookup, the tables that are only
  read by key are fixed lists.
* The arguments after the first, which are ignored, are left out; so is the call without arguments, which prints the usage.
-/
namespace Verif.ManLookup
open Verif Verif.Str

/-- `builtinManDocs` -/
def builtins : List Str := [
  lit "println", lit "print", lit "eprintln", lit "eprint", lit "input", lit "assert", lit "panic", lit "exit", lit "sleep_s",
  lit "sleep_ms", lit "sleep_ns", lit "int", lit "uint", lit "float", lit "string", lit "char", lit "byte", lit "bool", lit "cast",
  lit "i128", lit "u128", lit "i256", lit "u256", lit "len", lit "type_of", lit "size_of", lit "new", lit "ref", lit "addr", lit "copy",
  lit "error", lit "range", lit "c_string", lit "to_char", lit "char_count", lit "here", lit "SourceLocation", lit "embed", lit "Error"]

/-- The names of `printBuiltinsIndex` -/
def builtinsIndex : List Str := [
  lit "println", lit "print", lit "eprintln", lit "eprint", lit "input", lit "exit", lit "panic", lit "assert", lit "sleep_s",
  lit "sleep_ms", lit "sleep_ns", lit "int", lit "uint", lit "float", lit "string", lit "char", lit "byte", lit "bool", lit "cast",
  lit "i128", lit "u128", lit "i256", lit "u256", lit "new", lit "ref", lit "addr", lit "copy", lit "len", lit "type_of", lit "size_of",
  lit "error", lit "range", lit "c_string", lit "to_char", lit "char_count", lit "here", lit "SourceLocation", lit "Error"]

/-- `stdlibManDocs` -/
def stdlib : List Str := [
  lit "arrays.append", lit "arrays.insert_at", lit "arrays.prepend", lit "arrays.remove_at", lit "arrays.remove", lit "arrays.clear",
  lit "arrays.fill", lit "arrays.get_first", lit "arrays.get_last", lit "arrays.remove_first", lit "arrays.remove_last",
  lit "arrays.is_empty", lit "arrays.contains", lit "arrays.index_of", lit "arrays.count", lit "arrays.is_equal", lit "arrays.reverse",
  lit "arrays.slice", lit "arrays.concat", lit "arrays.deduplicate", lit "arrays.flatten", lit "arrays.split_every", lit "arrays.pair",
  lit "arrays.get_sum", lit "arrays.get_min", lit "arrays.get_max", lit "arrays.sort_asc", lit "arrays.sort_desc", lit "arrays.map",
  lit "arrays.filter", lit "arrays.reduce", lit "bytes.from_string", lit "bytes.from_hex", lit "bytes.from_base64", lit "bytes.to_string",
  lit "bytes.to_hex", lit "bytes.to_base64", lit "csv.parse", lit "csv.encode", lit "csv.headers", lit "csv.read_file",
  lit "csv.write_file", lit "fmt.printf", lit "fmt.sprintf", lit "fmt.format", lit "fmt.printfln", lit "fmt.eprintf", lit "fmt.eprintfln",
  lit "fmt.sprintfln", lit "fmt.pad_left", lit "fmt.pad_right", lit "fmt.center", lit "fmt.int_to_hex", lit "fmt.int_to_binary",
  lit "fmt.int_to_octal", lit "fmt.float_fixed", lit "fmt.float_sci", lit "http.HttpResponse", lit "http.get", lit "http.post",
  lit "http.put", lit "http.patch", lit "http.delete", lit "http.head", lit "io.read_file", lit "io.read_bytes", lit "io.read_lines",
  lit "io.file_exists", lit "io.is_file", lit "io.is_directory", lit "io.file_size", lit "io.write_file", lit "io.append_file",
  lit "io.write_bytes", lit "io.append_bytes", lit "io.delete_file", lit "io.rename_file", lit "io.copy_file", lit "io.move_file",
  lit "io.list_dir", lit "io.make_dir", lit "io.make_dir_all", lit "io.remove_dir", lit "io.remove_dir_all", lit "io.walk", lit "io.glob",
  lit "io.temp_file", lit "io.temp_dir", lit "io.path_join", lit "io.dirname", lit "io.basename", lit "io.extension", lit "io.is_absolute",
  lit "io.normalize", lit "io.O_RDONLY", lit "io.O_WRONLY", lit "io.O_RDWR", lit "json.encode", lit "json.stringify", lit "json.decode",
  lit "json.parse", lit "json.is_valid", lit "json.pretty_print", lit "maps.get_keys", lit "maps.get_values", lit "maps.has_key",
  lit "maps.is_empty", lit "maps.contains_value", lit "maps.is_equal", lit "maps.merge", lit "maps.get_or_default", lit "maps.remove_key",
  lit "maps.clear", lit "math.abs", lit "math.neg", lit "math.sign", lit "math.min", lit "math.max", lit "math.clamp", lit "math.floor",
  lit "math.ceil", lit "math.round", lit "math.trunc", lit "math.pow", lit "math.sqrt", lit "math.cbrt", lit "math.hypot", lit "math.exp",
  lit "math.exp2", lit "math.log", lit "math.log2", lit "math.log10", lit "math.log_base", lit "math.sin", lit "math.cos", lit "math.tan",
  lit "math.asin", lit "math.acos", lit "math.atan", lit "math.atan2", lit "math.sinh", lit "math.cosh", lit "math.tanh",
  lit "math.deg_to_rad", lit "math.rad_to_deg", lit "math.is_even", lit "math.is_odd", lit "math.is_infinite", lit "math.is_nan",
  lit "math.is_finite", lit "math.factorial", lit "math.gcd", lit "math.lcm", lit "math.is_prime", lit "math.lerp", lit "math.distance",
  lit "math.PI", lit "math.E", lit "math.PHI", lit "math.SQRT2", lit "math.LN2", lit "math.LN10", lit "math.TAU", lit "math.INF",
  lit "math.NEG_INF", lit "os.args", lit "os.get_env", lit "os.set_env", lit "os.unset_env", lit "os.current_dir", lit "os.hostname",
  lit "os.current_os", lit "os.arch", lit "os.pid", lit "os.exec", lit "os.MAC_OS", lit "os.LINUX", lit "os.WINDOWS", lit "os.OTHER",
  lit "random.rand_float", lit "random.rand_int", lit "random.rand_bool", lit "random.rand_byte", lit "random.rand_char",
  lit "random.choice", lit "random.shuffle", lit "random.sample", lit "random.seed", lit "server.HttpRequest", lit "server.HttpResponse",
  lit "server.Router", lit "server.add_router", lit "server.add_route", lit "server.listen", lit "server.cors", lit "server.use",
  lit "server.text", lit "server.json", lit "server.html", lit "server.redirect", lit "sqlite.open", lit "sqlite.close", lit "sqlite.exec",
  lit "sqlite.query", lit "strconv.to_int", lit "strconv.to_uint", lit "strconv.to_float", lit "strconv.to_bool", lit "strconv.from_int",
  lit "strconv.from_uint", lit "strconv.from_float", lit "strconv.from_bool", lit "strconv.is_numeric", lit "strconv.is_integer",
  lit "strconv.BASE_2", lit "strconv.BASE_8", lit "strconv.BASE_10", lit "strconv.BASE_16", lit "strconv.BASE_36", lit "strings.to_upper",
  lit "strings.to_lower", lit "strings.trim", lit "strings.trim_left", lit "strings.trim_right", lit "strings.contains",
  lit "strings.starts_with", lit "strings.ends_with", lit "strings.index_of", lit "strings.last_index_of", lit "strings.count",
  lit "strings.is_empty", lit "strings.remove_prefix", lit "strings.remove_suffix", lit "strings.replace", lit "strings.repeat",
  lit "strings.reverse", lit "strings.slice", lit "strings.split", lit "strings.join", lit "strings.char_at", lit "strings.to_chars",
  lit "strings.from_chars", lit "strings.is_alpha", lit "strings.is_digit", lit "strings.is_alnum", lit "strings.is_whitespace",
  lit "strings.is_upper", lit "strings.is_lower", lit "time.now", lit "time.now_ms", lit "time.now_ns", lit "time.year", lit "time.month",
  lit "time.day", lit "time.hour", lit "time.minute", lit "time.second", lit "time.weekday", lit "time.format", lit "time.to_iso",
  lit "time.date", lit "time.to_clock", lit "time.diff", lit "time.tick", lit "time.elapsed_ms"]

/-- `stdlibModules` -/
def modules : List (Str × List Str) := [
  (lit "arrays", [
    lit "append", lit "insert_at", lit "prepend", lit "remove_at", lit "remove", lit "clear", lit "fill", lit "get_first", lit "get_last",
    lit "remove_first", lit "remove_last", lit "is_empty", lit "contains", lit "index_of", lit "count", lit "is_equal", lit "reverse",
    lit "slice", lit "concat", lit "deduplicate", lit "flatten", lit "split_every", lit "pair", lit "get_sum", lit "get_min",
    lit "get_max", lit "sort_asc", lit "sort_desc", lit "map", lit "filter", lit "reduce"]),
  (lit "bytes", [
    lit "from_string", lit "from_hex", lit "from_base64", lit "to_string", lit "to_hex", lit "to_base64"]),
  (lit "csv", [
    lit "parse", lit "encode", lit "headers", lit "read_file", lit "write_file"]),
  (lit "fmt", [
    lit "printf", lit "sprintf", lit "format", lit "printfln", lit "eprintf", lit "eprintfln", lit "sprintfln", lit "pad_left",
    lit "pad_right", lit "center", lit "int_to_hex", lit "int_to_binary", lit "int_to_octal", lit "float_fixed", lit "float_sci"]),
  (lit "http", [
    lit "HttpResponse", lit "get", lit "post", lit "put", lit "patch", lit "delete", lit "head"]),
  (lit "io", [
    lit "read_file", lit "read_bytes", lit "read_lines", lit "file_exists", lit "is_file", lit "is_directory", lit "file_size",
    lit "write_file", lit "append_file", lit "write_bytes", lit "append_bytes", lit "delete_file", lit "rename_file", lit "copy_file",
    lit "move_file", lit "list_dir", lit "make_dir", lit "make_dir_all", lit "remove_dir", lit "remove_dir_all", lit "walk", lit "glob",
    lit "temp_file", lit "temp_dir", lit "path_join", lit "dirname", lit "basename", lit "extension", lit "is_absolute", lit "normalize",
    lit "O_RDONLY", lit "O_WRONLY", lit "O_RDWR"]),
  (lit "json", [
    lit "encode", lit "stringify", lit "decode", lit "parse", lit "is_valid", lit "pretty_print"]),
  (lit "maps", [
    lit "get_keys", lit "get_values", lit "has_key", lit "is_empty", lit "contains_value", lit "is_equal", lit "merge",
    lit "get_or_default", lit "remove_key", lit "clear"]),
  (lit "math", [
    lit "abs", lit "neg", lit "sign", lit "min", lit "max", lit "clamp", lit "floor", lit "ceil", lit "round", lit "trunc", lit "pow",
    lit "sqrt", lit "cbrt", lit "hypot", lit "exp", lit "exp2", lit "log", lit "log2", lit "log10", lit "log_base", lit "sin", lit "cos",
    lit "tan", lit "asin", lit "acos", lit "atan", lit "atan2", lit "sinh", lit "cosh", lit "tanh", lit "deg_to_rad", lit "rad_to_deg",
    lit "is_even", lit "is_odd", lit "is_infinite", lit "is_nan", lit "is_finite", lit "factorial", lit "gcd", lit "lcm", lit "is_prime",
    lit "lerp", lit "distance", lit "PI", lit "E", lit "PHI", lit "SQRT2", lit "LN2", lit "LN10", lit "TAU", lit "INF", lit "NEG_INF"]),
  (lit "os", [
    lit "args", lit "get_env", lit "set_env", lit "unset_env", lit "current_dir", lit "hostname", lit "current_os", lit "arch", lit "pid",
    lit "exec", lit "MAC_OS", lit "LINUX", lit "WINDOWS", lit "OTHER"]),
  (lit "random", [
    lit "rand_float", lit "rand_int", lit "rand_bool", lit "rand_byte", lit "rand_char", lit "choice", lit "shuffle", lit "sample",
    lit "seed"]),
  (lit "server", [
    lit "HttpRequest", lit "HttpResponse", lit "Router", lit "add_router", lit "add_route", lit "listen", lit "cors", lit "use",
    lit "text", lit "json", lit "html", lit "redirect"]),
  (lit "sqlite", [
    lit "open", lit "close", lit "exec", lit "query"]),
  (lit "strconv", [
    lit "to_int", lit "to_uint", lit "to_float", lit "to_bool", lit "from_int", lit "from_uint", lit "from_float", lit "from_bool",
    lit "is_numeric", lit "is_integer", lit "BASE_2", lit "BASE_8", lit "BASE_10", lit "BASE_16", lit "BASE_36"]),
  (lit "strings", [
    lit "to_upper", lit "to_lower", lit "trim", lit "trim_left", lit "trim_right", lit "contains", lit "starts_with", lit "ends_with",
    lit "index_of", lit "last_index_of", lit "count", lit "is_empty", lit "remove_prefix", lit "remove_suffix", lit "replace",
    lit "repeat", lit "reverse", lit "slice", lit "split", lit "join", lit "char_at", lit "to_chars", lit "from_chars", lit "is_alpha",
    lit "is_digit", lit "is_alnum", lit "is_whitespace", lit "is_upper", lit "is_lower"]),
  (lit "time", [
    lit "now", lit "now_ms", lit "now_ns", lit "year", lit "month", lit "day", lit "hour", lit "minute", lit "second", lit "weekday",
    lit "format", lit "to_iso", lit "date", lit "to_clock", lit "diff", lit "tick", lit "elapsed_ms"])]

/-- `stdlibModuleGroups` -/
def moduleIndex : List (Str × List Str) := [
  (lit "arrays", [
    lit "append", lit "insert_at", lit "prepend", lit "remove_at", lit "remove", lit "clear", lit "fill", lit "remove_first",
    lit "remove_last", lit "sort_asc", lit "sort_desc", lit "get_first", lit "get_last", lit "is_empty", lit "contains", lit "index_of",
    lit "count", lit "is_equal", lit "reverse", lit "slice", lit "concat", lit "deduplicate", lit "flatten", lit "split_every", lit "pair",
    lit "get_sum", lit "get_min", lit "get_max", lit "map", lit "filter", lit "reduce"]),
  (lit "bytes", [
    lit "from_string", lit "from_hex", lit "from_base64", lit "to_string", lit "to_hex", lit "to_base64"]),
  (lit "csv", [
    lit "parse", lit "headers", lit "encode", lit "read_file", lit "write_file"]),
  (lit "fmt", [
    lit "printf", lit "sprintf", lit "format", lit "printfln", lit "eprintf", lit "eprintfln", lit "sprintfln", lit "pad_left",
    lit "pad_right", lit "center", lit "int_to_hex", lit "int_to_binary", lit "int_to_octal", lit "float_fixed", lit "float_sci"]),
  (lit "http", [
    lit "HttpResponse", lit "get", lit "post", lit "put", lit "patch", lit "delete", lit "head"]),
  (lit "io", [
    lit "read_file", lit "read_bytes", lit "read_lines", lit "file_exists", lit "is_file", lit "is_directory", lit "file_size",
    lit "delete_file", lit "rename_file", lit "copy_file", lit "move_file", lit "write_file", lit "append_file", lit "write_bytes",
    lit "append_bytes", lit "list_dir", lit "make_dir", lit "make_dir_all", lit "remove_dir", lit "remove_dir_all", lit "walk", lit "glob",
    lit "temp_file", lit "temp_dir", lit "path_join", lit "dirname", lit "basename", lit "extension", lit "is_absolute", lit "normalize",
    lit "O_RDONLY", lit "O_WRONLY", lit "O_RDWR"]),
  (lit "json", [
    lit "encode", lit "stringify", lit "decode", lit "parse", lit "is_valid", lit "pretty_print"]),
  (lit "maps", [
    lit "get_keys", lit "get_values", lit "has_key", lit "is_empty", lit "contains_value", lit "is_equal", lit "get_or_default",
    lit "merge", lit "remove_key", lit "clear"]),
  (lit "math", [
    lit "abs", lit "neg", lit "sign", lit "min", lit "max", lit "clamp", lit "floor", lit "ceil", lit "round", lit "trunc", lit "pow",
    lit "sqrt", lit "cbrt", lit "hypot", lit "exp", lit "exp2", lit "log", lit "log2", lit "log10", lit "log_base", lit "sin", lit "cos",
    lit "tan", lit "asin", lit "acos", lit "atan", lit "atan2", lit "sinh", lit "cosh", lit "tanh", lit "deg_to_rad", lit "rad_to_deg",
    lit "is_even", lit "is_odd", lit "is_infinite", lit "is_nan", lit "is_finite", lit "factorial", lit "gcd", lit "lcm", lit "is_prime",
    lit "lerp", lit "distance", lit "PI", lit "E", lit "PHI", lit "SQRT2", lit "LN2", lit "LN10", lit "TAU", lit "INF", lit "NEG_INF"]),
  (lit "os", [
    lit "args", lit "current_dir", lit "hostname", lit "current_os", lit "arch", lit "pid", lit "exec", lit "get_env", lit "set_env",
    lit "unset_env", lit "MAC_OS", lit "LINUX", lit "WINDOWS", lit "OTHER"]),
  (lit "random", [
    lit "rand_float", lit "rand_int", lit "rand_bool", lit "rand_byte", lit "rand_char", lit "choice", lit "shuffle", lit "sample",
    lit "seed"]),
  (lit "server", [
    lit "HttpRequest", lit "HttpResponse", lit "Router", lit "add_router", lit "add_route", lit "listen", lit "cors", lit "use",
    lit "text", lit "json", lit "html", lit "redirect"]),
  (lit "sqlite", [
    lit "open", lit "close", lit "exec", lit "query"]),
  (lit "strconv", [
    lit "to_int", lit "to_uint", lit "to_float", lit "to_bool", lit "from_int", lit "from_uint", lit "from_float", lit "from_bool",
    lit "is_numeric", lit "is_integer", lit "BASE_2", lit "BASE_8", lit "BASE_10", lit "BASE_16", lit "BASE_36"]),
  (lit "strings", [
    lit "to_upper", lit "to_lower", lit "trim", lit "trim_left", lit "trim_right", lit "contains", lit "starts_with", lit "ends_with",
    lit "index_of", lit "last_index_of", lit "count", lit "is_empty", lit "remove_prefix", lit "remove_suffix", lit "replace",
    lit "repeat", lit "reverse", lit "slice", lit "split", lit "join", lit "char_at", lit "to_chars", lit "from_chars", lit "is_alpha",
    lit "is_digit", lit "is_alnum", lit "is_whitespace", lit "is_upper", lit "is_lower"]),
  (lit "time", [
    lit "now", lit "now_ms", lit "now_ns", lit "year", lit "month", lit "day", lit "hour", lit "minute", lit "second", lit "weekday",
    lit "format", lit "to_iso", lit "date", lit "to_clock", lit "diff", lit "tick", lit "elapsed_ms"])]

/-- `langManDocs` -/
def lang : List Str := [
  lit "if", lit "else", lit "otherwise", lit "or", lit "for", lit "for_each", lit "while", lit "as_long_as", lit "loop", lit "when",
  lit "is", lit "break", lit "continue", lit "default", lit "return", lit "ensure", lit "or_return", lit "mut", lit "const", lit "do",
  lit "struct", lit "enum", lit "import", lit "using", lit "new", lit "private", lit "in", lit "not_in", lit "true", lit "false",
  lit "nil", lit "int_type", lit "uint_type", lit "float_type", lit "string_type", lit "bool_type", lit "char_type", lit "byte_type",
  lit "i8_type", lit "i16_type", lit "i32_type", lit "i64_type", lit "u8_type", lit "u16_type", lit "u32_type", lit "u64_type",
  lit "i128_type", lit "u128_type", lit "i256_type", lit "u256_type", lit "f32_type", lit "f64_type", lit "Error_type", lit "^", lit "&",
  lit "->", lit "@", lit "#", lit "?", lit "<?>", lit "#doc", lit "#json", lit "#flags", lit "#strict"]

/-- `langCategories` -/
def categories : List (Str × List Str) := [
  (lit "keywords", [
    lit "if", lit "else", lit "otherwise", lit "or", lit "for", lit "for_each", lit "while", lit "as_long_as", lit "loop", lit "when",
    lit "is", lit "break", lit "continue", lit "default", lit "return", lit "ensure", lit "or_return", lit "mut", lit "const", lit "do",
    lit "struct", lit "enum", lit "import", lit "using", lit "new", lit "private", lit "in", lit "not_in", lit "true", lit "false",
    lit "nil"]),
  (lit "types", [
    lit "int", lit "uint", lit "float", lit "string", lit "bool", lit "char", lit "byte", lit "i8", lit "i16", lit "i32", lit "i64",
    lit "u8", lit "u16", lit "u32", lit "u64", lit "i128", lit "u128", lit "i256", lit "u256", lit "f32", lit "f64", lit "Error"]),
  (lit "symbols", [
    lit "^", lit "&", lit "->", lit "@", lit "#", lit "?", lit "<?>"]),
  (lit "attributes", [
    lit "#doc", lit "#json", lit "#flags", lit "#strict"])]

/-- `langSymbolAliases` -/
def aliases : List (Str × Str) := [
  (lit "pointer", lit "^"),
  (lit "caret", lit "^"),
  (lit "arrow", lit "->"),
  (lit "ampersand", lit "&"),
  (lit "at", lit "@"),
  (lit "hash", lit "#"),
  (lit "wildcard", lit "?"),
  (lit "question", lit "?"),
  (lit "doc", lit "#doc"),
  (lit "json", lit "#json"),
  (lit "flags", lit "#flags"),
  (lit "strict", lit "#strict")]

/-- What is shown: an index, an entry by its key, or an error. -/
inductive Shown where
  | builtinsIndex
  | langIndex
  | category (name : Str)
  | module (name : Str)
  | builtin (key : Str)
  | stdlib (key : Str)
  | lang (key : Str)
  | ambiguous (keys : List Str)
  | nothing
  deriving DecidableEq, Repr

/-- `strings.HasSuffix` -/
def hasSuffix (s suffix : Str) : Bool := decide (suffix.length ≤ s.length) && s.drop (s.length - suffix.length) == suffix

/-- `strings.TrimSuffix` -/
def trimSuffix (s suffix : Str) : Str := if hasSuffix s suffix then s.take (s.length - suffix.length) else s

/-- The lookup in the language reference -/
def showLang (name : Str) : Shown :=
  if lang.contains name then .lang name
  else if lang.contains (name ++ lit "_type") then .lang (name ++ lit "_type")
  else match aliases.find? fun a => a.1 == name with
    | some a => if lang.contains a.2 then .lang a.2 else .nothing
    | none => .nothing

/-- The lookup in the library, whose table is visited in the order of `docs` -/
def showStdlib (docs : List Str) (name : Str) : Shown :=
  if docs.contains name then .stdlib name
  else match docs.filter fun k => hasSuffix k (lit "." ++ name) with
    | [k] => .stdlib k
    | [] => showLang name
    | ks => .ambiguous ks

/-- The lookup of a name without its parentheses -/
def showName (docs : List Str) (name : Str) : Shown :=
  if name == lit "builtins" || name == lit "builtin" then .builtinsIndex
  else if name == lit "lang" || name == lit "language" then .langIndex
  else if name == lit "keywords" || name == lit "types" || name == lit "symbols" || name == lit "attributes" then .category name
  else if modules.any fun m => m.1 == name then .module name
  else if builtins.contains name then .builtin name
  else showStdlib docs name

/-- `manCmd` -/
def man (docs : List Str) (arg : Str) : Shown := showName docs (trimSuffix arg (lit "()"))

end Verif.ManLookup

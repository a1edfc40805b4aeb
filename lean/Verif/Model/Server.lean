import Verif.Model.Interp

/-
The HTTP server (/repo/grayc/src/stdlib/server.c:96-468).

Simplifications.
* Strings handed to C functions end at their first NUL (`cstr`).
* A map from strings to strings is its list of entries in order of insertion; setting a key that is
  present replaces its value (the hash map itself is modelled in Model/Map).
* A request is what one `recv` returned. The response is the bytes given to `send`.
* Loops over pointers recurse with fuel; that the fuel suffices is proved.
* Handlers and middlewares are the caller's; a handler is known by the number of its route.
-/
namespace Verif.Server
open Verif Verif.Str Verif.Interp

/-- The entries of a `map[string:string]`. -/
abbrev Params := List (Str × Str)

/-- `gray_map_set`. -/
def setKV : Params → Str → Str → Params
  | [], k, v => [(k, v)]
  | (k', v') :: r, k, v => if k' = k then (k, v) :: r else (k', v') :: setKV r k v

def slash : Byte := 47
def colon : Byte := 58

def notSlash (c : Byte) : Bool := c != slash

/-- The loop of `match_route` (138-158): the parameters, and where pattern and path stand at the end of
the loop, or none for `return false`. -/
def matchLoop : Nat → Str → Str → Params → Option (Params × Option (Str × Str))
  | 0, _, _, _ => none
  | _ + 1, [], path, ps => some (ps, some ([], path))
  | _ + 1, c :: pat, [], ps => some (ps, some (c :: pat, []))
  | f + 1, c :: pat, d :: path, ps =>
    if c = colon then
      matchLoop f (pat.dropWhile notSlash) ((d :: path).dropWhile notSlash)
        (setKV ps (pat.takeWhile notSlash) ((d :: path).takeWhile notSlash))
    else if c ≠ d then some (ps, none)
    else matchLoop f pat path ps

/-- The tests after the loop (161-164). -/
def matchEnd (pat path : Str) : Bool :=
  if pat = [] ∧ path = [] then true
  else if pat = [] ∧ path = [slash] then true
  else if path = [] ∧ pat = [slash] then true
  else false

/-- `match_route` (133-165) of C strings. -/
def matchRoute (pat path : Str) (ps : Params) : Params × Bool :=
  match matchLoop (pat.length + 1) pat path ps with
  | none => (ps, false)
  | some (ps', none) => (ps', false)
  | some (ps', some (p, q)) => (ps', matchEnd p q)

structure Route where
  method : Str
  pattern : Str
  deriving DecidableEq

/-- The loop that finds the route (303-310): its number and the parameters the handler sees. -/
def findRoute : List Route → Nat → Str → Str → Params → Option (Nat × Params)
  | [], _, _, _, _ => none
  | r :: rs, i, method, path, ps =>
    if cstr r.method = method then
      match matchRoute (cstr r.pattern) path ps with
      | (ps', true) => some (i, ps')
      | (ps', false) => findRoute rs (i + 1) method path ps'
    else findRoute rs (i + 1) method path ps

/-- The dispatch of a parsed request (283-310); none is 404. -/
def dispatch (rs : List Route) (method path : Str) : Option (Nat × Params) :=
  findRoute rs 0 (cstr method) (cstr path) []

/-! ### Requests -/

/-- `memchr`: the part before the first `c` and the part after it. -/
def cut (c : Byte) : Str → Option (Str × Str)
  | [] => none
  | x :: r => if x = c then some ([], r) else (cut c r).map fun p => (x :: p.1, p.2)

/-- The loop over the query string (192-203). -/
def queryLoop : Nat → Str → Params → Option Params
  | 0, _, _ => none
  | _ + 1, [], ps => some ps
  | f + 1, c :: s, ps =>
    match cut 61 (c :: s) with
    | none => some ps
    | some (key, rest) =>
      match cut 38 rest with
      | none => some (setKV ps key rest)
      | some (val, next) => queryLoop f next (setKV ps key val)

def parseQuery (s : Str) : Params := (queryLoop (s.length + 1) s []).getD []

/-- `strstr(s, "\r\n")` of a C string: the part before and the part after. -/
def cutLine : Str → Option (Str × Str)
  | c :: d :: r =>
    if c = 0 then none
    else if c = 13 ∧ d = 10 then some ([], r)
    else (cutLine (d :: r)).map fun p => (c :: p.1, p.2)
  | _ => none

/-- `strstr(s, "\r\n\r\n")`: the part before and the part after. -/
def cutBlank : Str → Option (Str × Str)
  | c :: d :: e :: f :: r =>
    if c = 0 then none
    else if c = 13 ∧ d = 10 ∧ e = 13 ∧ f = 10 then some ([], r)
    else (cutBlank (d :: e :: f :: r)).map fun p => (c :: p.1, p.2)
  | _ => none

/-- The loop over the header lines (215-232): `s` starts at `header_start`, and `n` bytes are left
before the blank line. -/
def headerLoop : Nat → Str → Nat → Params → Option Params
  | 0, _, _, _ => none
  | f + 1, s, n, ps =>
    if n = 0 then some ps
    else match cutLine s with
      | none => some ps
      | some (line, rest) =>
        let ps := match cut colon line with
          | none => ps
          | some (key, val) => setKV ps key (val.dropWhile fun c => c == 32)
        headerLoop f rest (n - (line.length + 2)) ps

structure Request where
  method : Str
  path : Str
  query : Params
  headers : Params
  body : Str
  deriving DecidableEq

/-- `parse_request` (168-244). -/
def parseRequest (data : Str) : Option Request :=
  if data.length < 10 then none
  else match cut 32 data with
    | none => none
    | some (method, r) =>
      match cut 32 r with
      | none => none
      | some (target, _) =>
        let (path, query) := match cut 63 target with
          | none => (target, [])
          | some (p, q) => (p, parseQuery q)
        let (headers, body) := match cutBlank data with
          | none => ([], [])
          | some (top, body) =>
            match cutLine data with
            | none => ([], body)
            | some (line, rest) =>
              ((headerLoop (top.length + 1) rest (top.length - (line.length + 2)) []).getD [], body)
        some ⟨method, path, query, headers, body⟩

/-- What a connection reads (261-272): one `recv` into a buffer of `GRAY_SERVER_BUF_SIZE`; none for a
connection that ends without data. The pieces are what arrives, each at once. -/
def receive : List Str → Option Str
  | [] => none
  | p :: _ => if p = [] then none else some (p.take 65535)

/-! ### Responses -/

/-- The text of `%d`. -/
def decimal (n : Nat) : Str := (Nat.toDigits 10 n).map ch

def decInt : Int → Str
  | .ofNat n => decimal n
  | .negSucc n => lit "-" ++ decimal (n + 1)

/-- `GRAY_SERVER_BUF_SIZE`. -/
def respBuf : Nat := 65536

/-- `GRAY_SERVER_CORS_BUF`. -/
def corsBuf : Nat := 512

/-- `http_reason_phrase` (33-59). -/
def reason (status : Int) : Str :=
  if status = 200 then lit "OK"
  else if status = 201 then lit "Created"
  else if status = 204 then lit "No Content"
  else if status = 301 then lit "Moved Permanently"
  else if status = 302 then lit "Found"
  else if status = 303 then lit "See Other"
  else if status = 304 then lit "Not Modified"
  else if status = 307 then lit "Temporary Redirect"
  else if status = 308 then lit "Permanent Redirect"
  else if status = 400 then lit "Bad Request"
  else if status = 401 then lit "Unauthorized"
  else if status = 403 then lit "Forbidden"
  else if status = 404 then lit "Not Found"
  else if status = 405 then lit "Method Not Allowed"
  else if status = 409 then lit "Conflict"
  else if status = 410 then lit "Gone"
  else if status = 422 then lit "Unprocessable Entity"
  else if status = 429 then lit "Too Many Requests"
  else if status = 500 then lit "Internal Server Error"
  else if status = 501 then lit "Not Implemented"
  else if status = 502 then lit "Bad Gateway"
  else if status = 503 then lit "Service Unavailable"
  else lit "Unknown"

/-- `gray_server_cors` (108-119): the origin kept, or none for panic P0101. -/
def setCors (origin : Str) : Option Str :=
  if origin.any (fun c => c == 13 || c == 10) then none else some (cstr origin)

/-- The CORS lines (320-328). -/
def corsLines : Option Str → Str
  | none => []
  | some origin =>
    (lit "Access-Control-Allow-Origin: " ++ origin ++ lit "\r\n" ++
      lit "Access-Control-Allow-Methods: GET, POST, PUT, DELETE, PATCH, OPTIONS\r\n" ++
      lit "Access-Control-Allow-Headers: Content-Type, Authorization\r\n").take (corsBuf - 1)

structure Response where
  status : Int
  ctype : Str
  body : Str
  deriving DecidableEq

/-- `is_redirect` (333). -/
def isRedirect (r : Response) : Bool := decide (300 ≤ r.status ∧ r.status < 400 ∧ 0 < r.body.length)

/-- The response that is sent (330-363), given a status that is an `int` and lengths that are `int`s. -/
def sendResp (origin : Option Str) (r : Response) : Str :=
  (if isRedirect r then
    lit "HTTP/1.1 " ++ decInt r.status ++ lit " " ++ reason r.status ++ lit "\r\n" ++
      lit "Location: " ++ cstr r.body ++ lit "\r\n" ++
      lit "Content-Length: 0\r\n" ++ corsLines origin ++
      lit "Connection: close\r\n" ++ lit "\r\n"
  else
    lit "HTTP/1.1 " ++ decInt r.status ++ lit " " ++ reason r.status ++ lit "\r\n" ++
      lit "Content-Type: " ++ cstr r.ctype ++ lit "\r\n" ++
      lit "Content-Length: " ++ decimal r.body.length ++ lit "\r\n" ++ corsLines origin ++
      lit "Connection: close\r\n" ++ lit "\r\n" ++ cstr r.body).take (respBuf - 1)

/-! ### Connections -/

/-- `GRAY_SERVER_MAX_CONNECTIONS`. -/
def maxConn : Nat := 1024

/-- A thread in `gray_server_listen` (426-461). -/
inductive LPc where
  /-- in accept -/
  | accept
  /-- counted, connection refused; next `gray_atomic_sub32` -/
  | refuse
  /-- counted, connection taken; next malloc and `pthread_create` -/
  | take
  deriving DecidableEq

/-- The counter, the handler threads that have not yet given back their count, and the listeners. -/
structure Conn where
  active : Int
  handlers : Nat
  listeners : List LPc
  refused : Nat
  deriving DecidableEq

inductive CStep : Conn → Conn → Prop where
  /-- accept returns; `prev = gray_atomic_add32(&active_connections, 1)` and the test (434-435) -/
  | add {c : Conn} (i : Nat) : c.listeners[i]? = some .accept →
      CStep c { c with
        active := c.active + 1
        listeners := c.listeners.set i (if (maxConn : Int) ≤ c.active then .refuse else .take) }
  /-- the connection is refused with 503 (436-440) -/
  | sub {c : Conn} (i : Nat) : c.listeners[i]? = some .refuse →
      CStep c { c with active := c.active - 1, listeners := c.listeners.set i .accept, refused := c.refused + 1 }
  /-- malloc or `pthread_create` fails (444-448, 453-459) -/
  | failed {c : Conn} (i : Nat) : c.listeners[i]? = some .take →
      CStep c { c with active := c.active - 1, listeners := c.listeners.set i .accept }
  /-- the handler thread is created -/
  | spawn {c : Conn} (i : Nat) : c.listeners[i]? = some .take →
      CStep c { c with handlers := c.handlers + 1, listeners := c.listeners.set i .accept }
  /-- a handler ends with `gray_atomic_sub32` (264, 297, 368) -/
  | finish {c : Conn} : 0 < c.handlers → CStep c { c with active := c.active - 1, handlers := c.handlers - 1 }

inductive CReach (n : Nat) : Conn → Prop where
  | init : CReach n ⟨0, 0, List.replicate n .accept, 0⟩
  | step {c c' : Conn} : CReach n c → CStep c c' → CReach n c'

end Verif.Server

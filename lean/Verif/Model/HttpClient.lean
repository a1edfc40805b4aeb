import Verif.Model.Server

/-
The HTTP client (/repo/grayc/src/stdlib/http.c:17-255 and gray_net_send, gray_net_recv of
/repo/grayc/src/stdlib/net.c:78-94).

Simplifications.
* Strings handed to C functions end at their first NUL (`cstr`).
* `atoi` of a number outside `int` is undefined behaviour; its result is none.
* The headers a program gives are the entries of its map in order (the hash map is in Model/Map).
* The buffer `header` is the text written to it; a write outside of it is the result `overrun`.
  `snprintf` with a size of `2^64 - k` writes its whole text, as the C standard has it.
* The socket takes all of what is sent. What the server sends is the list of pieces that arrive, each
  at most what one `recv` returns; the connection ends after the last.
* Loops over pointers recurse with fuel; that the fuel suffices is proved.
-/
namespace Verif.HttpClient
open Verif Verif.Str Verif.Interp Verif.Server

/-- `GRAY_HTTP_URL_BUF`. -/
def urlBuf : Nat := 4096
/-- `GRAY_HTTP_HOST_BUF`. -/
def hostBuf : Nat := 256
/-- `GRAY_HTTP_PATH_BUF`. -/
def pathBuf : Nat := 2048
/-- `GRAY_HTTP_HDR_BUF`. -/
def hdrBuf : Nat := 4096
/-- `GRAY_HTTP_RESP_BUF`. -/
def rspBuf : Nat := 1048576
/-- `GRAY_HTTP_MIN_RESP_LEN`. -/
def minResp : Nat := 12
/-- `GRAY_HTTP_DEFAULT_PORT`. -/
def defaultPort : Int := 80

/-- `http_cstr` (27-32): the C string in a buffer of `cap` bytes. -/
def cText (cap : Nat) (s : Str) : Str := cstr (s.take (cap - 1))

/-- The number written by decimal digits. -/
def digitsVal (s : Str) : Nat := s.foldl (fun n c => n * 10 + (c.toNat - 48)) 0

/-- The sign of `atoi`, and the rest. -/
def sign : Str → Bool × Str
  | [] => (false, [])
  | c :: r => if c = 45 then (true, r) else if c = 43 then (false, r) else (false, c :: r)

/-- `atoi`: white space, a sign, digits; none if the number is not an `int`. -/
def atoi (s : Str) : Option Int :=
  let (neg, s) := sign (s.dropWhile isSpace)
  let n : Int := digitsVal (s.takeWhile isDigit)
  let n := if neg then -n else n
  if -2147483648 ≤ n ∧ n ≤ 2147483647 then some n else none

structure Url where
  host : Str
  port : Option Int
  path : Str
  deriving DecidableEq

/-- The bytes refused in a host (50). -/
def badHost (c : Byte) : Bool := c == 32 || c == 9 || c == 13 || c == 10

/-- The bytes at which the loop over the host ends (49). -/
def inHost (c : Byte) : Bool := c != slash && c != colon

/-- The bytes refused in a path (80). -/
def badPath (c : Byte) : Bool := c == 13 || c == 10

/-- Host and port (54-71) of the text after the scheme. -/
def hostPort (cursor : Str) : Str × Option Int :=
  match cut colon cursor with
  | some (h, r) =>
    if slash ∈ h then ((cursor.takeWhile notSlash).take (hostBuf - 1), some defaultPort)
    else (h.take (hostBuf - 1), atoi r)
  | none => ((cursor.takeWhile notSlash).take (hostBuf - 1), some defaultPort)

/-- `parse_url` (35-88) of a C string. -/
def parseUrl (url : Str) : Option Url :=
  if (lit "http://").isPrefixOf url then
    let cursor := url.drop 7
    match cursor with
    | [] => none
    | c :: _ =>
      if c = slash ∨ c = colon then none
      else if (cursor.takeWhile inHost).any badHost then none
      else
        let (host, port) := hostPort cursor
        match cursor.dropWhile notSlash with
        | [] => if host = [] then none else some ⟨host, port, [slash]⟩
        | p =>
          let path := p.take (pathBuf - 1)
          if path.any badPath then none
          else if host = [] then none
          else some ⟨host, port, path⟩
  else none

/-! ### The request -/

/-- The first part of the head (188-202). -/
def firstLines (method path host : Str) (body : Str) : Str :=
  if 0 < body.length then
    method ++ lit " " ++ path ++ lit " HTTP/1.1\r\n" ++
    lit "Host: " ++ host ++ lit "\r\n" ++
    lit "Content-Length: " ++ decimal body.length ++ lit "\r\n" ++
    lit "Content-Type: application/x-www-form-urlencoded\r\n" ++
    lit "Connection: close\r\n"
  else
    method ++ lit " " ++ path ++ lit " HTTP/1.1\r\n" ++
    lit "Host: " ++ host ++ lit "\r\n" ++
    lit "Connection: close\r\n"

/-- The text of one header (213): `%.*s` ends at a NUL. -/
def headerLine (kv : Str × Str) : Str := cstr kv.1 ++ lit ": " ++ cstr kv.2 ++ lit "\r\n"

/-- The buffer: what is written in it, and `header_length`. -/
structure Head where
  buf : Str
  len : Nat
  deriving DecidableEq

/-- The first `snprintf` (188-202). -/
def startHead (s : Str) : Head := ⟨s.take (hdrBuf - 1), s.length⟩

/-- One header appended (212-214); none for a write outside of the buffer. The size handed to `snprintf`
is `sizeof(header) - header_length` as a `size_t`. -/
def addLine (h : Head) (s : Str) : Option Head :=
  if hdrBuf < h.len then none
  else some ⟨h.buf ++ s.take (hdrBuf - h.len - 1), h.len + s.length⟩

/-- The loop over the headers (205-216). -/
def addLines : Head → Params → Option Head
  | h, [] => some h
  | h, kv :: r =>
    match addLine h (headerLine kv) with
    | none => none
    | some h => addLines h r

/-- The end of the head (219-229): the bytes sent, or none for "request URL or path too long". -/
def finish (h : Head) : Option Str :=
  let h : Head := if h.len + 2 < hdrBuf then ⟨h.buf ++ lit "\r\n", h.len + 2⟩ else h
  if h.len = 0 ∨ hdrBuf ≤ h.len then none else some (h.buf.take h.len)

inductive Sent where
  /-- "https:// is not supported" (159-163). -/
  | https
  /-- "invalid URL" (167-171). -/
  | badUrl
  /-- "request URL or path too long" (224-229). -/
  | tooLong
  /-- A write outside of `header`. -/
  | overrun
  /-- What is sent to the host and port. -/
  | sent (host : Str) (port : Option Int) (bytes : Str)
  deriving DecidableEq

/-- `do_request` up to the sending (149-235). -/
def request (method url body : Str) (headers : Params) : Sent :=
  let u := cText urlBuf url
  if (lit "https://").isPrefixOf u then .https
  else match parseUrl u with
    | none => .badUrl
    | some p =>
      match addLines (startHead (firstLines method p.path p.host body)) headers with
      | none => .overrun
      | some h =>
        match finish h with
        | none => .tooLong
        | some bytes => .sent p.host p.port (bytes ++ body)

/-! ### The response -/

/-- The loop of `recv`s (243-249): what has arrived, and the sizes of the buffers taken from the arena. `gray_net_recv` allocates all it may receive (net.c:84-93). -/
def recvLoop : List Str → Str → List Nat → Str × List Nat
  | [], got, asked =>
    if got.length < rspBuf - 1 then (got, asked ++ [rspBuf - got.length]) else (got, asked)
  | p :: ps, got, asked =>
    if got.length < rspBuf - 1 then
      if p = [] then (got, asked ++ [rspBuf - got.length])
      else recvLoop ps (got ++ p.take (rspBuf - got.length)) (asked ++ [rspBuf - got.length])
    else (got, asked)

/-- What has arrived. -/
def receive (ps : List Str) : Str := (recvLoop ps [] []).1

/-- The bytes of the arena used for it. -/
def arenaUsed (ps : List Str) : Nat := (recvLoop ps [] []).2.sum

/-- The index of the NUL that is written after it (250), within a buffer of `rspBuf` bytes. -/
def nulAt (ps : List Str) : Nat := (receive ps).length

/-- `strstr`: the index of the first occurrence. -/
def find (pat : Str) : Str → Option Nat
  | [] => if pat = [] then some 0 else none
  | c :: s => if pat.isPrefixOf (c :: s) then some 0 else (find pat s).map (· + 1)

/-- `\r` at the end is dropped (128). -/
def dropCr (v : Str) : Str := if v.getLast? = some 13 then v.dropLast else v

/-- The loop over the header lines (116-136): `s` starts at `line`, and `n` bytes are left before
`header_end`. -/
def fieldLoop : Nat → Str → Nat → Params → Option Params
  | 0, _, _, _ => none
  | f + 1, s, n, ps =>
    if n = 0 then some ps
    else match cut 10 s with
      | none => some ps
      | some (line, rest) =>
        if n < line.length then some ps
        else
          let ps := match cut colon line with
            | none => ps
            | some (key, val) => setKV ps key (dropCr (val.dropWhile fun c => c == 32))
          fieldLoop f rest (n - (line.length + 1)) ps

structure Response where
  status : Option Int
  headers : Params
  body : Str
  deriving DecidableEq

/-- The status (100-103). -/
def statusOf (t : Str) : Option Int :=
  if (lit "HTTP/").isPrefixOf t then
    match cut 32 t with
    | none => some 0
    | some (_, r) => atoi r
  else some 0

/-- Where the head ends, and where the body starts (106-113). -/
def headEnd (t : Str) : Option (Nat × Nat) :=
  match find (lit "\r\n\r\n") t with
  | some i => some (i, i + 4)
  | none =>
    match find (lit "\n\n") t with
    | some i => some (i, i + 2)
    | none => none

/-- `parse_response` (91-146). -/
def parseResponse (data : Str) : Response :=
  if data.length < minResp then ⟨some 0, [], []⟩
  else
    let t := cstr data
    match headEnd t with
    | none => ⟨statusOf t, [], []⟩
    | some (he, bs) =>
      let headers := match cut 10 t with
        | none => []
        | some (first, rest) =>
          (fieldLoop (t.length + 1) rest (he - (first.length + 1)) []).getD []
      ⟨statusOf t, headers, data.drop bs⟩

/-- What the program gets for what arrives. -/
def fetch (ps : List Str) : Response := parseResponse (receive ps)

end Verif.HttpClient

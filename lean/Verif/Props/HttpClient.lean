import Verif.Model.HttpClient
import Verif.Props.Server

/-
The HTTP client (C202-C211): the parts of a URL, the message that is sent, the buffers, and what is made
of the response.
-/
namespace Verif.Props
open Verif Verif.Str Verif.Interp
open Verif.Server (Params setKV notSlash cut decimal)
open Verif.HttpClient

namespace Hc

theorem cut_app {c : Byte} {a b : Str} (h : c ∉ a) : cut c (a ++ c :: b) = some (a, b) := by
  induction a with
  | nil => simp [cut]
  | cons x a ih =>
    simp only [List.mem_cons, not_or] at h
    rw [List.cons_append, cut, if_neg (fun e => h.1 e.symm), ih h.2]
    rfl

theorem cut_none {c : Byte} {a : Str} (h : c ∉ a) : cut c a = none := by
  induction a with
  | nil => rfl
  | cons x a ih =>
    simp only [List.mem_cons, not_or] at h
    rw [cut, if_neg (fun e => h.1 e.symm), ih h.2]
    rfl

theorem cut_none_iff {c : Byte} {a : Str} (h : cut c a = none) : c ∉ a := by
  induction a with
  | nil => exact List.not_mem_nil
  | cons x a ih =>
    rw [cut] at h
    split at h
    · cases h
    · rename_i e
      rw [Option.map_eq_none_iff] at h
      rw [List.mem_cons, not_or]
      exact ⟨fun h => e h.symm, ih h⟩

theorem cut_some {c : Byte} {s a b : Str} (h : cut c s = some (a, b)) : s = a ++ c :: b ∧ c ∉ a := by
  induction s generalizing a b with
  | nil => cases h
  | cons x s ih =>
    rw [cut] at h
    by_cases e : x = c
    · rw [if_pos e] at h
      cases h
      subst e
      simp
    · rw [if_neg e] at h
      match hs : cut c s with
      | none => rw [hs] at h; cases h
      | some (a', b') =>
        rw [hs] at h
        cases h
        obtain ⟨h1, h2⟩ := ih hs
        subst h1
        refine ⟨rfl, ?_⟩
        simp only [List.mem_cons, not_or]
        exact ⟨fun h => e h.symm, h2⟩

theorem take_while_app {p : Byte → Bool} {a b : Str} (ha : ∀ c ∈ a, p c = true) (hb : ∀ c, b.head? = some c → p c = false) :
    (a ++ b).takeWhile p = a ∧ (a ++ b).dropWhile p = b := by
  induction a with
  | nil =>
    cases b with
    | nil => exact ⟨rfl, rfl⟩
    | cons c b =>
      have := hb c rfl
      simp [this]
  | cons x a ih =>
    have hx := ha x (List.mem_cons_self ..)
    obtain ⟨h1, h2⟩ := ih fun c hc => ha c (List.mem_cons_of_mem _ hc)
    simp [hx, h1, h2]

theorem cstr_nz (s : Str) : 0 ∉ cstr s := by
  intro h
  induction s with
  | nil => cases h
  | cons c s ih =>
    rw [cstr, List.takeWhile_cons] at h
    split at h
    · rename_i hc
      rw [List.mem_cons] at h
      rcases h with h | h
      · subst h; simp at hc
      · exact ih h
    · cases h

/-- The decimal digits of a number. -/
theorem decimal_step (n : Nat) :
    decimal n = if n < 10 then [BitVec.ofNat 8 (48 + n)] else decimal (n / 10) ++ [BitVec.ofNat 8 (48 + n % 10)] := by
  have hd : ∀ k : Fin 10, ch (Nat.digitChar k.val) = BitVec.ofNat 8 (48 + k.val) := by decide
  unfold decimal
  rw [Nat.toDigits_eq_if (by decide)]
  split
  · rename_i h
    simpa using hd ⟨n, h⟩
  · rename_i h
    rw [List.map_append]
    congr 1
    simpa using hd ⟨n % 10, Nat.mod_lt _ (by decide)⟩

theorem digit_byte (k : Nat) (h : k < 10) : (BitVec.ofNat 8 (48 + k)).toNat = 48 + k ∧ isDigit (BitVec.ofNat 8 (48 + k)) = true := by
  have : ∀ k : Fin 10, (BitVec.ofNat 8 (48 + k.val)).toNat = 48 + k.val ∧ isDigit (BitVec.ofNat 8 (48 + k.val)) = true := by
    decide
  exact this ⟨k, h⟩

theorem digits_snoc (s : Str) (c : Byte) : digitsVal (s ++ [c]) = digitsVal s * 10 + (c.toNat - 48) := by
  simp [digitsVal]

theorem digits_decimal (n : Nat) : digitsVal (decimal n) = n := by
  induction n using Nat.strongRecOn with
  | ind n ih =>
    rw [decimal_step]
    split
    · rename_i h
      have := (digit_byte n h).1
      simp only [digitsVal, List.foldl_cons, List.foldl_nil, this]
      omega
    · rename_i h
      rw [digits_snoc, ih (n / 10) (by omega), (digit_byte (n % 10) (by omega)).1]
      omega

theorem decimal_digits (n : Nat) : (∀ c ∈ decimal n, isDigit c = true) ∧ decimal n ≠ [] := by
  induction n using Nat.strongRecOn with
  | ind n ih =>
    rw [decimal_step]
    split
    · rename_i h
      exact ⟨by simpa using (digit_byte n h).2, by simp⟩
    · rename_i h
      refine ⟨fun c hc => ?_, by simp⟩
      rw [List.mem_append, List.mem_singleton] at hc
      rcases hc with hc | rfl
      · exact (ih (n / 10) (by omega)).1 c hc
      · exact (digit_byte (n % 10) (by omega)).2

theorem decimal_len {n : Nat} : ∀ {k : Nat}, n < 10 ^ k → 0 < k → (decimal n).length ≤ k := by
  induction n using Nat.strongRecOn with
  | ind n ih =>
    intro k hn hk
    rw [decimal_step]
    split
    · simpa using Nat.succ_le_of_lt hk
    · rename_i h
      obtain ⟨j, rfl⟩ : ∃ j, k = j + 1 := ⟨k - 1, by omega⟩
      have hj : 0 < j := by
        rcases Nat.eq_zero_or_pos j with rfl | hj
        · simp at hn; omega
        · exact hj
      have h10 : n / 10 < 10 ^ j := by
        rw [Nat.pow_succ] at hn
        exact Nat.div_lt_of_lt_mul (by omega)
      have := ih (n / 10) (by omega) h10 hj
      simp
      exact this

theorem digit_facts : ∀ n : Fin 256, isDigit (BitVec.ofFin n : Byte) = true →
    isSpace (BitVec.ofFin n : Byte) = false ∧ (BitVec.ofFin n : Byte) ≠ 45 ∧ (BitVec.ofFin n : Byte) ≠ 43 ∧
    (BitVec.ofFin n : Byte) ≠ 47 ∧ (BitVec.ofFin n : Byte) ≠ 58 ∧ (BitVec.ofFin n : Byte) ≠ 0 ∧
    (BitVec.ofFin n : Byte) ≠ 13 ∧ (BitVec.ofFin n : Byte) ≠ 10 ∧ (BitVec.ofFin n : Byte) ≠ 32 := by decide +kernel

theorem atoi_digits {s t : Str} (hs : ∀ c ∈ s, isDigit c = true) (hne : s ≠ []) (ht : ∀ c, t.head? = some c → isDigit c = false)
    (hv : digitsVal s ≤ 2147483647) : atoi (s ++ t) = some (digitsVal s : Int) := by
  cases s with
  | nil => exact absurd rfl hne
  | cons c s =>
    obtain ⟨h1, h2, h3, -⟩ := digit_facts c.toFin (hs c (List.mem_cons_self ..))
    have e0 : (c :: s ++ t).dropWhile isSpace = c :: s ++ t := by
      rw [List.cons_append, List.dropWhile_cons]
      simp only [show isSpace c = false from h1, Bool.false_eq_true, if_false]
    have e1 := (take_while_app hs ht).1
    rw [atoi, e0]
    have h2' : c ≠ (45 : Byte) := h2
    have h3' : c ≠ (43 : Byte) := h3
    rw [List.cons_append, sign, if_neg h2', if_neg h3']
    rw [List.cons_append] at e1
    simp only [e1, Bool.false_eq_true, if_false]
    rw [if_pos ⟨by omega, by omega⟩]

end Hc
open Hc

/-! ### C202: the parts of a URL -/

/-- Bytes of a host name. -/
def hostByte (c : Byte) : Bool := isAlnum c || c == 45 || c == 46 || c == 95 || c == 126

/-- Bytes of a path: those of names, and `/:@!$&'()*+,;=%`. -/
def pathByte (c : Byte) : Bool :=
  hostByte c || c == 47 || c == 58 || c == 64 || c == 33 || c == 36 || c == 37 || between 38 c 44 || c == 59 || c == 61

/-- Bytes of a query or a fragment. -/
def queryByte (c : Byte) : Bool := pathByte c || c == 63

inductive PortPart where
  | none
  /-- A colon without a number. -/
  | empty
  | num (n : Nat)
  deriving DecidableEq

/-- An `http` URL in its parts (RFC 3986, section 3). -/
structure HttpUrl where
  user : Option Str
  host : Str
  port : PortPart
  path : Str
  query : Option Str
  fragment : Option Str

namespace HttpUrl

def portText : PortPart → Str
  | .none => []
  | .empty => lit ":"
  | .num n => lit ":" ++ decimal n

def opt (c : Byte) : Option Str → Str
  | none => []
  | some s => c :: s

def text (u : HttpUrl) : Str :=
  lit "http://" ++ (match u.user with | none => [] | some s => s ++ lit "@") ++ u.host ++ portText u.port ++
    u.path ++ opt 63 u.query ++ opt 35 u.fragment

def Wf (u : HttpUrl) : Prop :=
  (∀ s, u.user = some s → ∀ c ∈ s, hostByte c = true ∨ c = 58) ∧
  (u.host ≠ [] ∧ ∀ c ∈ u.host, hostByte c = true) ∧
  (∀ n, u.port = .num n → n ≤ 65535) ∧
  (∀ c ∈ u.path, pathByte c = true) ∧ (∀ c, u.path.head? = some c → c = 47) ∧
  (∀ s, u.query = some s → ∀ c ∈ s, queryByte c = true) ∧
  (∀ s, u.fragment = some s → ∀ c ∈ s, queryByte c = true)

/-- The port, 80 if none is given. -/
def portNum : PortPart → Nat
  | .num n => n
  | _ => 80

/-- Where to connect. -/
def portNumber (u : HttpUrl) : Nat := portNum u.port

/-- What to ask for (RFC 9112, section 3.2.1): the path and the query, without the fragment. -/
def target (u : HttpUrl) : Str := (if u.path = [] then lit "/" else u.path) ++ opt 63 u.query

end HttpUrl

/-- Every `http` URL is taken apart as the standard has it. -/
def C202_statement : Prop :=
  ∀ u : HttpUrl, u.Wf → parseUrl (cText urlBuf u.text) = some ⟨u.host, some (u.portNumber : Int), u.target⟩

def c202_user : HttpUrl := ⟨some (lit "me:pw"), lit "h", .none, lit "/x", none, none⟩
def c202_query : HttpUrl := ⟨none, lit "h", .none, [], some (lit "q"), none⟩
def c202_fragment : HttpUrl := ⟨none, lit "h", .none, lit "/x", none, some (lit "top")⟩
def c202_empty : HttpUrl := ⟨none, lit "h", .empty, lit "/x", none, none⟩

/-- `http://me:pw@h/x` connects to the host `me`, `http://h?q` to the host `h?q`, `http://h/x#top` asks for
`/x#top`, and `http://h:/x` connects to port 0. -/
theorem C202_witness :
    parseUrl (cText urlBuf c202_user.text) = some ⟨lit "me", some 0, lit "/x"⟩ ∧
    parseUrl (cText urlBuf c202_query.text) = some ⟨lit "h?q", some 80, lit "/"⟩ ∧
    parseUrl (cText urlBuf c202_fragment.text) = some ⟨lit "h", some 80, lit "/x#top"⟩ ∧
    parseUrl (cText urlBuf c202_empty.text) = some ⟨lit "h", some 0, lit "/x"⟩ := by
  decide +kernel

theorem C202_fails : ¬ C202_statement := fun h => by
  have := h c202_user ⟨fun s hs => (by cases hs; decide), ⟨by decide, by decide⟩, fun n hn => (by cases hn),
    by decide, by decide, fun s hs => (by cases hs), fun s hs => (by cases hs)⟩
  rw [C202_witness.1] at this
  exact absurd this (by decide +kernel)

namespace Hc

theorem host_facts : ∀ n : Fin 256, hostByte (BitVec.ofFin n : Byte) = true →
    (BitVec.ofFin n : Byte) ≠ 47 ∧ (BitVec.ofFin n : Byte) ≠ 58 ∧ (BitVec.ofFin n : Byte) ≠ 0 ∧
    badHost (BitVec.ofFin n : Byte) = false ∧ (BitVec.ofFin n : Byte) ≠ 64 ∧ (BitVec.ofFin n : Byte) ≠ 63 := by decide +kernel

theorem query_facts : ∀ n : Fin 256, queryByte (BitVec.ofFin n : Byte) = true →
    (BitVec.ofFin n : Byte) ≠ 0 ∧ badPath (BitVec.ofFin n : Byte) = false := by decide +kernel

theorem path_query (c : Byte) (h : pathByte c = true) : queryByte c = true := by
  rw [queryByte, h]; rfl

/-- A text that starts with bytes of a host, a port and a path. -/
theorem parse_core (a : Str) (port : PortPart) (t : Str) (hn : a ≠ [])
    (hh : ∀ c ∈ a, c ≠ 47 ∧ c ≠ 58 ∧ c ≠ 0 ∧ badHost c = false) (hl : a.length ≤ 255)
    (hp : ∀ n, port = .num n → n ≤ 65535) (h4 : port ≠ .empty) (t_head : ∀ c, t.head? = some c → c = 47)
    (t_bytes : ∀ c ∈ t, c ≠ 0 ∧ badPath c = false) (t_len : t.length ≤ 2047) :
    parseUrl (cText urlBuf (lit "http://" ++ (a ++ HttpUrl.portText port ++ t))) =
      some ⟨a, some (HttpUrl.portNum port : Int), if t = [] then lit "/" else t⟩ := by
  have port_bytes : ∀ c ∈ HttpUrl.portText port, c ≠ 0 ∧ c ≠ 47 := by
    intro c hc
    cases port with
    | none => cases hc
    | empty => exact absurd rfl h4
    | num n =>
      rw [HttpUrl.portText, List.mem_append] at hc
      rcases hc with hc | hc
      · rw [show lit ":" = [58] from by decide, List.mem_singleton] at hc
        subst hc; decide
      · obtain ⟨-, -, -, a, -, b, -⟩ := digit_facts c.toFin ((decimal_digits n).1 c hc)
        exact ⟨b, a⟩
  have port_len : (HttpUrl.portText port).length ≤ 6 := by
    cases port with
    | none => simp [HttpUrl.portText]
    | empty => exact absurd rfl h4
    | num n =>
      have := decimal_len (n := n) (k := 5) (by have := hp n rfl; omega) (by decide)
      simp only [HttpUrl.portText, List.length_append, show (lit ":").length = 1 from by decide]
      omega
  obtain ⟨r, hr⟩ : ∃ r, r = a ++ HttpUrl.portText port ++ t := ⟨_, rfl⟩
  rw [← hr]
  have e1 : cText urlBuf (lit "http://" ++ r) = lit "http://" ++ r := by
    rw [cText, List.take_of_length_le]
    · rw [cstr_eq]
      rw [hr]
      simp only [List.mem_append, not_or]
      exact ⟨by decide, ⟨fun h => (hh _ h).2.2.1 rfl, fun h => (port_bytes _ h).1 rfl⟩, fun h => (t_bytes _ h).1 rfl⟩
    · rw [hr]
      simp only [List.length_append, show (lit "http://").length = 7 from by decide, urlBuf]
      omega
  obtain ⟨c0, hs0, hc0⟩ : ∃ c s, a = c :: s := by
    cases a with
    | nil => exact absurd rfl hn
    | cons c s => exact ⟨c, s, rfl⟩
  have c0f := hh c0 (by rw [hc0]; exact List.mem_cons_self ..)
  have d1 : r.takeWhile notSlash = a ++ HttpUrl.portText port ∧ r.dropWhile notSlash = t := by
    rw [hr]
    apply take_while_app
    · intro c hc
      have : c ≠ 47 := by
        rw [List.mem_append] at hc
        rcases hc with hc | hc
        · exact (hh c hc).1
        · exact (port_bytes c hc).2
      simpa [notSlash, Server.slash] using this
    · intro c hc
      rw [t_head c hc]; decide
  have d2 : r.takeWhile inHost = a := by
    rw [hr, List.append_assoc]
    refine (take_while_app (fun c hc => ?_) ?_).1
    · obtain ⟨a, b, -⟩ := hh c hc
      simp [inHost, Server.slash, Server.colon]
      exact ⟨a, b⟩
    · intro c hc
      cases port with
      | none => rw [t_head c hc]; decide
      | empty => exact absurd rfl h4
      | num n =>
        rw [HttpUrl.portText, show lit ":" = [58] from by decide] at hc
        have : (58 : Byte) = c := by simpa using hc
        subst this; decide
  have d3 : a.any badHost = false := by
    rw [List.any_eq_false]
    intro c hc
    rw [(hh c hc).2.2.2]
    decide
  have slash_host : (47 : Byte) ∉ a := fun h => (hh _ h).1 rfl
  have colon_host : (58 : Byte) ∉ a := fun h => (hh _ h).2.1 rfl
  have d4 : hostPort r = (a, some (HttpUrl.portNum port : Int)) := by
    have short : a.take (hostBuf - 1) = a := List.take_of_length_le hl
    cases port with
    | none =>
      have w : r.takeWhile notSlash = a := by rw [d1.1]; simp [HttpUrl.portText]
      rw [hostPort, w, short]
      match hc : cut Server.colon r with
      | none => rfl
      | some (x, b) =>
        obtain ⟨e, hna⟩ := cut_some hc
        have : Server.slash ∈ x := by
          by_contra hs
          rw [hr, show HttpUrl.portText .none = [] from rfl, List.append_nil] at e
          -- the colon lies after the host
          rw [List.append_eq_append_iff] at e
          rcases e with ⟨v, hv, hw⟩ | ⟨v, hv, hw⟩
          · cases v with
            | nil => have := t_head _ (by rw [hw]; rfl); exact absurd this (by decide)
            | cons d v =>
              have := t_head d (by rw [hw]; rfl)
              subst this
              exact hs (by rw [hv]; simp [Server.slash])
          · cases v with
            | nil => have := t_head Server.colon (by rw [List.nil_append] at hw; rw [← hw]; rfl); exact absurd this (by decide)
            | cons d v =>
              rw [List.cons_append, List.cons.injEq] at hw
              exact colon_host (by rw [hv, ← hw.1]; simp [Server.colon])
        simp only [if_pos this]
        rfl
    | empty => exact absurd rfl h4
    | num n =>
      have e : r = a ++ Server.colon :: (decimal n ++ t) := by
        rw [hr, HttpUrl.portText, show lit ":" = [Server.colon] from by decide]; simp
      rw [hostPort, e, cut_app (show Server.colon ∉ a from colon_host)]
      simp only [if_neg (show Server.slash ∉ a from slash_host), short]
      have := atoi_digits (s := decimal n) (t := t) (decimal_digits n).1 (decimal_digits n).2
        (fun c hc => by rw [t_head c hc]; decide) (by rw [digits_decimal]; have := hp n rfl; omega)
      rw [this, digits_decimal]
      rfl
  rw [e1, parseUrl]
  have p1 : (lit "http://").isPrefixOf (lit "http://" ++ r) = true := by simp
  have p2 : (lit "http://" ++ r).drop 7 = r := by
    rw [List.drop_append, show (lit "http://").length = 7 from by decide, show (lit "http://").drop 7 = [] from by decide]
    rfl
  rw [if_pos p1, p2]
  have hr' : r = c0 :: (hs0 ++ HttpUrl.portText port ++ t) := by rw [hr, hc0]; simp
  have nn : ¬ (c0 = Server.slash ∨ c0 = Server.colon) := by
    rintro (h | h)
    · exact c0f.1 h
    · exact c0f.2.1 h
  simp only [d2, d3, d1.2, d4]
  rw [hr']
  simp only [if_neg nn, Bool.false_eq_true, if_false, if_neg hn]
  cases t with
  | nil => rfl
  | cons x t =>
    have tk : (x :: t).take (pathBuf - 1) = x :: t := List.take_of_length_le t_len
    simp only [tk]
    rw [if_neg]
    · rfl
    · rw [Bool.not_eq_true, List.any_eq_false]
      intro c hc
      rw [(t_bytes c hc).2]; decide

theorem host_ok {s : Str} (h : ∀ c ∈ s, hostByte c = true) : ∀ c ∈ s, c ≠ 47 ∧ c ≠ 58 ∧ c ≠ 0 ∧ badHost c = false :=
  fun c hc => by
    obtain ⟨a, b, d, e, -⟩ := host_facts c.toFin (h c hc)
    exact ⟨a, b, d, e⟩

theorem query_ok {q : Option Str} (h : ∀ s, q = some s → ∀ c ∈ s, queryByte c = true) :
    ∀ c ∈ HttpUrl.opt 63 q, c ≠ 0 ∧ badPath c = false := by
  intro c hc
  cases q with
  | none => cases hc
  | some q =>
    rw [HttpUrl.opt, List.mem_cons] at hc
    rcases hc with rfl | hc
    · decide
    · exact query_facts c.toFin (h q rfl c hc)

end Hc

/-- A URL without user and fragment, whose path is not empty before a query, whose port is not empty, and
whose host and target fit their buffers. Missing: the other URLs. -/
theorem C202_partial (u : HttpUrl) (hw : u.Wf) (h1 : u.user = none) (h2 : u.fragment = none)
    (h3 : u.path = [] → u.query = none) (h4 : u.port ≠ .empty) (h5 : u.host.length ≤ 255)
    (h6 : u.target.length ≤ 2047) :
    parseUrl (cText urlBuf u.text) = some ⟨u.host, some (u.portNumber : Int), u.target⟩ := by
  obtain ⟨-, ⟨hn, hh⟩, hp, hpa, hps, hq, -⟩ := hw
  have e0 : u.text = lit "http://" ++ (u.host ++ HttpUrl.portText u.port ++ (u.path ++ HttpUrl.opt 63 u.query)) := by
    rw [HttpUrl.text, h1, h2]
    simp [HttpUrl.opt]
  have te : u.target = if u.path ++ HttpUrl.opt 63 u.query = [] then lit "/" else u.path ++ HttpUrl.opt 63 u.query := by
    rw [HttpUrl.target]
    by_cases e : u.path = []
    · rw [if_pos e, e, h3 e]; rfl
    · rw [if_neg e, if_neg (by simp [e])]
  rw [e0, parse_core u.host u.port _ hn (host_ok hh) h5 hp h4, te, HttpUrl.portNumber]
  · intro c hc
    cases hpp : u.path with
    | nil => rw [hpp, h3 hpp] at hc; cases hc
    | cons d p =>
      rw [hpp] at hc
      have : d = c := by simpa using hc
      exact this ▸ hps d (by rw [hpp]; rfl)
  · intro c hc
    rw [List.mem_append] at hc
    rcases hc with hc | hc
    · exact query_facts c.toFin (path_query c (hpa c hc))
    · exact query_ok hq c hc
  · rw [te] at h6
    split at h6
    · rename_i e; rw [e]; simp
    · exact h6

/-- A user without a password is taken for a part of the host. -/
theorem C202_user (u : HttpUrl) (hw : u.Wf) (s : Str) (hs : u.user = some s) (hc : 58 ∉ s)
    (h2 : u.fragment = none) (h3 : u.path = [] → u.query = none) (h4 : u.port ≠ .empty)
    (h5 : s.length + 1 + u.host.length ≤ 255) (h6 : u.target.length ≤ 2047) :
    parseUrl (cText urlBuf u.text) = some ⟨s ++ lit "@" ++ u.host, some (u.portNumber : Int), u.target⟩ := by
  obtain ⟨hu, ⟨hn, hh⟩, hp, hpa, hps, hq, -⟩ := hw
  have e0 : u.text = lit "http://" ++ (s ++ lit "@" ++ u.host ++ HttpUrl.portText u.port ++
      (u.path ++ HttpUrl.opt 63 u.query)) := by
    rw [HttpUrl.text, hs, h2]
    simp [HttpUrl.opt]
  have te : u.target = if u.path ++ HttpUrl.opt 63 u.query = [] then lit "/" else u.path ++ HttpUrl.opt 63 u.query := by
    rw [HttpUrl.target]
    by_cases e : u.path = []
    · rw [if_pos e, e, h3 e]; rfl
    · rw [if_neg e, if_neg (by simp [e])]
  have ub : ∀ c ∈ s ++ lit "@" ++ u.host, c ≠ 47 ∧ c ≠ 58 ∧ c ≠ 0 ∧ badHost c = false := by
    intro c hcm
    rw [List.mem_append, List.mem_append] at hcm
    rcases hcm with (hcm | hcm) | hcm
    · rcases hu s hs c hcm with h | rfl
      · obtain ⟨a, b, d, e, -⟩ := host_facts c.toFin h
        exact ⟨a, b, d, e⟩
      · exact absurd hcm hc
    · rw [show lit "@" = [64] from by decide, List.mem_singleton] at hcm
      subst hcm; decide
    · exact host_ok hh c hcm
  have ul : (s ++ lit "@" ++ u.host).length ≤ 255 := by
    simp only [List.length_append, show (lit "@").length = 1 from by decide]
    omega
  rw [e0, parse_core (s ++ lit "@" ++ u.host) u.port _ (by simp [hn]) ub ul hp h4, te, HttpUrl.portNumber]
  · intro c hc
    cases hpp : u.path with
    | nil => rw [hpp, h3 hpp] at hc; cases hc
    | cons d p =>
      rw [hpp] at hc
      have : d = c := by simpa using hc
      exact this ▸ hps d (by rw [hpp]; rfl)
  · intro c hc
    rw [List.mem_append] at hc
    rcases hc with hc | hc
    · exact query_facts c.toFin (path_query c (hpa c hc))
    · exact query_ok hq c hc
  · rw [te] at h6
    split at h6
    · rename_i e; rw [e]; simp
    · exact h6

/-- C202: an address of more than 4095 bytes is silently cut there, so that it fits the buffer with the zero byte after it. -/
theorem C202_long_partial (u : Str) (h : 0 ∉ u) : cText urlBuf u = u.take 4095 ∧ (cText urlBuf u).length + 1 ≤ 4096 := by
  have e : cText urlBuf u = u.take 4095 := by
    have hz : ∀ s : Str, 0 ∉ s → cstr s = s := by
      intro s hs
      induction s with
      | nil => rfl
      | cons x s ih =>
        simp only [List.mem_cons, not_or] at hs
        have hx : x ≠ 0 := fun e => hs.1 e.symm
        unfold cstr at ih ⊢
        rw [List.takeWhile_cons_of_pos (by simpa using hx), ih hs.2]
    exact hz _ fun hm => h (List.mem_of_mem_take hm)
  refine ⟨e, ?_⟩
  rw [e, List.length_take]
  omega

example : parseUrl (cText urlBuf (lit "http://example.org:8080/a/b?x=1&y=2:3")) =
    some ⟨lit "example.org", some 8080, lit "/a/b?x=1&y=2:3"⟩ := by decide +kernel

/-! ### The head of a request -/

namespace Hc

/-- What is written after some headers, all of them having been kept in bounds. -/
theorem add_lines (all : Str) (hs : Params) :
    (∃ pre kv post, hs = pre ++ kv :: post ∧ 4096 < (all ++ pre.flatMap HttpClient.headerLine).length ∧
      addLines ⟨all.take 4095, all.length⟩ hs = none) ∨
    ((∀ pre kv post, hs = pre ++ kv :: post → (all ++ pre.flatMap HttpClient.headerLine).length ≤ 4096) ∧
      addLines ⟨all.take 4095, all.length⟩ hs = some ⟨(all ++ hs.flatMap HttpClient.headerLine).take 4095,
        (all ++ hs.flatMap HttpClient.headerLine).length⟩) := by
  induction hs generalizing all with
  | nil =>
    refine .inr ⟨fun pre kv post h => ?_, by simp [addLines]⟩
    cases pre <;> cases h
  | cons kv hs ih =>
    by_cases hl : 4096 < all.length
    · refine .inl ⟨[], kv, hs, rfl, by simpa using hl, ?_⟩
      rw [addLines, addLine, if_pos (show hdrBuf < (⟨all.take 4095, all.length⟩ : Head).len from hl)]
    · have e : addLine ⟨all.take 4095, all.length⟩ (HttpClient.headerLine kv) =
          some ⟨(all ++ HttpClient.headerLine kv).take 4095, (all ++ HttpClient.headerLine kv).length⟩ := by
        rw [addLine, if_neg (show ¬ hdrBuf < (⟨all.take 4095, all.length⟩ : Head).len from hl), List.take_append,
          List.length_append]
        simp only [hdrBuf, show 4096 - all.length - 1 = 4095 - all.length from by omega]
      rcases ih (all ++ HttpClient.headerLine kv) with ⟨pre, kv', post, h1, h2, h3⟩ | ⟨h1, h2⟩
      · refine .inl ⟨kv :: pre, kv', post, by rw [h1]; rfl, by simpa using h2, ?_⟩
        rw [addLines, e]
        exact h3
      · refine .inr ⟨fun pre kv' post h => ?_, ?_⟩
        · cases pre with
          | nil => simpa using hl
          | cons x pre =>
            rw [List.cons_append, List.cons.injEq] at h
            have := h1 pre kv' post h.2
            rw [← h.1]
            simpa using this
        · rw [addLines, e]
          simpa using h2

/-- The bytes written before the end of the head. -/
def wanted (method : Str) (p : Url) (body : Str) (hs : Params) : Str :=
  firstLines method p.path p.host body ++ hs.flatMap HttpClient.headerLine

/-- The headers before one of the others take more than the buffer. -/
def Over (method : Str) (p : Url) (body : Str) (hs : Params) : Prop :=
  ∃ pre kv post, hs = pre ++ kv :: post ∧ 4096 < (wanted method p body pre).length

theorem not_https {u : Str} {p : Url} (h : parseUrl u = some p) : (lit "https://").isPrefixOf u = false := by
  cases hp : (lit "https://").isPrefixOf u with
  | false => rfl
  | true =>
    exfalso
    rw [List.isPrefixOf_iff_prefix] at hp
    obtain ⟨t, rfl⟩ := hp
    rw [parseUrl] at h
    have : (lit "http://").isPrefixOf (lit "https://" ++ t) = false := by
      rw [show lit "https://" = lit "https:/" ++ lit "/" from by decide +kernel]
      simp [lit, ch, List.isPrefixOf]
    rw [this] at h
    cases h

/-- What a request with a good URL does. -/
theorem request_eq (method url body : Str) (hs : Params) {p : Url} (h : parseUrl (cText urlBuf url) = some p) :
    (Over method p body hs ∧ request method url body hs = .overrun) ∨
    (¬ Over method p body hs ∧ request method url body hs =
      if (wanted method p body hs).length < 4094 then .sent p.host p.port (wanted method p body hs ++ lit "\r\n" ++ body)
      else if (wanted method p body hs).length < 4096 then .sent p.host p.port (wanted method p body hs ++ body)
      else .tooLong) := by
  have hne : firstLines method p.path p.host body ≠ [] := by
    rw [firstLines]
    split <;> simp [lit]
  have hpos : 0 < (wanted method p body hs).length := by
    rw [wanted, List.length_append]
    have := List.length_pos_iff.mpr hne
    omega
  rw [request]
  simp only [not_https h, Bool.false_eq_true, if_false, h]
  rcases add_lines (firstLines method p.path p.host body) hs with ⟨pre, kv, post, h1, h2, h3⟩ | ⟨h1, h2⟩
  · refine .inl ⟨⟨pre, kv, post, h1, h2⟩, ?_⟩
    rw [startHead, show hdrBuf - 1 = 4095 from rfl, h3]
  · refine .inr ⟨?_, ?_⟩
    · rintro ⟨pre, kv, post, h4, h5⟩
      have := h1 pre kv post h4
      rw [wanted] at h5
      omega
    · rw [startHead, show hdrBuf - 1 = 4095 from rfl, h2]
      change (match HttpClient.finish ⟨(wanted method p body hs).take 4095, (wanted method p body hs).length⟩ with
        | none => Sent.tooLong
        | some bytes => Sent.sent p.host p.port (bytes ++ body)) = _
      generalize wanted method p body hs = w at hpos
      by_cases c1 : w.length < 4094
      · rw [if_pos c1, HttpClient.finish]
        have e : w.take 4095 = w := List.take_of_length_le (by omega)
        simp only [hdrBuf, show w.length + 2 < 4096 from by omega, if_true, e]
        rw [if_neg (by omega), List.take_of_length_le (by simp [show (lit "\r\n").length = 2 from by decide])]
      · rw [if_neg c1, HttpClient.finish]
        simp only [hdrBuf, show ¬ w.length + 2 < 4096 from by omega, if_false]
        by_cases c2 : w.length < 4096
        · rw [if_pos c2, if_neg (by omega)]
          have e : w.take 4095 = w := List.take_of_length_le (by omega)
          rw [e, List.take_of_length_le (by omega)]
        · rw [if_neg c2, if_pos (by omega)]

theorem request_parsed {method url body : Str} {hs : Params} {host : Str} {port : Option Int} {bytes : Str}
    (h : request method url body hs = .sent host port bytes) :
    ∃ p, parseUrl (cText urlBuf url) = some p ∧ p.host = host ∧ p.port = port ∧
      (wanted method p body hs).length < 4096 ∧
      bytes = wanted method p body hs ++
        (if (wanted method p body hs).length < 4094 then lit "\r\n" else []) ++ body := by
  match hp : parseUrl (cText urlBuf url) with
  | none =>
    rw [request] at h
    simp only [hp] at h
    split at h <;> cases h
  | some p =>
    rcases request_eq method url body hs hp with ⟨-, e⟩ | ⟨-, e⟩
    · rw [e] at h; cases h
    · rw [e] at h
      refine ⟨p, rfl, ?_⟩
      split at h
      · rename_i c
        cases h
        exact ⟨rfl, rfl, by omega, by rw [if_pos c]⟩
      · rename_i c
        split at h
        · rename_i c'
          cases h
          exact ⟨rfl, rfl, c', by rw [if_neg c]; simp⟩
        · cases h

/-- Host and path of a URL keep within their buffers and hold no line break. -/
theorem parsed {u : Str} {p : Url} (h : parseUrl u = some p) (h0 : 0 ∉ u) :
    p.host.length ≤ 255 ∧ p.path.length ≤ 2047 ∧ (13 ∉ p.host ∧ 10 ∉ p.host ∧ 0 ∉ p.host ∧ 32 ∉ p.host) ∧
      (13 ∉ p.path ∧ 10 ∉ p.path ∧ 0 ∉ p.path) ∧ p.host ≠ [] ∧
      (∀ c ∈ p.path, c ∈ u ∨ c = 47) := by
  rw [parseUrl] at h
  split at h
  · obtain ⟨r, hr⟩ : ∃ r, r = u.drop 7 := ⟨_, rfl⟩
    rw [← hr] at h
    have hru : ∀ c ∈ r, c ∈ u := fun c hc => by rw [hr] at hc; exact List.mem_of_mem_drop hc
    cases r with
    | nil => cases h
    | cons c r' =>
      simp only at h
      obtain ⟨r, hrr⟩ : ∃ r, r = c :: r' := ⟨_, rfl⟩
      rw [← hrr] at h hru
      split at h
      · cases h
      · split at h
        · cases h
        · rename_i hbad
          rw [Bool.not_eq_true, List.any_eq_false] at hbad
          -- the host
          have hh : ∀ c ∈ (hostPort r).1, c ∈ r.takeWhile inHost := by
            intro c hc
            rw [hostPort] at hc
            have slashOnly : ∀ x : Str, 58 ∉ x.takeWhile notSlash → x.takeWhile notSlash = x.takeWhile inHost := by
              intro x
              induction x with
              | nil => intro; rfl
              | cons d x ih =>
                intro h58
                by_cases e : d = 47
                · subst e; simp [notSlash, inHost, Server.slash]
                · have n1 : notSlash d = true := by simpa [notSlash, Server.slash] using e
                  rw [List.takeWhile_cons, n1, if_pos rfl, List.mem_cons, not_or] at h58
                  have n2 : inHost d = true := by
                    simp only [inHost, Server.slash, Server.colon, Bool.and_eq_true, bne_iff_ne, ne_eq]
                    exact ⟨e, fun h => h58.1 h.symm⟩
                  rw [List.takeWhile_cons, List.takeWhile_cons, n1, n2, if_pos rfl, if_pos rfl, ih h58.2]
            have sub : ∀ x : Str, ∀ c ∈ x.takeWhile notSlash, c ∈ x := fun x c hc => (List.takeWhile_sublist _).subset hc
            have before : ∀ a b : Str, 47 ∈ a → (a ++ Server.colon :: b).takeWhile notSlash = a.takeWhile notSlash := by
              intro a b
              induction a with
              | nil => intro h; cases h
              | cons d a ih =>
                intro hm
                by_cases e : d = 47
                · subst e; simp [notSlash, Server.slash]
                · have n1 : notSlash d = true := by simpa [notSlash, Server.slash] using e
                  rw [List.mem_cons] at hm
                  rcases hm with hm | hm
                  · exact absurd hm.symm e
                  · simp [n1, ih hm]
            match hcut : cut Server.colon r with
            | none =>
              rw [hcut] at hc
              have nc : (58 : Byte) ∉ r := by
                exact cut_none_iff hcut
              rw [slashOnly r (fun hm => nc (sub r _ hm))] at hc
              exact List.mem_of_mem_take hc
            | some (a, b) =>
              rw [hcut] at hc
              obtain ⟨e, hna⟩ := cut_some hcut
              simp only at hc
              split at hc
              · rename_i hs
                have e1 := before a b hs
                rw [← e] at e1
                rw [slashOnly r (by rw [e1]; exact fun hm => hna (sub a _ hm))] at hc
                exact List.mem_of_mem_take hc
              · rename_i hs
                have : r.takeWhile inHost = a := by
                  rw [e]
                  refine (take_while_app (fun c hc => ?_) ?_).1
                  · simp only [inHost, Bool.and_eq_true, bne_iff_ne, ne_eq]
                    exact ⟨fun h => hs (h ▸ hc), fun h => hna (h ▸ hc)⟩
                  · intro c hc
                    have : Server.colon = c := by simpa using hc
                    subst this; decide
                rw [this]
                exact List.mem_of_mem_take hc
          have hlen : (hostPort r).1.length ≤ 255 := by
            rw [hostPort]
            split
            · split <;> simp only [List.length_take, hostBuf] <;> omega
            · simp only [List.length_take, hostBuf]; omega
          have hno : ∀ c ∈ (hostPort r).1, badHost c = false ∧ c ∈ u := by
            intro c hc
            have h1 := hh c hc
            exact ⟨by simpa using hbad c h1, hru c ((List.takeWhile_sublist _).subset h1)⟩
          have hn4 : 13 ∉ (hostPort r).1 ∧ 10 ∉ (hostPort r).1 ∧ 0 ∉ (hostPort r).1 ∧ 32 ∉ (hostPort r).1 :=
            ⟨fun h => absurd (hno _ h).1 (by decide), fun h => absurd (hno _ h).1 (by decide), fun h => h0 (hno _ h).2,
              fun h => absurd (hno _ h).1 (by decide)⟩
          have hdrop : ∀ c ∈ r.dropWhile notSlash, c ∈ u := fun c hc => hru c ((List.dropWhile_sublist _).subset hc)
          generalize hostPort r = hpp at h hlen hn4
          obtain ⟨host, port⟩ := hpp
          generalize r.dropWhile notSlash = d at h hdrop
          cases d with
          | nil =>
            simp only at h
            split at h
            · cases h
            · rename_i hne
              cases h
              exact ⟨hlen, by simp, hn4, (by decide : 13 ∉ [Server.slash] ∧ 10 ∉ [Server.slash] ∧ 0 ∉ [Server.slash]), hne, fun c hc => .inr (by simpa [Server.slash] using hc)⟩
          | cons x d =>
            simp only at h
            split at h
            · cases h
            · rename_i hp
              rw [Bool.not_eq_true, List.any_eq_false] at hp
              split at h
              · cases h
              · rename_i hne
                cases h
                refine ⟨hlen, ?_, hn4, ⟨fun h => absurd (hp _ h) (by decide), fun h => absurd (hp _ h) (by decide),
                  fun h => h0 (hdrop _ (List.mem_of_mem_take h))⟩, hne, fun c hc => .inl (hdrop _ (List.mem_of_mem_take hc))⟩
                simp only [List.length_take, pathBuf]
                omega
  · cases h

end Hc

/-! ### C203: the message -/

/-- The methods of the module. -/
def methods : List Str := [lit "GET", lit "POST", lit "PUT", lit "DELETE", lit "HEAD", lit "PATCH"]

def fieldText (kv : Str × Str) : Str := kv.1 ++ lit ": " ++ kv.2

/-- The fields every request has. -/
def ownFields (host body : Str) : List (Str × Str) :=
  (lit "Host", host) ::
  (if body = [] then [] else
    [(lit "Content-Length", decimal body.length), (lit "Content-Type", lit "application/x-www-form-urlencoded")]) ++
  [(lit "Connection", lit "close")]

/-- The lines of the message that is asked for. -/
def asked (method target host body : Str) (hs : Params) : List Str :=
  (method ++ lit " " ++ target ++ lit " HTTP/1.1") :: (ownFields host body ++ hs).map fieldText

/-- Whatever is sent is a message with the request line, the fields of the client, the fields of the program,
and the body. -/
def C203_statement : Prop :=
  ∀ (method url body : Str) (hs : Params) (host : Str) (port : Option Int) (bytes : Str), method ∈ methods →
    request method url body hs = .sent host port bytes →
    ∃ target, 32 ∉ target ∧ Frames bytes (asked method target host body hs) body

def c203_inject : Params := [(lit "X", lit "a\r\nCookie: b")]

/-- A header value with a line break puts in a header of its own, and a path with a space makes another
request line. -/
theorem C203_witness :
    request (lit "GET") (lit "http://h/") [] c203_inject =
      .sent (lit "h") (some 80) (lit "GET / HTTP/1.1\r\nHost: h\r\nConnection: close\r\nX: a\r\nCookie: b\r\n\r\n") ∧
    request (lit "GET") (lit "http://h/a HTTP/1.0") [] [] =
      .sent (lit "h") (some 80) (lit "GET /a HTTP/1.0 HTTP/1.1\r\nHost: h\r\nConnection: close\r\n\r\n") := by
  decide +kernel

theorem C203_fails : ¬ C203_statement := fun h => by
  obtain ⟨t, -, -, ht⟩ := h _ _ _ _ _ _ _ (by decide) C203_witness.1
  have := (ht (fieldText (lit "X", lit "a\r\nCookie: b")) (by simp [asked, c203_inject])).2.1
  exact this (by decide)

namespace Hc

theorem lit_app (s t : String) : lit (s ++ t) = lit s ++ lit t := by simp [lit]

/-- The lines of a request, as the program text has them. -/
theorem wanted_eq (method : Str) (p : Url) (body : Str) (hs : Params)
    (hh : ∀ kv ∈ hs, 0 ∉ kv.1 ∧ 0 ∉ kv.2) :
    wanted method p body hs = (asked method p.path p.host body hs).flatMap (· ++ crlf) := by
  have e1 : hs.flatMap HttpClient.headerLine = (hs.map fieldText).flatMap (· ++ crlf) := by
    clear p
    induction hs with
    | nil => rfl
    | cons kv hs ih =>
      obtain ⟨a, b⟩ := hh kv (List.mem_cons_self ..)
      rw [List.flatMap_cons, List.map_cons, List.flatMap_cons, ih fun x hx => hh x (List.mem_cons_of_mem _ hx),
        HttpClient.headerLine, cstr_eq a, cstr_eq b, fieldText, show lit "\r\n" = crlf from by decide]
  have r1 : lit " HTTP/1.1\r\n" = lit " HTTP/1.1" ++ crlf := by decide +kernel
  have r2 : lit "\r\n" = crlf := by decide
  have r3 : lit "Content-Type: application/x-www-form-urlencoded\r\n" =
    lit "Content-Type" ++ (lit ": " ++ (lit "application/x-www-form-urlencoded" ++ crlf)) := by decide +kernel
  have r4 : lit "Connection: close\r\n" = lit "Connection" ++ (lit ": " ++ (lit "close" ++ crlf)) := by decide +kernel
  have r5 : lit "Host: " = lit "Host" ++ lit ": " := by decide
  have r6 : lit "Content-Length: " = lit "Content-Length" ++ lit ": " := by decide +kernel
  rw [wanted, e1, asked, ownFields, firstLines]
  by_cases hb : body = []
  · subst hb
    simp only [List.length_nil, Nat.lt_irrefl, if_false, if_true, r1, r2, r4, r5]
    simp [fieldText]
  · rw [if_neg hb, if_pos (List.length_pos_iff.mpr hb), r1, r2, r3, r4, r5, r6]
    simp [fieldText]

theorem line_noBreak {a b : Str} (ha : NoBreak a) (hb : NoBreak b) : NoBreak (a ++ b) := by
  refine ⟨?_, ?_, ?_⟩ <;> rw [List.mem_append, not_or]
  · exact ⟨ha.1, hb.1⟩
  · exact ⟨ha.2.1, hb.2.1⟩
  · exact ⟨ha.2.2, hb.2.2⟩

instance (s : Str) : Decidable (NoBreak s) := by unfold NoBreak; infer_instance

theorem decimal_noBreak (n : Nat) : NoBreak (decimal n) ∧ 58 ∉ decimal n ∧ (decimal n).head? ≠ some 32 := by
  have h := (decimal_digits n).1
  have f : ∀ c ∈ decimal n, c ≠ 58 ∧ c ≠ 0 ∧ c ≠ 13 ∧ c ≠ 10 ∧ c ≠ 32 := fun c hc => by
    obtain ⟨-, -, -, -, a⟩ := digit_facts c.toFin (h c hc)
    exact a
  refine ⟨⟨fun m => (f _ m).2.2.1 rfl, fun m => (f _ m).2.2.2.1 rfl, fun m => (f _ m).2.1 rfl⟩, fun m => (f _ m).1 rfl, ?_⟩
  intro e
  exact (f 32 (List.mem_of_mem_head? (by rw [e]; rfl))).2.2.2.2 rfl

/-- Fields with good texts. -/
def GoodField (kv : Str × Str) : Prop := NoBreak kv.1 ∧ 58 ∉ kv.1 ∧ NoBreak kv.2 ∧ kv.2.head? ≠ some 32

theorem own_names : NoBreak (lit "Host") ∧ 58 ∉ lit "Host" ∧ NoBreak (lit "Content-Length") ∧ 58 ∉ lit "Content-Length" := by
  decide

theorem own_good {host body : Str} (hh : NoBreak host) (h32 : host.head? ≠ some 32) :
    ∀ kv ∈ ownFields host body, GoodField kv := by
  intro kv hkv
  rw [ownFields] at hkv
  have b := decimal_noBreak body.length
  split at hkv
  · simp only [List.cons_append, List.nil_append, List.mem_cons, List.not_mem_nil, or_false] at hkv
    rcases hkv with rfl | rfl
    · exact ⟨own_names.1, own_names.2.1, hh, h32⟩
    · exact ⟨by decide, by decide, by decide, by decide⟩
  · simp only [List.cons_append, List.nil_append, List.mem_cons, List.not_mem_nil, or_false] at hkv
    rcases hkv with rfl | rfl | rfl | rfl
    · exact ⟨own_names.1, own_names.2.1, hh, h32⟩
    · exact ⟨own_names.2.2.1, own_names.2.2.2, b.1, b.2.2⟩
    · exact ⟨by decide, by decide, by decide +kernel, by decide⟩
    · exact ⟨by decide, by decide, by decide, by decide⟩

theorem method_good : ∀ m ∈ methods, NoBreak m ∧ 32 ∉ m ∧ m ≠ [] ∧ m.length ≤ 6 := by decide

theorem asked_lines {method target host body : Str} {hs : Params} (hm : method ∈ methods) (ht : NoBreak target)
    (hh : NoBreak host) (hg : ∀ kv ∈ hs, NoBreak kv.1 ∧ NoBreak kv.2) :
    ∀ l ∈ asked method target host body hs, l ≠ [] ∧ 13 ∉ l ∧ 10 ∉ l := by
  intro l hl
  rw [asked, List.mem_cons] at hl
  have aux : ∀ l : Str, l ≠ [] → NoBreak l → l ≠ [] ∧ 13 ∉ l ∧ 10 ∉ l := fun l h0 h => ⟨h0, h.1, h.2.1⟩
  rcases hl with rfl | hl
  · refine aux _ (by simp [lit]) (line_noBreak (line_noBreak (line_noBreak (method_good _ hm).1 (by decide)) ht) (by decide))
  · rw [List.mem_map] at hl
    obtain ⟨kv, hkv, rfl⟩ := hl
    have : NoBreak kv.1 ∧ NoBreak kv.2 := by
      rw [List.mem_append] at hkv
      rcases hkv with hkv | hkv
      · rw [ownFields] at hkv
        have b := decimal_noBreak body.length
        split at hkv
        · simp only [List.cons_append, List.nil_append, List.mem_cons, List.not_mem_nil, or_false] at hkv
          rcases hkv with rfl | rfl
          · exact ⟨own_names.1, hh⟩
          · exact ⟨by decide, by decide⟩
        · simp only [List.cons_append, List.nil_append, List.mem_cons, List.not_mem_nil, or_false] at hkv
          rcases hkv with rfl | rfl | rfl | rfl
          · exact ⟨own_names.1, hh⟩
          · exact ⟨own_names.2.2.1, b.1⟩
          · exact ⟨by decide, by decide +kernel⟩
          · exact ⟨by decide, by decide⟩
      · exact hg kv hkv
    exact aux _ (by simp [fieldText, lit]) (line_noBreak (line_noBreak this.1 (by decide)) this.2)

theorem cText_nz (n : Nat) (s : Str) : 0 ∉ cText n s := cstr_nz _

end Hc

/-- Headers without line breaks and NULs, a URL without spaces, and lines that fit: the message is the one
asked for. Missing: line breaks in headers, spaces in paths, and heads of 4094 or 4095 bytes. -/
theorem C203_partial (method url body : Str) (hs : Params) (p : Url) (hm : method ∈ methods)
    (hp : parseUrl (cText urlBuf url) = some p) (hg : ∀ kv ∈ hs, NoBreak kv.1 ∧ NoBreak kv.2) (h32 : 32 ∉ url)
    (hl : ((asked method p.path p.host body hs).flatMap (· ++ crlf)).length < 4094) :
    ∃ bytes, request method url body hs = .sent p.host p.port bytes ∧ 32 ∉ p.path ∧
      Frames bytes (asked method p.path p.host body hs) body := by
  obtain ⟨h1, h2, ⟨a1, a2, a3, -⟩, ⟨b1, b2, b3⟩, h5, h6⟩ := parsed hp (cText_nz _ _)
  have w := wanted_eq method p body hs fun kv h => ⟨(hg kv h).1.2.2, (hg kv h).2.2.2⟩
  have no : ¬ Over method p body hs := by
    rintro ⟨pre, kv, post, rfl, h⟩
    have : (wanted method p body pre).length ≤ (wanted method p body (pre ++ kv :: post)).length := by
      simp only [wanted, List.length_append, List.flatMap_append]
      omega
    rw [w] at this
    omega
  rcases request_eq method url body hs hp with ⟨h, -⟩ | ⟨-, e⟩
  · exact absurd h no
  · rw [w, if_pos hl] at e
    refine ⟨_, e, fun h => ?_, ?_, asked_lines hm ⟨b1, b2, b3⟩ ⟨a1, a2, a3⟩ hg⟩
    · rcases h6 _ h with h | h
      · refine h32 ?_
        rw [cText, cstr] at h
        exact List.mem_of_mem_take ((List.takeWhile_sublist _).subset h)
      · exact absurd h (by decide)
    · rw [show lit "\r\n" = crlf from by decide]

/-- With lines of 4094 or 4095 bytes the empty line is not sent; a server waits for it. -/
theorem C203_unterminated (method url body : Str) (hs : Params) (p : Url)
    (hp : parseUrl (cText urlBuf url) = some p) (hg : ∀ kv ∈ hs, NoBreak kv.1 ∧ NoBreak kv.2)
    (hl : ((asked method p.path p.host body hs).flatMap (· ++ crlf)).length = 4094 ∨
      ((asked method p.path p.host body hs).flatMap (· ++ crlf)).length = 4095) :
    request method url body hs =
      .sent p.host p.port ((asked method p.path p.host body hs).flatMap (· ++ crlf) ++ body) := by
  have w := wanted_eq method p body hs fun kv h => ⟨(hg kv h).1.2.2, (hg kv h).2.2.2⟩
  have no : ¬ Over method p body hs := by
    rintro ⟨pre, kv, post, rfl, h⟩
    have : (wanted method p body pre).length ≤ (wanted method p body (pre ++ kv :: post)).length := by
      simp only [wanted, List.length_append, List.flatMap_append]
      omega
    rw [w] at this
    omega
  rcases request_eq method url body hs hp with ⟨h, -⟩ | ⟨-, e⟩
  · exact absurd h no
  · rw [w, if_neg (by omega), if_pos (by omega)] at e
    exact e

/-- Longer lines are not sent. -/
theorem C203_long (method url body : Str) (hs : Params) (p : Url)
    (hp : parseUrl (cText urlBuf url) = some p) (hg : ∀ kv ∈ hs, NoBreak kv.1 ∧ NoBreak kv.2)
    (hl : 4096 ≤ ((asked method p.path p.host body hs).flatMap (· ++ crlf)).length) :
    request method url body hs = .tooLong ∨ request method url body hs = .overrun := by
  have w := wanted_eq method p body hs fun kv h => ⟨(hg kv h).1.2.2, (hg kv h).2.2.2⟩
  rcases request_eq method url body hs hp with ⟨-, h⟩ | ⟨-, e⟩
  · exact .inr h
  · rw [w, if_neg (by omega), if_neg (by omega)] at e
    exact .inl e

/-- A message is read in one way. -/
theorem C203_unique {bytes b b' : Str} {ls ls' : List Str} (h : Frames bytes ls b) (h' : Frames bytes ls' b') :
    ls = ls' ∧ b = b' := by
  obtain ⟨e, g⟩ := h
  obtain ⟨e', g'⟩ := h'
  have first : ∀ l l' r r' : Str, 13 ∉ l → 13 ∉ l' → l ++ crlf ++ r = l' ++ crlf ++ r' → l = l' ∧ r = r' := by
    intro l l' r r' h h' e
    have c1 := cut_app (b := 10 :: r) h
    have c2 := cut_app (b := 10 :: r') h'
    have : l ++ 13 :: 10 :: r = l' ++ 13 :: 10 :: r' := by simpa [crlf] using e
    rw [this, c2] at c1
    cases c1
    exact ⟨rfl, rfl⟩
  induction ls generalizing ls' bytes with
  | nil =>
    cases ls' with
    | nil =>
      subst e
      simpa [crlf] using e'
    | cons l' ls' =>
      exfalso
      rw [e] at e'
      obtain ⟨h0, h13, -⟩ := g' l' (List.mem_cons_self ..)
      cases l' with
      | nil => exact h0 rfl
      | cons x l' =>
        have : (13 : Byte) = x := by simpa [crlf] using congrArg List.head? e'
        exact h13 (this ▸ List.mem_cons_self ..)
  | cons l ls ih =>
    obtain ⟨h0, h13, -⟩ := g l (List.mem_cons_self ..)
    cases ls' with
    | nil =>
      exfalso
      rw [e] at e'
      cases l with
      | nil => exact h0 rfl
      | cons x l =>
        have : x = (13 : Byte) := by simpa [crlf] using congrArg List.head? e'
        exact h13 (this ▸ List.mem_cons_self ..)
    | cons l' ls' =>
      obtain ⟨h0', h13', -⟩ := g' l' (List.mem_cons_self ..)
      have e2 : l ++ crlf ++ (ls.flatMap (· ++ crlf) ++ crlf ++ b) = l' ++ crlf ++ (ls'.flatMap (· ++ crlf) ++ crlf ++ b') := by
        rw [e] at e'
        simpa [List.append_assoc] using e'
      obtain ⟨rfl, e3⟩ := first _ _ _ _ h13 h13' e2
      obtain ⟨rfl, rfl⟩ := ih (bytes := ls.flatMap (· ++ crlf) ++ crlf ++ b) rfl
        (fun x hx => g x (List.mem_cons_of_mem _ hx)) e3 (fun x hx => g' x (List.mem_cons_of_mem _ hx))
      exact ⟨rfl, rfl⟩

example : request (lit "POST") (lit "http://h:8080/x") (lit "a=1") [(lit "X-Id", lit "7")] =
    .sent (lit "h") (some 8080) (lit ("POST /x HTTP/1.1\r\nHost: h\r\nContent-Length: 3\r\n" ++
      "Content-Type: application/x-www-form-urlencoded\r\nConnection: close\r\nX-Id: 7\r\n\r\na=1")) := by decide +kernel

/-! ### C204: the buffer of the head -/

/-- No request writes outside of the buffer of its head. -/
def C204_statement : Prop :=
  ∀ (method url body : Str) (hs : Params), method ∈ methods → request method url body hs ≠ .overrun

/-- Writing goes outside exactly if the lines before the last header take more than the buffer. Missing: those
requests. -/
theorem C204_partial (method url body : Str) (hs : Params) :
    request method url body hs = .overrun ↔
      ∃ p pre kv, parseUrl (cText urlBuf url) = some p ∧ hs = pre ++ [kv] ∧ 4096 < (wanted method p body pre).length := by
  match hp : parseUrl (cText urlBuf url) with
  | none =>
    constructor
    · intro h
      rw [request] at h
      simp only [hp] at h
      split at h <;> cases h
    · rintro ⟨p, -, -, h, -⟩
      cases h
  | some p =>
    constructor
    · intro h
      rcases request_eq method url body hs hp with ⟨⟨pre, kv, post, rfl, hl⟩, -⟩ | ⟨-, e⟩
      · refine ⟨p, pre ++ (kv :: post).dropLast, (kv :: post).getLast (by simp), rfl, ?_, ?_⟩
        · rw [List.append_assoc, List.dropLast_concat_getLast]
        · have : (wanted method p body pre).length ≤ (wanted method p body (pre ++ (kv :: post).dropLast)).length := by
            simp only [wanted, List.length_append, List.flatMap_append]
            omega
          omega
      · rw [e] at h
        split at h
        · cases h
        · split at h <;> cases h
    · rintro ⟨q, pre, kv, e, rfl, hl⟩
      cases e
      rcases request_eq method url body (pre ++ [kv]) hp with ⟨-, h⟩ | ⟨h, -⟩
      · exact h
      · exact absurd ⟨pre, kv, [], rfl, hl⟩ h

def c204_long : Str × Str := (lit "X", List.replicate 5000 97)

/-- A header of 5000 bytes, and one more. -/
theorem C204_witness : request (lit "GET") (lit "http://h/") [] [c204_long, (lit "Y", lit "z")] = .overrun := by
  rw [C204_partial]
  refine ⟨⟨lit "h", some 80, lit "/"⟩, [c204_long], (lit "Y", lit "z"), by decide +kernel, rfl, ?_⟩
  have : (cstr c204_long.2) = List.replicate 5000 97 := cstr_eq fun h => by
    have := List.eq_of_mem_replicate h
    exact absurd this (by decide)
  simp only [wanted, List.length_append, List.flatMap_cons, HttpClient.headerLine, this, List.length_replicate]
  omega

theorem C204_fails : ¬ C204_statement := fun h => h _ _ _ _ (by decide) C204_witness

/-- With at most one header nothing is written outside. -/
theorem C204_one (method url body : Str) (hs : Params) (hm : method ∈ methods) (hb : body.length ≤ 2147483647)
    (h : hs.length ≤ 1) : request method url body hs ≠ .overrun := by
  rw [Ne, C204_partial]
  rintro ⟨p, pre, kv, hp, rfl, hl⟩
  have : pre = [] := by
    cases pre with
    | nil => rfl
    | cons x pre => simp at h
  subst this
  obtain ⟨h1, h2, -⟩ := parsed hp (cText_nz _ _)
  have hm' := (method_good _ hm).2.2.2
  have hd := decimal_len (n := body.length) (k := 10) (by omega) (by decide)
  simp only [wanted, firstLines, List.flatMap_nil, List.append_nil] at hl
  split at hl
  · simp only [List.length_append, show (lit " ").length = 1 from by decide,
      show (lit " HTTP/1.1\r\n").length = 11 from by decide, show (lit "Host: ").length = 6 from by decide,
      show (lit "\r\n").length = 2 from by decide, show (lit "Content-Length: ").length = 16 from by decide +kernel,
      show (lit "Content-Type: application/x-www-form-urlencoded\r\n").length = 49 from by decide +kernel,
      show (lit "Connection: close\r\n").length = 19 from by decide +kernel] at hl
    omega
  · simp only [List.length_append, show (lit " ").length = 1 from by decide,
      show (lit " HTTP/1.1\r\n").length = 11 from by decide, show (lit "Host: ").length = 6 from by decide,
      show (lit "\r\n").length = 2 from by decide, 
      show (lit "Connection: close\r\n").length = 19 from by decide +kernel] at hl
    omega

/-! ### C205: the host -/

/-- The message has this line. -/
def HasLine (bytes l : Str) : Prop := ∃ a b, bytes = a ++ crlf ++ l ++ crlf ++ b

/-- The field `Host` (RFC 9112, section 3.2): the port is given unless it is 80. -/
def hostLine (host : Str) (port : Nat) : Str :=
  if port = 80 then lit "Host: " ++ host else lit "Host: " ++ host ++ lit ":" ++ decimal port

/-- Every request names the host and the port it is meant for. -/
def C205_statement : Prop :=
  ∀ (method url body : Str) (hs : Params) (host : Str) (port : Nat) (bytes : Str), method ∈ methods →
    request method url body hs = .sent host (some port) bytes → HasLine bytes (hostLine host port)

theorem C205_witness : request (lit "GET") (lit "http://h:8080/") [] [] =
    .sent (lit "h") (some ((8080 : Nat) : Int)) (lit "GET / HTTP/1.1\r\nHost: h\r\nConnection: close\r\n\r\n") := by
  decide +kernel

theorem C205_fails : ¬ C205_statement := fun h => by
  obtain ⟨a, b, e⟩ := h _ _ _ _ _ _ _ (by decide) C205_witness
  have key : ∀ i : Fin 46, (crlf ++ hostLine (lit "h") 8080 ++ crlf).isPrefixOf
      ((lit "GET / HTTP/1.1\r\nHost: h\r\nConnection: close\r\n\r\n").drop i) = false := by decide +kernel
  have hl : a.length < 46 := by
    have := congrArg List.length e
    rw [show (lit "GET / HTTP/1.1\r\nHost: h\r\nConnection: close\r\n\r\n").length = 46 from by decide +kernel] at this
    simp [crlf] at this
    omega
  have := key ⟨a.length, hl⟩
  rw [e] at this
  simp only [List.append_assoc, List.drop_left] at this
  rw [← List.append_assoc, ← List.append_assoc, ← List.append_assoc, Bool.eq_false_iff] at this
  apply this
  rw [List.isPrefixOf_iff_prefix]
  exact ⟨b, by simp⟩

/-- Every request names its host. Missing: the port. -/
theorem C205_partial (method url body : Str) (hs : Params) (host : Str) (port : Option Int) (bytes : Str)
    (h : request method url body hs = .sent host port bytes) : HasLine bytes (lit "Host: " ++ host) := by
  obtain ⟨p, -, rfl, -, -, rfl⟩ := request_parsed h
  have r1 : lit " HTTP/1.1\r\n" = lit " HTTP/1.1" ++ crlf := by decide +kernel
  have r2 : lit "\r\n" = crlf := by decide
  obtain ⟨B, hB⟩ : ∃ B, firstLines method p.path p.host body =
      (method ++ lit " " ++ p.path ++ lit " HTTP/1.1") ++ crlf ++ (lit "Host: " ++ p.host) ++ crlf ++ B := by
    rw [firstLines, r1, r2]
    split
    · refine ⟨lit "Content-Length: " ++ decimal body.length ++ crlf ++
        lit "Content-Type: application/x-www-form-urlencoded\r\n" ++ lit "Connection: close\r\n", ?_⟩
      simp only [List.append_assoc]
    · refine ⟨lit "Connection: close\r\n", ?_⟩
      simp only [List.append_assoc]
  generalize (if (wanted method p body hs).length < 4094 then lit "\r\n" else []) = X
  refine ⟨method ++ lit " " ++ p.path ++ lit " HTTP/1.1", B ++ hs.flatMap HttpClient.headerLine ++ X ++ body, ?_⟩
  rw [wanted, hB]
  simp only [List.append_assoc]

/-- So it is as it should be on port 80. -/
theorem C205_default (method url body : Str) (hs : Params) (host : Str) (bytes : Str)
    (h : request method url body hs = .sent host (some ((80 : Nat) : Int)) bytes) : HasLine bytes (hostLine host 80) :=
  C205_partial method url body hs host _ bytes h

/-! ### C206: every field once -/

/-- ASCII lower case. -/
def lowered (s : Str) : Str := s.map fun c => if isUpper c then c + 32 else c

/-- The name of a field line, in lower case. -/
def lineName (l : Str) : Str := lowered (l.takeWhile fun c => c != 58)

/-- If the program names every field once, so does the message. -/
def C206_statement : Prop :=
  ∀ (method url body : Str) (hs : Params) (host : Str) (port : Option Int) (bytes : Str) (ls : List Str),
    method ∈ methods → (∀ kv ∈ hs, GoodField kv) → (hs.map fun kv => lowered kv.1).Nodup →
    request method url body hs = .sent host port bytes → Frames bytes ls body → (ls.tail.map lineName).Nodup

def c206_json : Params := [(lit "Content-Type", lit "application/json")]

/-- A JSON body is announced as a form and as JSON. -/
theorem C206_witness : request (lit "POST") (lit "http://h/") (lit "{}") c206_json =
    .sent (lit "h") (some 80) (lit ("POST / HTTP/1.1\r\nHost: h\r\nContent-Length: 2\r\n" ++
      "Content-Type: application/x-www-form-urlencoded\r\nConnection: close\r\n" ++
      "Content-Type: application/json\r\n\r\n{}")) := by decide +kernel

theorem C206_fails : ¬ C206_statement := fun h => by
  have := h _ _ _ _ _ _ _ (asked (lit "POST") (lit "/") (lit "h") (lit "{}") c206_json) (by decide)
    (fun kv hk => by
      rw [c206_json, List.mem_singleton] at hk
      subst hk
      exact ⟨by decide, by decide, by decide, by decide⟩) (by decide +kernel) C206_witness
    ⟨by decide +kernel, by decide +kernel⟩
  exact absurd this (by decide +kernel)

/-- The fields every request has. -/
def ownNames : List Str := [lit "host", lit "content-length", lit "content-type", lit "connection"]

/-- Names that the client does not give itself are named once. Missing: a program cannot choose the others. -/
theorem C206_partial (method url body : Str) (hs : Params) (host : Str) (port : Option Int) (bytes : Str)
    (ls : List Str) (hm : method ∈ methods) (hg : ∀ kv ∈ hs, GoodField kv)
    (hn : (hs.map fun kv => lowered kv.1).Nodup) (ho : ∀ kv ∈ hs, lowered kv.1 ∉ ownNames)
    (h : request method url body hs = .sent host port bytes) (hf : Frames bytes ls body) :
    (ls.tail.map lineName).Nodup := by
  obtain ⟨p, hp, rfl, rfl, hl, e⟩ := request_parsed h
  obtain ⟨-, -, ⟨a1, a2, a3, a4⟩, ⟨b1, b2, b3⟩, -, -⟩ := parsed hp (cText_nz _ _)
  have w := wanted_eq method p body hs fun kv h => ⟨(hg kv h).1.2.2, (hg kv h).2.2.1.2.2⟩
  have hal := asked_lines (body := body) (hs := hs) hm ⟨b1, b2, b3⟩ ⟨a1, a2, a3⟩ fun kv h => ⟨(hg kv h).1, (hg kv h).2.2.1⟩
  have short : (wanted method p body hs).length < 4094 := by
    by_contra c
    rw [if_neg c, w, List.append_nil] at e
    obtain ⟨e', -⟩ := hf
    rw [e] at e'
    have e2 := List.append_cancel_right e'
    obtain ⟨i, l, hil⟩ : ∃ i l, asked method p.path p.host body hs = i ++ [l] :=
      ⟨_, _, (List.dropLast_concat_getLast (by rw [asked]; simp)).symm⟩
    obtain ⟨l0, l13, l10⟩ := hal l (by rw [hil]; simp)
    rw [hil, List.flatMap_append] at e2
    simp only [List.flatMap_cons, List.flatMap_nil, List.append_nil] at e2
    rw [← List.append_assoc] at e2
    have e3 := List.append_cancel_right e2
    have last : (i.flatMap (· ++ crlf) ++ l).getLast? = l.getLast? := by
      rw [List.getLast?_append]
      cases hll : l.getLast? with
      | none => rw [List.getLast?_eq_none_iff] at hll; exact absurd hll l0
      | some x => rfl
    rcases List.eq_nil_or_concat ls with rfl | ⟨i', l', rfl⟩
    · rw [List.flatMap_nil, List.append_eq_nil_iff] at e3
      exact l0 e3.2
    · rw [e3] at last
      have : (List.flatMap (· ++ crlf) (i'.concat l')).getLast? = some 10 := by
        simp [List.concat_eq_append, crlf, List.getLast?_append]
      rw [this] at last
      exact l10 (List.mem_of_getLast? last.symm)
  rw [if_pos short, w, show lit "\r\n" = crlf from by decide] at e
  obtain ⟨rfl, -⟩ := C203_unique hf ⟨e, hal⟩
  have ln : ∀ kv : Str × Str, 58 ∉ kv.1 → lineName (fieldText kv) = lowered kv.1 := by
    intro kv hk
    rw [lineName, fieldText, show lit ": " = [58, 32] from by decide, List.append_assoc]
    have := (take_while_app (p := fun c => c != 58) (a := kv.1) (b := [58, 32] ++ kv.2)
      (fun c hc => by
        have : c ≠ 58 := fun h => hk (h ▸ hc)
        simpa using this)
      (fun c hc => by
        have : (58 : Byte) = c := by simpa using hc
        subst this; decide)).1
    rw [this]
  rw [asked, List.tail_cons, List.map_map]
  have e1 : (ownFields p.host body ++ hs).map (lineName ∘ fieldText) = (ownFields p.host body ++ hs).map fun kv => lowered kv.1 := by
    apply List.map_congr_left
    intro kv hkv
    rw [List.mem_append] at hkv
    rcases hkv with hkv | hkv
    · exact ln kv (own_good ⟨a1, a2, a3⟩ (fun h => a4 (List.mem_of_mem_head? (by rw [h]; rfl))) kv hkv).2.1
    · exact ln kv (hg kv hkv).2.1
  rw [e1, List.map_append, List.nodup_append]
  have own : ((ownFields p.host body).map fun kv => lowered kv.1).Nodup ∧
      ∀ x ∈ (ownFields p.host body).map fun kv => lowered kv.1, x ∈ ownNames := by
    rw [ownFields]
    split
    · exact ⟨by simp only [List.cons_append, List.nil_append, List.map_cons, List.map_nil]; decide +kernel,
        by simp only [List.cons_append, List.nil_append, List.map_cons, List.map_nil]; decide +kernel⟩
    · exact ⟨by simp only [List.cons_append, List.nil_append, List.map_cons, List.map_nil]; decide +kernel,
        by simp only [List.cons_append, List.nil_append, List.map_cons, List.map_nil]; decide +kernel⟩
  refine ⟨own.1, hn, fun x hx y hy hxy => ?_⟩
  subst hxy
  rw [List.mem_map] at hy
  obtain ⟨kv, hkv, rfl⟩ := hy
  exact ho kv hkv (own.2 _ hx)

end Verif.Props

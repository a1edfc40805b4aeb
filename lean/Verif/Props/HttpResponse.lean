import Verif.Props.HttpClient

/-
What the HTTP client makes of a response (C207-C210), and what this client and the server of Model/Server
make of each other (C211, C212).
-/
namespace Verif.Props
open Verif Verif.Str Verif.Interp
open Verif.Server (Params setKV notSlash cut decimal)
open Verif.HttpClient
open Hc

namespace Hc

/-- The response a server sends. -/
def respText (first : Str) (fields : List (Str × Str)) (body : Str) : Str :=
  (first :: fields.map fieldText).flatMap (· ++ crlf) ++ crlf ++ body

def firstLine (n : Nat) (reason : Str) : Str := lit "HTTP/1.1 " ++ decimal n ++ lit " " ++ reason

/-! Finding the empty line. -/

theorem find_skip {P : Str} (h13 : P.head? = some 13) {l : Str} (h : 13 ∉ l) (s : Str) :
    HttpClient.find P (l ++ s) = (HttpClient.find P s).map (· + l.length) := by
  induction l with
  | nil => simp
  | cons c l ih =>
    rw [List.mem_cons, not_or] at h
    have np : P.isPrefixOf (c :: (l ++ s)) = false := by
      cases P with
      | nil => cases h13
      | cons x P =>
        have : x = 13 := by simpa using h13
        subst this
        rw [List.isPrefixOf, show ((13 : Byte) == c) = false from by simpa using h.1]
        rfl
    rw [List.cons_append, HttpClient.find, np, ih h.2]
    simp only [Bool.false_eq_true, if_false, Option.map_map]
    rfl

theorem blank : lit "\r\n\r\n" = [13, 10, 13, 10] := by decide

theorem find_lines (ls : List Str) (hne : ls ≠ []) (h : ∀ l ∈ ls, l ≠ [] ∧ 13 ∉ l) (b : Str) :
    HttpClient.find (lit "\r\n\r\n") (ls.flatMap (· ++ crlf) ++ crlf ++ b) =
      some ((ls.flatMap (· ++ crlf)).length - 2) := by
  induction ls with
  | nil => exact absurd rfl hne
  | cons l ls ih =>
    obtain ⟨h0, h13⟩ := h l (List.mem_cons_self ..)
    have e : (l :: ls).flatMap (· ++ crlf) ++ crlf ++ b = l ++ (crlf ++ (ls.flatMap (· ++ crlf) ++ crlf ++ b)) := by simp
    rw [e, find_skip (by rw [blank]; rfl) h13]
    cases ls with
    | nil =>
      have : HttpClient.find (lit "\r\n\r\n") (crlf ++ ([].flatMap (· ++ crlf) ++ crlf ++ b)) = some 0 := by
        rw [blank]
        simp [crlf, HttpClient.find]
      rw [this]
      simp [crlf]
    | cons l' ls =>
      have ih := ih (by simp) fun x hx => h x (List.mem_cons_of_mem _ hx)
      obtain ⟨h0', h13'⟩ := h l' (by simp)
      obtain ⟨c, m, hc⟩ : ∃ c m, l' = c :: m := by
        cases l' with
        | nil => exact absurd rfl h0'
        | cons c m => exact ⟨c, m, rfl⟩
      have hc13 : (13 : Byte) ≠ c := fun e => h13' (by rw [hc, e]; exact List.mem_cons_self ..)
      obtain ⟨r, hr⟩ : ∃ r, (l' :: ls).flatMap (· ++ crlf) ++ crlf ++ b = c :: r := ⟨_, by rw [hc]; rfl⟩
      have : HttpClient.find (lit "\r\n\r\n") (crlf ++ ((l' :: ls).flatMap (· ++ crlf) ++ crlf ++ b)) =
          (HttpClient.find (lit "\r\n\r\n") ((l' :: ls).flatMap (· ++ crlf) ++ crlf ++ b)).map (· + 2) := by
        rw [hr, show crlf ++ c :: r = 13 :: 10 :: c :: r from rfl, blank, HttpClient.find, HttpClient.find]
        have b2 : ((13 : Byte) == c) = false := by simpa using hc13
        have i1 : ([13, 10, 13, 10] : Str).isPrefixOf (13 :: 10 :: c :: r) = false := by
          simp only [List.isPrefixOf, b2]; rfl
        have i2 : ([13, 10, 13, 10] : Str).isPrefixOf (10 :: c :: r) = false := rfl
        rw [i1, i2]
        simp only [Bool.false_eq_true, if_false, Option.map_map]
        rfl
      rw [this, ih]
      simp [crlf]
      omega

/-! The fields. -/

/-- Setting keys one after the other. -/
def setAll (ps : Params) (fs : List (Str × Str)) : Params := fs.foldl (fun ps kv => setKV ps kv.1 kv.2) ps

theorem field_line {kv : Str × Str} (h : GoodField kv) :
    cut Server.colon (fieldText kv ++ [13]) = some (kv.1, 32 :: (kv.2 ++ [13])) ∧
      dropCr ((32 :: (kv.2 ++ [13])).dropWhile fun c => c == 32) = kv.2 := by
  obtain ⟨-, h2, h3, h4⟩ := h
  constructor
  · have : fieldText kv ++ [13] = kv.1 ++ Server.colon :: (32 :: (kv.2 ++ [13])) := by
      rw [fieldText, show lit ": " = [Server.colon, 32] from by decide]; simp
    rw [this, cut_app (show Server.colon ∉ kv.1 from h2)]
  · have : (32 :: (kv.2 ++ [13])).dropWhile (fun c => c == 32) = kv.2 ++ [13] := by
      rw [List.dropWhile_cons]
      simp only [show ((32 : Byte) == 32) = true from rfl, if_true]
      cases hk : kv.2 with
      | nil => rfl
      | cons c v =>
        rw [hk] at h4
        have : (c == 32) = false := by simpa using h4
        rw [List.cons_append, List.dropWhile_cons]
        simp only [this, Bool.false_eq_true, if_false]
    rw [this, dropCr]
    simp

theorem field_loop (fs : List (Str × Str)) (hg : ∀ kv ∈ fs, GoodField kv) (b : Str) :
    ∀ (f : Nat) (ps : Params), fs.length < f →
      fieldLoop f ((fs.map fieldText).flatMap (· ++ crlf) ++ crlf ++ b)
        (((fs.map fieldText).flatMap (· ++ crlf)).length - 2) ps = some (setAll ps fs.dropLast) := by
  induction fs with
  | nil =>
    intro f ps hf
    obtain ⟨f, rfl⟩ : ∃ k, f = k + 1 := ⟨f - 1, by omega⟩
    rw [fieldLoop]
    simp [setAll]
  | cons kv fs ih =>
    intro f ps hf
    obtain ⟨f, rfl⟩ : ∃ k, f = k + 1 := ⟨f - 1, by simp at hf; omega⟩
    have g := hg kv (List.mem_cons_self ..)
    obtain ⟨fl1, fl2⟩ := field_line g
    have pos : 0 < (fieldText kv).length := by simp [fieldText, lit]
    have n10 : (10 : Byte) ∉ fieldText kv ++ [13] := by
      rw [fieldText]
      simp only [List.mem_append, not_or]
      exact ⟨⟨⟨g.1.2.1, by decide⟩, g.2.2.1.2.1⟩, by decide⟩
    have e : ((kv :: fs).map fieldText).flatMap (· ++ crlf) ++ crlf ++ b =
        (fieldText kv ++ [13]) ++ 10 :: ((fs.map fieldText).flatMap (· ++ crlf) ++ crlf ++ b) := by simp [crlf]
    have el : (((kv :: fs).map fieldText).flatMap (· ++ crlf)).length =
        (fieldText kv).length + 2 + ((fs.map fieldText).flatMap (· ++ crlf)).length := by
      rw [List.map_cons, List.flatMap_cons, List.length_append, List.length_append, show crlf.length = 2 from rfl]
    rw [e, el, fieldLoop, if_neg (by omega), cut_app n10]
    cases fs with
    | nil =>
      simp only [List.length_append, List.length_singleton, List.map_nil, List.flatMap_nil, List.length_nil]
      rw [if_pos (by omega)]
      simp [setAll]
    | cons kv' fs =>
      obtain ⟨t, ht⟩ : ∃ t, t = (((kv' :: fs).map fieldText).flatMap (· ++ crlf)).length := ⟨_, rfl⟩
      have t2 : 2 ≤ t := by rw [ht]; simp [crlf]; omega
      rw [← ht]
      simp only [List.length_append, List.length_singleton, fl1, fl2]
      rw [if_neg (by omega)]
      have := ih (fun x hx => hg x (List.mem_cons_of_mem _ hx)) f (setKV ps kv.1 kv.2) (by simp at hf ⊢; omega)
      rw [← ht] at this
      rw [show (fieldText kv).length + 2 + t - 2 - ((fieldText kv).length + 1 + 1) = t - 2 from by omega]
      rw [this]
      simp [setAll]

theorem cstr_app {a b : Str} (h : 0 ∉ a) : cstr (a ++ b) = a ++ cstr b := by
  induction a with
  | nil => rfl
  | cons c a ih =>
    rw [List.mem_cons, not_or] at h
    have hc : (c != 0) = true := by
      have : c ≠ 0 := fun e => h.1 e.symm
      simpa using this
    have := ih h.2
    rw [cstr] at this ⊢
    simp only [List.cons_append, List.takeWhile_cons, hc, if_true, this]

theorem reason_line (n : Nat) {reason : Str} (h : NoBreak reason) : NoBreak (firstLine n reason) := by
  rw [firstLine]
  exact line_noBreak (line_noBreak (line_noBreak (by decide) (decimal_noBreak n).1) (by decide)) h

theorem field_noBreak {kv : Str × Str} (h : GoodField kv) : NoBreak (fieldText kv) :=
  line_noBreak (line_noBreak h.1 (by decide)) h.2.2.1

/-- What is made of a response. -/
theorem parse_resp (n : Nat) (reason : Str) (fields : List (Str × Str)) (body : Str) (hn : n ≤ 999) (hr : NoBreak reason)
    (hg : ∀ kv ∈ fields, GoodField kv) :
    parseResponse (respText (firstLine n reason) fields body) =
      ⟨some (n : Int), setAll [] fields.dropLast, body⟩ := by
  have ln := reason_line n hr
  obtain ⟨ls, hls⟩ : ∃ ls, ls = firstLine n reason :: fields.map fieldText := ⟨_, rfl⟩
  have good : ∀ l ∈ ls, l ≠ [] ∧ NoBreak l := by
    intro l hl
    rw [hls, List.mem_cons] at hl
    rcases hl with rfl | hl
    · exact ⟨by simp [firstLine, lit], ln⟩
    · rw [List.mem_map] at hl
      obtain ⟨kv, hkv, rfl⟩ := hl
      exact ⟨by simp [fieldText, lit], field_noBreak (hg kv hkv)⟩
  have nz : 0 ∉ ls.flatMap (· ++ crlf) ++ crlf := by
    rw [List.mem_append, not_or]
    refine ⟨fun h => ?_, by decide⟩
    rw [List.mem_flatMap] at h
    obtain ⟨l, hl, h⟩ := h
    rw [List.mem_append] at h
    rcases h with h | h
    · exact (good l hl).2.2.2 h
    · exact absurd h (by decide)
  have len : 12 ≤ (respText (firstLine n reason) fields body).length := by
    simp only [respText, firstLine, List.flatMap_cons, List.length_append, show (lit "HTTP/1.1 ").length = 9 from by decide,
      show (lit " ").length = 1 from by decide, show crlf.length = 2 from rfl]
    omega
  have hc : cstr (respText (firstLine n reason) fields body) = ls.flatMap (· ++ crlf) ++ crlf ++ cstr body := by
    rw [respText, ← hls, cstr_app nz]
  have hfind := find_lines ls (by rw [hls]; simp) (fun l hl => ⟨(good l hl).1, (good l hl).2.1⟩) (cstr body)
  have two : 2 ≤ (ls.flatMap (· ++ crlf)).length := by
    rw [hls]; simp [crlf]; omega
  have st : statusOf (ls.flatMap (· ++ crlf) ++ crlf ++ cstr body) = some (n : Int) := by
    have e : ls.flatMap (· ++ crlf) ++ crlf ++ cstr body =
        lit "HTTP/1.1" ++ 32 :: (decimal n ++ 32 :: (reason ++ crlf ++ (fields.map fieldText).flatMap (· ++ crlf) ++ crlf ++ cstr body)) := by
      rw [hls, firstLine, show lit "HTTP/1.1 " = lit "HTTP/1.1" ++ [32] from by decide, show lit " " = [32] from by decide]
      simp
    rw [e, statusOf]
    have p : (lit "HTTP/").isPrefixOf (lit "HTTP/1.1" ++ 32 :: (decimal n ++ 32 :: (reason ++ crlf ++
        (fields.map fieldText).flatMap (· ++ crlf) ++ crlf ++ cstr body))) = true := by
      rw [show lit "HTTP/1.1" = lit "HTTP/" ++ lit "1.1" from by decide, List.append_assoc]
      simp
    rw [if_pos p, cut_app (by decide)]
    have := atoi_digits (s := decimal n) (t := 32 :: (reason ++ crlf ++ (fields.map fieldText).flatMap (· ++ crlf) ++ crlf ++ cstr body))
      (decimal_digits n).1 (decimal_digits n).2 (fun c hc => by
        have : (32 : Byte) = c := by simpa using hc
        subst this; decide) (by rw [digits_decimal]; omega)
    simp only [this, digits_decimal]
  have n10 : (10 : Byte) ∉ firstLine n reason ++ [13] := by
    rw [List.mem_append, not_or]
    exact ⟨ln.2.1, by decide⟩
  have e1 : ls.flatMap (· ++ crlf) ++ crlf ++ cstr body =
      (firstLine n reason ++ [13]) ++ 10 :: ((fields.map fieldText).flatMap (· ++ crlf) ++ crlf ++ cstr body) := by
    rw [hls]; simp [crlf]
  have e2 : (ls.flatMap (· ++ crlf)).length = (firstLine n reason).length + 2 + ((fields.map fieldText).flatMap (· ++ crlf)).length := by
    rw [hls, List.flatMap_cons, List.length_append, List.length_append, show crlf.length = 2 from rfl]
  have fuel : fields.length < (ls.flatMap (· ++ crlf) ++ crlf ++ cstr body).length + 1 := by
    have : ∀ fs : List (Str × Str), fs.length ≤ ((fs.map fieldText).flatMap (· ++ crlf)).length := by
      intro fs
      induction fs with
      | nil => simp
      | cons x fs ih =>
        simp only [List.map_cons, List.flatMap_cons, List.length_append, List.length_cons, show crlf.length = 2 from rfl]
        omega
    have := this fields
    simp only [List.length_append, e2]
    omega
  have hd : (respText (firstLine n reason) fields body).drop ((ls.flatMap (· ++ crlf)).length - 2 + 4) = body := by
    rw [respText, ← hls, show (ls.flatMap (· ++ crlf)).length - 2 + 4 = (ls.flatMap (· ++ crlf) ++ crlf).length from by
      rw [List.length_append, show crlf.length = 2 from rfl]; omega]
    exact List.drop_left
  rw [parseResponse, if_neg (by rw [minResp]; omega)]
  simp only [hc, headEnd, hfind, st, hd]
  rw [show cut 10 (ls.flatMap (· ++ crlf) ++ crlf ++ cstr body) =
    some (firstLine n reason ++ [13], (fields.map fieldText).flatMap (· ++ crlf) ++ crlf ++ cstr body) from by
      rw [e1, cut_app n10]]
  simp only
  change (⟨some (n : Int), (fieldLoop ((ls.flatMap (· ++ crlf) ++ crlf ++ cstr body).length + 1)
    ((fields.map fieldText).flatMap (· ++ crlf) ++ crlf ++ cstr body)
    ((ls.flatMap (· ++ crlf)).length - 2 - ((firstLine n reason ++ [13]).length + 1)) []).getD [], body⟩ :
      HttpClient.Response) = _
  have key : (ls.flatMap (· ++ crlf)).length - 2 - ((firstLine n reason ++ [13]).length + 1) =
      ((fields.map fieldText).flatMap (· ++ crlf)).length - 2 := by
    rw [e2, List.length_append, List.length_singleton]; omega
  rw [key]
  rw [field_loop fields hg (cstr body) _ [] fuel]
  rfl

/-! Receiving. -/

theorem recv_all : ∀ (ps : List Str) (got : Str) (as : List Nat), (∀ p ∈ ps, p ≠ []) →
    (got ++ ps.flatten).length < 1048576 → (recvLoop ps got as).1 = got ++ ps.flatten := by
  intro ps
  induction ps with
  | nil =>
    intro got as _ _
    rw [recvLoop]
    split <;> simp
  | cons p ps ih =>
    intro got as hp hl
    have p0 := List.length_pos_iff.mpr (hp p (List.mem_cons_self ..))
    simp only [List.flatten_cons, List.length_append] at hl
    rw [recvLoop, if_pos (by rw [rspBuf]; omega), if_neg (hp p (List.mem_cons_self ..)),
      List.take_of_length_le (by rw [rspBuf]; omega), ih _ _ (fun x hx => hp x (List.mem_cons_of_mem _ hx))
        (by simp only [List.length_append]; omega)]
    simp

theorem recv_len : ∀ (ps : List Str) (got : Str) (as : List Nat), got.length ≤ 1048576 →
    (recvLoop ps got as).1.length ≤ 1048576 := by
  intro ps
  induction ps with
  | nil =>
    intro got as h
    rw [recvLoop]
    split <;> exact h
  | cons p ps ih =>
    intro got as h
    rw [recvLoop]
    split
    · split
      · exact h
      · apply ih
        simp only [List.length_append, List.length_take, rspBuf]
        omega
    · exact h

theorem lookup_set (ps : Params) (k v k' : Str) :
    (setKV ps k v).lookup k' = if k' = k then some v else ps.lookup k' := by
  induction ps with
  | nil =>
    by_cases h : k' = k
    · simp [setKV, h]
    · have hb : (k' == k) = false := by simpa using h
      simp [setKV, List.lookup_cons, hb, h]
  | cons p r ih =>
    obtain ⟨a, b⟩ := p
    rw [setKV]
    by_cases h1 : a = k
    · rw [if_pos h1]
      subst h1
      by_cases h : k' = a
      · simp [h]
      · have hb : (k' == a) = false := by simpa using h
        simp [List.lookup_cons, hb, h]
    · rw [if_neg h1]
      by_cases h : k' = a
      · subst h
        simp [h1]
      · have hb : (k' == a) = false := by simpa using h
        simp only [List.lookup_cons, hb]
        exact ih

theorem lookup_setAll (fs : List (Str × Str)) (ps : Params) (k : Str) :
    (setAll ps fs).lookup k = (fs.reverse.lookup k).or (ps.lookup k) := by
  induction fs generalizing ps with
  | nil => simp [setAll]
  | cons kv fs ih =>
    have : setAll ps (kv :: fs) = setAll (setKV ps kv.1 kv.2) fs := rfl
    rw [this, ih, lookup_set, List.reverse_cons, List.lookup_append]
    obtain ⟨a, b⟩ := kv
    by_cases h : k = a
    · subst h
      cases List.lookup k fs.reverse <;> simp
    · have hb : (k == a) = false := by simpa using h
      simp [h, List.lookup_cons, hb]

end Hc

/-! ### C207: the fields of a response -/

/-- The program gets every field of a response. -/
def C207_statement : Prop :=
  ∀ (n : Nat) (reason : Str) (fields : List (Str × Str)) (body : Str) (pieces : List Str),
    n ≤ 999 → NoBreak reason → (∀ kv ∈ fields, GoodField kv) → (∀ p ∈ pieces, p ≠ []) →
    pieces.flatten = respText (firstLine n reason) fields body → pieces.flatten.length < 1048576 →
    ∀ k, (fetch pieces).headers.lookup k = fields.reverse.lookup k

def c207_fields : List (Str × Str) := [(lit "A", lit "1"), (lit "Location", lit "/x")]

/-- The last field is lost. -/
theorem C207_witness : fetch [lit "HTTP/1.1 302 Found\r\nA: 1\r\nLocation: /x\r\n\r\n"] =
    ⟨some 302, [(lit "A", lit "1")], []⟩ := by decide +kernel

theorem C207_fails : ¬ C207_statement := fun h => by
  have := h 302 (lit "Found") c207_fields [] [lit "HTTP/1.1 302 Found\r\nA: 1\r\nLocation: /x\r\n\r\n"] (by decide)
    (by decide) (fun kv hk => by
      rw [c207_fields] at hk
      simp only [List.mem_cons, List.not_mem_nil, or_false] at hk
      rcases hk with rfl | rfl <;> exact ⟨by decide, by decide, by decide, by decide⟩)
    (by decide) (by decide +kernel) (by decide +kernel) (lit "Location")
  rw [C207_witness] at this
  exact absurd this (by decide)

/-- All fields but the last. Missing: the last. -/
theorem C207_partial (n : Nat) (reason : Str) (fields : List (Str × Str)) (body : Str) (pieces : List Str)
    (hn : n ≤ 999) (hr : NoBreak reason) (hg : ∀ kv ∈ fields, GoodField kv) (hp : ∀ p ∈ pieces, p ≠ [])
    (he : pieces.flatten = respText (firstLine n reason) fields body) (hl : pieces.flatten.length < 1048576) (k : Str) :
    (fetch pieces).headers.lookup k = fields.dropLast.reverse.lookup k := by
  have e : receive pieces = pieces.flatten := by
    have := recv_all pieces [] [] hp (by simpa using hl)
    simpa [receive] using this
  rw [fetch, e, he, parse_resp n reason fields body hn hr hg]
  rw [lookup_setAll]
  simp

/-- A field that is given last, and not before, is never seen. -/
theorem C207_last (n : Nat) (reason : Str) (fields : List (Str × Str)) (k v body : Str) (pieces : List Str)
    (hn : n ≤ 999) (hr : NoBreak reason) (hg : ∀ kv ∈ fields ++ [(k, v)], GoodField kv) (hp : ∀ p ∈ pieces, p ≠ [])
    (he : pieces.flatten = respText (firstLine n reason) (fields ++ [(k, v)]) body) (hl : pieces.flatten.length < 1048576)
    (hk : ∀ kv ∈ fields, kv.1 ≠ k) : (fetch pieces).headers.lookup k = none := by
  rw [C207_partial n reason _ body pieces hn hr hg hp he hl, List.dropLast_concat, List.lookup_eq_none_iff]
  intro kv hkv
  rw [List.mem_reverse] at hkv
  simpa using fun h => hk kv hkv h.symm

/-! ### C208: status and content -/

/-- One chunk after the other (RFC 9112, section 7.1), without extensions and trailers. -/
def chunkHex (n : Nat) : Str := (Nat.toDigits 16 n).map ch

def chunked (ps : List Str) : Str :=
  (ps.flatMap fun p => chunkHex p.length ++ crlf ++ p ++ crlf) ++ lit "0" ++ crlf ++ crlf

/-- The content of a message: that of its chunks, or all that follows the fields. -/
inductive Content' (fields : List (Str × Str)) : Str → Str → Prop where
  | chunks (ps : List Str) (h : (lit "Transfer-Encoding", lit "chunked") ∈ fields) (hp : ∀ p ∈ ps, p ≠ []) :
      Content' fields (chunked ps) ps.flatten
  | plain (b : Str) (h : (lit "Transfer-Encoding", lit "chunked") ∉ fields) : Content' fields b b

/-- The program gets the status and the content. -/
def C208_statement : Prop :=
  ∀ (n : Nat) (reason : Str) (fields : List (Str × Str)) (body content : Str) (pieces : List Str),
    n ≤ 999 → NoBreak reason → (∀ kv ∈ fields, GoodField kv) → (∀ p ∈ pieces, p ≠ []) →
    pieces.flatten = respText (firstLine n reason) fields body → pieces.flatten.length < 1048576 →
    Content' fields body content → (fetch pieces).status = some (n : Int) ∧ (fetch pieces).body = content

/-- The program gets the sizes of the chunks with them. -/
theorem C208_witness : fetch [lit "HTTP/1.1 200 OK\r\nTransfer-Encoding: chunked\r\n\r\n2\r\nhi\r\n0\r\n\r\n"] =
    ⟨some 200, [], lit "2\r\nhi\r\n0\r\n\r\n"⟩ := by decide +kernel

theorem C208_fails : ¬ C208_statement := fun h => by
  have := (h 200 (lit "OK") [(lit "Transfer-Encoding", lit "chunked")] (chunked [lit "hi"]) ([lit "hi"] : List Str).flatten
    [lit "HTTP/1.1 200 OK\r\nTransfer-Encoding: chunked\r\n\r\n2\r\nhi\r\n0\r\n\r\n"] (by decide) (by decide)
    (fun kv hk => by
      rw [List.mem_singleton] at hk
      subst hk
      exact ⟨by decide, by decide, by decide, by decide⟩) (by decide) (by decide +kernel) (by decide +kernel)
    (.chunks _ (List.mem_singleton.mpr rfl) (by decide))).2
  rw [C208_witness] at this
  exact absurd this (by decide +kernel)

/-- The status, and the content that is not in chunks. Missing: chunks. -/
theorem C208_partial (n : Nat) (reason : Str) (fields : List (Str × Str)) (body : Str) (pieces : List Str)
    (hn : n ≤ 999) (hr : NoBreak reason) (hg : ∀ kv ∈ fields, GoodField kv) (hp : ∀ p ∈ pieces, p ≠ [])
    (he : pieces.flatten = respText (firstLine n reason) fields body) (hl : pieces.flatten.length < 1048576) :
    (fetch pieces).status = some (n : Int) ∧ (fetch pieces).body = body := by
  have e : receive pieces = pieces.flatten := by
    have := recv_all pieces [] [] hp (by simpa using hl)
    simpa [receive] using this
  rw [fetch, e, he, parse_resp n reason fields body hn hr hg]
  exact ⟨rfl, rfl⟩

/-- A longer response is cut without notice. -/
theorem C208_cut (pieces : List Str) : (fetch pieces).body.length ≤ 1048576 := by
  have h : (receive pieces).length ≤ 1048576 := recv_len pieces [] [] (by simp)
  rw [fetch, parseResponse]
  split
  · simp
  · dsimp only
    split
    · simp
    · simp only [List.length_drop]
      omega

/-- An interim response is taken for the response. -/
theorem C208_interim : fetch [lit "HTTP/1.1 100 Continue\r\n\r\nHTTP/1.1 200 OK\r\nA: 1\r\n\r\nhi"] =
    ⟨some 100, [], lit "HTTP/1.1 200 OK\r\nA: 1\r\n\r\nhi"⟩ := by decide +kernel

/-! ### C209: the buffer of the response -/

/-- The NUL after the response is written within the buffer. -/
def C209_statement : Prop := ∀ pieces : List Str, nulAt pieces < rspBuf

/-- It is, if less than the buffer arrives. Missing: exactly the size of the buffer. -/
theorem C209_partial (pieces : List Str) (hp : ∀ p ∈ pieces, p ≠ []) (hl : pieces.flatten.length < rspBuf) :
    nulAt pieces < rspBuf := by
  rw [nulAt, receive, recv_all pieces [] [] hp hl]
  exact hl

/-- It is written behind the buffer if the response fills it, with what arrives together at the end. -/
theorem C209_full (a b : Str) (ha : a.length < 1048575) (hb : b ≠ []) (h : (a ++ b).length ≥ 1048576) (rest : List Str) :
    nulAt ((if a = [] then [] else [a]) ++ b :: rest) = rspBuf := by
  have rest_stop : ∀ (ps : List Str) (got : Str) (as : List Nat), 1048575 ≤ got.length → (recvLoop ps got as).1 = got := by
    intro ps got as hg
    cases ps <;> rw [recvLoop, if_neg (by rw [rspBuf]; omega)]
  have last : ∀ (as : List Nat), (recvLoop (b :: rest) a as).1.length = 1048576 := by
    intro as
    rw [recvLoop, if_pos (by rw [rspBuf]; omega), if_neg hb, rest_stop]
    · simp only [List.length_append] at h
      simp only [List.length_append, List.length_take, rspBuf]
      omega
    · simp only [List.length_append] at h
      simp only [List.length_append, List.length_take, rspBuf]
      omega
  rw [nulAt, receive]
  by_cases e : a = []
  · subst e
    exact last []
  · rw [if_neg e, List.singleton_append, recvLoop, if_pos (by decide), if_neg e, List.nil_append, List.nil_append,
      List.take_of_length_le (by rw [rspBuf]; simp; omega)]
    exact last _

theorem C209_witness : nulAt [List.replicate 1048576 97] = rspBuf := by
  have len : ∀ n, (List.replicate n (97 : Byte)).length = n := fun n => List.length_replicate
  have ne : ∀ n, List.replicate (n + 1) (97 : Byte) ≠ [] := fun n h => by cases h
  exact C209_full [] (List.replicate 1048576 97) (by decide) (ne 1048575)
    (by rw [List.nil_append, len]) []

theorem C209_fails : ¬ C209_statement := fun h => by
  have := h [List.replicate 1048576 97]
  rw [C209_witness] at this
  omega

/-- It is never further behind. -/
theorem C209_bound (pieces : List Str) : nulAt pieces ≤ rspBuf := recv_len pieces [] [] (by simp)

/-! ### C210: memory -/

/-- A response takes no more of the arena than the largest response does at once. -/
def C210_statement : Prop := ∀ pieces : List Str, (∀ p ∈ pieces, p ≠ []) → arenaUsed pieces ≤ rspBuf

namespace Hc

theorem asked_low : ∀ (ps : List Str) (got : Str) (as : List Nat), (∀ p ∈ ps, p ≠ []) →
    (got ++ ps.flatten).length < 1048575 →
    as.sum + (ps.length + 1) * (1048576 - (got ++ ps.flatten).length) ≤ (recvLoop ps got as).2.sum := by
  intro ps
  induction ps with
  | nil =>
    intro got as _ hl
    rw [recvLoop]
    simp only [List.flatten_nil, List.append_nil] at hl ⊢
    rw [if_pos (by rw [rspBuf]; omega)]
    simp [rspBuf]
  | cons p ps ih =>
    intro got as hp hl
    have hp' := hp p (List.mem_cons_self ..)
    have eg : got ++ (p :: ps).flatten = (got ++ p) ++ ps.flatten := by simp
    have hl2 : got.length + p.length + ps.flatten.length < 1048575 := by simpa [Nat.add_assoc] using hl
    rw [recvLoop, if_pos (by rw [rspBuf]; omega), if_neg hp', List.take_of_length_le (by rw [rspBuf]; omega)]
    rw [eg] at hl ⊢
    have := ih (got ++ p) (as ++ [rspBuf - got.length]) (fun x hx => hp x (List.mem_cons_of_mem _ hx)) hl
    refine Nat.le_trans ?_ this
    rw [List.sum_append, List.sum_singleton, List.length_cons, Nat.add_mul (ps.length + 1) 1, Nat.one_mul]
    have : 1048576 - (got ++ p ++ ps.flatten).length ≤ rspBuf - got.length := by
      simp only [List.length_append, rspBuf]
      omega
    omega

theorem asked_up : ∀ (ps : List Str) (got : Str) (as : List Nat),
    (recvLoop ps got as).2.sum ≤ as.sum + (ps.length + 1) * 1048576 := by
  intro ps
  induction ps with
  | nil =>
    intro got as
    rw [recvLoop]
    split
    · simp [rspBuf]; 
    · simp
  | cons p ps ih =>
    intro got as
    rw [recvLoop]
    split
    · split
      · simp [rspBuf]; omega
      · refine Nat.le_trans (ih _ _) ?_
        simp [rspBuf]
        omega
    · simp

end Hc

/-- A response of n bytes in k pieces takes at least (k + 1) (2^20 - n) bytes and at most (k + 1) 2^20. Missing:
a bound that does not depend on the number of pieces. -/
theorem C210_partial (pieces : List Str) (hp : ∀ p ∈ pieces, p ≠ []) (hl : pieces.flatten.length < 1048575) :
    (pieces.length + 1) * (1048576 - pieces.flatten.length) ≤ arenaUsed pieces ∧
      arenaUsed pieces ≤ (pieces.length + 1) * 1048576 := by
  have h1 := asked_low pieces [] [] hp (by simpa using hl)
  have h2 := asked_up pieces [] []
  simp only [List.sum_nil, Nat.zero_add, List.nil_append] at h1 h2
  exact ⟨h1, h2⟩

namespace Hc

theorem many_pieces (k m : Nat) (hm : 0 < m) (hl : k * m < 1048575) :
    (k + 1) * (1048576 - k * m) ≤ arenaUsed (List.replicate k (List.replicate m 97)) := by
  have fl : (List.replicate k (List.replicate m (97 : Byte))).flatten.length = k * m := by simp
  have := (C210_partial (List.replicate k (List.replicate m 97)) (fun p hp => by
    rw [List.eq_of_mem_replicate hp]
    intro h
    rw [List.replicate_eq_nil_iff] at h
    omega) (by rw [fl]; exact hl)).1
  rw [fl, List.length_replicate] at this
  exact this

end Hc

/-- Half of the largest response, in pieces of 1024 bytes, takes more than 256 times its buffer. -/
theorem C210_witness : 256 * rspBuf ≤ arenaUsed (List.replicate 512 (List.replicate 1024 97)) :=
  Nat.le_trans (by decide) (many_pieces 512 1024 (by decide) (by decide))

theorem C210_fails : ¬ C210_statement := fun h => by
  have := h (List.replicate 512 (List.replicate 1024 97)) (fun p hp => by
    rw [List.eq_of_mem_replicate hp]
    intro h
    rw [List.replicate_eq_nil_iff] at h
    omega)
  have w := C210_witness
  have : 256 * rspBuf ≤ rspBuf := Nat.le_trans w this
  exact absurd this (by decide)

/-! ### C211: a request of this client, read by the server -/

/-- The request as the server is to see it. -/
def seenReq (method : Str) (u : HttpUrl) (body : Str) (hs : Params) : Req :=
  ⟨method, if u.path = [] then lit "/" else u.path, u.query,
    (ownFields u.host body ++ hs).map fun kv => (kv.1, 1, kv.2), body⟩

/-- URLs that are taken apart rightly (C202_partial). -/
def PlainUrl (u : HttpUrl) : Prop :=
  u.Wf ∧ u.user = none ∧ u.fragment = none ∧ (u.path = [] → u.query = none) ∧ u.port ≠ .empty ∧
    u.host.length ≤ 255 ∧ u.target.length ≤ 2047

/-- What the client sends, head and body, is what a handler of the server sees. -/
def C211_statement : Prop :=
  ∀ (method : Str) (u : HttpUrl) (body : Str) (hs : Params) (head : Str), method ∈ methods → PlainUrl u →
    (∀ kv ∈ hs, GoodField kv) →
    ((asked method u.target u.host body hs).flatMap (· ++ crlf)).length < 4094 →
    request method u.text body hs = .sent u.host (some (u.portNumber : Int)) (head ++ body) →
    ∃ q, (Server.receive (if body = [] then [head] else [head, body])).bind Server.parseRequest = some q ∧
      (seenReq method u body hs).Seen q

def c211_url : HttpUrl := ⟨none, lit "h", .none, lit "/x", none, none⟩

def c211_head : Str := lit ("POST /x HTTP/1.1\r\nHost: h\r\nContent-Length: 2\r\n" ++
  "Content-Type: application/x-www-form-urlencoded\r\nConnection: close\r\n\r\n")

/-- The server reads once, and gets the head; the body comes with the next `send`. -/
theorem C211_witness :
    request (lit "POST") c211_url.text (lit "hi") [] = .sent (lit "h") (some ((80 : Nat) : Int)) (c211_head ++ lit "hi") ∧
    ((Server.receive [c211_head, lit "hi"]).bind Server.parseRequest).map Server.Request.body = some [] := by
  decide +kernel

namespace Hc

theorem c211_plain : PlainUrl c211_url :=
  ⟨⟨fun s h => (by cases h), ⟨by decide, by decide⟩, fun n h => (by cases h), by decide, by decide,
    fun s h => (by cases h), fun s h => (by cases h)⟩, rfl, rfl, fun h => (by cases h), by decide, by decide, by decide⟩

theorem path_bytes : ∀ n : Fin 256, pathByte (BitVec.ofFin n : Byte) = true →
    (BitVec.ofFin n : Byte) ≠ 0 ∧ (BitVec.ofFin n : Byte) ≠ 13 ∧ (BitVec.ofFin n : Byte) ≠ 10 ∧
    (BitVec.ofFin n : Byte) ≠ 32 ∧ (BitVec.ofFin n : Byte) ≠ 63 := by decide +kernel

theorem query_bytes : ∀ n : Fin 256, queryByte (BitVec.ofFin n : Byte) = true →
    (BitVec.ofFin n : Byte) ≠ 0 ∧ (BitVec.ofFin n : Byte) ≠ 13 ∧ (BitVec.ofFin n : Byte) ≠ 10 ∧
    (BitVec.ofFin n : Byte) ≠ 32 := by decide +kernel

theorem host_bytes : ∀ n : Fin 256, hostByte (BitVec.ofFin n : Byte) = true →
    (BitVec.ofFin n : Byte) ≠ 0 ∧ (BitVec.ofFin n : Byte) ≠ 13 ∧ (BitVec.ofFin n : Byte) ≠ 10 ∧
    (BitVec.ofFin n : Byte) ≠ 32 := by decide +kernel

theorem seen_good {method : Str} {u : HttpUrl} {body : Str} {hs : Params} (hm : method ∈ methods) (hu : u.Wf)
    (hg : ∀ kv ∈ hs, GoodField kv) : (seenReq method u body hs).Good := by
  obtain ⟨-, ⟨hn, hh⟩, -, hpa, -, hq, -⟩ := hu
  obtain ⟨m1, m2, -⟩ := method_good method hm
  refine ⟨⟨m1, m2⟩, ?_, ?_, ?_⟩
  · have : ∀ c ∈ (seenReq method u body hs).path, c ≠ 0 ∧ c ≠ 13 ∧ c ≠ 10 ∧ c ≠ 32 ∧ c ≠ 63 := by
      intro c hc
      rw [seenReq] at hc
      simp only at hc
      split at hc
      · rw [show lit "/" = [47] from by decide, List.mem_singleton] at hc
        subst hc; decide
      · exact path_bytes c.toFin (hpa c hc)
    exact ⟨⟨fun h => (this _ h).2.1 rfl, fun h => (this _ h).2.2.1 rfl, fun h => (this _ h).1 rfl⟩,
      fun h => (this _ h).2.2.2.1 rfl, fun h => (this _ h).2.2.2.2 rfl⟩
  · intro q hqq
    have : ∀ c ∈ q, c ≠ 0 ∧ c ≠ 13 ∧ c ≠ 10 ∧ c ≠ 32 := fun c hc => query_bytes c.toFin (hq q hqq c hc)
    exact ⟨⟨fun h => (this _ h).2.1 rfl, fun h => (this _ h).2.2.1 rfl, fun h => (this _ h).1 rfl⟩,
      fun h => (this _ h).2.2.2 rfl⟩
  · have hb : ∀ c ∈ u.host, c ≠ 0 ∧ c ≠ 13 ∧ c ≠ 10 ∧ c ≠ 32 := fun c hc => host_bytes c.toFin (hh c hc)
    intro x hx
    rw [seenReq] at hx
    simp only [List.mem_map] at hx
    obtain ⟨kv, hkv, rfl⟩ := hx
    have g : GoodField kv := by
      rw [List.mem_append] at hkv
      rcases hkv with hkv | hkv
      · exact own_good ⟨fun h => (hb _ h).2.1 rfl, fun h => (hb _ h).2.2.1 rfl, fun h => (hb _ h).1 rfl⟩
          (fun h => (hb 32 (List.mem_of_mem_head? (by rw [h]; rfl))).2.2.2 rfl) kv hkv
      · exact hg kv hkv
    exact g

theorem seen_text (method : Str) (u : HttpUrl) (body : Str) (hs : Params) :
    (seenReq method u body hs).text = (asked method u.target u.host body hs).flatMap (· ++ crlf) ++ crlf ++ body := by
  have e : ∀ fs : List (Str × Str), ((fs.map fun kv => (kv.1, (1 : Nat), kv.2)).flatMap fun h => Verif.Props.headerLine h ++ crlf) =
      (fs.map fieldText).flatMap (· ++ crlf) := by
    intro fs
    induction fs with
    | nil => rfl
    | cons kv fs ih =>
      rw [List.map_cons, List.flatMap_cons, ih, List.map_cons, List.flatMap_cons]
      rw [Verif.Props.headerLine, fieldText, show lit ": " = [58, 32] from by decide]
      simp
  have t : (seenReq method u body hs).target = u.target := by
    rw [Req.target, HttpUrl.target, seenReq]
    cases u.query <;> rfl
  rw [Req.text, t]
  rw [seenReq]
  simp only [e]
  rw [asked, List.flatMap_cons, show lit " " = [32] from by decide]
  simp

end Hc

theorem C211_fails : ¬ C211_statement := fun h => by
  obtain ⟨q, h1, h2⟩ := h (lit "POST") c211_url (lit "hi") [] c211_head (by decide) c211_plain (fun kv hk => by cases hk)
    (by decide +kernel) C211_witness.1
  have w := C211_witness.2
  rw [if_neg (by decide)] at h1
  rw [h1] at w
  have : q.body = [] := by simpa using w
  have e : q.body = lit "hi" := h2.2.2.1
  rw [this] at e
  exact absurd e (by decide)

/-- It is, if head and body arrive together. Missing: a body that arrives after the head. -/
theorem C211_partial (method : Str) (u : HttpUrl) (body : Str) (hs : Params) (hm : method ∈ methods) (hu : PlainUrl u)
    (hg : ∀ kv ∈ hs, GoodField kv)
    (hl : ((asked method u.target u.host body hs).flatMap (· ++ crlf)).length < 4094)
    (hb : body.length ≤ 61440) (rest : List Str) :
    ∃ bytes, request method u.text body hs = .sent u.host (some (u.portNumber : Int)) bytes ∧
      ∃ q, (Server.receive (bytes :: rest)).bind Server.parseRequest = some q ∧ (seenReq method u body hs).Seen q := by
  obtain ⟨hw, h1, h2, h3, h4, h5, h6⟩ := hu
  have hp := C202_partial u hw h1 h2 h3 h4 h5 h6
  have w := wanted_eq method ⟨u.host, some (u.portNumber : Int), u.target⟩ body hs
    fun kv h => ⟨(hg kv h).1.2.2, (hg kv h).2.2.1.2.2⟩
  have no : ¬ Over method ⟨u.host, some (u.portNumber : Int), u.target⟩ body hs := by
    rintro ⟨pre, kv, post, rfl, h⟩
    have : (wanted method ⟨u.host, some (u.portNumber : Int), u.target⟩ body pre).length ≤
        (wanted method ⟨u.host, some (u.portNumber : Int), u.target⟩ body (pre ++ kv :: post)).length := by
      simp only [wanted, List.length_append, List.flatMap_append]
      omega
    rw [w] at this
    have h' : 4096 < (wanted method ⟨u.host, some (u.portNumber : Int), u.target⟩ body pre).length := h
    have hl' : ((asked method u.target u.host body (pre ++ kv :: post)).flatMap (· ++ crlf)).length < 4094 := hl
    simp only at this
    omega
  rcases request_eq method u.text body hs hp with ⟨h, -⟩ | ⟨-, e⟩
  · exact absurd h no
  · rw [w, if_pos hl, show lit "\r\n" = crlf from by decide] at e
    refine ⟨_, e, ?_⟩
    have := C116_partial (seenReq method u body hs) (seen_good hm hw hg) (by
      rw [seen_text]
      simp only [List.length_append, show crlf.length = 2 from rfl]
      omega) rest
    rw [seen_text] at this
    exact this

/-! ### C212: a response of the server, read by this client -/

/-- What a handler answers is what the client gets: status, content type and body. -/
def C212_statement : Prop :=
  ∀ (o : Option Str) (r : Server.Response), 0 ≤ r.status → r.status ≤ 999 → Server.isRedirect r = false → NoBreak r.ctype →
    r.ctype.head? ≠ some 32 →
    (fetch [Server.sendResp o r]).status = some r.status ∧ (fetch [Server.sendResp o r]).body = r.body ∧
      (fetch [Server.sendResp o r]).headers.lookup (lit "Content-Type") = some r.ctype

/-- A NUL in the body is lost on the way. -/
theorem C212_witness : (fetch [Server.sendResp none ⟨200, lit "text/plain", [97, 0, 98]⟩]).body = [97] := by
  decide +kernel

theorem C212_fails : ¬ C212_statement := fun h => by
  have := (h none ⟨200, lit "text/plain", [97, 0, 98]⟩ (by decide) (by decide) (by decide) (by decide) (by decide)).2.1
  rw [C212_witness] at this
  exact absurd this (by decide)

namespace Hc

/-- The fields of an answer that is no redirect. -/
def answerFields (o : Option Str) (r : Server.Response) : List (Str × Str) :=
  [(lit "Content-Type", r.ctype), (lit "Content-Length", decimal r.body.length)] ++
  (match o with
   | none => []
   | some x => [(lit "Access-Control-Allow-Origin", x),
      (lit "Access-Control-Allow-Methods", lit "GET, POST, PUT, DELETE, PATCH, OPTIONS"),
      (lit "Access-Control-Allow-Headers", lit "Content-Type, Authorization")])

theorem reason_noBreak (z : Int) : NoBreak (Server.reason z) := by
  have ite : ∀ (p : Prop) [Decidable p] (a b : Str), NoBreak a → NoBreak b → NoBreak (if p then a else b) := by
    intro p _ a b ha hb
    split
    · exact ha
    · exact hb
  unfold Server.reason
  repeat refine ite _ _ _ (by decide +kernel) ?_
  decide +kernel

theorem head_lines (o : Option Str) (r : Server.Response) {n : Nat} (hn : r.status = n) (hr : Server.isRedirect r = false) :
    headLines o r = firstLine n (Server.reason r.status) ::
      ((answerFields o r ++ [(lit "Connection", lit "close")]).map fieldText) := by
  have r1 : lit "Content-Type: " = lit "Content-Type" ++ lit ": " := by decide +kernel
  have r2 : lit "Content-Length: " = lit "Content-Length" ++ lit ": " := by decide +kernel
  have r3 : lit "Access-Control-Allow-Origin: " = lit "Access-Control-Allow-Origin" ++ lit ": " := by decide +kernel
  have r4 : lit "Access-Control-Allow-Methods: GET, POST, PUT, DELETE, PATCH, OPTIONS" =
    lit "Access-Control-Allow-Methods" ++ lit ": " ++ lit "GET, POST, PUT, DELETE, PATCH, OPTIONS" := by decide +kernel
  have r5 : lit "Access-Control-Allow-Headers: Content-Type, Authorization" =
    lit "Access-Control-Allow-Headers" ++ lit ": " ++ lit "Content-Type, Authorization" := by decide +kernel
  have r6 : lit "Connection: close" = lit "Connection" ++ lit ": " ++ lit "close" := by decide +kernel
  have r7 : Server.decInt r.status = decimal n := by rw [hn]; rfl
  unfold headLines
  rw [hr, r7, r1, r2, r3, r4, r5, r6]
  cases o <;> simp [answerFields, firstLine, fieldText]

end Hc

/-- It is, for bodies without NUL that fit the buffer of the server; and of the fields only `Connection` is
lost. Missing: other bodies. -/
theorem C212_partial (o : Option Str) (r : Server.Response)
    (ho : ∀ x, o = some x → x.length ≤ 351 ∧ NoBreak x ∧ x.head? ≠ some 32)
    (h0 : 0 ≤ r.status) (h1 : r.status ≤ 999) (hr : Server.isRedirect r = false) (hb : 0 ∉ r.body) (hc : NoBreak r.ctype)
    (hc' : r.ctype.head? ≠ some 32) (hf : ((headLines o r).flatMap (· ++ crlf) ++ crlf ++ r.body).length < 65536) :
    (fetch [Server.sendResp o r]).status = some r.status ∧ (fetch [Server.sendResp o r]).body = r.body ∧
      ∀ k, (fetch [Server.sendResp o r]).headers.lookup k = (answerFields o r).reverse.lookup k := by
  obtain ⟨n, hn⟩ : ∃ n : Nat, r.status = n := ⟨r.status.toNat, by omega⟩
  have sb : sentBody r = r.body := by rw [sentBody, hr]; rfl
  have fr := C114_partial o r (fun x hx => ⟨(ho x hx).1, (ho x hx).2.1.1, (ho x hx).2.1.2.1⟩) hb hc.2.2 ⟨hc.1, hc.2.1⟩
    (fun h => by rw [hr] at h; cases h) (by rw [sb]; exact hf)
  rw [sb] at fr
  have e : Server.sendResp o r = respText (firstLine n (Server.reason r.status))
      (answerFields o r ++ [(lit "Connection", lit "close")]) r.body := by
    rw [fr.1, head_lines o r hn hr, respText]
  have hreason : NoBreak (Server.reason r.status) := reason_noBreak r.status
  have g : ∀ kv ∈ answerFields o r ++ [(lit "Connection", lit "close")], GoodField kv := by
    intro kv hkv
    have dn := decimal_noBreak r.body.length
    rw [List.mem_append, List.mem_singleton] at hkv
    rcases hkv with hkv | rfl
    · unfold answerFields at hkv
      rw [List.mem_append] at hkv
      rcases hkv with hkv | hkv
      · simp only [List.mem_cons, List.not_mem_nil, or_false] at hkv
        rcases hkv with rfl | rfl
        · exact ⟨(by decide : NoBreak (lit "Content-Type")), (by decide : 58 ∉ lit "Content-Type"), hc, hc'⟩
        · exact ⟨own_names.2.2.1, own_names.2.2.2, dn.1, dn.2.2⟩
      · cases o with
        | none => cases hkv
        | some x =>
          simp only [List.mem_cons, List.not_mem_nil, or_false] at hkv
          rcases hkv with rfl | rfl | rfl
          · exact ⟨(by decide +kernel : NoBreak (lit "Access-Control-Allow-Origin")),
              (by decide +kernel : 58 ∉ lit "Access-Control-Allow-Origin"), (ho x rfl).2⟩
          · exact ⟨by decide +kernel, by decide +kernel, by decide +kernel, by decide⟩
          · exact ⟨by decide +kernel, by decide +kernel, by decide +kernel, by decide⟩
    · exact ⟨by decide, by decide, by decide, by decide⟩
  have hn' : n ≤ 999 := by omega
  have pieces_ne : ∀ p ∈ [Server.sendResp o r], p ≠ [] := by
    intro p hp
    rw [List.mem_singleton] at hp
    subst hp
    rw [e, respText]
    simp [firstLine, lit]
  have fl : [Server.sendResp o r].flatten = respText (firstLine n (Server.reason r.status))
      (answerFields o r ++ [(lit "Connection", lit "close")]) r.body := by simpa using e
  have len : [Server.sendResp o r].flatten.length < 1048576 := by
    rw [List.flatten_singleton, fr.1]
    omega
  obtain ⟨s1, s2⟩ := C208_partial n _ _ r.body _ hn' hreason g pieces_ne fl len
  refine ⟨by rw [s1, hn], s2, fun k => ?_⟩
  rw [C207_partial n _ _ r.body _ hn' hreason g pieces_ne fl len k, List.dropLast_concat]

end Verif.Props

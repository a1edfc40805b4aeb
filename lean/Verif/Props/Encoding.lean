import Verif.Lemmas.Encoding

/-! C24–C27, C88, C89: base64, hexadecimal and percent encoding. -/
namespace Verif.Props
open Verif Verif.Str Verif.Enc

/-! ### base64 -/

/-- RFC 4648 table 1: the character of a 6-bit value. -/
def rfcSym (v : Nat) : Byte :=
  if v < 26 then BitVec.ofNat 8 (65 + v) else if v < 52 then BitVec.ofNat 8 (97 + (v - 26))
  else if v < 62 then BitVec.ofNat 8 (48 + (v - 52)) else if v = 62 then 43 else 47

/-- RFC 4648 section 4: `t` is `vs` written in the alphabet with `k` characters `=`; the 6-bit
groups `vs` hold the bits of `s` followed by the bits `z`, fewer than six. -/
structure B64 (t s : Str) (vs : List Nat) (z : List Bool) (k : Nat) : Prop where
  text : t = vs.map rfcSym ++ List.replicate k 61
  groups : ∀ v ∈ vs, v < 64
  bits : sixBits vs = bytesBits s ++ z
  rest : z.length < 6
  pad : k ≤ 2
  whole : (vs.length + k) % 4 = 0

set_option maxRecDepth 100000 in
theorem sym_rfc_fin : ∀ v : Fin 64, sym v = rfcSym v := by decide +kernel

theorem b64_iff_form {t s : Str} {vs : List Nat} {z : List Bool} {k : Nat} :
    B64 t s vs z k ↔ Form t s vs z k := by
  have e : (∀ v ∈ vs, v < 64) → vs.map rfcSym = vs.map sym := fun h =>
    List.map_congr_left fun v hv => (sym_rfc_fin ⟨v, h v hv⟩).symm
  constructor
  · intro h
    exact ⟨by rw [h.text, e h.groups]; rfl, h.groups, h.bits, h.rest, h.pad, h.whole⟩
  · intro h
    exact ⟨by rw [h.text, e h.groups]; rfl, h.groups, h.bits, h.rest, h.pad, h.whole⟩

/-- C24 as claimed, for every string (the length of a string is an `int32_t`). -/
def C24_statement : Prop :=
  ∀ s : Str, s.length ≤ int32Max → ∃ e, b64Encode s = .ok e ∧ b64Decode e = .ok s ∧
    e.length = (s.length + 2) / 3 * 4 ∧ ∃ vs k n, B64 e s vs (List.replicate n false) k

/-- It holds for strings whose encoding is not longer than the longest string. Missing for the full
claim: longer ones, where the size computation overflows (`C24_witness`). -/
theorem C24_partial (s : Str) (h : (s.length + 2) / 3 * 4 ≤ int32Max) :
    ∃ e, b64Encode s = .ok e ∧ b64Decode e = .ok s ∧ e.length = (s.length + 2) / 3 * 4 ∧
      ∃ vs k n, B64 e s vs (List.replicate n false) k := by
  obtain ⟨vs, k, n, hf⟩ := encPure_form s
  have hM : int32Max = 2147483647 := rfl
  refine ⟨encPure s, ?_, (decode_form _ _).2 ⟨vs, _, k, hf⟩, length_encPure s, vs, k, n,
    b64_iff_form.2 hf⟩
  rw [b64Encode, if_neg (by omega), b64EncLoop_eq _ _ [] (by simp), List.nil_append]

example : b64Encode (lit "Hello") = .ok (lit "SGVsbG8=") ∧
    b64Decode (lit "SGVsbG8=") = .ok (lit "Hello") := by decide +kernel

/-- 1.7 GB: the output length does not fit in `int32_t`. -/
theorem C24_witness (s : Str) (h : s.length = 1700000000) : b64Encode s = .ub := by
  rw [b64Encode, if_pos]
  rw [h]
  decide

theorem C24_fails : ¬ C24_statement := by
  intro h
  obtain ⟨s, hs⟩ : ∃ s : Str, s.length = 1700000000 :=
    ⟨List.replicate 1700000000 0, List.length_replicate⟩
  obtain ⟨e, he, _⟩ := h s (by rw [hs]; decide)
  rw [C24_witness s hs] at he
  simp at he

/-- Text over the alphabet, padded with at most two `=` to a multiple of four characters. -/
def WellFormed64 (t : Str) : Prop :=
  t.length % 4 = 0 ∧ ∃ body k, t = body ++ List.replicate k (61 : Byte) ∧ k ≤ 2 ∧
    ∀ c ∈ body, ∃ v, v < 64 ∧ c = rfcSym v

theorem exists_groups (body : Str) (h : ∀ c ∈ body, ∃ v, v < 64 ∧ c = rfcSym v) :
    ∃ vs : List Nat, body = vs.map rfcSym ∧ ∀ v ∈ vs, v < 64 := by
  induction body with
  | nil => exact ⟨[], rfl, by simp⟩
  | cons c body ih =>
    obtain ⟨vs, h1, h2⟩ := ih fun c hc => h c (by simp [hc])
    obtain ⟨v, hv, hc⟩ := h c (by simp)
    refine ⟨v :: vs, by rw [List.map_cons, ← hc, ← h1], fun w hw => ?_⟩
    rcases List.mem_cons.1 hw with rfl | hw
    · exact hv
    · exact h2 w hw

/-- Decoding succeeds exactly on well-formed text, and otherwise panics with one of the documented
codes; it never leaves its buffer. -/
theorem C25_accepts_partial (t : Str) :
    ((∃ s, b64Decode t = .ok s) ↔ WellFormed64 t) ∧ b64Decode t ≠ .ub := by
  constructor
  · constructor
    · rintro ⟨s, hs⟩
      obtain ⟨vs, z, k, h⟩ := (decode_form t s).1 hs
      have h' := b64_iff_form.2 h
      refine ⟨by rw [h'.text]; simpa using h'.whole, vs.map rfcSym, k, h'.text, h'.pad, ?_⟩
      intro c hc
      obtain ⟨v, hv, rfl⟩ := List.mem_map.1 hc
      exact ⟨v, h'.groups v hv, rfl⟩
    · rintro ⟨hl, body, k, ht, hk, hb⟩
      obtain ⟨vs, rfl, hv⟩ := exists_groups body hb
      have hw : (vs.length + k) % 4 = 0 := by rw [ht] at hl; simpa using hl
      obtain ⟨s, hs⟩ := decPure_ok vs k hv hk hw
      have e : vs.map rfcSym = vs.map sym :=
        List.map_congr_left fun v h => (sym_rfc_fin ⟨v, hv v h⟩).symm
      refine ⟨s, ?_⟩
      rw [b64Decode_eq, if_neg (by omega), ht, e]
      exact hs
  · rw [b64Decode_eq]
    split
    · simp
    · rename_i h4
      have key : ∀ t : Str, t.length % 4 = 0 → decPure t ≠ .ub := by
        refine ind4 ?_ ?_
        · rw [decPure]
          · simp
          · intro a b c d r h; simp at h
        · intro a b c d r hr ih
          rw [decPure]
          have hq : quadPure a b c d r.isEmpty ≠ .ub := by
            unfold quadPure
            split
            · simp
            · split
              · simp
              · split <;> simp
          cases h1 : quadPure a b c d r.isEmpty with
          | ub => exact absurd h1 hq
          | panic e => simp
          | ok q =>
            cases h2 : decPure r with
            | ub => exact absurd h2 ih
            | panic e => simp
            | ok r' => simp
      exact key t (by omega)

/-- The bytes decoded are those the text stands for. -/
theorem C25_value_partial (t s : Str) :
    b64Decode t = .ok s ↔ ∃ vs z k, B64 t s vs z k := by
  rw [decode_form]
  exact ⟨fun ⟨vs, z, k, h⟩ => ⟨vs, z, k, b64_iff_form.2 h⟩,
    fun ⟨vs, z, k, h⟩ => ⟨vs, z, k, b64_iff_form.1 h⟩⟩

/-- C25 as claimed: acceptance and injectivity. -/
def C25_statement : Prop :=
  (∀ t, (∃ s, b64Decode t = .ok s) ↔ WellFormed64 t) ∧
  (∀ t t' s, b64Decode t = .ok s → b64Decode t' = .ok s → t = t')

/-- Decoding is injective on texts whose unused bits are zero (RFC 4648 section 3.5). Missing for
the full claim: texts with other trailing bits, which are accepted (`C25_witness`). -/
theorem C25_partial (t t' s : Str) (vs vs' : List Nat) (n n' k k' : Nat)
    (h : B64 t s vs (List.replicate n false) k) (h' : B64 t' s vs' (List.replicate n' false) k') :
    t = t' := by
  have f := b64_iff_form.1 h
  have f' := b64_iff_form.1 h'
  have l := f.len
  have l' := f'.len
  have r := f.rest
  have r' := f'.rest
  have p := f.pad
  have p' := f'.pad
  have w := f.whole
  have w' := f'.whole
  rw [List.length_replicate] at l l' r r'
  have hn : n = n' := by omega
  subst hn
  have hvs : vs = vs' := sixBits_inj f.groups f'.groups (f.bits.trans f'.bits.symm)
  subst hvs
  have hk : k = k' := by omega
  rw [h.text, h'.text, hk]

/-- `QQ==` and `QR==` both decode to `A`. -/
theorem C25_witness : b64Decode (lit "QQ==") = .ok (lit "A") ∧
    b64Decode (lit "QR==") = .ok (lit "A") := by decide +kernel

theorem C25_fails : ¬ C25_statement := by
  intro h
  have := h.2 _ _ _ C25_witness.1 C25_witness.2
  revert this
  decide

/-! ### hexadecimal -/

/-- The digits of base 16. -/
def hexDigits : Str := lit "0123456789abcdef"

/-- The two digits of a byte. -/
def hexPair (b : Byte) : Str := [hexDigits[b.toNat / 16]?.getD 0, hexDigits[b.toNat % 16]?.getD 0]

set_option maxRecDepth 100000 in
theorem hexPair_fin : ∀ n : Fin 256, hexPair (BitVec.ofFin n) =
    [lowerHex (n.val / 16), lowerHex (n.val % 16)] := by
  decide +kernel

theorem hexEncLoop_eq (cap : Nat) (s : Str) : ∀ out : Str, out.length + s.length * 2 ≤ cap →
    hexEncLoop cap s out = .ok (out ++ s.flatMap hexPair) := by
  induction s with
  | nil => intro out _; simp [hexEncLoop]
  | cons b s ih =>
    intro out h
    simp only [List.length_cons] at h
    rw [hexEncLoop, put, if_pos (by simp; omega), Outcome.bind_ok, ih _ (by simp; omega),
      List.flatMap_cons, show hexPair b = _ from hexPair_fin b.toFin, List.append_assoc]
    rfl

/-- C26, first part, as claimed. -/
def C26_statement : Prop :=
  ∀ s : Str, s.length ≤ int32Max →
    ∃ e, hexEncode s = .ok e ∧ e = s.flatMap hexPair ∧ hexDecode e = .ok s

/-- A string is a text of hex digits. -/
def IsHex (t : Str) : Prop := ∀ c ∈ t, c ∈ hexDigits ∨ c ∈ lit "ABCDEF"

/-- Lower case of a hex digit. -/
def lowerCase (c : Byte) : Byte := if 65 ≤ c.toNat ∧ c.toNat ≤ 70 then c + 32 else c

set_option maxRecDepth 100000 in
theorem isXDigit_fin : ∀ n : Fin 256, isXDigit (BitVec.ofFin n) =
    decide (BitVec.ofFin n ∈ hexDigits ∨ BitVec.ofFin n ∈ lit "ABCDEF") := by decide +kernel

theorem isXDigit_iff (c : Byte) : isXDigit c = true ↔ (c ∈ hexDigits ∨ c ∈ lit "ABCDEF") := by
  rw [show isXDigit c = _ from isXDigit_fin c.toFin, decide_eq_true_eq]

set_option maxRecDepth 100000 in
theorem hexVal_fin : ∀ n : Fin 256, isXDigit (BitVec.ofFin n) = true →
    hexVal (BitVec.ofFin n) < 16 ∧
      hexDigits[hexVal (BitVec.ofFin n)]?.getD 0 = lowerCase (BitVec.ofFin n) := by decide +kernel

theorem hexVal_spec {c : Byte} (h : isXDigit c = true) :
    hexVal c < 16 ∧ hexDigits[hexVal c]?.getD 0 = lowerCase c := hexVal_fin c.toFin h

set_option maxRecDepth 100000 in
theorem hexVal_digit_fin : ∀ n : Fin 16, isXDigit (hexDigits[n]?.getD 0) = true ∧
    hexVal (hexDigits[n]?.getD 0) = n := by decide +kernel

theorem or_nibbles {h l : Nat} (hl : l < 16) : (h <<< 4) ||| l = h * 16 + l := by
  rw [← Nat.shiftLeft_add_eq_or_of_lt (i := 4) (by omega), Nat.shiftLeft_eq]

theorem hexPair_decode (b : Byte) : ∃ h l, hexPair b = [h, l] ∧ isXDigit h = true ∧
    isXDigit l = true ∧ BitVec.ofNat 8 ((hexVal h <<< 4) ||| hexVal l) = b := by
  have hb := b.isLt
  have h1 := hexVal_digit_fin ⟨b.toNat / 16, by omega⟩
  have h2 := hexVal_digit_fin ⟨b.toNat % 16, by omega⟩
  refine ⟨_, _, rfl, h1.1, h2.1, ?_⟩
  rw [show hexVal (hexDigits[b.toNat / 16]?.getD 0) = b.toNat / 16 from h1.2,
    show hexVal (hexDigits[b.toNat % 16]?.getD 0) = b.toNat % 16 from h2.2,
    or_nibbles (by omega)]
  apply BitVec.eq_of_toNat_eq
  rw [BitVec.toNat_ofNat]
  omega

theorem hexDecLoop_pairs (cap : Nat) (s : Str) : ∀ out : Str, out.length + s.length ≤ cap →
    hexDecLoop cap (s.flatMap hexPair) out = .ok (out ++ s) := by
  induction s with
  | nil =>
    intro out _
    rw [List.flatMap_nil, hexDecLoop]
    · simp
    · intro a b r h; simp at h
  | cons b s ih =>
    intro out h
    simp only [List.length_cons] at h
    obtain ⟨hi, lo, hp, h1, h2, h3⟩ := hexPair_decode b
    rw [List.flatMap_cons, hp, List.cons_append, List.cons_append, List.nil_append, hexDecLoop, h1,
      h2, h3, put]
    simp only [Bool.not_true, Bool.or_self, Bool.false_eq_true, if_false]
    rw [if_pos (by simp; omega), Outcome.bind_ok, ih _ (by simp; omega)]
    simp

theorem length_hexPairs (s : Str) : (s.flatMap hexPair).length = 2 * s.length := by
  induction s with
  | nil => rfl
  | cons b s ih =>
    rw [List.flatMap_cons, List.length_append, ih, List.length_cons, show (hexPair b).length = 2
      from rfl]
    omega

/-- hex_decode inverts hex_encode, for strings whose encoding fits. Missing for the full claim:
strings of 2^30 bytes or more, where the output size overflows (`C26_witness`). -/
theorem C26_partial (s : Str) (h : s.length * 2 ≤ int32Max) :
    ∃ e, hexEncode s = .ok e ∧ e = s.flatMap hexPair ∧ hexDecode e = .ok s := by
  refine ⟨_, by rw [hexEncode, if_neg (by omega), hexEncLoop_eq _ _ [] (by simp)], by simp, ?_⟩
  rw [List.nil_append, hexDecode, length_hexPairs, if_neg (by omega)]
  rw [hexDecLoop_pairs _ _ [] (by simp), List.nil_append]

theorem ind2 {P : Str → Prop} (h0 : P []) (h2 : ∀ a b r, r.length % 2 = 0 → P r → P (a :: b :: r)) :
    ∀ s : Str, s.length % 2 = 0 → P s
  | [], _ => h0
  | [_], h => by simp at h
  | a :: b :: r, h => by
    have hr : r.length % 2 = 0 := by simp only [List.length_cons] at h; omega
    exact h2 a b r hr (ind2 h0 h2 r hr)

theorem hexDecLoop_spec (cap : Nat) (t : Str) (ht : t.length % 2 = 0) : ∀ out : Str,
    out.length + t.length / 2 ≤ cap →
    (IsHex t → ∃ s : Str, hexDecLoop cap t out = .ok (out ++ s) ∧
      s.flatMap hexPair = t.map lowerCase) ∧
    (¬ IsHex t → hexDecLoop cap t out = .panic "P0041") := by
  refine ind2 (P := fun t => ∀ out : Str, out.length + t.length / 2 ≤ cap →
    (IsHex t → ∃ s : Str, hexDecLoop cap t out = .ok (out ++ s) ∧
      s.flatMap hexPair = t.map lowerCase) ∧
    (¬ IsHex t → hexDecLoop cap t out = .panic "P0041")) ?_ ?_ t ht
  · intro out _
    refine ⟨fun _ => ⟨[], ?_, rfl⟩, fun h => absurd (fun c hc => by simp at hc) h⟩
    rw [hexDecLoop, List.append_nil]
    intro a b r h; simp at h
  · intro a b r hr ih out h
    simp only [List.length_cons] at h
    rw [hexDecLoop]
    by_cases hab : isXDigit a = true ∧ isXDigit b = true
    · obtain ⟨ha, hb⟩ := hab
      rw [ha, hb]
      simp only [Bool.not_true, Bool.or_self, Bool.false_eq_true, if_false]
      rw [put, if_pos (by simp; omega), Outcome.bind_ok]
      obtain ⟨ih1, ih2⟩ := ih (out ++ [BitVec.ofNat 8 ((hexVal a <<< 4) ||| hexVal b)])
        (by simp; omega)
      have hiff : IsHex (a :: b :: r) ↔ IsHex r := by
        constructor
        · intro h c hc; exact h c (by simp [hc])
        · intro h c hc
          simp only [List.mem_cons] at hc
          rcases hc with rfl | rfl | hc
          · exact (isXDigit_iff _).1 ha
          · exact (isXDigit_iff _).1 hb
          · exact h c hc
      rw [hiff]
      refine ⟨fun hh => ?_, ih2⟩
      obtain ⟨s, h1, h2⟩ := ih1 hh
      refine ⟨BitVec.ofNat 8 ((hexVal a <<< 4) ||| hexVal b) :: s, by rw [h1]; simp, ?_⟩
      obtain ⟨a1, a2⟩ := hexVal_spec ha
      obtain ⟨b1, b2⟩ := hexVal_spec hb
      rw [List.flatMap_cons, h2, or_nibbles b1, hexPair, BitVec.toNat_ofNat,
        show (hexVal a * 16 + hexVal b) % 2 ^ 8 / 16 = hexVal a by omega,
        show (hexVal a * 16 + hexVal b) % 2 ^ 8 % 16 = hexVal b by omega, a2, b2]
      rfl
    · have hc : (!isXDigit a || !isXDigit b) = true := by
        cases ha : isXDigit a <;> cases hb : isXDigit b <;> simp [ha, hb] at hab ⊢
      rw [if_pos hc]
      refine ⟨fun hh => absurd ⟨(isXDigit_iff a).2 (hh a (by simp)), (isXDigit_iff b).2 (hh b (by simp))⟩ hab,
        fun _ => rfl⟩

/-- hex_decode succeeds exactly on hex text of even length, panicking otherwise, and hex_encode
gives the text back in lower case. -/
theorem C26_decode_partial (t : Str) (hl : t.length ≤ int32Max) :
    (t.length % 2 ≠ 0 → hexDecode t = .panic "P0040") ∧
    (t.length % 2 = 0 → ¬ IsHex t → hexDecode t = .panic "P0041") ∧
    (t.length % 2 = 0 → IsHex t → ∃ s, hexDecode t = .ok s ∧
      hexEncode s = .ok (t.map lowerCase)) := by
  refine ⟨fun h => by rw [hexDecode, if_pos h], fun h hx => ?_, fun h hx => ?_⟩
  · rw [hexDecode, if_neg (by omega)]
    exact (hexDecLoop_spec _ t h [] (by simp)).2 hx
  · obtain ⟨s, h1, h2⟩ := (hexDecLoop_spec (t.length / 2) t h [] (by simp)).1 hx
    refine ⟨s, by rw [hexDecode, if_neg (by omega), h1, List.nil_append], ?_⟩
    have hlen := congrArg List.length h2
    rw [length_hexPairs, List.length_map] at hlen
    rw [hexEncode, if_neg (by omega), hexEncLoop_eq _ _ [] (by simp), List.nil_append, h2]

example : hexEncode [0, 255, 171] = .ok (lit "00ffab") ∧ hexDecode (lit "00FfaB") = .ok [0, 255, 171]
    ∧ hexDecode (lit "0g") = .panic "P0041" := by decide +kernel

theorem C26_witness (s : Str) (h : s.length = 2 ^ 30) : hexEncode s = .ub := by
  rw [hexEncode, if_pos]
  rw [h]
  decide

theorem C26_fails : ¬ C26_statement := by
  intro h
  obtain ⟨s, hs⟩ : ∃ s : Str, s.length = 2 ^ 30 :=
    ⟨List.replicate (2 ^ 30) 0, List.length_replicate⟩
  obtain ⟨e, he, _⟩ := h s (by rw [hs]; decide)
  rw [C26_witness s hs] at he
  simp at he

/-! ### percent encoding -/

/-- RFC 3986 section 2.3. -/
def rfcUnreserved : Str :=
  lit "ABCDEFGHIJKLMNOPQRSTUVWXYZabcdefghijklmnopqrstuvwxyz0123456789-._~"

/-- The encoding of one byte, RFC 3986 section 2.1. -/
def urlByte (b : Byte) : Str :=
  if b ∈ rfcUnreserved then [b]
  else [37, (lit "0123456789ABCDEF")[b.toNat / 16]?.getD 0,
    (lit "0123456789ABCDEF")[b.toNat % 16]?.getD 0]

set_option maxRecDepth 100000 in
theorem urlByte_fin : ∀ n : Fin 256, urlByte (BitVec.ofFin n) =
    if unreserved (BitVec.ofFin n) then [BitVec.ofFin n]
    else [ch '%', upperHex (n.val / 16), upperHex (n.val % 16)] := by decide +kernel

theorem urlByte_eq (b : Byte) : urlByte b = if unreserved b then [b]
    else [ch '%', upperHex (b.toNat / 16), upperHex (b.toNat % 16)] := urlByte_fin b.toFin

theorem length_urlByte (b : Byte) : (urlByte b).length ≤ 3 := by
  rw [urlByte]; split <;> simp

theorem length_urlBytes (s : Str) : (s.flatMap urlByte).length ≤ s.length * 3 := by
  induction s with
  | nil => simp
  | cons b s ih =>
    have := length_urlByte b
    rw [List.flatMap_cons, List.length_append, List.length_cons]
    omega

theorem urlEncLoop_eq (cap : Nat) (s : Str) : ∀ out : Str, out.length + s.length * 3 ≤ cap →
    urlEncLoop cap s out = if int32Max < (out ++ s.flatMap urlByte).length ∧ s ≠ [] then .ub
      else .ok (out ++ s.flatMap urlByte) := by
  induction s with
  | nil => intro out _; simp [urlEncLoop]
  | cons b s ih =>
    intro out h
    simp only [List.length_cons] at h
    have hb := length_urlByte b
    rw [urlEncLoop, ← urlByte_eq, put, if_pos (by omega), Outcome.bind_ok, List.flatMap_cons]
    by_cases h1 : int32Max < (out ++ urlByte b).length
    · rw [if_pos h1, if_pos]
      refine ⟨?_, by simp⟩
      simp only [List.length_append] at h1 ⊢
      omega
    · rw [if_neg h1, ih _ (by rw [List.length_append]; omega), List.append_assoc]
      by_cases hs : s = []
      · subst hs
        simp only [List.flatMap_nil, List.append_nil, ne_eq, not_true, and_false, if_false,
          reduceCtorEq, not_false_eq_true, and_true]
        rw [if_neg h1]
      · simp [hs]

/-- C27 as claimed. -/
def C27_statement : Prop :=
  ∀ s : Str, s.length ≤ int32Max →
    ∃ e, urlEncode s = .ok e ∧ e = s.flatMap urlByte ∧ urlDecode e = .ok s

set_option maxRecDepth 100000 in
theorem urlByte_decode_fin : ∀ n : Fin 256,
    (unreserved (BitVec.ofFin n) = true → BitVec.ofFin n ≠ ch '%' ∧
      plain (BitVec.ofFin n) = BitVec.ofFin n) ∧
    isXDigit (upperHex (n.val / 16)) = true ∧ isXDigit (upperHex (n.val % 16)) = true ∧
    BitVec.ofNat 8 ((hexVal (upperHex (n.val / 16)) <<< 4) ||| hexVal (upperHex (n.val % 16))) =
      BitVec.ofFin n := by decide +kernel

theorem urlDecLoop_plain (cap : Nat) (a : Byte) (r out : Str) (ha : a ≠ ch '%') :
    urlDecLoop cap (a :: r) out = put cap out [plain a] >>= fun o => urlDecLoop cap r o := by
  match r with
  | [] =>
    rw [urlDecLoop]
    cases put cap out [plain a] <;> simp [urlDecLoop]
  | [b] =>
    rw [urlDecLoop]
    cases put cap out [plain a] <;> simp [urlDecLoop]
  | b :: c :: r => rw [urlDecLoop, if_neg ha]

theorem urlDecLoop_bytes (cap : Nat) (s : Str) : ∀ out : Str, out.length + s.length ≤ cap →
    urlDecLoop cap (s.flatMap urlByte) out = .ok (out ++ s) := by
  induction s with
  | nil => intro out _; simp [urlDecLoop]
  | cons b s ih =>
    intro out h
    simp only [List.length_cons] at h
    obtain ⟨h1, h2, h3, h4⟩ := urlByte_decode_fin b.toFin
    rw [List.flatMap_cons, urlByte_eq]
    by_cases hu : unreserved b = true
    · obtain ⟨n1, n2⟩ := h1 hu
      rw [if_pos hu, List.cons_append, List.nil_append, urlDecLoop_plain _ _ _ _ n1,
        show plain b = b from n2, put, if_pos (by simp; omega), Outcome.bind_ok,
        ih _ (by simp; omega)]
      simp
    · rw [if_neg hu, List.cons_append, List.cons_append, List.cons_append, List.nil_append,
        urlDecLoop, if_pos rfl, show isXDigit (upperHex (b.toNat / 16)) = true from h2,
        show isXDigit (upperHex (b.toNat % 16)) = true from h3,
        show BitVec.ofNat 8 ((hexVal (upperHex (b.toNat / 16)) <<< 4) |||
          hexVal (upperHex (b.toNat % 16))) = b from h4]
      simp only [Bool.not_true, Bool.or_self, Bool.false_eq_true, if_false]
      rw [put, if_pos (by simp; omega), Outcome.bind_ok, ih _ (by simp; omega)]
      simp

/-- url_encode writes unreserved characters and upper-case escapes, and url_decode inverts it.
Missing for the full claim: strings whose encoding is longer than the longest string
(`C27_witness`). -/
theorem C27_partial (s : Str) (h : (s.flatMap urlByte).length ≤ int32Max) :
    ∃ e, urlEncode s = .ok e ∧ e = s.flatMap urlByte ∧ urlDecode e = .ok s := by
  refine ⟨s.flatMap urlByte, ?_, rfl, ?_⟩
  · rw [urlEncode, urlEncLoop_eq _ _ [] (by simp), if_neg (by simp only [List.nil_append]; omega),
      List.nil_append]
  · have hl : s.length ≤ (s.flatMap urlByte).length := by
      clear h
      induction s with
      | nil => simp
      | cons b s ih =>
        have : 1 ≤ (urlByte b).length := by rw [urlByte]; split <;> simp
        rw [List.flatMap_cons, List.length_append, List.length_cons]
        omega
    rw [urlDecode, urlDecLoop_bytes _ _ [] (by simpa using hl), List.nil_append]

example : urlEncode (lit "a b+c%") = .ok (lit "a%20b%2Bc%25") ∧
    urlDecode (lit "a%20b%2Bc%25") = .ok (lit "a b+c%") := by decide +kernel

theorem C27_witness (s : Str) (h : s.length = 2 ^ 30) (h0 : ∀ c ∈ s, c = 0) :
    urlEncode s = .ub := by
  have hl : (s.flatMap urlByte).length = s.length * 3 := by
    clear h
    induction s with
    | nil => rfl
    | cons b s ih =>
      have hb : b = 0 := h0 b (by simp)
      subst hb
      rw [List.flatMap_cons, List.length_append, ih fun c hc => h0 c (by simp [hc]),
        List.length_cons, show (urlByte 0).length = 3 by decide]
      omega
  have hne : s ≠ [] := by rintro rfl; simp at h
  rw [urlEncode, urlEncLoop_eq _ _ [] (by simp), if_pos]
  refine ⟨?_, hne⟩
  rw [List.nil_append, hl, h]
  decide

theorem C27_fails : ¬ C27_statement := by
  intro h
  obtain ⟨s, hs, h0⟩ : ∃ s : Str, s.length = 2 ^ 30 ∧ ∀ c ∈ s, c = 0 :=
    ⟨List.replicate (2 ^ 30) 0, List.length_replicate, fun c hc => (List.mem_replicate.1 hc).2⟩
  obtain ⟨e, he, _⟩ := h s (by rw [hs]; decide)
  rw [C27_witness s hs h0] at he
  simp at he

/-! ### C88: malformed escapes -/

/-- Every `%` is followed by two hex digits. -/
inductive GoodEscapes : Str → Prop
  | nil : GoodEscapes []
  | char (c : Byte) (r : Str) : c ≠ 37 → GoodEscapes r → GoodEscapes (c :: r)
  | escape (a b : Byte) (r : Str) : IsHex [a, b] → GoodEscapes r → GoodEscapes (37 :: a :: b :: r)

/-- C88 as claimed: url_decode accepts exactly the texts whose escapes are complete, and panics on
the others. -/
def C88_statement : Prop :=
  ∀ t : Str, (GoodEscapes t → ∃ s, urlDecode t = .ok s) ∧
    (¬ GoodEscapes t → urlDecode t = .panic "P0042")

theorem urlDecLoop_good (cap : Nat) {t : Str} (h : GoodEscapes t) : ∀ out : Str,
    out.length + t.length ≤ cap → ∃ s, urlDecLoop cap t out = .ok s := by
  induction h with
  | nil => intro out _; exact ⟨out, by rw [urlDecLoop]⟩
  | char c r hc _ ih =>
    intro out hl
    simp only [List.length_cons] at hl
    rw [urlDecLoop_plain _ _ _ _ hc, put, if_pos (by simp; omega), Outcome.bind_ok]
    exact ih _ (by simp; omega)
  | escape a b r hx _ ih =>
    intro out hl
    simp only [List.length_cons] at hl
    rw [urlDecLoop, if_pos (by decide), (isXDigit_iff a).2 (hx a (by simp)),
      (isXDigit_iff b).2 (hx b (by simp))]
    simp only [Bool.not_true, Bool.or_self, Bool.false_eq_true, if_false]
    rw [put, if_pos (by simp; omega), Outcome.bind_ok]
    exact ih _ (by simp; omega)

/-- Complete escapes are accepted; and a text that is accepted has complete escapes, except that
its last two characters may hold a cut-off escape. Missing for the full claim: a cut-off escape at
the end is copied literally (`C88_witness`). -/
theorem C88_partial (t : Str) : (GoodEscapes t → ∃ s, urlDecode t = .ok s) ∧
    (∀ s, urlDecode t = .ok s → ∃ u v, t = u ++ v ∧ GoodEscapes u ∧ v.length ≤ 2) ∧
    urlDecode t ≠ .ub := by
  refine ⟨fun h => urlDecLoop_good _ h [] (by simp), ?_⟩
  have key : ∀ (cap n : Nat) (t out : Str), t.length ≤ n → out.length + t.length ≤ cap →
      (∀ s, urlDecLoop cap t out = .ok s → ∃ u v, t = u ++ v ∧ GoodEscapes u ∧ v.length ≤ 2) ∧
      urlDecLoop cap t out ≠ .ub := by
    intro cap n
    induction n with
    | zero =>
      intro t out h _
      have : t = [] := List.length_eq_zero_iff.1 (by omega)
      subst this
      exact ⟨fun s _ => ⟨[], [], rfl, .nil, by simp⟩, by rw [urlDecLoop]; simp⟩
    | succ n ih =>
      intro t out hn hl
      match t with
      | [] => exact ⟨fun s _ => ⟨[], [], rfl, .nil, by simp⟩, by rw [urlDecLoop]; simp⟩
      | [a] =>
        refine ⟨fun s _ => ⟨[], [a], rfl, .nil, by simp⟩, ?_⟩
        rw [urlDecLoop, put, if_pos (by simpa using hl)]
        simp
      | [a, b] =>
        refine ⟨fun s _ => ⟨[], [a, b], rfl, .nil, by simp⟩, ?_⟩
        simp only [List.length_cons, List.length_nil] at hl
        rw [urlDecLoop, put, if_pos (by simp; omega), Outcome.bind_ok, put, if_pos (by simp; omega)]
        simp
      | a :: b :: c :: r =>
        simp only [List.length_cons] at hl hn
        by_cases ha : a = ch '%'
        · rw [urlDecLoop, if_pos ha]
          by_cases hx : isXDigit b = true ∧ isXDigit c = true
          · obtain ⟨hb, hc⟩ := hx
            rw [hb, hc]
            simp only [Bool.not_true, Bool.or_self, Bool.false_eq_true, if_false]
            rw [put, if_pos (by simp; omega), Outcome.bind_ok]
            obtain ⟨i1, i2⟩ := ih r (out ++ [BitVec.ofNat 8 ((hexVal b <<< 4) ||| hexVal c)])
              (by omega) (by simp; omega)
            refine ⟨fun s hs => ?_, i2⟩
            obtain ⟨u, v, e, g, hv⟩ := i1 s hs
            refine ⟨a :: b :: c :: u, v, by rw [e]; rfl, ?_, hv⟩
            rw [ha]
            refine .escape b c u (fun x hx => ?_) g
            simp only [List.mem_cons, List.not_mem_nil, or_false] at hx
            rcases hx with rfl | rfl
            · exact (isXDigit_iff _).1 hb
            · exact (isXDigit_iff _).1 hc
          · have hc : (!isXDigit b || !isXDigit c) = true := by
              cases h1 : isXDigit b <;> cases h2 : isXDigit c <;> simp [h1, h2] at hx ⊢
            rw [if_pos hc]
            simp
        · rw [urlDecLoop_plain _ _ _ _ ha, put, if_pos (by simp; omega), Outcome.bind_ok]
          obtain ⟨i1, i2⟩ := ih (b :: c :: r) (out ++ [plain a]) (by simp; omega) (by simp; omega)
          refine ⟨fun s hs => ?_, i2⟩
          obtain ⟨u, v, e, g, hv⟩ := i1 s hs
          exact ⟨a :: u, v, by rw [e]; rfl, .char a u ha g, hv⟩
  exact key t.length t.length t [] (Nat.le_refl _) (by simp)

example : GoodEscapes (lit "%41b") :=
  .escape _ _ _ (by intro c hc; revert hc; revert c; decide) (.char _ _ (by decide) .nil)

/-- The text stands for the bytes: `+` for a space, an escape for its value, any other character for
itself. -/
inductive UrlText : Str → Str → Prop
  | nil : UrlText [] []
  | plus (t s : Str) : UrlText t s → UrlText (43 :: t) (32 :: s)
  | char (c : Byte) (t s : Str) : c ≠ 37 → c ≠ 43 → UrlText t s → UrlText (c :: t) (c :: s)
  | escape (a b x : Byte) (t s : Str) : hexPair x = [lowerCase a, lowerCase b] → IsHex [a, b] →
    UrlText t s → UrlText (37 :: a :: b :: t) (x :: s)

/-- url_decode yields the bytes the text stands for. -/
theorem C88_value_partial (t s : Str) (h : UrlText t s) : urlDecode t = .ok s := by
  have key : ∀ (cap : Nat) (out : Str), out.length + t.length ≤ cap →
      urlDecLoop cap t out = .ok (out ++ s) := by
    intro cap
    induction h with
    | nil => intro out _; rw [urlDecLoop, List.append_nil]
    | plus t s _ ih =>
      intro out hl
      simp only [List.length_cons] at hl
      rw [urlDecLoop_plain _ _ _ _ (by decide), show plain 43 = 32 by decide, put,
        if_pos (by simp; omega), Outcome.bind_ok, ih _ (by simp; omega)]
      simp
    | char c t s h1 h2 _ ih =>
      intro out hl
      simp only [List.length_cons] at hl
      have hp : plain c = c := by rw [plain, if_neg]; exact h2
      rw [urlDecLoop_plain _ _ _ _ h1, hp, put, if_pos (by simp; omega), Outcome.bind_ok,
        ih _ (by simp; omega)]
      simp
    | escape a b x t s hx hh _ ih =>
      intro out hl
      simp only [List.length_cons] at hl
      have ha := (isXDigit_iff a).2 (hh a (by simp))
      have hb := (isXDigit_iff b).2 (hh b (by simp))
      obtain ⟨a1, a2⟩ := hexVal_spec ha
      obtain ⟨b1, b2⟩ := hexVal_spec hb
      have hv : BitVec.ofNat 8 ((hexVal a <<< 4) ||| hexVal b) = x := by
        have hxl := x.isLt
        rw [hexPair, ← a2, ← b2, List.cons.injEq, List.cons.injEq] at hx
        have e1 := (hexVal_digit_fin ⟨x.toNat / 16, by omega⟩).2
        have e2 := (hexVal_digit_fin ⟨x.toNat % 16, by omega⟩).2
        have e3 := (hexVal_digit_fin ⟨hexVal a, a1⟩).2
        have e4 := (hexVal_digit_fin ⟨hexVal b, b1⟩).2
        simp only [Fin.getElem?_fin] at e1 e2 e3 e4
        rw [hx.1, e3] at e1
        rw [hx.2.1, e4] at e2
        rw [or_nibbles b1]
        apply BitVec.eq_of_toNat_eq
        rw [BitVec.toNat_ofNat]
        omega
      rw [urlDecLoop, if_pos (by decide), ha, hb, hv]
      simp only [Bool.not_true, Bool.or_self, Bool.false_eq_true, if_false]
      rw [put, if_pos (by simp; omega), Outcome.bind_ok, ih _ (by simp; omega)]
      simp
  rw [urlDecode, key _ _ (by simp), List.nil_append]

example : UrlText (lit "+%4A") [32, 74] :=
  .plus _ _ (.escape _ _ _ _ _ (by decide) (by intro c hc; revert hc; revert c; decide) .nil)

/-- `%4` and `100%` are accepted. -/
theorem C88_witness : urlDecode (lit "%4") = .ok (lit "%4") ∧
    urlDecode (lit "100%") = .ok (lit "100%") := by decide +kernel

theorem C88_fails : ¬ C88_statement := by
  intro h
  have hb : ¬ GoodEscapes (lit "%4") := by
    intro g
    have e : lit "%4" = [37, 52] := by decide
    rw [e] at g
    cases g with
    | char _ _ hc _ => exact hc rfl
  have := (h (lit "%4")).2 hb
  rw [C88_witness.1] at this
  simp at this

/-! ### C89: bytes.from_hex -/

/-- C89 as claimed: from_hex is the inverse of to_hex and rejects anything else. -/
def C89_statement : Prop :=
  ∀ t : Str, ((t.length % 2 = 0 ∧ IsHex t) →
      ∃ s : Str, fromHex t = .ok s ∧ s.flatMap hexPair = t.map lowerCase) ∧
    (¬ (t.length % 2 = 0 ∧ IsHex t) → (fromHex t).isPanic = true)

set_option maxRecDepth 100000 in
theorem xdigit_scan_fin : ∀ n : Fin 256, isXDigit (BitVec.ofFin n) = true →
    BitVec.ofFin n ≠ (0 : Byte) ∧ isSpace (BitVec.ofFin n) = false ∧ BitVec.ofFin n ≠ ch '+' ∧
      BitVec.ofFin n ≠ ch '-' := by decide +kernel

theorem scanHex2_digits {a b : Byte} (ha : isXDigit a = true) (hb : isXDigit b = true) (r : Str) :
    scanHex2 (a :: b :: r) = some (hexVal a * 16 + hexVal b) := by
  obtain ⟨h1, h2, h3, h4⟩ := xdigit_scan_fin a.toFin ha
  have h1' : a ≠ 0 := h1
  have h2' : isSpace a = false := h2
  have h3' : a ≠ ch '+' := h3
  have h4' : a ≠ ch '-' := h4
  rw [scanHex2]
  simp only [h1', h2', h3', h4', ha, hb, if_false, Bool.false_eq_true, or_self, if_true]

theorem fromHexLoop_spec (t : Str) (ht : t.length % 2 = 0) (hx : IsHex t) : ∀ out : Str,
    ∃ s : Str, fromHexLoop (t.length / 2) t out = .ok (out ++ s) ∧
      s.flatMap hexPair = t.map lowerCase := by
  revert hx
  refine ind2 (P := fun t => IsHex t → ∀ out : Str,
    ∃ s : Str, fromHexLoop (t.length / 2) t out = .ok (out ++ s) ∧
      s.flatMap hexPair = t.map lowerCase) ?_ ?_ t ht
  · intro _ out
    exact ⟨[], by simp [fromHexLoop], rfl⟩
  · intro a b r hr ih hx out
    have ha := (isXDigit_iff a).2 (hx a (by simp))
    have hb := (isXDigit_iff b).2 (hx b (by simp))
    obtain ⟨s, h1, h2⟩ := ih (fun c hc => hx c (by simp [hc]))
      (out ++ [BitVec.ofNat 8 (hexVal a * 16 + hexVal b)])
    have hl : (a :: b :: r).length / 2 = r.length / 2 + 1 := by
      simp only [List.length_cons]; omega
    refine ⟨BitVec.ofNat 8 (hexVal a * 16 + hexVal b) :: s, ?_, ?_⟩
    · rw [hl, fromHexLoop, scanHex2_digits ha hb]
      simp only [List.drop_succ_cons, List.drop_zero]
      rw [h1]
      simp
    · obtain ⟨a1, a2⟩ := hexVal_spec ha
      obtain ⟨b1, b2⟩ := hexVal_spec hb
      rw [List.flatMap_cons, h2, hexPair, BitVec.toNat_ofNat,
        show (hexVal a * 16 + hexVal b) % 2 ^ 8 / 16 = hexVal a by omega,
        show (hexVal a * 16 + hexVal b) % 2 ^ 8 % 16 = hexVal b by omega, a2, b2]
      rfl

/-- On hex text of even length from_hex inverts to_hex. Missing for the full claim: rejecting
anything else (`C89_witness`). -/
theorem C89_partial (t : Str) (ht : t.length % 2 = 0) (hx : IsHex t) :
    ∃ s : Str, fromHex t = .ok s ∧ s.flatMap hexPair = t.map lowerCase := by
  obtain ⟨s, h1, h2⟩ := fromHexLoop_spec t ht hx []
  exact ⟨s, by rw [fromHex, h1, List.nil_append], h2⟩

example : fromHex (lit "00FfaB") = .ok [0, 255, 171] := by decide +kernel

/-- A lone digit is dropped, `-1` is 255, a digit may be read twice, and `zz` reads an
uninitialised variable. -/
theorem C89_witness : fromHex (lit "a") = .ok [] ∧ fromHex (lit "-1") = .ok [255] ∧
    fromHex (lit " 412") = .ok [0x41, 0x12] ∧ fromHex (lit "zz") = .ub := by decide +kernel

theorem C89_fails : ¬ C89_statement := by
  intro h
  have := (h (lit "a")).2 (fun hh => absurd hh.1 (by decide))
  rw [C89_witness.1] at this
  simp [Outcome.isPanic] at this

end Verif.Props

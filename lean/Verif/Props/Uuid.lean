import Verif.Model.Uuid
import Verif.Props.Encoding

/-! C30, C92: the uuid module. -/
namespace Verif.Props
open Verif Verif.Str Verif.Uuid

/-- The canonical form of RFC 9562 section 4: hex digits in groups of 8, 4, 4, 4 and 12, separated
by hyphens. -/
def UuidForm (s : Str) : Prop :=
  s.length = 36 ∧ ∀ (i : Nat) (h : i < s.length),
    if i ∈ [8, 13, 18, 23] then s[i] = 45 else s[i] ∈ hexDigits ∨ s[i] ∈ lit "ABCDEF"

set_option maxRecDepth 100000 in
theorem hexClass_fin : ∀ n : Fin 256,
    (between 48 (BitVec.ofFin n) 57 || between 97 (BitVec.ofFin n) 102 ||
      between 65 (BitVec.ofFin n) 70) =
    decide (BitVec.ofFin n ∈ hexDigits ∨ BitVec.ofFin n ∈ lit "ABCDEF") := by decide +kernel

theorem validAt_iff (i : Nat) (c : Byte) : validAt i c = true ↔
    if i ∈ [8, 13, 18, 23] then c = 45 else c ∈ hexDigits ∨ c ∈ lit "ABCDEF" := by
  rw [validAt]
  by_cases h : i = 8 ∨ i = 13 ∨ i = 18 ∨ i = 23
  · rw [if_pos h, if_pos (by simpa using h), beq_iff_eq]
    exact Iff.rfl
  · rw [if_neg h, if_neg (by simpa using h),
      show (between 48 c 57 || between 97 c 102 || between 65 c 70) = _ from hexClass_fin c.toFin,
      decide_eq_true_eq]

theorem validLoop_iff (s : Str) : ∀ i, validLoop i s = true ↔
    ∀ (k : Nat) (h : k < s.length), validAt (i + k) s[k] = true := by
  induction s with
  | nil => intro i; simp [validLoop]
  | cons c r ih =>
    intro i
    rw [validLoop, Bool.and_eq_true, ih]
    constructor
    · intro ⟨h0, h⟩ k hk
      cases k with
      | zero => exact h0
      | succ k =>
        have := h k (by simpa using hk)
        rwa [show i + 1 + k = i + (k + 1) by omega] at this
    · intro h
      refine ⟨h 0 (by simp), fun k hk => ?_⟩
      have := h (k + 1) (by simpa using hk)
      rwa [show i + (k + 1) = i + 1 + k by omega] at this

/-- is_valid decides the canonical form. -/
theorem C30_valid (s : Str) : Uuid.isValid s = true ↔ UuidForm s := by
  rw [Uuid.isValid, UuidForm]
  by_cases h : s.length = 36
  · rw [if_neg (by simpa using h), validLoop_iff]
    constructor
    · exact fun hv => ⟨h, fun i hi => (validAt_iff i _).mp (by simpa using hv i hi)⟩
    · exact fun hv i hi => by simpa using (validAt_iff i _).mpr (hv.2 i hi)
  · rw [if_pos (by simpa using h)]
    constructor
    · intro hf; exact absurd hf (by decide)
    · intro hf; exact absurd hf.1 h

/-! ### Generated identifiers -/

/-- The hyphenated text of sixteen bytes, spelled out. -/
def uuidText (b : List Byte) : Str :=
  (b.take 4).flatMap hexPair ++ [45] ++ ((b.drop 4).take 2).flatMap hexPair ++ [45] ++
    ((b.drop 6).take 2).flatMap hexPair ++ [45] ++ ((b.drop 8).take 2).flatMap hexPair ++ [45] ++
    (b.drop 10).flatMap hexPair

theorem hexPair_eq (b : Byte) : hexPair b = hex2 b := hexPair_fin b.toFin

theorem format_eq (b : List Byte) (h : b.length = 16) : format b = uuidText b := by
  have e : hex2 = hexPair := by funext x; exact (hexPair_eq x).symm
  rw [uuidText, format, e, List.take_of_length_le (l := b.drop 10) (by rw [List.length_drop]; omega)]
  simp only [List.append_assoc, List.singleton_append, List.cons_append]
  rfl

set_option maxRecDepth 100000 in
theorem lowerHex_digit : ∀ n : Fin 16, lowerHex n.val ∈ hexDigits := by decide +kernel

theorem hex2_digits (b : Byte) : ∀ c ∈ hex2 b, c ∈ hexDigits := by
  have hb := b.isLt
  intro c hc
  simp only [hex2, List.mem_cons, List.not_mem_nil, or_false] at hc
  rcases hc with rfl | rfl
  · exact lowerHex_digit ⟨b.toNat / 16, by omega⟩
  · exact lowerHex_digit ⟨b.toNat % 16, by omega⟩

theorem list16 {b : List Byte} (h : b.length = 16) : ∃ b0 b1 b2 b3 b4 b5 b6 b7 b8 b9 b10 b11 b12
    b13 b14 b15, b = [b0, b1, b2, b3, b4, b5, b6, b7, b8, b9, b10, b11, b12, b13, b14, b15] := by
  match b, h with
  | [b0, b1, b2, b3, b4, b5, b6, b7, b8, b9, b10, b11, b12, b13, b14, b15], _ =>
    exact ⟨b0, b1, b2, b3, b4, b5, b6, b7, b8, b9, b10, b11, b12, b13, b14, b15, rfl⟩

/-- Sixteen bytes in the canonical form are valid. -/
theorem format_valid (b : List Byte) (h : b.length = 16) : UuidForm (format b) := by
  obtain ⟨b0, b1, b2, b3, b4, b5, b6, b7, b8, b9, b10, b11, b12, b13, b14, b15, rfl⟩ := list16 h
  rw [← C30_valid, Uuid.isValid]
  have hx : ∀ (i : Nat) (n : Nat), n < 16 → ¬ (i = 8 ∨ i = 13 ∨ i = 18 ∨ i = 23) →
      validAt i (lowerHex n) = true := by
    intro i n hn hi
    rw [validAt_iff, if_neg (by simpa using hi)]
    exact Or.inl (lowerHex_digit ⟨n, hn⟩)
  have hd : ∀ b : Byte, b.toNat / 16 < 16 := fun b => by have := b.isLt; omega
  have hm : ∀ b : Byte, b.toNat % 16 < 16 := fun b => by omega
  have hy : ∀ i, (i = 8 ∨ i = 13 ∨ i = 18 ∨ i = 23) → validAt i hyphen = true := by
    intro i hi
    rw [validAt, if_pos hi]; rfl
  simp [format, hex2, validLoop, hx, hd, hm, hy]

set_option maxRecDepth 100000 in
theorem stamp_fin : ∀ n : Fin 256,
    ((BitVec.ofFin n : Byte) &&& 0x0F ||| 0x40).toNat = 0x40 + n.val % 16 ∧
    ((BitVec.ofFin n : Byte) &&& 0x0F ||| 0x70).toNat = 0x70 + n.val % 16 ∧
    ((BitVec.ofFin n : Byte) &&& 0x3F ||| 0x80).toNat = 0x80 + n.val % 64 := by decide +kernel

/-- The byte that ends up at each place of a version `v` identifier made from the bytes `b`: the
version in the upper half of byte 6, the variant in the upper two bits of byte 8. -/
def stamped (v k : Nat) (b : Byte) : Nat :=
  if k = 6 then v * 16 + b.toNat % 16 else if k = 8 then 128 + b.toNat % 64 else b.toNat

theorem stamp_bytes (v : Nat) (hv : v = 4 ∨ v = 7) (b : List Byte) (h : b.length = 16) :
    (stamp (BitVec.ofNat 8 (v * 16)) b).length = 16 ∧
    ∀ (k : Nat) (h1 : k < (stamp (BitVec.ofNat 8 (v * 16)) b).length) (h2 : k < b.length),
      ((stamp (BitVec.ofNat 8 (v * 16)) b)[k]).toNat = stamped v k b[k] := by
  obtain ⟨b0, b1, b2, b3, b4, b5, b6, b7, b8, b9, b10, b11, b12, b13, b14, b15, rfl⟩ := list16 h
  have h6 := stamp_fin b6.toFin
  have h8 := stamp_fin b8.toFin
  refine ⟨rfl, fun k h1 h2 => ?_⟩
  have hk : k < 16 := by simpa using h2
  rcases hv with rfl | rfl
  · match k, hk with
    | 0, _ | 1, _ | 2, _ | 3, _ | 4, _ | 5, _ | 7, _ | 9, _ | 10, _ | 11, _ | 12, _ | 13, _
    | 14, _ | 15, _ => rfl
    | 6, _ => exact h6.1
    | 8, _ => exact h8.2.2
    | n + 16, hk => exact absurd hk (by omega)
  · match k, hk with
    | 0, _ | 1, _ | 2, _ | 3, _ | 4, _ | 5, _ | 7, _ | 9, _ | 10, _ | 11, _ | 12, _ | 13, _
    | 14, _ | 15, _ => rfl
    | 6, _ => exact h6.2.1
    | 8, _ => exact h8.2.2
    | n + 16, hk => exact absurd hk (by omega)

/-- uuid.generate: the canonical form of the random bytes with version 4 and the RFC variant; all
other 122 bits are the random ones. -/
theorem C30_generate (b : List Byte) (h : b.length = 16) :
    UuidForm (generate (some b)) ∧
    ∃ u : List Byte, u.length = 16 ∧ generate (some b) = uuidText u ∧
      ∀ (k : Nat) (h1 : k < u.length) (h2 : k < b.length), u[k].toNat = stamped 4 k b[k] := by
  obtain ⟨hl, hs⟩ := stamp_bytes 4 (Or.inl rfl) b h
  exact ⟨format_valid _ hl, _, hl, format_eq _ hl, hs⟩

/-- The version digit of a v4 identifier is 4 and the variant digit is 8, 9, a or b. -/
theorem C30_version (b : List Byte) (h : b.length = 16) :
    (generate (some b))[14]? = some 52 ∧
    ∃ c ∈ lit "89ab", (generate (some b))[19]? = some c := by
  obtain ⟨b0, b1, b2, b3, b4, b5, b6, b7, b8, b9, b10, b11, b12, b13, b14, b15, rfl⟩ := list16 h
  have h6 := stamp_fin b6.toFin
  have h8 := stamp_fin b8.toFin
  constructor
  · show some (lowerHex ((b6 &&& 0x0F ||| 0x40).toNat / 16)) = _
    rw [show (b6 &&& 0x0F ||| 0x40 : Byte).toNat = _ from h6.1,
      show (0x40 + b6.toFin.val % 16) / 16 = 4 by omega]
    rfl
  · refine ⟨lowerHex ((b8 &&& 0x3F ||| 0x80).toNat / 16), ?_, rfl⟩
    rw [show (b8 &&& 0x3F ||| 0x80 : Byte).toNat = _ from h8.2.2]
    have : ∀ n : Fin 4, lowerHex (8 + n.val) ∈ lit "89ab" := by decide +kernel
    have e := this ⟨b8.toFin.val % 64 / 16, by omega⟩
    have e2 : (0x80 + b8.toFin.val % 64) / 16 = 8 + b8.toFin.val % 64 / 16 := by omega
    rw [e2]
    exact e

/-- uuid.generate_time_ordered: version 7; the first six bytes are the clock, big-endian. -/
theorem C30_generateV7 (b : List Byte) (h : b.length = 16) (ms : Nat) :
    UuidForm (generateV7 (some b) ms) ∧
    ∃ u : List Byte, u.length = 16 ∧ generateV7 (some b) ms = uuidText u ∧
      (∀ (k : Nat) (h1 : k < u.length), k < 6 → u[k].toNat = ms / 256 ^ (5 - k) % 256) ∧
      ∀ (k : Nat) (h1 : k < u.length) (h2 : k < b.length), 6 ≤ k →
        u[k].toNat = stamped 7 k b[k] := by
  obtain ⟨b0, b1, b2, b3, b4, b5, b6, b7, b8, b9, b10, b11, b12, b13, b14, b15, rfl⟩ := list16 h
  obtain ⟨hl, hs⟩ := stamp_bytes 7 (Or.inr rfl) (clockBytes ms ++ [b6, b7, b8, b9, b10, b11, b12,
    b13, b14, b15]) rfl
  refine ⟨format_valid _ hl, _, hl, format_eq _ hl, fun k h1 hk => ?_, fun k h1 h2 hk => ?_⟩
  · rw [hs k h1 (by rw [hl] at h1; exact h1)]
    match k, hk with
    | 0, _ | 1, _ | 2, _ | 3, _ | 4, _ | 5, _ =>
      simp [stamped, clockBytes, Nat.shiftRight_eq_div_pow]
  · rw [hs k h1 (by rw [hl] at h1; exact h1)]
    have hk' : k < 16 := by simpa using h2
    match k, hk' with
    | 6, _ | 7, _ | 8, _ | 9, _ | 10, _ | 11, _ | 12, _ | 13, _ | 14, _ | 15, _ => rfl
    | 0, _ | 1, _ | 2, _ | 3, _ | 4, _ | 5, _ => omega
    | n + 16, hk => exact absurd hk (by omega)

/-- Comparison of byte strings, first difference first. -/
def LexLt : Str → Str → Prop
  | _, [] => False
  | [], _ :: _ => True
  | x :: a, y :: b => x.toNat < y.toNat ∨ x = y ∧ LexLt a b

set_option maxRecDepth 100000 in
theorem lowerHex_mono : ∀ m n : Fin 16, m.val < n.val →
    (lowerHex m.val).toNat < (lowerHex n.val).toNat := by decide +kernel

theorem lexLt_hex2 {b c : Byte} (h : b.toNat < c.toNat) (r s : Str) :
    LexLt (hex2 b ++ r) (hex2 c ++ s) := by
  have hb := b.isLt
  have hc := c.isLt
  show _ ∨ _ ∧ (_ ∨ _)
  by_cases hd : b.toNat / 16 = c.toNat / 16
  · exact Or.inr ⟨by rw [hd], Or.inl (lowerHex_mono ⟨b.toNat % 16, by omega⟩
      ⟨c.toNat % 16, by omega⟩ (by show b.toNat % 16 < c.toNat % 16; omega))⟩
  · exact Or.inl (lowerHex_mono ⟨b.toNat / 16, by omega⟩ ⟨c.toNat / 16, by omega⟩
      (by show b.toNat / 16 < c.toNat / 16; omega))

theorem lexLt_append (p : Str) {r s : Str} (h : LexLt r s) : LexLt (p ++ r) (p ++ s) := by
  induction p with
  | nil => exact h
  | cons c p ih => exact Or.inr ⟨rfl, ih⟩

/-- v7 identifiers of a later millisecond sort later, whatever the random bytes; until the clock
passes 2^48 ms (year 10889). -/
theorem C30_order (b c : List Byte) (hb : b.length = 16) (hc : c.length = 16) (t u : Nat)
    (h : t < u) (hu : u < 2 ^ 48) :
    LexLt (generateV7 (some b) t) (generateV7 (some c) u) := by
  obtain ⟨b0, b1, b2, b3, b4, b5, b6, b7, b8, b9, b10, b11, b12, b13, b14, b15, rfl⟩ := list16 hb
  obtain ⟨c0, c1, c2, c3, c4, c5, c6, c7, c8, c9, c10, c11, c12, c13, c14, c15, rfl⟩ := list16 hc
  have key : ∀ (x0 x1 x2 x3 x4 x5 y0 y1 y2 y3 y4 y5 : Byte) (r s : Str),
      ((((x0.toNat * 256 + x1.toNat) * 256 + x2.toNat) * 256 + x3.toNat) * 256 + x4.toNat) * 256 +
        x5.toNat < ((((y0.toNat * 256 + y1.toNat) * 256 + y2.toNat) * 256 + y3.toNat) * 256 +
        y4.toNat) * 256 + y5.toNat →
      LexLt (hex2 x0 ++ (hex2 x1 ++ (hex2 x2 ++ (hex2 x3 ++ hyphen :: (hex2 x4 ++ (hex2 x5 ++ r))))))
        (hex2 y0 ++ (hex2 y1 ++ (hex2 y2 ++ (hex2 y3 ++ hyphen :: (hex2 y4 ++ (hex2 y5 ++ s)))))) := by
    intro x0 x1 x2 x3 x4 x5 y0 y1 y2 y3 y4 y5 r s hlt
    have := x0.isLt; have := x1.isLt; have := x2.isLt; have := x3.isLt; have := x4.isLt
    have := x5.isLt; have := y0.isLt; have := y1.isLt; have := y2.isLt; have := y3.isLt
    have := y4.isLt; have := y5.isLt
    by_cases h0 : x0 = y0
    · subst h0
      refine lexLt_append _ ?_
      by_cases h1 : x1 = y1
      · subst h1
        refine lexLt_append _ ?_
        by_cases h2 : x2 = y2
        · subst h2
          refine lexLt_append _ ?_
          by_cases h3 : x3 = y3
          · subst h3
            refine lexLt_append _ (Or.inr ⟨rfl, ?_⟩)
            by_cases h4 : x4 = y4
            · subst h4
              refine lexLt_append _ (lexLt_hex2 (by omega) _ _)
            · have : x4.toNat ≠ y4.toNat := fun e => h4 (BitVec.eq_of_toNat_eq e)
              exact lexLt_hex2 (by omega) _ _
          · have : x3.toNat ≠ y3.toNat := fun e => h3 (BitVec.eq_of_toNat_eq e)
            exact lexLt_hex2 (by omega) _ _
        · have : x2.toNat ≠ y2.toNat := fun e => h2 (BitVec.eq_of_toNat_eq e)
          exact lexLt_hex2 (by omega) _ _
      · have : x1.toNat ≠ y1.toNat := fun e => h1 (BitVec.eq_of_toNat_eq e)
        exact lexLt_hex2 (by omega) _ _
    · have : x0.toNat ≠ y0.toNat := fun e => h0 (BitVec.eq_of_toNat_eq e)
      exact lexLt_hex2 (by omega) _ _
  have hv : ∀ n, n < 2 ^ 48 → ((((n / 2 ^ 40 % 256 * 256 + n / 2 ^ 32 % 256) * 256 +
      n / 2 ^ 24 % 256) * 256 + n / 2 ^ 16 % 256) * 256 + n / 2 ^ 8 % 256) * 256 + n % 256 = n := by
    intro n hn; omega
  refine key _ _ _ _ _ _ _ _ _ _ _ _ _ _ ?_
  simp only [BitVec.toNat_ofNat, Nat.shiftRight_eq_div_pow]
  have h1 := hv t (by omega)
  have h2 := hv u hu
  norm_num at h1 h2 ⊢
  omega

/-! ### Parsing -/

set_option maxRecDepth 100000 in
theorem parseChar_fin : ∀ n : Fin 256,
    (if between 65 (BitVec.ofFin n) 70 then (BitVec.ofFin n : Byte) - 65 + 97 else BitVec.ofFin n) =
      lowerCase (BitVec.ofFin n) ∧ lowerCase (lowerCase (BitVec.ofFin n)) = lowerCase (BitVec.ofFin n) ∧
    (∀ i : Fin 2, let k := if i = 0 then 8 else 0
      validAt k (BitVec.ofFin n) = true → validAt k (lowerCase (BitVec.ofFin n)) = true) := by
  decide +kernel

theorem lowerCase_valid (i : Nat) (c : Byte) (h : validAt i c = true) :
    validAt i (lowerCase c) = true := by
  have hf := (parseChar_fin c.toFin).2.2
  rw [validAt] at h ⊢
  by_cases hi : i = 8 ∨ i = 13 ∨ i = 18 ∨ i = 23
  · rw [if_pos hi] at h ⊢
    exact hf 0 (show validAt 8 c = true from h)
  · rw [if_neg hi] at h ⊢
    exact hf 1 (show validAt 0 c = true from h)

/-- parse accepts exactly the canonical forms, gives the lower-case form, and is idempotent. -/
theorem C30_parse (s : Str) :
    (UuidForm s → Uuid.parse s = .ok (s.map lowerCase) ∧ UuidForm (s.map lowerCase) ∧
      Uuid.parse (s.map lowerCase) = .ok (s.map lowerCase)) ∧
    (¬ UuidForm s → Uuid.parse s = .panic "user") := by
  have hlow : ∀ s : Str, s.map (fun c => if between 65 c 70 then c - 65 + 97 else c) =
      s.map lowerCase := by
    intro s
    refine List.map_congr_left fun c _ => ?_
    exact (parseChar_fin c.toFin).1
  have hmap : (s.map lowerCase).map lowerCase = s.map lowerCase := by
    rw [List.map_map]
    refine List.map_congr_left fun c _ => ?_
    exact (parseChar_fin c.toFin).2.1
  constructor
  · intro h
    have hv := (C30_valid s).mpr h
    have hl : (s.map lowerCase).length = 36 := by rw [List.length_map]; exact h.1
    have hv2 : Uuid.isValid (s.map lowerCase) = true := by
      rw [Uuid.isValid, if_neg (by simpa using h.1)] at hv
      rw [Uuid.isValid, if_neg (by simpa using hl)]
      rw [validLoop_iff] at hv ⊢
      intro k hk
      rw [List.getElem_map]
      exact lowerCase_valid _ _ (hv k (by simpa using hk))
    refine ⟨by rw [Uuid.parse, if_pos hv, hlow], (C30_valid _).mp hv2, ?_⟩
    rw [Uuid.parse, if_pos hv2, hlow, hmap]
  · intro h
    rw [Uuid.parse, if_neg (fun e => h ((C30_valid s).mp e))]

/-- The nil identifier is valid. -/
theorem C30_nil : UuidForm Uuid.nil := (C30_valid _).mp (by decide +kernel)

example : Uuid.parse (lit "6BA7B810-9dad-11d1-80b4-00c04fd430c8") =
    .ok (lit "6ba7b810-9dad-11d1-80b4-00c04fd430c8") := by decide +kernel

example : generate (some [0, 17, 34, 51, 68, 85, 102, 119, 136, 153, 170, 187, 204, 221, 238, 255]) =
    lit "00112233-4455-4677-8899-aabbccddeeff" := by decide +kernel

/-! ### C92 -/

/-- C92 as claimed: the generators always give an identifier, and the compact form of any value of
type UUID is well defined. -/
def C92_statement : Prop :=
  (∀ rand : Option (List Byte), (∀ b, rand = some b → b.length = 16) →
    UuidForm (generate rand) ∧ ∀ ms, UuidForm (generateV7 rand ms)) ∧
  ∀ s, ∃ t, compact s = .ok t

/-- Without entropy the identifier is the empty string; a value of type UUID whose text is 36
letters overruns the buffer of generate_compact, and one made of hyphens returns bytes that were
never written. -/
theorem C92_witness : generate none = [] ∧ (∀ ms, generateV7 none ms = []) ∧
    compact (lit "aaaaaaaaaaaaaaaaaaaaaaaaaaaaaaaaaaaa") = .ub ∧
    compact (lit "------------------------------------") = .ub := by
  refine ⟨rfl, fun _ => rfl, by decide +kernel, by decide +kernel⟩

theorem C92_fails : ¬ C92_statement := by
  intro h
  have := (h.1 none (by simp)).1.1
  simp [generate] at this

theorem compact_form (b : List Byte) (h : b.length = 16) :
    compact (format b) = .ok (b.flatMap hexPair) := by
  have hl := (format_valid b h).1
  have hne : ∀ n, n < 16 → (lowerHex n != hyphen) = true := by
    have : ∀ n : Fin 16, (lowerHex n.val != hyphen) = true := by decide +kernel
    exact fun n hn => this ⟨n, hn⟩
  have hd : ∀ b : Byte, b.toNat / 16 < 16 := fun b => by have := b.isLt; omega
  have hm : ∀ b : Byte, b.toNat % 16 < 16 := fun b => by omega
  have e : hexPair = hex2 := by funext x; exact hexPair_eq x
  have hc : compactChars (format b) = b.flatMap hexPair := by
    rw [e]
    obtain ⟨b0, b1, b2, b3, b4, b5, b6, b7, b8, b9, b10, b11, b12, b13, b14, b15, rfl⟩ := list16 h
    have hf : (hyphen != hyphen) = false := by decide
    simp [format, hex2, compactChars, List.filter_cons, hne, hd, hm]
  have h32 : (b.flatMap hexPair).length = 32 := by
    obtain ⟨b0, b1, b2, b3, b4, b5, b6, b7, b8, b9, b10, b11, b12, b13, b14, b15, rfl⟩ := list16 h
    rfl
  rw [compact, if_neg (by simpa using hl), hc, if_neg (by omega), if_neg (by omega),
    List.take_of_length_le (by omega)]

/-- With entropy the compact form of a generated identifier is the 32 hex digits of its bytes.
Missing for the full claim: failure of the entropy source, and values that are not canonical. -/
theorem C92_partial (b : List Byte) (h : b.length = 16) (ms : Nat) :
    (∃ u : List Byte, u.length = 16 ∧ generate (some b) = uuidText u ∧
      compact (generate (some b)) = .ok (u.flatMap hexPair)) ∧
    (∃ u : List Byte, u.length = 16 ∧ generateV7 (some b) ms = uuidText u ∧
      compact (generateV7 (some b) ms) = .ok (u.flatMap hexPair)) := by
  have hl := (stamp_bytes 4 (Or.inl rfl) b h).1
  have hl7 := (stamp_bytes 7 (Or.inr rfl) (clockBytes ms ++ b.drop 6)
    (by rw [List.length_append, List.length_drop, h]; rfl)).1
  exact ⟨⟨_, hl, format_eq _ hl, compact_form _ hl⟩, ⟨_, hl7, format_eq _ hl7, compact_form _ hl7⟩⟩

/-- Texts that are not 36 bytes long have the empty compact form. -/
theorem C92_length_partial (s : Str) (h : s.length ≠ 36) : compact s = .ok [] := by
  rw [compact, if_pos h]

/-- Every canonical form has a compact form: the same text without the hyphens. -/
theorem C92_canonical_partial (s : Str) (h : UuidForm s) :
    compact s = .ok (s.filter fun c => c != 45) ∧ (s.filter fun c => c != 45).length = 32 := by
  have hdig : ∀ (i : Nat) (hi : i < s.length), i ∉ [8, 13, 18, 23] → (s[i] != 45) = true := by
    intro i hi hn
    have := h.2 i hi
    rw [if_neg hn] at this
    have hall : ∀ c ∈ hexDigits ++ lit "ABCDEF", (c != 45) = true := by decide +kernel
    exact hall _ (List.mem_append.mpr this)
  have hhy : ∀ (i : Nat) (hi : i < s.length), i ∈ [8, 13, 18, 23] → s[i] = 45 := by
    intro i hi hn
    have := h.2 i hi
    rwa [if_pos hn] at this
  have hcount : (s.filter fun c => c != 45).length = 32 := by
    have count : ∀ k, k ≤ 36 → ((s.drop (36 - k)).filter fun c => c != 45).length =
        k - ([8, 13, 18, 23].filter fun i => decide (36 - k ≤ i)).length := by
      intro k
      induction k with
      | zero => intro _; rw [List.drop_eq_nil_of_le (by rw [h.1])]; rfl
      | succ k ih =>
        intro hk
        have hi : 36 - (k + 1) < s.length := by rw [h.1]; omega
        rw [List.drop_eq_getElem_cons hi, show 36 - (k + 1) + 1 = 36 - k by omega]
        have ih := ih (by omega)
        have hm : ∀ k : Fin 36, (if 36 - (k.val + 1) ∈ [8, 13, 18, 23] then 0 else 1) +
            (k.val - ([8, 13, 18, 23].filter fun i => decide (36 - k.val ≤ i)).length) =
            k.val + 1 - ([8, 13, 18, 23].filter fun i => decide (36 - (k.val + 1) ≤ i)).length := by
          decide +kernel
        have hm := hm ⟨k, by omega⟩
        simp only at hm
        by_cases hmem : 36 - (k + 1) ∈ [8, 13, 18, 23]
        · rw [List.filter_cons_of_neg (by rw [hhy _ hi hmem]; decide), ih]
          rw [if_pos hmem] at hm
          omega
        · rw [List.filter_cons_of_pos (p := fun c => c != 45) (hdig _ hi hmem), List.length_cons, ih]
          rw [if_neg hmem] at hm
          omega
    have := count 36 (by omega)
    exact this
  refine ⟨?_, hcount⟩
  have e : compactChars s = s.filter fun c => c != 45 := rfl
  rw [compact, if_neg (by simpa using h.1), e, if_neg (by omega), if_neg (by omega),
    List.take_of_length_le (by omega)]

end Verif.Props

import Verif.Model.IntLiteral
import Verif.Lemmas.BigintText
import Verif.Props.WideText
import Verif.Props.Wide256
import Mathlib.Tactic.NormNum
/-
C62: integer literals denote their value.
-/
namespace Verif.Props
open Verif.Bigint Verif.Spec Verif.IntLiteral

/-- The accumulator `(u, ov)` stands for the number `n` read so far. -/
def Acc (s : BitVec 64 × Bool) (n : Nat) : Prop := s.1.toNat = n % 2 ^ 64 ∧ s.2 = decide (2 ^ 64 ≤ n)

theorem shiftLoop_acc (dig : Nat → Nat) (base shift : Nat) (hb : base = 2 ^ shift) (hs : 1 ≤ shift ∧ shift ≤ 4)
    (body : List Nat) (hd : ∀ c ∈ body, c = 95 ∨ (dig c = digitOf c ∧ digitOf c < base)) :
    ∀ (s : BitVec 64 × Bool) (n : Nat), Acc s n →
      Acc (shiftLoop dig base shift body s)
        ((body.filter (· ≠ 95)).foldl (fun acc c => acc * base + digitOf c) n) := by
  induction body with
  | nil => intro s n h; exact h
  | cons c t ih =>
    intro s n h
    obtain ⟨u, ov⟩ := s
    have iht := ih (fun c hc => hd c (List.mem_cons_of_mem _ hc))
    unfold shiftLoop
    by_cases hc : c = 95
    · rw [if_pos hc]; simp only [hc]; exact iht _ _ h
    · rw [if_neg hc]
      obtain ⟨hdc, hlt⟩ := (hd c (List.mem_cons_self)).resolve_left hc
      have hf : (c :: t).filter (· ≠ 95) = c :: t.filter (· ≠ 95) := by simp [hc]
      rw [hf, List.foldl_cons]
      apply iht
      obtain ⟨h1, h2⟩ := h
      simp only at h1 h2
      have hu := u.isLt
      have hmax : (BitVec.allOnes 64 >>> shift).toNat = (2 ^ 64 - 1) / 2 ^ shift := by
        simp [BitVec.toNat_ushiftRight, Nat.shiftRight_eq_div_pow]
      rw [hdc]
      have hs4 : shift = 1 ∨ shift = 2 ∨ shift = 3 ∨ shift = 4 := by omega
      constructor
      · simp only [BitVec.toNat_add, BitVec.toNat_mul, BitVec.toNat_ofNat]
        rw [h1]
        rcases hs4 with rfl | rfl | rfl | rfl <;> subst hb <;> omega
      · simp only [gt_iff_lt, BitVec.lt_def, hmax]
        rw [h2, h1]
        split
        · rename_i hgt
          symm; simp only [decide_eq_true_eq]
          rcases hs4 with rfl | rfl | rfl | rfl <;> subst hb <;> omega
        · rename_i hgt
          rw [decide_eq_decide]
          rcases hs4 with rfl | rfl | rfl | rfl <;> subst hb <;> omega

theorem decLoop_acc (body : List Nat) (hd : DigitsOf 10 body) :
    ∀ (s : BitVec 64 × Bool) (n : Nat), Acc s n →
      Acc (decLoop body s)
        ((body.filter (· ≠ 95)).foldl (fun acc c => acc * 10 + digitOf c) n) := by
  induction body with
  | nil => intro s n h; exact h
  | cons c t ih =>
    intro s n h
    obtain ⟨u, ov⟩ := s
    have iht := ih (fun c hc => hd c (List.mem_cons_of_mem _ hc))
    unfold decLoop
    by_cases hc : c = 95
    · rw [if_pos hc]; simp only [hc]; exact iht _ _ h
    · rw [if_neg hc]
      have hlt := (hd c (List.mem_cons_self)).resolve_left hc
      have hdc : digitOf c = c - 48 := by unfold digitOf at hlt ⊢; split at hlt <;> simp_all <;> (repeat' split at hlt) <;> omega
      have hf : (c :: t).filter (· ≠ 95) = c :: t.filter (· ≠ 95) := by simp [hc]
      rw [hf, List.foldl_cons, hdc]
      rw [hdc] at hlt
      apply iht
      obtain ⟨h1, h2⟩ := h
      simp only at h1 h2
      have hu := u.isLt
      generalize c - 48 = d at hlt
      have hd' : (BitVec.ofNat 64 d).toNat = d := by rw [BitVec.toNat_ofNat]; omega
      have hmax : (((BitVec.allOnes 64 - BitVec.ofNat 64 d) / 10).toNat) = (2 ^ 64 - 1 - d) / 10 := by
        rw [BitVec.toNat_udiv, BitVec.toNat_sub, hd', BitVec.toNat_allOnes]
        have : (10 : BitVec 64).toNat = 10 := rfl
        rw [this]; omega
      have hten : (10 : BitVec 64).toNat = 10 := rfl
      constructor
      · simp only [BitVec.toNat_add, BitVec.toNat_mul, hd', hten]
        rw [h1]; omega
      · simp only [gt_iff_lt, BitVec.lt_def, hmax]
        rw [h2, h1]
        split
        · symm; simp only [decide_eq_true_eq]; omega
        · rw [decide_eq_decide]; omega

theorem acc_init : Acc ((0 : BitVec 64), false) 0 := by constructor <;> rfl

theorem acc_parsed {s : BitVec 64 × Bool} {n : Nat} (h : Acc s n) :
    (⟨s.1, s.2 || decide (s.1 > 0x7FFFFFFFFFFFFFFF), s.2⟩ : Parsed) =
      ⟨BitVec.ofNat 64 n, decide (2 ^ 63 ≤ n), decide (2 ^ 64 ≤ n)⟩ := by
  obtain ⟨h1, h2⟩ := h
  have e : s.1 = BitVec.ofNat 64 n := BitVec.eq_of_toNat_eq (by rw [h1, BitVec.toNat_ofNat])
  rw [Parsed.mk.injEq]
  refine ⟨e, ?_, h2⟩
  rw [h2, ← Bool.decide_or, decide_eq_decide, gt_iff_lt, BitVec.lt_def, h1]
  have : (0x7FFFFFFFFFFFFFFF : BitVec 64).toNat = 2 ^ 63 - 1 := rfl
  rw [this]; omega

/-- `parse_int_literal` on a well-formed literal of any base and length: the low 64 bits of its
value, and exact overflow flags. -/
theorem C62_parse_exact (lit : List Nat) (n : Nat) (h : IsLiteral lit n) :
    parse lit = ⟨BitVec.ofNat 64 n, decide (2 ^ 63 ≤ n), decide (2 ^ 64 ≤ n)⟩ := by
  obtain ⟨pre, base, body, rfl, hd, rfl, hc⟩ := h
  have dec : ∀ c, digitOf c < 10 → 48 ≤ c ∧ c ≤ 57 := by
    intro c hc; unfold digitOf at hc; (repeat' split at hc) <;> omega
  have dig0 : ∀ c, digitOf c < 10 → c - 48 = digitOf c := by
    intro c hc; have := dec c hc; unfold digitOf; rw [if_pos this]
  have hex : ∀ c, digitOf c < 16 → hexDigit c = digitOf c := by
    intro c hc
    unfold hexDigit; unfold digitOf at hc ⊢
    by_cases h1 : 48 ≤ c ∧ c ≤ 57
    · simp only [if_pos h1]
    · simp only [if_neg h1] at hc ⊢
      by_cases h2 : 97 ≤ c ∧ c ≤ 102
      · simp only [if_pos h2]; omega
      · simp only [if_neg h2] at hc ⊢
        by_cases h3 : 65 ≤ c ∧ c ≤ 70
        · simp only [if_pos h3]; omega
        · simp only [if_neg h3] at hc; omega
  rcases hc with ⟨rfl, rfl⟩ | ⟨hp, rfl⟩ | ⟨hp, rfl⟩ | ⟨hp, rfl⟩
  · have hp : parse ([] ++ body) = ⟨(decLoop body (0, false)).1,
        (decLoop body (0, false)).2 || decide ((decLoop body (0, false)).1 > 0x7FFFFFFFFFFFFFFF),
        (decLoop body (0, false)).2⟩ := by
      have no : ∀ (x : Nat) t, body = 48 :: x :: t → x = 95 ∨ (48 ≤ x ∧ x ≤ 57) := by
        intro x t e
        rcases hd x (by rw [e]; simp) with h | h
        · exact Or.inl h
        · exact Or.inr (dec x h)
      unfold parse
      simp only [List.nil_append]
      split <;> first | rfl | (rename_i e; exact absurd (no _ _ e) (by omega)) | skip
      all_goals (exact absurd (no _ _ rfl) (by omega))
    rw [hp]
    exact acc_parsed (decLoop_acc body hd _ _ acc_init)
  · have key := shiftLoop_acc hexDigit 16 4 rfl (by omega) body
      (fun c hc => (hd c hc).imp id (fun h => ⟨hex c h, h⟩)) _ _ acc_init
    rcases hp with rfl | rfl <;> exact acc_parsed key
  · have key := shiftLoop_acc (· - 48) 8 3 rfl (by omega) body
      (fun c hc => (hd c hc).imp id (fun h => ⟨dig0 c (by omega), h⟩)) _ _ acc_init
    rcases hp with rfl | rfl <;> exact acc_parsed key
  · have key := shiftLoop_acc (· - 48) 2 1 rfl (by omega) body
      (fun c hc => (hd c hc).imp id (fun h => ⟨dig0 c (by omega), h⟩)) _ _ acc_init
    rcases hp with rfl | rfl <;> exact acc_parsed key

/-- `0xFF_FF` is a literal with value 65535. -/
example : IsLiteral [48, 120, 70, 70, 95, 70, 70] 65535 :=
  ⟨[48, 120], 16, [70, 70, 95, 70, 70], rfl, by unfold DigitsOf; decide, by decide, by simp⟩

theorem decimal_value (lit : List Nat) (n : Nat) (h : IsLiteral lit n)
    (hd : ∀ c ∈ lit, c = 95 ∨ (48 ≤ c ∧ c ≤ 57)) : digitsVal (lit.filter (· ≠ 95)) = n := by
  obtain ⟨pre, base, body, rfl, hdig, rfl, hc⟩ := h
  clear hdig
  have : pre = [] ∧ base = 10 := by
    rcases hc with h | ⟨rfl | rfl, _⟩ | ⟨rfl | rfl, _⟩ | ⟨rfl | rfl, _⟩
    · exact h
    all_goals (exfalso; have := hd _ (List.mem_append_left _ (List.mem_cons_of_mem _ List.mem_cons_self)); omega)
  obtain ⟨rfl, rfl⟩ := this
  unfold digitsVal spelled
  simp only [List.nil_append] at hd ⊢
  generalize 0 = acc
  induction body generalizing acc with
  | nil => rfl
  | cons c t ih =>
    have iht := ih (fun c hc => hd c (List.mem_cons_of_mem _ hc))
    by_cases h : c = 95
    · rw [List.filter_cons_of_neg (by simp [h])]; exact iht acc
    · rw [List.filter_cons_of_pos (by simp [h]), List.foldl_cons, List.foldl_cons]
      have hc := (hd c List.mem_cons_self).resolve_left h
      have : digitOf c = c - 48 := by unfold digitOf; rw [if_pos hc]
      rw [this]; exact iht _

/-- Full claim: a variable of a wide type initialised with a literal holds the spelled value
whenever it fits the type. -/
def C62_wide_statement : Prop :=
  ∀ lit n, IsLiteral lit n →
    (n < 2 ^ 128 → (initU128 lit).val = n) ∧ (n < 2 ^ 127 → (initI128 lit).val = n) ∧
    (n < 2 ^ 256 → (initU256 lit).uval = n) ∧ (n < 2 ^ 255 → (initI256 lit).sval = n)

set_option maxRecDepth 100000 in
/-- A hexadecimal literal of 2^63 or more is re-read as decimal text: `0x8000000000000000` gives
the `u128` value 728 * 10^15. -/
theorem C62_hex_witness :
    IsLiteral [48, 120, 56, 48, 48, 48, 48, 48, 48, 48, 48, 48, 48, 48, 48, 48, 48, 48] (2 ^ 63) ∧
    (initU128 [48, 120, 56, 48, 48, 48, 48, 48, 48, 48, 48, 48, 48, 48, 48, 48, 48, 48]).val
      = 728 * 10 ^ 15 := by
  refine ⟨⟨[48, 120], 16, _, rfl, by unfold DigitsOf; decide, by decide, by simp⟩, ?_⟩
  decide

set_option maxRecDepth 100000 in
/-- The decimal literal 18446744073709551616 (2^64) initialises a wide variable to 0, because the
low 64 bits kept by the parser are zero and the zero test comes before the overflow test. -/
theorem C62_decimal_witness :
    IsLiteral [49, 56, 52, 52, 54, 55, 52, 52, 48, 55, 51, 55, 48, 57, 53, 53, 49, 54, 49, 54] (2 ^ 64) ∧
    (initU128 [49, 56, 52, 52, 54, 55, 52, 52, 48, 55, 51, 55, 48, 57, 53, 53, 49, 54, 49, 54]).val = 0 ∧
    (initI256 [49, 56, 52, 52, 54, 55, 52, 52, 48, 55, 51, 55, 48, 57, 53, 53, 49, 54, 49, 54]).sval = 0 := by
  refine ⟨⟨[], 10, _, rfl, by unfold DigitsOf; decide, by decide, by simp⟩, ?_, ?_⟩
  · decide
  · decide

theorem C62_wide_fails : ¬ C62_wide_statement := by
  intro h
  have h1 := (h _ _ C62_decimal_witness.1).1 (by norm_num)
  rw [C62_decimal_witness.2.1] at h1
  norm_num at h1

/-- Where the claim holds: every literal below 2^63 in any base, and every decimal literal that is
not a positive multiple of 2^64. Missing: literals of 2^63 and more
in a non-decimal base, and decimal literals that are positive multiples of 2^64; the witnesses above
are one of each. -/
theorem C62_wide_partial (lit : List Nat) (n : Nat) (h : IsLiteral lit n)
    (hn : n < 2 ^ 63 ∨ ((∀ c ∈ lit, c = 95 ∨ (48 ≤ c ∧ c ≤ 57)) ∧ n % 2 ^ 64 ≠ 0)) :
    (n < 2 ^ 128 → (initU128 lit).val = n) ∧ (n < 2 ^ 127 → (initI128 lit).val = n) ∧
    (n < 2 ^ 256 → (initU256 lit).uval = n) ∧ (n < 2 ^ 255 → (initI256 lit).sval = n) := by
  have hp := C62_parse_exact lit n h
  have hz : BitVec.ofNat 64 n = 0 ↔ n % 2 ^ 64 = 0 := by
    constructor
    · intro e; have := congrArg BitVec.toNat e; simpa using this
    · intro e; apply BitVec.eq_of_toNat_eq; simpa using e
  unfold initU128 initI128 initU256 initI256
  rw [hp]
  dsimp only
  by_cases h0 : n % 2 ^ 64 = 0
  · have hn0 : n = 0 := by omega
    rw [if_pos (hz.2 h0), if_pos (hz.2 h0), if_pos (hz.2 h0), if_pos (hz.2 h0)]
    subst hn0
    exact ⟨fun _ => rfl, fun _ => rfl, fun _ => rfl, fun _ => rfl⟩
  · rw [if_neg (mt hz.1 h0), if_neg (mt hz.1 h0), if_neg (mt hz.1 h0), if_neg (mt hz.1 h0)]
    by_cases hb : 2 ^ 63 ≤ n
    · rw [if_pos (by simpa using hb), if_pos (by simpa using hb), if_pos (by simpa using hb),
        if_pos (by simpa using hb)]
      obtain ⟨hd, _⟩ := hn.resolve_left (by omega)
      have hv : digitsVal (lit.filter (· ≠ 95)) = n := decimal_value lit n h hd
      have hm : ∀ s, lit ≠ 45 :: s := by
        intro s e; have := hd 45 (by rw [e]; simp); omega
      have e128 : (u128FromDecimal lit).val = n % 2 ^ 128 := by rw [C09_u128_from_decimal lit hd, hv]
      have e256 : (u256FromDecimal lit).uval = n % 2 ^ 256 := by rw [C09_u256_from_decimal lit hd, hv]
      have ei : i128FromDecimal lit = ⟨(u128FromDecimal lit).lo, (u128FromDecimal lit).hi⟩ := by
        unfold i128FromDecimal; split
        · exact absurd rfl (hm _)
        · rfl
      have ei2 : i256FromDecimal lit = u256FromDecimal lit := by
        unfold i256FromDecimal; split
        · exact absurd rfl (hm _)
        · rfl
      refine ⟨fun hlt => by rw [e128]; omega, fun hlt => ?_, fun hlt => by rw [e256]; omega, fun hlt => ?_⟩
      · rw [ei, I128.val_bmod]
        have : ((⟨(u128FromDecimal lit).lo, (u128FromDecimal lit).hi⟩ : I128).bits.val) = n % 2 ^ 128 := e128
        rw [this, Nat.mod_eq_of_lt (by omega)]
        exact bmod128_of_range (by omega) (by omega)
      · rw [ei2, W256.sval_bmod, e256, Nat.mod_eq_of_lt (by omega)]
        exact W256.bmod256_of_range (by omega) (by omega)
    · rw [if_neg (by simpa using hb), if_neg (by simpa using hb), if_neg (by simpa using hb),
        if_neg (by simpa using hb)]
      have hlt : n < 2 ^ 63 := by omega
      have e1 : (BitVec.ofNat 64 n).toNat = n := by rw [BitVec.toNat_ofNat]; omega
      have e2 : (BitVec.ofNat 64 n).toInt = n := by rw [BitVec.toInt_eq_toNat_cond, e1, if_pos (by omega)]
      obtain ⟨a1, a2⟩ := C10_from_64 (BitVec.ofNat 64 n)
      obtain ⟨b1, b2⟩ := C10_from_64_to_256 (BitVec.ofNat 64 n)
      refine ⟨fun _ => ?_, fun _ => ?_, fun _ => ?_, fun _ => ?_⟩
      · first | rw [a1, e1] | rw [a2, e1]
      · first | rw [a1, e2] | rw [a2, e2]
      · first | rw [b1, e1] | rw [b2, e1]
      · first | rw [b1, e2] | rw [b2, e2]

/-- The hypotheses of the partial result hold for the decimal literal 2^64 + 1. -/
example : IsLiteral [49, 56, 52, 52, 54, 55, 52, 52, 48, 55, 51, 55, 48, 57, 53, 53, 49, 54, 49, 55] (2 ^ 64 + 1) ∧
    (2 ^ 64 + 1) % 2 ^ 64 ≠ 0 :=
  ⟨⟨[], 10, _, rfl, by unfold DigitsOf; decide, by decide, by simp⟩, by norm_num⟩

end Verif.Props

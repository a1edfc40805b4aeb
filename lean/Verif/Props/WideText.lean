import Verif.Lemmas.BigintText
/-
Property C09: decimal text of wide integers.

Specification: `Spec.IsDecimal t z` (canonical decimal text of an integer) and, for parsing,
`Spec.digitsVal` of the text with the `_` separators removed.
-/
namespace Verif.Props
open Verif.Bigint Verif.Spec

theorem isDecimal_nat (n : Nat) : IsDecimal (decimalNat n) (n : Int) := by
  unfold IsDecimal
  rw [if_neg (by omega)]
  simpa using (decimalNat_isNumeral n).1

/-- C09: u128 to text never overruns its buffer and gives the canonical numeral. -/
theorem C09_u128_to_string (v : U128) :
    ∃ t, u128ToString v = .ok t ∧ IsDecimal t (v.val : Int) :=
  ⟨_, u128ToString_eq v, isDecimal_nat _⟩

theorem C09_u256_to_string (v : W256) :
    ∃ t, u256ToString v = .ok t ∧ IsDecimal t (v.uval : Int) :=
  ⟨_, u256ToString_eq v, isDecimal_nat _⟩

theorem i128ToString_eq (v : I128) : i128ToString v =
    .ok (if v.val < 0 then 45 :: decimalNat v.val.natAbs else decimalNat v.val.natAbs) := by
  have hm := I128.magnitude_val v
  unfold i128ToString
  unfold I128.magnitude at hm
  by_cases h : v.hi.slt 0
  · have hn := (I128.slt_zero v).mp h
    rw [if_pos h] at hm ⊢
    simp only
    rw [u128ToString_eq, hm, if_pos hn]
  · have hn : ¬ v.val < 0 := fun h2 => h ((I128.slt_zero v).mpr h2)
    rw [if_neg h] at hm ⊢
    rw [u128ToString_eq, hm, if_neg hn]

theorem C09_i128_to_string (v : I128) :
    ∃ t, i128ToString v = .ok t ∧ IsDecimal t v.val := by
  refine ⟨_, i128ToString_eq v, ?_⟩
  unfold IsDecimal
  split
  · exact ⟨_, rfl, (decimalNat_isNumeral _).1⟩
  · exact (decimalNat_isNumeral _).1

theorem i256ToString_eq (v : W256) : i256ToString v =
    .ok (if v.sval < 0 then 45 :: decimalNat v.sval.natAbs else decimalNat v.sval.natAbs) := by
  have hm := W256.magnitude_uval v
  have hi := W256.isNeg_iff v
  unfold i256ToString
  unfold W256.magnitude at hm
  by_cases h : v.sval < 0
  · rw [hi] at hm ⊢
    simp only [h, decide_true, if_true] at hm ⊢
    rw [u256ToString_eq, hm]
  · rw [hi] at hm ⊢
    simp only [h, decide_false, if_false] at hm ⊢
    rw [if_neg (by decide)] at hm ⊢
    rw [u256ToString_eq, hm]

theorem C09_i256_to_string (v : W256) :
    ∃ t, i256ToString v = .ok t ∧ IsDecimal t v.sval := by
  refine ⟨_, i256ToString_eq v, ?_⟩
  unfold IsDecimal
  split
  · exact ⟨_, rfl, (decimalNat_isNumeral _).1⟩
  · exact (decimalNat_isNumeral _).1

/-- Canonical decimal text determines the integer. -/
theorem isDecimal_inj {t : List Nat} {z w : Int} (h1 : IsDecimal t z) (h2 : IsDecimal t w) : z = w := by
  unfold IsDecimal at h1 h2
  have num : ∀ {t n m}, IsNumeral t n → IsNumeral t m → n = m := fun h1 h2 => h1.2.2.2.symm.trans h2.2.2.2
  have neg : ∀ {t n}, ¬ IsNumeral (45 :: t) n := fun h => by
    have := h.2.1 45 List.mem_cons_self; omega
  split at h1
  · obtain ⟨t1, rfl, n1⟩ := h1
    split at h2
    · obtain ⟨t2, e, n2⟩ := h2
      cases e
      have := num n1 n2; omega
    · exact absurd h2 neg
  · split at h2
    · obtain ⟨t2, rfl, n2⟩ := h2
      exact absurd h1 neg
    · have := num h1 h2; omega

/-- C09, parsing: a digit text with separators parses to its value modulo the width. -/
theorem C09_u128_from_decimal (t : List Nat) (h : ∀ c ∈ t, c = 95 ∨ (48 ≤ c ∧ c ≤ 57)) :
    (u128FromDecimal t).val = digitsVal (t.filter (· ≠ 95)) % 2 ^ 128 := by
  unfold u128FromDecimal
  rw [u128FromDecimalLoop_val t U128.zero 0 h (by rfl), sepVal_filter]; rfl

theorem C09_u256_from_decimal (t : List Nat) (h : ∀ c ∈ t, c = 95 ∨ (48 ≤ c ∧ c ≤ 57)) :
    (u256FromDecimal t).uval = digitsVal (t.filter (· ≠ 95)) % 2 ^ 256 := by
  unfold u256FromDecimal
  rw [u256FromDecimalLoop_val t W256.zero 0 h (by rfl), sepVal_filter]; rfl

theorem numeral_parse {t : List Nat} {n : Nat} (h : IsNumeral t n) :
    (∀ c ∈ t, c = 95 ∨ (48 ≤ c ∧ c ≤ 57)) ∧ digitsVal (t.filter (· ≠ 95)) = n := by
  refine ⟨fun c hc => Or.inr (h.2.1 c hc), ?_⟩
  have : t.filter (· ≠ 95) = t := by
    rw [List.filter_eq_self]
    intro c hc
    have := h.2.1 c hc
    simp; omega
  rw [this]; exact h.2.2.2

/-- C09: text of any u128 parses back to it. -/
theorem C09_u128_roundtrip (v : U128) :
    ∃ t, u128ToString v = .ok t ∧ u128FromDecimal t = v := by
  refine ⟨_, u128ToString_eq v, ?_⟩
  have hp := numeral_parse (decimalNat_isNumeral v.val).1
  apply U128.ext_val
  rw [C09_u128_from_decimal _ hp.1, hp.2]
  exact Nat.mod_eq_of_lt v.val_lt

theorem C09_u256_roundtrip (v : W256) :
    ∃ t, u256ToString v = .ok t ∧ u256FromDecimal t = v := by
  refine ⟨_, u256ToString_eq v, ?_⟩
  have hp := numeral_parse (decimalNat_isNumeral v.uval).1
  apply W256.ext_uval
  rw [C09_u256_from_decimal _ hp.1, hp.2]
  exact Nat.mod_eq_of_lt v.uval_lt

theorem decimalNat_not_minus (n : Nat) : ∀ s, decimalNat n ≠ 45 :: s := by
  intro s h
  have := (decimalNat_isNumeral n).1.2.1 45 (by rw [h]; exact List.mem_cons_self)
  omega

theorem C09_i128_roundtrip (v : I128) :
    ∃ t, i128ToString v = .ok t ∧ i128FromDecimal t = v := by
  refine ⟨_, i128ToString_eq v, ?_⟩
  have hp := numeral_parse (decimalNat_isNumeral v.val.natAbs).1
  have hr := v.range
  have hu := C09_u128_from_decimal _ hp.1
  rw [hp.2, Nat.mod_eq_of_lt (by omega)] at hu
  apply I128.val_inj.mp
  split
  · unfold i128FromDecimal
    simp only
    rw [I128.neg_of_bits ⟨(u128FromDecimal (decimalNat v.val.natAbs)).lo, (u128FromDecimal (decimalNat v.val.natAbs)).hi⟩
      v.val.natAbs hu, bmod128_of_range] <;> omega
  · have e : i128FromDecimal (decimalNat v.val.natAbs)
        = ⟨(u128FromDecimal (decimalNat v.val.natAbs)).lo, (u128FromDecimal (decimalNat v.val.natAbs)).hi⟩ := by
      unfold i128FromDecimal
      split
      · rename_i s h; exact absurd h (decimalNat_not_minus _ _)
      · rfl
    rw [e, I128.of_bits ⟨(u128FromDecimal (decimalNat v.val.natAbs)).lo, (u128FromDecimal (decimalNat v.val.natAbs)).hi⟩
      v.val.natAbs hu, bmod128_of_range] <;> omega

theorem C09_i256_roundtrip (v : W256) :
    ∃ t, i256ToString v = .ok t ∧ i256FromDecimal t = v := by
  refine ⟨_, i256ToString_eq v, ?_⟩
  have hp := numeral_parse (decimalNat_isNumeral v.sval.natAbs).1
  have hr := v.srange
  have hu := C09_u256_from_decimal _ hp.1
  rw [hp.2, Nat.mod_eq_of_lt (by omega)] at hu
  apply W256.sval_inj.mp
  split
  · unfold i256FromDecimal
    simp only
    rw [W256.neg_of_uval _ v.sval.natAbs hu, W256.bmod256_of_range] <;> omega
  · have e : i256FromDecimal (decimalNat v.sval.natAbs) = u256FromDecimal (decimalNat v.sval.natAbs) := by
      unfold i256FromDecimal
      split
      · rename_i s h; exact absurd h (decimalNat_not_minus _ _)
      · rfl
    rw [e, W256.of_uval _ v.sval.natAbs hu, W256.bmod256_of_range] <;> omega

/-- Finding attached to C09: decimal literals that do not fit are parsed modulo the width
without any error, e.g. 2^128 parses as u128 zero. -/
theorem C09_from_decimal_wraps : ∃ t, IsNumeral t (2 ^ 128) ∧ u128FromDecimal t = U128.zero := by
  have hn := (decimalNat_isNumeral (2 ^ 128)).1
  refine ⟨_, hn, ?_⟩
  have hp := numeral_parse hn
  apply U128.ext_val
  rw [C09_u128_from_decimal _ hp.1, hp.2]; rfl

-- the most negative value, whose magnitude is not representable
example : i128ToString ⟨0, 0x8000000000000000⟩ = .ok (45 :: decimalNat (2 ^ 127)) := by
  rw [i128ToString_eq]; rfl
example : IsNumeral [49, 48] 10 := by
  refine ⟨by simp, by simp, by simp, rfl⟩

end Verif.Props

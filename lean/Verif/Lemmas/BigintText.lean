import Verif.Model.BigintText
import Verif.Lemmas.Bigint256
import Verif.Spec
/-
Helper lemmas for decimal text of wide integers.
-/
namespace Verif.Bigint
open Verif.Spec

theorem digitsVal_append (t : List Nat) (c : Nat) :
    digitsVal (t ++ [c]) = digitsVal t * 10 + (c - 48) := by
  unfold digitsVal; rw [List.foldl_append]; rfl

theorem decimalNat_lt {n : Nat} (h : n < 10) : decimalNat n = [48 + n] := by
  rw [decimalNat, if_pos h]

theorem decimalNat_ge {n : Nat} (h : ¬ n < 10) :
    decimalNat n = decimalNat (n / 10) ++ [48 + n % 10] := by
  rw [decimalNat, if_neg h]

theorem decimalNat_isNumeral (n : Nat) : IsNumeral (decimalNat n) n ∧
    (n ≠ 0 → (decimalNat n).head? ≠ some 48) := by
  induction n using Nat.strongRecOn with
  | _ n ih =>
    by_cases h : n < 10
    · rw [decimalNat_lt h]
      refine ⟨⟨by simp, by simp; omega, ?_, ?_⟩, ?_⟩
      · intro h2; simp at h2; simp [h2]
      · unfold digitsVal; simp
      · intro h2 h3; simp at h3; omega
    · rw [decimalNat_ge h]
      obtain ⟨⟨h1, h2, h3, h4⟩, h5⟩ := ih (n / 10) (by omega)
      have h6 := h5 (by omega)
      have hh : (decimalNat (n / 10) ++ [48 + n % 10]).head? = (decimalNat (n / 10)).head? := by
        cases hd : decimalNat (n / 10) with
        | nil => exact absurd hd h1
        | cons x xs => rfl
      refine ⟨⟨by simp, ?_, ?_, ?_⟩, ?_⟩
      · intro c hc
        rw [List.mem_append] at hc
        rcases hc with hc | hc
        · exact h2 c hc
        · simp at hc; omega
      · intro h7; rw [hh] at h7; exact absurd h7 h6
      · rw [digitsVal_append, h4]; omega
      · intro _; rw [hh]; exact h6

theorem decimalNat_length {k n : Nat} (hk : 0 < k) (h : n < 10 ^ k) : (decimalNat n).length ≤ k := by
  induction k generalizing n with
  | zero => omega
  | succ k ih =>
    by_cases hn : n < 10
    · rw [decimalNat_lt hn]; simp
    · rw [decimalNat_ge hn, List.length_append]
      rw [Nat.pow_succ] at h
      have hk0 : 0 < k := by
        rcases k with _ | k
        · simp at h; omega
        · omega
      have := ih (n := n / 10) hk0 (by omega)
      simp; omega

/-- Digits produced by the extraction loop (nothing for zero). -/
def digs (n : Nat) : List Nat := if n = 0 then [] else decimalNat n

theorem digs_step {n : Nat} (h : n ≠ 0) : digs n = digs (n / 10) ++ [48 + n % 10] := by
  unfold digs
  rw [if_neg h]
  by_cases h1 : n < 10
  · rw [decimalNat_lt h1, if_pos (by omega)]; simp; omega
  · rw [decimalNat_ge h1, if_neg (by omega)]

theorem u128_ten : (U128.mk 10 0).val = 10 := rfl

theorem u128_divmod_ten (v : U128) : (U128.divmod v ⟨10, 0⟩).1.val = v.val / 10 ∧
    (U128.divmod v ⟨10, 0⟩).2.val = v.val % 10 := by
  have key : ∀ t : U128, t.val = 10 → (U128.divmod v t).1.val = v.val / 10 ∧
      (U128.divmod v t).2.val = v.val % 10 := by
    intro t ht
    have := U128.divmod_val v t (by omega)
    rwa [ht] at this
  exact key _ u128_ten

attribute [local irreducible] U128.divmod

theorem u128Digits_spec (pos : Nat) : ∀ (v : U128) (acc : List Nat), v.val < 10 ^ pos →
    u128Digits pos v acc = .ok (pos - (digs v.val).length, digs v.val ++ acc) ∧
    (digs v.val).length ≤ pos := by
  induction pos with
  | zero =>
    intro v acc h
    have h0 : v.val = 0 := by simpa using h
    have hz := (U128.zero_iff v).mpr h0
    unfold u128Digits
    rw [if_neg (by rw [hz.1, hz.2]; simp), h0]
    simp [digs]
  | succ pos ih =>
    intro v acc h
    by_cases h0 : v.val = 0
    · have hz := (U128.zero_iff v).mpr h0
      unfold u128Digits
      rw [if_neg (by rw [hz.1, hz.2]; simp), h0]
      simp [digs]
    · have hd := u128_divmod_ten v
      have hc : v.hi ≠ 0 ∨ v.lo ≠ 0 := by
        by_contra hn
        apply h0
        apply (U128.zero_iff v).mp
        constructor
        · by_contra h1; exact hn (Or.inl h1)
        · by_contra h1; exact hn (Or.inr h1)
      have hlo : (U128.divmod v ⟨10, 0⟩).2.lo.toNat = v.val % 10 := by
        have := hd.2
        have h1 := (U128.divmod v ⟨10, 0⟩).2.lo.isLt
        unfold U128.val at this ⊢
        omega
      rw [u128Digits, if_pos hc]
      simp only
      obtain ⟨i1, i2⟩ := ih (U128.divmod v ⟨10, 0⟩).1
        ((48 + (U128.divmod v ⟨10, 0⟩).2.lo.toNat) :: acc)
        (by rw [hd.1]; rw [Nat.pow_succ] at h; omega)
      rw [hd.1] at i1 i2
      rw [i1, digs_step h0, hlo]
      have hlen : (digs (v.val / 10) ++ [48 + v.val % 10]).length
          = (digs (v.val / 10)).length + 1 := by rw [List.length_append]; rfl
      rw [hlen, List.append_assoc, Nat.add_sub_add_right]
      exact ⟨rfl, by omega⟩

theorem u256_ten : (W256.mk 10 0 0 0).uval = 10 := rfl

theorem u256_divmod_ten (v : W256) : (W256.divmod v ⟨10, 0, 0, 0⟩).1.uval = v.uval / 10 ∧
    (W256.divmod v ⟨10, 0, 0, 0⟩).2.uval = v.uval % 10 := by
  have key : ∀ t : W256, t.Safe → t.uval = 10 → (W256.divmod v t).1.uval = v.uval / 10 ∧
      (W256.divmod v t).2.uval = v.uval % 10 := by
    intro t hs ht
    have := W256.divmod_uval v t (by omega) hs
    rwa [ht] at this
  exact key _ (by decide) u256_ten

attribute [local irreducible] W256.divmod

theorem w256_ne_zero (v : W256) : (v.w0 ≠ 0 ∨ v.w1 ≠ 0 ∨ v.w2 ≠ 0 ∨ v.w3 ≠ 0) ↔ v.uval ≠ 0 := by
  simp only [ne_eq, toNat_eq_zero]
  unfold W256.uval; omega

theorem u256Digits_spec (pos : Nat) : ∀ (v : W256) (acc : List Nat), v.uval < 10 ^ pos →
    u256Digits pos v acc = .ok (pos - (digs v.uval).length, digs v.uval ++ acc) ∧
    (digs v.uval).length ≤ pos := by
  induction pos with
  | zero =>
    intro v acc h
    have h0 : v.uval = 0 := by simpa using h
    unfold u256Digits
    rw [if_neg (by rw [w256_ne_zero]; exact fun h => h h0), h0]
    simp [digs]
  | succ pos ih =>
    intro v acc h
    by_cases h0 : v.uval = 0
    · unfold u256Digits
      rw [if_neg (by rw [w256_ne_zero]; exact fun h => h h0), h0]
      simp [digs]
    · have hd := u256_divmod_ten v
      have hlo : (W256.divmod v ⟨10, 0, 0, 0⟩).2.w0.toNat = v.uval % 10 := by
        have := hd.2
        have h1 := (W256.divmod v ⟨10, 0, 0, 0⟩).2.w0.isLt
        have h2 : v.uval % 10 < 10 := Nat.mod_lt _ (by decide)
        generalize v.uval % 10 = m at *
        unfold W256.uval at this
        omega
      rw [u256Digits, if_pos ((w256_ne_zero v).mpr h0)]
      simp only
      obtain ⟨i1, i2⟩ := ih (W256.divmod v ⟨10, 0, 0, 0⟩).1
        ((48 + (W256.divmod v ⟨10, 0, 0, 0⟩).2.w0.toNat) :: acc)
        (by rw [hd.1]; rw [Nat.pow_succ] at h; omega)
      rw [hd.1] at i1 i2
      rw [i1, digs_step h0, hlo]
      have hlen : (digs (v.uval / 10) ++ [48 + v.uval % 10]).length
          = (digs (v.uval / 10)).length + 1 := by rw [List.length_append]; rfl
      rw [hlen, List.append_assoc, Nat.add_sub_add_right]
      exact ⟨rfl, by omega⟩

theorem u128ToString_eq (v : U128) : u128ToString v = .ok (decimalNat v.val) := by
  have hv := v.val_lt
  unfold u128ToString
  split
  · rename_i h
    rw [toNat_eq_zero] at h
    have e : v.val = v.lo.toNat := by unfold U128.val; rw [h]; omega
    have hl := v.lo.isLt
    rw [List.take_of_length_le, e]
    exact decimalNat_length (by decide) (by omega)
  · rename_i h
    have h0 : v.val ≠ 0 := by
      rw [toNat_eq_zero] at h; unfold U128.val; omega
    have hs := u128Digits_spec (40 - 1) v [] (by omega)
    rw [hs.1]
    have hl : (digs v.val).length ≠ 0 := by rw [digs_step h0]; simp
    simp only
    rw [if_neg (by omega)]
    unfold digs; rw [if_neg h0]; simp

theorem u256ToString_eq (v : W256) : u256ToString v = .ok (decimalNat v.uval) := by
  have hv := v.uval_lt
  unfold u256ToString
  split
  · rename_i h
    rw [toNat_eq_zero, toNat_eq_zero, toNat_eq_zero] at h
    have e : v.uval = v.w0.toNat := by unfold W256.uval; rw [h.1, h.2.1, h.2.2]; omega
    have hl := v.w0.isLt
    rw [List.take_of_length_le, e]
    exact decimalNat_length (by decide) (by omega)
  · rename_i h
    have h0 : v.uval ≠ 0 := by
      rw [toNat_eq_zero, toNat_eq_zero, toNat_eq_zero] at h; unfold W256.uval; omega
    have hs := u256Digits_spec (80 - 1) v [] (by omega)
    rw [hs.1]
    have hl : (digs v.uval).length ≠ 0 := by rw [digs_step h0]; simp
    simp only
    rw [if_neg (by omega)]
    unfold digs; rw [if_neg h0]; simp

/-! ### Parsing -/

/-- Value of a digit text with `_` separators. -/
def sepVal (acc : Nat) (t : List Nat) : Nat :=
  t.foldl (fun acc c => if c = 95 then acc else acc * 10 + (c - 48)) acc

theorem digit_ofInt {c : Nat} (h1 : 48 ≤ c) (h2 : c ≤ 57) :
    (BitVec.ofInt 64 ((c : Int) - 48)).toNat = c - 48 := by
  rw [BitVec.toNat_ofInt]; omega

theorem u128FromDecimalLoop_val (t : List Nat) : ∀ (r : U128) (acc : Nat),
    (∀ c ∈ t, c = 95 ∨ (48 ≤ c ∧ c ≤ 57)) → r.val = acc % 2 ^ 128 →
    (u128FromDecimalLoop t r).val = sepVal acc t % 2 ^ 128 := by
  induction t with
  | nil => intro r acc _ h; simpa [u128FromDecimalLoop, sepVal] using h
  | cons c t ih =>
    intro r acc hc h
    have hrest : ∀ c ∈ t, c = 95 ∨ (48 ≤ c ∧ c ≤ 57) := fun x hx => hc x (List.mem_cons_of_mem _ hx)
    unfold u128FromDecimalLoop
    by_cases h95 : c = 95
    · rw [if_pos h95]
      have := ih r acc hrest h
      rw [this]; simp [sepVal, h95]
    · rw [if_neg h95]
      have hd := hc c List.mem_cons_self
      have hd' : 48 ≤ c ∧ c ≤ 57 := by omega
      have := ih (U128.add (U128.mul r ⟨10, 0⟩) ⟨BitVec.ofInt 64 ((c : Int) - 48), 0⟩)
        (acc * 10 + (c - 48)) hrest (by
          have e : (U128.mk (BitVec.ofInt 64 ((c : Int) - 48)) 0).val = c - 48 := by
            show (BitVec.ofInt 64 ((c : Int) - 48)).toNat + (0 : BitVec 64).toNat * 2 ^ 64 = _
            rw [digit_ofInt hd'.1 hd'.2]; simp
          rw [U128.add_val, U128.mul_val, u128_ten, e, h]
          omega)
      rw [this]; simp [sepVal, h95]

theorem u256FromDecimalLoop_val (t : List Nat) : ∀ (r : W256) (acc : Nat),
    (∀ c ∈ t, c = 95 ∨ (48 ≤ c ∧ c ≤ 57)) → r.uval = acc % 2 ^ 256 →
    (u256FromDecimalLoop t r).uval = sepVal acc t % 2 ^ 256 := by
  induction t with
  | nil => intro r acc _ h; simpa [u256FromDecimalLoop, sepVal] using h
  | cons c t ih =>
    intro r acc hc h
    have hrest : ∀ c ∈ t, c = 95 ∨ (48 ≤ c ∧ c ≤ 57) := fun x hx => hc x (List.mem_cons_of_mem _ hx)
    unfold u256FromDecimalLoop
    by_cases h95 : c = 95
    · rw [if_pos h95]
      have := ih r acc hrest h
      rw [this]; simp [sepVal, h95]
    · rw [if_neg h95]
      have hd := hc c List.mem_cons_self
      have hd' : 48 ≤ c ∧ c ≤ 57 := by omega
      have := ih (W256.add (W256.mul r ⟨10, 0, 0, 0⟩) ⟨BitVec.ofInt 64 ((c : Int) - 48), 0, 0, 0⟩)
        (acc * 10 + (c - 48)) hrest (by
          have e : (W256.mk (BitVec.ofInt 64 ((c : Int) - 48)) 0 0 0).uval = c - 48 := by
            unfold W256.uval
            simp only
            rw [digit_ofInt hd'.1 hd'.2]; simp
          rw [W256.add_uval, W256.mul_uval, u256_ten, e, h]
          omega)
      rw [this]; simp [sepVal, h95]

theorem sepVal_filter (t : List Nat) (acc : Nat) :
    sepVal acc t = (t.filter (· ≠ 95)).foldl (fun acc c => acc * 10 + (c - 48)) acc := by
  induction t generalizing acc with
  | nil => rfl
  | cons c t ih =>
    by_cases h : c = 95
    · rw [List.filter_cons_of_neg (by simp [h]), ← ih]
      simp [sepVal, h]
    · rw [List.filter_cons_of_pos (by simp [h]), List.foldl_cons, ← ih]
      simp [sepVal, h]

end Verif.Bigint

import Verif.Lemmas.Bigint256
import Verif.Spec
import Verif.Props.Wide128
/-
Properties C05-C08, C10-C12 for the 256-bit types, and C61 (checked 256-bit arithmetic).

As in `Wide128`, the specification is integer arithmetic; `uval`/`sval` read the four limbs
as an unsigned/signed integer.
-/
namespace Verif.Props
open Verif.Bigint Verif.Spec

/-! ### C05 -/

theorem C05_u256_add (a b : W256) : (W256.add a b).uval = (a.uval + b.uval) % 2 ^ 256 :=
  W256.add_uval a b
theorem C05_u256_mul (a b : W256) : (W256.mul a b).uval = (a.uval * b.uval) % 2 ^ 256 :=
  W256.mul_uval a b
theorem C05_i256_add (a b : W256) : (W256.add a b).sval = (a.sval + b.sval).bmod (2 ^ 256) :=
  W256.add_sval a b
theorem C05_i256_mul (a b : W256) : (W256.mul a b).sval = (a.sval * b.sval).bmod (2 ^ 256) :=
  W256.mul_sval a b
theorem C05_i256_neg (a : W256) : (W256.neg a).sval = (-a.sval).bmod (2 ^ 256) :=
  W256.neg_sval a

/-- Every 256-bit integer has exactly one representation. -/
theorem C05_u256_repr (n : Nat) (h : n < 2 ^ 256) :
    ∃ a : W256, a.uval = n ∧ ∀ b : W256, b.uval = n → b = a := by
  have e : W256.uval ⟨BitVec.ofNat 64 n, BitVec.ofNat 64 (n / 2 ^ 64), BitVec.ofNat 64 (n / 2 ^ 128),
    BitVec.ofNat 64 (n / 2 ^ 192)⟩ = n := by
    unfold W256.uval; simp only [BitVec.toNat_ofNat]; omega
  exact ⟨_, e, fun b hb => W256.ext_uval (by rw [hb, e])⟩

-- carries ripple through all limbs
example : W256.add ⟨-1, -1, -1, 0⟩ ⟨1, 0, 0, 0⟩ = ⟨0, 0, 0, 1⟩ := by decide
example : (W256.mul ⟨-1, -1, -1, -1⟩ ⟨-1, -1, -1, -1⟩).sval = 1 := by decide

/-! ### C06: subtraction -/

/-- The operand pairs on which the borrow computation goes wrong, in terms of the values: a
middle 64-bit digit of `b` is 2^64-1 and the part below it needs a borrow. -/
def SubBorrowLost (a b : Nat) : Prop :=
  (b / 2 ^ 64 % 2 ^ 64 = 2 ^ 64 - 1 ∧ a % 2 ^ 64 < b % 2 ^ 64) ∨
  (b / 2 ^ 128 % 2 ^ 64 = 2 ^ 64 - 1 ∧ a % 2 ^ 128 < b % 2 ^ 128)

instance (a b : Nat) : Decidable (SubBorrowLost a b) := by unfold SubBorrowLost; infer_instance

/-- Full statement of C06 for u256; false, see `C06_u256_sub_fails`. -/
def C06_u256_sub_statement : Prop := ∀ a b : W256,
  ((W256.sub a b).uval : Int) = ((a.uval : Int) - b.uval) % 2 ^ 256

theorem subBorrowLost_limbs (a b : W256) : SubBorrowLost a.uval b.uval ↔
    (b.w1.toNat = 2 ^ 64 - 1 ∧ a.w0.toNat < b.w0.toNat) ∨
    (b.w2.toNat = 2 ^ 64 - 1 ∧
      a.w0.toNat + a.w1.toNat * 2 ^ 64 < b.w0.toNat + b.w1.toNat * 2 ^ 64) := by
  have h1 := a.w0.isLt; have h2 := a.w1.isLt; have h3 := a.w2.isLt; have h4 := a.w3.isLt
  have g1 := b.w0.isLt; have g2 := b.w1.isLt; have g3 := b.w2.isLt; have g4 := b.w3.isLt
  have dA : a.uval % 2 ^ 64 = a.w0.toNat := by unfold W256.uval; omega
  have dB : b.uval % 2 ^ 64 = b.w0.toNat := by unfold W256.uval; omega
  have dB1 : b.uval / 2 ^ 64 % 2 ^ 64 = b.w1.toNat := by unfold W256.uval; omega
  have dB2 : b.uval / 2 ^ 128 % 2 ^ 64 = b.w2.toNat := by unfold W256.uval; omega
  have dA2 : a.uval % 2 ^ 128 = a.w0.toNat + a.w1.toNat * 2 ^ 64 := by unfold W256.uval; omega
  have dB3 : b.uval % 2 ^ 128 = b.w0.toNat + b.w1.toNat * 2 ^ 64 := by unfold W256.uval; omega
  unfold SubBorrowLost
  rw [dA, dB, dB1, dB2, dA2, dB3]

/-- C06 exactly characterised: the difference is right modulo 2^256 if and only if no borrow
is lost. Missing from the full statement: the operand pairs in `SubBorrowLost`. -/
theorem C06_u256_sub_iff_partial (a b : W256) :
    ((W256.sub a b).uval : Int) = ((a.uval : Int) - b.uval) % 2 ^ 256 ↔
      ¬ SubBorrowLost a.uval b.uval := by
  have z : (0 : BitVec 64).toNat = 0 := rfl
  have g1 := b.w0.isLt; have g2 := b.w1.isLt; have g3 := b.w2.isLt
  have hb := b.uval_lt; have ha := a.uval_lt; have hr := (W256.sub a b).uval_lt
  have c0 := W256.subStep_borrow_le a.w0 b.w0 0
  have e0 := W256.subStep_val a.w0 b.w0 0 (by decide) (by rw [z]; omega)
  rw [z] at e0
  have f0 := (W256.subStep a.w0 b.w0 0).1.isLt
  have u0 := a.w0.isLt
  have hb0 : (W256.subStep a.w0 b.w0 0).2.toNat = 1 ↔ a.w0.toNat < b.w0.toNat := by omega
  have c1 := W256.subStep_borrow_le a.w1 b.w1 (W256.subStep a.w0 b.w0 0).2
  have c2 := W256.subStep_borrow_le a.w2 b.w2 (W256.subStep a.w1 b.w1 (W256.subStep a.w0 b.w0 0).2).2
  obtain ⟨k, hk, k3⟩ := W256.subStep_diff a.w3 b.w3
      (W256.subStep a.w2 b.w2 (W256.subStep a.w1 b.w1 (W256.subStep a.w0 b.w0 0).2).2).2 c2
  rw [subBorrowLost_limbs]
  by_cases hx1 : b.w1.toNat = 2 ^ 64 - 1 ∧ a.w0.toNat < b.w0.toNat
  · -- the first borrow is lost: the result is 2^128 too large
    have k1 := W256.subStep_bad a.w1 b.w1 (W256.subStep a.w0 b.w0 0).2 c0 (by omega)
    have k2 := W256.subStep_val a.w2 b.w2 (W256.subStep a.w1 b.w1 (W256.subStep a.w0 b.w0 0).2).2 c1 (by omega)
    have key : (W256.sub a b).uval + b.uval = a.uval + 2 ^ 128 + k * 2 ^ 256 := by
      have hb1 := hb0.mpr hx1.2
      unfold W256.sub W256.uval
      simp only
      generalize (W256.subStep a.w3 b.w3 _).1.toNat = d3 at *
      generalize (W256.subStep a.w2 b.w2 _).1.toNat = d2 at *
      generalize (W256.subStep a.w2 b.w2 _).2.toNat = e2 at *
      generalize (W256.subStep a.w1 b.w1 _).1.toNat = d1 at *
      generalize (W256.subStep a.w1 b.w1 _).2.toNat = e1 at *
      generalize (W256.subStep a.w0 b.w0 0).1.toNat = d0 at *
      generalize (W256.subStep a.w0 b.w0 0).2.toNat = e0' at *
      clear hb ha hr hb0
      omega
    constructor
    · intro h
      generalize (W256.sub a b).uval = R at *
      generalize a.uval = A at *
      generalize b.uval = B at *
      clear k1 k2 k3 e0 c0 c1 c2 hb0
      omega
    · intro h; exact absurd (Or.inl hx1) h
  · have k1 := W256.subStep_val a.w1 b.w1 (W256.subStep a.w0 b.w0 0).2 c0 (by omega)
    have l1 := (W256.subStep a.w1 b.w1 (W256.subStep a.w0 b.w0 0).2).1.isLt
    have u1 := a.w1.isLt
    have hb1 : (W256.subStep a.w1 b.w1 (W256.subStep a.w0 b.w0 0).2).2.toNat = 1 ↔
        a.w0.toNat + a.w1.toNat * 2 ^ 64 < b.w0.toNat + b.w1.toNat * 2 ^ 64 := by omega
    by_cases hx2 : b.w2.toNat = 2 ^ 64 - 1 ∧
        a.w0.toNat + a.w1.toNat * 2 ^ 64 < b.w0.toNat + b.w1.toNat * 2 ^ 64
    · -- the second borrow is lost: the result is 2^192 too large
      have hb2 := hb1.mpr hx2.2
      have k2 := W256.subStep_bad a.w2 b.w2 (W256.subStep a.w1 b.w1 (W256.subStep a.w0 b.w0 0).2).2 c1
        (by rw [hb2, hx2.1]; decide)
      have key : (W256.sub a b).uval + b.uval = a.uval + 2 ^ 192 + k * 2 ^ 256 := by
        unfold W256.sub W256.uval
        simp only
        generalize (W256.subStep a.w3 b.w3 _).1.toNat = d3 at *
        generalize (W256.subStep a.w2 b.w2 _).1.toNat = d2 at *
        generalize (W256.subStep a.w2 b.w2 _).2.toNat = e2 at *
        generalize (W256.subStep a.w1 b.w1 _).1.toNat = d1 at *
        generalize (W256.subStep a.w1 b.w1 _).2.toNat = e1 at *
        generalize (W256.subStep a.w0 b.w0 0).1.toNat = d0 at *
        generalize (W256.subStep a.w0 b.w0 0).2.toNat = e0' at *
        clear hb ha hr hb0 hb1 hx1
        omega
      constructor
      · intro h
        generalize (W256.sub a b).uval = R at *
        generalize a.uval = A at *
        generalize b.uval = B at *
        clear k1 k2 k3 e0 c0 c1 c2 hb0 hb1 hb2
        omega
      · intro h; exact absurd (Or.inr hx2) h
    · constructor
      · intro _ h; rcases h with h | h
        · exact hx1 h
        · exact hx2 h
      · intro _
        rw [W256.sub_uval a b (by rw [hb0]; exact hx1) (by rw [hb1]; exact hx2)]
        generalize a.uval = A at *
        generalize b.uval = B at *
        clear k1 k3 e0 c0 c1 c2 hb0 hb1
        omega

theorem C06_u256_sub_fails : ¬ C06_u256_sub_statement := by
  intro h
  -- 2^128 - (2^128 - 1) comes out as 2^128 + 1
  exact absurd (h ⟨0, 0, 1, 0⟩ ⟨-1, -1, 0, 0⟩) (by decide)

/-- The value the code returns for 2^128 - (2^128 - 1). -/
theorem C06_u256_sub_witness : (W256.sub ⟨0, 0, 1, 0⟩ ⟨-1, -1, 0, 0⟩).uval = 2 ^ 128 + 1 := by decide

/-- C06 for i256. Missing: the operand pairs in `SubBorrowLost`. -/
theorem C06_i256_sub_partial (a b : W256) (h : ¬ SubBorrowLost a.uval b.uval) :
    (W256.sub a b).sval = (a.sval - b.sval).bmod (2 ^ 256) := by
  apply W256.seq_bmod
  rw [(C06_u256_sub_iff_partial a b).mpr h, Int.sub_emod a.sval, W256.semod, W256.semod]

theorem C06_i256_sub_fails : ¬ ∀ a b : W256,
    (W256.sub a b).sval = (a.sval - b.sval).bmod (2 ^ 256) := by
  intro h
  exact absurd (h ⟨0, 0, 1, 0⟩ ⟨-1, -1, 0, 0⟩) (by decide)

-- the side condition is met by pairs that do borrow across every limb
example : ¬ SubBorrowLost (W256.uval ⟨0, 0, 0, 1⟩) (W256.uval ⟨1, 0, 0, 0⟩) := by decide
example : W256.sub ⟨0, 0, 0, 1⟩ ⟨1, 0, 0, 0⟩ = ⟨-1, -1, -1, 0⟩ := by decide

/-! ### C07: division -/

/-- The divisor's second and third 64-bit digits are not 2^64-1. -/
def SafeDivisor (n : Nat) : Prop :=
  n / 2 ^ 64 % 2 ^ 64 ≠ 2 ^ 64 - 1 ∧ n / 2 ^ 128 % 2 ^ 64 ≠ 2 ^ 64 - 1

instance (n : Nat) : Decidable (SafeDivisor n) := by unfold SafeDivisor; infer_instance

theorem safe_of_safeDivisor (b : W256) (h : SafeDivisor b.uval) : b.Safe := by
  have g1 := b.w0.isLt; have g2 := b.w1.isLt; have g3 := b.w2.isLt; have g4 := b.w3.isLt
  unfold SafeDivisor W256.uval at h
  unfold W256.Safe
  omega

/-- Full statement of C07 for u256; false, see `C07_u256_div_fails`. -/
def C07_u256_div_statement : Prop := ∀ a b : W256, b.uval ≠ 0 →
  (W256.udiv a b).uval = a.uval / b.uval ∧ (W256.umod a b).uval = a.uval % b.uval

/-- C07 for divisors whose middle digits are not all ones; in particular for every divisor
below 2^64 (ten included). Missing: the other divisors. -/
theorem C07_u256_div_partial (a b : W256) (hb : b.uval ≠ 0) (hs : SafeDivisor b.uval) :
    (W256.udiv a b).uval = a.uval / b.uval ∧ (W256.umod a b).uval = a.uval % b.uval :=
  W256.divmod_uval a b hb (safe_of_safeDivisor b hs)

set_option maxRecDepth 100000 in
/-- 2^129 / (2^128 - 2^64 + 1) is 2, the code returns 3. -/
theorem C07_u256_div_witness : (W256.udiv ⟨0, 0, 2, 0⟩ ⟨1, -1, 0, 0⟩).uval = 3 := by decide +kernel

theorem C07_u256_div_fails : ¬ C07_u256_div_statement := by
  intro h
  have h := (h ⟨0, 0, 2, 0⟩ ⟨1, -1, 0, 0⟩ (by decide)).1
  rw [C07_u256_div_witness] at h
  exact absurd h (by decide)

theorem C07_i256_div_partial (a b : W256) (hb : b.sval ≠ 0) (hs : SafeDivisor b.sval.natAbs) :
    (W256.idiv a b).sval = (a.sval.tdiv b.sval).bmod (2 ^ 256) ∧
    (W256.imod a b).sval = a.sval.tmod b.sval := by
  have hs' : b.magnitude.Safe := safe_of_safeDivisor _ (by rw [W256.magnitude_uval]; exact hs)
  exact ⟨W256.idiv_sval a b hb hs', W256.imod_sval a b hb hs'⟩

theorem C07_i256_div_fails : ¬ ∀ a b : W256, b.sval ≠ 0 →
    (W256.idiv a b).sval = (a.sval.tdiv b.sval).bmod (2 ^ 256) := by
  intro h
  have h := h ⟨0, 0, 2, 0⟩ ⟨1, -1, 0, 0⟩ (by decide)
  have e : W256.idiv ⟨0, 0, 2, 0⟩ ⟨1, -1, 0, 0⟩ = W256.udiv ⟨0, 0, 2, 0⟩ ⟨1, -1, 0, 0⟩ := by rfl
  have e2 : W256.udiv ⟨0, 0, 2, 0⟩ ⟨1, -1, 0, 0⟩ = ⟨3, 0, 0, 0⟩ :=
    W256.ext_uval (by rw [C07_u256_div_witness]; rfl)
  rw [e, e2] at h
  exact absurd h (by decide)

example : SafeDivisor (W256.uval ⟨7, 3, 5, 9⟩) ∧ SafeDivisor 10 := by decide

/-! ### C08 -/

theorem C08_u256 (a b : W256) :
    (W256.eq a b = true ↔ a.uval = b.uval) ∧ (W256.ne a b = true ↔ a.uval ≠ b.uval) ∧
    (W256.ult a b = true ↔ a.uval < b.uval) ∧ (W256.ugt a b = true ↔ a.uval > b.uval) ∧
    (W256.ule a b = true ↔ a.uval ≤ b.uval) ∧ (W256.uge a b = true ↔ a.uval ≥ b.uval) := by
  have e := W256.eq_iff a b
  rw [← W256.uval_inj] at e
  have l1 := W256.ult_iff a b; have l2 := W256.ult_iff b a
  refine ⟨e, ?_, l1, l2, ?_, ?_⟩
  · unfold W256.ne; rw [Bool.not_eq_true', ← Bool.not_eq_true, e]
  · unfold W256.ule W256.ugt; rw [Bool.not_eq_true', ← Bool.not_eq_true, l2]; omega
  · unfold W256.uge; rw [Bool.not_eq_true', ← Bool.not_eq_true, l1]; omega

theorem C08_i256 (a b : W256) :
    (W256.eq a b = true ↔ a.sval = b.sval) ∧ (W256.ne a b = true ↔ a.sval ≠ b.sval) ∧
    (W256.ilt a b = true ↔ a.sval < b.sval) ∧ (W256.igt a b = true ↔ a.sval > b.sval) ∧
    (W256.ile a b = true ↔ a.sval ≤ b.sval) ∧ (W256.ige a b = true ↔ a.sval ≥ b.sval) := by
  have e := W256.eq_iff a b
  rw [← W256.sval_inj] at e
  have l1 := W256.ilt_iff a b; have l2 := W256.ilt_iff b a
  refine ⟨e, ?_, l1, l2, ?_, ?_⟩
  · unfold W256.ne; rw [Bool.not_eq_true', ← Bool.not_eq_true, e]
  · unfold W256.ile W256.igt; rw [Bool.not_eq_true', ← Bool.not_eq_true, l2]; omega
  · unfold W256.ige; rw [Bool.not_eq_true', ← Bool.not_eq_true, l1]; omega

example : W256.ilt ⟨0, 0, 0, -1⟩ ⟨0, 0, 0, 0⟩ = true ∧ W256.ult ⟨0, 0, 0, -1⟩ ⟨0, 0, 0, 0⟩ = false := by
  decide

/-! ### C10 -/

theorem C10_u256_to_u64 (a : W256) :
    ExactOrPanic 0 (2 ^ 64 - 1) (a.uval : Int) (fun r => (r.toNat : Int)) (W256.uToU64 a) := by
  have h1 := a.w0.isLt; have h2 := a.w1.isLt; have h3 := a.w2.isLt; have h4 := a.w3.isLt
  have hc : (a.w1 ≠ 0 ∨ a.w2 ≠ 0 ∨ a.w3 ≠ 0) ↔ ¬ a.uval ≤ 2 ^ 64 - 1 := by
    rw [Ne, Ne, Ne, toNat_eq_zero, toNat_eq_zero, toNat_eq_zero]; unfold W256.uval; omega
  unfold W256.uToU64
  constructor
  · intro h
    rw [if_neg (by rw [hc]; omega)]
    refine ⟨_, rfl, ?_⟩
    unfold W256.uval at *; show (a.w0.toNat : Int) = _; omega
  · intro h
    rw [if_pos (by rw [hc]; omega)]
    exact ⟨_, rfl⟩

theorem C10_u256_to_i64 (a : W256) :
    ExactOrPanic (-2 ^ 63) (2 ^ 63 - 1) (a.uval : Int) (fun r => r.toInt) (W256.uToI64 a) := by
  have h1 := a.w0.isLt; have h2 := a.w1.isLt; have h3 := a.w2.isLt; have h4 := a.w3.isLt
  have hm : (0x7FFFFFFFFFFFFFFF : BitVec 64).toNat = 2 ^ 63 - 1 := rfl
  have hc : (a.w1 ≠ 0 ∨ a.w2 ≠ 0 ∨ a.w3 ≠ 0 ∨ a.w0 > 0x7FFFFFFFFFFFFFFF) ↔ ¬ a.uval ≤ 2 ^ 63 - 1 := by
    rw [Ne, Ne, Ne, toNat_eq_zero, toNat_eq_zero, toNat_eq_zero, gt_iff_lt, BitVec.lt_def, hm]
    unfold W256.uval; omega
  unfold W256.uToI64
  constructor
  · intro h
    rw [if_neg (by rw [hc]; omega)]
    refine ⟨_, rfl, ?_⟩
    simp only [BitVec.toInt_eq_toNat_cond]
    unfold W256.uval at *
    split <;> omega
  · intro h
    rw [if_pos (by rw [hc]; omega)]
    exact ⟨_, rfl⟩

theorem C10_i256_to_u64 (a : W256) :
    ExactOrPanic 0 (2 ^ 64 - 1) a.sval (fun r => (r.toNat : Int)) (W256.iToU64 a) := by
  have h1 := a.w0.isLt; have h2 := a.w1.isLt; have h3 := a.w2.isLt
  have h4 : a.w3 = 0 ↔ a.w3.toInt = 0 := by rw [← BitVec.toInt_inj]; rfl
  have hc : (a.w1 ≠ 0 ∨ a.w2 ≠ 0 ∨ a.w3 ≠ 0) ↔ ¬ (0 ≤ a.sval ∧ a.sval ≤ 2 ^ 64 - 1) := by
    rw [Ne, Ne, Ne, toNat_eq_zero, toNat_eq_zero, h4]; unfold W256.sval; omega
  unfold W256.iToU64
  constructor
  · intro h
    rw [if_neg (by rw [hc]; omega)]
    refine ⟨_, rfl, ?_⟩
    have h0 : ¬ (a.w1 ≠ 0 ∨ a.w2 ≠ 0 ∨ a.w3 ≠ 0) := by rw [hc]; omega
    rw [Ne, Ne, Ne, toNat_eq_zero, toNat_eq_zero, h4] at h0
    unfold W256.sval at *; show (a.w0.toNat : Int) = _; omega
  · intro h
    rw [if_pos (by rw [hc]; omega)]
    exact ⟨_, rfl⟩

theorem C10_i256_to_i64 (a : W256) :
    ExactOrPanic (-2 ^ 63) (2 ^ 63 - 1) a.sval (fun r => r.toInt) (W256.iToI64 a) := by
  have h1 := a.w0.isLt; have h2 := a.w1.isLt; have h3 := a.w2.isLt; have h4 := a.w3.isLt
  have hs : (a.w0.sshiftRight 63).toInt = if a.w0.toNat < 2 ^ 63 then 0 else -1 := by
    rw [BitVec.toInt_sshiftRight, Int.shiftRight_eq_div_pow, BitVec.toInt_eq_toNat_cond]
    split <;> split <;> omega
  have hc : (a.w1 ≠ a.w0.sshiftRight 63 ∨ a.w2 ≠ a.w0.sshiftRight 63 ∨ a.w3 ≠ a.w0.sshiftRight 63)
      ↔ ¬ (-2 ^ 63 ≤ a.sval ∧ a.sval ≤ 2 ^ 63 - 1) := by
    rw [Ne, Ne, Ne, ← BitVec.toInt_inj, ← BitVec.toInt_inj, ← BitVec.toInt_inj, hs]
    unfold W256.sval
    have e1 := BitVec.toInt_eq_toNat_cond a.w1
    have e2 := BitVec.toInt_eq_toNat_cond a.w2
    have e3 := BitVec.toInt_eq_toNat_cond a.w3
    split at e1 <;> split at e2 <;> split at e3 <;> split <;> omega
  unfold W256.iToI64
  simp only
  constructor
  · intro h
    rw [if_neg (by rw [hc]; omega)]
    refine ⟨_, rfl, ?_⟩
    have h0 : ¬ (a.w1 ≠ a.w0.sshiftRight 63 ∨ a.w2 ≠ a.w0.sshiftRight 63 ∨ a.w3 ≠ a.w0.sshiftRight 63) := by
      rw [hc]; omega
    have e0 := BitVec.toInt_eq_toNat_cond a.w0
    have e1 := BitVec.toInt_eq_toNat_cond a.w1
    have e2 := BitVec.toInt_eq_toNat_cond a.w2
    have e3 := BitVec.toInt_eq_toNat_cond a.w3
    rw [Ne, Ne, Ne, ← BitVec.toInt_inj, ← BitVec.toInt_inj, ← BitVec.toInt_inj, hs] at h0
    unfold W256.sval at *
    show a.w0.toInt = _
    split at e0 <;> split at e1 <;> split at e2 <;> split at e3 <;> split at h0 <;> omega
  · intro h
    rw [if_pos (by rw [hc]; omega)]
    exact ⟨_, rfl⟩

theorem C10_from_64_to_256 (v : BitVec 64) :
    (W256.fromU64 v).uval = v.toNat ∧ (W256.fromI64 v).sval = v.toInt := by
  have h1 := v.isLt
  constructor
  · unfold W256.fromU64 W256.uval; simp
  · unfold W256.fromI64 W256.sval
    have hz : (0 : BitVec 64).toInt = 0 := rfl
    have hm : (-1 : BitVec 64).toInt = -1 := rfl
    have hz' : (0 : BitVec 64).toNat = 0 := rfl
    have hm' : (-1 : BitVec 64).toNat = 2 ^ 64 - 1 := rfl
    have := BitVec.toInt_eq_toNat_cond v
    simp only [BitVec.slt_iff_toInt_lt, hz]
    split
    · rw [hm, hm']; split at this <;> omega
    · rw [hz, hz']; split at this <;> omega

/-! ### C11: casts between wide types -/

/-- Widening casts are exact. -/
theorem C11_widen (a : I128) (u : U128) :
    (W256.fromI128 a).sval = a.val ∧ (W256.fromU128 u).uval = u.val := by
  have hz : (0 : BitVec 64).toInt = 0 := rfl
  have hm : (-1 : BitVec 64).toInt = -1 := rfl
  have hz' : (0 : BitVec 64).toNat = 0 := rfl
  have hm' : (-1 : BitVec 64).toNat = 2 ^ 64 - 1 := rfl
  constructor
  · have h1 := a.lo.isLt; have h2 := a.hi.isLt
    have e := BitVec.toInt_eq_toNat_cond a.hi
    unfold W256.fromI128 W256.sval I128.val
    simp only [BitVec.slt_iff_toInt_lt, hz]
    split
    · rw [hm, hm']; split at e <;> omega
    · rw [hz, hz']; split at e <;> omega
  · unfold W256.fromU128 W256.uval U128.val
    simp only [hz']; omega

/-- Sign-changing and narrowing casts are exact exactly when the value fits, and silently
reduce modulo the width otherwise (there is no failure path). Missing from the full statement:
the values that do not fit. -/
theorem C11_u128_of_i128_partial (a : I128) :
    ((U128.fromI128 a).val : Int) = a.val % 2 ^ 128 ∧
    (((U128.fromI128 a).val : Int) = a.val ↔ 0 ≤ a.val) := by
  have h := I128.emod a
  have hr := a.range
  have e : (U128.fromI128 a).val = a.bits.val := rfl
  rw [e]; omega

theorem C11_i128_of_u128_partial (a : U128) :
    (I128.fromU128 a).val = (a.val : Int).bmod (2 ^ 128) ∧
    ((I128.fromU128 a).val = (a.val : Int) ↔ a.val < 2 ^ 127) := by
  have e := I128.val_bmod (I128.fromU128 a)
  have e2 := I128.val_eq (I128.fromU128 a)
  have hlt := a.val_lt
  have : (I128.fromU128 a).bits.val = a.val := rfl
  rw [this] at e e2
  refine ⟨e, ?_⟩
  split at e2 <;> omega

theorem C11_i128_of_i256_partial (a : W256) :
    (W256.toI128 a).val = a.sval.bmod (2 ^ 128) ∧
    ((W256.toI128 a).val = a.sval ↔ (-2 ^ 127 ≤ a.sval ∧ a.sval < 2 ^ 127)) := by
  have e : (W256.toI128 a).val = a.sval.bmod (2 ^ 128) := by
    apply I128.eq_bmod
    have h := W256.semod a
    have h1 := a.w0.isLt; have h2 := a.w1.isLt
    show ((W256.toI128 a).bits.val : Int) = _
    unfold W256.toI128 I128.bits U128.val W256.sval
    simp only
    omega
  refine ⟨e, ?_⟩
  have hr := (W256.toI128 a).range
  constructor
  · intro h; omega
  · intro h; rw [e]; exact bmod128_of_range h.1 h.2

theorem C11_u128_of_u256_partial (a : W256) :
    (W256.toU128 a).val = a.uval % 2 ^ 128 ∧
    ((W256.toU128 a).val = a.uval ↔ a.uval < 2 ^ 128) := by
  have h1 := a.w0.isLt; have h2 := a.w1.isLt
  unfold W256.toU128 U128.val W256.uval
  simp only
  omega

/-- C11 fails: casting -1 from i128 to u128 silently gives 2^128 - 1, and casting 2^128 from
u256 to u128 silently gives 0. -/
theorem C11_wide_cast_fails :
    (∃ a : I128, a.val = -1 ∧ (U128.fromI128 a).val = 2 ^ 128 - 1) ∧
    (∃ a : W256, a.uval = 2 ^ 128 ∧ (W256.toU128 a).val = 0) :=
  ⟨⟨⟨-1, -1⟩, by decide⟩, ⟨⟨0, 0, 1, 0⟩, by decide⟩⟩

/-! ### C12: division by zero on wide integers -/

/-- C12 fails for every wide type: dividing by zero returns 0 for every dividend. -/
theorem C12_wide_div_zero_fails :
    (∀ a : U128, U128.div a U128.zero = U128.zero ∧ U128.mod a U128.zero = U128.zero) ∧
    (∀ a : I128, I128.div a I128.zero = I128.zero ∧ I128.mod a I128.zero = I128.zero) ∧
    (∀ a : W256, W256.udiv a W256.zero = W256.zero ∧ W256.umod a W256.zero = W256.zero) ∧
    (∀ a : W256, W256.idiv a W256.zero = W256.zero ∧ W256.imod a W256.zero = W256.zero) := by
  refine ⟨fun a => ⟨rfl, rfl⟩, fun a => ⟨rfl, rfl⟩, fun a => ⟨rfl, rfl⟩, fun a => ⟨rfl, rfl⟩⟩

/-! ### C61: checked 256-bit arithmetic -/

theorem C61_u256_add (a b : W256) :
    ExactOrPanic 0 (2 ^ 256 - 1) ((a.uval : Int) + b.uval) (fun r => (r.uval : Int))
      (W256.uaddChecked a b) := by
  have ha := a.uval_lt; have hb := b.uval_lt
  unfold W256.uaddChecked
  simp only
  have hlt := W256.ult_iff (W256.add a b) a
  rw [W256.add_uval] at hlt
  constructor
  · intro h
    rw [if_neg (by rw [hlt]; omega)]
    exact ⟨_, rfl, by simp only [W256.add_uval]; omega⟩
  · intro h
    rw [if_pos (by rw [hlt]; omega)]
    exact ⟨_, rfl⟩

theorem C61_i256_add (a b : W256) :
    ExactOrPanic (-2 ^ 255) (2 ^ 255 - 1) (a.sval + b.sval) W256.sval (W256.iaddChecked a b) := by
  have ha := a.srange; have hb := b.srange; have hr := (W256.add a b).srange
  have hv := W256.add_sval a b
  unfold W256.iaddChecked
  simp only [W256.isNeg_iff]
  rw [Int.bmod_def] at hv
  constructor
  · intro h
    have hn : (W256.add a b).sval = a.sval + b.sval := by rw [hv]; split <;> omega
    rw [if_neg]
    · exact ⟨_, rfl, hn⟩
    · simp only [Bool.or_eq_true, Bool.and_eq_true, Bool.not_eq_true', decide_eq_true_eq, decide_eq_false_iff_not]
      omega
  · intro h
    rw [if_pos]
    · exact ⟨_, rfl⟩
    · simp only [Bool.or_eq_true, Bool.and_eq_true, Bool.not_eq_true', decide_eq_true_eq, decide_eq_false_iff_not]
      split at hv <;> omega

/-- Missing: operand pairs with a lost borrow. -/
theorem C61_u256_sub_partial (a b : W256) (h : ¬ SubBorrowLost a.uval b.uval) :
    ExactOrPanic 0 (2 ^ 256 - 1) ((a.uval : Int) - b.uval) (fun r => (r.uval : Int))
      (W256.usubChecked a b) := by
  have ha := a.uval_lt; have hb := b.uval_lt
  have hs := (C06_u256_sub_iff_partial a b).mpr h
  unfold W256.usubChecked
  constructor
  · intro h
    rw [if_neg (by rw [W256.ult_iff]; omega)]
    exact ⟨_, rfl, by simp only; omega⟩
  · intro h
    rw [if_pos (by rw [W256.ult_iff]; omega)]
    exact ⟨_, rfl⟩

/-- The code returns 2^128 + 1 for 2^128 - (2^128 - 1), without a panic. -/
theorem C61_u256_sub_fails : ¬ ∀ a b : W256,
    ExactOrPanic 0 (2 ^ 256 - 1) ((a.uval : Int) - b.uval) (fun r => (r.uval : Int))
      (W256.usubChecked a b) := by
  intro h
  obtain ⟨r, hr, hv⟩ := (h ⟨0, 0, 1, 0⟩ ⟨-1, -1, 0, 0⟩).1 (by decide)
  have e : W256.usubChecked ⟨0, 0, 1, 0⟩ ⟨-1, -1, 0, 0⟩ = .ok ⟨1, 0, 1, 0⟩ := by decide
  rw [e] at hr
  cases hr
  exact absurd hv (by decide)

/-- Missing: operand pairs with a lost borrow. -/
theorem C61_i256_sub_partial (a b : W256) (h : ¬ SubBorrowLost a.uval b.uval) :
    ExactOrPanic (-2 ^ 255) (2 ^ 255 - 1) (a.sval - b.sval) W256.sval (W256.isubChecked a b) := by
  have ha := a.srange; have hb := b.srange; have hr := (W256.sub a b).srange
  have hv := C06_i256_sub_partial a b h
  unfold W256.isubChecked
  simp only [W256.isNeg_iff]
  rw [Int.bmod_def] at hv
  constructor
  · intro h
    have hn : (W256.sub a b).sval = a.sval - b.sval := by rw [hv]; split <;> omega
    rw [if_neg]
    · exact ⟨_, rfl, hn⟩
    · simp only [Bool.or_eq_true, Bool.and_eq_true, Bool.not_eq_true', decide_eq_true_eq, decide_eq_false_iff_not]
      omega
  · intro h
    rw [if_pos]
    · exact ⟨_, rfl⟩
    · simp only [Bool.or_eq_true, Bool.and_eq_true, Bool.not_eq_true', decide_eq_true_eq, decide_eq_false_iff_not]
      split at hv <;> omega

/-- Missing: right operands that are not safe divisors. -/
theorem C61_u256_mul_partial (a b : W256) (hs : SafeDivisor b.uval) :
    ExactOrPanic 0 (2 ^ 256 - 1) ((a.uval : Int) * b.uval) (fun r => (r.uval : Int))
      (W256.umulChecked a b) := by
  have ha := a.uval_lt; have hb := b.uval_lt
  have za := W256.isZero_iff a; have zb := W256.isZero_iff b
  unfold W256.umulChecked
  simp only
  by_cases h0 : a.uval = 0 ∨ b.uval = 0
  · have hp : a.uval * b.uval = 0 := by rcases h0 with h | h <;> simp [h]
    have hc : (!a.isZero && !b.isZero) = false := by
      rcases h0 with h | h
      · rw [za.mpr h]; rfl
      · rw [zb.mpr h]; simp
    rw [hc]
    have hpi : (a.uval : Int) * b.uval = 0 := by exact_mod_cast hp
    constructor
    · intro _
      refine ⟨_, rfl, ?_⟩
      simp only [W256.mul_uval, hp, hpi]; rfl
    · intro h; exact absurd (by rw [hpi]; decide) h
  · have h1 : a.uval ≠ 0 := fun h => h0 (Or.inl h)
    have h2 : b.uval ≠ 0 := fun h => h0 (Or.inr h)
    have hc : (!a.isZero && !b.isZero) = true := by
      have e1 : a.isZero = false := by rw [← Bool.not_eq_true, za]; exact h1
      have e2 : b.isZero = false := by rw [← Bool.not_eq_true, zb]; exact h2
      rw [e1, e2]; rfl
    rw [hc, if_pos rfl]
    have hd := (C07_u256_div_partial (W256.mul a b) b h2 hs).1
    rw [W256.mul_uval] at hd
    have he : W256.eq (W256.udiv (W256.mul a b) b) a = true ↔ a.uval * b.uval < 2 ^ 256 := by
      rw [W256.eq_iff, ← W256.uval_inj, hd]
      constructor
      · intro h
        by_contra hge
        have : a.uval * b.uval % 2 ^ 256 / b.uval < a.uval := by
          rw [Nat.div_lt_iff_lt_mul (by omega)]
          have := Nat.mod_lt (a.uval * b.uval) (show 0 < 2 ^ 256 by decide)
          omega
        omega
      · intro h
        rw [Nat.mod_eq_of_lt h]
        exact Nat.mul_div_cancel _ (by omega)
    constructor
    · intro h
      have hlt : a.uval * b.uval < 2 ^ 256 := by
        have h2 := h.2
        rw [← Int.natCast_mul] at h2
        generalize a.uval * b.uval = p at *
        omega
      rw [if_neg (by rw [he.mpr hlt]; decide)]
      refine ⟨_, rfl, ?_⟩
      simp only [W256.mul_uval, Nat.mod_eq_of_lt hlt]; push_cast; rfl
    · intro h
      have hge : ¬ a.uval * b.uval < 2 ^ 256 := by
        intro hlt; apply h
        rw [← Int.natCast_mul]
        generalize a.uval * b.uval = p at *
        omega
      rw [if_pos]
      · exact ⟨_, rfl⟩
      · have : W256.eq (W256.udiv (W256.mul a b) b) a = false := by
          rw [← Bool.not_eq_true, he]; exact hge
        rw [this]; rfl

set_option maxRecDepth 100000 in
/-- `u256` 5 * (2^128 - 1) fits easily, and yet the checked multiplication panics. -/
theorem C61_u256_mul_witness : W256.umulChecked ⟨5, 0, 0, 0⟩ ⟨-1, -1, 0, 0⟩ = .panic "P0032" := by
  decide +kernel

theorem C61_u256_mul_fails : ¬ ∀ a b : W256,
    ExactOrPanic 0 (2 ^ 256 - 1) ((a.uval : Int) * b.uval) (fun r => (r.uval : Int))
      (W256.umulChecked a b) := by
  intro h
  obtain ⟨r, hr, _⟩ := (h ⟨5, 0, 0, 0⟩ ⟨-1, -1, 0, 0⟩).1 (by decide)
  rw [C61_u256_mul_witness] at hr
  cases hr

theorem tdiv_range256 {a b : Int} (ha : -2 ^ 255 ≤ a ∧ a < 2 ^ 255) (hb : b ≠ 0)
    (hx : ¬ (a = -2 ^ 255 ∧ b = -1)) : -2 ^ 255 ≤ a.tdiv b ∧ a.tdiv b < 2 ^ 255 := by
  have e := tdiv_abs a b
  have hna : (a.natAbs : Int) = a ∨ (a.natAbs : Int) = -a := by omega
  have hle : a.natAbs / b.natAbs ≤ a.natAbs := Nat.div_le_self _ _
  have hneg : ((decide (a < 0)) != (decide (b < 0))) = true ↔ ((a < 0) ↔ ¬ (b < 0)) := by
    by_cases h1 : a < 0 <;> by_cases h2 : b < 0 <;> simp [h1, h2]
  have hab : a.natAbs ≤ 2 ^ 255 := by omega
  have hmin : a.natAbs = 2 ^ 255 → a = -2 ^ 255 := by omega
  have hle2 : a.natAbs / b.natAbs = 2 ^ 255 → b.natAbs = 1 ∧ a.natAbs = 2 ^ 255 := by
    intro h
    refine ⟨?_, by omega⟩
    by_contra h1
    have h2 : 2 ≤ b.natAbs := by omega
    have : a.natAbs / b.natAbs ≤ a.natAbs / 2 := Nat.div_le_div_left h2 (by decide)
    omega
  generalize a.natAbs / b.natAbs = q at *
  rw [e]
  split
  · omega
  · rename_i hn
    rw [hneg] at hn
    refine ⟨by omega, ?_⟩
    by_contra hq
    have := hle2 (by omega)
    have := hmin this.2
    omega

/-- Missing: right operands whose magnitude is not a safe divisor, and (MIN, -1). -/
theorem C61_i256_mul_partial (a b : W256) (hs : SafeDivisor b.sval.natAbs)
    (hx : ¬ (a.sval = -2 ^ 255 ∧ b.sval = -1)) :
    ExactOrPanic (-2 ^ 255) (2 ^ 255 - 1) (a.sval * b.sval) W256.sval (W256.imulChecked a b) := by
  have ha := a.srange; have hb := b.srange
  have za := W256.sval_zero_iff a; have zb := W256.sval_zero_iff b
  have hm := W256.mul_sval a b
  unfold W256.imulChecked
  simp only
  by_cases h0 : a.sval = 0 ∨ b.sval = 0
  · have hp : a.sval * b.sval = 0 := by rcases h0 with h | h <;> simp [h]
    have hc : (!a.isZero && !b.isZero) = false := by
      rcases h0 with h | h
      · rw [za.mpr h]; rfl
      · rw [zb.mpr h]; simp
    rw [hc]
    constructor
    · intro _
      refine ⟨_, rfl, ?_⟩
      rw [hm, hp]; rfl
    · intro h; exact absurd (by rw [hp]; decide) h
  · have h1 : a.sval ≠ 0 := fun h => h0 (Or.inl h)
    have h2 : b.sval ≠ 0 := fun h => h0 (Or.inr h)
    have hc : (!a.isZero && !b.isZero) = true := by
      have e1 : a.isZero = false := by rw [← Bool.not_eq_true, za]; exact h1
      have e2 : b.isZero = false := by rw [← Bool.not_eq_true, zb]; exact h2
      rw [e1, e2]; rfl
    rw [hc, if_pos rfl]
    have hr := (W256.mul a b).srange
    have he : W256.eq (W256.idiv (W256.mul a b) b) a = true
        ↔ (-2 ^ 255 ≤ a.sval * b.sval ∧ a.sval * b.sval ≤ 2 ^ 255 - 1) := by
      rw [W256.eq_iff, ← W256.sval_inj, (C07_i256_div_partial _ _ h2 hs).1]
      constructor
      · intro h
        by_contra hge
        have hfar : 2 ^ 256 ≤ ((W256.mul a b).sval - a.sval * b.sval).natAbs := by
          have hk : (2 : Int) ^ 256 ∣ (W256.mul a b).sval - a.sval * b.sval := by
            rw [hm]
            have := Int.bmod_emod (x := a.sval * b.sval) (m := 2 ^ 256)
            apply Int.dvd_of_emod_eq_zero
            rw [Int.sub_emod]
            have e : ((2 ^ 256 : Nat) : Int) = 2 ^ 256 := by norm_num
            rw [e] at this
            rw [this]; simp
          obtain ⟨k, hk⟩ := hk
          have : k ≠ 0 := by
            intro hk0; rw [hk0] at hk; omega
          omega
        by_cases hw : (W256.mul a b).sval = -2 ^ 255 ∧ b.sval = -1
        · rw [hw.1, hw.2] at h
          have : ((-2 ^ 255 : Int).tdiv (-1)).bmod (2 ^ 256) = -2 ^ 255 := by decide
          rw [this] at h
          exact hx ⟨h.symm, hw.2⟩
        · have hrange := tdiv_range256 hr h2 hw
          rw [W256.bmod256_of_range hrange.1 hrange.2] at h
          have hlaw := Int.tmod_add_mul_tdiv (W256.mul a b).sval b.sval
          rw [h, Int.mul_comm b.sval a.sval] at hlaw
          have hsmall : ((W256.mul a b).sval.tmod b.sval).natAbs < b.sval.natAbs := by
            rw [Int.natAbs_tmod]; exact Nat.mod_lt _ (by omega)
          omega
      · intro h
        have : (W256.mul a b).sval = a.sval * b.sval := by
          rw [hm]; exact W256.bmod256_of_range h.1 (by omega)
        rw [this, Int.mul_tdiv_cancel _ h2]
        exact W256.bmod256_of_range ha.1 ha.2
    constructor
    · intro h
      rw [if_neg (by rw [he.mpr h]; decide)]
      exact ⟨_, rfl, by rw [hm]; exact W256.bmod256_of_range h.1 (by omega)⟩
    · intro h
      rw [if_pos]
      · exact ⟨_, rfl⟩
      · have : W256.eq (W256.idiv (W256.mul a b) b) a = false := by
          rw [← Bool.not_eq_true, he]; exact h
        rw [this]; rfl

set_option maxRecDepth 100000 in
/-- `i256` MIN * -1 returns MIN, and 5 * (2^128 - 1) panics. -/
theorem C61_i256_mul_witness :
    W256.imulChecked ⟨0, 0, 0, 0x8000000000000000⟩ ⟨-1, -1, -1, -1⟩ = .ok ⟨0, 0, 0, 0x8000000000000000⟩ ∧
    W256.imulChecked ⟨5, 0, 0, 0⟩ ⟨-1, -1, 0, 0⟩ = .panic "P0029" := by
  decide +kernel

theorem C61_i256_mul_fails : ¬ ∀ a b : W256,
    ExactOrPanic (-2 ^ 255) (2 ^ 255 - 1) (a.sval * b.sval) W256.sval (W256.imulChecked a b) := by
  intro h
  obtain ⟨r, hr, _⟩ := (h ⟨5, 0, 0, 0⟩ ⟨-1, -1, 0, 0⟩).1 (by decide)
  rw [C61_i256_mul_witness.2] at hr
  cases hr

example : SafeDivisor (W256.uval ⟨-1, 5, 0, 77⟩) := by decide
example : ¬ SubBorrowLost (W256.uval ⟨3, 5, -1, 77⟩) (W256.uval ⟨7, 2, 5, 1⟩) := by decide

end Verif.Props

import Verif.Model.Bigint256
import Verif.Lemmas.Bigint128
/-
Helper lemmas for the 256-bit model.
-/
namespace Verif.Bigint
namespace W256

theorem uval_lt (a : W256) : a.uval < 2 ^ 256 := by
  have := a.w0.isLt; have := a.w1.isLt; have := a.w2.isLt; have := a.w3.isLt
  unfold uval; omega

theorem ext_uval {a b : W256} (h : a.uval = b.uval) : a = b := by
  have h1 := a.w0.isLt; have h2 := a.w1.isLt; have h3 := a.w2.isLt; have h4 := a.w3.isLt
  have g1 := b.w0.isLt; have g2 := b.w1.isLt; have g3 := b.w2.isLt; have g4 := b.w3.isLt
  unfold uval at h
  have e0 : a.w0 = b.w0 := BitVec.eq_of_toNat_eq (by omega)
  have e1 : a.w1 = b.w1 := BitVec.eq_of_toNat_eq (by omega)
  have e2 : a.w2 = b.w2 := BitVec.eq_of_toNat_eq (by omega)
  have e3 : a.w3 = b.w3 := BitVec.eq_of_toNat_eq (by omega)
  cases a; cases b; simp_all

theorem uval_inj {a b : W256} : a.uval = b.uval ↔ a = b :=
  ⟨ext_uval, fun h => by rw [h]⟩

theorem eq_iff (a b : W256) : eq a b = true ↔ a = b := by
  cases a; cases b; simp [eq, and_assoc]

theorem isZero_iff (b : W256) : b.isZero = true ↔ b.uval = 0 := by
  unfold isZero uval
  simp only [Bool.and_eq_true, beq_iff_eq, toNat_eq_zero]
  omega

/-! ### Addition, subtraction, negation -/

theorem addStep_val (x y c : BitVec 64) (hc : c.toNat ≤ 1) :
    (addStep x y c).1.toNat + (addStep x y c).2.toNat * 2 ^ 64 = x.toNat + y.toNat + c.toNat ∧
    (addStep x y c).2.toNat ≤ 1 := by
  have h1 := x.isLt; have h2 := y.isLt
  have z : (0 : BitVec 64).toNat = 0 := rfl
  unfold addStep
  simp only [z, b2w_toNat, Bool.or_eq_true, Bool.and_eq_true, bne_iff_ne, beq_iff_eq, ne_eq,
    toNat_eq_zero, ← BitVec.toNat_inj, BitVec.lt_def, decide_eq_true_eq, BitVec.toNat_add]
  split <;> omega

theorem add_uval (a b : W256) : (add a b).uval = (a.uval + b.uval) % 2 ^ 256 := by
  have hr := (add a b).uval_lt
  have h0 := addStep_val a.w0 b.w0 0 (by decide)
  have h1 := addStep_val a.w1 b.w1 (addStep a.w0 b.w0 0).2 h0.2
  have h2 := addStep_val a.w2 b.w2 _ h1.2
  have h3 := addStep_val a.w3 b.w3 _ h2.2
  have z : (0 : BitVec 64).toNat = 0 := rfl
  rw [z] at h0
  unfold add uval at *
  simp only at *
  omega

/-- Exact behaviour of one subtraction step when the subtrahend limb is not all ones or there
is no incoming borrow. -/
theorem subStep_val (x y c : BitVec 64) (hc : c.toNat ≤ 1) (hy : y.toNat + c.toNat < 2 ^ 64) :
    (subStep x y c).1.toNat + y.toNat + c.toNat = x.toNat + (subStep x y c).2.toNat * 2 ^ 64 ∧
    (subStep x y c).2.toNat ≤ 1 := by
  have h1 := x.isLt; have h2 := y.isLt
  unfold subStep
  simp only [b2w_toNat, BitVec.lt_def, decide_eq_true_eq, BitVec.toNat_add, BitVec.toNat_sub]
  split <;> omega

/-- When an all-ones limb meets a borrow the computed borrow is 0 although the true one is 1. -/
theorem subStep_bad (x y c : BitVec 64) (hc : c.toNat ≤ 1) (hy : 2 ^ 64 ≤ y.toNat + c.toNat) :
    (subStep x y c).1.toNat = x.toNat ∧ (subStep x y c).2.toNat = 0 := by
  have h1 := x.isLt; have h2 := y.isLt
  unfold subStep
  simp only [b2w_toNat, BitVec.lt_def, decide_eq_true_eq, BitVec.toNat_add, BitVec.toNat_sub]
  split <;> omega

theorem subStep_borrow_le (x y c : BitVec 64) : (subStep x y c).2.toNat ≤ 1 := by
  unfold subStep; simp only [b2w_toNat]; split <;> omega

/-- The last limb's difference does not depend on the borrow out. -/
theorem subStep_diff (x y c : BitVec 64) (hc : c.toNat ≤ 1) :
    ∃ k : Nat, k ≤ 2 ∧
      (subStep x y c).1.toNat + y.toNat + c.toNat = x.toNat + k * 2 ^ 64 := by
  have h1 := x.isLt; have h2 := y.isLt
  unfold subStep
  simp only [BitVec.toNat_sub]
  refine ⟨((2 ^ 64 - c.toNat + (2 ^ 64 - y.toNat + x.toNat) % 2 ^ 64) % 2 ^ 64 + y.toNat + c.toNat - x.toNat) / 2 ^ 64, ?_, ?_⟩
  <;> omega

theorem sub_uval (a b : W256)
    (hb1 : ¬ (b.w1.toNat = 2 ^ 64 - 1 ∧ (subStep a.w0 b.w0 0).2.toNat = 1))
    (hb2 : ¬ (b.w2.toNat = 2 ^ 64 - 1 ∧ (subStep a.w1 b.w1 (subStep a.w0 b.w0 0).2).2.toNat = 1)) :
    (sub a b).uval = (a.uval + (2 ^ 256 - b.uval)) % 2 ^ 256 := by
  have hr := (sub a b).uval_lt
  have l1 := b.w0.isLt; have l2 := b.w1.isLt; have l3 := b.w2.isLt; have l4 := b.w3.isLt
  have z : (0 : BitVec 64).toNat = 0 := rfl
  have c0 := subStep_borrow_le a.w0 b.w0 0
  have h0 := subStep_val a.w0 b.w0 0 (by decide) (by rw [z]; omega)
  have c1 := subStep_borrow_le a.w1 b.w1 (subStep a.w0 b.w0 0).2
  have h1 := subStep_val a.w1 b.w1 (subStep a.w0 b.w0 0).2 c0 (by omega)
  have c2 := subStep_borrow_le a.w2 b.w2 (subStep a.w1 b.w1 (subStep a.w0 b.w0 0).2).2
  have h2 := subStep_val a.w2 b.w2 _ c1 (by omega)
  obtain ⟨k, hk, h3⟩ := subStep_diff a.w3 b.w3 _ c2
  rw [z] at h0
  unfold sub uval at *
  simp only at *
  generalize (subStep a.w3 b.w3 (subStep a.w2 b.w2 (subStep a.w1 b.w1 (subStep a.w0 b.w0 0).2).2).2).1.toNat = d3 at *
  generalize (subStep a.w2 b.w2 (subStep a.w1 b.w1 (subStep a.w0 b.w0 0).2).2).1.toNat = d2 at *
  generalize (subStep a.w2 b.w2 (subStep a.w1 b.w1 (subStep a.w0 b.w0 0).2).2).2.toNat = e2 at *
  generalize (subStep a.w1 b.w1 (subStep a.w0 b.w0 0).2).1.toNat = d1 at *
  generalize (subStep a.w1 b.w1 (subStep a.w0 b.w0 0).2).2.toNat = e1 at *
  generalize (subStep a.w0 b.w0 0).1.toNat = d0 at *
  generalize (subStep a.w0 b.w0 0).2.toNat = e0 at *
  omega

theorem negStep_val (x c : BitVec 64) (hc : c.toNat ≤ 1) :
    (negStep x c).1.toNat + x.toNat + (negStep x c).2.toNat * 2 ^ 64 = 2 ^ 64 - 1 + c.toNat ∧
    (negStep x c).2.toNat ≤ 1 := by
  have h1 := x.isLt
  unfold negStep
  simp only [b2w_toNat, BitVec.lt_def, decide_eq_true_eq, BitVec.toNat_add, BitVec.toNat_not]
  split <;> omega

theorem neg_uval (a : W256) : (neg a).uval = (2 ^ 256 - a.uval) % 2 ^ 256 := by
  have hr := (neg a).uval_lt
  have ha := a.uval_lt
  have o : (1 : BitVec 64).toNat = 1 := rfl
  have h0 := negStep_val a.w0 1 (by decide)
  have h1 := negStep_val a.w1 (negStep a.w0 1).2 h0.2
  have h2 := negStep_val a.w2 _ h1.2
  have h3 := negStep_val a.w3 _ h2.2
  rw [o] at h0
  unfold neg uval at *
  simp only at *
  omega

/-! ### Multiplication -/

theorem mulStep_val (old x y c : BitVec 64) :
    (mulStep old x y c).1.toNat + (mulStep old x y c).2.toNat * 2 ^ 64
      = old.toNat + x.toNat * y.toNat + c.toNat := by
  have hhi := mulHi_toNat x y
  unfold mulStep
  simp only
  generalize hH : (x >>> 32) * (y >>> 32)
      + (((x &&& (0xFFFFFFFF : BitVec 64)) * (y >>> 32)
          + (((x &&& (0xFFFFFFFF : BitVec 64)) * (y &&& (0xFFFFFFFF : BitVec 64))) >>> 32)) >>> 32)
      + (((((x &&& (0xFFFFFFFF : BitVec 64)) * (y >>> 32)
          + (((x &&& (0xFFFFFFFF : BitVec 64)) * (y &&& (0xFFFFFFFF : BitVec 64))) >>> 32)) &&& (0xFFFFFFFF : BitVec 64))
          + (x >>> 32) * (y &&& (0xFFFFFFFF : BitVec 64))) >>> 32) = H at *
  have h1 := x.isLt; have h2 := y.isLt; have h3 := old.isLt; have h4 := c.isLt
  have o : (1 : BitVec 64).toNat = 1 := rfl
  have hp : x.toNat * y.toNat ≤ (2 ^ 64 - 1) * (2 ^ 64 - 1) := Nat.mul_le_mul (by omega) (by omega)
  split <;> rename_i hc
  · simp only [BitVec.toNat_add, b2w_toNat, BitVec.lt_def, decide_eq_true_eq, BitVec.toNat_mul,
      hhi, o] at *
    generalize x.toNat * y.toNat = p at *
    split <;> omega
  · simp only [BitVec.toNat_add, b2w_toNat, BitVec.lt_def, decide_eq_true_eq, BitVec.toNat_mul,
      hhi, o] at *
    generalize x.toNat * y.toNat = p at *
    split <;> omega

theorem mul_uval (a b : W256) : (mul a b).uval = (a.uval * b.uval) % 2 ^ 256 := by
  have hr := (mul a b).uval_lt
  have z : (0 : BitVec 64).toNat = 0 := rfl
  unfold mul at *
  simp only at *
  have m00 := mulStep_val 0 a.w0 b.w0 0
  generalize mulStep 0 a.w0 b.w0 0 = c00 at *
  have m01 := mulStep_val 0 a.w1 b.w0 c00.2
  generalize mulStep 0 a.w1 b.w0 c00.2 = c01 at *
  have m02 := mulStep_val 0 a.w2 b.w0 c01.2
  generalize mulStep 0 a.w2 b.w0 c01.2 = c02 at *
  have m03 := mulStep_val 0 a.w3 b.w0 c02.2
  generalize mulStep 0 a.w3 b.w0 c02.2 = c03 at *
  have m10 := mulStep_val c01.1 a.w0 b.w1 0
  generalize mulStep c01.1 a.w0 b.w1 0 = c10 at *
  have m11 := mulStep_val c02.1 a.w1 b.w1 c10.2
  generalize mulStep c02.1 a.w1 b.w1 c10.2 = c11 at *
  have m12 := mulStep_val c03.1 a.w2 b.w1 c11.2
  generalize mulStep c03.1 a.w2 b.w1 c11.2 = c12 at *
  have m20 := mulStep_val c11.1 a.w0 b.w2 0
  generalize mulStep c11.1 a.w0 b.w2 0 = c20 at *
  have m21 := mulStep_val c12.1 a.w1 b.w2 c20.2
  generalize mulStep c12.1 a.w1 b.w2 c20.2 = c21 at *
  have m30 := mulStep_val c21.1 a.w0 b.w3 0
  generalize mulStep c21.1 a.w0 b.w3 0 = c30 at *
  rw [z] at *
  have key : a.uval * b.uval = (W256.mk c00.1 c10.1 c20.1 c30.1).uval
      + 2 ^ 256 * (c03.2.toNat + c12.2.toNat + c21.2.toNat + c30.2.toNat
        + a.w1.toNat * b.w3.toNat + a.w2.toNat * b.w2.toNat + a.w3.toNat * b.w1.toNat
        + 2 ^ 64 * (a.w2.toNat * b.w3.toNat + a.w3.toNat * b.w2.toNat)
        + 2 ^ 128 * (a.w3.toNat * b.w3.toNat)) := by
    unfold uval
    simp only
    have e : (a.w0.toNat + a.w1.toNat * 2 ^ 64 + a.w2.toNat * 2 ^ 128 + a.w3.toNat * 2 ^ 192)
        * (b.w0.toNat + b.w1.toNat * 2 ^ 64 + b.w2.toNat * 2 ^ 128 + b.w3.toNat * 2 ^ 192)
        = a.w0.toNat * b.w0.toNat + 2 ^ 64 * (a.w1.toNat * b.w0.toNat + a.w0.toNat * b.w1.toNat)
          + 2 ^ 128 * (a.w2.toNat * b.w0.toNat + a.w1.toNat * b.w1.toNat + a.w0.toNat * b.w2.toNat)
          + 2 ^ 192 * (a.w3.toNat * b.w0.toNat + a.w2.toNat * b.w1.toNat + a.w1.toNat * b.w2.toNat
              + a.w0.toNat * b.w3.toNat)
          + 2 ^ 256 * (a.w1.toNat * b.w3.toNat + a.w2.toNat * b.w2.toNat + a.w3.toNat * b.w1.toNat
        + 2 ^ 64 * (a.w2.toNat * b.w3.toNat + a.w3.toNat * b.w2.toNat)
        + 2 ^ 128 * (a.w3.toNat * b.w3.toNat)) := by ring
    rw [e]
    clear e hr
    generalize a.w0.toNat * b.w0.toNat = p00 at *
    generalize a.w1.toNat * b.w0.toNat = p10 at *
    generalize a.w2.toNat * b.w0.toNat = p20 at *
    generalize a.w3.toNat * b.w0.toNat = p30 at *
    generalize a.w0.toNat * b.w1.toNat = p01 at *
    generalize a.w1.toNat * b.w1.toNat = p11 at *
    generalize a.w2.toNat * b.w1.toNat = p21 at *
    generalize a.w0.toNat * b.w2.toNat = p02 at *
    generalize a.w1.toNat * b.w2.toNat = p12 at *
    generalize a.w0.toNat * b.w3.toNat = p03 at *
    generalize a.w1.toNat * b.w3.toNat = p13 at *
    generalize a.w2.toNat * b.w2.toNat = p22 at *
    generalize a.w3.toNat * b.w1.toNat = p31 at *
    generalize a.w2.toNat * b.w3.toNat = p23 at *
    generalize a.w3.toNat * b.w2.toNat = p32 at *
    generalize a.w3.toNat * b.w3.toNat = p33 at *
    omega
  rw [key, Nat.add_mul_mod_self_left, Nat.mod_eq_of_lt hr]

/-! ### Comparisons -/

theorem ult_iff (a b : W256) : ult a b = true ↔ a.uval < b.uval := by
  have h1 := a.w0.isLt; have h2 := a.w1.isLt; have h3 := a.w2.isLt; have h4 := a.w3.isLt
  have g1 := b.w0.isLt; have g2 := b.w1.isLt; have g3 := b.w2.isLt; have g4 := b.w3.isLt
  unfold ult uval
  simp only [ne_eq, ← BitVec.toNat_inj, BitVec.lt_def]
  split
  · rw [decide_eq_true_eq]; omega
  · split
    · rw [decide_eq_true_eq]; omega
    · split
      · rw [decide_eq_true_eq]; omega
      · rw [decide_eq_true_eq]; omega

theorem geLoop_iff (r b : W256) : geLoop r b = true ↔ b.uval ≤ r.uval := by
  have h1 := r.w0.isLt; have h2 := r.w1.isLt; have h3 := r.w2.isLt; have h4 := r.w3.isLt
  have g1 := b.w0.isLt; have g2 := b.w1.isLt; have g3 := b.w2.isLt; have g4 := b.w3.isLt
  unfold geLoop uval
  simp only [gt_iff_lt, BitVec.lt_def]
  repeat' split
  all_goals simp only [true_iff, false_iff, Bool.false_eq_true]; omega

theorem ilt_iff (a b : W256) : ilt a b = true ↔ a.sval < b.sval := by
  have h1 := a.w0.isLt; have h2 := a.w1.isLt; have h3 := a.w2.isLt
  have g1 := b.w0.isLt; have g2 := b.w1.isLt; have g3 := b.w2.isLt
  unfold ilt sval
  have e3 : a.w3 = b.w3 ↔ a.w3.toInt = b.w3.toInt := BitVec.toInt_inj.symm
  have e2 : a.w2 = b.w2 ↔ a.w2.toNat = b.w2.toNat := BitVec.toNat_inj.symm
  have e1 : a.w1 = b.w1 ↔ a.w1.toNat = b.w1.toNat := BitVec.toNat_inj.symm
  simp only [ne_eq, BitVec.lt_def, e1, e2, e3]
  split
  · rw [BitVec.slt_iff_toInt_lt]; omega
  · split
    · rw [decide_eq_true_eq]; omega
    · split
      · rw [decide_eq_true_eq]; omega
      · rw [decide_eq_true_eq]; omega

/-! ### Long division -/

theorem or_bit {x : Nat} {c : Nat} (hc : c ≤ 1) : (x * 2 ^ 1 % 2 ^ 64 ||| c) = x * 2 ^ 1 % 2 ^ 64 + c := by
  have : x * 2 ^ 1 % 2 ^ 64 = (x % 2 ^ 63) <<< 1 := by rw [Nat.shiftLeft_eq]; omega
  rw [this, Nat.shiftLeft_add_eq_or_of_lt]; omega

theorem shl1_uval (r : W256) (bit : BitVec 64) (hb : bit.toNat ≤ 1) (hr : r.uval < 2 ^ 255) :
    uval { shl1 r with w0 := (shl1 r).w0 ||| bit } = 2 * r.uval + bit.toNat := by
  have h1 := r.w0.isLt; have h2 := r.w1.isLt; have h3 := r.w2.isLt; have h4 := r.w3.isLt
  unfold shl1 uval at *
  simp only [BitVec.toNat_or, BitVec.toNat_shiftLeft, BitVec.toNat_ushiftRight,
    Nat.shiftLeft_eq, Nat.shiftRight_eq_div_pow]
  rw [or_bit hb, or_bit (by omega), or_bit (by omega), or_bit (by omega)]
  omega

/-- Position of limb `k` inside the value. -/
theorem uval_split (a : W256) (k : Nat) (hk : k < 4) :
    ∃ low R : Nat, low < 2 ^ (64 * k) ∧
      a.uval = low + 2 ^ (64 * k) * ((a.get k).toNat + 2 ^ 64 * R) ∧
      ∀ x : BitVec 64, (a.set k x).uval = low + 2 ^ (64 * k) * (x.toNat + 2 ^ 64 * R) := by
  have h1 := a.w0.isLt; have h2 := a.w1.isLt; have h3 := a.w2.isLt; have h4 := a.w3.isLt
  rcases k with _ | _ | _ | _ | k
  · refine ⟨0, a.w1.toNat + a.w2.toNat * 2 ^ 64 + a.w3.toNat * 2 ^ 128, by norm_num, ?_, ?_⟩
    · unfold uval get; simp only; omega
    · intro x; unfold uval set; simp only; omega
  · refine ⟨a.w0.toNat, a.w2.toNat + a.w3.toNat * 2 ^ 64, by norm_num; omega, ?_, ?_⟩
    · unfold uval get; norm_num; omega
    · intro x; unfold uval set; norm_num; omega
  · refine ⟨a.w0.toNat + a.w1.toNat * 2 ^ 64, a.w3.toNat, by norm_num; omega, ?_, ?_⟩
    · unfold uval get; norm_num; omega
    · intro x; unfold uval set; norm_num; omega
  · refine ⟨a.w0.toNat + a.w1.toNat * 2 ^ 64 + a.w2.toNat * 2 ^ 128, 0, by norm_num; omega, ?_, ?_⟩
    · unfold uval get; norm_num; omega
    · intro x; unfold uval set; norm_num; omega
  · omega

theorem bit_uval (a : W256) (i : Nat) (hi : i < 256) :
    ((a.get (i / 64) >>> (i % 64)) &&& 1).toNat = a.uval / 2 ^ i % 2 := by
  obtain ⟨low, R, hlow, hv, _⟩ := uval_split a (i / 64) (by omega)
  rw [and_one, BitVec.toNat_ushiftRight, Nat.shiftRight_eq_div_pow, hv]
  have hp : (2 : Nat) ^ i = 2 ^ (64 * (i / 64)) * 2 ^ (i % 64) := by
    rw [← Nat.pow_add]; congr 1; omega
  rw [hp, ← Nat.div_div_eq_div_mul, Nat.add_mul_div_left _ _ (Nat.two_pow_pos _),
    Nat.div_eq_of_lt hlow, Nat.zero_add]
  have hj : i % 64 < 64 := Nat.mod_lt _ (by decide)
  generalize i % 64 = j at *
  have h64 : (2 : Nat) ^ 64 * R = 2 ^ j * (2 * (2 ^ (63 - j) * R)) := by
    have : (2 : Nat) ^ 64 = 2 ^ j * (2 * 2 ^ (63 - j)) := by
      rw [← Nat.pow_succ', ← Nat.pow_add]; congr 1; omega
    rw [this]; ring
  rw [h64, Nat.add_mul_div_left _ _ (Nat.two_pow_pos _)]
  omega

theorem setBit_uval (q : W256) (i : Nat) (hi : i < 256) (hq : 2 ^ (i + 1) ∣ q.uval) :
    (q.set (i / 64) (q.get (i / 64) ||| ((1 : BitVec 64) <<< (i % 64)))).uval = q.uval + 2 ^ i := by
  obtain ⟨low, R, hlow, hv, hset⟩ := uval_split q (i / 64) (by omega)
  have hone : (1 : BitVec 64).toNat = 1 := rfl
  have hp : (2 : Nat) ^ i = 2 ^ (64 * (i / 64)) * 2 ^ (i % 64) := by
    rw [← Nat.pow_add]; congr 1; omega
  have hp1 : (2 : Nat) ^ (i + 1) = 2 ^ (64 * (i / 64)) * 2 ^ (i % 64 + 1) := by
    rw [← Nat.pow_add]; congr 1; omega
  have hj : i % 64 < 64 := Nat.mod_lt _ (by decide)
  have hpk : 2 ^ (i % 64) < 2 ^ 64 := Nat.pow_lt_pow_right (by decide) hj
  have hg : 2 ^ (i % 64 + 1) ∣ (q.get (i / 64)).toNat := by
    have hd : 2 ^ (64 * (i / 64)) ∣ q.uval := Dvd.dvd.trans ⟨_, hp1⟩ hq
    have hl0 : low = 0 := by
      rw [hv] at hd
      have : 2 ^ (64 * (i / 64)) ∣ low := (Nat.dvd_add_left (Nat.dvd_mul_right _ _)).mp hd
      exact Nat.eq_zero_of_dvd_of_lt this hlow
    rw [hv, hl0, Nat.zero_add, hp1] at hq
    have h2 := Nat.dvd_of_mul_dvd_mul_left (Nat.two_pow_pos _) hq
    have h3 : 2 ^ (i % 64 + 1) ∣ 2 ^ 64 * R := Dvd.dvd.mul_right (Nat.pow_dvd_pow 2 (by omega)) _
    exact (Nat.dvd_add_left h3).mp h2
  obtain ⟨c, hc⟩ := hg
  have hor : ((q.get (i / 64)) ||| ((1 : BitVec 64) <<< (i % 64))).toNat
      = (q.get (i / 64)).toNat + 2 ^ (i % 64) := by
    rw [BitVec.toNat_or, BitVec.toNat_shiftLeft, hone, Nat.shiftLeft_eq, Nat.one_mul,
      Nat.mod_eq_of_lt hpk, hc, Nat.mul_comm, ← Nat.shiftLeft_eq, ← Nat.shiftLeft_add_eq_or_of_lt]
    exact Nat.pow_lt_pow_right (by decide) (by omega)
  rw [hset, hor, hv, hp]
  ring

/-- The divisor's middle limbs are not all ones, so the borrow test cannot wrap. -/
def Safe (b : W256) : Prop := b.w1.toNat ≠ 2 ^ 64 - 1 ∧ b.w2.toNat ≠ 2 ^ 64 - 1

instance (b : W256) : Decidable (Safe b) := by unfold Safe; infer_instance

theorem sub_uval_safe (a b : W256) (hs : b.Safe) (h : b.uval ≤ a.uval) :
    (sub a b).uval = a.uval - b.uval := by
  have ha := a.uval_lt
  rw [sub_uval a b (fun h => hs.1 h.1) (fun h => hs.2 h.1)]
  omega

structure DivInv (a b : W256) (n : Nat) (s : W256 × W256) : Prop where
  quot : s.1.uval = a.uval / 2 ^ n / b.uval * 2 ^ n
  rem : s.2.uval = a.uval / 2 ^ n % b.uval

theorem divStep_inv (a b : W256) (n : Nat) (hn : n < 256) (hb : 0 < b.uval) (hs : b.Safe)
    (s : W256 × W256) (h : DivInv a b (n + 1) s) : DivInv a b n (divStep a b n s.1 s.2) := by
  obtain ⟨q, r⟩ := s
  obtain ⟨hq, hr⟩ := h
  simp only at hq hr
  have hA : a.uval / 2 ^ n = 2 * (a.uval / 2 ^ (n + 1)) + a.uval / 2 ^ n % 2 := by
    rw [Nat.pow_succ, ← Nat.div_div_eq_div_mul]; omega
  have hrA : r.uval ≤ a.uval / 2 ^ (n + 1) := by rw [hr]; exact Nat.mod_le _ _
  have hAlt : a.uval / 2 ^ (n + 1) < 2 ^ 255 := by
    have := a.uval_lt
    rw [Nat.div_lt_iff_lt_mul (Nat.two_pow_pos _)]
    have : (2 : Nat) ^ 255 * 2 ^ (n + 1) ≥ 2 ^ 255 * 2 ^ 1 :=
      Nat.mul_le_mul_left _ (Nat.pow_le_pow_right (by decide) (by omega))
    omega
  have hbit := bit_uval a n hn
  have hshift := shl1_uval r ((a.get (n / 64) >>> (n % 64)) &&& 1) (by rw [hbit]; omega) (by omega)
  rw [hbit] at hshift
  unfold divStep
  simp only
  generalize ({ shl1 r with w0 := (shl1 r).w0 ||| ((a.get (n / 64) >>> (n % 64)) &&& 1) } : W256) = r' at *
  have hrlt : r.uval < b.uval := by rw [hr]; exact Nat.mod_lt _ hb
  have hdm := Nat.div_add_mod (a.uval / 2 ^ (n + 1)) b.uval
  rw [← hr] at hdm
  have hq2 : 2 ^ (n + 1) ∣ q.uval := by rw [hq]; exact Dvd.intro_left _ rfl
  have hpow : (2 : Nat) ^ (n + 1) = 2 * 2 ^ n := by rw [Nat.pow_succ]; ring
  have hge := geLoop_iff r' b
  by_cases hc : b.uval ≤ r'.uval
  · rw [if_pos (hge.mpr hc)]
    have key : a.uval / 2 ^ n = b.uval * (2 * (a.uval / 2 ^ (n + 1) / b.uval) + 1)
        + (r'.uval - b.uval) := by
      rw [hA, Nat.mul_add, Nat.mul_one]
      have : b.uval * (2 * (a.uval / 2 ^ (n + 1) / b.uval)) = 2 * (b.uval * (a.uval / 2 ^ (n + 1) / b.uval)) := by ring
      omega
    have hlt : r'.uval - b.uval < b.uval := by rw [hshift]; omega
    constructor
    · simp only
      rw [setBit_uval q n hn hq2, hq, key, Nat.mul_add_div hb, Nat.div_eq_of_lt hlt, hpow]
      ring
    · simp only
      rw [sub_uval_safe r' b hs hc, key, Nat.mul_add_mod, Nat.mod_eq_of_lt hlt]
  · rw [if_neg (fun h => hc (hge.mp h))]
    have key : a.uval / 2 ^ n = b.uval * (2 * (a.uval / 2 ^ (n + 1) / b.uval)) + r'.uval := by
      rw [hA, hshift]
      have : b.uval * (2 * (a.uval / 2 ^ (n + 1) / b.uval)) = 2 * (b.uval * (a.uval / 2 ^ (n + 1) / b.uval)) := by ring
      omega
    have hlt : r'.uval < b.uval := by omega
    constructor
    · simp only
      rw [hq, key, Nat.mul_add_div hb, Nat.div_eq_of_lt hlt, hpow]
      ring
    · simp only
      rw [key, Nat.mul_add_mod, Nat.mod_eq_of_lt hlt]

theorem divLoop_inv (a b : W256) (hb : 0 < b.uval) (hs : b.Safe) :
    ∀ (n : Nat), n ≤ 256 → ∀ s, DivInv a b n s → DivInv a b 0 (divLoop a b n s)
  | 0, _, _, h => h
  | n + 1, hn, s, h => by
    unfold divLoop
    exact divLoop_inv a b hb hs n (by omega) _ (divStep_inv a b n (by omega) hb hs s h)

theorem divmod_uval (a b : W256) (hb : b.uval ≠ 0) (hs : b.Safe) :
    (divmod a b).1.uval = a.uval / b.uval ∧ (divmod a b).2.uval = a.uval % b.uval := by
  unfold divmod
  rw [if_neg (fun h => hb ((isZero_iff b).mp h))]
  split
  · rename_i h
    obtain ⟨h1, h2, h3, h4, h5, h6⟩ := h
    rw [toNat_eq_zero] at h1 h2 h3 h4 h5 h6
    have z : (0 : BitVec 64).toNat = 0 := rfl
    unfold uval
    simp only [BitVec.toNat_udiv, BitVec.toNat_umod, h1, h2, h3, h4, h5, h6, z]
    simp
  · have h := divLoop_inv a b (by omega) hs 256 (Nat.le_refl _) (zero, zero) (by
      have e : a.uval / 2 ^ 256 = 0 := Nat.div_eq_of_lt a.uval_lt
      constructor
      · rw [e]; simp [zero, uval]
      · rw [e]; simp [zero, uval])
    obtain ⟨hq, hr⟩ := h
    simpa using And.intro hq hr

theorem divmod_zero (a b : W256) (hb : b.uval = 0) : divmod a b = (zero, zero) := by
  unfold divmod; rw [if_pos ((isZero_iff b).mpr hb)]

/-! ### Signed values -/

theorem sval_eq (a : W256) :
    a.sval = if a.uval < 2 ^ 255 then (a.uval : Int) else (a.uval : Int) - 2 ^ 256 := by
  have h1 := a.w0.isLt; have h2 := a.w1.isLt; have h3 := a.w2.isLt; have h4 := a.w3.isLt
  unfold sval uval
  simp only [BitVec.toInt_eq_toNat_cond]
  split <;> split <;> omega

theorem sval_inj {a b : W256} : a.sval = b.sval ↔ a = b := by
  constructor
  · intro h
    apply ext_uval
    have ha := a.uval_lt; have hb := b.uval_lt
    rw [sval_eq, sval_eq] at h
    split at h <;> split at h <;> omega
  · intro h; rw [h]

theorem isNeg_iff (a : W256) : a.isNeg = decide (a.sval < 0) := by
  have h1 := a.w0.isLt; have h2 := a.w1.isLt; have h3 := a.w2.isLt
  rw [Bool.eq_iff_iff, decide_eq_true_eq]
  unfold isNeg sval
  rw [BitVec.slt_iff_toInt_lt]
  have : (0 : BitVec 64).toInt = 0 := rfl
  rw [this]
  omega

theorem srange (a : W256) : -2 ^ 255 ≤ a.sval ∧ a.sval < 2 ^ 255 := by
  have ha := a.uval_lt
  rw [sval_eq]; split <;> omega

theorem sval_bmod (a : W256) : a.sval = ((a.uval : Nat) : Int).bmod (2 ^ 256) := by
  have ha := a.uval_lt
  rw [sval_eq, Int.bmod_def]
  split <;> split <;> omega

theorem semod (a : W256) : a.sval % 2 ^ 256 = (a.uval : Int) := by
  have ha := a.uval_lt
  rw [sval_eq]; split <;> omega

theorem seq_bmod {r : W256} {z : Int} (h : (r.uval : Int) = z % 2 ^ 256) :
    r.sval = z.bmod (2 ^ 256) := by
  rw [sval_bmod, h]
  have : ((2 : Int) ^ 256) = ((2 ^ 256 : Nat) : Int) := by norm_num
  rw [this, Int.emod_bmod]

theorem add_sval (a b : W256) : (add a b).sval = (a.sval + b.sval).bmod (2 ^ 256) := by
  apply seq_bmod
  rw [add_uval, Int.add_emod, semod, semod]
  omega

theorem mul_sval (a b : W256) : (mul a b).sval = (a.sval * b.sval).bmod (2 ^ 256) := by
  apply seq_bmod
  rw [mul_uval, Int.mul_emod, semod, semod]
  push_cast
  norm_num

theorem neg_of_uval (r : W256) (q : Nat) (h : r.uval = q) :
    (neg r).sval = (-(q : Int)).bmod (2 ^ 256) := by
  have hr := r.uval_lt
  apply seq_bmod
  rw [neg_uval, h]
  omega

theorem of_uval (r : W256) (q : Nat) (h : r.uval = q) :
    r.sval = (q : Int).bmod (2 ^ 256) := by
  rw [sval_bmod, h]

theorem neg_sval (a : W256) : (neg a).sval = (-a.sval).bmod (2 ^ 256) := by
  have ha := a.uval_lt
  apply seq_bmod
  rw [neg_uval, sval_eq]
  split <;> omega

theorem magnitude_uval (a : W256) : (magnitude a).uval = a.sval.natAbs := by
  have ha := a.uval_lt
  have e := sval_eq a
  unfold magnitude
  rw [isNeg_iff]
  simp only [decide_eq_true_eq]
  split
  · rw [neg_uval]
    split at e <;> omega
  · split at e <;> omega

theorem sval_zero_iff (b : W256) : b.isZero = true ↔ b.sval = 0 := by
  have hb := b.uval_lt
  have e := sval_eq b
  rw [isZero_iff]
  split at e <;> omega

theorem bmod256_of_range {z : Int} (h1 : -2 ^ 255 ≤ z) (h2 : z < 2 ^ 255) :
    z.bmod (2 ^ 256) = z := by
  rw [Int.bmod_eq_of_le] <;> omega

theorem idiv_sval (a b : W256) (hb : b.sval ≠ 0) (hs : (magnitude b).Safe) :
    (idiv a b).sval = (a.sval.tdiv b.sval).bmod (2 ^ 256) := by
  unfold idiv
  rw [if_neg (fun h => hb ((sval_zero_iff b).mp h))]
  have hm : (magnitude b).uval ≠ 0 := by rw [magnitude_uval]; omega
  have hd := (divmod_uval (magnitude a) (magnitude b) hm hs).1
  rw [magnitude_uval, magnitude_uval] at hd
  simp only [isNeg_iff]
  rw [tdiv_abs]
  split
  · exact neg_of_uval _ _ hd
  · exact of_uval _ _ hd

theorem imod_sval (a b : W256) (hb : b.sval ≠ 0) (hs : (magnitude b).Safe) :
    (imod a b).sval = a.sval.tmod b.sval := by
  unfold imod
  rw [if_neg (fun h => hb ((sval_zero_iff b).mp h))]
  have hm : (magnitude b).uval ≠ 0 := by rw [magnitude_uval]; omega
  have hd := (divmod_uval (magnitude a) (magnitude b) hm hs).2
  rw [magnitude_uval, magnitude_uval] at hd
  have hlt : a.sval.natAbs % b.sval.natAbs < 2 ^ 255 := by
    have := Nat.mod_lt a.sval.natAbs (y := b.sval.natAbs) (by omega)
    have := b.srange
    omega
  simp only [isNeg_iff, decide_eq_true_eq]
  rw [tmod_abs]
  split
  · rw [neg_of_uval _ _ hd, bmod256_of_range] <;> omega
  · rw [of_uval _ _ hd, bmod256_of_range] <;> omega

end W256
end Verif.Bigint

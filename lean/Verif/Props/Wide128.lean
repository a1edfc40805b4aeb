import Verif.Lemmas.Bigint128
import Verif.Spec
/-
Properties C01-C04, C08, C10, C11, C12 for the 128-bit types.

Specification: the integers. `U128.val`/`I128.val` read a limb pair as an integer
(`lo + hi * 2^64`, `hi` signed for i128); everything else is `Int`/`Nat` arithmetic from
the library (`%`, `Int.bmod` for two's complement wrap-around, `Int.tdiv`/`Int.tmod` for
C's truncated division).
-/
namespace Verif.Props
open Verif.Bigint Verif.Spec

/-- Every integer in range is represented by exactly one u128. -/
theorem C01_u128_repr (n : Nat) (h : n < 2 ^ 128) : ∃ a : U128, a.val = n ∧ ∀ b : U128, b.val = n → b = a := by
  refine ⟨⟨BitVec.ofNat 64 n, BitVec.ofNat 64 (n / 2 ^ 64)⟩, ?_, ?_⟩
  · unfold U128.val; simp only [BitVec.toNat_ofNat]; omega
  · intro b hb
    apply U128.ext_val
    rw [hb]; unfold U128.val; simp only [BitVec.toNat_ofNat]; omega

/-- C01: unchecked u128 addition is addition modulo 2^128. -/
theorem C01_u128_add (a b : U128) : (U128.add a b).val = (a.val + b.val) % 2 ^ 128 :=
  U128.add_val a b

/-- C01: unchecked u128 subtraction is subtraction modulo 2^128. -/
theorem C01_u128_sub (a b : U128) :
    ((U128.sub a b).val : Int) = ((a.val : Int) - (b.val : Int)) % 2 ^ 128 := by
  have := a.val_lt; have := b.val_lt
  rw [U128.sub_val]; omega

/-- C01: unchecked u128 multiplication is multiplication modulo 2^128. -/
theorem C01_u128_mul (a b : U128) : (U128.mul a b).val = (a.val * b.val) % 2 ^ 128 :=
  U128.mul_val a b

/-- C01: unchecked i128 addition wraps in two's complement. -/
theorem C01_i128_add (a b : I128) : (I128.add a b).val = (a.val + b.val).bmod (2 ^ 128) :=
  I128.add_val a b

/-- C01: unchecked i128 subtraction wraps in two's complement. -/
theorem C01_i128_sub (a b : I128) : (I128.sub a b).val = (a.val - b.val).bmod (2 ^ 128) :=
  I128.sub_val a b

/-- C01: unchecked i128 negation wraps in two's complement. -/
theorem C01_i128_neg (a : I128) : (I128.neg a).val = (-a.val).bmod (2 ^ 128) :=
  I128.neg_val a

/-- C01: unchecked i128 multiplication wraps in two's complement. -/
theorem C01_i128_mul (a b : I128) : (I128.mul a b).val = (a.val * b.val).bmod (2 ^ 128) :=
  I128.mul_val a b

-- a product that needs all four partial products and a cross carry
example : (U128.mul ⟨0xFFFFFFFFFFFFFFFF, 0x1234⟩ ⟨0xFFFFFFFFFFFFFFFE, 0x77⟩).val
    = ((0xFFFFFFFFFFFFFFFF + 0x1234 * 2 ^ 64) * (0xFFFFFFFFFFFFFFFE + 0x77 * 2 ^ 64)) % 2 ^ 128 := by
  decide
example : (I128.mul ⟨0xFFFFFFFFFFFFFFFF, 0xFFFFFFFFFFFFFFFF⟩ ⟨5, 0⟩).val = -5 := by decide

/-! ### C02: checked addition and subtraction -/

theorem C02_u128_add (a b : U128) :
    ExactOrPanic 0 (2 ^ 128 - 1) ((a.val : Int) + b.val) (fun r => (r.val : Int)) (U128.addChecked a b) := by
  have ha := a.val_lt; have hb := b.val_lt
  unfold U128.addChecked
  simp only
  have hlt := U128.lt_iff (U128.add a b) a
  rw [U128.add_val] at hlt
  constructor
  · intro h
    have hn : ¬ (U128.lt (U128.add a b) a = true) := by rw [hlt]; omega
    rw [if_neg hn]
    exact ⟨_, rfl, by simp only [U128.add_val]; omega⟩
  · intro h
    have hn : U128.lt (U128.add a b) a = true := by rw [hlt]; omega
    rw [if_pos hn]
    exact ⟨_, rfl⟩

theorem C02_u128_sub (a b : U128) :
    ExactOrPanic 0 (2 ^ 128 - 1) ((a.val : Int) - b.val) (fun r => (r.val : Int)) (U128.subChecked a b) := by
  have ha := a.val_lt; have hb := b.val_lt
  unfold U128.subChecked
  constructor
  · intro h
    have hn : ¬ (U128.lt a b = true) := by rw [U128.lt_iff]; omega
    rw [if_neg hn]
    exact ⟨_, rfl, by simp only [U128.sub_val]; omega⟩
  · intro h
    have hn : U128.lt a b = true := by rw [U128.lt_iff]; omega
    rw [if_pos hn]
    exact ⟨_, rfl⟩

theorem C02_i128_add (a b : I128) :
    ExactOrPanic (-2 ^ 127) (2 ^ 127 - 1) (a.val + b.val) I128.val (I128.addChecked a b) := by
  have ha := a.range; have hb := b.range; have hr := (I128.add a b).range
  have hv := I128.add_val a b
  have sa : a.hi.slt 0 = decide (a.val < 0) := by rw [Bool.eq_iff_iff, I128.slt_zero]; simp
  have sb : b.hi.slt 0 = decide (b.val < 0) := by rw [Bool.eq_iff_iff, I128.slt_zero]; simp
  have sr : (I128.add a b).hi.slt 0 = decide ((I128.add a b).val < 0) := by
    rw [Bool.eq_iff_iff, I128.slt_zero]; simp
  unfold I128.addChecked
  simp only [sa, sb, sr]
  rw [Int.bmod_def] at hv
  constructor
  · intro h
    have hn : (I128.add a b).val = a.val + b.val := by
      rw [hv]; split <;> omega
    rw [if_neg]
    · exact ⟨_, rfl, hn⟩
    · simp only [Bool.or_eq_true, Bool.and_eq_true, Bool.not_eq_true', decide_eq_true_eq, decide_eq_false_iff_not]
      omega
  · intro h
    rw [if_pos]
    · exact ⟨_, rfl⟩
    · simp only [Bool.or_eq_true, Bool.and_eq_true, Bool.not_eq_true', decide_eq_true_eq, decide_eq_false_iff_not]
      split at hv <;> omega

theorem C02_i128_sub (a b : I128) :
    ExactOrPanic (-2 ^ 127) (2 ^ 127 - 1) (a.val - b.val) I128.val (I128.subChecked a b) := by
  have ha := a.range; have hb := b.range; have hr := (I128.sub a b).range
  have hv := I128.sub_val a b
  have sa : a.hi.slt 0 = decide (a.val < 0) := by rw [Bool.eq_iff_iff, I128.slt_zero]; simp
  have sb : b.hi.slt 0 = decide (b.val < 0) := by rw [Bool.eq_iff_iff, I128.slt_zero]; simp
  have sr : (I128.sub a b).hi.slt 0 = decide ((I128.sub a b).val < 0) := by
    rw [Bool.eq_iff_iff, I128.slt_zero]; simp
  unfold I128.subChecked
  simp only [sa, sb, sr]
  rw [Int.bmod_def] at hv
  constructor
  · intro h
    have hn : (I128.sub a b).val = a.val - b.val := by
      rw [hv]; split <;> omega
    rw [if_neg]
    · exact ⟨_, rfl, hn⟩
    · simp only [Bool.or_eq_true, Bool.and_eq_true, Bool.not_eq_true', decide_eq_true_eq, decide_eq_false_iff_not]
      omega
  · intro h
    rw [if_pos]
    · exact ⟨_, rfl⟩
    · simp only [Bool.or_eq_true, Bool.and_eq_true, Bool.not_eq_true', decide_eq_true_eq, decide_eq_false_iff_not]
      split at hv <;> omega

/-- Finding attached to C02: `gray_i128_add_checked` computes the sum before it tests for
overflow, so whenever it panics the C expression for the high limb has already overflowed
`int64_t` (undefined behaviour, and the build does not use `-fwrapv`). -/
theorem C02_i128_add_panics_only_after_ub (a b : I128) (c : String)
    (h : I128.addChecked a b = .panic c) : I128.addHiOverflows a b = true := by
  have ha := a.range; have hb := b.range
  have hspec := C02_i128_add a b
  have hout : ¬ (-2 ^ 127 ≤ a.val + b.val ∧ a.val + b.val ≤ 2 ^ 127 - 1) := by
    intro hin
    obtain ⟨r, hr, _⟩ := hspec.1 hin
    rw [hr] at h; cases h
  have h1 := a.lo.isLt; have h2 := b.lo.isLt
  have h3 := a.hi.toInt_lt; have h4 := b.hi.toInt_lt
  have h5 := a.hi.le_toInt; have h6 := b.hi.le_toInt
  unfold I128.addHiOverflows
  unfold I128.val at hout
  simp only [BitVec.lt_def, BitVec.toNat_add, decide_eq_true_eq]
  split <;> omega

-- both sides of the boundary occur
example : I128.addChecked ⟨0xFFFFFFFFFFFFFFFF, 0x7FFFFFFFFFFFFFFF⟩ ⟨1, 0⟩ = .panic "P0021" := by decide
example : I128.addChecked ⟨0xFFFFFFFFFFFFFFFE, 0x7FFFFFFFFFFFFFFF⟩ ⟨1, 0⟩
    = .ok ⟨0xFFFFFFFFFFFFFFFF, 0x7FFFFFFFFFFFFFFF⟩ := by decide

/-! ### C04: division -/

theorem C04_u128_div (a b : U128) (hb : b.val ≠ 0) :
    (U128.div a b).val = a.val / b.val ∧ (U128.mod a b).val = a.val % b.val :=
  U128.divmod_val a b hb

/-- i128 division truncates toward zero; the only quotient outside the type's range,
MIN / -1, wraps to MIN. -/
theorem C04_i128_div (a b : I128) (hb : b.val ≠ 0) :
    (I128.div a b).val = (a.val.tdiv b.val).bmod (2 ^ 128) := I128.div_val a b hb

theorem tdiv_range {a b : Int} (ha : -2 ^ 127 ≤ a ∧ a < 2 ^ 127) (hb : b ≠ 0)
    (hx : ¬ (a = -2 ^ 127 ∧ b = -1)) : -2 ^ 127 ≤ a.tdiv b ∧ a.tdiv b < 2 ^ 127 := by
  have e := tdiv_abs a b
  have hna : (a.natAbs : Int) = a ∨ (a.natAbs : Int) = -a := by omega
  have hle : a.natAbs / b.natAbs ≤ a.natAbs := Nat.div_le_self _ _
  have hneg : ((decide (a < 0)) != (decide (b < 0))) = true ↔ ((a < 0) ↔ ¬ (b < 0)) := by
    by_cases h1 : a < 0 <;> by_cases h2 : b < 0 <;> simp [h1, h2]
  have hab : a.natAbs ≤ 2 ^ 127 := by omega
  have hmin : a.natAbs = 2 ^ 127 → a = -2 ^ 127 := by omega
  have hle2 : a.natAbs / b.natAbs = 2 ^ 127 → b.natAbs = 1 ∧ a.natAbs = 2 ^ 127 := by
    intro h
    refine ⟨?_, by omega⟩
    by_contra h1
    have h2 : 2 ≤ b.natAbs := by omega
    have : a.natAbs / b.natAbs ≤ a.natAbs / 2 := Nat.div_le_div_left h2 (by decide)
    omega
  generalize a.natAbs / b.natAbs = q at *
  rw [e]
  split
  · omega
  · rename_i hn
    rw [hneg] at hn
    refine ⟨by omega, ?_⟩
    by_contra hq
    have := hle2 (by omega)
    have := hmin this.2
    omega

theorem C04_i128_div_exact (a b : I128) (hb : b.val ≠ 0) (hx : ¬ (a.val = -2 ^ 127 ∧ b.val = -1)) :
    (I128.div a b).val = a.val.tdiv b.val := by
  rw [I128.div_val a b hb]
  have := tdiv_range a.range hb hx
  exact bmod128_of_range this.1 this.2

theorem C04_i128_mod (a b : I128) (hb : b.val ≠ 0) :
    (I128.mod a b).val = a.val.tmod b.val := I128.mod_val a b hb

/-- Division law: `a = (a / b) * b + a % b`, with `|a % b| < |b|` and the sign of `a`. -/
theorem C04_i128_divmod_law (a b : I128) (hb : b.val ≠ 0) (hx : ¬ (a.val = -2 ^ 127 ∧ b.val = -1)) :
    a.val = (I128.div a b).val * b.val + (I128.mod a b).val ∧
    (I128.mod a b).val.natAbs < b.val.natAbs ∧
    (0 ≤ a.val → 0 ≤ (I128.mod a b).val) ∧ (a.val ≤ 0 → (I128.mod a b).val ≤ 0) := by
  rw [C04_i128_div_exact a b hb hx, C04_i128_mod a b hb]
  refine ⟨?_, ?_, ?_, ?_⟩
  · have := Int.tmod_add_mul_tdiv a.val b.val
    rw [Int.mul_comm] at this; omega
  · rw [Int.natAbs_tmod]; exact Nat.mod_lt _ (by omega)
  · intro h; exact Int.tmod_nonneg _ h
  · intro h
    rw [tmod_abs]
    split
    · omega
    · have : a.val = 0 := by omega
      simp [this]

/-- Finding attached to C04: MIN / -1 silently returns MIN for i128, unlike int, where the
emitted guard panics with P0079. -/
theorem C04_i128_min_div_neg_one :
    I128.div ⟨0, 0x8000000000000000⟩ ⟨0xFFFFFFFFFFFFFFFF, 0xFFFFFFFFFFFFFFFF⟩
      = ⟨0, 0x8000000000000000⟩ := by
  apply I128.val_inj.mp
  rw [C04_i128_div _ _ (by decide)]
  decide

-- a division that runs the long-division loop (dividend and divisor above 64 bits)
example : (U128.div ⟨5, 0xFFFFFFFFFFFFFFFF⟩ ⟨7, 3⟩).val
    = (5 + 0xFFFFFFFFFFFFFFFF * 2 ^ 64) / (7 + 3 * 2 ^ 64) :=
  (C04_u128_div _ _ (by decide)).1
example : (I128.div ⟨0xFFFFFFFFFFFFFFF9, 0xFFFFFFFFFFFFFFFF⟩ ⟨2, 0⟩).val = -3 := by
  rw [C04_i128_div_exact _ _ (by decide) (by decide)]; decide

/-! ### C03: checked multiplication -/

theorem C03_u128_mul (a b : U128) :
    ExactOrPanic 0 (2 ^ 128 - 1) ((a.val : Int) * b.val) (fun r => (r.val : Int)) (U128.mulChecked a b) := by
  have ha := a.val_lt; have hb := b.val_lt
  have za : (a.hi == 0 && a.lo == 0) = decide (a.val = 0) := by
    rw [Bool.eq_iff_iff]; simpa using U128.zero_iff a
  have zb : (b.hi == 0 && b.lo == 0) = decide (b.val = 0) := by
    rw [Bool.eq_iff_iff]; simpa using U128.zero_iff b
  unfold U128.mulChecked
  simp only [za, zb]
  by_cases h0 : a.val = 0 ∨ b.val = 0
  · have hp : a.val * b.val = 0 := by rcases h0 with h | h <;> simp [h]
    have hc : (!decide (a.val = 0) && !decide (b.val = 0)) = false := by
      rcases h0 with h | h <;> simp [h]
    rw [hc]
    have hpi : (a.val : Int) * b.val = 0 := by exact_mod_cast hp
    constructor
    · intro _
      refine ⟨_, rfl, ?_⟩
      simp only [U128.mul_val, hp, hpi]; rfl
    · intro h; exact absurd (by rw [hpi]; decide) h
  · have h1 : a.val ≠ 0 := fun h => h0 (Or.inl h)
    have h2 : b.val ≠ 0 := fun h => h0 (Or.inr h)
    have hc : (!decide (a.val = 0) && !decide (b.val = 0)) = true := by simp [h1, h2]
    rw [hc, if_pos rfl]
    have hd := (U128.divmod_val (U128.mul a b) b h2).1
    rw [U128.mul_val] at hd
    have he : U128.eq (U128.div (U128.mul a b) b) a = true ↔ a.val * b.val < 2 ^ 128 := by
      rw [U128.eq_iff, ← U128.val_inj]
      show (U128.divmod (U128.mul a b) b).1.val = a.val ↔ _
      rw [hd]
      constructor
      · intro h
        by_contra hge
        have : a.val * b.val % 2 ^ 128 / b.val < a.val := by
          rw [Nat.div_lt_iff_lt_mul (by omega)]
          have := Nat.mod_lt (a.val * b.val) (show 0 < 2 ^ 128 by decide)
          omega
        omega
      · intro h
        rw [Nat.mod_eq_of_lt h]
        exact Nat.mul_div_cancel _ (by omega)
    constructor
    · intro h
      have hlt : a.val * b.val < 2 ^ 128 := by
        have h2 := h.2
        rw [← Int.natCast_mul] at h2
        generalize a.val * b.val = p at *
        omega
      rw [if_neg (by rw [he.mpr hlt]; decide)]
      refine ⟨_, rfl, ?_⟩
      simp only [U128.mul_val, Nat.mod_eq_of_lt hlt]; push_cast; rfl
    · intro h
      have hge : ¬ a.val * b.val < 2 ^ 128 := by
        intro hlt; apply h
        rw [← Int.natCast_mul]
        generalize a.val * b.val = p at *
        omega
      rw [if_pos]
      · exact ⟨_, rfl⟩
      · have : U128.eq (U128.div (U128.mul a b) b) a = false := by
          rw [← Bool.not_eq_true, he]; exact hge
        rw [this]; rfl

/-- The full statement of C03 for i128. It is false of the code, see
`C03_i128_mul_fails`. -/
def C03_i128_mul_statement : Prop := ∀ a b : I128,
  ExactOrPanic (-2 ^ 127) (2 ^ 127 - 1) (a.val * b.val) I128.val (I128.mulChecked a b)

/-- C03 fails for i128: MIN * -1 returns MIN instead of panicking. -/
theorem C03_i128_mul_fails : ¬ C03_i128_mul_statement := by
  intro h
  have h := (h ⟨0, 0x8000000000000000⟩ ⟨0xFFFFFFFFFFFFFFFF, 0xFFFFFFFFFFFFFFFF⟩).2 (by decide)
  obtain ⟨c, hc⟩ := h
  have e1 : I128.mul ⟨0, 0x8000000000000000⟩ ⟨0xFFFFFFFFFFFFFFFF, 0xFFFFFFFFFFFFFFFF⟩
    = ⟨0, 0x8000000000000000⟩ := by decide
  have e2 := C04_i128_min_div_neg_one
  simp only [I128.mulChecked, e1, e2] at hc
  revert hc
  rw [show I128.eq ⟨0, 0x8000000000000000⟩ ⟨0, 0x8000000000000000⟩ = true from by decide]
  simp

/-- C03 for i128 on every other pair. Missing: the pair (MIN, -1). -/
theorem C03_i128_mul_partial (a b : I128) (hx : ¬ (a.val = -2 ^ 127 ∧ b.val = -1)) :
    ExactOrPanic (-2 ^ 127) (2 ^ 127 - 1) (a.val * b.val) I128.val (I128.mulChecked a b) := by
  have ha := a.range; have hb := b.range
  have za : (a.hi == 0 && a.lo == 0) = decide (a.val = 0) := by
    rw [Bool.eq_iff_iff]; simpa [and_comm] using I128.zero_iff a
  have zb : (b.hi == 0 && b.lo == 0) = decide (b.val = 0) := by
    rw [Bool.eq_iff_iff]; simpa [and_comm] using I128.zero_iff b
  have hm := I128.mul_val a b
  unfold I128.mulChecked
  simp only [za, zb]
  by_cases h0 : a.val = 0 ∨ b.val = 0
  · have hp : a.val * b.val = 0 := by rcases h0 with h | h <;> simp [h]
    have hc : (!decide (a.val = 0) && !decide (b.val = 0)) = false := by
      rcases h0 with h | h <;> simp [h]
    rw [hc]
    constructor
    · intro _
      refine ⟨_, rfl, ?_⟩
      rw [hm, hp]; rfl
    · intro h; exact absurd (by rw [hp]; decide) h
  · have h1 : a.val ≠ 0 := fun h => h0 (Or.inl h)
    have h2 : b.val ≠ 0 := fun h => h0 (Or.inr h)
    have hc : (!decide (a.val = 0) && !decide (b.val = 0)) = true := by simp [h1, h2]
    rw [hc, if_pos rfl]
    have hr := (I128.mul a b).range
    have heq : ∀ x y : I128, I128.eq x y = true ↔ x.val = y.val := by
      intro x y; rw [I128.val_inj]; cases x; cases y; simp [I128.eq]
    have he : I128.eq (I128.div (I128.mul a b) b) a = true
        ↔ (-2 ^ 127 ≤ a.val * b.val ∧ a.val * b.val ≤ 2 ^ 127 - 1) := by
      rw [heq, C04_i128_div _ _ h2]
      constructor
      · intro h
        by_contra hge
        -- the wrapped product differs from the true one by a nonzero multiple of 2^128
        have hfar : 2 ^ 128 ≤ ((I128.mul a b).val - a.val * b.val).natAbs := by
          have hk : (2 : Int) ^ 128 ∣ (I128.mul a b).val - a.val * b.val := by
            rw [hm]
            have := Int.bmod_emod (x := a.val * b.val) (m := 2 ^ 128)
            apply Int.dvd_of_emod_eq_zero
            rw [Int.sub_emod]
            have e : ((2 ^ 128 : Nat) : Int) = 2 ^ 128 := by norm_num
            rw [e] at this
            rw [this]; simp
          obtain ⟨k, hk⟩ := hk
          have : k ≠ 0 := by
            intro hk0; rw [hk0] at hk; omega
          omega
        by_cases hw : (I128.mul a b).val = -2 ^ 127 ∧ b.val = -1
        · -- then the quotient wraps to MIN, so a would be MIN
          rw [hw.1, hw.2] at h
          have : ((-2 ^ 127 : Int).tdiv (-1)).bmod (2 ^ 128) = -2 ^ 127 := by decide
          rw [this] at h
          exact hx ⟨h.symm, hw.2⟩
        · have hrange := tdiv_range hr h2 hw
          rw [bmod128_of_range hrange.1 hrange.2] at h
          have hlaw := Int.tmod_add_mul_tdiv (I128.mul a b).val b.val
          rw [h, Int.mul_comm b.val a.val] at hlaw
          have hsmall : ((I128.mul a b).val.tmod b.val).natAbs < b.val.natAbs := by
            rw [Int.natAbs_tmod]; exact Nat.mod_lt _ (by omega)
          omega
      · intro h
        have : (I128.mul a b).val = a.val * b.val := by
          rw [hm]; exact bmod128_of_range h.1 (by omega)
        rw [this, Int.mul_tdiv_cancel _ h2]
        exact bmod128_of_range ha.1 ha.2
    constructor
    · intro h
      rw [if_neg (by rw [he.mpr h]; decide)]
      exact ⟨_, rfl, by rw [hm]; exact bmod128_of_range h.1 (by omega)⟩
    · intro h
      rw [if_pos]
      · exact ⟨_, rfl⟩
      · have : I128.eq (I128.div (I128.mul a b) b) a = false := by
          rw [← Bool.not_eq_true, he]; exact h
        rw [this]; rfl

-- the hypothesis is met by ordinary pairs, including MIN * 1 and (-1) * MIN
example : ¬ ((⟨0xFFFFFFFFFFFFFFFF, 0xFFFFFFFFFFFFFFFF⟩ : I128).val = -2 ^ 127 ∧
    (⟨0, 0x8000000000000000⟩ : I128).val = -1) := by decide

/-! ### C08: comparisons -/

theorem C08_u128 (a b : U128) :
    (U128.eq a b = true ↔ a.val = b.val) ∧ (U128.ne a b = true ↔ a.val ≠ b.val) ∧
    (U128.lt a b = true ↔ a.val < b.val) ∧ (U128.gt a b = true ↔ a.val > b.val) ∧
    (U128.le a b = true ↔ a.val ≤ b.val) ∧ (U128.ge a b = true ↔ a.val ≥ b.val) := by
  have e := U128.eq_iff a b
  rw [← U128.val_inj] at e
  have l1 := U128.lt_iff a b; have l2 := U128.lt_iff b a
  refine ⟨e, ?_, l1, l2, ?_, ?_⟩
  · rw [Ne, ← e]
    unfold U128.ne U128.eq
    simp [bne, imp_iff_not_or]
  · unfold U128.le U128.gt
    rw [Bool.not_eq_true', ← Bool.not_eq_true, l2]; omega
  · unfold U128.ge
    rw [Bool.not_eq_true', ← Bool.not_eq_true, l1]; omega

theorem C08_i128 (a b : I128) :
    (I128.eq a b = true ↔ a.val = b.val) ∧ (I128.ne a b = true ↔ a.val ≠ b.val) ∧
    (I128.lt a b = true ↔ a.val < b.val) ∧ (I128.gt a b = true ↔ a.val > b.val) ∧
    (I128.le a b = true ↔ a.val ≤ b.val) ∧ (I128.ge a b = true ↔ a.val ≥ b.val) := by
  have heq : ∀ x y : I128, I128.eq x y = true ↔ x.val = y.val := by
    intro x y; rw [I128.val_inj]; cases x; cases y; simp [I128.eq]
  have hlt : ∀ x y : I128, I128.lt x y = true ↔ x.val < y.val := by
    intro x y
    have h1 := x.lo.isLt; have h2 := y.lo.isLt
    unfold I128.lt I128.val
    simp only [Bool.or_eq_true, Bool.and_eq_true, beq_iff_eq, decide_eq_true_eq,
      BitVec.slt_iff_toInt_lt, BitVec.lt_def, ← BitVec.toInt_inj]
    omega
  have e := heq a b
  have l1 := hlt a b; have l2 := hlt b a
  refine ⟨e, ?_, l1, l2, ?_, ?_⟩
  · rw [Ne, ← e]
    unfold I128.ne I128.eq
    simp [bne, imp_iff_not_or]
  · unfold I128.le I128.gt
    rw [Bool.not_eq_true', ← Bool.not_eq_true, l2]; omega
  · unfold I128.ge
    rw [Bool.not_eq_true', ← Bool.not_eq_true, l1]; omega

example : I128.lt ⟨0, 0x8000000000000000⟩ ⟨0, 0⟩ = true ∧
    U128.lt ⟨0, 0x8000000000000000⟩ ⟨0, 0⟩ = false := by decide

/-! ### C10: casts to 64 bits -/

theorem C10_u128_to_i64 (a : U128) :
    ExactOrPanic (-2 ^ 63) (2 ^ 63 - 1) (a.val : Int) (fun r => r.toInt) (U128.toI64 a) := by
  have h1 := a.lo.isLt; have h2 := a.hi.isLt
  have hc : (a.hi ≠ 0 ∨ a.lo > 0x7FFFFFFFFFFFFFFF) ↔ ¬ a.val ≤ 2 ^ 63 - 1 := by
    have hm : (0x7FFFFFFFFFFFFFFF : BitVec 64).toNat = 2 ^ 63 - 1 := rfl
    rw [Ne, toNat_eq_zero, gt_iff_lt, BitVec.lt_def, hm]
    unfold U128.val; omega
  unfold U128.toI64
  constructor
  · intro h
    rw [if_neg (by rw [hc]; omega)]
    refine ⟨_, rfl, ?_⟩
    simp only [BitVec.toInt_eq_toNat_cond]
    unfold U128.val at *
    split <;> omega
  · intro h
    rw [if_pos (by rw [hc]; omega)]
    exact ⟨_, rfl⟩

theorem C10_u128_to_u64 (a : U128) :
    ExactOrPanic 0 (2 ^ 64 - 1) (a.val : Int) (fun r => (r.toNat : Int)) (U128.toU64 a) := by
  have h1 := a.lo.isLt; have h2 := a.hi.isLt
  have hc : (a.hi ≠ 0) ↔ ¬ a.val ≤ 2 ^ 64 - 1 := by
    rw [Ne, toNat_eq_zero]; unfold U128.val; omega
  unfold U128.toU64
  constructor
  · intro h
    rw [if_neg (by rw [hc]; omega)]
    refine ⟨_, rfl, ?_⟩
    unfold U128.val at *; show (a.lo.toNat : Int) = _; omega
  · intro h
    rw [if_pos (by rw [hc]; omega)]
    exact ⟨_, rfl⟩

theorem C10_i128_to_u64 (a : I128) :
    ExactOrPanic 0 (2 ^ 64 - 1) a.val (fun r => (r.toNat : Int)) (I128.toU64 a) := by
  have h1 := a.lo.isLt; have h2 := a.hi.isLt
  have hc : (a.hi ≠ 0) ↔ a.hi.toInt ≠ 0 := by
    rw [Ne, Ne, not_iff_not, ← BitVec.toInt_inj]; rfl
  unfold I128.toU64
  constructor
  · intro h
    rw [if_neg (by rw [hc]; unfold I128.val at h; omega)]
    refine ⟨_, rfl, ?_⟩
    unfold I128.val at *; show (a.lo.toNat : Int) = _; omega
  · intro h
    rw [if_pos (by rw [hc]; unfold I128.val at h; omega)]
    exact ⟨_, rfl⟩

theorem C10_i128_to_i64 (a : I128) :
    ExactOrPanic (-2 ^ 63) (2 ^ 63 - 1) a.val (fun r => r.toInt) (I128.toI64 a) := by
  have h1 := a.lo.isLt; have h2 := a.hi.isLt
  have hs : (a.lo.sshiftRight 63).toInt = if a.lo.toNat < 2 ^ 63 then 0 else -1 := by
    rw [BitVec.toInt_sshiftRight, Int.shiftRight_eq_div_pow, BitVec.toInt_eq_toNat_cond]
    split <;> split <;> omega
  have hc : (a.hi ≠ a.lo.sshiftRight 63) ↔ ¬ (-2 ^ 63 ≤ a.val ∧ a.val ≤ 2 ^ 63 - 1) := by
    rw [Ne, ← BitVec.toInt_inj, hs]
    unfold I128.val
    split <;> omega
  unfold I128.toI64
  constructor
  · intro h
    rw [if_neg (by rw [hc]; omega)]
    refine ⟨_, rfl, ?_⟩
    have := BitVec.toInt_eq_toNat_cond a.lo
    unfold I128.val at *
    show a.lo.toInt = _
    split at this <;> omega
  · intro h
    rw [if_pos (by rw [hc]; omega)]
    exact ⟨_, rfl⟩

example : I128.toI64 ⟨0xFFFFFFFFFFFFFFFF, 0xFFFFFFFFFFFFFFFF⟩ = .ok (-1) ∧
    I128.toI64 ⟨0xFFFFFFFFFFFFFFFF, 0⟩ = .panic "P0093" := by decide

/-- Constructors from 64-bit values preserve the value. -/
theorem C10_from_64 (v : BitVec 64) :
    (U128.fromU64 v).val = v.toNat ∧ (I128.fromI64 v).val = v.toInt := by
  constructor
  · unfold U128.fromU64 U128.val; simp
  · have h1 := v.isLt
    unfold I128.fromI64 I128.val
    have hz : (0 : BitVec 64).toInt = 0 := rfl
    have hm : (-1 : BitVec 64).toInt = -1 := rfl
    have := BitVec.toInt_eq_toNat_cond v
    simp only [BitVec.slt_iff_toInt_lt, hz]
    split
    · rw [hm]; split at this <;> omega
    · rw [hz]; split at this <;> omega

end Verif.Props

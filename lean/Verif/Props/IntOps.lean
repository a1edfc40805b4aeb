import Verif.Model.IntOps
import Verif.Spec
import Mathlib.Tactic.Linarith
import Mathlib.Tactic.NormNum
import Mathlib.Tactic.Ring
import Mathlib.Tactic.Positivity
/-
C12 (64-bit part), C13-C17, C63-C66, C68: integer operations of at most 64 bits.
-/
namespace Verif.Props
open Verif.IntOps Verif.Spec

/-- Smallest value of each type. -/
def loTy : IntTy → Int
  | .i8 => -2 ^ 7 | .i16 => -2 ^ 15 | .i32 => -2 ^ 31 | .i64 => -2 ^ 63 | .int => -2 ^ 63
  | .char => -2 ^ 31
  | _ => 0

/-- Largest value of each type. -/
def hiTy : IntTy → Int
  | .i8 => 2 ^ 7 - 1 | .i16 => 2 ^ 15 - 1 | .i32 => 2 ^ 31 - 1 | .i64 => 2 ^ 63 - 1 | .int => 2 ^ 63 - 1
  | .u8 => 2 ^ 8 - 1 | .byte => 2 ^ 8 - 1 | .u16 => 2 ^ 16 - 1 | .u32 => 2 ^ 32 - 1
  | .u64 => 2 ^ 64 - 1 | .uint => 2 ^ 64 - 1
  | .char => 2 ^ 31 - 1

/-- `z` is a value of type `t`. -/
def InTy (t : IntTy) (z : Int) : Prop := loTy t ≤ z ∧ z ≤ hiTy t

/-- Mathematical meaning of an operator (specification). -/
def meaning : Op → Int → Int → Int
  | .add => fun a b => a + b
  | .sub => fun a b => a - b
  | .mul => fun a b => a * b

theorem toI64_of_range {z : Int} (h1 : -2 ^ 63 ≤ z) (h2 : z < 2 ^ 63) : toI64 z = z := by
  unfold toI64; rw [Int.bmod_def]; split <;> omega

theorem toU64_of_range {z : Int} (h1 : 0 ≤ z) (h2 : z < 2 ^ 64) : toU64 z = z := by
  unfold toU64; omega

theorem exact_meaning (op : Op) (a b : Int) : op.exact a b = meaning op a b := by cases op <;> rfl

theorem mul_bound {a b A B : Int} (ha : -A ≤ a ∧ a ≤ A) (hb : -B ≤ b ∧ b ≤ B) :
    -(A * B) ≤ a * b ∧ a * b ≤ A * B := by
  constructor <;> nlinarith [mul_nonneg (sub_nonneg.2 ha.2) (sub_nonneg.2 hb.2),
    mul_nonneg (sub_nonneg.2 ha.2) (neg_le_iff_add_nonneg.1 hb.1),
    mul_nonneg (neg_le_iff_add_nonneg.1 ha.1) (sub_nonneg.2 hb.2),
    mul_nonneg (neg_le_iff_add_nonneg.1 ha.1) (neg_le_iff_add_nonneg.1 hb.1)]

/-- Sized helpers are exact-or-panic when the exact result fits `int64_t`. -/
theorem sizedCheck_spec (op : Op) (a b lo hi : Int)
    (h : -2 ^ 63 ≤ meaning op a b ∧ meaning op a b < 2 ^ 63) :
    ExactOrPanic lo hi (meaning op a b) id (sizedCheck op a b lo hi) := by
  unfold sizedCheck
  rw [exact_meaning]
  generalize meaning op a b = z at h
  unfold minI64 maxI64
  simp only
  rw [if_neg (by omega)]
  constructor
  · intro hz; rw [if_neg (by omega)]; exact ⟨z, rfl, rfl⟩
  · intro hz; rw [if_pos (by omega)]; exact ⟨_, rfl⟩

theorem usizedCheck_spec (op : Op) (a b hi : Int)
    (h : -2 ^ 63 ≤ meaning op a b ∧ meaning op a b < 2 ^ 63) :
    ExactOrPanic 0 hi (meaning op a b) id (usizedCheck op a b hi) := by
  unfold usizedCheck
  rw [exact_meaning]
  generalize meaning op a b = z at h
  unfold minI64 maxI64
  simp only
  rw [if_neg (by omega)]
  constructor
  · intro hz; rw [if_neg (by omega), if_neg (by omega)]; exact ⟨z, rfl, rfl⟩
  · intro hz
    by_cases h0 : z < 0
    · rw [if_pos h0]; exact ⟨_, rfl⟩
    · rw [if_neg h0, if_pos (by omega)]; exact ⟨_, rfl⟩

/-- C13: `int` helpers. -/
theorem C13_int_checked (op : Op) (a b : Int) :
    ExactOrPanic (-2 ^ 63) (2 ^ 63 - 1) (meaning op a b) id (check op a b) := by
  unfold check
  rw [exact_meaning]
  generalize meaning op a b = z
  unfold minI64 maxI64
  simp only
  constructor
  · intro hz; rw [if_neg (by omega)]; exact ⟨z, rfl, rfl⟩
  · intro hz; rw [if_pos (by omega)]; exact ⟨_, rfl⟩

/-- C13: negation and the step operators on `int`. -/
theorem C13_int_neg_step (a : Int) :
    ExactOrPanic (-2 ^ 63) (2 ^ 63 - 1) (-a) id (emitNeg .int a) ∧
    ExactOrPanic (-2 ^ 63) (2 ^ 63 - 1) (a + 1) id (emitStep true .int a) ∧
    ExactOrPanic (-2 ^ 63) (2 ^ 63 - 1) (a - 1) id (emitStep false .int a) := by
  refine ⟨?_, C13_int_checked .add a 1, C13_int_checked .sub a 1⟩
  show ExactOrPanic _ _ _ _ (negCheck a)
  unfold negCheck minI64 maxI64
  simp only
  constructor
  · intro hz; rw [if_neg (by omega)]; exact ⟨_, rfl, by simp⟩
  · intro hz; rw [if_pos (by omega)]; exact ⟨_, rfl⟩

/-- C14: `uint` helpers. -/
theorem C14_uint_checked (op : Op) (a b : Int) (ha : 0 ≤ a ∧ a < 2 ^ 64) (hb : 0 ≤ b ∧ b < 2 ^ 64) :
    ExactOrPanic 0 (2 ^ 64 - 1) (meaning op a b) id (ucheck op a b) := by
  have hm := mul_nonneg ha.1 hb.1
  have hM : maxU64 = 2 ^ 64 - 1 := rfl
  cases op
  all_goals
    simp only [ucheck, meaning]
    generalize a * b = p at *
    constructor
    · intro hz; rw [if_neg (by omega)]; exact ⟨_, rfl, rfl⟩
    · intro hz; rw [if_pos (by omega)]; exact ⟨_, rfl⟩

/-- The bounded types (width at most 32, not `char`). -/
def Narrow : IntTy → Prop
  | .i8 | .i16 | .i32 | .u8 | .byte | .u16 | .u32 => True
  | _ => False

theorem narrow_range {t : IntTy} {z : Int} (ht : Narrow t) (h : InTy t z) :
    -2 ^ 31 ≤ z ∧ z ≤ 2 ^ 32 - 1 := by
  cases t <;> simp only [Narrow, InTy, loTy, hiTy] at * <;> omega

/-- The exact result of two narrow operands fits `int64_t`, except for a product of two `u32`. -/
theorem narrow_fits (op : Op) {l r : IntTy} {a b : Int} (hl : Narrow l) (hr : Narrow r)
    (hx : ¬ (op = .mul ∧ l = .u32 ∧ r = .u32)) (ha : InTy l a) (hb : InTy r b) :
    -2 ^ 63 ≤ meaning op a b ∧ meaning op a b < 2 ^ 63 := by
  have hA := narrow_range hl ha
  have hB := narrow_range hr hb
  cases op
  · simp only [meaning]; omega
  · simp only [meaning]; omega
  · simp only [meaning]
    by_cases h1 : l = .u32
    · have h2 : r ≠ .u32 := fun h => hx ⟨rfl, h1, h⟩
      have hb' : -2 ^ 31 ≤ b ∧ b ≤ 2 ^ 31 := by
        cases r <;> simp only [Narrow, InTy, loTy, hiTy] at * <;> first | omega | exact absurd rfl h2 | exact absurd trivial h2
      have ha' : 0 ≤ a := by subst h1; exact ha.1
      have ha'' : -(2 ^ 32 - 1) ≤ a ∧ a ≤ 2 ^ 32 - 1 := by omega
      have := mul_bound ha'' hb'
      omega
    · have ha' : -2 ^ 31 ≤ a ∧ a ≤ 2 ^ 31 := by
        cases l <;> simp only [Narrow, InTy, loTy, hiTy] at * <;> first | omega | exact absurd trivial h1
      by_cases h2 : r = .u32
      · have hb' : 0 ≤ b := by subst h2; exact hb.1
        have hb'' : -(2 ^ 32 - 1) ≤ b ∧ b ≤ 2 ^ 32 - 1 := by omega
        have := mul_bound ha' hb''
        omega
      · have hb' : -2 ^ 31 ≤ b ∧ b ≤ 2 ^ 31 := by
          cases r <;> simp only [Narrow, InTy, loTy, hiTy] at * <;> first | omega | exact absurd rfl h2 | exact absurd trivial h2
        have := mul_bound ha' hb'
        omega

/-- Emitted arithmetic when the selected type is narrow and both operands fit `int64_t`. -/
theorem emitArith_narrow (op : Op) (l r t : IntTy) (a b : Int) (hs : sizedName l r = t) (ht : Narrow t)
    (ha : -2 ^ 63 ≤ a ∧ a < 2 ^ 63) (hb : -2 ^ 63 ≤ b ∧ b < 2 ^ 63)
    (h : -2 ^ 63 ≤ meaning op a b ∧ meaning op a b < 2 ^ 63) :
    ExactOrPanic (loTy t) (hiTy t) (meaning op a b) id (emitArith op l r a b) := by
  unfold emitArith
  rw [hs, toI64_of_range ha.1 ha.2, toI64_of_range hb.1 hb.2]
  cases t <;> simp only [Narrow] at ht <;> simp only [bounds, loTy, hiTy] <;>
    first
    | exact sizedCheck_spec op a b _ _ h
    | exact usizedCheck_spec op a b _ h

/-- C15: `i8`, `i16`, `i32` arithmetic. -/
theorem C15_sized_signed (op : Op) (t : IntTy) (ht : t = .i8 ∨ t = .i16 ∨ t = .i32) (a b : Int)
    (ha : InTy t a) (hb : InTy t b) :
    ExactOrPanic (loTy t) (hiTy t) (meaning op a b) id (emitArith op t t a b) := by
  have hn : Narrow t := by rcases ht with rfl | rfl | rfl <;> trivial
  have hs : sizedName t t = t := by rcases ht with rfl | rfl | rfl <;> rfl
  have h1 := narrow_range hn ha
  have h2 := narrow_range hn hb
  refine emitArith_narrow op t t t a b hs hn (by omega) (by omega) ?_
  exact narrow_fits op hn hn (by rcases ht with rfl | rfl | rfl <;> simp) ha hb

/-- C15: unary minus and `++`/`--` on the sized signed types. -/
theorem C15_sized_neg_step (t : IntTy) (ht : t = .i8 ∨ t = .i16 ∨ t = .i32) (a : Int) (ha : InTy t a) :
    ExactOrPanic (loTy t) (hiTy t) (-a) id (emitNeg t a) ∧
    ExactOrPanic (loTy t) (hiTy t) (a + 1) id (emitStep true t a) ∧
    ExactOrPanic (loTy t) (hiTy t) (a - 1) id (emitStep false t a) := by
  have h : ∀ op, op = Op.add ∨ op = Op.sub → -2 ^ 63 ≤ meaning op a 1 ∧ meaning op a 1 < 2 ^ 63 := by
    intro op hop
    have := narrow_range (t := t) (by rcases ht with rfl | rfl | rfl <;> trivial) ha
    rcases hop with rfl | rfl <;> simp only [meaning] <;> omega
  have hneg : ∀ lo hi : Int, -2 ^ 31 ≤ lo → hi < 2 ^ 31 → lo ≤ a → a ≤ hi →
      ExactOrPanic lo hi (-a) id (sizedNegCheck a lo hi) := by
    intro lo hi h1 h2 h3 h4
    unfold sizedNegCheck maxI64
    rw [if_neg (by omega)]
    constructor
    · intro hz; rw [if_neg (by omega)]; exact ⟨_, rfl, rfl⟩
    · intro hz; rw [if_pos (by omega)]; exact ⟨_, rfl⟩
  rcases ht with rfl | rfl | rfl <;> simp only [InTy, loTy, hiTy] at ha
  all_goals
    refine ⟨hneg _ _ (by norm_num [loTy]) (by norm_num [hiTy]) ha.1 ha.2,
      sizedCheck_spec .add a 1 _ _ (h .add (Or.inl rfl)), sizedCheck_spec .sub a 1 _ _ (h .sub (Or.inr rfl))⟩

example : emitArith .mul .i8 .i8 (-128) (-1) = .panic "P0013" ∧ emitArith .mul .i8 .i8 (-16) 8 = .ok (-128) := by
  decide

/-- C16: `u8`/`byte`, `u16`, `u32`, except the product of two `u32`. -/
theorem C16_sized_unsigned_partial (op : Op) (t : IntTy)
    (ht : t = .u8 ∨ t = .byte ∨ t = .u16 ∨ t = .u32) (hx : ¬ (op = .mul ∧ t = .u32)) (a b : Int)
    (ha : InTy t a) (hb : InTy t b) :
    ExactOrPanic 0 (hiTy t) (meaning op a b) id (emitArith op t t a b) := by
  have hn : Narrow t := by rcases ht with rfl | rfl | rfl | rfl <;> trivial
  have hs : sizedName t t = t := by rcases ht with rfl | rfl | rfl | rfl <;> rfl
  have hz : loTy t = 0 := by rcases ht with rfl | rfl | rfl | rfl <;> rfl
  have h1 := narrow_range hn ha
  have h2 := narrow_range hn hb
  rw [← hz]
  refine emitArith_narrow op t t t a b hs hn (by omega) (by omega) ?_
  exact narrow_fits op hn hn (by rintro ⟨h, h', _⟩; exact hx ⟨h, h'⟩) ha hb

/-- C16 for the product of two `u32`: exact or panic as long as the product stays below 2^63.
Missing: products of 2^63 and more, where the C multiplication overflows (next theorem). -/
theorem C16_u32_mul_partial (a b : Int) (ha : InTy .u32 a) (hb : InTy .u32 b) (h : a * b < 2 ^ 63) :
    ExactOrPanic 0 (hiTy .u32) (a * b) id (emitArith .mul .u32 .u32 a b) := by
  have h1 := narrow_range (t := .u32) trivial ha
  have h2 := narrow_range (t := .u32) trivial hb
  have h0 : 0 ≤ a * b := mul_nonneg ha.1 hb.1
  exact emitArith_narrow .mul .u32 .u32 .u32 a b rfl trivial (by omega) (by omega)
    ⟨by simp only [meaning]; omega, h⟩

/-- C16 fails: `u32` 4294967295 * 4294967295 overflows `int64_t` in C. -/
theorem C16_u32_mul_fails : InTy .u32 (2 ^ 32 - 1) ∧
    emitArith .mul .u32 .u32 (2 ^ 32 - 1) (2 ^ 32 - 1) = .ub := by
  constructor
  · simp only [InTy, loTy, hiTy]; omega
  · decide

/-- C13/C14 at the level of emitted code: same-type arithmetic on `int`/`i64` and `uint`/`u64`. -/
theorem C13_emitted (op : Op) (t : IntTy) (ht : t = .int ∨ t = .i64) (a b : Int)
    (ha : InTy t a) (hb : InTy t b) :
    ExactOrPanic (loTy t) (hiTy t) (meaning op a b) id (emitArith op t t a b) := by
  have e : emitArith op t t a b = check op (toI64 a) (toI64 b) := by
    rcases ht with rfl | rfl <;> rfl
  have hr : -2 ^ 63 ≤ a ∧ a < 2 ^ 63 ∧ -2 ^ 63 ≤ b ∧ b < 2 ^ 63 := by
    rcases ht with rfl | rfl <;> simp only [InTy, loTy, hiTy] at * <;> omega
  rw [e, toI64_of_range hr.1 hr.2.1, toI64_of_range hr.2.2.1 hr.2.2.2]
  rcases ht with rfl | rfl <;> exact C13_int_checked op a b

theorem C14_emitted (op : Op) (t : IntTy) (ht : t = .uint ∨ t = .u64) (a b : Int)
    (ha : InTy t a) (hb : InTy t b) :
    ExactOrPanic (loTy t) (hiTy t) (meaning op a b) id (emitArith op t t a b) := by
  have e : emitArith op t t a b = ucheck op (toU64 a) (toU64 b) := by
    rcases ht with rfl | rfl <;> rfl
  have hr : 0 ≤ a ∧ a < 2 ^ 64 ∧ 0 ≤ b ∧ b < 2 ^ 64 := by
    rcases ht with rfl | rfl <;> simp only [InTy, loTy, hiTy] at * <;> omega
  rw [e, toU64_of_range hr.1 hr.2.1, toU64_of_range hr.2.2.1 hr.2.2.2]
  rcases ht with rfl | rfl <;> exact C14_uint_checked op a b ⟨hr.1, hr.2.1⟩ ⟨hr.2.2.1, hr.2.2.2⟩

/-- C14: `++` and `--` on `uint`. -/
theorem C14_uint_step (a : Int) (ha : 0 ≤ a ∧ a < 2 ^ 64) :
    ExactOrPanic 0 (2 ^ 64 - 1) (a + 1) id (emitStep true .uint a) ∧
    ExactOrPanic 0 (2 ^ 64 - 1) (a - 1) id (emitStep false .uint a) :=
  ⟨C14_uint_checked .add a 1 ha (by omega), C14_uint_checked .sub a 1 ha (by omega)⟩

/-! ### C63: operands of different integer types -/

/-- Full claim: for operands of any two integer types the result is exact or a panic; a value
different from the exact one, or undefined behaviour, never occurs. -/
def C63_statement : Prop :=
  ∀ (op : Op) (l r : IntTy) (a b : Int), InTy l a → InTy r b →
    (∃ c, emitArith op l r a b = .panic c) ∨ emitArith op l r a b = .ok (meaning op a b)

/-- Two narrow types: exact or panic in the range of one of them, at least as wide as the other. -/
theorem C63_narrow_partial (op : Op) (l r : IntTy) (hl : Narrow l) (hr : Narrow r)
    (hx : ¬ (op = .mul ∧ l = .u32 ∧ r = .u32)) (a b : Int) (ha : InTy l a) (hb : InTy r b) :
    ∃ t, (t = l ∨ t = r) ∧ hiTy l - loTy l ≤ hiTy t - loTy t ∧ hiTy r - loTy r ≤ hiTy t - loTy t ∧
      ExactOrPanic (loTy t) (hiTy t) (meaning op a b) id (emitArith op l r a b) := by
  have h1 := narrow_range hl ha
  have h2 := narrow_range hr hb
  have hw : (sizedName l r = l ∨ sizedName l r = r) ∧ Narrow (sizedName l r) ∧
      hiTy l - loTy l ≤ hiTy (sizedName l r) - loTy (sizedName l r) ∧
      hiTy r - loTy r ≤ hiTy (sizedName l r) - loTy (sizedName l r) := by
    cases l <;> simp only [Narrow] at hl <;> cases r <;> simp only [Narrow] at hr <;>
      simp [sizedName, rank, Narrow, hiTy, loTy]
  refine ⟨sizedName l r, hw.1, hw.2.2.1, hw.2.2.2, ?_⟩
  exact emitArith_narrow op l r _ a b rfl hw.2.1 (by omega) (by omega) (narrow_fits op hl hr hx ha hb)

/-- A narrow type with `int`, `i64`, `uint` or `u64`: correct whenever the 64-bit operand and the
exact result both fit `int64_t`. -/
theorem C63_narrow_with_64_partial (op : Op) (l r t : IntTy) (h : (t = l ∧ Narrow l ∧ rank r = 4) ∨
      (t = r ∧ Narrow r ∧ rank l = 4)) (a b : Int)
    (ha : -2 ^ 63 ≤ a ∧ a < 2 ^ 63) (hb : -2 ^ 63 ≤ b ∧ b < 2 ^ 63)
    (hf : -2 ^ 63 ≤ meaning op a b ∧ meaning op a b < 2 ^ 63) :
    ExactOrPanic (loTy t) (hiTy t) (meaning op a b) id (emitArith op l r a b) := by
  have hs : sizedName l r = t ∧ Narrow t := by
    rcases h with ⟨rfl, hn, h4⟩ | ⟨rfl, hn, h4⟩
    · refine ⟨?_, hn⟩
      cases t <;> simp only [Narrow] at hn <;> cases r <;> simp [rank] at h4 <;> rfl
    · refine ⟨?_, hn⟩
      cases t <;> simp only [Narrow] at hn <;> cases l <;> simp [rank] at h4 <;> rfl
  exact emitArith_narrow op l r t a b hs.1 hs.2 ha hb hf

/-- `int` with `uint` (any order, any 64-bit names): correct when both operands are nonnegative. -/
theorem C63_int_uint_partial (op : Op) (l r : IntTy) (h4 : rank l = 4 ∧ rank r = 4)
    (hu : kind l = .kUint ∨ kind r = .kUint) (a b : Int) (ha : 0 ≤ a ∧ a < 2 ^ 64) (hb : 0 ≤ b ∧ b < 2 ^ 64) :
    ExactOrPanic 0 (2 ^ 64 - 1) (meaning op a b) id (emitArith op l r a b) := by
  have e : emitArith op l r a b = ucheck op (toU64 a) (toU64 b) := by
    obtain ⟨h1, h2⟩ := h4
    cases l <;> simp [rank] at h1 <;> cases r <;> simp [rank] at h2 <;> simp [kind] at hu <;> rfl
  rw [e, toU64_of_range ha.1 ha.2, toU64_of_range hb.1 hb.2]
  exact C14_uint_checked op a b ha hb

/-- The full claim fails: `byte` 5 + `uint` 2^64-1 yields 4. -/
theorem C63_byte_uint_witness :
    InTy .byte 5 ∧ InTy .uint (2 ^ 64 - 1) ∧ emitArith .add .byte .uint 5 (2 ^ 64 - 1) = .ok 4 := by
  refine ⟨by simp only [InTy, loTy, hiTy]; omega, by simp only [InTy, loTy, hiTy]; omega, by decide⟩

/-- and `i8` 1 + `int` 2^63-1 overflows in C. -/
theorem C63_i8_int_witness :
    InTy .i8 1 ∧ InTy .int (2 ^ 63 - 1) ∧ emitArith .add .i8 .int 1 (2 ^ 63 - 1) = .ub := by
  refine ⟨by simp only [InTy, loTy, hiTy]; omega, by simp only [InTy, loTy, hiTy]; omega, by decide⟩

/-- and `int` -1 * `uint` 1 yields 2^64-1. -/
theorem C63_int_uint_witness :
    InTy .int (-1) ∧ InTy .uint 1 ∧ emitArith .mul .int .uint (-1) 1 = .ok (2 ^ 64 - 1) := by
  refine ⟨by simp only [InTy, loTy, hiTy]; omega, by simp only [InTy, loTy, hiTy]; omega, by decide⟩

theorem C63_fails : ¬ C63_statement := by
  intro h
  have w := C63_byte_uint_witness
  rcases h .add .byte .uint 5 (2 ^ 64 - 1) w.1 w.2.1 with ⟨c, hc⟩ | hc
  · rw [w.2.2] at hc; cases hc
  · rw [w.2.2] at hc; simp [meaning] at hc

/-! ### C17: division -/

theorem conv_signed {n : Nat} {z : Int} (hn : 0 < n) (h1 : -2 ^ (n - 1) ≤ z) (h2 : z < 2 ^ (n - 1)) :
    conv (n, true) z = z := by
  obtain ⟨m, rfl⟩ : ∃ m, n = m + 1 := ⟨n - 1, by omega⟩
  simp only [Nat.add_sub_cancel] at h1 h2
  unfold conv
  simp only [if_true]
  have hp : (2 : Int) ^ (m + 1) = 2 * 2 ^ m := by rw [pow_succ]; ring
  have hpos : (0 : Int) < 2 ^ m := by positivity
  have hc : (((2 ^ (m + 1) : Nat) : Int)) = 2 * 2 ^ m := by push_cast; exact hp
  rw [Int.bmod_def, hc]
  generalize (2 : Int) ^ m = p at *
  by_cases h0 : 0 ≤ z
  · rw [Int.emod_eq_of_lt h0 (by omega)]; rw [if_pos (by omega)]
  · have : z % (2 * p) = z + 2 * p := by
      rw [← Int.add_emod_right, Int.emod_eq_of_lt (by omega) (by omega)]
    rw [this, if_neg (by omega)]; omega

theorem conv_unsigned {n : Nat} {z : Int} (h1 : 0 ≤ z) (h2 : z < 2 ^ n) : conv (n, false) z = z := by
  unfold conv
  simp only [Bool.false_eq_true, if_false]
  exact Int.emod_eq_of_lt h1 h2

/-- The signed types. -/
def Signed : IntTy → Prop
  | .i8 | .i16 | .i32 | .i64 | .int => True
  | _ => False

/-- The unsigned types. -/
def Unsigned : IntTy → Prop
  | .u8 | .byte | .u16 | .u32 | .u64 | .uint => True
  | _ => False

/-- Outcome required of a division or modulo with exact result `q`. -/
def DivSpec (lo b a q : Int) (o : Option (Outcome Int)) : Prop :=
  (b = 0 → o = some (.panic "P0078")) ∧
  (b ≠ 0 → (a = lo ∧ b = -1) → o = some (.panic "P0079")) ∧
  (b ≠ 0 → ¬ (a = lo ∧ b = -1) → o = some (.ok q))

/-- The common C type of two signed types is signed and wide enough for both. -/
theorem common_signed {l r : IntTy} (hl : Signed l) (hr : Signed r) :
    ∃ w, (w = 32 ∨ w = 64) ∧ common (cTy l) (cTy r) = (w, true) ∧
      (-2 ^ (w - 1) ≤ loTy l ∧ hiTy l < 2 ^ (w - 1)) ∧ (-2 ^ (w - 1) ≤ loTy r ∧ hiTy r < 2 ^ (w - 1)) ∧
      (loTy l ≠ -2 ^ (w - 1) → -2 ^ (w - 1) < loTy l) := by
  cases l <;> simp only [Signed] at hl <;> cases r <;> simp only [Signed] at hr <;>
    first
    | exact ⟨32, Or.inl rfl, rfl, by simp [loTy, hiTy], by simp [loTy, hiTy], by simp [loTy]⟩
    | exact ⟨64, Or.inr rfl, rfl, by simp [loTy, hiTy], by simp [loTy, hiTy], by simp [loTy]⟩

theorem eqMinusOne_signed {r : IntTy} (hr : Signed r) {b : Int} (hb : InTy r b) :
    eqMinusOne (cTy r) b = decide (b = -1) := by
  have : ∃ w, (w = 32 ∨ w = 64) ∧ common (cTy r) (32, true) = (w, true) ∧
      (-2 ^ (w - 1) ≤ loTy r ∧ hiTy r < 2 ^ (w - 1)) := by
    cases r <;> simp only [Signed] at hr <;>
      first
      | exact ⟨32, Or.inl rfl, rfl, by simp [loTy, hiTy]⟩
      | exact ⟨64, Or.inr rfl, rfl, by simp [loTy, hiTy]⟩
  obtain ⟨w, hw, hc, h1, h2⟩ := this
  obtain ⟨b1, b2⟩ := hb
  unfold eqMinusOne
  rw [hc]
  dsimp only
  have hpos : (1 : Int) ≤ 2 ^ (w - 1) := by rcases hw with rfl | rfl <;> norm_num
  rw [conv_signed (by omega) (by omega) (by omega), conv_signed (by omega) (by omega) (by omega)]
  rfl

/-- C17 (and C12 for these types): division and modulo of two signed operands, of the same or of
different widths: P0078 exactly on a zero divisor, P0079 exactly on (minimum of the left type, -1),
otherwise truncated division, without undefined behaviour. -/
theorem C17_signed_div (isMod : Bool) (l r : IntTy) (hl : Signed l) (hr : Signed r) (a b : Int)
    (ha : InTy l a) (hb : InTy r b) :
    DivSpec (loTy l) b a (if isMod then a.tmod b else a.tdiv b) (emitDiv isMod l r a b) := by
  have hk : kind l = .kInt := by cases l <;> simp only [Signed] at hl <;> rfl
  have hm : divMin l = some (loTy l) := by
    cases l <;> simp only [Signed] at hl <;> rfl
  have h64 : -2 ^ 63 ≤ a ∧ a < 2 ^ 63 := by
    cases l <;> simp only [Signed] at hl <;> simp only [InTy, loTy, hiTy] at ha <;> omega
  obtain ⟨w, hw, hc, hl', hr', hne⟩ := common_signed hl hr
  unfold emitDiv
  simp only [hk, true_or, if_true, hm]
  rw [eqMinusOne_signed hr hb, toI64_of_range h64.1 h64.2]
  unfold DivSpec
  refine ⟨fun h0 => by rw [if_pos h0], fun h0 h1 => ?_, fun h0 h1 => ?_⟩
  · rw [if_neg h0, if_pos (by simpa using h1)]
  · rw [if_neg h0, if_neg (by simpa using h1)]
    unfold cDiv
    rw [hc]
    obtain ⟨a1, a2⟩ := ha
    obtain ⟨b1, b2⟩ := hb
    have e1 : conv (w, true) a = a := conv_signed (by omega) (by omega) (by omega)
    have e2 : conv (w, true) b = b := conv_signed (by omega) (by omega) (by omega)
    simp only [e1, e2]
    rw [if_neg h0, if_neg]
    rintro ⟨-, h2, h3⟩
    apply h1
    refine ⟨?_, h3⟩
    by_contra hcon
    by_cases he : loTy l = -2 ^ (w - 1)
    · exact hcon (by rw [h2, he])
    · have := hne he; omega

/-- The specification of truncated division met by the quotient and remainder of `C17_signed_div`. -/
theorem C17_truncation (a b : Int) (hb : b ≠ 0) :
    a = (a.tdiv b) * b + a.tmod b ∧ |a.tmod b| < |b| ∧ (0 ≤ a → 0 ≤ a.tmod b) ∧ (a ≤ 0 → a.tmod b ≤ 0) := by
  refine ⟨?_, ?_, ?_, ?_⟩
  · exact (Int.tdiv_mul_add_tmod a b).symm
  · rw [← Int.natCast_natAbs, ← Int.natCast_natAbs, Int.natAbs_tmod]
    have : 0 < b.natAbs := Int.natAbs_pos.2 hb
    exact_mod_cast Nat.mod_lt _ this
  · exact fun h => Int.tmod_nonneg b h
  · intro h
    have := Int.tmod_nonneg b (a := -a) (by omega)
    rw [Int.neg_tmod] at this; omega

/-- C17: unsigned operands (both unsigned, any widths). -/
theorem C17_unsigned_div (isMod : Bool) (l r : IntTy) (hl : Unsigned l) (hr : Unsigned r) (a b : Int)
    (ha : InTy l a) (hb : InTy r b) :
    emitDiv isMod l r a b = some (if b = 0 then .panic "P0078" else .ok (if isMod then a % b else a / b)) := by
  have hk : ¬ (kind l = .kInt ∨ kind r = .kInt) := by
    cases l <;> simp only [Unsigned] at hl <;> cases r <;> simp only [Unsigned] at hr <;> simp [kind]
  have hc : ∃ w s, common (cTy l) (cTy r) = (w, s) ∧ (w = 32 ∨ w = 64) ∧
      (hiTy l < if s then 2 ^ (w - 1) else 2 ^ w) ∧ (hiTy r < if s then 2 ^ (w - 1) else 2 ^ w) ∧
      0 ≤ loTy l ∧ 0 ≤ loTy r := by
    cases l <;> simp only [Unsigned] at hl <;> cases r <;> simp only [Unsigned] at hr <;>
      first
      | exact ⟨32, true, rfl, Or.inl rfl, by simp [hiTy], by simp [hiTy], by simp [loTy], by simp [loTy]⟩
      | exact ⟨32, false, rfl, Or.inl rfl, by simp [hiTy], by simp [hiTy], by simp [loTy], by simp [loTy]⟩
      | exact ⟨64, false, rfl, Or.inr rfl, by simp [hiTy], by simp [hiTy], by simp [loTy], by simp [loTy]⟩
  obtain ⟨w, s, hc, hw, h1, h2, h3, h4⟩ := hc
  obtain ⟨a1, a2⟩ := ha
  obtain ⟨b1, b2⟩ := hb
  unfold emitDiv
  simp only [if_neg hk]
  by_cases h0 : b = 0
  · rw [if_pos h0, if_pos h0]
  · rw [if_neg h0, if_neg h0]
    unfold cDiv
    rw [hc]
    have hpos : (0 : Int) < 2 ^ (w - 1) := by positivity
    have e1 : conv (w, s) a = a := by
      cases s
      · exact conv_unsigned (by omega) (by simp only [Bool.false_eq_true, if_false] at h1; omega)
      · exact conv_signed (by omega) (by simp only [if_true] at h1; omega) (by simp only [if_true] at h1; omega)
    have e2 : conv (w, s) b = b := by
      cases s
      · exact conv_unsigned (by omega) (by simp only [Bool.false_eq_true, if_false] at h2; omega)
      · exact conv_signed (by omega) (by simp only [if_true] at h2; omega) (by simp only [if_true] at h2; omega)
    simp only [e1, e2]
    rw [if_neg h0, if_neg (by rintro ⟨-, -, h⟩; omega)]
    have d1 : a.tdiv b = a / b := Int.tdiv_eq_ediv_of_nonneg (by omega)
    have d2 : a.tmod b = a % b := Int.tmod_eq_emod_of_nonneg (by omega)
    rw [d1, d2]

/-- C12 for 64-bit and narrower types: in every pair of types for which C is emitted, a zero
divisor panics. -/
theorem C12_narrow_div_zero (isMod : Bool) (l r : IntTy) (a : Int) (o : Outcome Int)
    (h : emitDiv isMod l r a 0 = some o) : o = .panic "P0078" := by
  unfold emitDiv at h
  simp only at h
  split at h
  · split at h
    · cases h
    · simpa using h.symm
  · simpa using h.symm

/-- Full claim for mixed signedness: division is emitted and is exact or a panic. -/
def C17_mixed_statement : Prop :=
  ∀ (l r : IntTy) (a b : Int), InTy l a → InTy r b → b ≠ 0 →
    ∃ o, emitDiv false l r a b = some o ∧ ((∃ c, o = .panic c) ∨ o = .ok (a.tdiv b))

/-- `i32` -4 / `u32` 2 yields 2147483646; `u8` divided by any signed integer (a literal is an `int`)
produces a program that does not compile. -/
theorem C17_mixed_witness :
    emitDiv false .i32 .u32 (-4) 2 = some (.ok 2147483646) ∧
    (∀ r a b, Signed r → emitDiv false .u8 r a b = none) := by
  constructor
  · decide
  · intro r a b hr
    unfold emitDiv
    have hk : kind r = .kInt := by cases r <;> simp only [Signed] at hr <;> rfl
    simp only [hk, or_true, if_true, divMin, bounds]

theorem C17_mixed_fails : ¬ C17_mixed_statement := by
  intro h
  obtain ⟨o, ho, _⟩ := h .u8 .int 6 2 (by simp only [InTy, loTy, hiTy]; omega)
    (by simp only [InTy, loTy, hiTy]; omega) (by omega)
  rw [C17_mixed_witness.2 .int 6 2 trivial] at ho
  cases ho

/-! ### C64: comparisons -/

/-- Mathematical meaning of the comparison operators (specification). -/
def cmpMeaning : Cmp → Int → Int → Prop
  | .eq => fun a b => a = b
  | .ne => fun a b => a ≠ b
  | .lt => fun a b => a < b
  | .gt => fun a b => b < a
  | .le => fun a b => a ≤ b
  | .ge => fun a b => b ≤ a

theorem holds_iff (c : Cmp) (a b : Int) : c.holds a b = true ↔ cmpMeaning c a b := by
  cases c <;> simp [Cmp.holds, cmpMeaning]

/-- Full claim: a comparison of any two integer variables is the comparison of their values. -/
def C64_statement : Prop :=
  ∀ (c : Cmp) (l r : IntTy) (a b : Int), InTy l a → InTy r b →
    (emitCmp c l r a b = true ↔ cmpMeaning c a b)

/-- It holds when the two types have the same signedness, and for any two types when neither value
is negative. Missing: a negative value compared with one of an unsigned type. -/
theorem C64_cmp_partial (c : Cmp) (l r : IntTy) (a b : Int) (ha : InTy l a) (hb : InTy r b)
    (h : (Signed l ∧ Signed r) ∨ (Unsigned l ∧ Unsigned r) ∨ (0 ≤ a ∧ 0 ≤ b)) :
    emitCmp c l r a b = true ↔ cmpMeaning c a b := by
  have key : conv (common (cTy l) (cTy r)) a = a ∧ conv (common (cTy l) (cTy r)) b = b := by
    obtain ⟨a1, a2⟩ := ha
    obtain ⟨b1, b2⟩ := hb
    have hsg : (Signed l ∧ Signed r) ∨ (0 ≤ a ∧ 0 ≤ b) := by
      rcases h with h | h | h
      · exact Or.inl h
      · right
        constructor
        · cases l <;> simp only [Unsigned] at h <;> first | exact a1 | exact absurd h.1 id
        · cases r <;> simp only [Unsigned] at h <;> first | exact b1 | exact absurd h.2 id
      · exact Or.inr h
    rcases hsg with ⟨hl, hr⟩ | ⟨p, q⟩
    · obtain ⟨w, hw, hc, hl', hr', -⟩ := common_signed hl hr
      rw [hc]
      exact ⟨conv_signed (by omega) (by omega) (by omega), conv_signed (by omega) (by omega) (by omega)⟩
    · have hc : ∃ w s, common (cTy l) (cTy r) = (w, s) ∧ 0 < w ∧
          (hiTy l < if s then 2 ^ (w - 1) else 2 ^ w) ∧ (hiTy r < if s then 2 ^ (w - 1) else 2 ^ w) := by
        clear h a1 a2 b1 b2
        cases l <;> cases r <;>
          first
          | exact ⟨32, true, rfl, by omega, by simp [hiTy], by simp [hiTy]⟩
          | exact ⟨32, false, rfl, by omega, by simp [hiTy], by simp [hiTy]⟩
          | exact ⟨64, false, rfl, by omega, by simp [hiTy], by simp [hiTy]⟩
          | exact ⟨64, true, rfl, by omega, by simp [hiTy], by simp [hiTy]⟩
      obtain ⟨w, s, hc, hw, h1, h2⟩ := hc
      rw [hc]
      have hpos : (0 : Int) < 2 ^ (w - 1) := by positivity
      cases s
      · simp only [Bool.false_eq_true, if_false] at h1 h2
        exact ⟨conv_unsigned p (by omega), conv_unsigned q (by omega)⟩
      · simp only [if_true] at h1 h2
        exact ⟨conv_signed hw (by omega) (by omega), conv_signed hw (by omega) (by omega)⟩
  unfold emitCmp
  simp only [key.1, key.2]
  exact holds_iff c a b

/-- `int` -1 < `uint` 1 is false, and `i32` -1 == `u32` 4294967295 is true. -/
theorem C64_witness : emitCmp .lt .int .uint (-1) 1 = false ∧
    emitCmp .eq .i32 .u32 (-1) 4294967295 = true := by decide

theorem C64_fails : ¬ C64_statement := by
  intro h
  have := (h .lt .int .uint (-1) 1 (by simp only [InTy, loTy, hiTy]; omega)
    (by simp only [InTy, loTy, hiTy]; omega)).2 (by simp [cmpMeaning])
  rw [C64_witness.1] at this
  cases this

/-! ### C65: compound assignment -/

/-- Result of the written-out form `x op v` on operands of type `t`. -/
def plainOp (op : AOp) (t : IntTy) (x v : Int) : Option (Outcome Int) :=
  match op with
  | .arith o => some (emitArith o t t x v)
  | .div => emitDiv false t t x v
  | .mod => emitDiv true t t x v

theorem conv_cTy {t : IntTy} {z : Int} (h : InTy t z) : conv (cTy t) z = z := by
  obtain ⟨h1, h2⟩ := h
  cases t <;> simp only [loTy, hiTy] at h1 h2 <;>
    first
    | exact conv_signed (by decide) (by norm_num; omega) (by norm_num; omega)
    | exact conv_unsigned (by omega) (by norm_num; omega)

theorem tdiv_between {lo hi a b : Int} (hb : b ≠ 0) (h : lo ≤ a ∧ a ≤ hi) (hlo : lo ≤ 0) (hhi : 0 ≤ hi)
    (hs : ¬ (a = lo ∧ b = -1)) (hlh : -lo ≤ hi + 1 ∧ (lo ≠ 0 → hi ≤ -lo)) (hneg : lo = 0 → 0 < b) :
    lo ≤ a.tdiv b ∧ a.tdiv b ≤ hi := by
  by_cases h1 : b = -1
  · subst h1
    have : a ≠ lo := fun h => hs ⟨h, rfl⟩
    have h0 : lo ≠ 0 := fun h => by have := hneg h; omega
    have e : a.tdiv (-1) = -a := by rw [Int.tdiv_neg, Int.tdiv_one]
    rw [e]; clear e; omega
  · by_cases h2 : b = 1
    · subst h2; rw [Int.tdiv_one]; exact h
    · have h3 : 2 ≤ b.natAbs := by omega
      have h4 : (a.tdiv b).natAbs = a.natAbs / b.natAbs := Int.natAbs_tdiv a b
      have h5 : a.natAbs / b.natAbs ≤ a.natAbs / 2 := Nat.div_le_div_left h3 (by omega)
      by_cases hl0 : lo = 0
      · have : 0 ≤ a.tdiv b := Int.tdiv_nonneg (by omega) (by have := hneg hl0; omega)
        omega
      · have h7 : (a.tdiv b).natAbs ≤ a.natAbs / 2 := by omega
        clear h4 h5
        generalize a.tdiv b = q at *
        omega

theorem tmod_between {lo hi a b : Int} (hb : b ≠ 0) (h : lo ≤ a ∧ a ≤ hi) (hlo : lo ≤ 0) (hhi : 0 ≤ hi) :
    lo ≤ a.tmod b ∧ a.tmod b ≤ hi := by
  have h4 : (a.tmod b).natAbs = a.natAbs % b.natAbs := Int.natAbs_tmod a b
  have h5 : a.natAbs % b.natAbs ≤ a.natAbs := Nat.mod_le _ _
  have h6 := (C17_truncation a b hb).2.2
  omega

/-- Division of two operands of one type, away from the guarded cases, gives a value of that type. -/
theorem cDiv_in (isMod : Bool) (t : IntTy) (ht : t ≠ .char) (x v : Int) (hx : InTy t x) (hv : InTy t v)
    (h0 : v ≠ 0) (h1 : ¬ (x = loTy t ∧ v = -1)) :
    ∃ q, cDiv isMod t t x v = .ok q ∧ InTy t q := by
  have hb : loTy t ≤ 0 ∧ 0 ≤ hiTy t ∧ (-loTy t ≤ hiTy t + 1 ∧ (loTy t ≠ 0 → hiTy t ≤ -loTy t)) := by
    cases t <;> simp [loTy, hiTy]
  have hneg : loTy t = 0 → 0 < v := by
    intro h
    have := hv.1
    omega
  by_cases hs : Signed t
  · have hd := (C17_signed_div isMod t t hs hs x v hx hv).2.2 h0 h1
    have h64 : -2 ^ 63 ≤ x ∧ x < 2 ^ 63 := by
      cases t <;> simp only [Signed] at hs <;> simp only [InTy, loTy, hiTy] at hx <;> omega
    have hk : kind t = .kInt := by cases t <;> simp only [Signed] at hs <;> rfl
    have hdm : divMin t = some (loTy t) := by cases t <;> simp only [Signed] at hs <;> rfl
    unfold emitDiv at hd
    simp only [hk, true_or, if_true, hdm] at hd
    rw [if_neg h0, eqMinusOne_signed hs hv, toI64_of_range h64.1 h64.2, if_neg (by simpa using h1)] at hd
    refine ⟨_, Option.some.inj hd, ?_⟩
    cases isMod
    · exact tdiv_between h0 hx hb.1 hb.2.1 h1 hb.2.2 hneg
    · exact tmod_between h0 hx hb.1 hb.2.1
  · have hu : Unsigned t := by cases t <;> simp only [Signed, Unsigned] at * <;> first | exact absurd trivial hs | exact absurd rfl ht
    have hd := C17_unsigned_div isMod t t hu hu x v hx hv
    have hk : ¬ (kind t = .kInt) := by cases t <;> simp only [Unsigned] at hu <;> simp [kind]
    unfold emitDiv at hd
    simp only [hk, or_self, if_false, if_neg h0] at hd
    have hlo : loTy t = 0 := by cases t <;> simp only [Unsigned] at hu <;> rfl
    have hx0 : 0 ≤ x := by have := hx.1; omega
    refine ⟨_, Option.some.inj hd, ?_⟩
    cases isMod
    · have := tdiv_between h0 hx hb.1 hb.2.1 h1 hb.2.2 hneg
      rw [Int.tdiv_eq_ediv_of_nonneg hx0] at this
      exact this
    · have := tmod_between (b := v) h0 hx hb.1 hb.2.1
      rw [Int.tmod_eq_emod_of_nonneg hx0] at this
      exact this

/-- C65 on variables and fields: for every integer type but `char`, `x op= v` stores the value of
`x op v`, with the same panics. -/
theorem C65_variable (op : AOp) (t : IntTy) (ht : t ≠ .char) (x v : Int) (hx : InTy t x) (hv : InTy t v) :
    compoundVar op t t x v = plainOp op t x v := by
  have hkc : kind t ≠ .kChar := by cases t <;> simp [kind] at ht ⊢
  have hdiv : ∀ isMod : Bool, compoundVar (if isMod then .mod else .div) t t x v = emitDiv isMod t t x v := by
    intro isMod
    have e : ((if isMod then AOp.mod else AOp.div) == AOp.mod) = isMod := by cases isMod <;> rfl
    have hcv : compoundVar (if isMod then .mod else .div) t t x v =
        if kind t = .kInt then
          some (if v = 0 then .panic "P0078"
            else if toI64 x = compoundMin t ∧ eqMinusOne (cTy t) v then .panic "P0079"
            else storeVar t (cDiv isMod t t x v))
        else some (if v = 0 then .panic "P0078" else storeVar t (cDiv isMod t t x v)) := by
      cases isMod <;> simp [compoundVar, hkc] <;> rfl
    rw [hcv]
    have hst : v ≠ 0 → ¬ (x = loTy t ∧ v = -1) → storeVar t (cDiv isMod t t x v) = cDiv isMod t t x v := by
      intro h0 h1
      obtain ⟨q, hq, hin⟩ := cDiv_in isMod t ht x v hx hv h0 h1
      rw [hq]; simp only [storeVar, conv_cTy hin]
    unfold emitDiv
    by_cases hk : kind t = .kInt
    · have hs : Signed t := by cases t <;> simp [kind, Signed] at hk ⊢
      have hdm : divMin t = some (loTy t) ∧ compoundMin t = loTy t := by
        cases t <;> simp only [Signed] at hs <;> exact ⟨rfl, rfl⟩
      have h64 : -2 ^ 63 ≤ x ∧ x < 2 ^ 63 := by
        cases t <;> simp only [Signed] at hs <;> simp only [InTy, loTy, hiTy] at hx <;> omega
      simp only [hk, true_or, if_true, hdm.1, hdm.2]
      rw [eqMinusOne_signed hs hv, toI64_of_range h64.1 h64.2]
      by_cases h0 : v = 0
      · simp [h0]
      · by_cases h1 : x = loTy t ∧ v = -1
        · simp [h1]
        · rw [if_neg h0, if_neg h0, hst h0 h1]
    · simp only [hk, or_self, if_false]
      by_cases h0 : v = 0
      · simp [h0]
      · have hu : loTy t = 0 := by cases t <;> simp [kind, loTy] at hk ht ⊢
        have := hv.1
        rw [if_neg h0, if_neg h0, hst h0 (by omega)]
  cases op with
  | arith o => cases t <;> first | exact absurd rfl ht | rfl
  | div => exact hdiv false
  | mod => exact hdiv true

/-- C65 on elements of arrays of narrow types, for `+= -= *=`: the same value and panics as `x op v`. -/
theorem C65_array_partial (o : Op) (t : IntTy) (ht : Narrow t) (x v : Int) :
    compoundArray (.arith o) t t x v = emitArith o t t x v := by
  cases t <;> simp only [Narrow] at ht <;> rfl

/-- C65 on elements of `[int]` and `[i64]` and on map entries of these types, for `+= -= *=`:
correct as long as the exact result fits. Missing: overflow, which is undefined instead of a panic. -/
theorem C65_int_element_partial (o : Op) (t : IntTy) (ht : t = .int ∨ t = .i64) (x v : Int)
    (hx : InTy t x) (hv : InTy t v) (hf : InTy t (meaning o x v)) :
    compoundArray (.arith o) t t x v = .ok (meaning o x v) ∧
    compoundMap (.arith o) t t x v = .ok (meaning o x v) := by
  have hc : cTy t = (64, true) ∧ mapCTy t = (64, true) ∧ bounds t = none := by
    rcases ht with rfl | rfl <;> exact ⟨rfl, rfl, rfl⟩
  have hcm : common (64, true) (64, true) = (64, true) := rfl
  have e1 := conv_cTy hx
  have e2 := conv_cTy hv
  have e3 := conv_cTy hf
  rw [hc.1] at e1 e2 e3
  have hr : ¬ (meaning o x v < -2 ^ (64 - 1) ∨ meaning o x v ≥ 2 ^ (64 - 1)) := by
    rcases ht with rfl | rfl <;> simp only [InTy, loTy, hiTy] at hf <;> norm_num <;> omega
  constructor
  · simp only [compoundArray, hc.2.2, cArith, hc.1, hcm, e1, e2, exact_meaning, if_true, if_neg hr, e3]
  · simp only [compoundMap, hc.1, hc.2.1, hcm, e1, e2, exact_meaning, if_true, if_neg hr, e3]

/-- Full claim for array elements. -/
def C65_array_statement : Prop :=
  ∀ (op : AOp) (t : IntTy) (x v : Int), t ≠ .char → InTy t x → InTy t v →
    some (compoundArray op t t x v) = plainOp op t x v

/-- It fails: `a[i] += 1` on the largest `int` is undefined instead of a panic, and `a[i] /= 2`
with `a[i] = 10` stores 2 (the right-hand side). -/
theorem C65_array_witness :
    compoundArray (.arith .add) .int .int (2 ^ 63 - 1) 1 = .ub ∧
    plainOp (.arith .add) .int (2 ^ 63 - 1) 1 = some (.panic "P0004") ∧
    compoundArray .div .int .int 10 2 = .ok 2 ∧ plainOp .div .int 10 2 = some (.ok 5) ∧
    compoundArray .mod .i32 .i32 10 0 = .ok 0 ∧ plainOp .mod .i32 10 0 = some (.panic "P0078") := by
  decide

theorem C65_array_fails : ¬ C65_array_statement := by
  intro h
  have := h .div .int 10 2 (by decide) (by simp only [InTy, loTy, hiTy]; omega)
    (by simp only [InTy, loTy, hiTy]; omega)
  rw [C65_array_witness.2.2.1, C65_array_witness.2.2.2.1] at this
  simp at this

/-- On map entries: `m[k] /= 0` is undefined, and `m[k] += 1` on an `i8` entry of 127 stores 128. -/
theorem C65_map_witness :
    compoundMap .div .int .int 10 0 = .ub ∧
    compoundMap (.arith .add) .i8 .i8 127 1 = .ok 128 ∧ plainOp (.arith .add) .i8 127 1 = some (.panic "P0011") ∧
    compoundMap (.arith .sub) .uint .uint 0 1 = .ok (-1) := by
  decide

/-! ### C66: array elements -/

/-- C66 holds for elements written by an array literal, except `u64`/`uint` above 2^63-1. -/
theorem C66_literal_partial (t : IntTy) (v : Int) (hv : InTy t v) (h : v < 2 ^ 63) :
    loadElem t (initElem t v) = v := by
  obtain ⟨h1, h2⟩ := hv
  unfold loadElem initElem
  cases t <;> simp only [loTy, hiTy] at h1 h2 <;>
    simp only [elemBits, readCTy, conv, if_true, Bool.false_eq_true, if_false, Int.bmod_def] <;> omega

/-- Assigned elements read back when the C type of the element has the storage width. -/
theorem C66_assign_partial (t : IntTy) (ht : t = .int ∨ t = .i64 ∨ t = .u64 ∨ t = .uint ∨ t = .byte ∨ t = .char)
    (v : Int) (hv : InTy t v) (h : v < 2 ^ 63) (junk : Nat) : loadElem t (storeElem t v junk) = v := by
  obtain ⟨h1, h2⟩ := hv
  unfold loadElem storeElem
  rcases ht with rfl | rfl | rfl | rfl | rfl | rfl <;> simp only [loTy, hiTy] at h1 h2 <;>
    simp only [cTy, elemBits, readCTy, conv, if_true, Bool.false_eq_true, if_false, Int.bmod_def, le_refl] <;> omega

/-- For the narrow types the value read back depends on the bytes after the temporary: it is right
for a nonnegative value exactly when those bytes are zero. -/
theorem C66_narrow_exact (t : IntTy) (ht : Narrow t) (hb : t ≠ .byte) (v : Int) (hv : InTy t v) (h0 : 0 ≤ v)
    (junk : Nat) : loadElem t (storeElem t v junk) = v ↔ junk % 2 ^ (64 - (cTy t).1) = 0 := by
  obtain ⟨h1, h2⟩ := hv
  unfold loadElem storeElem
  cases t <;> simp only [Narrow] at ht <;> first | exact absurd rfl hb | skip
  all_goals
    simp only [loTy, hiTy] at h1 h2
    simp only [cTy, elemBits, readCTy, conv, if_true, Int.bmod_def]
    norm_num
    omega

/-- Full claim: an assigned element reads back. -/
def C66_statement : Prop :=
  ∀ (t : IntTy) (v : Int) (junk : Nat), InTy t v → loadElem t (storeElem t v junk) = v

/-- It fails for `[uint]` (2^64-1 reads back as -1) and for `[i32]` with nonzero following bytes;
a negative `i32` needs those bytes to be all ones. -/
theorem C66_witness : loadElem .uint (storeElem .uint (2 ^ 64 - 1) 0) = -1 ∧
    loadElem .i32 (storeElem .i32 5 1) = 4294967301 ∧
    loadElem .i32 (storeElem .i32 (-5) 0) = 4294967291 := by
  decide

theorem C66_fails : ¬ C66_statement := by
  intro h
  have := h .uint (2 ^ 64 - 1) 0 (by simp only [InTy, loTy, hiTy]; omega)
  rw [C66_witness.1] at this
  norm_num at this

/-! ### C67: shifts -/

/-- Full claim: a shift by an amount from 0 to 63 is never undefined. -/
def C67_statement : Prop :=
  ∀ (left : Bool) (t : IntTy) (a s : Int), InTy t a → 0 ≤ s → s ≤ 63 → emitShift left t a s ≠ .ub

/-- Amounts outside 0..63 always panic. -/
theorem C67_amount (left : Bool) (t : IntTy) (a s : Int) (hs : -2 ^ 63 ≤ s ∧ s < 2 ^ 63) (h : s < 0 ∨ 64 ≤ s) :
    emitShift left t a s = .panic "P0092" := by
  unfold emitShift
  rw [toI64_of_range hs.1 hs.2]
  simp only
  rw [if_pos (by omega)]

/-- 64-bit operands: right shifts are floor division, and left shifts of unsigned operands are
multiplication modulo 2^64. -/
theorem C67_64_partial (t : IntTy) (ht : (cTy t).1 = 64) (a s : Int) (h0 : 0 ≤ s) (h1 : s ≤ 63) :
    emitShift false t a s = .ok (a / 2 ^ s.toNat) ∧
    ((cTy t).2 = false → emitShift true t a s = .ok (a * 2 ^ s.toNat % 2 ^ 64)) := by
  have hp : promote (cTy t) = cTy t := by unfold promote; rw [if_neg (by omega)]
  unfold emitShift
  rw [toI64_of_range (by omega) (by omega)]
  simp only [hp]
  have hc : ∀ z, (cTy t).2 = false → conv (cTy t) z = z % 2 ^ 64 := by
    intro z hz; unfold conv; rw [hz, ht]; simp
  refine ⟨?_, fun hu => ?_⟩
  · rw [if_neg (by omega), ht, if_neg (by norm_num; omega)]; simp
  · rw [if_neg (by omega), ht, if_neg (by norm_num; omega), hu, hc _ hu]; simp

/-- Narrower operands: the same for amounts below 32. -/
theorem C67_narrow_partial (t : IntTy) (ht : (cTy t).1 ≤ 32) (a s : Int) (h0 : 0 ≤ s) (h1 : s ≤ 31) :
    emitShift false t a s = .ok (a / 2 ^ s.toNat) := by
  have hp : (promote (cTy t)).1 = 32 := by cases t <;> simp [cTy] at ht <;> rfl
  unfold emitShift
  rw [toI64_of_range (by omega) (by omega)]
  simp only [hp]
  rw [if_neg (by omega), if_neg (by norm_num; omega)]; simp

/-- It fails: shifting an `i32` by 32, and shifting `int` -1 left by 1, are undefined in C. -/
theorem C67_witness : emitShift false .i32 1 32 = .ub ∧ emitShift true .int (-1) 1 = .ub ∧
    emitShift true .int 1 63 = .ub := by decide

theorem C67_fails : ¬ C67_statement := fun h =>
  h false .i32 1 32 (by simp only [InTy, loTy, hiTy]; omega) (by omega) (by omega) C67_witness.1

end Verif.Props

import Verif.Model.Cast
import Verif.Props.IntOps
import Verif.Props.Wide256

/-! C101-C104: type conversions. -/
namespace Verif.Props
open Verif Verif.IntOps Verif.Cast Verif.Bigint Verif.Spec

/-! ### C101: casts between integer types of at most 64 bits -/

/-- C101 as claimed: a cast gives the same number, or panics when the target type does not have it. -/
def C101_statement : Prop :=
  ∀ (src dst : IntTy) (v : Int), InTy src v →
    ExactOrPanic (loTy dst) (hiTy dst) v id (castInt src dst v)

/-- The largest uint becomes -1 as an i8; 2^32 + 65 becomes the character A; a negative character
becomes a huge uint. -/
theorem C101_witness : castInt .uint .i8 (2 ^ 64 - 1) = .ok (-1) ∧
    castInt .int .char (2 ^ 32 + 65) = .ok 65 ∧ castInt .char .uint (-1) = .ok (2 ^ 64 - 1) := by
  decide +kernel

theorem C101_fails : ¬ C101_statement := by
  intro h
  obtain ⟨c, hc⟩ := (h .uint .i8 (2 ^ 64 - 1) (by unfold InTy; decide)).2 (by decide)
  rw [C101_witness.1] at hc
  cases hc

/-- The pairs of types with a complete check. -/
def Checked (src dst : IntTy) : Prop :=
  match dst with
  | .i8 | .i16 | .i32 => src ≠ .u64 ∧ src ≠ .uint
  | .uint | .u64 => src ≠ .char
  | .char => src ≠ .u64 ∧ src ≠ .uint ∧ src ≠ .i64 ∧ src ≠ .int ∧ src ≠ .u32
  | _ => True

theorem castCheck_exact (lo hi v : Int) : ExactOrPanic lo hi v id (castCheck v lo hi) := by
  unfold castCheck
  constructor
  · intro h; rw [if_neg (by omega)]; exact ⟨v, rfl, rfl⟩
  · intro h; rw [if_pos (by omega)]; exact ⟨_, rfl⟩

theorem ucastCheck_exact (hi v : Int) : ExactOrPanic 0 hi v id (ucastCheck v hi) := by
  unfold ucastCheck
  constructor
  · intro h; rw [if_neg (by omega)]; exact ⟨v, rfl, rfl⟩
  · intro h; rw [if_pos (by omega)]; exact ⟨_, rfl⟩

theorem exact_ok {lo hi v r : Int} (h : lo ≤ v ∧ v ≤ hi) (hr : r = v) :
    ExactOrPanic lo hi v id (.ok r) := ⟨fun _ => ⟨r, rfl, hr⟩, fun hn => absurd h hn⟩

theorem convS (n : Nat) (v : Int) : conv (n, true) v = v.bmod (2 ^ n) := rfl

theorem convU (n : Nat) (v : Int) : conv (n, false) v = v % 2 ^ n := rfl

theorem conv_exact {t : IntTy} {v : Int} (h : InTy t v) : conv (cTy t) v = v := by
  cases t <;> simp only [InTy, loTy, hiTy, cTy] at * <;>
    first
    | (rw [convS, Int.bmod_def]; split <;> omega)
    | (rw [convU]; omega)

/-- Conversion to an `int64_t` of a value outside a range that contains the small numbers: for
unsigned targets the check rejects it all the same. -/
theorem ucast_u64 {hi v : Int} (h0 : 0 ≤ v) (h64 : v < 2 ^ 64) (hh : hi < 2 ^ 63) :
    ExactOrPanic 0 hi v id (ucastCheck (toI64 v) hi) := by
  have ht : toI64 v = if v < 2 ^ 63 then v else v - 2 ^ 64 := by
    unfold toI64
    rw [Int.bmod_def]
    split <;> split <;> omega
  unfold ucastCheck
  rw [ht]
  constructor
  · intro h
    have hv : v < 2 ^ 63 := by omega
    rw [if_pos hv, if_neg (by omega)]; exact ⟨v, rfl, rfl⟩
  · intro h
    by_cases hv : v < 2 ^ 63
    · rw [if_pos hv, if_pos (by omega)]; exact ⟨_, rfl⟩
    · rw [if_neg hv, if_pos (by omega)]; exact ⟨_, rfl⟩

theorem uintToInt_exact {v : Int} (h0 : 0 ≤ v) :
    ExactOrPanic (-2 ^ 63) (2 ^ 63 - 1) v id (uintToIntCheck v) := by
  unfold uintToIntCheck maxI64
  constructor
  · intro h; rw [if_neg (by omega)]; exact ⟨v, rfl, rfl⟩
  · intro h; rw [if_pos (by omega)]; exact ⟨_, rfl⟩

theorem InTy.i64 {src : IntTy} {v : Int} (h : InTy src v) (h1 : src ≠ .u64) (h2 : src ≠ .uint) :
    -2 ^ 63 ≤ v ∧ v < 2 ^ 63 := by
  cases src <;> simp only [InTy, loTy, hiTy] at h <;> first | omega | exact absurd rfl h1 | exact absurd rfl h2

theorem InTy.u64 {src : IntTy} {v : Int} (h : InTy src v) (h1 : kind src ≠ .kInt) (h2 : src ≠ .char) :
    0 ≤ v ∧ v < 2 ^ 64 := by
  cases src <;> simp only [InTy, loTy, hiTy] at h <;>
    first | omega | exact absurd rfl h1 | exact absurd rfl h2

theorem ucast_any {src : IntTy} {v hi : Int} (h : InTy src v) (hh : hi < 2 ^ 63) :
    ExactOrPanic 0 hi v id (ucastCheck (toI64 v) hi) := by
  by_cases h1 : src = .u64
  · subst h1
    simp only [InTy, loTy, hiTy] at h
    exact ucast_u64 h.1 (by omega) hh
  · by_cases h2 : src = .uint
    · subst h2
      simp only [InTy, loTy, hiTy] at h
      exact ucast_u64 h.1 (by omega) hh
    · have := h.i64 h1 h2
      rw [toI64_of_range this.1 this.2]
      exact ucastCheck_exact hi v

/-- The casts with a complete check are exact or panic. Missing for the full claim: casts of uint and
u64 to i8, i16 and i32, of large types to char, and of char to uint and u64. -/
theorem C101_partial (src dst : IntTy) (v : Int) (h : InTy src v) (hc : Checked src dst) :
    ExactOrPanic (loTy dst) (hiTy dst) v id (castInt src dst v) := by
  have hU : ∀ {d : IntTy}, src ≠ .char → loTy d = 0 → hiTy d = 2 ^ 64 - 1 →
      ExactOrPanic (loTy d) (hiTy d) v id
        (if kind src = .kInt then ucastCheck (toI64 v) maxU64 else .ok (conv (64, false) v)) := by
    intro d hs hl hh
    rw [hl, hh]
    by_cases hk : kind src = .kInt
    · rw [if_pos hk]
      have := h.i64 (by rintro rfl; cases hk) (by rintro rfl; cases hk)
      rw [toI64_of_range this.1 this.2]
      exact ucastCheck_exact _ v
    · rw [if_neg hk]
      have := h.u64 hk hs
      exact exact_ok (by omega) (conv_exact (t := .u64) (by simp only [InTy, loTy, hiTy]; omega))
  have hI : ∀ {d : IntTy}, loTy d = -2 ^ 63 → hiTy d = 2 ^ 63 - 1 →
      ExactOrPanic (loTy d) (hiTy d) v id
        (if src = .uint ∨ src = .u64 then uintToIntCheck v else .ok (conv (64, true) v)) := by
    intro d hl hh
    rw [hl, hh]
    by_cases hk : src = .uint ∨ src = .u64
    · rw [if_pos hk]
      refine uintToInt_exact ?_
      rcases hk with rfl | rfl <;> simp only [InTy, loTy] at h <;> exact h.1
    · rw [if_neg hk]
      have := h.i64 (fun e => hk (Or.inr e)) (fun e => hk (Or.inl e))
      exact exact_ok (by omega) (conv_exact (t := .i64) (by simp only [InTy, loTy, hiTy]; omega))
  cases dst with
  | i8 =>
    have := h.i64 hc.1 hc.2
    simp only [castInt]
    rw [toI64_of_range this.1 this.2]; exact castCheck_exact _ _ v
  | i16 =>
    have := h.i64 hc.1 hc.2
    simp only [castInt]
    rw [toI64_of_range this.1 this.2]; exact castCheck_exact _ _ v
  | i32 =>
    have := h.i64 hc.1 hc.2
    simp only [castInt]
    rw [toI64_of_range this.1 this.2]; exact castCheck_exact _ _ v
  | u8 => exact ucast_any h (by decide)
  | byte => exact ucast_any h (by decide)
  | u16 => exact ucast_any h (by decide)
  | u32 => exact ucast_any h (by decide)
  | uint => exact hU (d := .uint) hc rfl rfl
  | u64 => exact hU (d := .u64) hc rfl rfl
  | int => exact hI (d := .int) rfl rfl
  | i64 => exact hI (d := .i64) rfl rfl
  | char =>
    have hr : InTy .char v := by
      cases src <;> simp only [InTy, loTy, hiTy, Checked] at * <;> first | omega | simp at hc
    exact exact_ok hr (conv_exact (t := .char) hr)

/-- Every cast whose target has the value is exact. Missing for the full claim: the panics in the
other cases. -/
theorem C101_value_partial (src dst : IntTy) (v : Int) (h : InTy src v) (hd : InTy dst v) :
    castInt src dst v = .ok v := by
  by_cases hc : Checked src dst
  · obtain ⟨r, h1, h2⟩ := (C101_partial src dst v h hc).1 hd
    rw [h1, ← h2]; rfl
  · cases dst <;> simp only [Checked, not_true_eq_false] at hc <;> simp only [InTy, loTy, hiTy] at hd <;>
      simp only [castInt]
    · rw [toI64_of_range (by omega) (by omega), castCheck, if_neg (by omega)]
    · rw [toI64_of_range (by omega) (by omega), castCheck, if_neg (by omega)]
    · rw [toI64_of_range (by omega) (by omega), castCheck, if_neg (by omega)]
    · rw [if_neg (by rw [not_not] at hc; subst hc; decide),
        show conv (64, false) v = v from conv_exact (t := .u64) (by simp only [InTy, loTy, hiTy]; omega)]
    · rw [if_neg (by rw [not_not] at hc; subst hc; decide),
        show conv (64, false) v = v from conv_exact (t := .u64) (by simp only [InTy, loTy, hiTy]; omega)]
    · rw [show conv (32, true) v = v from conv_exact (t := .char) (by simp only [InTy, loTy, hiTy]; omega)]

example : castInt .int .u8 300 = .panic "P0019" ∧ castInt .uint .int (2 ^ 63) = .panic "P0018" ∧
    castInt .int .u8 200 = .ok 200 := by decide +kernel

/-! ### C102: type constructors -/

/-- C102 as claimed: a constructor gives the same number, or panics. -/
def C102_statement : Prop :=
  ∀ (src : IntTy) (c : Ctor) (v : Int), InTy src v →
    ExactOrPanic (loTy c.ty) (hiTy c.ty) v id (.ok (ctorInt c v))

theorem C102_witness : ctorInt .byte 300 = 44 ∧ ctorInt .uint (-1) = 2 ^ 64 - 1 ∧
    ctorInt .int (2 ^ 63) = -2 ^ 63 ∧ ctorInt .char (2 ^ 32) = 0 := by decide +kernel

theorem C102_fails : ¬ C102_statement := by
  intro h
  obtain ⟨c, hc⟩ := (h .int .byte 300 (by unfold InTy; decide)).2 (by decide)
  cases hc

/-- A constructor is exact when its type has the value, and wraps around otherwise. Missing for the
full claim: there is no panic. -/
theorem C102_partial (c : Ctor) (v : Int) :
    (InTy c.ty v → ctorInt c v = v) ∧ InTy c.ty (ctorInt c v) ∧
    ∃ k : Int, ctorInt c v = v + k * 2 ^ (cTy c.ty).1 := by
  refine ⟨fun h => conv_exact h, ?_, ?_⟩
  · cases c <;> simp only [ctorInt, Ctor.ty, cTy, InTy, loTy, hiTy]
    · rw [convS]; constructor
      · have := Int.le_bmod (x := v) (m := 2 ^ 64) (by decide); omega
      · have := Int.bmod_lt (x := v) (m := 2 ^ 64) (by decide); omega
    · rw [convU]; omega
    · rw [convS]; constructor
      · have := Int.le_bmod (x := v) (m := 2 ^ 32) (by decide); omega
      · have := Int.bmod_lt (x := v) (m := 2 ^ 32) (by decide); omega
    · rw [convU]; omega
  · cases c <;> simp only [ctorInt, Ctor.ty, cTy]
    · rw [convS, Int.bmod_def]
      split
      · exact ⟨-(v / 2 ^ 64), by omega⟩
      · exact ⟨-(v / 2 ^ 64) - 1, by omega⟩
    · rw [convU]; exact ⟨-(v / 2 ^ 64), by omega⟩
    · rw [convS, Int.bmod_def]
      split
      · exact ⟨-(v / 2 ^ 32), by omega⟩
      · exact ⟨-(v / 2 ^ 32) - 1, by omega⟩
    · rw [convU]; exact ⟨-(v / 2 ^ 8), by omega⟩

/-! ### C103: floats to integers -/

/-- The integer part of a number `m * 2^e`: the integer nearest to it among those between 0 and it. -/
def IntPart (m e z : Int) : Prop :=
  if 0 ≤ e then z = m * 2 ^ e.toNat
  else
    (0 ≤ m → 0 ≤ z ∧ z * 2 ^ (-e).toNat ≤ m ∧ m < (z + 1) * 2 ^ (-e).toNat) ∧
    (m < 0 → z ≤ 0 ∧ m ≤ z * 2 ^ (-e).toNat ∧ (z - 1) * 2 ^ (-e).toNat < m)

theorem trunc_spec (m e : Int) : IntPart m e (trunc m e) := by
  unfold IntPart trunc
  by_cases he : 0 ≤ e
  · rw [if_pos he, if_pos he]
  · rw [if_neg he, if_neg he]
    have hp : (0 : Int) < 2 ^ (-e).toNat := by positivity
    generalize (2 : Int) ^ (-e).toNat = p at hp
    constructor
    · intro h
      rw [Int.tdiv_eq_ediv_of_nonneg h]
      refine ⟨Int.ediv_nonneg h hp.le, Int.ediv_mul_le _ hp.ne', ?_⟩
      exact Int.lt_ediv_add_one_mul_self m hp
    · intro h
      have h2 : m.tdiv p = -((-m) / p) := by
        rw [← Int.tdiv_eq_ediv_of_nonneg (by omega), Int.neg_tdiv, neg_neg]
      rw [h2]
      have h3 := Int.ediv_mul_le (-m) hp.ne'
      have h4 := Int.lt_ediv_add_one_mul_self (-m) hp
      have h5 := Int.ediv_nonneg (a := -m) (by omega) hp.le
      refine ⟨by omega, by linarith, by linarith⟩

/-- The integer part is unique. -/
theorem IntPart.unique {m e z w : Int} (h1 : IntPart m e z) (h2 : IntPart m e w) : z = w := by
  unfold IntPart at h1 h2
  by_cases he : 0 ≤ e
  · rw [if_pos he] at h1 h2; rw [h1, h2]
  · rw [if_neg he] at h1 h2
    have hp : (0 : Int) < 2 ^ (-e).toNat := by positivity
    generalize (2 : Int) ^ (-e).toNat = p at hp h1 h2
    by_cases hm : 0 ≤ m
    · have a := h1.1 hm; have b := h2.1 hm
      have c1 : z < w + 1 := lt_of_mul_lt_mul_right (lt_of_le_of_lt a.2.1 b.2.2) hp.le
      have c2 : w < z + 1 := lt_of_mul_lt_mul_right (lt_of_le_of_lt b.2.1 a.2.2) hp.le
      omega
    · have a := h1.2 (by omega); have b := h2.2 (by omega)
      have c1 : w - 1 < z := lt_of_mul_lt_mul_right (lt_of_lt_of_le b.2.2 a.2.1) hp.le
      have c2 : z - 1 < w := lt_of_mul_lt_mul_right (lt_of_lt_of_le a.2.2 b.2.1) hp.le
      omega

/-- C103 as claimed: a float converts to its integer part, or the program panics when the type does
not have it. -/
def C103_statement : Prop :=
  ∀ (dst : IntTy) (v : Dbl),
    match v with
    | .fin m e => ∀ z, IntPart m e z → ExactOrPanic (loTy dst) (hiTy dst) z id (castFloat dst v)
    | _ => (castFloat dst v).isPanic = true

/-- 2^70 to u8 is undefined behaviour, so is NaN to i32; -2^63, an int, panics. -/
theorem C103_witness : castFloat .u8 (.fin 1 70) = .ub ∧ castFloat .i32 .nan = .ub ∧
    castFloat .char (.fin 1 31) = .ub ∧ castFloat .int (.fin (-1) 63) = .panic "P0020" ∧
    castFloat .uint (.fin (-1) (-1)) = .panic "P0091" ∧
    ctorFloat .uint (.fin (-1) 0) = .ub ∧ ctorFloat .byte (.fin 300 0) = .ub := by decide +kernel

theorem C103_fails : ¬ C103_statement := by
  intro h
  have := h .i32 .nan
  simp only [C103_witness.2.1, Outcome.isPanic] at this
  cases this

/-- The constants of `gray_float_to_int` are the doubles nearest to the decimal text, and the next
double above is 2^63. -/
theorem C103_constant : (9223372036854774784 : Int) = (2 ^ 53 - 1) * 2 ^ 10 ∧
    9223372036854774784 + 2 ^ 10 = (2 : Int) ^ 63 ∧
    9223372036854775000 - 9223372036854774784 < (2 : Int) ^ 63 - 9223372036854775000 := by decide

theorem fin_gt {m e c z : Int} (hz : IntPart m e z) (hc : 0 ≤ c) (h : (Dbl.fin m e).gt c = false) :
    z ≤ c := by
  unfold IntPart at hz
  unfold Dbl.gt at h
  by_cases he : 0 ≤ e
  · rw [if_pos he] at hz
    simp only [he, if_true, decide_eq_false_iff_not] at h
    omega
  · rw [if_neg he] at hz
    simp only [he, if_false, decide_eq_false_iff_not] at h
    have hp : (0 : Int) < 2 ^ (-e).toNat := by positivity
    generalize (2 : Int) ^ (-e).toNat = p at hp hz h
    by_cases hm : 0 ≤ m
    · have a := hz.1 hm
      exact le_of_mul_le_mul_right (by omega) hp
    · have a := hz.2 (by omega)
      omega

theorem fin_lt {m e c z : Int} (hz : IntPart m e z) (hc : c ≤ 0) (h : (Dbl.fin m e).lt c = false) :
    c ≤ z := by
  unfold IntPart at hz
  unfold Dbl.lt at h
  by_cases he : 0 ≤ e
  · rw [if_pos he] at hz
    simp only [he, if_true, decide_eq_false_iff_not] at h
    omega
  · rw [if_neg he] at hz
    simp only [he, if_false, decide_eq_false_iff_not] at h
    have hp : (0 : Int) < 2 ^ (-e).toNat := by positivity
    generalize (2 : Int) ^ (-e).toNat = p at hp hz h
    by_cases hm : 0 ≤ m
    · have a := hz.1 hm
      omega
    · have a := hz.2 (by omega)
      exact le_of_mul_le_mul_right (by omega) hp

/-- A double is `m * 2^e` with a mantissa below 2^53. -/
def IsDouble (m : Int) : Prop := -2 ^ 53 < m ∧ m < 2 ^ 53

/-- A double above the constant is at least 2^63. -/
theorem gt_limit {m e : Int} (hd : IsDouble m) (h : (Dbl.fin m e).gt 9223372036854774784 = true) :
    0 ≤ e ∧ 2 ^ 63 ≤ m * 2 ^ e.toNat := by
  unfold Dbl.gt at h
  unfold IsDouble at hd
  by_cases he : 0 ≤ e
  · simp only [he, if_true, decide_eq_true_eq] at h
    refine ⟨he, ?_⟩
    by_cases h10 : e.toNat ≤ 10
    · exfalso
      have : (2 : Int) ^ e.toNat ≤ 2 ^ 10 := pow_le_pow_right₀ (by decide) h10
      have hp : (0 : Int) < 2 ^ e.toNat := by positivity
      generalize (2 : Int) ^ e.toNat = p at *
      have : m * p ≤ (2 ^ 53 - 1) * 2 ^ 10 := by
        by_cases hm : 0 ≤ m
        · exact mul_le_mul (by omega) this hp.le (by decide)
        · nlinarith
      omega
    · obtain ⟨k, hk⟩ : ∃ k, e.toNat = k + 10 := ⟨e.toNat - 10, by omega⟩
      rw [hk, pow_add] at h ⊢
      rw [← mul_assoc] at h ⊢
      generalize m * 2 ^ k = q at *
      omega
  · exfalso
    simp only [he, if_false, decide_eq_true_eq] at h
    have hp : (1 : Int) ≤ 2 ^ (-e).toNat := one_le_pow₀ (by decide)
    generalize (2 : Int) ^ (-e).toNat = p at *
    nlinarith

theorem lt_limit {m e : Int} (hd : IsDouble m) (h : (Dbl.fin m e).lt (-9223372036854774784) = true) :
    0 ≤ e ∧ m * 2 ^ e.toNat ≤ -2 ^ 63 := by
  have h2 : (Dbl.fin (-m) e).gt 9223372036854774784 = true := by
    unfold Dbl.lt at h
    unfold Dbl.gt
    by_cases he : 0 ≤ e
    · simp only [he, if_true, decide_eq_true_eq] at h ⊢
      rw [neg_mul]; omega
    · simp only [he, if_false, decide_eq_true_eq] at h ⊢
      rw [neg_mul] at h; omega
  have := gt_limit (by unfold IsDouble at *; omega) h2
  rw [neg_mul] at this
  exact ⟨this.1, by omega⟩

/-- float to int and i64: the integer part, or a panic when it is not in range or is -2^63; never
undefined behaviour. Missing for the full claim: -2^63 panics although it is an int. -/
theorem C103_int_partial (m e z : Int) (hd : IsDouble m) (hz : IntPart m e z) :
    (-2 ^ 63 < z ∧ z < 2 ^ 63 → floatToInt (.fin m e) = .ok z) ∧
    (¬ (-2 ^ 63 < z ∧ z < 2 ^ 63) → floatToInt (.fin m e) = .panic "P0020") := by
  have hz' : trunc m e = z := (trunc_spec m e).unique hz
  unfold floatToInt
  by_cases hg : (Dbl.fin m e).gt 9223372036854774784 = true
  · have := gt_limit hd hg
    rw [hg]
    simp only [Bool.true_or, if_true]
    refine ⟨fun h => ?_, fun _ => by trivial⟩
    unfold IntPart at hz; rw [if_pos this.1] at hz; omega
  · by_cases hl : (Dbl.fin m e).lt (-9223372036854774784) = true
    · have := lt_limit hd hl
      rw [hl]
      simp only [Bool.or_true, Bool.true_or, if_true]
      refine ⟨fun h => ?_, fun _ => by trivial⟩
      unfold IntPart at hz; rw [if_pos this.1] at hz; omega
    · rw [Bool.not_eq_true] at hg hl
      have h1 := fin_gt hz (by decide) hg
      have h2 := fin_lt hz (by decide) hl
      rw [hg, hl]
      simp only [Bool.or_self, Bool.false_or, decide_eq_true_eq, reduceCtorEq, if_false]
      refine ⟨fun _ => ?_, fun h => absurd (by omega) h⟩
      rw [convFloat, hz', show conv (64, true) z = z from conv_exact (t := .i64) (by simp only [InTy, loTy, hiTy]; omega), if_pos rfl]

/-- NaN and infinities panic as int and uint. -/
theorem C103_special_partial (v : Dbl) (h : ∀ m e, v ≠ .fin m e) :
    floatToInt v = .panic "P0020" ∧ floatToUint v = .panic "P0091" := by
  cases v with
  | nan => decide
  | inf n => cases n <;> decide
  | fin m e => exact absurd rfl (h m e)

/-- float to uint and u64: the integer part of non-negative numbers below 2^64, otherwise a panic;
never undefined behaviour. Missing for the full claim: numbers between -1 and 0 panic although their
integer part is 0. -/
theorem C103_uint_partial (m e z : Int) (hz : IntPart m e z) :
    (0 ≤ m ∧ z < 2 ^ 64 → floatToUint (.fin m e) = .ok z) ∧
    (¬ (0 ≤ m ∧ z < 2 ^ 64) → floatToUint (.fin m e) = .panic "P0091") := by
  have hz' : trunc m e = z := (trunc_spec m e).unique hz
  have hlt : (Dbl.fin m e).lt 0 = decide (m < 0) := by
    unfold Dbl.lt
    by_cases he : 0 ≤ e
    · simp only [he, if_true]
      have hp : (0 : Int) < 2 ^ e.toNat := by positivity
      by_cases hm : m < 0
      · have : m * 2 ^ e.toNat < 0 := mul_neg_of_neg_of_pos hm hp
        simp [hm, this]
      · have : 0 ≤ m * 2 ^ e.toNat := mul_nonneg (by omega) hp.le
        simp [hm, this]
    · simp only [he, if_false, zero_mul]
  have hge : 0 ≤ m → (Dbl.fin m e).ge 18446744073709551616 = decide (2 ^ 64 ≤ z) := by
    intro hm
    unfold Dbl.ge Dbl.lt
    unfold IntPart at hz
    by_cases he : 0 ≤ e
    · rw [if_pos he] at hz
      simp only [he, if_true, hz]
      by_cases h : m * 2 ^ e.toNat < 18446744073709551616
      · simp [h]
      · simp [h]; omega
    · rw [if_neg he] at hz
      simp only [he, if_false]
      have hp : (0 : Int) < 2 ^ (-e).toNat := by positivity
      generalize (2 : Int) ^ (-e).toNat = p at hp hz ⊢
      have a := hz.1 hm
      by_cases h : 2 ^ 64 ≤ z
      · have : ¬ m < 18446744073709551616 * p := by nlinarith
        simp [this]; omega
      · have : m < 18446744073709551616 * p := by
          have : (z + 1) * p ≤ 18446744073709551616 * p := mul_le_mul_of_nonneg_right (by omega) hp.le
          omega
        simp [this]; omega
  have hz0 : 0 ≤ m → 0 ≤ z := by
    intro hm
    unfold IntPart at hz
    by_cases he : 0 ≤ e
    · rw [if_pos he] at hz; rw [hz]; exact mul_nonneg hm (by positivity)
    · rw [if_neg he] at hz; exact (hz.1 hm).1
  unfold floatToUint
  rw [hlt]
  by_cases hm : m < 0
  · simp only [hm, decide_true, Bool.true_or, if_true]
    exact ⟨fun h => by omega, fun _ => by trivial⟩
  · rw [hge (by omega)]
    have h0 := hz0 (by omega)
    by_cases h : 2 ^ 64 ≤ z
    · simp only [h, decide_true, Bool.or_true, Bool.true_or, if_true]
      exact ⟨fun h => by omega, fun _ => by trivial⟩
    · simp only [hm, h, decide_false, Bool.or_self, Bool.false_or, decide_eq_true_eq, reduceCtorEq,
        if_false]
      refine ⟨fun _ => ?_, fun hn => absurd (by omega) hn⟩
      rw [convFloat, hz', show conv (64, false) z = z from conv_exact (t := .u64) (by simp only [InTy, loTy, hiTy]; omega), if_pos rfl]

/-- float to the narrow types: the integer part or a panic, for numbers whose integer part is an
int. Missing for the full claim: larger numbers, infinities and NaN, which are undefined behaviour. -/
theorem C103_narrow_partial (dst : IntTy) (m e z : Int) (hz : IntPart m e z)
    (h : -2 ^ 63 ≤ z ∧ z < 2 ^ 63)
    (hd : dst ≠ .int ∧ dst ≠ .i64 ∧ dst ≠ .uint ∧ dst ≠ .u64 ∧ dst ≠ .char) :
    ExactOrPanic (loTy dst) (hiTy dst) z id (castFloat dst (.fin m e)) := by
  have hz' : trunc m e = z := (trunc_spec m e).unique hz
  have hcv : convFloat (64, true) (.fin m e) = .ok z := by
    rw [convFloat, hz', show conv (64, true) z = z from conv_exact (t := .i64) (by simp only [InTy, loTy, hiTy]; omega), if_pos rfl]
  cases dst <;> simp only [castFloat, hcv, Outcome.bind_ok] <;>
    first
    | exact castCheck_exact _ _ z
    | exact ucastCheck_exact _ z
    | simp at hd

/-- The constructors give the integer part when their type has it (int except -2^63). Missing for the
full claim: uint, char and byte do not panic otherwise. -/
theorem C103_ctor_partial (c : Ctor) (m e z : Int) (hd : IsDouble m) (hz : IntPart m e z)
    (h : InTy c.ty z) (hm : c = .int → z ≠ -2 ^ 63) : ctorFloat c (.fin m e) = .ok z := by
  have hz' : trunc m e = z := (trunc_spec m e).unique hz
  have hcv : convFloat (cTy c.ty) (.fin m e) = .ok z := by
    rw [convFloat, hz', conv_exact h, if_pos rfl]
  cases c with
  | int =>
    have := hm rfl
    simp only [Ctor.ty, InTy, loTy, hiTy] at h
    exact (C103_int_partial m e z hd hz).1 (by omega)
  | _ => exact hcv

/-- Casts to char give the integer part when it fits 32 bits. Missing for the full claim: undefined
behaviour otherwise. -/
theorem C103_char_partial (m e z : Int) (hz : IntPart m e z) (h : InTy .char z) :
    castFloat .char (.fin m e) = .ok z := by
  have hz' : trunc m e = z := (trunc_spec m e).unique hz
  rw [castFloat, convFloat, hz', show conv (32, true) z = z from conv_exact (t := .char) h, if_pos rfl]

/-- Casts to int, i64, uint and u64 are the checked conversions. -/
theorem C103_wide_partial (v : Dbl) : castFloat .int v = floatToInt v ∧
    castFloat .i64 v = floatToInt v ∧ castFloat .uint v = floatToUint v ∧
    castFloat .u64 v = floatToUint v := ⟨rfl, rfl, rfl, rfl⟩

example : floatToInt (.fin 7 (-1)) = .ok 3 ∧ floatToInt (.fin (-7) (-1)) = .ok (-3) := by decide +kernel

/-! ### C104: integers of at most 64 bits and wide integers -/

/-- The number of a wide integer. -/
def _root_.Verif.Cast.Wide.num : Wide → Int
  | .i128 a => a.val
  | .u128 a => a.val
  | .i256 a => a.sval
  | .u256 a => a.uval

def wideLo : WideTy → Int
  | .i128 => -2 ^ 127 | .u128 => 0 | .i256 => -2 ^ 255 | .u256 => 0

/-- C104 as claimed: conversions between wide and narrow integers give the same number or panic. -/
def C104_statement : Prop :=
  (∀ (src : IntTy) (t : WideTy) (v : Int), InTy src v →
    ExactOrPanic (wideLo t) (2 ^ 127 - 1) v Cast.Wide.num (.ok (wideOf t v))) ∧
  (∀ (dst : IntTy) (w : Wide), ExactOrPanic (loTy dst) (hiTy dst) w.num id (castWide dst w)) ∧
  (∀ (c : Ctor) (w : Wide), ExactOrPanic (loTy c.ty) (hiTy c.ty) w.num id (ctorWide c w))

/-- -1 as u128 is 2^64 - 1; 2^64 - 1 as i128 is -1; int of a u128 wraps. -/
theorem C104_witness : (wideOf .u128 (-1)).num = 2 ^ 64 - 1 ∧ (wideOf .i128 (2 ^ 64 - 1)).num = -1 ∧
    ctorWide .int (.u128 ⟨-1, 0⟩) = .ok (-1) ∧ ctorWide .byte (.i128 ⟨300, 0⟩) = .ok 44 ∧
    castWide .char (.i128 ⟨BitVec.ofNat 64 (2 ^ 32), 0⟩) = .ok 0 := by decide +kernel

theorem C104_fails : ¬ C104_statement := by
  intro h
  obtain ⟨c, hc⟩ := (h.1 .int .u128 (-1) (by unfold InTy; decide)).2 (by decide)
  cases hc

/-- Widening is exact when the sign fits. Missing for the full claim: negative numbers to u128 and
u256, and numbers from 2^63 to i128 and i256, which get another value. -/
theorem C104_widen_partial (t : WideTy) (v : Int)
    (h : match t with | .i128 | .i256 => -2 ^ 63 ≤ v ∧ v < 2 ^ 63 | _ => 0 ≤ v ∧ v < 2 ^ 64) :
    (wideOf t v).num = v := by
  cases t <;> simp only at h <;> simp only [wideOf, Cast.Wide.num]
  · rw [(C10_from_64 _).2, BitVec.toInt_ofInt]; exact toI64_of_range h.1 h.2
  · rw [(C10_from_64 _).1, BitVec.toNat_ofInt]; omega
  · rw [(C10_from_64_to_256 _).2, BitVec.toInt_ofInt]; exact toI64_of_range h.1 h.2
  · rw [(C10_from_64_to_256 _).1, BitVec.toNat_ofInt]; omega

theorem eop_map {lo hi x : Int} {f : BitVec 64 → Int} {o : Outcome (BitVec 64)}
    (h : ExactOrPanic lo hi x f o) :
    ExactOrPanic lo hi x id (o >>= fun r => .ok (f r)) := by
  constructor
  · intro hr
    obtain ⟨r, h1, h2⟩ := h.1 hr
    exact ⟨f r, by rw [h1]; rfl, h2⟩
  · intro hr
    obtain ⟨c, h1⟩ := h.2 hr
    exact ⟨c, by rw [h1]; rfl⟩

theorem wideToI64_exact (w : Wide) : ExactOrPanic (-2 ^ 63) (2 ^ 63 - 1) w.num id (wideToI64 w) := by
  cases w
  · exact eop_map (C10_i128_to_i64 _)
  · exact eop_map (C10_u128_to_i64 _)
  · exact eop_map (C10_i256_to_i64 _)
  · exact eop_map (C10_u256_to_i64 _)

theorem wideToU64_exact (w : Wide) : ExactOrPanic 0 (2 ^ 64 - 1) w.num id (wideToU64 w) := by
  cases w
  · exact eop_map (C10_i128_to_u64 _)
  · exact eop_map (C10_u128_to_u64 _)
  · exact eop_map (C10_i256_to_u64 _)
  · exact eop_map (C10_u256_to_u64 _)

theorem eop_bind {lo hi lo' hi' x : Int} {o : Outcome Int} {f : Int → Outcome Int}
    (h : ExactOrPanic lo hi x id o) (hl : lo ≤ lo') (hh : hi' ≤ hi)
    (hf : lo ≤ x ∧ x ≤ hi → ExactOrPanic lo' hi' x id (f x)) :
    ExactOrPanic lo' hi' x id (o >>= f) := by
  by_cases hr : lo ≤ x ∧ x ≤ hi
  · obtain ⟨r, h1, h2⟩ := h.1 hr
    have : r = x := h2
    subst this
    rw [h1]; exact hf hr
  · obtain ⟨c, h1⟩ := h.2 hr
    rw [h1]
    exact ⟨fun h' => absurd ⟨by omega, by omega⟩ hr, fun _ => ⟨c, rfl⟩⟩

/-- Casts of wide integers to every type but char are exact or panic. Missing for the full claim:
char. -/
theorem C104_cast_partial (dst : IntTy) (w : Wide) (hd : dst ≠ .char) :
    ExactOrPanic (loTy dst) (hiTy dst) w.num id (castWide dst w) := by
  have hi := wideToI64_exact w
  have hu := wideToU64_exact w
  cases dst <;> simp only [castWide] <;>
    first
    | exact hi
    | exact hu
    | exact eop_bind hi (by decide) (by decide) (fun _ => castCheck_exact _ _ _)
    | exact eop_bind hu (by decide) (by decide) (fun h => ucast_u64 h.1 (by omega) (by decide))
    | exact absurd rfl hd

/-- Constructors applied to wide integers are exact when the value fits. Missing for the full claim:
int of u128/u256 from 2^63, char and byte wrap around. -/
theorem C104_ctor_partial (c : Ctor) (w : Wide) (h : InTy c.ty w.num) : ctorWide c w = .ok w.num := by
  unfold ctorWide
  have hcv := conv_exact h
  have hi := wideToI64_exact w
  have hu := wideToU64_exact w
  by_cases hc : (w.unsigned || decide (c = .uint)) = true
  · rw [if_pos hc]
    have hr : 0 ≤ w.num ∧ w.num ≤ 2 ^ 64 - 1 := by
      have : 0 ≤ w.num := by
        rw [Bool.or_eq_true] at hc
        rcases hc with hc | hc
        · cases w <;> first
            | contradiction
            | (simp only [Cast.Wide.num]; omega)
        · rw [decide_eq_true_eq] at hc
          subst hc
          exact h.1
      refine ⟨this, ?_⟩
      cases c <;> simp only [Ctor.ty, InTy, loTy, hiTy] at h <;> omega
    obtain ⟨r, h1, h2⟩ := hu.1 hr
    have : r = w.num := h2
    rw [h1, this, Outcome.bind_ok, hcv]
  · rw [if_neg hc]
    have hr : -2 ^ 63 ≤ w.num ∧ w.num ≤ 2 ^ 63 - 1 := by
      rw [Bool.or_eq_true, not_or] at hc
      cases c <;> simp only [Ctor.ty, InTy, loTy, hiTy] at h <;> first | omega | simp at hc
    obtain ⟨r, h1, h2⟩ := hi.1 hr
    have : r = w.num := h2
    rw [h1, this, Outcome.bind_ok, hcv]

end Verif.Props

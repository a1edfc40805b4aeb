import Verif.Props.Wide128
import Verif.Props.Wide256
/-
C68: unary minus on i128 and i256 (codegen.c:1703-1712 emits gray_i128_neg / gray_i256_neg, which
are unchecked).
-/
namespace Verif.Props
open Verif.Bigint

/-- Full claim: unary minus never returns a value other than the exact one. -/
def C68_statement : Prop :=
  (∀ a : I128, (I128.neg a).val = -a.val) ∧ (∀ a : W256, (W256.neg a).sval = -a.sval)

/-- It holds for every value but the minimum. -/
theorem C68_i128_partial (a : I128) (h : a.val ≠ -2 ^ 127) : (I128.neg a).val = -a.val := by
  have h1 := a.lo.isLt
  have h2 := BitVec.toInt_lt (x := a.hi)
  have h3 := BitVec.le_toInt (x := a.hi)
  rw [C01_i128_neg]
  unfold I128.val at *
  exact bmod128_of_range (by omega) (by omega)

theorem C68_i256_partial (a : W256) (h : a.sval ≠ -2 ^ 255) : (W256.neg a).sval = -a.sval := by
  have h0 := a.w0.isLt
  have h1 := a.w1.isLt
  have h4 := a.w2.isLt
  have h2 := BitVec.toInt_lt (x := a.w3)
  have h3 := BitVec.le_toInt (x := a.w3)
  rw [C05_i256_neg]
  unfold W256.sval at *
  exact W256.bmod256_of_range (by omega) (by omega)

/-- The minimum is its own negation. -/
theorem C68_min (a : I128) (h : a.val = -2 ^ 127) : (I128.neg a).val = a.val := by
  rw [C01_i128_neg, h]; decide

theorem C68_min256 (a : W256) (h : a.sval = -2 ^ 255) : (W256.neg a).sval = a.sval := by
  rw [C05_i256_neg, h]; decide

theorem C68_fails : ¬ C68_statement := by
  intro h
  have h1 := h.1 ⟨0, 0x8000000000000000⟩
  have h2 : (⟨0, 0x8000000000000000⟩ : I128).val = -2 ^ 127 := by decide
  rw [C68_min _ h2, h2] at h1
  norm_num at h1

end Verif.Props

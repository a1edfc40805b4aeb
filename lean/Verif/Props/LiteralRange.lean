import Verif.Model.LiteralRange
import Verif.Props.IntLiteral
import Verif.Props.IntOps
/-
C69, C70: negated literals, and the compile-time range check of literals.
-/
namespace Verif.Props
open Verif.Spec Verif.IntLiteral Verif.IntOps Verif.LiteralRange

theorem signed_eq {lit : List Nat} {n : Nat} (h : IsLiteral lit n) :
    signed lit = if n % 2 ^ 64 < 2 ^ 63 then ((n % 2 ^ 64 : Nat) : Int) else ((n % 2 ^ 64 : Nat) : Int) - 2 ^ 64 := by
  unfold signed
  rw [C62_parse_exact lit n h]
  simp only
  rw [BitVec.toInt_eq_toNat_cond, BitVec.toNat_ofNat]
  have : n % 2 ^ 64 < 2 ^ 64 := Nat.mod_lt _ (by norm_num)
  split <;> split <;> first | omega | rfl

/-- C70: a declaration `t x = lit` is accepted exactly when the literal's value fits the type. -/
theorem C70_declaration (t : IntTy) (ht : t ≠ .char) (lit : List Nat) (n : Nat) (h : IsLiteral lit n) :
    declAccepts t lit = true ↔ (n : Int) ≤ hiTy t := by
  have hs := signed_eq h
  unfold declAccepts
  rw [C62_parse_exact lit n h]
  simp only
  by_cases h1 : 2 ^ 63 ≤ n
  · rw [if_pos (by simpa using h1)]
    by_cases h2 : 2 ^ 64 ≤ n
    · rw [if_pos (by simpa using h2)]
      cases t <;> simp only [hiTy] <;> first | omega | skip
      all_goals constructor
      all_goals first | (intro h; cases h) | omega
    · rw [if_neg (by simpa using h2)]
      cases t <;> simp [hiTy] at ht ⊢ <;> omega
  · rw [if_neg (by simpa using h1)]
    have hs' : signed lit = n := by rw [hs, if_pos (by omega)]; omega
    rw [hs']
    cases t <;> simp [hiTy, rangeError] at ht ⊢ <;> omega

/-- Full claim for reassignment: `x = lit` is accepted exactly when the value fits. -/
def C70_assignment_statement : Prop :=
  ∀ (t : IntTy) (lit : List Nat) (n : Nat), t ≠ .char → IsLiteral lit n →
    (assignAccepts t (.lit lit) = .ok true ↔ (n : Int) ≤ hiTy t)

/-- It holds below 2^63. Missing: larger literals (next theorems). -/
theorem C70_assignment_partial (t : IntTy) (ht : t ≠ .char) (lit : List Nat) (n : Nat) (h : IsLiteral lit n)
    (hn : n < 2 ^ 63) : assignAccepts t (.lit lit) = .ok true ↔ (n : Int) ≤ hiTy t := by
  have hs' : signed lit = n := by rw [signed_eq h, if_pos (by omega)]; omega
  unfold assignAccepts tryLiteral
  simp only [hs']
  cases t <;> simp [hiTy, rangeError] at ht ⊢ <;> omega

/-- The literal 18446744073709551615 = 2^64 - 1. -/
def litMaxU64 : List Nat := [49, 56, 52, 52, 54, 55, 52, 52, 48, 55, 51, 55, 48, 57, 53, 53, 49, 54, 49, 53]

theorem litMaxU64_value : IsLiteral litMaxU64 (2 ^ 64 - 1) :=
  ⟨[], 10, _, rfl, by unfold DigitsOf; decide, by decide, by simp⟩

/-- For every literal from 2^63 to 2^64-1, assigning it to a `uint` variable is rejected although
it fits. -/
theorem C70_uint_rejected (lit : List Nat) (n : Nat) (h : IsLiteral lit n) (h1 : 2 ^ 63 ≤ n) (h2 : n < 2 ^ 64) :
    assignAccepts .uint (.lit lit) = .ok false := by
  have hs' : signed lit = (n : Int) - 2 ^ 64 := by
    rw [signed_eq h, if_neg (by omega)]; congr 1; exact_mod_cast Nat.mod_eq_of_lt h2
  unfold assignAccepts tryLiteral
  simp only [hs', rangeError]
  congr 1
  simp only [Bool.not_eq_false', decide_eq_true_eq]
  omega

/-- Assigning 2^64-1 to an `i8` variable is accepted. -/
theorem C70_i8_accepted : assignAccepts .i8 (.lit litMaxU64) = .ok true := by decide

theorem C70_assignment_fails : ¬ C70_assignment_statement := by
  intro h
  have := (h .i8 litMaxU64 (2 ^ 64 - 1) (by decide) litMaxU64_value).1 C70_i8_accepted
  simp [hiTy] at this

/-- Full claim: a declaration `int x = -lit` is rejected or gives `x` the value `-n`. -/
def C69_statement : Prop :=
  ∀ (lit : List Nat) (n : Nat), IsLiteral lit n →
    declNegAccepts .int lit = .ok true → emitNegLit lit = .ok (-(n : Int))

/-- The emitted value is right for every `n` up to 2^63 (including the minimum, spelled with 2^63). -/
theorem C69_partial (lit : List Nat) (n : Nat) (h : IsLiteral lit n) (hn : n ≤ 2 ^ 63) :
    emitNegLit lit = .ok (-(n : Int)) := by
  unfold emitNegLit
  rw [signed_eq h]
  by_cases h1 : n = 2 ^ 63
  · subst h1; decide
  · have h2 : n % 2 ^ 64 = n := Nat.mod_eq_of_lt (by omega)
    rw [h2]
    have h3 : (if n < 2 ^ 63 then (n : Int) else (n : Int) - 2 ^ 64) = n := if_pos (by omega)
    rw [h3]
    simp only
    rw [if_neg (by omega)]
    unfold negCheck minI64 maxI64
    simp only
    rw [if_neg (by omega)]
    simp

/-- The literal 9223372036854775809 = 2^63 + 1. -/
def litMinMinusOne : List Nat := [57, 50, 50, 51, 51, 55, 50, 48, 51, 54, 56, 53, 52, 55, 55, 53, 56, 48, 57]

/-- `int x = -9223372036854775809` is accepted and stores -9223372036854775807. -/
theorem C69_witness : IsLiteral litMinMinusOne (2 ^ 63 + 1) ∧
    declNegAccepts .int litMinMinusOne = .ok true ∧ emitNegLit litMinMinusOne = .ok (-(2 ^ 63 - 1)) := by
  refine ⟨⟨[], 10, _, rfl, by unfold DigitsOf; decide, by decide, by simp⟩, by decide, by decide⟩

theorem C69_fails : ¬ C69_statement := by
  intro h
  have := h _ _ C69_witness.1 C69_witness.2.1
  rw [C69_witness.2.2] at this
  norm_num at this

/-- Checking a declaration whose initialiser is the documented minimum, spelled -2^63, negates
`INT64_MIN` inside the compiler, which is undefined in C. -/
theorem C69_min_check_ub (t : IntTy) (lit : List Nat) (h : IsLiteral lit (2 ^ 63)) :
    declNegAccepts t lit = .ub := by
  have hs : signed lit = -2 ^ 63 := by rw [signed_eq h]; norm_num
  have : tryLiteral (.neg lit) = some .ub := by
    unfold tryLiteral; rw [hs]; decide
  unfold declNegAccepts assignAccepts
  rw [this]

end Verif.Props

import Verif.Model.Outcome
/-
Small shared specification notions, independent of the models.
-/
namespace Verif.Spec

/-- "Exact or panic": an arithmetic operation whose mathematical result is `exact`
returns it when it lies in `[lo, hi]` and panics when it does not.
`val` reads the returned object as an integer. -/
def ExactOrPanic {α : Type} (lo hi exact : Int) (val : α → Int) (o : Outcome α) : Prop :=
  ((lo ≤ exact ∧ exact ≤ hi) → ∃ r, o = .ok r ∧ val r = exact) ∧
  (¬ (lo ≤ exact ∧ exact ≤ hi) → ∃ c, o = .panic c)

/-- Value of a list of ASCII digits, most significant first. -/
def digitsVal (t : List Nat) : Nat := t.foldl (fun acc c => acc * 10 + (c - 48)) 0

/-- `t` is the canonical decimal numeral of `n`: nonempty, only digits, no leading zero unless
it is the single digit zero, and its value is `n`. -/
def IsNumeral (t : List Nat) (n : Nat) : Prop :=
  t ≠ [] ∧ (∀ c ∈ t, 48 ≤ c ∧ c ≤ 57) ∧ (t.head? = some 48 → t = [48]) ∧ digitsVal t = n

/-- `t` is the canonical decimal text of the integer `z`. -/
def IsDecimal (t : List Nat) (z : Int) : Prop :=
  if z < 0 then ∃ t', t = 45 :: t' ∧ IsNumeral t' z.natAbs else IsNumeral t z.natAbs

/-- Value of an ASCII digit in bases up to 16 (99 for any other byte). -/
def digitOf (c : Nat) : Nat :=
  if 48 ≤ c ∧ c ≤ 57 then c - 48
  else if 97 ≤ c ∧ c ≤ 102 then c - 87
  else if 65 ≤ c ∧ c ≤ 70 then c - 55
  else 99

/-- The number spelled by `t` in `base`, ignoring `_` separators. -/
def spelled (base : Nat) (t : List Nat) : Nat :=
  (t.filter (· ≠ 95)).foldl (fun acc c => acc * base + digitOf c) 0

/-- `body` consists of digits of `base` and `_`. -/
def DigitsOf (base : Nat) (body : List Nat) : Prop := ∀ c ∈ body, c = 95 ∨ digitOf c < base

/-- `lit` is an integer literal of the language with value `n`: decimal, or `0x`/`0o`/`0b` (either
case of the letter) followed by digits of that base. -/
def IsLiteral (lit : List Nat) (n : Nat) : Prop :=
  ∃ pre base body, lit = pre ++ body ∧ DigitsOf base body ∧ n = spelled base body ∧
    ((pre = [] ∧ base = 10) ∨
     ((pre = [48, 120] ∨ pre = [48, 88]) ∧ base = 16) ∨
     ((pre = [48, 111] ∨ pre = [48, 79]) ∧ base = 8) ∨
     ((pre = [48, 98] ∨ pre = [48, 66]) ∧ base = 2))

end Verif.Spec

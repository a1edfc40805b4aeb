import Verif.Model.BigintText
/-
Integer literals: from source text to value.
Source: /repo/grayc/src/parser/parser.c (parse_int_literal) and
/repo/grayc/src/codegen/codegen.c (initialiser of a wide variable).
A literal is its list of bytes.
-/
namespace Verif.IntLiteral
open Verif.Bigint

/-- The three results stored in the AST node, parser.c:557-560. -/
structure Parsed where
  value : BitVec 64
  overflow : Bool
  overflowU64 : Bool
  deriving DecidableEq, Repr

/-- Hex digit value, parser.c:520-523 (any other byte counts as 0). -/
def hexDigit (c : Nat) : Nat :=
  if 48 ≤ c ∧ c ≤ 57 then c - 48
  else if 97 ≤ c ∧ c ≤ 102 then c - 97 + 10
  else if 65 ≤ c ∧ c ≤ 70 then c - 65 + 10
  else 0

/-- The loops for base 16, 8 and 2, parser.c:518-527, 530-536, 539-545. `shift` is 4, 3 or 1.
`(unsigned)(*s - '0')` is 32-bit; digit bytes only reach here (lexer), so `dig` is a `Nat`. -/
def shiftLoop (dig : Nat → Nat) (base shift : Nat) : List Nat → BitVec 64 × Bool → BitVec 64 × Bool
  | [], s => s
  | c :: t, (u, ov) =>
    if c = 95 then shiftLoop dig base shift t (u, ov)
    else
      let ov' := if u > (BitVec.allOnes 64 >>> shift) then true else ov
      shiftLoop dig base shift t (u * BitVec.ofNat 64 base + BitVec.ofNat 64 (dig c), ov')

/-- The decimal loop, parser.c:547-554. -/
def decLoop : List Nat → BitVec 64 × Bool → BitVec 64 × Bool
  | [], s => s
  | c :: t, (u, ov) =>
    if c = 95 then decLoop t (u, ov)
    else
      let d := BitVec.ofNat 64 (c - 48)
      let ov' := if u > (BitVec.allOnes 64 - d) / 10 then true else ov
      decLoop t (u * 10 + d, ov')

/-- `parse_int_literal`, parser.c:508-562. -/
def parse (lit : List Nat) : Parsed :=
  let r := match lit with
    | 48 :: 120 :: t => shiftLoop hexDigit 16 4 t (0, false)
    | 48 :: 88 :: t => shiftLoop hexDigit 16 4 t (0, false)
    | 48 :: 111 :: t => shiftLoop (· - 48) 8 3 t (0, false)
    | 48 :: 79 :: t => shiftLoop (· - 48) 8 3 t (0, false)
    | 48 :: 98 :: t => shiftLoop (· - 48) 2 1 t (0, false)
    | 48 :: 66 :: t => shiftLoop (· - 48) 2 1 t (0, false)
    | t => decLoop t (0, false)
  ⟨r.1, r.2 || r.1 > 0x7FFFFFFFFFFFFFFF, r.2⟩

/-- Value given to a `u128` variable initialised with a literal, codegen.c:7424-7456
(non-constant declaration): zero constant, decimal text re-parsed at run time when the literal
does not fit `int64_t`, otherwise the 64-bit constructor. -/
def initU128 (lit : List Nat) : U128 :=
  let p := parse lit
  if p.value = 0 then U128.zero
  else if p.overflow then u128FromDecimal lit
  else U128.fromU64 p.value

/-- Same for `i128` (sign-extending constructor). -/
def initI128 (lit : List Nat) : I128 :=
  let p := parse lit
  if p.value = 0 then I128.zero
  else if p.overflow then i128FromDecimal lit
  else I128.fromI64 p.value

/-- Same for `u256`. -/
def initU256 (lit : List Nat) : W256 :=
  let p := parse lit
  if p.value = 0 then W256.zero
  else if p.overflow then u256FromDecimal lit
  else W256.fromU64 p.value

/-- Same for `i256`. -/
def initI256 (lit : List Nat) : W256 :=
  let p := parse lit
  if p.value = 0 then W256.zero
  else if p.overflow then i256FromDecimal lit
  else W256.fromI64 p.value

end Verif.IntLiteral

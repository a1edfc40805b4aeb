import Verif.Model.Operators
import Verif.Model.IntOps
/-
Values of tagged enums: the checks of constructors (/repo/grayc/src/typechecker/typechecker.c 5319-5367, 5438-5490), of variants
without a call (6145-6166, `resolve_implicit_enum` 2176-2214), and the C text (/repo/grayc/src/codegen/codegen.c 2301-2335,
2845-2857, 6221-6275; the types 9564-9607).

Simplifications.
* The enum is declared in the same file; the types of arguments are known.
* The payload types are names of one token (C262), and not of structs, which C defines later (C260).
* C: an initialiser without braces for a member that is a struct of another type starts with the first member of it
  (C11 6.7.9, paragraphs 13, 20 and 22); the members without an initialiser are zero.
-/
namespace Verif.Tagged
open Verif.Operators Verif.IntOps

/-! ### Variants and counts -/

/-- How a value is written, with the arguments if it is a call; `implicit` is `.V` and `.V(...)`. -/
inductive Form (α : Type) where
  | plain (implicit : Bool)
  | call (implicit : Bool) (args : List α)

/-- The first variant of the name (2191-2202, 5331-5333, 5449-5452, 6151-6156): its number of payloads -/
def find (vs : List (String × Nat)) (v : String) : Option Nat := (vs.find? fun q => q.1 == v).map (·.2)

/-- The codes reported for variant `v`, the types of arguments left out. `tagged` is `enum_is_tagged`. -/
def formErrors {α : Type} (vs : List (String × Nat)) (tagged : Bool) (v : String) : Form α → List String
  | .plain _ => if (find vs v).isSome then [] else ["E3047"]
  | .call _ args =>
    match find vs v with
    | none => ["E3047"]
    | some n =>
      if !tagged then ["E3115"]
      else if n == 0 && 0 < args.length then ["E3114"]
      else if n != args.length then ["E3113"]
      else []

/-- The initialisers of the payloads: none is a zero. The text of the arguments is written only if the variant has payloads (6239-6246). -/
def inits {α : Type} (vs : List (String × Nat)) (v : String) : Form α → List (Option α)
  | .plain _ => List.replicate ((find vs v).getD 0) none
  | .call _ args =>
    let n := (find vs v).getD 0
    if n > 0 then (args.map some ++ List.replicate (n - args.length) none).take n else []

/-! ### Types of payloads -/

/-- The check of one argument (5344-5356, 5474-5484): kinds only -/
def argOk (arg pay : K) : Bool := tk arg == tk pay || intKind arg && intKind pay

/-- What an initialiser sets: the member, or the first member of it. -/
inductive Init where
  | whole | first
  deriving DecidableEq, Repr

/-- C types that convert into each other as initialisers: numbers, characters, bools, and enums of numbers -/
def arithC : K → Bool
  | .int | .uint | .byte | .float | .bool | .char | .enumInt => true
  | _ => false

/-- The initialiser of a member of the type of `pay` by an expression of the type of `arg`; none is no C. `same` says that the types
have the same name. -/
def initOf (arg pay : K) (same : Bool) : Option Init :=
  if arithC arg && arithC pay then some .whole
  else
    match arg, pay with
    | .string, .string | .enumStr, .enumStr | .string, .enumStr | .enumStr, .string | .error, .error | .func, .func
    | .i128, .i128 | .u128, .u128 | .i256, .i256 | .u256, .u256 => some .whole
    | .enumTag, .enumTag => if same then some .whole else none
    | a, .i128 | a, .u128 | a, .i256 | a, .u256 | a, .enumTag => if arithC a then some .first else none
    | _, _ => none

/-! ### Integer payloads -/

/-- An integer type: one of up to 64 bits, or a struct of `n` words of 64 bits -/
inductive Pay where
  | narrow (t : IntTy)
  | wide (n : Nat) (signed : Bool)
  deriving DecidableEq

/-- An argument: its type and its value -/
abbrev Arg := Pay × Int

def isChar : Pay → Bool
  | .narrow .char => true
  | _ => false

/-- The checks of a call with integer payloads (5465-5484) -/
def accepted (ps : List Pay) (as : List Arg) : Bool :=
  ps.length == as.length && (ps.zip as).all fun q => isChar q.1 == isChar q.2.1

/-- The number in a struct of words -/
def wordsVal (n : Nat) (signed : Bool) (ws : List Int) : Int :=
  let z := ws.foldr (fun w acc => toU64 w + 2 ^ 64 * acc) 0
  if signed then z.bmod (2 ^ (64 * n)) else z

/-- The values of arguments that are scalars; none if one is a struct -/
def scalars : List Arg → Option (List Int)
  | [] => some []
  | (.narrow _, v) :: as => (scalars as).map (v :: ·)
  | (.wide _ _, _) :: _ => none

/-- `{ a, b, … }` for the payload struct -/
def fill : List Pay → List Arg → Option (List Int)
  | [], _ => some []
  | .narrow t :: ps, as =>
    match as with
    | [] => (fill ps []).map (0 :: ·)
    | (.narrow _, v) :: as => (fill ps as).map (conv (cTy t) v :: ·)
    | (.wide _ _, _) :: _ => none
  | .wide n s :: ps, as =>
    match as with
    | [] => (fill ps []).map (0 :: ·)
    | (.wide m s', v) :: as => if m = n ∧ s' = s then (fill ps as).map (v :: ·) else none
    | (.narrow t, v) :: as =>
      (scalars (((.narrow t, v) :: as).take n)).bind fun ws => (fill ps (((.narrow t, v) :: as).drop n)).map (wordsVal n s ws :: ·)

/-! ### Selectors as arguments -/

/-- An enum: its name and its variants -/
structure Enum where
  name : String
  variants : List String
  tagged : Bool

/-- `.v` where `ctx` is `expected_type` (2176-2214): the enum that is written on the node -/
def selector (ctx : Option Enum) (v : String) : Option Enum :=
  match ctx with
  | none => none
  | some e => if e.variants.contains v then some e else none

/-- `.v` as argument of a constructor: `expected_type` stays that of the constructor's place. -/
def argSelector (place : Option Enum) (_pay : Enum) (v : String) : Option Enum := selector place v

/-- Whether C takes the text of a variant of `e` as initialiser of a payload that is the enum `pay` -/
def selectorC (e pay : Enum) : Bool :=
  (initOf (if e.tagged then .enumTag else .enumInt) (if pay.tagged then .enumTag else .enumInt) (e.name == pay.name)).isSome

end Verif.Tagged

import Verif.Model.Outcome
import Verif.Model.Str

/-!
# Formatted output

Models
* the check of a format string and its arguments (`grayc/src/typechecker/typechecker.c` 3213-3369);
* the emitted format string and arguments (`grayc/src/codegen/codegen.c` 3046-3119);
* `grayc/src/stdlib/fmt.c` with the calls emitted for it (codegen.c 5635-5704).

Simplifications.
* The format is a string literal, given by its text between the quotes; anything else is rejected (E3086).
* Types of arguments are those in `ATy`; of the diagnostics only whether there are any is kept.
* `snprintf` of a 64-bit number in base 8 or 16 writes its digits without leading zeros; the text `snprintf` would write for a floating
  point number is a parameter. Allocation succeeds.
-/

namespace Verif.Printf
open Verif Verif.Str

/-- Types of arguments. `composite`: structs, arrays, maps and pointers; `misc`: enums, errors, `nil` and functions. -/
inductive ATy where
  | int | i8 | i16 | i32 | i64 | i128 | i256
  | uint | u8 | u16 | u32 | u64 | u128 | u256
  | byte | char | f32 | f64 | float | bool | string | composite | misc
  deriving DecidableEq, Repr

/-- Kinds of types. -/
inductive Kind where
  | int | uint | byte | char | float | bool | string | other
  deriving DecidableEq, Repr

/-- types.c 360-386. -/
def ATy.kind : ATy → Kind
  | .int | .i8 | .i16 | .i32 | .i64 | .i128 | .i256 => .int
  | .uint | .u8 | .u16 | .u32 | .u64 | .u128 | .u256 => .uint
  | .byte => .byte
  | .char => .char
  | .f32 | .f64 | .float => .float
  | .bool => .bool
  | .string => .string
  | .composite | .misc => .other

/-! ## The check -/

/-- `- + space 0 #`. -/
def isFlag (c : Byte) : Bool := c == 45 || c == 43 || c == 32 || c == 48 || c == 35

/-- Flags, width and precision (3246-3248), and what comes after them. -/
def header (p : Str) : Str × Str :=
  let f := p.takeWhile isFlag
  let p := p.dropWhile isFlag
  let w := p.takeWhile isDigit
  let p := p.dropWhile isDigit
  match p with
  | 46 :: q => (f ++ w ++ 46 :: q.takeWhile isDigit, q.dropWhile isDigit)
  | _ => (f ++ w, p)

/-- The length modifier skipped by the check, 3249-3251. -/
def skipLen : Str → Str
  | 104 :: 104 :: p => p
  | 104 :: p => p
  | 108 :: 108 :: p => p
  | 108 :: p => p
  | 76 :: p => p
  | p => p

/-- The directives that are known, 3262-3271: `d i u x X o f g e G E s c b`. -/
def known (c : Byte) : Bool :=
  [100, 105, 117, 120, 88, 111, 102, 103, 101, 71, 69, 115, 99, 98].contains c

/-- Whether the directive takes a type of this kind, 3285-3313. -/
def takes (c : Byte) (k : Kind) : Bool :=
  if c = 100 ∨ c = 105 then k = .int ∨ k = .char ∨ k = .byte
  else if c = 117 then k = .uint ∨ k = .byte
  else if c = 120 ∨ c = 88 ∨ c = 111 then k = .int ∨ k = .uint ∨ k = .byte
  else if c = 102 ∨ c = 103 ∨ c = 101 ∨ c = 71 ∨ c = 69 then k = .float
  else if c = 115 then k = .string
  else if c = 99 then k = .char ∨ k = .int
  else true

/-- The loop over the format (3227-3326): whether there is no error, and the number of directives. `args` are the arguments from `di`
on. The first parameter bounds the number of rounds. -/
def checkLoop : Nat → Str → List ATy → Bool × Nat
  | 0, _, _ => (true, 0)
  | n + 1, s, args =>
    match s with
    | [] => (true, 0)
    | c :: p =>
      if c ≠ 37 then checkLoop n p args
      else match p with
        | [] => (false, 0)
        | d :: q =>
          if d = 37 then checkLoop n q args
          else if d = 110 then (false, 0)
          else match skipLen (header p).2 with
            | [] => (false, 0)
            | spec :: p =>
              let rest := checkLoop n p args.tail
              if known spec then
                match args with
                | [] => (rest.1, rest.2 + 1)
                | a :: _ => (takes spec a.kind && rest.1, rest.2 + 1)
              else (false, rest.2 + 1)

/-- Whether the call is accepted: the loop, the number of arguments (E3107, E3108, 3327-3339), no composite arguments (E3017, 3344-3369). -/
def accepts (s : Str) (args : List ATy) : Bool :=
  let r := checkLoop s.length s args
  r.1 && args.length == r.2 && !args.contains .composite

/-! ## The emitted call -/

/-- The length modifier copied by the emitter, codegen.c 3070-3076: the modifier, and what comes after it. -/
def emitLen : Str → Str × Str
  | 104 :: 104 :: p => ([104, 104], p)
  | 104 :: p => ([104], p)
  | 108 :: 108 :: p => ([108, 108], p)
  | 108 :: p => ([108], p)
  | 76 :: p => ([76], p)
  | p => ([], p)

/-- `ll`, if the directive is widened, 3079-3091. -/
def widen (len : Str) (spec : Byte) (args : List ATy) : Str :=
  match args with
  | [] => []
  | a :: _ =>
    if len = [] ∧ ((spec = 100 ∨ spec = 105) ∧ a.kind = .int ∨ spec = 117 ∧ a.kind = .uint) then [108, 108] else []

/-- The loop of `emit_format_string_normalized_extended`, 3053-3094. -/
def emitLoop : Nat → Str → List ATy → Str
  | 0, _, _ => []
  | n + 1, s, args =>
    match s with
    | [] => []
    | c :: p =>
      if c ≠ 37 then c :: emitLoop n p args
      else match p with
        | [] => [37]
        | d :: q =>
          if d = 37 then 37 :: 37 :: emitLoop n q args
          else
            let h := header p
            let l := emitLen h.2
            match l.2 with
            | [] => 37 :: (h.1 ++ l.1)
            | spec :: p => 37 :: (h.1 ++ l.1 ++ widen l.1 spec args ++ spec :: emitLoop n p args.tail)

/-- The C text between the quotes, 3049-3097; `nl` for the variants that end in `ln`. -/
def emitFormat (s : Str) (args : List ATy) (nl : Bool) : Str :=
  emitLoop s.length s args ++ if nl then [92, 110] else []

/-- C types of arguments after the default argument promotions (C11 6.5.2.2p6). `small`: an `int` that comes from an unsigned type and
is never negative. `int64_t` and `long long` are not told apart. -/
inductive CTy where
  | int | small | uint | int64 | uint64 | double | longDouble | charPtr | wcharPtr | wint | ptr | aggregate
  deriving DecidableEq, Repr

/-- The type of the C argument, 3103-3119: `data` of a string, one of two C strings for a `bool`, other values as they are. -/
def ATy.c : ATy → CTy
  | .int | .i64 => .int64
  | .i8 | .i16 | .i32 | .char => .int
  | .uint | .u64 => .uint64
  | .u8 | .u16 | .byte => .small
  | .u32 => .uint
  | .f32 | .f64 | .float => .double
  | .bool | .string => .charPtr
  | .i128 | .i256 | .u128 | .u256 | .composite | .misc => .aggregate

/-! ## stdlib/fmt.c -/

/-- A string: its bytes in memory, and its `len` of 32 bits. -/
structure GStr where
  data : Str
  len : Int
  deriving DecidableEq, Repr

/-- The conversion to `int32_t`. -/
def toLen (n : Int) : Int := n.bmod (2 ^ 32)

/-- `(char)(…)` of a code point, codegen.c 5640. -/
def toByte (cp : Nat) : Byte := BitVec.ofNat 8 cp

/-- `gray_fmt_pad_left`, 18-25. -/
def padLeft (s : Str) (width : Int) (ch : Byte) : GStr :=
  if (s.length : Int) ≥ width then ⟨s, s.length⟩
  else
    let pad := width - s.length
    ⟨List.replicate pad.toNat ch ++ s, toLen width⟩

/-- `gray_fmt_pad_right`, 27-34. -/
def padRight (s : Str) (width : Int) (ch : Byte) : GStr :=
  if (s.length : Int) ≥ width then ⟨s, s.length⟩
  else
    let pad := width - s.length
    ⟨s ++ List.replicate pad.toNat ch, toLen width⟩

/-- `gray_fmt_center`, 36-46. -/
def center (s : Str) (width : Int) (ch : Byte) : GStr :=
  if (s.length : Int) ≥ width then ⟨s, s.length⟩
  else
    let total := width - s.length
    let left := total.tdiv 2
    let right := total - left
    ⟨List.replicate left.toNat ch ++ s ++ List.replicate right.toNat ch, toLen width⟩

/-- `"%x"` and `"%o"` for a 64-bit number: digits, at least one. -/
def digits (base : Nat) (v : Nat) : Str := (Nat.toDigits base v).map ch

/-- `(uint64_t)n`. -/
def toU64 (n : Int) : Nat := (n % 2 ^ 64).toNat

/-- `gray_fmt_int_to_hex`, 48-54. -/
def intToHex (n : Int) : Str := digits 16 (toU64 n)

/-- `gray_fmt_int_to_octal`, 76-82. -/
def intToOctal (n : Int) : Str := digits 8 (toU64 n)

/-- The loop of `gray_fmt_int_to_binary`, 65-68: `tmp` filled from the end, `pos` bytes are left. -/
def binLoop : Nat → Nat → Nat → Str → Outcome (Nat × Str)
  | 0, _, pos, out => .ok (pos, out)
  | n + 1, v, pos, out =>
    if v > 0 then
      if pos = 0 then .ub
      else binLoop n (v / 2) (pos - 1) (BitVec.ofNat 8 (48 + v % 2) :: out)
    else .ok (pos, out)

/-- `gray_fmt_int_to_binary`, 56-74. The loop ends after at most 64 rounds. -/
def intToBinary (n : Int) : Outcome Str :=
  if n = 0 then .ok [48]
  else match binLoop 65 (toU64 n) 64 [] with
    | .ok (pos, out) => .ok (out.take (64 - pos))
    | .panic c => .panic c
    | .ub => .ub

/-- `gray_fmt_float_fixed` and `gray_fmt_float_sci`, 84-97: `text` is what `snprintf` formats, of which 63 bytes and a 0 fit in `tmp`;
then as many bytes as the text has are copied from `tmp`. -/
def floatText (text : Str) : Outcome Str :=
  if text.length > 64 then .ub
  else .ok ((text.take 63 ++ [0]).take text.length)

end Verif.Printf

import Verif.Model.JsonCalls
/-
C338: what json.encode reads.
-/
namespace Verif.Props
open Verif.JsonCalls

namespace Jc

def names : List Nm :=
  [.int, .i8, .i16, .i32, .i64, .uint, .u8, .u16, .u32, .u64, .byte, .char, .float, .f32, .f64, .bool, .string, .wide,
   .enum, .struct, .array, .map, .pointer, .error]

theorem mem_names (n : Nm) : n ∈ names := by cases n <;> decide

/-- The single values for which there is an encoder -/
def single : Nm → Bool
  | .int | .i8 | .i16 | .i32 | .i64 | .float | .f32 | .f64 | .bool | .string => true
  | _ => false

/-- The elements of arrays that are read as they are kept -/
def element : Nm → Bool
  | .int | .i8 | .i16 | .i32 | .i64 | .uint | .u8 | .u16 | .u32 | .u64 | .float | .bool | .string => true
  | _ => false

/-- The values of maps that are -/
def value : Nm → Bool
  | .int | .float | .bool | .string => true
  | _ => false

def good : Ty → Bool
  | .one n => single n
  | .array e => element e
  | .map .string v => value v
  | .map _ _ => false

def P (t : Ty) : Bool := !exists? t || (sound t == good t)

theorem ones : (names.all fun n => P (.one n)) = true := by decide +kernel
theorem arrays : (names.all fun n => P (.array n)) = true := by decide +kernel
theorem maps : (names.all fun k => names.all fun v => P (.map k v)) = true := by decide +kernel

end Jc

open Jc

/-- C338: `json.encode`, which is accepted for every value, reads the value at the C type in which it is kept. -/
def C338_statement : Prop := ∀ t : Ty, exists? t = true → sound t = true

/-- A `uint`, an `f64` in an array, an `i32` in a map and the keys of a `map[int:int]` are not. -/
theorem C338_witness :
    encoder (.one .uint) = .asMap ∧ encoder (.array .f64) = .arrInt ∧ arrayC .f64 = some .dbl ∧
    encoder (.map .string .i32) = .mapStr ∧ mapC .i32 = some .i64 ∧ sound (.map .int .int) = false ∧
    exists? (.one .uint) = true ∧ sound (.one .uint) = false := by decide +kernel

theorem C338_fails : ¬ C338_statement := fun h => by
  have := h (.one .uint) C338_witness.2.2.2.2.2.2.1
  rw [C338_witness.2.2.2.2.2.2.2] at this
  exact nomatch this

/-- Exactly these are: signed integers of up to 64 bits, floats, bools and strings; arrays of integers other than bytes, and of `float`, `bool`
and `string`; maps from strings to `int`, `float`, `bool` and `string`. -/
theorem C338_partial (t : Ty) (h : exists? t = true) : sound t = true ↔ good t = true := by
  have key : P t = true := by
    cases t with
    | one n => exact List.all_eq_true.1 ones n (mem_names n)
    | array n => exact List.all_eq_true.1 arrays n (mem_names n)
    | map k v => exact List.all_eq_true.1 (List.all_eq_true.1 maps k (mem_names k)) v (mem_names v)
  unfold P at key
  rw [h, Bool.not_true, Bool.false_or] at key
  rw [beq_iff_eq.1 key]

/-- The encoders of these -/
theorem C338_encoders :
    encoder (.one .int) = .num ∧ encoder (.one .i8) = .num ∧ encoder (.one .f64) = .real ∧ encoder (.one .bool) = .truth ∧
    encoder (.one .string) = .quoted ∧ encoder (.array .u8) = .arrInt ∧ encoder (.array .float) = .arrFloat ∧
    encoder (.array .bool) = .arrBool ∧ encoder (.array .string) = .arrStr ∧ encoder (.map .string .int) = .mapInt ∧
    encoder (.map .string .float) = .mapFloat ∧ encoder (.map .string .bool) = .mapBool ∧ encoder (.map .string .string) = .mapStr := by
  decide +kernel

example : exists? (.map .string .int) = true ∧ good (.map .string .int) = true ∧ encoder (.map .string .int) = .mapInt := by decide +kernel

end Verif.Props

import Verif.Model.Picks
/-
C349, C350: C types of random.choice and mem.alloc.
-/
namespace Verif.Props
open Verif.JsonCalls Verif.Picks

namespace Pk

/-- A value kept at one C type may be read at the other: they are the same, or one is the unsigned type of the other's size. -/
def alike : C → C → Bool
  | .i64, .u64 | .u64, .i64 => true
  | c, d => c == d

/-- Elements that `choice` reads as they are kept -/
def picked : Way → Nm → Bool
  | _, .int | _, .i64 | _, .uint | _, .u64 | _, .byte | _, .char | _, .float | _, .f64 | _, .bool | _, .string | _, .enum | _, .struct => true
  | .literal, .i8 | .literal, .i16 | .literal, .i32 | .literal, .u8 | .literal, .u16 | .literal, .u32 | .literal, .f32 => true
  | _, _ => false

/-- Values that `mem.alloc` gives back as they are in C -/
def kept : Val → Bool
  | .other .string => true
  | .elems e => match e with
    | .int | .i8 | .i16 | .i32 | .i64 | .uint | .u8 | .u16 | .u32 | .u64 | .float | .f32 | .f64 | .bool | .string => true
    | _ => false
  | _ => false

end Pk

open Pk

/-- C349: `random.choice` reads an element at a C type like the one at which the array keeps it. -/
def C349_statement : Prop := ∀ w e c d, keptC w e = some c → choiceC e = some d → alike c d = true

/-- An array of arrays, of maps or of pointers is read as integers; an `i8` in a declared array is read with the seven bytes after it. -/
theorem C349_witness :
    (∀ w, keptC w .array = some .array ∧ keptC w .map = some .map ∧ keptC w .pointer = some .ptr) ∧
      choiceC .array = some .i64 ∧ choiceC .map = some .i64 ∧ choiceC .pointer = some .i64 ∧
      keptC .declared .i8 = some .i8 ∧ choiceC .i8 = some .i64 ∧ keptC .declared .f32 = some .flt ∧ choiceC .f32 = some .dbl := by
  refine ⟨fun w => by cases w <;> decide, by decide⟩

theorem C349_fails : ¬ C349_statement := fun h =>
  absurd (h .literal .array .array .i64 (C349_witness.1 .literal).1 C349_witness.2.1) (by decide)

/-- Exactly these elements are: in all arrays the integers of 64 bits, bytes, characters, floats of 64 bits, bools, strings, enums and structs, and in
those made by literals the smaller numbers too.  Missing: arrays, maps, pointers, and smaller numbers in other arrays. -/
theorem C349_partial (w : Way) (e : Nm) (c : C) (hk : keptC w e = some c) : (∃ d, choiceC e = some d ∧ alike c d = true) ↔ picked w e = true := by
  cases w <;> cases e <;> first
    | (exfalso; revert hk; simp [keptC, literalC, typeC, kd]; done)
    | (obtain rfl := Option.some.inj (hk : some _ = some c)
       simp [choiceC, kd, typeC, alike, picked])

/-- `choice(a)` has another C type than `a[0]` exactly for these. -/
theorem C349_index (e : Nm) (he : e ≠ .wide) : choiceC e ≠ indexC e ↔ e = .array ∨ e = .map ∨ e = .pointer := by
  cases e <;> first
    | exact absurd rfl he
    | decide

example : keptC .literal .u16 = some .i64 ∧ picked .literal .u16 = true ∧ picked .declared .u16 = false := by decide

/-- C350: `mem.alloc(arena, value)`, whose type is that of the value, is in C what the value is. -/
def C350_statement : Prop := ∀ v c, plainC v = some c → allocC v = some c

/-- An `int` is a pointer to it; the elements of an array of bytes or of structs are made to be integers. -/
theorem C350_witness :
    plainC (.other .int) = some (.i64, none) ∧ allocC (.other .int) = some (.to .int, none) ∧
      plainC (.elems .byte) = some (.array, some .u8) ∧ allocC (.elems .byte) = some (.array, some .i64) ∧
      plainC (.elems .struct) = some (.array, some .struct) ∧ allocC (.elems .struct) = some (.array, some .i64) := by decide

theorem C350_fails : ¬ C350_statement := fun h => absurd (h _ _ C350_witness.1) (by decide)

/-- Exactly these are: strings, and array literals of integers, floats, bools and strings.  Missing: all other values. -/
theorem C350_partial (v : Val) (c : C × Option C) (h : plainC v = some c) : allocC v = some c ↔ kept v = true := by
  have hn : plainC v ≠ none := by rw [h]; exact nofun
  rw [← h]
  cases v with
  | elems e => revert hn; cases e <;> decide
  | other n => revert hn; cases n <;> decide

/-- Any value but a string or an array literal becomes a pointer to it. -/
theorem C350_pointer (n : Nm) (hs : n ≠ .string) (hw : n ≠ .wide) : allocC (.other n) = some (.to n, none) := by
  show (if n = Nm.string then _ else _) = _
  rw [if_neg hs, if_neg hw]

example : plainC (.elems .i16) = some (.array, some .i64) ∧ kept (.elems .i16) = true := by decide

end Verif.Props

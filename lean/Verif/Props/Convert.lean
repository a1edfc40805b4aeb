import Verif.Model.Convert
import Verif.Props.Elems

/-!
# C237: integers that go to a place of another integer type
-/

namespace Verif.Props

open Verif.Accept Verif.Elems Verif.Convert El

namespace Cv

/-- Every value of the second type is one of the first. -/
def wider (d v : IntName) : Bool :=
  (signed v == signed d && decide (width v ≤ width d)) || (!signed v && signed d && decide (width v < width d))

theorem wrap_self {d : IntName} {z : Int} (h : InRange d z) : wrap d z = z := decode_self h

theorem bounds_iff {d : IntName} (h : narrowTarget d = true) (z : Int) : InRange d z ↔ (bounds d).1 ≤ z ∧ z ≤ (bounds d).2 := by
  cases d <;> first | (cases h; done) | (simp [InRange, signed, width, bounds]; omega)

theorem narrow_int {d : IntName} (h : narrowTarget d = true) {z : Int} (hz : InRange d z) : InRange .int z := by
  rw [bounds_iff h] at hz
  cases d <;> first | (cases h; done) | (simp [InRange, signed, width, bounds] at hz ⊢; omega)

theorem wider_range {d v : IntName} (hd : narrow d) (h : wider d v = true) {z : Int} (hz : InRange v z) : InRange d z := by
  revert h hz hd
  unfold narrow
  cases d <;> cases v <;> simp [wider, InRange, signed, width] <;> omega

theorem fits {p : Place} {d v : IntName} {z : Int} (hv : narrow v) (hz : InRange v z) (h3 : v ≠ .uint) (h4 : v ≠ .u64)
    (h1 : checksRange p = true) (h2 : narrowTarget d = true) (hr : ¬ ((bounds d).1 ≤ z ∧ z ≤ (bounds d).2)) : store p d z = none := by
  have hi : InRange .int z := by
    revert hz hv h3 h4
    unfold narrow
    cases v <;> simp [InRange, signed, width] <;> omega
  unfold store
  simp only [h1, h2, Bool.and_self, if_true, wrap_self hi]
  rw [if_pos (by omega)]

theorem low_unsigned {d : IntName} (h : narrowTarget d = true) (hs : signed d = false) : (bounds d).1 = 0 := by
  cases d <;> first | (cases h; done) | (cases hs; done) | rfl

/-- A `uint` converted to `int` is itself or negative. -/
theorem big_int {z : Int} (h : InRange .u64 z) : wrap .int z = z ∨ wrap .int z < 0 := by
  have hn := number_encode 8 z
  have h0 : 0 ≤ z ∧ z < 18446744073709551616 := by simpa [InRange, signed, width] using h
  rw [Int.emod_eq_of_lt h0.1 (by simpa using h0.2)] at hn
  unfold wrap
  show decode true (encode 8 z) = z ∨ decode true (encode 8 z) < 0
  unfold decode
  rw [encode_length]
  split
  · right; rw [hn]; simp; omega
  · left; exact hn

/-- Values at the ends of ranges. -/
def ends : List Int := [-1, -129, -32769, -2147483649, 128, 256, 32768, 65536, 2147483648, 4294967296, 9223372036854775808, 18446744073709551615]

/-- The cases in which nothing is lost. -/
def safe (p : Place) (d v : IntName) : Bool := wider d v || (checksRange p && narrowTarget d && (!signed d || !(v = .uint ∨ v = .u64)))

def places : List Place := [.decl true, .decl false, .assign, .arg, .ret, .ret2, .field, .setField, .elem, .deep]

def narrowNames : List IntName := [.int, .i8, .i16, .i32, .i64, .uint, .u8, .u16, .u32, .u64, .byte]

theorem mem_places (p : Place) : p ∈ places := by
  cases p with
  | decl b => cases b <;> decide
  | _ => decide

theorem mem_names {d : IntName} (h : narrow d) : d ∈ narrowNames := by
  unfold narrow at h
  cases d <;> first | decide | (revert h; decide)

/-- For every case that is not safe, a value at the end of a range that is changed. -/
theorem unsafe_ends : ∀ p ∈ places, ∀ d ∈ narrowNames, ∀ v ∈ narrowNames, safe p d v = false →
    ∃ z ∈ ends, InRange v z ∧ ¬ InRange d z ∧ ∃ y, store p d z = some y ∧ y ≠ z := by
  have key : places.all (fun p => narrowNames.all fun d => narrowNames.all fun v => safe p d v ||
      ends.any fun z => decide (InRange v z) && !decide (InRange d z) && (store p d z).any fun y => decide (y ≠ z)) = true := by
    decide +kernel
  intro p hp d hd v hv hs
  have h := List.all_eq_true.1 (List.all_eq_true.1 (List.all_eq_true.1 key p hp) d hd) v hv
  rw [hs, Bool.false_or, List.any_eq_true] at h
  obtain ⟨z, hz, h⟩ := h
  simp only [Bool.and_eq_true, decide_eq_true_eq, Bool.not_eq_true', decide_eq_false_iff_not] at h
  obtain ⟨⟨h1, h2⟩, h3⟩ := h
  cases hy : store p d z with
  | none => rw [hy] at h3; cases h3
  | some y => rw [hy] at h3; exact ⟨z, hz, h1, h2, y, hy, of_decide_eq_true h3⟩

end Cv

open Cv

/-- C237, the claim: an integer that is taken for a place arrives there unchanged if it is in the range of the place, and otherwise the
program stops. -/
def C237_statement : Prop :=
  ∀ (p : Place) (label : Bool) (d v : IntName) (z : Int), narrow d → narrow v → takes p label d v = true → InRange v z →
    store p d z = if InRange d z then some z else none

/-- C237: a value in the range of the place always arrives unchanged. -/
theorem C237_kept_partial (p : Place) (d : IntName) (z : Int) (hz : InRange d z) : store p d z = some z := by
  unfold store
  by_cases hc : (checksRange p && narrowTarget d) = true
  · have hn : narrowTarget d = true := (Bool.and_eq_true_iff.1 hc).2
    have hb := (bounds_iff hn z).1 hz
    simp only [hc, if_true, wrap_self (narrow_int hn hz)]
    rw [if_neg (by omega), wrap_self hz]
  · rw [if_neg hc, wrap_self hz]

/-- C237: it holds just for places whose type contains that of the value, and for declarations and arguments of fewer than 64 bits with
values other than `uint` and `u64` or an unsigned place. -/
theorem C237_exact_partial (p : Place) (d v : IntName) (hd : narrow d) (hv : narrow v) :
    safe p d v = true ↔ ∀ z, InRange v z → store p d z = if InRange d z then some z else none := by
  constructor
  · intro h z hz
    by_cases hr : InRange d z
    · rw [if_pos hr, C237_kept_partial p d z hr]
    · rw [if_neg hr]
      unfold safe at h
      rw [Bool.or_eq_true] at h
      rcases h with h | h
      · exact absurd (wider_range hd h hz) hr
      · simp only [Bool.and_eq_true, Bool.or_eq_true, Bool.not_eq_true', decide_eq_false_iff_not, not_or] at h
        obtain ⟨⟨h1, h2⟩, h3⟩ := h
        rw [bounds_iff h2] at hr
        rcases h3 with h3 | ⟨h3, h4⟩
        · by_cases hu : v = .uint ∨ v = .u64
          · have hw : wrap .int z = z ∨ wrap .int z < 0 := big_int (by rcases hu with rfl | rfl <;> exact hz)
            unfold store
            simp only [h1, h2, Bool.and_self, if_true]
            rcases hw with hw | hw
            · rw [hw, if_pos (by omega)]
            · rw [if_pos (Or.inl (by have := low_unsigned h2 h3; omega))]
          · rw [not_or] at hu
            exact fits hv hz hu.1 hu.2 h1 h2 hr
        · exact fits hv hz h3 h4 h1 h2 hr
  · intro h
    apply Decidable.byContradiction
    intro hs
    obtain ⟨z, -, h1, h2, y, h3, -⟩ := unsafe_ends p (mem_places p) d (mem_names hd) v (mem_names hv) (eq_false_of_ne_true hs)
    rw [h z h1, if_neg h2] at h3
    cases h3

/-- C237: in a case that is not safe, some value arrives as another one. -/
theorem C237_changed (p : Place) (d v : IntName) (hd : narrow d) (hv : narrow v) (h : safe p d v = false) :
    ∃ z y, InRange v z ∧ store p d z = some y ∧ y ≠ z := by
  obtain ⟨z, -, h1, -, y, h3, h4⟩ := unsafe_ends p (mem_places p) d (mem_names hd) v (mem_names hv) h
  exact ⟨z, y, h1, h3, h4⟩

/-- C237: `mut a u64 = 18446744073709551615` and `mut b i8 = a` gives -1: the value wraps before it is checked. -/
theorem C237_witness_check : takes (.decl false) true .i8 .u64 = true ∧ store (.decl false) .i8 18446744073709551615 = some (-1) := by decide

/-- C237: `x = y` for an `i8` and an `int` of 300 gives 44. -/
theorem C237_witness_assign : takes .assign true .i8 .int = true ∧ store .assign .i8 300 = some 44 := by decide

/-- C237: a function that returns `u8` and returns an expression of type `int` with value -1 gives 255. -/
theorem C237_witness_return : takes .ret false .u8 .int = true ∧ takes .ret true .u8 .int = false ∧ store .ret .u8 (-1) = some 255 := by decide

theorem C237_fails : ¬ C237_statement := fun h => by
  have := h .assign true .i8 .int 300 (by unfold narrow; decide) (by unfold narrow; decide) (by decide) (by decide)
  rw [C237_witness_assign.2] at this
  exact absurd this (by decide)

/-- C237: for parameters and declarations, a value of a signed type that does not fit into fewer than 64 bits stops the program. -/
theorem C237_stops (p : Place) (hp : p = .arg ∨ ∃ b, p = .decl b) (d : IntName)
    (hd : d ∈ [IntName.i8, .i16, .i32, .u8, .u16, .u32, .byte]) (z : Int) (hz : InRange .int z) (hr : ¬ InRange d z) :
    store p d z = none := by
  have h1 : checksRange p = true := by
    rcases hp with rfl | ⟨b, rfl⟩ <;> rfl
  have h2 : narrowTarget d = true := by
    clear hr
    revert d
    decide
  refine fits (v := .int) (by unfold narrow; decide) hz (by decide) (by decide) h1 h2 fun h => hr ((bounds_iff h2 z).2 h)

/-- C237: a signed variable is refused for an unsigned place in declarations and returns only. -/
theorem C237_refused (d v : IntName) (hd : signed d = false) (hv : signed v = true) :
    refused .ret true d v = true ∧ (∀ b, refused (.decl b) true d v = true) ∧ refused .assign true d v = false
      ∧ refused .arg true d v = false ∧ ∀ p, refused p false d v = false := by
  unfold refused
  rw [hd, hv]
  exact ⟨rfl, fun _ => rfl, rfl, rfl, fun _ => rfl⟩

example : store .arg .i8 128 = none ∧ store .arg .i8 127 = some 127 ∧ store .arg .u8 (-1) = none := by decide
example : safe .arg .i8 .int = true ∧ safe .assign .i8 .int = false ∧ safe .assign .int .i8 = true := by decide

end Verif.Props

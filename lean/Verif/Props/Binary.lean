import Verif.Model.Binary
import Mathlib.Tactic.Ring
import Mathlib.Tactic.NormNum
import Mathlib.Tactic.Linarith

/-! C28, C91: binary codecs. -/
namespace Verif.Props
open Verif Verif.Str Verif.Bin

theorem length_objBytes (n : Nat) : ∀ v, (objBytes n v).length = n := by
  induction n with
  | zero => intro v; rfl
  | succ n ih => intro v; rw [objBytes, List.length_cons, ih]

theorem objVal_objBytes (n : Nat) : ∀ v, v < 256 ^ n → objVal (objBytes n v) = v := by
  induction n with
  | zero => intro v h; simp at h; simp [objBytes, objVal, h]
  | succ n ih =>
    intro v h
    rw [objBytes, objVal, ih _ (by rw [Nat.pow_succ] at h; omega), BitVec.toNat_ofNat]
    omega

theorem objVal_lt : ∀ l : List Byte, objVal l < 256 ^ l.length
  | [] => by simp [objVal]
  | b :: r => by
    have := objVal_lt r
    have hb := b.isLt
    rw [objVal, List.length_cons, Nat.pow_succ]
    omega

theorem objVal_append (l m : List Byte) : objVal (l ++ m) = objVal l + 256 ^ l.length * objVal m := by
  induction l with
  | nil => simp [objVal]
  | cons b l ih =>
    rw [List.cons_append, objVal, objVal, ih, List.length_cons, Nat.pow_succ]
    ring

/-- Byte `i` of the `n`-byte little-endian form of `v` is digit `i` in base 256. -/
theorem objBytes_digit (n : Nat) : ∀ (v i : Nat) (h : i < (objBytes n v).length),
    ((objBytes n v)[i]).toNat = v / 256 ^ i % 256 := by
  induction n with
  | zero => intro v i h; simp [objBytes] at h
  | succ n ih =>
    intro v i h
    simp only [objBytes] at h ⊢
    cases i with
    | zero => simp
    | succ i =>
      rw [List.getElem_cons_succ, ih, Nat.pow_succ, Nat.mul_comm (256 ^ i) 256,
        Nat.div_div_eq_div_mul]

theorem objVal_reverse_cons (b : Byte) (l : List Byte) :
    objVal (b :: l).reverse = b.toNat * 256 ^ l.length + objVal l.reverse := by
  rw [List.reverse_cons, objVal_append, List.length_reverse]
  simp only [objVal]
  ring

theorem or_eq_add_of_lt {v b : Nat} (hb : b < 256) : (v <<< 8) ||| b = v * 256 + b := by
  rw [← Nat.shiftLeft_add_eq_or_of_lt (i := 8) (by omega), Nat.shiftLeft_eq]

theorem at'_eq {bs : List Byte} {i : Nat} (h : i < bs.length) : at' bs i = .ok (bs[i]).toNat := by
  rw [at', List.getElem?_eq_getElem h]

theorem limbLoop_eq (bs : List Byte) (n : Nat) : ∀ (i v : Nat), n ≤ 8 → v < 256 ^ (8 - n) →
    i + n ≤ bs.length →
    limbLoop bs n i v = .ok (v * 256 ^ n + objVal ((bs.drop i).take n).reverse) := by
  induction n with
  | zero => intro i v _ _ _; simp [limbLoop, objVal]
  | succ n ih =>
    intro i v hn hv hi
    have hb := (bs[i]'(by omega)).isLt
    have hp : 256 ^ (8 - (n + 1)) * 256 = 256 ^ (8 - n) := by
      rw [← Nat.pow_succ]; congr 1; omega
    have hle : 256 ^ (8 - n) ≤ 2 ^ 64 := by
      rw [show (2 : Nat) ^ 64 = 256 ^ 8 by norm_num]
      exact Nat.pow_le_pow_right (by omega) (by omega)
    have hv3 : v * 256 + (bs[i]'(by omega)).toNat < 256 ^ (8 - n) := by
      rw [← hp]
      generalize 256 ^ (8 - (n + 1)) = A at hv ⊢
      omega
    have hv2 : v * 2 ^ 8 < 2 ^ 64 := by
      calc v * 2 ^ 8 ≤ v * 256 + (bs[i]'(by omega)).toNat := by
            rw [show (2 : Nat) ^ 8 = 256 from rfl]; exact Nat.le_add_right _ _
        _ < 256 ^ (8 - n) := hv3
        _ ≤ 2 ^ 64 := hle
    rw [limbLoop, at'_eq (by omega), Outcome.bind_ok, Nat.shiftLeft_eq,
      Nat.mod_eq_of_lt hv2, ← Nat.shiftLeft_eq, or_eq_add_of_lt hb,
      ih (i + 1) _ (by omega) hv3 (by omega)]
    rw [List.drop_eq_getElem_cons (by omega : i < bs.length), List.take_succ_cons,
      objVal_reverse_cons]
    have hl : ((bs.drop (i + 1)).take n).length = n := by
      rw [List.length_take, List.length_drop]; omega
    rw [hl, Nat.pow_succ]
    congr 1
    ring

/-- Each decoder of a big-endian form, on the bit pattern. -/
def beDecoder : Nat → Option (List Byte → Outcome Nat)
  | 1 => some (decodeLe 1)
  | 2 => some decode16Be
  | 4 => some decode32Be
  | 8 => some decodeU64Be
  | 16 => some decode128Be
  | 32 => some decode256Be
  | _ => none

theorem decode16Be_eq (bs : List Byte) (h : bs.length = 2) :
    decode16Be bs = .ok (objVal bs.reverse) := by
  match bs, h with
  | [a, b], _ =>
    have ha := a.isLt
    have hb := b.isLt
    show Outcome.ok (((a.toNat <<< 8) ||| b.toNat) % 2 ^ 16) = _
    rw [or_eq_add_of_lt hb, Nat.mod_eq_of_lt (by omega)]
    simp only [List.reverse_cons, List.reverse_nil, List.nil_append, List.cons_append, objVal]
    congr 1
    omega

theorem decode32Be_eq (bs : List Byte) (h : bs.length = 4) :
    decode32Be bs = .ok (objVal bs.reverse) := by
  match bs, h with
  | [a, b, c, d], _ =>
    have ha := a.isLt
    have hb := b.isLt
    have hc := c.isLt
    have hd := d.isLt
    show Outcome.ok ((a.toNat <<< 24) ||| (b.toNat <<< 16) ||| (c.toNat <<< 8) ||| d.toNat) = _
    rw [Nat.or_assoc, Nat.or_assoc, or_eq_add_of_lt hd,
      ← Nat.shiftLeft_add_eq_or_of_lt (i := 16) (by omega),
      ← Nat.shiftLeft_add_eq_or_of_lt (i := 24) (by rw [Nat.shiftLeft_eq]; omega),
      Nat.shiftLeft_eq, Nat.shiftLeft_eq]
    simp only [List.reverse_cons, List.reverse_nil, List.nil_append, List.cons_append, objVal]
    congr 1
    omega

theorem decodeU64Be_eq (bs : List Byte) (h : bs.length = 8) :
    decodeU64Be bs = .ok (objVal bs.reverse) := by
  rw [decodeU64Be, limbLoop_eq bs 8 0 0 (by omega) (by norm_num) (by omega), List.drop_zero,
    List.take_of_length_le (by omega)]
  simp

/-- Splitting a big-endian value after `8` bytes. -/
theorem objVal_reverse_split (bs : List Byte) (k : Nat) :
    objVal bs.reverse = objVal (bs.take k).reverse * 256 ^ (bs.drop k).length +
      objVal (bs.drop k).reverse := by
  have e : objVal bs.reverse = objVal (bs.take k ++ bs.drop k).reverse := by
    rw [List.take_append_drop]
  rw [e, List.reverse_append, objVal_append, List.length_reverse]
  ring

theorem decode128Be_eq (bs : List Byte) (h : bs.length = 16) :
    decode128Be bs = .ok (objVal bs.reverse) := by
  rw [decode128Be, limbLoop_eq bs 8 0 0 (by omega) (by norm_num) (by omega), Outcome.bind_ok,
    limbLoop_eq bs 8 8 0 (by omega) (by norm_num) (by omega), Outcome.bind_ok,
    objVal_reverse_split bs 8]
  rw [List.take_of_length_le (l := bs.drop 8) (by rw [List.length_drop]; omega), List.length_drop, h,
    List.drop_zero]
  norm_num

theorem decode256Be_eq (bs : List Byte) (h : bs.length = 32) :
    decode256Be bs = .ok (objVal bs.reverse) := by
  rw [decode256Be, limbLoop_eq bs 8 0 0 (by omega) (by norm_num) (by omega), Outcome.bind_ok,
    limbLoop_eq bs 8 8 0 (by omega) (by norm_num) (by omega), Outcome.bind_ok,
    limbLoop_eq bs 8 16 0 (by omega) (by norm_num) (by omega), Outcome.bind_ok,
    limbLoop_eq bs 8 24 0 (by omega) (by norm_num) (by omega), Outcome.bind_ok,
    objVal_reverse_split bs 8, objVal_reverse_split (bs.drop 8) 8,
    objVal_reverse_split (List.drop 8 (bs.drop 8)) 8]
  simp only [List.drop_drop, List.length_drop, h, List.drop_zero]
  rw [List.take_of_length_le (l := bs.drop 24) (by rw [List.length_drop]; omega)]
  norm_num
  ring

/-- C28 as claimed, on bit patterns, with the signed 64-bit big-endian decoder apart. -/
def C28_statement : Prop :=
  (∀ n v, v < 256 ^ n → (encodeLe n v).length = n ∧ encodeBe n v = (encodeLe n v).reverse ∧
    (∀ (i : Nat) (h : i < (encodeLe n v).length), ((encodeLe n v)[i]).toNat = v / 256 ^ i % 256) ∧
    decodeLe n (encodeLe n v) = .ok v ∧ decodeFloatBe n (encodeBe n v) = .ok v) ∧
  (∀ n dec, beDecoder n = some dec → ∀ v, v < 256 ^ n → dec (encodeBe n v) = .ok v) ∧
  (∀ v, v < 256 ^ 8 → decodeI64Be (encodeBe 8 v) = .ok (signed 8 v))

/-- All encoders and decoders but decode_i64_be: exact bytes, exact value. -/
theorem C28_codecs_partial :
    (∀ n v, v < 256 ^ n → (encodeLe n v).length = n ∧ encodeBe n v = (encodeLe n v).reverse ∧
      (∀ (i : Nat) (h : i < (encodeLe n v).length),
        ((encodeLe n v)[i]).toNat = v / 256 ^ i % 256) ∧
      decodeLe n (encodeLe n v) = .ok v ∧ decodeFloatBe n (encodeBe n v) = .ok v) ∧
    (∀ n dec, beDecoder n = some dec → ∀ v, v < 256 ^ n → dec (encodeBe n v) = .ok v) := by
  constructor
  · intro n v h
    refine ⟨length_objBytes n v, rfl, fun i hi => objBytes_digit n v i hi, ?_, ?_⟩
    · rw [decodeLe, encodeLe, length_objBytes, if_neg (by omega),
        List.take_of_length_le (by rw [length_objBytes]), objVal_objBytes n v h]
    · rw [decodeFloatBe, encodeBe, List.length_reverse, length_objBytes, if_neg (by omega),
        List.take_of_length_le (by rw [List.length_reverse, length_objBytes]), List.reverse_reverse,
        objVal_objBytes n v h]
  · intro n dec hd v hv
    have hl : (encodeBe n v).length = n := by
      rw [encodeBe, List.length_reverse, length_objBytes]
    have hval : objVal (encodeBe n v).reverse = v := by
      rw [encodeBe, List.reverse_reverse, objVal_objBytes n v hv]
    unfold beDecoder at hd
    split at hd
    · cases hd
      rw [decodeLe, if_neg (by omega), List.take_of_length_le (by omega)]
      have : (encodeBe 1 v) = (encodeBe 1 v).reverse := by
        simp [encodeBe, objBytes]
      rw [this, hval]
    · cases hd; rw [decode16Be_eq _ hl, hval]
    · cases hd; rw [decode32Be_eq _ hl, hval]
    · cases hd; rw [decodeU64Be_eq _ hl, hval]
    · cases hd; rw [decode128Be_eq _ hl, hval]
    · cases hd; rw [decode256Be_eq _ hl, hval]
    · simp at hd

theorem i64Loop_eq (bs : List Byte) (n : Nat) : ∀ (i v : Nat), i + n ≤ bs.length →
    v * 256 ^ n + objVal ((bs.drop i).take n).reverse < 2 ^ 63 →
    i64Loop bs n i v = .ok ((v * 256 ^ n + objVal ((bs.drop i).take n).reverse : Nat) : Int) := by
  induction n with
  | zero => intro i v _ _; simp [i64Loop, objVal]
  | succ n ih =>
    intro i v hi hlt
    have hsplit : v * 256 ^ (n + 1) + objVal ((bs.drop i).take (n + 1)).reverse =
        (v * 256 + (bs[i]'(by omega)).toNat) * 256 ^ n +
          objVal ((bs.drop (i + 1)).take n).reverse := by
      rw [List.drop_eq_getElem_cons (by omega : i < bs.length), List.take_succ_cons,
        objVal_reverse_cons]
      have hl : ((bs.drop (i + 1)).take n).length = n := by
        rw [List.length_take, List.length_drop]; omega
      rw [hl, Nat.pow_succ]
      ring
    rw [hsplit] at hlt ⊢
    have hpos : 1 ≤ 256 ^ n := Nat.one_le_pow _ _ (by omega)
    have hv : v * 256 < 2 ^ 63 := by nlinarith
    rw [i64Loop, if_neg (by omega), at'_eq (by omega), Outcome.bind_ok]
    have := ih (i + 1) (v * 256 + (bs[i]'(by omega)).toNat) (by omega) hlt
    rw [← this]
    congr 1

/-- decode_i64_be is right for non-negative numbers. Missing for the full claim: negative numbers,
whose decoding shifts a signed value out of range (`C28_witness`). -/
theorem C28_partial (v : Nat) (h : v < 2 ^ 63) :
    decodeI64Be (encodeBe 8 v) = .ok (signed 8 v) := by
  have hl : (encodeBe 8 v).length = 8 := by rw [encodeBe, List.length_reverse, length_objBytes]
  have hval : objVal (((encodeBe 8 v).drop 0).take 8).reverse = v := by
    rw [List.drop_zero, List.take_of_length_le (by omega), encodeBe, List.reverse_reverse,
      objVal_objBytes 8 v (by norm_num; omega)]
  have := i64Loop_eq (encodeBe 8 v) 8 0 0 (by omega) (by rw [hval]; omega)
  rw [hval] at this
  rw [decodeI64Be, signed, if_pos (by norm_num; omega)]
  simpa using this

/-- Decoding the encoding of -1. -/
theorem C28_witness : decodeI64Be (encodeBe 8 (2 ^ 64 - 1)) = .ub ∧ signed 8 (2 ^ 64 - 1) = -1 := by
  decide +kernel

theorem C28_fails : ¬ C28_statement := by
  intro h
  have := h.2.2 (2 ^ 64 - 1) (by norm_num)
  rw [C28_witness.1] at this
  simp at this

example : encodeBe 2 0x1234 = [0x12, 0x34] ∧ decode16Be [0x12, 0x34] = .ok 0x1234 := by decide

/-! ### C91: short input -/

/-- C91 as claimed: decoding from fewer bytes than the type has is a panic. -/
def C91_statement : Prop :=
  ∀ (n : Nat) (bs : List Byte), bs.length < n → (decodeLe n bs).isPanic = true

/-- Every decoder reads outside the array when it is too short. -/
theorem C91_witness (n : Nat) (bs : List Byte) (h : bs.length < n) : decodeLe n bs = .ub := by
  rw [decodeLe, if_pos h]

theorem C91_be_witness : decode16Be [1] = .ub ∧ decode32Be [1, 2, 3] = .ub ∧
    decodeU64Be [1] = .ub ∧ decode128Be [] = .ub ∧ decode256Be [] = .ub := by decide

theorem C91_fails : ¬ C91_statement := by
  intro h
  have := h 1 [] (by simp)
  rw [C91_witness 1 [] (by simp)] at this
  simp [Outcome.isPanic] at this

/-- With enough bytes the decoders are defined: the first `n` bytes are the value and the rest is
ignored. Missing for the full claim: the check that there are enough. -/
theorem C91_partial (n : Nat) (bs : List Byte) (h : n ≤ bs.length) :
    decodeLe n bs = .ok (objVal (bs.take n)) := by
  rw [decodeLe, if_neg (by omega)]

example : decodeLe 2 [1, 2, 3] = .ok 513 := by decide

end Verif.Props

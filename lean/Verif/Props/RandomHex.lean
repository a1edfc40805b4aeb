import Verif.Model.Crypto
import Mathlib.SetTheory.Cardinal.Finite

/-!
# `crypto.random_hex`

STANDARD.md: `random_hex(length)` gives a string of `length` random hexadecimal digits.  The operating system gives random
bytes.  "Random digits" is put without probabilities: of the possible byte strings of the length read, the same number gives
each string of digits.  This holds for every length that fits in the 32 bits of a string's length; for longer ones the string
returned has a wrong (negative or shorter) length.
-/

namespace Verif.Props

open Crypto Str

namespace Rh

/-- What is read from `/dev/urandom` when it has the bytes `raw` to give, and no other number of bytes. -/
def give {k : Nat} (raw : Fin k → Byte) : Nat → Option Str := fun m => if m = k then some (List.ofFn raw) else none

/-- The ways of choosing `k` bytes so that `random_hex n` is `s`. -/
def Ways (n k : Nat) (s : Str) : Type := {raw : Fin k → Byte // randomHex (give raw) n = .ok ⟨s, n⟩}

def hexDigit (c : Byte) : Prop := c ∈ lit "0123456789abcdef"

theorem toInt32_small {n : Nat} (h : n ≤ 2147483647) : toInt32 n = n := by
  rw [toInt32, BitVec.toInt_eq_toNat_of_lt (by rw [BitVec.toNat_ofNat]; omega), BitVec.toNat_ofNat]
  omega

/-- The digit at a position. -/
def dig {k : Nat} (raw : Fin k → Byte) (i : Nat) : Nat :=
  if i % 2 = 0 then (((List.ofFn raw).getD (i / 2) 0).toNat >>> 4) % 16 else ((List.ofFn raw).getD (i / 2) 0).toNat % 16

theorem run {n k : Nat} (h0 : 0 < n) (hn : n ≤ 2147483647) (hk : k = (n + 1) / 2) (raw : Fin k → Byte) :
    randomHex (give raw) n = .ok ⟨(List.range n).map fun i => hexChars.getD (dig raw i) 0, n⟩ := by
  have e : (((n : Int) + 1) / 2).toNat = k := by omega
  have hp : (2 : Int) ^ 63 = 9223372036854775808 := rfl
  rw [randomHex, if_neg (by omega), if_neg (by omega), if_neg (by omega), e]
  simp only [give, if_pos, Int.toNat_natCast, toInt32_small hn]
  rfl

theorem getD_ofFn {k : Nat} (raw : Fin k → Byte) (i : Nat) (h : i < k) : (List.ofFn raw).getD i 0 = raw ⟨i, h⟩ := by
  simp [List.getD_eq_getElem?_getD, List.getElem?_ofFn, h]

theorem char_idx : ∀ v < 16, hexChars.idxOf (hexChars.getD v 0) = v := by decide

theorem idx_char {c : Byte} (h : c ∈ hexChars) : hexChars.getD (hexChars.idxOf c) 0 = c := by
  rw [List.getD_eq_getElem?_getD, List.getElem?_eq_getElem (List.idxOf_lt_length_of_mem h)]
  simp

theorem idx_lt {c : Byte} (h : c ∈ hexChars) : hexChars.idxOf c < 16 := List.idxOf_lt_length_of_mem h

/-- The digits wanted: those of `s`, and `d` after it. -/
def want (s : Str) (d i : Nat) : Nat := if h : i < s.length then hexChars.idxOf s[i] else d

theorem want_lt {s : Str} (hs : ∀ c ∈ s, hexDigit c) {d : Nat} (hd : d < 16) (i : Nat) : want s d i < 16 := by
  rw [want]
  split
  · exact idx_lt (hs _ (List.getElem_mem _))
  · exact hd

def pack (s : Str) (d k : Nat) (i : Fin k) : Byte := BitVec.ofNat 8 (16 * want s d (2 * i) + want s d (2 * i + 1))

theorem dig_pack {s : Str} (hs : ∀ c ∈ s, hexDigit c) {d : Nat} (hd : d < 16) {k i : Nat} (h : i < 2 * k) :
    dig (pack s d k) i = want s d i := by
  have hi : i / 2 < k := by omega
  have h1 := want_lt hs hd (2 * (i / 2))
  have h2 := want_lt hs hd (2 * (i / 2) + 1)
  rw [dig, getD_ofFn _ _ hi, pack, BitVec.toNat_ofNat, Nat.shiftRight_eq_div_pow]
  by_cases e : i % 2 = 0
  · rw [if_pos e]
    have e' : 2 * (i / 2) = i := by omega
    simp only [e'] at *
    omega
  · rw [if_neg e]
    have e' : 2 * (i / 2) + 1 = i := by omega
    simp only [e'] at *
    omega

theorem raw_eq {k : Nat} {a b : Fin k → Byte} (h : ∀ i < 2 * k, dig a i = dig b i) : a = b := by
  funext i
  have h1 := h (2 * i) (by omega)
  have h2 := h (2 * i + 1) (by omega)
  have e1 : 2 * (i : Nat) / 2 = i := by omega
  have e2 : (2 * (i : Nat) + 1) / 2 = i := by omega
  rw [dig, dig, if_pos (by omega), if_pos (by omega), e1, getD_ofFn _ _ i.2, getD_ofFn _ _ i.2,
    Nat.shiftRight_eq_div_pow, Nat.shiftRight_eq_div_pow] at h1
  rw [dig, dig, if_neg (by omega), if_neg (by omega), e2, getD_ofFn _ _ i.2, getD_ofFn _ _ i.2] at h2
  apply BitVec.eq_of_toNat_eq
  have := (a i).isLt
  have := (b i).isLt
  change ((a i).toNat / 2 ^ 4) % 16 = ((b i).toNat / 2 ^ 4) % 16 at h1
  change (a i).toNat % 16 = (b i).toNat % 16 at h2
  omega

theorem dig_lt {k : Nat} (raw : Fin k → Byte) (i : Nat) : dig raw i < 16 := by
  rw [dig]
  split <;> exact Nat.mod_lt _ (by decide)

/-- The result is `s` when the digits are those of `s`. -/
theorem ways_iff {n k : Nat} (h0 : 0 < n) (hn : n ≤ 2147483647) (hk : k = (n + 1) / 2) {s : Str} (hl : s.length = n)
    (hs : ∀ c ∈ s, hexDigit c) (raw : Fin k → Byte) :
    randomHex (give raw) n = .ok ⟨s, n⟩ ↔ ∀ i < n, dig raw i = want s 0 i := by
  rw [run h0 hn hk]
  constructor
  · intro h i hi
    have h : (List.range n).map (fun i => hexChars.getD (dig raw i) 0) = s := by
      injection h with h
      injection h
    have e : s[i]'(by omega) = hexChars.getD (dig raw i) 0 := by
      subst h
      simp
    rw [want, dif_pos (by omega), e, char_idx _ (dig_lt raw i)]
  · intro h
    have : (List.range n).map (fun i => hexChars.getD (dig raw i) 0) = s := by
      apply List.ext_getElem
      · simp [hl]
      · intro i h1 h2
        have hi : i < n := by simpa using h1
        rw [List.getElem_map, List.getElem_range, h i hi, want, dif_pos (by omega), idx_char (hs _ (List.getElem_mem _))]
    rw [this]

end Rh

open Rh

/-- `random_hex n` has `n` digits, and each string of `n` digits comes from the same number of byte strings. -/
def C143_statement : Prop :=
  ∀ n : Nat, n < 2 ^ 63 → ∀ s : Str, s.length = n → (∀ c ∈ s, hexDigit c) →
    Nat.card (Ways n ((n + 1) / 2) s) = 16 ^ (n % 2)

/-- **C143**, for the lengths a string can have.

Missing: longer strings, for which it is false. -/
theorem C143_partial (n : Nat) (h : n ≤ int32Max) (s : Str) (hl : s.length = n) (hs : ∀ c ∈ s, hexDigit c) :
    Nat.card (Ways n ((n + 1) / 2) s) = 16 ^ (n % 2) := by
  have h : n ≤ 2147483647 := h
  rcases Nat.eq_zero_or_pos n with rfl | h0
  · have : s = [] := List.length_eq_zero_iff.1 hl
    subst this
    have : Unique (Ways 0 ((0 + 1) / 2) []) := ⟨⟨⟨fun i => i.elim0, rfl⟩⟩, fun a => Subtype.ext (funext fun i => i.elim0)⟩
    simp
  · have hp : 16 ^ (n % 2) ≤ 16 := by
      rcases Nat.mod_two_eq_zero_or_one n with e | e <;> simp [e]
    have hd : ∀ d : Fin (16 ^ (n % 2)), d.1 < 16 := fun d => Nat.lt_of_lt_of_le d.2 hp
    have w0 : ∀ d i, i < n → want s d i = want s 0 i := fun d i hi => by rw [want, want, dif_pos (by omega), dif_pos (by omega)]
    let f : Fin (16 ^ (n % 2)) → Ways n ((n + 1) / 2) s := fun d =>
      ⟨pack s d ((n + 1) / 2), (ways_iff h0 h rfl hl hs _).2 fun i hi => by
        rw [dig_pack hs (hd d) (by omega), w0 _ _ hi]⟩
    have hf : Function.Bijective f := by
      constructor
      · intro d e hde
        have hde : pack s d ((n + 1) / 2) = pack s e ((n + 1) / 2) := congrArg Subtype.val hde
        rcases Nat.mod_two_eq_zero_or_one n with hn | hn
        · have e1 : 16 ^ (n % 2) = 1 := by rw [hn]; rfl
          have h1 : d.1 < 1 := Nat.lt_of_lt_of_eq d.2 e1
          have h2 : e.1 < 1 := Nat.lt_of_lt_of_eq e.2 e1
          exact Fin.ext (by omega)
        · have h1 := dig_pack hs (hd d) (k := (n + 1) / 2) (i := n) (by omega)
          have h2 := dig_pack hs (hd e) (k := (n + 1) / 2) (i := n) (by omega)
          rw [hde, h2, want, want, dif_neg (by omega), dif_neg (by omega)] at h1
          exact Fin.ext h1.symm
      · intro ⟨raw, hr⟩
        have hr' := (ways_iff h0 h rfl hl hs raw).1 hr
        rcases Nat.mod_two_eq_zero_or_one n with hn | hn
        · refine ⟨⟨0, by simp [hn]⟩, Subtype.ext (raw_eq fun i hi => ?_)⟩
          rw [dig_pack hs (Nat.zero_lt_succ 15) hi, hr' i (by omega)]
        · refine ⟨⟨dig raw n, by rw [hn]; exact dig_lt raw n⟩, Subtype.ext (raw_eq fun i hi => ?_)⟩
          rw [dig_pack hs (dig_lt raw n) hi]
          by_cases e : i < n
          · rw [hr' i e, w0 _ _ e]
          · rw [show i = n by omega, want, dif_neg (by omega)]
    rw [← Nat.card_eq_of_bijective f hf, Nat.card_fin]

/-- A length of 2^31 gives a string whose length is negative. -/
theorem C143_witness (raw : Fin (2 ^ 30) → Byte) : ∃ r, randomHex (give raw) ((2 ^ 31 : Nat) : Int) = .ok r ∧ r.len = -2 ^ 31 := by
  have e : ((((2 ^ 31 : Nat) : Int) + 1) / 2).toNat = 2 ^ 30 := by decide
  refine ⟨⟨(List.range (2 ^ 31)).map fun i => hexChars.getD (dig raw i) 0, -2 ^ 31⟩, ?_, rfl⟩
  rw [randomHex, if_neg (by decide), if_neg (by decide), if_neg (by decide), e]
  simp only [give, if_pos]
  have e1 : ((2 ^ 31 : Nat) : Int).toNat = 2 ^ 31 := rfl
  have e2 : toInt32 (2 ^ 31) = -2 ^ 31 := by decide
  rw [e1, e2]
  rfl

theorem C143_fails : ¬ C143_statement := by
  intro h
  have h := h (2 ^ 31) (by decide) (List.replicate (2 ^ 31) 48) List.length_replicate
    fun c hc => by rw [List.eq_of_mem_replicate hc, hexDigit]; decide
  have : IsEmpty (Ways (2 ^ 31) (2 ^ 30) (List.replicate (2 ^ 31) 48)) := ⟨fun ⟨raw, hr⟩ => by
    obtain ⟨r, h1, h2⟩ := C143_witness raw
    rw [h1] at hr
    injection hr with hr
    rw [hr] at h2
    exact absurd h2 (by decide)⟩
  have e : Nat.card (Ways (2 ^ 31) ((2 ^ 31 + 1) / 2) (List.replicate (2 ^ 31) 48)) = 0 :=
    @Nat.card_of_isEmpty _ this
  rw [e] at h
  exact absurd h (by decide)

/-- A negative length, and a device that cannot be read, stop the program. -/
theorem C143_panics (urandom : Nat → Option Str) (n : Int) :
    (n < 0 → randomHex urandom n = .panic "P0051") ∧
    (0 < n → n < 2 ^ 63 - 1 → urandom ((n + 1) / 2).toNat = none → randomHex urandom n = .panic "P0052") := by
  refine ⟨fun h => if_pos h, fun h1 h2 h3 => ?_⟩
  rw [randomHex, if_neg (by omega), if_neg (by omega), if_neg (by omega), h3]

example : randomHex (fun _ => some [0x1f, 0xa0]) 3 = .ok ⟨lit "1fa", 3⟩ := by decide

end Verif.Props

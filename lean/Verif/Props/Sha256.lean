import Verif.Model.Crypto
import Mathlib.Analysis.SpecialFunctions.Pow.Real
import Mathlib.NumberTheory.PrimeCounting

/-!
# SHA-256

`crypto.sha256` (STANDARD.md 9.12) against FIPS 180-4: messages are sequences of bits, the constants are the
first bits of the fractional parts of the square and cube roots of the first primes.
-/

namespace Verif.Props
open Verif Verif.Str Verif.Crypto

/-! ## FIPS 180-4 -/

namespace Fips

/-- The bits of a byte, the most significant first (3.1). -/
def byteBits (b : Byte) : List Bool := [7, 6, 5, 4, 3, 2, 1, 0].map fun i => b.getLsbD i

def msgBits (m : Str) : List Bool := m.flatMap byteBits

/-- `v` as `n` bits. -/
def numBits (n v : Nat) : List Bool := (List.range n).map fun i => v.testBit (n - 1 - i)

def value (l : List Bool) : Nat := l.foldl (fun v b => 2 * v + b.toNat) 0

/-- Padding (5.1.1): a one, the least number of zeros that gives length 448 modulo 512, the length. -/
def Padded (m p : List Bool) : Prop :=
  ∃ k, p = m ++ true :: (List.replicate k false ++ numBits 64 m.length) ∧ (m.length + 1 + k) % 512 = 448 ∧
    ∀ k' < k, (m.length + 1 + k') % 512 ≠ 448

/-- `M_j` of block `i` (5.2.1). -/
def M (p : List Bool) (i j : Nat) : BitVec 32 := BitVec.ofNat 32 (value ((p.drop (512 * i + 32 * j)).take 32))

/-- The constants (4.2.2, 5.3.3). -/
noncomputable def K (t : Nat) : BitVec 32 := BitVec.ofNat 32 ⌊2 ^ 32 * (Nat.nth Nat.Prime t : ℝ) ^ (1 / 3 : ℝ)⌋₊
noncomputable def H0 (i : Nat) : BitVec 32 := BitVec.ofNat 32 ⌊2 ^ 32 * √(Nat.nth Nat.Prime i : ℝ)⌋₊

/-- The functions (4.1.2). -/
def Ch (x y z : BitVec 32) := (x &&& y) ^^^ (~~~x &&& z)
def Maj (x y z : BitVec 32) := (x &&& y) ^^^ (x &&& z) ^^^ (y &&& z)
def S0 (x : BitVec 32) := x.rotateRight 2 ^^^ x.rotateRight 13 ^^^ x.rotateRight 22
def S1 (x : BitVec 32) := x.rotateRight 6 ^^^ x.rotateRight 11 ^^^ x.rotateRight 25
def s0 (x : BitVec 32) := x.rotateRight 7 ^^^ x.rotateRight 18 ^^^ x >>> 3
def s1 (x : BitVec 32) := x.rotateRight 17 ^^^ x.rotateRight 19 ^^^ x >>> 10

/-- The message schedule (6.2.2, step 1). -/
def W (m : Nat → BitVec 32) (t : Nat) : BitVec 32 :=
  if t < 16 then m t else s1 (W m (t - 2)) + W m (t - 7) + s0 (W m (t - 15)) + W m (t - 16)
termination_by t

/-- The working variables `a` to `h`, and the hash value. -/
abbrev St := BitVec 32 × BitVec 32 × BitVec 32 × BitVec 32 × BitVec 32 × BitVec 32 × BitVec 32 × BitVec 32

/-- Step 3. -/
noncomputable def step (w : Nat → BitVec 32) : St → Nat → St
  | (a, b, c, d, e, f, g, h), t =>
    let T1 := h + S1 e + Ch e f g + K t + w t
    let T2 := S0 a + Maj a b c
    (T1 + T2, a, b, c, d + T1, e, f, g)

/-- Steps 1 to 4 for block `i`. -/
noncomputable def block (p : List Bool) (s : St) (i : Nat) : St :=
  let r := (List.range 64).foldl (step (W (M p i))) s
  (r.1 + s.1, r.2.1 + s.2.1, r.2.2.1 + s.2.2.1, r.2.2.2.1 + s.2.2.2.1, r.2.2.2.2.1 + s.2.2.2.2.1,
    r.2.2.2.2.2.1 + s.2.2.2.2.2.1, r.2.2.2.2.2.2.1 + s.2.2.2.2.2.2.1, r.2.2.2.2.2.2.2 + s.2.2.2.2.2.2.2)

/-- The message digest, of 256 bits. -/
noncomputable def digest (p : List Bool) : List Bool :=
  let s := (List.range (p.length / 512)).foldl (block p) (H0 0, H0 1, H0 2, H0 3, H0 4, H0 5, H0 6, H0 7)
  ([s.1, s.2.1, s.2.2.1, s.2.2.2.1, s.2.2.2.2.1, s.2.2.2.2.2.1, s.2.2.2.2.2.2.1, s.2.2.2.2.2.2.2].map
    fun x => numBits 32 x.toNat).flatten

/-- In hexadecimal digits: `0` to `9` and `a` to `f` for four bits each. -/
def hexText (l : List Bool) : Str :=
  (List.range (l.length / 4)).map fun i => (lit "0123456789abcdef").getD (value ((l.drop (4 * i)).take 4)) 0

end Fips

/-! ## The constants -/

namespace Sh

def primeB (n : Nat) : Bool := decide (2 ≤ n) && (List.range n).all fun m => decide (m < 2) || n % m != 0

theorem prime_iff (n : Nat) : Nat.Prime n ↔ primeB n = true := by
  rw [Nat.prime_def_lt', primeB, Bool.and_eq_true, decide_eq_true_iff, List.all_eq_true]
  refine and_congr_right fun _ => ⟨fun h m hm => ?_, fun h m h2 hm hd => ?_⟩
  · by_cases h2 : m < 2
    · simp [h2]
    · have := h m (by omega) (List.mem_range.1 hm)
      rw [Nat.dvd_iff_mod_eq_zero] at this
      simp [this]
  · have := h m (List.mem_range.2 hm)
    rw [Nat.dvd_iff_mod_eq_zero] at hd
    simp [hd] at this
    omega

def countB : Nat → Nat
  | 0 => 0
  | n + 1 => countB n + if primeB n then 1 else 0

theorem count_eq (n : Nat) : Nat.count Nat.Prime n = countB n := by
  induction n with
  | zero => rfl
  | succ n ih => rw [Nat.count_succ, ih, countB, if_congr (prime_iff n) rfl rfl]

/-- The first 64 primes. -/
def primes : List Nat :=
  [2, 3, 5, 7, 11, 13, 17, 19, 23, 29, 31, 37, 41, 43, 47, 53, 59, 61, 67, 71, 73, 79, 83, 89, 97, 101, 103, 107, 109,
   113, 127, 131, 137, 139, 149, 151, 157, 163, 167, 173, 179, 181, 191, 193, 197, 199, 211, 223, 227, 229, 233, 239,
   241, 251, 257, 263, 269, 271, 277, 281, 283, 293, 307, 311]

theorem primes_ok : ∀ t < 64, primeB (primes.getD t 0) = true ∧ countB (primes.getD t 0) = t := by decide +kernel

theorem nth_prime (t : Nat) (h : t < 64) : Nat.nth Nat.Prime t = primes.getD t 0 := by
  obtain ⟨h1, h2⟩ := primes_ok t h
  have := Nat.nth_count ((prime_iff _).2 h1)
  rwa [count_eq, h2] at this

theorem floor_of_pow {e : Nat} (he : e ≠ 0) {y : ℝ} (hy : 0 ≤ y) {q n : Nat} (hn : y ^ e = n) (h1 : q ^ e ≤ n)
    (h2 : n < (q + 1) ^ e) : ⌊y⌋₊ = q := by
  rw [Nat.floor_eq_iff hy]
  constructor
  · refine le_of_pow_le_pow_left₀ he hy ?_
    rw [hn]
    exact_mod_cast h1
  · refine lt_of_pow_lt_pow_left₀ e (by positivity) ?_
    rw [hn]
    exact_mod_cast h2

/-- Cube root of `p`, times 2^32, by its cube. -/
theorem cbrt_floor {p q : Nat} (h1 : q ^ 3 ≤ p * 2 ^ 96) (h2 : p * 2 ^ 96 < (q + 1) ^ 3) :
    ⌊2 ^ 32 * (p : ℝ) ^ (1 / 3 : ℝ)⌋₊ = q := by
  refine floor_of_pow (e := 3) (by decide) (by positivity) ?_ h1 h2
  rw [mul_pow, ← Real.rpow_natCast ((p : ℝ) ^ (1 / 3 : ℝ)) 3, ← Real.rpow_mul (by positivity)]
  norm_num
  ring

theorem sqrt_floor {p q : Nat} (h1 : q ^ 2 ≤ p * 2 ^ 64) (h2 : p * 2 ^ 64 < (q + 1) ^ 2) : ⌊2 ^ 32 * √(p : ℝ)⌋₊ = q := by
  refine floor_of_pow (e := 2) (by decide) (by positivity) ?_ h1 h2
  rw [mul_pow, Real.sq_sqrt (by positivity)]
  push_cast
  ring

/-- The integer parts of the cube roots. -/
def whole (p : Nat) : Nat := if p < 8 then 1 else if p < 27 then 2 else if p < 64 then 3 else if p < 125 then 4 else
  if p < 216 then 5 else 6

theorem K_ok : ∀ t < 64,
    (whole (primes.getD t 0) * 2 ^ 32 + (shaK.getD t 0).toNat) ^ 3 ≤ primes.getD t 0 * 2 ^ 96 ∧
    primes.getD t 0 * 2 ^ 96 < (whole (primes.getD t 0) * 2 ^ 32 + (shaK.getD t 0).toNat + 1) ^ 3 := by decide +kernel

theorem low (n : Nat) (x : Word) : BitVec.ofNat 32 (n * 2 ^ 32 + x.toNat) = x := by
  apply BitVec.eq_of_toNat_eq
  rw [BitVec.toNat_ofNat, Nat.mul_add_mod_self_right, Nat.mod_eq_of_lt x.isLt]

theorem K_eq (t : Nat) (h : t < 64) : Fips.K t = shaK.getD t 0 := by
  obtain ⟨h1, h2⟩ := K_ok t h
  rw [Fips.K, nth_prime t h, cbrt_floor h1 h2, low]

def inits : List Word := [shaInit.a, shaInit.b, shaInit.c, shaInit.d, shaInit.e, shaInit.f, shaInit.g, shaInit.h]

theorem H_ok : ∀ t < 8,
    (Nat.sqrt (primes.getD t 0) * 2 ^ 32 + (inits.getD t 0).toNat) ^ 2 ≤ primes.getD t 0 * 2 ^ 64 ∧
    primes.getD t 0 * 2 ^ 64 < (Nat.sqrt (primes.getD t 0) * 2 ^ 32 + (inits.getD t 0).toNat + 1) ^ 2 := by decide +kernel

theorem H_eq (t : Nat) (h : t < 8) : Fips.H0 t = inits.getD t 0 := by
  obtain ⟨h1, h2⟩ := H_ok t h
  rw [Fips.H0, nth_prime t (by omega), sqrt_floor h1 h2, low]

/-! ## The functions -/

theorem rotr_eq (x : Word) (n : Nat) (h : n < 32) : rotr x n = x.rotateRight n := by
  rw [rotr, BitVec.rotateRight_eq_rotateRightAux_of_lt h, BitVec.rotateRightAux]

theorem ep0_eq (x : Word) : ep0 x = Fips.S0 x := by simp only [ep0, Fips.S0, rotr_eq _ _ (by decide : 2 < 32), rotr_eq _ _ (by decide : 13 < 32), rotr_eq _ _ (by decide : 22 < 32)]
theorem ep1_eq (x : Word) : ep1 x = Fips.S1 x := by simp only [ep1, Fips.S1, rotr_eq _ _ (by decide : 6 < 32), rotr_eq _ _ (by decide : 11 < 32), rotr_eq _ _ (by decide : 25 < 32)]
theorem sig0_eq (x : Word) : sig0 x = Fips.s0 x := by simp only [sig0, Fips.s0, rotr_eq _ _ (by decide : 7 < 32), rotr_eq _ _ (by decide : 18 < 32)]
theorem sig1_eq (x : Word) : sig1 x = Fips.s1 x := by simp only [sig1, Fips.s1, rotr_eq _ _ (by decide : 17 < 32), rotr_eq _ _ (by decide : 19 < 32)]

/-! ## The message -/

theorem padded_le (len : Nat) : len + 9 ≤ padded len ∧ padded len ≤ len + 72 ∧ padded len % 64 = 0 := by
  unfold padded
  omega

theorem writes8 (A : Str) (b : Nat → Byte) : writes (A ++ List.replicate 8 0) ((List.range 8).map fun i => (A.length + 8 - 1 - i, b i)) =
    A ++ [b 7, b 6, b 5, b 4, b 3, b 2, b 1, b 0] := by
  have h : ∀ (B : Str) (i : Nat) (x : Byte), i < 8 → (A ++ B).set (A.length + 8 - 1 - i) x = A ++ B.set (7 - i) x := by
    intro B i x hi
    rw [List.set_append_right _ _ (by omega), show A.length + 8 - 1 - i - A.length = 7 - i by omega]
  show List.foldl _ _ [_, _, _, _, _, _, _, _] = _
  simp only [List.foldl]
  rw [h _ 0 _ (by decide), h _ 1 _ (by decide), h _ 2 _ (by decide), h _ 3 _ (by decide), h _ 4 _ (by decide),
    h _ 5 _ (by decide), h _ 6 _ (by decide), h _ 7 _ (by decide)]
  rfl

/-- The length in bits, as eight bytes. -/
def lenBytes (len : Nat) : Str := [7, 6, 5, 4, 3, 2, 1, 0].map fun i => BitVec.ofNat 8 ((len * 8) >>> (i * 8))

theorem shaMsg_eq (data : Str) :
    shaMsg data = data ++ 0x80 :: (List.replicate (padded data.length - data.length - 9) 0 ++ lenBytes data.length) := by
  have hp := padded_le data.length
  have h1 : List.replicate (padded data.length - data.length - 1) (0 : Byte) =
      List.replicate (padded data.length - data.length - 9) 0 ++ List.replicate 8 0 := by
    rw [← List.replicate_add]
    congr 1
    omega
  have h2 : padded data.length = (data ++ 0x80 :: List.replicate (padded data.length - data.length - 9) (0 : Byte)).length + 8 := by
    simp
    omega
  have := writes8 (data ++ 0x80 :: List.replicate (padded data.length - data.length - 9) (0 : Byte))
    (fun i => BitVec.ofNat 8 ((data.length * 8) >>> (i * 8)))
  rw [← h2] at this
  rw [shaMsg, h1, show data ++ (0x80 : Byte) :: (List.replicate (padded data.length - data.length - 9) 0 ++ List.replicate 8 0) =
    data ++ 0x80 :: List.replicate (padded data.length - data.length - 9) (0 : Byte) ++ List.replicate 8 0 by simp, this]
  simp [lenBytes]

theorem shaMsg_length (data : Str) : (shaMsg data).length = padded data.length := by
  have hp := padded_le data.length
  rw [shaMsg_eq]
  simp [lenBytes]
  omega

theorem msgBits_append (a b : Str) : Fips.msgBits (a ++ b) = Fips.msgBits a ++ Fips.msgBits b := List.flatMap_append

theorem msgBits_cons (a : Byte) (b : Str) : Fips.msgBits (a :: b) = Fips.byteBits a ++ Fips.msgBits b := rfl

theorem msgBits_length (m : Str) : (Fips.msgBits m).length = 8 * m.length := by
  induction m with
  | nil => rfl
  | cons a m ih =>
    rw [msgBits_cons, List.length_append, ih, List.length_cons]
    show 8 + _ = _
    omega

theorem msgBits_zeros (n : Nat) : Fips.msgBits (List.replicate n 0) = List.replicate (8 * n) false := by
  induction n with
  | zero => rfl
  | succ n ih =>
    rw [List.replicate_succ, msgBits_cons, ih, show Fips.byteBits 0 = List.replicate 8 false by decide, ← List.replicate_add]
    congr 1
    omega

theorem byte_bit (v i j : Nat) (hj : j < 8) : (BitVec.ofNat 8 (v >>> i)).getLsbD j = v.testBit (i + j) := by
  rw [BitVec.getLsbD_ofNat, Nat.testBit_shiftRight]
  simp [hj]

theorem lenBits (len : Nat) : Fips.msgBits (lenBytes len) = Fips.numBits 64 (8 * len) := by
  rw [Nat.mul_comm 8]
  have h : ∀ i, Fips.byteBits (BitVec.ofNat 8 ((len * 8) >>> i)) =
      [7, 6, 5, 4, 3, 2, 1, 0].map fun j => (len * 8).testBit (i + j) := by
    intro i
    simp only [Fips.byteBits, List.map]
    simp only [byte_bit _ _ _ (show 7 < 8 by decide), byte_bit _ _ _ (show 6 < 8 by decide), byte_bit _ _ _ (show 5 < 8 by decide),
      byte_bit _ _ _ (show 4 < 8 by decide), byte_bit _ _ _ (show 3 < 8 by decide), byte_bit _ _ _ (show 2 < 8 by decide),
      byte_bit _ _ _ (show 1 < 8 by decide), byte_bit _ _ _ (show 0 < 8 by decide)]
  simp only [Fips.msgBits, lenBytes, List.map, List.flatMap_cons, List.flatMap_nil, h]
  rfl

/-- Padding has a unique result. -/
theorem padded_unique {m p q : List Bool} (hp : Fips.Padded m p) (hq : Fips.Padded m q) : p = q := by
  obtain ⟨k, rfl, h1, h2⟩ := hp
  obtain ⟨l, rfl, h3, h4⟩ := hq
  have : k = l := by
    rcases Nat.lt_trichotomy k l with h | h | h
    · exact absurd h1 (h4 k h)
    · exact h
    · exact absurd h3 (h2 l h)
  rw [this]

theorem shaMsg_padded (data : Str) : Fips.Padded (Fips.msgBits data) (Fips.msgBits (shaMsg data)) := by
  have hp := padded_le data.length
  refine ⟨7 + 8 * (padded data.length - data.length - 9), ?_, ?_, ?_⟩
  · rw [shaMsg_eq, msgBits_append, msgBits_cons, msgBits_append, msgBits_zeros, lenBits, msgBits_length,
      show Fips.byteBits 0x80 = true :: List.replicate 7 false by decide, List.replicate_add]
    simp
  · rw [msgBits_length]
    omega
  · intro k hk
    rw [msgBits_length]
    omega

/-! ## The words -/

theorem value_append (a b : List Bool) : Fips.value (a ++ b) = Fips.value a * 2 ^ b.length + Fips.value b := by
  have key : ∀ (b : List Bool) (v : Nat), b.foldl (fun v b => 2 * v + b.toNat) v = v * 2 ^ b.length + Fips.value b := by
    intro b
    induction b with
    | nil => intro v; simp [Fips.value]
    | cons x b ih =>
      intro v
      have h1 := ih (2 * v + x.toNat)
      have h2 := ih (2 * 0 + x.toNat)
      have e : Fips.value (x :: b) = b.foldl (fun v b => 2 * v + b.toNat) (2 * 0 + x.toNat) := rfl
      rw [List.foldl_cons, h1, e, h2, List.length_cons]
      ring
  rw [Fips.value, List.foldl_append, key]
  rfl

theorem value_byte : ∀ b : Byte, Fips.value (Fips.byteBits b) = b.toNat := by
  have : ∀ n : Fin 256, Fips.value (Fips.byteBits (BitVec.ofFin n)) = (BitVec.ofFin n : Byte).toNat := by decide +kernel
  exact fun b => this b.toFin

theorem msgBits_drop (m : Str) (n : Nat) : (Fips.msgBits m).drop (8 * n) = Fips.msgBits (m.drop n) := by
  induction n generalizing m with
  | zero => rfl
  | succ n ih =>
    cases m with
    | nil => simp [Fips.msgBits]
    | cons a m =>
      rw [msgBits_cons, List.drop_succ_cons, ← ih, show 8 * (n + 1) = (Fips.byteBits a).length + 8 * n by
        rw [show (Fips.byteBits a).length = 8 from rfl]; omega, List.drop_append]
      simp

theorem msgBits_take (m : Str) (n : Nat) : (Fips.msgBits m).take (8 * n) = Fips.msgBits (m.take n) := by
  induction n generalizing m with
  | zero => rfl
  | succ n ih =>
    cases m with
    | nil => simp [Fips.msgBits]
    | cons a m =>
      rw [msgBits_cons, List.take_succ_cons, msgBits_cons, ← ih, show 8 * (n + 1) = (Fips.byteBits a).length + 8 * n by
        rw [show (Fips.byteBits a).length = 8 from rfl]; omega, List.take_append]
      simp

theorem four {m : Str} {n : Nat} (h : n + 4 ≤ m.length) :
    (m.drop n).take 4 = [m.getD n 0, m.getD (n + 1) 0, m.getD (n + 2) 0, m.getD (n + 3) 0] := by
  apply List.ext_getElem
  · simp
    omega
  · intro i h1 h2
    simp only [List.getElem_take, List.getElem_drop]
    have hi : i < 4 := by simpa using h2
    match i, hi with
    | 0, _ => simp [List.getD_eq_getElem?_getD, List.getElem?_eq_getElem (show n < m.length by omega)]
    | 1, _ => simp [List.getD_eq_getElem?_getD, List.getElem?_eq_getElem (show n + 1 < m.length by omega)]
    | 2, _ => simp [List.getD_eq_getElem?_getD, List.getElem?_eq_getElem (show n + 2 < m.length by omega)]
    | 3, _ => simp [List.getD_eq_getElem?_getD, List.getElem?_eq_getElem (show n + 3 < m.length by omega)]

theorem or4 (a b c d : Byte) :
    (a.setWidth 32 <<< 24 ||| b.setWidth 32 <<< 16 ||| c.setWidth 32 <<< 8 ||| d.setWidth 32 : Word) =
      BitVec.ofNat 32 (((a.toNat * 2 ^ 8 + b.toNat) * 2 ^ 8 + c.toNat) * 2 ^ 8 + d.toNat) := by
  apply BitVec.eq_of_toNat_eq
  have ha := a.isLt
  have hb := b.isLt
  have hc := c.isLt
  have hd := d.isLt
  simp only [BitVec.toNat_or, BitVec.toNat_shiftLeft, BitVec.toNat_setWidth, BitVec.toNat_ofNat, Nat.shiftLeft_eq]
  rw [Nat.mod_eq_of_lt (show a.toNat < 2 ^ 32 by omega), Nat.mod_eq_of_lt (show b.toNat < 2 ^ 32 by omega),
    Nat.mod_eq_of_lt (show c.toNat < 2 ^ 32 by omega), Nat.mod_eq_of_lt (show d.toNat < 2 ^ 32 by omega),
    Nat.mod_eq_of_lt (show a.toNat * 2 ^ 24 < 2 ^ 32 by omega), Nat.mod_eq_of_lt (show b.toNat * 2 ^ 16 < 2 ^ 32 by omega),
    Nat.mod_eq_of_lt (show c.toNat * 2 ^ 8 < 2 ^ 32 by omega)]
  have e1 : a.toNat * 2 ^ 24 ||| b.toNat * 2 ^ 16 = 2 ^ 16 * (a.toNat * 2 ^ 8 + b.toNat) := by
    rw [Nat.mul_comm _ (2 ^ 24), ← Nat.two_pow_add_eq_or_of_lt (show b.toNat * 2 ^ 16 < 2 ^ 24 by omega)]
    omega
  have e2 : 2 ^ 16 * (a.toNat * 2 ^ 8 + b.toNat) ||| c.toNat * 2 ^ 8 = 2 ^ 8 * ((a.toNat * 2 ^ 8 + b.toNat) * 2 ^ 8 + c.toNat) := by
    rw [← Nat.two_pow_add_eq_or_of_lt (show c.toNat * 2 ^ 8 < 2 ^ 16 by omega)]
    omega
  rw [e1, e2, ← Nat.two_pow_add_eq_or_of_lt (show d.toNat < 2 ^ 8 by omega)]
  omega

theorem value_four (a b c d : Byte) : Fips.value (Fips.msgBits [a, b, c, d]) =
    ((a.toNat * 2 ^ 8 + b.toNat) * 2 ^ 8 + c.toNat) * 2 ^ 8 + d.toNat := by
  rw [show Fips.msgBits [a, b, c, d] = ((Fips.byteBits a ++ Fips.byteBits b) ++ Fips.byteBits c) ++ Fips.byteBits d by
    simp [Fips.msgBits], value_append, value_append, value_append, value_byte, value_byte, value_byte, value_byte]
  rfl

theorem M_eq {m : Str} {i j : Nat} (h : 64 * i + 4 * j + 4 ≤ m.length) :
    Fips.M (Fips.msgBits m) i j = (byteAt m (i * 64 + j * 4) <<< 24 ||| byteAt m (i * 64 + j * 4 + 1) <<< 16 |||
      byteAt m (i * 64 + j * 4 + 2) <<< 8 ||| byteAt m (i * 64 + j * 4 + 3) : Word) := by
  rw [Fips.M, show 512 * i + 32 * j = 8 * (i * 64 + j * 4) by omega, msgBits_drop,
    show (Fips.msgBits (m.drop (i * 64 + j * 4))).take 32 = _ from msgBits_take _ 4, four (by omega), value_four]
  exact (or4 _ _ _ _).symm

theorem first_get {m : Str} {i t : Nat} (h : 64 * i + 64 ≤ m.length) (ht : t < 16) :
    (shaFirst m (i * 64)).getD t 0 = Fips.W (Fips.M (Fips.msgBits m) i) t := by
  rw [Fips.W, if_pos ht, M_eq (by omega), shaFirst, List.getD_eq_getElem?_getD, List.getElem?_map, List.getElem?_range ht]
  rfl

theorem words_get {m : Str} {i : Nat} (h : 64 * i + 64 ≤ m.length) : ∀ n,
    ((List.range' 16 n).foldl shaNext (shaFirst m (i * 64))).length = 16 + n ∧
    ∀ t < 16 + n, ((List.range' 16 n).foldl shaNext (shaFirst m (i * 64))).getD t 0 = Fips.W (Fips.M (Fips.msgBits m) i) t
  | 0 => ⟨by simp [shaFirst], fun t ht => first_get h ht⟩
  | n + 1 => by
    obtain ⟨h1, h2⟩ := words_get h n
    rw [List.range'_1_concat, List.foldl_append, List.foldl_cons, List.foldl_nil]
    generalize (List.range' 16 n).foldl shaNext (shaFirst m (i * 64)) = w at h1 h2
    refine ⟨by simp [shaNext, h1]; omega, fun t ht => ?_⟩
    by_cases hlt : t < 16 + n
    · rw [← h2 t hlt, shaNext, List.getD_append _ _ _ _ (by omega)]
    · have : t = 16 + n := by omega
      subst this
      rw [shaNext, List.getD_append_right _ _ _ _ (by omega), h1, Nat.sub_self]
      rw [Fips.W, if_neg (by omega), ← h2 _ (by omega), ← h2 _ (by omega), ← h2 _ (by omega), ← h2 _ (by omega), sig1_eq, sig0_eq]
      rfl

/-! ## The rounds -/

def conv (s : Sha) : Fips.St := (s.a, s.b, s.c, s.d, s.e, s.f, s.g, s.h)

theorem round_eq {w : List Word} {v : Nat → Word} {t : Nat} (hw : w.getD t 0 = v t) (ht : t < 64) (s : Sha) :
    conv (shaRound w s t) = Fips.step v (conv s) t := by
  simp only [conv, shaRound, Fips.step, ep0_eq, ep1_eq, hw, K_eq t ht]
  rfl

theorem rounds_eq {w : List Word} {v : Nat → Word} (hw : ∀ t < 64, w.getD t 0 = v t) : ∀ (l : List Nat) (s : Sha), (∀ t ∈ l, t < 64) →
    conv (l.foldl (shaRound w) s) = l.foldl (Fips.step v) (conv s)
  | [], _, _ => rfl
  | t :: l, s, h => by
    rw [List.foldl_cons, List.foldl_cons, rounds_eq hw l _ fun x hx => h x (by simp [hx]), round_eq (hw t (h t (by simp))) (h t (by simp))]

theorem block_eq {m : Str} {i : Nat} (h : 64 * i + 64 ≤ m.length) (s : Sha) :
    conv (shaBlock m s (i * 64)) = Fips.block (Fips.msgBits m) (conv s) i := by
  have := rounds_eq (fun t ht => (words_get h 48).2 t ht) (List.range 64) s fun t ht => List.mem_range.1 ht
  rw [Fips.block, ← this, shaBlock, shaWords]
  simp only [conv, BitVec.add_comm]

theorem blocks_eq {m : Str} : ∀ (l : List Nat) (s : Sha), (∀ i ∈ l, 64 * i + 64 ≤ m.length) →
    conv ((l.map (· * 64)).foldl (shaBlock m) s) = l.foldl (Fips.block (Fips.msgBits m)) (conv s)
  | [], _, _ => rfl
  | i :: l, s, h => by
    rw [List.map_cons, List.foldl_cons, List.foldl_cons, blocks_eq l _ fun x hx => h x (by simp [hx]), block_eq (h i (by simp))]

/-! ## The digits -/

theorem hexText_append4 (a b : List Bool) (n : Nat) (h : a.length = 4 * n) : Fips.hexText (a ++ b) = Fips.hexText a ++ Fips.hexText b := by
  rw [Fips.hexText, List.length_append, h, show (4 * n + b.length) / 4 = n + b.length / 4 by omega, List.range_add, List.map_append,
    List.map_map]
  congr 1
  · rw [Fips.hexText, h, show 4 * n / 4 = n by omega]
    apply List.map_congr_left
    intro i hi
    have hi := List.mem_range.1 hi
    rw [List.drop_append_of_le_length (by omega), List.take_append_of_le_length (by rw [List.length_drop]; omega)]
  · rw [Fips.hexText]
    apply List.map_congr_left
    intro i _
    simp only [Function.comp]
    rw [show 4 * (n + i) = a.length + 4 * i by omega, ← List.drop_drop, List.drop_left]

theorem digit_eq : ∀ n : Fin 16, (lit "0123456789abcdef").getD n.val 0 = lowerHex n.val := by decide

theorem value_nibble (v n : Nat) : Fips.value [v.testBit (n + 3), v.testBit (n + 2), v.testBit (n + 1), v.testBit n] = (v >>> n) % 16 := by
  have h : ∀ k, (v.testBit (n + k)).toNat = (v >>> n) / 2 ^ k % 2 := by
    intro k
    rw [← Nat.testBit_shiftRight, Nat.toNat_testBit]
  have h0 := h 0
  have h1 := h 1
  have h2 := h 2
  have h3 := h 3
  simp only [Nat.add_zero, Nat.pow_zero, Nat.div_one] at h0
  simp only [Fips.value, List.foldl, h1, h2, h3, h0]
  omega

theorem hex8_eq (x : Word) : Fips.hexText (Fips.numBits 32 x.toNat) = hex8 x := by
  have d : ∀ n, lowerHex ((x.toNat >>> n) % 16) = (lit "0123456789abcdef").getD (Fips.value
      [x.toNat.testBit (n + 3), x.toNat.testBit (n + 2), x.toNat.testBit (n + 1), x.toNat.testBit n]) 0 := fun n => by
    rw [value_nibble]
    exact (digit_eq ⟨_, Nat.mod_lt _ (by decide)⟩).symm
  have hl : (Fips.numBits 32 x.toNat).length / 4 = 8 := by simp [Fips.numBits]
  rw [Fips.hexText, hl]
  simp only [hex8, List.map, d]
  rfl

end Sh

open Sh

/-- **C141**: `crypto.sha256` of any string is the SHA-256 digest of its bytes, as 64 hexadecimal digits. -/
theorem C141_sha256 (data : Str) (p : List Bool) (hp : Fips.Padded (Fips.msgBits data) p) :
    sha256 data = Fips.hexText (Fips.digest p) := by
  cases padded_unique hp (shaMsg_padded data)
  have hl := shaMsg_length data
  have hpd := padded_le data.length
  have hb := blocks_eq (m := shaMsg data) (List.range (padded data.length / 64)) shaInit fun i hi => by
    have := List.mem_range.1 hi
    omega
  have h0 : conv shaInit = (Fips.H0 0, Fips.H0 1, Fips.H0 2, Fips.H0 3, Fips.H0 4, Fips.H0 5, Fips.H0 6, Fips.H0 7) := by
    rw [H_eq 0 (by decide), H_eq 1 (by decide), H_eq 2 (by decide), H_eq 3 (by decide), H_eq 4 (by decide), H_eq 5 (by decide),
      H_eq 6 (by decide), H_eq 7 (by decide)]
    rfl
  rw [h0] at hb
  rw [Fips.digest, msgBits_length, hl, show 8 * padded data.length / 512 = padded data.length / 64 by omega, ← hb]
  have hn : ∀ x : Word, (Fips.numBits 32 x.toNat).length = 4 * 8 := fun x => by simp [Fips.numBits]
  simp only [conv, List.map, List.flatten_cons, List.flatten_nil, List.append_nil]
  rw [hexText_append4 _ _ 8 (hn _), hexText_append4 _ _ 8 (hn _), hexText_append4 _ _ 8 (hn _), hexText_append4 _ _ 8 (hn _),
    hexText_append4 _ _ 8 (hn _), hexText_append4 _ _ 8 (hn _), hexText_append4 _ _ 8 (hn _)]
  simp only [hex8_eq, sha256, List.append_assoc]

/-- Every message has a padding. -/
theorem C141_padded (data : Str) : ∃ p, Fips.Padded (Fips.msgBits data) p ∧ p.length % 512 = 0 ∧ 512 ≤ p.length := by
  refine ⟨_, shaMsg_padded data, ?_, ?_⟩ <;>
  · rw [msgBits_length, shaMsg_length]
    have := padded_le data.length
    omega

/-- FIPS 180-4's example. -/
example : sha256 (lit "abc") = lit "ba7816bf8f01cfea414140de5dae2223b00361a396177a9cb410ff61f20015ad" := by decide +kernel

end Verif.Props

import Verif.Props.Sha256
import Mathlib.Analysis.Complex.Trigonometric

/-!
# MD5

`crypto.md5` (STANDARD.md 9.12) against RFC 1321, whose table is the integer part of 2^32 |sin i|.
-/

namespace Verif.Props
open Verif Verif.Str Verif.Crypto

/-! ## RFC 1321 -/

namespace Rfc1321

/-- The low-order byte first (2). -/
def bytesLE (n v : Nat) : Str := (List.range n).map fun i => BitVec.ofNat 8 (v / 256 ^ i)

/-- Four bytes as a word, the low-order byte first; in a byte the high-order bit comes first. -/
def wordLE (l : List Bool) : BitVec 32 :=
  BitVec.ofNat 32 (Fips.value (l.take 8) + 2 ^ 8 * Fips.value ((l.drop 8).take 8) + 2 ^ 16 * Fips.value ((l.drop 16).take 8) +
    2 ^ 24 * Fips.value ((l.drop 24).take 8))

/-- Padding bits and length (3.1, 3.2). -/
def Padded (m p : List Bool) : Prop :=
  ∃ k, p = m ++ true :: (List.replicate k false ++ Fips.msgBits (bytesLE 8 (m.length % 2 ^ 64))) ∧
    (m.length + 1 + k) % 512 = 448 ∧ ∀ k' < k, (m.length + 1 + k') % 512 ≠ 448

/-- `X[k]` in block `i` (3.4). -/
def X (p : List Bool) (i k : Nat) : BitVec 32 := wordLE ((p.drop (512 * i + 32 * k)).take 32)

noncomputable def T (i : Nat) : BitVec 32 := BitVec.ofNat 32 ⌊4294967296 * |Real.sin i|⌋₊

def F (x y z : BitVec 32) := (x &&& y) ||| (~~~x &&& z)
def G (x y z : BitVec 32) := (x &&& z) ||| (y &&& ~~~z)
def H (x y z : BitVec 32) := x ^^^ y ^^^ z
def I (x y z : BitVec 32) := y ^^^ (x ||| ~~~z)

abbrev Regs := BitVec 32 × BitVec 32 × BitVec 32 × BitVec 32

/-- `[ABCD k1 s1 i] [DABC k2 s2 i+1] [CDAB k3 s3 i+2] [BCDA k4 s4 i+3]`. -/
def row (T X : Nat → BitVec 32) (f : BitVec 32 → BitVec 32 → BitVec 32 → BitVec 32) (k1 k2 k3 k4 s1 s2 s3 s4 i : Nat) : Regs → Regs
  | (a, b, c, d) =>
    let a := b + (a + f b c d + X k1 + T i).rotateLeft s1
    let d := a + (d + f a b c + X k2 + T (i + 1)).rotateLeft s2
    let c := d + (c + f d a b + X k3 + T (i + 2)).rotateLeft s3
    let b := c + (b + f c d a + X k4 + T (i + 3)).rotateLeft s4
    (a, b, c, d)

/-- The four rounds. -/
def rows (T X : Nat → BitVec 32) : List (Regs → Regs) :=
  [row T X F 0 1 2 3 7 12 17 22 1, row T X F 4 5 6 7 7 12 17 22 5,
   row T X F 8 9 10 11 7 12 17 22 9, row T X F 12 13 14 15 7 12 17 22 13,
   row T X G 1 6 11 0 5 9 14 20 17, row T X G 5 10 15 4 5 9 14 20 21,
   row T X G 9 14 3 8 5 9 14 20 25, row T X G 13 2 7 12 5 9 14 20 29,
   row T X H 5 8 11 14 4 11 16 23 33, row T X H 1 4 7 10 4 11 16 23 37,
   row T X H 13 0 3 6 4 11 16 23 41, row T X H 9 12 15 2 4 11 16 23 45,
   row T X I 0 7 14 5 6 10 15 21 49, row T X I 12 3 10 1 6 10 15 21 53,
   row T X I 8 15 6 13 6 10 15 21 57, row T X I 4 11 2 9 6 10 15 21 61]

noncomputable def block (p : List Bool) (r : Regs) (i : Nat) : Regs :=
  let q := (rows T (X p i)).foldl (fun r f => f r) r
  (r.1 + q.1, r.2.1 + q.2.1, r.2.2.1 + q.2.2.1, r.2.2.2 + q.2.2.2)

/-- The registers at the begin (3.3), given as bytes. -/
def init : Regs :=
  (wordLE (Fips.msgBits [0x01, 0x23, 0x45, 0x67]), wordLE (Fips.msgBits [0x89, 0xab, 0xcd, 0xef]),
   wordLE (Fips.msgBits [0xfe, 0xdc, 0xba, 0x98]), wordLE (Fips.msgBits [0x76, 0x54, 0x32, 0x10]))

/-- The low-order byte of A first, the high-order byte of D last (3.5). -/
noncomputable def digest (p : List Bool) : List Bool :=
  let r := (List.range (p.length / 512)).foldl (block p) init
  Fips.msgBits (bytesLE 4 r.1.toNat ++ bytesLE 4 r.2.1.toNat ++ bytesLE 4 r.2.2.1.toNat ++ bytesLE 4 r.2.2.2.toNat)

end Rfc1321

namespace Md

open Finset in
theorem sum_im (x : Nat) : ∀ N, (∑ m ∈ range (2 * N), ((x : ℂ) * Complex.I) ^ m / m.factorial).im =
    ∑ k ∈ range N, (-1 : ℝ) ^ k * x ^ (2 * k + 1) / (2 * k + 1).factorial
  | 0 => by simp
  | N + 1 => by
    have e : ((x : ℂ) * Complex.I) ^ (2 * N) = (((x : ℝ) ^ (2 * N) * (-1) ^ N : ℝ) : ℂ) := by
      rw [mul_pow, pow_mul Complex.I, Complex.I_sq]
      push_cast
      ring
    have e1 : (((x : ℂ) * Complex.I) ^ (2 * N) / ((2 * N).factorial : ℂ)).im = 0 := by
      rw [e, ← Complex.ofReal_natCast, ← Complex.ofReal_div]
      exact Complex.ofReal_im _
    have e2 : (((x : ℂ) * Complex.I) ^ (2 * N + 1) / ((2 * N + 1).factorial : ℂ)).im =
        (-1 : ℝ) ^ N * x ^ (2 * N + 1) / (2 * N + 1).factorial := by
      rw [pow_succ, e, show (((x : ℝ) ^ (2 * N) * (-1) ^ N : ℝ) : ℂ) * ((x : ℂ) * Complex.I) / ((2 * N + 1).factorial : ℂ) =
        (((-1 : ℝ) ^ N * x ^ (2 * N + 1) / (2 * N + 1).factorial : ℝ) : ℂ) * Complex.I by push_cast; ring,
        Complex.mul_I_im, Complex.ofReal_re]
    rw [show 2 * (N + 1) = 2 * N + 1 + 1 by ring, sum_range_succ, sum_range_succ, sum_range_succ, Complex.add_im, Complex.add_im,
      sum_im x N, e1, e2, add_zero]

open Finset in
/-- Taylor's polynomial of the sine. -/
theorem sin_taylor (x N : Nat) (h : 2 * x ≤ 2 * N + 1) :
    |Real.sin x - ∑ k ∈ range N, (-1 : ℝ) ^ k * x ^ (2 * k + 1) / (2 * k + 1).factorial| ≤ x ^ (2 * N) / (2 * N).factorial * 2 := by
  have hb := Complex.exp_bound' (x := (x : ℂ) * Complex.I) (n := 2 * N) (by
    rw [norm_mul, Complex.norm_I, mul_one, Complex.norm_natCast]
    rw [div_le_div_iff₀ (by positivity) (by norm_num)]
    push_cast
    have : (2 * x : ℝ) ≤ 2 * N + 1 := by exact_mod_cast h
    linarith)
  rw [norm_mul, Complex.norm_I, mul_one, Complex.norm_natCast] at hb
  refine le_trans ?_ hb
  have h1 : (Complex.exp ((x : ℂ) * Complex.I)).im = Real.sin x := by
    have := Complex.exp_ofReal_mul_I_im (x : ℝ)
    push_cast at this
    exact this
  rw [← h1, ← sum_im, ← Complex.sub_im]
  exact Complex.abs_im_le_norm _

/-- Sum and power, as integers. -/
def go (x : Nat) : Nat → Int × Int
  | 0 => (0, x)
  | k + 1 =>
    match go x k with
    | (s, w) => (s * ((2 * k) * (2 * k + 1)) + w, -(w * (x * x)))

theorem go_succ (x k : Nat) : go x (k + 1) = ((go x k).1 * ((2 * k) * (2 * k + 1)) + (go x k).2, -((go x k).2 * (x * x))) := rfl

open Finset in
theorem go_eq (x : Nat) : ∀ N, ((go x N).2 : ℝ) = (-1) ^ N * x ^ (2 * N + 1) ∧
    ((go x (N + 1)).1 : ℝ) = (2 * N + 1).factorial * ∑ k ∈ range (N + 1), (-1 : ℝ) ^ k * x ^ (2 * k + 1) / (2 * k + 1).factorial
  | 0 => by simp [go]
  | N + 1 => by
    obtain ⟨h1, h2⟩ := go_eq x N
    have h3 : ((go x (N + 1)).2 : ℝ) = (-1) ^ (N + 1) * x ^ (2 * (N + 1) + 1) := by
      rw [go_succ]
      push_cast
      rw [h1]
      ring
    refine ⟨h3, ?_⟩
    have hf : ((2 * (N + 1) + 1).factorial : ℝ) = (2 * (N + 1) + 1) * (2 * (N + 1)) * (2 * N + 1).factorial := by
      rw [show 2 * (N + 1) + 1 = (2 * N + 1) + 1 + 1 by ring, Nat.factorial_succ, Nat.factorial_succ]
      push_cast
      ring
    have hne : ((2 * (N + 1) + 1).factorial : ℝ) ≠ 0 := by positivity
    rw [sum_range_succ, mul_add, mul_div_cancel₀ _ hne, go_succ]
    push_cast
    rw [h2, h3, hf]
    push_cast
    ring

def sgn (b : Bool) : Int := if b then -1 else 1

/-- What is to be computed for the table. -/
def entryOk (N x : Nat) (neg : Bool) (q : Nat) : Bool :=
  decide (0 < sgn neg * ((go x (N + 1)).1 * (2 * N + 2)) ∧
    (q * (2 * (N + 1)).factorial + 2 ^ 33 * x ^ (2 * (N + 1)) : Int) ≤ 2 ^ 32 * (sgn neg * ((go x (N + 1)).1 * (2 * N + 2))) ∧
    (2 ^ 32 * (sgn neg * ((go x (N + 1)).1 * (2 * N + 2))) + 2 ^ 33 * x ^ (2 * (N + 1)) : Int) < (q + 1) * (2 * (N + 1)).factorial)

theorem entry {N x : Nat} {neg : Bool} {q : Nat} (h : entryOk N x neg q = true) (hx : 2 * x ≤ 2 * N + 3) :
    ⌊4294967296 * |Real.sin x|⌋₊ = q := by
  obtain ⟨h0, h1, h2⟩ := of_decide_eq_true h
  have ht := sin_taylor x (N + 1) (by omega)
  have hg := (go_eq x N).2
  generalize ∑ k ∈ Finset.range (N + 1), (-1 : ℝ) ^ k * x ^ (2 * k + 1) / (2 * k + 1).factorial = S at ht hg
  have hf : ((2 * (N + 1)).factorial : ℝ) = (2 * N + 2) * (2 * N + 1).factorial := by
    rw [show 2 * (N + 1) = (2 * N + 1) + 1 by ring, Nat.factorial_succ]
    push_cast
    ring
  have hfpos : (0 : ℝ) < (2 * (N + 1)).factorial := by positivity
  have h0' : (0 : ℝ) < sgn neg * ((go x (N + 1)).1 * (2 * N + 2)) := by exact_mod_cast h0
  have h1' : (q * (2 * (N + 1)).factorial + 2 ^ 33 * x ^ (2 * (N + 1)) : ℝ) ≤ 2 ^ 32 * (sgn neg * ((go x (N + 1)).1 * (2 * N + 2))) := by
    exact_mod_cast h1
  have h2' : (2 ^ 32 * (sgn neg * ((go x (N + 1)).1 * (2 * N + 2))) + 2 ^ 33 * x ^ (2 * (N + 1)) : ℝ) < (q + 1) * (2 * (N + 1)).factorial := by
    exact_mod_cast h2
  have hs : (go x (N + 1)).1 * (2 * N + 2) = (2 * (N + 1)).factorial * S := by rw [hg, hf]; ring
  rw [hs] at h0' h1' h2'
  have hσ : (sgn neg : ℝ) = -1 ∨ (sgn neg : ℝ) = 1 := by cases neg <;> simp [sgn]
  generalize (sgn neg : ℝ) = σ at *
  generalize ((2 * (N + 1)).factorial : ℝ) = f at *
  generalize (x : ℝ) ^ (2 * (N + 1)) = e at *
  have hS : 0 < σ * S := by
    by_contra hc
    push Not at hc
    nlinarith
  have ht' : |Real.sin x - S| * f ≤ 2 * e := by
    have := mul_le_mul_of_nonneg_right ht hfpos.le
    rw [show e / f * 2 * f = 2 * e by field_simp] at this
    exact this
  have habs : |σ * Real.sin x - σ * S| * f ≤ 2 * e := by
    rcases hσ with rfl | rfl
    · rw [show -1 * Real.sin x - -1 * S = -(Real.sin x - S) by ring, abs_neg]
      exact ht'
    · rw [one_mul, one_mul]
      exact ht'
  have hle := abs_le.1 (le_refl |σ * Real.sin x - σ * S|)
  have hq : (0 : ℝ) ≤ q := by positivity
  have hlow : (q : ℝ) ≤ 4294967296 * (σ * Real.sin x) := by
    by_contra hc
    push Not at hc
    nlinarith
  have hhigh : 4294967296 * (σ * Real.sin x) < q + 1 := by
    by_contra hc
    push Not at hc
    nlinarith
  have habs' : |Real.sin x| = σ * Real.sin x := by
    have : 0 ≤ σ * Real.sin x := by linarith
    rw [← abs_of_nonneg this, abs_mul]
    rcases hσ with rfl | rfl <;> simp
  rw [habs', Nat.floor_eq_iff (by linarith)]
  exact ⟨hlow, hhigh⟩

/-- Where the sine is negative. -/
def negs : List Bool :=
  [false, false, false, true, true, true, false, false, false, true, true, true, false, false, false, true,
   true, true, false, false, false, true, true, true, true, false, false, false, true, true, true, false,
   false, false, true, true, true, false, false, false, true, true, true, false, false, false, false, true,
   true, true, false, false, false, true, true, true, false, false, false, true, true, true, false, false]

theorem table_ok : ∀ i < 64, entryOk 130 (i + 1) (negs.getD i false) (md5K.getD i 0).toNat = true := by decide +kernel

theorem T_eq (i : Nat) (h : i < 64) : Rfc1321.T (i + 1) = md5K.getD i 0 := by
  rw [Rfc1321.T, entry (table_ok i h) (by omega), BitVec.ofNat_toNat, BitVec.setWidth_eq]

/-! ## The steps -/

theorem rotl_eq (x : Word) (n : Nat) (h : n < 32) : rotl x n = x.rotateLeft n := by
  rw [rotl, BitVec.rotateLeft_eq_rotateLeftAux_of_lt h, BitVec.rotateLeftAux]

theorem shift_lt : ∀ i < 64, md5S.getD i 0 < 32 := by decide

/-- A step, for any table, with the terms in the RFC's order. -/
def stepT (T m : Nat → Word) (s : Md5) (i : Nat) : Md5 :=
  let fg : Word × Nat :=
    if i < 16 then (Rfc1321.F s.b s.c s.d, i)
    else if i < 32 then (Rfc1321.G s.b s.c s.d, (5 * i + 1) % 16)
    else if i < 48 then (Rfc1321.H s.b s.c s.d, (3 * i + 5) % 16)
    else (Rfc1321.I s.b s.c s.d, (7 * i) % 16)
  ⟨s.d, s.b + (s.a + fg.1 + m fg.2 + T (i + 1)).rotateLeft (md5S.getD i 0), s.b, s.c⟩

theorem step_eq (m : Nat → Word) (s : Md5) (i : Nat) (h : i < 64) : md5Step m s i = stepT Rfc1321.T m s i := by
  simp only [md5Step, stepT, rotl_eq _ _ (shift_lt i h), T_eq i h]
  have : ∀ a b c d : Word, a + b + c + d = a + b + d + c := fun a b c d => by rw [BitVec.add_assoc (a + b), BitVec.add_comm c, BitVec.add_assoc (a + b)]
  rw [this]
  rfl

def conv (s : Md5) : Rfc1321.Regs := (s.a, s.b, s.c, s.d)

def fourT (T m : Nat → Word) (s : Md5) (q : Nat) : Md5 :=
  stepT T m (stepT T m (stepT T m (stepT T m s (4 * q)) (4 * q + 1)) (4 * q + 2)) (4 * q + 3)

theorem four_eq (T m : Nat → Word) (s : Md5) : ∀ q < 16, conv (fourT T m s q) = (Rfc1321.rows T m).getD q id (conv s)
  | 0, _ => rfl
  | 1, _ => rfl
  | 2, _ => rfl
  | 3, _ => rfl
  | 4, _ => rfl
  | 5, _ => rfl
  | 6, _ => rfl
  | 7, _ => rfl
  | 8, _ => rfl
  | 9, _ => rfl
  | 10, _ => rfl
  | 11, _ => rfl
  | 12, _ => rfl
  | 13, _ => rfl
  | 14, _ => rfl
  | 15, _ => rfl
  | _ + 16, h => absurd h (by omega)

theorem steps_eq (m : Nat → Word) : ∀ (l : List Nat) (s : Md5), (∀ i ∈ l, i < 64) →
    l.foldl (md5Step m) s = l.foldl (stepT Rfc1321.T m) s
  | [], _, _ => rfl
  | i :: l, s, h => by
    rw [List.foldl_cons, List.foldl_cons, step_eq m s i (h i (by simp)), steps_eq m l _ fun x hx => h x (by simp [hx])]

theorem range64 : List.range 64 = (List.range 16).flatMap fun q => [4 * q, 4 * q + 1, 4 * q + 2, 4 * q + 3] := by decide

theorem fours_eq (T m : Nat → Word) : ∀ (l : List Nat) (s : Md5),
    (l.flatMap fun q => [4 * q, 4 * q + 1, 4 * q + 2, 4 * q + 3]).foldl (stepT T m) s = l.foldl (fourT T m) s
  | [], _ => rfl
  | q :: l, s => by
    rw [List.flatMap_cons, List.foldl_append, fours_eq T m l]
    rfl

theorem rows_eq (T m : Nat → Word) : ∀ (l : List Nat) (s : Md5), (∀ q ∈ l, q < 16) →
    conv (l.foldl (fourT T m) s) = (l.map fun q => (Rfc1321.rows T m).getD q id).foldl (fun r f => f r) (conv s)
  | [], _, _ => rfl
  | q :: l, s, h => by
    rw [List.foldl_cons, rows_eq T m l _ fun x hx => h x (by simp [hx]), List.map_cons, List.foldl_cons, four_eq T m s q (h q (by simp))]

theorem all_eq (m : Nat → Word) (s : Md5) :
    conv ((List.range 64).foldl (md5Step m) s) = (Rfc1321.rows Rfc1321.T m).foldl (fun r f => f r) (conv s) := by
  rw [steps_eq m _ s fun i hi => List.mem_range.1 hi, range64, fours_eq, rows_eq _ _ _ _ fun q hq => List.mem_range.1 hq]
  rfl

/-! ## The message -/

open Sh

theorem bytesLE_len (len : Nat) (h : len < 2 ^ 61) :
    (List.range 8).map (fun i => BitVec.ofNat 8 ((len * 8) >>> (i * 8))) = Rfc1321.bytesLE 8 (8 * len % 2 ^ 64) := by
  rw [Nat.mod_eq_of_lt (by omega), Rfc1321.bytesLE]
  apply List.map_congr_left
  intro i _
  rw [Nat.shiftRight_eq_div_pow, Nat.mul_comm len, Nat.mul_comm i, Nat.pow_mul]

theorem md5Msg_length (data : Str) : (md5Msg data).length = padded data.length := by
  have hp := padded_le data.length
  simp [md5Msg]
  omega

theorem md5Msg_padded (data : Str) (h : data.length < 2 ^ 61) : Rfc1321.Padded (Fips.msgBits data) (Fips.msgBits (md5Msg data)) := by
  have hp := padded_le data.length
  refine ⟨7 + 8 * (padded data.length - data.length - 9), ?_, ?_, ?_⟩
  · rw [md5Msg, bytesLE_len _ h, msgBits_append, msgBits_append, msgBits_cons, msgBits_zeros, msgBits_length,
      show Fips.byteBits 0x80 = true :: List.replicate 7 false by decide, List.replicate_add]
    simp
  · rw [msgBits_length]
    omega
  · intro k hk
    rw [msgBits_length]
    omega

theorem padded_unique {m p q : List Bool} (hp : Rfc1321.Padded m p) (hq : Rfc1321.Padded m q) : p = q := by
  obtain ⟨k, rfl, h1, h2⟩ := hp
  obtain ⟨l, rfl, h3, h4⟩ := hq
  have : k = l := by
    rcases Nat.lt_trichotomy k l with h | h | h
    · exact absurd h1 (h4 k h)
    · exact h
    · exact absurd h3 (h2 l h)
  rw [this]

theorem wordLE_four (a b c d : Byte) : Rfc1321.wordLE (Fips.msgBits [a, b, c, d]) =
    BitVec.ofNat 32 (a.toNat + 2 ^ 8 * b.toNat + 2 ^ 16 * c.toNat + 2 ^ 24 * d.toNat) := by
  rw [← value_byte a, ← value_byte b, ← value_byte c, ← value_byte d]
  rfl

theorem or_rev (a b c d : Byte) :
    (a.setWidth 32 ||| b.setWidth 32 <<< 8 ||| c.setWidth 32 <<< 16 ||| d.setWidth 32 <<< 24 : Word) =
      BitVec.ofNat 32 (a.toNat + 2 ^ 8 * b.toNat + 2 ^ 16 * c.toNat + 2 ^ 24 * d.toNat) := by
  have : (a.setWidth 32 ||| b.setWidth 32 <<< 8 ||| c.setWidth 32 <<< 16 ||| d.setWidth 32 <<< 24 : Word) =
      d.setWidth 32 <<< 24 ||| c.setWidth 32 <<< 16 ||| b.setWidth 32 <<< 8 ||| a.setWidth 32 := by
    rw [BitVec.or_comm _ (d.setWidth 32 <<< 24), BitVec.or_comm _ (c.setWidth 32 <<< 16), BitVec.or_comm (a.setWidth 32),
      BitVec.or_assoc, BitVec.or_assoc]
  rw [this, or4]
  congr 1
  omega

theorem X_eq {m : Str} {i k : Nat} (h : 64 * i + 4 * k + 4 ≤ m.length) :
    Rfc1321.X (Fips.msgBits m) i k = md5Word m (i * 64) k := by
  rw [Rfc1321.X, show 512 * i + 32 * k = 8 * (i * 64 + k * 4) by omega, msgBits_drop,
    show (Fips.msgBits (m.drop (i * 64 + k * 4))).take 32 = _ from msgBits_take _ 4, four (by omega), wordLE_four]
  exact (or_rev _ _ _ _).symm

/-- The rows read the sixteen words of the block only. -/
theorem rows_congr (T X Y : Nat → Word) (h : ∀ k < 16, X k = Y k) : Rfc1321.rows T X = Rfc1321.rows T Y := by
  have hr : ∀ f k1 k2 k3 k4 s1 s2 s3 s4 i, k1 < 16 → k2 < 16 → k3 < 16 → k4 < 16 →
      Rfc1321.row T X f k1 k2 k3 k4 s1 s2 s3 s4 i = Rfc1321.row T Y f k1 k2 k3 k4 s1 s2 s3 s4 i := by
    intro f k1 k2 k3 k4 s1 s2 s3 s4 i h1 h2 h3 h4
    funext r
    obtain ⟨a, b, c, d⟩ := r
    simp only [Rfc1321.row, h k1 h1, h k2 h2, h k3 h3, h k4 h4]
  simp only [Rfc1321.rows]
  congr 1
  · exact hr _ _ _ _ _ _ _ _ _ _ (by decide) (by decide) (by decide) (by decide)
  repeat
    congr 1
    · exact hr _ _ _ _ _ _ _ _ _ _ (by decide) (by decide) (by decide) (by decide)

theorem block_eq {m : Str} {i : Nat} (h : 64 * i + 64 ≤ m.length) (s : Md5) :
    conv (md5Block m s (i * 64)) = Rfc1321.block (Fips.msgBits m) (conv s) i := by
  have := all_eq (md5Word m (i * 64)) s
  rw [Rfc1321.block, rows_congr _ _ (md5Word m (i * 64)) fun k hk => X_eq (by omega), ← this]
  rfl

theorem blocks_eq {m : Str} : ∀ (l : List Nat) (s : Md5), (∀ i ∈ l, 64 * i + 64 ≤ m.length) →
    conv ((l.map (· * 64)).foldl (md5Block m) s) = l.foldl (Rfc1321.block (Fips.msgBits m)) (conv s)
  | [], _, _ => rfl
  | i :: l, s, h => by
    rw [List.map_cons, List.foldl_cons, List.foldl_cons, blocks_eq l _ fun x hx => h x (by simp [hx]), block_eq (h i (by simp))]

theorem init_eq : conv md5Init = Rfc1321.init := by decide +kernel

theorem byte_digits : ∀ b : Byte, Fips.hexText (Fips.byteBits b) = [lowerHex (b.toNat / 16), lowerHex (b.toNat % 16)] := by
  have : ∀ n : Fin 256, Fips.hexText (Fips.byteBits (BitVec.ofFin n)) =
      [lowerHex ((BitVec.ofFin n : Byte).toNat / 16), lowerHex ((BitVec.ofFin n : Byte).toNat % 16)] := by decide +kernel
  exact fun b => this b.toFin

theorem hexText_bytes : ∀ m : Str, Fips.hexText (Fips.msgBits m) = m.flatMap fun b => [lowerHex (b.toNat / 16), lowerHex (b.toNat % 16)]
  | [] => rfl
  | b :: m => by
    rw [msgBits_cons, hexText_append4 _ _ 2 rfl, byte_digits, hexText_bytes m]
    rfl

theorem hexLE_eq (x : Word) : (Rfc1321.bytesLE 4 x.toNat).flatMap (fun b => [lowerHex (b.toNat / 16), lowerHex (b.toNat % 16)]) = hexLE x := by
  have h1 : ∀ i, (BitVec.ofNat 8 (x.toNat / 256 ^ i)).toNat / 16 = (x.toNat >>> (8 * i + 4)) % 16 := by
    intro i
    rw [BitVec.toNat_ofNat, Nat.shiftRight_eq_div_pow, Nat.pow_add, Nat.pow_mul, ← Nat.div_div_eq_div_mul, show 2 ^ 8 = 256 from rfl]
    generalize x.toNat / 256 ^ i = v
    omega
  have h2 : ∀ i, (BitVec.ofNat 8 (x.toNat / 256 ^ i)).toNat % 16 = (x.toNat >>> (8 * i)) % 16 := by
    intro i
    rw [BitVec.toNat_ofNat, Nat.shiftRight_eq_div_pow, Nat.pow_mul, show 2 ^ 8 = 256 from rfl]
    generalize x.toNat / 256 ^ i = v
    omega
  show List.flatMap _ [_, _, _, _] = _
  simp only [List.flatMap_cons, List.flatMap_nil, h1, h2]
  rfl

end Md

open Md Sh

/-- **C142**: `crypto.md5` of any string is the MD5 digest of its bytes, as 32 hexadecimal digits. -/
theorem C142_md5 (data : Str) (h : data.length ≤ int32Max) (p : List Bool) (hp : Rfc1321.Padded (Fips.msgBits data) p) :
    md5 data = Fips.hexText (Rfc1321.digest p) := by
  have h : data.length ≤ 2147483647 := h
  cases Md.padded_unique hp (md5Msg_padded data (by omega))
  have hl := md5Msg_length data
  have hpd := padded_le data.length
  have hb := Md.blocks_eq (m := md5Msg data) (List.range (padded data.length / 64)) md5Init fun i hi => by
    have := List.mem_range.1 hi
    omega
  rw [init_eq] at hb
  rw [Rfc1321.digest, msgBits_length, hl, show 8 * padded data.length / 512 = padded data.length / 64 by omega, ← hb, hexText_bytes]
  simp only [Md.conv, List.flatMap_append, hexLE_eq, md5]

/-- Every message has a padding. -/
theorem C142_padded (data : Str) (h : data.length ≤ int32Max) :
    ∃ p, Rfc1321.Padded (Fips.msgBits data) p ∧ p.length % 512 = 0 ∧ 512 ≤ p.length := by
  have h : data.length ≤ 2147483647 := h
  refine ⟨_, md5Msg_padded data (by omega), ?_, ?_⟩ <;>
  · rw [msgBits_length, md5Msg_length]
    have := padded_le data.length
    omega

/-- RFC 1321's test suite. -/
example : md5 (lit "abc") = lit "900150983cd24fb0d6963f7d28e17f72" ∧
    md5 (lit "message digest") = lit "f96b697d7cb7938d525a2f31aaf161d0" := by decide +kernel

end Verif.Props

import Verif.Model.Math
import Mathlib.Data.Nat.Prime.Basic
import Mathlib.Data.Nat.Factorial.Basic
import Mathlib.NumberTheory.LucasPrimality
import Mathlib.Tactic.NormNum.Prime

/-! C59: integer functions of the math module; C118: min, max, clamp, abs and sign of any numbers. -/
namespace Verif.Props
open Verif Verif.IntOps Verif.Cast

namespace MathP

theorem chk_ok {v : Int} (h : -2 ^ 63 ≤ v ∧ v < 2 ^ 63) : Math.chk v = .ok v := if_pos h

/-- A 64-bit signed integer. -/
def I64 (v : Int) : Prop := -2 ^ 63 ≤ v ∧ v < 2 ^ 63

/-! ### Factorial -/

theorem factLoop_over {f : Nat} {n : Int} (hn : 21 ≤ n) :
    Math.factLoop (f + 1) n 21 2432902008176640000 = .ub := by
  rw [Math.factLoop, if_pos hn]
  rfl

theorem factorial_over {n : Int} (hn : 21 ≤ n) : Math.factorial n = .ub := by
  rw [Math.factorial, if_neg (by omega), if_neg (by omega)]
  obtain ⟨k, hk⟩ : ∃ k, n.toNat = k + 20 := ⟨n.toNat - 20, by omega⟩
  rw [hk]
  have step : ∀ (f : Nat) (i r : Int), i ≤ n → I64 (r * i) → I64 (i + 1) →
      Math.factLoop (f + 1) n i r = Math.factLoop f n (i + 1) (r * i) := by
    intro f i r h1 h2 h3
    rw [Math.factLoop, if_pos h1, chk_ok h2, chk_ok h3]
    rfl
  rw [step, step, step, step, step, step, step, step, step, step, step, step, step, step, step, step, step,
    step, step] <;> try (first | omega | (constructor <;> norm_num))
  exact factLoop_over hn

theorem factorial_exact : ∀ n : Fin 21, Math.factorial ((n : Nat) : Int) = .ok ((n : Nat).factorial : Int) := by
  decide +kernel

/-! ### Greatest common divisor -/

theorem gcdLoop_eq : ∀ (f : Nat) (a b : Int), 0 ≤ a → 0 ≤ b → b < f →
    Math.gcdLoop f a b = .ok (Int.gcd a b) := by
  intro f
  induction f with
  | zero => intro a b _ h1 h2; simp at h2; omega
  | succ f ih =>
    intro a b ha hb hf
    rw [Math.gcdLoop]
    by_cases h : b = 0
    · subst h
      rw [if_neg (by simp), Int.gcd_zero_right, Int.natAbs_of_nonneg ha]
    · have hb' : 0 < b := by omega
      rw [if_pos h, ih b (a.tmod b) hb (Int.tmod_nonneg b ha)
        (by have := Int.tmod_lt_of_pos a hb'; push_cast at hf; omega)]
      obtain ⟨m, rfl⟩ := Int.eq_ofNat_of_zero_le ha
      obtain ⟨k, rfl⟩ := Int.eq_ofNat_of_zero_le hb
      rw [← Int.ofNat_tmod, Int.gcd_natCast_natCast, Int.gcd_natCast_natCast, Nat.gcd_comm k, ← Nat.gcd_rec,
        Nat.gcd_comm]

theorem absI_eq {v : Int} (hv : I64 v) (hm : v ≠ -2 ^ 63) : Math.absI v = .ok (v.natAbs : Int) := by
  obtain ⟨h1, h2⟩ := hv
  rw [Math.absI]
  by_cases h : v < 0
  · rw [if_pos h, chk_ok (by omega)]
    congr 1; omega
  · rw [if_neg h]
    congr 1; omega

theorem gcd_eq {a b : Int} (ha : I64 a) (hb : I64 b) (ha' : a ≠ -2 ^ 63) (hb' : b ≠ -2 ^ 63) :
    Math.gcd a b = .ok (Int.gcd a b) := by
  rw [Math.gcd, absI_eq ha ha', absI_eq hb hb']
  simp only [Outcome.bind_ok]
  rw [gcdLoop_eq _ _ _ (by omega) (by omega) (by omega)]
  rw [Int.gcd_natCast_natCast]
  rfl

theorem lcm_eq {a b : Int} (ha : I64 a) (hb : I64 b) (ha' : a ≠ -2 ^ 63) (hb' : b ≠ -2 ^ 63) :
    Math.lcm a b = Math.chk (Int.sign (a * b) * Int.lcm a b) := by
  rw [Math.lcm]
  by_cases h : a = 0 ∨ b = 0
  · rw [if_pos h]
    rcases h with rfl | rfl <;> simp [Math.chk]
  · rw [if_neg h, gcd_eq ha hb ha' hb']
    rw [not_or] at h
    simp only [Outcome.bind_ok]
    have hg : 0 < Int.gcd a b := Int.gcd_pos_of_ne_zero_left b h.1
    obtain ⟨k, hk⟩ := Int.gcd_dvd_left a b
    have hq : a.tdiv (Int.gcd a b) = k := by
      have key : ∀ g : Int, g ≠ 0 → a = g * k → a.tdiv g = k := by
        intro g hne he
        rw [he]
        exact Int.mul_tdiv_cancel_left k hne
      exact key _ (Int.natCast_ne_zero.2 (Nat.pos_iff_ne_zero.1 hg)) hk
    have hl : Int.lcm a b = (k * b).natAbs := by
      rw [Int.lcm, Nat.lcm, ← Int.natAbs_mul]
      show (a * b).natAbs / Int.gcd a b = _
      apply Nat.div_eq_of_eq_mul_right hg
      rw [← Int.natAbs_natCast (Int.gcd a b), ← Int.natAbs_mul]
      congr 1
      conv => lhs; rw [hk]
      rw [Int.mul_assoc]
    have hs : Int.sign (a * b) = Int.sign (k * b) := by
      conv => lhs; rw [hk]
      rw [Int.mul_assoc, Int.sign_mul, Int.sign_eq_one_of_pos (by omega), Int.one_mul]
    have hk' : I64 k := by
      have h1 : a.natAbs = Int.gcd a b * k.natAbs := by
        conv => lhs; rw [hk]
        rw [Int.natAbs_mul]; simp
      have h2 : k.natAbs ≤ a.natAbs := by rw [h1]; exact Nat.le_mul_of_pos_left _ hg
      obtain ⟨h3, h4⟩ := ha
      constructor <;> omega
    rw [hq, chk_ok hk', hl, hs, Int.sign_mul_natAbs]
    rfl

/-! ### Primes -/

/-- No divisor of `n` is in `[2, i)`. -/
def Sifted (n i : Nat) : Prop := ∀ d, 2 ≤ d → d < i → ¬ d ∣ n

theorem prime_of_sifted {n i : Nat} (h2 : 2 ≤ n) (hs : Sifted n i) (hi : n < i * i) : n.Prime := by
  rw [Nat.prime_def_le_sqrt]
  refine ⟨h2, fun m hm hq => hs m hm ?_⟩
  have : m * m ≤ n := Nat.le_sqrt.1 hq
  by_contra hc
  have : i * i ≤ m * m := Nat.mul_self_le_mul_self (by omega)
  omega

theorem tmod_zero_iff (n i : Nat) : (n : Int).tmod i = 0 ↔ i ∣ n := by
  rw [← Int.ofNat_tmod]
  constructor
  · intro h
    exact Nat.dvd_of_mod_eq_zero (by exact_mod_cast h)
  · intro h
    rw [Nat.mod_eq_zero_of_dvd h]; rfl

theorem primeLoop_eq : ∀ (f n i : Nat), n < 2 ^ 63 → ¬ 2 ∣ n → ¬ 3 ∣ n → 5 ≤ n → i % 6 = 5 → i ≤ 3037000505 →
    (i = 5 ∨ (i - 6) * (i - 6) ≤ n) → Sifted n i → n < i + f →
    Math.primeLoop f n i = if 9223372030926249001 ≤ n ∧ n.Prime then .ub else .ok (decide n.Prime) := by
  intro f
  induction f with
  | zero =>
    intro n i _ _ _ h5 hi _ _ hs hf
    exact absurd (dvd_refl n) (hs n (by omega) (by omega))
  | succ f ih =>
    intro n i hn h2 h3 h5 hi hb hsq hs hf
    rw [Math.primeLoop]
    by_cases hover : i = 3037000505
    · subst hover
      have hp : n.Prime := prime_of_sifted (by omega) hs (by omega)
      have hc : 9223372030926249001 ≤ n := by
        rcases hsq with h | h
        · omega
        · exact h
      have : Math.chk (((3037000505 : Nat) : Int) * ((3037000505 : Nat) : Int)) = .ub := rfl
      rw [this]
      exact (if_pos ⟨hc, hp⟩).symm
    · have hb' : i ≤ 3037000499 := by omega
      have hii : i * i ≤ 9223372030926249001 := Nat.mul_le_mul hb' hb'
      have h5i : 5 * i ≤ i * i := Nat.mul_le_mul_right i (by omega)
      rw [← Int.natCast_mul, chk_ok (by constructor <;> omega)]
      simp only [Outcome.bind_ok]
      have hnp : ∀ d, 2 ≤ d → d < n → d ∣ n → ¬ n.Prime := by
        intro d hd hd' hdn hp
        rcases (Nat.dvd_prime hp).1 hdn with h | h <;> omega
      by_cases hle : i * i ≤ n
      · rw [if_pos (by exact_mod_cast hle)]
        by_cases hd : i ∣ n
        · have := hnp i (by omega) (by omega) hd
          rw [if_pos ((tmod_zero_iff n i).2 hd), if_neg (fun h => this h.2)]
          simp [this]
        · rw [if_neg (fun h => hd ((tmod_zero_iff n i).1 h)), chk_ok (by constructor <;> omega)]
          simp only [Outcome.bind_ok]
          have e2 : (i : Int) + 2 = ((i + 2 : Nat) : Int) := by push_cast; rfl
          rw [e2]
          by_cases hd2 : (i + 2) ∣ n
          · have := hnp (i + 2) (by omega) (by omega) hd2
            rw [if_pos ((tmod_zero_iff n (i + 2)).2 hd2), if_neg (fun h => this h.2)]
            simp [this]
          · rw [if_neg (fun h => hd2 ((tmod_zero_iff n (i + 2)).1 h)), chk_ok (by constructor <;> omega)]
            simp only [Outcome.bind_ok]
            have e6 : (i : Int) + 6 = ((i + 6 : Nat) : Int) := by push_cast; rfl
            rw [e6]
            refine ih n (i + 6) hn h2 h3 h5 (by omega) (by omega) (.inr ?_) ?_ (by omega)
            · rw [Nat.add_sub_cancel]; exact hle
            · intro d hd1 hdl hdn
              by_cases hlt : d < i
              · exact hs d hd1 hlt hdn
              · have : d = i ∨ d = i + 2 ∨ 2 ∣ d ∨ 3 ∣ d := by omega
                rcases this with rfl | rfl | h | h
                · exact hd hdn
                · exact hd2 hdn
                · exact h2 (h.trans hdn)
                · exact h3 (h.trans hdn)
      · rw [if_neg (by exact_mod_cast hle)]
        have hp : n.Prime := prime_of_sifted (by omega) hs (by omega)
        rw [if_neg (by omega)]
        simp [hp]

theorem isPrime_eq {n : Int} (hn : I64 n) :
    Math.isPrime n = if 9223372030926249001 ≤ n ∧ n.toNat.Prime then .ub else .ok (decide n.toNat.Prime) := by
  rw [Math.isPrime]
  by_cases h2 : n < 2
  · have hp : ¬ n.toNat.Prime := fun h => by have := h.two_le; omega
    rw [if_pos h2, if_neg (by omega)]
    simp [hp]
  · obtain ⟨k, rfl⟩ := Int.eq_ofNat_of_zero_le (show 0 ≤ n by omega)
    rw [if_neg h2, Int.toNat_natCast]
    have hk : k < 2 ^ 63 := by have := hn.2; omega
    by_cases h4 : ((k : Nat) : Int) < 4
    · rw [if_pos h4, if_neg (by omega)]
      have : k = 2 ∨ k = 3 := by omega
      rcases this with rfl | rfl <;> simp [Nat.prime_two, Nat.prime_three]
    · rw [if_neg h4]
      by_cases hd : 2 ∣ k ∨ 3 ∣ k
      · rw [if_pos (by
          rcases hd with h | h
          · exact .inl ((tmod_zero_iff k 2).2 h)
          · exact .inr ((tmod_zero_iff k 3).2 h))]
        have hp : ¬ k.Prime := by
          intro hp
          rcases hd with h | h <;> rcases (Nat.dvd_prime hp).1 h with h | h <;> omega
        rw [if_neg (fun h => hp h.2)]
        simp [hp]
      · have hd2 : ¬ 2 ∣ k := fun h => hd (.inl h)
        have hd3 : ¬ 3 ∣ k := fun h => hd (.inr h)
        rw [if_neg (by
          rintro (h | h)
          · exact hd2 ((tmod_zero_iff k 2).1 h)
          · exact hd3 ((tmod_zero_iff k 3).1 h))]
        have := primeLoop_eq k k 5 hk hd2 hd3 (by omega) (by omega) (by omega) (.inl rfl)
          (fun d h1 h2 h3 => by
            have : d = 2 ∨ d = 3 ∨ d = 4 := by omega
            rcases this with rfl | rfl | rfl <;> omega) (by omega)
        rw [show ((5 : Nat) : Int) = 5 from rfl] at this
        rw [this]
        by_cases hb : 9223372030926249001 ≤ k
        · simp [hb, show (9223372030926249001 : Int) ≤ k by omega]
        · simp [hb, show ¬ (9223372030926249001 : Int) ≤ k by omega]

/-! A prime close to 2^63, by Lucas' test. -/

/-- Powers modulo `p` by repeated squaring over the bits of the exponent, highest first. -/
def powBits (p a : Nat) : List Bool → Nat
  | [] => 1
  | b :: r => let h := powBits p a r; if b then h * h % p * a % p else h * h % p

/-- The number with these bits, lowest first. -/
def ofBits : List Bool → Nat
  | [] => 0
  | b :: r => 2 * ofBits r + (if b then 1 else 0)

theorem powBits_eq (p a : Nat) (l : List Bool) : ((powBits p a l : Nat) : ZMod p) = (a : ZMod p) ^ ofBits l := by
  induction l with
  | nil => simp [powBits, ofBits]
  | cons b r ih =>
    cases b
    · have e : powBits p a (false :: r) = powBits p a r * powBits p a r % p := rfl
      have e' : ofBits (false :: r) = ofBits r + ofBits r := by rw [ofBits]; simp; omega
      rw [e, e', ZMod.natCast_mod, Nat.cast_mul, ih, pow_add]
    · have e : powBits p a (true :: r) = powBits p a r * powBits p a r % p * a % p := rfl
      have e' : ofBits (true :: r) = ofBits r + ofBits r + 1 := by rw [ofBits]; simp; omega
      rw [e, e', ZMod.natCast_mod, Nat.cast_mul, ZMod.natCast_mod, Nat.cast_mul, ih, pow_succ, pow_add]

def bitsOf : Nat → Nat → List Bool
  | 0, _ => []
  | f + 1, n => if n = 0 then [] else (n % 2 == 1) :: bitsOf f (n / 2)

theorem ofBits_bitsOf : ∀ (f n : Nat), n < 2 ^ f → ofBits (bitsOf f n) = n := by
  intro f
  induction f with
  | zero => intro n h; simp at h; simp [h, bitsOf, ofBits]
  | succ f ih =>
    intro n h
    rw [bitsOf]
    split
    · next h0 => rw [h0]; rfl
    · rw [ofBits, ih (n / 2) (by rw [Nat.pow_succ] at h; omega)]
      have := Nat.mod_two_eq_zero_or_one n
      rcases this with h | h <;> simp [h] <;> omega

/-- `a ^ e` modulo `p`. -/
def powMod (p a e : Nat) : Nat := powBits p a (bitsOf 64 e)

theorem powMod_eq (p a e : Nat) (he : e < 2 ^ 64) : ((powMod p a e : Nat) : ZMod p) = (a : ZMod p) ^ e := by
  rw [powMod, powBits_eq, ofBits_bitsOf 64 e he]

theorem ne_one_of_powMod {p a e : Nat} (he : e < 2 ^ 64) (h : powMod p a e % p ≠ 1 % p) : (a : ZMod p) ^ e ≠ 1 := by
  rw [← powMod_eq p a e he]
  intro h1
  apply h
  have : ((powMod p a e : Nat) : ZMod p) = ((1 : Nat) : ZMod p) := by simpa using h1
  exact (ZMod.natCast_eq_natCast_iff' _ _ _).1 this

theorem one_of_powMod {p a e : Nat} (he : e < 2 ^ 64) (h : powMod p a e % p = 1 % p) : (a : ZMod p) ^ e = 1 := by
  rw [← powMod_eq p a e he]
  have := (ZMod.natCast_eq_natCast_iff' (powMod p a e) 1 p).2 h
  simpa using this

theorem prime_mid : Nat.Prime 319279 := by norm_num

theorem factors_of {q : Nat} (hq : q.Prime) {l : List Nat} (hl : ∀ x ∈ l, x.Prime) (hd : q ∣ l.prod) : q ∈ l := by
  obtain ⟨x, hx, hqx⟩ := (Prime.dvd_prod_iff hq.prime).1 hd
  rw [(Nat.prime_dvd_prime_iff_eq hq (hl x hx)).1 hqx]
  exact hx

theorem prime_small : Nat.Prime 456065899 := by
  refine lucas_primality _ ((2 : Nat) : ZMod 456065899) (one_of_powMod (by norm_num) (by decide +kernel)) ?_
  intro q hq hd
  have hm : q ∈ [2, 3, 1471, 51673] := by
    refine factors_of hq (fun x hx => ?_) (by simpa using hd)
    simp only [List.mem_cons, List.not_mem_nil, or_false] at hx
    rcases hx with rfl | rfl | rfl | rfl <;> norm_num
  simp only [List.mem_cons, List.not_mem_nil, or_false] at hm
  rcases hm with rfl | rfl | rfl | rfl <;>
    exact ne_one_of_powMod (by norm_num) (by decide +kernel)

theorem prime_big : Nat.Prime 9223372036854775783 := by
  refine lucas_primality _ ((3 : Nat) : ZMod 9223372036854775783) (one_of_powMod (by norm_num) (by decide +kernel)) ?_
  intro q hq hd
  have hm : q ∈ [2, 3, 3, 3, 3, 17, 23, 319279, 456065899] := by
    refine factors_of hq (fun x hx => ?_) (by simpa using hd)
    simp only [List.mem_cons, List.not_mem_nil, or_false] at hx
    rcases hx with rfl | rfl | rfl | rfl | rfl | rfl | rfl | rfl | rfl <;>
      first | exact prime_mid | exact prime_small | norm_num
  simp only [List.mem_cons, List.not_mem_nil, or_false] at hm
  rcases hm with rfl | rfl | rfl | rfl | rfl | rfl | rfl | rfl | rfl <;>
    exact ne_one_of_powMod (by norm_num) (by decide +kernel)

end MathP

/-! ### C59 -/

open MathP in
/-- C59 as claimed: each function returns the mathematical value whenever that is an `int`. -/
def C59_statement : Prop :=
  (∀ a b : Int, I64 a → I64 b → I64 (Int.gcd a b) → Math.gcd a b = .ok (Int.gcd a b)) ∧
  (∀ a b : Int, I64 a → I64 b → I64 (Int.lcm a b) → Math.lcm a b = .ok (Int.lcm a b)) ∧
  (∀ n : Nat, I64 n.factorial → Math.factorial n = .ok n.factorial) ∧
  (∀ n : Int, I64 n → Math.isPrime n = .ok (decide n.toNat.Prime))

/-- gcd and lcm negate the least `int`, whose negation is none. -/
theorem C59_gcd_witness : Math.gcd (-2 ^ 63) 6 = .ub ∧ (Int.gcd (-2 ^ 63) 6 : Int) = 2 := by decide +kernel

/-- The least common multiple has the sign of the product. -/
theorem C59_lcm_witness : Math.lcm (-4) 6 = .ok (-12) ∧ Int.lcm (-4) 6 = 12 := by decide +kernel

/-- For every prime from 3037000499² on, the test of `i * i <= n` overflows; 2^63 - 25 is one. -/
theorem C59_prime_witness (n : Int) (hn : n < 2 ^ 63) (h : 3037000499 ^ 2 ≤ n) (hp : n.toNat.Prime) :
    Math.isPrime n = .ub := by
  rw [MathP.isPrime_eq ⟨by norm_num at h; omega, hn⟩, if_pos ⟨by norm_num at h; exact h, hp⟩]

theorem C59_fails : ¬ C59_statement := fun h => by
  have := h.2.2.2 9223372036854775783 ⟨by norm_num, by norm_num⟩
  rw [C59_prime_witness 9223372036854775783 (by norm_num) (by norm_num) MathP.prime_big] at this
  cases this

/-- The factorial is exact up to 20!, the last one that is an `int`, refused for negative numbers, and
undefined above. -/
theorem C59_factorial (n : Int) :
    (n < 0 → Math.factorial n = .panic "P0070") ∧
    (0 ≤ n → n ≤ 20 → Math.factorial n = .ok (n.toNat.factorial : Int)) ∧
    (20 < n → Math.factorial n = .ub ∧ 2 ^ 63 ≤ n.toNat.factorial) := by
  refine ⟨fun h => if_pos h, fun h0 h1 => ?_, fun h => ⟨MathP.factorial_over (by omega), ?_⟩⟩
  · have := MathP.factorial_exact ⟨n.toNat, by omega⟩
    rw [Int.toNat_of_nonneg h0] at this
    exact this
  · have h1 : Nat.factorial 21 ≤ n.toNat.factorial := Nat.factorial_le (by omega)
    have h2 : 2 ^ 63 ≤ Nat.factorial 21 := by decide +kernel
    omega

/-- The greatest common divisor of all integers but the least one. What is missing is -2^63
(`C59_gcd_witness`). -/
theorem C59_gcd_partial (a b : Int) (ha : MathP.I64 a) (hb : MathP.I64 b) (ha' : a ≠ -2 ^ 63) (hb' : b ≠ -2 ^ 63) :
    ∃ g : Nat, Math.gcd a b = .ok g ∧ (g : Int) ∣ a ∧ (g : Int) ∣ b ∧ ∀ d : Int, d ∣ a → d ∣ b → d ∣ g :=
  ⟨_, MathP.gcd_eq ha hb ha' hb', Int.gcd_dvd_left a b, Int.gcd_dvd_right a b, fun _ h1 h2 => Int.dvd_coe_gcd h1 h2⟩

/-- The least common multiple up to its sign. What is missing: for one negative argument the result is
negative (`C59_lcm_witness`), and -2^63 as an argument is undefined. -/
theorem C59_lcm_partial (a b : Int) (ha : MathP.I64 a) (hb : MathP.I64 b) (ha' : a ≠ -2 ^ 63) (hb' : b ≠ -2 ^ 63) :
    (MathP.I64 (Int.sign (a * b) * Int.lcm a b) → Math.lcm a b = .ok (Int.sign (a * b) * Int.lcm a b)) ∧
    (0 ≤ a → 0 ≤ b → (Int.lcm a b < 2 ^ 63 → Math.lcm a b = .ok (Int.lcm a b)) ∧
      (2 ^ 63 ≤ Int.lcm a b → Math.lcm a b = .ub)) := by
  have e := MathP.lcm_eq ha hb ha' hb'
  refine ⟨fun h => by rw [e, MathP.chk_ok h], fun h0 h1 => ?_⟩
  have hs : Int.sign (a * b) * Int.lcm a b = Int.lcm a b := by
    rcases Int.lt_or_eq_of_le h0 with h | h
    · rcases Int.lt_or_eq_of_le h1 with h' | h'
      · rw [Int.sign_eq_one_of_pos (Int.mul_pos h h'), Int.one_mul]
      · rw [← h']; simp
    · rw [← h]; simp
  rw [hs] at e
  refine ⟨fun h => by rw [e, MathP.chk_ok (by constructor <;> omega)], fun h => ?_⟩
  rw [e, Math.chk, if_neg (by omega)]

/-- Primality of every `int` below 3037000499² and of every composite `int`. What is missing is the
primes from there on (`C59_prime_witness`). -/
theorem C59_prime_partial (n : Int) (hn : MathP.I64 n) (h : n < 3037000499 ^ 2 ∨ ¬ n.toNat.Prime) :
    Math.isPrime n = .ok (decide n.toNat.Prime) := by
  rw [MathP.isPrime_eq hn, if_neg]
  rintro ⟨h1, h2⟩
  rcases h with h | h
  · norm_num at h; omega
  · exact h h2

example : Math.gcd (-12) 8 = .ok 4 ∧ Math.lcm 4 6 = .ok 12 ∧ Math.isPrime 97 = .ok true ∧
    Math.isPrime 91 = .ok false ∧ Math.factorial 20 = .ok 2432902008176640000 := by decide +kernel

/-! ### C118: min, max, clamp, abs and sign of any numbers -/

namespace MathP

/-- The value of a number that is not NaN or infinite. -/
def val : Math.Num → Option ℚ
  | .int v => some v
  | .flt (.fin m e) => some (m * 2 ^ e)
  | .flt _ => none

/-- The arguments a program can pass: integers of at most 64 bits, signed or not. -/
def Arg : Math.Num → Prop
  | .int v => -2 ^ 63 ≤ v ∧ v < 2 ^ 64
  | .flt _ => True

end MathP

/-- C118 as claimed: with an integer first and any number second, min and max return the smaller and
the larger of the two; clamp returns a number in the interval; sign and abs are those of the number. -/
def C118_statement : Prop :=
  (∀ (a : Int) (b : Math.Num) (y : ℚ), MathP.Arg (.int a) → MathP.Arg b → MathP.val b = some y →
    (∃ r, Math.callMin a b = .ok r ∧ (r : ℚ) = min (a : ℚ) y) ∧
    (∃ r, Math.callMax a b = .ok r ∧ (r : ℚ) = max (a : ℚ) y)) ∧
  (∀ (b : Math.Num) (y : ℚ), MathP.Arg b → MathP.val b = some y →
    ∃ r, Math.callSign b = .ok r ∧ (r < 0 ↔ y < 0) ∧ (0 < r ↔ 0 < y)) ∧
  (∀ a : Int, MathP.Arg (.int a) → Math.callAbs a = .ok a.natAbs)

/-- min(3, 2.5) is 2, and max(2^63, 1) of unsigned numbers is 1. -/
theorem C118_min_witness : Math.callMin 3 (.flt (.fin 5 (-1))) = .ok 2 ∧ MathP.val (.flt (.fin 5 (-1))) = some (5 / 2) ∧
    Math.callMax (2 ^ 63) (.int 1) = .ok 1 := by
  refine ⟨by decide +kernel, ?_, by decide +kernel⟩
  simp [MathP.val]
  norm_num

/-- sign(0.5) is 0, and sign(-0.5) too. -/
theorem C118_sign_witness : Math.callSign (.flt (.fin 1 (-1))) = .ok 0 ∧
    Math.callSign (.flt (.fin (-1) (-1))) = .ok 0 ∧ MathP.val (.flt (.fin 1 (-1))) = some (1 / 2) := by
  refine ⟨by decide +kernel, by decide +kernel, ?_⟩
  simp [MathP.val]

/-- abs of the least `int` is undefined. -/
theorem C118_abs_witness : Math.callAbs (-2 ^ 63) = .ub := by decide +kernel

theorem C118_fails : ¬ C118_statement := fun h => by
  have := h.2.2 (-2 ^ 63) ⟨by norm_num, by norm_num⟩
  rw [C118_abs_witness] at this
  cases this

theorem C118_mixed_fails : ¬ ∀ (a : Int) (b : Math.Num) (y : ℚ), MathP.Arg (.int a) → MathP.Arg b →
    MathP.val b = some y → ∃ r, Math.callMin a b = .ok r ∧ (r : ℚ) = min (a : ℚ) y := fun h => by
  obtain ⟨r, h1, h2⟩ := h 3 (.flt (.fin 5 (-1))) (5 / 2) ⟨by norm_num, by norm_num⟩ trivial C118_min_witness.2.1
  rw [C118_min_witness.1] at h1
  cases h1
  norm_num at h2

/-- What holds: for integers in the range of `int` the functions are exact. What is missing: a float
after an integer is cut to an integer, unsigned numbers from 2^63 on are taken for negative ones,
fractions have sign 0, and abs(-2^63) is undefined. -/
theorem C118_partial (a b c : Int) (ha : MathP.I64 a) (hb : MathP.I64 b) (hc : MathP.I64 c) :
    Math.callMin a (.int b) = .ok (min a b) ∧ Math.callMax a (.int b) = .ok (max a b) ∧
    (b ≤ c → Math.callClamp a (.int b) (.int c) = .ok (max b (min a c))) ∧
    Math.callSign (.int a) = .ok a.sign ∧ (a ≠ -2 ^ 63 → Math.callAbs a = .ok a.natAbs) := by
  have e : ∀ v : Int, MathP.I64 v → toI64 v = v := by
    intro v hv
    obtain ⟨h1, h2⟩ := hv
    rw [toI64]
    exact Int.bmod_eq_of_le (by norm_num; omega) (by norm_num; omega)
  refine ⟨?_, ?_, fun h => ?_, ?_, fun h => ?_⟩
  · rw [Math.callMin, Math.argInt, e a ha, e b hb]
    simp only [Outcome.bind_ok, Math.minInt]
    congr 1; split <;> omega
  · rw [Math.callMax, Math.argInt, e a ha, e b hb]
    simp only [Outcome.bind_ok, Math.maxInt]
    congr 1; split <;> omega
  · rw [Math.callClamp, Math.argInt, Math.argInt, e a ha, e b hb, e c hc]
    simp only [Outcome.bind_ok, Math.clampInt]
    congr 1; split
    · omega
    · split <;> omega
  · rw [Math.callSign, Math.argInt, e a ha]
    simp only [Outcome.bind_ok]
    congr 1
    rcases Int.lt_trichotomy a 0 with h | h | h
    · rw [if_neg (by omega), if_pos h, Int.sign_eq_neg_one_of_neg h]
    · rw [h]; rfl
    · rw [if_pos h, Int.sign_eq_one_of_pos h]
  · rw [Math.callAbs, e a ha]
    exact MathP.absI_eq ha h

example : Math.callClamp 15 (.int 0) (.int 10) = .ok 10 := by decide +kernel

/-- A whole number kept as a float is its own integer part. -/
theorem MathP.trunc_whole {m e z : Int} (h : (m : ℚ) * 2 ^ e = z) : trunc m e = z := by
  unfold trunc
  split
  · next he =>
    obtain ⟨k, rfl⟩ := Int.eq_ofNat_of_zero_le he
    rw [Int.toNat_natCast]
    rw [zpow_natCast] at h
    exact_mod_cast h
  · next he =>
    obtain ⟨k, hk⟩ := Int.eq_ofNat_of_zero_le (show 0 ≤ -e by omega)
    rw [show e = -(k : Int) by omega] at h ⊢
    rw [neg_neg, Int.toNat_natCast]
    rw [zpow_neg, zpow_natCast, ← div_eq_mul_inv, div_eq_iff (by positivity)] at h
    have : m = z * 2 ^ k := by exact_mod_cast h
    rw [this]
    exact Int.mul_tdiv_cancel _ (by positivity)

/-- Floats that are whole numbers in the range of `int` are compared exactly too. What is missing: as
for `C118_partial`. -/
theorem C118_float_partial (a z : Int) (n : Math.Num) (ha : MathP.I64 a) (hz : MathP.I64 z)
    (hn : MathP.val n = some (z : ℚ)) :
    Math.callMin a n = .ok (min a z) ∧ Math.callMax a n = .ok (max a z) ∧ Math.callSign n = .ok z.sign := by
  have e : Math.argInt n = Math.argInt (.int z) := by
    cases n with
    | int v =>
      simp only [MathP.val, Option.some.injEq, Int.cast_inj] at hn
      rw [hn]
    | flt d =>
      cases d with
      | fin m e =>
        simp only [MathP.val, Option.some.injEq] at hn
        have ht := MathP.trunc_whole hn
        have hc : z.bmod (2 ^ 64) = z := by
          obtain ⟨h1, h2⟩ := hz
          exact Int.bmod_eq_of_le (by norm_num; omega) (by norm_num; omega)
        rw [Math.argInt, Math.argInt, convFloat, ht]
        rw [show conv (64, true) z = z from hc, if_pos rfl, toI64, hc]
      | _ => simp [MathP.val] at hn
  obtain ⟨h1, h2, _, _, _⟩ := C118_partial a z 0 ha hz (by simp [MathP.I64])
  obtain ⟨_, _, _, h4, _⟩ := C118_partial z z 0 hz hz (by simp [MathP.I64])
  refine ⟨?_, ?_, ?_⟩
  · rw [← h1, Math.callMin, Math.callMin, e]
  · rw [← h2, Math.callMax, Math.callMax, e]
  · rw [← h4, Math.callSign, Math.callSign, e]

example : Math.callMax 3 (.flt (.fin (2 ^ 40) 1)) = .ok (2 ^ 41) := by decide +kernel

end Verif.Props

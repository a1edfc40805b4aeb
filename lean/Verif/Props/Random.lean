import Verif.Model.Random
import Mathlib.Data.List.Perm.Basic
import Mathlib.Data.Rat.Defs
import Mathlib.Tactic.Ring
import Mathlib.Tactic.NormNum

/-! C58: the random module keeps to its ranges and permutes; C119: floats and characters. -/
namespace Verif.Props
open Verif

namespace Rand

/-- What `rand()` can return. -/
def Draw (r : Nat) : Prop := r ≤ 2147483647

theorem toI32_small {v : Int} (h0 : -2 ^ 31 ≤ v) (h1 : v < 2 ^ 31) : Random.toI32 v = v :=
  Int.bmod_eq_of_le (by norm_num; omega) (by norm_num; omega)

theorem toI32_bounds (v : Int) : -2 ^ 31 ≤ Random.toI32 v ∧ Random.toI32 v < 2 ^ 31 := by
  have h1 := Int.le_bmod (x := v) (m := 4294967296) (by norm_num)
  have h2 := Int.bmod_lt (x := v) (m := 4294967296) (by norm_num)
  rw [show Random.toI32 v = v.bmod 4294967296 from rfl]
  omega

theorem toI32_zero (v : Int) : Random.toI32 v = 0 ↔ (2 ^ 32 : Int) ∣ v := by
  rw [Random.toI32]
  constructor
  · intro h
    have := Int.dvd_of_bmod_eq_zero h
    simpa using this
  · intro h
    exact Int.bmod_eq_zero_of_dvd (by simpa using h)

theorem tmod_range {r : Nat} {k : Int} (hk : k ≠ 0) : 0 ≤ (r : Int).tmod k ∧ (r : Int).tmod k < k.natAbs ∧
    (r : Int).tmod k ≤ r := by
  refine ⟨Int.tmod_nonneg k (by omega), ?_, ?_⟩
  · have := Int.tmod_lt_of_pos (r : Int) (b := (k.natAbs : Int)) (by omega)
    rcases Int.natAbs_eq k with h | h
    · rw [← h] at this; omega
    · rw [h, Int.tmod_neg]; simpa using this
  · have e : (r : Int).tmod k = ((r % k.natAbs : Nat) : Int) := by
      rcases Int.natAbs_eq k with h | h
      · conv => lhs; rw [h]
        exact (Int.ofNat_tmod r k.natAbs).symm
      · conv => lhs; rw [h]
        rw [Int.tmod_neg]
        exact (Int.ofNat_tmod r k.natAbs).symm
    rw [e]
    have := Nat.mod_le r k.natAbs
    omega

/-- A draw reduced by the low half of a positive bound stays below the bound. -/
theorem randMod_lt {r : Nat} (hr : Draw r) {m : Int} (hm : 0 < m) (hm' : m < 2 ^ 63) (hd : ¬ (2 ^ 32 : Int) ∣ m) :
    ∃ d, Random.randMod r (Random.toI32 m) = .ok d ∧ 0 ≤ d ∧ d < m := by
  have hk : Random.toI32 m ≠ 0 := fun h => hd ((toI32_zero m).1 h)
  refine ⟨_, if_neg hk, ?_⟩
  have h := tmod_range (r := r) hk
  refine ⟨h.1, ?_⟩
  by_cases hs : m < 2 ^ 31
  · rw [toI32_small (by omega) hs] at h ⊢
    omega
  · have : r ≤ 2147483647 := hr
    omega

theorem swap_length {α : Type} (l : List α) (i j : Nat) : (Random.swap l i j).length = l.length := by
  rw [Random.swap]; split <;> simp

theorem swap_perm {α : Type} (l : List α) (i j : Nat) : (Random.swap l i j).Perm l := by
  rw [Random.swap]
  split
  · next x y hx hy =>
    obtain ⟨hi, rfl⟩ := List.getElem?_eq_some_iff.1 hx
    obtain ⟨hj, rfl⟩ := List.getElem?_eq_some_iff.1 hy
    exact List.set_set_perm hi hj
  · exact .refl l

theorem shuffleLoop_perm {α : Type} (draw : Nat → Nat) : ∀ (i : Nat) (l : List α),
    (Random.shuffleLoop draw i l).Perm l
  | 0, l => .refl l
  | i + 1, l => (shuffleLoop_perm draw i _).trans (swap_perm l _ _)

theorem swap_get {α : Type} (l : List α) {i j : Nat} (hi : i < l.length) (hj : j < l.length) :
    (Random.swap l i j)[i]? = l[j]? ∧ ∀ k, k ≠ i → k ≠ j → (Random.swap l i j)[k]? = l[k]? := by
  rw [Random.swap, List.getElem?_eq_getElem hi, List.getElem?_eq_getElem hj]
  dsimp only
  constructor
  · by_cases h : i = j
    · subst h; simp [hi]
    · rw [List.getElem?_set_ne (fun e => h e.symm), List.getElem?_set_self hi]
  · intro k h1 h2
    rw [List.getElem?_set_ne (fun e => h2 e.symm), List.getElem?_set_ne (fun e => h1 e.symm)]

/-- The loop from position `i` can bring about any arrangement of the first `i + 1` elements. -/
theorem shuffleLoop_reach {α : Type} : ∀ (i : Nat) (l l' : List α), l.length = l'.length → i < l.length →
    i < 2147483647 → l.drop (i + 1) = l'.drop (i + 1) → (l.take (i + 1)).Perm (l'.take (i + 1)) →
    ∃ draw : Nat → Nat, (∀ k, Draw (draw k)) ∧ Random.shuffleLoop draw i l = l' := by
  intro i
  induction i with
  | zero =>
    intro l l' hl hi _ hd hp
    refine ⟨fun _ => 0, fun _ => by simp [Draw], ?_⟩
    rw [Random.shuffleLoop]
    cases l with
    | nil => simp at hi
    | cons x r =>
      cases l' with
      | nil => simp at hl
      | cons y r' =>
        simp at hd hp
        rw [hd, hp]
  | succ i ih =>
    intro l l' hl hi hm hd hp
    have hi' : i + 1 < l'.length := by omega
    -- where the element wanted at i + 1 is now
    have hmem : l'[i + 1] ∈ l.take (i + 2) := by
      rw [hp.mem_iff, List.mem_take_iff_getElem]
      exact ⟨i + 1, by simp; omega, rfl⟩
    obtain ⟨j, hj, hje⟩ := List.mem_take_iff_getElem.1 hmem
    have hj1 : j < i + 2 := by omega
    have hj2 : j < l.length := by omega
    set m := Random.swap l (i + 1) j with hmdef
    have hml : m.length = l.length := swap_length _ _ _
    obtain ⟨hg1, hg2⟩ := swap_get l hi hj2
    have hlast : m[i + 1]? = l'[i + 1]? := by
      rw [hg1, List.getElem?_eq_getElem hj2, List.getElem?_eq_getElem hi', hje]
    have hdrop : m.drop (i + 1) = l'.drop (i + 1) := by
      apply List.ext_getElem?
      intro k
      rw [List.getElem?_drop, List.getElem?_drop]
      cases k with
      | zero => exact hlast
      | succ k =>
        have h1 : m[i + 1 + (k + 1)]? = l[i + 1 + (k + 1)]? := hg2 _ (by omega) (by omega)
        rw [h1]
        have := congrArg (fun t => t[k]?) hd
        simp only [List.getElem?_drop] at this
        rw [show i + 1 + (k + 1) = i + 1 + 1 + k by omega]
        exact this
    have hpm : m.Perm l' := by
      refine (swap_perm l _ _).trans ?_
      have := hp.append (List.Perm.refl (l.drop (i + 1 + 1)))
      conv at this => rhs; rw [hd]
      rwa [List.take_append_drop, List.take_append_drop] at this
    have hpt : (m.take (i + 1)).Perm (l'.take (i + 1)) := by
      have h1 : (m.take (i + 1) ++ m.drop (i + 1)).Perm (l'.take (i + 1) ++ l'.drop (i + 1)) := by
        rwa [List.take_append_drop, List.take_append_drop]
      rw [hdrop] at h1
      exact (List.perm_append_right_iff _).1 h1
    obtain ⟨draw, hdr, he⟩ := ih m l' (by omega) (by omega) (by omega) hdrop hpt
    refine ⟨fun k => if k = i + 1 then j else draw k, fun k => ?_, ?_⟩
    · dsimp only
      split
      · show j ≤ _; omega
      · exact hdr k
    · rw [Random.shuffleLoop, if_pos rfl, Nat.mod_eq_of_lt hj1, ← hmdef]
      have hcongr : ∀ (n : Nat) (t : List α), n ≤ i →
          Random.shuffleLoop (fun k => if k = i + 1 then j else draw k) n t = Random.shuffleLoop draw n t := by
        intro n
        induction n with
        | zero => intro t _; rfl
        | succ n ihn =>
          intro t hn
          rw [Random.shuffleLoop, Random.shuffleLoop, if_neg (by omega), ihn _ (by omega)]
      rw [hcongr i m le_rfl, he]

end Rand

/-! ### C58 -/

/-- C58 as claimed. -/
def C58_statement : Prop :=
  (∀ r max, Rand.Draw r → 0 < max → max < 2 ^ 63 → ∃ d, Random.intMax r max = .ok d ∧ 0 ≤ d ∧ d < max) ∧
  (∀ r min max, Rand.Draw r → -2 ^ 63 ≤ min → max < 2 ^ 63 → min < max →
    ∃ d, Random.intRange r min max = .ok d ∧ min ≤ d ∧ d < max) ∧
  (∀ (draw : Nat → Nat) (l : List Int) (n : Int), (∀ k, Rand.Draw (draw k)) → l.length < 2 ^ 31 →
    (l.length < n → Random.sample draw l n = .panic "P0062"))

/-- A bound that is a multiple of 2^32 makes the generator divide by zero; an interval of 2^63 or more
overflows. -/
theorem C58_witness (r : Nat) : Random.intMax r (2 ^ 32) = .ub ∧ Random.intRange r (-5) (2 ^ 32 - 5) = .ub ∧
    Random.intRange r (-2 ^ 62) (2 ^ 62) = .ub :=
  ⟨rfl, rfl, rfl⟩

/-- Asking for 2^32 elements of an empty array gives an empty array. -/
theorem C58_sample_witness (draw : Nat → Nat) : Random.sample draw ([] : List Int) (2 ^ 32) = .ok [] := rfl

theorem C58_fails : ¬ C58_statement := fun h => by
  obtain ⟨d, h1, _⟩ := h.1 0 (2 ^ 32) (by simp [Rand.Draw]) (by norm_num) (by norm_num)
  rw [(C58_witness 0).1] at h1
  cases h1

/-- What holds of rand_int: bounds that are no multiple of 2^32 are kept, for one argument and two; the
others are undefined. -/
theorem C58_int_partial (r : Nat) (hr : Rand.Draw r) (min max : Int) (h0 : -2 ^ 63 ≤ min) (h1 : max < 2 ^ 63) :
    (max ≤ 0 → Random.intMax r max = .ok 0) ∧
    (0 < max → ¬ (2 ^ 32 : Int) ∣ max → ∃ d, Random.intMax r max = .ok d ∧ 0 ≤ d ∧ d < max) ∧
    (0 < max → (2 ^ 32 : Int) ∣ max → Random.intMax r max = .ub) ∧
    (max ≤ min → Random.intRange r min max = .ok min) ∧
    (min < max → max - min < 2 ^ 63 → ¬ (2 ^ 32 : Int) ∣ max - min →
      ∃ d, Random.intRange r min max = .ok d ∧ min ≤ d ∧ d < max) := by
  refine ⟨fun h => if_pos h, fun h hd => ?_, fun h hd => ?_, fun h => if_pos h, fun h hs hd => ?_⟩
  · obtain ⟨d, e, h2, h3⟩ := Rand.randMod_lt hr h h1 hd
    exact ⟨d, by rw [Random.intMax, if_neg (by omega), e], h2, h3⟩
  · rw [Random.intMax, if_neg (by omega), Random.randMod, if_pos ((Rand.toI32_zero max).2 hd)]
  · obtain ⟨d, e, h2, h3⟩ := Rand.randMod_lt hr (show 0 < max - min by omega) hs hd
    refine ⟨min + d, ?_, by omega, by omega⟩
    rw [Random.intRange, if_neg (by omega), if_neg (by omega), e]
    rfl

/-- Every number of a range of fewer than 2^31 numbers can come out. -/
theorem C58_int_reach (min max v : Int) (h0 : min ≤ v) (h1 : v < max) (hs : max - min < 2 ^ 31) :
    ∃ r, Rand.Draw r ∧ Random.intRange r min max = .ok v := by
  refine ⟨(v - min).toNat, by show _ ≤ _; omega, ?_⟩
  rw [Random.intRange, if_neg (by omega), if_neg (by omega), Rand.toI32_small (by omega) hs, Random.randMod,
    if_neg (by omega), Int.toNat_of_nonneg (by omega)]
  show Outcome.ok _ = _
  rw [Int.tmod_eq_of_lt (by omega) (by omega)]
  congr 1; omega

/-- Shuffling rearranges the elements, whatever the generator returns. -/
theorem C58_shuffle {α : Type} (draw : Nat → Nat) (l : List α) : (Random.shuffle draw l).Perm l :=
  Rand.shuffleLoop_perm draw _ l

/-- Every arrangement can come out. -/
theorem C58_shuffle_reach {α : Type} (l l' : List α) (h : l'.Perm l) (hl : l.length < 2 ^ 31) :
    ∃ draw : Nat → Nat, (∀ k, Rand.Draw (draw k)) ∧ Random.shuffle draw l = l' := by
  by_cases h0 : l.length = 0
  · have e : l = [] := List.length_eq_zero_iff.1 h0
    subst e
    refine ⟨fun _ => 0, fun _ => by simp [Rand.Draw], ?_⟩
    rw [h.eq_nil]
    rfl
  · refine Rand.shuffleLoop_reach _ l l' h.length_eq.symm (by omega) (by omega) ?_ ?_
    · rw [Nat.sub_add_cancel (by omega), List.drop_of_length_le le_rfl, List.drop_of_length_le h.length_eq.le]
    · rw [Nat.sub_add_cancel (by omega), List.take_of_length_le le_rfl, List.take_of_length_le h.length_eq.le]
      exact h.symm

/-- What holds of sample: for a count that is an `int32` the elements are the first `n` of a
rearrangement, and counts that are too large or negative are refused. What is missing: the count is cut
to 32 bits (`C58_sample_witness`). -/
theorem C58_sample_partial {α : Type} (draw : Nat → Nat) (l : List α) (n : Int) (h0 : -2 ^ 31 ≤ n) (h1 : n < 2 ^ 31) :
    (n < 0 → Random.sample draw l n = .panic "P0063") ∧
    ((l.length : Int) < n → Random.sample draw l n = .panic "P0062") ∧
    (0 ≤ n → n ≤ l.length → ∃ p : List α, p.Perm l ∧ Random.sample draw l n = .ok (p.take n.toNat) ∧
      (p.take n.toNat).length = n.toNat) := by
  rw [Random.sample, Rand.toI32_small h0 h1]
  refine ⟨fun h => ?_, fun h => if_pos h, fun h h' => ⟨_, C58_shuffle draw l, ?_, ?_⟩⟩
  · rw [if_neg (by omega), if_pos h]
  · rw [if_neg (by omega), if_neg (by omega)]
  · rw [List.length_take, (C58_shuffle draw l).length_eq]; omega

/-- choice returns a member of an array that is not empty, and each member can be the one. -/
theorem C58_choice {α : Type} (l : List α) (hl : l.length < 2 ^ 31) :
    (l = [] → ∀ r, Random.choice r l = .panic "P0033") ∧
    (l ≠ [] → ∀ r, Rand.Draw r → ∃ x ∈ l, Random.choice r l = .ok x) ∧
    (∀ x ∈ l, ∃ r, Rand.Draw r ∧ Random.choice r l = .ok x) := by
  refine ⟨?_, fun hn r hr => ?_, fun x hx => ?_⟩
  · rintro rfl r; rfl
  · have hp : 0 < l.length := List.length_pos_iff.2 hn
    obtain ⟨d, e, h2, h3⟩ := Rand.randMod_lt hr (show (0 : Int) < l.length by omega) (by omega)
      (fun hd => by obtain ⟨c, hc⟩ := hd; omega)
    have hd : d.toNat < l.length := by omega
    refine ⟨l[d.toNat], List.getElem_mem hd, ?_⟩
    rw [Random.choice, Random.intMax, if_neg (by omega), e]
    simp only [Outcome.bind_ok]
    rw [Rand.toI32_small (by omega) (by omega), List.getElem?_eq_getElem hd]
  · obtain ⟨i, hi, rfl⟩ := List.mem_iff_getElem.1 hx
    refine ⟨i, by show _ ≤ _; omega, ?_⟩
    rw [Random.choice, Random.intMax, if_neg (by omega), Rand.toI32_small (by omega) (by omega), Random.randMod,
      if_neg (by omega), Int.tmod_eq_of_lt (by omega) (by omega)]
    simp only [Outcome.bind_ok]
    rw [Rand.toI32_small (by omega) (by omega), Int.toNat_natCast, List.getElem?_eq_getElem hi]

/-- For an array of i8 holding 1 to 8, choice returns all the bytes as one number, or reads past the end. -/
theorem C58_choice_sized_witness : ∃ a, SizedArr.appendAll (SizedArr.declareEmpty .i8) [1, 2, 3, 4, 5, 6, 7, 8] = .ok a ∧
    Random.choiceInt 0 a = .ok 0x0807060504030201 ∧ Random.choiceInt 1 a = .ub := by
  refine ⟨_, rfl, ?_, ?_⟩ <;> decide +kernel

example : Random.intRange 17 3 8 = .ok 5 ∧ Random.shuffle (fun k => k + 1) [1, 2, 3] = [2, 3, 1] ∧
    Random.sample (fun k => k + 1) [1, 2, 3] 2 = .ok [2, 3] := by decide +kernel

/-! ### C119: floats and characters -/

/-- C119 as claimed: rand_float() is in [0, 1), and rand_char(min, max) can return every character of
[min, max]. -/
def C119_statement : Prop :=
  (∀ r, Rand.Draw r → (Random.floatUnit r).1 < (Random.floatUnit r).2) ∧
  (∀ min max c : Int, 0 ≤ min → max < 0x110000 → min ≤ c → c ≤ max →
    ∃ r, Rand.Draw r ∧ Random.charRange r min max = .ok c)

/-- The largest draw gives exactly 1. -/
theorem C119_witness : (Random.floatUnit 2147483647).1 = (Random.floatUnit 2147483647).2 := by decide +kernel

/-- `rand_char('a', 'z')` is never 'z'. -/
theorem C119_char_witness (min max : Int) (h0 : 0 ≤ min) (h : min < max) (hm : max < 0x110000) (r : Nat) :
    Random.charRange r min max ≠ .ok max := by
  rw [Random.charRange, if_neg (by omega), if_neg (by omega), Random.randMod, if_neg (by omega)]
  intro he
  have h1 := Rand.tmod_range (r := r) (k := max - min) (by omega)
  have h2 : min + (r : Int).tmod (max - min) = max := by
    simp only [Outcome.bind_ok] at he
    exact Outcome.ok.inj he
  omega

theorem C119_fails : ¬ C119_statement := fun h => by
  have := h.1 2147483647 (by simp [Rand.Draw])
  rw [C119_witness] at this
  omega

theorem C119_char_fails : ¬ ∀ min max c : Int, 0 ≤ min → max < 0x110000 → min ≤ c → c ≤ max →
    ∃ r, Rand.Draw r ∧ Random.charRange r min max = .ok c := fun h => by
  obtain ⟨r, _, h2⟩ := h 97 122 122 (by norm_num) (by norm_num) (by norm_num) (by norm_num)
  exact C119_char_witness 97 122 (by norm_num) (by norm_num) (by norm_num) r h2

/-- What holds: floats are in [0, 1] and are 1 for one draw only; a character of two bounds is in
[min, max), and every one of these can come out; a character without bounds is printable, and a byte is
a byte. -/
theorem C119_partial (r : Nat) (hr : Rand.Draw r) (min max : Int) (h0 : 0 ≤ min) (h : min < max) (hm : max < 0x110000) :
    (Random.floatUnit r).1 ≤ (Random.floatUnit r).2 ∧
    ((Random.floatUnit r).1 = (Random.floatUnit r).2 ↔ r = 2147483647) ∧
    (∃ c, Random.charRange r min max = .ok c ∧ min ≤ c ∧ c < max) ∧
    (∀ c, min ≤ c → c < max → ∃ s, Rand.Draw s ∧ Random.charRange s min max = .ok c) ∧
    (32 ≤ Random.randChar r ∧ Random.randChar r < 127) ∧ Random.randByte r < 256 := by
  refine ⟨hr, Iff.rfl, ?_, fun c h1 h2 => ?_, ?_, Nat.mod_lt _ (by norm_num)⟩
  · have h1 := Rand.tmod_range (r := r) (k := max - min) (by omega)
    refine ⟨min + (r : Int).tmod (max - min), ?_, by omega, by omega⟩
    rw [Random.charRange, if_neg (by omega), if_neg (by omega), Random.randMod, if_neg (by omega)]
    rfl
  · refine ⟨(c - min).toNat, by show _ ≤ _; omega, ?_⟩
    rw [Random.charRange, if_neg (by omega), if_neg (by omega), Random.randMod, if_neg (by omega),
      Int.toNat_of_nonneg (by omega), Int.tmod_eq_of_lt (by omega) (by omega)]
    show Outcome.ok _ = _
    congr 1; omega
  · rw [Random.randChar]
    have := Nat.mod_lt r (show 95 > 0 by norm_num)
    omega

example : Random.charRange 30 97 122 = .ok 102 ∧ Random.randChar 100 = 37 := by decide +kernel

/-- Every value of rand_bool comes from half of the draws. -/
theorem C119_bool (k : Nat) : Random.randBool (2 * k) = true ∧ Random.randBool (2 * k + 1) = false := by
  simp only [Random.randBool, beq_iff_eq, beq_eq_false_iff_ne]
  omega

end Verif.Props

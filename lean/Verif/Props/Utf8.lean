import Verif.Model.Utf8

/-! C34, C98: code points. -/
namespace Verif.Props
open Verif Verif.Str Verif.Utf8

/-- Unicode scalar values. -/
def Scalar (c : Nat) : Prop := c < 0xD800 ∨ (0xE000 ≤ c ∧ c < 0x110000)

/-- UTF-8 (Unicode, table 3-6), by arithmetic. -/
def utf8 (c : Nat) : Str :=
  if c < 0x80 then [BitVec.ofNat 8 c]
  else if c < 0x800 then [BitVec.ofNat 8 (0xC0 + c / 64), BitVec.ofNat 8 (0x80 + c % 64)]
  else if c < 0x10000 then
    [BitVec.ofNat 8 (0xE0 + c / 64 / 64), BitVec.ofNat 8 (0x80 + c / 64 % 64),
      BitVec.ofNat 8 (0x80 + c % 64)]
  else
    [BitVec.ofNat 8 (0xF0 + c / 64 / 64 / 64), BitVec.ofNat 8 (0x80 + c / 64 / 64 % 64),
      BitVec.ofNat 8 (0x80 + c / 64 % 64), BitVec.ofNat 8 (0x80 + c % 64)]

theorem lead2 : ∀ n : Fin 32, lead (BitVec.ofNat 8 (0xC0 + n.val)) = (n.val, 2) := by decide +kernel
theorem lead3 : ∀ n : Fin 16, lead (BitVec.ofNat 8 (0xE0 + n.val)) = (n.val, 3) := by decide +kernel
theorem lead4 : ∀ n : Fin 8, lead (BitVec.ofNat 8 (0xF0 + n.val)) = (n.val, 4) := by decide +kernel
theorem cont : ∀ n : Fin 64, (BitVec.ofNat 8 (0x80 + n.val) &&& 0xC0 : Byte) = 0x80 ∧
    (BitVec.ofNat 8 (0x80 + n.val) &&& 0x3F : Byte).toNat = n.val := by decide +kernel

set_option maxRecDepth 100000 in
theorem leadLen_fin : ∀ n : Fin 256, leadLen (BitVec.ofFin n) = (lead (BitVec.ofFin n)).2 := by
  decide +kernel

theorem leadLen_eq (b : Byte) : leadLen b = (lead b).2 := leadLen_fin b.toFin

theorem contLoop_step (n : Nat) (r : Str) (cp x : Nat) (hx : x < 64) :
    contLoop (n + 1) (BitVec.ofNat 8 (0x80 + x) :: r) cp = contLoop n r (cp * 64 + x) := by
  have h := cont ⟨x, hx⟩
  simp only at h
  rw [contLoop, if_neg (not_not_intro h.1), h.2,
    ← Nat.shiftLeft_add_eq_or_of_lt (i := 6) (by omega), Nat.shiftLeft_eq]

/-- Decoding one encoded character. -/
theorem step_utf8 (c : Nat) (h : c < 0x110000) (rest : Str) : ∃ b r,
    utf8 c ++ rest = b :: r ∧ step b r = (c, (utf8 c).length) ∧ leadLen b = (utf8 c).length := by
  rw [utf8]
  by_cases h1 : c < 0x80
  · rw [if_pos h1]
    refine ⟨_, rest, rfl, ?_, ?_⟩
    · have hl : lead (BitVec.ofNat 8 c) = (c, 1) := by
        rw [lead, BitVec.toNat_ofNat, Nat.mod_eq_of_lt (by omega), if_pos h1]
      rw [step, hl, if_neg (by simp)]
      rfl
    · rw [leadLen, BitVec.toNat_ofNat, Nat.mod_eq_of_lt (by omega), if_pos h1]; rfl
  · rw [if_neg h1]
    by_cases h2 : c < 0x800
    · rw [if_pos h2]
      have hl := lead2 ⟨c / 64, by omega⟩
      simp only at hl
      refine ⟨_, BitVec.ofNat 8 (0x80 + c % 64) :: rest, rfl, ?_, by rw [leadLen_eq, hl]; rfl⟩
      rw [step, hl, if_neg (by simp)]
      show (match contLoop 1 _ _ with | some cp => (cp, 2) | none => _) = _
      rw [contLoop_step _ _ _ _ (by omega), contLoop]
      simp only [List.length_cons, List.length_nil]
      congr 1; omega
    · rw [if_neg h2]
      by_cases h3 : c < 0x10000
      · rw [if_pos h3]
        have hl := lead3 ⟨c / 64 / 64, by omega⟩
        simp only at hl
        refine ⟨_, BitVec.ofNat 8 (0x80 + c / 64 % 64) :: BitVec.ofNat 8 (0x80 + c % 64) :: rest,
          rfl, ?_, by rw [leadLen_eq, hl]; rfl⟩
        rw [step, hl, if_neg (by simp)]
        show (match contLoop 2 _ _ with | some cp => (cp, 3) | none => _) = _
        rw [contLoop_step _ _ _ _ (by omega),
          contLoop_step _ _ _ _ (by omega), contLoop]
        simp only [List.length_cons, List.length_nil]
        congr 1; omega
      · rw [if_neg h3]
        have hl := lead4 ⟨c / 64 / 64 / 64, by omega⟩
        simp only at hl
        refine ⟨_, BitVec.ofNat 8 (0x80 + c / 64 / 64 % 64) ::
          BitVec.ofNat 8 (0x80 + c / 64 % 64) :: BitVec.ofNat 8 (0x80 + c % 64) :: rest,
          rfl, ?_, by rw [leadLen_eq, hl]; rfl⟩
        rw [step, hl, if_neg (by simp)]
        show (match contLoop 3 _ _ with | some cp => (cp, 4) | none => _) = _
        rw [contLoop_step _ _ _ _ (by omega),
          contLoop_step _ _ _ _ (by omega), contLoop_step _ _ _ _ (by omega), contLoop]
        simp only [List.length_cons, List.length_nil]
        congr 1; omega

theorem countLoop_utf8 (cs : List Nat) : ∀ (n c : Nat), (∀ x ∈ cs, x < 0x110000) →
    (cs.flatMap utf8).length ≤ n →
    Utf8.countLoop n (cs.flatMap utf8) c = some (c + cs.length) := by
  induction cs with
  | nil => intro n c _ _; unfold Utf8.countLoop; rfl
  | cons x cs ih =>
    intro n c hcs hn
    obtain ⟨b, r, h1, _, h3⟩ := step_utf8 x (hcs x List.mem_cons_self) (cs.flatMap utf8)
    rw [List.flatMap_cons, h1] at hn ⊢
    have hl := congrArg List.length h1
    rw [List.length_cons] at hn hl
    rw [List.length_append] at hl
    obtain ⟨m, rfl⟩ : ∃ m, n = m + 1 := ⟨n - 1, by omega⟩
    have hpos : 0 < (utf8 x).length := by
      rw [utf8]; split
      · simp
      · split
        · simp
        · split <;> simp
    rw [Utf8.countLoop, h3, ← h1, List.drop_left,
      ih m (c + 1) (fun y hy => hcs y (List.mem_cons_of_mem _ hy)) (by omega), List.length_cons]
    congr 1; omega

theorem toCharLoop_utf8 (index : Int) (cs : List Nat) : ∀ (n : Nat) (i : Int),
    (∀ x ∈ cs, x < 0x110000) → (cs.flatMap utf8).length ≤ n → i ≤ index →
    toCharLoop index n (cs.flatMap utf8) i =
      match cs[(index - i).toNat]? with
      | some x => .ok (some x)
      | none => .panic "P0050" := by
  induction cs with
  | nil => intro n i _ _ _; unfold toCharLoop; rfl
  | cons x cs ih =>
    intro n i hcs hn hi
    obtain ⟨b, r, h1, h2, _⟩ := step_utf8 x (hcs x List.mem_cons_self) (cs.flatMap utf8)
    rw [List.flatMap_cons, h1] at hn ⊢
    have hl := congrArg List.length h1
    rw [List.length_cons] at hn hl
    rw [List.length_append] at hl
    obtain ⟨m, rfl⟩ : ∃ m, n = m + 1 := ⟨n - 1, by omega⟩
    have hpos : 0 < (utf8 x).length := by
      rw [utf8]; split
      · simp
      · split
        · simp
        · split <;> simp
    rw [toCharLoop]
    by_cases he : i = index
    · rw [if_pos he, h2, he]
      simp
    · rw [if_neg he, h2, ← h1, List.drop_left,
        ih m (i + 1) (fun y hy => hcs y (List.mem_cons_of_mem _ hy)) (by omega) (by omega),
        show (index - i).toNat = (index - (i + 1)).toNat + 1 by omega, List.getElem?_cons_succ]

/-- char_to_utf8 is UTF-8 for every scalar value. -/
theorem C34_encode (c : Nat) (h : Scalar c) : charToUtf8 c = utf8 c := by
  have hc : c < 0x110000 := by rcases h with h | h <;> omega
  have hor : ∀ (a x : Nat), x < 64 → (a = 0x80 ∨ a = 0xC0) → a ||| x = a + x := by
    intro a x hx ha
    rcases ha with rfl | rfl
    · rw [show (0x80 : Nat) = 2 <<< 6 from rfl, Nat.shiftLeft_add_eq_or_of_lt (by omega)]
    · rw [show (0xC0 : Nat) = 3 <<< 6 from rfl, Nat.shiftLeft_add_eq_or_of_lt (by omega)]
  have hor3 : ∀ x : Nat, x < 16 → 0xE0 ||| x = 0xE0 + x := by
    intro x hx
    rw [show (0xE0 : Nat) = 14 <<< 4 from rfl, Nat.shiftLeft_add_eq_or_of_lt (by omega)]
  have hor4 : ∀ x : Nat, x < 8 → 0xF0 ||| x = 0xF0 + x := by
    intro x hx
    rw [show (0xF0 : Nat) = 30 <<< 3 from rfl, Nat.shiftLeft_add_eq_or_of_lt (by omega)]
  have hand : ∀ x : Nat, x &&& 0x3F = x % 64 := by
    intro x
    rw [show (0x3F : Nat) = 2 ^ 6 - 1 from rfl, Nat.and_two_pow_sub_one_eq_mod]
  have s6 : c >>> 6 = c / 64 := by rw [Nat.shiftRight_eq_div_pow]
  have s12 : c >>> 12 = c / 64 / 64 := by
    rw [Nat.shiftRight_eq_div_pow, Nat.div_div_eq_div_mul]
  have s18 : c >>> 18 = c / 64 / 64 / 64 := by
    rw [Nat.shiftRight_eq_div_pow, Nat.div_div_eq_div_mul, Nat.div_div_eq_div_mul]
  rw [charToUtf8, utf8]
  by_cases h1 : c < 0x80
  · rw [if_pos (by omega), if_pos h1]
    simp
  · rw [if_neg (by omega), if_neg h1]
    simp only [Int.toNat_natCast, s6, s12, s18, hand]
    by_cases h2 : c < 0x800
    · rw [if_pos (by omega), if_pos h2, hor _ _ (by omega) (Or.inr rfl),
        hor _ _ (by omega) (Or.inl rfl)]
    · rw [if_neg (by omega), if_neg h2]
      by_cases h3 : c < 0x10000
      · rw [if_pos (by omega), if_pos h3, hor3 _ (by omega), hor _ _ (by omega) (Or.inl rfl),
          hor _ _ (by omega) (Or.inl rfl)]
      · rw [if_neg (by omega), if_neg h3, if_pos (by omega), hor4 _ (by omega),
          hor _ _ (by omega) (Or.inl rfl), hor _ _ (by omega) (Or.inl rfl),
          hor _ _ (by omega) (Or.inl rfl)]

/-- char_count and to_char agree with the sequence of code points that was encoded. -/
theorem C34_access (cs : List Nat) (h : ∀ c ∈ cs, Scalar c) :
    charCount (cs.flatMap utf8) = some cs.length ∧
    ∀ i : Int, toChar (cs.flatMap utf8) i =
      if i < 0 then .panic "P0049" else
        match cs[i.toNat]? with
        | some c => .ok (some c)
        | none => .panic "P0050" := by
  have h' : ∀ x ∈ cs, x < 0x110000 := fun x hx => by rcases h x hx with h | h <;> omega
  constructor
  · rw [charCount, countLoop_utf8 cs _ 0 h' (Nat.le_refl _), Nat.zero_add]
  · intro i
    rw [toChar]
    by_cases hi : i < 0
    · rw [if_pos hi, if_pos hi]
    · rw [if_neg hi, if_neg hi, toCharLoop_utf8 i cs _ 0 h' (Nat.le_refl _) (by omega), Int.sub_zero]

example : [0x65E5, 0x672C].flatMap utf8 = [0xE6, 0x97, 0xA5, 0xE6, 0x9C, 0xAC] ∧
    toChar [0xE6, 0x97, 0xA5, 0xE6, 0x9C, 0xAC] 0 = .ok (some 26085) ∧
    charCount [0xE6, 0x97, 0xA5, 0xE6, 0x9C, 0xAC] = some 2 := by decide +kernel

/-! ### C98: malformed strings -/

/-- C98 as claimed: on every string to_char accepts exactly the indices below char_count, and the
code points it gives are scalar values. -/
def C98_statement : Prop :=
  ∀ (s : Str) (i : Nat), ∃ n, charCount s = some n ∧
    ((∃ c, toChar s i = .ok (some c) ∧ Scalar c) ↔ i < n)

/-- An incomplete sequence: char_count skips the 'A' that to_char shows. An encoded surrogate is
given as it stands. -/
theorem C98_witness :
    charCount [0xC3, 0x41] = some 1 ∧ toChar [0xC3, 0x41] 1 = .ok (some 0x41) ∧
    toChar [0xED, 0xA0, 0x80] 0 = .ok (some 0xD800) ∧ toChar [0xC0, 0x80] 0 = .ok (some 0) := by
  decide +kernel

theorem C98_fails : ¬ C98_statement := by
  intro h
  obtain ⟨n, h1, h2⟩ := h [0xC3, 0x41] 1
  rw [C98_witness.1] at h1
  cases h1
  have := h2.mp ⟨0x41, C98_witness.2.1, Or.inl (by decide)⟩
  omega

theorem contLoop_lt (n : Nat) : ∀ (r : Str) (cp c : Nat), contLoop n r cp = some c →
    c < (cp + 1) * 64 ^ n := by
  induction n with
  | zero => intro r cp c h; simp [contLoop] at h; omega
  | succ n ih =>
    intro r cp c h
    match r with
    | [] => simp [contLoop] at h
    | x :: r =>
      rw [contLoop] at h
      split at h
      · simp at h
      · have := ih _ _ _ h
        have hx : (x &&& 0x3F).toNat < 64 := by
          have : (x &&& 0x3F).toNat ≤ (0x3F : Byte).toNat := by
            rw [BitVec.toNat_and]; exact Nat.and_le_right
          have h3 : (0x3F : Byte).toNat = 63 := rfl
          omega
        rw [← Nat.shiftLeft_add_eq_or_of_lt (i := 6) (by omega), Nat.shiftLeft_eq] at this
        rw [Nat.pow_succ, Nat.mul_comm (64 ^ n) 64, ← Nat.mul_assoc]
        have hm : cp * 2 ^ 6 + (x &&& 0x3F).toNat + 1 ≤ (cp + 1) * 64 := by omega
        exact Nat.lt_of_lt_of_le this (Nat.mul_le_mul_right _ hm)

set_option maxRecDepth 100000 in
theorem lead_fin : ∀ n : Fin 256, (lead (BitVec.ofFin n)).2 ≤ 4 ∧ 0 < (lead (BitVec.ofFin n)).2 ∧
    ((lead (BitVec.ofFin n)).1 + 1) * 64 ^ ((lead (BitVec.ofFin n)).2 - 1) ≤ 2 ^ 21 := by
  decide +kernel

theorem step_bounds (b : Byte) (r : Str) : 0 < (step b r).2 ∧ (step b r).1 < 2 ^ 21 := by
  have hl := lead_fin b.toFin
  rw [show (BitVec.ofFin b.toFin : Byte) = b from rfl] at hl
  rw [step]
  split
  · exact ⟨by decide, by decide⟩
  · split
    · rename_i cp hcp
      exact ⟨hl.2.1, Nat.lt_of_lt_of_le (contLoop_lt _ _ _ _ hcp) hl.2.2⟩
    · exact ⟨by decide, by decide⟩

/-- On every string both functions terminate, char_count is at most the length, and to_char panics
or gives a number below 2^21. Missing for the full claim: agreement of the two on malformed strings,
and rejection of surrogates, overlong forms and values from 0x110000. -/
theorem C98_partial (s : Str) :
    (∃ n, charCount s = some n ∧ n ≤ s.length) ∧
    ∀ i : Int, (∃ c, toChar s i = .ok (some c) ∧ c < 2 ^ 21) ∨ (toChar s i).isPanic = true := by
  constructor
  · have key : ∀ (n : Nat) (s : Str) (c : Nat), s.length ≤ n →
        ∃ k, Utf8.countLoop n s c = some k ∧ k ≤ c + s.length := by
      intro n
      induction n with
      | zero =>
        intro s c h
        match s, h with
        | [], _ => exact ⟨c, rfl, Nat.le_refl _⟩
      | succ n ih =>
        intro s c h
        match s, h with
        | [], _ => exact ⟨c, by unfold Utf8.countLoop; rfl, Nat.le_refl _⟩
        | b :: r, h =>
          have hl := lead_fin b.toFin
          rw [show (BitVec.ofFin b.toFin : Byte) = b from rfl] at hl
          have hd : ((b :: r).drop (leadLen b)).length = r.length + 1 - leadLen b := by
            rw [List.length_drop, List.length_cons]
          rw [leadLen_eq] at hd
          rw [List.length_cons] at h
          obtain ⟨k, h1, h2⟩ := ih ((b :: r).drop (leadLen b)) (c + 1)
            (by rw [leadLen_eq, hd]; omega)
          refine ⟨k, by rw [Utf8.countLoop, h1], ?_⟩
          rw [leadLen_eq, hd] at h2
          rw [List.length_cons]
          omega
    obtain ⟨k, h1, h2⟩ := key s.length s 0 (Nat.le_refl _)
    exact ⟨k, h1, by omega⟩
  · intro i
    have key : ∀ (n : Nat) (s : Str) (j : Int), s.length ≤ n →
        (∃ c, toCharLoop i n s j = .ok (some c) ∧ c < 2 ^ 21) ∨
          (toCharLoop i n s j).isPanic = true := by
      intro n
      induction n with
      | zero =>
        intro s j h
        match s, h with
        | [], _ => exact Or.inr rfl
      | succ n ih =>
        intro s j h
        match s, h with
        | [], _ => exact Or.inr (by unfold toCharLoop; rfl)
        | b :: r, h =>
          rw [toCharLoop]
          have hb := step_bounds b r
          by_cases he : j = i
          · rw [if_pos he]; exact Or.inl ⟨_, rfl, hb.2⟩
          · rw [if_neg he]
            rw [List.length_cons] at h
            exact ih _ _ (by rw [List.length_drop, List.length_cons]; omega)
    rw [toChar]
    by_cases hi : i < 0
    · rw [if_pos hi]; exact Or.inr rfl
    · rw [if_neg hi]; exact key _ _ _ (Nat.le_refl _)

end Verif.Props

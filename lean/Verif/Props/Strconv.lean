import Verif.Model.Strconv
import Verif.Props.Interp
import Verif.Props.Cast
import Verif.Lemmas.BigintText

/-! C57, C105, C106: numbers from and to strings. -/
namespace Verif.Props
open Verif Verif.Str Verif.Strings Verif.Interp Verif.IntOps Verif.Strconv Verif.Spec

/-! ### Specification: numerals -/

/-- `c` is the digit `d`: 0-9, then a-z or A-Z. -/
def IsDigitChar (c : Byte) (d : Nat) : Prop :=
  (lit "0123456789abcdefghijklmnopqrstuvwxyz")[d]? = some c ∨
  (lit "0123456789ABCDEFGHIJKLMNOPQRSTUVWXYZ")[d]? = some c

/-- `t` is a numeral in `base` with value `n`. -/
inductive NumVal (base : Nat) : Str → Nat → Prop
  | one (c : Byte) (d : Nat) : IsDigitChar c d → d < base → NumVal base [c] d
  | snoc (t : Str) (n : Nat) (c : Byte) (d : Nat) :
      NumVal base t n → IsDigitChar c d → d < base → NumVal base (t ++ [c]) (n * base + d)

/-- A numeral with an optional sign. -/
def SignedVal (base : Nat) (s : Str) (z : Int) : Prop :=
  (∃ n : Nat, NumVal base s n ∧ z = n) ∨
  (∃ t, ∃ n : Nat, s = ch '+' :: t ∧ NumVal base t n ∧ z = n) ∨
  (∃ t, ∃ n : Nat, s = ch '-' :: t ∧ NumVal base t n ∧ z = -(n : Int))

/-- A numeral with an optional plus. -/
def PlusVal (base : Nat) (s : Str) (z : Int) : Prop :=
  (∃ n : Nat, NumVal base s n ∧ z = n) ∨
  (∃ t, ∃ n : Nat, s = ch '+' :: t ∧ NumVal base t n ∧ z = n)

instance (c : Byte) (d : Nat) : Decidable (IsDigitChar c d) := by
  unfold IsDigitChar; infer_instance

set_option maxRecDepth 100000 in
theorem isDigitChar_fin : ∀ (n : Fin 256) (d : Fin 36),
    IsDigitChar (BitVec.ofFin n) d ↔ digitVal (BitVec.ofFin n) = d := by decide +kernel

theorem isDigitChar_lt {c : Byte} {d : Nat} (h : IsDigitChar c d) : d < 36 := by
  rcases h with h | h <;> exact (List.getElem?_eq_some_iff.1 h).1

theorem isDigitChar_iff (c : Byte) (d : Nat) (hd : d < 36) : IsDigitChar c d ↔ digitVal c = d :=
  isDigitChar_fin c.toFin ⟨d, hd⟩

/-- The value of a list of digits as a fold. -/
def foldVal (base : Nat) (t : Str) (acc : Nat) : Nat :=
  t.foldl (fun a c => a * base + digitVal c) acc

theorem numVal_iff {base : Nat} (hb : base ≤ 36) (t : Str) (n : Nat) :
    NumVal base t n ↔ t ≠ [] ∧ (∀ c ∈ t, digitVal c < base) ∧ n = foldVal base t 0 := by
  constructor
  · intro h
    induction h with
    | one c d h1 h2 =>
      have := (isDigitChar_iff c d (by omega)).1 h1
      refine ⟨by simp, ?_, ?_⟩
      · intro x hx
        rw [List.mem_singleton] at hx
        subst hx; omega
      · simp [foldVal, this]
    | snoc t n c d _ h1 h2 ih =>
      have := (isDigitChar_iff c d (by omega)).1 h1
      refine ⟨by simp, ?_, ?_⟩
      · intro x hx
        rw [List.mem_append, List.mem_singleton] at hx
        rcases hx with hx | hx
        · exact ih.2.1 x hx
        · subst hx; omega
      · rw [foldVal, List.foldl_append, List.foldl_cons, List.foldl_nil, this]
        rw [ih.2.2, foldVal]
  · rintro ⟨h1, h2, rfl⟩
    induction t using List.reverseRecOn with
    | nil => exact absurd rfl h1
    | append_singleton t c ih =>
      have hc := h2 c (by simp)
      have hd := (isDigitChar_iff c (digitVal c) (by omega)).2 rfl
      by_cases ht : t = []
      · subst ht
        simpa [foldVal] using NumVal.one c _ hd hc
      · have := ih ht (fun x hx => h2 x (by simp [hx]))
        have := NumVal.snoc t _ c _ this hd hc
        rwa [foldVal, List.foldl_append]

/-! ### The libc functions -/

theorem digitsLoop_eq (base : Nat) (t : Str) : ∀ acc, digitsLoop base t acc =
    (foldVal base (t.takeWhile (fun c => decide (digitVal c < base))) acc,
     t.dropWhile (fun c => decide (digitVal c < base))) := by
  induction t with
  | nil => intro acc; rfl
  | cons c r ih =>
    intro acc
    rw [digitsLoop]
    by_cases h : digitVal c < base
    · rw [if_pos h, ih, List.takeWhile_cons_of_pos (by simpa using h),
        List.dropWhile_cons_of_pos (by simpa using h)]
      rfl
    · rw [if_neg h, List.takeWhile_cons_of_neg (by simpa using h),
        List.dropWhile_cons_of_neg (by simpa using h)]
      rfl

theorem takeWhile_all {p : Byte → Bool} : ∀ {t : Str}, (∀ c ∈ t, p c = true) → t.takeWhile p = t
  | [], _ => rfl
  | c :: r, h => by
    rw [List.takeWhile_cons_of_pos (h c (by simp)),
      takeWhile_all (fun x hx => h x (List.mem_cons_of_mem _ hx))]

theorem dropWhile_nil {p : Byte → Bool} : ∀ {t : Str}, t.dropWhile p = [] ↔ ∀ c ∈ t, p c = true
  | [] => by simp
  | c :: r => by
    by_cases h : p c = true
    · rw [List.dropWhile_cons_of_pos h, dropWhile_nil]; simp [h]
    · rw [List.dropWhile_cons_of_neg h]; simp [h]

/-- Reading the magnitude when the sign is gone. -/
def readMag (base : Nat) (neg : Bool) : Str → Option (Bool × Nat × Str)
  | [] => none
  | c :: r =>
    if digitVal c < base then
      let (n, rest) := digitsLoop base (c :: r) 0
      some (neg, n, rest)
    else none

theorem readMag_num {base : Nat} (hb : base ≤ 36) {t : Str} {n : Nat} (neg : Bool)
    (h : NumVal base t n) : readMag base neg t = some (neg, n, []) := by
  obtain ⟨h1, h2, h3⟩ := (numVal_iff hb t n).1 h
  cases t with
  | nil => exact absurd rfl h1
  | cons c r =>
    rw [readMag, if_pos (h2 c (by simp)), digitsLoop_eq]
    have ht : (c :: r).takeWhile (fun c => decide (digitVal c < base)) = c :: r := by
      exact takeWhile_all (fun x hx => by simpa using h2 x hx)
    have hd : (c :: r).dropWhile (fun c => decide (digitVal c < base)) = [] := by
      rw [dropWhile_nil]
      intro x hx; simpa using h2 x hx
    rw [ht, hd, h3]

theorem readMag_other {base : Nat} (hb : base ≤ 36) {t : Str} (neg : Bool)
    (h : ∀ n, ¬ NumVal base t n) :
    readMag base neg t = none ∨ ∃ n x rest, readMag base neg t = some (neg, n, x :: rest) := by
  cases t with
  | nil => exact Or.inl rfl
  | cons c r =>
    rw [readMag]
    by_cases hc : digitVal c < base
    · rw [if_pos hc, digitsLoop_eq]
      right
      have : (c :: r).dropWhile (fun c => decide (digitVal c < base)) ≠ [] := by
        intro e
        rw [dropWhile_nil] at e
        exact h _ ((numVal_iff hb _ _).2 ⟨by simp, fun x hx => by simpa using e x hx, rfl⟩)
      obtain ⟨x, rest, e⟩ := List.exists_cons_of_ne_nil this
      exact ⟨_, x, rest, by rw [e]⟩
    · rw [if_neg hc]; exact Or.inl rfl

theorem skipPrefix_eq {base : Nat} {s : Str} (h : base = 16 → ch 'x' ∉ s ∧ ch 'X' ∉ s) :
    skipPrefix base s = s := by
  unfold skipPrefix
  split
  · rename_i z x d r
    rw [if_neg]
    rintro ⟨h1, -, h2, -⟩
    have := h h1
    rcases h2 with h2 | h2
    · exact this.1 (by simp [h2])
    · exact this.2 (by simp [h2])
  · rfl

theorem skipSpace_eq {s : Str} (h : startsBlank s = false) : skipSpace s = s := by
  cases s with
  | nil => rfl
  | cons c r =>
    rw [startsBlank] at h
    rw [skipSpace, if_neg (by simp [h])]

theorem sign_mem (s : Str) : ∀ x ∈ (sign s).2, x ∈ s := by
  cases s with
  | nil => intro x hx; exact hx
  | cons c r =>
    intro x hx
    rw [sign] at hx
    split at hx
    · exact List.mem_cons_of_mem _ hx
    · split at hx
      · exact List.mem_cons_of_mem _ hx
      · exact hx

theorem strtox_eq {base : Nat} {s : Str} (h1 : startsBlank s = false)
    (h2 : base = 16 → ch 'x' ∉ s ∧ ch 'X' ∉ s) :
    strtox s base = readMag base (sign s).1 (sign s).2 := by
  unfold strtox
  rw [skipSpace_eq h1]
  simp only
  rw [skipPrefix_eq (fun h => ⟨fun hm => (h2 h).1 (sign_mem s _ hm), fun hm => (h2 h).2 (sign_mem s _ hm)⟩)]
  rfl

theorem strtoll_none {s : Str} {b : Nat} (h : strtox s b = none) : strtoll s b = none := by
  rw [strtoll, h]; rfl

theorem strtoll_some {s : Str} {b n : Nat} {neg : Bool} {rest : Str} {v : Int}
    (h : strtox s b = some (neg, n, rest)) (hv : v = if neg then -(n : Int) else n) :
    strtoll s b = some (max (-2 ^ 63) (min v (2 ^ 63 - 1)), rest,
      decide (¬ (-2 ^ 63 ≤ v ∧ v ≤ 2 ^ 63 - 1))) := by
  rw [strtoll, h, Option.map_some]
  simp only [← hv]
  clear hv h
  by_cases h1 : v < -2 ^ 63
  · rw [if_pos h1, show max (-2 ^ 63 : Int) (min v (2 ^ 63 - 1)) = -2 ^ 63 by omega,
      decide_eq_true (by omega)]
  · rw [if_neg h1]
    by_cases h2 : 2 ^ 63 ≤ v
    · rw [if_pos h2, show max (-2 ^ 63 : Int) (min v (2 ^ 63 - 1)) = 2 ^ 63 - 1 by omega,
        decide_eq_true (by omega)]
    · rw [if_neg h2, show max (-2 ^ 63 : Int) (min v (2 ^ 63 - 1)) = v by omega,
        decide_eq_false (by omega)]

theorem strtoull_none {s : Str} {b : Nat} (h : strtox s b = none) : strtoull s b = none := by
  rw [strtoull, h]; rfl

theorem strtoull_some {s : Str} {b n : Nat} {rest : Str} (h : strtox s b = some (false, n, rest)) :
    strtoull s b = some (min (n : Int) (2 ^ 64 - 1), rest, decide (2 ^ 64 ≤ n)) := by
  rw [strtoull, h, Option.map_some]
  simp only [Bool.false_eq_true, if_false]
  clear h
  by_cases h1 : 2 ^ 64 ≤ n
  · rw [if_pos h1, show min (n : Int) (2 ^ 64 - 1) = 2 ^ 64 - 1 by omega, decide_eq_true h1]
  · rw [if_neg h1, show min (n : Int) (2 ^ 64 - 1) = n by omega, decide_eq_false h1]

/-! ### C57 -/

/-- C57 as claimed: `to_int` and `to_uint` accept exactly the numerals of the base, give their value,
panic when it does not fit, on every other string and on every other base; and they invert `from_int`
and `from_uint`. -/
def C57_statement : Prop :=
  (∀ (s : Str) (base : Int), 2 ≤ base → base ≤ 36 →
    (∀ z, SignedVal base.toNat s z → ExactOrPanic (-2 ^ 63) (2 ^ 63 - 1) z id (toInt s base)) ∧
    ((∀ z, ¬ SignedVal base.toNat s z) → (toInt s base).isPanic = true) ∧
    (∀ z, PlusVal base.toNat s z → ExactOrPanic 0 (2 ^ 64 - 1) z id (toUint s base)) ∧
    ((∀ z, ¬ PlusVal base.toNat s z) → (toUint s base).isPanic = true)) ∧
  (∀ (s : Str) (base : Int), -2 ^ 63 ≤ base → base < 2 ^ 63 → ¬ (2 ≤ base ∧ base ≤ 36) →
    (toInt s base).isPanic = true ∧ (toUint s base).isPanic = true)

/-- 63 zeros and a 7 give 0; a zero byte ends the number; 0x is accepted; base 2^32 + 10 is base 10. -/
theorem C57_witness :
    toInt (List.replicate 63 (ch '0') ++ lit "7") 10 = .ok 0 ∧
    toInt (lit "12" ++ [0] ++ lit "abc") 10 = .ok 12 ∧
    toInt (lit "0x1F") 16 = .ok 31 ∧ toUint (lit "+0XfF") 16 = .ok 255 ∧
    toInt (lit "12") (2 ^ 32 + 10) = .ok 12 := by decide +kernel

theorem C57_fails : ¬ C57_statement := by
  intro h
  have := (h.2 (lit "12") (2 ^ 32 + 10) (by decide) (by decide) (by decide)).1
  rw [C57_witness.2.2.2.2] at this
  cases this

theorem digit_not_sign {base : Nat} (hb : base ≤ 36) {s t : Str} {n : Nat} {c : Byte}
    (hc : c = ch '-' ∨ c = ch '+') (h : s = c :: t) : ¬ NumVal base s n := by
  intro hn
  have := ((numVal_iff hb s n).1 hn).2.1 c (by rw [h]; simp)
  have hv : digitVal c = 99 := by rcases hc with rfl | rfl <;> decide
  omega

/-- What the sign leaves is a numeral exactly if the whole is a signed numeral. -/
theorem signed_iff {base : Nat} (hb : base ≤ 36) (s : Str) (z : Int) :
    SignedVal base s z ↔ ∃ n : Nat, NumVal base (sign s).2 n ∧
      z = if (sign s).1 then -(n : Int) else n := by
  constructor
  · rintro (⟨n, h1, h2⟩ | ⟨t, n, rfl, h1, h2⟩ | ⟨t, n, rfl, h1, h2⟩)
    · have hs : sign s = (false, s) := by
        cases s with
        | nil => rfl
        | cons c r =>
          rw [sign]
          by_cases h3 : c = ch '-'
          · exact absurd h1 (digit_not_sign hb (Or.inl h3) rfl)
          · by_cases h4 : c = ch '+'
            · exact absurd h1 (digit_not_sign hb (Or.inr h4) rfl)
            · rw [if_neg h3, if_neg h4]
      rw [hs]; exact ⟨n, h1, h2⟩
    · have hs : sign (ch '+' :: t) = (false, t) := by
        rw [sign, if_neg (by decide), if_pos rfl]
      rw [hs]; exact ⟨n, h1, h2⟩
    · have hs : sign (ch '-' :: t) = (true, t) := by rw [sign, if_pos rfl]
      rw [hs]; exact ⟨n, h1, h2⟩
  · rintro ⟨n, h1, h2⟩
    cases s with
    | nil => exact Or.inl ⟨n, h1, h2⟩
    | cons c r =>
      rw [sign] at h1 h2
      by_cases h3 : c = ch '-'
      · rw [if_pos h3] at h1 h2
        exact Or.inr (Or.inr ⟨r, n, by rw [h3], h1, h2⟩)
      · rw [if_neg h3] at h1 h2
        by_cases h4 : c = ch '+'
        · rw [if_pos h4] at h1 h2
          exact Or.inr (Or.inl ⟨r, n, by rw [h4], h1, h2⟩)
        · rw [if_neg h4] at h1 h2
          exact Or.inl ⟨n, h1, h2⟩

theorem plus_iff {base : Nat} (hb : base ≤ 36) (s : Str) (z : Int) :
    PlusVal base s z ↔ (sign s).1 = false ∧ ∃ n : Nat, NumVal base (sign s).2 n ∧ z = n := by
  have hs := signed_iff hb s z
  constructor
  · intro h
    have hf : (sign s).1 = false := by
      cases s with
      | nil => rfl
      | cons c r =>
        rw [sign]
        by_cases h3 : c = ch '-'
        · exfalso
          rcases h with ⟨n, h1, -⟩ | ⟨t, n, h1, -, -⟩
          · exact digit_not_sign hb (Or.inl h3) rfl h1
          · rw [h3] at h1
            exact absurd (List.cons.inj h1).1 (by decide)
        · rw [if_neg h3]; split <;> rfl
    refine ⟨hf, ?_⟩
    have := hs.1 (by rcases h with h | h; exacts [Or.inl h, Or.inr (Or.inl h)])
    rw [hf] at this
    exact this
  · rintro ⟨hf, n, h1, h2⟩
    rcases hs.2 ⟨n, h1, by rw [hf]; exact h2⟩ with h | h | ⟨t, m, h3, -, -⟩
    · exact Or.inl h
    · exact Or.inr h
    · subst h3
      rw [sign, if_pos rfl] at hf
      cases hf

theorem blank_not_signed {base : Nat} (hb : base ≤ 36) {s : Str} (h : startsBlank s = true) (z : Int) :
    ¬ SignedVal base s z := by
  cases s with
  | nil => cases h
  | cons c r =>
    rw [startsBlank] at h
    have hnd : ∀ n : Fin 256, isSpace (BitVec.ofFin n) = true → digitVal (BitVec.ofFin n) = 99 := by
      decide +kernel
    have h99 : digitVal c = 99 := hnd c.toFin h
    rintro (⟨n, h1, -⟩ | ⟨t, n, h1, -, -⟩ | ⟨t, n, h1, -, -⟩)
    · have := ((numVal_iff hb _ n).1 h1).2.1 c (by simp)
      omega
    · rw [(List.cons.inj h1).1] at h; exact absurd h (by decide)
    · rw [(List.cons.inj h1).1] at h; exact absurd h (by decide)

theorem base_conv {base : Int} (h1 : 2 ≤ base) (h2 : base ≤ 36) : conv (32, true) base = base :=
  conv_exact (t := .i32) (by simp only [InTy, loTy, hiTy]; omega)

/-- Strings of at most 63 bytes without zero bytes, and in base 16 without x: exactly the signed
numerals are accepted, with their value. Missing for the full claim: longer strings are cut, zero
bytes end the number, base 16 accepts the prefix 0x, and the base is cut to 32 bits. -/
theorem C57_partial (s : Str) (base : Int) (h1 : 2 ≤ base) (h2 : base ≤ 36) (hl : s.length ≤ 63)
    (h0 : 0 ∉ s) (hx : base = 16 → ch 'x' ∉ s ∧ ch 'X' ∉ s) :
    (∀ z, SignedVal base.toNat s z → ExactOrPanic (-2 ^ 63) (2 ^ 63 - 1) z id (toInt s base)) ∧
    ((∀ z, ¬ SignedVal base.toNat s z) → toInt s base = .panic "P0055") ∧
    (∀ z, PlusVal base.toNat s z → ExactOrPanic 0 (2 ^ 64 - 1) z id (toUint s base)) ∧
    ((∀ z, ¬ PlusVal base.toNat s z) → (toUint s base).isPanic = true) := by
  have hb : base.toNat ≤ 36 := by omega
  have hcp : copied s = s := List.take_of_length_le hl
  have hcs : cstr (copied s) = s := by rw [hcp, cstr_eq h0]
  by_cases hbl : startsBlank s = true
  · have hn := blank_not_signed hb hbl
    refine ⟨fun z hz => absurd hz (hn z), fun _ => ?_, fun z hz => ?_, fun _ => ?_⟩
    · rw [toInt, base_conv h1 h2, if_neg (by omega), hcp, if_pos hbl]
    · exact absurd (show SignedVal base.toNat s z by rcases hz with h | h; exacts [Or.inl h, Or.inr (Or.inl h)]) (hn z)
    · rw [toUint, base_conv h1 h2, if_neg (by omega), hcp, if_pos hbl]; rfl
  rw [Bool.not_eq_true] at hbl
  have hx' := strtox_eq (base := base.toNat) (s := s) hbl (fun h => hx (by omega))
  have hI : toInt s base = match strtoll s base.toNat with
      | none => .panic "P0055"
      | some (v, rest, erange) => if rest ≠ [] ∨ erange then .panic "P0055" else .ok v := by
    rw [toInt, base_conv h1 h2, if_neg (by omega), hcs, hcp, if_neg (by simp [hbl])]
    rfl
  have hm : minusLoop s = (sign s).1 := by
    cases s with
    | nil => rfl
    | cons c r =>
      rw [minusLoop, sign]
      rw [startsBlank] at hbl
      by_cases h3 : c = ch '-'
      · rw [if_pos h3, if_pos h3]
      · rw [if_neg h3, if_neg h3, if_neg (by simp [hbl])]
        split <;> rfl
  have hU : toUint s base = if (sign s).1 = true then .panic "P0058" else
      match strtoull s base.toNat with
      | none => .panic "P0057"
      | some (v, rest, erange) => if rest ≠ [] ∨ erange then .panic "P0057" else .ok v := by
    rw [toUint, base_conv h1 h2, if_neg (by omega), hcs, hcp, if_neg (by simp [hbl]), hm]
    rfl
  refine ⟨fun z hz => ?_, fun hn => ?_, fun z hz => ?_, fun hn => ?_⟩
  · obtain ⟨n, h3, h4⟩ := (signed_iff hb s z).1 hz
    rw [hI, strtoll_some (hx'.trans (readMag_num hb _ h3)) h4]
    simp only [ne_eq, not_true_eq_false, false_or, decide_eq_true_eq]
    constructor
    · intro hr
      rw [if_neg (not_not_intro hr)]
      exact ⟨_, rfl, by simp only [id]; omega⟩
    · intro hr
      rw [if_pos hr]; exact ⟨_, rfl⟩
  · have hn' : ∀ n, ¬ NumVal base.toNat (sign s).2 n := fun n hN =>
      hn _ ((signed_iff hb s _).2 ⟨n, hN, rfl⟩)
    rw [hI]
    rcases readMag_other hb (sign s).1 hn' with e | ⟨n, x, rest, e⟩
    · rw [strtoll_none (hx'.trans e)]
    · rw [strtoll_some (hx'.trans e) rfl]
      simp only [ne_eq, reduceCtorEq, not_false_eq_true, true_or, if_true]
  · obtain ⟨hf, n, h3, h4⟩ := (plus_iff hb s z).1 hz
    have hxx := hx'.trans (readMag_num hb _ h3)
    rw [hf] at hxx
    rw [hU, hf, if_neg (by decide), strtoull_some hxx]
    simp only [ne_eq, not_true_eq_false, false_or, decide_eq_true_eq]
    subst h4
    constructor
    · intro hr
      have : ¬ 2 ^ 64 ≤ n := by omega
      rw [if_neg this]
      exact ⟨_, rfl, by simp only [id]; omega⟩
    · intro hr
      have : 2 ^ 64 ≤ n := by omega
      rw [if_pos this]
      exact ⟨_, rfl⟩
  · rw [hU]
    by_cases hf : (sign s).1 = true
    · rw [if_pos hf]; rfl
    · rw [if_neg hf]
      rw [Bool.not_eq_true] at hf
      have hn' : ∀ n, ¬ NumVal base.toNat (sign s).2 n := fun n hN =>
        hn _ ((plus_iff hb s _).2 ⟨hf, n, hN, rfl⟩)
      rcases readMag_other hb (sign s).1 hn' with e | ⟨n, x, rest, e⟩
      · rw [strtoull_none (hx'.trans e)]; rfl
      · rw [hf] at e hx'
        rw [strtoull_some (hx'.trans e)]
        simp only [ne_eq, reduceCtorEq, not_false_eq_true, true_or, if_true]
        rfl

/-- The variants with an error result give an error exactly when the others panic, and the same
number otherwise. -/
theorem C57_result_partial (s : Str) (base : Int) :
    (∀ v, toIntResult s base = some v ↔ toInt s base = .ok v) ∧
    (toIntResult s base = none ↔ (toInt s base).isPanic = true) ∧
    (∀ v, toUintResult s base = some v ↔ toUint s base = .ok v) ∧
    (toUintResult s base = none ↔ (toUint s base).isPanic = true) := by
  have hI : (∃ c, toInt s base = .panic c ∧ toIntResult s base = none) ∨
      (∃ v, toInt s base = .ok v ∧ toIntResult s base = some v) := by
    unfold toInt toIntResult
    by_cases c1 : conv (32, true) base < 2 ∨ 36 < conv (32, true) base
    · simp only [if_pos c1]; exact Or.inl ⟨_, rfl, trivial⟩
    · by_cases c2 : startsBlank (copied s) = true
      · simp only [if_neg c1, if_pos c2]; exact Or.inl ⟨_, rfl, trivial⟩
      · simp only [if_neg c1, if_neg c2]
        cases strtoll (cstr (copied s)) (conv (32, true) base).toNat with
        | none => exact Or.inl ⟨_, rfl, rfl⟩
        | some x =>
          obtain ⟨v, rest, er⟩ := x
          simp only
          by_cases c3 : rest ≠ [] ∨ er = true
          · simp only [if_pos c3]; exact Or.inl ⟨_, rfl, trivial⟩
          · simp only [if_neg c3]; exact Or.inr ⟨_, rfl, rfl⟩
  have hU : (∃ c, toUint s base = .panic c ∧ toUintResult s base = none) ∨
      (∃ v, toUint s base = .ok v ∧ toUintResult s base = some v) := by
    unfold toUint toUintResult
    by_cases c1 : conv (32, true) base < 2 ∨ 36 < conv (32, true) base
    · simp only [if_pos c1]; exact Or.inl ⟨_, rfl, trivial⟩
    · by_cases c2 : startsBlank (copied s) = true
      · simp only [if_neg c1, if_pos c2]; exact Or.inl ⟨_, rfl, trivial⟩
      · by_cases c4 : minusLoop (copied s) = true
        · simp only [if_neg c1, if_neg c2, if_pos c4]; exact Or.inl ⟨_, rfl, trivial⟩
        · simp only [if_neg c1, if_neg c2, if_neg c4]
          cases strtoull (cstr (copied s)) (conv (32, true) base).toNat with
          | none => exact Or.inl ⟨_, rfl, rfl⟩
          | some x =>
            obtain ⟨v, rest, er⟩ := x
            simp only
            by_cases c3 : rest ≠ [] ∨ er = true
            · simp only [if_pos c3]; exact Or.inl ⟨_, rfl, trivial⟩
            · simp only [if_neg c3]; exact Or.inr ⟨_, rfl, rfl⟩
  rcases hI with ⟨c, a1, a2⟩ | ⟨v, a1, a2⟩ <;> rcases hU with ⟨d, b1, b2⟩ | ⟨w, b1, b2⟩ <;>
    rw [a1, a2, b1, b2] <;> simp [Outcome.isPanic, eq_comm]

theorem fromUint_num (n : Nat) : NumVal 10 (fromUint n) n := by
  rw [numVal_iff (by decide)]
  obtain ⟨⟨h1, h2, -, h3⟩, -⟩ := Bigint.decimalNat_isNumeral n
  unfold fromUint
  generalize Bigint.decimalNat n = t at *
  have hd : ∀ n : Fin 10, digitVal (BitVec.ofNat 8 (n + 48)) = n := by decide
  have hv : ∀ c, 48 ≤ c ∧ c ≤ 57 → digitVal (BitVec.ofNat 8 c) = c - 48 := by
    intro c hc
    have := hd ⟨c - 48, by omega⟩
    simp only at this
    rwa [show c - 48 + 48 = c by omega] at this
  refine ⟨by simpa using h1, ?_, ?_⟩
  · intro c hc
    rw [List.mem_map] at hc
    obtain ⟨x, hx, rfl⟩ := hc
    rw [hv x (h2 x hx)]
    have := h2 x hx
    omega
  · rw [← h3]
    clear h1 h3
    unfold digitsVal foldVal
    generalize 0 = acc
    induction t generalizing acc with
    | nil => rfl
    | cons c r ih =>
      rw [List.map_cons, List.foldl_cons, List.foldl_cons, hv c (h2 c (by simp))]
      exact ih (fun x hx => h2 x (List.mem_cons_of_mem _ hx)) _

theorem numVal_no_zero {base : Nat} (hb : base ≤ 36) {t : Str} {n : Nat} (h : NumVal base t n) :
    0 ∉ t := by
  intro hm
  have := ((numVal_iff hb t n).1 h).2.1 0 hm
  have hv : digitVal 0 = 99 := by decide
  omega

theorem fromUint_length {n : Nat} (h : n < 10 ^ 20) : (fromUint n).length ≤ 20 := by
  rw [fromUint, List.length_map]
  exact Bigint.decimalNat_length (by decide) h

/-- `to_int` inverts `from_int` and `to_uint` inverts `from_uint`. -/
theorem C57_roundtrip_partial (n : Int) :
    (-2 ^ 63 ≤ n ∧ n < 2 ^ 63 → toInt (fromInt n) 10 = .ok n) ∧
    (0 ≤ n ∧ n < 2 ^ 64 → toUint (fromUint n.toNat) 10 = .ok n) := by
  constructor
  · intro h
    have hlen : (fromInt n).length ≤ 63 := by
      unfold fromInt
      have := fromUint_length (n := n.natAbs) (by omega)
      split
      · rw [List.length_cons]; omega
      · omega
    have hnum := fromUint_num n.natAbs
    have h0 : 0 ∉ fromInt n := by
      have := numVal_no_zero (by decide) hnum
      unfold fromInt
      split
      · rw [List.mem_cons, not_or]; exact ⟨by decide, this⟩
      · exact this
    have hs : SignedVal (10 : Int).toNat (fromInt n) n := by
      unfold fromInt
      by_cases hn : n < 0
      · rw [if_pos hn]; exact Or.inr (Or.inr ⟨_, n.natAbs, rfl, hnum, by omega⟩)
      · rw [if_neg hn]; exact Or.inl ⟨n.natAbs, hnum, by omega⟩
    obtain ⟨r, h1, h2⟩ := ((C57_partial (fromInt n) 10 (by decide) (by decide) hlen h0
      (fun h => absurd h (by decide))).1 n hs).1 (by omega)
    rw [h1, ← h2]; rfl
  · intro h
    have hlen := fromUint_length (n := n.toNat) (by omega)
    have hnum := fromUint_num n.toNat
    obtain ⟨r, h1, h2⟩ := ((C57_partial (fromUint n.toNat) 10 (by decide) (by decide) (by omega)
      (numVal_no_zero (by decide) hnum) (fun h => absurd h (by decide))).2.2.1 n
      (Or.inl ⟨n.toNat, hnum, by omega⟩)).1 (by omega)
    rw [h1, ← h2]; rfl

example : SignedVal 16 (lit "-fF") (-255) :=
  Or.inr (Or.inr ⟨lit "fF", 255, rfl, NumVal.snoc (lit "f") 15 (ch 'F') 15
    (NumVal.one (ch 'f') 15 (by decide) (by decide)) (by decide) (by decide), rfl⟩)

/-! ### C105: int("…") -/

/-- C105 as claimed: `int(s)` accepts exactly the signed decimal numerals in range. -/
def C105_statement : Prop :=
  ∀ s : Str, (∀ z, SignedVal 10 s z → ExactOrPanic (-2 ^ 63) (2 ^ 63 - 1) z id (stringToInt s)) ∧
    ((∀ z, ¬ SignedVal 10 s z) → (stringToInt s).isPanic = true)

/-- Numbers out of range are clamped, text after a space is ignored, long digit strings are cut. -/
theorem C105_witness : stringToInt (lit "99999999999999999999") = .ok (2 ^ 63 - 1) ∧
    stringToInt (lit "12 apples") = .ok 12 ∧ stringToInt (ch '\n' :: lit "5") = .ok 5 ∧
    stringToInt (List.replicate 63 (ch '0') ++ lit "7") = .ok 0 ∧
    stringToInt (lit "7" ++ [0] ++ lit "x") = .ok 7 := by decide +kernel

theorem C105_fails : ¬ C105_statement := by
  intro h
  have := (h (lit "12 apples")).2 (by
    intro z hz
    obtain ⟨n, h1, -⟩ := (signed_iff (by decide) _ z).1 hz
    have := ((numVal_iff (by decide) _ n).1 h1).2.1 (ch ' ') (by decide)
    exact absurd this (by decide))
  rw [C105_witness.2.1] at this
  cases this

/-- Signed numerals of at most 63 bytes give their value, clamped to the range; strings without blanks
and zero bytes that are not numerals panic. Missing for the full claim: no panic out of range, text
around blanks, longer strings, zero bytes. -/
theorem C105_partial (s : Str) (hl : s.length ≤ 63) (h0 : 0 ∉ s) (hb : ∀ c ∈ s, isSpace c = false) :
    (∀ z, SignedVal 10 s z → stringToInt s = .ok (max (-2 ^ 63) (min z (2 ^ 63 - 1)))) ∧
    ((∀ z, ¬ SignedVal 10 s z) → stringToInt s = .panic "P0084") := by
  have hcp : copied s = s := List.take_of_length_le hl
  have hcs : cstr (copied s) = s := by rw [hcp, cstr_eq h0]
  have hbl : startsBlank s = false := by
    cases s with
    | nil => rfl
    | cons c r => exact hb c (by simp)
  have hx' := strtox_eq (base := 10) (s := s) hbl (fun h => absurd h (by decide))
  have hmem : ∀ n x rest, readMag 10 (sign s).1 (sign s).2 = some ((sign s).1, n, x :: rest) → x ∈ s := by
    intro n x rest h
    have hm := sign_mem s
    generalize (sign s).2 = t at *
    generalize (sign s).1 = neg at *
    cases t with
    | nil => cases h
    | cons c r =>
      rw [readMag] at h
      split at h
      · rw [digitsLoop_eq] at h
        injection h with h; injection h with _ h; injection h with _ h
        apply hm
        have : x ∈ x :: rest := by simp
        rw [← h] at this
        exact (List.dropWhile_suffix _).subset this
      · cases h
  constructor
  · intro z hz
    obtain ⟨n, h3, h4⟩ := (signed_iff (by decide) s z).1 hz
    rw [stringToInt, hcs, strtoll_some (hx'.trans (readMag_num (by decide) _ h3)) h4]
    simp only [true_or, if_true]
  · intro hn
    have hn' : ∀ n, ¬ NumVal 10 (sign s).2 n := fun n hN =>
      hn _ ((signed_iff (by decide) s _).2 ⟨n, hN, rfl⟩)
    rw [stringToInt, hcs]
    rcases readMag_other (by decide) (sign s).1 hn' with e | ⟨n, x, rest, e⟩
    · rw [strtoll_none (hx'.trans e)]
    · have hsp := hb x (hmem n x rest e)
      have hne : x ≠ ch ' ' := by rintro rfl; exact absurd hsp (by decide)
      rw [strtoll_some (hx'.trans e) rfl]
      simp only [reduceCtorEq, List.head?_cons, Option.some.injEq, hne, or_self, if_false]

/-! ### C106: is_integer, is_numeric, to_bool -/

def Decimal (c : Byte) : Prop := 48 ≤ c.toNat ∧ c.toNat ≤ 57

/-- `s` is `t` with an optional sign. -/
def OptSign (s t : Str) : Prop := s = t ∨ s = ch '+' :: t ∨ s = ch '-' :: t

theorem isDigit_iff (c : Byte) : isDigit c = true ↔ Decimal c := by
  simp [isDigit, between, Decimal]

theorem integerLoop_iff (t : Str) : integerLoop t = true ↔ ∀ c ∈ t, Decimal c := by
  induction t with
  | nil => simp [integerLoop]
  | cons c r ih =>
    rw [integerLoop, List.forall_mem_cons, ← isDigit_iff, ← ih]
    cases isDigit c <;> simp

/-- C106: is_integer holds exactly of an optional sign and one or more digits. -/
theorem C106_integer (s : Str) : isInteger s = true ↔
    ∃ t, OptSign s t ∧ t ≠ [] ∧ ∀ c ∈ t, Decimal c := by
  cases s with
  | nil =>
    constructor
    · intro h; cases h
    · rintro ⟨t, h | h | h, h2, -⟩
      · exact absurd h.symm h2
      · cases h
      · cases h
  | cons c r =>
    rw [isInteger]
    by_cases hc : c = ch '-' ∨ c = ch '+'
    · rw [if_pos hc]
      have hnd : ¬ Decimal c := by rcases hc with rfl | rfl <;> (unfold Decimal; decide)
      by_cases hr : r = []
      · subst hr
        rw [if_pos rfl]
        constructor
        · intro h; cases h
        · rintro ⟨t, h | h | h, h2, h3⟩
          · subst h; exact absurd (h3 c (by simp)) hnd
          · exact absurd (List.cons.inj h).2.symm h2
          · exact absurd (List.cons.inj h).2.symm h2
      · rw [if_neg hr, integerLoop_iff]
        constructor
        · intro h
          refine ⟨r, ?_, hr, h⟩
          rcases hc with rfl | rfl
          · exact Or.inr (Or.inr rfl)
          · exact Or.inr (Or.inl rfl)
        · rintro ⟨t, h | h | h, h2, h3⟩
          · subst h; exact absurd (h3 c (by simp)) hnd
          · rw [(List.cons.inj h).2]; exact h3
          · rw [(List.cons.inj h).2]; exact h3
    · rw [if_neg hc, integerLoop_iff]
      rw [not_or] at hc
      constructor
      · intro h; exact ⟨_, Or.inl rfl, by simp, h⟩
      · rintro ⟨t, h | h | h, h2, h3⟩
        · rw [h]; exact h3
        · exact absurd (List.cons.inj h).1 hc.2
        · exact absurd (List.cons.inj h).1 hc.1

theorem numericLoop_iff (t : Str) : ∀ (dot dig : Bool), numericLoop t dot dig = true ↔
    (∀ c ∈ t, Decimal c ∨ c = ch '.') ∧ t.count (ch '.') ≤ (if dot then 0 else 1) ∧
    (dig = true ∨ ∃ c ∈ t, Decimal c) := by
  induction t with
  | nil => intro dot dig; simp [numericLoop]
  | cons c r ih =>
    intro dot dig
    rw [numericLoop]
    have hdd : ¬ Decimal (ch '.') := by unfold Decimal; decide
    by_cases hc : c = ch '.'
    · subst hc
      rw [if_pos rfl, List.count_cons_self]
      cases dot with
      | true =>
        simp only [if_true]
        constructor
        · intro h; cases h
        · rintro ⟨-, h, -⟩; omega
      | false =>
        simp only [Bool.false_eq_true, if_false]
        rw [ih]
        simp only [if_true, List.forall_mem_cons, or_true, true_and, List.exists_mem_cons_iff, hdd,
          false_or]
        constructor
        · rintro ⟨h1, h2, h3⟩; exact ⟨h1, by omega, h3⟩
        · rintro ⟨h1, h2, h3⟩; exact ⟨h1, by omega, h3⟩
    · rw [if_neg hc, List.count_cons_of_ne hc]
      by_cases hd : Decimal c
      · rw [if_pos ((isDigit_iff c).2 hd), ih]
        simp [hd]
      · rw [if_neg (fun h => hd ((isDigit_iff c).1 h))]
        simp [hd, hc]

/-- C106: is_numeric holds exactly of an optional sign and digits with at most one point among them,
at least one digit. -/
theorem C106_numeric (s : Str) : isNumeric s = true ↔
    ∃ t, OptSign s t ∧ (∀ c ∈ t, Decimal c ∨ c = ch '.') ∧ t.count (ch '.') ≤ 1 ∧
      ∃ c ∈ t, Decimal c := by
  have hl : ∀ t, numericLoop t false false = true ↔ (∀ c ∈ t, Decimal c ∨ c = ch '.') ∧
      t.count (ch '.') ≤ 1 ∧ ∃ c ∈ t, Decimal c := by
    intro t
    rw [numericLoop_iff]
    simp
  cases s with
  | nil =>
    constructor
    · intro h; cases h
    · rintro ⟨t, h | h | h, -, -, c, hc, -⟩
      · subst h; cases hc
      · cases h
      · cases h
  | cons c r =>
    rw [isNumeric]
    by_cases hc : c = ch '-' ∨ c = ch '+'
    · rw [if_pos hc]
      have hnd : ¬ (Decimal c ∨ c = ch '.') := by
        rcases hc with rfl | rfl <;> (unfold Decimal; decide)
      have key : (∃ t, OptSign (c :: r) t ∧ (∀ c ∈ t, Decimal c ∨ c = ch '.') ∧
          t.count (ch '.') ≤ 1 ∧ ∃ c ∈ t, Decimal c) ↔ numericLoop r false false = true := by
        rw [hl]
        constructor
        · rintro ⟨t, h | h | h, h2⟩
          · subst h; exact absurd (h2.1 c (by simp)) hnd
          · rw [(List.cons.inj h).2]; exact h2
          · rw [(List.cons.inj h).2]; exact h2
        · intro h
          refine ⟨r, ?_, h⟩
          rcases hc with rfl | rfl
          · exact Or.inr (Or.inr rfl)
          · exact Or.inr (Or.inl rfl)
      rw [key]
      by_cases hr : r = []
      · subst hr; simp [numericLoop]
      · rw [if_neg hr]
    · rw [if_neg hc, hl]
      rw [not_or] at hc
      constructor
      · intro h; exact ⟨_, Or.inl rfl, h⟩
      · rintro ⟨t, h | h | h, h2⟩
        · rw [h]; exact h2
        · exact absurd (List.cons.inj h).1 hc.2
        · exact absurd (List.cons.inj h).1 hc.1

/-- `s` is the lower-case word `w` in any mixture of cases. -/
def AnyCase (s w : Str) : Prop := List.Forall₂ (fun c l => c = l ∨ c.toNat + 32 = l.toNat) s w

set_option maxRecDepth 100000 in
theorem lower_fin : ∀ n m : Fin 256, isLower (BitVec.ofFin m) = true →
    (toLowerB (BitVec.ofFin n) = BitVec.ofFin m ↔
      ((BitVec.ofFin n : Byte) = BitVec.ofFin m ∨ n.val + 32 = m.val)) := by decide +kernel

theorem anyCase_iff (w : Str) (hw : ∀ c ∈ w, isLower c = true) : ∀ s : Str,
    s.map toLowerB = w ↔ AnyCase s w := by
  unfold AnyCase
  induction w with
  | nil => intro s; simp
  | cons l r ih =>
    intro s
    cases s with
    | nil => simp
    | cons c t =>
      rw [List.map_cons, List.cons.injEq, List.forall₂_cons,
        ih (fun x hx => hw x (List.mem_cons_of_mem _ hx))]
      exact and_congr_left' (lower_fin c.toFin l.toFin (hw l (by simp)))

/-- C106: to_bool accepts exactly the words true and false in any case. -/
theorem C106_bool (s : Str) : (Strconv.toBool s = .ok true ↔ AnyCase s (lit "true")) ∧
    (Strconv.toBool s = .ok false ↔ AnyCase s (lit "false")) ∧
    (¬ AnyCase s (lit "true") → ¬ AnyCase s (lit "false") → Strconv.toBool s = .panic "P0060") := by
  have ht := anyCase_iff (lit "true") (by decide) s
  have hf := anyCase_iff (lit "false") (by decide) s
  rw [← ht, ← hf]
  have hl : ∀ w, s.map toLowerB = w → s.length = w.length := by
    intro w h; rw [← h, List.length_map]
  unfold Strconv.toBool
  by_cases h1 : s.map toLowerB = lit "true"
  · rw [if_pos ⟨hl _ h1, h1⟩, h1]
    refine ⟨by simp, ⟨fun h => by simp at h, fun h => absurd h (by decide)⟩, fun h => absurd rfl h⟩
  · rw [if_neg (fun h => h1 h.2)]
    by_cases h2 : s.map toLowerB = lit "false"
    · rw [if_pos ⟨hl _ h2, h2⟩, h2]
      refine ⟨⟨fun h => by simp at h, fun h => absurd h (by decide)⟩, by simp, fun _ h => absurd rfl h⟩
    · rw [if_neg (fun h => h2 h.2)]
      simp [h1, h2]

example : isNumeric (lit "-.5") = true ∧ isNumeric (lit "1.2.3") = false ∧
    isInteger (lit "+42") = true ∧ isInteger (lit "4_2") = false ∧ Strconv.toBool (lit "TrUe") = .ok true := by
  decide +kernel

end Verif.Props

import Verif.Model.Json

/-! The JSON grammar (RFC 8259) on bytes, and the validator against it. -/
namespace Verif.Props.JsonG
open Verif Verif.Str

/-! ### Grammar

Whitespace is a parameter `W`. Bytes from 0x80 on are characters of strings; that they form UTF-8 is not
part of the grammar. -/

/-- A run of whitespace. -/
def Ws (W : Byte → Prop) (s : Str) : Prop := ∀ c ∈ s, W c

/-- The contents of a string (section 7). -/
inductive Chars : Str → Prop where
  | nil : Chars []
  | plain {c : Byte} {s : Str} : 0x20 ≤ c.toNat → c ≠ ch '"' → c ≠ ch '\\' → Chars s → Chars (c :: s)
  | short {e : Byte} {s : Str} : e ∈ lit "\"\\/bfnrt" → Chars s → Chars (ch '\\' :: e :: s)
  | uni {a b c d : Byte} {s : Str} : (∀ x ∈ [a, b, c, d], x ∈ lit "0123456789abcdefABCDEF") → Chars s →
      Chars (ch '\\' :: ch 'u' :: a :: b :: c :: d :: s)

/-- A run of at least one digit. -/
def Digits (s : Str) : Prop := s ≠ [] ∧ ∀ c ∈ s, c ∈ lit "0123456789"

/-- The integer part of a number (section 6). -/
def IntPart (s : Str) : Prop :=
  s = lit "0" ∨ ∃ d ds, s = d :: ds ∧ d ∈ lit "123456789" ∧ ∀ c ∈ ds, c ∈ lit "0123456789"

def FracPart (s : Str) : Prop := s = [] ∨ ∃ ds, s = ch '.' :: ds ∧ Digits ds

def ExpPart (s : Str) : Prop :=
  s = [] ∨ ∃ e g ds, s = e :: (g ++ ds) ∧ e ∈ lit "eE" ∧ (g = [] ∨ g = lit "+" ∨ g = lit "-") ∧ Digits ds

/-- A number (section 6). -/
def Number (s : Str) : Prop :=
  ∃ m i f e, s = m ++ i ++ f ++ e ∧ (m = [] ∨ m = lit "-") ∧ IntPart i ∧ FracPart f ∧ ExpPart e

/-- A string with its quotes. -/
def Quoted (s : Str) : Prop := ∃ t, Chars t ∧ s = ch '"' :: (t ++ [ch '"'])

/-- Items with commas between. -/
def commas : List Str → Str
  | [] => []
  | [x] => x
  | x :: y :: r => x ++ ch ',' :: commas (y :: r)

/-- An item of an array with whitespace around. -/
def Padded (W : Byte → Prop) (P : Str → Prop) (s : Str) : Prop :=
  ∃ w v w', Ws W w ∧ P v ∧ Ws W w' ∧ s = w ++ (v ++ w')

/-- A member of an object with whitespace around. -/
def Member (W : Byte → Prop) (P : Str → Prop) (s : Str) : Prop :=
  ∃ k v, Padded W Quoted k ∧ Padded W P v ∧ s = k ++ ch ':' :: v

/-- Values that are not nested: strings, numbers, literals, and empty arrays and objects. -/
inductive Flat (W : Byte → Prop) : Str → Prop where
  | str {s : Str} : Quoted s → Flat W s
  | num {s : Str} : Number s → Flat W s
  | true : Flat W (lit "true")
  | false : Flat W (lit "false")
  | null : Flat W (lit "null")
  | arr {w : Str} : Ws W w → Flat W (ch '[' :: (w ++ [ch ']']))
  | obj {w : Str} : Ws W w → Flat W (ch '{' :: (w ++ [ch '}']))

/-- Values with at most so many levels of arrays and objects that are not empty (sections 3 to 5). -/
def Value (W : Byte → Prop) : Nat → Str → Prop
  | 0, s => Flat W s
  | n + 1, s => Flat W s ∨
      (∃ items, items ≠ [] ∧ (∀ x ∈ items, Padded W (Value W n) x) ∧ s = ch '[' :: (commas items ++ [ch ']'])) ∨
      (∃ ms, ms ≠ [] ∧ (∀ x ∈ ms, Member W (Value W n) x) ∧ s = ch '{' :: (commas ms ++ [ch '}']))

/-- A JSON text (section 2). -/
def Text (W : Byte → Prop) (n : Nat) (s : Str) : Prop := Padded W (Value W n) s

/-- The whitespace of RFC 8259. -/
def Rfc (c : Byte) : Prop := c ∈ lit " \t\n\r"

/-- The whitespace of `isspace`. -/
def Spc (c : Byte) : Prop := isSpace c = true

/-! ### Character classes -/

theorem simple_mem (c : Byte) : Json.simpleEsc c = true ↔ c ∈ lit "\"\\/bfnrt" := by
  have key : ∀ n : Fin 256, Json.simpleEsc (BitVec.ofFin n : Byte) = true ↔
      (BitVec.ofFin n : Byte) ∈ lit "\"\\/bfnrt" := by decide +kernel
  exact key c.toFin

theorem hex_mem (c : Byte) : isXDigit c = true ↔ c ∈ lit "0123456789abcdefABCDEF" := by
  have key : ∀ n : Fin 256, isXDigit (BitVec.ofFin n : Byte) = true ↔
      (BitVec.ofFin n : Byte) ∈ lit "0123456789abcdefABCDEF" := by decide +kernel
  exact key c.toFin

theorem digit_mem (c : Byte) : isDigit c = true ↔ c ∈ lit "0123456789" := by
  have key : ∀ n : Fin 256, isDigit (BitVec.ofFin n : Byte) = true ↔ (BitVec.ofFin n : Byte) ∈ lit "0123456789" := by
    decide +kernel
  exact key c.toFin

theorem nonzero_mem (c : Byte) : between 49 c 57 = true ↔ c ∈ lit "123456789" := by
  have key : ∀ n : Fin 256, between 49 (BitVec.ofFin n : Byte) 57 = true ↔
      (BitVec.ofFin n : Byte) ∈ lit "123456789" := by decide +kernel
  exact key c.toFin

/-! ### Strings -/

theorem vChars_sound : ∀ (n : Nat) (s r : Str), s.length ≤ n → Json.vChars s = some r →
    ∃ t, Chars t ∧ s = t ++ ch '"' :: r := by
  intro n
  induction n with
  | zero =>
    intro s r hl h
    have e : s = [] := List.length_eq_zero_iff.1 (by omega)
    subst e; cases h
  | succ n ih =>
    intro s r hl h
    cases s with
    | nil => cases h
    | cons c s =>
      rw [Json.vChars.eq_def] at h
      dsimp only at h
      by_cases h1 : c = 34
      · rw [if_pos h1] at h
        cases h
        exact ⟨[], .nil, by rw [h1]; rfl⟩
      · rw [if_neg h1] at h
        by_cases h2 : c = 92
        · rw [if_pos h2] at h
          subst h2
          match s, h, hl with
          | e :: s, h, hl =>
            dsimp only at h
            by_cases h3 : Json.simpleEsc e = true
            · rw [if_pos h3] at h
              obtain ⟨t, ht, rfl⟩ := ih s r (by simp at hl; omega) h
              exact ⟨_, .short ((simple_mem e).1 h3) ht, rfl⟩
            · rw [if_neg h3] at h
              by_cases h4 : e = 117
              · rw [if_pos h4] at h
                subst h4
                match s, h, hl with
                | a :: b :: c :: d :: s, h, hl =>
                  dsimp only at h
                  split at h
                  · next hx =>
                    simp only [Bool.and_eq_true] at hx
                    obtain ⟨t, ht, rfl⟩ := ih s r (by simp at hl; omega) h
                    refine ⟨_, .uni (a := a) (b := b) (c := c) (d := d) ?_ ht, rfl⟩
                    intro x hxm
                    simp only [List.mem_cons, List.not_mem_nil, or_false] at hxm
                    rcases hxm with rfl | rfl | rfl | rfl
                    · exact (hex_mem _).1 hx.1.1.1
                    · exact (hex_mem _).1 hx.1.1.2
                    · exact (hex_mem _).1 hx.1.2
                    · exact (hex_mem _).1 hx.2
                  · cases h
              · rw [if_neg h4] at h; cases h
        · rw [if_neg h2] at h
          by_cases h3 : c.toNat < 0x20
          · rw [if_pos h3] at h; cases h
          · rw [if_neg h3] at h
            obtain ⟨t, ht, rfl⟩ := ih s r (by simp at hl; omega) h
            exact ⟨_, .plain (by omega) h1 h2 ht, rfl⟩

theorem vChars_complete {t : Str} (h : Chars t) (r : Str) : Json.vChars (t ++ ch '"' :: r) = some r := by
  induction h with
  | nil =>
    rw [Json.vChars.eq_def]
    exact if_pos rfl
  | @plain c s h0 h1 h2 _ ih =>
    rw [List.cons_append, Json.vChars.eq_def]
    dsimp only
    rw [if_neg (show ¬ c = 34 from h1), if_neg (show ¬ c = 92 from h2), if_neg (by omega), ih]
  | @short e s he _ ih =>
    rw [List.cons_append, List.cons_append, Json.vChars.eq_def]
    dsimp only
    rw [if_neg (by decide), if_pos (by decide)]
    rw [if_pos ((simple_mem e).2 he), ih]
  | @uni a b c d s hx _ ih =>
    rw [List.cons_append, Json.vChars.eq_def]
    show (if ch '\\' = 34 then _ else _) = _
    rw [if_neg (by decide), if_pos (by decide)]
    show (if Json.simpleEsc (ch 'u') = true then _ else _) = _
    rw [if_neg (by decide), if_pos (by decide)]
    show (if (isXDigit a && isXDigit b && isXDigit c && isXDigit d) = true then Json.vChars (s ++ ch '"' :: r) else none) = _
    rw [if_pos, ih]
    simp only [Bool.and_eq_true]
    exact ⟨⟨⟨(hex_mem a).2 (hx a (by simp)), (hex_mem b).2 (hx b (by simp))⟩, (hex_mem c).2 (hx c (by simp))⟩,
      (hex_mem d).2 (hx d (by simp))⟩

theorem vString_sound {s r : Str} (h : Json.vString s = some r) : ∃ q, Quoted q ∧ s = q ++ r := by
  cases s with
  | nil => cases h
  | cons c s =>
    rw [Json.vString] at h
    by_cases hc : c = 34
    · rw [if_pos hc] at h
      obtain ⟨t, ht, rfl⟩ := vChars_sound _ s r (Nat.le_refl _) h
      exact ⟨_, ⟨t, ht, rfl⟩, by rw [hc]; simp [ch]⟩
    · rw [if_neg hc] at h; cases h

theorem vString_complete {q : Str} (h : Quoted q) (r : Str) : Json.vString (q ++ r) = some r := by
  obtain ⟨t, ht, rfl⟩ := h
  have e : ch '"' :: (t ++ [ch '"']) ++ r = ch '"' :: (t ++ ch '"' :: r) := by simp
  rw [e, Json.vString, if_pos (by rfl), vChars_complete ht]

/-! ### Numbers -/

theorem dropWhile_app {p : Byte → Bool} {d r : Str} (hd : ∀ c ∈ d, p c = true)
    (hr : ∀ c, r.head? = some c → p c = false) : (d ++ r).dropWhile p = r := by
  induction d with
  | nil =>
    cases r with
    | nil => rfl
    | cons c r => exact List.dropWhile_cons_of_neg (by rw [hr c rfl]; decide)
  | cons c d ih =>
    rw [List.cons_append, List.dropWhile_cons_of_pos (hd c (by simp))]
    exact ih fun x hx => hd x (by simp [hx])

theorem dropWhile_split (p : Byte → Bool) (s : Str) :
    ∃ w, (∀ c ∈ w, p c = true) ∧ s = w ++ s.dropWhile p := by
  induction s with
  | nil => exact ⟨[], by simp, rfl⟩
  | cons a s ih =>
    by_cases h : p a = true
    · obtain ⟨w, hw, e⟩ := ih
      refine ⟨a :: w, fun c hc => ?_, by rw [List.dropWhile_cons_of_pos h, List.cons_append, ← e]⟩
      rcases List.mem_cons.1 hc with rfl | hc
      · exact h
      · exact hw c hc
    · exact ⟨[], by simp, by rw [List.dropWhile_cons_of_neg h]; rfl⟩

/-- What may follow a value. -/
def Follow (r : Str) : Prop := ∀ c, r.head? = some c → Spc c ∨ c = ch ',' ∨ c = ch ']' ∨ c = ch '}'

def NoDigit (r : Str) : Prop := ∀ c, r.head? = some c → isDigit c = false

theorem follow_char {c : Byte} (h : Spc c ∨ c = ch ',' ∨ c = ch ']' ∨ c = ch '}') :
    isDigit c = false ∧ c ≠ 46 ∧ ¬ (c = 101 ∨ c = 69) := by
  have key : ∀ n : Fin 256, (isSpace (BitVec.ofFin n : Byte) = true ∨ (BitVec.ofFin n : Byte) = ch ',' ∨
      (BitVec.ofFin n : Byte) = ch ']' ∨ (BitVec.ofFin n : Byte) = ch '}') →
      isDigit (BitVec.ofFin n : Byte) = false ∧ (BitVec.ofFin n : Byte) ≠ 46 ∧
        ¬ ((BitVec.ofFin n : Byte) = 101 ∨ (BitVec.ofFin n : Byte) = 69) := by decide +kernel
  exact key c.toFin h

theorem vDigits_sound {s r : Str} (h : Json.vDigits s = some r) : ∃ d, Digits d ∧ s = d ++ r := by
  cases s with
  | nil => cases h
  | cons c s =>
    rw [Json.vDigits] at h
    split at h
    · next hc =>
      cases h
      obtain ⟨w, hw, e⟩ := dropWhile_split isDigit s
      refine ⟨c :: w, ⟨by simp, ?_⟩, by rw [List.cons_append, ← e]⟩
      intro x hx
      rcases List.mem_cons.1 hx with rfl | hx
      · exact (digit_mem _).1 hc
      · exact (digit_mem _).1 (hw x hx)
    · cases h

theorem vDigits_complete {d r : Str} (hd : Digits d) (hr : NoDigit r) : Json.vDigits (d ++ r) = some r := by
  obtain ⟨h0, h1⟩ := hd
  cases d with
  | nil => exact absurd rfl h0
  | cons c d =>
    rw [List.cons_append, Json.vDigits, if_pos ((digit_mem c).2 (h1 c (by simp))),
      dropWhile_app (fun x hx => (digit_mem x).2 (h1 x (by simp [hx]))) hr]

theorem digits_head {d : Str} (h : Digits d) (r : Str) : ∃ c, (d ++ r).head? = some c ∧ isDigit c = true := by
  obtain ⟨h0, h1⟩ := h
  cases d with
  | nil => exact absurd rfl h0
  | cons c d => exact ⟨c, rfl, (digit_mem c).2 (h1 c (by simp))⟩

theorem vInt_sound {s r : Str} (h : Json.vInt s = some r) : ∃ i, IntPart i ∧ s = i ++ r := by
  cases s with
  | nil => cases h
  | cons c s =>
    rw [Json.vInt] at h
    split at h
    · next hc => cases h; exact ⟨lit "0", .inl rfl, by rw [hc]; rfl⟩
    · split at h
      · next hc =>
        cases h
        have hd : isDigit c = true := (digit_mem c).2 (by
          have := (nonzero_mem c).1 hc
          revert this
          have key : ∀ n : Fin 256, (BitVec.ofFin n : Byte) ∈ lit "123456789" →
            (BitVec.ofFin n : Byte) ∈ lit "0123456789" := by decide +kernel
          exact key c.toFin)
        rw [List.dropWhile_cons_of_pos hd]
        obtain ⟨w, hw, e⟩ := dropWhile_split isDigit s
        exact ⟨c :: w, .inr ⟨c, w, rfl, (nonzero_mem c).1 hc, fun x hx => (digit_mem x).1 (hw x hx)⟩,
          by rw [List.cons_append, ← e]⟩
      · cases h

theorem vInt_complete {i r : Str} (hi : IntPart i) (hr : NoDigit r) : Json.vInt (i ++ r) = some r := by
  rcases hi with rfl | ⟨d, ds, rfl, h1, h2⟩
  · rfl
  · have hb := (nonzero_mem d).2 h1
    have h48 : ¬ d = 48 := by rintro rfl; revert hb; decide
    have hd : isDigit d = true := by
      have key : ∀ n : Fin 256, between 49 (BitVec.ofFin n : Byte) 57 = true →
        isDigit (BitVec.ofFin n : Byte) = true := by decide +kernel
      exact key d.toFin hb
    rw [List.cons_append, Json.vInt, if_neg h48, if_pos hb, List.dropWhile_cons_of_pos hd,
      dropWhile_app (fun x hx => (digit_mem x).2 (h2 x hx)) hr]

theorem vFrac_sound {s r : Str} (h : Json.vFrac s = some r) : ∃ f, FracPart f ∧ s = f ++ r := by
  cases s with
  | nil => cases h; exact ⟨[], .inl rfl, rfl⟩
  | cons c s =>
    rw [Json.vFrac] at h
    split at h
    · next hc =>
      obtain ⟨d, hd, rfl⟩ := vDigits_sound h
      exact ⟨ch '.' :: d, .inr ⟨d, rfl, hd⟩, by rw [hc]; rfl⟩
    · cases h; exact ⟨[], .inl rfl, rfl⟩

theorem vFrac_complete {f r : Str} (hf : FracPart f) (hr : NoDigit r) (hd : r.head? ≠ some 46) :
    Json.vFrac (f ++ r) = some r := by
  rcases hf with rfl | ⟨ds, rfl, h⟩
  · cases r with
    | nil => rfl
    | cons c r =>
      rw [List.nil_append, Json.vFrac, if_neg]
      rintro rfl
      exact hd rfl
  · rw [List.cons_append, Json.vFrac, if_pos (by rfl), vDigits_complete h hr]

theorem vExp_sound {s r : Str} (h : Json.vExp s = some r) : ∃ e, ExpPart e ∧ s = e ++ r := by
  cases s with
  | nil => cases h; exact ⟨[], .inl rfl, rfl⟩
  | cons c s =>
    rw [Json.vExp.eq_def] at h
    dsimp only at h
    split at h
    · next hc =>
      have hce : c ∈ lit "eE" := by rcases hc with rfl | rfl <;> decide
      cases s with
      | nil => cases h
      | cons g s =>
        dsimp only at h
        split at h
        · next hg =>
          obtain ⟨d, hd, rfl⟩ := vDigits_sound h
          refine ⟨c :: ([g] ++ d), .inr ⟨c, [g], d, rfl, hce, ?_, hd⟩, rfl⟩
          rcases hg with rfl | rfl
          · exact .inr (.inl rfl)
          · exact .inr (.inr rfl)
        · obtain ⟨d, hd, e⟩ := vDigits_sound h
          exact ⟨c :: ([] ++ d), .inr ⟨c, [], d, rfl, hce, .inl rfl, hd⟩, by rw [e]; rfl⟩
    · cases h; exact ⟨[], .inl rfl, rfl⟩

theorem vExp_complete {e r : Str} (he : ExpPart e) (hr : NoDigit r)
    (hd : ∀ c, r.head? = some c → ¬ (c = 101 ∨ c = 69)) : Json.vExp (e ++ r) = some r := by
  rcases he with rfl | ⟨c, g, ds, rfl, hc, hg, h⟩
  · cases r with
    | nil => rfl
    | cons c r =>
      rw [List.nil_append, Json.vExp.eq_def]
      dsimp only
      rw [if_neg (hd c rfl)]
  · have hc' : c = 101 ∨ c = 69 := by
      have key : ∀ n : Fin 256, (BitVec.ofFin n : Byte) ∈ lit "eE" →
        (BitVec.ofFin n : Byte) = 101 ∨ (BitVec.ofFin n : Byte) = 69 := by decide +kernel
      exact key c.toFin hc
    rw [List.cons_append, Json.vExp.eq_def]
    dsimp only
    rw [if_pos hc']
    rcases hg with rfl | rfl | rfl
    · obtain ⟨x, hx, hxd⟩ := digits_head h r
      rw [List.nil_append]
      cases hq : ds ++ r with
      | nil => rw [hq] at hx; cases hx
      | cons y q =>
        dsimp only
        rw [if_neg, ← hq, vDigits_complete h hr]
        rw [hq] at hx
        cases hx
        rintro (rfl | rfl) <;> exact absurd hxd (by decide)
    · show (if (43 : Byte) = 43 ∨ (43 : Byte) = 45 then Json.vDigits (ds ++ r) else _) = _
      rw [if_pos (.inl rfl), vDigits_complete h hr]
    · show (if (45 : Byte) = 43 ∨ (45 : Byte) = 45 then Json.vDigits (ds ++ r) else _) = _
      rw [if_pos (.inr rfl), vDigits_complete h hr]

theorem vNumber_sound {s r : Str} (h : Json.vNumber s = some r) : ∃ t, Number t ∧ s = t ++ r := by
  cases s with
  | nil => cases h
  | cons c s =>
    have h' : ((Json.vInt (if c = 45 then s else c :: s)).bind fun s => (Json.vFrac s).bind Json.vExp) = some r := h
    obtain ⟨a, h1, h'⟩ := Option.bind_eq_some_iff.1 h'
    obtain ⟨b, h2, h3⟩ := Option.bind_eq_some_iff.1 h'
    obtain ⟨i, hi, e1⟩ := vInt_sound h1
    obtain ⟨f, hf, e2⟩ := vFrac_sound h2
    obtain ⟨e, he, e3⟩ := vExp_sound h3
    by_cases hc : c = 45
    · rw [if_pos hc] at e1
      exact ⟨lit "-" ++ i ++ f ++ e, ⟨_, i, f, e, rfl, .inr rfl, hi, hf, he⟩, by
        rw [hc, e1, e2, e3]; show _ = [45] ++ i ++ f ++ e ++ r; simp⟩
    · rw [if_neg hc] at e1
      exact ⟨[] ++ i ++ f ++ e, ⟨_, i, f, e, rfl, .inl rfl, hi, hf, he⟩, by rw [e1, e2, e3]; simp⟩

theorem int_head {i : Str} (hi : IntPart i) (r : Str) : ∃ c q, i ++ r = c :: q ∧ isDigit c = true := by
  rcases hi with rfl | ⟨d, ds, rfl, h1, h2⟩
  · exact ⟨48, r, rfl, by decide⟩
  · refine ⟨d, ds ++ r, rfl, ?_⟩
    have key : ∀ n : Fin 256, (BitVec.ofFin n : Byte) ∈ lit "123456789" →
      isDigit (BitVec.ofFin n : Byte) = true := by decide +kernel
    exact key d.toFin h1

theorem vNumber_complete {t r : Str} (ht : Number t) (hr : Follow r) : Json.vNumber (t ++ r) = some r := by
  obtain ⟨m, i, f, e, rfl, hm, hi, hf, he⟩ := ht
  have r1 : NoDigit r := fun c hc => (follow_char (hr c hc)).1
  have r2 : ∀ c, r.head? = some c → ¬ (c = 101 ∨ c = 69) := fun c hc => (follow_char (hr c hc)).2.2
  have hE : ∀ c, c ∈ lit "eE" → isDigit c = false ∧ c ≠ 46 := by
    have key : ∀ n : Fin 256, (BitVec.ofFin n : Byte) ∈ lit "eE" →
      isDigit (BitVec.ofFin n : Byte) = false ∧ (BitVec.ofFin n : Byte) ≠ 46 := by decide +kernel
    exact fun c => key c.toFin
  have e1 : NoDigit (e ++ r) ∧ (e ++ r).head? ≠ some 46 := by
    rcases he with rfl | ⟨c, g, ds, rfl, hc, -, -⟩
    · exact ⟨r1, fun h => (follow_char (hr _ h)).2.1 rfl⟩
    · refine ⟨fun x hx => ?_, fun h => ?_⟩
      · cases hx; exact (hE c hc).1
      · cases h; exact (hE _ hc).2 rfl
  have f1 : NoDigit (f ++ (e ++ r)) := by
    rcases hf with rfl | ⟨ds, rfl, -⟩
    · exact e1.1
    · intro x hx; cases hx; decide
  have core : ((Json.vInt (i ++ (f ++ (e ++ r)))).bind fun s => (Json.vFrac s).bind Json.vExp) = some r := by
    rw [vInt_complete hi f1, Option.bind_some, vFrac_complete hf e1.1 e1.2, Option.bind_some,
      vExp_complete he r1 r2]
  rcases hm with rfl | rfl
  · obtain ⟨c, q, hq, hc⟩ := int_head hi (f ++ (e ++ r))
    have e0 : [] ++ i ++ f ++ e ++ r = c :: q := by rw [← hq]; simp
    rw [e0]
    show ((Json.vInt (if c = 45 then q else c :: q)).bind fun s => (Json.vFrac s).bind Json.vExp) = some r
    rw [if_neg (by rintro rfl; revert hc; decide), ← hq, core]
  · have e0 : lit "-" ++ i ++ f ++ e ++ r = 45 :: (i ++ (f ++ (e ++ r))) := by
      show [45] ++ i ++ f ++ e ++ r = _; simp
    rw [e0]
    show ((Json.vInt (if (45 : Byte) = 45 then i ++ (f ++ (e ++ r)) else _)).bind fun s => (Json.vFrac s).bind Json.vExp) = some r
    rw [if_pos rfl, core]

theorem number_head {t : Str} (ht : Number t) : ∃ c q, t = c :: q ∧ (c = 45 ∨ isDigit c = true) := by
  obtain ⟨m, i, f, e, rfl, hm, hi, hf, he⟩ := ht
  rcases hm with rfl | rfl
  · obtain ⟨c, q, hq, hc⟩ := int_head hi (f ++ e)
    exact ⟨c, q, by rw [← hq]; simp, .inr hc⟩
  · exact ⟨45, i ++ f ++ e, by show [45] ++ i ++ f ++ e = _; simp, .inl rfl⟩

/-! ### Whitespace -/

theorem skipWs_app {w s : Str} (hw : Ws Spc w) : Json.skipWs (w ++ s) = Json.skipWs s := by
  induction w with
  | nil => rfl
  | cons c w ih =>
    unfold Json.skipWs at *
    rw [List.cons_append, List.dropWhile_cons_of_pos (hw c (by simp))]
    exact ih fun x hx => hw x (by simp [hx])

theorem skipWs_cons {c : Byte} {s : Str} (h : isSpace c = false) : Json.skipWs (c :: s) = c :: s :=
  List.dropWhile_cons_of_neg (by rw [h]; decide)

theorem skipWs_at {w : Str} {c : Byte} {s : Str} (hw : Ws Spc w) (h : isSpace c = false) :
    Json.skipWs (w ++ c :: s) = c :: s := by
  rw [skipWs_app hw, skipWs_cons h]

theorem skipWs_split (s : Str) : ∃ w, Ws Spc w ∧ s = w ++ Json.skipWs s := dropWhile_split isSpace s

theorem skipWs_idem (s : Str) : Json.skipWs (Json.skipWs s) = Json.skipWs s := by
  obtain ⟨w, hw, e⟩ := skipWs_split s
  have h := congrArg Json.skipWs e
  rw [skipWs_app hw] at h
  exact h.symm

theorem ws_app {W : Byte → Prop} {a b : Str} (ha : Ws W a) (hb : Ws W b) : Ws W (a ++ b) := by
  intro c hc
  rcases List.mem_append.1 hc with h | h
  · exact ha c h
  · exact hb c h

/-! ### Literals -/

theorem vLiteral_sound {t s r : Str} (h : Json.vLiteral t s = some r) : s = t ++ r := by
  unfold Json.vLiteral at h
  split at h
  · next e =>
    cases h
    have h := List.take_append_drop t.length s
    rw [e] at h
    exact h.symm
  · cases h

theorem vLiteral_complete (t r : Str) : Json.vLiteral t (t ++ r) = some r := by
  unfold Json.vLiteral
  rw [if_pos (List.take_left), List.drop_left]

/-! ### Values -/

/-- What is accepted is of the form `P`, with whitespace before. -/
def Sound (val : Str → Option Str) (P : Str → Prop) : Prop :=
  ∀ s r, val s = some r → ∃ w v, Ws Spc w ∧ P v ∧ s = w ++ (v ++ r)

/-- What is of the form `P` is accepted, and not more than that. -/
def Complete (val : Str → Option Str) (P : Str → Prop) : Prop :=
  ∀ v r, P v → Follow r → val (v ++ r) = some r

/-- First characters of values. -/
def Starts (P : Str → Prop) : Prop :=
  ∀ v, P v → ∃ c q, v = c :: q ∧ isSpace c = false ∧ c ≠ ch ']' ∧ c ≠ ch '}'

theorem commas_cons (x : Str) {l : List Str} (h : l ≠ []) : commas (x :: l) = x ++ ch ',' :: commas l := by
  cases l with
  | nil => exact absurd rfl h
  | cons y l => rfl

theorem commas_app (x y : Str) (l : List Str) (t : Str) :
    commas (x :: y :: l) ++ t = x ++ ch ',' :: (commas (y :: l) ++ t) := by
  rw [commas_cons x (by simp)]
  simp

theorem commas_length (l : List Str) : l.length ≤ (commas l).length + 1 := by
  induction l with
  | nil => simp
  | cons x l ih =>
    cases l with
    | nil => simp
    | cons y l =>
      rw [commas_cons x (by simp)]
      simp only [List.length_cons, List.length_append] at *
      omega

theorem arrLoop_sound {val : Str → Option Str} {P : Str → Prop} (hv : Sound val P) :
    ∀ (f : Nat) (s r : Str), Json.arrLoop val f s = some r →
      ∃ items, items ≠ [] ∧ (∀ x ∈ items, Padded Spc P x) ∧ s = commas items ++ ch ']' :: r := by
  intro f
  induction f with
  | zero => intro s r h; cases h
  | succ f ih =>
    intro s r h
    rw [Json.arrLoop.eq_def] at h
    dsimp only at h
    split at h
    · cases h
    · next r1 h1 =>
      obtain ⟨w0, hw0, e0⟩ := skipWs_split s
      obtain ⟨w1, v, hw1, hp, e1⟩ := hv _ _ h1
      obtain ⟨w2, hw2, e2⟩ := skipWs_split r1
      split at h
      · cases h
      · next c q hq =>
        have es : s = ((w0 ++ w1) ++ (v ++ w2)) ++ c :: q := by
          rw [e0, e1, e2, hq]; simp
        have hpad : Padded Spc P ((w0 ++ w1) ++ (v ++ w2)) := ⟨_, v, w2, ws_app hw0 hw1, hp, hw2, rfl⟩
        split at h
        · next hc =>
          obtain ⟨items, hne, hall, eq⟩ := ih _ _ h
          refine ⟨((w0 ++ w1) ++ (v ++ w2)) :: items, by simp, ?_, ?_⟩
          · intro x hx
            rcases List.mem_cons.1 hx with rfl | hx
            · exact hpad
            · exact hall x hx
          · rw [commas_cons _ hne, es, eq, hc]
            simp [ch]
        · split at h
          · next hc =>
            cases h
            exact ⟨[(w0 ++ w1) ++ (v ++ w2)], by simp, by simpa using hpad, by rw [es, hc]; rfl⟩
          · cases h

theorem follow_ws {w r : Str} {c : Byte} (hw : Ws Spc w) (hc : c = ch ',' ∨ c = ch ']' ∨ c = ch '}') :
    Follow (w ++ c :: r) := by
  intro x hx
  cases w with
  | nil => cases hx; exact .inr hc
  | cons y w => cases hx; exact .inl (hw _ (by simp))

theorem arrLoop_complete {val : Str → Option Str} {P : Str → Prop} (hv : Complete val P) (hs : Starts P) :
    ∀ (f : Nat) (items : List Str) (r : Str), items ≠ [] → (∀ x ∈ items, Padded Spc P x) → items.length ≤ f →
      Json.arrLoop val f (commas items ++ ch ']' :: r) = some r := by
  intro f
  induction f with
  | zero =>
    intro items r hne _ hl
    exact absurd (List.length_eq_zero_iff.1 (by omega)) hne
  | succ f ih =>
    intro items r hne hall hl
    cases items with
    | nil => exact absurd rfl hne
    | cons x items =>
      obtain ⟨w, v, w', hw, hp, hw', rfl⟩ := hall x (by simp)
      obtain ⟨c, q, rfl, hsp, -, -⟩ := hs v hp
      have key : ∀ (d : Byte) (t : Str), (d = ch ',' ∨ d = ch ']' ∨ d = ch '}') →
          Json.arrLoop val (f + 1) ((w ++ ((c :: q) ++ w')) ++ d :: t) =
            if d = 44 then Json.arrLoop val f t else if d = 93 then some t else none := by
        intro d t hd
        have e : (w ++ ((c :: q) ++ w')) ++ d :: t = w ++ c :: (q ++ (w' ++ d :: t)) := by simp
        have e' : c :: (q ++ (w' ++ d :: t)) = (c :: q) ++ (w' ++ d :: t) := rfl
        have hdsp : isSpace d = false := by rcases hd with rfl | rfl | rfl <;> decide
        rw [Json.arrLoop.eq_def]
        dsimp only
        rw [e, skipWs_at hw hsp, e', hv _ _ hp (follow_ws hw' hd)]
        dsimp only
        rw [skipWs_at hw' hdsp]
      cases items with
      | nil => exact (key (ch ']') r (.inr (.inl rfl))).trans rfl
      | cons y items =>
        rw [commas_app, key (ch ',') _ (.inl rfl), if_pos (by rfl)]
        exact ih _ r (by simp) (fun x hx => hall x (List.mem_cons_of_mem _ hx)) (by simp at hl ⊢; omega)

theorem objLoop_sound {val : Str → Option Str} {P : Str → Prop} (hv : Sound val P) :
    ∀ (f : Nat) (s r : Str), Json.objLoop val f s = some r →
      ∃ items, items ≠ [] ∧ (∀ x ∈ items, Member Spc P x) ∧ s = commas items ++ ch '}' :: r := by
  intro f
  induction f with
  | zero => intro s r h; cases h
  | succ f ih =>
    intro s r h
    rw [Json.objLoop.eq_def] at h
    dsimp only at h
    split at h
    · cases h
    · next r0 h0 =>
      obtain ⟨wa, hwa, ea⟩ := skipWs_split s
      obtain ⟨k, hk, ek⟩ := vString_sound h0
      obtain ⟨wb, hwb, eb⟩ := skipWs_split r0
      split at h
      · cases h
      · next c0 q0 hq0 =>
        split at h
        · cases h
        · next hc0 =>
          have hc0 : c0 = 58 := Classical.not_not.1 hc0
          split at h
          · cases h
          · next r1 h1 =>
            obtain ⟨w0, hw0, e0⟩ := skipWs_split q0
            obtain ⟨w1, v, hw1, hp, e1⟩ := hv _ _ h1
            obtain ⟨w2, hw2, e2⟩ := skipWs_split r1
            split at h
            · cases h
            · next c q hq =>
              have es : s = ((wa ++ (k ++ wb)) ++ ch ':' :: ((w0 ++ w1) ++ (v ++ w2))) ++ c :: q := by
                rw [ea, ek, eb, hq0, hc0, e0, e1, e2, hq]; simp [ch]
              have hpad : Member Spc P ((wa ++ (k ++ wb)) ++ ch ':' :: ((w0 ++ w1) ++ (v ++ w2))) :=
                ⟨_, _, ⟨_, k, wb, hwa, hk, hwb, rfl⟩, ⟨_, v, w2, ws_app hw0 hw1, hp, hw2, rfl⟩, rfl⟩
              split at h
              · next hc =>
                obtain ⟨items, hne, hall, eq⟩ := ih _ _ h
                refine ⟨((wa ++ (k ++ wb)) ++ ch ':' :: ((w0 ++ w1) ++ (v ++ w2))) :: items, by simp, ?_, ?_⟩
                · intro x hx
                  rcases List.mem_cons.1 hx with rfl | hx
                  · exact hpad
                  · exact hall x hx
                · rw [commas_cons _ hne, es, eq, hc]
                  simp [ch]
              · split at h
                · next hc =>
                  cases h
                  refine ⟨[(wa ++ (k ++ wb)) ++ ch ':' :: ((w0 ++ w1) ++ (v ++ w2))], by simp, ?_, by rw [es, hc]; rfl⟩
                  intro x hx
                  rw [List.mem_singleton.1 hx]
                  exact hpad
                · cases h

theorem objLoop_complete {val : Str → Option Str} {P : Str → Prop} (hv : Complete val P) (hs : Starts P) :
    ∀ (f : Nat) (items : List Str) (r : Str), items ≠ [] → (∀ x ∈ items, Member Spc P x) → items.length ≤ f →
      Json.objLoop val f (commas items ++ ch '}' :: r) = some r := by
  intro f
  induction f with
  | zero =>
    intro items r hne _ hl
    exact absurd (List.length_eq_zero_iff.1 (by omega)) hne
  | succ f ih =>
    intro items r hne hall hl
    cases items with
    | nil => exact absurd rfl hne
    | cons x items =>
      obtain ⟨_, _, ⟨wa, k, wb, hwa, hk, hwb, rfl⟩, ⟨w, v, w', hw, hp, hw', rfl⟩, rfl⟩ := hall x (by simp)
      obtain ⟨c, q, rfl, hsp, -, -⟩ := hs v hp
      have key : ∀ (d : Byte) (t : Str), (d = ch ',' ∨ d = ch ']' ∨ d = ch '}') →
          Json.objLoop val (f + 1) (((wa ++ (k ++ wb)) ++ ch ':' :: (w ++ ((c :: q) ++ w'))) ++ d :: t) =
            if d = 44 then Json.objLoop val f t else if d = 125 then some t else none := by
        intro d t hd
        have hdsp : isSpace d = false := by rcases hd with rfl | rfl | rfl <;> decide
        have e' : c :: (q ++ (w' ++ d :: t)) = (c :: q) ++ (w' ++ d :: t) := rfl
        have hks : ∀ t, Json.skipWs (wa ++ (k ++ t)) = k ++ t := by
          obtain ⟨u, -, rfl⟩ := hk
          intro t
          exact skipWs_at hwa (by decide)
        have e : ((wa ++ (k ++ wb)) ++ ch ':' :: (w ++ ((c :: q) ++ w'))) ++ d :: t =
            wa ++ (k ++ (wb ++ ch ':' :: (w ++ c :: (q ++ (w' ++ d :: t))))) := by simp
        rw [Json.objLoop.eq_def]
        dsimp only
        rw [e, hks, vString_complete hk]
        dsimp only
        rw [skipWs_at hwb (by decide)]
        dsimp only
        rw [if_neg (by decide), skipWs_at hw hsp, e', hv _ _ hp (follow_ws hw' hd)]
        dsimp only
        rw [skipWs_at hw' hdsp]
      cases items with
      | nil => exact (key (ch '}') r (.inr (.inr rfl))).trans rfl
      | cons y items =>
        rw [commas_app, key (ch ',') _ (.inl rfl), if_pos (by rfl)]
        exact ih _ r (by simp) (fun x hx => hall x (List.mem_cons_of_mem _ hx)) (by simp at hl ⊢; omega)

theorem follow_sp {c : Byte} (h : c = ch '[' ∨ c = ch '{' ∨ c = ch ']' ∨ c = ch '}' ∨ c = ch '"') :
    isSpace c = false := by
  rcases h with rfl | rfl | rfl | rfl | rfl <;> decide

theorem vArray_sound {val : Str → Option Str} {P : Str → Prop} (hv : Sound val P) {s r : Str}
    (h : Json.vArray val s = some r) : (∃ w, Ws Spc w ∧ s = w ++ ch ']' :: r) ∨
      ∃ items, items ≠ [] ∧ (∀ x ∈ items, Padded Spc P x) ∧ s = commas items ++ ch ']' :: r := by
  obtain ⟨w, hw, e⟩ := skipWs_split s
  have pre : ∀ items t, items ≠ [] → (∀ x ∈ items, Padded Spc P x) → Json.skipWs s = commas items ++ t →
      ∃ items, items ≠ [] ∧ (∀ x ∈ items, Padded Spc P x) ∧ s = commas items ++ t := by
    intro items t hne hall eq
    cases items with
    | nil => exact absurd rfl hne
    | cons x items =>
      obtain ⟨w0, v, w1, hw0, hp, hw1, rfl⟩ := hall x (by simp)
      refine ⟨((w ++ w0) ++ (v ++ w1)) :: items, by simp, ?_, ?_⟩
      · intro y hy
        rcases List.mem_cons.1 hy with rfl | hy
        · exact ⟨_, v, w1, ws_app hw hw0, hp, hw1, rfl⟩
        · exact hall y (by simp [hy])
      · rw [e, eq]
        cases items with
        | nil => simp [commas]
        | cons y items => simp [commas]
  unfold Json.vArray at h
  split at h
  · next e0 =>
    obtain ⟨items, hne, hall, eq⟩ := arrLoop_sound hv _ _ _ h
    exact .inr (pre items _ hne hall (by rw [e0]; exact eq))
  · next c q e0 =>
    split at h
    · next hc =>
      cases h
      exact .inl ⟨w, hw, by rw [e, e0, hc]; rfl⟩
    · obtain ⟨items, hne, hall, eq⟩ := arrLoop_sound hv _ _ _ h
      exact .inr (pre items _ hne hall (by rw [e0]; exact eq))

theorem vArray_complete {val : Str → Option Str} {P : Str → Prop} (hv : Complete val P) (hs : Starts P)
    {items : List Str} (r : Str) (hne : items ≠ []) (hall : ∀ x ∈ items, Padded Spc P x) :
    Json.vArray val (commas items ++ ch ']' :: r) = some r := by
  cases items with
  | nil => exact absurd rfl hne
  | cons x items =>
    obtain ⟨w0, v, w1, hw0, hp, hw1, rfl⟩ := hall x (by simp)
    obtain ⟨c, q, rfl, hsp, hc, -⟩ := hs v hp
    have e : Json.skipWs (commas ((w0 ++ ((c :: q) ++ w1)) :: items) ++ ch ']' :: r) =
        commas (([] ++ ((c :: q) ++ w1)) :: items) ++ ch ']' :: r := by
      have key : ∀ t, Json.skipWs ((w0 ++ ((c :: q) ++ w1)) ++ t) = ([] ++ ((c :: q) ++ w1)) ++ t := by
        intro t
        rw [List.append_assoc, List.cons_append, List.cons_append, skipWs_at hw0 hsp]
        simp
      cases items with
      | nil => exact key _
      | cons y items =>
        rw [commas_app, commas_app, key]
    have hall' : ∀ x ∈ ([] ++ ((c :: q) ++ w1)) :: items, Padded Spc P x := by
      intro y hy
      rcases List.mem_cons.1 hy with rfl | hy
      · exact ⟨[], c :: q, w1, nofun, hp, hw1, rfl⟩
      · exact hall y (by simp [hy])
    have hc' := commas_length (([] ++ ((c :: q) ++ w1)) :: items)
    obtain ⟨q', e'⟩ : ∃ q', commas (([] ++ ((c :: q) ++ w1)) :: items) ++ ch ']' :: r = c :: q' := by
      cases items with
      | nil => exact ⟨_, rfl⟩
      | cons y items => exact ⟨_, by rw [commas_cons _ (by simp)]; rfl⟩
    unfold Json.vArray
    rw [e, e']
    dsimp only
    rw [if_neg (show ¬ c = 93 from hc), ← e']
    refine arrLoop_complete hv hs _ _ r (by simp) hall' ?_
    have := congrArg List.length e'
    simp only [List.length_append, List.length_cons] at this hc' ⊢
    omega

theorem vArray_empty (val : Str → Option Str) {w : Str} (r : Str) (hw : Ws Spc w) :
    Json.vArray val (w ++ ch ']' :: r) = some r := by
  unfold Json.vArray
  rw [skipWs_at hw (by decide)]
  exact if_pos rfl

theorem vObject_sound {val : Str → Option Str} {P : Str → Prop} (hv : Sound val P) {s r : Str}
    (h : Json.vObject val s = some r) : (∃ w, Ws Spc w ∧ s = w ++ ch '}' :: r) ∨
      ∃ items, items ≠ [] ∧ (∀ x ∈ items, Member Spc P x) ∧ s = commas items ++ ch '}' :: r := by
  obtain ⟨w, hw, e⟩ := skipWs_split s
  have pre : ∀ items t, items ≠ [] → (∀ x ∈ items, Member Spc P x) → Json.skipWs s = commas items ++ t →
      ∃ items, items ≠ [] ∧ (∀ x ∈ items, Member Spc P x) ∧ s = commas items ++ t := by
    intro items t hne hall eq
    cases items with
    | nil => exact absurd rfl hne
    | cons x items =>
      obtain ⟨_, b, ⟨w0, v, w1, hw0, hp, hw1, rfl⟩, hb, rfl⟩ := hall x (by simp)
      refine ⟨(((w ++ w0) ++ (v ++ w1)) ++ ch ':' :: b) :: items, by simp, ?_, ?_⟩
      · intro y hy
        rcases List.mem_cons.1 hy with rfl | hy
        · exact ⟨_, b, ⟨_, v, w1, ws_app hw hw0, hp, hw1, rfl⟩, hb, rfl⟩
        · exact hall y (by simp [hy])
      · rw [e, eq]
        cases items with
        | nil => simp [commas]
        | cons y items => simp [commas]
  unfold Json.vObject at h
  split at h
  · next e0 =>
    obtain ⟨items, hne, hall, eq⟩ := objLoop_sound hv _ _ _ h
    exact .inr (pre items _ hne hall (by rw [e0]; exact eq))
  · next c q e0 =>
    split at h
    · next hc =>
      cases h
      exact .inl ⟨w, hw, by rw [e, e0, hc]; rfl⟩
    · obtain ⟨items, hne, hall, eq⟩ := objLoop_sound hv _ _ _ h
      exact .inr (pre items _ hne hall (by rw [e0]; exact eq))

theorem vObject_complete {val : Str → Option Str} {P : Str → Prop} (hv : Complete val P) (hs : Starts P)
    {items : List Str} (r : Str) (hne : items ≠ []) (hall : ∀ x ∈ items, Member Spc P x) :
    Json.vObject val (commas items ++ ch '}' :: r) = some r := by
  cases items with
  | nil => exact absurd rfl hne
  | cons x items =>
    obtain ⟨_, b, ⟨w0, _, w1, hw0, ⟨u, hu, rfl⟩, hw1, rfl⟩, hb, rfl⟩ := hall x (by simp)
    let x' : Str := ([] ++ ((ch '"' :: (u ++ [ch '"'])) ++ w1)) ++ ch ':' :: b
    have hx' : x' = ch '"' :: (u ++ ([ch '"'] ++ (w1 ++ ch ':' :: b))) := by simp [x']
    have e : Json.skipWs (commas (((w0 ++ ((ch '"' :: (u ++ [ch '"'])) ++ w1)) ++ ch ':' :: b) :: items) ++ ch '}' :: r) =
        commas (x' :: items) ++ ch '}' :: r := by
      have key : ∀ t, Json.skipWs (((w0 ++ ((ch '"' :: (u ++ [ch '"'])) ++ w1)) ++ ch ':' :: b) ++ t) = x' ++ t := by
        intro t
        have e1 : ((w0 ++ ((ch '"' :: (u ++ [ch '"'])) ++ w1)) ++ ch ':' :: b) ++ t =
            w0 ++ ch '"' :: (u ++ ([ch '"'] ++ (w1 ++ ch ':' :: b)) ++ t) := by simp
        rw [e1, skipWs_at hw0 (by decide), hx']
        rfl
      cases items with
      | nil => exact key _
      | cons y items =>
        rw [commas_app, commas_app, key]
    have hall' : ∀ x ∈ x' :: items, Member Spc P x := by
      intro y hy
      rcases List.mem_cons.1 hy with rfl | hy
      · exact ⟨_, b, ⟨[], _, w1, nofun, ⟨u, hu, rfl⟩, hw1, rfl⟩, hb, rfl⟩
      · exact hall y (by simp [hy])
    have hc' := commas_length (x' :: items)
    obtain ⟨q', e'⟩ : ∃ q', commas (x' :: items) ++ ch '}' :: r = ch '"' :: q' := by
      rw [hx']
      cases items with
      | nil => exact ⟨_, rfl⟩
      | cons y items => exact ⟨_, by rw [commas_cons _ (by simp)]; rfl⟩
    unfold Json.vObject
    rw [e, e']
    dsimp only
    rw [if_neg (by decide), ← e']
    refine objLoop_complete hv hs _ _ r (by simp) hall' ?_
    have := congrArg List.length e'
    simp only [List.length_append, List.length_cons] at this hc' ⊢
    omega

theorem vObject_empty (val : Str → Option Str) {w : Str} (r : Str) (hw : Ws Spc w) :
    Json.vObject val (w ++ ch '}' :: r) = some r := by
  unfold Json.vObject
  rw [skipWs_at hw (by decide)]
  exact if_pos rfl

/-- What `vValue` with so many levels stands for. -/
def Level (n : Nat) (s : Str) : Prop :=
  match n with
  | 0 => False
  | n + 1 => Value Spc n s

/-- One more level on top of `Level n`. -/
theorem level_succ (n : Nat) (s : Str) : Level (n + 1) s ↔ Flat Spc s ∨
      (∃ items, items ≠ [] ∧ (∀ x ∈ items, Padded Spc (Level n) x) ∧ s = ch '[' :: (commas items ++ [ch ']'])) ∨
      (∃ ms, ms ≠ [] ∧ (∀ x ∈ ms, Member Spc (Level n) x) ∧ s = ch '{' :: (commas ms ++ [ch '}'])) := by
  cases n with
  | zero =>
    constructor
    · exact .inl
    · rintro (h | ⟨items, hne, hall, -⟩ | ⟨items, hne, hall, -⟩)
      · exact h
      · obtain ⟨x, hx⟩ := List.exists_mem_of_ne_nil _ hne
        obtain ⟨_, _, _, _, h, _⟩ := hall x hx
        exact h.elim
      · obtain ⟨x, hx⟩ := List.exists_mem_of_ne_nil _ hne
        obtain ⟨_, _, _, ⟨_, _, _, _, h, _⟩, _⟩ := hall x hx
        exact h.elim
  | succ n => exact Iff.rfl

theorem digit_facts {c : Byte} (h : c = 45 ∨ isDigit c = true) :
    isSpace c = false ∧ c ≠ 123 ∧ c ≠ 91 ∧ c ≠ 34 ∧ c ≠ 93 ∧ c ≠ 125 ∧ (c = 45 ∨ between 48 c 57 = true) := by
  have key : ∀ n : Fin 256, ((BitVec.ofFin n : Byte) = 45 ∨ isDigit (BitVec.ofFin n : Byte) = true) →
      isSpace (BitVec.ofFin n : Byte) = false ∧ (BitVec.ofFin n : Byte) ≠ 123 ∧ (BitVec.ofFin n : Byte) ≠ 91 ∧
      (BitVec.ofFin n : Byte) ≠ 34 ∧ (BitVec.ofFin n : Byte) ≠ 93 ∧ (BitVec.ofFin n : Byte) ≠ 125 ∧
      ((BitVec.ofFin n : Byte) = 45 ∨ between 48 (BitVec.ofFin n : Byte) 57 = true) := by decide +kernel
  exact key c.toFin h

theorem flat_starts : Starts (Flat Spc) := by
  intro v h
  cases h with
  | str h => obtain ⟨t, -, rfl⟩ := h; exact ⟨_, _, rfl, by decide, by decide, by decide⟩
  | num h =>
    obtain ⟨c, q, rfl, hc⟩ := number_head h
    have := digit_facts hc
    exact ⟨c, q, rfl, this.1, this.2.2.2.2.1, this.2.2.2.2.2.1⟩
  | true => exact ⟨ch 't', lit "rue", rfl, by decide, by decide, by decide⟩
  | false => exact ⟨ch 'f', lit "alse", rfl, by decide, by decide, by decide⟩
  | null => exact ⟨ch 'n', lit "ull", rfl, by decide, by decide, by decide⟩
  | arr _ => exact ⟨_, _, rfl, by decide, by decide, by decide⟩
  | obj _ => exact ⟨_, _, rfl, by decide, by decide, by decide⟩

theorem level_starts (n : Nat) : Starts (Level n) := by
  intro v h
  cases n with
  | zero => exact h.elim
  | succ n =>
    rcases (level_succ n v).1 h with h | ⟨_, _, _, rfl⟩ | ⟨_, _, _, rfl⟩
    · exact flat_starts v h
    · exact ⟨_, _, rfl, by decide, by decide, by decide⟩
    · exact ⟨_, _, rfl, by decide, by decide, by decide⟩

theorem vValue_sound (n : Nat) : Sound (Json.vValue n) (Level n) := by
  induction n with
  | zero => intro s r h; cases h
  | succ n ih =>
    intro s r h
    obtain ⟨w, hw, e⟩ := skipWs_split s
    rw [Json.vValue.eq_def] at h
    dsimp only at h
    split at h
    · cases h
    · next c q hq =>
      rw [hq] at e
      suffices hs : ∃ v, Level (n + 1) v ∧ c :: q = v ++ r by
        obtain ⟨v, hv, eq⟩ := hs
        exact ⟨w, v, hw, hv, by rw [e, eq]⟩
      have fl : ∀ v, Flat Spc v → Level (n + 1) v := fun v hv => (level_succ n v).2 (.inl hv)
      split at h
      · next hc =>
        rcases vObject_sound ih h with ⟨w, hw, rfl⟩ | ⟨items, hne, hall, rfl⟩
        · exact ⟨_, fl _ (.obj hw), by rw [hc]; simp [ch]⟩
        · exact ⟨_, (level_succ n _).2 (.inr (.inr ⟨items, hne, hall, rfl⟩)), by rw [hc]; simp [ch]⟩
      · split at h
        · next hc =>
          rcases vArray_sound ih h with ⟨w, hw, rfl⟩ | ⟨items, hne, hall, rfl⟩
          · exact ⟨_, fl _ (.arr hw), by rw [hc]; simp [ch]⟩
          · exact ⟨_, (level_succ n _).2 (.inr (.inl ⟨items, hne, hall, rfl⟩)), by rw [hc]; simp [ch]⟩
        · split at h
          · obtain ⟨t, ht, eq⟩ := vString_sound h
            exact ⟨t, fl _ (.str ht), eq⟩
          · split at h
            · obtain ⟨t, ht, eq⟩ := vNumber_sound h
              exact ⟨t, fl _ (.num ht), eq⟩
            · split at h
              · exact ⟨_, fl _ .true, vLiteral_sound h⟩
              · split at h
                · exact ⟨_, fl _ .false, vLiteral_sound h⟩
                · split at h
                  · exact ⟨_, fl _ .null, vLiteral_sound h⟩
                  · cases h

theorem vValue_complete (n : Nat) : Complete (Json.vValue n) (Level n) := by
  induction n with
  | zero => intro v r h; exact h.elim
  | succ n ih =>
    intro v r h hr
    rcases (level_succ n v).1 h with h | ⟨items, hne, hall, rfl⟩ | ⟨items, hne, hall, rfl⟩
    · cases h with
      | str h =>
        have h' := vString_complete h r
        obtain ⟨t, ht, rfl⟩ := h
        rw [Json.vValue.eq_def]
        dsimp only
        rw [List.cons_append, skipWs_cons (by decide)]
        dsimp only
        rw [if_neg (by decide), if_neg (by decide), if_pos (by decide)]
        exact h'
      | num h =>
        have h' := vNumber_complete h hr
        obtain ⟨c, q, rfl, hc⟩ := number_head h
        have := digit_facts hc
        rw [Json.vValue.eq_def]
        dsimp only
        rw [List.cons_append, skipWs_cons this.1]
        dsimp only
        rw [if_neg this.2.1, if_neg this.2.2.1, if_neg this.2.2.2.1, if_pos this.2.2.2.2.2.2]
        exact h'
      | true => exact vLiteral_complete (lit "true") r
      | false => exact vLiteral_complete (lit "false") r
      | null => exact vLiteral_complete (lit "null") r
      | @arr w hw =>
        have e : ch '[' :: (w ++ [ch ']']) ++ r = ch '[' :: (w ++ ch ']' :: r) := by simp
        rw [e, Json.vValue.eq_def]
        dsimp only
        rw [skipWs_cons (by decide)]
        dsimp only
        rw [if_neg (by decide), if_pos (by decide)]
        exact vArray_empty _ r hw
      | @obj w hw =>
        have e : ch '{' :: (w ++ [ch '}']) ++ r = ch '{' :: (w ++ ch '}' :: r) := by simp
        rw [e, Json.vValue.eq_def]
        dsimp only
        rw [skipWs_cons (by decide)]
        dsimp only
        rw [if_pos (by decide)]
        exact vObject_empty _ r hw
    · have e : ch '[' :: (commas items ++ [ch ']']) ++ r = ch '[' :: (commas items ++ ch ']' :: r) := by simp
      rw [e, Json.vValue.eq_def]
      dsimp only
      rw [skipWs_cons (by decide)]
      dsimp only
      rw [if_neg (by decide), if_pos (by decide)]
      exact vArray_complete ih (level_starts n) r hne hall
    · have e : ch '{' :: (commas items ++ [ch '}']) ++ r = ch '{' :: (commas items ++ ch '}' :: r) := by simp
      rw [e, Json.vValue.eq_def]
      dsimp only
      rw [skipWs_cons (by decide)]
      dsimp only
      rw [if_pos (by decide)]
      exact vObject_complete ih (level_starts n) r hne hall

/-- The validator accepts the texts of the grammar with `isspace` for whitespace. -/
theorem isValid_iff (s : Str) : Json.isValid s = true ↔ Text Spc 512 s := by
  constructor
  · intro h
    obtain ⟨w, hw, e⟩ := skipWs_split s
    unfold Json.isValid at h
    split at h
    · cases h
    · next c q hq =>
      split at h
      · cases h
      · next r hr =>
        obtain ⟨w1, v, hw1, hv, e1⟩ := vValue_sound 513 _ _ hr
        obtain ⟨w2, hw2, e2⟩ := skipWs_split r
        have h2 : Json.skipWs r = [] := eq_of_beq h
        rw [h2, List.append_nil] at e2
        exact ⟨w ++ w1, v, r, ws_app hw hw1, hv, by rw [e2]; exact hw2, by rw [e, hq, e1]; simp⟩
  · rintro ⟨w, v, w', hw, hv, hw', rfl⟩
    obtain ⟨c, q, rfl, hsp, -, -⟩ := level_starts 513 v hv
    unfold Json.isValid
    rw [List.cons_append, skipWs_at hw hsp]
    have hf : Follow w' := by
      intro x hx
      cases w' with
      | nil => cases hx
      | cons y w' => cases hx; exact .inl (hw' _ (by simp))
    have hv' := vValue_complete 513 (c :: q) w' hv hf
    rw [List.cons_append] at hv'
    dsimp only
    rw [hv']
    have := skipWs_app (s := []) hw'
    rw [List.append_nil] at this
    dsimp only
    rw [this]
    rfl

/-! ### Whitespace of the grammar -/

theorem ws_mono {W W' : Byte → Prop} {w : Str} (hw : Ws W w) (h : ∀ c ∈ w, W c → W' c) : Ws W' w :=
  fun c hc => h c hc (hw c hc)

theorem commas_mem {l : List Str} {x : Str} (hx : x ∈ l) : ∀ c ∈ x, c ∈ commas l := by
  induction l with
  | nil => cases hx
  | cons y l ih =>
    intro c hc
    cases l with
    | nil => rw [List.mem_singleton.1 hx] at hc; exact hc
    | cons z l =>
      rw [commas_cons _ (by simp)]
      rcases List.mem_cons.1 hx with rfl | hx
      · exact List.mem_append_left _ hc
      · exact List.mem_append_right _ (List.mem_cons_of_mem _ (ih hx c hc))

theorem padded_mono {W W' : Byte → Prop} {P P' : Str → Prop} {s : Str} (h : ∀ c ∈ s, W c → W' c)
    (hp : ∀ v, (∀ c ∈ v, W c → W' c) → P v → P' v) (hs : Padded W P s) : Padded W' P' s := by
  obtain ⟨w, v, w', hw, hv, hw', rfl⟩ := hs
  exact ⟨w, v, w', ws_mono hw fun c hc => h c (by simp [hc]), hp v (fun c hc => h c (by simp [hc])) hv,
    ws_mono hw' fun c hc => h c (by simp [hc]), rfl⟩

theorem value_mono {W W' : Byte → Prop} (n : Nat) : ∀ (s : Str), (∀ c ∈ s, W c → W' c) → Value W n s → Value W' n s := by
  have flat : ∀ (s : Str), (∀ c ∈ s, W c → W' c) → Flat W s → Flat W' s := by
    intro s h hs
    cases hs with
    | str h => exact .str h
    | num h => exact .num h
    | true => exact .true
    | false => exact .false
    | null => exact .null
    | arr hw => exact .arr (ws_mono hw fun c hc => h c (by simp [hc]))
    | obj hw => exact .obj (ws_mono hw fun c hc => h c (by simp [hc]))
  induction n with
  | zero => exact flat
  | succ n ih =>
    rintro s h (hs | ⟨items, hne, hall, rfl⟩ | ⟨items, hne, hall, rfl⟩)
    · exact .inl (flat s h hs)
    · refine .inr (.inl ⟨items, hne, fun x hx => ?_, rfl⟩)
      exact padded_mono (fun c hc => h c (by simp [commas_mem hx c hc])) ih (hall x hx)
    · refine .inr (.inr ⟨items, hne, fun x hx => ?_, rfl⟩)
      have hm := fun c hc => h c (List.mem_cons_of_mem _ (List.mem_append_left _ (commas_mem hx c hc)))
      obtain ⟨k, v, hk, hv, rfl⟩ := hall x hx
      exact ⟨k, v, padded_mono (fun c hc => hm c (by simp [hc])) (fun _ _ h => h) hk,
        padded_mono (fun c hc => hm c (by simp [hc])) ih hv, rfl⟩

theorem text_mono {W W' : Byte → Prop} {n : Nat} {s : Str} (h : ∀ c ∈ s, W c → W' c) (hs : Text W n s) :
    Text W' n s := padded_mono h (value_mono n) hs

end Verif.Props.JsonG

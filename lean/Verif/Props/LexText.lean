import Verif.Props.Lexer
import Verif.Props.Utf8
import Verif.Model.LitEmit

/-! C125–C128: texts of tokens. -/
namespace Verif.Props
open Verif Verif.Str Verif.Lexer

/-! ### C127: string literals -/

/-- The escape sequences of a string. -/
inductive Esc : Str → Prop where
  | simple {c : Byte} (h : c ∈ lit "ntr\\\"'0abfv$") : Esc [92, c]
  | hex {a b : Byte} (ha : isXDigit a = true) (hb : isXDigit b = true) : Esc [92, 120, a, b]

/-- A text in which braces match. -/
inductive Inner : Str → Prop where
  | nil : Inner []
  | byte {c : Byte} {r : Str} (hc : c ≠ 92 ∧ c ≠ 123 ∧ c ≠ 125) (h : Inner r) : Inner (c :: r)
  | esc {p r : Str} (hp : Esc p) (h : Inner r) : Inner (p ++ r)
  | brace {a r : Str} (ha : Inner a) (h : Inner r) : Inner (123 :: (a ++ 125 :: r))

/-- The content of a string literal: plain bytes, escape sequences and interpolations. -/
inductive Content : Str → Prop where
  | nil : Content []
  | byte {c : Byte} {r : Str} (hc : c ≠ 92 ∧ c ≠ 34 ∧ c ≠ 10) (h2 : ¬ [36, 123] <+: c :: r) (h : Content r) : Content (c :: r)
  | esc {p r : Str} (hp : Esc p) (h : Content r) : Content (p ++ r)
  | interp {a r : Str} (ha : Inner a) (h : Content r) : Content (36 :: 123 :: (a ++ 125 :: r))

namespace Lx

theorem pre_pre (a b : Str) (r : StrRes) : (r.pre b).pre a = r.pre (a ++ b) := by
  simp [StrRes.pre]

theorem pre_nil (r : StrRes) : r.pre [] = r := rfl

theorem strHex (a b : Byte) (s : Str) (d : Nat) (e : Option String) :
    strLoop (92 :: 120 :: a :: b :: s) d e =
    if isXDigit a then
      if isXDigit b then (strLoop s d e).pre [92, 120, a, b]
      else (strLoop (b :: s) d (some "E1006")).pre [92, 120, a]
    else (strLoop (a :: b :: s) d (some "E1006")).pre [92, 120] := by
  rw [strLoop.eq_def]; rfl

theorem strHex1 (a : Byte) (d : Nat) (e : Option String) :
    strLoop [92, 120, a] d e =
    if isXDigit a then ⟨[92, 120, a], .eof, [], some "E1006"⟩
    else (strLoop [a] d (some "E1006")).pre [92, 120] := by
  rw [strLoop.eq_def]; rfl

theorem strSimple {c : Byte} (h : c ≠ 120) (s : Str) (d : Nat) (e : Option String) :
    strLoop (92 :: c :: s) d e = (strLoop s d (if c ∈ strEscapes then e else some "E1006")).pre [92, c] := by
  rw [strLoop.eq_def]
  split
  · next h1 => cases h1
  · next h1 =>
    cases h1
    split
    · next h1 => cases h1
    · next h1 => cases h1; exact absurd rfl h
    · next h1 => cases h1; rfl
  · next hn h1 => cases h1; exact absurd rfl hn

theorem strEsc {p : Str} (hp : Esc p) (s : Str) (d : Nat) (e : Option String) :
    strLoop (p ++ s) d e = (strLoop s d e).pre p := by
  cases hp with
  | simple h =>
    next c =>
    have hx : c ≠ 120 := by rintro rfl; exact absurd h (by decide +kernel)
    show strLoop (92 :: c :: s) d e = _
    rw [strSimple hx, if_pos (show c ∈ strEscapes from h)]
  | hex ha hb =>
    next a b =>
    show strLoop (92 :: 120 :: a :: b :: s) d e = _
    rw [strHex, if_pos ha, if_pos hb]

theorem strByte {c : Byte} (h : c ≠ 92) (s : Str) (d : Nat) (e : Option String) :
    strLoop (c :: s) d e =
    if c = 36 ∧ s.head? = some 123 then (strLoop (s.drop 1) (d + 1) e).pre [c, 123]
    else if c = 123 ∧ 0 < d then (strLoop s (d + 1) e).pre [c]
    else if c = 125 ∧ 0 < d then (strLoop s (d - 1) e).pre [c]
    else if c = 34 ∧ d = 0 then ⟨[], .closed, c :: s, e⟩
    else if c = 10 ∧ d = 0 then ⟨[], .newline, c :: s, some "E1023"⟩
    else (strLoop s d e).pre [c] := by
  rw [strLoop.eq_def]
  split
  · next h1 => cases h1
  · next h1 => cases h1; exact absurd rfl h
  · next h1 =>
    cases h1
    by_cases h2 : c = 36 ∧ s.head? = some 123
    · rw [if_pos h2, if_pos h2]
      obtain ⟨h3, h4⟩ := h2
      cases s with
      | nil => cases h4
      | cons b r => cases h4; rfl
    · rw [if_neg h2, if_neg h2]

theorem strInner {a : Str} (ha : Inner a) : ∀ (s : Str) (d : Nat) (e : Option String),
    strLoop (a ++ s) (d + 1) e = (strLoop s (d + 1) e).pre a := by
  induction ha with
  | nil => intro s d e; rfl
  | @byte c r hc _ ih =>
    intro s d e
    rw [List.cons_append, strByte hc.1]
    by_cases h2 : c = 36 ∧ (r ++ s).head? = some 123
    · rw [if_pos h2]
      obtain ⟨x, hx⟩ : ∃ x, r ++ s = 123 :: x := by
        cases hrs : r ++ s with
        | nil => rw [hrs] at h2; cases h2.2
        | cons y x => rw [hrs] at h2; cases h2.2; exact ⟨x, rfl⟩
      have h3 := ih s d e
      rw [hx, strByte (by decide), if_neg (by simp), if_pos ⟨rfl, Nat.succ_pos _⟩] at h3
      rw [hx]
      show StrRes.pre _ (strLoop x (d + 1 + 1) e) = _
      rw [show ([c, 123] : Str) = [c] ++ [123] from rfl, ← pre_pre, h3, pre_pre]; rfl
    · rw [if_neg h2, if_neg (by rintro ⟨h, _⟩; exact hc.2.1 h), if_neg (by rintro ⟨h, _⟩; exact hc.2.2 h),
        if_neg (by rintro ⟨_, h⟩; exact absurd h (by omega)), if_neg (by rintro ⟨_, h⟩; exact absurd h (by omega)), ih, pre_pre]
      rfl
  | esc hp _ ih =>
    intro s d e
    rw [List.append_assoc, strEsc hp, ih, pre_pre]
  | @brace a r _ _ ih1 ih2 =>
    intro s d e
    rw [List.cons_append, List.append_assoc, List.cons_append, strByte (by decide), if_neg (by simp), if_pos ⟨rfl, Nat.succ_pos _⟩, ih1,
      strByte (by decide), if_neg (by simp), if_neg (by simp), if_pos ⟨rfl, Nat.succ_pos _⟩, Nat.add_sub_cancel, ih2]
    simp [pre_pre]

theorem strContent {a : Str} (ha : Content a) : ∀ (s : Str) (e : Option String),
    strLoop (a ++ 34 :: s) 0 e = ⟨a, .closed, 34 :: s, e⟩ := by
  induction ha with
  | nil => intro s e; rw [List.nil_append, strByte (by decide)]; rfl
  | @byte c r hc h2 _ ih =>
    intro s e
    rw [List.cons_append, strByte hc.1, if_neg, if_neg (by simp), if_neg (by simp), if_neg (by rintro ⟨h, _⟩; exact hc.2.1 h),
      if_neg (by rintro ⟨h, _⟩; exact hc.2.2 h), ih]
    · rfl
    · rintro ⟨rfl, h⟩
      cases r with
      | nil => cases h
      | cons d r => cases h; exact h2 ⟨r, rfl⟩
  | esc hp _ ih =>
    intro s e
    rw [List.append_assoc, strEsc hp, ih]; rfl
  | @interp a r ha _ ih =>
    intro s e
    rw [List.cons_append, List.cons_append, List.append_assoc, List.cons_append, strByte (by decide), if_pos ⟨rfl, rfl⟩,
      List.drop_succ_cons, List.drop_zero, strInner ha, strByte (by decide), if_neg (by simp), if_neg (by simp),
      if_pos ⟨rfl, Nat.succ_pos _⟩, Nat.add_sub_cancel, ih]
    simp [StrRes.pre]

/-- A content with so many braces still to be closed before. -/
def Open : Nat → Str → Prop
  | 0, t => Content t
  | d + 1, t => ∃ a r, t = a ++ 125 :: r ∧ Inner a ∧ Open d r

theorem Open.esc {p : Str} (hp : Esc p) : ∀ {d : Nat} {t : Str}, Open d t → Open d (p ++ t)
  | 0, _, h => Content.esc hp h
  | d + 1, _, ⟨a, r, h1, h2, h3⟩ => ⟨p ++ a, r, by rw [h1, List.append_assoc], .esc hp h2, h3⟩

theorem strLoop_sound : ∀ (n : Nat) (s : Str) (d : Nat) (e : Option String), s.length ≤ n →
    (strLoop s d e).how = .closed → (strLoop s d e).err = none →
    e = none ∧ Open d (strLoop s d e).text ∧ ∃ r, (strLoop s d e).rest = 34 :: r ∧ s = (strLoop s d e).text ++ 34 :: r
  | 0, s, d, e, h, h1, _ => by
    rw [List.length_eq_zero_iff.1 (Nat.le_zero.1 h), strLoop] at h1; cases h1
  | n + 1, s, d, e, hn, h1, h2 => by
    have esc : ∀ (p t : Str), s = p ++ t → Esc p →
        e = none ∧ Open d (strLoop s d e).text ∧ ∃ r, (strLoop s d e).rest = 34 :: r ∧ s = (strLoop s d e).text ++ 34 :: r := by
      rintro p t rfl hp
      rw [strEsc hp] at h1 h2 ⊢
      have hl : 0 < p.length := by cases hp <;> simp
      rw [List.length_append] at hn
      obtain ⟨h3, h4, r, h5, h6⟩ := strLoop_sound n t d e (by omega) h1 h2
      refine ⟨h3, h4.esc hp, r, h5, ?_⟩
      show p ++ t = p ++ (strLoop t d e).text ++ 34 :: r
      rw [List.append_assoc, ← h6]
    have bad : ∀ (p t : Str) (x : String), s = p ++ t → 0 < p.length → strLoop s d e = (strLoop t d (some x)).pre p → False := by
      rintro p t x hs hp he
      rw [he] at h1 h2
      have : t.length ≤ n := by
        rw [hs, List.length_append] at hn; omega
      exact absurd (strLoop_sound n t d (some x) this h1 h2).1 (by simp)
    cases s with
    | nil => rw [strLoop] at h1; cases h1
    | cons c s =>
      by_cases hc : c = 92
      · subst hc
        cases s with
        | nil => rw [strLoop.eq_def] at h1; cases h1
        | cons x r1 =>
          by_cases hx : x = 120
          · subst hx
            cases r1 with
            | nil => rw [strLoop.eq_def] at h1; cases h1
            | cons a r2 =>
              cases r2 with
              | nil =>
                by_cases ha : isXDigit a = true
                · rw [strHex1, if_pos ha] at h1; cases h1
                · exact (bad [92, 120] [a] "E1006" rfl (by simp) (by rw [strHex1, if_neg ha])).elim
              | cons b r3 =>
                by_cases ha : isXDigit a = true
                · by_cases hb : isXDigit b = true
                  · exact esc [92, 120, a, b] r3 rfl (.hex ha hb)
                  · exact (bad [92, 120, a] (b :: r3) "E1006" rfl (by simp) (by
                      rw [strHex, if_pos ha, if_neg hb])).elim
                · exact (bad [92, 120] (a :: b :: r3) "E1006" rfl (by simp) (by rw [strHex, if_neg ha])).elim
          · by_cases hm : x ∈ strEscapes
            · exact esc [92, x] r1 rfl (.simple hm)
            · exact (bad [92, x] r1 "E1006" rfl (by simp) (by rw [strSimple hx, if_neg hm])).elim
      · rw [strByte hc] at h1 h2 ⊢
        simp only [List.length_cons] at hn
        by_cases k1 : c = 36 ∧ s.head? = some 123
        · rw [if_pos k1] at h1 h2 ⊢
          obtain ⟨rfl, k2⟩ := k1
          cases s with
          | nil => cases k2
          | cons b s =>
            cases k2
            simp only [List.drop_succ_cons, List.drop_zero, List.length_cons] at *
            obtain ⟨h3, ⟨a, t, h4, h5, h6⟩, r, h7, h8⟩ := strLoop_sound n s (d + 1) e (by omega) h1 h2
            refine ⟨h3, ?_, r, h7, ?_⟩
            · show Open d (36 :: 123 :: (strLoop s (d + 1) e).text)
              rw [h4]
              cases d with
              | zero => exact .interp h5 h6
              | succ d =>
                obtain ⟨a2, t2, h9, h10, h11⟩ := h6
                refine ⟨36 :: 123 :: (a ++ 125 :: a2), t2, ?_, .byte (by decide) (.brace h5 h10), h11⟩
                rw [h9]; simp
            · show 36 :: 123 :: s = 36 :: 123 :: ((strLoop s (d + 1) e).text ++ 34 :: r)
              rw [← h8]
        · rw [if_neg k1] at h1 h2 ⊢
          by_cases k2 : c = 123 ∧ 0 < d
          · rw [if_pos k2] at h1 h2 ⊢
            obtain ⟨rfl, k3⟩ := k2
            obtain ⟨h3, ⟨a, t, h4, h5, h6⟩, r, h7, h8⟩ := strLoop_sound n s (d + 1) e (by omega) h1 h2
            refine ⟨h3, ?_, r, h7, ?_⟩
            · show Open d (123 :: (strLoop s (d + 1) e).text)
              rw [h4]
              obtain ⟨k, rfl⟩ : ∃ k, d = k + 1 := ⟨d - 1, by omega⟩
              obtain ⟨a2, t2, h9, h10, h11⟩ := h6
              refine ⟨123 :: (a ++ 125 :: a2), t2, ?_, .brace h5 h10, h11⟩
              rw [h9]; simp
            · show 123 :: s = 123 :: ((strLoop s (d + 1) e).text ++ 34 :: r)
              rw [← h8]
          · rw [if_neg k2] at h1 h2 ⊢
            by_cases k3 : c = 125 ∧ 0 < d
            · rw [if_pos k3] at h1 h2 ⊢
              obtain ⟨rfl, k4⟩ := k3
              obtain ⟨h3, h4, r, h7, h8⟩ := strLoop_sound n s (d - 1) e (by omega) h1 h2
              refine ⟨h3, ?_, r, h7, ?_⟩
              · show Open d (125 :: (strLoop s (d - 1) e).text)
                obtain ⟨k, rfl⟩ : ∃ k, d = k + 1 := ⟨d - 1, by omega⟩
                exact ⟨[], _, rfl, .nil, h4⟩
              · show 125 :: s = 125 :: ((strLoop s (d - 1) e).text ++ 34 :: r)
                rw [← h8]
            · rw [if_neg k3] at h1 h2 ⊢
              by_cases k4 : c = 34 ∧ d = 0
              · rw [if_pos k4] at h1 h2 ⊢
                obtain ⟨rfl, rfl⟩ := k4
                exact ⟨h2, .nil, s, rfl, rfl⟩
              · rw [if_neg k4] at h1 h2 ⊢
                by_cases k5 : c = 10 ∧ d = 0
                · rw [if_pos k5] at h1; cases h1
                · rw [if_neg k5] at h1 h2 ⊢
                  obtain ⟨h3, h4, r, h7, h8⟩ := strLoop_sound n s d e (by omega) h1 h2
                  refine ⟨h3, ?_, r, h7, ?_⟩
                  · show Open d (c :: (strLoop s d e).text)
                    cases d with
                    | zero =>
                      refine .byte ⟨hc, fun h => k4 ⟨h, rfl⟩, fun h => k5 ⟨h, rfl⟩⟩ ?_ h4
                      rintro ⟨x, hx⟩
                      simp only [List.cons_append, List.nil_append, List.cons.injEq] at hx
                      refine k1 ⟨hx.1.symm, ?_⟩
                      rw [h8, ← hx.2]; rfl
                    | succ d =>
                      obtain ⟨a, t, h9, h10, h11⟩ := h4
                      refine ⟨c :: a, t, by rw [h9]; rfl, .byte ⟨hc, fun h => k2 ⟨h, by omega⟩, fun h => k3 ⟨h, by omega⟩⟩ h10, h11⟩
                  · show c :: s = c :: ((strLoop s d e).text ++ 34 :: r)
                    rw [← h8]

end Lx

/-- C127: the lexer accepts exactly the string literals, and the token has the text between the quotes. -/
theorem C127_strings (s t r : Str) :
    readString (34 :: s) = (.string, t, r) ↔ s = t ++ 34 :: r ∧ Content t := by
  constructor
  · intro h
    unfold readString at h
    rw [List.drop_succ_cons, List.drop_zero] at h
    dsimp only at h
    split at h
    · next h1 h2 =>
      obtain ⟨_, h4, r', h5, h6⟩ := Lx.strLoop_sound _ s 0 none (Nat.le_refl _) h1 h2
      simp only [Prod.mk.injEq, true_and] at h
      rw [← h.1, ← h.2, h5]
      exact ⟨h6, h4⟩
    all_goals cases h
  · rintro ⟨rfl, h⟩
    unfold readString
    rw [List.drop_succ_cons, List.drop_zero, Lx.strContent h]
    rfl

/-- C127: a raw string is what is between two backticks. -/
theorem C127_raw (s t r : Str) : readRaw (96 :: s) = (.raw, t, r) ↔ s = t ++ 96 :: r ∧ 96 ∉ t := by
  have key : ∀ s : Str, (∃ r, s.dropWhile (· != 96) = 96 :: r ∧ s = s.takeWhile (· != 96) ++ 96 :: r) ∨
      s.dropWhile (· != 96) = [] := by
    intro s
    induction s with
    | nil => exact Or.inr rfl
    | cons c s ih =>
      by_cases hc : c = 96
      · subst hc; exact Or.inl ⟨s, rfl, rfl⟩
      · have hb : (c != 96) = true := by simpa using hc
        rw [List.dropWhile_cons_of_pos (p := (· != 96)) hb, List.takeWhile_cons_of_pos (p := (· != 96)) hb]
        rcases ih with ⟨r, h1, h2⟩ | h
        · exact Or.inl ⟨r, h1, by rw [List.cons_append, ← h2]⟩
        · exact Or.inr h
  constructor
  · intro h
    unfold readRaw at h
    rw [List.drop_succ_cons, List.drop_zero] at h
    rcases key s with ⟨r', h1, h2⟩ | h1
    · rw [h1] at h
      simp only [Prod.mk.injEq, true_and] at h
      rw [← h.1, ← h.2]
      exact ⟨h2, fun hm => absurd (Lx.takeWhile_mem hm) (by decide)⟩
    · rw [h1] at h; cases h
  · rintro ⟨rfl, h⟩
    have e1 : (t ++ 96 :: r).takeWhile (· != 96) = t ∧ (t ++ 96 :: r).dropWhile (· != 96) = 96 :: r := by
      induction t with
      | nil => exact ⟨rfl, rfl⟩
      | cons c t ih =>
        have hb : (c != 96) = true := by
          simp only [List.mem_cons, not_or] at h
          simpa using fun e : c = 96 => h.1 e.symm
        obtain ⟨h1, h2⟩ := ih fun hm => h (List.mem_cons_of_mem _ hm)
        rw [List.cons_append, List.takeWhile_cons_of_pos (p := (· != 96)) hb, List.dropWhile_cons_of_pos (p := (· != 96)) hb, h1]
        exact ⟨rfl, h2⟩
    unfold readRaw
    rw [List.drop_succ_cons, List.drop_zero, e1.1, e1.2]

example : Content (lit "a\\n${m[\"{\"]}}") ∧ ¬ Content (lit "a\\q") := by
  refine ⟨((C127_strings (lit "a\\n${m[\"{\"]}}\"") _ []).1 (by decide +kernel)).2, fun h => ?_⟩
  have := (C127_strings (lit "a\\q\"") (lit "a\\q") []).2 ⟨by decide +kernel, h⟩
  exact absurd this (by decide +kernel)

/-! ### C128: character literals -/

/-- The escape sequences of a character literal and their values. -/
def charEscs : List (Byte × Byte) := [(110, 10), (116, 9), (114, 13), (92, 92), (39, 39), (48, 0)]

/-- The texts of character literals in ASCII, with the character they stand for. -/
inductive CharLit : Str → Byte → Prop where
  | plain {c : Byte} (h : c ≠ 39 ∧ c ≠ 92 ∧ c ≠ 10 ∧ c ≠ 0) : CharLit [c] c
  | esc {c v : Byte} (h : (c, v) ∈ charEscs) : CharLit [92, c] v

/-- The C character constant (C11 6.4.4.4) of a text between single quotes: one byte or one simple escape or
octal escape. -/
def cChar : Str → Option Byte
  | [c] => if c = 39 ∨ c = 92 ∨ c = 10 then none else some c
  | [92, c] => [((110 : Byte), (10 : Byte)), (116, 9), (114, 13), (92, 92), (39, 39), (34, 34), (48, 0)].lookup c
  | _ => none

/-- C128 as claimed: a character literal has one character of the source, which is in UTF-8 (STANDARD 2.1), or one
escape sequence of strings (2.7.3). -/
def C128_statement : Prop :=
  ∀ (t r : Str), (∃ n : Nat, Scalar n ∧ n ≠ 39 ∧ n ≠ 92 ∧ n ≠ 10 ∧ t = utf8 n) ∨ Esc t →
    readChar (39 :: (t ++ 39 :: r)) = (.char, t, r)

theorem C128_witness : readChar (39 :: (utf8 0xE9 ++ [39])) = (.illegal "E1018", utf8 0xE9, []) := by
  decide +kernel

/-- Hexadecimal escapes are not accepted, but `\x` without digits is, as the letter x. -/
theorem C128_hex_witness : readChar (lit "'\\x41'") = (.illegal "E1018", lit "\\x41", []) ∧
    readChar (lit "'\\x'") = (.char, lit "\\x", []) ∧ LitEmit.charValue (lit "\\x") = 120 := by decide +kernel

theorem C128_fails : ¬ C128_statement := fun h => by
  have h1 := h (utf8 0xE9) [] (Or.inl ⟨0xE9, Or.inl (by decide), by decide, by decide, by decide, rfl⟩)
  rw [C128_witness] at h1
  cases h1

/-- What holds: an ASCII character or an escape sequence other than `\x` is a literal, it has the value it stands for,
and the C text has the same value. What is missing: other characters, and hexadecimal escapes. -/
theorem C128_partial (t r : Str) (v : Byte) (h : CharLit t v) :
    readChar (39 :: (t ++ 39 :: r)) = (.char, t, r) ∧ LitEmit.charValue t = v ∧ cChar (LitEmit.emitChar v) = some v := by
  have k : ∀ n : Fin 256, cChar (LitEmit.emitChar (BitVec.ofFin n : Byte)) = some (BitVec.ofFin n : Byte) := by decide +kernel
  refine ⟨?_, ?_, k v.toFin⟩
  · cases h with
    | plain h =>
      unfold readChar
      rw [List.drop_succ_cons, List.drop_zero]
      split
      · next h1 => cases h1
      · next h1 => cases h1; exact absurd rfl h.2.1
      · next h1 => cases h1; rfl
    | @esc c v h =>
      have key : ∀ p ∈ charEscs, p.1 ∈ charEscapes := by decide +kernel
      show charEnd [92, c] (39 :: r) (if c ∈ charEscapes then none else some "E1007") = _
      rw [if_pos (key _ h)]; rfl
  · cases h with
    | plain h =>
      exact if_neg (fun h1 : v = 92 ∧ _ => h.2.1 h1.1)
    | @esc c v h =>
      have key : ∀ p ∈ charEscs, LitEmit.charValue [92, p.1] = p.2 := by decide +kernel
      exact key _ h

example : CharLit (lit "\\n") 10 ∧ CharLit (lit "A") 65 := ⟨.esc (by decide), .plain (by decide)⟩

/-! ### C125: sequences of tokens -/

/-- Operators, delimiters and attributes, with their names: those of STANDARD 2.6, `;`, `?`, `!in`, `#json`, `#suppress`. -/
def symbols : List (Str × Str) :=
  (["+", "-", "*", "/", "%", "==", "!=", "<", ">", "<=", ">=", "&&", "||", "!", "=", "+=", "-=", "*=", "/=", "%=",
    "++", "--", "^", "&", "@", "(", ")", "{", "}", "[", "]", ",", ":", ".", "->", ";", "?",
    "#doc", "#flags", "#strict", "#json", "#suppress"].map fun w => (lit w, lit w)) ++ [(lit "not_in", lit "!in")]

/-- The tokens: kind, text, and how they are written. -/
inductive Lexeme : Kind → Str → Str → Prop where
  | keyword {c : Byte} {w t : Str} (hc : isAlpha c = true ∨ c = 95) (hw : ∀ d ∈ w, isAlpha d = true ∨ d = 95 ∨ isDigit d = true)
      (h : (c :: w, t) ∈ reserved) : Lexeme (.sym t) (c :: w) (c :: w)
  | ident {c : Byte} {w : Str} (hc : isAlpha c = true ∨ c = 95) (hw : ∀ d ∈ w, isAlpha d = true ∨ d = 95 ∨ isDigit d = true)
      (h : ∀ t, (c :: w, t) ∉ reserved) : Lexeme .ident (c :: w) (c :: w)
  | symbol {n t : Str} (h : (n, t) ∈ symbols) : Lexeme (.sym n) t t
  | number {k : Kind} {t : Str} (h : NumLit k t) : Lexeme k t t
  | string {t : Str} (h : Content t) : Lexeme .string t (34 :: (t ++ [34]))
  | raw {t : Str} (h : 96 ∉ t) : Lexeme .raw t (96 :: (t ++ [96]))
  | char {t : Str} {v : Byte} (h : CharLit t v) : Lexeme .char t (39 :: (t ++ [39]))

/-- White space and comments. -/
inductive LexGap : Str → Prop where
  | nil : LexGap []
  | space {c : Byte} {g : Str} (hc : c ∈ lit " \t\r\n") (h : LexGap g) : LexGap (c :: g)
  | line {b g : Str} (hb : 10 ∉ b) (h : LexGap g) : LexGap (47 :: 47 :: (b ++ 10 :: g))
  | block {b g : Str} (hb : ¬ [42, 47] <:+: b) (h : LexGap g) : LexGap (47 :: 42 :: (b ++ 42 :: 47 :: g))

namespace Lx

/-- The text after a token: its end, or white space. -/
def Stop (r : Str) : Prop := ∀ c, r.head? = some c → c ∈ lit " \t\r\n"

theorem ws_iff {c : Byte} : c ∈ lit " \t\r\n" ↔ isWs c = true := by
  have k : ∀ n : Fin 256, (BitVec.ofFin n : Byte) ∈ lit " \t\r\n" ↔ isWs (BitVec.ofFin n : Byte) = true := by decide +kernel
  exact k c.toFin

theorem skip_space {c : Byte} (h : isWs c = true) (f : Nat) (s : Str) : skip (f + 1) (c :: s) = skip (f + 1) s := by
  have e : skipSpace (c :: s) = skipSpace s := List.dropWhile_cons_of_pos h
  rw [skip, skip, e]

theorem skipBlock_app : ∀ {b : Str}, ¬ [42, 47] <:+: b → ∀ s, skipBlock (b ++ 42 :: 47 :: s) = some s
  | [], _, s => by rw [List.nil_append, skipBlock]; rfl
  | c :: b, h, s => by
    rw [List.cons_append, skipBlock, if_neg, skipBlock_app fun h1 => h (h1.trans (List.suffix_cons c b).isInfix)]
    rintro ⟨rfl, h2⟩
    cases b with
    | nil => cases h2
    | cons d b => cases h2; exact h ⟨[], b, rfl⟩

theorem skipLine_app : ∀ {b : Str}, 10 ∉ b → ∀ s, skipLine (b ++ 10 :: s) = 10 :: s
  | [], _, s => rfl
  | c :: b, h, s => by
    simp only [List.mem_cons, not_or] at h
    have : (c != 10) = true := by simpa using fun e : c = 10 => h.1 e.symm
    rw [List.cons_append, skipLine, List.dropWhile_cons_of_pos (p := (· != 10)) this]
    exact skipLine_app h.2 s

theorem skip_blank {g : Str} (hg : LexGap g) (s : Str) : skip ((g ++ s).length + 1) (g ++ s) = skip (s.length + 1) s := by
  induction hg with
  | nil => rfl
  | @space c g hc _ ih =>
    rw [List.cons_append, skip_space (ws_iff.1 hc), skip_enough (by rw [List.length_cons]; omega), ih]
  | @line b g hb _ ih =>
    have e : 47 :: 47 :: (b ++ 10 :: g) ++ s = 47 :: 47 :: (b ++ 10 :: (g ++ s)) := by simp
    rw [e, skip_line (s := 47 :: 47 :: (b ++ 10 :: (g ++ s))) rfl, skipLine_app hb,
      skip_enough (by simp only [List.length_cons, List.length_append]; omega), skip_space (by decide),
      skip_enough (by rw [List.length_cons]; omega), ih]
  | @block b g hb _ ih =>
    have e : 47 :: 42 :: (b ++ 42 :: 47 :: g) ++ s = 47 :: 42 :: (b ++ 42 :: 47 :: (g ++ s)) := by simp
    rw [e, skip_block (s := 47 :: 42 :: (b ++ 42 :: 47 :: (g ++ s))) rfl, skipBlock_app hb]
    dsimp only
    rw [skip_enough (by simp only [List.length_cons, List.length_append]; omega), ih]

theorem takeWhile_stop {p : Byte → Bool} {a r : Str} (ha : ∀ c ∈ a, p c = true) (hr : ∀ c, r.head? = some c → p c = false) :
    (a ++ r).takeWhile p = a ∧ (a ++ r).dropWhile p = r := by
  induction a with
  | nil =>
    cases r with
    | nil => exact ⟨rfl, rfl⟩
    | cons c r =>
      have h := hr c rfl
      exact ⟨List.takeWhile_cons_of_neg (by rw [h]; decide), List.dropWhile_cons_of_neg (by rw [h]; decide)⟩
  | cons c a ih =>
    obtain ⟨h1, h2⟩ := ih fun d hd => ha d (List.mem_cons_of_mem _ hd)
    have h := ha c List.mem_cons_self
    rw [List.cons_append, List.takeWhile_cons_of_pos h, List.dropWhile_cons_of_pos h, h1, h2]
    exact ⟨rfl, rfl⟩

theorem token_word {c : Byte} {r : Str} (h : (isAlpha c || c == 95) = true) :
    token (c :: r) = (lookupWord (readWord (c :: r)).1, (readWord (c :: r)).1, (readWord (c :: r)).2) := by
  unfold token
  split
  case h_29 =>
    exact if_pos h
  all_goals
    next h1 =>
    exfalso
    change c = _ at h1
    subst h1
    revert h
    decide

theorem token_digit {c : Byte} {r : Str} (h : isDigit c = true) : token (c :: r) = readNumber (c :: r) := by
  unfold token
  split
  case h_29 =>
    have k : ∀ n : Fin 256, isDigit (BitVec.ofFin n : Byte) = true →
        ¬ (isAlpha (BitVec.ofFin n : Byte) || (BitVec.ofFin n : Byte) == 95) = true := by decide +kernel
    exact (if_neg (k c.toFin h)).trans (if_pos h)
  all_goals
    next h1 =>
    exfalso
    change c = _ at h1
    subst h1
    revert h
    decide

theorem token_hash (r : Str) : token (35 :: r) =
    match attrs.find? (fun a => a.isPrefixOf (35 :: r)) with
    | some a => (.sym a, a, (35 :: r).drop a.length)
    | none => (.illegal "E1019", (35 :: r).take 1, (35 :: r).drop 1) := rfl

theorem token_not (r : Str) : token (33 :: r) =
    if at0 (33 :: r) 1 = 61 then (.sym (lit "!="), lit "!=", (33 :: r).drop 2)
    else if at0 (33 :: r) 1 = 105 ∧ at0 (33 :: r) 2 = 110 ∧ ((33 :: r).length ≤ 3 ∨ isAlpha (at0 (33 :: r) 3) = false) then
      (.sym (lit "not_in"), lit "!in", (33 :: r).drop 3)
    else one (33 :: r) "!" := rfl

theorem token_symbol {n t : Str} (h : (n, t) ∈ symbols) (r : Str) (hr : Stop r) : token (t ++ r) = (.sym n, t, r) := by
  have h2 : r = [] ∨ ∃ u, r = 32 :: u ∨ r = 9 :: u ∨ r = 13 :: u ∨ r = 10 :: u := by
    cases r with
    | nil => exact Or.inl rfl
    | cons c u =>
      have := hr c rfl
      rw [show lit " \t\r\n" = [32, 9, 13, 10] by decide +kernel] at this
      simp only [List.mem_cons, List.not_mem_nil, or_false] at this
      rcases this with rfl | rfl | rfl | rfl
      · exact Or.inr ⟨u, Or.inl rfl⟩
      · exact Or.inr ⟨u, Or.inr (Or.inl rfl)⟩
      · exact Or.inr ⟨u, Or.inr (Or.inr (Or.inl rfl))⟩
      · exact Or.inr ⟨u, Or.inr (Or.inr (Or.inr rfl))⟩
  have e : symbols = [(lit "+", lit "+"), (lit "-", lit "-"), (lit "*", lit "*"), (lit "/", lit "/"), (lit "%", lit "%"), (lit "==", lit "=="), (lit "!=", lit "!="), (lit "<", lit "<"), (lit ">", lit ">"), (lit "<=", lit "<="), (lit ">=", lit ">="), (lit "&&", lit "&&"), (lit "||", lit "||"), (lit "!", lit "!"), (lit "=", lit "="), (lit "+=", lit "+="), (lit "-=", lit "-="), (lit "*=", lit "*="), (lit "/=", lit "/="), (lit "%=", lit "%="), (lit "++", lit "++"), (lit "--", lit "--"), (lit "^", lit "^"), (lit "&", lit "&"), (lit "@", lit "@"), (lit "(", lit "("), (lit ")", lit ")"), (lit "{", lit "{"), (lit "}", lit "}"), (lit "[", lit "["), (lit "]", lit "]"), (lit ",", lit ","), (lit ":", lit ":"), (lit ".", lit "."), (lit "->", lit "->"), (lit ";", lit ";"), (lit "?", lit "?"), (lit "#doc", lit "#doc"), (lit "#flags", lit "#flags"), (lit "#strict", lit "#strict"), (lit "#json", lit "#json"), (lit "#suppress", lit "#suppress"), (lit "not_in", lit "!in")] := by decide +kernel
  rw [e] at h
  simp only [List.mem_cons, List.not_mem_nil, or_false, Prod.mk.injEq] at h
  have ea : attrs = [[35, 115, 117, 112, 112, 114, 101, 115, 115], [35, 115, 116, 114, 105, 99, 116], [35, 102, 108, 97, 103, 115], [35, 100, 111, 99], [35, 106, 115, 111, 110]] := by decide +kernel
  rcases h with ⟨rfl, rfl⟩ | ⟨rfl, rfl⟩ | ⟨rfl, rfl⟩ | ⟨rfl, rfl⟩ | ⟨rfl, rfl⟩ | ⟨rfl, rfl⟩ | ⟨rfl, rfl⟩ | ⟨rfl, rfl⟩ | ⟨rfl, rfl⟩ | ⟨rfl, rfl⟩ | ⟨rfl, rfl⟩ | ⟨rfl, rfl⟩ | ⟨rfl, rfl⟩ | ⟨rfl, rfl⟩ | ⟨rfl, rfl⟩ | ⟨rfl, rfl⟩ | ⟨rfl, rfl⟩ | ⟨rfl, rfl⟩ | ⟨rfl, rfl⟩ | ⟨rfl, rfl⟩ | ⟨rfl, rfl⟩ | ⟨rfl, rfl⟩ | ⟨rfl, rfl⟩ | ⟨rfl, rfl⟩ | ⟨rfl, rfl⟩ | ⟨rfl, rfl⟩ | ⟨rfl, rfl⟩ | ⟨rfl, rfl⟩ | ⟨rfl, rfl⟩ | ⟨rfl, rfl⟩ | ⟨rfl, rfl⟩ | ⟨rfl, rfl⟩ | ⟨rfl, rfl⟩ | ⟨rfl, rfl⟩ | ⟨rfl, rfl⟩ | ⟨rfl, rfl⟩ | ⟨rfl, rfl⟩ | ⟨rfl, rfl⟩ | ⟨rfl, rfl⟩ | ⟨rfl, rfl⟩ | ⟨rfl, rfl⟩ | ⟨rfl, rfl⟩ | ⟨rfl, rfl⟩
  · rw [show lit "+" ++ r = [43] ++ r by rw [show lit "+" = [43] by decide +kernel]]
    rcases h2 with rfl | ⟨u, rfl | rfl | rfl | rfl⟩ <;> rfl
  · rw [show lit "-" ++ r = [45] ++ r by rw [show lit "-" = [45] by decide +kernel]]
    rcases h2 with rfl | ⟨u, rfl | rfl | rfl | rfl⟩ <;> rfl
  · rw [show lit "*" ++ r = [42] ++ r by rw [show lit "*" = [42] by decide +kernel]]
    rcases h2 with rfl | ⟨u, rfl | rfl | rfl | rfl⟩ <;> rfl
  · rw [show lit "/" ++ r = [47] ++ r by rw [show lit "/" = [47] by decide +kernel]]
    rcases h2 with rfl | ⟨u, rfl | rfl | rfl | rfl⟩ <;> rfl
  · rw [show lit "%" ++ r = [37] ++ r by rw [show lit "%" = [37] by decide +kernel]]
    rcases h2 with rfl | ⟨u, rfl | rfl | rfl | rfl⟩ <;> rfl
  · rw [show lit "==" ++ r = [61, 61] ++ r by rw [show lit "==" = [61, 61] by decide +kernel]]
    rcases h2 with rfl | ⟨u, rfl | rfl | rfl | rfl⟩ <;> rfl
  · rw [show lit "!=" ++ r = [33, 61] ++ r by rw [show lit "!=" = [33, 61] by decide +kernel]]
    rcases h2 with rfl | ⟨u, rfl | rfl | rfl | rfl⟩ <;> rfl
  · rw [show lit "<" ++ r = [60] ++ r by rw [show lit "<" = [60] by decide +kernel]]
    rcases h2 with rfl | ⟨u, rfl | rfl | rfl | rfl⟩ <;> rfl
  · rw [show lit ">" ++ r = [62] ++ r by rw [show lit ">" = [62] by decide +kernel]]
    rcases h2 with rfl | ⟨u, rfl | rfl | rfl | rfl⟩ <;> rfl
  · rw [show lit "<=" ++ r = [60, 61] ++ r by rw [show lit "<=" = [60, 61] by decide +kernel]]
    rcases h2 with rfl | ⟨u, rfl | rfl | rfl | rfl⟩ <;> rfl
  · rw [show lit ">=" ++ r = [62, 61] ++ r by rw [show lit ">=" = [62, 61] by decide +kernel]]
    rcases h2 with rfl | ⟨u, rfl | rfl | rfl | rfl⟩ <;> rfl
  · rw [show lit "&&" ++ r = [38, 38] ++ r by rw [show lit "&&" = [38, 38] by decide +kernel]]
    rcases h2 with rfl | ⟨u, rfl | rfl | rfl | rfl⟩ <;> rfl
  · rw [show lit "||" ++ r = [124, 124] ++ r by rw [show lit "||" = [124, 124] by decide +kernel]]
    rcases h2 with rfl | ⟨u, rfl | rfl | rfl | rfl⟩ <;> rfl
  · rw [show lit "!" ++ r = [33] ++ r by rw [show lit "!" = [33] by decide +kernel]]
    rcases h2 with rfl | ⟨u, rfl | rfl | rfl | rfl⟩ <;> rfl
  · rw [show lit "=" ++ r = [61] ++ r by rw [show lit "=" = [61] by decide +kernel]]
    rcases h2 with rfl | ⟨u, rfl | rfl | rfl | rfl⟩ <;> rfl
  · rw [show lit "+=" ++ r = [43, 61] ++ r by rw [show lit "+=" = [43, 61] by decide +kernel]]
    rcases h2 with rfl | ⟨u, rfl | rfl | rfl | rfl⟩ <;> rfl
  · rw [show lit "-=" ++ r = [45, 61] ++ r by rw [show lit "-=" = [45, 61] by decide +kernel]]
    rcases h2 with rfl | ⟨u, rfl | rfl | rfl | rfl⟩ <;> rfl
  · rw [show lit "*=" ++ r = [42, 61] ++ r by rw [show lit "*=" = [42, 61] by decide +kernel]]
    rcases h2 with rfl | ⟨u, rfl | rfl | rfl | rfl⟩ <;> rfl
  · rw [show lit "/=" ++ r = [47, 61] ++ r by rw [show lit "/=" = [47, 61] by decide +kernel]]
    rcases h2 with rfl | ⟨u, rfl | rfl | rfl | rfl⟩ <;> rfl
  · rw [show lit "%=" ++ r = [37, 61] ++ r by rw [show lit "%=" = [37, 61] by decide +kernel]]
    rcases h2 with rfl | ⟨u, rfl | rfl | rfl | rfl⟩ <;> rfl
  · rw [show lit "++" ++ r = [43, 43] ++ r by rw [show lit "++" = [43, 43] by decide +kernel]]
    rcases h2 with rfl | ⟨u, rfl | rfl | rfl | rfl⟩ <;> rfl
  · rw [show lit "--" ++ r = [45, 45] ++ r by rw [show lit "--" = [45, 45] by decide +kernel]]
    rcases h2 with rfl | ⟨u, rfl | rfl | rfl | rfl⟩ <;> rfl
  · rw [show lit "^" ++ r = [94] ++ r by rw [show lit "^" = [94] by decide +kernel]]
    rcases h2 with rfl | ⟨u, rfl | rfl | rfl | rfl⟩ <;> rfl
  · rw [show lit "&" ++ r = [38] ++ r by rw [show lit "&" = [38] by decide +kernel]]
    rcases h2 with rfl | ⟨u, rfl | rfl | rfl | rfl⟩ <;> rfl
  · rw [show lit "@" ++ r = [64] ++ r by rw [show lit "@" = [64] by decide +kernel]]
    rcases h2 with rfl | ⟨u, rfl | rfl | rfl | rfl⟩ <;> rfl
  · rw [show lit "(" ++ r = [40] ++ r by rw [show lit "(" = [40] by decide +kernel]]
    rcases h2 with rfl | ⟨u, rfl | rfl | rfl | rfl⟩ <;> rfl
  · rw [show lit ")" ++ r = [41] ++ r by rw [show lit ")" = [41] by decide +kernel]]
    rcases h2 with rfl | ⟨u, rfl | rfl | rfl | rfl⟩ <;> rfl
  · rw [show lit "{" ++ r = [123] ++ r by rw [show lit "{" = [123] by decide +kernel]]
    rcases h2 with rfl | ⟨u, rfl | rfl | rfl | rfl⟩ <;> rfl
  · rw [show lit "}" ++ r = [125] ++ r by rw [show lit "}" = [125] by decide +kernel]]
    rcases h2 with rfl | ⟨u, rfl | rfl | rfl | rfl⟩ <;> rfl
  · rw [show lit "[" ++ r = [91] ++ r by rw [show lit "[" = [91] by decide +kernel]]
    rcases h2 with rfl | ⟨u, rfl | rfl | rfl | rfl⟩ <;> rfl
  · rw [show lit "]" ++ r = [93] ++ r by rw [show lit "]" = [93] by decide +kernel]]
    rcases h2 with rfl | ⟨u, rfl | rfl | rfl | rfl⟩ <;> rfl
  · rw [show lit "," ++ r = [44] ++ r by rw [show lit "," = [44] by decide +kernel]]
    rcases h2 with rfl | ⟨u, rfl | rfl | rfl | rfl⟩ <;> rfl
  · rw [show lit ":" ++ r = [58] ++ r by rw [show lit ":" = [58] by decide +kernel]]
    rcases h2 with rfl | ⟨u, rfl | rfl | rfl | rfl⟩ <;> rfl
  · rw [show lit "." ++ r = [46] ++ r by rw [show lit "." = [46] by decide +kernel]]
    rcases h2 with rfl | ⟨u, rfl | rfl | rfl | rfl⟩ <;> rfl
  · rw [show lit "->" ++ r = [45, 62] ++ r by rw [show lit "->" = [45, 62] by decide +kernel]]
    rcases h2 with rfl | ⟨u, rfl | rfl | rfl | rfl⟩ <;> rfl
  · rw [show lit ";" ++ r = [59] ++ r by rw [show lit ";" = [59] by decide +kernel]]
    rcases h2 with rfl | ⟨u, rfl | rfl | rfl | rfl⟩ <;> rfl
  · rw [show lit "?" ++ r = [63] ++ r by rw [show lit "?" = [63] by decide +kernel]]
    rcases h2 with rfl | ⟨u, rfl | rfl | rfl | rfl⟩ <;> rfl
  · rw [show lit "#doc" = [35, 100, 111, 99] by decide +kernel]
    rw [List.cons_append, token_hash, ea]
    rcases h2 with rfl | ⟨u, rfl | rfl | rfl | rfl⟩ <;> rfl
  · rw [show lit "#flags" = [35, 102, 108, 97, 103, 115] by decide +kernel]
    rw [List.cons_append, token_hash, ea]
    rcases h2 with rfl | ⟨u, rfl | rfl | rfl | rfl⟩ <;> rfl
  · rw [show lit "#strict" = [35, 115, 116, 114, 105, 99, 116] by decide +kernel]
    rw [List.cons_append, token_hash, ea]
    rcases h2 with rfl | ⟨u, rfl | rfl | rfl | rfl⟩ <;> rfl
  · rw [show lit "#json" = [35, 106, 115, 111, 110] by decide +kernel]
    rw [List.cons_append, token_hash, ea]
    rcases h2 with rfl | ⟨u, rfl | rfl | rfl | rfl⟩ <;> rfl
  · rw [show lit "#suppress" = [35, 115, 117, 112, 112, 114, 101, 115, 115] by decide +kernel]
    rw [List.cons_append, token_hash, ea]
    rcases h2 with rfl | ⟨u, rfl | rfl | rfl | rfl⟩ <;> rfl
  · rw [show lit "!in" ++ r = [33, 105, 110] ++ r by rw [show lit "!in" = [33, 105, 110] by decide +kernel]]
    rw [List.cons_append, token_not, if_neg (show ¬ at0 (33 :: ([105, 110] ++ r)) 1 = 61 from fun h => absurd (show (105 : Byte) = 61 from h) (by decide)), if_pos]
    · rfl
    · refine ⟨rfl, rfl, ?_⟩
      rcases h2 with rfl | ⟨u, rfl | rfl | rfl | rfl⟩
      · exact Or.inl (by decide)
      all_goals exact Or.inr rfl


/-! Numbers. -/

theorem sep_cons {ok : Byte → Bool} {a : Str} (h : Sep ok a) : ∃ c b, a = c :: b ∧ ok c = true := by
  obtain ⟨h0, h1, h2, -⟩ := h
  cases a with
  | nil => exact absurd rfl h0
  | cons c b =>
    refine ⟨c, b, rfl, (h1 c List.mem_cons_self).resolve_right fun e => h2 (by rw [e]; rfl)⟩

theorem stop_not {r : Str} (hr : Stop r) {p : Byte → Bool} (hp : ∀ n : Fin 256, isWs (BitVec.ofFin n : Byte) = true → p (BitVec.ofFin n : Byte) = false) :
    ∀ c, r.head? = some c → p c = false := fun c hc => hp c.toFin (ws_iff.1 (hr c hc))

theorem readPrefixed_app {ok q : Byte → Bool} {x : Byte} {a r : Str} (h : Sep q a) (hq : ∀ c, q c = ok c) (hr : Stop r)
    (hp : ∀ n : Fin 256, isWs (BitVec.ofFin n : Byte) = true → (ok (BitVec.ofFin n : Byte) || (BitVec.ofFin n : Byte) == 95) = false) :
    readPrefixed ok (48 :: x :: (a ++ r)) = (.int, 48 :: x :: a, r) := by
  unfold readPrefixed
  obtain ⟨e1, e2⟩ := takeWhile_stop (p := fun c => ok c || c == 95) (a := a) (r := r)
    (fun c hc => by
      rw [Bool.or_eq_true, beq_iff_eq, ← hq]
      exact h.2.1 c hc) (stop_not hr hp)
  dsimp only
  rw [show List.drop 2 (48 :: x :: (a ++ r)) = a ++ r from rfl, e1, e2, if_neg h.1]
  rfl

/-- The second byte of a decimal literal. -/
theorem second {a x : Str} (ha : Sep isDigit a) (hx : ∀ c, x.head? = some c → isWs c = true ∨ c = 46) :
    at0 (a ++ x) 1 ∉ ([120, 88, 111, 79, 98, 66] : List Byte) := by
  have k : ∀ n : Fin 256, (isDigitU (BitVec.ofFin n : Byte) = true ∨ isWs (BitVec.ofFin n : Byte) = true ∨ (BitVec.ofFin n : Byte) = 46) →
      (BitVec.ofFin n : Byte) ∉ ([120, 88, 111, 79, 98, 66] : List Byte) := by decide +kernel
  cases a with
  | nil => exact absurd rfl ha.1
  | cons c a =>
    cases a with
    | cons d a => exact k d.toFin (Or.inl (digitU_iff.2 (ha.2.1 d (by simp))))
    | nil =>
      cases x with
      | nil => exact fun h => absurd (show (0 : Byte) ∈ ([120, 88, 111, 79, 98, 66] : List Byte) from h) (by decide)
      | cons d x => exact k d.toFin (Or.inr (hx d rfl))

theorem readNumber_dec {s : Str} (h : at0 s 1 ∉ ([120, 88, 111, 79, 98, 66] : List Byte)) {k : Kind} {t r : Str}
    (h1 : readDecimal s = (k, t, r)) (h2 : numberCheck t = none) : readNumber s = (k, t, r) := by
  simp only [List.mem_cons, List.not_mem_nil, or_false, not_or] at h
  unfold readNumber
  rw [if_neg (by rintro ⟨-, h' | h'⟩ <;> simp_all), if_neg (by rintro ⟨-, h' | h'⟩ <;> simp_all),
    if_neg (by rintro ⟨-, h' | h'⟩ <;> simp_all), h1]
  dsimp only
  rw [h2]

theorem hasDouble_cons {c d : Byte} (a : Str) (h : ¬ (c = 95 ∧ d = 95)) : hasDouble (c :: d :: a) = hasDouble (d :: a) := by
  rw [hasDouble]
  intro r h1 h2; cases h2; exact h ⟨h1, rfl⟩

theorem hasDouble_pt (b : Str) : ∀ a : Str, hasDouble (a ++ 46 :: b) = (hasDouble a || hasDouble b)
  | [] => rfl
  | [c] => by
    have e : hasDouble [c] = false := by
      rw [hasDouble]
      · rfl
      · intro r h1 h2; cases h2
    rw [List.cons_append, List.nil_append, hasDouble_cons b (fun h => absurd h.2 (by decide)), e]
    rfl
  | c :: d :: a => by
    by_cases h : c = 95 ∧ d = 95
    · obtain ⟨rfl, rfl⟩ := h; rfl
    · rw [List.cons_append, List.cons_append, hasDouble_cons _ h, hasDouble_cons _ h]
      exact hasDouble_pt b (d :: a)

theorem stop_digitU {r : Str} (hr : Stop r) : ∀ c, r.head? = some c → isDigitU c = false :=
  stop_not hr (by decide +kernel)

/-- A numeric literal before the end or white space is read as it is. -/
theorem readNumber_app {k : Kind} {a r : Str} (h : NumLit k a) (hr : Stop r) : readNumber (a ++ r) = (k, a, r) := by
  cases h with
  | hex hx h =>
    rename_i x a
    show readNumber (48 :: x :: (a ++ r)) = _
    unfold readNumber
    rw [if_pos ⟨rfl, hx⟩]
    exact readPrefixed_app h (fun _ => rfl) hr (by decide +kernel)
  | oct hx h =>
    rename_i x a
    have hq : ∀ n : Fin 256, decide (48 ≤ (BitVec.ofFin n : Byte).toNat ∧ (BitVec.ofFin n : Byte).toNat < 56) =
        between 48 (BitVec.ofFin n : Byte) 55 := by decide +kernel
    show readNumber (48 :: x :: (a ++ r)) = _
    unfold readNumber
    rw [if_neg, if_pos ⟨rfl, hx⟩]
    · exact readPrefixed_app h (fun c => hq c.toFin) hr (by decide +kernel)
    · rintro ⟨-, h1⟩
      change x = 120 ∨ x = 88 at h1
      rcases hx with rfl | rfl <;> exact absurd h1 (by decide)
  | bin hx h =>
    rename_i x a
    have hq : ∀ n : Fin 256, decide ((BitVec.ofFin n : Byte) = 48 ∨ (BitVec.ofFin n : Byte) = 49) =
        ((BitVec.ofFin n : Byte) == 48 || (BitVec.ofFin n : Byte) == 49) := by decide +kernel
    show readNumber (48 :: x :: (a ++ r)) = _
    unfold readNumber
    rw [if_neg, if_neg, if_pos ⟨rfl, hx⟩]
    · exact readPrefixed_app h (fun c => hq c.toFin) hr (by decide +kernel)
    · rintro ⟨-, h1⟩
      change x = 111 ∨ x = 79 at h1
      rcases hx with rfl | rfl <;> exact absurd h1 (by decide)
    · rintro ⟨-, h1⟩
      change x = 120 ∨ x = 88 at h1
      rcases hx with rfl | rfl <;> exact absurd h1 (by decide)
  | dec h =>
    have hU : ∀ c ∈ a, isDigitU c = true := fun c hc => digitU_iff.2 (h.2.1 c hc)
    refine readNumber_dec (second h fun c hc => Or.inl (ws_iff.1 (hr c hc))) ?_ ?_
    · obtain ⟨e1, e2⟩ := takeWhile_stop hU (stop_digitU hr)
      unfold readDecimal
      dsimp only
      rw [e1, e2]
      cases r with
      | nil => rfl
      | cons c r =>
        split
        · next h1 =>
          cases h1
          exact absurd (hr 46 rfl) (by decide +kernel)
        · rfl
    · rw [numberCheck_none]
      exact ⟨h.2.2.2.1, h.2.2.2.2, pointCheck_int fun c hc => digitU_ne (hU c hc)⟩
  | @point a b ha hb =>
    have hU : ∀ c ∈ a, isDigitU c = true := fun c hc => digitU_iff.2 (ha.2.1 c hc)
    have hV : ∀ c ∈ b, isDigitU c = true := fun c hc => digitU_iff.2 (hb.2.1 c hc)
    obtain ⟨d, b', rfl, hd⟩ := sep_cons hb
    rw [List.append_assoc, List.cons_append]
    refine readNumber_dec (second ha fun c hc => Or.inr (by cases hc; rfl)) ?_ ?_
    · obtain ⟨e1, e2⟩ := takeWhile_stop (r := 46 :: (d :: b' ++ r)) hU (by intro c hc; cases hc; decide)
      obtain ⟨e3, e4⟩ := takeWhile_stop hV (stop_digitU hr)
      unfold readDecimal
      dsimp only
      rw [e1, e2]
      have kp : ∀ n : Fin 256, isDigit (BitVec.ofFin n : Byte) = true → pointNext (BitVec.ofFin n : Byte) = true := by decide +kernel
      show (if pointNext (at0 (d :: b' ++ r) 0) = true then _ else _) = _
      rw [e3, e4, if_pos (show pointNext (at0 (d :: b' ++ r) 0) = true from kp d.toFin hd)]
    · rw [numberCheck_none, pointCheck_pt fun c hc => digitU_ne (hU c hc)]
      refine ⟨?_, ?_, ha.2.2.2.1, hd⟩
      · have := hb.2.2.2.1
        rw [List.getLast?_append, List.getLast?_cons_cons]
        revert this
        rw [List.getLast?_eq_some_getLast (by simp : d :: b' ≠ [])]
        simp
      · rw [← hasDouble_iff, hasDouble_pt, Bool.or_eq_true, hasDouble_iff, hasDouble_iff]
        exact fun h => h.elim ha.2.2.2.2 hb.2.2.2.2


theorem word_iff {c : Byte} : isWordByte c = true ↔ isAlpha c = true ∨ c = 95 ∨ isDigit c = true := by
  have k : ∀ n : Fin 256, isWordByte (BitVec.ofFin n : Byte) = true ↔ isAlpha (BitVec.ofFin n : Byte) = true ∨
      (BitVec.ofFin n : Byte) = 95 ∨ isDigit (BitVec.ofFin n : Byte) = true := by decide +kernel
  exact k c.toFin

theorem readWord_app {c : Byte} {w r : Str} (hc : isAlpha c = true ∨ c = 95)
    (hw : ∀ d ∈ w, isAlpha d = true ∨ d = 95 ∨ isDigit d = true) (hr : ∀ d, r.head? = some d → isWordByte d = false) :
    readWord (c :: w ++ r) = (c :: w, r) := by
  obtain ⟨e1, e2⟩ := takeWhile_stop (p := isWordByte) (a := c :: w) (r := r) (fun d hd => by
    rw [word_iff]
    rcases List.mem_cons.1 hd with rfl | hd
    · exact hc.elim Or.inl fun h => Or.inr (Or.inl h)
    · exact hw d hd) hr
  rw [readWord, e1, e2]

theorem num_cons {k : Kind} {t : Str} (h : NumLit k t) : ∃ c r, t = c :: r ∧ isDigit c = true := by
  cases h with
  | hex | oct | bin => exact ⟨48, _, rfl, by decide⟩
  | dec h => obtain ⟨c, b, rfl, hc⟩ := sep_cons h; exact ⟨c, b, rfl, hc⟩
  | point h => obtain ⟨c, b, rfl, hc⟩ := sep_cons h; exact ⟨c, _, rfl, hc⟩

/-- Every token is read as it is before the end or white space. -/
theorem token_lexeme {k : Kind} {t s r : Str} (h : Lexeme k t s) (hr : Stop r) : token (s ++ r) = (k, t, r) := by
  cases h with
  | keyword hc hw h =>
    rename_i c w t
    rw [List.cons_append, token_word (by rcases hc with h | rfl; · rw [h]; rfl
                                         · rfl), ← List.cons_append, readWord_app hc hw (stop_not hr (by decide +kernel))]
    rw [(C124_keywords _).1 _ h]
  | ident hc hw h =>
    rename_i c w
    rw [List.cons_append, token_word (by rcases hc with h | rfl; · rw [h]; rfl
                                         · rfl), ← List.cons_append, readWord_app hc hw (stop_not hr (by decide +kernel))]
    rw [(C124_keywords _).2 h]
  | symbol h => exact token_symbol h r hr
  | number h =>
    obtain ⟨c, b, rfl, hc⟩ := num_cons h
    rw [List.cons_append, token_digit hc, ← List.cons_append]
    exact readNumber_app h hr
  | string h =>
    show readString (34 :: ((t ++ [34]) ++ r)) = _
    rw [C127_strings]
    exact ⟨by simp, h⟩
  | raw h =>
    show readRaw (96 :: ((t ++ [96]) ++ r)) = _
    rw [C127_raw]
    exact ⟨by simp, h⟩
  | char h =>
    show readChar (39 :: ((t ++ [39]) ++ r)) = _
    rw [List.append_assoc]
    exact (C128_partial t r _ h).1

theorem start_cons {c : Byte} {r : Str} (h1 : isWs c = false) (h2 : c = 47 → ∀ d, r.head? = some d → d ≠ 47 ∧ d ≠ 42) :
    Start (c :: r) := by
  refine ⟨fun d hd => by cases hd; exact h1, ?_, ?_⟩
  · rintro ⟨u, hu⟩
    cases hu
    exact (h2 rfl _ rfl).1 rfl
  · rintro ⟨u, hu⟩
    cases hu
    exact (h2 rfl _ rfl).2 rfl

theorem start_lexeme {k : Kind} {t s r : Str} (h : Lexeme k t s) (hr : Stop r) : Start (s ++ r) := by
  have kw : ∀ n : Fin 256, (isAlpha (BitVec.ofFin n : Byte) = true ∨ (BitVec.ofFin n : Byte) = 95 ∨ isDigit (BitVec.ofFin n : Byte) = true) →
      isWs (BitVec.ofFin n : Byte) = false ∧ (BitVec.ofFin n : Byte) ≠ 47 := by decide +kernel
  have kc : ∀ {c : Byte} (u : Str), (isAlpha c = true ∨ c = 95 ∨ isDigit c = true) → Start (c :: u) := fun {c} u h =>
    start_cons (kw c.toFin h).1 fun e => absurd e (kw c.toFin h).2
  cases h with
  | keyword hc | ident hc => exact kc _ (hc.elim Or.inl fun h => Or.inr (Or.inl h))
  | symbol h =>
    have key : ∀ p ∈ symbols, (p.2.head?.map isWs = some false) ∧ (p.2.head? = some 47 → p.2 = [47] ∨ p.2 = [47, 61]) := by
      decide +kernel
    obtain ⟨h1, h2⟩ := key _ h
    cases t with
    | nil => cases h1
    | cons c t =>
      refine start_cons (by simpa using h1) fun e d hd => ?_
      rcases h2 (by rw [e]; rfl) with h3 | h3
      · cases h3
        have k47 : ∀ n : Fin 256, isWs (BitVec.ofFin n : Byte) = true → (BitVec.ofFin n : Byte) ≠ 47 ∧ (BitVec.ofFin n : Byte) ≠ 42 := by
          decide +kernel
        exact k47 d.toFin (ws_iff.1 (hr d hd))
      · cases h3
        cases hd
        decide
  | number h =>
    obtain ⟨c, b, rfl, hc⟩ := num_cons h
    exact kc _ (Or.inr (Or.inr hc))
  | string | raw | char => exact start_cons (by decide) fun e => absurd e (by decide)

theorem lexeme_ne {k : Kind} {t s : Str} (h : Lexeme k t s) : s ≠ [] ∧ k ≠ .eof := by
  cases h with
  | keyword | ident | string | raw | char => exact ⟨by simp, by simp⟩
  | symbol h =>
    have key : ∀ p ∈ symbols, p.2 ≠ [] := by decide +kernel
    exact ⟨key _ h, by simp⟩
  | number h =>
    have : k ≠ .eof := by cases h <;> simp
    obtain ⟨c, b, rfl, hc⟩ := num_cons h
    exact ⟨by simp, this⟩

/-- One call, over a gap and a token. -/
theorem next_lexeme {k : Kind} {t s g r : Str} (hg : LexGap g) (h : Lexeme k t s) (hr : Stop r) :
    next (g ++ (s ++ r)) = (⟨k, t, decide (g ≠ []), (s ++ r).length⟩, r) := by
  unfold next
  rw [skip_blank hg, skip_start (start_lexeme h hr)]
  obtain ⟨c, u, e⟩ := List.exists_cons_of_ne_nil (show s ++ r ≠ [] by simp [(lexeme_ne h).1])
  have ht := token_lexeme h hr
  rw [e] at ht ⊢
  dsimp only
  rw [ht]
  have : ((c :: u).length ≠ (g ++ c :: u).length) ↔ g ≠ [] := by
    rw [List.length_append, ne_eq, ne_eq, ← List.length_eq_zero_iff]; omega
  simp only [this]

end Lx

/-- A token with the gap before it. -/
structure Item where
  gap : Str
  kind : Kind
  text : Str
  src : Str

/-- A text: tokens with gaps, and the gap at the end. -/
def Item.write : List Item → Str → Str
  | [], e => e
  | x :: xs, e => x.gap ++ (x.src ++ Item.write xs e)

/-- The tokens expected: each with its kind, its text, whether there is a gap before it, and its place. -/
def Item.toks : List Item → Str → List Tok
  | [], e => [⟨.eof, [], decide (e ≠ []), 0⟩]
  | x :: xs, e => ⟨x.kind, x.text, decide (x.gap ≠ []), (x.src ++ Item.write xs e).length⟩ :: Item.toks xs e

/-- The gap at the end: it may have a comment without the end of the line. -/
def EndGap (e : Str) : Prop := LexGap e ∨ ∃ g b, LexGap g ∧ 10 ∉ b ∧ e = g ++ 47 :: 47 :: b

namespace Lx

theorem next_end {e : Str} (he : EndGap e) : next e = (⟨.eof, [], decide (e ≠ []), 0⟩, []) := by
  have h : skip (e.length + 1) e = some [] := by
    rcases he with h | ⟨g, b, hg, hb, rfl⟩
    · have := skip_blank h []
      rw [List.append_nil] at this
      rw [this]
      exact skip_start ⟨fun c hc => by simp at hc, by simp, by simp⟩ _
    · rw [skip_blank hg, skip_line (s := 47 :: 47 :: b) rfl]
      have : skipLine b = [] := by
        have := (takeWhile_stop (p := (· != 10)) (a := b) (r := [])
          (fun c hc => by simpa using fun e : c = 10 => hb (e ▸ hc)) (fun c hc => by simp at hc)).2
        rw [List.append_nil] at this
        exact this
      rw [this]
      exact skip_start ⟨fun c hc => by simp at hc, by simp, by simp⟩ _
  unfold next
  rw [h]
  cases e <;> rfl

theorem stop_write : ∀ {xs : List Item} {e : Str}, (∀ x ∈ xs, x.gap ≠ [] ∧ Stop x.gap) → Stop e → Stop (Item.write xs e)
  | [], e, _, he => he
  | x :: xs, e, h, _ => by
    obtain ⟨h1, h2⟩ := h x List.mem_cons_self
    intro c hc
    obtain ⟨d, u, e1⟩ := List.exists_cons_of_ne_nil h1
    rw [Item.write, e1] at hc
    exact h2 c (by rw [e1]; exact hc)

end Lx

/-- C125: the tokens of a text in which every token but the first comes after white space are those written, each with its
text, with the mark for the gap before it, and at its place; the end is the last. -/
theorem C125_tokens (xs : List Item) (e : Str) (h : ∀ x ∈ xs, LexGap x.gap ∧ Lexeme x.kind x.text x.src)
    (hs : ∀ x ∈ xs.tail, x.gap ≠ [] ∧ Lx.Stop x.gap) (he : EndGap e ∧ Lx.Stop e) :
    lex (Item.write xs e) = some (Item.toks xs e) := by
  have key : ∀ (xs : List Item) (f : Nat), (∀ x ∈ xs, LexGap x.gap ∧ Lexeme x.kind x.text x.src) →
      (∀ x ∈ xs.tail, x.gap ≠ [] ∧ Lx.Stop x.gap) → (Item.write xs e).length < f →
      lexLoop f (Item.write xs e) = some (Item.toks xs e) := by
    intro xs
    induction xs with
    | nil =>
      intro f _ _ hf
      obtain ⟨f, rfl⟩ : ∃ g, f = g + 1 := ⟨f - 1, by omega⟩
      rw [lexLoop, Item.write, Lx.next_end he.1]
      rfl
    | cons x xs ih =>
      intro f h hs hf
      obtain ⟨f, rfl⟩ : ∃ g, f = g + 1 := ⟨f - 1, by omega⟩
      obtain ⟨h1, h2⟩ := h x List.mem_cons_self
      have hr : Lx.Stop (Item.write xs e) := Lx.stop_write hs he.2
      rw [lexLoop, Item.write, Lx.next_lexeme h1 h2 hr]
      dsimp only
      rw [if_neg (Lx.lexeme_ne h2).2, ih f (fun y hy => h y (List.mem_cons_of_mem _ hy))
        (fun y hy => hs y (List.mem_of_mem_tail hy)) ?_]
      · rfl
      · have := List.length_pos_iff.2 (Lx.lexeme_ne h2).1
        rw [Item.write, List.length_append, List.length_append] at hf
        omega
  exact key xs _ h hs (Nat.lt_succ_self _)

example : ∃ xs e, Item.write xs e = lit "mut x /* c */// d\n = \"a${b}\" // end" ∧
    (∀ x ∈ xs, LexGap x.gap ∧ Lexeme x.kind x.text x.src) ∧ (∀ x ∈ xs.tail, x.gap ≠ [] ∧ Lx.Stop x.gap) ∧
    (EndGap e ∧ Lx.Stop e) := by
  refine ⟨[⟨[], .sym (lit "mut"), lit "mut", lit "mut"⟩, ⟨[32], .ident, lit "x", lit "x"⟩,
    ⟨lit " /* c */// d\n ", .sym (lit "="), lit "=", lit "="⟩,
    ⟨[32], .string, lit "a${b}", lit "\"a${b}\""⟩], lit " // end", by decide +kernel, ?_, ?_, ?_⟩
  · intro x hx
    simp only [List.mem_cons, List.not_mem_nil, or_false] at hx
    rcases hx with rfl | rfl | rfl | rfl
    · exact ⟨.nil, Lexeme.keyword (c := 109) (w := lit "ut") (by decide) (by decide +kernel) (by decide +kernel)⟩
    · refine ⟨.space (by decide +kernel) .nil, Lexeme.ident (c := 120) (w := []) (by decide) (by simp) ?_⟩
      have key : ∀ p ∈ reserved, p.1 ≠ [120] := by decide +kernel
      exact fun t ht => key _ ht rfl
    · refine ⟨?_, .symbol (by decide +kernel)⟩
      rw [show lit " /* c */// d\n " = 32 :: 47 :: 42 :: (lit " c " ++ 42 :: 47 :: 47 :: 47 :: (lit " d" ++ 10 :: [32])) by
        decide +kernel]
      exact .space (by decide +kernel) (.block (by decide +kernel) (.line (by decide +kernel) (.space (by decide +kernel) .nil)))
    · refine ⟨.space (by decide +kernel) .nil, ?_⟩
      rw [show lit "\"a${b}\"" = 34 :: (lit "a${b}" ++ [34]) by decide +kernel]
      refine .string ?_
      rw [show lit "a${b}" = 97 :: 36 :: 123 :: ([98] ++ 125 :: []) by decide +kernel]
      exact .byte (by decide) (by decide) (.interp (.byte (by decide) .nil) .nil)
  · intro x hx
    simp only [List.tail_cons, List.mem_cons, List.not_mem_nil, or_false] at hx
    rcases hx with rfl | rfl | rfl
    · exact ⟨by decide, fun c hc => by cases hc; decide +kernel⟩
    · exact ⟨by decide +kernel, fun c hc => by rw [show c = 32 by revert hc; rw [show (lit " /* c */// d\n ").head? = some 32 by decide +kernel]; rintro ⟨⟩; rfl]; decide +kernel⟩
    · exact ⟨by decide, fun c hc => by cases hc; decide +kernel⟩
  · rw [show lit " // end" = [32] ++ 47 :: 47 :: lit " end" by decide +kernel]
    exact ⟨Or.inr ⟨_, _, .space (by decide +kernel) .nil, by decide +kernel, rfl⟩, fun c hc => by cases hc; decide +kernel⟩

/-! ### C130: negation before a name -/

/-- C130 as claimed: `!` before a name is negation. -/
def C130_statement : Prop :=
  ∀ (c : Byte) (w r : Str), (isAlpha c = true ∨ c = 95) → (∀ d ∈ w, isWordByte d = true) →
    (∀ d, r.head? = some d → isWordByte d = false) → (∀ t, (c :: w, t) ∉ reserved) →
    token (33 :: c :: w ++ r) = (.sym (lit "!"), lit "!", c :: w ++ r)

/-- `!in_range` is read as `!in` and `_range`: only a letter after `in` is seen as part of the name. -/
theorem C130_witness : token (lit "!in_range") = (.sym (lit "not_in"), lit "!in", lit "_range") ∧
    token (lit "!in2") = (.sym (lit "not_in"), lit "!in", lit "2") ∧
    token (lit "!inside") = (.sym (lit "!"), lit "!", lit "inside") := by decide +kernel

theorem C130_fails : ¬ C130_statement := fun h => by
  have h1 := h 105 (lit "n_range") [] (by decide) (by decide +kernel) nofun (by
    have key : ∀ p ∈ reserved, p.1 ≠ 105 :: lit "n_range" := by decide +kernel
    exact fun t ht => key _ ht rfl)
  exact absurd h1 (by decide +kernel)

/-- What holds: this is so for every name that does not start with `in` followed by a digit or an underscore. -/
theorem C130_partial (c : Byte) (w r : Str) (hc : isAlpha c = true ∨ c = 95)
    (hr : ∀ d, r.head? = some d → isWordByte d = false) (hn : ∀ t, (c :: w, t) ∉ reserved)
    (hi : ∀ d u, c :: w = 105 :: 110 :: d :: u → isAlpha d = true) :
    token (33 :: c :: w ++ r) = (.sym (lit "!"), lit "!", c :: w ++ r) := by
  show token (33 :: (c :: w ++ r)) = _
  rw [Lx.token_not, if_neg, if_neg]
  · rfl
  · rintro ⟨h1, h2, h3⟩
    change c = 105 at h1
    subst h1
    cases w with
    | nil => 
      change at0 r 0 = 110 at h2
      cases r with
      | nil => exact absurd h2 (by decide)
      | cons d r =>
        change d = 110 at h2
        exact absurd (hr d rfl) (by rw [h2]; decide)
    | cons d w =>
      change d = 110 at h2
      subst h2
      cases w with
      | nil =>
        exact hn (lit "in") (by decide +kernel)
      | cons d w =>
        rcases h3 with h3 | h3
        · simp at h3
        · change isAlpha d = false at h3
          rw [hi d w rfl] at h3
          cases h3
  · intro h1
    change c = 61 at h1
    subst h1
    exact absurd hc (by decide)

example : token (lit "!done)") = (.sym (lit "!"), lit "!", lit "done)") := by decide +kernel

end Verif.Props

import Verif.Lemmas.Json
import Verif.Props.Strconv

/-! C48–C50, C120–C123: the json module. -/
namespace Verif.Props
open Verif Verif.Str Verif.Json Verif.Props.JsonG

/-! ### C48: escaping -/

/-- Value of a hexadecimal digit. -/
def hexVal (c : Byte) : Nat :=
  if c ∈ lit "0123456789" then c.toNat - 48
  else if c ∈ lit "abcdef" then c.toNat - 87
  else c.toNat - 55

/-- One character of a JSON string and the byte it stands for (RFC 8259 section 7; `\u` only below 0x80,
where the code point is one byte). -/
inductive CharText : Str → Byte → Prop where
  | plain (c : Byte) : 0x20 ≤ c.toNat → c ≠ ch '"' → c ≠ ch '\\' → CharText [c] c
  | quote : CharText (lit "\\\"") (ch '"')
  | backslash : CharText (lit "\\\\") (ch '\\')
  | slash : CharText (lit "\\/") (ch '/')
  | b : CharText (lit "\\b") 8
  | f : CharText (lit "\\f") 12
  | n : CharText (lit "\\n") 10
  | r : CharText (lit "\\r") 13
  | t : CharText (lit "\\t") 9
  | uni (a b c d : Byte) : (∀ x ∈ [a, b, c, d], x ∈ lit "0123456789abcdefABCDEF") →
      hexVal a * 4096 + hexVal b * 256 + hexVal c * 16 + hexVal d < 128 →
      CharText (lit "\\u" ++ [a, b, c, d]) (BitVec.ofNat 8 (hexVal a * 4096 + hexVal b * 256 + hexVal c * 16 + hexVal d))

/-- The contents of a string literal and the bytes they stand for. -/
inductive Denotes : Str → Str → Prop where
  | nil : Denotes [] []
  | cons {t u s : Str} {c : Byte} : CharText t c → Denotes u s → Denotes (t ++ u) (c :: s)

/-- A string literal and the bytes it stands for. -/
def LiteralOf (q s : Str) : Prop := ∃ t, Denotes t s ∧ q = ch '"' :: (t ++ [ch '"'])

theorem escChar_text (c : Byte) : CharText (escChar c) c := by
  unfold escChar
  split
  · next h => subst h; exact .quote
  · next h1 =>
    split
    · next h => subst h; exact .backslash
    · next h2 =>
      split
      · next h => subst h; exact .b
      · split
        · next h => subst h; exact .f
        · split
          · next h => subst h; exact .n
          · split
            · next h => subst h; exact .r
            · split
              · next h => subst h; exact .t
              · split
                · next h =>
                  have key : ∀ n : Fin 256, (BitVec.ofFin n : Byte).toNat < 0x20 →
                      lowerHex ((BitVec.ofFin n : Byte).toNat / 16) ∈ lit "0123456789abcdefABCDEF" ∧
                      lowerHex ((BitVec.ofFin n : Byte).toNat % 16) ∈ lit "0123456789abcdefABCDEF" ∧
                      hexVal 48 * 4096 + hexVal 48 * 256 + hexVal (lowerHex ((BitVec.ofFin n : Byte).toNat / 16)) * 16 +
                        hexVal (lowerHex ((BitVec.ofFin n : Byte).toNat % 16)) = (BitVec.ofFin n : Byte).toNat := by
                    decide +kernel
                  obtain ⟨k1, k2, k3⟩ := key c.toFin h
                  have k1 : lowerHex (c.toNat / 16) ∈ lit "0123456789abcdefABCDEF" := k1
                  have k2 : lowerHex (c.toNat % 16) ∈ lit "0123456789abcdefABCDEF" := k2
                  have k3 : hexVal 48 * 4096 + hexVal 48 * 256 + hexVal (lowerHex (c.toNat / 16)) * 16 +
                        hexVal (lowerHex (c.toNat % 16)) = c.toNat := k3
                  have := CharText.uni 48 48 (lowerHex (c.toNat / 16)) (lowerHex (c.toNat % 16))
                    (by
                      intro x hx
                      simp only [List.mem_cons, List.not_mem_nil, or_false] at hx
                      rcases hx with rfl | rfl | rfl | rfl
                      · decide
                      · decide
                      · exact k1
                      · exact k2) (by omega)
                  rw [k3, BitVec.ofNat_toNat, BitVec.setWidth_eq] at this
                  exact this
                · exact .plain c (by omega) h1 h2

theorem escaped_denotes (s : Str) : Denotes (s.flatMap escChar) s := by
  induction s with
  | nil => exact .nil
  | cons c s ih => rw [List.flatMap_cons]; exact .cons (escChar_text c) ih

theorem chars_append {t : Str} {c : Byte} (h : CharText t c) {u : Str} (hu : Chars u) : Chars (t ++ u) := by
  cases h with
  | plain _ h0 h1 h2 => exact .plain h0 h1 h2 hu
  | quote => exact .short (by decide) hu
  | backslash => exact .short (by decide) hu
  | slash => exact .short (by decide) hu
  | b => exact .short (by decide) hu
  | f => exact .short (by decide) hu
  | n => exact .short (by decide) hu
  | r => exact .short (by decide) hu
  | t => exact .short (by decide) hu
  | uni a b c d h _ => exact .uni h hu

theorem denotes_chars {t s : Str} (h : Denotes t s) : Chars t := by
  induction h with
  | nil => exact .nil
  | cons h _ ih => exact chars_append h ih

theorem escaped_eq (s : Str) : escaped s = ch '"' :: (s.flatMap escChar ++ [ch '"']) := rfl

theorem escaped_quoted (s : Str) : Quoted (escaped s) := ⟨_, denotes_chars (escaped_denotes s), rfl⟩

theorem quoted_valid {q : Str} (h : Quoted q) : isValid q = true := by
  refine (isValid_iff q).2 ⟨[], q, [], nofun, ?_, nofun, by simp⟩
  exact Or.inl (.str h)

theorem charLen_eq (c : Byte) : (escChar c).length = charLen c := by
  have key : ∀ n : Fin 256, (escChar (BitVec.ofFin n : Byte)).length = charLen (BitVec.ofFin n : Byte) := by
    decide +kernel
  exact key c.toFin

theorem escaped_length (s : Str) : (escaped s).length = escapedLen s := by
  rw [escaped_eq, escapedLen]
  have : (s.flatMap escChar).length = (s.map charLen).sum := by
    induction s with
    | nil => rfl
    | cons c s ih => rw [List.flatMap_cons, List.length_append, ih, charLen_eq, List.map_cons, List.sum_cons]
  simp only [List.length_cons, List.length_append, List.length_nil, this]
  omega

/-- C48 as claimed, for the strings in maps and arrays (`escaped`) and for a string itself. -/
def C48_statement : Prop :=
  ∀ s : Str, (LiteralOf (escaped s) s ∧ isValid (escaped s) = true ∧ (escaped s).length = escapedLen s) ∧
    LiteralOf (encodeString s) s ∧ isValid (encodeString s) = true

/-- A string itself is put between quotes as it is. -/
theorem C48_witness : encodeString (lit "\"") = lit "\"\"\"" ∧ isValid (encodeString (lit "\"")) = false := by
  decide +kernel

theorem C48_fails : ¬ C48_statement := by
  intro h
  have := (h (lit "\"")).2.2
  rw [C48_witness.2] at this
  cases this

/-- Escaping of strings in maps, arrays and structs. Missing for the full claim: `json.encode` of a string
itself. -/
theorem C48_partial (s : Str) :
    LiteralOf (escaped s) s ∧ isValid (escaped s) = true ∧ (escaped s).length = escapedLen s :=
  ⟨⟨_, escaped_denotes s, rfl⟩, quoted_valid (escaped_quoted s), escaped_length s⟩

/-- A literal stands for one string: the escaped text determines the bytes. -/
theorem denotes_inj {t s : Str} (h : Denotes t s) : ∀ {s' : Str}, Denotes t s' → s = s' := by
  have esc : ∀ (e : Byte) (u : Str) (a : Str) (x : Byte), CharText a x → ∀ b, a ++ b = ch '\\' :: e :: u →
      (e ≠ ch 'u' → a = [ch '\\', e] ∧ b = u) ∧
      (e = ch 'u' → ∃ p q r s, a = [ch '\\', e, p, q, r, s] ∧ u = [p, q, r, s] ++ b) := by
    intro e u a x ha b hb
    cases ha with
    | plain _ _ _ h2 => cases hb; exact absurd rfl h2
    | uni p q r s _ _ => cases hb; exact ⟨fun h => absurd rfl h, fun _ => ⟨p, q, r, s, rfl, rfl⟩⟩
    | _ => cases hb; exact ⟨fun _ => ⟨rfl, rfl⟩, fun h => absurd h (by decide)⟩
  have one : ∀ (a b : Str) (x y : Byte), CharText a x → CharText b y → ∀ u v, a ++ u = b ++ v → a = b ∧ u = v := by
    intro a b x y ha hb u v e
    cases ha with
    | plain c h0 h1 h2 =>
      cases hb with
      | plain d _ _ _ => cases e; exact ⟨rfl, rfl⟩
      | uni _ _ _ _ _ _ => cases e; exact absurd rfl h2
      | _ => cases e; exact absurd rfl h2
    | uni p q r s _ _ =>
      obtain ⟨p', q', r', s', e1, e2⟩ := (esc (ch 'u') _ b y hb v e.symm).2 rfl
      subst e1
      cases e2
      exact ⟨rfl, rfl⟩
    | _ =>
      obtain ⟨e1, e2⟩ := (esc _ _ b y hb v e.symm).1 (by decide)
      exact ⟨e1.symm, e2.symm⟩
  have val : ∀ (a : Str) (x y : Byte), CharText a x → CharText a y → x = y := by
    intro a x y ha hb
    generalize hg : a = a' at hb
    cases ha with
    | plain c h0 h1 h2 =>
      cases hb with
      | plain d _ _ _ => cases hg; rfl
      | uni _ _ _ _ _ _ => cases hg
      | _ => cases hg
    | uni p q r s _ _ =>
      cases hb with
      | uni p' q' r' s' _ _ => cases hg; rfl
      | _ => cases hg
    | _ =>
      cases hb with
      | plain d _ _ _ => cases hg
      | uni _ _ _ _ _ _ => cases hg
      | _ => first | rfl | exact absurd hg (by decide)
  induction h with
  | nil =>
    intro s' h'
    generalize hg : ([] : Str) = t at h'
    cases h' with
    | nil => rfl
    | cons hc _ =>
      cases hc <;> cases hg
  | @cons t u s c hc _ ih =>
    intro s' h'
    generalize hg : t ++ u = w at h'
    cases h' with
    | nil => cases hc <;> cases hg
    | @cons t' u' s' c' hc' hd' =>
      obtain ⟨rfl, rfl⟩ := one _ _ _ _ hc hc' _ _ hg
      rw [val _ _ _ hc hc', ih hd']

/-- Different strings have different literals. -/
theorem escaped_inj {s s' : Str} (h : s.flatMap escChar = s'.flatMap escChar) : s = s' :=
  denotes_inj (escaped_denotes s) (h ▸ escaped_denotes s')

example : escaped [ch 'a', 10, 1, ch '"'] = lit "\"a\\n\\u0001\\\"\"" := by decide +kernel
example : escapedLen [ch 'a', 10, 1, ch '"'] = 13 := by decide

/-! ### C49: the validator -/

/-- C49 as claimed: what `is_valid` accepts is JSON, and JSON within the nesting limit is accepted. -/
def C49_statement : Prop :=
  ∀ s : Str, (isValid s = true → ∃ n, Text Rfc n s) ∧ (Text Rfc 512 s → isValid s = true)

theorem rfc_spc {c : Byte} (h : Rfc c) : Spc c := by
  have key : ∀ n : Fin 256, (BitVec.ofFin n : Byte) ∈ lit " \t\n\r" → isSpace (BitVec.ofFin n : Byte) = true := by
    decide +kernel
  exact key c.toFin h

theorem spc_iff (c : Byte) : Spc c ↔ Rfc c ∨ c = 11 ∨ c = 12 := by
  have key : ∀ n : Fin 256, isSpace (BitVec.ofFin n : Byte) = true ↔
      (BitVec.ofFin n : Byte) ∈ lit " \t\n\r" ∨ (BitVec.ofFin n : Byte) = 11 ∨ (BitVec.ofFin n : Byte) = 12 := by
    decide +kernel
  exact key c.toFin

/-- A vertical tab before a number. -/
theorem C49_witness : isValid (11 :: lit "1") = true := by decide +kernel

theorem flat_head {W : Byte → Prop} {n : Nat} {v : Str} (h : Value W n v) : v.head? ≠ some 11 := by
  have fl : Flat W v → v.head? ≠ some 11 := by
    intro h
    cases h with
    | str h => obtain ⟨t, -, rfl⟩ := h; exact fun e => absurd (show some (ch '"') = some 11 from e) (by decide)
    | num h =>
      obtain ⟨c, q, rfl, hc⟩ := number_head h
      intro e
      cases e
      rcases hc with h | h <;> exact absurd h (by decide)
    | true => decide
    | false => decide
    | null => decide
    | arr _ => exact fun e => absurd (show some (ch '[') = some 11 from e) (by decide)
    | obj _ => exact fun e => absurd (show some (ch '{') = some 11 from e) (by decide)
  cases n with
  | zero => exact fl h
  | succ n =>
    rcases h with h | ⟨_, _, _, rfl⟩ | ⟨_, _, _, rfl⟩
    · exact fl h
    · exact fun e => absurd (show some (ch '[') = some 11 from e) (by decide)
    · exact fun e => absurd (show some (ch '{') = some 11 from e) (by decide)

theorem C49_fails : ¬ C49_statement := by
  intro h
  obtain ⟨n, w, v, w', hw, hv, -, e⟩ := (h (11 :: lit "1")).1 C49_witness
  cases w with
  | nil =>
    have hh := flat_head hv
    cases v with
    | nil =>
      cases n with
      | zero =>
        cases hv with
        | str h => obtain ⟨_, _, h⟩ := h; cases h
        | num h => obtain ⟨_, _, h, _⟩ := number_head h; cases h
      | succ n =>
        rcases hv with hv | ⟨_, _, _, hv⟩ | ⟨_, _, _, hv⟩
        · cases hv with
          | str h => obtain ⟨_, _, h⟩ := h; cases h
          | num h => obtain ⟨_, _, h, _⟩ := number_head h; cases h
        · cases hv
        · cases hv
    | cons c v => exact hh (congrArg List.head? e).symm
  | cons c w =>
    have hc : some 11 = some c := congrArg List.head? e
    cases hc
    have := hw 11 (by simp)
    revert this
    unfold Rfc
    decide

/-- What the validator accepts exactly: the grammar with six whitespace characters, nested 512 deep.
JSON within the limit is accepted; what is accepted and has no vertical tab or form feed is JSON. Missing
for the full claim: texts with these two characters between the tokens. -/
theorem C49_partial (s : Str) :
    (isValid s = true ↔ Text Spc 512 s) ∧ (Text Rfc 512 s → isValid s = true) ∧
    ((∀ c ∈ s, c ≠ 11 ∧ c ≠ 12) → isValid s = true → Text Rfc 512 s) := by
  refine ⟨isValid_iff s, fun h => (isValid_iff s).2 (text_mono (fun _ _ => rfc_spc) h), fun hc h => ?_⟩
  refine text_mono (fun c hm hs => ?_) ((isValid_iff s).1 h)
  rcases (spc_iff c).1 hs with h | h | h
  · exact h
  · exact absurd h (hc c hm).1
  · exact absurd h (hc c hm).2

/-- The loops of the validator end: more rounds than characters change nothing. -/
theorem C49_ends {val : Str → Option Str} {P : Str → Prop} (hv : Sound val P) :
    ∀ (f g : Nat) (s : Str), s.length < f → s.length < g →
      arrLoop val f s = arrLoop val g s ∧ objLoop val f s = objLoop val g s := by
  have ws : ∀ s, (skipWs s).length ≤ s.length := by
    intro s
    obtain ⟨w, -, e⟩ := skipWs_split s
    have := congrArg List.length e
    rw [List.length_append] at this
    omega
  have vl : ∀ s r, val s = some r → r.length ≤ s.length := by
    intro s r h
    obtain ⟨w, v, -, -, e⟩ := hv s r h
    have := congrArg List.length e
    simp only [List.length_append] at this
    omega
  have sl : ∀ s r, vString s = some r → r.length ≤ s.length := by
    intro s r h
    obtain ⟨q, -, e⟩ := vString_sound h
    have := congrArg List.length e
    simp only [List.length_append] at this
    omega
  intro f
  induction f with
  | zero => intro g s h; omega
  | succ f ih =>
    intro g s hf hg
    obtain ⟨g, rfl⟩ : ∃ k, g = k + 1 := ⟨g - 1, by omega⟩
    constructor
    · rw [arrLoop.eq_def val (f + 1), arrLoop.eq_def val (g + 1)]
      dsimp only
      have w0 := ws s
      cases h1 : val (skipWs s) with
      | none => rfl
      | some r =>
        dsimp only
        have := vl _ _ h1
        have w1 := ws r
        cases h2 : skipWs r with
        | nil => rfl
        | cons c q =>
          dsimp only
          rw [h2, List.length_cons] at w1
          rw [(ih g q (by omega) (by omega)).1]
    · rw [objLoop.eq_def val (f + 1), objLoop.eq_def val (g + 1)]
      dsimp only
      have w0 := ws s
      cases h1 : vString (skipWs s) with
      | none => rfl
      | some r =>
        dsimp only
        have := sl _ _ h1
        have w1 := ws r
        cases h2 : skipWs r with
        | nil => rfl
        | cons c q =>
          dsimp only
          rw [h2, List.length_cons] at w1
          by_cases hc : c ≠ 58
          · rw [if_pos hc, if_pos hc]
          · rw [if_neg hc, if_neg hc]
            have w2 := ws q
            cases h3 : val (skipWs q) with
            | none => rfl
            | some r' =>
              dsimp only
              have := vl _ _ h3
              have w3 := ws r'
              cases h4 : skipWs r' with
              | nil => rfl
              | cons c' q' =>
                dsimp only
                rw [h4, List.length_cons] at w3
                rw [(ih g q' (by omega) (by omega)).2]

example : isValid (lit "{\"a\": [1, -2.5e3, \"\\u00e9\"], \"b\": {}}") = true := by decide +kernel
example : isValid (lit "[1,]") = false := by decide +kernel
example : isValid (lit "01") = false := by decide +kernel
example : isValid (lit "\"\\x\"") = false := by decide +kernel

/-! ### C50: the decoder -/

/-- C50 as claimed: decoding ends. -/
def C50_statement : Prop := ∀ text : Str, ∃ n, (decode n text).isSome = true

theorem skipOne_self (c : Byte) (s : Str) : skipOne c (c :: s) = s := by
  unfold skipOne
  exact if_pos rfl

theorem skipOne_suffix (c : Byte) (s : Str) : skipOne c s <:+ s := by
  cases s with
  | nil => exact List.suffix_refl _
  | cons x s =>
    unfold skipOne
    dsimp only
    split
    · exact List.suffix_cons x s
    · exact List.suffix_refl _

theorem skipWs_suffix (s : Str) : skipWs s <:+ s := List.dropWhile_suffix _

theorem scanString_suffix : ∀ (n : Nat) (s : Str), s.length ≤ n → (scanString s).2 <:+ s := by
  intro n
  induction n with
  | zero =>
    intro s h
    rw [List.length_eq_zero_iff.1 (Nat.le_zero.1 h)]
    exact List.suffix_refl _
  | succ n ih =>
    intro s h
    cases s with
    | nil => exact List.suffix_refl _
    | cons c s =>
      rw [scanString.eq_def]
      dsimp only
      split
      · exact List.suffix_refl _
      · split
        · cases s with
          | nil => exact List.nil_suffix
          | cons d s =>
            exact (ih s (by simp at h; omega)).trans ((List.suffix_cons d s).trans (List.suffix_cons c _))
        · exact (ih s (by simp at h; omega)).trans (List.suffix_cons c s)

theorem parseString_suffix (s : Str) : (parseString s).2 <:+ s := by
  cases s with
  | nil => exact List.suffix_refl _
  | cons c s =>
    unfold parseString
    dsimp only
    split
    · exact List.suffix_refl _
    · exact (List.drop_suffix 1 _).trans ((scanString_suffix _ s (Nat.le_refl _)).trans (List.suffix_cons c s))

/-- A string takes its first quote at least. -/
theorem parseString_lt {r : Str} : (parseString (34 :: r)).2.length ≤ r.length := by
  unfold parseString
  dsimp only
  rw [if_neg (by decide)]
  exact Nat.le_trans (List.drop_suffix 1 _).length_le (scanString_suffix _ r (Nat.le_refl _)).length_le

theorem parseValue_suffix (s : Str) : (parseValue s).2 <:+ s := by
  unfold parseValue
  split
  · exact List.nil_suffix
  · next c r h =>
    split
    · exact (parseString_suffix _).trans (h ▸ skipWs_suffix s)
    · exact (List.dropWhile_suffix _).trans (h ▸ skipWs_suffix s)

/-- A round leaves a part of the text. -/
theorem decodeStep_suffix {s s' : Str} {m m' : Entries} (h : decodeStep s m = some (s', m')) : s' <:+ s := by
  unfold decodeStep at h
  split at h
  · cases h
  · next c r hs =>
    split at h
    · cases h
    · cases h
      refine (skipOne_suffix _ _).trans ((skipWs_suffix _).trans ((parseValue_suffix _).trans ?_))
      refine (skipOne_suffix _ _).trans ((skipWs_suffix _).trans ((parseString_suffix _).trans ?_))
      exact hs ▸ skipWs_suffix s

/-- A round takes a character, unless the rest begins with `]`: then nothing changes. -/
theorem decodeStep_progress {s s' : Str} {m m' : Entries} (h : decodeStep s m = some (s', m')) :
    s'.length < s.length ∨ (skipWs s).head? = some (ch ']') := by
  have hl := (skipWs_suffix s).length_le
  unfold decodeStep at h
  split at h
  · cases h
  · next c r hs =>
    rw [hs] at hl
    split at h
    · cases h
    · next h125 =>
      cases h
      have hsp : isSpace c = false := by
        cases hc : isSpace c with
        | false => rfl
        | true =>
          have h1 := skipWs_idem s
          rw [hs] at h1
          unfold skipWs at h1
          rw [List.dropWhile_cons_of_pos hc] at h1
          have := (List.dropWhile_suffix isSpace (l := r)).length_le
          rw [h1, List.length_cons] at this
          omega
      by_cases h34 : c = 34
      · left
        subst h34
        have h1 := @parseString_lt r
        have h2 := (skipWs_suffix (parseString (34 :: r)).2).length_le
        have h3 := (skipOne_suffix 58 (skipWs (parseString (34 :: r)).2)).length_le
        have h4 := (parseValue_suffix (skipOne 58 (skipWs (parseString (34 :: r)).2))).length_le
        have h5 := (skipWs_suffix (parseValue (skipOne 58 (skipWs (parseString (34 :: r)).2))).2).length_le
        have h6 := (skipOne_suffix 44 (skipWs (parseValue (skipOne 58 (skipWs (parseString (34 :: r)).2))).2)).length_le
        rw [List.length_cons] at hl
        omega
      · have hk : parseString (c :: r) = ([], c :: r) := by
          unfold parseString
          exact if_pos h34
        rw [hk]
        dsimp only
        rw [skipWs_cons hsp]
        by_cases h58 : c = 58
        · left
          subst h58
          have e : skipOne 58 (58 :: r) = r := skipOne_self 58 r
          rw [e]
          have h4 := (parseValue_suffix r).length_le
          have h5 := (skipWs_suffix (parseValue r).2).length_le
          have h6 := (skipOne_suffix 44 (skipWs (parseValue r).2)).length_le
          rw [List.length_cons] at hl
          omega
        · have e : skipOne 58 (c :: r) = c :: r := if_neg h58
          rw [e]
          have ev : parseValue (c :: r) = ((c :: r).takeWhile notDelim, (c :: r).dropWhile notDelim) := by
            unfold parseValue
            rw [skipWs_cons hsp]
            exact if_neg h34
          rw [ev]
          dsimp only
          by_cases hd : notDelim c = true
          · left
            rw [List.dropWhile_cons_of_pos hd]
            have h4 := (List.dropWhile_suffix notDelim (l := r)).length_le
            have h5 := (skipWs_suffix (r.dropWhile notDelim)).length_le
            have h6 := (skipOne_suffix 44 (skipWs (r.dropWhile notDelim))).length_le
            rw [List.length_cons] at hl
            omega
          · rw [List.dropWhile_cons_of_neg hd, skipWs_cons hsp]
            by_cases h44 : c = 44
            · left
              subst h44
              have e : skipOne 44 (44 :: r) = r := skipOne_self 44 r
              rw [e]
              rw [List.length_cons] at hl
              omega
            · right
              rw [hs]
              unfold notDelim at hd
              rw [hsp] at hd
              simp only [Bool.or_false, Bool.not_eq_true, Bool.not_eq_false', Bool.or_eq_true, beq_iff_eq] at hd
              rcases hd with (h | h) | h
              · exact absurd h h44
              · exact absurd h h125
              · rw [h]; rfl

/-- At a `]` the loop does not move. -/
theorem decode_stuck {s : Str} (h : (skipWs s).head? = some (ch ']')) : ∀ (n : Nat) (m : Entries), decodeLoop n s m = none := by
  obtain ⟨r, hr⟩ : ∃ r, skipWs s = 93 :: r := by
    cases hs : skipWs s with
    | nil => rw [hs] at h; cases h
    | cons c r => rw [hs] at h; cases h; exact ⟨r, rfl⟩
  have step : ∀ (t : Str) (m : Entries), skipWs t = 93 :: r → decodeStep t m = some (93 :: r, mapSet m [] []) := by
    intro t m ht
    unfold decodeStep
    rw [ht]
    rfl
  have self : skipWs (93 :: r) = 93 :: r := skipWs_cons (by decide)
  have all : ∀ (n : Nat) (t : Str) (m : Entries), skipWs t = 93 :: r → decodeLoop n t m = none := by
    intro n
    induction n with
    | zero => intros; rfl
    | succ n ih =>
      intro t m ht
      rw [decodeLoop.eq_def]
      dsimp only
      rw [step t m ht]
      exact ih _ _ self
  exact fun n m => all n s m hr

/-- Decoding ends within as many rounds as there are characters, or never. -/
theorem decodeLoop_dichotomy : ∀ (k : Nat) (s : Str) (m : Entries), s.length < k →
    (∃ r, ∀ n, s.length < n → decodeLoop n s m = some r) ∨
      ((∀ n, decodeLoop n s m = none) ∧ ch ']' ∈ s) := by
  intro k
  induction k with
  | zero => intro s m h; omega
  | succ k ih =>
    intro s m hk
    cases hstep : decodeStep s m with
    | none =>
      left
      refine ⟨m, fun n hn => ?_⟩
      obtain ⟨n, rfl⟩ : ∃ j, n = j + 1 := ⟨n - 1, by omega⟩
      rw [decodeLoop.eq_def]
      dsimp only
      rw [hstep]
    | some p =>
      obtain ⟨s', m'⟩ := p
      rcases decodeStep_progress hstep with h | h
      · rcases ih s' m' (by omega) with ⟨r, hr⟩ | ⟨hn, hb⟩
        · left
          refine ⟨r, fun n hn => ?_⟩
          obtain ⟨n, rfl⟩ : ∃ j, n = j + 1 := ⟨n - 1, by omega⟩
          rw [decodeLoop.eq_def]
          dsimp only
          rw [hstep]
          exact hr n (by omega)
        · right
          refine ⟨fun n => ?_, (decodeStep_suffix hstep).subset hb⟩
          cases n with
          | zero => rfl
          | succ n =>
            rw [decodeLoop.eq_def]
            dsimp only
            rw [hstep]
            exact hn n
      · right
        exact ⟨fun n => decode_stuck h n m, (skipWs_suffix s).subset (List.mem_of_mem_head? h)⟩

/-- A bracket in place of a key, and JSON with an array, are never decoded. -/
theorem C50_witness : (∀ n, decode n (lit "{]") = none) ∧ (∀ n, decode n (lit "{\"a\":[1]}") = none) ∧
    isValid (lit "{\"a\":[1]}") = true := by
  have step : decodeStep (lit "\"a\":[1]}") [] = some (lit "]}", [(lit "a", lit "[1")]) := by decide +kernel
  refine ⟨fun n => decode_stuck (s := lit "]") (by decide) n [], fun n => ?_, by decide +kernel⟩
  show decodeLoop n (lit "\"a\":[1]}") [] = none
  cases n with
  | zero => rfl
  | succ n =>
    rw [decodeLoop.eq_def]
    dsimp only
    rw [step]
    exact decode_stuck (by decide) n _

theorem C50_fails : ¬ C50_statement := by
  intro h
  obtain ⟨n, hn⟩ := h (lit "{]")
  rw [C50_witness.1 n] at hn
  cases hn

/-- Decoding ends, within as many rounds as there are characters, or never does and has met a `]`. Missing
for the full claim: the texts with a `]` where a key or a value may stand. -/
theorem C50_partial (text : Str) :
    (∃ r, ∀ n, text.length < n → decode n text = some r) ∨ ((∀ n, decode n text = none) ∧ ch ']' ∈ text) := by
  have hl := (skipWs_suffix text).length_le
  have hsub := (skipWs_suffix text).subset
  unfold decode
  split
  · exact .inl ⟨_, fun _ _ => rfl⟩
  · next c r hs =>
    rw [hs, List.length_cons] at hl
    rw [hs] at hsub
    split
    · rcases decodeLoop_dichotomy _ r [] (Nat.lt_succ_self _) with ⟨x, hx⟩ | ⟨h1, h2⟩
      · exact .inl ⟨x, fun n hn => hx n (by omega)⟩
      · exact .inr ⟨h1, hsub (List.mem_cons_of_mem _ h2)⟩
    · exact .inl ⟨_, fun _ _ => rfl⟩

/-! Objects of strings, numbers and literals. -/

/-- A value that is not an array or an object, and the text stored for it. -/
inductive ScalarText : Str → Str → Prop where
  | str {t : Str} : Chars t → ScalarText (ch '"' :: (t ++ [ch '"'])) t
  | num {s : Str} : Number s → ScalarText s s
  | true : ScalarText (lit "true") (lit "true")
  | false : ScalarText (lit "false") (lit "false")
  | null : ScalarText (lit "null") (lit "null")

/-- A member and the entry stored for it. -/
inductive MemberOf : Str → Str × Str → Prop where
  | mk {wa k wb w v x w' : Str} : Ws Spc wa → Chars k → Ws Spc wb → Ws Spc w → ScalarText v x → Ws Spc w' →
      MemberOf (wa ++ (ch '"' :: (k ++ ch '"' :: (wb ++ ch ':' :: (w ++ (v ++ w')))))) (k, x)

/-- Members with commas between. -/
inductive Members : Str → Entries → Prop where
  | one {s : Str} {e : Str × Str} : MemberOf s e → Members s [e]
  | cons {s u : Str} {e : Str × Str} {es : Entries} : MemberOf s e → Members u es → Members (s ++ ch ',' :: u) (e :: es)

theorem scan_plain {c : Byte} {s : Str} (h1 : c ≠ 34) (h2 : c ≠ 92) :
    scanString (c :: s) = (c :: (scanString s).1, (scanString s).2) := by
  rw [scanString.eq_def]
  dsimp only
  rw [if_neg h1, if_neg h2]

theorem scan_chars {t : Str} (h : Chars t) (r : Str) : scanString (t ++ ch '"' :: r) = (t, ch '"' :: r) := by
  induction h with
  | nil =>
    rw [scanString.eq_def]
    exact if_pos rfl
  | @plain c s h0 h1 h2 _ ih => rw [List.cons_append, scan_plain h1 h2, ih]
  | @short e s he _ ih =>
    rw [List.cons_append, List.cons_append, scanString.eq_def]
    dsimp only
    rw [if_neg (by decide), if_pos (by decide), ih]
    rfl
  | @uni a b c d s hx _ ih =>
    have hex : ∀ x ∈ lit "0123456789abcdefABCDEF", x ≠ 34 ∧ x ≠ 92 := by decide
    have ha := hex a (hx a (by simp))
    have hb := hex b (hx b (by simp))
    have hc := hex c (hx c (by simp))
    have hd := hex d (hx d (by simp))
    simp only [List.cons_append]
    rw [scanString.eq_def]
    dsimp only
    rw [if_neg (by decide), if_pos (by decide), scan_plain ha.1 ha.2, scan_plain hb.1 hb.2, scan_plain hc.1 hc.2,
      scan_plain hd.1 hd.2, ih]
    rfl

theorem parse_chars {t : Str} (h : Chars t) (r : Str) : parseString (ch '"' :: (t ++ ch '"' :: r)) = (t, r) := by
  unfold parseString
  dsimp only
  rw [if_neg (by decide), scan_chars h]
  rfl

theorem takeWhile_app {p : Byte → Bool} {d r : Str} (hd : ∀ c ∈ d, p c = true)
    (hr : ∀ c, r.head? = some c → p c = false) : (d ++ r).takeWhile p = d := by
  induction d with
  | nil =>
    cases r with
    | nil => rfl
    | cons c r => exact List.takeWhile_cons_of_neg (by rw [hr c rfl]; decide)
  | cons c d ih =>
    rw [List.cons_append, List.takeWhile_cons_of_pos (hd c (by simp)), ih fun x hx => hd x (by simp [hx])]

theorem number_chars {s : Str} (h : Number s) : ∀ c ∈ s, c ∈ lit "+-.eE0123456789" := by
  have dig : ∀ {d : Str}, (∀ c ∈ d, c ∈ lit "0123456789") → ∀ c ∈ d, c ∈ lit "+-.eE0123456789" := by
    intro d hd c hc
    have key : ∀ x ∈ lit "0123456789", x ∈ lit "+-.eE0123456789" := by decide +kernel
    exact key c (hd c hc)
  obtain ⟨m, i, f, e, rfl, hm, hi, hf, he⟩ := h
  intro c hc
  simp only [List.mem_append] at hc
  rcases hc with ((hc | hc) | hc) | hc
  · rcases hm with rfl | rfl
    · cases hc
    · revert c; decide +kernel
  · rcases hi with rfl | ⟨d, ds, rfl, h1, h2⟩
    · revert c; decide +kernel
    · rcases List.mem_cons.1 hc with rfl | hc
      · have key : ∀ x ∈ lit "123456789", x ∈ lit "+-.eE0123456789" := by decide +kernel
        exact key _ h1
      · exact dig h2 c hc
  · rcases hf with rfl | ⟨ds, rfl, h⟩
    · cases hc
    · rcases List.mem_cons.1 hc with rfl | hc
      · decide
      · exact dig h.2 c hc
  · rcases he with rfl | ⟨x, g, ds, rfl, hx, hg, h⟩
    · cases hc
    · rcases List.mem_cons.1 hc with rfl | hc
      · have key : ∀ x ∈ lit "eE", x ∈ lit "+-.eE0123456789" := by decide +kernel
        exact key _ hx
      · rcases List.mem_append.1 hc with hc | hc
        · rcases hg with rfl | rfl | rfl
          · cases hc
          · have key : ∀ x ∈ lit "+", x ∈ lit "+-.eE0123456789" := by decide +kernel
            exact key c hc
          · have key : ∀ x ∈ lit "-", x ∈ lit "+-.eE0123456789" := by decide +kernel
            exact key c hc
        · exact dig h.2 c hc

theorem follow_delim {r : Str} (h : Follow r) : ∀ c, r.head? = some c → notDelim c = false := by
  intro c hc
  have key : ∀ n : Fin 256, (isSpace (BitVec.ofFin n : Byte) = true ∨ (BitVec.ofFin n : Byte) = ch ',' ∨
      (BitVec.ofFin n : Byte) = ch ']' ∨ (BitVec.ofFin n : Byte) = ch '}') →
      notDelim (BitVec.ofFin n : Byte) = false := by decide +kernel
  exact key c.toFin (h c hc)

/-- The value reader takes a scalar. -/
theorem parseValue_scalar {v x r w : Str} (hw : Ws Spc w) (h : ScalarText v x) (hr : Follow r) :
    parseValue (w ++ (v ++ r)) = (x, r) := by
  have word : ∀ {v : Str} {c : Byte} {q : Str}, v = c :: q → isSpace c = false → c ≠ 34 → (∀ y ∈ v, notDelim y = true) →
      parseValue (w ++ (v ++ r)) = (v, r) := by
    rintro _ c q rfl hsp h34 hall
    unfold parseValue
    rw [List.cons_append, skipWs_at hw hsp]
    dsimp only
    rw [if_neg h34]
    show (List.takeWhile notDelim ((c :: q) ++ r), List.dropWhile notDelim ((c :: q) ++ r)) = _
    rw [takeWhile_app hall (follow_delim hr), dropWhile_app hall (follow_delim hr)]
  cases h with
  | str ht =>
    have e : w ++ ((ch '"' :: (x ++ [ch '"'])) ++ r) = w ++ ch '"' :: (x ++ ch '"' :: r) := by simp
    unfold parseValue
    rw [e, skipWs_at hw (by decide)]
    dsimp only
    rw [if_pos (by decide), parse_chars ht]
  | num hn =>
    obtain ⟨c, q, e, hc⟩ := number_head hn
    have hf := digit_facts hc
    refine word e hf.1 hf.2.2.2.1 fun y hy => ?_
    have key : ∀ y ∈ lit "+-.eE0123456789", notDelim y = true := by decide +kernel
    exact key y (number_chars hn y hy)
  | true => exact word (c := ch 't') (q := lit "rue") rfl (by decide) (by decide) (by decide)
  | false => exact word (c := ch 'f') (q := lit "alse") rfl (by decide) (by decide) (by decide)
  | null => exact word (c := ch 'n') (q := lit "ull") rfl (by decide) (by decide) (by decide)

theorem decodeStep_member {s : Str} {e : Str × Str} (h : MemberOf s e) (m : Entries) {d : Byte} (r : Str)
    (hd : d = ch ',' ∨ d = ch ']' ∨ d = ch '}') :
    decodeStep (s ++ d :: r) m = some (skipOne 44 (d :: r), mapSet m e.1 e.2) := by
  obtain @⟨wa, k, wb, w, v, x, w', hwa, hk, hwb, hw, hv, hw'⟩ := h
  have e0 : wa ++ (ch '"' :: (k ++ ch '"' :: (wb ++ ch ':' :: (w ++ (v ++ w'))))) ++ d :: r =
      wa ++ ch '"' :: (k ++ ch '"' :: (wb ++ ch ':' :: (w ++ (v ++ (w' ++ d :: r))))) := by simp
  have hdsp : isSpace d = false := by rcases hd with rfl | rfl | rfl <;> decide
  unfold decodeStep
  rw [e0, skipWs_at hwa (by decide)]
  dsimp only
  rw [if_neg (by decide), parse_chars hk]
  dsimp only
  rw [skipWs_at hwb (by decide)]
  have e1 : skipOne 58 (ch ':' :: (w ++ (v ++ (w' ++ d :: r)))) = w ++ (v ++ (w' ++ d :: r)) := skipOne_self 58 _
  rw [e1, parseValue_scalar hw hv (follow_ws hw' hd)]
  dsimp only
  rw [skipWs_at hw' hdsp]

theorem decodeLoop_end (m : Entries) (r : Str) (n : Nat) : decodeLoop (n + 1) (ch '}' :: r) m = some m := by
  rw [decodeLoop.eq_def]
  dsimp only
  have : decodeStep (ch '}' :: r) m = none := by
    unfold decodeStep
    rw [skipWs_cons (by decide)]
    rfl
  rw [this]

theorem decodeLoop_members {u : Str} {es : Entries} (h : Members u es) : ∀ (m : Entries) (r : Str) (n : Nat),
    es.length < n → decodeLoop n (u ++ ch '}' :: r) m = some (es.foldl (fun m e => mapSet m e.1 e.2) m) := by
  induction h with
  | @one s e h =>
    intro m r n hn
    simp only [List.length_cons, List.length_nil] at hn
    obtain ⟨n, rfl⟩ : ∃ j, n = j + 2 := ⟨n - 2, by omega⟩
    rw [decodeLoop.eq_def]
    dsimp only
    rw [decodeStep_member h m r (.inr (.inr rfl))]
    exact decodeLoop_end _ r n
  | @cons s u e es h _ ih =>
    intro m r n hn
    rw [List.length_cons] at hn
    obtain ⟨n, rfl⟩ : ∃ j, n = j + 1 := ⟨n - 1, by omega⟩
    have e0 : s ++ ch ',' :: u ++ ch '}' :: r = s ++ ch ',' :: (u ++ ch '}' :: r) := by simp
    rw [e0, decodeLoop.eq_def]
    dsimp only
    rw [decodeStep_member h m _ (.inl rfl)]
    exact ih _ r n (by omega)

theorem mapSet_new {m : Entries} {k v : Str} (h : k ∉ m.map Prod.fst) : mapSet m k v = m ++ [(k, v)] := by
  induction m with
  | nil => rfl
  | cons e m ih =>
    obtain ⟨k', v'⟩ := e
    rw [List.map_cons, List.mem_cons, not_or] at h
    unfold mapSet
    rw [if_neg (fun e => h.1 e.symm), ih h.2]
    rfl

theorem foldl_mapSet : ∀ (es m : Entries), ((m ++ es).map Prod.fst).Nodup →
    es.foldl (fun m e => mapSet m e.1 e.2) m = m ++ es := by
  intro es
  induction es with
  | nil => intro m _; simp
  | cons e es ih =>
    intro m h
    have hn : e.1 ∉ m.map Prod.fst := by
      rw [List.map_append, List.map_cons, List.nodup_append] at h
      intro hm
      exact h.2.2 _ hm e.1 (by simp) rfl
    rw [List.foldl_cons, mapSet_new hn, ih]
    · simp
    · simpa using h

/-- Objects of strings, numbers and literals with different keys are decoded to their entries, strings
as they stand between the quotes. -/
theorem C50_flat {u : Str} {es : Entries} (h : Members u es) (hd : (es.map Prod.fst).Nodup) {w : Str} (hw : Ws Spc w)
    (r : Str) {n : Nat} (hn : es.length < n) : decode n (w ++ ch '{' :: (u ++ ch '}' :: r)) = some es := by
  unfold decode
  rw [skipWs_at hw (by decide)]
  dsimp only
  rw [if_pos (by decide), decodeLoop_members h [] r n hn, foldl_mapSet es [] (by simpa using hd)]
  rfl

example : decode 3 (lit "{ \"a\": 1, \"b\": \"x\" }") = some [(lit "a", lit "1"), (lit "b", lit "x")] := by decide +kernel
example : decode 9 (lit "{\"a\":{}}") = some [(lit "a", lit "{")] := by decide +kernel

theorem mapSet_get (k v x : Str) : ∀ m : Entries, (mapSet m k v).lookup x = if x = k then some v else m.lookup x
  | [] => by
    rw [mapSet, List.lookup_cons]
    by_cases h : x = k
    · subst h; simp
    · have : (x == k) = false := by simpa using h
      rw [this, if_neg h]
  | (k', v') :: m => by
    rw [mapSet]
    by_cases h : k' = k
    · subst h
      rw [if_pos rfl, List.lookup_cons, List.lookup_cons]
      by_cases hx : x = k'
      · subst hx; simp
      · have : (x == k') = false := by simpa using hx
        rw [this, if_neg hx]
    · rw [if_neg h, List.lookup_cons, List.lookup_cons]
      by_cases hx : x = k'
      · subst hx
        rw [if_neg h]; simp
      · have : (x == k') = false := by simpa using hx
        rw [this, mapSet_get k v x m]

theorem foldl_mapSet_get (x : Str) : ∀ (es m : Entries), (es.foldl (fun m e => mapSet m e.1 e.2) m).lookup x =
    ((es.reverse.lookup x).or (m.lookup x)) := by
  intro es
  induction es with
  | nil => intro m; rfl
  | cons e es ih =>
    intro m
    rw [List.foldl_cons, ih, mapSet_get, List.reverse_cons, List.lookup_append, List.lookup_cons]
    by_cases h : x = e.1
    · rw [if_pos h, h]
      cases es.reverse.lookup e.1 <;> simp
    · have : (x == e.1) = false := by simpa using h
      rw [if_neg h, this]
      cases es.reverse.lookup x <;> simp

/-- With equal keys the last member wins. -/
theorem C50_last {u : Str} {es : Entries} (h : Members u es) {w : Str} (hw : Ws Spc w)
    (r : Str) {n : Nat} (hn : es.length < n) : ∃ m, decode n (w ++ ch '{' :: (u ++ ch '}' :: r)) = some m ∧
    ∀ k, m.lookup k = es.reverse.lookup k := by
  unfold decode
  rw [skipWs_at hw (by decide)]
  dsimp only
  rw [if_pos (by decide), decodeLoop_members h [] r n hn]
  exact ⟨_, rfl, fun k => by rw [foldl_mapSet_get]; simp⟩

example : decode 3 (lit "{ \"a\": 1, \"a\": 2 }") = some [(lit "a", lit "2")] := by decide +kernel

/-! ### C120: decode after encode -/

/-- C120 as claimed: decoding gives back the encoded map. -/
def C120_statement : Prop :=
  ∀ m : Entries, (m.map Prod.fst).Nodup → ∃ n, decode n (encodeMap m) = some m

/-- The characters that are not escaped. -/
def PlainChar (c : Byte) : Prop := 0x20 ≤ c.toNat ∧ c ≠ ch '"' ∧ c ≠ ch '\\'

theorem escChar_plain (c : Byte) : (PlainChar c → escChar c = [c]) ∧ (¬ PlainChar c → 2 ≤ (escChar c).length) := by
  have key : ∀ n : Fin 256, ((0x20 ≤ (BitVec.ofFin n : Byte).toNat ∧ (BitVec.ofFin n : Byte) ≠ ch '"' ∧ (BitVec.ofFin n : Byte) ≠ ch '\\') →
      escChar (BitVec.ofFin n : Byte) = [(BitVec.ofFin n : Byte)]) ∧
      (¬ (0x20 ≤ (BitVec.ofFin n : Byte).toNat ∧ (BitVec.ofFin n : Byte) ≠ ch '"' ∧ (BitVec.ofFin n : Byte) ≠ ch '\\') →
      2 ≤ (escChar (BitVec.ofFin n : Byte)).length) := by decide +kernel
  exact key c.toFin

/-- Escaping changes a string exactly when it has a character that must be escaped. -/
theorem escape_plain (s : Str) : s.flatMap escChar = s ↔ ∀ c ∈ s, PlainChar c := by
  have len : ∀ s : Str, s.length ≤ (s.flatMap escChar).length := by
    intro s
    induction s with
    | nil => simp
    | cons c s ih =>
      have : 1 ≤ (escChar c).length := by
        by_cases h : PlainChar c
        · rw [(escChar_plain c).1 h]; exact Nat.le_refl _
        · have := (escChar_plain c).2 h; omega
      rw [List.flatMap_cons, List.length_append, List.length_cons]
      omega
  induction s with
  | nil => simp
  | cons c s ih =>
    rw [List.flatMap_cons]
    by_cases h : PlainChar c
    · rw [(escChar_plain c).1 h, List.singleton_append]
      constructor
      · intro e x hx
        rcases List.mem_cons.1 hx with rfl | hx
        · exact h
        · exact ih.1 (List.cons.inj e).2 x hx
      · intro hall
        rw [ih.2 fun x hx => hall x (by simp [hx])]
    · constructor
      · intro e
        have h1 := congrArg List.length e
        rw [List.length_append, List.length_cons] at h1
        have := (escChar_plain c).2 h
        have := len s
        omega
      · intro hall
        exact absurd (hall c (by simp)) h

theorem member_escaped (k v : Str) : MemberOf (escaped k ++ [58] ++ escaped v) (k.flatMap escChar, v.flatMap escChar) := by
  have := @MemberOf.mk [] (k.flatMap escChar) [] [] (escaped v) (v.flatMap escChar) [] nofun
    (denotes_chars (escaped_denotes k)) nofun nofun (.str (denotes_chars (escaped_denotes v))) nofun
  have e : escaped k ++ [58] ++ escaped v = [] ++ (ch '"' :: (k.flatMap escChar ++ ch '"' :: ([] ++ ch ':' :: ([] ++ (escaped v ++ []))))) := by
    rw [escaped_eq k]; simp [ch]
  rw [e]
  exact this

theorem members_joined {α : Type} (f : α → Str) (g : α → Str × Str) (h : ∀ a, MemberOf (f a) (g a)) :
    ∀ (l : List α), l ≠ [] → Members (Json.joined [44] (l.map f)) (l.map g) := by
  intro l
  induction l with
  | nil => intro h; exact absurd rfl h
  | cons a l ih =>
    intro _
    cases l with
    | nil => exact .one (h a)
    | cons b l =>
      have e : Json.joined [44] ((a :: b :: l).map f) = f a ++ ch ',' :: Json.joined [44] ((b :: l).map f) := by
        simp [Json.joined, ch]
      rw [e]
      exact .cons (h a) (ih (by simp))

theorem decode_empty (n : Nat) : decode (n + 1) (lit "{}") = some [] := by
  show decodeLoop (n + 1) (ch '}' :: []) [] = some []
  exact decodeLoop_end [] [] n

/-- Quotes come back with their backslashes. -/
theorem C120_witness : ∀ n, 1 < n →
    decode n (encodeMap [(lit "a", lit "\"")]) = some [(lit "a", lit "\\\"")] := by
  intro n hn
  have := C50_flat (members_joined (fun e : Str × Str => escaped e.1 ++ [58] ++ escaped e.2)
    (fun e => (e.1.flatMap escChar, e.2.flatMap escChar)) (fun e => member_escaped e.1 e.2) [(lit "a", lit "\"")] (by simp))
    (by decide +kernel) (w := []) nofun [] (n := n) hn
  exact this

theorem decode_mono {n m : Nat} (h : n ≤ m) {text : Str} {r : Entries} (hr : decode n text = some r) : decode m text = some r := by
  have loop : ∀ n m, n ≤ m → ∀ s (e : Entries), decodeLoop n s e = some r → decodeLoop m s e = some r := by
    intro n
    induction n with
    | zero => intro m _ s e h; cases h
    | succ n ih =>
      intro m hm s e h
      obtain ⟨m, rfl⟩ : ∃ j, m = j + 1 := ⟨m - 1, by omega⟩
      rw [decodeLoop.eq_def] at h ⊢
      dsimp only at h ⊢
      cases hs : decodeStep s e with
      | none => rw [hs] at h; exact h
      | some p => rw [hs] at h; exact ih m (by omega) _ _ h
  unfold decode at hr ⊢
  split at hr
  · exact hr
  · split at hr
    · next hc => rw [if_pos hc]; exact loop n m h _ _ hr
    · next hc => rw [if_neg hc]; exact hr

theorem C120_fails : ¬ C120_statement := by
  intro h
  obtain ⟨n, hn⟩ := h [(lit "a", lit "\"")] (by decide)
  have h1 := decode_mono (Nat.le_add_right n 2) hn
  rw [C120_witness (n + 2) (by omega)] at h1
  exact absurd h1 (by decide)

/-- What comes back is the escaped map, whatever the strings: the map itself if and only if nothing had to
be escaped. Missing for the full claim: maps with strings to escape. -/
theorem C120_partial (m : Entries) (h : (m.map Prod.fst).Nodup) {n : Nat} (hn : m.length < n) :
    decode n (encodeMap m) = some (m.map fun e => (e.1.flatMap escChar, e.2.flatMap escChar)) ∧
    (decode n (encodeMap m) = some m ↔ ∀ e ∈ m, (∀ c ∈ e.1, PlainChar c) ∧ ∀ c ∈ e.2, PlainChar c) := by
  have main : decode n (encodeMap m) = some (m.map fun e => (e.1.flatMap escChar, e.2.flatMap escChar)) := by
    cases m with
    | nil =>
      obtain ⟨n, rfl⟩ : ∃ j, n = j + 1 := ⟨n - 1, by simp at hn; omega⟩
      exact decode_empty n
    | cons x m =>
      have hd : (((x :: m).map fun e : Str × Str => (e.1.flatMap escChar, e.2.flatMap escChar)).map Prod.fst).Nodup := by
        have : ((x :: m).map fun e : Str × Str => (e.1.flatMap escChar, e.2.flatMap escChar)).map Prod.fst =
            ((x :: m).map Prod.fst).map (fun k => k.flatMap escChar) := by
          rw [List.map_map, List.map_map]; rfl
        rw [this]
        generalize (x :: m).map Prod.fst = l at h
        clear hn this
        induction l with
        | nil => exact List.nodup_nil
        | cons k l ih =>
          rw [List.nodup_cons] at h
          rw [List.map_cons, List.nodup_cons]
          refine ⟨fun hm => ?_, ih h.2⟩
          obtain ⟨k', hk', e⟩ := List.mem_map.1 hm
          rw [escaped_inj e] at hk'
          exact h.1 hk'
      have := C50_flat (members_joined (fun e : Str × Str => escaped e.1 ++ [58] ++ escaped e.2)
        (fun e => (e.1.flatMap escChar, e.2.flatMap escChar)) (fun e => member_escaped e.1 e.2) (x :: m) (by simp))
        hd (w := []) nofun [] (n := n) (by simpa using hn)
      have e : encodeMap (x :: m) = [] ++ ch '{' :: (Json.joined [44] ((x :: m).map fun e : Str × Str =>
          escaped e.1 ++ [58] ++ escaped e.2) ++ ch '}' :: []) := by
        unfold encodeMap
        simp [ch]
      rw [e]
      exact this
  refine ⟨main, ?_⟩
  rw [main, Option.some.injEq]
  clear main h hn
  induction m with
  | nil => simp
  | cons e m ih =>
    rw [List.map_cons, List.cons.injEq, ih, Prod.ext_iff]
    dsimp only
    rw [escape_plain, escape_plain]
    constructor
    · rintro ⟨h1, h2⟩ x hx
      rcases List.mem_cons.1 hx with rfl | hx
      · exact h1
      · exact h2 x hx
    · intro h
      exact ⟨h e (by simp), fun x hx => h x (by simp [hx])⟩

/-! ### C121: splitting an array -/

/-- An element with whitespace around, and what is cut out for it: the element, with the whitespace behind. -/
inductive ItemOf (n : Nat) : Str → Str → Prop where
  | mk {w v w' : Str} : Ws Spc w → Value Spc n v → Ws Spc w' → ItemOf n (w ++ (v ++ w')) (v ++ w')

/-- Elements with commas between. -/
inductive Items (n : Nat) : Str → List Str → Prop where
  | one {s x : Str} : ItemOf n s x → Items n s [x]
  | cons {s x u : Str} {xs : List Str} : ItemOf n s x → Items n u xs → Items n (s ++ ch ',' :: u) (x :: xs)

/-- The scan goes through a text and is at the same depth after it. -/
def Pass (b k : Int) (v : Str) : Prop :=
  ∀ t, scanElem (v ++ t) b k false = (v ++ (scanElem t b k false).1, (scanElem t b k false).2)

theorem pass_nil (b k : Int) : Pass b k [] := fun _ => rfl

theorem pass_app {b k : Int} {v u : Str} (hv : Pass b k v) (hu : Pass b k u) : Pass b k (v ++ u) := by
  intro t
  rw [List.append_assoc, hv, hu, List.append_assoc]

theorem pass_one {b k : Int} {c : Byte} (h : c ∉ lit "\"{}[]" ∧ (c = ch ',' → ¬ (b = 0 ∧ k = 0))) : Pass b k [c] := by
  intro t
  have hm : ∀ d ∈ lit "\"{}[]", c ≠ d := fun d hd e => h.1 (e ▸ hd)
  rw [List.singleton_append, scanElem.eq_def]
  dsimp only
  rw [if_neg (by decide), if_neg (hm 34 (by decide)), if_neg (hm 123 (by decide)), if_neg (hm 125 (by decide)),
    if_neg (hm 91 (by decide)), if_neg (hm 93 (by decide)), if_neg]
  · rfl
  · rintro ⟨h1, h2⟩
    exact h.2 h1 h2

theorem pass_list {b k : Int} {s : Str} (h : ∀ c ∈ s, c ∉ lit "\"{}[]," ) : Pass b k s := by
  induction s with
  | nil => exact pass_nil b k
  | cons c s ih =>
    refine pass_app (v := [c]) (pass_one ⟨fun hm => ?_, fun e => ?_⟩) (ih fun x hx => h x (by simp [hx]))
    · have key : ∀ x ∈ lit "\"{}[]", x ∈ lit "\"{}[]," := by decide +kernel
      exact h c (by simp) (key c hm)
    · exact absurd (by rw [e]; decide) (h c (by simp))

theorem pass_ws {b k : Int} {w : Str} (hw : Ws Spc w) : Pass b k w := by
  refine pass_list fun c hc hm => ?_
  have key : ∀ x ∈ lit "\"{}[],", isSpace x = false := by decide +kernel
  have h1 : isSpace c = true := hw c hc
  rw [key c hm] at h1
  cases h1

theorem in_plain {b k : Int} {c : Byte} {s : Str} (h1 : c ≠ 34) (h2 : c ≠ 92) :
    scanElem (c :: s) b k true = (c :: (scanElem s b k true).1, (scanElem s b k true).2) := by
  rw [scanElem.eq_def]
  dsimp only
  rw [if_pos rfl, if_neg h2]
  have : decide (c ≠ 34) = true := decide_eq_true h1
  rw [this]

theorem in_chars {b k : Int} {t : Str} (h : Chars t) (r : Str) : scanElem (t ++ ch '"' :: r) b k true =
    (t ++ ch '"' :: (scanElem r b k false).1, (scanElem r b k false).2) := by
  induction h with
  | nil =>
    rw [List.nil_append, scanElem.eq_def]
    rfl
  | @plain c s h0 h1 h2 _ ih => rw [List.cons_append, in_plain h1 h2, ih]; rfl
  | @short e s he _ ih =>
    rw [List.cons_append, List.cons_append, scanElem.eq_def]
    dsimp only
    rw [if_pos rfl, if_pos (by decide), ih]
    rfl
  | @uni a b' c d s hx _ ih =>
    have hex : ∀ x ∈ lit "0123456789abcdefABCDEF", x ≠ 34 ∧ x ≠ 92 := by decide
    have ha := hex a (hx a (by simp))
    have hb := hex b' (hx b' (by simp))
    have hc := hex c (hx c (by simp))
    have hd := hex d (hx d (by simp))
    simp only [List.cons_append]
    rw [scanElem.eq_def]
    dsimp only
    rw [if_pos rfl, if_pos (by decide), in_plain ha.1 ha.2, in_plain hb.1 hb.2, in_plain hc.1 hc.2, in_plain hd.1 hd.2, ih]

theorem pass_quoted {b k : Int} {q : Str} (h : Quoted q) : Pass b k q := by
  obtain ⟨t, ht, rfl⟩ := h
  intro r
  have e : ch '"' :: (t ++ [ch '"']) ++ r = ch '"' :: (t ++ ch '"' :: r) := by simp
  rw [e, scanElem.eq_def]
  dsimp only
  rw [if_neg (by decide), if_pos (by decide), in_chars ht]
  simp

theorem pass_arr {b k : Int} {v : Str} (hk : 0 ≤ k) (hv : Pass b (k + 1) v) : Pass b k (ch '[' :: (v ++ [ch ']'])) := by
  intro r
  have e : ch '[' :: (v ++ [ch ']']) ++ r = ch '[' :: (v ++ ch ']' :: r) := by simp
  have e1 : scanElem (ch ']' :: r) b (k + 1) false = (ch ']' :: (scanElem r b k false).1, (scanElem r b k false).2) := by
    rw [scanElem.eq_def]
    dsimp only
    rw [if_neg (by decide), if_neg (by decide), if_neg (by decide), if_neg (by decide), if_neg (by decide),
      if_pos (by decide), if_neg (by omega), show k + 1 - 1 = k by omega]
  rw [e, scanElem.eq_def]
  dsimp only
  rw [if_neg (by decide), if_neg (by decide), if_neg (by decide), if_neg (by decide), if_pos (by decide), hv, e1]
  simp

theorem pass_obj {b k : Int} {v : Str} (hv : Pass (b + 1) k v) : Pass b k (ch '{' :: (v ++ [ch '}'])) := by
  intro r
  have e : ch '{' :: (v ++ [ch '}']) ++ r = ch '{' :: (v ++ ch '}' :: r) := by simp
  have e1 : scanElem (ch '}' :: r) (b + 1) k false = (ch '}' :: (scanElem r b k false).1, (scanElem r b k false).2) := by
    rw [scanElem.eq_def]
    dsimp only
    rw [if_neg (by decide), if_neg (by decide), if_neg (by decide), if_pos (by decide), show b + 1 - 1 = b by omega]
  rw [e, scanElem.eq_def]
  dsimp only
  rw [if_neg (by decide), if_neg (by decide), if_pos (by decide), hv, e1]
  simp

theorem pass_commas {b k : Int} (h : ¬ (b = 0 ∧ k = 0)) : ∀ (l : List Str), (∀ x ∈ l, Pass b k x) → Pass b k (commas l) := by
  intro l
  induction l with
  | nil => intro _; exact pass_nil b k
  | cons x l ih =>
    intro hall
    cases l with
    | nil => exact hall x (by simp)
    | cons y l =>
      rw [commas_cons x (by simp)]
      refine pass_app (hall x (by simp)) (pass_app (v := [ch ',']) (pass_one ⟨by decide, fun _ => h⟩) (ih fun z hz => ?_))
      exact hall z (List.mem_cons_of_mem _ hz)

theorem pass_padded {b k : Int} {P : Str → Prop} (hp : ∀ v, P v → Pass b k v) {s : Str} (h : Padded Spc P s) : Pass b k s := by
  obtain ⟨w, v, w', hw, hv, hw', rfl⟩ := h
  exact pass_app (pass_ws hw) (pass_app (hp v hv) (pass_ws hw'))

theorem pass_value (n : Nat) : ∀ (v : Str), Value Spc n v → ∀ (b k : Int), 0 ≤ b → 0 ≤ k → Pass b k v := by
  have flat : ∀ (v : Str), Flat Spc v → ∀ (b k : Int), 0 ≤ b → 0 ≤ k → Pass b k v := by
    intro v h b k hb hk
    cases h with
    | str h => exact pass_quoted h
    | num h =>
      refine pass_list fun c hc hm => ?_
      have key : ∀ x ∈ lit "+-.eE0123456789", x ∉ lit "\"{}[]," := by decide +kernel
      exact key c (number_chars h c hc) hm
    | true => exact pass_list (by decide)
    | false => exact pass_list (by decide)
    | null => exact pass_list (by decide)
    | arr hw => exact pass_arr hk (pass_ws hw)
    | obj hw => exact pass_obj (pass_ws hw)
  induction n with
  | zero => exact flat
  | succ n ih =>
    rintro v (h | ⟨items, -, hall, rfl⟩ | ⟨items, -, hall, rfl⟩) b k hb hk
    · exact flat v h b k hb hk
    · exact pass_arr hk (pass_commas (by omega) _ fun x hx =>
        pass_padded (fun v hv => ih v hv b (k + 1) hb (by omega)) (hall x hx))
    · refine pass_obj (pass_commas (by omega) _ fun x hx => ?_)
      obtain ⟨a, v, ha, hv, rfl⟩ := hall x hx
      exact pass_app (pass_padded (fun v hv => pass_quoted hv) ha)
        (pass_app (v := [ch ':']) (pass_one ⟨by decide, fun h => absurd h (by decide)⟩)
          (pass_padded (fun v hv => ih v hv (b + 1) k (by omega) hk) hv))

theorem scan_stop (d : Byte) (r : Str) (hd : d = ch ',' ∨ d = ch ']') : scanElem (d :: r) 0 0 false = ([], d :: r) := by
  rw [scanElem.eq_def]
  rcases hd with rfl | rfl <;> rfl

/-- One round of the splitter. -/
theorem split_item {n f : Nat} {s x : Str} (h : ItemOf n s x) (out : List Str) {d : Byte} (r : Str) (hd : d = ch ',' ∨ d = ch ']') :
    splitLoop (f + 1) (s ++ d :: r) out = splitLoop f (skipOne 44 (d :: r)) (out ++ [x]) := by
  obtain @⟨w, v, w', hw, hv, hw'⟩ := h
  obtain ⟨c, q, hq, hsp, h93, -⟩ := level_starts (n + 1) v hv
  have hdsp : isSpace d = false := by rcases hd with rfl | rfl <;> decide
  have hp : Pass 0 0 (v ++ w') := pass_app (pass_value n v hv 0 0 (by decide) (by decide)) (pass_ws hw')
  have e0 : (w ++ (v ++ w')) ++ d :: r = w ++ ((v ++ w') ++ d :: r) := by simp
  have e1 : (v ++ w') ++ d :: r = c :: (q ++ (w' ++ d :: r)) := by rw [hq]; simp
  rw [splitLoop.eq_def]
  dsimp only
  rw [e0, e1, skipWs_at hw hsp]
  dsimp only
  rw [if_neg (show ¬ c = 93 from h93), ← e1, hp, scan_stop d r hd]
  dsimp only
  rw [skipWs_cons hdsp, List.append_nil, if_neg]
  intro e
  rw [hq] at e
  cases e

theorem split_end (f : Nat) (r : Str) (out : List Str) : splitLoop (f + 1) (ch ']' :: r) out = some out := by
  rw [splitLoop.eq_def]
  dsimp only
  rw [skipWs_cons (by decide)]
  rfl

theorem split_items {n : Nat} {u : Str} {xs : List Str} (h : Items n u xs) : ∀ (out : List Str) (r : Str) (f : Nat),
    xs.length < f → splitLoop f (u ++ ch ']' :: r) out = some (out ++ xs) := by
  induction h with
  | @one s x h =>
    intro out r f hf
    simp only [List.length_cons, List.length_nil] at hf
    obtain ⟨f, rfl⟩ : ∃ j, f = j + 2 := ⟨f - 2, by omega⟩
    rw [split_item h out r (.inr rfl)]
    exact split_end f r _
  | @cons s x u xs h _ ih =>
    intro out r f hf
    rw [List.length_cons] at hf
    obtain ⟨f, rfl⟩ : ∃ j, f = j + 1 := ⟨f - 1, by omega⟩
    have e0 : s ++ ch ',' :: u ++ ch ']' :: r = s ++ ch ',' :: (u ++ ch ']' :: r) := by simp
    rw [e0, split_item h out _ (.inl rfl)]
    have e1 : skipOne 44 (ch ',' :: (u ++ ch ']' :: r)) = u ++ ch ']' :: r := skipOne_self 44 _
    rw [e1, ih _ r f (by omega)]
    simp

theorem scanElem_suffix : ∀ (n : Nat) (s : Str) (b k : Int) (i : Bool), s.length ≤ n → (scanElem s b k i).2 <:+ s := by
  intro n
  induction n with
  | zero =>
    intro s b k i h
    rw [List.length_eq_zero_iff.1 (Nat.le_zero.1 h)]
    exact List.nil_suffix
  | succ n ih =>
    intro s b k i h
    cases s with
    | nil => exact List.nil_suffix
    | cons c s =>
      have step : ∀ b k i, (scanElem s b k i).2 <:+ c :: s := fun b k i =>
        (ih s b k i (by simp at h; omega)).trans (List.suffix_cons c s)
      rw [scanElem.eq_def]
      dsimp only
      split
      · split
        · cases s with
          | nil => exact List.nil_suffix
          | cons d s =>
            exact (ih s b k true (by simp at h; omega)).trans ((List.suffix_cons d s).trans (List.suffix_cons c _))
        · exact step _ _ _
      · split
        · exact step _ _ _
        · split
          · exact step _ _ _
          · split
            · exact step _ _ _
            · split
              · exact step _ _ _
              · split
                · split
                  · exact List.suffix_refl _
                  · exact step _ _ _
                · split
                  · exact List.suffix_refl _
                  · exact step _ _ _

/-- A round of the splitter takes a character. -/
theorem split_progress {c : Byte} {r : Str} (h93 : c ≠ 93) :
    (skipOne 44 (skipWs (scanElem (c :: r) 0 0 false).2)).length ≤ r.length := by
  have tail : ∀ s : Str, (skipOne 44 (skipWs s)).length ≤ s.length := fun s =>
    Nat.le_trans (skipOne_suffix _ _).length_le (skipWs_suffix s).length_le
  by_cases h44 : c = 44
  · subst h44
    rw [scan_stop 44 r (.inl rfl)]
    dsimp only
    have e : skipWs (44 :: r) = 44 :: r := skipWs_cons (by decide)
    rw [e, skipOne_self]
  · refine Nat.le_trans (tail _) ?_
    have step : ∀ b k i, (scanElem r b k i).2.length ≤ r.length := fun b k i =>
      (scanElem_suffix _ r b k i (Nat.le_refl _)).length_le
    rw [scanElem.eq_def]
    dsimp only
    rw [if_neg (by decide)]
    split
    · exact step _ _ _
    · split
      · exact step _ _ _
      · split
        · exact step _ _ _
        · split
          · exact step _ _ _
          · rw [if_neg (fun h => h44 h.1)]
            exact step _ _ _

theorem splitLoop_ends : ∀ (k : Nat) (s : Str) (out : List Str), s.length < k →
    ∃ r, ∀ f, s.length < f → splitLoop f s out = some r := by
  intro k
  induction k with
  | zero => intro s out h; omega
  | succ k ih =>
    intro s out hk
    have hl := (skipWs_suffix s).length_le
    cases hs : skipWs s with
    | nil =>
      refine ⟨out, fun f hf => ?_⟩
      obtain ⟨f, rfl⟩ : ∃ j, f = j + 1 := ⟨f - 1, by omega⟩
      rw [splitLoop.eq_def]
      dsimp only
      rw [hs]
    | cons c r =>
      rw [hs, List.length_cons] at hl
      by_cases h93 : c = 93
      · refine ⟨out, fun f hf => ?_⟩
        obtain ⟨f, rfl⟩ : ∃ j, f = j + 1 := ⟨f - 1, by omega⟩
        rw [splitLoop.eq_def]
        dsimp only
        rw [hs]
        exact if_pos h93
      · have hp := split_progress (r := r) h93
        obtain ⟨x, hx⟩ := ih (skipOne 44 (skipWs (scanElem (c :: r) 0 0 false).2))
          (if (scanElem (c :: r) 0 0 false).1 = [] then out else out ++ [(scanElem (c :: r) 0 0 false).1]) (by omega)
        refine ⟨x, fun f hf => ?_⟩
        obtain ⟨f, rfl⟩ : ∃ j, f = j + 1 := ⟨f - 1, by omega⟩
        rw [splitLoop.eq_def]
        dsimp only
        rw [hs]
        dsimp only
        rw [if_neg h93]
        exact hx f (by omega)

/-- Splitting ends on every text. -/
theorem C121_ends (text : Str) : ∃ r, ∀ n, text.length < n → splitArray n text = some r := by
  have hl := (skipWs_suffix text).length_le
  unfold splitArray
  split
  · exact ⟨_, fun _ _ => rfl⟩
  · next c r hs =>
    rw [hs, List.length_cons] at hl
    split
    · obtain ⟨x, hx⟩ := splitLoop_ends _ r [] (Nat.lt_succ_self _)
      exact ⟨x, fun n hn => hx n (by omega)⟩
    · exact ⟨_, fun _ _ => rfl⟩

/-- The elements of an array, however nested, come out one by one. -/
theorem C121_items {k : Nat} {u : Str} {xs : List Str} (h : Items k u xs) {w : Str} (hw : Ws Spc w) (r : Str) {n : Nat}
    (hn : xs.length < n) : splitArray n (w ++ ch '[' :: (u ++ ch ']' :: r)) = some xs := by
  unfold splitArray
  rw [skipWs_at hw (by decide)]
  dsimp only
  rw [if_pos (by decide), split_items h [] r n hn]
  rfl

theorem C121_empty {w w' : Str} (hw : Ws Spc w) (hw' : Ws Spc w') (r : Str) (n : Nat) :
    splitArray (n + 1) (w ++ ch '[' :: (w' ++ ch ']' :: r)) = some [] := by
  unfold splitArray
  rw [skipWs_at hw (by decide)]
  dsimp only
  rw [if_pos (by decide), splitLoop.eq_def]
  dsimp only
  rw [skipWs_at hw' (by decide)]
  rfl

example : splitArray 4 (lit "[{\"a\":[1,2]}, \"x,]\", 3 ]") = some [lit "{\"a\":[1,2]}", lit "\"x,]\"", lit "3 "] := by
  decide +kernel

/-! ### C122: texts and sizes -/

theorem joined_length (sep : Str) (l : List Str) : (Json.joined sep l).length = joinedLen sep.length (l.map List.length) := by
  induction l with
  | nil => rfl
  | cons x l ih =>
    cases l with
    | nil => rfl
    | cons y l =>
      simp only [Json.joined, List.map_cons, joinedLen, List.length_append] at ih ⊢
      rw [ih]

theorem joined_commas (l : List Str) : Json.joined [44] l = commas l := by
  induction l with
  | nil => rfl
  | cons x l ih =>
    cases l with
    | nil => rfl
    | cons y l =>
      rw [commas_cons x (by simp), ← ih]
      simp [Json.joined, ch]

theorem joinedLen_mono (k : Nat) {α : Type} (f g : α → Nat) : ∀ (l : List α), (∀ a ∈ l, f a ≤ g a) →
    joinedLen k (l.map f) ≤ joinedLen k (l.map g) := by
  intro l
  induction l with
  | nil => intro _; exact Nat.le_refl _
  | cons x l ih =>
    intro h
    have hx := h x (by simp)
    have ih := ih fun a ha => h a (by simp [ha])
    cases l with
    | nil => exact hx
    | cons y l =>
      simp only [List.map_cons, joinedLen] at ih ⊢
      omega

theorem value_up {n : Nat} (h : n ≤ 511) {s : Str} (hs : Value Spc 1 s) : Value Spc (n + 1) s := by
  induction n generalizing s with
  | zero => exact hs
  | succ n ih =>
    rcases hs with h1 | ⟨l, h0, h1, h2⟩ | ⟨l, h0, h1, h2⟩
    · exact .inl h1
    · refine .inr (.inl ⟨l, h0, fun x hx => ?_, h2⟩)
      exact padded_mono (fun _ _ h => h) (fun v _ hv => ih (by omega) (.inl hv)) (h1 x hx)
    · refine .inr (.inr ⟨l, h0, fun x hx => ?_, h2⟩)
      obtain ⟨a, b, ha, hb, e⟩ := h1 x hx
      exact ⟨a, b, ha, padded_mono (fun _ _ h => h) (fun v _ hv => ih (by omega) (.inl hv)) hb, e⟩

theorem arr_valid {items : List Str} (h : ∀ x ∈ items, Padded Spc (Value Spc 0) x) :
    isValid (ch '[' :: (commas items ++ [ch ']'])) = true := by
  refine (isValid_iff _).2 ⟨[], ch '[' :: (commas items ++ [ch ']']), [], nofun, ?_, nofun, by simp⟩
  by_cases hne : items = []
  · subst hne
    exact .inl (.arr (w := []) nofun)
  · exact value_up (n := 511) (by omega) (.inr (.inl ⟨items, hne, h, rfl⟩))

theorem obj_valid {ms : List Str} (h : ∀ x ∈ ms, Member Spc (Value Spc 0) x) (hne : ms ≠ []) :
    isValid (ch '{' :: (commas ms ++ [ch '}'])) = true := by
  refine (isValid_iff _).2 ⟨[], ch '{' :: (commas ms ++ [ch '}']), [], nofun, ?_, nofun, by simp⟩
  exact value_up (n := 511) (by omega) (.inr (.inr ⟨ms, hne, h, rfl⟩))

theorem scalar_flat {v x : Str} (h : ScalarText v x) : Flat Spc v := by
  cases h with
  | str h => exact .str ⟨_, h, rfl⟩
  | num h => exact .num h
  | true => exact .true
  | false => exact .false
  | null => exact .null

/-- A decoded object of scalars is valid JSON. -/
theorem members_valid {u : Str} {es : Entries} (h : Members u es) : isValid (ch '{' :: (u ++ [ch '}'])) = true := by
  have mem : ∀ {s : Str} {e : Str × Str}, MemberOf s e → Member Spc (Value Spc 0) s := by
    rintro s e ⟨hwa, hk, hwb, hw, hv, hw'⟩
    exact ⟨_, _, ⟨_, _, _, hwa, ⟨_, hk, rfl⟩, hwb, rfl⟩, ⟨_, _, _, hw, scalar_flat hv, hw', rfl⟩, by simp⟩
  obtain ⟨ms, hne, hall, e⟩ : ∃ ms, ms ≠ [] ∧ (∀ x ∈ ms, Member Spc (Value Spc 0) x) ∧ u = commas ms := by
    induction h with
    | @one s e h => exact ⟨[s], by simp, by intro x hx; rw [List.mem_singleton.1 hx]; exact mem h, rfl⟩
    | @cons s u e es h _ ih =>
      obtain ⟨ms, hne, hall, rfl⟩ := ih
      refine ⟨s :: ms, by simp, ?_, (commas_cons s hne).symm⟩
      intro x hx
      rcases List.mem_cons.1 hx with rfl | hx
      · exact mem h
      · exact hall x hx
  rw [e]
  exact obj_valid hall hne

theorem fromInt_number (v : Int) : Number (Strconv.fromInt v) := by
  have nat : ∀ n : Nat, JsonG.IntPart (Strconv.fromUint n) := by
    intro n
    obtain ⟨⟨h1, h2, h3, -⟩, -⟩ := Bigint.decimalNat_isNumeral n
    unfold Strconv.fromUint
    generalize Bigint.decimalNat n = t at *
    have dig : ∀ x, 48 ≤ x ∧ x ≤ 57 → BitVec.ofNat 8 x ∈ lit "0123456789" := by
      intro x hx
      have key : ∀ d : Fin 10, BitVec.ofNat 8 (48 + d) ∈ lit "0123456789" := by decide
      have := key ⟨x - 48, by omega⟩
      simp only at this
      rwa [show 48 + (x - 48) = x by omega] at this
    cases t with
    | nil => exact absurd rfl h1
    | cons d t =>
      by_cases hd : d = 48
      · subst hd
        have := h3 rfl
        rw [this]
        exact .inl rfl
      · refine .inr ⟨BitVec.ofNat 8 d, t.map (BitVec.ofNat 8), rfl, ?_, ?_⟩
        · have := h2 d (by simp)
          have key : ∀ k : Fin 9, BitVec.ofNat 8 (49 + k) ∈ lit "123456789" := by decide
          have h := key ⟨d - 49, by omega⟩
          simp only at h
          rwa [show 49 + (d - 49) = d by omega] at h
        · intro c hc
          obtain ⟨x, hx, rfl⟩ := List.mem_map.1 hc
          exact dig x (h2 x (by simp [hx]))
  unfold Strconv.fromInt
  split
  · exact ⟨lit "-", Strconv.fromUint v.natAbs, [], [], by simp [lit], .inr rfl, nat _, .inl rfl, .inl rfl⟩
  · exact ⟨[], Strconv.fromUint v.natAbs, [], [], by simp, .inl rfl, nat _, .inl rfl, .inl rfl⟩

theorem boolText_scalar (b : Bool) : ScalarText (boolText b) (boolText b) := by
  cases b
  · exact .false
  · exact .true

/-- An `int`. -/
def IntVal (v : Int) : Prop := -2 ^ 63 ≤ v ∧ v < 2 ^ 63

theorem fromInt_length {v : Int} (h : IntVal v) : (Strconv.fromInt v).length ≤ 20 := by
  unfold IntVal at h
  have h19 : (Strconv.fromUint v.natAbs).length ≤ 19 := by
    rw [Strconv.fromUint, List.length_map]
    exact Bigint.decimalNat_length (by decide) (by omega)
  unfold Strconv.fromInt
  split
  · rw [List.length_cons]; omega
  · omega

theorem intsLoop_eq (need : Nat) : ∀ (l : List Int) (first : Bool) (out : Str), (∀ v ∈ l, IntVal v) →
    out.length + 21 * l.length ≤ need →
    intsLoop need l first out = some (out ++ ((if first then [] else if l = [] then [] else [44]) ++
      Json.joined [44] (l.map Strconv.fromInt))) := by
  intro l
  induction l with
  | nil => intro first out _ _; cases first <;> simp [intsLoop, Json.joined]
  | cons v l ih =>
    intro first out hl hn
    have hv := fromInt_length (hl v (by simp))
    rw [List.length_cons] at hn
    have hout : (if first = true then out else out ++ [44]).length ≤ out.length + 1 := by
      split
      · omega
      · rw [List.length_append]; simp
    rw [intsLoop, if_pos (by omega), ih false _ (fun x hx => hl x (by simp [hx])) (by rw [List.length_append]; omega)]
    cases l with
    | nil => cases first <;> simp [Json.joined]
    | cons w l => cases first <;> simp [Json.joined]

/-- C122 as claimed: what is written is valid JSON and as long as was computed, so that the closing NUL is in
the buffer. -/
def C122_statement : Prop :=
  (∀ m, isValid (encodeMap m) = true ∧ (encodeMap m).length = encodeMapNeed m) ∧
  (∀ l, isValid (encodeStrings l) = true ∧ (encodeStrings l).length = encodeStringsNeed l) ∧
  (∀ l, isValid (encodeBools l) = true ∧ (encodeBools l).length = encodeBoolsNeed l) ∧
  (∀ l : List Int, (∀ v ∈ l, IntVal v) → encodeInts l = some (ch '[' :: (commas (l.map Strconv.fromInt) ++ [ch ']'])) ∧
    isValid (ch '[' :: (commas (l.map Strconv.fromInt) ++ [ch ']'])) = true) ∧
  (∀ m indent, isValid (prettyMap m indent) = true ∧ (prettyMap m indent).length = prettyNeed m indent)

/-- Pretty-printing an empty map writes four bytes and a NUL into four bytes. -/
theorem C122_witness (indent : Int) : (prettyMap [] indent).length = 4 ∧ prettyNeed [] indent = 3 := ⟨rfl, rfl⟩

theorem C122_fails : ¬ C122_statement := by
  intro h
  have := (h.2.2.2.2 [] 0).2
  rw [(C122_witness 0).1, (C122_witness 0).2] at this
  cases this

theorem list_valid {α : Type} (f : α → Str) (l : List α) (h : ∀ a ∈ l, Flat Spc (f a)) :
    isValid (ch '[' :: (commas (l.map f) ++ [ch ']'])) = true := by
  refine arr_valid fun x hx => ?_
  obtain ⟨a, ha, rfl⟩ := List.mem_map.1 hx
  exact ⟨[], f a, [], nofun, h a ha, nofun, by simp⟩

theorem pretty_valid (m : Entries) (indent : Int) : isValid (prettyMap m indent) = true := by
  cases m with
  | nil => exact (by decide +kernel : isValid [123, 10, 10, 125] = true)
  | cons x m =>
    have hw10 : Ws Spc [10] := by unfold Ws Spc; decide
    have hsp : Ws Spc (List.replicate indent.toNat 32) := by
      intro c hc
      rw [(List.mem_replicate.1 hc).2]
      unfold Spc; decide
    have hs : Ws Spc [32] := by unfold Ws Spc; decide
    -- the last line break stands behind the last value
    have mem : ∀ (e : Str × Str) (w' w'' : Str), Ws Spc w' → Ws Spc w'' →
        MemberOf (w' ++ ((List.replicate indent.toNat 32 ++ escaped e.1 ++ [58, 32] ++ escaped e.2) ++ w''))
          (e.1.flatMap escChar, e.2.flatMap escChar) := by
      intro e w' w'' hw' hw''
      have := @MemberOf.mk (w' ++ List.replicate indent.toNat 32) (e.1.flatMap escChar) [] [32] (escaped e.2)
        (e.2.flatMap escChar) w'' (ws_app hw' hsp) (denotes_chars (escaped_denotes e.1)) nofun hs
        (.str (denotes_chars (escaped_denotes e.2))) hw''
      have e0 : w' ++ ((List.replicate indent.toNat 32 ++ escaped e.1 ++ [58, 32] ++ escaped e.2) ++ w'') =
          (w' ++ List.replicate indent.toNat 32) ++ (ch '"' :: (e.1.flatMap escChar ++ ch '"' :: ([] ++ ch ':' :: ([32] ++ (escaped e.2 ++ w''))))) := by
        rw [escaped_eq e.1]; simp [ch]
      rw [e0]
      exact this
    have all : ∀ (l : Entries), l ≠ [] → ∀ w', Ws Spc w' →
        Members (w' ++ (Json.joined [44, 10] (l.map fun e : Str × Str =>
          List.replicate indent.toNat 32 ++ escaped e.1 ++ [58, 32] ++ escaped e.2) ++ [10]))
          (l.map fun e => (e.1.flatMap escChar, e.2.flatMap escChar)) := by
      intro l
      induction l with
      | nil => intro h; exact absurd rfl h
      | cons a l ih =>
        intro _ w' hw'
        cases l with
        | nil => exact .one (mem a w' [10] hw' hw10)
        | cons b l =>
          have h1 := Members.cons (mem a w' [] hw' nofun) (ih (by simp) [10] hw10)
          have e0 : w' ++ (Json.joined [44, 10] ((a :: b :: l).map fun e : Str × Str =>
              List.replicate indent.toNat 32 ++ escaped e.1 ++ [58, 32] ++ escaped e.2) ++ [10]) =
              (w' ++ ((List.replicate indent.toNat 32 ++ escaped a.1 ++ [58, 32] ++ escaped a.2) ++ [])) ++
              ch ',' :: ([10] ++ (Json.joined [44, 10] ((b :: l).map fun e : Str × Str =>
              List.replicate indent.toNat 32 ++ escaped e.1 ++ [58, 32] ++ escaped e.2) ++ [10])) := by
            simp [Json.joined, ch]
          rw [e0]
          exact h1
    have := members_valid (all (x :: m) (by simp) [10] hw10)
    have e0 : prettyMap (x :: m) indent = ch '{' :: (([10] ++ (Json.joined [44, 10] ((x :: m).map fun e : Str × Str =>
          List.replicate indent.toNat 32 ++ escaped e.1 ++ [58, 32] ++ escaped e.2) ++ [10])) ++ [ch '}']) := by
      unfold prettyMap
      simp [ch]
    rw [e0]
    exact this

/-- All but the pretty-printing of an empty map. Missing for the full claim: that one, and texts longer than
an `int` can count. -/
theorem C122_partial :
    (∀ m, isValid (encodeMap m) = true ∧ (encodeMap m).length = encodeMapNeed m) ∧
    (∀ l, isValid (encodeStrings l) = true ∧ (encodeStrings l).length = encodeStringsNeed l) ∧
    (∀ l, isValid (encodeBools l) = true ∧ (encodeBools l).length = encodeBoolsNeed l) ∧
    (∀ l : List Int, (∀ v ∈ l, IntVal v) → encodeInts l = some (ch '[' :: (commas (l.map Strconv.fromInt) ++ [ch ']'])) ∧
      isValid (ch '[' :: (commas (l.map Strconv.fromInt) ++ [ch ']'])) = true) ∧
    (∀ m indent, isValid (prettyMap m indent) = true ∧
      (m ≠ [] → (prettyMap m indent).length = prettyNeed m indent)) := by
  refine ⟨fun m => ⟨?_, ?_⟩, fun l => ⟨?_, ?_⟩, fun l => ⟨?_, ?_⟩, fun l hl => ⟨?_, ?_⟩, fun m indent => ⟨pretty_valid m indent, ?_⟩⟩
  · cases m with
    | nil => exact (by decide +kernel : isValid [123, 125] = true)
    | cons x m =>
      have := members_valid (members_joined (fun e : Str × Str => escaped e.1 ++ [58] ++ escaped e.2)
        (fun e => (e.1.flatMap escChar, e.2.flatMap escChar)) (fun e => member_escaped e.1 e.2) (x :: m) (by simp))
      exact this
  · unfold encodeMap encodeMapNeed
    simp only [List.length_append, joined_length, List.map_map, List.length_cons, List.length_nil, Nat.zero_add, Nat.reduceAdd]
    have : (List.length ∘ fun e : Str × Str => escaped e.1 ++ [58] ++ escaped e.2) =
        fun e => escapedLen e.1 + 1 + escapedLen e.2 := by
      funext e
      simp only [Function.comp, List.length_append, escaped_length, List.length_cons, List.length_nil]
    rw [this]
    omega
  · have := list_valid escaped l fun a _ => .str (escaped_quoted a)
    unfold encodeStrings
    rw [joined_commas]
    exact this
  · unfold encodeStrings encodeStringsNeed
    simp only [List.length_append, joined_length, List.map_map, List.length_cons, List.length_nil, Nat.zero_add, Nat.reduceAdd]
    have : (List.length ∘ escaped) = escapedLen := by
      funext e
      exact escaped_length e
    rw [this]
    omega
  · have := list_valid boolText l fun a _ => scalar_flat (boolText_scalar a)
    unfold encodeBools
    rw [joined_commas]
    exact this
  · unfold encodeBools encodeBoolsNeed
    simp only [List.length_append, joined_length, List.map_map, List.length_cons, List.length_nil, Nat.zero_add, Nat.reduceAdd]
    have : (List.length ∘ boolText) = fun b => if b = true then 4 else 5 := by
      funext b
      cases b <;> decide
    rw [this]
    omega
  · unfold encodeInts
    rw [intsLoop_eq _ l true [91] hl (by
      simp only [List.length_cons, List.length_nil]
      split <;> omega)]
    rw [joined_commas]
    rfl
  · exact list_valid _ l fun a _ => .num (fromInt_number a)
  · intro hm
    unfold prettyMap prettyNeed
    simp only [List.length_append, joined_length, List.map_map, List.length_cons, List.length_nil, Nat.zero_add, Nat.reduceAdd]
    have : (List.length ∘ fun e : Str × Str => List.replicate indent.toNat 32 ++ escaped e.1 ++ [58, 32] ++ escaped e.2) =
        fun e => indent.toNat + escapedLen e.1 + 2 + escapedLen e.2 := by
      funext e
      simp only [Function.comp, List.length_append, escaped_length, List.length_cons, List.length_nil, List.length_replicate]
    rw [this, if_pos (List.length_pos_iff.2 hm)]
    omega

example : encodeInts [1, -2] = some (lit "[1,-2]") := by decide +kernel

/-! ### C123: `#json` structs -/

/-- A struct: the names of the fields are different identifiers. -/
def Struct (fs : List (Str × Field)) : Prop :=
  (fs.map Prod.fst).Nodup ∧ ∀ f ∈ fs, ∀ c ∈ f.1, PlainChar c

/-- C123 as claimed: the text of a struct is valid JSON, and parsing it gives the struct back. -/
def C123_statement : Prop :=
  ∀ fs, Struct fs → (∀ f ∈ fs, ∀ v, f.2 = .int v → IntVal v) → isValid (stringify fs) = true ∧
    ∃ n m, decode n (stringify fs) = some m ∧ parseFields m fs = .ok fs

/-- A field of another type is left out behind its name, and strings come back escaped. -/
theorem C123_witness : stringify [(lit "a", .other)] = lit "{\"a\": }" ∧
    isValid (stringify [(lit "a", .other)]) = false ∧
    (∃ m, decode 2 (stringify [(lit "a", .str (lit "\\"))]) = some m ∧
      parseFields m [(lit "a", .str (lit "\\"))] = .ok [(lit "a", .str (lit "\\\\"))]) :=
  ⟨by decide +kernel, by decide +kernel, [(lit "a", lit "\\\\")], by decide +kernel, by decide +kernel⟩

theorem C123_fails : ¬ C123_statement := by
  intro h
  have := (h [(lit "a", .other)] ⟨by decide, by unfold PlainChar; decide⟩ (by
    intro f hf v e
    rw [List.mem_singleton.1 hf] at e
    cases e)).1
  rw [C123_witness.2.1] at this
  cases this

/-- What is stored for a field. -/
def stored : Field → Str
  | .str s => s.flatMap escChar
  | .int v => Strconv.fromInt v
  | .bool b => if b then lit "true" else lit "false"
  | .other => []

/-- What comes back of a field. -/
def back : Field → Field
  | .str s => .str (s.flatMap escChar)
  | f => f

theorem plain_chars {s : Str} (h : ∀ c ∈ s, PlainChar c) : Chars s := by
  induction s with
  | nil => exact .nil
  | cons c s ih =>
    have := h c (by simp)
    exact .plain this.1 this.2.1 this.2.2 (ih fun x hx => h x (by simp [hx]))

theorem field_scalar {f : Field} (h : f ≠ .other) : ScalarText f.text (stored f) := by
  cases f with
  | str s => exact .str (denotes_chars (escaped_denotes s))
  | int v => exact .num (fromInt_number v)
  | bool b => exact boolText_scalar b
  | other => exact absurd rfl h

theorem mapGet_mem {m : Entries} (h : (m.map Prod.fst).Nodup) {k v : Str} (hm : (k, v) ∈ m) : mapGet m k = some v := by
  induction m with
  | nil => cases hm
  | cons e m ih =>
    obtain ⟨k', v'⟩ := e
    rw [List.map_cons, List.nodup_cons] at h
    unfold mapGet
    rcases List.mem_cons.1 hm with e | hm
    · cases e; exact if_pos rfl
    · rw [if_neg, ih h.2 hm]
      rintro rfl
      exact h.1 (List.mem_map.2 ⟨(k', v), hm, rfl⟩)

theorem stringToInt_fromInt {v : Int} (h : IntVal v) : Strconv.stringToInt (Strconv.fromInt v) = .ok v := by
  have hl := fromInt_length h
  have hn := fromInt_number v
  have h0 : 0 ∉ Strconv.fromInt v := by
    intro hm
    exact absurd (number_chars hn 0 hm) (by decide +kernel)
  have hb : ∀ c ∈ Strconv.fromInt v, isSpace c = false := by
    intro c hc
    have key : ∀ x ∈ lit "+-.eE0123456789", isSpace x = false := by decide +kernel
    exact key c (number_chars hn c hc)
  have hs : SignedVal 10 (Strconv.fromInt v) v := by
    unfold Strconv.fromInt
    by_cases hn : v < 0
    · rw [if_pos hn]; exact Or.inr (Or.inr ⟨_, v.natAbs, rfl, fromUint_num _, by omega⟩)
    · rw [if_neg hn]; exact Or.inl ⟨v.natAbs, fromUint_num _, by omega⟩
  rw [(C105_partial _ (by omega) h0 hb).1 v hs]
  unfold IntVal at h
  congr 1
  omega

theorem parseFields_eq {m : Entries} : ∀ (fs : List (Str × Field)), (∀ f ∈ fs, f.2 ≠ .other → mapGet m f.1 = some (stored f.2)) →
    (∀ f ∈ fs, f.2 ≠ .other) → (∀ f ∈ fs, ∀ v, f.2 = .int v → IntVal v) →
    parseFields m fs = .ok (fs.map fun f => (f.1, back f.2)) := by
  intro fs
  induction fs with
  | nil => intros; rfl
  | cons f fs ih =>
    intro h h1 h2
    obtain ⟨n, f⟩ := f
    have hg := h (n, f) (by simp) (h1 (n, f) (by simp))
    have hi := h2 (n, f) (by simp)
    have ih := ih (fun f hf => h f (by simp [hf])) (fun f hf => h1 f (by simp [hf])) (fun f hf => h2 f (by simp [hf]))
    have hf : parseField m n f = .ok (back f) := by
      cases f with
      | str s => unfold parseField; dsimp only at hg; rw [hg]; rfl
      | int v =>
        unfold parseField
        dsimp only at hg
        rw [hg]
        show (Strconv.stringToInt (Strconv.fromInt v) >>= fun v => Outcome.ok (Field.int v)) = _
        rw [stringToInt_fromInt (hi v rfl)]
        rfl
      | bool b =>
        unfold parseField
        dsimp only at hg
        rw [hg]
        cases b <;> rfl
      | other => exact absurd rfl (h1 (n, Field.other) (by simp))
    unfold parseFields
    rw [hf, ih]
    rfl

/-- Structs of strings, integers and booleans: the text is valid JSON and fits the computed size; parsing gives
back the struct with its strings escaped, so the struct itself if and only if nothing had to be escaped.
Missing for the full claim: strings to escape, fields of other types (left out), floats (not modelled). -/
theorem C123_partial (fs : List (Str × Field)) (hs : Struct fs) (ho : ∀ f ∈ fs, f.2 ≠ .other)
    (hi : ∀ f ∈ fs, ∀ v, f.2 = .int v → IntVal v) :
    isValid (stringify fs) = true ∧ (stringify fs).length ≤ stringifyNeed fs ∧
    (∀ n, fs.length < n → decode n (stringify fs) = some (fs.map fun f => (f.1, stored f.2))) ∧
    parseFields (fs.map fun f => (f.1, stored f.2)) fs = .ok (fs.map fun f => (f.1, back f.2)) := by
  have hmem : ∀ f ∈ fs, ∀ w', Ws Spc w' → MemberOf (w' ++ (34 :: f.1 ++ [34, 58, 32] ++ f.2.text)) (f.1, stored f.2) := by
    intro f hf w' hw'
    have := @MemberOf.mk w' f.1 [] [32] f.2.text (stored f.2) [] hw' (plain_chars (hs.2 f hf)) nofun
      (by unfold Ws Spc; decide) (field_scalar (ho f hf)) nofun
    have e0 : w' ++ (34 :: f.1 ++ [34, 58, 32] ++ f.2.text) =
        w' ++ (ch '"' :: (f.1 ++ ch '"' :: ([] ++ ch ':' :: ([32] ++ (f.2.text ++ []))))) := by simp [ch]
    rw [e0]
    exact this
  have hmems : ∀ l : List (Str × Field), l ≠ [] → (∀ f ∈ l, f ∈ fs) → ∀ w', Ws Spc w' →
      Members (w' ++ Json.joined [44, 32] (l.map fun f => 34 :: f.1 ++ [34, 58, 32] ++ f.2.text))
        (l.map fun f => (f.1, stored f.2)) := by
    intro l
    induction l with
    | nil => intro h; exact absurd rfl h
    | cons a l ih =>
      intro _ hsub w' hw'
      cases l with
      | nil => exact .one (hmem a (hsub a (by simp)) w' hw')
      | cons b l =>
        have e : w' ++ Json.joined [44, 32] ((a :: b :: l).map fun f => 34 :: f.1 ++ [34, 58, 32] ++ f.2.text) =
            (w' ++ (34 :: a.1 ++ [34, 58, 32] ++ a.2.text)) ++ ch ',' ::
              ([32] ++ Json.joined [44, 32] ((b :: l).map fun f => 34 :: f.1 ++ [34, 58, 32] ++ f.2.text)) := by
          simp [Json.joined, ch]
        rw [e]
        exact .cons (hmem a (hsub a (by simp)) w' hw') (ih (by simp) (fun f hf => hsub f (by simp [hf])) [32] (by unfold Ws Spc; decide))
  have hd : ((fs.map fun f => (f.1, stored f.2)).map Prod.fst).Nodup := by
    rw [List.map_map]; exact hs.1
  refine ⟨?_, ?_, fun n hn => ?_, ?_⟩
  · by_cases hne : fs = []
    · subst hne; exact (by decide +kernel : isValid [123, 125] = true)
    · exact members_valid (hmems fs hne (fun _ h => h) [] nofun)
  · unfold stringify stringifyNeed
    simp only [List.length_append, joined_length, List.map_map, List.length_cons, List.length_nil, Nat.zero_add, Nat.reduceAdd]
    have : joinedLen 2 (fs.map (List.length ∘ fun f : Str × Field => 34 :: f.1 ++ [34, 58, 32] ++ f.2.text)) ≤
        joinedLen 2 (fs.map fun f => 2 + f.1.length + 2 + f.2.need) := by
      refine joinedLen_mono 2 _ _ fs fun f hf => ?_
      have : f.2.text.length ≤ f.2.need := by
        have hv := hi f hf
        cases hfe : f.2 with
        | str s => exact Nat.le_of_eq (escaped_length s)
        | int v =>
          have := fromInt_length (hv v hfe)
          show (Strconv.fromInt v).length ≤ 21
          omega
        | bool b => cases b <;> decide
        | other => exact absurd hfe (ho f hf)
      simp only [Function.comp, List.length_append, List.length_cons, List.length_nil]
      omega
    omega
  · by_cases hne : fs = []
    · subst hne
      obtain ⟨n, rfl⟩ : ∃ j, n = j + 1 := ⟨n - 1, by simp at hn; omega⟩
      exact decode_empty n
    · have := C50_flat (hmems fs hne (fun _ h => h) [] nofun) hd (w := []) nofun [] (n := n) (by simpa using hn)
      exact this
  · exact parseFields_eq fs (fun f hf _ => mapGet_mem hd (List.mem_map.2 ⟨f, hf, rfl⟩)) ho hi

/-- The struct itself comes back when no string has a character to escape. -/
theorem C123_same_partial (fs : List (Str × Field)) (hs : Struct fs) (ho : ∀ f ∈ fs, f.2 ≠ .other)
    (hi : ∀ f ∈ fs, ∀ v, f.2 = .int v → IntVal v) (hp : ∀ f ∈ fs, ∀ s, f.2 = .str s → ∀ c ∈ s, PlainChar c) :
    ∃ n m, decode n (stringify fs) = some m ∧ parseFields m fs = .ok fs := by
  obtain ⟨-, -, h1, h2⟩ := C123_partial fs hs ho hi
  refine ⟨fs.length + 1, _, h1 _ (Nat.lt_succ_self _), ?_⟩
  rw [h2]
  congr 1
  rw [List.map_congr_left (g := id), List.map_id]
  intro f hf
  obtain ⟨n, v⟩ := f
  cases v with
  | str s =>
    have := (escape_plain s).2 (hp _ hf s rfl)
    show (n, Field.str (s.flatMap escChar)) = (n, Field.str s)
    rw [this]
  | _ => rfl

example : Struct [(lit "name", .str (lit "Ann")), (lit "age", .int 5), (lit "ok", .bool true)] :=
  ⟨by decide +kernel, by unfold PlainChar; decide +kernel⟩
example : stringify [(lit "name", .str (lit "Ann")), (lit "age", .int 5)] = lit "{\"name\": \"Ann\", \"age\": 5}" := by
  decide +kernel

end Verif.Props

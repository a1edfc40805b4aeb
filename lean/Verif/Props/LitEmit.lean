import Verif.Model.LitEmit

/-! C129: values of string literals. -/
namespace Verif.Props
open Verif Verif.Str Verif.Lexer Verif.LitEmit

/-! The language: what a literal stands for. -/

/-- A piece of a string literal. -/
inductive Piece where
  | plain (c : Byte)
  | esc (c : Byte)
  | hex (a b : Byte)
  deriving DecidableEq

/-- The escape sequences of one character, and what they stand for. -/
def strEscs : List (Byte × Byte) :=
  [(110, 10), (116, 9), (114, 13), (92, 92), (34, 34), (39, 39), (48, 0), (97, 7), (98, 8), (102, 12), (118, 11), (36, 36)]

/-- The value of a hexadecimal digit. -/
def nibble (c : Byte) : Nat :=
  if c.toNat < 58 then c.toNat - 48 else if c.toNat < 71 then c.toNat - 55 else c.toNat - 87

def Piece.src : Piece → Str
  | plain c => [c]
  | esc c => [92, c]
  | hex a b => [92, 120, a, b]

def Piece.value : Piece → Byte
  | plain c => c
  | esc c => (strEscs.lookup c).getD 0
  | hex a b => BitVec.ofNat 8 (16 * nibble a + nibble b)

def Piece.Ok : Piece → Prop
  | plain c => c ∉ ([0, 10, 34, 92] : List Byte)
  | esc c => c ∈ strEscs.map (·.1)
  | hex a b => isXDigit a = true ∧ isXDigit b = true

/-- The content of a string literal. -/
def srcs (ps : List Piece) : Str := ps.flatMap Piece.src

/-- A literal, and its value: the pieces of an interpreted string without interpolation, or the text of a raw string. -/
inductive LitDenotes : Bool → Str → Str → Prop where
  | raw {t : Str} (h : 0 ∉ t ∧ 96 ∉ t) : LitDenotes true t t
  | str {ps : List Piece} (h : ∀ p ∈ ps, p.Ok) (hi : ¬ [Piece.plain 36, .plain 123] <:+: ps) :
      LitDenotes false (srcs ps) (ps.map Piece.value)

/-! The target: what a string literal of C11 (6.4.5, 6.4.4.4) stands for. -/

inductive CSt where
  | norm | esc | oct (n v : Nat) | hex (v : Option Nat) | gap

/-- The simple escape sequences of C. -/
def cEscs : List (Byte × Byte) :=
  [(97, 7), (98, 8), (102, 12), (110, 10), (114, 13), (116, 9), (118, 11), (39, 39), (34, 34), (63, 63), (92, 92)]

/-- A numeric escape sequence must fit in a byte. -/
def cNum (v : Nat) (r : Option Str) : Option Str := if v < 256 then r.map (BitVec.ofNat 8 v :: ·) else none

/-- A byte outside escape sequences, with what comes after it in each case. -/
def cByte (c : Byte) (e g n : Option Str) : Option Str :=
  if c = 92 then e else if c = 34 then g else if c = 10 then none else n.map (c :: ·)

/-- The bytes of a string literal, from its text between the first and the last quote. -/
def cDec : CSt → Str → Option Str
  | .norm, [] => some []
  | .norm, c :: r => cByte c (cDec .esc r) (cDec .gap r) (cDec .norm r)
  | .esc, [] => none
  | .esc, c :: r =>
    if 48 ≤ c.toNat ∧ c.toNat ≤ 55 then cDec (.oct 1 (c.toNat - 48)) r
    else if c = 120 then cDec (.hex none) r
    else match cEscs.lookup c with
      | some b => (cDec .norm r).map (b :: ·)
      | none => none
  | .oct _ v, [] => cNum v (some [])
  | .oct n v, c :: r =>
    if n < 3 ∧ 48 ≤ c.toNat ∧ c.toNat ≤ 55 then cDec (.oct (n + 1) (8 * v + (c.toNat - 48))) r
    else cNum v (cByte c (cDec .esc r) (cDec .gap r) (cDec .norm r))
  | .hex none, [] => none
  | .hex (some v), [] => cNum v (some [])
  | .hex none, c :: r => if isXDigit c then cDec (.hex (some (nibble c))) r else none
  | .hex (some v), c :: r =>
    if isXDigit c then cDec (.hex (some (16 * v + nibble c))) r
    else cNum v (cByte c (cDec .esc r) (cDec .gap r) (cDec .norm r))
  | .gap, [] => none
  | .gap, c :: r => if c = 32 then cDec .gap r else if c = 34 then cDec .norm r else none

/-- The string made from an array of these bytes and a 0 (runtime.h:80-96): with the length written, with `strlen`,
or with `sizeof`. Nothing if bytes after the array are read. -/
def made (top : Bool) (data : Str) : Option Nat → Option Str
  | some n => if n ≤ data.length + 1 then some ((data ++ [0]).take n) else none
  | none => some (if top then data else data.takeWhile (· != 0))

/-- What the program has for a literal. -/
def atRun (top raw : Bool) (s : Str) : Option Str :=
  (cDec .norm (emitString top raw s).1).bind fun d => made top d (emitString top raw s).2

/-- C129 as claimed: a string literal has the value it stands for, in a function and outside. -/
def C129_statement : Prop := ∀ top raw s v, LitDenotes raw s v → atRun top raw s = some v

/-- `\0` before an octal digit becomes one byte, `\\` before `$` an escape sequence that C does not have, and the
length written counts three for a hexadecimal escape: the string goes past its array. -/
theorem C129_witness : atRun true false (lit "\\01") = some [1] ∧ atRun false false (lit "\\\\$") = none ∧
    (emitString false false (lit "\\\\$")).1 = lit "\\$" ∧
    atRun false false (lit "\\0\\x41") = none ∧ emitString false false (lit "\\0\\x41") = (lit "\\0\\x41", some 4) := by
  decide +kernel

/-- In a function, a raw string with the text `\0` loses its end. -/
theorem C129_raw_witness : atRun false true (lit "a\\0bc") = some (lit "a\\0b") := by decide +kernel

theorem C129_fails : ¬ C129_statement := fun h => by
  have h1 := h false true (lit "a\\0bc") _ (.raw (by decide +kernel))
  rw [C129_raw_witness] at h1
  exact absurd h1 (by decide +kernel)

namespace LE

theorem dec_norm_plain {c : Byte} (h : c ∉ ([10, 34, 92] : List Byte)) (r : Str) :
    cDec .norm (c :: r) = (cDec .norm r).map (c :: ·) := by
  simp only [List.mem_cons, List.not_mem_nil, or_false, not_or] at h
  rw [cDec, cByte, if_neg h.2.2, if_neg h.2.1, if_neg h.1]

theorem dec_esc (r : Str) : cDec .norm (92 :: r) = cDec .esc r := rfl

theorem dec_simple {c b : Byte} (h : (c, b) ∈ cEscs) (r : Str) : cDec .esc (c :: r) = (cDec .norm r).map (b :: ·) := by
  have key : ∀ p ∈ cEscs, ¬ (48 ≤ p.1.toNat ∧ p.1.toNat ≤ 55) ∧ p.1 ≠ 120 ∧ cEscs.lookup p.1 = some p.2 := by decide +kernel
  obtain ⟨h1, h2, h3⟩ := key _ h
  rw [cDec, if_neg h1, if_neg h2, h3]

/-- The text does not start with such a byte. -/
def HeadNot (p : Byte → Prop) (t : Str) : Prop := ∀ c, t.head? = some c → ¬ p c

def isOct (c : Byte) : Prop := 48 ≤ c.toNat ∧ c.toNat ≤ 55

theorem dec_oct {t : Str} (h : HeadNot isOct t) : cDec (.oct 1 0) t = (cDec .norm t).map (0 :: ·) := by
  cases t with
  | nil => rfl
  | cons c r =>
    have e : cDec (.oct 1 0) (c :: r) = if 1 < 3 ∧ 48 ≤ c.toNat ∧ c.toNat ≤ 55 then cDec (.oct 2 (8 * 0 + (c.toNat - 48))) r
      else cNum 0 (cDec .norm (c :: r)) := rfl
    rw [e, if_neg (fun h1 => h c rfl h1.2)]
    rfl

theorem dec_hex {v : Nat} (hv : v < 256) {t : Str} (h : HeadNot (isXDigit · = true) t) :
    cDec (.hex (some v)) t = (cDec .norm t).map (BitVec.ofNat 8 v :: ·) := by
  cases t with
  | nil => exact if_pos hv
  | cons c r =>
    have e : cDec (.hex (some v)) (c :: r) = if isXDigit c = true then cDec (.hex (some (16 * v + nibble c))) r
      else cNum v (cDec .norm (c :: r)) := rfl
    rw [e, if_neg (h c rfl), cNum, if_pos hv]

/-- Steps of the emitter. -/
theorem emit_plain {c : Byte} (h : c ≠ 92) (s : Str) :
    emitPlain (c :: s) = (if c = 10 then [92, 110] else if c = 13 then [92, 114] else [c]) ++ emitPlain s := by
  rw [emitPlain]
  · intro _ _ h1; exact absurd h1 h
  · intro _ h1; exact absurd h1 h

theorem emit_back {s : Str} (h1 : s.head? ≠ some 36) (h2 : ∀ a, ¬ ([120, a] <+: s ∧ isXDigit a = true)) :
    emitPlain (92 :: s) = 92 :: emitPlain s := by
  cases s with
  | nil => rfl
  | cons c s =>
    by_cases hc : c = 120
    · subst hc
      cases s with
      | nil => rfl
      | cons a s =>
        have : ¬ isXDigit a = true := fun h => h2 a ⟨⟨s, rfl⟩, h⟩
        rw [emitPlain.eq_def]
        exact if_neg this
    · rw [emitPlain]
      · rfl
      · intro a r _ h; cases h; exact absurd rfl hc
      · intro r _ h; cases h; exact absurd rfl h1

theorem emit_hex {a b : Byte} (ha : isXDigit a = true) (hb : isXDigit b = true) (s : Str) :
    emitPlain (92 :: 120 :: a :: b :: s) = [92, 120, a, b] ++ (hexBreak s ++ emitPlain s) := by
  rw [emitPlain.eq_def]
  exact (if_pos ha).trans (if_pos hb)

theorem emit_hex1 {a : Byte} (ha : isXDigit a = true) {s : Str} (hs : HeadNot (isXDigit · = true) s) :
    emitPlain (92 :: 120 :: a :: s) = [92, 120, a] ++ emitPlain s := by
  rw [emitPlain.eq_def]
  refine (if_pos ha).trans ?_
  cases s with
  | nil => rfl
  | cons b s => exact if_neg (hs b rfl)

/-- What is emitted starts with no digit unless the text does. -/
theorem emit_head {p : Byte → Prop} (h92 : ¬ p 92) (h36 : ¬ p 36) {s : Str} (hs : HeadNot p s) : HeadNot p (emitPlain s) := by
  intro c hc
  cases s with
  | nil => cases hc
  | cons d s =>
    by_cases h : d = 92
    · subst h
      have : (emitPlain (92 :: s)).head? = some 92 ∨ (emitPlain (92 :: s)).head? = some 36 := by
        rw [emitPlain.eq_def]
        split
        · next h => cases h
        · next h =>
          cases h
          split
          · split
            · split <;> exact Or.inl rfl
            · exact Or.inl rfl
          · exact Or.inl rfl
        · exact Or.inr rfl
        · next h => cases h; exact Or.inl rfl
      rcases this with h | h <;> rw [h] at hc <;> cases hc
      · exact h92
      · exact h36
    · rw [emit_plain h] at hc
      by_cases h1 : d = 10
      · rw [if_pos h1] at hc; cases hc; exact h92
      · rw [if_neg h1] at hc
        by_cases h2 : d = 13
        · rw [if_pos h2] at hc; cases hc; exact h92
        · rw [if_neg h2] at hc; cases hc; exact hs _ rfl

/-- After a hexadecimal escape, or what looks like one, the literal is broken if needed. -/
theorem dec_break (s : Str) : cDec .norm (hexBreak s ++ emitPlain s) = cDec .norm (emitPlain s) ∧
    HeadNot (isXDigit · = true) (hexBreak s ++ emitPlain s) := by
  unfold hexBreak
  split
  · exact ⟨rfl, fun c hc => by cases hc; decide⟩
  · next h =>
    refine ⟨rfl, emit_head (by decide) (by decide) fun c hc => ?_⟩
    cases s with
    | nil => cases hc
    | cons d s => cases hc; exact h

theorem nibble_lt {a : Byte} (h : isXDigit a = true) : nibble a < 16 := by
  have k : ∀ n : Fin 256, isXDigit (BitVec.ofFin n : Byte) = true → nibble (BitVec.ofFin n : Byte) < 16 := by decide +kernel
  exact k a.toFin h

/-- The conditions of the theorem below: `\\` is not followed by `$`, and `\0` not by an octal digit. -/
def Apart : List Piece → Prop
  | [] => True
  | p :: ps => (∀ q, ps.head? = some q → ¬ (p = .esc 92 ∧ q = .plain 36) ∧ ∀ c, ¬ (p = .esc 48 ∧ q = .plain c ∧ isOct c)) ∧ Apart ps

theorem srcs_cons (p : Piece) (ps : List Piece) : srcs (p :: ps) = p.src ++ srcs ps := rfl

/-- The first byte of a text is a byte that stands for itself, or a backslash. -/
theorem srcs_head {ps : List Piece} {c : Byte} {s : Str} (h : srcs ps = c :: s) (hc : c ≠ 92) :
    ∃ qs, ps = .plain c :: qs ∧ s = srcs qs := by
  cases ps with
  | nil => cases h
  | cons p ps =>
    rw [srcs_cons] at h
    cases p with
    | plain d => cases h; exact ⟨ps, rfl, rfl⟩
    | esc d => cases h; exact absurd rfl hc
    | hex a b => cases h; exact absurd rfl hc

theorem xdigit_ne {a : Byte} (h : isXDigit a = true) : a ≠ 92 ∧ a ∉ ([10, 34, 92] : List Byte) := by
  have k : ∀ n : Fin 256, isXDigit (BitVec.ofFin n : Byte) = true → (BitVec.ofFin n : Byte) ≠ 92 ∧
    (BitVec.ofFin n : Byte) ∉ ([10, 34, 92] : List Byte) := by decide +kernel
  exact k a.toFin h

/-- The C text of a literal stands for its value; also after the first half of `\\`. -/
theorem dec_emit : ∀ (n : Nat) (ps : List Piece), ps.length ≤ n → (∀ p ∈ ps, p.Ok) → Apart ps →
    cDec .norm (emitPlain (srcs ps)) = some (ps.map Piece.value) ∧
    (ps.head? ≠ some (.plain 36) → cDec .esc (emitPlain (92 :: srcs ps)) = some (92 :: ps.map Piece.value))
  | 0, [], _, _, _ => ⟨rfl, fun _ => rfl⟩
  | 0, _ :: _, h, _, _ => by simp at h
  | n + 1, ps, hn, hok, ha => by
    have main : cDec .norm (emitPlain (srcs ps)) = some (ps.map Piece.value) := by
      cases ps with
      | nil => rfl
      | cons p ps =>
        rw [List.length_cons] at hn
        have hok' : ∀ q ∈ ps, q.Ok := fun q hq => hok q (List.mem_cons_of_mem _ hq)
        obtain ⟨ih1, ih2⟩ := dec_emit n ps (by omega) hok' ha.2
        have hp := hok p List.mem_cons_self
        rw [srcs_cons, List.map_cons]
        cases p with
        | plain c =>
          have hc : c ∉ ([0, 10, 34, 92] : List Byte) := hp
          simp only [List.mem_cons, List.not_mem_nil, or_false, not_or] at hc
          show cDec .norm (emitPlain (c :: srcs ps)) = _
          rw [emit_plain hc.2.2.2, if_neg hc.2.1]
          by_cases h13 : c = 13
          · rw [if_pos h13]
            show cDec .esc (114 :: emitPlain (srcs ps)) = _
            rw [dec_simple (b := 13) (by decide), ih1, h13]; rfl
          · rw [if_neg h13]
            show cDec .norm (c :: emitPlain (srcs ps)) = _
            rw [dec_norm_plain (by simp only [List.mem_cons, List.not_mem_nil, or_false, not_or]; exact hc.2), ih1]; rfl
        | hex a b =>
          show cDec .norm (emitPlain (92 :: 120 :: a :: b :: srcs ps)) = _
          rw [emit_hex hp.1 hp.2]
          obtain ⟨h1, h2⟩ := dec_break (srcs ps)
          have e : ∀ t, cDec .norm ([92, 120, a, b] ++ t) = cDec (.hex (some (16 * nibble a + nibble b))) t := fun t => by
            show (if isXDigit a = true then (if isXDigit b = true then _ else _) else none) = _
            rw [if_pos hp.1, if_pos hp.2]; rfl
          have := nibble_lt hp.1
          have := nibble_lt hp.2
          rw [e, dec_hex (by omega) h2, h1, ih1]; rfl
        | esc c =>
          have hp : c ∈ strEscs.map (·.1) := hp
          show cDec .norm (emitPlain (92 :: c :: srcs ps)) = _
          by_cases h36 : c = 36
          · subst h36
            show cDec .norm (36 :: emitPlain (srcs ps)) = _
            rw [dec_norm_plain (by decide), ih1]; rfl
          · have h120 : c ≠ 120 := by rintro rfl; exact absurd hp (by decide)
            rw [emit_back (fun h => h36 (by cases h; rfl)) (fun a h => by
              obtain ⟨⟨u, hu⟩, -⟩ := h
              exact h120 (List.cons.inj hu).1.symm), dec_esc]
            by_cases h92 : c = 92
            · subst h92
              rw [ih2 (fun h => (ha.1 _ h).1 ⟨rfl, rfl⟩)]; rfl
            · have h1013 : c ≠ 10 ∧ c ≠ 13 := by
                constructor <;> (rintro rfl; exact absurd hp (by decide))
              rw [emit_plain h92, if_neg h1013.1, if_neg h1013.2]
              show cDec .esc (c :: emitPlain (srcs ps)) = _
              by_cases h48 : c = 48
              · subst h48
                show cDec (.oct 1 0) (emitPlain (srcs ps)) = _
                rw [dec_oct, ih1]
                · rfl
                · refine emit_head (by unfold isOct; decide) (by unfold isOct; decide) fun d hd ho => ?_
                  obtain ⟨s, hs⟩ : ∃ s, srcs ps = d :: s := by
                    cases hs : srcs ps with
                    | nil => rw [hs] at hd; cases hd
                    | cons x s => rw [hs] at hd; cases hd; exact ⟨s, rfl⟩
                  obtain ⟨qs, rfl, -⟩ := srcs_head hs (by rintro rfl; exact absurd ho (by unfold isOct; decide))
                  exact (ha.1 _ rfl).2 d ⟨rfl, rfl, ho⟩
              · have key : ∀ x ∈ strEscs.map (·.1), x ≠ 36 → x ≠ 92 → x ≠ 48 → (x, (Piece.esc x).value) ∈ cEscs := by
                  decide +kernel
                rw [dec_simple (key c hp h36 h92 h48), ih1]; rfl
    refine ⟨main, fun h36 => ?_⟩
    by_cases hx : ∃ a s, srcs ps = 120 :: a :: s ∧ isXDigit a = true
    · obtain ⟨a, s, hs, hax⟩ := hx
      obtain ⟨qs, rfl, hq⟩ := srcs_head hs (by decide)
      obtain ⟨rs, rfl, hr⟩ := srcs_head hq.symm (xdigit_ne hax).1
      simp only [List.length_cons] at hn
      have okr : ∀ q ∈ rs, q.Ok := fun q hq => hok q (by simp [hq])
      obtain ⟨ih1, -⟩ := dec_emit n rs (by omega) okr ha.2.2
      rw [hs]
      subst hr
      by_cases hb : ∃ b t, srcs rs = b :: t ∧ isXDigit b = true
      · obtain ⟨b, t, ht, hbx⟩ := hb
        obtain ⟨us, rfl, hu⟩ := srcs_head ht (xdigit_ne hbx).1
        simp only [List.length_cons] at hn
        obtain ⟨ih1, -⟩ := dec_emit n us (by omega) (fun q hq => okr q (by simp [hq])) ha.2.2.2
        rw [ht, emit_hex hax hbx]
        show cDec .esc (92 :: 120 :: a :: b :: (hexBreak t ++ emitPlain t)) = _
        rw [dec_simple (b := 92) (by decide), dec_norm_plain (by decide), dec_norm_plain (xdigit_ne hax).2,
          dec_norm_plain (xdigit_ne hbx).2, (dec_break t).1, hu, ih1]
        rfl
      · rw [emit_hex1 hax (fun b hb' h => hb (by
          cases hs : srcs rs with
          | nil => rw [hs] at hb'; cases hb'
          | cons x s => rw [hs] at hb'; cases hb'; exact ⟨_, _, rfl, h⟩))]
        show cDec .esc (92 :: 120 :: a :: emitPlain (srcs rs)) = _
        rw [dec_simple (b := 92) (by decide), dec_norm_plain (by decide), dec_norm_plain (xdigit_ne hax).2, ih1]
        rfl
    · rw [emit_back]
      · rw [dec_simple (b := 92) (by decide), main]; rfl
      · intro h
        obtain ⟨s, hs⟩ : ∃ s, srcs ps = 36 :: s := by
          cases hs : srcs ps with
          | nil => rw [hs] at h; cases h
          | cons x s => rw [hs] at h; cases h; exact ⟨s, rfl⟩
        obtain ⟨qs, rfl, -⟩ := srcs_head hs (by decide)
        exact h36 rfl
      · rintro a ⟨⟨u, hu⟩, h⟩
        exact hx ⟨a, u, hu.symm, h⟩

/-- A null byte in the text of the literal. -/
def isNull (p : Piece) : Bool := p == .esc 48 || p == .hex 48 48

theorem scan_plain {c : Byte} (h : c ≠ 92) (s : Str) : scan (c :: s) = ((scan s).1, (scan s).2 + 1) := by
  rw [scan]
  · intro _ h1; exact absurd h1 h
  · intro _ h1; exact absurd h1 h
  · intro _ _ h1; exact absurd h1 h

theorem scan_pair {c : Byte} {s : Str} (h1 : c ≠ 48) (h2 : ¬ [120, 48, 48] <+: c :: s) :
    scan (92 :: c :: s) = ((scan s).1, (scan s).2 + 1) := by
  rw [scan.eq_def]
  split
  · next h => cases h
  · next h =>
    simp only [List.cons.injEq, true_and] at h
    exact absurd ⟨_, by rw [h.2.1, h.2.2]; rfl⟩ h2
  · next h =>
    simp only [List.cons.injEq, true_and] at h
    exact absurd h.2.1 h1
  · next h => cases h; rfl
  · next hn h => cases h; exact absurd rfl (hn _ _ rfl)

/-- The scan finds the null bytes; it counts one byte for each piece if no hexadecimal escape is another one. -/
theorem scan_srcs : ∀ ps : List Piece, (∀ p ∈ ps, p.Ok) → (scan (srcs ps)).1 = ps.any isNull ∧
    ((∀ a b, Piece.hex a b ∈ ps → a = 48 ∧ b = 48) → (scan (srcs ps)).2 = ps.length)
  | [], _ => ⟨rfl, fun _ => rfl⟩
  | p :: ps, h => by
    obtain ⟨ih1, ih2⟩ := scan_srcs ps fun q hq => h q (List.mem_cons_of_mem _ hq)
    have hp := h p List.mem_cons_self
    have ih2 : (∀ a b, Piece.hex a b ∈ p :: ps → a = 48 ∧ b = 48) → (scan (srcs ps)).2 = ps.length :=
      fun hh => ih2 fun a b hab => hh a b (List.mem_cons_of_mem _ hab)
    rw [srcs_cons, List.any_cons, List.length_cons]
    cases p with
    | plain c =>
      have hc : c ≠ 92 := by rintro rfl; exact absurd hp (by unfold Piece.Ok; decide)
      show (scan (c :: srcs ps)).1 = _ ∧ (_ → (scan (c :: srcs ps)).2 = _)
      rw [scan_plain hc]
      exact ⟨by rw [ih1]; rfl, fun hh => by rw [ih2 hh]⟩
    | esc c =>
      have hc : c ≠ 120 := by rintro rfl; exact absurd hp (by unfold Piece.Ok; decide)
      show (scan (92 :: c :: srcs ps)).1 = _ ∧ (_ → (scan (92 :: c :: srcs ps)).2 = _)
      by_cases h48 : c = 48
      · subst h48
        exact ⟨rfl, fun hh => congrArg (· + 1) (ih2 hh)⟩
      · have e : scan (92 :: c :: srcs ps) = ((scan (srcs ps)).1, (scan (srcs ps)).2 + 1) :=
          scan_pair h48 fun ⟨u, hu⟩ => hc (List.cons.inj hu).1.symm
        rw [e]
        refine ⟨?_, fun hh => by rw [ih2 hh]⟩
        rw [ih1]
        have : isNull (.esc c) = false := by
          simp [isNull]
          exact h48
        rw [this]; rfl
    | hex a b =>
      show (scan (92 :: 120 :: a :: b :: srcs ps)).1 = _ ∧ (_ → (scan (92 :: 120 :: a :: b :: srcs ps)).2 = _)
      by_cases hab : a = 48 ∧ b = 48
      · obtain ⟨rfl, rfl⟩ := hab
        exact ⟨rfl, fun hh => congrArg (· + 1) (ih2 hh)⟩
      · refine ⟨?_, fun hh => absurd (hh a b List.mem_cons_self) hab⟩
        have e : scan (92 :: 120 :: a :: b :: srcs ps) = ((scan (a :: b :: srcs ps)).1, (scan (a :: b :: srcs ps)).2 + 1) :=
          scan_pair (by decide) fun ⟨u, hu⟩ => by
            simp only [List.cons_append, List.cons.injEq, true_and] at hu
            exact hab ⟨hu.1.symm, hu.2.1.symm⟩
        rw [e, scan_plain (xdigit_ne hp.1).1, scan_plain (xdigit_ne hp.2).1, ih1]
        have : isNull (.hex a b) = false := by
          simp [isNull]
          intro h1 h2; exact hab ⟨h1, h2⟩
        rw [this]; rfl

theorem value_zero {p : Piece} (h : p.Ok) : p.value = 0 ↔ isNull p = true := by
  cases p with
  | plain c =>
    have hc : c ≠ 0 := by rintro rfl; exact absurd h (by unfold Piece.Ok; decide)
    simp [Piece.value, isNull]
    exact hc
  | esc c =>
    have key : ∀ x ∈ strEscs.map (·.1), (Piece.esc x).value = 0 ↔ isNull (.esc x) = true := by decide +kernel
    exact key c h
  | hex a b =>
    have k : ∀ n : Fin 256, isXDigit (BitVec.ofFin n : Byte) = true → (nibble (BitVec.ofFin n : Byte) = 0 ↔ (BitVec.ofFin n : Byte) = 48) := by
      decide +kernel
    have h1 : nibble a = 0 ↔ a = 48 := k a.toFin h.1
    have h2 : nibble b = 0 ↔ b = 48 := k b.toFin h.2
    have l1 := nibble_lt h.1
    have l2 := nibble_lt h.2
    have e : (BitVec.ofNat 8 (16 * nibble a + nibble b) = 0) ↔ 16 * nibble a + nibble b = 0 := by
      constructor
      · intro h
        have := congrArg BitVec.toNat h
        rw [BitVec.toNat_ofNat, Nat.mod_eq_of_lt (by omega)] at this
        exact this
      · intro h; rw [h]; rfl
    show BitVec.ofNat 8 (16 * nibble a + nibble b) = 0 ↔ _
    rw [e, show (isNull (.hex a b) = true) ↔ (a = 48 ∧ b = 48) by simp [isNull], ← h1, ← h2]
    omega

theorem dec_raw : ∀ t : Str, cDec .norm (emitRaw t) = some t
  | [] => rfl
  | c :: t => by
    have ih := dec_raw t
    have e : emitRaw (c :: t) = (if c = 92 then [92, 92] else if c = 34 then [92, 34] else if c = 10 then [92, 110]
      else if c = 13 then [92, 114] else if c = 9 then [92, 116] else [c]) ++ emitRaw t := rfl
    have s : ∀ {x b : Byte}, (x, b) ∈ cEscs → cDec .norm ([92, x] ++ emitRaw t) = some (b :: t) := fun {x b} h => by
      show cDec .esc (x :: emitRaw t) = _
      rw [dec_simple h, ih]; rfl
    rw [e]
    by_cases h1 : c = 92
    · rw [if_pos h1, h1]; exact s (by decide)
    by_cases h2 : c = 34
    · rw [if_neg h1, if_pos h2, h2]; exact s (by decide)
    by_cases h3 : c = 10
    · rw [if_neg h1, if_neg h2, if_pos h3, h3]; exact s (by decide)
    by_cases h4 : c = 13
    · rw [if_neg h1, if_neg h2, if_neg h3, if_pos h4, h4]; exact s (by decide)
    by_cases h5 : c = 9
    · rw [if_neg h1, if_neg h2, if_neg h3, if_neg h4, if_pos h5, h5]; exact s (by decide)
    · rw [if_neg h1, if_neg h2, if_neg h3, if_neg h4, if_neg h5]
      show cDec .norm (c :: emitRaw t) = _
      rw [dec_norm_plain (by simp only [List.mem_cons, List.not_mem_nil, or_false, not_or]; exact ⟨h3, h2, h1⟩), ih]
      rfl

theorem infix_tail {p t : Str} {c : Byte} (h : ¬ p <:+: c :: t) : ¬ p <:+: t :=
  fun h1 => h (h1.trans (List.suffix_cons c t).isInfix)

theorem scan_none : ∀ (n : Nat) (t : Str), t.length ≤ n → ¬ [92, 48] <:+: t → ¬ [92, 120, 48, 48] <:+: t → (scan t).1 = false
  | _, [], _, _, _ => rfl
  | 0, _ :: _, h, _, _ => by simp at h
  | n + 1, c :: t, h, h1, h2 => by
    rw [List.length_cons] at h
    rw [scan.eq_def]
    split
    · next h => cases h
    · next h => cases h; exact absurd ⟨[], _, rfl⟩ h2
    · next h => cases h; exact absurd ⟨[], _, rfl⟩ h1
    · next x r _ _ e =>
      cases e
      rw [List.length_cons] at h
      exact scan_none n r (by omega) (infix_tail (infix_tail h1)) (infix_tail (infix_tail h2))
    · next e => cases e; exact scan_none n t (by omega) (infix_tail h1) (infix_tail h2)

theorem takeWhile_nz {v : Str} (h : 0 ∉ v) : v.takeWhile (· != 0) = v := by
  induction v with
  | nil => rfl
  | cons c v ih =>
    simp only [List.mem_cons, not_or] at h
    rw [List.takeWhile_cons_of_pos (by simpa using fun e : c = 0 => h.1 e.symm), ih h.2]

end LE

/-- What holds for interpreted strings: outside functions every literal has its value in which `\\` is not directly followed
by `$` and `\0` not by an octal digit; in a function also if it has no null byte, or no hexadecimal escape but
`\x00`. What is missing: the other literals. -/
theorem C129_partial (top : Bool) (ps : List Piece) (h : ∀ p ∈ ps, p.Ok) (ha : LE.Apart ps)
    (hn : top = true ∨ (∀ p ∈ ps, p.value ≠ 0) ∨ ∀ a b, Piece.hex a b ∈ ps → a = 48 ∧ b = 48) :
    atRun top false (srcs ps) = some (ps.map Piece.value) := by
  unfold atRun emitString
  obtain ⟨h1, h2⟩ := LE.scan_srcs ps h
  dsimp only
  rw [if_neg (by decide), (LE.dec_emit _ ps (Nat.le_refl _) h ha).1, h1, Option.bind_some]
  cases top with
  | true => rw [Bool.not_true, Bool.and_false, if_neg (by decide)]; rfl
  | false =>
    rw [Bool.not_false, Bool.and_true]
    by_cases hz : ps.any LE.isNull = true
    · rw [if_pos hz, made]
      have hl : (scan (srcs ps)).2 = ps.length := h2 (by
        rcases hn with hn | hn | hn
        · cases hn
        · obtain ⟨p, hp, hpn⟩ := List.any_eq_true.1 hz
          exact absurd ((LE.value_zero (h p hp)).2 hpn) (hn p hp)
        · exact hn)
      rw [hl, List.length_map, if_pos (by omega), List.take_left' (by simp)]
    · rw [if_neg hz, made, if_neg (by decide), LE.takeWhile_nz]
      intro h0
      obtain ⟨p, hp, hv⟩ := List.mem_map.1 h0
      exact hz (List.any_eq_true.2 ⟨p, hp, (LE.value_zero (h p hp)).1 hv⟩)

/-- What holds for raw strings: outside functions all of them have their value; in a function those without the
texts `\0` and `\x00`. -/
theorem C129_raw_partial (top : Bool) (t : Str) (h0 : 0 ∉ t)
    (hn : top = true ∨ (¬ [92, 48] <:+: t ∧ ¬ [92, 120, 48, 48] <:+: t)) : atRun top true t = some t := by
  unfold atRun emitString
  dsimp only
  rw [if_pos rfl, LE.dec_raw, Option.bind_some]
  cases top with
  | true => rw [Bool.not_true, Bool.and_false, if_neg (by decide)]; rfl
  | false =>
    obtain ⟨h1, h2⟩ := hn.resolve_left (by decide)
    rw [LE.scan_none _ t (Nat.le_refl _) h1 h2, Bool.false_and, if_neg (by decide), made, if_neg (by decide), LE.takeWhile_nz h0]

example : srcs [.plain 97, .esc 92, .plain 120, .plain 52, .plain 49, .plain 66, .esc 48, .hex 48 48, .esc 36] =
      lit "a\\\\x41B\\0\\x00\\$" ∧
    atRun false false (lit "a\\\\x41B\\0\\x00\\$") = some ([97, 92, 120, 52, 49, 66, 0, 0, 36]) := by decide +kernel

example : atRun false true (lit "C:\\Users\\test\n\"x\"") = some (lit "C:\\Users\\test\n\"x\"") := by decide +kernel

end Verif.Props

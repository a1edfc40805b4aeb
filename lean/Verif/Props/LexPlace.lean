import Verif.Props.Lexer
import Mathlib.Data.List.Induction

/-! C126: lines and columns of tokens. -/
namespace Verif.Props
open Verif Verif.Str Verif.Lexer

/-- The line terminators of STANDARD 2.2 in a text: LF, CR, and CR LF as one. -/
def lineEnds : Str → Nat
  | [] => 0
  | 13 :: 10 :: r => 1 + lineEnds r
  | 13 :: r => 1 + lineEnds r
  | 10 :: r => 1 + lineEnds r
  | _ :: r => lineEnds r

/-- The bytes after the last line terminator. -/
def lastLine (p : Str) : Str := (p.reverse.takeWhile fun c => c != 10 && c != 13).reverse

/-- C126 as claimed: the line of a token is one more than the number of lines ended before it, its column one
more than the number of bytes before it on its line. -/
def C126_statement : Prop :=
  ∀ src ts, lex src = some ts → ∀ t ∈ ts,
    t.place src = (1 + lineEnds (src.take (src.length - t.left)), 1 + (lastLine (src.take (src.length - t.left))).length)

/-- A carriage return alone ends no line. -/
theorem C126_witness : (lex (lit "a\rb")).map (·.map fun t => (t.text, t.place (lit "a\rb"))) =
    some [(lit "a", 1, 1), (lit "b", 1, 3), ([], 1, 4)] := by decide +kernel

/-- It does not end a comment either: the declaration in the second line is lost. -/
theorem C126_comment_witness : (lex (lit "// a\rmut x int")).map (·.map fun t => t.kind) = some [.eof] := by decide +kernel

theorem C126_fails : ¬ C126_statement := fun h => by
  have h1 := h (lit "a\rb") [⟨.ident, lit "a", false, 3⟩, ⟨.ident, lit "b", true, 1⟩, ⟨.eof, [], false, 0⟩] (by decide +kernel)
    ⟨.ident, lit "b", true, 1⟩ (by simp)
  exact absurd h1 (by decide +kernel)

namespace Lx

theorem next_left (s : Str) : (next s).1.left = 0 ∨ ∃ c r, c :: r <:+ s ∧ (c :: r).length = (next s).1.left ∧ isWs c = false := by
  unfold next
  cases h : skip (s.length + 1) s with
  | none => exact Or.inl rfl
  | some t =>
    cases t with
    | nil => exact Or.inl rfl
    | cons c r =>
      obtain ⟨h1, h2⟩ := skip_spec _ s _ (Nat.lt_succ_self _) h
      exact Or.inr ⟨c, r, h1, rfl, h2.1 c rfl⟩

theorem lex_left : ∀ (f : Nat) (s : Str) (ts : List Tok), lexLoop f s = some ts → ∀ t ∈ ts,
    t.left = 0 ∨ ∃ c r, c :: r <:+ s ∧ (c :: r).length = t.left ∧ isWs c = false
  | 0, s, ts, h => nomatch h
  | f + 1, s, ts, h => by
    rw [lexLoop] at h
    split at h
    · cases h
      intro t ht
      rw [List.mem_singleton.1 ht]
      exact next_left s
    · split at h
      · cases h
      · next us hu =>
        cases h
        intro t ht
        rcases List.mem_cons.1 ht with rfl | ht
        · exact next_left s
        · rcases lex_left f _ us hu t ht with h | ⟨c, r, h1, h2⟩
          · exact Or.inl h
          · exact Or.inr ⟨c, r, h1.trans (next_suffix s).1, h2⟩

theorem place_snoc (p : Str) (c : Byte) : place (p ++ [c]) = if c = 10 then ((place p).1 + 1, 0) else ((place p).1, (place p).2 + 1) := by
  rw [place, List.foldl_append]; rfl

theorem lastLine_snoc (p : Str) (c : Byte) : lastLine (p ++ [c]) = if c = 10 ∨ c = 13 then [] else lastLine p ++ [c] := by
  unfold lastLine
  rw [List.reverse_append, List.reverse_singleton, List.singleton_append]
  split
  · next h => rw [List.takeWhile_cons_of_neg (by rcases h with rfl | rfl <;> decide)]; rfl
  · next h => rw [List.takeWhile_cons_of_pos (by simpa using h)]; simp

theorem lineEnds_cons {c : Byte} (r : Str) (h : c ≠ 13) : lineEnds (c :: r) = (if c = 10 then 1 else 0) + lineEnds r := by
  by_cases h1 : c = 10
  · subst h1; rfl
  · rw [lineEnds, if_neg h1]
    · omega
    · intro _ h2; exact absurd h2 h
    · exact h
    · exact h1

/-- Every carriage return is followed by a line feed. -/
def Crlf (s : Str) : Prop := ∀ p r, s = p ++ 13 :: r → ∃ u, r = 10 :: u

theorem Crlf.tail {c : Byte} {s : Str} (h : Crlf (c :: s)) : Crlf s := fun p r e => h (c :: p) r (by rw [e]; rfl)

theorem lineEnds_count : ∀ (n : Nat) (p : Str), p.length ≤ n → Crlf p → lineEnds p = p.count 10
  | _, [], _, _ => rfl
  | 0, c :: p, h, _ => by simp at h
  | n + 1, c :: p, h, hc => by
    rw [List.length_cons] at h
    by_cases h1 : c = 13
    · subst h1
      obtain ⟨u, rfl⟩ := hc [] p rfl
      rw [show lineEnds (13 :: 10 :: u) = 1 + lineEnds u from rfl, lineEnds_count n u (by rw [List.length_cons] at h; omega) hc.tail.tail]
      rw [List.count_cons_of_ne (by decide), List.count_cons_self]
      omega
    · rw [lineEnds_cons _ h1, lineEnds_count n p (by omega) hc.tail, List.count_cons]
      by_cases h2 : c = 10 <;> simp [h2, Nat.add_comm]

theorem place_count : ∀ p : Str, (place p).1 = 1 + p.count 10 := by
  intro p
  induction p using List.reverseRecOn with
  | nil => rfl
  | append_singleton p c ih =>
    rw [place_snoc, List.count_append, List.count_singleton]
    by_cases h : c = 10
    · rw [if_pos h, ih]; simp [h]; omega
    · rw [if_neg h, ih, if_neg (by simpa using h)]; rfl

theorem place_col : ∀ p : Str, Crlf p → (place p).2 = (lastLine p).length := by
  intro p
  induction p using List.reverseRecOn with
  | nil => intro _; rfl
  | append_singleton p c ih =>
    intro h
    have h13 : c ≠ 13 := by
      rintro rfl
      obtain ⟨u, hu⟩ := h p [] rfl
      cases hu
    rw [place_snoc, lastLine_snoc]
    by_cases h1 : c = 10
    · rw [if_pos h1, if_pos (Or.inl h1)]; rfl
    · rw [if_neg h1, if_neg (not_or.2 ⟨h1, h13⟩)]
      have hp : Crlf p := fun q r e => by
        obtain ⟨u, hu⟩ := h q (r ++ [c]) (by rw [e]; simp)
        cases r with
        | nil => cases hu; exact absurd rfl h1
        | cons d r => cases hu; exact ⟨r, rfl⟩
      rw [ih hp, List.length_append]
      rfl

end Lx

/-- What holds: in a text where every carriage return is followed by a line feed, lines and columns are right.
What is missing: carriage returns alone. -/
theorem C126_partial (src : Str) (hc : Lx.Crlf src) (ts : List Tok) (h : lex src = some ts) (t : Tok) (ht : t ∈ ts) :
    t.place src = (1 + lineEnds (src.take (src.length - t.left)), 1 + (lastLine (src.take (src.length - t.left))).length) := by
  unfold Tok.place
  rcases Lx.lex_left _ _ _ h t ht with h0 | ⟨c, r, ⟨p, rfl⟩, h1, h2⟩
  · rw [if_pos h0, h0, Nat.sub_zero, List.take_length, Lx.place_count, Lx.place_col src hc,
      Lx.lineEnds_count _ src (Nat.le_refl _) hc, Nat.add_comm (List.length _)]
  · rw [List.length_cons] at h1
    have e : (p ++ c :: r).length - t.left = p.length := by
      rw [← h1, List.length_append, List.length_cons]; omega
    have kw : ∀ n : Fin 256, isWs (BitVec.ofFin n : Byte) = false → (BitVec.ofFin n : Byte) ≠ 10 := by decide +kernel
    have h10 : c ≠ 10 := kw c.toFin h2
    have hp : Lx.Crlf p := fun q s e => by
      obtain ⟨u, hu⟩ := hc q (s ++ c :: r) (by rw [e]; simp)
      cases s with
      | nil => cases hu; exact absurd rfl h10
      | cons d s => cases hu; exact ⟨s, rfl⟩
    have e1 : (p ++ c :: r).take p.length = p := List.take_left' rfl
    have e2 : (p ++ c :: r).take (p.length + 1) = p ++ [c] := by
      rw [show p ++ c :: r = p ++ [c] ++ r by simp]; exact List.take_left' (by simp)
    rw [if_neg (by omega), e, e1, e2, Lx.place_snoc, if_neg h10, Lx.place_count, Lx.place_col p hp,
      Lx.lineEnds_count _ p (Nat.le_refl _) hp, Nat.add_comm (List.length _)]

example : (lex (lit "a\r\n  b")).map (·.map fun t => (t.text, t.place (lit "a\r\n  b"))) =
    some [(lit "a", 1, 1), (lit "b", 2, 3), ([], 2, 4)] := by decide +kernel

end Verif.Props

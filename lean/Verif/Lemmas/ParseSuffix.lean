import Verif.Model.Parser

/-! The expression parser gives a suffix of the tokens that it gets. -/

namespace Verif.Ps
open Verif Verif.Str Verif.Lexer Verif.Parser

theorem tl {a b : List Tok} (h : a <:+ b.tail) : a <:+ b := h.trans (List.tail_suffix b)

theorem dots_suffix : ∀ (n : Nat) (e : Expr) (ts : List Tok), ts.length ≤ n → (dots e ts).2 <:+ ts := by
  intro n
  induction n with
  | zero =>
    intro e ts h
    cases ts with
    | nil => simp [dots]
    | cons => simp at h
  | succ n ih =>
    intro e ts h
    match ts with
    | [] => simp [dots]
    | [t] => rw [dots]; split <;> simp
    | t :: u :: r =>
      rw [dots]
      split
      · exact tl (tl (ih _ r (by simp at h; omega)))
      · exact List.suffix_rfl

theorem readType_suffix (ts : List Tok) : (readType ts).2 <:+ ts := by
  rw [readType]
  split
  · exact List.tail_suffix _
  · split
    · exact tl (tl (List.tail_suffix _))
    · exact List.tail_suffix _

theorem expecting_suffix {k : Kind} {e e' : Expr} {s : Bool × List Tok} {n : Bool} {r ts : List Tok}
    (h : expecting k e s = some (e', n, r)) (hs : s.2 <:+ ts) : r <:+ ts := by
  rw [expecting] at h
  split at h
  · cases h
    exact (List.tail_suffix _).trans hs
  · cases h

theorem ite_suffix {p : Prop} [Decidable p] {a b ts : List Tok} (h : a <:+ ts) (h' : b <:+ ts) : (if p then a else b) <:+ ts := by
  split
  · exact h
  · exact h'

local macro "fin" : tactic => `(tactic| first
  | exact List.suffix_rfl
  | exact List.tail_suffix _
  | exact tl (List.tail_suffix _)
  | exact tl (tl (List.tail_suffix _))
  | exact tl (tl (tl (List.tail_suffix _))))

theorem suffixes (names : List Str) : ∀ f : Nat,
    (∀ {p d n ts e n' r}, expr names f p d n ts = some (e, n', r) → r <:+ ts) ∧
    (∀ {p d n l ts e n' r}, loop names f p d n l ts = some (e, n', r) → r <:+ ts) ∧
    (∀ {d n ts e n' r}, prefixE names f d n ts = some (e, n', r) → r <:+ ts) ∧
    (∀ {d n s acc ts e n' r}, fields names f d n s acc ts = some (e, n', r) → r <:+ ts) ∧
    (∀ {d n ts e n' r}, braces names f d n ts = some (e, n', r) → r <:+ ts) ∧
    (∀ {d n acc ts e n' r}, pairs names f d n acc ts = some (e, n', r) → r <:+ ts) ∧
    (∀ {d n acc ts e n' r}, elems names f d n acc ts = some (e, n', r) → r <:+ ts) ∧
    (∀ {d n l ts e n' r}, infixE names f d n l ts = some (e, n', r) → r <:+ ts) ∧
    (∀ {d n l acc ts e n' r}, args names f d n l acc ts = some (e, n', r) → r <:+ ts) := by
  intro f
  induction f with
  | zero =>
    refine ⟨?_, ?_, ?_, ?_, ?_, ?_, ?_, ?_, ?_⟩ <;> intros <;> rename_i h
    · rw [expr] at h; cases h
    · rw [loop] at h; cases h
    · rw [prefixE] at h; cases h
    · rw [fields] at h; cases h
    · rw [braces] at h; cases h
    · rw [pairs] at h; cases h
    · rw [elems] at h; cases h
    · rw [infixE] at h; cases h
    · rw [args] at h; cases h
  | succ f ih =>
    obtain ⟨he, hl, hp, hfi, hb, hpa, hel, hi, ha⟩ := ih
    refine ⟨?_, ?_, ?_, ?_, ?_, ?_, ?_, ?_, ?_⟩ <;> intros <;> rename_i h
    · rw [expr] at h
      split at h
      · cases h
      · split at h
        · cases h
        · rename_i h1
          exact (hl h).trans (hp h1)
    · rw [loop] at h
      split at h
      · split at h
        · cases h
        · rename_i h1
          exact (hl h).trans (hi h1)
      · cases h; fin
    · rename_i ts _ _ _
      rw [prefixE] at h
      by_cases c : kindAt ts = .ident
      · rw [if_pos c] at h
        split at h
        · exact tl (tl (tl (tl (hfi h))))
        · split at h
          · exact tl (tl (hfi h))
          · cases h; fin
      rw [if_neg c] at h
      by_cases c : isLeaf (kindAt ts) = true
      · rw [if_pos c] at h
        cases h; fin
      rw [if_neg c] at h
      by_cases c : isPrefix (kindAt ts) = true
      · rw [if_pos c] at h
        split at h
        · cases h
        · rename_i h1
          cases h
          exact tl (he h1)
      rw [if_neg c] at h
      by_cases c : kindAt ts = sy "."
      · rw [if_pos c] at h
        split at h
        · cases h; fin
        · cases h
      rw [if_neg c] at h
      by_cases c : kindAt ts = sy "("
      · rw [if_pos c] at h
        split at h
        · split at h
          · cases h
            exact tl (tl (tl (dots_suffix _ _ _ (Nat.le_refl _))))
          · cases h
        · split at h
          · cases h
          · rename_i h1
            exact expecting_suffix h (tl (he h1))
      rw [if_neg c] at h
      by_cases c : kindAt ts = sy "{"
      · rw [if_pos c] at h
        exact tl (hb h)
      rw [if_neg c] at h
      by_cases c : kindAt ts = sy "cast"
      · rw [if_pos c] at h
        split at h
        · split at h
          · cases h
          · rename_i h1
            have h1 := tl (tl (he h1))
            split at h
            · split at h
              · split at h
                · exact expecting_suffix h (List.IsSuffix.trans (by fin) h1)
                · cases h
              · exact expecting_suffix h (List.IsSuffix.trans (by fin) h1)
            · cases h
        · cases h
      rw [if_neg c] at h
      by_cases c : kindAt ts = sy "new"
      · rw [if_pos c] at h
        split at h
        · exact expecting_suffix h (tl (tl (readType_suffix _)))
        · cases h
      rw [if_neg c] at h
      by_cases c : kindAt ts = sy "range"
      · rw [if_pos c] at h
        split at h
        · split at h
          · cases h
          · rename_i h1
            have h1 := tl (tl (he h1))
            split at h
            · split at h
              · cases h
              · rename_i h2
                have h2 := (tl (he h2)).trans h1
                split at h
                · split at h
                  · cases h
                  · rename_i h3
                    exact expecting_suffix h ((tl (he h3)).trans h2)
                · exact expecting_suffix h h2
            · exact expecting_suffix h h1
        · cases h
      · rw [if_neg c] at h
        cases h
    · rw [fields] at h
      split at h
      · cases h; fin
      · split at h
        · split at h
          · cases h
          · rename_i h1
            refine ((hfi h).trans ?_).trans (tl (tl (he h1)))
            split <;> fin
        · cases h
    · rw [braces] at h
      split at h
      · cases h; fin
      · split at h
        · cases h; fin
        · split at h
          · cases h
          · split at h
            · cases h
            · rename_i h1
              split at h
              · split at h
                · cases h
                · rename_i h2
                  exact ((hpa h).trans (tl (he h2))).trans (he h1)
              · exact (hel h).trans (he h1)
    · rw [pairs] at h
      split at h
      · split at h
        · cases h
          split <;> fin
        · split at h
          · cases h
          · rename_i h1
            split at h
            · split at h
              · cases h
              · rename_i h2
                exact ((hpa h).trans (tl (he h2))).trans (tl (he h1))
            · cases h
      · cases h
        split <;> fin
    · rw [elems] at h
      split at h
      · split at h
        · cases h
        · split at h
          · cases h
          · rename_i h1
            exact (hel h).trans (tl (he h1))
      · cases h
        split <;> fin
    · rw [infixE] at h
      split at h
      · split at h
        · cases h
        · rename_i h1
          cases h
          exact tl (he h1)
      split at h
      · cases h
      split at h
      · split at h
        · cases h; fin
        · exact tl (ha h)
      split at h
      · cases h; fin
      split at h
      · split at h
        · cases h
        · rename_i h1
          exact expecting_suffix h (tl (he h1))
      · cases h; fin
    · rw [args] at h
      split at h
      · cases h
      · rename_i h1
        have h1 := (he h1).trans (ite_suffix (tl (List.tail_suffix _)) List.suffix_rfl)
        split at h
        · exact (tl (ha h)).trans h1
        · exact expecting_suffix h h1

/-- An expression is read from the start of the tokens. -/
theorem parse_suffix {names : List Str} {n n' : Bool} {ts r : List Tok} {e : Expr} (h : parse names n ts = some (e, n', r)) : r <:+ ts :=
  (suffixes names _).1 h

end Verif.Ps

import Verif.Lemmas.Strings
import Mathlib.Tactic.Ring

/-! C31–C33, C93–C97: the strings module. -/
namespace Verif.Props
open Verif Verif.Str Verif.Strings

/-! ### C31: split and join -/

/-- `ps` are the pieces of `s` between the leftmost, non-overlapping occurrences of `sep`. -/
def Pieces (sep : Str) : Str → List Str → Prop
  | _, [] => False
  | s, [p] => s = p ∧ ¬ sep <:+: p
  | s, p :: q :: ps => ∃ r, s = p ++ sep ++ r ∧ (∀ i, i < p.length → ¬ sep <+: s.drop i) ∧
      Pieces sep r (q :: ps)

theorem pieces_of_scan {sep : Str} (hs : sep ≠ []) {s : Str} {ps : List Str}
    (h : Scan sep s ps) : Pieces sep s ps := by
  induction h with
  | nil => exact ⟨rfl, fun hi => hs (List.infix_nil.mp hi)⟩
  | @hit r ps h ih =>
    match ps, ih with
    | q :: ps, ih => exact ⟨r, rfl, fun i hi => by simp at hi, ih⟩
  | @miss c r p ps hn h ih =>
    match ps, ih with
    | [], ih =>
      refine ⟨by rw [← ih.1], fun hi => ?_⟩
      rw [List.infix_cons_iff] at hi
      rcases hi with hi | hi
      · exact hn (ih.1 ▸ hi)
      · exact ih.2 hi
    | q :: ps, ih =>
      obtain ⟨t, h1, h2, h3⟩ := ih
      refine ⟨t, by rw [h1]; simp, fun i hi => ?_, h3⟩
      cases i with
      | zero => exact hn
      | succ i => exact h2 i (by simpa using hi)

/-- The pieces are determined by the string and the separator. -/
theorem Pieces.unique {sep : Str} : ∀ {ps qs : List Str} {s : Str}, Pieces sep s ps →
    Pieces sep s qs → ps = qs := by
  intro ps
  induction ps with
  | nil => intro qs s h; exact absurd h id
  | cons p ps ih =>
    intro qs s h1 h2
    have noInfix : ∀ {t p r : Str}, t = p ++ sep ++ r → ¬ sep <:+: t → False := by
      intro t p r e hn
      exact hn ⟨p, r, e.symm⟩
    match ps, qs with
    | _, [] => exact absurd h2 id
    | [], [q] => rw [← h1.1, ← h2.1]
    | [], q :: q' :: qs =>
      obtain ⟨r, e, _⟩ := h2
      exact absurd (noInfix e (h1.1 ▸ h1.2)) id
    | p' :: ps, [q] =>
      obtain ⟨r, e, _⟩ := h1
      exact absurd (noInfix e (h2.1 ▸ h2.2)) id
    | p' :: ps, q :: q' :: qs =>
      obtain ⟨r, e, hf, hr⟩ := h1
      obtain ⟨t, e', hf', hr'⟩ := h2
      have hpq : p.length = q.length := by
        rcases Nat.lt_trichotomy p.length q.length with hlt | heq | hgt
        · exact absurd ⟨r, by rw [e, List.append_assoc, List.drop_left]⟩ (hf' _ hlt)
        · exact heq
        · exact absurd ⟨t, by rw [e', List.append_assoc, List.drop_left]⟩ (hf _ hgt)
      have e2 : p ++ (sep ++ r) = q ++ (sep ++ t) := by
        rw [← List.append_assoc, ← List.append_assoc, ← e, ← e']
      obtain ⟨e3, e4⟩ := List.append_inj e2 hpq
      have e5 := List.append_cancel_left e4
      rw [e3, ih hr (e5 ▸ hr')]

theorem Pieces.not_infix {sep : Str} : ∀ {ps : List Str} {s : Str}, Pieces sep s ps →
    ∀ p ∈ ps, ¬ sep <:+: p := by
  intro ps
  induction ps with
  | nil => intro s h; exact absurd h id
  | cons p ps ih =>
    intro s h q hq
    match ps, h with
    | [], h => simp at hq; subst hq; exact h.2
    | p' :: ps, h =>
      obtain ⟨r, e, hf, hr⟩ := h
      rcases List.mem_cons.mp hq with rfl | hq
      · rintro ⟨a, b, hab⟩
        by_cases hs : sep = []
        · exact absurd hr (fun hr => ih hr p' List.mem_cons_self (by rw [hs]; exact List.nil_infix))
        · have hpos := List.length_pos_iff.mpr hs
          refine hf a.length ?_ ⟨b ++ sep ++ r, ?_⟩
          · rw [← hab]; simp; omega
          · rw [e, ← hab]
            simp only [List.append_assoc]
            rw [List.drop_left]
      · exact ih hr q hq

theorem split_scan (s sep : Str) (hs : sep ≠ []) :
    ∃ p ps, Scan sep s (p :: ps) ∧ split s sep = .ok (some (p :: ps)) := by
  obtain ⟨p, ps, h⟩ := scan_exists hs s.length s (Nat.le_refl _)
  refine ⟨p, ps, h, ?_⟩
  rw [split, if_neg (by simpa using hs), splitLoop_eq s sep hs _ 0 0 [] p ps (Nat.le_refl _)
    (Nat.zero_le _) (by omega) (by rw [List.drop_zero]; exact h)]
  simp

/-- split yields the pieces between the leftmost occurrences of the separator, none of which
contains it, and join puts them together again. -/
theorem C31_join_split (s sep : Str) (hs : sep ≠ []) (hl : s.length ≤ int32Max) :
    ∃ ps, split s sep = .ok (some ps) ∧ Pieces sep s ps ∧ (∀ p ∈ ps, ¬ sep <:+: p) ∧
      Strings.join ps sep = .ok s := by
  obtain ⟨p, ps, h, e⟩ := split_scan s sep hs
  have hp := pieces_of_scan hs h
  refine ⟨p :: ps, e, hp, hp.not_infix, ?_⟩
  rw [join_eq _ _ (by rw [glue_scan h]; exact hl), glue_scan h]

/-- The empty separator does not split. -/
theorem C31_empty (s : Str) : split s [] = .ok (some [s]) := rfl

example : split (lit "aXXXb") (lit "XX") = .ok (some [lit "a", lit "Xb"]) := by decide +kernel
example : split [] (lit ",") = .ok (some [[]]) := by decide +kernel
example : split (lit ",a,") (lit ",") = .ok (some [[], lit "a", []]) := by decide +kernel

/-! ### C94: join -/

/-- The elements with the separator between them. -/
def joined (sep : Str) : List Str → Str
  | [] => []
  | [p] => p
  | p :: q :: ps => p ++ sep ++ joined sep (q :: ps)

theorem glue_eq_joined (sep : Str) (ps : List Str) : glue sep ps = joined sep ps := by
  induction ps with
  | nil => rfl
  | cons p ps ih =>
    cases ps with
    | nil => rfl
    | cons q ps => rw [glue, ih, joined]

/-- C94 as claimed: join gives the joined string, or a panic if that is too long. -/
def C94_statement : Prop :=
  ∀ ps sep, (∀ p ∈ ps, p.length ≤ int32Max) →
    Strings.join ps sep = .ok (joined sep ps) ∨ (Strings.join ps sep).isPanic = true

/-- Joins whose result fits are right and stay inside the buffer. Missing for the full claim: results
longer than INT32_MAX bytes, where the size computation overflows. -/
theorem C94_partial (ps : List Str) (sep : Str) (h : (joined sep ps).length ≤ int32Max) :
    Strings.join ps sep = .ok (joined sep ps) := by
  rw [← glue_eq_joined] at h ⊢
  exact join_eq ps sep h

theorem C94_witness (ps : List Str) (sep : Str) (h : int32Max < (joined sep ps).length) :
    Strings.join ps sep = .ub := by
  match ps, h with
  | [], h => simp [joined] at h
  | s :: r, h =>
    simp only [Strings.join]
    rw [joinTotal_eq, glue_eq_joined, if_pos h]

theorem C94_fails : ¬ C94_statement := by
  intro h
  obtain ⟨s, hs⟩ : ∃ s : Str, s.length = int32Max := ⟨List.replicate int32Max 0, List.length_replicate⟩
  have hM : int32Max = 2147483647 := rfl
  have hl : int32Max < (joined [] [s, s]).length := by simp [joined]; omega
  have := h [s, s] [] (by simp; omega)
  rw [C94_witness _ _ hl] at this
  simp [Outcome.isPanic] at this

example : Strings.join [lit "a", [], lit "b"] (lit ", ") = .ok (lit "a, , b") := by decide +kernel

/-! ### C32: replace and count -/

/-- count is the number of occurrences found from the left without overlap, and replace puts `new`
in their place; a result longer than INT32_MAX bytes is a panic. No write leaves the buffer. -/
theorem C32_replace (s old new : Str) (ho : old ≠ []) (hl : s.length ≤ int32Max) :
    ∃ p ps, Pieces old s (p :: ps) ∧ Strings.count s old = .ok (some ps.length) ∧
      (if (joined new (p :: ps)).length ≤ int32Max then
        replace s old new = .ok (some (joined new (p :: ps)))
      else replace s old new = .panic "P0071") := by
  obtain ⟨p, ps, h⟩ := scan_exists ho s.length s (Nat.le_refl _)
  have hp := pieces_of_scan ho h
  have hc : Strings.count s old = .ok (some ps.length) := by
    rw [Strings.count, if_neg (by simpa using ho), countLoop_eq s old ho _ 0 0 p ps (Nat.zero_le _)
      (by omega) (by rw [List.drop_zero]; exact h)]
    simp
  refine ⟨p, ps, hp, hc, ?_⟩
  have hlen : (s.length : Int) + ps.length * ((new.length : Int) - old.length) =
      ((glue new (p :: ps)).length : Nat) := by
    have e := congrArg List.length (glue_scan h)
    rw [glue_length] at e
    rw [glue_length, ← e]
    push_cast
    ring
  rw [← glue_eq_joined]
  have hrep : replace s old new = if ps.length = 0 then .ok (some s)
      else if ((glue new (p :: ps)).length : Int) < 0 ∨
        (int32Max : Int) < ((glue new (p :: ps)).length : Nat) then .panic "P0071"
      else replaceLoop ((glue new (p :: ps)).length : Int).toNat s old new (s.length + 1) 0 [] := by
    rw [replace, if_neg (by simpa using ho), hc, Outcome.bind_ok]
    simp only [hlen]
  rw [hrep]
  by_cases h0 : ps.length = 0
  · have : ps = [] := by simpa using h0
    subst this
    have hps : p = s := by rw [← glue_scan h]; rfl
    rw [if_pos (by rw [glue, hps]; exact hl), if_pos h0, glue, hps]
  · rw [if_neg h0]
    by_cases hfit : (glue new (p :: ps)).length ≤ int32Max
    · rw [if_pos hfit, if_neg (by omega), Int.toNat_natCast,
        replaceLoop_eq _ s old new ho _ 0 [] p ps (Nat.zero_le _) (by omega)
          (by rw [List.drop_zero]; exact h) (by simp)]
      simp
    · rw [if_neg hfit, if_pos (by omega)]

/-- The pieces put together with the pattern are the string, so replacing a pattern by itself
changes nothing. -/
theorem C32_identity (s old : Str) (hl : s.length ≤ int32Max) :
    replace s old old = .ok (some s) := by
  by_cases ho : old = []
  · rw [replace, if_pos (by simp [ho])]
  · obtain ⟨p, ps, hp, _, h⟩ := C32_replace s old old ho hl
    obtain ⟨q, qs, hs⟩ := scan_exists ho s.length s (Nat.le_refl _)
    have := hp.unique (pieces_of_scan ho hs)
    rw [this, ← glue_eq_joined, glue_scan hs, if_pos hl] at h
    exact h

/-- An empty pattern is not replaced and does not occur. -/
theorem C32_empty (s new : Str) : replace s [] new = .ok (some s) ∧ Strings.count s [] = .ok (some 0) :=
  ⟨rfl, rfl⟩

example : replace (lit "aXXXb") (lit "XX") (lit "-") = .ok (some (lit "a-Xb")) := by decide +kernel
example : Strings.count (lit "aaaa") (lit "aa") = .ok (some 2) := by decide +kernel

/-! ### C33: searching -/

theorem findLoop_spec (s sub : Str) (n : Nat) : ∀ i, i + n + sub.length ≤ s.length + 1 →
    (∃ k, findLoop s sub n i = .ok (some k) ∧ i ≤ k ∧ k < i + n ∧ sub <+: s.drop k ∧
      ∀ j, i ≤ j → j < k → ¬ sub <+: s.drop j) ∨
    (findLoop s sub n i = .ok none ∧ ∀ j, i ≤ j → j < i + n → ¬ sub <+: s.drop j) := by
  induction n with
  | zero => intro i _; exact Or.inr ⟨rfl, fun j h1 h2 => by omega⟩
  | succ n ih =>
    intro i h
    rw [findLoop, memEq_eq (by omega), Outcome.bind_ok]
    by_cases hp : sub <+: s.drop i
    · rw [decide_eq_true hp, if_pos rfl]
      exact Or.inl ⟨i, rfl, Nat.le_refl _, by omega, hp, fun j h1 h2 => by omega⟩
    · rw [decide_eq_false hp, if_neg (by decide)]
      have hnext : ∀ j, i ≤ j → ¬ i + 1 ≤ j → ¬ sub <+: s.drop j := by
        intro j h1 h2
        have : j = i := by omega
        rw [this]; exact hp
      rcases ih (i + 1) (by omega) with ⟨k, h1, h2, h3, h4, h5⟩ | ⟨h1, h2⟩
      · refine Or.inl ⟨k, h1, by omega, by omega, h4, fun j hj1 hj2 => ?_⟩
        by_cases hj : i + 1 ≤ j
        · exact h5 j hj hj2
        · exact hnext j hj1 hj
      · refine Or.inr ⟨h1, fun j hj1 hj2 => ?_⟩
        by_cases hj : i + 1 ≤ j
        · exact h2 j hj (by omega)
        · exact hnext j hj1 hj

theorem lastLoop_spec (s sub : Str) (n : Nat) : n + sub.length ≤ s.length + 1 →
    (∃ k, lastLoop s sub n = .ok (some k) ∧ k < n ∧ sub <+: s.drop k ∧
      ∀ j, k < j → j < n → ¬ sub <+: s.drop j) ∨
    (lastLoop s sub n = .ok none ∧ ∀ j, j < n → ¬ sub <+: s.drop j) := by
  induction n with
  | zero => intro _; exact Or.inr ⟨rfl, fun j h => by omega⟩
  | succ n ih =>
    intro h
    rw [lastLoop, memEq_eq (by omega), Outcome.bind_ok]
    by_cases hp : sub <+: s.drop n
    · rw [decide_eq_true hp, if_pos rfl]
      exact Or.inl ⟨n, rfl, by omega, hp, fun j h1 h2 => by omega⟩
    · rw [decide_eq_false hp, if_neg (by decide)]
      rcases ih (by omega) with ⟨k, h1, h2, h3, h4⟩ | ⟨h1, h2⟩
      · refine Or.inl ⟨k, h1, by omega, h3, fun j hj1 hj2 => ?_⟩
        by_cases hj : j = n
        · rw [hj]; exact hp
        · exact h4 j hj1 (by omega)
      · refine Or.inr ⟨h1, fun j hj => ?_⟩
        by_cases hjn : j = n
        · rw [hjn]; exact hp
        · exact h2 j (by omega)

/-- A pattern longer than what is left does not occur. -/
theorem not_occurs {s sub : Str} {j : Nat} (h : s.length < j + sub.length) (hs : sub ≠ []) :
    ¬ sub <+: s.drop j := by
  intro hp
  have h1 := hp.length_le
  have h2 := List.length_pos_iff.mpr hs
  rw [List.length_drop] at h1
  omega

/-- index_of: the first position at which the pattern occurs, or -1 if there is none. -/
theorem C33_index_of (s sub : Str) :
    (∃ k : Nat, indexOf s sub = .ok k ∧ k ≤ s.length ∧ sub <+: s.drop k ∧
      ∀ j, j < k → ¬ sub <+: s.drop j) ∨
    (indexOf s sub = .ok (-1) ∧ ∀ j, ¬ sub <+: s.drop j) := by
  rw [indexOf]
  by_cases h0 : sub.length = 0
  · have : sub = [] := by simpa using h0
    subst this
    exact Or.inl ⟨0, rfl, Nat.zero_le _, List.nil_prefix, fun j h => by omega⟩
  · have hs : sub ≠ [] := by simpa using h0
    rw [if_neg h0]
    by_cases hl : s.length < sub.length
    · rw [if_pos hl]
      exact Or.inr ⟨rfl, fun j => not_occurs (by omega) hs⟩
    · rw [if_neg hl]
      rcases findLoop_spec s sub (s.length - sub.length + 1) 0 (by omega) with
        ⟨k, h1, _, h3, h4, h5⟩ | ⟨h1, h2⟩
      · rw [h1]
        exact Or.inl ⟨k, rfl, by omega, h4, fun j hj => h5 j (Nat.zero_le _) hj⟩
      · rw [h1]
        refine Or.inr ⟨rfl, fun j => ?_⟩
        by_cases hj : j < s.length - sub.length + 1
        · exact h2 j (Nat.zero_le _) (by omega)
        · exact not_occurs (by omega) hs

/-- last_index_of: the last position at which the pattern occurs, or -1 if there is none. -/
theorem C33_last_index_of (s sub : Str) :
    (∃ k : Nat, lastIndexOf s sub = .ok k ∧ k ≤ s.length ∧ sub <+: s.drop k ∧
      ∀ j, k < j → j ≤ s.length → ¬ sub <+: s.drop j) ∨
    (lastIndexOf s sub = .ok (-1) ∧ ∀ j, ¬ sub <+: s.drop j) := by
  rw [lastIndexOf]
  by_cases h0 : sub.length = 0
  · have : sub = [] := by simpa using h0
    subst this
    exact Or.inl ⟨s.length, rfl, Nat.le_refl _, List.nil_prefix, fun j h1 h2 => by omega⟩
  · have hs : sub ≠ [] := by simpa using h0
    rw [if_neg h0]
    by_cases hl : s.length < sub.length
    · rw [if_pos hl]
      exact Or.inr ⟨rfl, fun j => not_occurs (by omega) hs⟩
    · rw [if_neg hl]
      rcases lastLoop_spec s sub (s.length - sub.length + 1) (by omega) with
        ⟨k, h1, h2, h3, h4⟩ | ⟨h1, h2⟩
      · rw [h1]
        refine Or.inl ⟨k, rfl, by omega, h3, fun j hj _ => ?_⟩
        by_cases hjn : j < s.length - sub.length + 1
        · exact h4 j hj hjn
        · exact not_occurs (by omega) hs
      · rw [h1]
        refine Or.inr ⟨rfl, fun j => ?_⟩
        by_cases hj : j < s.length - sub.length + 1
        · exact h2 j hj
        · exact not_occurs (by omega) hs

/-- contains, starts_with and ends_with are the mathematical notions. -/
theorem C33_tests (s sub : Str) :
    Strings.contains s sub = .ok (decide (sub <:+: s)) ∧
    startsWith s sub = .ok (decide (sub <+: s)) ∧ endsWith s sub = .ok (decide (sub <:+ s)) := by
  refine ⟨?_, ?_, ?_⟩
  · have hinf : sub <:+: s ↔ ∃ j, sub <+: s.drop j := by
      constructor
      · rintro ⟨a, b, rfl⟩
        exact ⟨a.length, b, by rw [List.append_assoc, List.drop_left]⟩
      · rintro ⟨j, hj⟩
        exact hj.isInfix.trans (List.drop_suffix j s).isInfix
    rw [Strings.contains]
    by_cases h0 : sub.length = 0
    · have : sub = [] := by simpa using h0
      subst this
      simp
    · have hs : sub ≠ [] := by simpa using h0
      rw [if_neg h0]
      by_cases hl : s.length < sub.length
      · rw [if_pos hl, decide_eq_false]
        rw [hinf]
        rintro ⟨j, hj⟩
        exact not_occurs (by omega) hs hj
      · rw [if_neg hl]
        rcases findLoop_spec s sub (s.length - sub.length + 1) 0 (by omega) with
          ⟨k, h1, _, h3, h4, h5⟩ | ⟨h1, h2⟩
        · rw [h1, decide_eq_true (hinf.mpr ⟨k, h4⟩)]; rfl
        · rw [h1, decide_eq_false]
          · rfl
          · rw [hinf]
            rintro ⟨j, hj⟩
            by_cases hjn : j < s.length - sub.length + 1
            · exact h2 j (Nat.zero_le _) (by omega) hj
            · exact not_occurs (by omega) hs hj
  · rw [startsWith]
    by_cases hl : s.length < sub.length
    · rw [if_pos hl, decide_eq_false]
      intro hp; have := hp.length_le; omega
    · rw [if_neg hl, memEq_eq (by omega), List.drop_zero]
  · rw [endsWith]
    by_cases hl : s.length < sub.length
    · rw [if_pos hl, decide_eq_false]
      intro hp; have := hp.length_le; omega
    · rw [if_neg hl, memEq_eq (by omega)]
      congr 1
      rw [decide_eq_decide]
      constructor
      · rintro ⟨t, ht⟩
        have := congrArg List.length ht
        rw [List.length_append, List.length_drop] at this
        have ht0 : t = [] := List.length_eq_zero_iff.mp (by omega)
        rw [ht0, List.append_nil] at ht
        rw [ht]
        exact List.drop_suffix _ _
      · rintro ⟨t, rfl⟩
        rw [List.length_append, show t.length + sub.length - sub.length = t.length by omega,
          List.drop_left]
        exact List.prefix_refl _

example : indexOf (lit "banana") (lit "ana") = .ok 1 ∧ lastIndexOf (lit "banana") (lit "ana") = .ok 3 ∧
    indexOf (lit "banana") (lit "x") = .ok (-1) := by decide +kernel

/-! ### C93: repeat -/

/-- `n` copies. -/
def copies (s : Str) : Nat → Str
  | 0 => []
  | n + 1 => s ++ copies s n

/-- C93 as claimed. -/
def C93_statement : Prop :=
  ∀ (s : Str) (n : Int), s.length ≤ int32Max → -2 ^ 63 ≤ n → n < 2 ^ 63 →
    if n < 0 then «repeat» s n = .panic "P0072"
    else if s.length * n.toNat ≤ int32Max then «repeat» s n = .ok (copies s n.toNat)
    else «repeat» s n = .panic "P0073"

/-- Four bytes repeated 2^62 times: the length overflows; with wrapping arithmetic it is 0, and the
loop copies far beyond a buffer of one byte. -/
theorem C93_witness : «repeat» (lit "abcd") (2 ^ 62) = .ub ∧ Int.bmod (4 * 2 ^ 62) (2 ^ 64) = 0 := by
  decide +kernel

theorem C93_fails : ¬ C93_statement := by
  intro h
  have := h (lit "abcd") (2 ^ 62) (by decide) (by decide) (by decide)
  rw [C93_witness.1] at this
  rw [if_neg (by decide)] at this
  split at this <;> simp at this

theorem copies_length (s : Str) (n : Nat) : (copies s n).length = s.length * n := by
  induction n with
  | zero => rfl
  | succ n ih => rw [copies, List.length_append, ih, Nat.mul_succ]; omega

theorem repeatLoop_eq (cap : Nat) (s : Str) (n : Nat) : ∀ out : Str,
    out.length + s.length * n ≤ cap → repeatLoop cap s n out = .ok (out ++ copies s n) := by
  induction n with
  | zero => intro out _; simp [repeatLoop, copies]
  | succ n ih =>
    intro out h
    rw [Nat.mul_succ] at h
    rw [repeatLoop, put, if_pos (by omega), Outcome.bind_ok,
      ih _ (by rw [List.length_append]; omega), copies, List.append_assoc]

/-- All counts whose product with the length is below 2^63. Missing for the full claim: larger
counts. -/
theorem C93_partial (s : Str) (n : Int) (h : (s.length : Int) * n < 2 ^ 63) :
    if n < 0 then «repeat» s n = .panic "P0072"
    else if s.length * n.toNat ≤ int32Max then «repeat» s n = .ok (copies s n.toNat)
    else «repeat» s n = .panic "P0073" := by
  by_cases hn : n < 0
  · rw [if_pos hn, «repeat», if_pos hn]
  · rw [if_neg hn]
    obtain ⟨k, rfl⟩ : ∃ k : Nat, n = k := ⟨n.toNat, by omega⟩
    rw [Int.toNat_natCast]
    have e : ((s.length : Int) * k) = ((s.length * k : Nat) : Int) := by push_cast; rfl
    have hrep : «repeat» s k = if (k : Int) = 0 ∨ s.length = 0 then .ok []
        else if (int32Max : Int) < ((s.length * k : Nat) : Int) then .panic "P0073"
        else repeatLoop (s.length * k) s k [] := by
      rw [«repeat», if_neg hn]
      by_cases h0 : (k : Int) = 0 ∨ s.length = 0
      · rw [if_pos h0, if_pos h0]
      · rw [if_neg h0, if_neg h0, if_neg (by omega), e, Int.toNat_natCast, Int.toNat_natCast]
    rw [hrep]
    by_cases h0 : (k : Int) = 0 ∨ s.length = 0
    · have hz : s.length * k = 0 := by
        rcases h0 with h0 | h0
        · rw [show k = 0 by omega, Nat.mul_zero]
        · rw [h0, Nat.zero_mul]
      rw [if_pos (by omega), if_pos h0]
      have := copies_length s k
      rw [hz] at this
      rw [List.length_eq_zero_iff.mp this]
    · rw [if_neg h0]
      by_cases hf : s.length * k ≤ int32Max
      · rw [if_pos hf, if_neg (by omega), repeatLoop_eq _ _ _ _ (by simp)]
        simp
      · rw [if_neg hf, if_pos (by omega)]

example : «repeat» (lit "ab") 3 = .ok (lit "ababab") := by decide +kernel

/-! ### C95: one byte, four ways to read it -/

/-- C95 as claimed: `s[i]`, strings.char_at, strings.to_chars and for_each give the byte at a
position, and exactly the positions of the string are accepted. -/
def C95_statement : Prop :=
  ∀ (s : Str) (i : Int), s.length ≤ int32Max → -2 ^ 63 ≤ i → i < 2 ^ 63 →
    (if 0 ≤ i ∧ i < s.length then
      Strings.index s i = .ok ((s.getD i.toNat 0).toNat : Int) ∧
      charAt s i = .ok ((s.getD i.toNat 0).toNat : Int) ∧
      (toChars s)[i.toNat]? = some ((s.getD i.toNat 0).toNat : Int) ∧
      (eachChar s)[i.toNat]? = some ((s.getD i.toNat 0).toNat : Int)
    else Strings.index s i = .panic "P0082" ∧ charAt s i = .panic "P0082")

/-- A byte above 127 is negative in char_at and for_each; an index of 2^32 reads position 0. -/
theorem C95_witness :
    Strings.index [0xC3] 0 = .ok 195 ∧ charAt [0xC3] 0 = .ok (-61) ∧ toChars [0xC3] = [195] ∧
    eachChar [0xC3] = [-61] ∧ Strings.index [0x41] (2 ^ 32) = .ok 65 := by decide +kernel

theorem C95_fails : ¬ C95_statement := by
  intro h
  have := h [0xC3] 0 (by decide) (by decide) (by decide)
  rw [if_pos (by decide)] at this
  have h2 := this.2.1
  rw [C95_witness.2.1] at h2
  exact absurd h2 (by decide)

theorem charVal_ascii {b : Byte} (h : b.toNat < 128) : charVal b = b.toNat := by
  rw [charVal, BitVec.toInt_eq_toNat_of_lt (by omega)]

/-- For ASCII strings and indices in the range of `int32_t` all four agree. Missing for the full
claim: bytes from 128, and indices outside the range of `int32_t`. -/
theorem C95_partial (s : Str) (i : Int) (hs : ∀ b ∈ s, b.toNat < 128) (h1 : -2 ^ 31 ≤ i)
    (h2 : i < 2 ^ 31) :
    (if 0 ≤ i ∧ i < s.length then
      Strings.index s i = .ok ((s.getD i.toNat 0).toNat : Int) ∧
      charAt s i = .ok ((s.getD i.toNat 0).toNat : Int) ∧
      (toChars s)[i.toNat]? = some ((s.getD i.toNat 0).toNat : Int) ∧
      (eachChar s)[i.toNat]? = some ((s.getD i.toNat 0).toNat : Int)
    else Strings.index s i = .panic "P0082" ∧ charAt s i = .panic "P0082") := by
  have hb : Int.bmod i (2 ^ 32) = i := by
    rw [Int.bmod_eq_of_le] <;> norm_num <;> omega
  by_cases hi : 0 ≤ i ∧ i < s.length
  · rw [if_pos hi]
    have hlt : i.toNat < s.length := by omega
    have hget : s.getD i.toNat 0 = s[i.toNat] := by simp [hlt]
    have hc : charVal (s[i.toNat]) = (s[i.toNat]).toNat := charVal_ascii (hs _ (List.getElem_mem hlt))
    refine ⟨?_, ?_, ?_, ?_⟩
    · simp only [Strings.index]
      rw [hb, if_neg (by omega)]
    · rw [charAt, if_neg (by omega), hget, hc]
    · rw [toChars, List.getElem?_map, List.getElem?_eq_getElem hlt, hget]; rfl
    · rw [eachChar, List.getElem?_map, List.getElem?_eq_getElem hlt, hget, Option.map_some, hc]
  · rw [if_neg hi]
    constructor
    · simp only [Strings.index]
      rw [hb, if_pos (by omega)]
    · rw [charAt, if_pos (by omega)]

/-- from_chars inverts to_chars and the values of for_each, for every string. -/
theorem C95_chars_partial (s : Str) : fromChars (toChars s) = s ∧ fromChars (eachChar s) = s := by
  constructor
  · rw [fromChars, toChars, List.map_map]
    conv_rhs => rw [← List.map_id s]
    refine List.map_congr_left fun b _ => ?_
    simp
  · rw [fromChars, eachChar, List.map_map]
    conv_rhs => rw [← List.map_id s]
    refine List.map_congr_left fun b _ => ?_
    simp [charVal]

/-! ### C96: classification -/

/-- C96 as claimed (strings.h): the classes contain exactly the ASCII characters named. -/
def C96_statement : Prop :=
  ∀ c : Int, 0 ≤ c → c < 2 ^ 31 →
    (isUpperC c = true ↔ 65 ≤ c ∧ c ≤ 90) ∧ (isLowerC c = true ↔ 97 ≤ c ∧ c ≤ 122) ∧
    (isDigitC c = true ↔ 48 ≤ c ∧ c ≤ 57) ∧
    (isAlphaC c = true ↔ (65 ≤ c ∧ c ≤ 90) ∨ (97 ≤ c ∧ c ≤ 122)) ∧
    (isAlnumC c = true ↔ (48 ≤ c ∧ c ≤ 57) ∨ (65 ≤ c ∧ c ≤ 90) ∨ (97 ≤ c ∧ c ≤ 122)) ∧
    (isWhitespaceC c = true ↔ c = 32 ∨ c = 9 ∨ c = 10 ∨ c = 13)

/-- U+0141 counts as an upper-case ASCII letter: its low byte is that of 'A'. Vertical tab and form
feed count as whitespace. -/
theorem C96_witness : isUpperC 0x141 = true ∧ isAlphaC 0x141 = true ∧ isDigitC 0x130 = true ∧
    isWhitespaceC 11 = true ∧ isWhitespaceC 12 = true := by decide +kernel

theorem C96_fails : ¬ C96_statement := by
  intro h
  have := (h 0x141 (by decide) (by decide)).1.mp C96_witness.1
  omega

set_option maxRecDepth 100000 in
theorem classes_fin : ∀ n : Fin 256,
    (isUpperC n.val = true ↔ 65 ≤ n.val ∧ n.val ≤ 90) ∧
    (isLowerC n.val = true ↔ 97 ≤ n.val ∧ n.val ≤ 122) ∧
    (isDigitC n.val = true ↔ 48 ≤ n.val ∧ n.val ≤ 57) ∧
    (isAlphaC n.val = true ↔ (65 ≤ n.val ∧ n.val ≤ 90) ∨ (97 ≤ n.val ∧ n.val ≤ 122)) ∧
    (isAlnumC n.val = true ↔ (48 ≤ n.val ∧ n.val ≤ 57) ∨ (65 ≤ n.val ∧ n.val ≤ 90) ∨
      (97 ≤ n.val ∧ n.val ≤ 122)) ∧
    (isWhitespaceC n.val = true ↔ n.val = 32 ∨ (9 ≤ n.val ∧ n.val ≤ 13)) := by decide +kernel

/-- Exact for characters below 256, but for vertical tab and form feed. Missing for the full claim:
other characters, which are cut to their low byte. -/
theorem C96_partial (c : Nat) (h : c < 256) :
    (isUpperC c = true ↔ 65 ≤ c ∧ c ≤ 90) ∧ (isLowerC c = true ↔ 97 ≤ c ∧ c ≤ 122) ∧
    (isDigitC c = true ↔ 48 ≤ c ∧ c ≤ 57) ∧
    (isAlphaC c = true ↔ (65 ≤ c ∧ c ≤ 90) ∨ (97 ≤ c ∧ c ≤ 122)) ∧
    (isAlnumC c = true ↔ (48 ≤ c ∧ c ≤ 57) ∨ (65 ≤ c ∧ c ≤ 90) ∨ (97 ≤ c ∧ c ≤ 122)) ∧
    (isWhitespaceC c = true ↔ c = 32 ∨ (9 ≤ c ∧ c ≤ 13)) := classes_fin ⟨c, h⟩

/-! ### C97: case, trimming, slicing -/

set_option maxRecDepth 100000 in
theorem case_fin : ∀ n : Fin 256,
    (toUpperB (BitVec.ofFin n)).toNat = (if 97 ≤ n.val ∧ n.val ≤ 122 then n.val - 32 else n.val) ∧
    (toLowerB (BitVec.ofFin n)).toNat = (if 65 ≤ n.val ∧ n.val ≤ 90 then n.val + 32 else n.val) := by
  decide +kernel

/-- to_upper and to_lower change exactly the ASCII letters, position by position. -/
theorem C97_case (s : Str) :
    (toUpper s).map BitVec.toNat =
      s.map (fun b => if 97 ≤ b.toNat ∧ b.toNat ≤ 122 then b.toNat - 32 else b.toNat) ∧
    (toLower s).map BitVec.toNat =
      s.map (fun b => if 65 ≤ b.toNat ∧ b.toNat ≤ 90 then b.toNat + 32 else b.toNat) := by
  rw [toUpper, toLower, List.map_map, List.map_map]
  exact ⟨List.map_congr_left fun b _ => (case_fin b.toFin).1,
    List.map_congr_left fun b _ => (case_fin b.toFin).2⟩

/-- White space: space and 9 to 13. -/
def Blank (b : Byte) : Prop := b.toNat = 32 ∨ (9 ≤ b.toNat ∧ b.toNat ≤ 13)

theorem isSpace_iff (b : Byte) : isSpace b = true ↔ Blank b := by
  rw [isSpace, Blank, Bool.or_eq_true, beq_iff_eq, between, decide_eq_true_eq]
  constructor
  · rintro (h | h)
    · left; rw [h]; rfl
    · right; exact h
  · rintro (h | h)
    · left; exact BitVec.eq_of_toNat_eq h
    · right; exact h

theorem skipSpace_spec (s : Str) : ∃ a, s = a ++ skipSpace s ∧ (∀ b ∈ a, Blank b) ∧
    ∀ b, (skipSpace s).head? = some b → ¬ Blank b := by
  induction s with
  | nil => exact ⟨[], rfl, by simp, by simp [skipSpace]⟩
  | cons c r ih =>
    rw [skipSpace]
    by_cases h : isSpace c = true
    · obtain ⟨a, h1, h2, h3⟩ := ih
      rw [if_pos h]
      refine ⟨c :: a, by rw [List.cons_append, ← h1], fun b hb => ?_, h3⟩
      rcases List.mem_cons.mp hb with rfl | hb
      · exact (isSpace_iff _).mp h
      · exact h2 b hb
    · rw [if_neg h]
      refine ⟨[], rfl, by simp, fun b hb => ?_⟩
      simp at hb
      subst hb
      exact fun hB => h ((isSpace_iff _).mpr hB)

/-- trim_left removes the longest blank prefix. -/
theorem C97_trim_left (s : Str) : ∃ a, s = a ++ trimLeft s ∧ (∀ b ∈ a, Blank b) ∧
    ∀ b, (trimLeft s).head? = some b → ¬ Blank b := skipSpace_spec s

/-- trim_right removes the longest blank suffix. -/
theorem C97_trim_right (s : Str) : ∃ z, s = trimRight s ++ z ∧ (∀ b ∈ z, Blank b) ∧
    ∀ b, (trimRight s).getLast? = some b → ¬ Blank b := by
  obtain ⟨a, h1, h2, h3⟩ := skipSpace_spec s.reverse
  refine ⟨a.reverse, ?_, fun b hb => h2 b (by simpa using hb), fun b hb => h3 b ?_⟩
  · rw [trimRight, ← List.reverse_append, ← h1, List.reverse_reverse]
  · rw [trimRight, List.getLast?_reverse] at hb
    exact hb

/-- trim removes both. -/
theorem C97_trim (s : Str) : ∃ a z, s = a ++ trim s ++ z ∧ (∀ b ∈ a, Blank b) ∧
    (∀ b ∈ z, Blank b) ∧ (∀ b, (trim s).head? = some b → ¬ Blank b) ∧
    ∀ b, (trim s).getLast? = some b → ¬ Blank b := by
  obtain ⟨a, h1, h2, h3⟩ := C97_trim_left s
  obtain ⟨z, h4, h5, h6⟩ := C97_trim_right (trimLeft s)
  refine ⟨a, z, ?_, h2, h5, fun b hb => h3 b ?_, h6⟩
  · rw [trim, List.append_assoc, ← h4, ← h1]
  · rw [h4, ← trim]
    match h : trim s with
    | [] => rw [h] at hb; simp at hb
    | c :: r => rw [h] at hb; simpa using hb

/-- slice(s, a, b) is the bytes at the positions from a on and before b that s has. -/
theorem C97_slice (s : Str) (a b : Int) :
    slice s a b = (s.zipIdx.filter fun p => decide (a ≤ (p.2 : Int) ∧ (p.2 : Int) < b)).map Prod.fst := by
  have hge : ∀ (s : Str) (o : Nat), b ≤ o →
      ((s.zipIdx o).filter fun p => decide (a ≤ (p.2 : Int) ∧ (p.2 : Int) < b)) = [] := by
    intro s o ho
    rw [List.filter_eq_nil_iff]
    intro p hp
    have := List.le_snd_of_mem_zipIdx hp
    simp only [decide_eq_true_eq]
    omega
  have main : ∀ (s : Str) (o : Nat),
      ((s.zipIdx o).filter fun p => decide (a ≤ (p.2 : Int) ∧ (p.2 : Int) < b)).map Prod.fst =
        (s.drop (a - o).toNat).take ((b - o).toNat - (a - o).toNat) := by
    intro s
    induction s with
    | nil => intro o; simp
    | cons c r ih =>
      intro o
      have ih := ih (o + 1)
      rw [List.zipIdx_cons]
      by_cases h : a ≤ (o : Int) ∧ (o : Int) < b
      · rw [List.filter_cons_of_pos (by simpa using h), List.map_cons, ih,
          show (a - o).toNat = 0 by omega, List.drop_zero,
          show (b - o).toNat - 0 = ((b - (o + 1 : Nat)).toNat) + 1 by omega, List.take_succ_cons,
          show (a - (o + 1 : Nat)).toNat = 0 by omega, List.drop_zero, Nat.sub_zero]
      · rw [List.filter_cons_of_neg (by simpa using h)]
        by_cases h2 : a ≤ (o : Int)
        · rw [hge r (o + 1) (by omega), show (b - o).toNat - (a - o).toNat = 0 by omega,
            List.take_zero, List.map_nil]
        · rw [ih, show (a - o).toNat = (a - (o + 1 : Nat)).toNat + 1 by omega, List.drop_succ_cons]
          congr 1
          omega
  rw [main s 0]
  simp only [slice]
  by_cases ha : a < 0
  · rw [if_pos ha, show (a - (0 : Nat)).toNat = 0 by omega, List.drop_zero, Nat.sub_zero]
    by_cases hb : b > s.length
    · rw [if_pos hb]
      by_cases h0 : (0 : Int) ≥ s.length
      · rw [if_pos h0]
        have : s = [] := List.length_eq_zero_iff.mp (by omega)
        rw [this, List.take_nil]
      · rw [if_neg h0, List.take_of_length_le (by simp), List.take_of_length_le (by omega)]
        rfl
    · rw [if_neg hb]
      by_cases h0 : (0 : Int) ≥ b
      · rw [if_pos h0, show (b - (0 : Nat)).toNat = 0 by omega, List.take_zero]
      · rw [if_neg h0]
        rfl
  · rw [if_neg ha, show (a - (0 : Nat)).toNat = a.toNat by omega]
    by_cases hb : b > s.length
    · rw [if_pos hb]
      by_cases h0 : a ≥ s.length
      · rw [if_pos h0, List.drop_eq_nil_of_le (by omega), List.take_nil]
      · rw [if_neg h0, List.take_of_length_le (by rw [List.length_drop]; omega),
          List.take_of_length_le (by rw [List.length_drop]; omega)]
    · rw [if_neg hb]
      by_cases h0 : a ≥ b
      · rw [if_pos h0, show (b - (0 : Nat)).toNat - a.toNat = 0 by omega, List.take_zero]
      · rw [if_neg h0]
        congr 1
        omega

/-- reverse gives the bytes in reverse order. -/
theorem C97_reverse (s : Str) : Strings.reverse s = s.reverse := by
  rw [Strings.reverse]
  refine List.ext_getElem (by simp) fun i h1 h2 => ?_
  have hi : i < s.length := by simpa using h1
  rw [List.getElem_map, List.getElem_range, List.getElem_reverse]
  simp [show s.length - 1 - i < s.length by omega]

/-- remove_prefix and remove_suffix remove exactly what is there. -/
theorem C97_remove (s p : Str) :
    (∀ r, removePrefix (p ++ r) p = .ok r ∧ removeSuffix (r ++ p) p = .ok r) ∧
    (¬ p <+: s → removePrefix s p = .ok s) ∧ (¬ p <:+ s → removeSuffix s p = .ok s) := by
  have hsuf := (C33_tests s p).2.2
  refine ⟨fun r => ⟨?_, ?_⟩, fun h => ?_, fun h => ?_⟩
  · rw [removePrefix, if_neg (by simp), memEq_eq (by simp), Outcome.bind_ok, List.drop_zero,
      decide_eq_true (List.prefix_append _ _), if_pos rfl, List.drop_left]
  · have e : (r ++ p).length - p.length = r.length := by simp
    rw [removeSuffix, if_neg (by simp), e, memEq_eq (by simp), Outcome.bind_ok, List.drop_left,
      decide_eq_true (List.prefix_refl _), if_pos rfl, List.take_left]
  · rw [removePrefix]
    by_cases hl : s.length < p.length
    · rw [if_pos hl]
    · rw [if_neg hl, memEq_eq (by omega), Outcome.bind_ok, List.drop_zero, decide_eq_false h,
        if_neg (by decide)]
  · rw [removeSuffix]
    by_cases hl : s.length < p.length
    · rw [if_pos hl]
    · rw [if_neg hl]
      rw [endsWith, if_neg hl, decide_eq_false h] at hsuf
      rw [hsuf, Outcome.bind_ok, if_neg (by decide)]

example : slice (lit "hello") 1 3 = lit "el" ∧ slice (lit "hello") (-5) 99 = lit "hello" ∧
    slice (lit "hello") 3 1 = [] := by decide +kernel
example : trim (lit " a b \n") = lit "a b" := by decide +kernel

end Verif.Props

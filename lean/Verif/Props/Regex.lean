import Verif.Model.Regex

/-!
# Regular expressions: what the functions find, replace and split

STANDARD.md 9.19.
-/

namespace Verif.Props
open Verif Verif.Str Verif.Regex

/-! ## What an expression means -/

namespace Rx

/-- `r` matches `t[i, j)`, as a part of `t`. -/
inductive At (t : Str) : Re → Nat → Nat → Prop
  | eps (i : Nat) : i ≤ t.length → At t .eps i i
  | set (p : Byte → Bool) (i : Nat) (c : Byte) : t[i]? = some c → p c = true → At t (.set p) i (i + 1)
  | bol : At t .bol 0 0
  | eol : At t .eol t.length t.length
  | seq (a b : Re) (i j k : Nat) : At t a i j → At t b j k → At t (.seq a b) i k
  | altl (a b : Re) (i j : Nat) : At t a i j → At t (.alt a b) i j
  | altr (a b : Re) (i j : Nat) : At t b i j → At t (.alt a b) i j
  | star0 (a : Re) (i : Nat) : i ≤ t.length → At t (.star a) i i
  | star1 (a : Re) (i j k : Nat) : At t a i j → At t (.star a) j k → At t (.star a) i k

/-- The match that begins first from `p` on, and of those the longest. -/
def Best (t : Str) (r : Re) (p : Nat) (m : Nat × Nat) : Prop :=
  At t r m.1 m.2 ∧ p ≤ m.1 ∧ ∀ i j, p ≤ i → At t r i j → m.1 < i ∨ m.1 = i ∧ j ≤ m.2

/-- All matches, one after the other; after an empty one from the next place on. -/
inductive All (t : Str) (r : Re) : Nat → List (Nat × Nat) → Prop
  | nil (p : Nat) : (∀ i j, p ≤ i → ¬ At t r i j) → All t r p []
  | cons (p : Nat) (m : Nat × Nat) (ms : List (Nat × Nat)) : Best t r p m →
      All t r (if m.1 < m.2 then m.2 else m.2 + 1) ms → All t r p (m :: ms)

/-- The text `t[i, j)`. -/
def part (t : Str) (m : Nat × Nat) : Str := (t.drop m.1).take (m.2 - m.1)

/-- What is before, between and after. -/
def gaps (t : Str) : Nat → List (Nat × Nat) → List Str
  | p, [] => [t.drop p]
  | p, m :: ms => part t (p, m.1) :: gaps t m.2 ms

def join (sep : Str) : List Str → Str
  | [] => []
  | [s] => s
  | s :: l => s ++ sep ++ join sep l

/-! ## `regexec` -/

theorem At.le {t : Str} {r : Re} {i j : Nat} (h : At t r i j) : i ≤ j ∧ j ≤ t.length := by
  induction h with
  | eps i h => exact ⟨Nat.le_refl _, h⟩
  | set p i c h _ => exact ⟨Nat.le_succ _, (List.getElem?_eq_some_iff.1 h).1⟩
  | bol => exact ⟨Nat.le_refl _, Nat.zero_le _⟩
  | eol => exact ⟨Nat.le_refl _, Nat.le_refl _⟩
  | seq a b i j k _ _ h1 h2 => exact ⟨Nat.le_trans h1.1 h2.1, h2.2⟩
  | altl _ _ _ _ _ h => exact h
  | altr _ _ _ _ _ h => exact h
  | star0 a i h => exact ⟨Nat.le_refl _, h⟩
  | star1 a i j k _ _ h1 h2 => exact ⟨Nat.le_trans h1.1 h2.1, h2.2⟩

theorem iter_sound {t : Str} {a : Re} (f : Nat → List Nat) (hf : ∀ i j, i ≤ t.length → j ∈ f i → At t a i j) :
    ∀ n i j, i ≤ t.length → j ∈ iter f n i → At t (.star a) i j
  | 0, i, j, hi, h => by
    rw [iter, List.mem_singleton] at h
    subst h
    exact .star0 a _ hi
  | n + 1, i, j, hi, h => by
    rw [iter, List.mem_cons] at h
    rcases h with rfl | h
    · exact .star0 a _ hi
    · obtain ⟨k, hk, hj⟩ := List.mem_flatMap.1 h
      have h1 := hf i k hi (List.mem_filter.1 hk).1
      exact .star1 a _ k _ h1 (iter_sound f hf n k j h1.le.2 hj)

theorem iter_complete {t : Str} {a : Re} (f : Nat → List Nat) (hf : ∀ i j, At t a i j → j ∈ f i) {r : Re} {i j : Nat}
    (h : At t r i j) (hr : r = .star a) : ∀ n, t.length - i ≤ n → j ∈ iter f n i := by
  induction h with
  | star0 b i hi =>
    intro n _
    cases n <;> simp [iter]
  | star1 b i k j h1 h2 _ ih =>
    cases hr
    intro n hn
    have hle := h1.le
    rcases Nat.eq_or_lt_of_le hle.1 with e | e
    · subst e
      exact ih rfl n hn
    · cases n with
      | zero => omega
      | succ n =>
        rw [iter, List.mem_cons, List.mem_flatMap]
        exact .inr ⟨k, List.mem_filter.2 ⟨hf _ _ h1, decide_eq_true e⟩, ih rfl n (by omega)⟩
  | _ => cases hr

theorem ends_sound (t : Str) : ∀ (r : Re) (i j : Nat), i ≤ t.length → j ∈ ends t r i → At t r i j
  | .eps, i, j, hi, h => by
    rw [ends, List.mem_singleton] at h
    subst h
    exact .eps _ hi
  | .set p, i, j, hi, h => by
    rw [ends] at h
    cases hc : t[i]? with
    | none => simp [hc] at h
    | some c =>
      cases hp : p c with
      | false => simp [hc, hp] at h
      | true =>
        simp only [hc, hp, if_true, List.mem_singleton] at h
        subst h
        exact .set p i c hc hp
  | .bol, i, j, hi, h => by
    by_cases h0 : i = 0
    · subst h0
      simp only [ends, if_true, List.mem_singleton] at h
      subst h
      exact .bol
    · simp [ends, h0] at h
  | .eol, i, j, hi, h => by
    by_cases h0 : i = t.length
    · subst h0
      simp only [ends, if_true, List.mem_singleton] at h
      subst h
      exact .eol
    · simp [ends, h0] at h
  | .seq a b, i, j, hi, h => by
    obtain ⟨k, hk, hj⟩ := List.mem_flatMap.1 h
    have h1 := ends_sound t a i k hi hk
    exact .seq a b i k j h1 (ends_sound t b k j h1.le.2 hj)
  | .alt a b, i, j, hi, h => by
    rcases List.mem_append.1 h with h | h
    · exact .altl _ _ _ _ (ends_sound t a i j hi h)
    · exact .altr _ _ _ _ (ends_sound t b i j hi h)
  | .star a, i, j, hi, h => iter_sound _ (ends_sound t a) _ i j hi h

theorem ends_complete (t : Str) : ∀ (r : Re) (i j : Nat), At t r i j → j ∈ ends t r i
  | .eps, _, _, .eps _ _ => by simp [ends]
  | .set p, _, _, .set _ i c hc hp => by simp [ends, hc, hp]
  | .bol, _, _, .bol => by simp [ends]
  | .eol, _, _, .eol => by simp [ends]
  | .seq a b, _, _, .seq _ _ i j k h1 h2 =>
    List.mem_flatMap.2 ⟨j, ends_complete t a i j h1, ends_complete t b j k h2⟩
  | .alt a b, _, _, .altl _ _ i j h => List.mem_append.2 (.inl (ends_complete t a i j h))
  | .alt a b, _, _, .altr _ _ i j h => List.mem_append.2 (.inr (ends_complete t b i j h))
  | .star a, i, j, h => iter_complete _ (ends_complete t a) h rfl _ (Nat.le_refl _)

theorem longest_none {l : List Nat} (h : longest l = none) : l = [] := by
  cases l with
  | nil => rfl
  | cons j r =>
    rw [longest] at h
    cases hr : longest r <;> rw [hr] at h <;> cases h

theorem longest_some : ∀ {l : List Nat} {k : Nat}, longest l = some k → k ∈ l ∧ ∀ j ∈ l, j ≤ k
  | j :: r, k, h => by
    rw [longest] at h
    cases hr : longest r with
    | none =>
      rw [hr] at h
      cases h
      rw [longest_none hr]
      simp
    | some m =>
      rw [hr] at h
      injection h with h
      subst h
      obtain ⟨h1, h2⟩ := longest_some hr
      constructor
      · rcases Nat.le_total j m with e | e
        · rw [Nat.max_eq_right e]
          exact List.mem_cons_of_mem _ h1
        · rw [Nat.max_eq_left e]
          exact List.mem_cons_self
      · intro x hx
        rcases List.mem_cons.1 hx with rfl | hx
        · exact Nat.le_max_left _ _
        · exact Nat.le_trans (h2 x hx) (Nat.le_max_right _ _)

theorem search_none {r : Re} {t : Str} : ∀ {n p : Nat}, n + p = t.length + 1 → search r t n p = none →
    ∀ i j, p ≤ i → ¬ At t r i j
  | 0, p, hn, _, i, j, hi, h => by
    have := h.le
    omega
  | n + 1, p, hn, hs, i, j, hi, h => by
    rw [search] at hs
    cases hl : longest (ends t r p) with
    | some k => rw [hl] at hs; cases hs
    | none =>
      rw [hl] at hs
      rcases Nat.eq_or_lt_of_le hi with e | e
      · subst e
        have := ends_complete t r p j h
        rw [longest_none hl] at this
        simp at this
      · exact search_none (n := n) (p := p + 1) (by omega) hs i j e h

theorem search_some {r : Re} {t : Str} : ∀ {n p : Nat} {m : Nat × Nat}, n + p = t.length + 1 → search r t n p = some m →
    Best t r p m
  | n + 1, p, m, hn, hs => by
    rw [search] at hs
    cases hl : longest (ends t r p) with
    | some k =>
      rw [hl] at hs
      cases hs
      obtain ⟨h1, h2⟩ := longest_some hl
      refine ⟨ends_sound t r p k (by omega) h1, Nat.le_refl _, fun i j hi h => ?_⟩
      rcases Nat.eq_or_lt_of_le hi with e | e
      · subst e
        exact .inr ⟨rfl, h2 j (ends_complete t r p j h)⟩
      · exact .inl e
    | none =>
      rw [hl] at hs
      obtain ⟨h1, h2, h3⟩ := search_some (n := n) (p := p + 1) (by omega) hs
      refine ⟨h1, by omega, fun i j hi h => ?_⟩
      rcases Nat.eq_or_lt_of_le hi with e | e
      · subst e
        have := ends_complete t r p j h
        rw [longest_none hl] at this
        simp at this
      · exact h3 i j e h

theorem regexec_some {r : Re} {t : Str} {m : Nat × Nat} (h : regexec r t = some m) : Best t r 0 m :=
  search_some (by omega) h

theorem regexec_none {r : Re} {t : Str} (h : regexec r t = none) : ∀ i j, ¬ At t r i j := fun i j =>
  search_none (by omega) h i j (Nat.zero_le _)

theorem best_unique {t : Str} {r : Re} {p : Nat} {m m' : Nat × Nat} (h : Best t r p m) (h' : Best t r p m') : m = m' := by
  obtain ⟨a1, a2, a3⟩ := h
  obtain ⟨b1, b2, b3⟩ := h'
  have h1 := a3 _ _ b2 b1
  have h2 := b3 _ _ a2 a1
  exact Prod.ext (by omega) (by omega)

theorem regexec_of_best {t : Str} {r : Re} {m : Nat × Nat} (h : Best t r 0 m) : regexec r t = some m := by
  cases hr : regexec r t with
  | none => exact absurd h.1 (regexec_none hr _ _)
  | some m' => rw [best_unique h (regexec_some hr)]

theorem regexec_of_none {t : Str} {r : Re} (h : ∀ i j, ¬ At t r i j) : regexec r t = none := by
  cases hr : regexec r t with
  | none => rfl
  | some m => exact absurd (regexec_some hr).1 (h _ _)

/-! ## Expressions without `^` -/

def noBol : Re → Prop
  | .bol => False
  | .seq a b => noBol a ∧ noBol b
  | .alt a b => noBol a ∧ noBol b
  | .star a => noBol a
  | _ => True

def noEol : Re → Prop
  | .eol => False
  | .seq a b => noEol a ∧ noEol b
  | .alt a b => noEol a ∧ noEol b
  | .star a => noEol a
  | _ => True

theorem At.shift {t : Str} {p : Nat} {r : Re} {i j : Nat} (h : At (t.drop p) r i j) (hp : p ≤ t.length) (hb : noBol r) :
    At t r (p + i) (p + j) := by
  induction h with
  | eps i h => exact .eps _ (by rw [List.length_drop] at h; omega)
  | set q i c h hq => exact .set q _ c (by rw [List.getElem?_drop] at h; exact h) hq
  | bol => exact hb.elim
  | eol =>
    have : p + (t.drop p).length = t.length := by rw [List.length_drop]; omega
    rw [this]
    exact .eol
  | seq a b i j k _ _ h1 h2 => exact .seq a b _ _ _ (h1 hb.1) (h2 hb.2)
  | altl a b i j _ h => exact .altl _ _ _ _ (h hb.1)
  | altr a b i j _ h => exact .altr _ _ _ _ (h hb.2)
  | star0 a i h => exact .star0 _ _ (by rw [List.length_drop] at h; omega)
  | star1 a i j k _ _ h1 h2 => exact .star1 a _ _ _ (h1 hb) (h2 hb)

theorem At.unshift {t : Str} {p : Nat} {r : Re} {i j : Nat} (h : At t r i j) (hp : p ≤ i) (hb : noBol r) :
    At (t.drop p) r (i - p) (j - p) := by
  induction h with
  | eps i h => exact .eps _ (by rw [List.length_drop]; omega)
  | set q i c h hq =>
    have : i + 1 - p = i - p + 1 := by omega
    rw [this]
    exact .set q _ c (by rw [List.getElem?_drop, show p + (i - p) = i by omega]; exact h) hq
  | bol => exact hb.elim
  | eol =>
    have : t.length - p = (t.drop p).length := by rw [List.length_drop]
    rw [this]
    exact .eol
  | seq a b i j k h1' _ h1 h2 => exact .seq a b _ _ _ (h1 hp hb.1) (h2 (Nat.le_trans hp h1'.le.1) hb.2)
  | altl a b i j _ h => exact .altl _ _ _ _ (h hp hb.1)
  | altr a b i j _ h => exact .altr _ _ _ _ (h hp hb.2)
  | star0 a i h => exact .star0 _ _ (by rw [List.length_drop]; omega)
  | star1 a i j k h1' _ h1 h2 => exact .star1 a _ _ _ (h1 hp hb) (h2 (Nat.le_trans hp h1'.le.1) hb)

/-- Without anchors an empty match can be anywhere. -/
theorem At.empty {t t' : Str} {r : Re} {i j k : Nat} (h : At t r i j) (he : i = j) (hk : k ≤ t'.length) (hb : noBol r)
    (hl : noEol r) : At t' r k k := by
  induction h with
  | eps i h => exact .eps _ hk
  | set q i c h hq => omega
  | bol => exact hb.elim
  | eol => exact hl.elim
  | seq a b i j l h1' h2' h1 h2 =>
    have := h1'.le
    have := h2'.le
    exact .seq a b _ _ _ (h1 (by omega) hb.1 hl.1) (h2 (by omega) hb.2 hl.2)
  | altl a b i j _ h => exact .altl _ _ _ _ (h he hb.1 hl.1)
  | altr a b i j _ h => exact .altr _ _ _ _ (h he hb.2 hl.2)
  | star0 a i h => exact .star0 _ _ hk
  | star1 a i j l h1' h2' h1 h2 => exact .star0 _ _ hk

/-- No `^`, and no `$` that an empty match needs. -/
def Plain (r : Re) : Prop := noBol r ∧ (noEol r ∨ ∀ t i, ¬ At t r i i)

/-- What the loops rely on: a match in the rest of the text is one in the text, and empty only at its begin. -/
theorem rest_some {t : Str} {r : Re} {p : Nat} {m : Nat × Nat} (hr : Plain r) (hp : p ≤ t.length)
    (h : regexec r (t.drop p) = some m) :
    Best t r p (p + m.1, p + m.2) ∧ (m.1 < m.2 ∨ m.1 = 0 ∧ m.2 = 0) := by
  obtain ⟨h1, _, h3⟩ := regexec_some h
  constructor
  · refine ⟨h1.shift hp hr.1, Nat.le_add_right _ _, fun i j hi hij => ?_⟩
    have := h3 _ _ (Nat.zero_le _) (hij.unshift hi hr.1)
    have := hij.le
    show p + m.1 < i ∨ p + m.1 = i ∧ j ≤ p + m.2
    omega
  · have hle := h1.le
    rcases Nat.eq_or_lt_of_le hle.1 with e | e
    · rcases hr.2 with hl | hl
      · have := h3 0 0 (Nat.le_refl _) (h1.empty e (Nat.zero_le _) hr.1 hl)
        omega
      · rw [← e] at h1
        exact absurd h1 (hl _ _)
    · exact .inl e

theorem rest_none {t : Str} {r : Re} {p : Nat} (hr : Plain r) (h : regexec r (t.drop p) = none) :
    ∀ i j, p ≤ i → ¬ At t r i j := fun _ _ hi h' => regexec_none h _ _ (h'.unshift hi hr.1)

/-- There is exactly one list of all matches. -/
theorem all_unique {t : Str} {r : Re} {p : Nat} {a b : List (Nat × Nat)} (ha : All t r p a) (hb : All t r p b) : a = b := by
  induction ha generalizing b with
  | nil p h =>
    cases hb with
    | nil => rfl
    | cons _ m ms hm _ => exact absurd hm.1 (h _ _ hm.2.1)
  | cons p m ms hm _ ih =>
    cases hb with
    | nil _ h => exact absurd hm.1 (h _ _ hm.2.1)
    | cons _ m' ms' hm' h' =>
      cases best_unique hm hm'
      rw [ih h']

theorem part_slice (t : Str) (i j : Nat) : slice t i j = part t (i, j) := by
  rw [slice, part, List.drop_take]

theorem cstr_eq {t : Str} (h : (0 : Byte) ∉ t) : cstr t = t := by
  induction t with
  | nil => rfl
  | cons c t ih =>
    rw [List.mem_cons, not_or] at h
    have hc : (c != 0) = true := bne_iff_ne.2 fun e => h.1 e.symm
    exact (List.takeWhile_cons_of_pos (p := fun c : Byte => c != 0) hc).trans (congrArg (c :: ·) (ih h.2))

theorem not_mem_drop {t : Str} (h : (0 : Byte) ∉ t) (p : Nat) : (0 : Byte) ∉ t.drop p := fun h' => h (List.mem_of_mem_drop h')

theorem toBuf_eq {n : Nat} {t : Str} (h : t.length < n) : toBuf n t = t := List.take_of_length_le (by omega)

/-! ## The loops -/

theorem findAllFrom_ok {r : Re} {t : Str} (hr : Plain r) (h0 : (0 : Byte) ∉ t) : ∀ (n p : Nat), p ≤ t.length →
    t.length < n + p → ∃ ms, All t r p ms ∧ findAllFrom r t t.length n p = .ok (ms.map (part t))
  | 0, p, h1, h2 => by omega
  | n + 1, p, h1, h2 => by
    rw [findAllFrom, if_neg (by omega), cstr_eq (not_mem_drop h0 p)]
    cases hm : regexec r (t.drop p) with
    | none => exact ⟨[], .nil p (rest_none hr hm), rfl⟩
    | some m =>
      obtain ⟨hb, he⟩ := rest_some hr h1 hm
      have hle := hb.1.le
      simp only at hle
      by_cases h : m.2 = 0
      · have hm1 : m.1 = 0 := by omega
        simp only [if_pos h]
        by_cases hp : t.length ≤ p
        · rw [if_pos hp]
          refine ⟨[(p + m.1, p + m.2)], .cons _ _ _ hb (.nil _ fun i j hi hij => ?_), ?_⟩
          · have := hij.le
            rw [if_neg (by simp [hm1, h])] at hi
            omega
          · simp [part_slice]
        · rw [if_neg hp]
          obtain ⟨ms, ha, hf⟩ := findAllFrom_ok hr h0 n (p + 1) (by omega) (by omega)
          refine ⟨(p + m.1, p + m.2) :: ms, .cons _ _ _ hb ?_, ?_⟩
          · rw [if_neg (by simp [hm1, h]), h]
            exact ha
          · rw [hf]
            simp [part_slice]
      · simp only [if_neg h]
        obtain ⟨ms, ha, hf⟩ := findAllFrom_ok hr h0 n (p + m.2) (by omega) (by omega)
        refine ⟨(p + m.1, p + m.2) :: ms, .cons _ _ _ hb ?_, ?_⟩
        · rw [if_pos (by simp only; omega)]
          exact ha
        · rw [hf]
          simp [part_slice]

theorem splitFrom_ok {r : Re} {t : Str} (hr : Plain r) (hn : ∀ t i, ¬ At t r i i) (h0 : (0 : Byte) ∉ t) : ∀ (n p : Nat),
    p ≤ t.length → t.length < n + p → ∃ ms, All t r p ms ∧ splitFrom r t n p = .ok (gaps t p ms)
  | 0, p, h1, h2 => by omega
  | n + 1, p, h1, h2 => by
    rw [splitFrom, if_neg (by omega), cstr_eq (not_mem_drop h0 p)]
    cases hm : regexec r (t.drop p) with
    | none => exact ⟨[], .nil p (rest_none hr hm), rfl⟩
    | some m =>
      obtain ⟨hb, he⟩ := rest_some hr h1 hm
      have hle := hb.1.le
      simp only at hle
      have h : ¬ m.2 = 0 := by
        intro h
        have hm1 : m.1 = 0 := by omega
        have := hb.1
        simp only [h, hm1] at this
        exact hn _ _ this
      simp only [if_neg h]
      obtain ⟨ms, ha, hf⟩ := splitFrom_ok hr hn h0 n (p + m.2) (by omega) (by omega)
      refine ⟨(p + m.1, p + m.2) :: ms, .cons _ _ _ hb ?_, ?_⟩
      · have : m.1 < m.2 := by omega
        rw [if_pos (by simp only; omega)]
        exact ha
      · rw [hf]
        simp [part_slice, gaps]

theorem All.from_le {t : Str} {r : Re} {p : Nat} {ms : List (Nat × Nat)} (h : All t r p ms) : ∀ m ∈ ms.head?, p ≤ m.1 := by
  cases h with
  | nil => simp
  | cons _ m ms hm _ =>
    intro m' hm'
    simp only [List.head?_cons, Option.mem_def, Option.some.injEq] at hm'
    subst hm'
    exact hm.2.1

theorem join_cons (sep s : Str) (l : List Str) (h : l ≠ []) : join sep (s :: l) = s ++ sep ++ join sep l := by
  cases l with
  | nil => exact absurd rfl h
  | cons a l => rfl

theorem gaps_ne (t : Str) (p : Nat) (ms : List (Nat × Nat)) : gaps t p ms ≠ [] := by
  cases ms <;> simp [gaps]

theorem join_gaps_step (t repl : Str) {p : Nat} {c : Byte} (hc : t[p]? = some c) {ms : List (Nat × Nat)}
    (h : ∀ m ∈ ms.head?, p + 1 ≤ m.1) : join repl (gaps t p ms) = c :: join repl (gaps t (p + 1) ms) := by
  obtain ⟨hp, rfl⟩ := List.getElem?_eq_some_iff.1 hc
  cases ms with
  | nil => exact List.drop_eq_getElem_cons hp
  | cons m ms =>
    have h := h m (by simp)
    have : part t (p, m.1) = t[p] :: part t (p + 1, m.1) := by
      simp only [part]
      rw [List.drop_eq_getElem_cons hp, show m.1 - p = (m.1 - (p + 1)) + 1 by omega, List.take_succ_cons]
    rw [gaps, gaps, join_cons _ _ _ (gaps_ne _ _ _), join_cons _ _ _ (gaps_ne _ _ _), this]
    rfl

theorem put_ok {cap : Nat} {out bs : Str} (h : out.length + bs.length ≤ cap) : put cap out bs = .ok (out ++ bs) := if_pos h

theorem replaceFrom_ok {r : Re} {t repl : Str} (hr : Plain r) (h0 : (0 : Byte) ∉ t) : ∀ (n p : Nat) (out : Str),
    p ≤ t.length → t.length < n + p → ∃ ms, All t r p ms ∧
      (out.length + (join repl (gaps t p ms)).length < resCap - patCap →
        replaceFrom r t repl n p out = .ok (out ++ join repl (gaps t p ms)))
  | 0, p, out, h1, h2 => by omega
  | n + 1, p, out, h1, h2 => by
    rw [replaceFrom, if_neg (by omega), cstr_eq (not_mem_drop h0 p)]
    have hcap : resCap = 16384 := rfl
    have hcap' : resCap - patCap = 12288 := rfl
    rw [hcap']
    cases hm : regexec r (t.drop p) with
    | none =>
      refine ⟨[], .nil p (rest_none hr hm), fun hlen => ?_⟩
      have hlen : out.length + (t.drop p).length < 12288 := hlen
      exact put_ok (by omega)
    | some m =>
      obtain ⟨hb, he⟩ := rest_some hr h1 hm
      have hle := hb.1.le
      simp only at hle
      by_cases h : m.2 = 0
      · have hm1 : m.1 = 0 := by omega
        simp only [if_pos h]
        cases hc : (t.drop p).head? with
        | none =>
          have hp : t.length ≤ p := by
            rw [List.head?_eq_none_iff] at hc
            exact List.drop_eq_nil_iff.1 hc
          refine ⟨[(p + m.1, p + m.2)], .cons _ _ _ hb (.nil _ fun i j hi hij => ?_), fun hlen => ?_⟩
          · have := hij.le
            rw [if_neg (by simp [hm1, h])] at hi
            omega
          · have e : join repl (gaps t p [(p + m.1, p + m.2)]) = repl := by
              simp [gaps, join, hm1, h, part, List.drop_eq_nil_iff.2 hp]
            rw [e] at hlen ⊢
            rw [if_pos (by omega), hm1, Nat.add_zero, part_slice, show part t (p, p) = [] by simp [part],
              put_ok (by simp; omega), Outcome.bind_ok, put_ok (by simp; omega), Outcome.bind_ok, put_ok (by simp; omega)]
            simp
        | some c =>
          have hc' : t[p]? = some c := by rw [List.head?_drop] at hc; exact hc
          have hp := (List.getElem?_eq_some_iff.1 hc').1
          obtain ⟨ms, ha, hf⟩ := replaceFrom_ok hr h0 n (p + 1) (out ++ repl ++ [c]) (by omega) (by omega)
          refine ⟨(p + m.1, p + m.2) :: ms, .cons _ _ _ hb ?_, fun hlen => ?_⟩
          · rw [if_neg (by simp [hm1, h]), h]
            exact ha
          · have e : join repl (gaps t p ((p + m.1, p + m.2) :: ms)) = repl ++ c :: join repl (gaps t (p + 1) ms) := by
              rw [gaps, join_cons _ _ _ (gaps_ne _ _ _), ← join_gaps_step t repl hc' ha.from_le, hm1, h]
              simp [part]
            rw [e] at hlen ⊢
            simp only [List.length_append, List.length_cons] at hlen
            rw [if_pos (by omega), hm1, Nat.add_zero, part_slice, show part t (p, p) = [] by simp [part],
              put_ok (by simp; omega), Outcome.bind_ok, put_ok (by simp; omega), Outcome.bind_ok]
            simp only
            rw [put_ok (by simp; omega), Outcome.bind_ok, List.append_nil, hf (by simp; omega)]
            simp
      · simp only [if_neg h]
        obtain ⟨ms, ha, hf⟩ := replaceFrom_ok hr h0 n (p + m.2) (out ++ part t (p, p + m.1) ++ repl) (by omega) (by omega)
        refine ⟨(p + m.1, p + m.2) :: ms, .cons _ _ _ hb ?_, fun hlen => ?_⟩
        · rw [if_pos (by simp only; omega)]
          exact ha
        · rw [gaps, join_cons _ _ _ (gaps_ne _ _ _)] at hlen ⊢
          simp only [List.length_append] at hlen
          rw [if_pos (by omega), part_slice, put_ok (by omega), Outcome.bind_ok, put_ok (by simp; omega), Outcome.bind_ok,
            hf (by simp; omega)]
          simp

theorem compile_eq {comp : Str → Option Re} {pat : Str} (h1 : pat.length < 4096) (h2 : (0 : Byte) ∉ pat) :
    compile comp pat = comp pat := by
  rw [compile, toBuf_eq (n := patCap) h1, cstr_eq h2]

/-- An expression for one byte. -/
def one (b : Byte) : Re := .set fun c => c == b

theorem one_at {t : Str} {b : Byte} {i j : Nat} : At t (one b) i j ↔ t[i]? = some b ∧ j = i + 1 := by
  constructor
  · intro h
    cases h with
    | set _ _ c hc hp => exact ⟨by rw [hc, eq_of_beq hp], rfl⟩
  · rintro ⟨h, rfl⟩
    exact .set _ i b h (by simp)

theorem one_none {t : Str} {b : Byte} (h : b ∉ t) : regexec (one b) t = none :=
  regexec_of_none fun _ _ h' => h (List.mem_of_getElem? (one_at.1 h').1)

theorem one_head (b : Byte) (t : Str) : regexec (one b) (b :: t) = some (0, 1) := by
  refine regexec_of_best ⟨one_at.2 ⟨rfl, rfl⟩, Nat.le_refl _, fun i j _ h => ?_⟩
  have := (one_at.1 h).2
  rcases Nat.eq_zero_or_pos i with rfl | h'
  · exact .inr ⟨rfl, by show j ≤ 1; omega⟩
  · exact .inl h'

end Rx

open Rx

/-! ## Finding -/

/-- A valid pattern matches exactly the texts in which it matches a part, and `find` gives the part that
begins first and of those the longest, or the empty string. -/
def C137_statement : Prop :=
  ∀ (comp : Str → Option Re) (pat text : Str) (r : Re), comp pat = some r →
    (isMatch comp pat text = true ↔ ∃ i j, At text r i j) ∧ (∀ m, Best text r 0 m → find comp pat text = part text m) ∧
    ((¬ ∃ i j, At text r i j) → find comp pat text = [])

/-- Only the first 8191 bytes are looked at. -/
theorem C137_witness (comp : Str → Option Re) (pat text : Str) (hc : comp (cstr (toBuf patCap pat)) = some (one 98))
    (hl : text.length = 8191) (hb : (98 : Byte) ∉ text) :
    isMatch comp pat (text ++ [98]) = false ∧ find comp pat (text ++ [98]) = [] := by
  have h : toBuf txtCap (text ++ [98]) = text := List.take_left' hl
  have h' : regexec (one 98) (cstr text) = none := one_none fun hm => hb ((List.takeWhile_sublist _).subset hm)
  have hc' : compile comp pat = some (one 98) := hc
  constructor
  · simp only [isMatch, hc', h, h', Option.isSome_none]
  · simp only [find, hc', h, h']

/-- Nor is anything after a NUL. -/
theorem C137_nul_witness : isMatch (fun _ => some (one 98)) [98] [97, 0, 98] = false := by decide

theorem C137_fails : ¬ C137_statement := by
  intro h
  have := ((h (fun _ => some (one 98)) [98] [97, 0, 98] (one 98) rfl).1).2 ⟨2, 3, one_at.2 ⟨rfl, rfl⟩⟩
  rw [C137_nul_witness] at this
  cases this

/-- **C137** for texts of at most 8191 and patterns of at most 4095 bytes without NUL.  Missing: others. -/
theorem C137_partial (comp : Str → Option Re) (pat text : Str) (r : Re) (hc : comp pat = some r) (hp : pat.length < 4096)
    (hp0 : (0 : Byte) ∉ pat) (ht : text.length < 8192) (ht0 : (0 : Byte) ∉ text) :
    (isMatch comp pat text = true ↔ ∃ i j, At text r i j) ∧ (∀ m, Best text r 0 m → find comp pat text = part text m) ∧
    ((¬ ∃ i j, At text r i j) → find comp pat text = []) := by
  have hcm : compile comp pat = some r := (compile_eq hp hp0).trans hc
  have e : cstr (toBuf txtCap text) = text := by rw [toBuf_eq (n := txtCap) ht, cstr_eq ht0]
  simp only [isMatch, find, hcm, e]
  refine ⟨⟨fun h => ?_, fun ⟨i, j, h⟩ => ?_⟩, fun m h => ?_, fun h => ?_⟩
  · obtain ⟨m, hm⟩ := Option.isSome_iff_exists.1 h
    exact ⟨_, _, (regexec_some hm).1⟩
  · cases hr : regexec r text with
    | none => exact absurd h (regexec_none hr _ _)
    | some m => rfl
  · rw [regexec_of_best h, toBuf_eq (n := txtCap) ht]
    exact part_slice _ _ _
  · rw [regexec_of_none fun i j hij => h ⟨i, j, hij⟩]

example : find (fun _ => some (.seq (one 97) (.star (one 98)))) [] [99, 97, 98, 98, 97] = [97, 98, 98] := by decide

/-! ## Finding all -/

/-- `find_all` gives all matches in the text. -/
def C138_statement : Prop :=
  ∀ (comp : Str → Option Re) (pat text : Str) (r : Re), comp pat = some r →
    ∃ ms, All text r 0 ms ∧ findAll comp pat text = .ok (ms.map (part text))

/-- `^a` in `aaa`: found three times. -/
theorem C138_witness : findAll (fun _ => some (.seq .bol (one 97))) [] [97, 97, 97] = .ok [[97], [97], [97]] := by decide

/-- `$` in `a`: found twice. -/
theorem C138_end_witness : findAll (fun _ => some .eol) [] [97] = .ok [[], []] := by decide

/-- A pattern with an empty match, in any text of more than 8191 bytes: the loop leaves the buffer. -/
theorem C138_overread_witness (text : Str) (h : 8192 ≤ text.length) (h0 : (0 : Byte) ∉ text) :
    findAll (fun _ => some .eps) [] text = .ub := by
  have hl : (toBuf txtCap text).length = 8191 := by
    rw [toBuf, List.length_take]
    show min (8192 - 1) _ = _
    omega
  have key : ∀ (n p : Nat), findAllFrom .eps (toBuf txtCap text) text.length n p = .ub := by
    intro n
    induction n with
    | zero => exact fun _ => rfl
    | succ n ih =>
      intro p
      rw [findAllFrom]
      by_cases hp : (toBuf txtCap text).length < p
      · exact if_pos hp
      · rw [if_neg hp]
        have : regexec .eps (cstr ((toBuf txtCap text).drop p)) = some (0, 0) := by
          refine regexec_of_best ⟨.eps 0 (Nat.zero_le _), Nat.le_refl _, fun i j _ h => ?_⟩
          cases h with
          | eps _ _ =>
            rcases Nat.eq_zero_or_pos i with rfl | h'
            · exact .inr ⟨rfl, Nat.le_refl _⟩
            · exact .inl h'
        simp only [this, if_true]
        rw [if_neg (by omega), ih]
        rfl
  exact key _ _

theorem C138_fails : ¬ C138_statement := by
  intro h
  obtain ⟨ms, ha, hf⟩ := h (fun _ => some .eol) [] [97] .eol rfl
  rw [C138_end_witness] at hf
  have ha' : All [97] .eol 0 [(1, 1)] := by
    refine .cons _ _ _ ⟨.eol, Nat.zero_le _, fun i j _ h => ?_⟩ (.nil _ fun i j hi h => ?_)
    · cases h
      exact .inr ⟨rfl, Nat.le_refl _⟩
    · have := h.le
      simp at hi this
      omega
  cases all_unique ha ha'
  cases hf

/-- **C138** for texts of at most 8191 and patterns of at most 4095 bytes without NUL, and expressions without
`^`, without `$` or without empty matches.  Missing: others. -/
theorem C138_partial (comp : Str → Option Re) (pat text : Str) (r : Re) (hc : comp pat = some r) (hp : pat.length < 4096)
    (hp0 : (0 : Byte) ∉ pat) (ht : text.length < 8192) (ht0 : (0 : Byte) ∉ text) (hr : Plain r) :
    ∃ ms, All text r 0 ms ∧ findAll comp pat text = .ok (ms.map (part text)) := by
  have hcm : compile comp pat = some r := (compile_eq hp hp0).trans hc
  obtain ⟨ms, ha, hf⟩ := findAllFrom_ok hr ht0 (text.length + 1) 0 (Nat.zero_le _) (by omega)
  refine ⟨ms, ha, ?_⟩
  simp only [findAll, hcm, toBuf_eq (n := txtCap) ht]
  exact hf

example : Plain (.star (one 97)) ∧ findAll (fun _ => some (.star (one 97))) [] [97, 97, 98, 97] = .ok [[97, 97], [], [97], []] :=
  ⟨⟨trivial, .inl trivial⟩, by decide⟩

/-! ## Replacing -/

/-- `replace` replaces all matches in the text. -/
def C139_statement : Prop :=
  ∀ (comp : Str → Option Re) (pat text repl : Str) (r : Re), comp pat = some r →
    ∃ ms, All text r 0 ms ∧ replace comp pat text repl = .ok (join repl (gaps text 0 ms))

namespace Rx

theorem rep_step (t repl out : Str) (n p : Nat) (rest : Str) (ht : t.drop p = 97 :: rest) (ho : out.length < 12288) :
    replaceFrom (one 97) t repl (n + 1) p out =
      (put resCap out [] >>= fun out => put resCap out repl >>= fun out => replaceFrom (one 97) t repl n (p + 1) out) := by
  have hp : p < t.length := by
    have := congrArg List.length ht
    simp at this
    omega
  have hc : cstr (97 :: rest) = 97 :: cstr rest := by
    rw [cstr, List.takeWhile_cons_of_pos (by decide)]
    rfl
  rw [replaceFrom, if_neg (by omega), ht, hc, one_head]
  simp only
  rw [if_pos (show out.length < resCap - patCap from ho), Nat.add_zero, part_slice, show part t (p, p) = [] by simp [part]]
  rfl

theorem rep_stop (t repl out : Str) (n p : Nat) (hp : p ≤ t.length) (h0 : (0 : Byte) ∉ t)
    (h : (97 : Byte) ∉ t.drop p ∨ 12288 ≤ out.length) :
    replaceFrom (one 97) t repl (n + 1) p out = put resCap out (t.drop p) := by
  rw [replaceFrom, if_neg (by omega), cstr_eq (not_mem_drop h0 p)]
  rcases h with h | h
  · rw [one_none h]
  · cases regexec (one 97) (t.drop p) with
    | none => rfl
    | some m =>
      simp only
      rw [if_neg (show ¬ out.length < resCap - patCap from Nat.not_lt.2 h)]

/-- Four matches, each replaced by `repl` of 4095 bytes. -/
theorem rep_four (t repl : Str) (n : Nat) (rest : Str) (ht : t = 97 :: 97 :: 97 :: 97 :: rest) (hr : repl.length = 4095) :
    replaceFrom (one 97) t repl (n + 4) 0 [] = replaceFrom (one 97) t repl n 4 (repl ++ repl ++ repl ++ repl) := by
  have hcap : resCap = 16384 := rfl
  subst ht
  rw [rep_step _ _ _ _ 0 (97 :: 97 :: 97 :: rest) rfl (by simp), put_ok (by simp), Outcome.bind_ok,
    put_ok (by simp; omega), Outcome.bind_ok, List.nil_append, List.nil_append,
    rep_step _ _ _ _ 1 (97 :: 97 :: rest) rfl (by omega), put_ok (by simp; omega), Outcome.bind_ok,
    put_ok (by simp; omega), Outcome.bind_ok, List.append_nil,
    rep_step _ _ _ _ 2 (97 :: rest) rfl (by simp; omega), put_ok (by simp; omega), Outcome.bind_ok,
    put_ok (by simp; omega), Outcome.bind_ok, List.append_nil,
    rep_step _ _ _ _ 3 rest rfl (by simp; omega), put_ok (by simp; omega), Outcome.bind_ok,
    put_ok (by simp; omega), Outcome.bind_ok, List.append_nil]

end Rx

/-- `a` replaced by a text of 4095 bytes, in `aaaa` followed by 4000 bytes: the buffer overflows. -/
theorem C139_overflow_witness (rest repl : Str) (hs : rest.length = 4000) (hs0 : (0 : Byte) ∉ rest) (hr : repl.length = 4095)
    (h0 : (0 : Byte) ∉ repl) : replace (fun _ => some (one 97)) [97] (97 :: 97 :: 97 :: 97 :: rest) repl = .ub := by
  have hn : (0 : Byte) ∉ (97 :: 97 :: 97 :: 97 :: rest : Str) := by
    simp only [List.mem_cons, not_or]
    exact ⟨by decide, by decide, by decide, by decide, hs0⟩
  have hlen : (97 :: 97 :: 97 :: 97 :: rest : Str).length = 4004 := by simp only [List.length_cons, hs]
  have hb : toBuf txtCap (97 :: 97 :: 97 :: 97 :: rest) = 97 :: 97 :: 97 :: 97 :: rest := toBuf_eq (by rw [hlen]; decide)
  have hb' : toBuf patCap repl = repl := toBuf_eq (by rw [hr]; decide)
  have hcap : resCap = 16384 := rfl
  simp only [replace, compile, hb, hb', cstr_eq h0]
  rw [hlen, show 4004 + 1 = (4000 + 1) + 4 from rfl, rep_four _ _ _ _ rfl hr,
    rep_stop _ _ _ _ _ (by rw [hlen]; decide) hn (.inr (by simp only [List.length_append, hr]; decide))]
  refine if_neg ?_
  simp only [List.length_append, List.length_drop, hlen, hr, hcap]
  decide

/-- `a` replaced by a text of 4095 bytes, in `aaaaa`: the fifth stays. -/
theorem C139_witness (repl : Str) (hr : repl.length = 4095) (h0 : (0 : Byte) ∉ repl) :
    replace (fun _ => some (one 97)) [97] [97, 97, 97, 97, 97] repl = .ok (repl ++ repl ++ repl ++ repl ++ [97]) := by
  have hb : toBuf txtCap [97, 97, 97, 97, 97] = [97, 97, 97, 97, 97] := toBuf_eq (by decide)
  have hb' : toBuf patCap repl = repl := toBuf_eq (by rw [hr]; decide)
  have hcap : resCap = 16384 := rfl
  simp only [replace, compile, hb, hb', cstr_eq h0]
  rw [show ([97, 97, 97, 97, 97] : Str).length + 1 = (1 + 1) + 4 from rfl, rep_four _ _ _ [97] rfl hr,
    rep_stop _ _ _ _ _ (by decide) (by decide) (.inr (by simp only [List.length_append, hr]; decide))]
  refine put_ok ?_
  simp only [List.length_append, hr, hcap]
  decide

/-- `^a` in `aa` replaced by `x`. -/
theorem C139_anchor_witness : replace (fun _ => some (.seq .bol (one 97))) [] [97, 97] [120] = .ok [120, 120] := by decide

theorem C139_fails : ¬ C139_statement := by
  intro h
  have hr : ∀ n b, (List.replicate n (b : Byte)).length = n := fun _ _ => List.length_replicate
  have h0 : ∀ n, (0 : Byte) ∉ List.replicate n (120 : Byte) := fun n h => by
    have := List.eq_of_mem_replicate h
    revert this
    decide
  obtain ⟨rest, hs, hs0⟩ : ∃ rest : Str, rest.length = 4000 ∧ (0 : Byte) ∉ rest := ⟨_, hr 4000 120, h0 4000⟩
  obtain ⟨repl, hl, hl0⟩ : ∃ repl : Str, repl.length = 4095 ∧ (0 : Byte) ∉ repl := ⟨_, hr 4095 120, h0 4095⟩
  obtain ⟨ms, _, hf⟩ := h (fun _ => some (one 97)) [97] (97 :: 97 :: 97 :: 97 :: rest) repl (one 97) rfl
  rw [C139_overflow_witness _ _ hs hs0 hl hl0] at hf
  cases hf

/-- **C139** for texts of at most 8191 bytes, patterns and replacements of at most 4095 bytes, all without NUL,
expressions without `^`, without `$` or without empty matches, and results of less than 12288 bytes.
Missing: others. -/
theorem C139_partial (comp : Str → Option Re) (pat text repl : Str) (r : Re) (hc : comp pat = some r) (hp : pat.length < 4096)
    (hp0 : (0 : Byte) ∉ pat) (ht : text.length < 8192) (ht0 : (0 : Byte) ∉ text) (hl : repl.length < 4096)
    (hl0 : (0 : Byte) ∉ repl) (hr : Plain r) :
    ∃ ms, All text r 0 ms ∧ ((join repl (gaps text 0 ms)).length < 12288 →
      replace comp pat text repl = .ok (join repl (gaps text 0 ms))) := by
  have hcm : compile comp pat = some r := (compile_eq hp hp0).trans hc
  obtain ⟨ms, ha, hf⟩ := replaceFrom_ok (repl := repl) hr ht0 (text.length + 1) 0 [] (Nat.zero_le _) (by omega)
  refine ⟨ms, ha, fun hlen => ?_⟩
  simp only [replace, hcm, toBuf_eq (n := txtCap) ht, toBuf_eq (n := patCap) hl, cstr_eq hl0]
  rw [hf (by simp only [List.length_nil, Nat.zero_add]; exact hlen)]
  rfl

example : replace (fun _ => some (.star (one 97))) [] [97, 97, 98, 99] [45] = .ok [45, 45, 98, 45, 99, 45] := by decide

/-! ## Splitting -/

/-- `split` gives the parts before, between and after the matches. -/
def C140_statement : Prop :=
  ∀ (comp : Str → Option Re) (pat text : Str) (r : Re), comp pat = some r →
    ∃ ms, All text r 0 ms ∧ split comp pat text = .ok (gaps text 0 ms)

/-- `x*` in `abc`: nothing of the text is left. -/
theorem C140_witness : split (fun _ => some (.star (one 120))) [] [97, 98, 99] = .ok [[], [], [], [], []] := by decide

theorem C140_fails : ¬ C140_statement := by
  intro h
  obtain ⟨ms, ha, hf⟩ := h (fun _ => some .eps) [] [97] .eps rfl
  have hb : ∀ p, p ≤ 1 → Best [97] .eps p (p, p) := fun p hp => by
    refine ⟨.eps p hp, Nat.le_refl _, fun i j hi h => ?_⟩
    cases h
    rcases Nat.eq_or_lt_of_le hi with e | e
    · exact .inr ⟨e, Nat.le_of_eq e.symm⟩
    · exact .inl e
  have ha' : All [97] .eps 0 [(0, 0), (1, 1)] :=
    .cons _ _ _ (hb 0 (by decide)) (.cons _ _ _ (hb 1 (by decide)) (.nil _ fun i j hi h => by
      have := h.le
      simp at hi this
      omega))
  cases all_unique ha ha'
  revert hf
  decide

/-- **C140** for texts of at most 8191 and patterns of at most 4095 bytes without NUL, and expressions without
`^` and without empty matches.  Missing: others. -/
theorem C140_partial (comp : Str → Option Re) (pat text : Str) (r : Re) (hc : comp pat = some r) (hp : pat.length < 4096)
    (hp0 : (0 : Byte) ∉ pat) (ht : text.length < 8192) (ht0 : (0 : Byte) ∉ text) (hr : noBol r)
    (hn : ∀ t i, ¬ At t r i i) :
    ∃ ms, All text r 0 ms ∧ split comp pat text = .ok (gaps text 0 ms) := by
  have hcm : compile comp pat = some r := (compile_eq hp hp0).trans hc
  obtain ⟨ms, ha, hf⟩ := splitFrom_ok ⟨hr, .inr hn⟩ hn ht0 (text.length + 1) 0 (Nat.zero_le _) (by omega)
  refine ⟨ms, ha, ?_⟩
  simp only [split, hcm, toBuf_eq (n := txtCap) ht]
  exact hf

example : (∀ t i, ¬ At t (one 44) i i) ∧ split (fun _ => some (one 44)) [] [97, 44, 44, 98] = .ok [[97], [], [98]] :=
  ⟨fun t i h => by have := (one_at.1 h).2; omega, by decide⟩

end Verif.Props

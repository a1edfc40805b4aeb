import Verif.Props.LexText
import Verif.Props.LexPlace
import Verif.Model.Fmt

/-! C53 and C54: the formatter. -/
namespace Verif.Props
open Verif Verif.Str Verif.Lexer Verif.Fmt

namespace Fm

/-! ### Tokens inside a line -/

/-- Error tokens. -/
def Bad (k : Kind) : Prop := ∃ e, k = .illegal e

/-- The token at the beginning of a line does not depend on the lines that follow. -/
def Plain (L : Str) : Prop := ∀ u : Str,
  ∃ k t L', token L = (k, t, L') ∧ L' <:+ L ∧ token (L ++ 10 :: u) = (k, t, L' ++ 10 :: u)

/-- The same unless it is an error or holds the line break. -/
def Local (L : Str) : Prop := ∀ u : Str,
  (∃ k t L', token L = (k, t, L') ∧ L' <:+ L ∧ token (L ++ 10 :: u) = (k, t, L' ++ 10 :: u)) ∨
  (Bad (token L).1 ∧ (Bad (token (L ++ 10 :: u)).1 ∨ 10 ∈ (token (L ++ 10 :: u)).2.1))

theorem at0_app {b : Byte} (h0 : b ≠ 0) (h10 : b ≠ 10) {L u : Str} {i : Nat} (hi : i ≤ L.length) :
    at0 (L ++ 10 :: u) i = b ↔ at0 L i = b := by
  unfold at0
  by_cases h : i < L.length
  · rw [List.getElem?_append_left h]
  · have : i = L.length := by omega
    subst this
    rw [List.getElem?_append_right (Nat.le_refl _), Nat.sub_self, List.getElem?_eq_none (Nat.le_refl _)]
    exact ⟨fun h => absurd h.symm h10, fun h => absurd h.symm h0⟩

theorem drop_app {L : Str} {n : Nat} (h : n ≤ L.length) (u : Str) : (L ++ 10 :: u).drop n = L.drop n ++ 10 :: u :=
  List.drop_append_of_le_length h

theorem while_app {p : Byte → Bool} (hp : p 10 = false) (u : Str) : ∀ L : Str,
    (L ++ 10 :: u).takeWhile p = L.takeWhile p ∧ (L ++ 10 :: u).dropWhile p = L.dropWhile p ++ 10 :: u
  | [] => ⟨List.takeWhile_cons_of_neg (by rw [hp]; decide), List.dropWhile_cons_of_neg (by rw [hp]; decide)⟩
  | c :: L => by
    obtain ⟨h1, h2⟩ := while_app hp u L
    by_cases h : p c = true
    · rw [List.cons_append, List.takeWhile_cons_of_pos h, List.dropWhile_cons_of_pos h, List.takeWhile_cons_of_pos h,
        List.dropWhile_cons_of_pos h, h1, h2]
      exact ⟨rfl, rfl⟩
    · rw [List.cons_append, List.takeWhile_cons_of_neg h, List.dropWhile_cons_of_neg h, List.takeWhile_cons_of_neg h,
        List.dropWhile_cons_of_neg h]
      exact ⟨rfl, rfl⟩

/-- A token function that sees the end of the line as the end of the text. -/
def Same (f : Str → Kind × Str × Str) (L : Str) : Prop := ∀ u : Str,
  ∃ k t L', f L = (k, t, L') ∧ f (L ++ 10 :: u) = (k, t, L' ++ 10 :: u)

theorem same_two {c : Byte} {M : Str} {b : Byte} (h0 : b ≠ 0) (h10 : b ≠ 10) (x y : String) :
    Same (fun s => two s b x y) (c :: M) := fun u => by
  dsimp only
  unfold two
  by_cases h : at0 (c :: M) 1 = b
  · have hl : 2 ≤ (c :: M).length := by
      cases M with
      | nil => exact absurd h.symm h0
      | cons d M => simp
    rw [if_pos h, if_pos ((at0_app h0 h10 (by omega)).2 h), drop_app hl]
    exact ⟨_, _, _, rfl, rfl⟩
  · rw [if_neg h, if_neg (fun h1 => h ((at0_app h0 h10 (by simp)).1 h1)), drop_app (by simp)]
    exact ⟨_, _, _, rfl, rfl⟩

theorem same_one (c : Byte) (M : Str) (x : String) : Same (fun s => one s x) (c :: M) := fun u =>
  ⟨_, _, _, rfl, rfl⟩

theorem same_if {p : Str → Prop} [DecidablePred p] {f g : Str → Kind × Str × Str} {L : Str}
    (hp : ∀ u, p (L ++ 10 :: u) ↔ p L) (hf : p L → Same f L) (hg : ¬ p L → Same g L) :
    Same (fun s => if p s then f s else g s) L := fun u => by
  dsimp only
  by_cases h : p L
  · rw [if_pos h, if_pos ((hp u).2 h)]; exact hf h u
  · rw [if_neg h, if_neg (fun h1 => h ((hp u).1 h1))]; exact hg h u

theorem same_long {c : Byte} {M : Str} {n : Nat} {b : Byte} (h0 : b ≠ 0) (h : at0 (c :: M) n = b) (k : Kind) (t : Str) :
    Same (fun s => (k, t, s.drop (n + 1))) (c :: M) := fun u => by
  have hl : n + 1 ≤ (c :: M).length := by
    by_contra hlt
    rw [at0, List.getElem?_eq_none (by omega)] at h
    exact h0 h.symm
  exact ⟨_, _, _, rfl, by dsimp only; rw [drop_app hl]⟩

theorem same_word (L : Str) : Same (fun s => (lookupWord (readWord s).1, (readWord s).1, (readWord s).2)) L := fun u => by
  obtain ⟨h1, h2⟩ := while_app (p := isWordByte) (by decide) u L
  exact ⟨_, _, _, rfl, by simp only [readWord, h1, h2]⟩

theorem same_prefixed {ok : Byte → Bool} (hok : ok 10 = false) (c d : Byte) (M : Str) :
    Same (readPrefixed ok) (c :: d :: M) := fun u => by
  obtain ⟨h1, h2⟩ := while_app (p := fun c => ok c || c == 95) (by rw [hok]; decide) u M
  refine ⟨_, _, _, rfl, ?_⟩
  unfold readPrefixed
  dsimp only
  rw [show List.drop 2 (c :: d :: M ++ 10 :: u) = M ++ 10 :: u from rfl, h1, h2]
  rfl

theorem same_decimal (L : Str) : Same readDecimal L := fun u => by
  obtain ⟨h1, h2⟩ := while_app (p := isDigitU) (by decide) u L
  unfold readDecimal
  dsimp only
  rw [h1, h2]
  cases hd : L.dropWhile isDigitU with
  | nil => exact ⟨_, _, _, rfl, rfl⟩
  | cons c r =>
    by_cases hc : c = 46
    · subst hc
      obtain ⟨h3, h4⟩ := while_app (p := isDigitU) (by decide) u r
      have e : pointNext (at0 (r ++ 10 :: u) 0) = pointNext (at0 r 0) := by cases r <;> rfl
      show ∃ k t L', (if pointNext (at0 r 0) = true then _ else _) = _ ∧ (if pointNext (at0 (r ++ 10 :: u) 0) = true then _ else _) = _
      rw [e]
      by_cases hp : pointNext (at0 r 0) = true
      · rw [if_pos hp, if_pos hp]
        exact ⟨_, _, _, rfl, by dsimp only [List.append_eq]; rw [h3, h4]⟩
      · rw [if_neg hp, if_neg hp]
        exact ⟨_, _, _, rfl, rfl⟩
    · refine ⟨.int, L.takeWhile isDigitU, c :: r, ?_, ?_⟩
      · split
        · next h => cases h; exact absurd rfl hc
        · rfl
      · split
        · next h => cases h; exact absurd rfl hc
        · rfl

theorem same_number (c : Byte) (M : Str) : Same readNumber (c :: M) := by
  have pre : ∀ {p : Str → Prop} [DecidablePred p] {a b : Byte} {ok : Byte → Bool} {g : Str → Kind × Str × Str},
      ok 10 = false → a ≠ 0 → a ≠ 10 → b ≠ 0 → b ≠ 10 →
      (∀ s, p s ↔ (at0 s 0 = 48 ∧ (at0 s 1 = a ∨ at0 s 1 = b))) → Same g (c :: M) →
      Same (fun s => if p s then readPrefixed ok s else g s) (c :: M) := by
    intro p _ a b ok g hok ha ha' hb hb' hp hg
    refine same_if (fun u => ?_) (fun h => ?_) (fun _ => hg)
    · rw [hp, hp, at0_app ha ha' (by simp), at0_app hb hb' (by simp)]; rfl
    · have h := ((hp _).1 h).2
      cases M with
      | nil => exact absurd h (by rintro (h | h); exacts [ha h.symm, hb h.symm])
      | cons d M => exact same_prefixed hok c d M
  unfold readNumber
  refine pre (a := 120) (b := 88) (by decide) (by decide) (by decide) (by decide) (by decide) (fun _ => Iff.rfl) ?_
  refine pre (a := 111) (b := 79) (by decide) (by decide) (by decide) (by decide) (by decide) (fun _ => Iff.rfl) ?_
  refine pre (a := 98) (b := 66) (by decide) (by decide) (by decide) (by decide) (by decide) (fun _ => Iff.rfl) ?_
  intro u
  obtain ⟨k, t, L', h1, h2⟩ := same_decimal (c :: M) u
  dsimp only
  rw [h1, h2]
  dsimp only
  cases numberCheck t with
  | none => exact ⟨_, _, _, rfl, rfl⟩
  | some e => exact ⟨_, _, _, rfl, rfl⟩

theorem prefix_app {a L u : Str} (ha : 10 ∉ a) : a.isPrefixOf (L ++ 10 :: u) = a.isPrefixOf L := by
  induction a generalizing L with
  | nil => simp
  | cons x a ih =>
    simp only [List.mem_cons, not_or] at ha
    cases L with
    | nil =>
      have : (x == 10) = false := by simpa using fun h : x = 10 => ha.1 h.symm
      show (x == 10 && a.isPrefixOf u) = false
      rw [this]; rfl
    | cons y L =>
      rw [List.cons_append, List.isPrefixOf, List.isPrefixOf, ih ha.2]

theorem same_attr (M : Str) : Same (fun s => match attrs.find? (fun a => a.isPrefixOf s) with
    | some a => (.sym a, a, s.drop a.length)
    | none => (.illegal "E1019", s.take 1, s.drop 1)) (35 :: M) := fun u => by
  have key : ∀ a ∈ attrs, 10 ∉ a := by decide +kernel
  have e : attrs.find? (fun a => a.isPrefixOf (35 :: M ++ 10 :: u)) = attrs.find? (fun a => a.isPrefixOf (35 :: M)) := by
    have : ∀ l : List Str, (∀ a ∈ l, 10 ∉ a) →
        l.find? (fun a => a.isPrefixOf (35 :: M ++ 10 :: u)) = l.find? (fun a => a.isPrefixOf (35 :: M)) := by
      intro l
      induction l with
      | nil => exact fun _ => rfl
      | cons a l ih =>
        intro h
        rw [List.find?_cons, List.find?_cons, prefix_app (h a List.mem_cons_self), ih fun b hb => h b (List.mem_cons_of_mem _ hb)]
    exact this attrs key
  dsimp only
  rw [e]
  cases hf : attrs.find? (fun a => a.isPrefixOf (35 :: M)) with
  | none => exact ⟨_, _, _, rfl, rfl⟩
  | some a =>
    have hp : a <+: 35 :: M := List.isPrefixOf_iff_prefix.1 (List.find?_some (p := fun a : Str => a.isPrefixOf (35 :: M)) hf)
    exact ⟨_, _, _, rfl, by dsimp only; rw [drop_app hp.length_le]⟩

theorem local_of_same {f : Str → Kind × Str × Str} {c : Byte} {M : Str} (h : Same f (c :: M)) (e : ∀ r, token (c :: r) = f (c :: r)) :
    Plain (c :: M) := fun u => by
  obtain ⟨k, t, L', h1, h2⟩ := h u
  refine ⟨k, t, L', (e M).trans h1, ?_, (e _).trans h2⟩
  have := (Lx.token_suffix c M).trans (List.suffix_cons c M)
  rw [e M, h1] at this
  exact this

theorem charEnd_local (t s u : Str) (e : Option String) :
    (∃ L', charEnd t s e = (.char, t, L') ∧ charEnd t (s ++ 10 :: u) e = (.char, t, L' ++ 10 :: u)) ∨
    (Bad (charEnd t s e).1 ∧ Bad (charEnd t (s ++ 10 :: u) e).1) := by
  cases e with
  | some e => exact Or.inr ⟨⟨_, rfl⟩, ⟨_, rfl⟩⟩
  | none =>
    cases s with
    | nil => exact Or.inr ⟨⟨_, rfl⟩, ⟨_, rfl⟩⟩
    | cons c r =>
      by_cases hc : c = 39
      · subst hc
        exact Or.inl ⟨r, rfl, rfl⟩
      · right
        have f : ∀ r, charEnd t (c :: r) none = (.illegal "E1018", t ++ (c :: r).takeWhile (fun c : Byte => c != 39 && c != 10),
            if ((c :: r).dropWhile (fun c : Byte => c != 39 && c != 10)).head? = some 39
            then ((c :: r).dropWhile (fun c : Byte => c != 39 && c != 10)).drop 1
            else (c :: r).dropWhile (fun c : Byte => c != 39 && c != 10)) := fun r => if_neg hc
        rw [List.cons_append, f, f]
        exact ⟨⟨_, rfl⟩, ⟨_, rfl⟩⟩

theorem local_char (M : Str) : Local (39 :: M) := fun u => by
  have e : ∀ r, token (39 :: r) = readChar (39 :: r) := fun _ => rfl
  have suf := (Lx.readChar_suffix 39 M).trans (List.suffix_cons 39 M)
  rw [show 39 :: M ++ 10 :: u = 39 :: (M ++ 10 :: u) from rfl, e, e]
  have done : ∀ (t s : Str) (e : Option String), readChar (39 :: M) = charEnd t s e →
      readChar (39 :: (M ++ 10 :: u)) = charEnd t (s ++ 10 :: u) e →
      (∃ k t L', readChar (39 :: M) = (k, t, L') ∧ L' <:+ 39 :: M ∧ readChar (39 :: (M ++ 10 :: u)) = (k, t, L' ++ 10 :: u)) ∨
      (Bad (readChar (39 :: M)).1 ∧ (Bad (readChar (39 :: (M ++ 10 :: u))).1 ∨ 10 ∈ (readChar (39 :: (M ++ 10 :: u))).2.1)) := by
    intro t s e h1 h2
    rcases charEnd_local t s u e with ⟨L', a, b⟩ | ⟨a, b⟩
    · rw [h1, a] at suf
      exact Or.inl ⟨_, _, L', h1.trans a, suf, h2.trans b⟩
    · rw [h1, h2]
      exact Or.inr ⟨a, Or.inl b⟩
  match M, done with
  | [], _ =>
    refine Or.inr ⟨⟨_, rfl⟩, ?_⟩
    show Bad (charEnd [10] u none).1 ∨ 10 ∈ (charEnd [10] u none).2.1
    cases u with
    | nil => exact Or.inl ⟨_, rfl⟩
    | cons c r =>
      by_cases hc : c = 39
      · subst hc; exact Or.inr List.mem_cons_self
      · left
        show Bad (if c = 39 then _ else _ : Kind × Str × Str).1
        rw [if_neg hc]
        exact ⟨_, rfl⟩
  | c :: r, done =>
    by_cases hc : c = 92
    · subst hc
      match r, done with
      | [], _ => exact Or.inr ⟨⟨_, rfl⟩, Or.inl ⟨"E1007", rfl⟩⟩
      | d :: r, done => exact done [92, d] r _ rfl rfl
    · refine done [c] r none ?_ ?_
      · unfold readChar
        rw [show List.drop 1 (39 :: c :: r) = c :: r from rfl]
        split
        · next h => cases h
        · next h => cases h; exact absurd rfl hc
        · next h => cases h; rfl
      · unfold readChar
        rw [show List.drop 1 (39 :: (c :: r ++ 10 :: u)) = c :: (r ++ 10 :: u) from rfl]
        split
        · next h => cases h
        · next h => cases h; exact absurd rfl hc
        · next h => cases h; rfl

theorem token_plain {c : Byte} (q1 : c ≠ 34) (q2 : c ≠ 96) (q3 : c ≠ 39) (M : Str) : Plain (c :: M) := by
  by_cases hw : (isAlpha c || c == 95) = true
  · exact local_of_same (same_word (c :: M)) fun r => Lx.token_word hw
  by_cases hd : isDigit c = true
  · exact local_of_same (same_number c M) fun r => Lx.token_digit hd
  have tw : ∀ b : Byte, b ≠ 0 → b ≠ 10 → ∀ x y, (∀ r, token (c :: r) = two (c :: r) b x y) → Plain (c :: M) :=
    fun b h0 h10 x y e => local_of_same (same_two h0 h10 x y) e
  have on : ∀ x, (∀ r, token (c :: r) = one (c :: r) x) → Plain (c :: M) := fun x e => local_of_same (same_one c M x) e
  have ill : ∀ x, (∀ r, token (c :: r) = (.illegal x, [c], r)) → Plain (c :: M) := fun x e =>
    local_of_same (f := fun s => (.illegal x, s.take 1, s.drop 1)) (fun u => ⟨_, _, _, rfl, rfl⟩) e
  have lg : ∀ (n : Nat) (b : Byte) (k : Kind) (t : Str) {g : Str → Kind × Str × Str}, b ≠ 0 → b ≠ 10 → n ≤ 1 → Same g (c :: M) →
      Same (fun s => if at0 s n = b then (k, t, s.drop (n + 1)) else g s) (c :: M) := fun n b k t g h0 h10 hn hg =>
    same_if (fun u => at0_app h0 h10 (by simp only [List.length_cons]; omega)) (fun h => same_long h0 h k t) fun _ => hg
  by_cases h : c = 61
  · subst h; exact tw 61 (by decide) (by decide) _ _ fun _ => rfl
  by_cases h : c = 43
  · subst h
    exact local_of_same (lg 1 61 _ _ (by decide) (by decide) (by decide) (same_two (b := 43) (by decide) (by decide) "++" "+")) fun _ => rfl
  by_cases h : c = 45
  · subst h
    exact local_of_same (lg 1 62 _ _ (by decide) (by decide) (by decide)
      (lg 1 61 _ _ (by decide) (by decide) (by decide) (same_two (b := 45) (by decide) (by decide) "--" "-"))) fun _ => rfl
  by_cases h : c = 33
  · subst h
    refine local_of_same (lg 1 61 (.sym (lit "!=")) (lit "!=") (by decide) (by decide) (by decide)
      (same_if (f := fun s => (.sym (lit "not_in"), lit "!in", s.drop 3)) (p := fun s => at0 s 1 = 105 ∧ at0 s 2 = 110 ∧ (s.length ≤ 3 ∨ isAlpha (at0 s 3) = false)) (fun u => ?_) (fun h => ?_)
        fun _ => same_one 33 M "!")) fun _ => rfl
    · rw [at0_app (by decide) (by decide) (by simp)]
      refine and_congr_right fun h1 => ?_
      match M, h1 with
      | d :: M, h1 =>
        rw [at0_app (by decide) (by decide) (by simp)]
        refine and_congr_right fun h2 => ?_
        match M, h2 with
        | b :: M, h2 =>
          cases M with
          | nil => exact ⟨fun _ => Or.inl (by simp), fun _ => Or.inr rfl⟩
          | cons x M => simp [at0]
    · exact same_long (n := 2) (by decide) h.2.1 _ _
  by_cases h : c = 42
  · subst h; exact tw 61 (by decide) (by decide) _ _ fun _ => rfl
  by_cases h : c = 47
  · subst h; exact tw 61 (by decide) (by decide) _ _ fun _ => rfl
  by_cases h : c = 37
  · subst h; exact tw 61 (by decide) (by decide) _ _ fun _ => rfl
  by_cases h : c = 60
  · subst h; exact tw 61 (by decide) (by decide) _ _ fun _ => rfl
  by_cases h : c = 62
  · subst h; exact tw 61 (by decide) (by decide) _ _ fun _ => rfl
  by_cases h : c = 38
  · subst h; exact tw 38 (by decide) (by decide) _ _ fun _ => rfl
  by_cases h : c = 63
  · subst h; exact on _ fun _ => rfl
  by_cases h : c = 124
  · subst h
    exact local_of_same (lg 1 124 _ _ (by decide) (by decide) (by decide)
      (g := fun s => (.illegal "E1020", s.take 1, s.drop 1)) fun u => ⟨_, _, _, rfl, rfl⟩) fun _ => rfl
  by_cases h : c = 44
  · subst h; exact on _ fun _ => rfl
  by_cases h : c = 58
  · subst h; exact on _ fun _ => rfl
  by_cases h : c = 59
  · subst h; exact on _ fun _ => rfl
  by_cases h : c = 40
  · subst h; exact on _ fun _ => rfl
  by_cases h : c = 41
  · subst h; exact on _ fun _ => rfl
  by_cases h : c = 123
  · subst h; exact on _ fun _ => rfl
  by_cases h : c = 125
  · subst h; exact on _ fun _ => rfl
  by_cases h : c = 91
  · subst h; exact on _ fun _ => rfl
  by_cases h : c = 93
  · subst h; exact on _ fun _ => rfl
  by_cases h : c = 46
  · subst h; exact on _ fun _ => rfl
  by_cases h : c = 64
  · subst h; exact on _ fun _ => rfl
  by_cases h : c = 94
  · subst h; exact on _ fun _ => rfl
  by_cases h : c = 35
  · subst h; exact local_of_same (same_attr M) fun _ => rfl
  refine ill "E1022" fun r => ?_
  unfold token
  split
  case h_29 => exact (if_neg hw).trans (if_neg hd)
  all_goals
    rename_i hh
    exact absurd (show c = _ from hh) (by assumption)

/-! ### Texts that differ in blanks at the beginning of lines -/

/-- Equal but for blanks at the beginning of lines and, when `δ` is 1, a line break at the end; the flag tells that the texts start with a line. -/
inductive Re : Nat → Bool → Str → Str → Prop
  | nil (st) : Re 0 st [] []
  | fin (st) : Re 1 st [] [10]
  | byte {δ st c a b} : c ≠ 10 → Re δ false a b → Re δ st (c :: a) (c :: b)
  | lf {δ st a b} : Re δ true a b → Re δ st (10 :: a) (10 :: b)
  | left {δ c a b} : isBlank c = true → Re δ true a b → Re δ true (c :: a) b
  | right {δ c a b} : isBlank c = true → Re δ true a b → Re δ true a (c :: b)

theorem blank_iff {c : Byte} : isBlank c = true ↔ c = 32 ∨ c = 9 := by simp [isBlank]

theorem Re.weaken {δ st a b} (h : Re δ false a b) : Re δ st a b := by
  cases h with
  | nil => exact .nil _
  | fin => exact .fin _
  | byte h1 h2 => exact .byte h1 h2
  | lf h => exact .lf h

theorem Re.count {δ st a b} (h : Re δ st a b) : b.count 10 = a.count 10 + δ := by
  induction h with
  | nil => rfl
  | fin => rfl
  | byte h _ ih => rw [List.count_cons_of_ne h, List.count_cons_of_ne h, ih]
  | lf _ ih => rw [List.count_cons_self, List.count_cons_self, ih]; omega
  | left h _ ih =>
    rw [List.count_cons_of_ne (by rintro rfl; exact absurd h (by decide)), ih]
  | right h _ ih =>
    rw [List.count_cons_of_ne (by rintro rfl; exact absurd h (by decide)), ih]

theorem Re.cons_left {δ c a y} (h : Re δ false (c :: a) y) : ∃ b, y = c :: b ∧
    ((c ≠ 10 ∧ Re δ false a b) ∨ (c = 10 ∧ Re δ true a b)) := by
  cases h with
  | byte h1 h2 => exact ⟨_, rfl, Or.inl ⟨h1, h2⟩⟩
  | lf h => exact ⟨_, rfl, Or.inr ⟨rfl, h⟩⟩

theorem Re.nil_left {δ y} (h : Re δ false [] y) : (y = [] ∧ δ = 0) ∨ (y = [10] ∧ δ = 1) := by
  cases h with
  | nil => exact Or.inl ⟨rfl, rfl⟩
  | fin => exact Or.inr ⟨rfl, rfl⟩

theorem Re.head {δ a b} (h : Re δ false a b) {c : Byte} (hc : c ≠ 10) : a.head? = some c ↔ b.head? = some c := by
  cases h with
  | nil => rfl
  | fin => exact Iff.intro (fun h => nomatch h) fun h => absurd (Option.some.inj h).symm hc
  | byte h1 h2 => rfl
  | lf h => rfl

/-- The first line, and what follows it. -/
theorem Re.split {δ : Nat} : ∀ {a b : Str}, Re δ false a b → ∃ L x y, 10 ∉ L ∧ a = L ++ x ∧ b = L ++ y ∧
    ((x = [] ∧ y = [] ∧ δ = 0) ∨ (x = [] ∧ y = [10] ∧ δ = 1) ∨ ∃ u v, x = 10 :: u ∧ y = 10 :: v ∧ Re δ true u v)
  | [], b, h => by
    rcases h.nil_left with ⟨e, h'⟩ | ⟨e, h'⟩ <;> subst e
    · exact ⟨[], [], [], by simp, rfl, rfl, Or.inl ⟨rfl, rfl, h'⟩⟩
    · exact ⟨[], [], [10], by simp, rfl, rfl, Or.inr (Or.inl ⟨rfl, rfl, h'⟩)⟩
  | c :: a, y, h => by
    obtain ⟨b, rfl, ⟨hc, h'⟩ | ⟨rfl, h'⟩⟩ := h.cons_left
    · obtain ⟨L, x, y, h1, rfl, rfl, h4⟩ := h'.split
      exact ⟨c :: L, x, y, by simp only [List.mem_cons, not_or]; exact ⟨fun h => hc h.symm, h1⟩, rfl, rfl, h4⟩
    · exact ⟨[], 10 :: a, 10 :: b, by simp, rfl, rfl, Or.inr (Or.inr ⟨a, b, rfl, rfl, h'⟩)⟩

theorem Re.append {δ : Nat} {a b x y : Str} {st : Bool} (h : Re 0 st a b) (h2 : ∀ {st}, Re δ st x y) : Re δ st (a ++ x) (b ++ y) := by
  generalize hz : (0 : Nat) = z at h
  induction h with
  | nil => exact h2
  | fin => cases hz
  | byte h1 _ ih => exact .byte h1 (ih hz)
  | lf _ ih => exact .lf (ih hz)
  | left h1 _ ih => exact .left h1 (ih hz)
  | right h1 _ ih => exact .right h1 (ih hz)

theorem Re.join {δ : Nat} {x y : Str} (h : Re δ false x y) : ∀ {L : Str}, 10 ∉ L → Re δ false (L ++ x) (L ++ y)
  | [], _ => h
  | c :: L, hl => by
    simp only [List.mem_cons, not_or] at hl
    exact .byte (fun e => hl.1 e.symm) (Re.join h hl.2)

theorem Re.refl : ∀ (st : Bool) (a : Str), Re 0 st a a
  | st, [] => .nil st
  | st, c :: a => by
    by_cases h : c = 10
    · subst h; exact .lf (Re.refl true a)
    · exact .byte h (Re.refl false a)

theorem Re.same {a b : Str} (h : Re 0 false a b) (ha : 10 ∉ a) : a = b := by
  obtain ⟨L, x, y, h1, rfl, rfl, ⟨rfl, rfl, _⟩ | ⟨_, _, h⟩ | ⟨u, v, rfl, rfl, _⟩⟩ := h.split
  · rfl
  · exact absurd h (by decide)
  · exact absurd (List.mem_append_right _ List.mem_cons_self) ha

/-! ### Skipping and tokens -/

theorem Re.skipLine {δ st a b} (h : Re δ st a b) : Re δ false (skipLine a) (skipLine b) := by
  have ne : ∀ {c : Byte}, c ≠ 10 → ∀ a, Lexer.skipLine (c :: a) = Lexer.skipLine a := fun hc a =>
    List.dropWhile_cons_of_pos (by simpa using hc)
  have bl : ∀ {c : Byte}, isBlank c = true → c ≠ 10 := fun h e => by subst e; exact absurd h (by decide)
  induction h with
  | nil => exact .nil _
  | fin => exact .fin _
  | byte h _ ih => rw [ne h, ne h]; exact ih
  | lf h => exact .lf h
  | left h _ ih => rw [ne (bl h)]; exact ih
  | right h _ ih => rw [ne (bl h)]; exact ih

theorem skipBlock_cons {c : Byte} (h : c ≠ 42) (a : Str) : skipBlock (c :: a) = skipBlock a := by
  rw [skipBlock, if_neg fun e => h e.1]

theorem Re.skipBlock {δ st a b} (h : Re δ st a b) : (skipBlock a = none ∧ skipBlock b = none) ∨
    ∃ x y, skipBlock a = some x ∧ skipBlock b = some y ∧ Re δ false x y := by
  have bl : ∀ {c : Byte}, isBlank c = true → c ≠ 42 := fun h e => by subst e; exact absurd h (by decide)
  induction h with
  | nil => exact Or.inl ⟨rfl, rfl⟩
  | fin => exact Or.inl ⟨rfl, rfl⟩
  | byte h1 h2 ih =>
    next δ st c a b =>
    by_cases hc : c = 42 ∧ a.head? = some 47
    · right
      have hb := (h2.head (by decide)).1 hc.2
      rw [Lexer.skipBlock, if_pos hc, Lexer.skipBlock, if_pos ⟨hc.1, hb⟩]
      match a, hc.2 with
      | x :: a, ha =>
        cases ha
        obtain ⟨b', rfl, ⟨_, h⟩ | ⟨h, _⟩⟩ := h2.cons_left
        · exact ⟨_, _, rfl, rfl, h⟩
        · exact absurd h (by decide)
    · rw [Lexer.skipBlock, if_neg hc, Lexer.skipBlock, if_neg fun h => hc ⟨h.1, (h2.head (by decide)).2 h.2⟩]
      exact ih
  | lf h ih => rw [skipBlock_cons (by decide), skipBlock_cons (by decide)]; exact ih
  | left h _ ih => rw [skipBlock_cons (bl h)]; exact ih
  | right h _ ih => rw [skipBlock_cons (bl h)]; exact ih

/-- The results of skipping in both texts. -/
def SkipRe (δ : Nat) : Option Str → Option Str → Prop
  | none, none => True
  | some [], some [] => True
  | some (c :: x), some y => c ≠ 10 ∧ Re δ false (c :: x) y
  | _, _ => False

theorem Re.skip {δ : Nat} : ∀ (n : Nat) {st : Bool} {a b : Str}, a.length + b.length ≤ n → Re δ st a b →
    SkipRe δ (skip (a.length + 1) a) (skip (b.length + 1) b) := by
  have bl : ∀ {c : Byte}, isBlank c = true → isWs c = true := fun h => by
    rcases blank_iff.1 h with rfl | rfl <;> decide
  intro n
  induction n with
  | zero =>
    intro st a b hn h
    have ha : a = [] := List.length_eq_zero_iff.1 (by omega)
    have hb : b = [] := List.length_eq_zero_iff.1 (by omega)
    subst ha hb
    trivial
  | succ n ih =>
    intro st a b hn h
    have sp : ∀ {c : Byte} (a : Str), isWs c = true → Lexer.skip ((c :: a).length + 1) (c :: a) = Lexer.skip (a.length + 1) a :=
      fun a h => (Lx.skip_space h _ _).trans (Lx.skip_enough (by simp only [List.length_cons]; omega))
    cases h with
    | nil => trivial
    | fin => rw [sp _ (by decide)]; trivial
    | lf h =>
      rw [sp _ (by decide), sp _ (by decide)]
      exact ih (by simp only [List.length_cons] at hn; omega) h
    | left hb h =>
      rw [sp _ (bl hb)]
      exact ih (by simp only [List.length_cons] at hn; omega) h
    | right hb h =>
      rw [sp _ (bl hb)]
      exact ih (by simp only [List.length_cons] at hn; omega) h
    | byte hc h =>
      next c a b =>
      simp only [List.length_cons] at hn
      by_cases hw : isWs c = true
      · rw [sp _ hw, sp _ hw]
        exact ih (by omega) h
      · have hw' : isWs c = false := by simpa using hw
        have ns : ∀ a, skipSpace (c :: a) = c :: a := fun a => List.dropWhile_cons_of_neg hw
        by_cases h1 : c = 47 ∧ a.head? = some 47
        · obtain ⟨rfl, h1⟩ := h1
          match a, h1, hn, h with
          | x :: a, h1, hn, h =>
            cases h1
            obtain ⟨b', rfl, ⟨_, h⟩ | ⟨h, _⟩⟩ := h.cons_left
            · rw [Lx.skip_line (ns _), Lx.skip_line (ns _)]
              have la := (Lx.skipLine_suffix a).length_le
              have lb := (Lx.skipLine_suffix b').length_le
              simp only [List.length_cons] at hn ⊢
              rw [Lx.skip_enough (by omega), Lx.skip_enough (s := Lexer.skipLine b') (by omega)]
              exact ih (by omega) h.skipLine
            · exact absurd h (by decide)
        · by_cases h2 : c = 47 ∧ a.head? = some 42
          · obtain ⟨rfl, h2⟩ := h2
            match a, h2, hn, h with
            | x :: a, h2, hn, h =>
              cases h2
              obtain ⟨b', rfl, ⟨_, h⟩ | ⟨h, _⟩⟩ := h.cons_left
              · rw [Lx.skip_block (ns _), Lx.skip_block (ns _)]
                rcases h.skipBlock with ⟨e1, e2⟩ | ⟨x, y, e1, e2, h'⟩
                · rw [e1, e2]; trivial
                · rw [e1, e2]
                  have la := (Lx.skipBlock_suffix e1).1.length_le
                  have lb := (Lx.skipBlock_suffix e2).1.length_le
                  simp only [List.length_cons] at hn ⊢
                  rw [Lx.skip_enough (by omega), Lx.skip_enough (s := y) (by omega)]
                  exact ih (by omega) h'
              · exact absurd h (by decide)
          · have s1 : ∀ a : Str, ¬ (c = 47 ∧ a.head? = some 47) → ¬ (c = 47 ∧ a.head? = some 42) → Lx.Start (c :: a) := fun a k1 k2 =>
              Lx.start_cons hw' fun e d hd => ⟨fun e1 => k1 ⟨e, hd.trans (by rw [e1])⟩, fun e1 => k2 ⟨e, hd.trans (by rw [e1])⟩⟩
            rw [Lx.skip_start (s1 a h1 h2), Lx.skip_start (s1 b (fun k => h1 ⟨k.1, (h.head (by decide)).2 k.2⟩)
              fun k => h2 ⟨k.1, (h.head (by decide)).2 k.2⟩)]
            exact ⟨hc, .byte hc h⟩

/-- The first byte of the first text, in the second one. -/
theorem Re.step {δ st c a y} (h : Re δ st (c :: a) y) : ∃ bs z, y = bs ++ z ∧ (∀ b ∈ bs, isBlank b = true) ∧ (st = false → bs = []) ∧
    ((∃ w, z = c :: w ∧ Re δ (c == 10) a w) ∨ (st = true ∧ isBlank c = true ∧ Re δ true a z)) := by
  generalize hx : c :: a = x at h
  induction h with
  | nil => cases hx
  | fin => cases hx
  | byte h1 h2 =>
    next δ st c a b =>
    cases hx
    have : (c == 10) = false := by simpa using h1
    exact ⟨[], _, rfl, by simp, fun _ => rfl, Or.inl ⟨_, rfl, this ▸ h2⟩⟩
  | lf h => cases hx; exact ⟨[], _, rfl, by simp, fun _ => rfl, Or.inl ⟨_, rfl, h⟩⟩
  | left h1 h2 => cases hx; exact ⟨[], _, rfl, by simp, fun _ => rfl, Or.inr ⟨rfl, h1, h2⟩⟩
  | right h1 h2 ih =>
    obtain ⟨bs, z, rfl, k1, _, k3⟩ := ih hx
    exact ⟨_ :: bs, z, rfl, by simpa using ⟨h1, k1⟩, fun h => Bool.noConfusion h, k3⟩

theorem Re.pad {δ st a b} (h : Re δ st a b) : ∀ {bs : Str}, (∀ b ∈ bs, isBlank b = true) → (st = false → bs = []) → Re δ st a (bs ++ b)
  | [], _, _ => h
  | c :: bs, h1, h2 => by
    cases st with
    | false => exact absurd (h2 rfl) (by simp)
    | true =>
      exact .right (h1 c List.mem_cons_self) (h.pad (fun b hb => h1 b (List.mem_cons_of_mem _ hb)) fun h => Bool.noConfusion h)

theorem Re.cons {δ st c a b} (h : Re δ (c == 10) a b) : Re δ st (c :: a) (c :: b) := by
  by_cases hc : c = 10
  · subst hc; exact .lf h
  · have : (c == 10) = false := by simpa using hc
    exact .byte hc (this ▸ h)

/-- A byte that is not a blank is found in both texts. -/
theorem Re.stop {δ st c a y} (h : Re δ st (c :: a) y) (hc : isBlank c = false) : ∃ bs w, y = bs ++ c :: w ∧
    (∀ b ∈ bs, isBlank b = true) ∧ (st = false → bs = []) ∧ Re δ (c == 10) a w := by
  obtain ⟨bs, z, rfl, h1, h2, ⟨w, rfl, h3⟩ | ⟨_, h3, _⟩⟩ := h.step
  · exact ⟨bs, w, rfl, h1, h2, h3⟩
  · rw [hc] at h3; cases h3

theorem Re.raw {δ : Nat} {x : Str} : ∀ {t : Str} {st : Bool} {y : Str}, 96 ∉ t → Re δ st (t ++ 96 :: x) y →
    ∃ t' x', y = t' ++ 96 :: x' ∧ 96 ∉ t' ∧ Re 0 st t t' ∧ Re δ false x x' := by
  have bl : ∀ {bs : Str}, (∀ b ∈ bs, isBlank b = true) → 96 ∉ bs := fun h h1 => absurd (h 96 h1) (by decide)
  intro t
  induction t with
  | nil =>
    intro st y _ h
    obtain ⟨bs, w, rfl, h1, h2, h3⟩ := Re.stop h (by decide)
    exact ⟨bs, w, rfl, bl h1, by simpa using (Re.nil st).pad h1 h2, h3⟩
  | cons c t ih =>
    intro st y hn h
    simp only [List.mem_cons, not_or] at hn
    obtain ⟨bs, z, rfl, h1, h2, ⟨w, rfl, h3⟩ | ⟨rfl, h3, h4⟩⟩ := Re.step h
    · obtain ⟨t', x', rfl, k1, k2, k3⟩ := ih hn.2 h3
      refine ⟨bs ++ c :: t', x', by simp, ?_, k2.cons.pad h1 h2, k3⟩
      simp only [List.mem_append, List.mem_cons, not_or]
      exact ⟨bl h1, hn.1, k1⟩
    · obtain ⟨t', x', rfl, k1, k2, k3⟩ := ih hn.2 h4
      refine ⟨bs ++ t', x', by simp, ?_, (Re.left h3 k2).pad h1 h2, k3⟩
      simp only [List.mem_append, not_or]
      exact ⟨bl h1, k1⟩

theorem inner_pad {a : Str} (h : Inner a) : ∀ {bs : Str}, (∀ b ∈ bs, isBlank b = true) → Inner (bs ++ a)
  | [], _ => h
  | c :: bs, h1 => by
    refine .byte ?_ (inner_pad h fun b hb => h1 b (List.mem_cons_of_mem _ hb))
    rcases blank_iff.1 (h1 c List.mem_cons_self) with rfl | rfl <;> decide

theorem xdigit_ne {a : Byte} (h : isXDigit a = true) : (a == 10) = false := by
  by_contra hc
  have : a = 10 := by simpa using hc
  subst this
  exact absurd h (by decide)

theorem Re.esc {δ st p a y} (hp : Esc p) (h : Re δ st (p ++ a) y) : ∃ bs w, y = bs ++ (p ++ w) ∧
    (∀ b ∈ bs, isBlank b = true) ∧ (st = false → bs = []) ∧ Re δ false a w := by
  have key : ∀ c ∈ lit "ntr\\\"'0abfv$", (c == 10) = false := by decide +kernel
  have stp : ∀ {c : Byte} {a y : Str}, Re δ false (c :: a) y → (c == 10) = false → ∃ w, y = c :: w ∧ Re δ false a w := by
    intro c a y h hc
    obtain ⟨b, rfl, ⟨_, h⟩ | ⟨h, _⟩⟩ := h.cons_left
    · exact ⟨b, rfl, h⟩
    · rw [h] at hc; exact absurd hc (by decide)
  cases hp with
  | simple hc =>
    next c =>
    obtain ⟨bs, w, rfl, h1, h2, h3⟩ := Re.stop (show Re δ st (92 :: c :: a) y from h) (by decide)
    obtain ⟨w, rfl, h4⟩ := stp h3 (key c hc)
    exact ⟨bs, w, rfl, h1, h2, h4⟩
  | hex ha hb =>
    next a' b' =>
    obtain ⟨bs, w, rfl, h1, h2, h3⟩ := Re.stop (show Re δ st (92 :: 120 :: a' :: b' :: a) y from h) (by decide)
    obtain ⟨w, rfl, h4⟩ := stp h3 (by decide)
    obtain ⟨w, rfl, h5⟩ := stp h4 (xdigit_ne ha)
    obtain ⟨w, rfl, h6⟩ := stp h5 (xdigit_ne hb)
    exact ⟨bs, w, rfl, h1, h2, h6⟩

theorem esc_lf {p : Str} (hp : Esc p) : 10 ∉ p := by
  have key : ∀ c ∈ lit "ntr\\\"'0abfv$", (c == 10) = false := by decide +kernel
  have ne : ∀ {c : Byte}, (c == 10) = false → ¬ 10 = c := fun h e => by subst e; exact absurd h (by decide)
  cases hp with
  | simple hc => simpa using ne (key _ hc)
  | hex ha hb => simpa using ⟨ne (xdigit_ne ha), ne (xdigit_ne hb)⟩

theorem Re.inner {a : Str} (ha : Inner a) : ∀ {δ : Nat} {st : Bool} {x y : Str}, Re δ st (a ++ 125 :: x) y →
    ∃ a' x', y = a' ++ 125 :: x' ∧ Inner a' ∧ Re 0 st a a' ∧ Re δ false x x' := by
  induction ha with
  | nil =>
    intro δ st x y h
    obtain ⟨bs, w, rfl, h1, h2, h3⟩ := Re.stop h (by decide)
    exact ⟨bs, w, rfl, by simpa using inner_pad .nil h1, by simpa using (Re.nil st).pad h1 h2, h3⟩
  | @byte c r hc hr ih =>
    intro δ st x y h
    obtain ⟨bs, z, rfl, h1, h2, ⟨w, rfl, h3⟩ | ⟨rfl, h3, h4⟩⟩ := Re.step h
    · obtain ⟨a', x', rfl, k1, k2, k3⟩ := ih h3
      exact ⟨bs ++ c :: a', x', by simp, inner_pad (.byte hc k1) h1, k2.cons.pad h1 h2, k3⟩
    · obtain ⟨a', x', rfl, k1, k2, k3⟩ := ih h4
      exact ⟨bs ++ a', x', by simp, inner_pad k1 h1, (Re.left h3 k2).pad h1 h2, k3⟩
  | @esc p r hp hr ih =>
    intro δ st x y h
    rw [List.append_assoc] at h
    obtain ⟨bs, w, rfl, h1, h2, h3⟩ := Re.esc hp h
    obtain ⟨a', x', rfl, k1, k2, k3⟩ := ih h3
    exact ⟨bs ++ (p ++ a'), x', by simp, inner_pad (.esc hp k1) h1, ((k2.join (esc_lf hp)).weaken).pad h1 h2, k3⟩
  | @brace a r ha hr ih1 ih2 =>
    intro δ st x y h
    rw [List.cons_append, List.append_assoc, List.cons_append] at h
    obtain ⟨bs, w, rfl, h1, h2, h3⟩ := Re.stop h (by decide)
    obtain ⟨a', x', rfl, k1, k2, k3⟩ := ih1 h3
    obtain ⟨a2, x2, rfl, j1, j2, j3⟩ := ih2 k3
    refine ⟨bs ++ 123 :: (a' ++ 125 :: a2), x2, by simp, inner_pad (.brace k1 j1) h1, ?_, j3⟩
    refine Re.pad (Re.byte (by decide) ?_) h1 h2
    exact k2.append (Re.byte (by decide) j2)

theorem Re.content {a : Str} (ha : Content a) : ∀ {δ : Nat} {x y : Str}, Re δ false (a ++ 34 :: x) y →
    ∃ a' x', y = a' ++ 34 :: x' ∧ Content a' ∧ Re 0 false a a' ∧ Re δ false x x' := by
  induction ha with
  | nil =>
    intro δ x y h
    obtain ⟨b, rfl, ⟨_, h⟩ | ⟨h, _⟩⟩ := Re.cons_left h
    · exact ⟨[], b, rfl, .nil, .nil _, h⟩
    · exact absurd h (by decide)
  | @byte c r hc h2 hr ih =>
    intro δ x y h
    obtain ⟨b, rfl, ⟨_, h⟩ | ⟨h, _⟩⟩ := Re.cons_left h
    · obtain ⟨a', x', rfl, k1, k2, k3⟩ := ih h
      refine ⟨c :: a', x', rfl, .byte hc ?_ k1, .byte hc.2.2 k2, k3⟩
      intro hp
      have e := (List.cons_prefix_cons.1 hp)
      have e2 : a'.head? = some 123 := by
        obtain ⟨q, hq⟩ := e.2
        rw [← hq]; rfl
      have e3 := (k2.head (by decide)).2 e2
      cases r with
      | nil => cases e3
      | cons d r => cases e3; exact h2 ⟨r, by rw [← e.1]; rfl⟩
    · exact absurd h hc.2.2
  | @esc p r hp hr ih =>
    intro δ x y h
    rw [List.append_assoc] at h
    obtain ⟨bs, w, rfl, h1, h2, h3⟩ := Re.esc hp h
    obtain rfl := h2 rfl
    obtain ⟨a', x', rfl, k1, k2, k3⟩ := ih h3
    exact ⟨p ++ a', x', by simp, .esc hp k1, k2.join (esc_lf hp), k3⟩
  | @interp a r ha hr ih =>
    intro δ x y h
    rw [List.cons_append, List.cons_append, List.append_assoc, List.cons_append] at h
    obtain ⟨b, rfl, ⟨_, h⟩ | ⟨h, _⟩⟩ := Re.cons_left h
    · obtain ⟨b, rfl, ⟨_, h⟩ | ⟨h, _⟩⟩ := Re.cons_left h
      · obtain ⟨a', x', rfl, k1, k2, k3⟩ := Re.inner ha h
        obtain ⟨a2, x2, rfl, j1, j2, j3⟩ := ih k3
        exact ⟨36 :: 123 :: (a' ++ 125 :: a2), x2, by simp, .interp k1 j1,
          .byte (by decide) (.byte (by decide) (k2.append (Re.byte (by decide) j2))), j3⟩
      · exact absurd h (by decide)
    · exact absurd h (by decide)

/-- Tokens that a change of blanks at the beginning of lines leaves alone. -/
def Fine (k : Kind) (t : Str) : Prop := ¬ Bad k ∧ (k = .char → 10 ∉ t)

theorem readString_kind (s : Str) : (readString s).1 = .string ∨ Bad (readString s).1 := by
  unfold readString
  dsimp only
  split
  · exact Or.inl rfl
  all_goals exact Or.inr ⟨_, rfl⟩

theorem readRaw_kind (s : Str) : (readRaw s).1 = .raw ∨ Bad (readRaw s).1 := by
  unfold readRaw
  dsimp only
  split
  · exact Or.inr ⟨_, rfl⟩
  · exact Or.inl rfl

theorem charEnd_kind (t s : Str) (e : Option String) : (charEnd t s e).1 = .char ∨ Bad (charEnd t s e).1 := by
  unfold charEnd
  split
  · exact Or.inr ⟨_, rfl⟩
  · split
    · exact Or.inr ⟨_, rfl⟩
    · split
      · exact Or.inl rfl
      · exact Or.inr ⟨_, rfl⟩

theorem readChar_kind (s : Str) : (readChar s).1 = .char ∨ Bad (readChar s).1 := by
  unfold readChar
  split
  · exact charEnd_kind _ _ _
  · split <;> exact charEnd_kind _ _ _
  · exact charEnd_kind _ _ _

/-- A token in the first line. -/
theorem Re.line {δ c a y} (hc : c ≠ 10) (h : Re δ false (c :: a) y) (hf : Fine (token (c :: a)).1 (token (c :: a)).2.1)
    (hl : ∀ M u, (∃ k t L', token (c :: M) = (k, t, L') ∧ L' <:+ c :: M ∧ token (c :: M ++ 10 :: u) = (k, t, L' ++ 10 :: u)) ∨
      ((token (c :: M)).1 = .char ∨ Bad (token (c :: M)).1) ∧ (Bad (token (c :: M)).1 ∧ (Bad (token (c :: M ++ 10 :: u)).1 ∨
        ((token (c :: M ++ 10 :: u)).1 = .char ∧ 10 ∈ (token (c :: M ++ 10 :: u)).2.1)))) :
    (token y).1 = (token (c :: a)).1 ∧ Re 0 false (token (c :: a)).2.1 (token y).2.1 ∧
    Re δ false (token (c :: a)).2.2 (token y).2.2 := by
  obtain ⟨L, x, z, h1, h2, rfl, h4⟩ := h.split
  obtain ⟨M, rfl⟩ : ∃ M, L = c :: M := by
    cases L with
    | nil =>
      rcases h4 with ⟨rfl, _⟩ | ⟨rfl, _⟩ | ⟨u, _, rfl, _⟩
      · cases h2
      · cases h2
      · exact absurd (List.cons.inj h2).1 hc
    | cons d M => exact ⟨M, by rw [(List.cons.inj h2).1]⟩
  rw [h2] at hf ⊢
  have lf : ∀ {L' : Str}, L' <:+ c :: M → 10 ∉ L' := fun h k => h1 (h.subset k)
  rcases h4 with ⟨rfl, rfl, rfl⟩ | ⟨rfl, rfl, rfl⟩ | ⟨u, v, rfl, rfl, h5⟩
  · exact ⟨rfl, Re.refl _ _, Re.refl _ _⟩
  · rw [List.append_nil] at hf ⊢
    rcases hl M [] with ⟨k, t, L', e1, e2, e3⟩ | ⟨_, h, _⟩
    · rw [e1, e3]
      exact ⟨rfl, Re.refl _ _, by simpa using (Re.fin false).join (lf e2)⟩
    · exact absurd h hf.1
  · rcases hl M u with ⟨k, t, L', e1, e2, e3⟩ | ⟨_, _, h⟩
    · rcases hl M v with ⟨k', t', L'', f1, f2, f3⟩ | ⟨_, h, _⟩
      · rw [e1] at f1
        cases f1
        rw [e3, f3]
        exact ⟨rfl, Re.refl _ _, (Re.lf h5).join (lf e2)⟩
      · rw [e1] at h
        rw [e3] at hf
        exact absurd h hf.1
    · rcases h with h | ⟨h, h'⟩
      · exact absurd h hf.1
      · exact absurd h' (hf.2 h)

theorem Re.token {δ c a y} (hc : c ≠ 10) (h : Re δ false (c :: a) y) (hf : Fine (Lexer.token (c :: a)).1 (Lexer.token (c :: a)).2.1) :
    (Lexer.token y).1 = (Lexer.token (c :: a)).1 ∧ Re 0 false (Lexer.token (c :: a)).2.1 (Lexer.token y).2.1 ∧
    Re δ false (Lexer.token (c :: a)).2.2 (Lexer.token y).2.2 := by
  by_cases hs : c = 34
  · subst hs
    obtain ⟨b, rfl, ⟨_, h⟩ | ⟨h, _⟩⟩ := h.cons_left
    · have e : ∀ a, Lexer.token (34 :: a) = readString (34 :: a) := fun _ => rfl
      rw [e] at hf ⊢
      rw [e]
      have hk := (readString_kind (34 :: a)).resolve_right hf.1
      obtain ⟨t, r, e0⟩ : ∃ t r, readString (34 :: a) = (.string, t, r) := ⟨_, _, by rw [← hk]⟩
      obtain ⟨rfl, h1⟩ := (C127_strings a t r).1 e0
      obtain ⟨t', r', rfl, k1, k2, k3⟩ := Re.content h1 h
      rw [e0, (C127_strings _ t' r').2 ⟨rfl, k1⟩]
      exact ⟨rfl, k2, k3⟩
    · exact absurd h (by decide)
  by_cases hs2 : c = 96
  · subst hs2
    obtain ⟨b, rfl, ⟨_, h⟩ | ⟨h, _⟩⟩ := h.cons_left
    · have e : ∀ a, Lexer.token (96 :: a) = readRaw (96 :: a) := fun _ => rfl
      rw [e] at hf ⊢
      rw [e]
      have hk := (readRaw_kind (96 :: a)).resolve_right hf.1
      obtain ⟨t, r, e0⟩ : ∃ t r, readRaw (96 :: a) = (.raw, t, r) := ⟨_, _, by rw [← hk]⟩
      obtain ⟨rfl, h1⟩ := (C127_raw a t r).1 e0
      obtain ⟨t', r', rfl, k1, k2, k3⟩ := Re.raw h1 h
      rw [e0, (C127_raw _ t' r').2 ⟨rfl, k1⟩]
      exact ⟨rfl, k2, k3⟩
    · exact absurd h (by decide)
  refine h.line hc hf fun M u => ?_
  by_cases hs3 : c = 39
  · subst hs3
    have e : ∀ a, Lexer.token (39 :: a) = readChar (39 :: a) := fun _ => rfl
    have k := readChar_kind (39 :: M)
    have k' := readChar_kind (39 :: (M ++ 10 :: u))
    refine (local_char M u).imp id fun ⟨h1, h2⟩ => ⟨k, h1, ?_⟩
    rcases h2 with h2 | h2
    · exact Or.inl h2
    · exact k'.symm.imp id fun k' => ⟨k', h2⟩
  · exact Or.inl (token_plain hs hs2 hs3 M u)

/-! ### The tokens of both texts -/

/-- Tokens at the same place of both texts. -/
def Match (src out : Str) (t t' : Tok) : Prop :=
  t'.kind = t.kind ∧ Re 0 false t.text t'.text ∧ (t.kind ≠ .eof → (t'.place out).1 = (t.place src).1)

theorem line_of {src : Str} {c : Byte} {r : Str} (hs : c :: r <:+ src) (hc : c ≠ 10) (t : Tok) (ht : t.left = (c :: r).length) :
    (t.place src).1 + (c :: r).count 10 = 1 + src.count 10 := by
  obtain ⟨p, rfl⟩ := hs
  unfold Tok.place
  rw [if_neg (by rw [ht]; simp), ht, Lx.place_count]
  have : (p ++ c :: r).take ((p ++ c :: r).length - (c :: r).length + 1) = p ++ [c] := by
    rw [List.length_append, Nat.add_sub_cancel, List.take_length_add_append]; rfl
  rw [this, List.count_append, List.count_append, List.count_singleton, List.count_cons_of_ne hc]
  have : (c == 10) = false := by simpa using hc
  rw [this, if_neg (by decide)]
  omega

theorem Re.lex {src out : Str} {δ : Nat} (hn : out.count 10 = src.count 10 + δ) : ∀ (f g : Nat) {st : Bool} {a b : Str} {ts : List Tok},
    a.length < f → b.length < g → a <:+ src → b <:+ out → Re δ st a b → lexLoop f a = some ts →
    (∀ t ∈ ts, Fine t.kind t.text) → ∃ ts', lexLoop g b = some ts' ∧ List.Forall₂ (Match src out) ts ts' := by
  intro f
  induction f with
  | zero => intro g st a b ts ha; omega
  | succ f ih =>
    intro g st a b ts ha hb sa sb h hl hf
    match g, hb with
    | g + 1, hb =>
    have hs := h.skip _ (Nat.le_refl _)
    have na := Lx.next_suffix a
    have nb := Lx.next_suffix b
    rw [lexLoop] at hl ⊢
    have hm : ∀ t, t = (next a).1 → t ∈ ts := by
      rintro t rfl
      split at hl
      · cases hl; exact List.mem_cons_self
      · split at hl
        · cases hl
        · cases hl; exact List.mem_cons_self
    have main : Fine (next a).1.kind (next a).1.text → Match src out (next a).1 (next b).1 ∧ Re δ false (next a).2 (next b).2 ∨
        ((next a).1.kind = .eof ∧ Match src out (next a).1 (next b).1) := by
      intro hf
      have va : ∀ f, a.length < f → ∀ t, Lexer.skip f a = some t → t <:+ a := fun f hf t ht => (Lx.skip_spec f a t hf ht).1
      have vb : ∀ f, b.length < f → ∀ t, Lexer.skip f b = some t → t <:+ b := fun f hf t ht => (Lx.skip_spec f b t hf ht).1
      unfold next at hf ⊢
      cases ea : Lexer.skip (a.length + 1) a with
      | none =>
        rw [ea] at hf
        exact absurd ⟨_, rfl⟩ hf.1
      | some x =>
        rw [ea] at hf hs
        cases eb : Lexer.skip (b.length + 1) b with
        | none =>
          rw [eb] at hs
          cases x <;> exact hs.elim
        | some y =>
          rw [eb] at hs
          cases x with
          | nil =>
            cases y with
            | nil => exact Or.inr ⟨rfl, rfl, .nil _, fun h => absurd rfl h⟩
            | cons d y => exact hs.elim
          | cons c x =>
            obtain ⟨hc, hr⟩ := hs
            have ht := Re.token hc hr hf
            have sx := (va _ (Nat.lt_succ_self _) _ ea).trans sa
            have sy := (vb _ (Nat.lt_succ_self _) _ eb).trans sb
            have hcnt := hr.count
            obtain ⟨z, rfl, _⟩ := hr.cons_left
            refine Or.inl ⟨⟨ht.1, ht.2.1, fun _ => ?_⟩, ht.2.2⟩
            have l1 := line_of sx hc ⟨(Lexer.token (c :: x)).1, (Lexer.token (c :: x)).2.1, decide ((c :: x).length ≠ a.length), (c :: x).length⟩ rfl
            have l2 := line_of sy hc ⟨(Lexer.token (c :: z)).1, (Lexer.token (c :: z)).2.1, decide ((c :: z).length ≠ b.length), (c :: z).length⟩ rfl
            dsimp only
            omega
    have hmain := main (hf _ (hm _ rfl))
    have hk : (next b).1.kind = (next a).1.kind := by
      rcases hmain with h | h
      · exact h.1.1
      · exact h.2.1
    by_cases he : (next a).1.kind = .eof
    · rw [if_pos he] at hl
      cases hl
      rw [hk, if_pos he]
      refine ⟨_, rfl, .cons ?_ .nil⟩
      rcases hmain with h | h
      · exact h.1
      · exact h.2
    · rw [if_neg he] at hl
      rw [hk, if_neg he]
      rcases hmain with ⟨h1, h2⟩ | h
      · cases hl' : lexLoop f (next a).2 with
        | none => rw [hl'] at hl; cases hl
        | some us =>
          rw [hl'] at hl
          cases hl
          have la := na.2.resolve_left he
          have lb := nb.2.resolve_left (by rw [hk]; exact he)
          obtain ⟨us', e1, e2⟩ := ih g (by omega) (by omega) (na.1.trans sa) (nb.1.trans sb) h2 hl'
            fun t ht => hf t (List.mem_cons_of_mem _ ht)
          rw [e1]
          exact ⟨_, rfl, .cons h1 e2⟩
      · exact absurd h.1 he

/-! ### The formatter -/

/-- Only kinds and lines of tokens matter for the depth of lines. -/
theorem depth_match {src out : Str} : ∀ {ts ts' : List Tok}, List.Forall₂ (Match src out) ts ts' →
    ∀ p, (seen ts').foldl (depthStep out) p = (seen ts).foldl (depthStep src) p := by
  intro ts ts' h
  induction h with
  | nil => exact fun _ => rfl
  | @cons t t' ts ts' h _ ih =>
    intro p
    have e : ∀ (t : Tok) ts, seen (t :: ts) = if (match t.kind with
        | .eof => false
        | .illegal _ => false
        | _ => true) = true then t :: seen ts else [] := fun t ts => by
      unfold seen
      rw [List.takeWhile_cons]
      split <;> rename_i h1 <;> simp [h1]
    rw [e, e, h.1]
    by_cases hk : (match t.kind with
        | .eof => false
        | .illegal _ => false
        | _ => true) = true
    · rw [if_pos hk, if_pos hk, List.foldl_cons, List.foldl_cons, ih]
      have : t.kind ≠ .eof := fun h => by rw [h] at hk; cases hk
      unfold depthStep
      rw [h.1, h.2.2 this]
    · rw [if_neg hk, if_neg hk]; rfl

theorem depthAt_congr {src out : Str} (h : table out = table src) : ∀ n, depthAt out n = depthAt src n
  | 0 => rfl
  | n + 1 => by rw [depthAt, depthAt, h, depthAt_congr h n]

theorem raw_lf (n : Nat) (raw str : Bool) (r : Str) : Fmt.rawLoop (n + 1) raw str (10 :: r) = Fmt.rawLoop n raw str r := by
  cases raw <;> cases str <;> rfl

theorem raw_nil (n : Nat) (raw str : Bool) : Fmt.rawLoop n raw str [] = raw := by
  cases n <;> rfl

theorem raw_esc (n : Nat) (x : Byte) (r : Str) : Fmt.rawLoop (n + 1) false true (92 :: x :: r) = Fmt.rawLoop (n + 1) false true r := rfl

theorem raw_step {c : Byte} {raw str : Bool} (h : c ≠ 10) (h2 : ¬ (raw = false ∧ str = true ∧ c = 92)) (n : Nat) (r : Str) :
    Fmt.rawLoop (n + 1) raw str (c :: r) =
    Fmt.rawLoop (n + 1) (if raw then c != 96 else !str && c == 96) (if raw then str else if str then c != 34 else c == 34) r := by
  have h96 : ∀ {x y : Bool}, (if c = 96 then Fmt.rawLoop (n + 1) true false r else Fmt.rawLoop (n + 1) false (c == 34) r) =
      Fmt.rawLoop (n + 1) (c == 96) (c == 34) r := by
    intro _ _
    by_cases hc : c = 96
    · subst hc; rfl
    · have : (c == 96) = false := by simpa using hc
      rw [if_neg hc, this]
  rw [Fmt.rawLoop.eq_def]
  split
  · next h => cases h
  · next h => cases h
  · next e _ _ _ h1 => cases h1; exact absurd rfl h
  · next h1 => cases h1; have e := ‹n + 1 = Nat.succ _›; cases e; rfl
  · next h1 => cases h1; exact absurd ⟨rfl, rfl, rfl⟩ h2
  · next h1 => cases h1; have e := ‹n + 1 = Nat.succ _›; cases e; rfl
  · next h1 => cases h1; have e := ‹n + 1 = Nat.succ _›; cases e; exact h96 (x := true) (y := true)

/-- The search for raw strings does not depend on blanks. -/
theorem Re.rawLoop {δ : Nat} : ∀ (N : Nat) {st : Bool} {a b : Str}, a.length + b.length ≤ N → Re δ st a b →
    ∀ n raw str, Fmt.rawLoop n raw str a = Fmt.rawLoop n raw str b := by
  intro N
  induction N with
  | zero =>
    intro st a b hn h
    have ha : a = [] := List.length_eq_zero_iff.1 (by omega)
    have hb : b = [] := List.length_eq_zero_iff.1 (by omega)
    subst ha hb
    exact fun _ _ _ => rfl
  | succ N ih =>
    intro st a b hn h n raw str
    match n with
    | 0 => cases a <;> cases b <;> rfl
    | n + 1 =>
    have bl : ∀ {c : Byte}, isBlank c = true → ∀ a, Fmt.rawLoop (n + 1) raw str (c :: a) = Fmt.rawLoop (n + 1) raw str a := by
      intro c hc a
      have h1 : c ≠ 10 := fun e => by subst e; exact absurd hc (by decide)
      have h2 : c ≠ 92 := fun e => by subst e; exact absurd hc (by decide)
      have h3 : (c == 96) = false ∧ (c == 34) = false := by rcases blank_iff.1 hc with rfl | rfl <;> decide
      rw [raw_step h1 fun h => h2 h.2.2]
      simp only [bne, h3.1, h3.2]
      cases raw <;> cases str <;> rfl
    cases h with
    | nil => rfl
    | fin => rw [raw_lf, raw_nil, raw_nil]
    | lf h => rw [raw_lf, raw_lf]; exact ih (by simp only [List.length_cons] at hn; omega) h _ _ _
    | left hb h => rw [bl hb]; exact ih (by simp only [List.length_cons] at hn; omega) h _ _ _
    | right hb h => rw [bl hb]; exact ih (by simp only [List.length_cons] at hn; omega) h _ _ _
    | @byte _ _ c a b hc h =>
      simp only [List.length_cons] at hn
      by_cases h2 : raw = false ∧ str = true ∧ c = 92
      · obtain ⟨rfl, rfl, rfl⟩ := h2
        cases a with
        | nil =>
          rcases h.nil_left with ⟨e, _⟩ | ⟨e, _⟩ <;> subst e <;> rfl
        | cons x a =>
          simp only [List.length_cons] at hn
          obtain ⟨w, rfl, ⟨_, h⟩ | ⟨_, h⟩⟩ := h.cons_left
          · rw [raw_esc, raw_esc]
            simp only [List.length_cons] at hn
            exact ih (by omega) h _ _ _
          · rw [raw_esc, raw_esc]
            simp only [List.length_cons] at hn
            exact ih (by omega) h _ _ _
      · rw [raw_step hc h2, raw_step hc h2]
        exact ih (by omega) h _ _ _

/-! Lines of the source and of the output. -/

/-- Lines with their ends. -/
def ended (ls : List Str) : Str := ls.flatMap (· ++ [10])

theorem lines_spec : ∀ (s cur : Str), 10 ∉ cur → (∀ l ∈ linesFrom cur s, 10 ∉ l) ∧
    ((ended (linesFrom cur s) = cur ++ s ∧ (cur ++ s = [] ∨ ∃ p, s = p ++ [10])) ∨
     (ended (linesFrom cur s) = cur ++ s ++ [10] ∧ cur ++ s ≠ []))
  | [], [], _ => ⟨by simp [linesFrom], Or.inl ⟨rfl, Or.inl rfl⟩⟩
  | [], c :: cur, h => ⟨by simpa [linesFrom] using h, Or.inr ⟨by simp [linesFrom, ended], by simp⟩⟩
  | c :: s, cur, h => by
    by_cases hc : c = 10
    · subst hc
      obtain ⟨h1, h2⟩ := lines_spec s [] (by simp)
      rw [show linesFrom cur (10 :: s) = cur :: linesFrom [] s from by rw [linesFrom, if_pos rfl]]
      refine ⟨by simpa using ⟨h, h1⟩, ?_⟩
      rcases h2 with ⟨h2, h3⟩ | ⟨h2, h3⟩
      · refine Or.inl ⟨by rw [ended, List.flatMap_cons, ← ended, h2]; simp, Or.inr ?_⟩
        rcases h3 with h3 | ⟨p, h3⟩
        · rw [List.nil_append] at h3
          exact ⟨[], by rw [h3]; rfl⟩
        · exact ⟨10 :: p, by rw [h3]; rfl⟩
      · exact Or.inr ⟨by rw [ended, List.flatMap_cons, ← ended, h2]; simp, by simp⟩
    · obtain ⟨h1, h2⟩ := lines_spec s (cur ++ [c]) (by simpa using ⟨h, fun e => hc e.symm⟩)
      rw [show linesFrom cur (c :: s) = linesFrom (cur ++ [c]) s from by rw [linesFrom, if_neg hc]]
      refine ⟨h1, ?_⟩
      rw [List.append_assoc, List.singleton_append] at h2
      rcases h2 with ⟨h2, h3⟩ | h2
      · refine Or.inl ⟨h2, Or.inr ?_⟩
        rcases h3 with h3 | ⟨p, h3⟩
        · simp at h3
        · exact ⟨c :: p, by rw [h3]; rfl⟩
      · exact Or.inr h2

theorem lines_ended : ∀ (ls : List Str) (cur : Str), (∀ l ∈ ls, 10 ∉ l) → ended ls ≠ [] ∨ cur = [] →
    linesFrom cur (ended ls) = (match ls with
      | [] => []
      | l :: ls => (cur ++ l) :: ls) := by
  have one : ∀ (l s cur : Str), 10 ∉ l → linesFrom cur (l ++ 10 :: s) = (cur ++ l) :: linesFrom [] s := by
    intro l s
    induction l with
    | nil => intro cur _; rw [List.nil_append, linesFrom.eq_def]; cases cur <;> simp
    | cons c l ih =>
      intro cur h
      simp only [List.mem_cons, not_or] at h
      rw [List.cons_append, linesFrom.eq_def]
      cases cur <;> exact (if_neg fun e => h.1 e.symm).trans ((ih _ h.2).trans (by simp))
  intro ls
  induction ls with
  | nil =>
    intro cur _ h
    obtain rfl := h.resolve_left (by simp [ended])
    rfl
  | cons l ls ih =>
    intro cur h _
    have e : ended (l :: ls) = l ++ 10 :: ended ls := by simp [ended]
    rw [e, one _ _ _ (h l List.mem_cons_self), ih [] (fun x hx => h x (List.mem_cons_of_mem _ hx)) (Or.inr rfl)]
    cases ls <;> rfl

/-- The output lines. -/
def outs (src : Str) : Nat → List Str → List Str
  | _, [] => []
  | n, l :: ls => outLine src n l :: outs src (n + 1) ls

theorem outFrom_eq (src : Str) : ∀ (n : Nat) (ls : List Str), outFrom src n ls = ended (outs src n ls)
  | _, [] => rfl
  | n, l :: ls => by rw [outFrom, outFrom_eq, outs]; simp [ended]

theorem blank_drop {bs c : Str} (h : ∀ b ∈ bs, isBlank b = true) : (bs ++ c).dropWhile isBlank = c.dropWhile isBlank :=
  List.dropWhile_append_of_pos h

theorem drop_idem (l : Str) : (l.dropWhile isBlank).dropWhile isBlank = l.dropWhile isBlank := by
  induction l with
  | nil => rfl
  | cons c l ih =>
    by_cases h : isBlank c = true
    · rw [List.dropWhile_cons_of_pos h, ih]
    · rw [List.dropWhile_cons_of_neg h, List.dropWhile_cons_of_neg h]

theorem outLine_drop (src : Str) (n : Nat) (l : Str) : (outLine src n l).dropWhile isBlank = l.dropWhile isBlank := by
  unfold outLine
  dsimp only
  split
  · next h => rw [h]; rfl
  · split
    · rfl
    · rw [blank_drop (fun b hb => by rw [List.eq_of_mem_replicate hb]; rfl), drop_idem]

theorem outLine_lf {src : Str} {n : Nat} {l : Str} (h : 10 ∉ l) : 10 ∉ outLine src n l := by
  unfold outLine
  dsimp only
  split
  · simp
  · split
    · exact h
    · simp only [List.mem_append, not_or]
      exact ⟨fun h => absurd (List.eq_of_mem_replicate h) (by decide), fun k => h ((List.dropWhile_suffix _).subset k)⟩

theorem outs_lf {src : Str} : ∀ {n : Nat} {ls : List Str}, (∀ l ∈ ls, 10 ∉ l) → ∀ l ∈ outs src n ls, 10 ∉ l
  | _, [], _ => by simp [outs]
  | n, l :: ls, h => by
    rw [outs]
    simp only [List.mem_cons, forall_eq_or_imp] at h ⊢
    exact ⟨outLine_lf h.1, outs_lf h.2⟩

theorem format_eq (src : Str) : format src = ended (outs src 1 (linesFrom [] src)) := outFrom_eq _ _ _

theorem outs_idem {src out : Str} (hd : ∀ n, depthAt out n = depthAt src n) (hr : ∀ n, inRaw out n = inRaw src n) :
    ∀ (n : Nat) (ls : List Str), outs out n (outs src n ls) = outs src n ls
  | _, [] => rfl
  | n, l :: ls => by
    rw [outs, outs, outs_idem hd hr]
    congr 1
    have hdr := outLine_drop src n l
    rw [show outLine out n (outLine src n l) = if (outLine src n l).dropWhile isBlank = [] then [] else
      if inRaw out n then outLine src n l else List.replicate (depthAt out n * 4) 32 ++ (outLine src n l).dropWhile isBlank from rfl, hdr, hr, hd]
    conv_rhs => unfold outLine; dsimp only
    by_cases h : l.dropWhile isBlank = []
    · rw [if_pos h, if_pos h]
    · rw [if_neg h, if_neg h]
      by_cases h2 : inRaw src n = true
      · rw [if_pos h2, if_pos h2]
        exact (if_neg h).trans (if_pos h2)
      · rw [if_neg h2, if_neg h2]

/-- Two lines that agree after blanks. -/
theorem Re.blanks {δ : Nat} {x y : Str} : ∀ {l l' : Str}, l.dropWhile isBlank = l'.dropWhile isBlank → 10 ∉ l →
    (∀ {st}, Re δ st x y) → Re δ true (l ++ x) (l' ++ y) := by
  have main : ∀ (c l : Str) (h : l.dropWhile isBlank = c) (hl : 10 ∉ l) (hx : ∀ {st}, Re δ st x y) (y' : Str), y' = c ++ y →
      Re δ true (l ++ x) y' := by
    intro c l h hl hx y' hy
    induction l with
    | nil =>
      subst h
      rw [hy]
      exact hx
    | cons b l ih =>
      simp only [List.mem_cons, not_or] at hl
      by_cases hb : isBlank b = true
      · rw [List.dropWhile_cons_of_pos hb] at h
        exact .left hb (ih h hl.2)
      · rw [List.dropWhile_cons_of_neg hb] at h
        subst h
        rw [hy]
        exact .byte (fun e => hl.1 e.symm) (hx.join hl.2)
  intro l l' h hl hx
  induction l' with
  | nil => exact main [] l h hl hx _ rfl
  | cons b l' ih =>
    by_cases hb : isBlank b = true
    · rw [List.dropWhile_cons_of_pos hb] at h
      exact .right hb (ih h)
    · rw [List.dropWhile_cons_of_neg hb] at h
      exact main _ l h hl hx _ rfl

theorem Re.lines {src : Str} : ∀ (n : Nat) (ls : List Str), (∀ l ∈ ls, 10 ∉ l) → Re 0 true (ended ls) (ended (outs src n ls))
  | _, [], _ => .nil _
  | n, l :: ls, h => by
    simp only [List.mem_cons, forall_eq_or_imp] at h
    have e : ∀ (l : Str) ls, ended (l :: ls) = l ++ 10 :: ended ls := fun l ls => by simp [ended]
    rw [outs, e, e]
    exact Re.blanks (outLine_drop src n l).symm h.1 (.lf (Re.lines (n + 1) ls h.2))

theorem Re.lines_fin {src : Str} : ∀ (n : Nat) (ls : List Str) (s : Str), (∀ l ∈ ls, 10 ∉ l) → ended ls = s ++ [10] →
    Re 1 true s (ended (outs src n ls))
  | _, [], s, _, hs => by simp [ended] at hs
  | n, [l], s, h, hs => by
    have e : l = s := by simpa [ended] using hs
    subst e
    have e2 : ended (outs src n [l]) = outLine src n l ++ [10] := by simp [ended, outs]
    have := Re.blanks (δ := 1) (x := []) (y := [10]) (outLine_drop src n l).symm (h l List.mem_cons_self) (.fin _)
    rw [List.append_nil] at this
    rw [e2]
    exact this
  | n, l :: l2 :: ls, s, h, hs => by
    have e : ∀ (l : Str) ls, ended (l :: ls) = l ++ 10 :: ended ls := fun l ls => by simp [ended]
    obtain ⟨s', hs'⟩ : ∃ s', ended (l2 :: ls) = s' ++ [10] := by
      have hne : ended (l2 :: ls) ≠ [] := by simp [ended]
      refine ⟨(ended (l2 :: ls)).dropLast, ?_⟩
      have hl : (ended (l2 :: ls)).getLast? = some 10 := by
        have := congrArg List.getLast? hs
        rw [e l, List.getLast?_append, List.getLast?_cons, List.getLast?_concat] at this
        rw [List.getLast?_eq_some_getLast hne] at this ⊢
        simpa using this
      rw [List.getLast?_eq_some_getLast hne] at hl
      conv_lhs => rw [← List.dropLast_concat_getLast hne]
      rw [Option.some.inj hl]
    rw [e, hs', ← List.cons_append, ← List.append_assoc] at hs
    have hs := List.append_cancel_right hs
    subst hs
    rw [outs, e]
    exact Re.blanks (outLine_drop src n l).symm (h l List.mem_cons_self)
      (.lf (Re.lines_fin (n + 1) (l2 :: ls) s' (fun x hx => h x (List.mem_cons_of_mem _ hx)) hs'))

theorem Re.format (src : Str) : ∃ δ, Re δ true src (format src) := by
  rw [format_eq]
  obtain ⟨h1, ⟨h2, _⟩ | ⟨h2, _⟩⟩ := lines_spec src [] (by simp)
  · have := Re.lines (src := src) 1 _ h1
    rw [h2] at this
    exact ⟨0, this⟩
  · exact ⟨1, Re.lines_fin 1 _ _ h1 h2⟩

theorem forall₂_mono {R S : Tok → Tok → Prop} {as bs : List Tok} (h : List.Forall₂ R as bs) (f : ∀ a b, R a b → S a b) : List.Forall₂ S as bs := by
  induction h with
  | nil => exact .nil
  | cons h _ ih => exact .cons (f _ _ h) ih

/-- A test for concrete sources. -/
def okTok (t : Tok) : Bool := match t.kind with
  | .illegal _ => false
  | .char => !t.text.contains 10
  | _ => true

theorem ok_of {src : Str} (h : ((lex src).getD []).all okTok = true) : ∀ ts, lex src = some ts → ∀ t ∈ ts,
    (∀ e, t.kind ≠ .illegal e) ∧ (t.kind = .char → 10 ∉ t.text) := fun ts hts t ht => by
  rw [hts, Option.getD_some] at h
  have := List.all_eq_true.1 h t ht
  unfold okTok at this
  refine ⟨fun e he => ?_, fun hk => ?_⟩
  · rw [he] at this; cases this
  · rw [hk] at this; simpa using this

/-- Everything the formatter asks about its output is as in its input. -/
theorem stable {src : Str} (hf : ∀ ts, lex src = some ts → ∀ t ∈ ts, Fine t.kind t.text) :
    ∃ ts ts', lex src = some ts ∧ lex (format src) = some ts' ∧ List.Forall₂ (Match src (format src)) ts ts' := by
  obtain ⟨ts, _, h1, _⟩ := Lx.lexLoop_ok _ src (Nat.lt_succ_self _)
  obtain ⟨δ, h2⟩ := Re.format src
  obtain ⟨ts', h3, h4⟩ := Re.lex h2.count _ _ (Nat.lt_succ_self _) (Nat.lt_succ_self _) (List.suffix_refl _) (List.suffix_refl _)
    h2 h1 (hf _ h1)
  exact ⟨_, ts', h1, h3, h4⟩

end Fm

/-! ### C53: formatting changes the indentation only -/

/-- C53: the output has a line for each line of the source, with the same bytes after the leading blanks. -/
theorem C53_lines (src : Str) : ∃ ls ls' : List Str, (∀ l ∈ ls, 10 ∉ l) ∧ (∀ l ∈ ls', 10 ∉ l) ∧
    (ls.flatMap (· ++ [10]) = src ∨ ls.flatMap (· ++ [10]) = src ++ [10]) ∧ ls'.flatMap (· ++ [10]) = format src ∧
    List.Forall₂ (fun l l' : Str => l'.dropWhile (fun c => c == 32 || c == 9) = l.dropWhile (fun c => c == 32 || c == 9)) ls ls' := by
  obtain ⟨h1, h2⟩ := Fm.lines_spec src [] (by simp)
  refine ⟨linesFrom [] src, Fm.outs src 1 (linesFrom [] src), h1, Fm.outs_lf h1, ?_, (Fm.format_eq src).symm, ?_⟩
  · rcases h2 with ⟨h, _⟩ | ⟨h, _⟩
    · exact Or.inl h
    · exact Or.inr h
  · have : ∀ (n : Nat) (ls : List Str), List.Forall₂ (fun l l' : Str => l'.dropWhile (fun c => c == 32 || c == 9) = l.dropWhile (fun c => c == 32 || c == 9)) ls
        (Fm.outs src n ls) := by
      intro n ls
      induction ls generalizing n with
      | nil => exact .nil
      | cons l ls ih => exact .cons (Fm.outLine_drop src n l) (ih (n + 1))
    exact this 1 _

/-- Kinds and texts of the tokens. -/
def tokens (s : Str) : Option (List (Kind × Str)) := (lex s).map (·.map fun t => (t.kind, t.text))

/-- C53: the formatter keeps the tokens of a source that has no errors. -/
def C53_statement : Prop := ∀ src : Str, (∀ ts, lex src = some ts → ∀ t ∈ ts, ∀ e, t.kind ≠ .illegal e) →
  tokens (format src) = tokens src

/-- A line of blanks in a raw string is emptied. -/
theorem C53_witness : tokens (lit "x = `a\n  \nb`\n") = some [(.ident, lit "x"), (.sym (lit "="), lit "="), (.raw, lit "a\n  \nb"), (.eof, [])] ∧
    tokens (format (lit "x = `a\n  \nb`\n")) = some [(.ident, lit "x"), (.sym (lit "="), lit "="), (.raw, lit "a\n\nb"), (.eof, [])] := by
  decide +kernel

/-- After a quote in a character literal, raw strings are indented. -/
theorem C53_quote_witness : tokens (lit "c = '\"'\nx = `a\n  b`\n") = some [(.ident, lit "c"), (.sym (lit "="), lit "="), (.char, lit "\""),
      (.ident, lit "x"), (.sym (lit "="), lit "="), (.raw, lit "a\n  b"), (.eof, [])] ∧
    tokens (format (lit "c = '\"'\nx = `a\n  b`\n")) = some [(.ident, lit "c"), (.sym (lit "="), lit "="), (.char, lit "\""),
      (.ident, lit "x"), (.sym (lit "="), lit "="), (.raw, lit "a\nb"), (.eof, [])] := by
  decide +kernel

theorem C53_fails : ¬ C53_statement := fun h => by
  have := h (lit "x = `a\n  \nb`\n") (fun ts hts t ht => (Fm.ok_of (by decide +kernel) ts hts t ht).1)
  rw [C53_witness.1, C53_witness.2] at this
  revert this
  decide +kernel

/-- Equal but for blanks at the beginning of lines after the first. -/
inductive Reindented : Bool → Str → Str → Prop
  | nil (st) : Reindented st [] []
  | byte {st c a b} : Reindented (c == 10) a b → Reindented st (c :: a) (c :: b)
  | left {c a b} : c = 32 ∨ c = 9 → Reindented true a b → Reindented true (c :: a) b
  | right {c a b} : c = 32 ∨ c = 9 → Reindented true a b → Reindented true a (c :: b)

theorem Fm.Re.spec {st a b} (h : Re 0 st a b) : Reindented st a b := by
  generalize hz : (0 : Nat) = z at h
  induction h with
  | nil => exact .nil _
  | fin => cases hz
  | @byte _ _ c _ _ h1 _ ih =>
    have : (c == 10) = false := by simpa using h1
    exact .byte (this ▸ ih hz)
  | lf _ ih => exact .byte (ih hz)
  | left h1 _ ih => exact .left (Fm.blank_iff.1 h1) (ih hz)
  | right h1 _ ih => exact .right (Fm.blank_iff.1 h1) (ih hz)

/-- C53: for a source without errors and without a line break in a character literal, the tokens keep their kinds and lines, texts within
a line stay the same, and texts of several lines (raw strings, interpolations) may change in the blanks at the beginning of their lines.
Missing: the texts of raw strings of several lines are not kept. -/
theorem C53_partial (src : Str)
    (h : ∀ ts, lex src = some ts → ∀ t ∈ ts, (∀ e, t.kind ≠ .illegal e) ∧ (t.kind = .char → 10 ∉ t.text)) :
    ∃ ts ts', lex src = some ts ∧ lex (format src) = some ts' ∧ List.Forall₂ (fun t t' => t'.kind = t.kind ∧
      (10 ∉ t.text → t'.text = t.text) ∧ Reindented false t.text t'.text ∧
      (t.kind ≠ .eof → (t'.place (format src)).1 = (t.place src).1)) ts ts' := by
  obtain ⟨ts, ts', h1, h2, h3⟩ := Fm.stable (src := src) fun ts hts t ht =>
    ⟨fun ⟨e, he⟩ => (h ts hts t ht).1 e he, (h ts hts t ht).2⟩
  refine ⟨ts, ts', h1, h2, Fm.forall₂_mono h3 fun t t' hm => ⟨hm.1, fun hn => (hm.2.1.same hn).symm, hm.2.1.spec, hm.2.2⟩⟩

/-- C53: the program of a source in which no token spans lines is kept. -/
theorem C53_single_partial (src : Str)
    (h : ∀ ts, lex src = some ts → ∀ t ∈ ts, (∀ e, t.kind ≠ .illegal e) ∧ 10 ∉ t.text) : tokens (format src) = tokens src := by
  obtain ⟨ts, ts', h1, h2, h3⟩ := C53_partial src fun ts hts t ht => ⟨(h ts hts t ht).1, fun _ => (h ts hts t ht).2⟩
  unfold tokens
  rw [h1, h2, Option.map_some, Option.map_some]
  have h := h ts h1
  congr 1
  clear h1 h2
  induction h3 with
  | nil => rfl
  | cons hm _ ih =>
    simp only [List.mem_cons, forall_eq_or_imp] at h
    rw [List.map_cons, List.map_cons, ih h.2, hm.1, hm.2.1 h.1.2]

example : format (lit "do f() {\n  x = 1\n\tif x {\ny()\n    }\n}") = lit "do f() {\n    x = 1\n    if x {\n        y()\n    }\n}\n" := by
  decide +kernel

/-! ### C54: formatting twice -/

/-- C54: formatting a formatted text changes nothing. -/
def C54_statement : Prop := ∀ src : Str, format (format src) = format src

theorem C54_witness : format (lit "do f() {\nx = '\n'\ny\n}\n") = lit "do f() {\n    x = '\n    '\n    y\n}\n" ∧
    format (lit "do f() {\n    x = '\n    '\n    y\n}\n") = lit "do f() {\n    x = '\n    '\n    y\n    }\n" := by
  decide +kernel

theorem C54_fails : ¬ C54_statement := fun h => by
  have := h (lit "do f() {\nx = '\n'\ny\n}\n")
  rw [C54_witness.1, C54_witness.2] at this
  revert this
  decide +kernel

/-- C54: it holds for sources without errors and without a line break in a character literal.
Missing: texts the lexer does not accept, and character literals with a line break. -/
theorem C54_partial (src : Str)
    (h : ∀ ts, lex src = some ts → ∀ t ∈ ts, (∀ e, t.kind ≠ .illegal e) ∧ (t.kind = .char → 10 ∉ t.text)) :
    format (format src) = format src := by
  obtain ⟨ts, ts', h1, h2, h3⟩ := Fm.stable (src := src) fun ts hts t ht =>
    ⟨fun ⟨e, he⟩ => (h ts hts t ht).1 e he, (h ts hts t ht).2⟩
  obtain ⟨δ, hr⟩ := Fm.Re.format src
  have ht : table (format src) = table src := by
    unfold table
    rw [h1, h2]
    exact congrArg Prod.snd (Fm.depth_match h3 _)
  obtain ⟨h4, h5⟩ := Fm.lines_spec src [] (by simp)
  rw [Fm.format_eq (format src)]
  have e : linesFrom [] (format src) = Fm.outs src 1 (linesFrom [] src) := by
    conv_lhs => rw [Fm.format_eq src]
    rw [Fm.lines_ended _ [] (Fm.outs_lf h4) (Or.inr rfl)]
    cases Fm.outs src 1 (linesFrom [] src) <;> rfl
  rw [e, Fm.outs_idem (Fm.depthAt_congr ht) (fun n => (Fm.Re.rawLoop _ (Nat.le_refl _) hr _ _ _).symm), ← Fm.format_eq]

example : (∀ ts, lex (lit "a = {\n`x\n  `}\n") = some ts → ∀ t ∈ ts, (∀ e, t.kind ≠ .illegal e) ∧ (t.kind = .char → 10 ∉ t.text)) ∧
    format (lit "a = {\n`x\n  `}\n") = lit "a = {\n    `x\n  `}\n" :=
  ⟨Fm.ok_of (by decide +kernel), by decide +kernel⟩

end Verif.Props

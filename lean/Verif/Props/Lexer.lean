import Verif.Model.Lexer
import Mathlib.Tactic.Common

/-! C51, C52, C124–C127: the lexer. -/
namespace Verif.Props
open Verif Verif.Str Verif.Lexer

namespace Lx

/-! ### Gaps -/

theorem skipSpace_suffix (s : Str) : skipSpace s <:+ s := List.dropWhile_suffix _

theorem skipLine_suffix (s : Str) : skipLine s <:+ s := List.dropWhile_suffix _

theorem skipBlock_suffix : ∀ {s r : Str}, skipBlock s = some r → r <:+ s ∧ r.length < s.length
  | [], r, h => by simp [skipBlock] at h
  | c :: s, r, h => by
    rw [skipBlock] at h
    split at h
    · next hc =>
      rw [← Option.some.inj h]
      refine ⟨(List.drop_suffix _ _).trans (List.suffix_cons _ _), ?_⟩
      rw [List.length_drop, List.length_cons]; omega
    · obtain ⟨h1, h2⟩ := skipBlock_suffix h
      exact ⟨h1.trans (List.suffix_cons _ _), by rw [List.length_cons]; omega⟩

/-- What a text looks like after its leading white space. -/
inductive Head (s : Str) : Prop where
  | line (r : Str) (h : skipSpace s = 47 :: 47 :: r)
  | block (r : Str) (h : skipSpace s = 47 :: 42 :: r)
  | other (h : ∀ f, skip (f + 1) s = some (skipSpace s))

theorem head (s : Str) : Head s := by
  by_cases h1 : ∃ r, skipSpace s = 47 :: 47 :: r
  · exact h1.elim .line
  · by_cases h2 : ∃ r, skipSpace s = 47 :: 42 :: r
    · exact h2.elim .block
    · refine .other fun f => ?_
      rw [skip]
      split
      · next r h => exact absurd ⟨r, h⟩ h1
      · next r h => exact absurd ⟨r, h⟩ h2
      · rfl

theorem skip_line {s r : Str} (h : skipSpace s = 47 :: 47 :: r) (f : Nat) : skip (f + 1) s = skip f (skipLine r) := by
  rw [skip, h]; rfl

theorem skip_block {s r : Str} (h : skipSpace s = 47 :: 42 :: r) (f : Nat) :
    skip (f + 1) s = match skipBlock r with
      | none => none
      | some r => skip f r := by
  rw [skip, h]; rfl

theorem skip_fuel : ∀ (n : Nat) (s : Str) (f g : Nat), s.length ≤ n → s.length < f → s.length < g → skip f s = skip g s
  | n, s, 0, _, _, h, _ => absurd h (by omega)
  | n, s, f + 1, 0, _, _, h => absurd h (by omega)
  | 0, s, f + 1, g + 1, hn, hf, hg => by
    have : s = [] := List.length_eq_zero_iff.1 (by omega)
    subst this; rfl
  | n + 1, s, f + 1, g + 1, hn, hf, hg => by
    have hs := (skipSpace_suffix s).length_le
    rcases head s with ⟨r, h⟩ | ⟨r, h⟩ | h
    · rw [skip_line h, skip_line h]
      have h1 := (skipLine_suffix r).length_le
      rw [h] at hs; simp only [List.length_cons] at hs
      exact skip_fuel n _ f g (by omega) (by omega) (by omega)
    · rw [skip_block h, skip_block h]
      rw [h] at hs; simp only [List.length_cons] at hs
      cases e : skipBlock r with
      | none => rfl
      | some t =>
        have h1 := (skipBlock_suffix e).2
        exact skip_fuel n _ f g (by omega) (by omega) (by omega)
    · rw [h f, h g]

theorem skip_enough {s : Str} {f : Nat} (h : s.length < f) : skip f s = skip (s.length + 1) s :=
  skip_fuel s.length s f _ (Nat.le_refl _) h (by omega)

/-- The text left after a gap is the end of the text, and starts with neither white space nor a comment. -/
def Start (s : Str) : Prop :=
  (∀ c, s.head? = some c → isWs c = false) ∧ ¬ [47, 47] <+: s ∧ ¬ [47, 42] <+: s

theorem skip_start {s : Str} (h : Start s) (f : Nat) : skip (f + 1) s = some s := by
  have e : skipSpace s = s := by
    cases s with
    | nil => rfl
    | cons c r => rw [skipSpace, List.dropWhile_cons_of_neg]; rw [h.1 c rfl]; decide
  rcases head s with ⟨r, h1⟩ | ⟨r, h1⟩ | h1
  · exact absurd ⟨r, by rw [← e, h1]; rfl⟩ h.2.1
  · exact absurd ⟨r, by rw [← e, h1]; rfl⟩ h.2.2
  · rw [h1 f, e]

theorem start_of {s : Str} (h1 : skipSpace s = s) (hl : ∀ r, s ≠ 47 :: 47 :: r) (hb : ∀ r, s ≠ 47 :: 42 :: r) :
    Start s := by
  refine ⟨fun c hc => ?_, ?_, ?_⟩
  · cases s with
    | nil => cases hc
    | cons d r =>
      cases hc
      rw [skipSpace, List.dropWhile_cons] at h1
      split at h1
      · next hd =>
        have := (List.dropWhile_suffix (p := isWs) (l := r)).length_le
        rw [h1, List.length_cons] at this; omega
      · next hd => simpa using hd
  · rintro ⟨r, rfl⟩; exact hl r rfl
  · rintro ⟨r, rfl⟩; exact hb r rfl

theorem skipSpace_idem (s : Str) : skipSpace (skipSpace s) = skipSpace s := by
  induction s with
  | nil => rfl
  | cons c r ih =>
    by_cases h : isWs c = true
    · rw [show skipSpace (c :: r) = skipSpace r from List.dropWhile_cons_of_pos h]; exact ih
    · rw [show skipSpace (c :: r) = c :: r from List.dropWhile_cons_of_neg h]
      exact List.dropWhile_cons_of_neg h

theorem skip_spec : ∀ (f : Nat) (s t : Str), s.length < f → skip f s = some t → t <:+ s ∧ Start t
  | 0, s, _, h, _ => absurd h (by omega)
  | f + 1, s, t, hf, h => by
    have hs := skipSpace_suffix s
    have hl := hs.length_le
    rcases head s with ⟨r, h1⟩ | ⟨r, h1⟩ | h1
    · rw [skip_line h1] at h
      have hr : skipLine r <:+ s :=
        ((skipLine_suffix r).trans ((List.suffix_cons _ _).trans (List.suffix_cons _ _))).trans (h1 ▸ hs)
      have := (skipLine_suffix r).length_le
      rw [h1] at hl; simp only [List.length_cons] at hl
      obtain ⟨h2, h3⟩ := skip_spec f _ t (by omega) h
      exact ⟨h2.trans hr, h3⟩
    · rw [skip_block h1] at h
      cases e : skipBlock r with
      | none => rw [e] at h; cases h
      | some u =>
        rw [e] at h
        obtain ⟨h2, h3⟩ := skipBlock_suffix e
        rw [h1] at hl; simp only [List.length_cons] at hl
        obtain ⟨h4, h5⟩ := skip_spec f u t (by omega) h
        exact ⟨h4.trans (h2.trans (((List.suffix_cons _ _).trans (List.suffix_cons _ _)).trans (h1 ▸ hs))), h5⟩
    · rw [h1 f] at h
      rw [← Option.some.inj h]
      refine ⟨hs, start_of (skipSpace_idem s) (fun r hr => ?_) (fun r hr => ?_)⟩
      · have h2 := h1 0
        rw [skip_line hr, skip] at h2
        have := (skipLine_suffix r).length_le
        rw [Option.some.inj h2, hr] at this; simp only [List.length_cons] at this; omega
      · have h2 := h1 0
        rw [skip_block hr] at h2
        cases e : skipBlock r with
        | none => rw [e] at h2; cases h2
        | some u =>
          rw [e] at h2; dsimp only [skip] at h2
          have := (skipBlock_suffix e).2
          rw [Option.some.inj h2, hr] at this; simp only [List.length_cons] at this; omega

/-! ### Progress -/

theorem drop_suf (c : Byte) (r : Str) (n : Nat) (h : 0 < n) : (c :: r).drop n <:+ r := by
  obtain ⟨k, rfl⟩ : ∃ k, n = k + 1 := ⟨n - 1, by omega⟩
  exact List.drop_suffix k r

theorem dropWhile_suf {p : Byte → Bool} {c : Byte} {r : Str} (h : p c = true) : (c :: r).dropWhile p <:+ r := by
  rw [List.dropWhile_cons_of_pos h]; exact List.dropWhile_suffix _

theorem strLoop_suffix : ∀ (n : Nat) (s : Str) (d : Nat) (e : Option String), s.length ≤ n → (strLoop s d e).rest <:+ s
  | 0, s, d, e, h => by
    rw [List.length_eq_zero_iff.1 (Nat.le_zero.1 h), strLoop]; exact List.suffix_rfl
  | n + 1, s, d, e, h => by
    have nl : ∀ t : Str, ([] : Str) <:+ t := fun t => List.nil_suffix
    have go : ∀ (p t : Str) (d : Nat) (e : Option String) (q : Str), s = p ++ t → 0 < p.length →
        ((strLoop t d e).pre q).rest <:+ s := by
      intro p t d e q hs hp
      rw [hs]
      refine (strLoop_suffix n t d e ?_).trans (List.suffix_append _ _)
      rw [hs, List.length_append] at h; omega
    rw [strLoop.eq_def]
    split
    · exact nl _
    · next r =>
      split
      · exact nl _
      · next r1 =>
        split
        · exact nl _
        · next a r2 =>
          split
          · split
            · exact nl _
            · next b r3 =>
              split
              · exact go [92, 120, a, b] r3 _ _ _ rfl (by simp)
              · exact go [92, 120, a] (b :: r3) _ _ _ rfl (by simp)
          · exact go [92, 120] (a :: r2) _ _ _ rfl (by simp)
      · next c r1 _ => exact go [92, c] r1 _ _ _ rfl (by simp)
    · next c r _ =>
      split
      · cases r with
        | nil => exact nl _
        | cons b r1 => exact go [c, b] r1 _ _ _ rfl (by simp)
      · split
        · exact go [c] r _ _ _ rfl (by simp)
        · split
          · exact go [c] r _ _ _ rfl (by simp)
          · split
            · exact List.suffix_rfl
            · split
              · exact List.suffix_rfl
              · exact go [c] r _ _ _ rfl (by simp)

theorem readString_suffix (c : Byte) (r : Str) : (readString (c :: r)).2.2 <:+ r := by
  have h : (strLoop r 0 none).rest <:+ r := strLoop_suffix _ _ _ _ (Nat.le_refl _)
  have h1 : (strLoop r 0 none).rest.drop 1 <:+ r := (List.drop_suffix _ _).trans h
  unfold readString
  dsimp only [List.drop_succ_cons, List.drop_zero]
  split
  all_goals first | exact h1 | exact h

theorem readRaw_suffix (c : Byte) (r : Str) : (readRaw (c :: r)).2.2 <:+ r := by
  unfold readRaw
  dsimp only [List.drop_succ_cons, List.drop_zero]
  split
  · exact List.nil_suffix
  · next x t h =>
    exact (List.suffix_cons x t).trans (h ▸ List.dropWhile_suffix _)

theorem charEnd_suffix (t s : Str) (e : Option String) : (charEnd t s e).2.2 <:+ s := by
  unfold charEnd
  split
  · dsimp only; split
    · exact List.drop_suffix _ _
    · exact List.suffix_rfl
  · split
    · exact List.suffix_rfl
    · next c r =>
      split
      · exact List.suffix_cons _ _
      · dsimp only
        split
        · exact (List.drop_suffix _ _).trans (List.dropWhile_suffix _)
        · exact List.dropWhile_suffix _

theorem readChar_suffix (c : Byte) (r : Str) : (readChar (c :: r)).2.2 <:+ r := by
  unfold readChar
  rw [show (c :: r).drop 1 = r from rfl]
  split
  · exact charEnd_suffix _ _ _
  · split
    · exact (charEnd_suffix _ _ _).trans List.nil_suffix
    · exact (charEnd_suffix _ _ _).trans ((List.suffix_cons _ _).trans (List.suffix_cons _ _))
  · exact (charEnd_suffix _ _ _).trans (List.suffix_cons _ _)

theorem readDecimal_suffix {c : Byte} {r : Str} (h : isDigit c = true) : (readDecimal (c :: r)).2.2 <:+ r := by
  have hd : (c :: r).dropWhile isDigitU <:+ r := dropWhile_suf (by simp [isDigitU, h])
  unfold readDecimal
  split
  · next x t e =>
    rw [e] at hd
    split
    · exact (List.dropWhile_suffix _).trans ((List.suffix_cons _ _).trans hd)
    · exact hd
  · exact hd

theorem readNumber_suffix {c : Byte} {r : Str} (h : isDigit c = true) : (readNumber (c :: r)).2.2 <:+ r := by
  have hp : ∀ ok, (readPrefixed ok (c :: r)).2.2 <:+ r := fun ok =>
    (List.dropWhile_suffix _).trans (drop_suf c r 2 (by decide))
  unfold readNumber
  split
  · exact hp _
  · split
    · exact hp _
    · split
      · exact hp _
      · dsimp only
        split
        · exact readDecimal_suffix h
        · exact readDecimal_suffix h

theorem two_suffix (c : Byte) (r : Str) (b : Byte) (x y : String) : (two (c :: r) b x y).2.2 <:+ r := by
  unfold two
  split
  · exact drop_suf c r 2 (by decide)
  · exact drop_suf c r 1 (by decide)

theorem token_suffix (c : Byte) (r : Str) : (token (c :: r)).2.2 <:+ r := by
  have d1 := drop_suf c r 1 (by decide)
  have d2 := drop_suf c r 2 (by decide)
  have d3 := drop_suf c r 3 (by decide)
  unfold token
  split
  case h_25 =>
    split
    · next a ha =>
      have := List.mem_of_find?_eq_some ha
      refine drop_suf c r _ ?_
      have key : ∀ a ∈ attrs, 0 < a.length := by decide +kernel
      exact key a this
    · exact d1
  case h_26 => exact readString_suffix _ _
  case h_27 => exact readRaw_suffix _ _
  case h_28 => exact readChar_suffix _ _
  case h_29 =>
    split
    · next h =>
      refine dropWhile_suf ?_
      have h : (isAlpha c || c == 95) = true := h
      rw [isWordByte, Bool.or_assoc, Bool.or_comm (c == 95), ← Bool.or_assoc, Bool.or_right_comm, h, Bool.true_or]
    · split
      · next h => exact readNumber_suffix h
      · exact d1
  all_goals
    first
    | exact two_suffix _ _ _ _ _
    | exact d1
    | (split
       · exact d2
       · first
         | exact two_suffix _ _ _ _ _
         | exact d1
         | (split
            · first | exact d2 | exact d3
            · first | exact two_suffix _ _ _ _ _ | exact d1))

theorem next_suffix (s : Str) : (next s).2 <:+ s ∧ ((next s).1.kind = .eof ∨ (next s).2.length < s.length) := by
  unfold next
  split
  · next h =>
    refine ⟨List.nil_suffix, Or.inr ?_⟩
    rw [List.length_nil, List.length_pos_iff]
    rintro rfl; simp [skip, skipSpace] at h
  · exact ⟨List.nil_suffix, Or.inl rfl⟩
  · next c r h =>
    obtain ⟨h1, _⟩ := skip_spec _ _ _ (Nat.lt_succ_self _) h
    have h2 := token_suffix c r
    refine ⟨(h2.trans (List.suffix_cons c r)).trans h1, Or.inr ?_⟩
    have h3 := h2.length_le
    have h4 := h1.length_le
    rw [List.length_cons] at h4
    dsimp only
    omega

theorem lexLoop_ok : ∀ (f : Nat) (s : Str), s.length < f →
    ∃ ts e, lexLoop f s = some (ts ++ [e]) ∧ e.kind = .eof ∧ (∀ t ∈ ts, t.kind ≠ .eof) ∧ ts.length ≤ s.length
  | 0, s, h => absurd h (by omega)
  | f + 1, s, h => by
    rw [lexLoop]
    by_cases he : (next s).1.kind = .eof
    · exact ⟨[], (next s).1, by rw [if_pos he]; rfl, he, nofun, Nat.zero_le _⟩
    · rw [if_neg he]
      have hl := (next_suffix s).2.resolve_left he
      obtain ⟨ts, e, h1, h2, h3, h4⟩ := lexLoop_ok f (next s).2 (by omega)
      refine ⟨(next s).1 :: ts, e, by rw [h1]; rfl, h2, fun t ht => ?_, by rw [List.length_cons]; omega⟩
      rcases List.mem_cons.1 ht with rfl | ht
      · exact he
      · exact h3 t ht

end Lx

/-- C51: the lexer reaches the end of every text, the end is the last token and no other, every call
before it reads at least one byte, and the number of calls allowed does not matter. -/
theorem C51_terminates (s : Str) :
    (∃ ts e, lex s = some (ts ++ [e]) ∧ e.kind = .eof ∧ (∀ t ∈ ts, t.kind ≠ .eof) ∧ ts.length ≤ s.length) ∧
    ((next s).1.kind ≠ .eof → (next s).2.length < s.length) ∧ (next s).2 <:+ s :=
  ⟨Lx.lexLoop_ok _ s (Nat.lt_succ_self _), fun h => (Lx.next_suffix s).2.resolve_left h, (Lx.next_suffix s).1⟩

/-- C51: the loop over white space and comments ends too, at a byte that starts neither. -/
theorem C51_gaps (s t : Str) (f : Nat) (hf : s.length < f) (h : skip f s = some t) :
    t <:+ s ∧ Lx.Start t ∧ skip (f + 1) s = some t := by
  obtain ⟨h1, h2⟩ := Lx.skip_spec f s t hf h
  refine ⟨h1, h2, ?_⟩
  rw [Lx.skip_enough (show s.length < f + 1 by omega), ← Lx.skip_enough hf, h]

example : (lex (lit "mut x = 0x1F /* c */ + 'a' // end")).map (·.map fun t => (t.kind, t.text)) =
    some [(.sym (lit "mut"), lit "mut"), (.ident, lit "x"), (.sym (lit "="), lit "="), (.int, lit "0x1F"),
      (.sym (lit "+"), lit "+"), (.char, lit "a"), (.eof, [])] := by decide +kernel

/-! ### C124: keywords -/

namespace Lx

theorem strcmp_eq : ∀ {a b : Str}, strcmp a b = .eq ↔ a = b
  | [], [] => by simp [strcmp]
  | [], _ :: _ => by simp [strcmp]
  | _ :: _, [] => by simp [strcmp]
  | a :: s, b :: t => by
    rw [strcmp]
    split
    · next h => simp only [reduceCtorEq, List.cons.injEq, false_iff, not_and]; intro h1; rw [h1] at h; omega
    · split
      · next h => simp only [reduceCtorEq, List.cons.injEq, false_iff, not_and]; intro h1; rw [h1] at h; omega
      · next h1 h2 =>
        have : a = b := BitVec.eq_of_toNat_eq (by omega)
        rw [strcmp_eq, this]; simp

theorem strcmp_gt : ∀ {a b : Str}, strcmp a b = .gt ↔ strcmp b a = .lt
  | [], [] => by simp [strcmp]
  | [], _ :: _ => by simp [strcmp]
  | _ :: _, [] => by simp [strcmp]
  | a :: s, b :: t => by
    rw [strcmp, strcmp]
    rcases Nat.lt_trichotomy a.toNat b.toNat with h | h | h
    · rw [if_pos h, if_neg (by omega), if_pos h]; simp
    · rw [if_neg (by omega), if_neg (by omega), if_neg (by omega), if_neg (by omega)]; exact strcmp_gt
    · rw [if_neg (by omega), if_pos h, if_pos h]; simp

theorem strcmp_trans : ∀ {a b c : Str}, strcmp a b = .lt → strcmp b c = .lt → strcmp a c = .lt
  | [], [], c, h, _ => by simp [strcmp] at h
  | [], _ :: _, [], _, h => by simp [strcmp] at h
  | [], _ :: _, _ :: _, _, _ => rfl
  | _ :: _, [], c, h, _ => by simp [strcmp] at h
  | a :: s, b :: t, [], _, h => by simp [strcmp] at h
  | a :: s, b :: t, c :: u, h1, h2 => by
    rw [strcmp] at h1 h2 ⊢
    by_cases hab : a.toNat < b.toNat
    · by_cases hcb : c.toNat < b.toNat
      · rw [if_neg (by omega), if_pos hcb] at h2; cases h2
      · rw [if_pos (by omega)]
    · rw [if_neg hab] at h1
      by_cases hba : b.toNat < a.toNat
      · rw [if_pos hba] at h1; cases h1
      · rw [if_neg hba] at h1
        by_cases hbc : b.toNat < c.toNat
        · rw [if_pos (by omega)]
        · rw [if_neg hbc] at h2
          by_cases hcb : c.toNat < b.toNat
          · rw [if_pos hcb] at h2; cases h2
          · rw [if_neg hcb] at h2
            rw [if_neg (by omega), if_neg (by omega)]
            exact strcmp_trans h1 h2

/-- The entries of a table are in the order of `strcmp`. -/
def Sorted (tab : List (Str × Str)) : Prop :=
  ∀ i j : Nat, i < j → ∀ a b, tab[i]? = some a → tab[j]? = some b → strcmp a.1 b.1 = .lt

theorem lookupLoop_spec (tab : List (Str × Str)) (ht : Sorted tab) (id : Str) :
    ∀ (f lo hi : Nat), hi ≤ tab.length → hi - lo < f →
      (∀ t, (∃ i, lo ≤ i ∧ i < hi ∧ tab[i]? = some (id, t)) → lookupLoop tab id f lo hi = .sym t) ∧
      ((∀ i t, lo ≤ i → i < hi → tab[i]? ≠ some (id, t)) → lookupLoop tab id f lo hi = .ident)
  | 0, lo, hi, _, h => absurd h (by omega)
  | f + 1, lo, hi, hl, hf => by
    rw [lookupLoop]
    by_cases hlt : lo < hi
    · rw [if_pos hlt]
      dsimp only
      generalize hm : (lo + (hi - 1)) / 2 = mid
      have h1 : lo ≤ mid := by omega
      have h2 : mid < hi := by omega
      have he : tab[mid]? = some tab[mid] := List.getElem?_eq_getElem (by omega)
      rw [he]
      generalize tab[mid] = e at he
      obtain ⟨k, tk⟩ := e
      dsimp only
      cases hc : strcmp id k with
      | eq =>
        have hk := strcmp_eq.1 hc
        dsimp only
        refine ⟨fun t ⟨i, hi1, hi2, hi3⟩ => ?_, fun h => absurd (hk ▸ he) (h mid tk h1 h2)⟩
        rcases Nat.lt_trichotomy i mid with hx | hx | hx
        · have := ht i mid hx _ _ hi3 he
          rw [strcmp_eq.2 hk] at this; cases this
        · rw [hx, he] at hi3
          rw [(Prod.mk.injEq _ _ _ _ ▸ Option.some.inj hi3 : k = id ∧ tk = t).2]
        · have := ht mid i hx _ _ he hi3
          rw [strcmp_eq.2 hk.symm] at this; cases this
      | lt =>
        dsimp only
        obtain ⟨a, b⟩ := lookupLoop_spec tab ht id f lo mid (by omega) (by omega)
        refine ⟨fun t ⟨i, hi1, hi2, hi3⟩ => a t ⟨i, hi1, ?_, hi3⟩, fun h => b fun i t hi1 hi2 => h i t hi1 (by omega)⟩
        rcases Nat.lt_trichotomy i mid with hx | hx | hx
        · exact hx
        · rw [hx, he] at hi3
          have : k = id := (Prod.mk.injEq _ _ _ _ ▸ Option.some.inj hi3 : k = id ∧ tk = t).1
          rw [strcmp_eq.2 this.symm] at hc; cases hc
        · have := strcmp_trans hc (ht mid i hx _ _ he hi3)
          rw [strcmp_eq.2 rfl] at this; cases this
      | gt =>
        dsimp only
        obtain ⟨a, b⟩ := lookupLoop_spec tab ht id f (mid + 1) hi (by omega) (by omega)
        refine ⟨fun t ⟨i, hi1, hi2, hi3⟩ => a t ⟨i, ?_, hi2, hi3⟩, fun h => b fun i t hi1 hi2 => h i t (by omega) hi2⟩
        rcases Nat.lt_trichotomy i mid with hx | hx | hx
        · have := strcmp_trans (ht i mid hx _ _ hi3 he) (strcmp_gt.1 hc)
          rw [strcmp_eq.2 rfl] at this; cases this
        · rw [hx, he] at hi3
          have : k = id := (Prod.mk.injEq _ _ _ _ ▸ Option.some.inj hi3 : k = id ∧ tk = t).1
          rw [strcmp_eq.2 this.symm] at hc; cases hc
        · omega
    · rw [if_neg hlt]
      exact ⟨fun t ⟨i, _, _, _⟩ => by omega, fun _ => rfl⟩

theorem keywords_sorted : Sorted keywords := by
  have key : keywords.Pairwise fun a b => strcmp a.1 b.1 = .lt := by decide +kernel
  intro i j hij a b ha hb
  obtain ⟨hi, rfl⟩ := List.getElem?_eq_some_iff.1 ha
  obtain ⟨hj, rfl⟩ := List.getElem?_eq_some_iff.1 hb
  exact List.pairwise_iff_getElem.1 key i j hi hj hij

end Lx

/-- The reserved words of STANDARD 2.5 that are not names of types, with the two aliases, and the three words
that other parts of STANDARD use (`_`, `module`, `nil`). -/
def reserved : List (Str × Str) :=
  (["as_long_as", "break", "continue", "default", "ensure", "for", "for_each", "if", "is", "loop", "or",
    "or_return", "otherwise", "return", "when", "const", "do", "enum", "import", "mut", "new", "private", "struct",
    "use", "using", "bit_and", "bit_not", "bit_or", "bit_shift_left", "bit_shift_right", "bit_xor", "cast",
    "false", "in", "not_in", "range", "true", "nil", "module", "_"].map fun w => (lit w, lit w)) ++
  [(lit "else", lit "otherwise"), (lit "while", lit "as_long_as")]

/-- C124: a word is the keyword it spells, and an identifier if it spells none. -/
theorem C124_keywords (w : Str) :
    (∀ t, (w, t) ∈ reserved → lookupWord w = .sym t) ∧
    ((∀ t, (w, t) ∉ reserved) → lookupWord w = .ident) := by
  obtain ⟨a, b⟩ := Lx.lookupLoop_spec keywords Lx.keywords_sorted w (keywords.length + 1) 0 keywords.length
    (Nat.le_refl _) (by omega)
  have k1 : ∀ x ∈ reserved, x ∈ keywords := by decide +kernel
  have k2 : ∀ x ∈ keywords, x ∈ reserved := by decide +kernel
  refine ⟨fun t ht => a t ?_, fun h => b fun i t _ _ hi => h t (k2 _ (List.mem_of_getElem? hi))⟩
  obtain ⟨i, hi, he⟩ := List.getElem_of_mem (k1 _ ht)
  exact ⟨i, Nat.zero_le _, hi, by rw [List.getElem?_eq_getElem hi, he]⟩

example : lookupWord (lit "for_each") = .sym (lit "for_each") ∧ lookupWord (lit "form") = .ident := by decide +kernel

/-! ### C52: numbers -/

/-- Digits with separators as STANDARD 2.7.1 has them: no underscore at the beginning or end, and no two
in a row. -/
def Sep (ok : Byte → Bool) (s : Str) : Prop :=
  s ≠ [] ∧ (∀ c ∈ s, ok c = true ∨ c = 95) ∧ s.head? ≠ some 95 ∧ s.getLast? ≠ some 95 ∧ ¬ [95, 95] <:+: s

/-- The numeric literals of STANDARD 2.7.1 and 2.7.2. -/
inductive NumLit : Kind → Str → Prop where
  | dec {a} (h : Sep isDigit a) : NumLit .int a
  | point {a b} (ha : Sep isDigit a) (hb : Sep isDigit b) : NumLit .float (a ++ 46 :: b)
  | hex {x a} (hx : x = 120 ∨ x = 88) (h : Sep isXDigit a) : NumLit .int (48 :: x :: a)
  | oct {x a} (hx : x = 111 ∨ x = 79) (h : Sep (fun c => decide (48 ≤ c.toNat ∧ c.toNat < 56)) a) :
      NumLit .int (48 :: x :: a)
  | bin {x a} (hx : x = 98 ∨ x = 66) (h : Sep (fun c => decide (c = 48 ∨ c = 49)) a) : NumLit .int (48 :: x :: a)

/-- C52 as claimed: the texts accepted as numbers are numeric literals. -/
def C52_statement : Prop :=
  ∀ (c : Byte) (r : Str), isDigit c = true → ∀ k, k = .int ∨ k = .float →
    (readNumber (c :: r)).1 = k → NumLit k (readNumber (c :: r)).2.1

/-- Numbers with a prefix are not checked. -/
theorem C52_witness : readNumber (lit "0x__1_") = (.int, lit "0x__1_", []) ∧
    readNumber (lit "0x_") = (.int, lit "0x_", []) := by decide +kernel

namespace Lx

theorem hasDouble_iff : ∀ s : Str, hasDouble s = true ↔ [95, 95] <:+: s
  | [] => by simp [hasDouble]
  | [c] => by
    simp only [hasDouble, Bool.false_eq_true, false_iff]
    intro h
    have := h.length_le
    simp at this
  | c :: d :: r => by
    by_cases h : c = 95 ∧ d = 95
    · rw [h.1, h.2]
      exact ⟨fun _ => ⟨[], r, rfl⟩, fun _ => rfl⟩
    · rw [hasDouble]
      · rw [hasDouble_iff (d :: r), List.infix_cons_iff (l₂ := d :: r)]
        constructor
        · exact Or.inr
        · rintro (⟨t, ht⟩ | h1)
          · simp only [List.cons_append, List.nil_append, List.cons.injEq] at ht
            exact absurd ⟨ht.1.symm, ht.2.1.symm⟩ h
          · exact h1
      · intro r' h1 h2
        simp only [List.cons.injEq] at h2
        exact h ⟨h1, h2.1⟩

theorem at0_last {s : Str} : at0 s (s.length - 1) = 95 ↔ s.getLast? = some 95 := by
  rw [at0, ← List.getLast?_eq_getElem?]
  cases s.getLast? with
  | none => simp
  | some c => simp

theorem at0_head {s : Str} : at0 s 0 = 95 ↔ s.head? = some 95 := by
  cases s <;> simp [at0]

theorem takeWhile_pt {a : Str} (ha : ∀ c ∈ a, c ≠ 46) (b : Str) :
    (a ++ 46 :: b).takeWhile (· != 46) = a := by
  induction a with
  | nil => rfl
  | cons c a ih =>
    rw [List.cons_append, List.takeWhile_cons_of_pos (by simpa using ha c List.mem_cons_self),
      ih fun d hd => ha d (List.mem_cons_of_mem _ hd)]

theorem takeWhile_all' {p : Byte → Bool} : ∀ {a : Str}, (∀ c ∈ a, p c = true) → a.takeWhile p = a
  | [], _ => rfl
  | c :: a, h => by
    rw [List.takeWhile_cons_of_pos (h c List.mem_cons_self), takeWhile_all' fun d hd => h d (List.mem_cons_of_mem _ hd)]

theorem pointCheck_int {a : Str} (ha : ∀ c ∈ a, c ≠ 46) : pointCheck a = none := by
  have : a.takeWhile (· != 46) = a := by
    refine takeWhile_all' fun c hc => ?_
    simpa using ha c hc
  rw [pointCheck, this, if_neg (by omega)]

theorem pointCheck_pt {a : Str} (ha : ∀ c ∈ a, c ≠ 46) (b : Str) :
    pointCheck (a ++ 46 :: b) = none ↔ a.getLast? ≠ some 95 ∧ isDigit (at0 b 0) = true := by
  have e1 : at0 (a ++ 46 :: b) (a.length + 1) = at0 b 0 := by
    rw [at0, at0, List.getElem?_append_right (by omega), show a.length + 1 - a.length = 0 + 1 by omega,
      List.getElem?_cons_succ]
  have e2 : 0 < a.length → at0 (a ++ 46 :: b) (a.length - 1) = at0 a (a.length - 1) := by
    intro h
    rw [at0, at0, List.getElem?_append_left (by omega)]
  have k1 : ∀ n : Fin 256, isDigit (BitVec.ofFin n : Byte) = true → (BitVec.ofFin n : Byte) ≠ 95 ∧ (BitVec.ofFin n : Byte) ≠ 0 := by
    decide +kernel
  have k := k1 (at0 b 0).toFin
  rw [pointCheck, takeWhile_pt ha]
  dsimp only
  rw [if_pos (by rw [List.length_append, List.length_cons]; omega), e1]
  by_cases hd : isDigit (at0 b 0) = true
  · obtain ⟨h1, h2⟩ := k hd
    have h1 : at0 b 0 ≠ 95 := h1
    have h2 : at0 b 0 ≠ 0 := h2
    rw [if_neg (by simp only [hd, h2]; simp), if_neg h1]
    by_cases hl : a.getLast? = some 95
    · have : 0 < a.length := by
        rw [List.length_pos_iff]; rintro rfl; cases hl
      rw [if_pos ⟨this, by rw [e2 this, at0_last]; exact hl⟩]
      simp [hl]
    · rw [if_neg]
      · exact ⟨fun _ => ⟨hl, hd⟩, fun _ => rfl⟩
      · rintro ⟨h3, h4⟩
        rw [e2 h3, at0_last] at h4
        exact hl h4
  · refine ⟨fun h => ?_, fun h => absurd h.2 hd⟩
    split at h
    · cases h
    · next hn =>
      exfalso
      split at h
      · cases h
      · next h5 => exact hn (Or.inr ⟨hd, h5⟩)

theorem numberCheck_none (t : Str) :
    numberCheck t = none ↔ t.getLast? ≠ some 95 ∧ ¬ [95, 95] <:+: t ∧ pointCheck t = none := by
  unfold numberCheck
  dsimp only
  rw [← hasDouble_iff]
  cases pointCheck t with
  | some c => simp
  | none =>
    cases hasDouble t with
    | true => simp
    | false =>
      simp only [Bool.false_eq_true, if_false, not_false_eq_true, and_true, true_and]
      by_cases h : t.getLast? = some 95
      · rw [if_pos (at0_last.2 h)]; simp [h]
      · rw [if_neg (fun h1 => h (at0_last.1 h1))]; exact ⟨fun _ => h, fun _ => rfl⟩

theorem digitU_ne {c : Byte} (h : isDigitU c = true) : c ≠ 46 := by
  have k : ∀ n : Fin 256, isDigitU (BitVec.ofFin n : Byte) = true → (BitVec.ofFin n : Byte) ≠ 46 := by decide +kernel
  exact k c.toFin h

theorem digitU_iff {c : Byte} : isDigitU c = true ↔ isDigit c = true ∨ c = 95 := by
  simp [isDigitU]

theorem takeWhile_mem {p : Byte → Bool} : ∀ {s : Str} {c : Byte}, c ∈ s.takeWhile p → p c = true
  | [], c, h => by cases h
  | d :: s, c, h => by
    rw [List.takeWhile_cons] at h
    split at h
    · next hd =>
      rcases List.mem_cons.1 h with rfl | h
      · exact hd
      · exact takeWhile_mem h
    · cases h

theorem infix_left {a b : Str} (h : ¬ [95, 95] <:+: a ++ b) : ¬ [95, 95] <:+: a :=
  fun h1 => h (h1.trans (List.infix_append' [] a b))

theorem infix_right {a b : Str} (h : ¬ [95, 95] <:+: a ++ b) : ¬ [95, 95] <:+: b :=
  fun h1 => h (h1.trans (List.suffix_append a b).isInfix)

theorem digit_ne_us {c : Byte} (h : isDigit c = true) : c ≠ 95 := by
  rintro rfl; exact absurd h (by decide)

/-- Decimal literals: what is accepted is a literal. -/
theorem readDecimal_sound {c : Byte} {r : Str} (hc : isDigit c = true)
    (h : numberCheck (readDecimal (c :: r)).2.1 = none) :
    NumLit (readDecimal (c :: r)).1 (readDecimal (c :: r)).2.1 := by
  have hcu : isDigitU c = true := digitU_iff.2 (Or.inl hc)
  have ea : (c :: r).takeWhile isDigitU = c :: r.takeWhile isDigitU := List.takeWhile_cons_of_pos hcu
  have ha : ∀ d ∈ (c :: r).takeWhile isDigitU, isDigitU d = true := fun d hd => takeWhile_mem hd
  have hn : ∀ d ∈ (c :: r).takeWhile isDigitU, d ≠ 46 := fun d hd => digitU_ne (ha d hd)
  have sep : ∀ {a}, a = (c :: r).takeWhile isDigitU → a.getLast? ≠ some 95 → ¬ [95, 95] <:+: a → Sep isDigit a := by
    rintro a rfl h1 h2
    refine ⟨by rw [ea]; simp, fun d hd => digitU_iff.1 (ha d hd), ?_, h1, h2⟩
    rw [ea, List.head?_cons, ne_eq, Option.some.injEq]
    exact digit_ne_us hc
  revert h
  unfold readDecimal
  generalize hA : (c :: r).takeWhile isDigitU = A at *
  have int : numberCheck A = none → NumLit .int A := fun h => by
    rw [numberCheck_none] at h
    exact .dec (sep rfl h.1 h.2.1)
  split
  · next x t e =>
    split
    · intro h
      dsimp only at h ⊢
      rw [numberCheck_none, pointCheck_pt hn] at h
      obtain ⟨h1, h2, h3, h4⟩ := h
      have e1 : at0 (t.takeWhile isDigitU) 0 ∈ t.takeWhile isDigitU ∧ t.takeWhile isDigitU ≠ [] := by
        cases hb : t.takeWhile isDigitU with
        | nil => rw [hb] at h4; exact absurd h4 (by decide)
        | cons d u => exact ⟨by simp [at0], by simp⟩
      refine .point (sep rfl h3 (infix_left h2)) ⟨e1.2, fun d hd => digitU_iff.1 (takeWhile_mem hd), ?_, ?_, ?_⟩
      · intro h5
        rw [← at0_head] at h5
        exact digit_ne_us h4 h5
      · rw [List.getLast?_append, List.getLast?_cons] at h1
        cases hl : (t.takeWhile isDigitU).getLast? with
        | none => simp
        | some d => rw [hl] at h1; simpa using h1
      · have := infix_right h2
        exact fun h5 => this (h5.trans (List.suffix_cons _ _).isInfix)
    · exact int
  · exact int

end Lx

theorem C52_fails : ¬ C52_statement := fun h => by
  have h1 := h 48 (lit "x__1_") (by decide) .int (Or.inl rfl) (by decide +kernel)
  rw [show (readNumber (48 :: lit "x__1_")).2.1 = 48 :: 120 :: lit "__1_" by decide +kernel] at h1
  generalize hA : (48 :: 120 :: lit "__1_" : Str) = A at h1
  cases h1 with
  | dec h2 =>
    rw [← hA] at h2
    have := h2.2.1 120 (by simp)
    exact absurd this (by decide)
  | hex hx h2 => cases hA; exact h2.2.2.1 rfl
  | oct hx h2 => cases hA; exact absurd hx (by decide)
  | bin hx h2 => cases hA; exact absurd hx (by decide)

/-- What holds: decimal literals, with or without a point, are checked; literals with a prefix have digits
of their base and underscores, and at least one of these. What is missing: the places of underscores in
literals with a prefix, which may even have no digit. -/
theorem C52_partial (c : Byte) (r : Str) (hc : isDigit c = true) (k : Kind) (hk : k = .int ∨ k = .float)
    (h : (readNumber (c :: r)).1 = k) :
    NumLit k (readNumber (c :: r)).2.1 ∨
    ∃ x ds ok, (readNumber (c :: r)).2.1 = 48 :: x :: ds ∧ ds ≠ [] ∧ (∀ d ∈ ds, ok d = true ∨ d = 95) ∧
      ((x ∈ [120, 88] ∧ ok = isXDigit) ∨ (x ∈ [111, 79] ∧ ok = fun d => decide (48 ≤ d.toNat ∧ d.toNat < 56)) ∨
        (x ∈ [98, 66] ∧ ok = fun d => decide (d = 48 ∨ d = 49))) := by
  have pre : ∀ {x : Byte} {ok q : Byte → Bool}, c = 48 → at0 (c :: r) 1 = x → x ≠ 0 →
      (∀ d, ok d = q d) → (readPrefixed ok (c :: r)).1 = k →
      ∃ ds, (readPrefixed ok (c :: r)).2.1 = 48 :: x :: ds ∧ ds ≠ [] ∧ (∀ d ∈ ds, q d = true ∨ d = 95) := by
    intro x ok q h0 h1 hx hq hk1
    obtain ⟨r', rfl⟩ : ∃ r', r = x :: r' := by
      cases r with
      | nil => exact absurd h1 (fun h => hx h.symm)
      | cons d r' => exact ⟨r', by rw [← h1]; rfl⟩
    subst h0
    refine ⟨r'.takeWhile fun c => ok c || c == 95, rfl, ?_, fun d hd => ?_⟩
    · intro he
      unfold readPrefixed at hk1
      dsimp only at hk1
      rw [show List.drop 2 (48 :: x :: r') = r' from rfl, if_pos he] at hk1
      rcases hk with rfl | rfl <;> cases hk1
    · have := Lx.takeWhile_mem hd
      rw [Bool.or_eq_true, beq_iff_eq, hq] at this
      exact this
  revert h
  unfold readNumber
  split
  · next h =>
    intro hk1
    refine Or.inr ?_
    rcases h with ⟨h0, h1 | h1⟩
    · obtain ⟨ds, a, b, d⟩ := pre (x := 120) (q := isXDigit) h0 h1 (by decide) (fun _ => rfl) hk1
      exact ⟨120, ds, _, a, b, d, Or.inl ⟨by simp, rfl⟩⟩
    · obtain ⟨ds, a, b, d⟩ := pre (x := 88) (q := isXDigit) h0 h1 (by decide) (fun _ => rfl) hk1
      exact ⟨88, ds, _, a, b, d, Or.inl ⟨by simp, rfl⟩⟩
  · split
    · next h =>
      have hq : ∀ n : Fin 256, between 48 (BitVec.ofFin n : Byte) 55 =
          decide (48 ≤ (BitVec.ofFin n : Byte).toNat ∧ (BitVec.ofFin n : Byte).toNat < 56) := by decide +kernel
      intro hk1
      refine Or.inr ?_
      rcases h with ⟨h0, h1 | h1⟩
      · obtain ⟨ds, a, b, d⟩ := pre (x := 111) h0 h1 (by decide) (fun d => hq d.toFin) hk1
        exact ⟨111, ds, _, a, b, d, Or.inr (Or.inl ⟨by simp, rfl⟩)⟩
      · obtain ⟨ds, a, b, d⟩ := pre (x := 79) h0 h1 (by decide) (fun d => hq d.toFin) hk1
        exact ⟨79, ds, _, a, b, d, Or.inr (Or.inl ⟨by simp, rfl⟩)⟩
    · split
      · next h =>
        have hq : ∀ n : Fin 256, ((BitVec.ofFin n : Byte) == 48 || (BitVec.ofFin n : Byte) == 49) =
            decide ((BitVec.ofFin n : Byte) = 48 ∨ (BitVec.ofFin n : Byte) = 49) := by decide +kernel
        intro hk1
        refine Or.inr ?_
        rcases h with ⟨h0, h1 | h1⟩
        · obtain ⟨ds, a, b, d⟩ := pre (x := 98) h0 h1 (by decide) (fun d => hq d.toFin) hk1
          exact ⟨98, ds, _, a, b, d, Or.inr (Or.inr ⟨by simp, rfl⟩)⟩
        · obtain ⟨ds, a, b, d⟩ := pre (x := 66) h0 h1 (by decide) (fun d => hq d.toFin) hk1
          exact ⟨66, ds, _, a, b, d, Or.inr (Or.inr ⟨by simp, rfl⟩)⟩
      · dsimp only
        cases hn : numberCheck (readDecimal (c :: r)).2.1 with
        | some e =>
          dsimp only
          intro h
          rcases hk with rfl | rfl <;> cases h
        | none =>
          dsimp only
          intro h
          exact Or.inl (h ▸ Lx.readDecimal_sound hc hn)

end Verif.Props

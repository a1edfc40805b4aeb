import Verif.Model.Doc
import Verif.Props.Watch

/-!
# C249 and C250: documentation
-/

namespace Verif.Props

open Verif Verif.Str Verif.Watch Verif.Doc Wt

namespace Do

/-! ### What a source says -/

/-- The line is `#doc("desc")`. -/
def IsDoc (line desc : Str) : Prop := trim line = lit "#doc(\"" ++ desc ++ lit "\")" ∧ desc ≠ []

/-- The line begins the function `name`, and `sig` is its text up to the body. -/
structure IsFunc (line name sig : Str) : Prop where
  head : ∃ r, trim line = lit "do " ++ (name ++ 40 :: r) ∨ trim line = lit "private do " ++ (name ++ 40 :: r)
  plain : 40 ∉ name
  first : ∀ c, name.head? = some c → isSpace c = false
  last : ∀ c, name.getLast? = some c → isSpace c = false
  body : (123 ∉ trim line ∧ sig = trim line) ∨
    ∃ sp r, trim line = sig ++ sp ++ 123 :: r ∧ 123 ∉ sig ∧ Blank sp ∧ sig ≠ [] ∧ ∀ c, sig.getLast? = some c → isSpace c = false

/-- The line begins a struct or an enum. -/
structure IsHead (line name kind : Str) : Prop where
  kinds : kind = lit "struct" ∨ kind = lit "enum" ∧ ¬ lit " struct " <:+: trim line
  head : ∃ r, trim line = lit "const " ++ (name ++ (32 :: kind ++ 32 :: r))
  ne : name ≠ []
  plain : ∀ c ∈ name, isSpace c = false

/-- The lines close all braces with the last one, and not before. -/
inductive Closes : Int → List Str → Prop where
  | last {d : Int} {l : Str} : d + braces l ≤ 0 → Closes d [l]
  | more {d : Int} {l : Str} {ls : List Str} : 0 < d + braces l → Closes (d + braces l) ls → Closes d (l :: ls)

/-- A part of a source. -/
inductive Piece where
  | plain (line : Str)
  | func (doc : Str) (blanks : List Str) (line : Str) (e : Entry)
  | short (doc : Str) (blanks : List Str) (line : Str) (e : Entry)
  | long (doc : Str) (blanks : List Str) (line : Str) (body : List Str) (e : Entry)

def Piece.lines : Piece → List Str
  | .plain l => [l]
  | .func d bs l _ => d :: (bs ++ [l])
  | .short d bs l _ => d :: (bs ++ [l])
  | .long d bs l body _ => d :: (bs ++ l :: body)

def Piece.entries : Piece → List Entry
  | .plain _ => []
  | .func _ _ _ e => [e]
  | .short _ _ _ e => [e]
  | .long _ _ _ _ e => [e]

def Piece.Ok : Piece → Prop
  | .plain l => ¬ lit "#doc(" <+: trim l
  | .func d bs l e => IsDoc d e.desc ∧ (∀ b ∈ bs, Blank b) ∧ IsFunc l e.name e.sig ∧ e.kind = lit "function"
  | .short d bs l e => IsDoc d e.desc ∧ (∀ b ∈ bs, Blank b) ∧ IsHead l e.name e.kind ∧ braces l ≤ 0 ∧ e.sig = trim l
  | .long d bs l body e => IsDoc d e.desc ∧ (∀ b ∈ bs, Blank b) ∧ IsHead l e.name e.kind ∧ 0 < braces l ∧ Closes (braces l) body ∧
      e.sig = joinLines (l :: body)

/-! ### Lemmas -/

theorem cut_some {c : Byte} {a r : Str} (h : c ∉ a) : cut c (a ++ c :: r) = some (a, r) := by
  induction a with
  | nil => simp [cut]
  | cons x a ih =>
    simp only [List.mem_cons, not_or] at h
    rw [List.cons_append, cut, if_neg (fun e => h.1 e.symm), ih h.2]
    rfl

theorem cut_none {c : Byte} {a : Str} (h : c ∉ a) : cut c a = none := by
  induction a with
  | nil => rfl
  | cons x a ih =>
    simp only [List.mem_cons, not_or] at h
    rw [cut, if_neg (fun e => h.1 e.symm), ih h.2]
    rfl

theorem trim_blank {s : Str} (h : Blank s) : trim s = [] := by
  have := trim_mid (a := []) (s := []) (b := s) (by simp [Blank]) h (by simp) (by simp)
  simpa using this

theorem trim_id {s : Str} (h1 : ∀ c, s.head? = some c → isSpace c = false) (h2 : ∀ c, s.getLast? = some c → isSpace c = false) : trim s = s := by
  have := trim_mid (a := []) (b := []) (by simp [Blank]) (by simp [Blank]) h1 h2
  simpa using this

theorem dropPrefix_self (p s : Str) : dropPrefix p (p ++ s) = s := by
  unfold dropPrefix
  rw [if_pos (List.isPrefixOf_iff_prefix.2 (List.prefix_append _ _)), List.drop_left]

theorem dropPrefix_other {p s : Str} (h : ¬ p <+: s) : dropPrefix p s = s := by
  unfold dropPrefix
  rw [if_neg (fun e => h (List.isPrefixOf_iff_prefix.1 e))]

theorem firstField_word {w r : Str} (h : ∀ c ∈ w, isSpace c = false) (hne : w ≠ []) : firstField (w ++ 32 :: r) = some w := by
  unfold firstField
  cases w with
  | nil => exact absurd rfl hne
  | cons x w =>
    rw [List.cons_append, List.dropWhile_cons_of_neg (by simp [h x (by simp)])]
    simp only
    rw [← List.cons_append, List.takeWhile_append_of_pos (by intro c hc; simp [h c hc]), List.takeWhile_cons_of_neg (by decide), List.append_nil]

theorem contains_iff {n : Str} : ∀ {s : Str}, contains n s = true ↔ n <:+: s
  | [] => by
    rw [contains, List.isPrefixOf_iff_prefix]
    constructor
    · exact fun h => h.isInfix
    · intro h
      rw [List.infix_nil] at h
      rw [h]
      exact List.prefix_refl _
  | c :: r => by
    rw [contains, Bool.or_eq_true, List.isPrefixOf_iff_prefix, contains_iff, List.infix_cons_iff]

theorem docString_eq (desc : Str) : docString (lit "#doc(\"" ++ desc ++ lit "\")") = desc := by
  have e : lit "#doc(\"" ++ desc ++ lit "\")" = lit "#doc(" ++ 34 :: (desc ++ [34, 41]) := by
    show lit "#doc(\"" ++ desc ++ [34, 41] = _
    rw [show lit "#doc(\"" = lit "#doc(" ++ [34] from by decide]
    simp
  unfold docString
  rw [e, cut_some (by decide)]
  simp only [cutLast]
  rw [show (desc ++ [34, 41] : Str).reverse = [41] ++ 34 :: desc.reverse by simp, cut_some (by decide)]
  simp

theorem step_doc {st : St} {line desc : Str} (hb : st.block = none) (h : IsDoc line desc) : step st line = some { st with pending := desc } := by
  unfold step
  rw [hb]
  simp only
  rw [if_pos, h.1, docString_eq]
  rw [h.1, List.isPrefixOf_iff_prefix]
  exact ⟨34 :: desc ++ lit "\")", by
    rw [show lit "#doc(\"" = lit "#doc(" ++ [34] from by decide]
    simp⟩

theorem step_blank {st : St} {line : Str} (hb : st.block = none) (h : Blank line) : step st line = some st := by
  unfold step
  rw [hb]
  simp only [trim_blank h]
  rw [if_neg (by decide), if_neg (by simp)]

theorem steps_append (st : St) (a b : List Str) : stepsOf st (a ++ b) = (stepsOf st a).bind fun st => stepsOf st b := by
  induction a generalizing st with
  | nil => rfl
  | cons l a ih =>
    rw [List.cons_append, stepsOf, stepsOf]
    cases step st l with
    | none => rfl
    | some st' => exact ih st'

theorem steps_blanks {st : St} (hb : st.block = none) : ∀ {bs : List Str}, (∀ b ∈ bs, Blank b) → stepsOf st bs = some st
  | [], _ => rfl
  | b :: bs, h => by
    rw [stepsOf, step_blank hb (h b (by simp))]
    exact steps_blanks hb fun x hx => h x (by simp [hx])

theorem clash {p q u v : Str} {a b : Byte} (hp : p.head? = some a) (hq : q.head? = some b) (hab : a ≠ b) : p ++ u ≠ q ++ v := by
  intro e
  have := congrArg List.head? e
  rw [List.head?_append, List.head?_append, hp, hq] at this
  exact hab (Option.some.inj this)

theorem app_ne {p u : Str} (hp : p ≠ []) : p ++ u ≠ [] := by simp [hp]

theorem not_doc {p t r : Str} (hp : p ≠ []) (hh : p.head? ≠ some 35) (h : t = p ++ r) : ¬ (lit "#doc(").isPrefixOf t = true := by
  intro e
  obtain ⟨u, hu⟩ := List.isPrefixOf_iff_prefix.1 e
  rw [h] at hu
  cases p with
  | nil => exact hp rfl
  | cons x p =>
    have : (35 : Byte) = x := Option.some.inj (congrArg List.head? hu : some (35 : Byte) = some x)
    exact hh (by rw [← this]; rfl)

theorem step_func {st : St} {line name sig : Str} (hb : st.block = none) (hp : st.pending ≠ []) (h : IsFunc line name sig) :
    step st line = some { st with pending := [], entries := st.entries ++ [⟨name, lit "function", sig, st.pending⟩] } := by
  obtain ⟨⟨r, hh⟩, h40, h1, h2, hbody⟩ := h
  have hn : funcName (trim line) = some name := by
    unfold funcName
    have : dropPrefix (lit "do ") (dropPrefix (lit "private ") (trim line)) = name ++ 40 :: r := by
      rcases hh with hh | hh
      · rw [hh, dropPrefix_other (p := lit "private "), dropPrefix_self]
        rintro ⟨u, hu⟩
        exact clash (a := 112) (b := 100) (by decide) (by decide) (by decide) hu
      · rw [hh, show lit "private do " = lit "private " ++ lit "do " from by decide, List.append_assoc, dropPrefix_self, dropPrefix_self]
    simp only [this, cut_some h40]
    rw [trim_id h1 h2]
  have hs : sigOf (trim line) = sig := by
    unfold sigOf
    rcases hbody with ⟨hno, e⟩ | ⟨sp, r', e, hno, hsp, hne, hl⟩
    · rw [cut_none hno, e]
    · have hhead : ∀ c, sig.head? = some c → isSpace c = false := by
        intro c hc
        have hc' : (trim line).head? = some c := by
          rw [e]
          cases sig with
          | nil => simp at hc
          | cons x s => simpa using hc
        rcases hh with hh | hh
        · rw [hh] at hc'
          have : (100 : Byte) = c := Option.some.inj (hc' : some (100 : Byte) = some c)
          rw [← this]; decide
        · rw [hh] at hc'
          have : (112 : Byte) = c := Option.some.inj (hc' : some (112 : Byte) = some c)
          rw [← this]; decide
      have hsp' : 123 ∉ sp := fun hm => absurd (hsp _ hm) (by decide)
      rw [e, cut_some (by simp only [List.mem_append, not_or]; exact ⟨hno, hsp'⟩)]
      simp only
      have := trim_mid (a := []) (s := sig) (b := sp) (by simp [Blank]) hsp hhead hl
      simpa using this
  have hpre : ((lit "do ").isPrefixOf (trim line) || (lit "private do ").isPrefixOf (trim line)) = true := by
    rw [Bool.or_eq_true, List.isPrefixOf_iff_prefix, List.isPrefixOf_iff_prefix]
    exact hh.imp (fun e => ⟨_, e.symm⟩) fun e => ⟨_, e.symm⟩
  have hne : trim line ≠ [] := by rcases hh with hh | hh <;> (rw [hh]; exact app_ne (by decide))
  have hnd : ¬ (lit "#doc(").isPrefixOf (trim line) = true := by
    rcases hh with hh | hh
    · exact not_doc (by decide) (by decide) hh
    · exact not_doc (by decide) (by decide) hh
  unfold step
  rw [hb]
  simp only
  rw [if_neg hnd, if_pos ⟨hp, hne⟩, if_pos hpre, hn, hs]
  rfl

theorem step_head {st : St} {line name kind : Str} (hb : st.block = none) (hp : st.pending ≠ []) (h : IsHead line name kind) :
    step st line = some (startBlock st kind line) ∧ blockName (trim line) = name := by
  obtain ⟨hk, ⟨r, hh⟩, hne, hpl⟩ := h
  have hbn : blockName (trim line) = name := by
    unfold blockName
    rw [hh, dropPrefix_self, show name ++ (32 :: kind ++ 32 :: r) = name ++ 32 :: (kind ++ 32 :: r) from rfl, firstField_word hpl hne]
    rfl
  refine ⟨?_, hbn⟩
  have hc : lit "const " <+: trim line := ⟨_, hh.symm⟩
  have hnd : ¬ (lit "#doc(").isPrefixOf (trim line) = true := not_doc (by decide) (by decide) hh
  have hne' : trim line ≠ [] := by rw [hh]; exact app_ne (by decide)
  have hnf : ¬ ((lit "do ").isPrefixOf (trim line) || (lit "private do ").isPrefixOf (trim line)) = true := by
    rw [Bool.or_eq_true, List.isPrefixOf_iff_prefix, List.isPrefixOf_iff_prefix, hh]
    rintro (⟨u, hu⟩ | ⟨u, hu⟩)
    · exact clash (a := 100) (b := 99) (by decide) (by decide) (by decide) hu
    · exact clash (a := 112) (b := 99) (by decide) (by decide) (by decide) hu
  have hin : ∀ k, kind = k → 32 :: k ++ [32] <:+: trim line := by
    rintro k rfl
    exact ⟨lit "const " ++ name, r, by rw [hh]; simp⟩
  unfold step
  rw [hb]
  simp only
  rw [if_neg hnd, if_pos ⟨hp, hne'⟩, if_neg hnf]
  rcases hk with hk | ⟨hk, hns⟩
  · rw [if_pos, hk]
    rw [Bool.and_eq_true, contains_iff, List.isPrefixOf_iff_prefix]
    exact ⟨hin _ hk, hc⟩
  · rw [if_neg, if_pos, hk]
    · rw [Bool.and_eq_true, contains_iff, List.isPrefixOf_iff_prefix]
      exact ⟨hin _ hk, hc⟩
    · rw [Bool.and_eq_true, contains_iff]
      exact fun e => hns e.1

theorem joinLines_cons (a b : List Str) : ∀ l, joinLines (a ++ l :: b) = joinLines ((a ++ [l]) ++ b) := by simp

theorem steps_body : ∀ {body : List Str} {st : St} {b : Block}, st.block = some b → Closes b.depth body →
    stepsOf st body = some ⟨[], none, st.entries ++ [⟨b.name, b.kind, joinLines (b.lines ++ body), st.pending⟩]⟩
  | [], _, _, _, h => by cases h
  | l :: ls, st, b, hb, h => by
    rw [stepsOf]
    unfold step
    rw [hb]
    simp only
    cases h with
    | last hd => rw [if_pos hd]; rfl
    | more hd hc =>
      rw [if_neg (by omega)]
      have := steps_body (st := { st with block := some { b with lines := b.lines ++ [l], depth := b.depth + braces l } }) rfl hc
      simpa using this

theorem steps_piece {st : St} {p : Piece} (hb : st.block = none) (hp : st.pending = []) (h : p.Ok) :
    stepsOf st p.lines = some { st with entries := st.entries ++ p.entries } := by
  obtain ⟨pending, block, es⟩ := st
  simp only at hb hp
  subst hb hp
  cases p with
  | plain l =>
    simp only [Piece.lines, Piece.entries, stepsOf, List.append_nil]
    unfold step
    simp only
    rw [if_neg (fun e => h (List.isPrefixOf_iff_prefix.1 e)), if_neg (by simp)]
    rfl
  | func d bs l e =>
    obtain ⟨hd, hbl, hf, hk⟩ := h
    simp only [Piece.lines, Piece.entries]
    rw [stepsOf, step_doc rfl hd]
    simp only [Option.bind_some]
    rw [steps_append, steps_blanks rfl hbl]
    simp only [Option.bind_some, stepsOf]
    rw [step_func rfl hd.2 hf]
    simp only [Option.bind_some]
    rw [← hk]
  | short d bs l e =>
    obtain ⟨hd, hbl, hf, hz, hs⟩ := h
    obtain ⟨h1, h2⟩ := step_head (st := ⟨e.desc, none, es⟩) rfl hd.2 hf
    simp only [Piece.lines, Piece.entries]
    rw [stepsOf, step_doc rfl hd]
    simp only [Option.bind_some]
    rw [steps_append, steps_blanks rfl hbl]
    simp only [Option.bind_some, stepsOf]
    rw [h1]
    simp only [Option.bind_some, startBlock]
    rw [if_neg (by omega), h2, ← hs]
  | long d bs l body e =>
    obtain ⟨hd, hbl, hf, hz, hcl, hs⟩ := h
    obtain ⟨h1, h2⟩ := step_head (st := ⟨e.desc, none, es⟩) rfl hd.2 hf
    simp only [Piece.lines, Piece.entries]
    rw [stepsOf, step_doc rfl hd]
    simp only [Option.bind_some]
    rw [steps_append, steps_blanks rfl hbl]
    simp only [Option.bind_some]
    rw [stepsOf, h1]
    simp only [Option.bind_some, startBlock]
    rw [if_pos hz, steps_body rfl hcl]
    simp only [h2, List.singleton_append]
    rw [← hs]

theorem steps_pieces : ∀ {ps : List Piece} {es : List Entry}, (∀ p ∈ ps, p.Ok) →
    stepsOf ⟨[], none, es⟩ (ps.flatMap Piece.lines) = some ⟨[], none, es ++ ps.flatMap Piece.entries⟩
  | [], es, _ => by simp [stepsOf]
  | p :: ps, es, h => by
    rw [List.flatMap_cons, steps_append, steps_piece rfl rfl (h p (by simp))]
    simp only [Option.bind_some]
    rw [steps_pieces fun q hq => h q (by simp [hq])]
    simp

theorem trim_last {s : Str} {c : Byte} (h : (trim s).getLast? = some c) : isSpace c = false := by
  unfold trim at h
  rw [List.getLast?_reverse] at h
  have := List.head?_dropWhile_not isSpace (s.dropWhile isSpace).reverse
  rw [h] at this
  simpa using this

theorem field_some {s : Str} {c : Byte} (h : c ∈ s) (hc : isSpace c = false) : firstField s ≠ none := by
  unfold firstField
  split
  · rename_i e
    have : ∀ l : Str, l.dropWhile isSpace = [] → ∀ x ∈ l, isSpace x = true := by
      intro l
      induction l with
      | nil => simp
      | cons y l ih =>
        intro hl x hx
        cases hy : isSpace y with
        | false => rw [List.dropWhile_cons_of_neg (by simp [hy])] at hl; cases hl
        | true =>
          rw [List.dropWhile_cons_of_pos hy] at hl
          rcases List.mem_cons.1 hx with rfl | hx
          · exact hy
          · exact ih hl x hx
    rw [this s e c h] at hc
    cases hc
  · simp

theorem name_some {t p r : Str} (hl : ∀ c, t.getLast? = some c → isSpace c = false) (hp : p.getLast? = some 32) (h : t = p ++ r) : firstField r ≠ none := by
  cases hr : r.getLast? with
  | none =>
    rw [List.getLast?_eq_none_iff] at hr
    rw [h, hr, List.append_nil] at hl
    exact absurd (hl 32 hp) (by decide)
  | some z =>
    refine field_some (c := z) (List.mem_of_getLast? hr) (hl z ?_)
    rw [h, List.getLast?_append, hr]
    rfl

theorem step_some (st : St) (line : Str) : step st line ≠ none := by
  have hl : ∀ c, (trim line).getLast? = some c → isSpace c = false := fun c => trim_last
  have hn : (lit "do ").isPrefixOf (trim line) || (lit "private do ").isPrefixOf (trim line) → funcName (trim line) ≠ none := by
    intro h
    unfold funcName
    simp only
    split
    · simp
    · rw [Bool.or_eq_true, List.isPrefixOf_iff_prefix, List.isPrefixOf_iff_prefix] at h
      rcases h with ⟨r, h⟩ | ⟨r, h⟩
      · have e : dropPrefix (lit "do ") (dropPrefix (lit "private ") (trim line)) = r := by
          rw [← h, dropPrefix_other (p := lit "private "), dropPrefix_self]
          rintro ⟨u, hu⟩
          exact clash (a := 112) (b := 100) (by decide) (by decide) (by decide) hu
        rw [e]
        exact name_some hl (by decide) h.symm
      · have e : dropPrefix (lit "do ") (dropPrefix (lit "private ") (trim line)) = r := by
          rw [← h, show lit "private do " = lit "private " ++ lit "do " from by decide, List.append_assoc, dropPrefix_self, dropPrefix_self]
        rw [e]
        exact name_some hl (by decide) h.symm
  unfold step
  split
  · simp only
    split <;> simp
  · simp only
    split
    · simp
    · split
      · split
        · rename_i h
          cases hf : funcName (trim line) with
          | none => exact absurd hf (hn h)
          | some n => simp
        · split
          · simp
          · split <;> simp
      · simp

end Do

open Do

/-- C249: collecting never stops with an index out of range. -/
theorem C249_no_crash (buffer : Nat) (text : Str) : Doc.collect buffer text ≠ none := by
  unfold Doc.collect
  have : ∀ (ls : List Str) (st : St), stepsOf st ls ≠ none := by
    intro ls
    induction ls with
    | nil => simp [stepsOf]
    | cons l ls ih =>
      intro st
      rw [stepsOf]
      cases h : step st l with
      | none => exact absurd h (step_some st l)
      | some st' => exact ih st'
  cases h : stepsOf {} (scan buffer text) with
  | none => exact absurd h (this _ _)
  | some st => simp

/-- C249: a function with a description before it is documented, whatever white space or comment is between the two. -/
def C249_statement : Prop :=
  ∀ between : Str, (Blank between ∨ ∃ note : Str, 10 ∉ note ∧ between = lit "\n//" ++ note ++ [10]) →
    Doc.collect maxLine (lit "#doc(\"adds\")" ++ between ++ lit "do add() {}\ndo sub() {}") =
      some [⟨lit "add", lit "function", lit "do add()", lit "adds"⟩]

/-- C249 fails: on one line, the description goes to the next function. -/
theorem C249_collect_fails : ¬ C249_statement := by
  intro h
  have h1 := h [32] (.inl (by simp [Blank]; decide))
  have h2 : Doc.collect maxLine (lit "#doc(\"adds\")" ++ [32] ++ lit "do add() {}\ndo sub() {}") =
      some [⟨lit "sub", lit "function", lit "do sub()", lit "adds"⟩] := by decide +kernel
  rw [h2] at h1
  exact absurd h1 (by decide +kernel)

/-- C249: a description without a second quote (of either kind) is empty. -/
theorem C249_unclosed (a desc : Str) : (34 ∉ a → 34 ∉ desc → Doc.docString (a ++ 34 :: desc) = []) ∧
    (34 ∉ a → 39 ∉ a → 34 ∉ desc → 39 ∉ desc → Doc.docString (a ++ 39 :: desc) = []) := by
  constructor
  · intro h1 h2
    unfold Doc.docString
    rw [Do.cut_some h1]
    dsimp only [Doc.cutLast]
    rw [Do.cut_none (fun h => h2 (List.mem_reverse.1 h))]
    rfl
  · intro h1 h2 h3 h4
    unfold Doc.docString
    rw [Do.cut_none (fun h => (List.mem_append.1 h).elim h1 fun h => (List.mem_cons.1 h).elim (fun e => absurd e (by decide)) h3)]
    dsimp only
    rw [Do.cut_some h2]
    dsimp only [Doc.cutLast]
    rw [Do.cut_none (fun h => h4 (List.mem_reverse.1 h))]
    rfl

/-- C249: a comment in between, and there is no documentation. -/
theorem C249_comment_witness : Doc.collect maxLine (lit "#doc(\"adds\")\n// see below\ndo add() {}") = some [] := by decide +kernel

/-- C249: nor with another attribute in between. -/
theorem C249_attribute_witness : Doc.collect maxLine (lit "#doc(\"state\")\n#flags\nconst F enum {\n A\n}") = some [] := by decide +kernel

/-- C249: a signature ends at a brace in the text of a default value, and at the end of the line. -/
theorem C249_signature_witness :
    Doc.collect maxLine (lit "#doc(\"f\")\ndo f(s string = \"{\") -> int {}") = some [⟨lit "f", lit "function", lit "do f(s string = \"", lit "f"⟩] ∧
    Doc.collect maxLine (lit "#doc(\"f\")\ndo f(a int,\nb int) {}") = some [⟨lit "f", lit "function", lit "do f(a int,", lit "f"⟩] := by decide +kernel

/-- C249: a brace in a comment of a struct takes the rest of the file for a part of it, and it is lost. -/
theorem C249_brace_witness : Doc.collect maxLine (lit "#doc(\"s\")\nconst S struct {\n a int // {\n}\n#doc(\"f\")\ndo f() {}") = some [] := by decide +kernel

/-- C249: everything after a line that does not fit in the buffer is lost without a word. -/
theorem C249_long_line_witness (n : Nat) (l rest : Str) (h : 10 ∉ l) (hl : n ≤ l.length) : Doc.collect n (l ++ 10 :: rest) = some [] := by
  unfold Doc.collect scan
  rw [splitAt_cons h, List.takeWhile_cons_of_neg (by simpa using hl)]
  rfl

/-- C249: a source that consists of lines that do not begin with `#doc(`, and of declarations after a line with a description and empty
lines, gives exactly the entries of those declarations, in order. Missing: sources of another form, long lines. -/
theorem C249_collect_partial (buffer : Nat) (ps : List Piece) (h : ∀ p ∈ ps, p.Ok) (hne : ps.flatMap Piece.lines ≠ [])
    (hl : ∀ l ∈ ps.flatMap Piece.lines, 10 ∉ l ∧ l.length < buffer) :
    Doc.collect buffer (joinWith 10 (ps.flatMap Piece.lines)) = some (ps.flatMap Piece.entries) := by
  unfold Doc.collect scan
  rw [splitAt_join hne fun l hm => (hl l hm).1, takeWhile_all fun l hm => (hl l hm).2]
  have := steps_pieces (es := []) h
  rw [show ({} : St) = ⟨[], none, []⟩ from rfl, this]
  simp

example : Doc.collect maxLine (lit "import @math\n#doc(\"a \"b\"\")\n\n  private do f(x int) -> int { // {\n}\n#doc(\"s\")\nconst S struct {\n x int\n}") =
    some [⟨lit "f", lit "function", lit "private do f(x int) -> int", lit "a \"b\""⟩, ⟨lit "S", lit "struct", lit "const S struct {\n x int\n}", lit "s"⟩] := by
  decide +kernel

/-! ### C250: the text -/

/-- C250: the text tells which entries there are. -/
def C250_statement : Prop :=
  ∀ fs fs' ss ss' es es' : List Entry, (∀ e ∈ fs ++ fs' ++ ss ++ ss' ++ es ++ es', e.desc ≠ []) →
    markdown fs ss es = markdown fs' ss' es' → fs.map (fun e => (e.name, e.sig, e.desc)) = fs'.map (fun e => (e.name, e.sig, e.desc))

/-- C250 fails: a description is written as it is, so that it can hold headings and code. -/
theorem C250_text_fails : ¬ C250_statement := by
  intro h
  have := h [⟨lit "f", [], lit "do f()", lit "x\n\n### g\n\n```gray\ndo g()\n```\n\ny"⟩] [⟨lit "f", [], lit "do f()", lit "x"⟩, ⟨lit "g", [], lit "do g()", lit "y"⟩] [] [] [] []
    (by decide +kernel) (by decide +kernel)
  have := congrArg List.length this
  cases this

namespace Do

/-- There are no signs that mean something in the text. -/
def Calm (e : Entry) : Prop := 35 ∉ e.desc ∧ 96 ∉ e.name ∧ 96 ∉ e.sig ∧ e.desc ≠ []

def tri (e : Entry) : Str × Str × Str := (e.name, e.sig, e.desc)

theorem calm_split {a b r s : Str} {c : Byte} (ha : c ∉ a) (hb : c ∉ b) (h : a ++ c :: r = b ++ c :: s) : a = b ∧ r = s := by
  have h1 := cut_some (r := r) ha
  have h2 := cut_some (r := s) hb
  rw [h, h2] at h1
  cases h1
  exact ⟨rfl, rfl⟩

/-- What comes after a list of entries: nothing, or another heading. -/
def After (c : Byte) (R : Str) : Prop := R = [] ∨ ∃ d u, d ≠ c ∧ R = 35 :: 35 :: 32 :: d :: u

theorem entry_form (e : Entry) (h : e.desc ≠ []) : ∀ R, entryText e ++ R =
    35 :: 35 :: 35 :: 32 :: ((e.name ++ [10, 10]) ++ 96 :: ([96, 96, 103, 114, 97, 121, 10] ++ ((e.sig ++ [10]) ++ 96 :: ([96, 96, 10, 10] ++ (e.desc ++ 10 :: 10 :: R))))) := by
  intro R
  unfold entryText
  rw [if_neg h, show lit "### " = [35, 35, 35, 32] from by decide, show lit "\n\n" = [10, 10] from by decide,
    show lit "```gray\n" = [96, 96, 96, 103, 114, 97, 121, 10] from by decide, show lit "\n```\n\n" = [10, 96, 96, 96, 10, 10] from by decide]
  simp

/-- The rest of the text begins with a number sign, or is empty. -/
theorem next_sharp {l : List Entry} (h : ∀ e ∈ l, Calm e) {c : Byte} {R : Str} (hR : After c R) : l.flatMap entryText ++ R = [] ∨ ∃ u, l.flatMap entryText ++ R = 35 :: u := by
  cases l with
  | nil =>
    rcases hR with rfl | ⟨d, u, -, rfl⟩
    · exact .inl rfl
    · exact .inr ⟨_, rfl⟩
  | cons e l =>
    refine .inr ?_
    rw [List.flatMap_cons, List.append_assoc, entry_form e (h e (by simp)).2.2.2]
    exact ⟨_, rfl⟩

theorem desc_split {a b r s : Str} (ha : 35 ∉ a) (hb : 35 ∉ b) (hr : r = [] ∨ ∃ u, r = 35 :: u) (hs : s = [] ∨ ∃ u, s = 35 :: u)
    (h : a ++ 10 :: 10 :: r = b ++ 10 :: 10 :: s) : a = b ∧ r = s := by
  have hno : ∀ {x : Str}, 35 ∉ x → 35 ∉ x ++ [10, 10] := fun hx hm => (List.mem_append.1 hm).elim hx (by decide)
  have h' : (a ++ [10, 10]) ++ r = (b ++ [10, 10]) ++ s := by simpa using h
  have fin : ∀ {x y : Str}, x ++ [10, 10] = y ++ [10, 10] → x = y := fun e => List.append_cancel_right e
  rcases hr with rfl | ⟨u, rfl⟩
  · rcases hs with rfl | ⟨v, rfl⟩
    · rw [List.append_nil, List.append_nil] at h'
      exact ⟨fin h', rfl⟩
    · exact absurd (show 35 ∈ (a ++ [10, 10]) ++ [] by rw [h']; simp) (by rw [List.append_nil]; exact hno ha)
  · rcases hs with rfl | ⟨v, rfl⟩
    · exact absurd (show 35 ∈ (b ++ [10, 10]) ++ [] by rw [← h']; simp) (by rw [List.append_nil]; exact hno hb)
    · obtain ⟨e1, e2⟩ := calm_split (hno ha) (hno hb) h'
      exact ⟨fin e1, by rw [e2]⟩

theorem entries_inj {c : Byte} : ∀ {l l' : List Entry} {R R' : Str}, (∀ e ∈ l, Calm e) → (∀ e ∈ l', Calm e) → After c R → After c R' →
    l.flatMap entryText ++ R = l'.flatMap entryText ++ R' → l.map tri = l'.map tri ∧ R = R'
  | [], [], R, R', _, _, _, _, h => ⟨rfl, h⟩
  | [], e :: l', R, R', _, h2, hR, _, h => by
    rw [List.flatMap_cons, List.append_assoc, entry_form e (h2 e (by simp)).2.2.2] at h
    rcases hR with rfl | ⟨d, u, -, rfl⟩
    · cases h
    · simp at h
  | e :: l, [], R, R', h1, _, _, hR, h => by
    rw [List.flatMap_cons, List.append_assoc, entry_form e (h1 e (by simp)).2.2.2] at h
    rcases hR with rfl | ⟨d, u, -, rfl⟩
    · cases h
    · simp at h
  | e :: l, e' :: l', R, R', h1, h2, hR, hR', h => by
    have c1 := h1 e (by simp)
    have c2 := h2 e' (by simp)
    rw [List.flatMap_cons, List.flatMap_cons, List.append_assoc (entryText e), List.append_assoc (entryText e'), entry_form e c1.2.2.2, entry_form e' c2.2.2.2] at h
    have hno : ∀ {x : Str}, 96 ∉ x → 96 ∉ x ++ [10, 10] := fun hx hm => (List.mem_append.1 hm).elim hx (by decide)
    have hno' : ∀ {x : Str}, 96 ∉ x → 96 ∉ x ++ [10] := fun hx hm => (List.mem_append.1 hm).elim hx (by decide)
    have h := List.cons.inj (List.cons.inj (List.cons.inj (List.cons.inj h).2).2).2
    obtain ⟨n1, h⟩ := calm_split (hno c1.2.1) (hno c2.2.1) h.2
    obtain ⟨n2, h⟩ := calm_split (hno' c1.2.2.1) (hno' c2.2.2.1) (List.append_cancel_left h)
    have l1 : ∀ x ∈ l, Calm x := fun x hx => h1 x (by simp [hx])
    have l2 : ∀ x ∈ l', Calm x := fun x hx => h2 x (by simp [hx])
    obtain ⟨n3, h⟩ := desc_split c1.1 c2.1 (next_sharp l1 hR) (next_sharp l2 hR') (List.append_cancel_left h)
    obtain ⟨ih, hr⟩ := entries_inj l1 l2 hR hR' h
    refine ⟨?_, hr⟩
    simp only [List.map_cons, ih, tri, List.append_cancel_right n1, List.append_cancel_right n2, n3]

theorem part_inj {c : Byte} {t : Str} {l l' : List Entry} {R R' : Str} (h1 : ∀ e ∈ l, Calm e) (h2 : ∀ e ∈ l', Calm e) (hR : After c R) (hR' : After c R')
    (h : Doc.part (c :: t) l ++ R = Doc.part (c :: t) l' ++ R') : l.map tri = l'.map tri ∧ R = R' := by
  have form : ∀ (l : List Entry) (R : Str), l ≠ [] → Doc.part (c :: t) l ++ R = 35 :: 35 :: 32 :: c :: (t ++ 10 :: 10 :: (l.flatMap entryText ++ R)) := by
    intro l R hl
    unfold Doc.part
    rw [if_neg hl, show lit "## " = [35, 35, 32] from by decide, show lit "\n\n" = [10, 10] from by decide]
    simp
  have nil : ∀ R : Str, Doc.part (c :: t) [] ++ R = R := fun R => rfl
  by_cases a : l = []
  · by_cases b : l' = []
    · subst a b
      exact ⟨rfl, h⟩
    · subst a
      rw [nil, form l' R' b] at h
      rcases hR with rfl | ⟨d, u, hd, rfl⟩
      · cases h
      · simp only [List.cons.injEq, true_and] at h
        exact absurd h.1 hd
  · by_cases b : l' = []
    · subst b
      rw [nil, form l R a] at h
      rcases hR' with rfl | ⟨d, u, hd, rfl⟩
      · cases h
      · simp only [List.cons.injEq, true_and] at h
        exact absurd h.1.symm hd
    · rw [form l R a, form l' R' b] at h
      simp only [List.cons.injEq, true_and] at h
      have h := List.append_cancel_left h
      simp only [List.cons.injEq, true_and] at h
      exact entries_inj h1 h2 hR hR' h

theorem after_part {c d : Byte} {t : Str} (l : List Entry) {R : Str} (hR : After c R) (hd : d ≠ c) : After c (Doc.part (d :: t) l ++ R) := by
  by_cases a : l = []
  · subst a; exact hR
  · refine .inr ⟨d, t ++ 10 :: 10 :: (l.flatMap entryText ++ R), hd, ?_⟩
    unfold Doc.part
    rw [if_neg a, show lit "## " = [35, 35, 32] from by decide, show lit "\n\n" = [10, 10] from by decide]
    simp

end Do

/-- C250: the text tells which entries there are if no description has a number sign in it, and no name and no signature a back tick.
Missing: other descriptions. -/
theorem C250_text_partial (fs fs' ss ss' es es' : List Entry) (hc : ∀ e ∈ fs ++ fs' ++ ss ++ ss' ++ es ++ es', Calm e)
    (h : markdown fs ss es = markdown fs' ss' es') : fs.map tri = fs'.map tri ∧ ss.map tri = ss'.map tri ∧ es.map tri = es'.map tri := by
  simp only [List.mem_append] at hc
  unfold markdown at h
  simp only [List.append_assoc] at h
  have h := List.append_cancel_left h
  rw [show lit "Functions" = 70 :: lit "unctions" from by decide, show lit "Structs" = 83 :: lit "tructs" from by decide,
    show lit "Enums" = 69 :: lit "nums" from by decide] at h
  have hE : ∀ (c : Byte) (l : List Entry), 69 ≠ c → After c (Doc.part (69 :: lit "nums") l) := by
    intro c l hd
    have := after_part (t := lit "nums") l (R := []) (.inl rfl) hd
    simpa using this
  obtain ⟨e1, h⟩ := part_inj (fun e he => hc e (by simp [he])) (fun e he => hc e (by simp [he])) (after_part ss (hE 70 es (by decide)) (by decide))
    (after_part ss' (hE 70 es' (by decide)) (by decide)) h
  obtain ⟨e2, h⟩ := part_inj (fun e he => hc e (by simp [he])) (fun e he => hc e (by simp [he])) (hE 83 es (by decide)) (hE 83 es' (by decide)) h
  have h : Doc.part (69 :: lit "nums") es ++ [] = Doc.part (69 :: lit "nums") es' ++ [] := by rw [h]
  obtain ⟨e3, -⟩ := part_inj (fun e he => hc e (by simp [he])) (fun e he => hc e (by simp [he])) (.inl rfl) (.inl rfl) h
  exact ⟨e1, e2, e3⟩

example : Calm ⟨lit "f", lit "function", lit "do f()", lit "adds"⟩ := by
  refine ⟨by decide, by decide, by decide, by decide⟩

/-- C250: every entry is in the text, with its name as a heading, its signature as code, and its description. -/
theorem C250_present (fs ss es : List Entry) (e : Entry) (h : e ∈ fs ++ ss ++ es) : entryText e <:+: markdown fs ss es := by
  have hp : ∀ (t : Str) (l : List Entry), e ∈ l → entryText e <:+: Doc.part t l := by
    intro t l hl
    unfold Doc.part
    rw [if_neg (List.ne_nil_of_mem hl)]
    obtain ⟨a, b, e'⟩ := List.append_of_mem hl
    rw [e', List.flatMap_append, List.flatMap_cons]
    exact ⟨lit "## " ++ t ++ lit "\n\n" ++ a.flatMap entryText, b.flatMap entryText, by simp⟩
  unfold markdown
  rcases List.mem_append.1 h with h | h
  · rcases List.mem_append.1 h with h | h
    · obtain ⟨u, v, e⟩ := hp (lit "Functions") fs h
      exact ⟨lit "# Documentation\n\n*Generated by `gray doc`*\n\n" ++ u, v ++ Doc.part (lit "Structs") ss ++ Doc.part (lit "Enums") es, by rw [← e]; simp⟩
    · obtain ⟨u, v, e⟩ := hp (lit "Structs") ss h
      exact ⟨lit "# Documentation\n\n*Generated by `gray doc`*\n\n" ++ Doc.part (lit "Functions") fs ++ u, v ++ Doc.part (lit "Enums") es, by rw [← e]; simp⟩
  · obtain ⟨u, v, e⟩ := hp (lit "Enums") es h
    exact ⟨lit "# Documentation\n\n*Generated by `gray doc`*\n\n" ++ Doc.part (lit "Functions") fs ++ Doc.part (lit "Structs") ss ++ u, v, by rw [← e]; simp⟩

end Verif.Props

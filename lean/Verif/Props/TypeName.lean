import Verif.Model.TypeName

/-!
# Types in the source

The grammar of types (STANDARD.md 3.1, 3.2, 7.6, 7.9), with the tokens a type is written with and the text it is known by in the
compiler: `[K:V]` and `map[K:V]` have the same text, a module name and a type name are joined by `_`.
-/

namespace Verif.Props

open TypeName Str

namespace Tn

mutual
/-- Types. -/
inductive Ty where
  /-- `?` -/
  | wild
  | name (s : Str)
  /-- `m.s` -/
  | qual (m s : Str)
  /-- `[T]` -/
  | arr (e : Ty)
  /-- `[T, N]`, with a number or a name -/
  | fixed (e : Ty) (n : Str) (named : Bool)
  /-- `[K:V]` if `short`, `map[K:V]` otherwise -/
  | map (short : Bool) (k v : Ty)
  /-- `^T` -/
  | ptr (t : Ty)
  /-- `func(…)` with its results -/
  | func (ps : Tys) (r : Ret)
/-- Parameter types, with whether there is an `&`. -/
inductive Tys where
  | nil
  | cons (mu : Bool) (t : Ty) (ts : Tys)
inductive Ret where
  | none
  | one (t : Ty)
  /-- In parentheses. -/
  | many (t : Ty) (ts : Tys)
end

mutual
def text : Ty → Str
  | .wild => lit "?"
  | .name s => s
  | .qual m s => m ++ lit "_" ++ s
  | .arr e => lit "[" ++ text e ++ lit "]"
  | .fixed e n _ => lit "[" ++ text e ++ lit "," ++ n ++ lit "]"
  | .map _ k v => lit "map[" ++ text k ++ lit ":" ++ text v ++ lit "]"
  | .ptr t => lit "^" ++ text t
  | .func ps r => lit "func(" ++ textP ps ++ lit ")" ++ textR r
/-- Separated by commas. -/
def textP : Tys → Str
  | .nil => []
  | .cons mu t ts => (if mu then lit "&" else []) ++ text t ++ textQ ts
/-- Each after a comma. -/
def textQ : Tys → Str
  | .nil => []
  | .cons mu t ts => lit "," ++ ((if mu then lit "&" else []) ++ text t) ++ textQ ts
def textR : Ret → Str
  | .none => []
  | .one t => lit "->" ++ text t
  | .many t ts => lit "->" ++ (lit "(" ++ text t ++ textQ ts) ++ lit ")"
end

mutual
def toks : Ty → List Tok
  | .wild => [.quest]
  | .name s => [.ident s]
  | .qual m s => [.ident m, .dot, .ident s]
  | .arr e => .lbr :: toks e ++ [.rbr]
  | .fixed e n named => .lbr :: toks e ++ [.comma, if named then .ident n else .int n, .rbr]
  | .map short k v => (if short then [.lbr] else [.ident (lit "map"), .lbr]) ++ toks k ++ .colon :: toks v ++ [.rbr]
  | .ptr t => .caret :: toks t
  | .func ps r => .ident (lit "func") :: .lpar :: toksP ps ++ .rpar :: toksR r
def toksP : Tys → List Tok
  | .nil => []
  | .cons mu t ts => (if mu then [.amp] else []) ++ toks t ++ toksQ ts
def toksQ : Tys → List Tok
  | .nil => []
  | .cons mu t ts => .comma :: ((if mu then [.amp] else []) ++ toks t) ++ toksQ ts
def toksR : Ret → List Tok
  | .none => []
  | .one t => .arrow :: toks t
  | .many t ts => .arrow :: .lpar :: toks t ++ toksQ ts ++ [.rpar]
end

/-- A word: letters, digits and underscores. -/
def Word (s : Str) : Prop := s ≠ [] ∧ ∀ c ∈ s, isAlnum c || c == ch '_'

def isFunc : Ty → Prop
  | .func _ _ => True
  | _ => False

def Flat : Ty → Prop
  | .wild => True
  | .name _ => True
  | .qual _ _ => True
  | _ => False

mutual
/-- Names are words; keys are names; there are no arrays of typed functions (7.6.3), no result `void`. -/
def Wf : Ty → Prop
  | .wild => True
  | .name s => Word s
  | .qual m s => Word m ∧ Word s
  | .arr e => Wf e ∧ ¬ isFunc e
  | .fixed e n _ => Wf e ∧ ¬ isFunc e ∧ Word n
  | .map _ k v => Flat k ∧ Wf k ∧ Wf v
  | .ptr t => Wf t
  | .func ps r => WfP ps ∧ WfR r
def WfP : Tys → Prop
  | .nil => True
  | .cons _ t ts => Wf t ∧ WfP ts
def WfR : Ret → Prop
  | .none => True
  | .one t => Wf t ∧ text t ≠ lit "void"
  | .many t ts => Wf t ∧ text t ≠ lit "void" ∧ WfN ts
/-- Further results. -/
def WfN : Tys → Prop
  | .nil => True
  | .cons mu t ts => mu = false ∧ Wf t ∧ text t ≠ lit "void" ∧ WfN ts
end

/-- What may follow a type. -/
def Follow (r : List Tok) : Prop := ∀ t, r.head? = some t → t ≠ .dot ∧ t ≠ .lpar ∧ t ≠ .lbr ∧ t ≠ .arrow

end Tn

open Tn

/-- A type is read up to its end, and known by its text. -/
def C144_statement : Prop :=
  ∀ t, Wf t → ∀ rest, Follow rest → parseType (toks t ++ rest) = some (text t, rest)

namespace Tn

/-- `k` pairs of brackets. -/
def chain : Nat → Ty → Ty
  | 0, b => b
  | k + 1, b => .arr (chain k b)

def Tys.Mem (x : Ty) : Tys → Prop
  | .nil => False
  | .cons _ t ts => x = t ∨ Tys.Mem x ts

/-- A key that is one token. -/
def One : Ty → Prop
  | .wild => True
  | .name _ => True
  | _ => False

def Plain : Tys → Prop
  | .nil => True
  | .cons mu t ts => mu = false ∧ text t ≠ lit "void" ∧ Plain ts

/-- The types the parser reads. -/
inductive Ok : Ty → Prop where
  | flat {b} : Flat b → Ok b
  | grid {k b} : Flat b → Ok (chain (k + 1) b)
  | gridMap {k key v} : Flat key → Ok v → Ok (chain k (.map true key v))
  | ptrs {p} : Flat p → Ok (.arr (.ptr p))
  | long {key v} : One key → Ok v → Ok (.map false key v)
  | longs {key v} : One key → Ok v → Ok (.arr (.map false key v))
  | fixed {e n b} : Flat e → Ok (.fixed e n b)
  | fixedMap {key v n b} : One key → Ok v → Ok (.fixed (.map false key v) n b)
  | ptr {t} : Ok t → Ok (.ptr t)
  | func0 {ps} : (∀ t, ps.Mem t → Ok t) → (textP ps).length < 512 → Ok (.func ps .none)
  | func1 {ps t} : (∀ t, ps.Mem t → Ok t) → (textP ps).length < 512 → Ok t → text t ≠ lit "void" → (text t).length < 256 →
      Ok (.func ps (.one t))
  | funcN {ps t ts} : (∀ t, ps.Mem t → Ok t) → (textP ps).length < 512 → Ok t → (∀ t, ts.Mem t → Ok t) → Plain (.cons false t ts) →
      (text t ++ textQ ts).length < 253 → Ok (.func ps (.many t ts))


theorem follow_rbr (r : List Tok) : Follow (.rbr :: r) := by intro t h; cases h; simp
theorem follow_colon (r : List Tok) : Follow (.colon :: r) := by intro t h; cases h; simp
theorem follow_comma (r : List Tok) : Follow (.comma :: r) := by intro t h; cases h; simp
theorem follow_rpar (r : List Tok) : Follow (.rpar :: r) := by intro t h; cases h; simp

theorem readName_flat {b : Ty} (h : Flat b) {r : List Tok} (hr : Follow r) : readName (toks b ++ r) = (text b, r) := by
  match b, h with
  | .wild, _ => rfl
  | .name s, _ =>
    match r, hr with
    | [], _ => rfl
    | t :: r, hr =>
      have := (hr t rfl).1
      cases t <;> first | rfl | exact absurd rfl this
  | .qual m s, _ => rfl

theorem expects_replicate (r : List Tok) : ∀ k, expects .rbr k (List.replicate k .rbr ++ r) = some r
  | 0 => rfl
  | k + 1 => expects_replicate r k

theorem lbrs_replicate (r : List Tok) (h : r.head? ≠ some .lbr) : ∀ k, lbrs (List.replicate k .lbr ++ r) = k
  | 0 => by
    match r, h with
    | [], _ => rfl
    | t :: r, h => cases t <;> first | rfl | exact absurd rfl h
  | k + 1 => congrArg (· + 1) (lbrs_replicate r h k)

theorem drop_replicate (r : List Tok) (k : Nat) : (List.replicate k Tok.lbr ++ r).drop k = r := by
  rw [List.drop_append_of_le_length (by simp)]
  simp

theorem flat_head {b : Ty} (h : Flat b) (r : List Tok) : (toks b ++ r).head? ≠ some .lbr := by
  match b, h with
  | .wild, _ => simp [toks]
  | .name s, _ => simp [toks]
  | .qual m s, _ => simp [toks]

theorem replicate_mid {α : Type} (a : α) (k : Nat) (l : List α) : List.replicate k a ++ a :: l = a :: (List.replicate k a ++ l) := by
  induction k with
  | zero => rfl
  | succ k ih => rw [List.replicate_succ, List.cons_append, ih]; rfl

theorem toks_chain (b : Ty) : ∀ k, toks (chain k b) = List.replicate k .lbr ++ toks b ++ List.replicate k .rbr
  | 0 => by simp [chain]
  | k + 1 => by
    rw [chain, toks, toks_chain b k]
    simp only [List.replicate_succ, List.append_assoc, List.cons_append, List.append_cancel_left_eq, List.cons.injEq, true_and]
    rw [replicate_mid, List.append_nil]

theorem text_chain (b : Ty) : ∀ k, text (chain k b) = List.replicate k (ch '[') ++ text b ++ List.replicate k (ch ']')
  | 0 => by simp [chain]
  | k + 1 => by
    rw [chain, text, text_chain b k]
    simp only [List.replicate_succ, List.append_assoc, List.cons_append]
    show _ :: _ = _
    rw [show lit "]" = [ch ']'] from rfl, replicate_mid, List.append_nil]
    rfl

theorem text_ne : ∀ t, Wf t → text t ≠ []
  | .wild, _ => by simp [text, lit]
  | .name s, h => by rw [text]; exact h.1
  | .qual m s, h => by
    rw [text]
    intro e
    exact h.1.1 (by simp at e; exact e.1)
  | .arr e, _ => by simp [text, lit]
  | .fixed e n _, _ => by simp [text, lit]
  | .map _ k v, _ => by simp [text, lit]
  | .ptr t, _ => by simp [text, lit]
  | .func ps r, _ => by simp [text, lit]

theorem mem_lenQ : ∀ (ts : Tys) (t : Ty), ts.Mem t → (toks t).length ≤ (toksQ ts).length
  | .cons mu u ts, t, h => by
    rw [toksQ]
    rcases h with rfl | h
    · simp; omega
    · have := mem_lenQ ts t h
      simp; omega

theorem mem_len : ∀ (ts : Tys) (t : Ty), ts.Mem t → (toks t).length ≤ (toksP ts).length
  | .cons mu u ts, t, h => by
    rw [toksP]
    rcases h with rfl | h
    · simp; omega
    · have := mem_lenQ ts t h
      simp; omega

theorem wf_mem : ∀ {ts : Tys} {t : Ty}, WfP ts → ts.Mem t → Wf t
  | .cons _ t ts, _, h, hm => by
    rw [WfP] at h
    rcases hm with rfl | hm
    · exact h.1
    · exact wf_mem h.2 hm

theorem wfN_mem : ∀ {ts : Tys} {t : Ty}, WfN ts → ts.Mem t → Wf t
  | .cons _ t ts, _, h, hm => by
    rw [WfN] at h
    rcases hm with rfl | hm
    · exact h.2.1
    · exact wfN_mem h.2.2.2 hm

/-! ## Arrays -/

theorem body_grid (p : P) {b : Ty} (h : Flat b) (k : Nat) (rest : List Tok) :
    body p (toks (chain (k + 1) b) ++ rest) = some (text (chain (k + 1) b), rest) := by
  rw [toks_chain, text_chain]
  match k with
  | 0 =>
    have hr := readName_flat h (follow_rbr rest)
    have ht : (toks b ++ .rbr :: rest).take 2 ≠ [.ident (lit "map"), .lbr] ∧
        (toks b ++ .rbr :: rest).take 2 ≠ [.ident (lit "func"), .lpar] := by
      match b, h with
      | .wild, _ => simp [toks]
      | .name s, _ => simp [toks]
      | .qual m s, _ => simp [toks]
    have hb : body p (.lbr :: (toks b ++ .rbr :: rest)) =
        if (toks b ++ .rbr :: rest).take 2 = [.ident (lit "map"), .lbr] then p (toks b ++ .rbr :: rest) >>= fun (e, r) => sized e r
        else if (toks b ++ .rbr :: rest).take 2 = [.ident (lit "func"), .lpar] then none
        else match readName (toks b ++ .rbr :: rest) with
          | (k, .colon :: r) => p r >>= fun (v, r) => expect .rbr r >>= fun r => some (mapText k v, r)
          | (e, r) => sized e r := by
      match b, h with
      | .wild, _ => rfl
      | .name s, _ => rfl
      | .qual m s, _ => rfl
    have e : List.replicate (0 + 1) Tok.lbr ++ toks b ++ List.replicate (0 + 1) Tok.rbr ++ rest = .lbr :: (toks b ++ .rbr :: rest) := by
      simp
    rw [e, hb, if_neg ht.1, if_neg ht.2, hr]
    rfl
  | k + 1 =>
    have e : List.replicate (k + 1 + 1) Tok.lbr ++ toks b ++ List.replicate (k + 1 + 1) Tok.rbr ++ rest =
        .lbr :: .lbr :: (List.replicate k .lbr ++ (toks b ++ (List.replicate (k + 2) .rbr ++ rest))) := by
      simp [List.replicate_succ]
    rw [e]
    show nested p _ _ = _
    rw [lbrs_replicate _ (flat_head h _), drop_replicate, nested, List.replicate_succ, List.cons_append,
      readName_flat h (follow_rbr _)]
    show (expects .rbr (k + 2) _ >>= _) = _
    have := expects_replicate rest (k + 2)
    rw [List.replicate_succ, List.cons_append] at this
    rw [this]
    rfl

theorem body_gridMap (p : P) {key v : Ty} (h : Flat key) (k : Nat) (rest : List Tok)
    (hp : ∀ r, Follow r → p (toks v ++ r) = some (text v, r)) :
    body p (toks (chain k (.map true key v)) ++ rest) = some (text (chain k (.map true key v)), rest) := by
  rw [toks_chain, text_chain]
  have hm : toks (.map true key v) = .lbr :: (toks key ++ .colon :: (toks v ++ [.rbr])) := by simp [toks]
  match k with
  | 0 =>
    have hr := readName_flat h (follow_colon (toks v ++ .rbr :: rest))
    have ht : (toks key ++ .colon :: (toks v ++ .rbr :: rest)).take 2 ≠ [.ident (lit "map"), .lbr] ∧
        (toks key ++ .colon :: (toks v ++ .rbr :: rest)).take 2 ≠ [.ident (lit "func"), .lpar] := by
      match key, h with
      | .wild, _ => simp [toks]
      | .name s, _ => simp [toks]
      | .qual m s, _ => simp [toks]
    have hb : ∀ l, body p (.lbr :: (toks key ++ l)) =
        if (toks key ++ l).take 2 = [.ident (lit "map"), .lbr] then p (toks key ++ l) >>= fun (e, r) => sized e r
        else if (toks key ++ l).take 2 = [.ident (lit "func"), .lpar] then none
        else match readName (toks key ++ l) with
          | (k, .colon :: r) => p r >>= fun (v, r) => expect .rbr r >>= fun r => some (mapText k v, r)
          | (e, r) => sized e r := by
      intro l
      match key, h with
      | .wild, _ => rfl
      | .name s, _ => rfl
      | .qual m s, _ => rfl
    have e : List.replicate 0 Tok.lbr ++ toks (.map true key v) ++ List.replicate 0 Tok.rbr ++ rest =
        .lbr :: (toks key ++ .colon :: (toks v ++ .rbr :: rest)) := by
      simp [hm]
    rw [e, hb, if_neg ht.1, if_neg ht.2, hr]
    show (p (toks v ++ .rbr :: rest) >>= _) = _
    rw [hp _ (follow_rbr _)]
    simp [text, mapText, expect]
  | k + 1 =>
    have e : List.replicate (k + 1) Tok.lbr ++ toks (.map true key v) ++ List.replicate (k + 1) Tok.rbr ++ rest =
        .lbr :: .lbr :: (List.replicate k .lbr ++ (toks key ++ .colon :: (toks v ++ .rbr :: (List.replicate (k + 1) .rbr ++ rest)))) := by
      rw [hm]
      simp only [List.append_assoc, List.cons_append, List.nil_append]
      rw [replicate_mid, List.replicate_succ]
      rfl
    rw [e]
    show nested p _ _ = _
    rw [lbrs_replicate _ (flat_head h _), drop_replicate, nested, readName_flat h (follow_colon _)]
    show (p (toks v ++ .rbr :: (List.replicate (k + 1) .rbr ++ rest)) >>= _) = _
    rw [hp _ (follow_rbr _)]
    show (expects .rbr (k + 1) (List.replicate (k + 1) .rbr ++ rest) >>= _) = _
    rw [expects_replicate]
    rfl

theorem body_ptrs (p : P) {b : Ty} (h : Flat b) (rest : List Tok) :
    body p (toks (.arr (.ptr b)) ++ rest) = some (text (.arr (.ptr b)), rest) := by
  have e : toks (.arr (.ptr b)) ++ rest = .lbr :: .caret :: (toks b ++ .rbr :: rest) := by simp [toks]
  rw [e]
  show (match readName (toks b ++ .rbr :: rest) with | (s, r) => expect .rbr r >>= fun r => some (lit "[^" ++ s ++ lit "]", r)) = _
  rw [readName_flat h (follow_rbr _)]
  simp [text, expect]
  rfl

theorem one_tok {key : Ty} (h : One key) : ∃ x, toks key = [x] ∧ x.text = text key := by
  match key, h with
  | .wild, _ => exact ⟨_, rfl, rfl⟩
  | .name s, _ => exact ⟨_, rfl, rfl⟩

theorem body_long (p : P) {key v : Ty} (h : One key) (rest : List Tok)
    (hp : ∀ r, Follow r → p (toks v ++ r) = some (text v, r)) :
    body p (toks (.map false key v) ++ rest) = some (text (.map false key v), rest) := by
  obtain ⟨x, hx, hk⟩ := one_tok h
  have e : toks (.map false key v) ++ rest = .ident (lit "map") :: .lbr :: x :: .colon :: (toks v ++ .rbr :: rest) := by
    simp [toks, hx]
  rw [e]
  show (p (toks v ++ .rbr :: rest) >>= _) = _
  rw [hp _ (follow_rbr _)]
  show some (mapText x.text (text v), rest) = _
  rw [hk, mapText, text]

theorem body_lbr_map (p : P) (l : List Tok) :
    body p (.lbr :: .ident (lit "map") :: .lbr :: l) = p (.ident (lit "map") :: .lbr :: l) >>= fun (e, r) => sized e r := rfl

theorem toks_long (key v : Ty) (rest : List Tok) : ∃ l, toks (.map false key v) ++ rest = .ident (lit "map") :: .lbr :: l := by
  simp [toks]

theorem sized_rbr (e : Str) (rest : List Tok) : sized e (.rbr :: rest) = some (lit "[" ++ e ++ lit "]", rest) := rfl

theorem sized_comma (e n : Str) (b : Bool) (rest : List Tok) :
    sized e (.comma :: (if b then Tok.ident n else Tok.int n) :: .rbr :: rest) =
      some (lit "[" ++ e ++ lit "," ++ n ++ lit "]", rest) := by
  cases b <;> rfl

theorem body_fixed (p : P) {b : Ty} (h : Flat b) (n : Str) (nm : Bool) (rest : List Tok) :
    body p (toks (.fixed b n nm) ++ rest) = some (text (.fixed b n nm), rest) := by
  have e : toks (.fixed b n nm) ++ rest = .lbr :: (toks b ++ .comma :: (if nm then Tok.ident n else Tok.int n) :: .rbr :: rest) := by
    simp [toks]
  have hr := readName_flat h (follow_comma ((if nm then Tok.ident n else Tok.int n) :: .rbr :: rest))
  have ht : ∀ l, (toks b ++ Tok.comma :: l).take 2 ≠ [.ident (lit "map"), .lbr] ∧
      (toks b ++ Tok.comma :: l).take 2 ≠ [.ident (lit "func"), .lpar] := by
    intro l
    match b, h with
    | .wild, _ => simp [toks]
    | .name s, _ => simp [toks]
    | .qual m s, _ => simp [toks]
  have hb : ∀ l, body p (.lbr :: (toks b ++ l)) =
      if (toks b ++ l).take 2 = [.ident (lit "map"), .lbr] then p (toks b ++ l) >>= fun (e, r) => sized e r
      else if (toks b ++ l).take 2 = [.ident (lit "func"), .lpar] then none
      else match readName (toks b ++ l) with
        | (k, .colon :: r) => p r >>= fun (v, r) => expect .rbr r >>= fun r => some (mapText k v, r)
        | (e, r) => sized e r := by
    intro l
    match b, h with
    | .wild, _ => rfl
    | .name s, _ => rfl
    | .qual m s, _ => rfl
  rw [e, hb, if_neg (ht _).1, if_neg (ht _).2, hr, text]
  exact sized_comma _ _ _ _

theorem body_longs (p : P) {key v : Ty} (rest : List Tok)
    (hp : ∀ r, Follow r → p (toks (.map false key v) ++ r) = some (text (.map false key v), r)) :
    body p (toks (.arr (.map false key v)) ++ rest) = some (text (.arr (.map false key v)), rest) := by
  have e : toks (.arr (.map false key v)) ++ rest = .lbr :: (toks (.map false key v) ++ .rbr :: rest) := by
    rw [toks]; simp
  have h := hp (.rbr :: rest) (follow_rbr _)
  obtain ⟨l, hl⟩ := toks_long key v (.rbr :: rest)
  rw [hl] at h
  rw [e, hl, body_lbr_map, h, text]
  rfl

theorem body_fixedMap (p : P) {key v : Ty} (n : Str) (b : Bool) (rest : List Tok)
    (hp : ∀ r, Follow r → p (toks (.map false key v) ++ r) = some (text (.map false key v), r)) :
    body p (toks (.fixed (.map false key v) n b) ++ rest) = some (text (.fixed (.map false key v) n b), rest) := by
  have e : toks (.fixed (.map false key v) n b) ++ rest =
      .lbr :: (toks (.map false key v) ++ .comma :: (if b then Tok.ident n else Tok.int n) :: .rbr :: rest) := by
    rw [toks]; simp
  have h := hp (.comma :: (if b then Tok.ident n else Tok.int n) :: .rbr :: rest) (follow_comma _)
  obtain ⟨l, hl⟩ := toks_long key v (.comma :: (if b then Tok.ident n else Tok.int n) :: .rbr :: rest)
  rw [hl] at h
  rw [e, hl, body_lbr_map, h, text]
  exact sized_comma _ _ _ _

/-! ## Functions -/

theorem head_not_amp : ∀ (t : Ty) (r : List Tok), ∃ x l, toks t ++ r = x :: l ∧ x ≠ .amp ∧ x ≠ .rpar ∧ x ≠ .lpar
  | .wild, _ => ⟨_, _, rfl, by simp⟩
  | .name s, _ => ⟨_, _, rfl, by simp⟩
  | .qual m s, _ => ⟨_, _, rfl, by simp⟩
  | .arr e, _ => ⟨_, _, rfl, by simp⟩
  | .fixed e n _, _ => ⟨_, _, rfl, by simp⟩
  | .map true k v, _ => ⟨_, _, rfl, by simp⟩
  | .map false k v, _ => ⟨_, _, rfl, by simp⟩
  | .ptr t, _ => ⟨_, _, rfl, by simp⟩
  | .func ps r, _ => ⟨_, _, rfl, by simp⟩

/-- What the parser does at one type. -/
def Reads (p : P) (t : Ty) : Prop := ∀ r, Follow r → p (toks t ++ r) = some (text t, r)

theorem params_step (p : P) (n : Nat) (buf : Str) (mu : Bool) {t : Ty} (h : Reads p t) (r : List Tok) (hr : Follow r) :
    params p (n + 1) buf ((if mu then [.amp] else []) ++ toks t ++ r) =
      let s := (if buf = [] then [] else lit ",") ++ (if mu then lit "&" else []) ++ text t
      if bufLarge ≤ buf.length + s.length then none
      else match r with
        | .comma :: r => params p n (buf ++ s) r
        | r => some (buf ++ s, r) := by
  cases mu
  · obtain ⟨x, l, hl, hx, -⟩ := head_not_amp t r
    have e : (if false = true then [Tok.amp] else []) ++ toks t ++ r = x :: l := by simpa using hl
    have hp := h r hr
    rw [hl] at hp
    rw [e]
    have : params p (n + 1) buf (x :: l) = (p (x :: l) >>= fun (ty, r) =>
        let s := (if buf = [] then [] else lit ",") ++ [] ++ ty
        if bufLarge ≤ buf.length + s.length then none
        else match r with
          | .comma :: r => params p n (buf ++ s) r
          | r => some (buf ++ s, r)) := by
      cases x <;> first | exact absurd rfl hx | rfl
    rw [this, hp]
    rfl
  · have e : (if true = true then [Tok.amp] else []) ++ toks t ++ r = .amp :: (toks t ++ r) := rfl
    rw [e, params]
    simp only [if_true, List.tail_cons, h r hr]
    rfl

theorem params_rest (p : P) : ∀ (ts : Tys) (n : Nat) (buf : Str) (r : List Tok), (∀ t, ts.Mem t → Reads p t) → buf ≠ [] →
    (buf ++ textQ ts).length < 512 → (toksQ ts).length ≤ n →
    (match toksQ ts ++ .rpar :: r with
      | .comma :: r => params p n buf r
      | r => some (buf, r)) = some (buf ++ textQ ts, .rpar :: r)
  | .nil, n, buf, r, _, _, _, _ => by simp [toksQ, textQ]
  | .cons mu t ts, n, buf, r, hm, hb, hl, hn => by
    have e : toksQ (.cons mu t ts) ++ .rpar :: r = .comma :: ((if mu then [.amp] else []) ++ toks t ++ (toksQ ts ++ .rpar :: r)) := by
      simp [toksQ]
    have hq : textQ (.cons mu t ts) = lit "," ++ (if mu then lit "&" else []) ++ text t ++ textQ ts := by simp [textQ]
    rw [e]
    show params p n buf _ = _
    have hn' : 1 + (toks t).length + (toksQ ts).length ≤ n := by
      rw [toksQ] at hn
      simp at hn
      omega
    obtain ⟨n, rfl⟩ : ∃ m, n = m + 1 := ⟨n - 1, by omega⟩
    have hf : Follow (toksQ ts ++ .rpar :: r) := by
      cases ts with
      | nil => exact follow_rpar r
      | cons mu' t' ts' => exact follow_comma _
    rw [params_step p n buf mu (hm t (.inl rfl)) _ hf]
    rw [hq] at hl
    simp only [if_neg hb]
    rw [if_neg (by simp [bufLarge] at hl ⊢; omega)]
    have := params_rest p ts n (buf ++ (lit "," ++ (if mu then lit "&" else []) ++ text t)) r (fun t h => hm t (.inr h)) (by simp [hb])
      (by simpa using hl) (by omega)
    rw [this, hq]
    simp

theorem params_all (p : P) (mu : Bool) (t : Ty) (ts : Tys) (n : Nat) (r : List Tok) (hm : ∀ u, (Tys.cons mu t ts).Mem u → Reads p u)
    (hne : text t ≠ []) (hl : (textP (.cons mu t ts)).length < 512) (hn : (toksP (.cons mu t ts)).length ≤ n) :
    params p n [] (toksP (.cons mu t ts) ++ .rpar :: r) = some (textP (.cons mu t ts), .rpar :: r) := by
  have e : toksP (.cons mu t ts) ++ .rpar :: r = (if mu then [.amp] else []) ++ toks t ++ (toksQ ts ++ .rpar :: r) := by
    simp [toksP]
  have hq : textP (.cons mu t ts) = (if mu then lit "&" else []) ++ text t ++ textQ ts := by simp [textP]
  have hn' : (toks t).length + (toksQ ts).length ≤ n := by
    rw [toksP] at hn
    simp at hn
    omega
  have ht : 0 < (toks t).length := by
    obtain ⟨x, l, h, -⟩ := head_not_amp t []
    rw [List.append_nil] at h
    simp [h]
  obtain ⟨n, rfl⟩ : ∃ m, n = m + 1 := ⟨n - 1, by omega⟩
  have hf : Follow (toksQ ts ++ .rpar :: r) := by
    cases ts with
    | nil => exact follow_rpar r
    | cons mu' t' ts' => exact follow_comma _
  rw [e, params_step p n [] mu (hm t (.inl rfl)) _ hf]
  rw [hq] at hl
  simp only [if_pos]
  rw [if_neg (by simp [bufLarge] at hl ⊢; omega)]
  have := params_rest p ts n ([] ++ ([] ++ (if mu then lit "&" else []) ++ text t)) r (fun t h => hm t (.inr h)) (by simp [hne])
    (by simpa using hl) (by omega)
  rw [this, hq]
  simp

theorem returns_rest (p : P) : ∀ (ts : Tys) (n : Nat) (buf : Str) (r : List Tok), (∀ t, ts.Mem t → Reads p t) → Plain ts → 1 < buf.length →
    (buf ++ textQ ts).length < 256 → (toksQ ts).length ≤ n →
    (match toksQ ts ++ .rpar :: r with
      | .comma :: r => returns p n buf r
      | r => some (buf, r)) = some (buf ++ textQ ts, .rpar :: r)
  | .nil, n, buf, r, _, _, _, _, _ => by simp [toksQ, textQ]
  | .cons mu t ts, n, buf, r, hm, hpl, hb, hl, hn => by
    obtain ⟨rfl, hv, hpl⟩ := hpl
    have e : toksQ (.cons false t ts) ++ .rpar :: r = .comma :: (toks t ++ (toksQ ts ++ .rpar :: r)) := by
      simp [toksQ]
    have hq : textQ (.cons false t ts) = lit "," ++ text t ++ textQ ts := by simp [textQ]
    rw [e]
    show returns p n buf _ = _
    have hn' : 1 + (toks t).length + (toksQ ts).length ≤ n := by
      rw [toksQ] at hn
      simp at hn
      omega
    obtain ⟨n, rfl⟩ : ∃ m, n = m + 1 := ⟨n - 1, by omega⟩
    have hf : Follow (toksQ ts ++ .rpar :: r) := by
      cases ts with
      | nil => exact follow_rpar r
      | cons mu' t' ts' => exact follow_comma _
    rw [hq] at hl
    rw [returns, hm t (.inl rfl) _ hf]
    show (if text t = lit "void" then none else _) = _
    rw [if_neg hv, if_pos hb]
    show (if bufSize ≤ buf.length + (lit "," ++ text t).length then none else _) = _
    rw [if_neg (by simp [bufSize] at hl ⊢; omega)]
    have := returns_rest p ts n (buf ++ (lit "," ++ text t)) r (fun t h => hm t (.inr h)) hpl (by simp; omega)
      (by simpa using hl) (by omega)
    refine Eq.trans ?_ (this.trans (by rw [hq]; simp))
    rfl

theorem returns_all (p : P) (t : Ty) (ts : Tys) (n : Nat) (r : List Tok) (ht : Reads p t) (hm : ∀ u, ts.Mem u → Reads p u)
    (hv : text t ≠ lit "void") (hne : text t ≠ []) (hpl : Plain ts) (hl : (text t ++ textQ ts).length < 253)
    (hn : (toks t ++ toksQ ts).length ≤ n) :
    returns p n (lit "(") (toks t ++ (toksQ ts ++ .rpar :: r)) = some (lit "(" ++ text t ++ textQ ts, .rpar :: r) := by
  have ht' : 0 < (toks t).length := by
    obtain ⟨x, l, h, -⟩ := head_not_amp t []
    rw [List.append_nil] at h
    simp [h]
  have hn' : (toks t).length + (toksQ ts).length ≤ n := by simpa using hn
  have hne' : 0 < (text t).length := List.length_pos_iff.2 hne
  obtain ⟨n, rfl⟩ : ∃ m, n = m + 1 := ⟨n - 1, by omega⟩
  have hf : Follow (toksQ ts ++ .rpar :: r) := by
    cases ts with
    | nil => exact follow_rpar r
    | cons mu' t' ts' => exact follow_comma _
  have hlp : (lit "(").length = 1 := rfl
  rw [returns, ht _ hf]
  show (if text t = lit "void" then none else _) = _
  rw [if_neg hv, if_neg (show ¬ 1 < (lit "(").length by omega)]
  show (if bufSize ≤ (lit "(").length + ([] ++ text t).length then none else _) = _
  rw [if_neg (by simp [bufSize] at hl ⊢; omega)]
  have := returns_rest p ts n (lit "(" ++ ([] ++ text t)) r hm hpl (by simp; omega) (by simp at hl ⊢; omega) (by omega)
  refine Eq.trans ?_ (this.trans (by simp))
  rfl

theorem body_func (p : P) (ps : Tys) (rest : List Tok) (hp : ∀ t, ps.Mem t → Reads p t) (hne : ∀ t, ps.Mem t → text t ≠ [])
    (hl : (textP ps).length < 512) : body p (.ident (lit "func") :: .lpar :: (toksP ps ++ .rpar :: rest)) = result p (textP ps) rest := by
  show ((match toksP ps ++ .rpar :: rest with
        | .rpar :: _ => some ([], toksP ps ++ .rpar :: rest)
        | r => params p r.length [] r) >>= fun (ps, r) => expect .rpar r >>= fun r => result p ps r) = _
  have h : (match toksP ps ++ .rpar :: rest with
        | .rpar :: _ => some (([] : Str), toksP ps ++ .rpar :: rest)
        | r => params p r.length [] r) = some (textP ps, .rpar :: rest) := by
    cases ps with
    | nil => simp [toksP, textP]
    | cons mu t ts =>
      have ha := params_all p mu t ts (toksP (.cons mu t ts) ++ .rpar :: rest).length rest hp (hne t (.inl rfl)) hl (by simp)
      obtain ⟨x, l, hx, -, hr, -⟩ := head_not_amp t (toksQ ts ++ .rpar :: rest)
      have : ∃ x l, toksP (.cons mu t ts) ++ .rpar :: rest = x :: l ∧ x ≠ .rpar := by
        cases mu
        · exact ⟨x, l, by simpa [toksP] using hx, hr⟩
        · exact ⟨.amp, toks t ++ (toksQ ts ++ .rpar :: rest), by simp [toksP], by simp⟩
      obtain ⟨y, m, hy, hne⟩ := this
      rw [hy] at ha ⊢
      cases y <;> first | exact absurd rfl hne | exact ha
  rw [h]
  rfl

theorem result_none (p : P) (s : Str) (r : List Tok) (h : Follow r) : result p s r = some (lit "func(" ++ s ++ lit ")", r) := by
  match r, h with
  | [], _ => rfl
  | t :: r, h =>
    have := (h t rfl).2.2.2
    cases t <;> first | rfl | exact absurd rfl this

/-! ## All types -/

theorem reads {t : Ty} (h : Ok t) : Wf t → ∀ n, (toks t).length ≤ n → Reads (parse n) t := by
  have sub : ∀ {u : Ty} {n m : Nat}, (toks u).length < m → m ≤ n → ∃ k, n = k + 1 ∧ (toks u).length ≤ k := by
    intro u n m h1 h2
    exact ⟨n - 1, by omega, by omega⟩
  induction h with
  | @flat b hb =>
    intro _ n hn r hr
    have : 0 < (toks b).length := by
      obtain ⟨x, l, h, -⟩ := head_not_amp b []
      rw [List.append_nil] at h
      simp [h]
    obtain ⟨n, rfl⟩ : ∃ m, n = m + 1 := ⟨n - 1, by omega⟩
    show body (parse n) _ = _
    match b, hb with
    | .wild, _ => rfl
    | .qual m s, _ =>
      show (if ([Tok.ident m, .dot] : List Tok) = [.ident (lit "map"), .lbr] then _ else
        if ([Tok.ident m, .dot] : List Tok) = [.ident (lit "func"), .lpar] then _ else some (readName (toks (.qual m s) ++ r))) = _
      rw [if_neg (by simp), if_neg (by simp), readName_flat (b := .qual m s) trivial hr]
    | .name s, hb =>
      have e := readName_flat hb hr
      have h1 : ([Tok.ident s] ++ r).take 2 ≠ [.ident (lit "map"), .lbr] := by
        match r, hr with
        | [], _ => simp
        | t :: r, hr => simp [(hr t rfl).2.2.1]
      have h2 : ([Tok.ident s] ++ r).take 2 ≠ [.ident (lit "func"), .lpar] := by
        match r, hr with
        | [], _ => simp
        | t :: r, hr => simp [(hr t rfl).2.1]
      show (if ([Tok.ident s] ++ r).take 2 = [.ident (lit "map"), .lbr] then _ else
        if ([Tok.ident s] ++ r).take 2 = [.ident (lit "func"), .lpar] then _ else some (readName (toks (.name s) ++ r))) = _
      rw [if_neg h1, if_neg h2, e]
  | @grid k b hb =>
    intro _ n hn r hr
    have : 0 < (toks (chain (k + 1) b)).length := by simp [toks_chain]; omega
    obtain ⟨n, rfl⟩ : ∃ m, n = m + 1 := ⟨n - 1, by omega⟩
    exact body_grid _ hb k r
  | @gridMap k key v hk hv ih =>
    intro hw n hn r hr
    have hwf : Wf v := by
      have : ∀ k, Wf (chain k (.map true key v)) → Wf v := by
        intro k
        induction k with
        | zero => intro h; rw [chain, Wf] at h; exact h.2.2
        | succ k ih => intro h; rw [chain, Wf] at h; exact ih h.1
      exact this k hw
    have hlen : (toks v).length < (toks (chain k (.map true key v))).length := by
      rw [toks_chain]
      simp [toks]
      omega
    obtain ⟨n, rfl, hn'⟩ := sub hlen hn
    exact body_gridMap _ hk k r (ih hwf n hn')
  | @ptrs b hb =>
    intro _ n hn r hr
    have : 0 < (toks (.arr (.ptr b))).length := by simp [toks]
    obtain ⟨n, rfl⟩ : ∃ m, n = m + 1 := ⟨n - 1, by omega⟩
    exact body_ptrs _ hb r
  | @long key v hk hv ih =>
    intro hw n hn r hr
    rw [Wf] at hw
    have hlen : (toks v).length < (toks (.map false key v)).length := by simp [toks]; omega
    obtain ⟨n, rfl, hn'⟩ := sub hlen hn
    exact body_long _ hk r (ih hw.2.2 n hn')
  | @longs key v hk hv ih =>
    intro hw n hn r hr
    rw [Wf, Wf] at hw
    have hlen : (toks v).length < (toks (.map false key v)).length := by simp [toks]; omega
    have hlen2 : (toks (.map false key v)).length < (toks (.arr (.map false key v))).length := by rw [toks]; simp; omega
    obtain ⟨n, rfl, hn'⟩ := sub hlen2 hn
    obtain ⟨n, rfl, hn''⟩ := sub hlen hn'
    exact body_longs _ r fun r' hr' => body_long _ hk r' (ih hw.1.2.2 n hn'')
  | @fixed e s b he =>
    intro _ n hn r hr
    have : 0 < (toks (.fixed e s b)).length := by simp [toks]
    obtain ⟨n, rfl⟩ : ∃ m, n = m + 1 := ⟨n - 1, by omega⟩
    exact body_fixed _ he s b r
  | @fixedMap key v s b hk hv ih =>
    intro hw n hn r hr
    rw [Wf, Wf] at hw
    have hlen : (toks v).length < (toks (.map false key v)).length := by simp [toks]; omega
    have hlen2 : (toks (.map false key v)).length < (toks (.fixed (.map false key v) s b)).length := by rw [toks.eq_5]; simp; omega
    obtain ⟨n, rfl, hn'⟩ := sub hlen2 hn
    obtain ⟨n, rfl, hn''⟩ := sub hlen hn'
    exact body_fixedMap _ s b r fun r' hr' => body_long _ hk r' (ih hw.1.2.2 n hn'')
  | @ptr t ht ih =>
    intro hw n hn r hr
    rw [Wf] at hw
    obtain ⟨n, rfl, hn'⟩ := sub (u := t) (m := (toks (.ptr t)).length) (by simp [toks]) hn
    show (parse n (toks t ++ r) >>= _) = _
    rw [ih hw n hn' r hr, text]
    rfl
  | @func0 ps _ hl ih =>
    intro hw n hn r hr
    rw [Wf] at hw
    have e : toks (.func ps .none) ++ r = .ident (lit "func") :: .lpar :: (toksP ps ++ .rpar :: r) := by simp [toks, toksR]
    obtain ⟨n, rfl⟩ : ∃ m, n = m + 1 := ⟨n - 1, by simp [toks] at hn; omega⟩
    have hlen : (toksP ps).length ≤ n := by simp [toks] at hn; omega
    rw [e]
    show body (parse n) _ = _
    rw [body_func _ ps r (fun t ht => ih t ht (wf_mem hw.1 ht) n (Nat.le_trans (mem_len ps t ht) hlen)) (fun t ht => text_ne t (wf_mem hw.1 ht)) hl,
      result_none _ _ _ hr]
    simp [text, textR]
  | @func1 ps t _ hl _ hv hlt ih iht =>
    intro hw n hn r hr
    rw [Wf, WfR] at hw
    have e : toks (.func ps (.one t)) ++ r = .ident (lit "func") :: .lpar :: (toksP ps ++ .rpar :: .arrow :: (toks t ++ r)) := by
      simp [toks, toksR]
    obtain ⟨n, rfl⟩ : ∃ m, n = m + 1 := ⟨n - 1, by simp [toks] at hn; omega⟩
    have hlen : (toksP ps).length ≤ n := by simp [toks] at hn; omega
    have hlen2 : (toks t).length ≤ n := by simp [toks, toksR] at hn; omega
    rw [e]
    show body (parse n) _ = _
    rw [body_func _ ps _ (fun t ht => ih t ht (wf_mem hw.1 ht) n (Nat.le_trans (mem_len ps t ht) hlen)) (fun t ht => text_ne t (wf_mem hw.1 ht)) hl]
    obtain ⟨x, l, hx, -, -, hx'⟩ := head_not_amp t r
    have hp := iht hw.2.1 n hlen2 r hr
    rw [hx] at hp
    have : result (parse n) (textP ps) (.arrow :: (x :: l)) = (parse n (x :: l) >>= fun (u, r) =>
        if u = lit "void" then none else some (lit "func(" ++ textP ps ++ lit ")->" ++ u.take (bufSize - 1), r)) := by
      cases x <;> first | rfl | exact absurd rfl hx'
    rw [hx, this, hp]
    show (if text t = lit "void" then none else some (lit "func(" ++ textP ps ++ lit ")->" ++ (text t).take (bufSize - 1), r)) = _
    rw [if_neg hv, List.take_of_length_le (by rw [bufSize]; omega)]
    simp [text, textR]
    rfl
  | @funcN ps t ts _ hl _ _ hpl hlt ih iht ihs =>
    intro hw n hn r hr
    rw [Wf, WfR] at hw
    have e : toks (.func ps (.many t ts)) ++ r =
        .ident (lit "func") :: .lpar :: (toksP ps ++ .rpar :: .arrow :: .lpar :: (toks t ++ (toksQ ts ++ .rpar :: r))) := by
      simp [toks, toksR]
    obtain ⟨n, rfl⟩ : ∃ m, n = m + 1 := ⟨n - 1, by simp [toks] at hn; omega⟩
    have hlen : (toksP ps).length ≤ n := by simp [toks] at hn; omega
    have hlen2 : (toks t).length ≤ n := by simp [toks, toksR] at hn; omega
    have hlen3 : (toksQ ts).length ≤ n := by simp [toks, toksR] at hn; omega
    rw [e]
    show body (parse n) _ = _
    rw [body_func _ ps _ (fun t ht => ih t ht (wf_mem hw.1 ht) n (Nat.le_trans (mem_len ps t ht) hlen)) (fun t ht => text_ne t (wf_mem hw.1 ht)) hl]
    show (returns (parse n) (toks t ++ (toksQ ts ++ .rpar :: r)).length (lit "(") (toks t ++ (toksQ ts ++ .rpar :: r)) >>= _) = _
    rw [returns_all (parse n) t ts _ r (iht hw.2.1 n hlen2)
      (fun u hu => ihs u hu (wfN_mem hw.2.2.2 hu) n (Nat.le_trans (mem_lenQ ts u hu) hlen3)) hpl.2.1 (text_ne t hw.2.1) hpl.2.2 hlt
      (by simp)]
    show (if bufSize ≤ (lit "(" ++ text t ++ textQ ts).length + 2 then none else _) = _
    rw [if_neg (by simp [bufSize, lit] at hlt ⊢; omega)]
    simp [text, textR]
    rfl

/-- Names in a list of types. -/
def nm (s : String) : Ty := .name (lit s)

/-- `[[map[string:int]]]`. -/
def mapGrid : Ty := .arr (.arr (.map false (nm "string") (nm "int")))
/-- `[[^Point]]`. -/
def ptrGrid : Ty := .arr (.arr (.ptr (nm "Point")))
/-- `[^[int]]`. -/
def ptrArr : Ty := .arr (.ptr (.arr (nm "int")))
/-- `[[int, 3]]`. -/
def fixedGrid : Ty := .arr (.fixed (nm "int") (lit "3") false)
/-- `map[lib.Color:int]`. -/
def qualKey : Ty := .map false (.qual (lit "lib") (lit "Color")) (nm "int")

/-- `func() -> N`, with a name of 256 letters. -/
def longName : Ty := .func .nil (.one (.name (List.replicate 256 (ch 'a'))))

theorem wf_nm (s : String) (h : Word (lit s)) : Wf (nm s) := by rw [nm, Wf]; exact h

end Tn

/-- Each type the parser reads, to its end and with its text. Missing: arrays of arrays of anything but names and short maps, arrays of
pointers to anything but names, sized arrays of anything but names and maps, keys `m.E` in a map written `map[…]`, parameter lists of
512 bytes and more, results of 256 bytes and more. -/
theorem C144_partial {t : Ty} (h : Wf t) (hok : Ok t) {rest : List Tok} (hr : Follow rest) :
    parseType (toks t ++ rest) = some (text t, rest) :=
  reads hok h _ (by simp; omega) rest hr

/-- Six well-formed types: five are refused, the last loses a letter of its result. -/
theorem C144_witness :
    (∀ t ∈ [mapGrid, ptrGrid, ptrArr, fixedGrid, qualKey], Wf t ∧ parseType (toks t) = none) ∧
    (Wf longName ∧ parseType (toks longName) = some ((text longName).dropLast, [])) := by
  have w : Word (lit "string") ∧ Word (lit "int") ∧ Word (lit "Point") ∧ Word (lit "3") ∧ Word (lit "lib") ∧ Word (lit "Color") := by
    unfold Word
    decide
  refine ⟨?_, ?_, by decide +kernel⟩
  · intro t ht
    simp only [List.mem_cons, List.not_mem_nil, or_false] at ht
    rcases ht with rfl | rfl | rfl | rfl | rfl
    · exact ⟨by simp [mapGrid, Wf, nm, Flat, isFunc, w], by decide⟩
    · exact ⟨by simp [ptrGrid, Wf, nm, Flat, isFunc, w], by decide⟩
    · exact ⟨by simp [ptrArr, Wf, nm, Flat, isFunc, w], by decide⟩
    · exact ⟨by simp [fixedGrid, Wf, nm, Flat, isFunc, w], by decide⟩
    · exact ⟨by simp [qualKey, Wf, nm, Flat, isFunc, w], by decide⟩
  · have hw : Word (List.replicate 256 (ch 'a')) := by
      refine ⟨List.cons_ne_nil _ _, fun c hc => ?_⟩
      rw [List.eq_of_mem_replicate hc]
      decide
    rw [longName, Wf, WfP, WfR, Wf, text]
    exact ⟨trivial, hw, fun h => by have := congrArg List.length h; rw [List.length_replicate] at this; exact absurd this (by decide)⟩

theorem C144_fails : ¬ C144_statement := by
  intro h
  obtain ⟨hw, hp⟩ := C144_witness.1 mapGrid (by simp)
  have := h mapGrid hw [] (by intro t ht; cases ht)
  rw [List.append_nil, hp] at this
  cases this

/-- `func(&[int], map[string:^Point]) -> (int, [lib.Color:[[float]]])` and then `{`. -/
example : parseType (toks (.func (.cons true (.arr (nm "int")) (.cons false (.map false (nm "string") (.ptr (nm "Point"))) .nil))
      (.many (nm "int") (.cons false (.map true (.qual (lit "lib") (lit "Color")) (.arr (.arr (nm "float")))) .nil))) ++ [.other (lit "{")]) =
    some (lit "func(&[int],map[string:^Point])->(int,map[lib_Color:[[float]]])", [.other (lit "{")]) := by decide +kernel

end Verif.Props

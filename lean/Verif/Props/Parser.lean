import Verif.Model.Parser
import Verif.Props.LexText

/-! C56: expressions with operators. -/

namespace Verif.Props
open Verif Verif.Str Verif.Lexer Verif.Parser

/-! ### The grammar of STANDARD 5.3 -/

/-- The binary operators of STANDARD 5.3, from the lowest precedence to the highest. -/
def binLevels : List (List Str) :=
  ([["||"], ["&&"], ["==", "!="], ["bit_and", "bit_or", "bit_xor"], ["<", ">", "<=", ">="], ["in", "not_in"],
   ["bit_shift_left", "bit_shift_right"], ["+", "-"], ["*", "/", "%"]] : List (List String)).map (·.map lit)

/-- The operator is in the line with this number (from 1) of that table. -/
def BinAt (op : Str) (k : Nat) : Prop := ∃ l, binLevels[k - 1]? = some l ∧ op ∈ l ∧ 0 < k

instance (op : Str) (k : Nat) : Decidable (BinAt op k) :=
  decidable_of_iff (0 < k ∧ ∃ l ∈ binLevels[k - 1]?, op ∈ l) ⟨fun ⟨a, l, b, c⟩ => ⟨l, b, c, a⟩, fun ⟨l, b, c, a⟩ => ⟨a, l, b, c⟩⟩

/-- The prefix operators. -/
def unaries : List Str := ["!", "-", "bit_not"].map lit

/-- They bind more tightly than all binary operators (any number above 9 would do). -/
def unLevel : Nat := 11

/-- Names and literals. -/
def atomKinds : List Kind :=
  [.ident, .int, .float, .string, .raw, .char, .sym (lit "true"), .sym (lit "false"), .sym (lit "nil")]

/-- Expression trees over the operators. An atom has the kind and the text of its token. -/
inductive OpTree where
  | atom (k : Kind) (t : Str)
  | un (op : Str) (e : OpTree)
  | bin (op : Str) (l r : OpTree)

/-- The tree as the parser makes it. -/
def OpTree.node : OpTree → Expr
  | .atom k t => .leaf k t
  | .un op e => .pre (.sym op) e.node
  | .bin op l r => .bin (.sym op) l.node r.node

/-- `Written m n e ts`: the tokens are a way to write the tree where a precedence of at least `m` is needed. Operators of
the same line associate to the left. Parentheses may be put around any expression. `n` is the depth of nesting:
parentheses, prefix operators and the right operands of binary operators nest. -/
inductive Written : Nat → Nat → OpTree → List Tok → Prop where
  | atom {m : Nat} {t : Tok} (h : t.kind ∈ atomKinds) : Written m 1 (.atom t.kind t.text) [t]
  | paren {m n : Nat} {e : OpTree} {o c : Tok} {ts : List Tok} (ho : o.kind = .sym (lit "(")) (hc : c.kind = .sym (lit ")"))
      (h : Written 1 n e ts) : Written m (n + 1) e (o :: (ts ++ [c]))
  | un {m n : Nat} {op : Str} {e : OpTree} {t : Tok} {ts : List Tok} (hm : m ≤ unLevel) (ho : op ∈ unaries)
      (ht : t.kind = .sym op) (h : Written unLevel n e ts) : Written m (n + 1) (.un op e) (t :: ts)
  | bin {m k a b : Nat} {op : Str} {l r : OpTree} {t : Tok} {ls rs : List Tok} (hm : m ≤ k) (ho : BinAt op k)
      (ht : t.kind = .sym op) (hl : Written k a l ls) (hr : Written (k + 1) b r rs) :
      Written m (max a (b + 1)) (.bin op l r) (ls ++ t :: rs)

namespace Ps

theorem bin_le {op : Str} {k : Nat} (h : BinAt op k) : 0 < k ∧ k < 10 := by
  obtain ⟨l, h1, _, h3⟩ := h
  have := (List.getElem?_eq_some_iff.1 h1).1
  have e : binLevels.length = 9 := rfl
  omega

theorem bin_prec {op : Str} {k : Nat} (h : BinAt op k) : isBinary (.sym op) = true ∧ prec (.sym op) = k := by
  have key : ∀ k : Fin 10, ∀ l ∈ binLevels[k.1 - 1]?, 0 < k.1 → ∀ op ∈ l,
      isBinary (.sym op) = true ∧ prec (.sym op) = k.1 := by decide +kernel
  obtain ⟨l, h1, h2, h3⟩ := h
  exact key ⟨k, (bin_le ⟨l, h1, h2, h3⟩).2⟩ l h1 h3 op h2

theorem written_mono {m n : Nat} {e : OpTree} {ts : List Tok} (h : Written m n e ts) {m' : Nat} (hm : m' ≤ m) :
    Written m' n e ts := by
  cases h with
  | atom h => exact .atom h
  | paren ho hc h => exact .paren ho hc h
  | un h1 ho ht h => exact .un (Nat.le_trans hm h1) ho ht h
  | bin h1 ho ht hl hr => exact .bin (Nat.le_trans hm h1) ho ht hl hr

theorem written_pos {m n : Nat} {e : OpTree} {ts : List Tok} (h : Written m n e ts) : 0 < n ∧ 0 < ts.length := by
  induction h with
  | atom h => simp
  | paren => simp
  | un => simp
  | bin => simp; omega

/-- The first token. -/
theorem written_head {m n : Nat} {e : OpTree} {ts : List Tok} (h : Written m n e ts) (r : List Tok) :
    kindAt (ts ++ r) ∈ Kind.sym (lit "(") :: (atomKinds ++ unaries.map Kind.sym) := by
  induction h generalizing r with
  | atom h => exact List.mem_cons_of_mem _ (List.mem_append_left _ h)
  | paren ho => exact List.mem_cons.2 (.inl ho)
  | un _ ho ht =>
    refine List.mem_cons_of_mem _ (List.mem_append_right _ ?_)
    show Tok.kind _ ∈ _
    rw [ht]
    exact List.mem_map_of_mem ho
  | bin _ _ _ _ _ ih _ =>
    rw [List.append_assoc]
    exact ih _

theorem head_ne {k : Kind} (h : k ∈ Kind.sym (lit "(") :: (atomKinds ++ unaries.map Kind.sym)) :
    k ≠ sy ")" := by
  have key : ∀ k ∈ Kind.sym (lit "(") :: (atomKinds ++ unaries.map Kind.sym), k ≠ sy ")" := by
    decide +kernel
  exact key k h

variable {names : List Str}

theorem expr_step {f p d : Nat} {n : Bool} {ts : List Tok} (hd : d + 1 ≤ 256) :
    expr names (f + 1) p d n ts = match prefixE names f (d + 1) n ts with
      | none => none
      | some (l, n, ts) => loop names f p (d + 1) n l ts := by
  rw [expr, if_neg (by have : MAX_DEPTH = 256 := rfl; omega)]
  rfl

theorem loop_stop {f p d : Nat} {n : Bool} {l : Expr} {ts : List Tok} (h : prec (kindAt ts) ≤ p) :
    loop names (f + 1) p d n l ts = some (l, n, ts) := by
  rw [loop, if_neg (by omega)]

theorem prec_eof : prec .eof = 0 := by decide +kernel

theorem loop_go {f p d : Nat} {n : Bool} {l : Expr} {ts : List Tok} (h : p < prec (kindAt ts)) :
    loop names (f + 1) p d n l ts = match infixE names f d n l ts with
      | none => none
      | some (l, n, ts) => loop names f p d n l ts := by
  have : kindAt ts ≠ .eof ∧ p < prec (kindAt ts) := by
    refine ⟨fun e => ?_, h⟩
    rw [e, prec_eof] at h
    omega
  rw [loop, if_pos this]
  rfl

theorem prefix_ident {f d : Nat} {n : Bool} {t : Tok} {r : List Tok} (ht : t.kind = .ident) (h1 : kindAt r ≠ sy ".")
    (h2 : kindAt r = sy "{" → n = true ∨ typeName names t.text = false) :
    prefixE names (f + 1) d n (t :: r) = some (.leaf .ident t.text, n, r) := by
  have h3 : ¬ (kindAt r = sy "{" ∧ n = false ∧ typeName names t.text = true) := by
    rintro ⟨a, b, c⟩
    rcases h2 a with h | h
    · rw [b] at h; cases h
    · rw [c] at h; cases h
  rw [prefixE]
  exact (if_pos ht).trans ((if_neg fun h => h1 h.1).trans (if_neg h3))

theorem prefix_leaf {f d : Nat} {n : Bool} {t : Tok} {r : List Tok} (ht : t.kind ≠ .ident) (h : isLeaf t.kind = true) :
    prefixE names (f + 1) d n (t :: r) = some (.leaf t.kind t.text, n, r) := by
  rw [prefixE]
  exact (if_neg ht).trans (if_pos h)

theorem atom_cases : ∀ k ∈ atomKinds, k = .ident ∨ k ≠ .ident ∧ isLeaf k = true := by decide +kernel

theorem prefix_un {f d : Nat} {n : Bool} {t : Tok} {r : List Tok} {op : Str} (ho : op ∈ unaries)
    (ht : t.kind = .sym op) :
    prefixE names (f + 1) d n (t :: r) = match expr names f PREFIX d n r with
      | none => none
      | some (e, n, r) => some (.pre t.kind e, n, r) := by
  have key : ∀ op ∈ unaries, (Kind.sym op ≠ .ident) ∧ isLeaf (.sym op) ≠ true ∧
    isPrefix (.sym op) = true := by decide +kernel
  obtain ⟨h1, h2, h3⟩ := key op ho
  rw [← ht] at h1 h2 h3
  rw [prefixE]
  exact (if_neg h1).trans ((if_neg h2).trans (if_pos h3))

theorem prefix_paren {f d : Nat} {n : Bool} {o : Tok} {r : List Tok} (ho : o.kind = sy "(") (h : kindAt r ≠ sy ")") :
    prefixE names (f + 1) d n (o :: r) = match expr names f 0 d n r with
      | none => none
      | some (e, s) => expecting (sy ")") e s := by
  have key : (sy "(" ≠ .ident) ∧ isLeaf (sy "(") ≠ true ∧ isPrefix (sy "(") ≠ true ∧ sy "(" ≠ sy "." := by decide +kernel
  obtain ⟨h1, h2, h3, h4⟩ := key
  rw [← ho] at h1 h2 h3 h4
  rw [prefixE]
  exact (if_neg h1).trans ((if_neg h2).trans ((if_neg h3).trans ((if_neg h4).trans ((if_pos ho).trans (if_neg h)))))

theorem infix_bin {f d : Nat} {n : Bool} {l : Expr} {t : Tok} {r : List Tok} (h : isBinary t.kind = true) :
    infixE names (f + 1) d n l (t :: r) = match expr names f (prec t.kind) d (suppresses t.kind || n) r with
      | none => none
      | some (e, n, r) => some (.bin t.kind l e, !suppresses t.kind && n, r) := by
  rw [infixE]
  exact if_pos h

/-- After an expression there is no token that goes on with it, and no `{` after a name that may be that of a struct. -/
structure After (names : List Str) (m : Nat) (ts rest : List Tok) : Prop where
  prec : prec (kindAt rest) ≤ m ∧ Parser.prec (kindAt rest) < 11
  brace : kindAt rest = sy "{" → ∀ t, ts.getLast? = some t → t.kind = .ident → typeName names t.text = false

theorem dot_prec : prec (sy ".") = 12 := by decide +kernel

theorem expr_written {m a : Nat} {e : OpTree} {ts : List Tok} (h : Written m a e ts) :
    ∀ (p d : Nat) (n : Bool) (rest : List Tok), p < m → d + a ≤ 256 → After names m ts rest →
      ∃ c n', 1 ≤ c ∧ c ≤ ts.length ∧ (n = false → n' = false) ∧ ∀ f, 2 * ts.length ≤ f + c →
        expr names (f + c) p d n (ts ++ rest) = loop names f p (d + 1) n' e.node rest := by
  induction h with
  | @atom m t h =>
    intro p d n rest hp hd ha
    refine ⟨1, n, Nat.le_refl _, Nat.le_refl _, id, fun f hf => ?_⟩
    obtain ⟨f, rfl⟩ : ∃ g, f = g + 1 := ⟨f - 1, by simp at hf; omega⟩
    have hx : prefixE names (f + 1) (d + 1) n (t :: rest) = some (.leaf t.kind t.text, n, rest) := by
      rcases atom_cases _ h with h1 | ⟨h1, h2⟩
      · rw [prefix_ident h1 (fun e => ?_) (fun e => .inr (ha.brace e t rfl h1)), h1]
        have := ha.prec.2
        rw [e, dot_prec] at this
        omega
      · exact prefix_leaf h1 h2
    rw [expr_step (by omega)]
    show (match prefixE names (f + 1) (d + 1) n (t :: rest) with
      | none => none
      | some (l, n, ts) => loop names (f + 1) p (d + 1) n l ts) = _
    rw [hx]
    rfl
  | @paren m b e o c ts ho hc h ih =>
    intro p d n rest hp hd ha
    obtain ⟨k, n', hk1, hk2, hn, ih⟩ := ih 0 (d + 1) n (c :: rest) (by omega) (by omega)
      ⟨by rw [show kindAt (c :: rest) = sy ")" from hc]; decide +kernel,
        fun e => absurd (hc.symm.trans e) (by decide +kernel)⟩
    refine ⟨1, n', Nat.le_refl _, by simp, hn, fun f hf => ?_⟩
    rw [List.length_cons, List.length_append, List.length_singleton] at hf
    obtain ⟨g, rfl⟩ : ∃ g, f = g + k + 2 := ⟨f - k - 2, by omega⟩
    rw [expr_step (by omega), List.cons_append, prefix_paren ho (head_ne (by
      rw [List.append_assoc]; exact written_head h _))]
    have e1 : ts ++ [c] ++ rest = ts ++ c :: rest := by simp
    have := ih (g + 1) (by omega)
    rw [e1, show g + k + 1 = g + 1 + k by omega, this, loop_stop (by
      rw [show kindAt (c :: rest) = sy ")" from hc]; decide +kernel)]
    have e2 : expecting (sy ")") e.node (n', c :: rest) = some (e.node, n', rest) := if_pos hc
    dsimp only
    rw [e2]
  | @un m b op e t ts hm ho ht h ih =>
    intro p d n rest hp hd ha
    have hl : ∀ x, ts.getLast? = some x → (t :: ts).getLast? = some x := fun x hx => by
      rw [List.getLast?_cons, hx]; rfl
    obtain ⟨k, n', hk1, hk2, hn, ih⟩ := ih PREFIX (d + 1) n rest (by decide) (by omega)
      ⟨⟨Nat.le_of_lt ha.prec.2, ha.prec.2⟩, fun e1 x hx => ha.brace e1 x (hl x hx)⟩
    refine ⟨1, n', Nat.le_refl _, by simp, hn, fun f hf => ?_⟩
    rw [List.length_cons] at hf
    obtain ⟨g, rfl⟩ : ∃ g, f = g + k + 2 := ⟨f - k - 2, by omega⟩
    rw [expr_step (by omega), List.cons_append, prefix_un ho ht]
    have e1 := ih (g + 1) (by omega)
    rw [show g + k + 1 = g + 1 + k by omega, e1, loop_stop (p := PREFIX) (Nat.le_of_lt_succ ha.prec.2), ht]
    rfl
  | @bin m k a b op l r t ls rs hm ho ht hl hr ihl ihr =>
    intro p d n rest hp hd ha
    obtain ⟨hb, hk⟩ := bin_prec ho
    rw [← ht] at hb hk
    have hk' : prec (kindAt (t :: (rs ++ rest))) = k := hk
    have hk2 := bin_le ho
    have hr0 := written_pos hr
    obtain ⟨x, n1, hx1, hx2, hn1, ihl⟩ := ihl p d n (t :: (rs ++ rest)) (by omega) (by omega)
      ⟨by omega, fun e => by
        have : prec (kindAt (t :: (rs ++ rest))) = prec (sy "{") := congrArg _ e
        have e2 : prec (sy "{") = 0 := by decide +kernel
        omega⟩
    have hl : ∀ y, rs.getLast? = some y → (ls ++ t :: rs).getLast? = some y := fun y hy => by
      rw [List.getLast?_append, List.getLast?_cons, hy]; rfl
    obtain ⟨y, n2, hy1, hy2, hn2, ihr⟩ := ihr k (d + 1) (suppresses t.kind || n1) rest (by omega) (by omega)
      ⟨⟨by have := ha.prec.1; omega, ha.prec.2⟩, fun e1 x hx => ha.brace e1 x (hl x hx)⟩
    refine ⟨x + 1, !suppresses t.kind && n2, by omega, by
      rw [List.length_append, List.length_cons]; omega, fun hn => ?_, fun f hf => ?_⟩
    · rw [hn1 hn, Bool.or_false] at hn2
      cases hs : suppresses t.kind with
      | true => rfl
      | false => rw [hn2 hs]; rfl
    rw [List.length_append, List.length_cons] at hf
    obtain ⟨g, rfl⟩ : ∃ g, f = g + y + 2 := ⟨f - y - 2, by omega⟩
    have e1 : ls ++ t :: rs ++ rest = ls ++ t :: (rs ++ rest) := by simp
    rw [e1, show g + y + 2 + (x + 1) = g + y + 3 + x by omega, ihl (g + y + 3) (by omega),
      loop_go (by omega), infix_bin hb, hk, show g + y + 1 = g + 1 + y by omega, ihr (g + 1) (by omega),
      loop_stop (by have := ha.prec.1; omega), ht]
    rfl

theorem expr_too_deep {m a : Nat} {e : OpTree} {ts : List Tok} (h : Written m a e ts) :
    ∀ (p d : Nat) (n : Bool) (rest : List Tok) (f : Nat), p < m → 256 < d + a → After names m ts rest → 2 * ts.length < f →
      expr names f p d n (ts ++ rest) = none := by
  have zero : ∀ {f p d : Nat} {n : Bool} {ts : List Tok}, 256 ≤ d → expr names f p d n ts = none := by
    intro f p d n ts hd
    cases f with
    | zero => rw [expr]
    | succ f => rw [expr, if_pos (by have : MAX_DEPTH = 256 := rfl; omega)]
  induction h with
  | @atom m t h => exact fun p d n rest f _ hd _ _ => zero (by omega)
  | @paren m b e o c ts ho hc h ih =>
    intro p d n rest f hp hd ha hf
    rcases Nat.lt_or_ge d 256 with h1 | h1
    · rw [List.length_cons, List.length_append, List.length_singleton] at hf
      obtain ⟨f, rfl⟩ : ∃ g, f = g + 2 := ⟨f - 2, by omega⟩
      have e1 : ts ++ [c] ++ rest = ts ++ c :: rest := by simp
      rw [expr_step (by omega), List.cons_append, prefix_paren ho (head_ne (by
        rw [List.append_assoc]; exact written_head h _)), e1, ih 0 (d + 1) n (c :: rest) f (by omega) (by omega)
        ⟨by rw [show kindAt (c :: rest) = sy ")" from hc]; decide +kernel,
          fun e => absurd (hc.symm.trans e) (by decide +kernel)⟩ (by omega)]
    · exact zero h1
  | @un m b op e t ts hm ho ht h ih =>
    intro p d n rest f hp hd ha hf
    rcases Nat.lt_or_ge d 256 with h1 | h1
    · rw [List.length_cons] at hf
      obtain ⟨f, rfl⟩ : ∃ g, f = g + 2 := ⟨f - 2, by omega⟩
      have hl : ∀ x, ts.getLast? = some x → (t :: ts).getLast? = some x := fun x hx => by
        rw [List.getLast?_cons, hx]; rfl
      rw [expr_step (by omega), List.cons_append, prefix_un ho ht, ih PREFIX (d + 1) n rest f (by decide) (by omega)
        ⟨⟨Nat.le_of_lt ha.prec.2, ha.prec.2⟩, fun e1 x hx => ha.brace e1 x (hl x hx)⟩ (by omega)]
    · exact zero h1
  | @bin m k a b op l r t ls rs hm ho ht hl hr ihl ihr =>
    intro p d n rest f hp hd ha hf
    obtain ⟨hb, hk⟩ := bin_prec ho
    rw [← ht] at hb hk
    have hk' : prec (kindAt (t :: (rs ++ rest))) = k := hk
    have hk2 := bin_le ho
    have hr0 := written_pos hr
    have e1 : ls ++ t :: rs ++ rest = ls ++ t :: (rs ++ rest) := by simp
    rw [List.length_append, List.length_cons] at hf
    have hal : After names k ls (t :: (rs ++ rest)) := ⟨by omega, fun e => by
        have : prec (kindAt (t :: (rs ++ rest))) = prec (sy "{") := congrArg _ e
        have e2 : prec (sy "{") = 0 := by decide +kernel
        omega⟩
    rcases Nat.lt_or_ge 256 (d + a) with h1 | h1
    · rw [e1, ihl p d n _ f (by omega) h1 hal (by omega)]
    · obtain ⟨x, n1, hx1, hx2, _, hl'⟩ := expr_written hl p d n _ (by omega) h1 hal
      have hl : ∀ y, rs.getLast? = some y → (ls ++ t :: rs).getLast? = some y := fun y hy => by
        rw [List.getLast?_append, List.getLast?_cons, hy]; rfl
      obtain ⟨g, rfl⟩ : ∃ g, f = g + 2 + x := ⟨f - 2 - x, by omega⟩
      rw [e1, hl' (g + 2) (by omega), loop_go (by omega), infix_bin hb, hk,
        ihr k (d + 1) _ rest g (by omega) (by omega)
          ⟨⟨by have := ha.prec.1; omega, ha.prec.2⟩, fun e1 x hx => ha.brace e1 x (hl x hx)⟩ (by omega)]

/-! ### What is read is written so -/

/-- The trees that are not of operators and atoms. -/
def Other (e : Expr) : Prop := ∀ t : OpTree, e ≠ t.node

theorem other_struct {s : Str} {fs : List (Str × Expr)} : Other (.struct s fs) := fun t => by cases t <;> nofun
theorem other_array {es : List Expr} : Other (.array es) := fun t => by cases t <;> nofun
theorem other_map {es : List (Expr × Expr)} : Other (.map es) := fun t => by cases t <;> nofun
theorem other_call {f : Expr} {es : List (Option Str × Expr)} : Other (.call f es) := fun t => by cases t <;> nofun

theorem fields_other : ∀ {f d : Nat} {n : Bool} {s : Str} {acc : List (Str × Expr)} {ts : List Tok} {e : Expr}
    {x : Bool × List Tok}, fields names f d n s acc ts = some (e, x) → Other e
  | 0, _, _, _, _, _, _, _, h => by rw [fields] at h; cases h
  | f + 1, d, n, s, acc, ts, e, x, h => by
    rw [fields] at h
    split at h
    · cases h; exact other_struct
    · split at h
      · split at h
        · cases h
        · exact fields_other h
      · cases h

theorem pairs_other : ∀ {f d : Nat} {n : Bool} {acc : List (Expr × Expr)} {ts : List Tok} {e : Expr}
    {x : Bool × List Tok}, pairs names f d n acc ts = some (e, x) → Other e
  | 0, _, _, _, _, _, _, h => by rw [pairs] at h; cases h
  | f + 1, d, n, acc, ts, e, x, h => by
    rw [pairs] at h
    split at h
    · split at h
      · cases h; exact other_map
      · split at h
        · cases h
        · split at h
          · split at h
            · cases h
            · exact pairs_other h
          · cases h
    · cases h; exact other_map

theorem elems_other : ∀ {f d : Nat} {n : Bool} {acc : List Expr} {ts : List Tok} {e : Expr}
    {x : Bool × List Tok}, elems names f d n acc ts = some (e, x) → Other e
  | 0, _, _, _, _, _, _, h => by rw [elems] at h; cases h
  | f + 1, d, n, acc, ts, e, x, h => by
    rw [elems] at h
    split at h
    · split at h
      · cases h
      · split at h
        · cases h
        · exact elems_other h
    · cases h; exact other_array

theorem braces_other {f d : Nat} {n : Bool} {ts : List Tok} {e : Expr} {x : Bool × List Tok}
    (h : braces names f d n ts = some (e, x)) : Other e := by
  cases f with
  | zero => rw [braces] at h; cases h
  | succ f =>
    rw [braces] at h
    split at h
    · cases h; exact other_array
    split at h
    · cases h; exact other_map
    split at h
    · cases h
    split at h
    · cases h
    split at h
    · split at h
      · cases h
      · exact pairs_other h
    · exact elems_other h

theorem cons_of {ts : List Tok} (h : kindAt ts ≠ .eof) : ∃ t, t.kind = kindAt ts ∧ t.text = textAt ts ∧ ts = t :: ts.tail := by
  cases ts with
  | nil => exact absurd rfl h
  | cons t r => exact ⟨t, rfl, rfl, rfl⟩

theorem expecting_eq {k : Kind} {e e' : Expr} {s : Bool × List Tok} {x : Bool × List Tok}
    (h : expecting k e s = some (e', x)) : e' = e ∧ x.1 = s.1 ∧ kindAt s.2 = k ∧ s.2.tail = x.2 := by
  unfold expecting at h
  split at h
  · next h1 => cases h; exact ⟨rfl, rfl, h1, rfl⟩
  · cases h

theorem args_other : ∀ {f d : Nat} {n : Bool} {l : Expr} {acc : List (Option Str × Expr)} {ts : List Tok} {e : Expr}
    {x : Bool × List Tok}, args names f d n l acc ts = some (e, x) → Other e
  | 0, _, _, _, _, _, _, _, h => by rw [args] at h; cases h
  | f + 1, d, n, l, acc, ts, e, x, h => by
    rw [args] at h
    split at h
    · cases h
    · split at h
      · exact args_other h
      · rw [(expecting_eq h).1]
        exact other_call

/-- What `prefixE` makes of an operator tree: a name or literal, a prefix operator, or parentheses. -/
theorem prefix_inv {f d : Nat} {n n' : Bool} {ts rest : List Tok} {e : Expr}
    (h : prefixE names (f + 1) d n ts = some (e, n', rest)) (he : ¬ Other e) :
    (∃ t, t.kind ∈ atomKinds ∧ e = .leaf t.kind t.text ∧ ts = t :: rest) ∨
    (∃ op ∈ unaries, ∃ t e' r, t.kind = .sym op ∧ e = .pre t.kind e' ∧ ts = t :: r ∧
      expr names f PREFIX d n r = some (e', n', rest)) ∨
    (∃ o c r n0, o.kind = .sym (lit "(") ∧ c.kind = .sym (lit ")") ∧ ts = o :: r ∧ expr names f 0 d n r = some (e, n0, c :: rest)) := by
  rw [prefixE] at h
  by_cases hc1 : kindAt ts = .ident
  · have h1 := hc1
    rw [if_pos h1] at h
    obtain ⟨t, ht1, ht2, ht3⟩ := cons_of (ts := ts) (by rw [h1]; nofun)
    split at h
    · exact absurd (fields_other h) he
    · split at h
      · exact absurd (fields_other h) he
      · cases h
        exact .inl ⟨t, by rw [ht1, h1]; decide +kernel, by rw [ht1, ht2, h1], ht3⟩
  rw [if_neg hc1] at h
  by_cases hc2 : isLeaf (kindAt ts) = true
  · have h1 := hc2
    rw [if_pos h1] at h
    have key : isLeaf .eof = false := by decide +kernel
    obtain ⟨t, ht1, ht2, ht3⟩ := cons_of (ts := ts) (fun e => by rw [e, key] at h1; cases h1)
    cases h
    refine .inl ⟨t, ?_, by rw [ht1, ht2], ht3⟩
    rw [ht1]
    simp only [isLeaf, Bool.or_eq_true, decide_eq_true_eq] at h1
    simp only [atomKinds, List.mem_cons, List.not_mem_nil, or_false]
    simp only [sy] at h1
    tauto
  rw [if_neg hc2] at h
  by_cases hc3 : isPrefix (kindAt ts) = true
  · have h1 := hc3
    rw [if_pos h1] at h
    have key : isPrefix .eof = false := by decide +kernel
    obtain ⟨t, ht1, ht2, ht3⟩ := cons_of (ts := ts) (fun e => by rw [e, key] at h1; cases h1)
    split at h
    · cases h
    · next e' n1 r1 h2 =>
      cases h
      have : ∃ op ∈ unaries, kindAt ts = .sym op := by
        simp only [isPrefix, Bool.or_eq_true, decide_eq_true_eq] at h1
        rcases h1 with (h1 | h1) | h1
        · exact ⟨lit "-", by decide +kernel, h1⟩
        · exact ⟨lit "!", by decide +kernel, h1⟩
        · exact ⟨lit "bit_not", by decide +kernel, h1⟩
      obtain ⟨op, ho, hk⟩ := this
      exact .inr (.inl ⟨op, ho, t, e', ts.tail, ht1.trans hk, by rw [ht1], ht3, h2⟩)
  rw [if_neg hc3] at h
  by_cases hc4 : kindAt ts = sy "."
  · rw [if_pos hc4] at h
    split at h
    · cases h
      exact absurd (fun t => by cases t <;> nofun) he
    · cases h
  rw [if_neg hc4] at h
  by_cases hc5 : kindAt ts = sy "("
  · have h1 := hc5
    rw [if_pos h1] at h
    obtain ⟨o, ht1, ht2, ht3⟩ := cons_of (ts := ts) (by rw [h1]; nofun)
    split at h
    · split at h
      · cases h
        exact absurd (fun t => by cases t <;> nofun) he
      · cases h
    · split at h
      · cases h
      · next e' s1 h2 =>
        obtain ⟨rfl, h3, h4, h5⟩ := expecting_eq h
        obtain ⟨c, hc1, hc2, hc3⟩ := cons_of (ts := s1.2) (by rw [h4]; nofun)
        refine .inr (.inr ⟨o, c, ts.tail, s1.1, ht1.trans h1, hc1.trans h4, ht3, ?_⟩)
        rw [h2, show rest = s1.2.tail from h5.symm, ← hc3]
  rw [if_neg hc5] at h
  by_cases hc6 : kindAt ts = sy "{"
  · rw [if_pos hc6] at h
    exact absurd (braces_other h) he
  rw [if_neg hc6] at h
  by_cases hc7 : kindAt ts = sy "cast"
  · rw [if_pos hc7] at h
    split at h
    · split at h
      · cases h
      · split at h
        · split at h
          · split at h
            · rw [(expecting_eq h).1] at he
              exact absurd (fun t => by cases t <;> nofun) he
            · cases h
          · rw [(expecting_eq h).1] at he
            exact absurd (fun t => by cases t <;> nofun) he
        · cases h
    · cases h
  rw [if_neg hc7] at h
  by_cases hc8 : kindAt ts = sy "new"
  · rw [if_pos hc8] at h
    split at h
    · rw [(expecting_eq h).1] at he
      exact absurd (fun t => by cases t <;> nofun) he
    · cases h
  rw [if_neg hc8] at h
  by_cases hc9 : kindAt ts = sy "range"
  · rw [if_pos hc9] at h
    split at h
    · split at h
      · cases h
      · split at h
        · split at h
          · cases h
          · split at h
            · split at h
              · cases h
              · rw [(expecting_eq h).1] at he
                exact absurd (fun t => by cases t <;> nofun) he
            · rw [(expecting_eq h).1] at he
              exact absurd (fun t => by cases t <;> nofun) he
        · rw [(expecting_eq h).1] at he
          exact absurd (fun t => by cases t <;> nofun) he
    · cases h
  rw [if_neg hc9] at h
  cases h

theorem binary_at {k : Kind} (h : isBinary k = true) : ∃ op, k = .sym op ∧ BinAt op (prec k) := by
  have key : ∀ s ∈ ["+", "-", "*", "/", "%", "==", "!=", "<", ">", "<=", ">=", "&&", "||", "in", "not_in", "bit_and",
      "bit_or", "bit_xor", "bit_shift_left", "bit_shift_right"], BinAt (lit s) (prec (sy s)) := by decide +kernel
  obtain ⟨s, hs, h⟩ := List.any_eq_true.1 h
  have h := of_decide_eq_true h
  exact ⟨lit s, h, h ▸ key s hs⟩

theorem infix_inv {f d : Nat} {n n' : Bool} {l : Expr} {ts rest : List Tok} {e : Expr}
    (h : infixE names (f + 1) d n l ts = some (e, n', rest)) (he : ¬ Other e) :
    ∃ op t r e' n0, BinAt op (prec (kindAt ts)) ∧ t.kind = .sym op ∧ t.kind = kindAt ts ∧ ts = t :: r ∧ e = .bin t.kind l e' ∧
      expr names f (prec (kindAt ts)) d (suppresses t.kind || n) r = some (e', n0, rest) := by
  rw [infixE] at h
  split at h
  · next h1 =>
    obtain ⟨op, ho, hb⟩ := binary_at h1
    obtain ⟨t, ht1, ht2, ht3⟩ := cons_of (ts := ts) (by rw [ho]; nofun)
    split at h
    · cases h
    · next e' n0 r' h2 =>
      cases h
      exact ⟨op, t, ts.tail, e', n0, hb, ht1.trans ho, ht1, ht3, by rw [ht1], by rw [ht1, h2]⟩
  split at h
  · cases h
  split at h
  · split at h
    · cases h; exact absurd other_call he
    · exact absurd (args_other h) he
  split at h
  · cases h
    exact absurd (fun t => by cases t <;> nofun) he
  split at h
  · split at h
    · cases h
    · rw [(expecting_eq h).1] at he
      exact absurd (fun t => by cases t <;> nofun) he
  · cases h
    exact absurd (fun t => by cases t <;> nofun) he

theorem not_other {e : Expr} {t : OpTree} (h : e = t.node) : ¬ Other e := fun h' => h' t h

theorem expr_inv : ∀ f : Nat,
    (∀ {p d : Nat} {n n' : Bool} {ts rest : List Tok} {e : OpTree}, p ≤ 10 → expr names f p d n ts = some (e.node, n', rest) →
      prec (kindAt rest) ≤ p ∧ ∃ w a, ts = w ++ rest ∧ d + a ≤ 256 ∧ Written (p + 1) a e w) ∧
    (∀ {p d : Nat} {n n' : Bool} {ts rest : List Tok} {l : Expr} {e : OpTree}, p ≤ 10 →
      loop names f p (d + 1) n l ts = some (e.node, n', rest) →
      prec (kindAt rest) ≤ p ∧ ∃ e0 : OpTree, l = e0.node ∧ ∃ w, ts = w ++ rest ∧
        ∀ v a, d + a ≤ 256 → (∀ k, k ≤ 11 → k ≤ max (p + 1) (prec (kindAt ts)) → Written k a e0 v) →
          ∃ b, d + b ≤ 256 ∧ Written (p + 1) b e (v ++ w)) := by
  intro f
  induction f using Nat.strongRecOn with
  | _ f ih =>
  cases f with
  | zero =>
    constructor
    · intro p d n n' ts rest e _ h
      rw [expr] at h; cases h
    · intro p d n n' ts rest l e _ h
      rw [loop] at h; cases h
  | succ f =>
    constructor
    · intro p d n n' ts rest e hp h
      rw [expr] at h
      split at h
      · cases h
      next hd =>
      have hd : d + 1 ≤ 256 := by have : MAX_DEPTH = 256 := rfl; omega
      split at h
      · cases h
      next l n1 r1 h1 =>
      obtain ⟨hr, e0, rfl, w, rfl, hw⟩ := (ih f (Nat.lt_succ_self f)).2 hp h
      refine ⟨hr, ?_⟩
      cases f with
      | zero => rw [prefixE] at h1; cases h1
      | succ f =>
        rcases prefix_inv h1 (not_other rfl) with ⟨t, ht, he, rfl⟩ | ⟨op, ho, t, e', r, ht, he, rfl, h2⟩ | ⟨o, c, r, n0, ho, hc, rfl, h2⟩
        · cases e0 with
          | atom k t' =>
            cases he
            obtain ⟨b, hb, hb2⟩ := hw [t] 1 hd fun k _ _ => .atom ht
            exact ⟨_, b, rfl, hb, hb2⟩
          | _ => cases he
        · cases e0 with
          | un op' e1 =>
            injection he with h4 h5
            rw [ht] at h4
            cases h4
            subst h5
            obtain ⟨_, w', a, rfl, ha, hw'⟩ := (ih f (by omega)).1 (p := PREFIX) (by decide) h2
            obtain ⟨b, hb, hb2⟩ := hw (t :: w') (a + 1) (by omega) fun k hk _ => .un hk ho ht hw'
            exact ⟨_, b, by simp, hb, hb2⟩
          | _ => cases he
        · obtain ⟨_, w', a, rfl, ha, hw'⟩ := (ih f (by omega)).1 (p := 0) (by decide) h2
          obtain ⟨b, hb, hb2⟩ := hw (o :: (w' ++ [c])) (a + 1) (by omega) fun k _ _ => .paren ho hc hw'
          exact ⟨_, b, by simp, hb, hb2⟩
    · intro p d n n' ts rest l e hp h
      rw [loop] at h
      split at h
      · next hc =>
        split at h
        · cases h
        next l1 n1 r1 h1 =>
        obtain ⟨hr, e1, rfl, w, rfl, hw⟩ := (ih f (Nat.lt_succ_self f)).2 hp h
        refine ⟨hr, ?_⟩
        cases f with
        | zero => rw [infixE] at h1; cases h1
        | succ f =>
          obtain ⟨op, t, r, e', n0, hb, ht, ht2, rfl, he, h2⟩ := infix_inv h1 (not_other rfl)
          have hk := bin_le hb
          cases e1 with
          | bin op' l' r' =>
            injection he with h3 h4 h5
            rw [ht] at h3
            cases h3
            subst h4 h5
            obtain ⟨hr2, w', a', rfl, ha', hw'⟩ := (ih f (by omega)).1 (by omega) h2
            refine ⟨l', rfl, t :: (w' ++ w), by simp, fun v a ha hv => ?_⟩
            obtain ⟨b, hb1, hb2⟩ := hw (v ++ t :: w') (max a (a' + 1)) (by omega) fun k hk1 hk2 =>
              .bin (k := prec (kindAt (t :: (w' ++ (w ++ rest))))) (by omega) hb ht (hv _ (by omega) (by omega)) hw'
            exact ⟨b, hb1, by simpa using hb2⟩
          | _ => cases he
      · next hc =>
        cases h
        have : prec (kindAt ts) ≤ p := by
          by_contra hlt
          refine hc ⟨fun e => ?_, by omega⟩
          rw [e, prec_eof] at hlt
          omega
        exact ⟨this, e, rfl, [], rfl, fun v a ha hv => ⟨a, ha, by rw [List.append_nil]; exact hv _ (by omega) (by omega)⟩⟩

theorem expr_of {a d : Nat} {n : Bool} {e : OpTree} {ts rest : List Tok} (h : Written 1 a e ts) (hd : d + a ≤ 256)
    (hr : prec (kindAt rest) = 0)
    (hb : kindAt rest = sy "{" → ∀ t, ts.getLast? = some t → t.kind = .ident → typeName names t.text = false) :
    ∃ n', (n = false → n' = false) ∧
      ∀ f, 2 * ts.length + 1 ≤ f → expr names f 0 d n (ts ++ rest) = some (e.node, n', rest) := by
  obtain ⟨c, n', h1, h2, hn, h3⟩ := expr_written h 0 d n rest (by omega) hd ⟨by omega, hb⟩
  have h0 := written_pos h
  refine ⟨n', hn, fun f hf => ?_⟩
  obtain ⟨g, rfl⟩ : ∃ g, f = g + 1 + c := ⟨f - 1 - c, by omega⟩
  rw [h3 (g + 1) (by omega), loop_stop (by omega)]

end Ps

/-- The tokens that go on with an expression: operators, calls, indexes, members. -/
def goesOn : List Str := binLevels.flatten ++ ["(", "[", ".", "++", "--", "^"].map lit

/-- The next token, if any, does not go on with the expression. -/
def EndsExpr (rest : List Tok) : Prop := ∀ t, rest.head? = some t → ∀ op ∈ goesOn, t.kind ≠ .sym op

namespace Ps

theorem ends_iff {rest : List Tok} : EndsExpr rest ↔ prec (kindAt rest) = 0 := by
  have k1 : ∀ op ∈ goesOn, prec (.sym op) ≠ 0 := by decide +kernel
  have k2 : ∀ p ∈ precs, lit p.1 ∈ goesOn := by decide +kernel
  cases rest with
  | nil => exact ⟨fun _ => prec_eof, fun _ t ht => by cases ht⟩
  | cons t r =>
    constructor
    · intro h
      show prec t.kind = 0
      unfold prec
      cases e : precs.find? fun p => t.kind = sy p.1 with
      | none => rfl
      | some p =>
        have h1 : decide (t.kind = sy p.1) = true := List.find?_some (p := fun p : String × Nat => decide (t.kind = sy p.1)) e
        have h1 := of_decide_eq_true h1
        exact absurd h1 (h t rfl _ (k2 p (List.mem_of_find?_eq_some e)))
    · intro h t' ht' op ho e
      cases ht'
      exact k1 op ho (by rw [← e]; exact h)

end Ps

/-- C56: before a token that does not go on with an expression, and is not `{`, the parser reads an operator tree from
tokens exactly when they are a way to write it, with nesting of at most 256; and it reads just these tokens. -/
theorem C56_grammar (names : List Str) (n : Bool) (e : OpTree) (ts rest : List Tok) (hr : EndsExpr rest)
    (hb : kindAt rest ≠ .sym (lit "{")) :
    (∃ n', parse names n (ts ++ rest) = some (e.node, n', rest)) ↔ ∃ a ≤ 256, Written 1 a e ts := by
  constructor
  · rintro ⟨n', h⟩
    obtain ⟨_, w, a, h1, h2, h3⟩ := (Ps.expr_inv _).1 (Nat.zero_le _) h
    rw [List.append_cancel_right h1]
    exact ⟨a, by omega, h3⟩
  · rintro ⟨a, ha, h⟩
    obtain ⟨n', _, h1⟩ := Ps.expr_of (names := names) (n := n) (d := 0) h (by omega) (Ps.ends_iff.1 hr) (fun e => absurd e hb)
    exact ⟨n', h1 _ (by rw [List.length_append]; omega)⟩

/-- C56: whatever follows, an operator tree is read only from a way to write it, and up to a token that does not go on. -/
theorem C56_sound (names : List Str) (n n' : Bool) (e : OpTree) (ts rest : List Tok)
    (h : parse names n ts = some (e.node, n', rest)) : EndsExpr rest ∧ ∃ w, ts = w ++ rest ∧ ∃ a ≤ 256, Written 1 a e w := by
  obtain ⟨h0, w, a, h1, h2, h3⟩ := (Ps.expr_inv _).1 (Nat.zero_le _) h
  exact ⟨Ps.ends_iff.2 (by omega), w, h1, a, by omega, h3⟩

/-! ### The text with the fewest parentheses -/

/-- The line of an operator in the table, from 1. -/
def binLevel (op : Str) : Nat := binLevels.findIdx (·.contains op) + 1

/-- How an atom is written. -/
def atomSrc (k : Kind) (t : Str) : Str :=
  if k = .string then 34 :: (t ++ [34]) else if k = .raw then 96 :: (t ++ [96]) else if k = .char then 39 :: (t ++ [39]) else t

def OpTree.Ok : OpTree → Prop
  | .atom k t => k ∈ atomKinds ∧ Lexeme k t (atomSrc k t)
  | .un op e => op ∈ unaries ∧ e.Ok
  | .bin op l r => op ∈ binLevels.flatten ∧ l.Ok ∧ r.Ok

/-- The tokens (kind, text, source) of a tree where a precedence of at least `m` is needed, with parentheses where they are
needed only. -/
def OpTree.write : Nat → OpTree → List (Kind × Str × Str)
  | _, .atom k t => [(k, t, atomSrc k t)]
  | _, .un op e => (.sym op, op, op) :: e.write unLevel
  | m, .bin op l r =>
    let b := l.write (binLevel op) ++ (.sym op, op, op) :: r.write (binLevel op + 1)
    if m ≤ binLevel op then b else (.sym (lit "("), lit "(", lit "(") :: (b ++ [(.sym (lit ")"), lit ")", lit ")")])

/-- The depth of nesting of that text. -/
def OpTree.depth : Nat → OpTree → Nat
  | _, .atom _ _ => 1
  | _, .un _ e => e.depth unLevel + 1
  | m, .bin op l r =>
    let b := max (l.depth (binLevel op)) (r.depth (binLevel op + 1) + 1)
    if m ≤ binLevel op then b else b + 1

/-- The text, with a blank between tokens. -/
def OpTree.text (e : OpTree) : Str := [32].intercalate ((e.write 1).map fun x => x.2.2)

/-- The tree of a text that is one expression. -/
def parseText (names : List Str) (s : Str) : Option Expr :=
  match lex s with
  | none => none
  | some ts =>
    match parse names false ts with
    | some (e, _, rest) => if kindAt rest = .eof then some e else none
    | none => none

/-- C56 as claimed. -/
def C56_statement : Prop := ∀ (names : List Str) (e : OpTree), e.Ok → parseText names e.text = some e.node

/-- `- - … x` with this many operators. -/
def minuses (k : Nat) : OpTree := (List.range k).foldl (fun e _ => .un (lit "-") e) (.atom .ident (lit "x"))

theorem minuses_ok (k : Nat) : (minuses k).Ok := by
  induction k with
  | zero =>
    refine ⟨by decide +kernel, Lexeme.ident (c := 120) (w := []) (by decide) (by simp) ?_⟩
    have key : ∀ p ∈ reserved, p.1 ≠ [120] := by decide +kernel
    exact fun t ht => key _ ht rfl
  | succ k ih =>
    rw [minuses, List.range_succ, List.foldl_append]
    exact ⟨by decide +kernel, ih⟩

set_option maxRecDepth 100000 in
theorem C56_witness : (parseText [] (minuses 256).text).isNone = true := by decide +kernel

theorem C56_fails : ¬ C56_statement := fun h => by
  have := C56_witness
  rw [h [] _ (minuses_ok _)] at this
  cases this

namespace Ps

theorem level_at {op : Str} (h : op ∈ binLevels.flatten) : BinAt op (binLevel op) := by
  have key : ∀ op ∈ binLevels.flatten, BinAt op (binLevel op) := by decide +kernel
  exact key op h

/-- The tokens have the kinds and texts of these. -/
def Like (ts : List Tok) (xs : List (Kind × Str × Str)) : Prop := ts.map (fun t => (t.kind, t.text)) = xs.map fun x => (x.1, x.2.1)

theorem like_cons {ts : List Tok} {k : Kind} {t s : Str} {xs : List (Kind × Str × Str)} (h : Like ts ((k, t, s) :: xs)) :
    ∃ u us, ts = u :: us ∧ u.kind = k ∧ u.text = t ∧ Like us xs := by
  obtain ⟨u, us, rfl, h1, h2⟩ := List.map_eq_cons_iff.1 h
  exact ⟨u, us, rfl, (Prod.mk.inj h1).1, (Prod.mk.inj h1).2, h2⟩

theorem like_append {ts : List Tok} {xs ys : List (Kind × Str × Str)} (h : Like ts (xs ++ ys)) :
    ∃ us vs, ts = us ++ vs ∧ Like us xs ∧ Like vs ys := by
  unfold Like at h
  rw [List.map_append] at h
  obtain ⟨us, vs, rfl, h1, h2⟩ := List.map_eq_append_iff.1 h
  exact ⟨us, vs, rfl, h1, h2⟩

theorem written_write : ∀ {e : OpTree} {m : Nat} {ts : List Tok}, e.Ok → m ≤ unLevel → Like ts (e.write m) →
    Written m (e.depth m) e ts
  | .atom k t, m, ts, ho, hm, h => by
    obtain ⟨u, us, rfl, rfl, rfl, h'⟩ := like_cons h
    cases List.map_eq_nil_iff.1 h'
    exact .atom ho.1
  | .un op e, m, ts, ho, hm, h => by
    obtain ⟨u, us, rfl, h1, _, h'⟩ := like_cons h
    exact .un hm ho.1 h1 (written_write ho.2 (Nat.le_refl _) h')
  | .bin op l r, m, ts, ho, hm, h => by
    have hb := level_at ho.1
    have hk := bin_le hb
    have hu : unLevel = 11 := rfl
    have key : ∀ ts m', m' ≤ binLevel op → Like ts (l.write (binLevel op) ++ (.sym op, op, op) :: r.write (binLevel op + 1)) →
        Written m' (max (l.depth (binLevel op)) (r.depth (binLevel op + 1) + 1)) (.bin op l r) ts := by
      intro ts m' hm' h
      obtain ⟨us, vs, rfl, h1, h2⟩ := like_append h
      obtain ⟨u, vs, rfl, h3, _, h4⟩ := like_cons h2
      exact .bin hm' hb h3 (written_write ho.2.1 (by omega) h1) (written_write ho.2.2 (by omega) h4)
    rw [OpTree.write] at h
    rw [OpTree.depth]
    by_cases hc : m ≤ binLevel op
    · rw [if_pos hc] at h ⊢
      exact key ts m hc h
    · rw [if_neg hc] at h ⊢
      obtain ⟨o, us, rfl, h1, _, h2⟩ := like_cons h
      obtain ⟨us, vs, rfl, h3, h4⟩ := like_append h2
      obtain ⟨c, vs, rfl, h5, _, h6⟩ := like_cons h4
      cases List.map_eq_nil_iff.1 h6
      exact .paren h1 h5 (key us 1 (by omega) h3)

theorem word_lexeme {op : Str} (h : op ∈ binLevels.flatten ++ unaries ++ [lit "(", lit ")"]) : Lexeme (.sym op) op op := by
  have key : ∀ op ∈ binLevels.flatten ++ unaries ++ [lit "(", lit ")"], (op, op) ∈ symbols ∨
      (op, op) ∈ reserved ∧ (∃ c ∈ op.head?, isAlpha c = true ∨ c = 95) ∧
        ∀ d ∈ op.tail, isAlpha d = true ∨ d = 95 ∨ isDigit d = true := by decide +kernel
  rcases key op h with h1 | ⟨h1, ⟨c, hc, h2⟩, h3⟩
  · exact .symbol h1
  · cases op with
    | nil => cases hc
    | cons d w =>
      cases hc
      exact .keyword h2 h3 h1

theorem write_lexeme : ∀ {e : OpTree} {m : Nat}, e.Ok → ∀ x ∈ e.write m, Lexeme x.1 x.2.1 x.2.2
  | .atom k t, m, ho, x, hx => by
    cases List.mem_singleton.1 hx
    exact ho.2
  | .un op e, m, ho, x, hx => by
    rcases List.mem_cons.1 hx with rfl | hx
    · exact word_lexeme (List.mem_append_left _ (List.mem_append_right _ ho.1))
    · exact write_lexeme ho.2 x hx
  | .bin op l r, m, ho, x, hx => by
    have key : x ∈ l.write (binLevel op) ++ (.sym op, op, op) :: r.write (binLevel op + 1) → Lexeme x.1 x.2.1 x.2.2 := by
      intro hx
      rcases List.mem_append.1 hx with hx | hx
      · exact write_lexeme ho.2.1 x hx
      · rcases List.mem_cons.1 hx with rfl | hx
        · exact word_lexeme (List.mem_append_left _ (List.mem_append_left _ ho.1))
        · exact write_lexeme ho.2.2 x hx
    rw [OpTree.write] at hx
    split at hx
    · exact key hx
    · rcases List.mem_cons.1 hx with rfl | hx
      · exact word_lexeme (by decide +kernel)
      · rcases List.mem_append.1 hx with hx | hx
        · exact key hx
        · cases List.mem_singleton.1 hx
          exact word_lexeme (by decide +kernel)

/-- The tokens with a blank before all but the first. -/
def items : List (Kind × Str × Str) → List Item
  | [] => []
  | x :: xs => ⟨[], x.1, x.2.1, x.2.2⟩ :: xs.map fun x => ⟨[32], x.1, x.2.1, x.2.2⟩

theorem items_write : ∀ xs : List (Kind × Str × Str), Item.write (items xs) [] = [32].intercalate (xs.map fun x => x.2.2)
  | [] => rfl
  | x :: xs => by
    have key : ∀ (xs : List (Kind × Str × Str)) (s : Str),
        s ++ Item.write (xs.map fun x => ⟨[32], x.1, x.2.1, x.2.2⟩) [] = [32].intercalate (s :: xs.map fun x => x.2.2) := by
      intro xs
      induction xs with
      | nil => intro s; simp [Item.write, List.intercalate]
      | cons x xs ih =>
        intro s
        rw [List.map_cons, Item.write, ih x.2.2, List.map_cons]
        simp [List.intercalate, List.intersperse]
    exact key xs x.2.2

theorem items_mem {xs : List (Kind × Str × Str)} {y : Item} (h : y ∈ items xs) :
    ∃ x ∈ xs, y.kind = x.1 ∧ y.text = x.2.1 ∧ y.src = x.2.2 ∧ (y.gap = [] ∨ y.gap = [32]) := by
  cases xs with
  | nil => cases h
  | cons x xs =>
    rcases List.mem_cons.1 h with rfl | h
    · exact ⟨x, List.mem_cons_self, rfl, rfl, rfl, .inl rfl⟩
    · obtain ⟨x', hx', rfl⟩ := List.mem_map.1 h
      exact ⟨x', List.mem_cons_of_mem _ hx', rfl, rfl, rfl, .inr rfl⟩

theorem toks_like : ∀ ys : List Item, ∃ ts t, Item.toks ys [] = ts ++ [t] ∧ t.kind = .eof ∧
    ts.map (fun t => (t.kind, t.text)) = ys.map fun y => (y.kind, y.text)
  | [] => ⟨[], _, rfl, rfl, rfl⟩
  | y :: ys => by
    obtain ⟨ts, t, h1, h2, h3⟩ := toks_like ys
    refine ⟨_ :: ts, t, by rw [Item.toks, h1]; rfl, h2, by rw [List.map_cons, h3]; rfl⟩

theorem lex_write {xs : List (Kind × Str × Str)} (h : ∀ x ∈ xs, Lexeme x.1 x.2.1 x.2.2) :
    ∃ ts t, lex ([32].intercalate (xs.map fun x => x.2.2)) = some (ts ++ [t]) ∧ t.kind = .eof ∧ Like ts xs := by
  obtain ⟨ts, t, h1, h2, h3⟩ := toks_like (items xs)
  have hg : ∀ y ∈ (items xs).tail, y.gap = [32] := by
    cases xs with
    | nil => intro y hy; cases hy
    | cons x xs =>
      intro y hy
      obtain ⟨x', hx', rfl⟩ := List.mem_map.1 hy
      rfl
  refine ⟨ts, t, ?_, h2, ?_⟩
  · rw [← items_write, C125_tokens, h1]
    · intro y hy
      obtain ⟨x, hx, e1, e2, e3, e4⟩ := items_mem hy
      refine ⟨?_, by rw [e1, e2, e3]; exact h x hx⟩
      rcases e4 with e | e
      · rw [e]; exact .nil
      · rw [e]; exact .space (by decide +kernel) .nil
    · intro y hy
      rw [hg y hy]
      exact ⟨by simp, fun c hc => by cases hc; decide +kernel⟩
    · exact ⟨.inl .nil, fun c hc => by cases hc⟩
  · unfold Like
    rw [h3]
    cases xs with
    | nil => rfl
    | cons x xs => simp [items]

end Ps

/-- C56 for all trees whose text nests at most 256 deep. What is missing: deeper ones, which are rejected. -/
theorem C56_partial (names : List Str) (e : OpTree) (ho : e.Ok) (hd : e.depth 1 ≤ 256) : parseText names e.text = some e.node := by
  obtain ⟨ts, t, h1, h2, h3⟩ := Ps.lex_write (Ps.write_lexeme ho (m := 1))
  have hw := Ps.written_write ho (by decide) h3
  have hr : EndsExpr [t] := Ps.ends_iff.2 (by show prec t.kind = 0; rw [h2]; exact Ps.prec_eof)
  obtain ⟨n', h4⟩ := (C56_grammar names false e ts [t] hr (by show t.kind ≠ _; rw [h2]; nofun)).2 ⟨_, hd, hw⟩
  have h1 : lex e.text = some (ts ++ [t]) := h1
  unfold parseText
  rw [h1]
  dsimp only
  rw [h4]
  exact if_pos h2

/-- … and those are rejected: the bound is exact. -/
theorem C56_deep_partial (names : List Str) (e : OpTree) (ho : e.Ok) (hd : 256 < e.depth 1) : parseText names e.text = none := by
  obtain ⟨ts, t, h1, h2, h3⟩ := Ps.lex_write (Ps.write_lexeme ho (m := 1))
  have hw := Ps.written_write ho (by decide) h3
  have h1 : lex e.text = some (ts ++ [t]) := h1
  have hk : kindAt [t] = .eof := h2
  unfold parseText
  rw [h1]
  dsimp only
  rw [parse, Ps.expr_too_deep hw 0 0 false [t] _ (by decide) (by omega)
    ⟨by rw [hk, Ps.prec_eof]; omega, fun e => by rw [hk] at e; cases e⟩ (by rw [List.length_append]; omega)]

namespace Ps

theorem write_paren (e : OpTree) (m : Nat) : (e.write m).length ≤ (e.write 1).length + 2 := by
  cases e with
  | atom k t => simp [OpTree.write]
  | un op e => simp [OpTree.write]
  | bin op l r =>
    have h1 : 1 ≤ binLevel op := Nat.le_add_left _ _
    rw [OpTree.write, OpTree.write, if_pos h1]
    split
    · omega
    · simp; omega

end Ps

/-- C56: the text has the fewest tokens of all ways to write the tree. -/
theorem C56_minimal {m n : Nat} {e : OpTree} {ts : List Tok} (h : Written m n e ts) : (e.write m).length ≤ ts.length := by
  induction h with
  | atom h => simp [OpTree.write]
  | @paren m n e o c ts ho hc h ih =>
    have := Ps.write_paren e m
    simp only [List.length_cons, List.length_append, List.length_nil]
    omega
  | un hm ho ht h ih => simpa [OpTree.write] using ih
  | @bin m k a b op l r t ls rs hm ho ht hl hr ihl ihr =>
    have h1 := (Ps.bin_prec ho).2
    have h2 : op ∈ binLevels.flatten := by
      obtain ⟨x, hx, hop, _⟩ := ho
      exact List.mem_flatten.2 ⟨x, List.mem_of_getElem? hx, hop⟩
    have h3 := (Ps.bin_prec (Ps.level_at h2)).2
    have hk : k = binLevel op := by omega
    subst hk
    rw [OpTree.write, if_pos hm]
    simp only [List.length_cons, List.length_append]
    omega

/-- `(a + b) * - c == d` and `a - (b - c)`. -/
example : let a := OpTree.atom .ident (lit "a"); let b := OpTree.atom .ident (lit "b"); let c := OpTree.atom .ident (lit "c")
    let d := OpTree.atom .ident (lit "d")
    (OpTree.bin (lit "==") (.bin (lit "*") (.bin (lit "+") a b) (.un (lit "-") c)) d).text = lit "( a + b ) * - c == d" ∧
    (OpTree.bin (lit "-") a (.bin (lit "-") b c)).text = lit "a - ( b - c )" ∧
    (OpTree.bin (lit "-") (.bin (lit "-") a b) c).text = lit "a - b - c" := by decide +kernel

example : (minuses 255).depth 1 = 256 ∧ (minuses 255).Ok := ⟨by decide +kernel, minuses_ok _⟩

/-! ### C131: conditions -/

/-- C131 as claimed: a condition is read up to the `{` of its block. `n` is true for the value of a `when`. -/
def C131_statement : Prop :=
  ∀ (names : List Str) (n : Bool) (a : Nat) (e : OpTree) (ts rest : List Tok), a ≤ 256 → Written 1 a e ts →
    kindAt rest = .sym (lit "{") → ∃ n', parse names n (ts ++ rest) = some (e.node, n', rest)

/-- A struct literal without fields, and how many tokens are left after it. -/
def readsStruct (name : Str) (left : Nat) : Res → Bool
  | some (.struct s [], _, r) => s = name && r.length = left
  | some (.bin _ _ (.struct s []), _, r) => s = name && r.length = left
  | _ => false

/-- `if DEBUG { }`: the name and the block are read as a struct literal. -/
theorem C131_witness : readsStruct (lit "DEBUG") 1 (parse [] false ((lex (lit "DEBUG { }")).getD [])) = true := by
  decide +kernel

/-- `when a == b && FLAG { }`: the comparison ends the protection that `when` gives. -/
theorem C131_when_witness :
    readsStruct (lit "FLAG") 1 (parse [] true ((lex (lit "a == b && FLAG { }")).getD [])) = true ∧
    readsStruct (lit "FLAG") 1 (parse [] true ((lex (lit "a && FLAG { }")).getD [])) = false := by decide +kernel

theorem C131_fails : ¬ C131_statement := fun h => by
  have hl : lex (lit "DEBUG { }") = some [⟨.ident, lit "DEBUG", false, 9⟩, ⟨.sym (lit "{"), lit "{", true, 3⟩,
    ⟨.sym (lit "}"), lit "}", true, 1⟩, ⟨.eof, [], false, 0⟩] := by decide +kernel
  obtain ⟨n', h1⟩ := h [] false 1 (.atom .ident (lit "DEBUG")) [⟨.ident, lit "DEBUG", false, 9⟩]
    [⟨.sym (lit "{"), lit "{", true, 3⟩, ⟨.sym (lit "}"), lit "}", true, 1⟩, ⟨.eof, [], false, 0⟩] (by decide)
    (.atom (t := ⟨.ident, lit "DEBUG", false, 9⟩) (by decide)) rfl
  have h2 := C131_witness
  rw [hl, Option.getD_some] at h2
  have h1 : parse [] false [⟨.ident, lit "DEBUG", false, 9⟩, ⟨.sym (lit "{"), lit "{", true, 3⟩,
    ⟨.sym (lit "}"), lit "}", true, 1⟩, ⟨.eof, [], false, 0⟩] = _ := h1
  rw [h1] at h2
  cases h2

/-- A name that the parser takes for that of a struct or enum before `{`: one declared in the file, or any that begins
with a capital letter. -/
def LooksType (names : List Str) (w : Str) : Prop := w ∈ names ∨ ∃ c ∈ lit "ABCDEFGHIJKLMNOPQRSTUVWXYZ", w.head? = some c

namespace Ps

theorem looks_iff {w : Str} : typeName names w = true ↔ LooksType names w := by
  have key : ∀ n : Fin 256, (65 ≤ (BitVec.ofFin n : Byte).toNat ∧ (BitVec.ofFin n : Byte).toNat ≤ 90) ↔
      (BitVec.ofFin n : Byte) ∈ lit "ABCDEFGHIJKLMNOPQRSTUVWXYZ" := by decide +kernel
  unfold typeName LooksType
  rw [Bool.or_eq_true, List.contains_iff_mem, Bool.and_eq_true, decide_eq_true_eq, decide_eq_true_eq]
  refine or_congr_right ?_
  cases w with
  | nil => exact ⟨fun h => absurd h.1 (by decide), fun ⟨c, _, h⟩ => by cases h⟩
  | cons c w =>
    rw [show at0 (c :: w) 0 = c from rfl, (key c.toFin : (65 ≤ c.toNat ∧ c.toNat ≤ 90) ↔ _)]
    exact ⟨fun h => ⟨c, h, rfl⟩, fun ⟨c', h, e⟩ => by cases e; exact h⟩

end Ps

/-- C131 for conditions that do not end in such a name. Missing: those that do. -/
theorem C131_partial (names : List Str) (n : Bool) (a : Nat) (e : OpTree) (ts rest : List Tok) (ha : a ≤ 256)
    (h : Written 1 a e ts) (hr : kindAt rest = .sym (lit "{"))
    (hl : ∀ t, ts.getLast? = some t → t.kind = .ident → ¬ LooksType names t.text) :
    ∃ n', parse names n (ts ++ rest) = some (e.node, n', rest) := by
  obtain ⟨n', _, h1⟩ := Ps.expr_of (names := names) (n := n) (d := 0) h (by omega) (by rw [hr]; decide +kernel)
    (fun _ t ht hk => by
      cases e : typeName names t.text with
      | false => rfl
      | true => exact absurd (Ps.looks_iff.1 e) (hl t ht hk))
  exact ⟨n', h1 _ (by rw [List.length_append]; omega)⟩

/-- Equality, comparison and membership. -/
def comparing : List Str := ["==", "!=", "<", ">", "<=", ">=", "in", "not_in"].map lit

/-- C131 for a comparison with a name, whatever name it is (`if level == MAX {`). -/
theorem C131_compare_partial (names : List Str) (n : Bool) (k a : Nat) (op : Str) (l : OpTree) (t w : Tok) (ls rest : List Tok)
    (ha : a ≤ 256) (hl : Written k a l ls) (hc : op ∈ comparing) (ho : BinAt op k) (ht : t.kind = .sym op) (hw : w.kind = .ident)
    (hr : kindAt rest = .sym (lit "{")) :
    parse names n (ls ++ t :: w :: rest) = some ((OpTree.bin op l (.atom .ident w.text)).node, false, rest) := by
  obtain ⟨hb, hk⟩ := Ps.bin_prec ho
  rw [← ht] at hb hk
  have hk' : prec (kindAt (t :: w :: rest)) = k := hk
  have hk2 := Ps.bin_le ho
  have hp := Ps.written_pos hl
  have hs : suppresses t.kind = true := by
    have key : ∀ op ∈ comparing, suppresses (.sym op) = true := by decide +kernel
    rw [ht]; exact key op hc
  have hr0 : prec (kindAt rest) = 0 := by rw [hr]; decide +kernel
  obtain ⟨x, n1, hx1, hx2, _, hx⟩ := Ps.expr_written (names := names) hl 0 0 n (t :: w :: rest) (by omega) (by omega)
    ⟨by omega, fun e => by
      have : prec (kindAt (t :: w :: rest)) = prec (sy "{") := congrArg _ e
      have e2 : prec (sy "{") = 0 := by decide +kernel
      omega⟩
  unfold parse
  obtain ⟨g, hg⟩ : ∃ g, 4 * (ls ++ t :: w :: rest).length + 4 = g + 5 + x := ⟨4 * (ls.length + (rest.length + 2)) + 4 - 5 - x, by
    rw [List.length_append, List.length_cons, List.length_cons]; omega⟩
  rw [List.length_append] at hg
  rw [List.length_append, hg, hx (g + 5) (by omega), Ps.loop_go (by omega), Ps.infix_bin hb, hk, hs, Bool.true_or,
    Ps.expr_step (by omega), Ps.prefix_ident hw (by rw [hr]; decide +kernel) (fun _ => .inl rfl)]
  dsimp only
  rw [Ps.loop_stop (by omega)]
  dsimp only
  rw [Bool.not_true, Bool.false_and, Ps.loop_stop (by omega), ht]
  rfl

example : ∃ ls rest, (lex (lit "level == MAX {}")).getD [] = ls ++ ⟨.sym (lit "=="), lit "==", true, 9⟩ ::
    ⟨.ident, lit "MAX", true, 6⟩ :: rest ∧ Written 3 1 (.atom .ident (lit "level")) ls ∧ kindAt rest = .sym (lit "{") :=
  ⟨[⟨.ident, lit "level", false, 15⟩], [⟨.sym (lit "{"), lit "{", true, 2⟩, ⟨.sym (lit "}"), lit "}", false, 1⟩,
    ⟨.eof, [], false, 0⟩], by decide +kernel, .atom (t := ⟨.ident, lit "level", false, 15⟩) (by decide), rfl⟩

/-! ### C132: struct literals in arguments -/

/-- The fields of a struct literal. -/
inductive FieldToks : Nat → List (Str × OpTree) → List Tok → Prop where
  | nil : FieldToks 0 [] []
  | last {a : Nat} {x c : Tok} {e : OpTree} {ts : List Tok} (hx : x.kind = .ident) (hc : c.kind = .sym (lit ":"))
      (h : Written 1 a e ts) : FieldToks a [(x.text, e)] (x :: c :: ts)
  | cons {a b : Nat} {x c m : Tok} {e : OpTree} {ts us : List Tok} {fs : List (Str × OpTree)} (hx : x.kind = .ident)
      (hc : c.kind = .sym (lit ":")) (h : Written 1 a e ts) (hm : m.kind = .sym (lit ",")) (hu : FieldToks b fs us) :
      FieldToks (max a b) ((x.text, e) :: fs) (x :: c :: (ts ++ m :: us))

/-- C132 as claimed: a struct literal is read as the argument of a call that is the right operand of an operator. -/
def C132_statement : Prop :=
  ∀ (names : List Str) (k a b : Nat) (op : Str) (l : OpTree) (fs : List (Str × OpTree)) (t g o w lb rb c : Tok)
    (ls us rest : List Tok), a ≤ 256 → b + 3 ≤ 256 → Written k a l ls → BinAt op k → t.kind = .sym op → g.kind = .ident →
    o.kind = .sym (lit "(") → o.gap = false → w.kind = .ident → LooksType names w.text → lb.kind = .sym (lit "{") →
    FieldToks b fs us → rb.kind = .sym (lit "}") → c.kind = .sym (lit ")") → EndsExpr rest →
    ∃ n', parse names false (ls ++ t :: g :: o :: w :: lb :: (us ++ rb :: c :: rest)) =
      some (.bin (.sym op) l.node (.call (.leaf .ident g.text) [(none, .struct w.text (fs.map fun f => (f.1, f.2.node)))]),
        n', rest)

namespace Ps

theorem kind_ne {t : Tok} {r : List Tok} {a : Str} {b : String} (h : t.kind = .sym a) (hn : a ≠ lit b) : kindAt (t :: r) ≠ sy b :=
  fun e => hn (Kind.sym.inj (h.symm.trans e))

theorem close_prec : ∀ s ∈ ["}", ")", ",", ":", "{"], prec (.sym (lit s)) = 0 := by decide +kernel

theorem fields_toks {b : Nat} {fs : List (Str × OpTree)} {us : List Tok} (h : FieldToks b fs us) :
    ∀ (d f : Nat) (s : Str) (acc : List (Str × Expr)) (rb : Tok) (rest : List Tok), rb.kind = .sym (lit "}") → d + b ≤ 256 →
      2 * us.length + 2 ≤ f → fields names f d false s acc (us ++ rb :: rest) =
        some (.struct s (acc.reverse ++ fs.map fun x => (x.1, x.2.node)), false, rest) := by
  have k1 : ¬ (Kind.ident = sy "}" ∨ Kind.ident = .eof) := by decide +kernel
  have fin : ∀ (d f : Nat) (s : Str) (acc : List (Str × Expr)) (rb : Tok) (rest : List Tok), rb.kind = .sym (lit "}") →
      fields names (f + 1) d false s acc (rb :: rest) = some (.struct s acc.reverse, false, rest) := by
    intro d f s acc rb rest hb
    rw [fields]
    exact if_pos (.inl hb)
  induction h with
  | nil =>
    intro d f s acc rb rest hb hd hf
    obtain ⟨f, rfl⟩ : ∃ g, f = g + 1 := ⟨f - 1, by omega⟩
    rw [List.nil_append, fin _ _ _ _ _ _ hb, List.map_nil, List.append_nil]
  | @last a x c e ts hx hc h =>
    intro d f s acc rb rest hb hd hf
    rw [List.length_cons, List.length_cons] at hf
    obtain ⟨f, rfl⟩ : ∃ g, f = g + 1 + 1 := ⟨f - 2, by omega⟩
    obtain ⟨n', hn, h1⟩ := expr_of (names := names) (n := false) (d := d) (rest := rb :: rest) h (by omega)
      (by show prec rb.kind = 0; rw [hb]; exact close_prec _ (by decide)) (fun e => absurd (hb.symm.trans e) (by decide +kernel))
    rw [hn rfl] at h1
    have e1 : fields names (f + 1 + 1) d false s acc (x :: c :: ts ++ rb :: rest) =
        match expr names (f + 1) 0 d false (ts ++ rb :: rest) with
        | none => none
        | some (e, n, r) =>
          fields names (f + 1) d n s ((x.text, e) :: acc) (if kindAt r = sy "," then r.tail else r) := by
      rw [fields]
      exact (if_neg (by rw [show kindAt (x :: c :: ts ++ rb :: rest) = _ from hx]; exact k1)).trans (if_pos hc)
    rw [e1, h1 _ (by omega)]
    dsimp only
    rw [if_neg (kind_ne hb (by decide +kernel)), fin _ _ _ _ _ _ hb, List.reverse_cons]
    rfl
  | @cons a b x c m e ts us fs hx hc h hm hu ih =>
    intro d f s acc rb rest hb hd hf
    rw [List.length_cons, List.length_cons, List.length_append, List.length_cons] at hf
    obtain ⟨f, rfl⟩ : ∃ g, f = g + 1 := ⟨f - 1, by omega⟩
    obtain ⟨n', hn, h1⟩ := expr_of (names := names) (n := false) (d := d) (rest := m :: (us ++ rb :: rest)) h (by omega)
      (by show prec m.kind = 0; rw [hm]; exact close_prec _ (by decide)) (fun e => absurd (hm.symm.trans e) (by decide +kernel))
    rw [hn rfl] at h1
    have e1 : fields names (f + 1) d false s acc (x :: c :: (ts ++ m :: us) ++ rb :: rest) =
        match expr names f 0 d false (ts ++ m :: us ++ rb :: rest) with
        | none => none
        | some (e, n, r) =>
          fields names f d n s ((x.text, e) :: acc) (if kindAt r = sy "," then r.tail else r) := by
      rw [fields]
      exact (if_neg (by rw [show kindAt (x :: c :: (ts ++ m :: us) ++ rb :: rest) = _ from hx]; exact k1)).trans (if_pos hc)
    have e2 : ts ++ m :: us ++ rb :: rest = ts ++ m :: (us ++ rb :: rest) := by simp
    rw [e1, e2, h1 _ (by omega)]
    dsimp only
    rw [if_pos (show kindAt (m :: _) = sy "," from hm), List.tail_cons, ih d f s _ rb rest hb (by omega) (by omega)]
    simp

theorem prefix_struct {f d : Nat} {w lb : Tok} {r : List Tok} (hw : w.kind = .ident) (hl : lb.kind = sy "{")
    (ht : typeName names w.text = true) :
    prefixE names (f + 1) d false (w :: lb :: r) = fields names f d false w.text [] r := by
  rw [prefixE]
  exact (if_pos hw).trans ((if_neg fun h => absurd (hl.symm.trans h.1) (by decide +kernel)).trans (if_pos ⟨hl, rfl, ht⟩))

theorem infix_call {f d : Nat} {n : Bool} {l : Expr} {o : Tok} {r : List Tok} (ho : o.kind = sy "(") (hg : o.gap = false)
    (h : kindAt r ≠ sy ")") : infixE names (f + 1) d n l (o :: r) = args names f d n l [] r := by
  have k : isBinary (sy "(") ≠ true := by decide +kernel
  rw [← ho] at k
  rw [infixE]
  exact (if_neg k).trans ((if_neg (by rw [show gapAt (o :: r) = false from hg]; decide)).trans ((if_pos ho).trans (if_neg h)))

theorem args_one {f d : Nat} {n n' : Bool} {l e : Expr} {ts rest : List Tok} {c : Tok} (hn : kindAt ts.tail ≠ sy ":")
    (hc : c.kind = sy ")") (h : expr names f 0 d n ts = some (e, n', c :: rest)) :
    args names (f + 1) d n l [] ts = some (.call l [(none, e)], n', rest) := by
  have hn : ¬ (kindAt ts = .ident ∧ kindAt ts.tail = sy ":") := fun h => hn h.2
  rw [args]
  simp only [if_neg hn, h]
  rw [if_neg (kind_ne hc (by decide +kernel))]
  exact if_pos hc

end Ps

/-- C132 for the operators other than equality, comparison and membership. Missing: these, where no struct literal is read
even within parentheses. -/
theorem C132_partial (names : List Str) (k a b : Nat) (op : Str) (l : OpTree) (fs : List (Str × OpTree)) (t g o w lb rb c : Tok)
    (ls us rest : List Tok) (ha : a ≤ 256) (hb : b + 3 ≤ 256) (hl : Written k a l ls) (ho : BinAt op k) (ht : t.kind = .sym op)
    (hg : g.kind = .ident) (hp : o.kind = .sym (lit "(")) (hgap : o.gap = false) (hw : w.kind = .ident)
    (hty : LooksType names w.text) (hlb : lb.kind = .sym (lit "{")) (hf : FieldToks b fs us) (hrb : rb.kind = .sym (lit "}"))
    (hc : c.kind = .sym (lit ")")) (hr : EndsExpr rest) (hop : op ∉ comparing) :
    parse names false (ls ++ t :: g :: o :: w :: lb :: (us ++ rb :: c :: rest)) =
      some (.bin (.sym op) l.node (.call (.leaf .ident g.text) [(none, .struct w.text (fs.map fun f => (f.1, f.2.node)))]),
        false, rest) := by
  obtain ⟨hbin, hk⟩ := Ps.bin_prec ho
  rw [← ht] at hbin hk
  generalize hts : w :: lb :: (us ++ rb :: c :: rest) = ts
  have hk' : prec (kindAt (t :: g :: o :: ts)) = k := hk
  have hk2 := Ps.bin_le ho
  have hpos := Ps.written_pos hl
  have hs : suppresses t.kind = false := by
    have key : ∀ op ∈ binLevels.flatten, op ∉ comparing → suppresses (.sym op) = false := by decide +kernel
    rw [ht]
    obtain ⟨x, hx, hop', _⟩ := ho
    exact key op (List.mem_flatten.2 ⟨x, List.mem_of_getElem? hx, hop'⟩) hop
  have hr0 := Ps.ends_iff.1 hr
  have hcp : prec (kindAt (c :: rest)) = 0 := by
    show prec c.kind = 0
    rw [hc]; exact Ps.close_prec _ (by decide)
  have hpp : prec (kindAt (o :: ts)) = 11 := by
    show prec o.kind = 11
    rw [hp]; decide +kernel
  obtain ⟨x, n1, hx1, hx2, hn1, hx⟩ := Ps.expr_written (names := names) hl 0 0 false (t :: g :: o :: ts) (by omega) (by omega)
    ⟨by omega, fun e => by
      have : prec (kindAt (t :: g :: o :: ts)) = prec (sy "{") := congrArg _ e
      have e2 : prec (sy "{") = 0 := by decide +kernel
      omega⟩
  have hlen : ts.length = us.length + rest.length + 4 := by
    rw [← hts]; simp only [List.length_cons, List.length_append]; omega
  unfold parse
  obtain ⟨f, hf'⟩ : ∃ f, 4 * (ls ++ t :: g :: o :: ts).length + 4 = f + 9 + x :=
    ⟨4 * (ls.length + (ts.length + 3)) + 4 - 9 - x, by
      rw [List.length_append, List.length_cons, List.length_cons, List.length_cons]; omega⟩
  have hlen2 : 4 * (ls.length + (ts.length + 3)) + 4 = f + 9 + x := by
    rw [← hf', List.length_append, List.length_cons, List.length_cons, List.length_cons]
  have hst : expr names (f + 3) 0 2 false ts =
      some (.struct w.text (fs.map fun f => (f.1, f.2.node)), false, c :: rest) := by
    rw [Ps.expr_step (by omega), ← hts, Ps.prefix_struct hw hlb (Ps.looks_iff.2 hty),
      Ps.fields_toks hf 3 (f + 1) w.text [] rb (c :: rest) hrb (by omega) (by omega)]
    dsimp only
    rw [Ps.loop_stop (by omega)]
    rfl
  have hts1 : kindAt ts = .ident := by rw [← hts]; exact hw
  rw [hf', hx (f + 9) (by omega), Ps.loop_go (by omega), Ps.infix_bin hbin, hk, hs, hn1 rfl, Bool.or_false,
    Ps.expr_step (by omega), Ps.prefix_ident hg
      (Ps.kind_ne hp (by decide +kernel)) (fun e => absurd e (Ps.kind_ne hp (by decide +kernel)))]
  dsimp only
  rw [Ps.loop_go (by omega), Ps.infix_call hp hgap (by rw [hts1]; decide),
    Ps.args_one (by rw [← hts]; exact Ps.kind_ne hlb (by decide +kernel)) hc hst]
  dsimp only
  rw [Ps.loop_stop (by omega)]
  dsimp only
  rw [Ps.loop_stop (by omega), ht]
  rfl

/-- `d < f(P{x: 1})` is rejected, `d + f(P{x: 1})` is not. -/
theorem C132_witness : (parse [] false ((lex (lit "d < f(P{x: 1})")).getD [])).isNone = true ∧
    (parse [] false ((lex (lit "d + f(P{x: 1})")).getD [])).isSome = true := by decide +kernel

theorem C132_fails : ¬ C132_statement := fun h => by
  obtain ⟨n', h1⟩ := h [] 5 1 1 (lit "<") (.atom .ident (lit "d")) [(lit "x", .atom .int (lit "1"))]
    ⟨.sym (lit "<"), lit "<", true, 12⟩ ⟨.ident, lit "f", true, 10⟩ ⟨.sym (lit "("), lit "(", false, 9⟩
    ⟨.ident, lit "P", false, 8⟩ ⟨.sym (lit "{"), lit "{", false, 7⟩ ⟨.sym (lit "}"), lit "}", false, 2⟩
    ⟨.sym (lit ")"), lit ")", false, 1⟩ [⟨.ident, lit "d", false, 14⟩]
    [⟨.ident, lit "x", false, 6⟩, ⟨.sym (lit ":"), lit ":", false, 5⟩, ⟨.int, lit "1", true, 3⟩] [⟨.eof, [], false, 0⟩]
    (by decide) (by decide) (.atom (t := ⟨.ident, lit "d", false, 14⟩) (by decide)) (by decide +kernel) rfl rfl rfl rfl rfl
    (.inr ⟨80, by decide +kernel, rfl⟩) rfl
    (.last (x := ⟨.ident, lit "x", false, 6⟩) rfl rfl (.atom (t := ⟨.int, lit "1", true, 3⟩) (by decide))) rfl rfl
    (fun t ht op _ => by cases ht; nofun)
  have hl : lex (lit "d < f(P{x: 1})") = some [⟨.ident, lit "d", false, 14⟩, ⟨.sym (lit "<"), lit "<", true, 12⟩,
    ⟨.ident, lit "f", true, 10⟩, ⟨.sym (lit "("), lit "(", false, 9⟩,
    ⟨.ident, lit "P", false, 8⟩, ⟨.sym (lit "{"), lit "{", false, 7⟩,
    ⟨.ident, lit "x", false, 6⟩, ⟨.sym (lit ":"), lit ":", false, 5⟩, ⟨.int, lit "1", true, 3⟩,
    ⟨.sym (lit "}"), lit "}", false, 2⟩, ⟨.sym (lit ")"), lit ")", false, 1⟩, ⟨.eof, [], false, 0⟩] := by decide +kernel
  have h2 := C132_witness.1
  rw [hl, Option.getD_some] at h2
  have h1 : parse [] false [_, _, _, _, _, _, _, _, _, _, _, _] = _ := h1
  rw [h1] at h2
  cases h2

end Verif.Props

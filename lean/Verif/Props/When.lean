import Verif.Model.When
import Verif.Props.RangeLoop
import Verif.Props.Names

/-!
# `when` statements: C272–C280
-/

namespace Verif.Props
open Verif Verif.When Verif.IntOps Verif.Str

namespace Wn

/-! ### Texts -/

def argTok : Arg → Tok
  | .ident s => .ident s
  | .lit n => .lit n

/-- With commas between them. -/
def sep : List Tok → List Tok
  | [] => []
  | [t] => [t]
  | t :: u :: ts => t :: .comma :: sep (u :: ts)

def parens (ts : List Tok) : List Tok := .lp :: (sep ts ++ [.rp])

/-- How a value is written. -/
def valueToks : Value → List Tok
  | .arg a => [argTok a]
  | .call f as => .ident f :: parens (as.map argTok)
  | .pattern none v names => .ident v :: parens (names.map .ident)
  | .pattern (some e) v names => .ident e :: .dot :: .ident v :: parens (names.map .ident)

def isIdentArg : Arg → Bool
  | .ident _ => true
  | .lit _ => false

/-- Calls with arguments that are all identifiers. -/
def looksPattern : Value → Bool
  | .call _ as => as ≠ [] && as.all isIdentArg
  | _ => false

theorem sep_cons (t u : Tok) (ts : List Tok) : sep (t :: u :: ts) = t :: .comma :: sep (u :: ts) := rfl

theorem args_comma (a : Arg) (r : List Tok) : args (argTok a :: .comma :: r) = (args r).map fun q => (a :: q.1, q.2) := by
  cases a <;> rfl

theorem args_last (a : Arg) (r : List Tok) : args (argTok a :: .rp :: r) = some ([a], r) := by
  cases a <;> rfl

theorem args_toks : ∀ (as : List Arg) (r : List Tok), args (sep (as.map argTok) ++ .rp :: r) = some (as, r)
  | [], r => rfl
  | [a], r => args_last a r
  | a :: b :: as, r => by
    have h := args_toks (b :: as) r
    show args (argTok a :: .comma :: (sep ((b :: as).map argTok) ++ .rp :: r)) = _
    rw [args_comma, h]
    rfl

theorem bindings_comma (s : Str) (r : List Tok) :
    bindings (.ident s :: .comma :: r) = (bindings r).map fun q => (s :: q.1, q.2) := by
  rw [bindings]

theorem bindings_toks : ∀ (ns : List Str) (r : List Tok), bindings (sep (ns.map .ident) ++ .rp :: r) = some (ns, .rp :: r)
  | [], r => by rw [show sep (([] : List Str).map Tok.ident) ++ Tok.rp :: r = .rp :: r from rfl, bindings]
  | [a], r => by
    rw [show sep ([a].map Tok.ident) ++ Tok.rp :: r = .ident a :: .rp :: r from rfl, bindings, bindings]
    · rfl
    · intro x h; cases h
  | a :: b :: as, r => by
    have h := bindings_toks (b :: as) r
    show bindings (.ident a :: .comma :: (sep ((b :: as).map .ident) ++ .rp :: r)) = _
    rw [bindings_comma, h]
    rfl

theorem bindings_lit (n : Nat) (r : List Tok) : bindings (.lit n :: r) = none := by
  rw [bindings] <;> (intros; rename_i h; cases h)

/-- A literal among the arguments. -/
theorem bindings_none : ∀ (as : List Arg) (r : List Tok), as.all isIdentArg = false →
    bindings (sep (as.map argTok) ++ .rp :: r) = none
  | [], r, h => by cases h
  | [.ident a], r, h => by cases h
  | [.lit a], r, h => bindings_lit a _
  | .lit a :: b :: as, r, h => bindings_lit a _
  | .ident a :: b :: as, r, h => by
    have h' := bindings_none (b :: as) r h
    show bindings (.ident a :: .comma :: (sep ((b :: as).map argTok) ++ .rp :: r)) = _
    rw [bindings_comma, h']
    rfl

theorem pattern_call (f : Str) (as : List Arg) (r : List Tok) (h : looksPattern (.call f as) = false) :
    pattern (valueToks (.call f as) ++ r) = none := by
  have e : valueToks (.call f as) ++ r = .ident f :: .lp :: (sep (as.map argTok) ++ .rp :: r) := by
    simp [valueToks, parens]
  rw [e, pattern]
  cases as with
  | nil => rw [show sep (([] : List Arg).map argTok) ++ Tok.rp :: r = .rp :: r from rfl, bindings]
  | cons a as =>
    have : (a :: as).all isIdentArg = false := by
      simpa [looksPattern] using h
    rw [bindings_none _ _ this]

theorem pattern_idents (f : Str) (n : Str) (ns : List Str) (r : List Tok) :
    pattern (.ident f :: (parens ((n :: ns).map .ident) ++ r)) = some (.pattern none f (n :: ns), r) := by
  have e : Tok.ident f :: (parens ((n :: ns).map .ident) ++ r) = .ident f :: .lp :: (sep ((n :: ns).map .ident) ++ .rp :: r) := by
    simp [parens]
  rw [e, pattern, bindings_toks]

theorem pattern_member (e f : Str) (n : Str) (ns : List Str) (r : List Tok) :
    pattern (.ident e :: .dot :: .ident f :: (parens ((n :: ns).map .ident) ++ r)) = some (.pattern (some e) f (n :: ns), r) := by
  have h : Tok.ident f :: (parens ((n :: ns).map .ident) ++ r) = .ident f :: .lp :: (sep ((n :: ns).map .ident) ++ .rp :: r) := by
    simp [parens]
  rw [h, pattern, bindings_toks]

theorem pattern_dot (f : Str) (n : Str) (ns : List Str) (r : List Tok) :
    pattern (.dot :: .ident f :: (parens ((n :: ns).map .ident) ++ r)) = some (.pattern none f (n :: ns), r) := by
  have h : Tok.ident f :: (parens ((n :: ns).map .ident) ++ r) = .ident f :: .lp :: (sep ((n :: ns).map .ident) ++ .rp :: r) := by
    simp [parens]
  rw [h, pattern, bindings_toks]

/-- What comes after a value: a comma or a brace. -/
def Ends (r : List Tok) : Prop := r.head? = some .comma ∨ r.head? = some .lb

theorem expr_toks (v : Value) (r : List Tok) (hv : ∀ e w ns, v ≠ .pattern e w ns) (hr : Ends r) :
    expr (valueToks v ++ r) = some (v, r) := by
  cases v with
  | arg a =>
    cases a with
    | lit n => rfl
    | ident s =>
      cases r with
      | nil => rfl
      | cons t r =>
        rcases hr with h | h <;> (have h := Option.some.inj h; subst h; rfl)
  | call f as =>
    have e : valueToks (.call f as) ++ r = .ident f :: .lp :: (sep (as.map argTok) ++ .rp :: r) := by
      simp [valueToks, parens]
    rw [e, expr, args_toks]
    rfl
  | pattern e w ns => exact absurd rfl (hv e w ns)

theorem pattern_toks (v : Value) (r : List Tok) (hv : ∀ e w ns, v ≠ .pattern e w ns) (hl : looksPattern v = false) (hr : Ends r) :
    pattern (valueToks v ++ r) = none := by
  cases v with
  | arg a =>
    cases a with
    | lit n => rfl
    | ident s =>
      cases r with
      | nil => rfl
      | cons t r =>
        rcases hr with h | h <;> (have h := Option.some.inj h; subst h; rfl)
  | call f as => exact pattern_call f as r hl
  | pattern e w ns => exact absurd rfl (hv e w ns)

/-- Values separated by commas. -/
def listToks : List Value → List Tok
  | [] => []
  | v :: vs => .comma :: (valueToks v ++ listToks vs)

theorem ends_list (vs : List Value) (r : List Tok) : Ends (listToks vs ++ .lb :: r) := by
  cases vs with
  | nil => exact .inr rfl
  | cons v vs => exact .inl rfl

theorem more_toks : ∀ (vs : List Value) (n : Nat) (r : List Tok), vs.length ≤ n → (∀ v ∈ vs, ∀ e w ns, v ≠ .pattern e w ns) →
    more n (listToks vs ++ .lb :: r) = some (vs, .lb :: r)
  | [], n, r, _, _ => by cases n <;> rfl
  | v :: vs, 0, r, h, _ => by cases h
  | v :: vs, n + 1, r, h, hv => by
    show more (n + 1) (.comma :: ((valueToks v ++ listToks vs) ++ .lb :: r)) = _
    rw [more, List.append_assoc, expr_toks v _ (hv v List.mem_cons_self) (ends_list vs r)]
    simp only []
    rw [more_toks vs n r (Nat.le_of_succ_le_succ h) fun w hw => hv w (List.mem_cons_of_mem _ hw)]
    rfl

theorem list_length : ∀ vs : List Value, vs.length ≤ (listToks vs).length
  | [] => Nat.le_refl _
  | v :: vs => by
    have := list_length vs
    simp only [listToks, List.length_cons, List.length_append]
    omega

/-- The values of a case as a text. -/
def caseToks : List Value → List Tok
  | [] => []
  | v :: vs => valueToks v ++ listToks vs

/-- One pattern, or values of which the first is no call that looks like a pattern. -/
def Readable : List Value → Prop
  | [] => False
  | [.pattern _ _ ns] => ns ≠ []
  | v :: vs => looksPattern v = false ∧ ∀ w ∈ v :: vs, ∀ e x ns, w ≠ .pattern e x ns

theorem values_exprs (v : Value) (vs : List Value) (r : List Tok) (hl : looksPattern v = false)
    (hv : ∀ w ∈ v :: vs, ∀ e x ns, w ≠ .pattern e x ns) : values (caseToks (v :: vs) ++ .lb :: r) = some (v :: vs, .lb :: r) := by
  have h0 := hv v List.mem_cons_self
  unfold values
  rw [show caseToks (v :: vs) ++ .lb :: r = valueToks v ++ (listToks vs ++ .lb :: r) from List.append_assoc ..,
    pattern_toks v _ h0 hl (ends_list vs r)]
  simp only []
  rw [expr_toks v _ h0 (ends_list vs r)]
  simp only []
  rw [more_toks vs _ r (by have := list_length vs; simp only [List.length_append]; omega) fun w hw => hv w (List.mem_cons_of_mem _ hw)]
  rfl

theorem values_toks (vs : List Value) (r : List Tok) (h : Readable vs) : values (caseToks vs ++ .lb :: r) = some (vs, .lb :: r) := by
  match vs, h with
  | [.pattern none v (n :: ns)], h =>
    unfold values
    rw [show caseToks [.pattern none v (n :: ns)] ++ Tok.lb :: r = .ident v :: (parens ((n :: ns).map .ident) ++ .lb :: r) by
      simp [caseToks, valueToks, listToks], pattern_idents]
  | [.pattern (some e) v (n :: ns)], h =>
    unfold values
    rw [show caseToks [.pattern (some e) v (n :: ns)] ++ Tok.lb :: r
      = .ident e :: .dot :: .ident v :: (parens ((n :: ns).map .ident) ++ .lb :: r) by simp [caseToks, valueToks, listToks],
      pattern_member]
  | [.pattern e v []], h => exact absurd rfl h
  | [.arg a], h => exact values_exprs _ _ r h.1 h.2
  | [.call f as], h => exact values_exprs _ _ r h.1 h.2
  | v :: w :: vs, h =>
    have h' : looksPattern v = false ∧ ∀ u ∈ v :: w :: vs, ∀ e x ns, u ≠ .pattern e x ns := by cases v <;> exact h
    exact values_exprs _ _ r h'.1 h'.2

/-! ### Blocks -/

/-- Texts with matching braces. -/
inductive Balanced : List Tok → Prop
  | nil : Balanced []
  | tok (t : Tok) (b : List Tok) : t ≠ .lb → t ≠ .rb → Balanced b → Balanced (t :: b)
  | braces (b c : List Tok) : Balanced b → Balanced c → Balanced (.lb :: (b ++ .rb :: c))

theorem block_tok (t : Tok) (d : Nat) (r : List Tok) (h1 : t ≠ .lb) (h2 : t ≠ .rb) :
    block d (t :: r) = (block d r).map fun q => (t :: q.1, q.2) := by
  cases t <;> first | exact absurd rfl h1 | exact absurd rfl h2 | (cases d <;> rfl)

theorem block_lb (d : Nat) (r : List Tok) : block d (.lb :: r) = (block (d + 1) r).map fun q => (.lb :: q.1, q.2) := by
  cases d <;> rfl

theorem block_balanced {b : List Tok} (h : Balanced b) : ∀ (d : Nat) (r : List Tok),
    block d (b ++ r) = (block d r).map fun q => (b ++ q.1, q.2) := by
  induction h with
  | nil => intro d r; simp
  | tok t b h1 h2 _ ih =>
    intro d r
    rw [List.cons_append, block_tok t d _ h1 h2, ih, Option.map_map]
    rfl
  | braces b c _ _ ih1 ih2 =>
    intro d r
    rw [List.cons_append, block_lb, List.append_assoc, ih1, List.cons_append, block, ih2]
    simp only [Option.map_map]
    congr 1
    funext q
    simp

theorem body_toks {b : List Tok} (h : Balanced b) (r : List Tok) : body (.lb :: (b ++ .rb :: r)) = some (b, r) := by
  show block 0 (b ++ .rb :: r) = _
  rw [block_balanced h, block]
  simp

inductive Item where
  | case (vs : List Value) (b : List Tok)
  | dflt (b : List Tok)

def Item.toks : Item → List Tok
  | .case vs b => .is_ :: (caseToks vs ++ .lb :: (b ++ [.rb]))
  | .dflt b => .dflt :: .lb :: (b ++ [.rb])

def Item.Ok : Item → Prop
  | .case vs b => Readable vs ∧ Balanced b
  | .dflt b => Balanced b

def itemsToks : List Item → List Tok
  | [] => []
  | i :: is => i.toks ++ itemsToks is

def casesOf (is : List Item) : List (List Value × List Tok) :=
  is.filterMap fun i => match i with | .case vs b => some (vs, b) | .dflt _ => none

def defaultsOf (is : List Item) : List (List Tok) :=
  is.filterMap fun i => match i with | .case _ _ => none | .dflt b => some b

theorem loop_items : ∀ (is : List Item) (n : Nat) (p : Parsed) (r : List Tok), (∀ i ∈ is, i.Ok) → is.length < n →
    (p.default.toList ++ defaultsOf is).length ≤ 1 →
    loop n (itemsToks is ++ .rb :: r) p
      = some ({ cases := p.cases ++ casesOf is, default := (p.default.toList ++ defaultsOf is).head? }, r)
  | [], n + 1, p, r, _, _, _ => by
    obtain ⟨c, d⟩ := p
    show some (_, r) = _
    cases d <;> simp [casesOf, defaultsOf]
  | .case vs b :: is, n + 1, p, r, hi, hn, hd => by
    obtain ⟨h1, h2⟩ := hi _ List.mem_cons_self
    have e : itemsToks (.case vs b :: is) ++ Tok.rb :: r
        = .is_ :: (caseToks vs ++ .lb :: (b ++ .rb :: (itemsToks is ++ .rb :: r))) := by
      simp [itemsToks, Item.toks]
    rw [e, loop, values_toks vs _ h1]
    simp only []
    rw [body_toks h2]
    simp only []
    rw [loop_items is n _ r (fun i h => hi i (List.mem_cons_of_mem _ h)) (Nat.lt_of_succ_lt_succ hn) (by exact hd)]
    simp [casesOf, defaultsOf]
  | .dflt b :: is, n + 1, p, r, hi, hn, hd => by
    have h2 := hi _ List.mem_cons_self
    have e : itemsToks (.dflt b :: is) ++ Tok.rb :: r = .dflt :: .lb :: (b ++ .rb :: (itemsToks is ++ .rb :: r)) := by
      simp [itemsToks, Item.toks]
    have e2 : defaultsOf (.dflt b :: is) = b :: defaultsOf is := rfl
    have hp : p.default = none := by
      cases hp : p.default with
      | none => rfl
      | some x => rw [hp, e2] at hd; simp at hd
    rw [hp, e2] at hd
    rw [e, loop, hp]
    simp only [Option.isSome_none, Bool.false_eq_true, if_false]
    rw [body_toks h2]
    simp only []
    rw [loop_items is n _ r (fun i h => hi i (List.mem_cons_of_mem _ h)) (Nat.lt_of_succ_lt_succ hn) (by exact hd)]
    simp [casesOf, defaultsOf]

theorem items_length : ∀ is : List Item, is.length ≤ (itemsToks is).length
  | [] => Nat.le_refl _
  | i :: is => by
    have := items_length is
    have : 0 < i.toks.length := by cases i <;> simp [Item.toks]
    simp only [itemsToks, List.length_cons, List.length_append]
    omega

end Wn
open Wn

/-! ### C272 -/

/-- A call written after `is` is read as a call. -/
def C272_statement : Prop := ∀ (f : Str) (as : List Arg) (r : List Tok),
  values (valueToks (.call f as) ++ .lb :: r) = some ([.call f as], .lb :: r)

/-- `is square(k) {` -/
theorem C272_witness : values [.ident (lit "square"), .lp, .ident (lit "k"), .rp, .lb]
    = some ([.pattern none (lit "square") [lit "k"]], [.lb]) := by decide +kernel

theorem C272_fails : ¬ C272_statement := fun h => by
  have := h (lit "square") [.ident (lit "k")] []
  revert this
  decide +kernel

/-- Calls with identifiers as arguments are all taken for patterns, and no others. Missing: these calls. -/
theorem C272_partial (f : Str) (as : List Arg) (r : List Tok) :
    ((as = [] ∨ ∃ n, Arg.lit n ∈ as) → values (valueToks (.call f as) ++ .lb :: r) = some ([.call f as], .lb :: r)) ∧
    (∀ n ns, as = (n :: ns).map Arg.ident →
      values (valueToks (.call f as) ++ .lb :: r) = some ([.pattern none f (n :: ns)], .lb :: r)) := by
  constructor
  · intro h
    have hl : looksPattern (.call f as) = false := by
      rcases h with rfl | ⟨n, hn⟩
      · rfl
      · show (decide (as ≠ []) && as.all isIdentArg) = false
        have : as.all isIdentArg = false := by
          cases q : as.all isIdentArg with
          | false => rfl
          | true => have := List.all_eq_true.1 q _ hn; cases this
        rw [this, Bool.and_false]
    have := values_exprs (.call f as) [] r hl (fun w hw e x ns => by
      rw [List.mem_singleton.1 hw]; intro h; cases h)
    simpa [caseToks, listToks] using this
  · rintro n ns rfl
    have e : valueToks (.call f ((n :: ns).map Arg.ident)) ++ Tok.lb :: r = .ident f :: (parens ((n :: ns).map .ident) ++ .lb :: r) := by
      simp [valueToks, Function.comp_def, argTok]
    unfold values
    rw [e, pattern_idents]

/-- The three spellings of a pattern. -/
theorem C272_spellings (e f n : Str) (ns : List Str) (r : List Tok) :
    values (.ident f :: (parens ((n :: ns).map .ident) ++ r)) = some ([.pattern none f (n :: ns)], r) ∧
    values (.dot :: .ident f :: (parens ((n :: ns).map .ident) ++ r)) = some ([.pattern none f (n :: ns)], r) ∧
    values (.ident e :: .dot :: .ident f :: (parens ((n :: ns).map .ident) ++ r)) = some ([.pattern (some e) f (n :: ns)], r) := by
  unfold values
  rw [pattern_idents, pattern_dot, pattern_member]
  exact ⟨rfl, rfl, rfl⟩

example : values [.ident (lit "f"), .lp, .lit 3, .comma, .ident (lit "k"), .rp, .lb]
    = some ([.call (lit "f") [.lit 3, .ident (lit "k")]], [.lb]) := by decide +kernel

/-! ### C273 -/

/-- The tokens a statement keeps. -/
def Wn.kept (p : Parsed) : List Tok := p.cases.flatMap (fun c => c.1.flatMap valueToks ++ c.2) ++ p.default.getD []

/-- No expression in an accepted `when` is dropped. -/
def C273_statement : Prop := ∀ (ts : List Tok) (p : Parsed) (r : List Tok), parse ts = some (p, r) →
  ∀ n, Tok.lit n ∈ ts → Tok.lit n ∈ kept p ∨ Tok.lit n ∈ r

/-- `is 2 { } 7 }` -/
theorem C273_witness : parse [.is_, .lit 2, .lb, .rb, .lit 7, .rb] = some ({ cases := [([.arg (.lit 2)], [])] }, []) := by decide +kernel

theorem C273_fails : ¬ C273_statement := fun h => by
  have := h _ _ _ C273_witness 7 (by decide)
  revert this
  decide +kernel

/-- After `7 { }` the statement is over, so the cases after it are outside. -/
theorem C273_brace_fails : parse [.is_, .lit 2, .lb, .rb, .lit 7, .lb, .rb, .is_, .lit 3, .lb, .rb, .rb]
    = some ({ cases := [([.arg (.lit 2)], [])] }, [.is_, .lit 3, .lb, .rb, .rb]) := by decide +kernel

/-- The last brace may be missing. -/
theorem C273_end_fails : parse [.is_, .lit 2, .lb, .rb] = some ({ cases := [([.arg (.lit 2)], [])] }, []) := by decide +kernel

/-- Cases and at most one default, in any number and order, are read as written. Missing: other tokens between them. -/
theorem C273_partial (is : List Item) (r : List Tok) (h : ∀ i ∈ is, i.Ok) (h0 : is ≠ []) (h1 : (defaultsOf is).length ≤ 1) :
    parse (itemsToks is ++ .rb :: r) = some ({ cases := casesOf is, default := (defaultsOf is).head? }, r) := by
  have q := loop_items is ((itemsToks is ++ .rb :: r).length + 1) {} r h
    (by have := items_length is; simp only [List.length_append]; omega) h1
  have q' : loop ((itemsToks is ++ .rb :: r).length + 1) (itemsToks is ++ .rb :: r) {}
      = some ({ cases := casesOf is, default := (defaultsOf is).head? }, r) := q
  unfold parse
  rw [q']
  refine if_neg ?_
  rintro ⟨a, b⟩
  cases is with
  | nil => exact h0 rfl
  | cons i is =>
    cases i with
    | case vs b => cases a
    | dflt b' => cases b

/-- Two defaults and empty statements are errors. -/
theorem C273_errors (is : List Item) (r : List Tok) (h : ∀ i ∈ is, i.Ok) :
    parse (.rb :: r) = none ∧ (2 ≤ (defaultsOf is).length → parse (itemsToks is ++ .rb :: r) = none) := by
  refine ⟨rfl, fun h2 => ?_⟩
  have key : ∀ (is : List Item) (n : Nat) (p : Parsed), (∀ i ∈ is, i.Ok) → 2 ≤ (p.default.toList ++ defaultsOf is).length →
      loop n (itemsToks is ++ .rb :: r) p = none := by
    intro is
    induction is with
    | nil =>
      intro n p _ h
      cases hp : p.default <;> rw [hp] at h <;> simp [defaultsOf] at h
    | cons i is ih =>
      intro n p hi hd
      cases n with
      | zero => rfl
      | succ n =>
        have hi' : ∀ i ∈ is, i.Ok := fun i h => hi i (List.mem_cons_of_mem _ h)
        cases i with
        | case vs b =>
          obtain ⟨a1, a2⟩ := hi _ List.mem_cons_self
          have e : itemsToks (.case vs b :: is) ++ Tok.rb :: r
              = .is_ :: (caseToks vs ++ .lb :: (b ++ .rb :: (itemsToks is ++ .rb :: r))) := by
            simp [itemsToks, Item.toks]
          rw [e, loop, values_toks vs _ a1]
          simp only []
          rw [body_toks a2]
          exact ih n _ hi' hd
        | dflt b =>
          have a2 := hi _ List.mem_cons_self
          have e : itemsToks (.dflt b :: is) ++ Tok.rb :: r = .dflt :: .lb :: (b ++ .rb :: (itemsToks is ++ .rb :: r)) := by
            simp [itemsToks, Item.toks]
          rw [e, loop]
          cases hp : p.default with
          | some x => rfl
          | none =>
            simp only [Option.isSome_none, Bool.false_eq_true, if_false]
            rw [body_toks a2]
            refine ih n _ hi' ?_
            rw [hp] at hd
            exact hd
  unfold parse
  rw [key is _ {} h h2]

example : parse (itemsToks [.case [.arg (.lit 1), .call (lit "f") [.ident (lit "k")]] [.lb, .rb], .dflt [.lit 4]] ++ [.rb])
    = some ({ cases := [([.arg (.lit 1), .call (lit "f") [.ident (lit "k")]], [.lb, .rb])], default := some [.lit 4] }, []) :=
  C273_partial _ _ (by
    intro i hi
    rcases List.mem_cons.1 hi with rfl | hi
    · refine ⟨⟨rfl, ?_⟩, .braces [] [] .nil .nil⟩
      intro w hw e x ns
      rcases List.mem_cons.1 hw with rfl | hw
      · intro h; cases h
      · rw [List.mem_singleton.1 hw]; intro h; cases h
    · rw [List.mem_singleton.1 hi]
      exact .tok _ _ (by decide) (by decide) .nil) (by intro h; cases h) (by decide)

/-! ### C274 -/

namespace Wn

/-- The value `x` is the one given, or one of the range. -/
def Matches (x : Int) : CaseVal → Prop
  | .val _ z => x = z
  | .range start e st => ∃ k : Nat, x = start.getD 0 + k * stepValue st ∧ Before (stepValue st) x e

/-- The first case with a matching value, or the default. -/
def First (x : Int) (cs : List (List CaseVal)) (n : Nat) : Prop :=
  (∀ i c, i < n → cs[i]? = some c → ∀ v ∈ c, ¬ Matches x v) ∧
  (n = cs.length ∨ ∃ c, cs[n]? = some c ∧ ∃ v ∈ c, Matches x v)

/-- Values of their types; ranges are for subjects of type `int` and have a step that is not zero. -/
def Typed (ts : IntTy) : CaseVal → Prop
  | .val t z => InTy t z
  | .range start e st => ts = .int ∧ I64 (start.getD 0) ∧ I64 e ∧ I64 (stepValue st) ∧ stepValue st ≠ 0

/-- Steps that are positive, or written with a minus, and a difference that is an `int`. -/
def StepOk (start x : Int) : RangeLoop.Step → Prop
  | .none => True
  | .lit v => 0 < v ∧ x - start < 2 ^ 63
  | .var v => 0 < v ∧ x - start < 2 ^ 63
  | .neg v => 0 < v ∧ -2 ^ 63 < x - start

/-- Where the comparison is that of the values. -/
def Sound (ts : IntTy) (x : Int) : CaseVal → Prop
  | .val t z => (Signed ts ∧ Signed t) ∨ (Unsigned ts ∧ Unsigned t) ∨ (0 ≤ x ∧ 0 ≤ z)
  | .range start _ st =>
    start.isSome ∧ StepOk (start.getD 0) x st

theorem tmod_zero (d s : Int) : (d.tmod s == 0) = true ↔ s ∣ d := by
  rw [beq_iff_eq]
  exact ⟨Int.dvd_of_tmod_eq_zero, Int.tmod_eq_zero_of_dvd⟩

theorem up_iff {x start e s : Int} (hs : 0 < s) :
    (∃ k : Nat, x = start + k * s ∧ Before s x e) ↔ (x ≥ start ∧ x < e) ∧ s ∣ x - start := by
  have hb : Before s x e ↔ x < e := by unfold Before; rw [if_pos hs]
  rw [show (∃ k : Nat, x = start + k * s ∧ Before s x e) ↔ (∃ k : Nat, x = start + k * s) ∧ x < e by
    constructor
    · rintro ⟨k, a, b⟩; exact ⟨⟨k, a⟩, hb.1 b⟩
    · rintro ⟨⟨k, a⟩, b⟩; exact ⟨k, a, hb.2 b⟩]
  constructor
  · rintro ⟨⟨k, hk⟩, h⟩
    have : 0 ≤ (k : Int) * s := Int.mul_nonneg (Int.natCast_nonneg k) (Int.le_of_lt hs)
    exact ⟨⟨by omega, h⟩, ⟨k, by rw [Int.mul_comm]; omega⟩⟩
  · rintro ⟨⟨h1, h2⟩, ⟨q, hq⟩⟩
    have hq0 : 0 ≤ q := by
      rcases Int.lt_or_le q 0 with h | h
      · have := Int.mul_neg_of_pos_of_neg hs h; omega
      · exact h
    refine ⟨⟨q.toNat, ?_⟩, h2⟩
    rw [Int.toNat_of_nonneg hq0, Int.mul_comm]
    omega

theorem down_iff {x start e s : Int} (hs : 0 < s) :
    (∃ k : Nat, x = start + k * -s ∧ Before (-s) x e) ↔ (x ≤ start ∧ x > e) ∧ -s ∣ x - start := by
  have hb : Before (-s) x e ↔ e < x := by unfold Before; rw [if_neg (by omega)]
  rw [show (∃ k : Nat, x = start + k * -s ∧ Before (-s) x e) ↔ (∃ k : Nat, x = start + k * -s) ∧ e < x by
    constructor
    · rintro ⟨k, a, b⟩; exact ⟨⟨k, a⟩, hb.1 b⟩
    · rintro ⟨⟨k, a⟩, b⟩; exact ⟨k, a, hb.2 b⟩]
  constructor
  · rintro ⟨⟨k, hk⟩, h⟩
    have : 0 ≤ (k : Int) * s := Int.mul_nonneg (Int.natCast_nonneg k) (Int.le_of_lt hs)
    rw [Int.mul_neg] at hk
    exact ⟨⟨by omega, h⟩, ⟨k, by rw [Int.mul_comm, Int.mul_neg]; omega⟩⟩
  · rintro ⟨⟨h1, h2⟩, ⟨q, hq⟩⟩
    rw [Int.neg_mul] at hq
    have hq0 : 0 ≤ q := by
      rcases Int.lt_or_le q 0 with h | h
      · have := Int.mul_neg_of_pos_of_neg hs h; omega
      · exact h
    refine ⟨⟨q.toNat, ?_⟩, h2⟩
    rw [Int.toNat_of_nonneg hq0, Int.mul_neg, Int.mul_comm]
    omega

theorem test_up {start e s x : Int} {st : RangeLoop.Step} (hn : negStep st = false) (hc : stepC st = some (.ok s)) (hs : 0 < s)
    (hd : x - start < 2 ^ 63) :
    ∃ b, rangeTest start e st x = .ok b ∧ (b = true ↔ (x ≥ start ∧ x < e) ∧ s ∣ x - start) := by
  have m1 : minI64 = -2 ^ 63 := rfl
  have m2 : maxI64 = 2 ^ 63 - 1 := rfl
  unfold rangeTest
  rw [hn, hc]
  simp only [Bool.false_eq_true, if_false]
  by_cases h : x ≥ start ∧ x < e
  · rw [if_pos h]
    refine ⟨(x - start).tmod s == 0, ?_, ?_⟩
    · show (if _ then Outcome.ub else Outcome.ok _) = _
      rw [if_neg (by omega)]
    · rw [tmod_zero]; exact ⟨fun q => ⟨h, q⟩, fun q => q.2⟩
  · rw [if_neg h]
    exact ⟨false, rfl, ⟨fun q => (by cases q), fun q => absurd q.1 h⟩⟩

theorem range_ok {start e x : Int} {st : RangeLoop.Step} (hI : I64 (stepValue st)) (h : StepOk start x st) :
    ∃ b, rangeTest start e st x = .ok b ∧ (b = true ↔ ∃ k : Nat, x = start + k * stepValue st ∧ Before (stepValue st) x e) := by
  have m1 : minI64 = -2 ^ 63 := rfl
  have m2 : maxI64 = 2 ^ 63 - 1 := rfl
  cases st with
  | none =>
    unfold rangeTest
    simp only [negStep, stepC, Bool.false_eq_true, if_false]
    by_cases q : x ≥ start ∧ x < e
    · rw [if_pos q]
      exact ⟨true, rfl, ⟨fun _ => (up_iff (by decide)).2 ⟨q, Int.one_dvd _⟩, fun _ => rfl⟩⟩
    · rw [if_neg q]
      exact ⟨false, rfl, ⟨fun h => (by cases h), fun h => absurd ((up_iff (by decide)).1 h).1 q⟩⟩
  | lit v =>
    obtain ⟨b, h1, h2⟩ := test_up (st := .lit v) (start := start) (e := e) (x := x) rfl rfl h.1 h.2
    exact ⟨b, h1, h2.trans (up_iff h.1).symm⟩
  | var v =>
    obtain ⟨b, h1, h2⟩ := test_up (st := .var v) (start := start) (e := e) (x := x) rfl rfl h.1 h.2
    exact ⟨b, h1, h2.trans (up_iff h.1).symm⟩
  | neg v =>
    obtain ⟨hv, hd⟩ := h
    have hI' : -2 ^ 63 ≤ -v ∧ -v < 2 ^ 63 := hI
    have hc : stepC (.neg v) = some (.ok (-v)) := by
      show some (if 0 - v < minI64 ∨ 0 - v > maxI64 then Outcome.panic "P0007" else .ok (0 - v)) = _
      rw [if_neg (by omega), Int.zero_sub]
    show ∃ b, _ ∧ (_ ↔ ∃ k : Nat, x = start + k * -v ∧ Before (-v) x e)
    rw [down_iff hv]
    unfold rangeTest
    rw [hc]
    simp only [negStep, if_true]
    by_cases q : x ≤ start ∧ x > e
    · rw [if_pos q]
      refine ⟨(x - start).tmod (-v) == 0, ?_, ?_⟩
      · show (if _ then Outcome.ub else Outcome.ok _) = _
        rw [if_neg (by omega)]
      · rw [tmod_zero]; exact ⟨fun r => ⟨q, r⟩, fun r => r.2⟩
    · rw [if_neg q]
      exact ⟨false, rfl, ⟨fun r => (by cases r), fun r => absurd r.1 q⟩⟩

theorem test_ok {ts : IntTy} {x : Int} {v : CaseVal} (hx : InTy ts x) (ht : Typed ts v) (hs : Sound ts x v) :
    ∃ b, v.test ts x = .ok b ∧ (b = true ↔ Matches x v) := by
  cases v with
  | val t z => exact ⟨_, rfl, C64_cmp_partial .eq ts t x z hx ht hs⟩
  | range start e st =>
    obtain ⟨_, _, _, h4, _⟩ := ht
    exact range_ok h4 hs.2

theorem any_ok {ts : IntTy} {x : Int} (hx : InTy ts x) : ∀ (c : List CaseVal), (∀ v ∈ c, Typed ts v ∧ Sound ts x v) →
    ∃ b, anyTest ts x c = .ok b ∧ (b = true ↔ ∃ v ∈ c, Matches x v)
  | [], _ => ⟨false, rfl, ⟨fun h => (by cases h), fun ⟨_, h, _⟩ => (by cases h)⟩⟩
  | v :: c, h => by
    obtain ⟨b, h1, h2⟩ := test_ok hx (h v List.mem_cons_self).1 (h v List.mem_cons_self).2
    obtain ⟨b', h3, h4⟩ := any_ok hx c fun w hw => h w (List.mem_cons_of_mem _ hw)
    unfold anyTest
    rw [h1]
    cases b with
    | true => exact ⟨true, rfl, ⟨fun _ => ⟨v, List.mem_cons_self, h2.1 rfl⟩, fun _ => rfl⟩⟩
    | false =>
      refine ⟨b', h3, h4.trans ⟨fun ⟨w, a, m⟩ => ⟨w, List.mem_cons_of_mem _ a, m⟩, fun ⟨w, a, m⟩ => ?_⟩⟩
      rcases List.mem_cons.1 a with rfl | a
      · exact absurd (h2.2 m) (by decide)
      · exact ⟨w, a, m⟩

theorem select_ok {ts : IntTy} {x : Int} (hx : InTy ts x) : ∀ (cs : List (List CaseVal)),
    (∀ c ∈ cs, ∀ v ∈ c, Typed ts v ∧ Sound ts x v) → ∃ n, select ts x cs = .ok n ∧ First x cs n
  | [], _ => ⟨0, rfl, fun _ _ h => absurd h (Nat.not_lt_zero _), .inl rfl⟩
  | c :: cs, h => by
    obtain ⟨b, h1, h2⟩ := any_ok hx c (h c List.mem_cons_self)
    obtain ⟨n, h3, h4, h5⟩ := select_ok hx cs fun d hd => h d (List.mem_cons_of_mem _ hd)
    unfold select
    rw [h1]
    cases b with
    | true => exact ⟨0, rfl, fun _ _ h => absurd h (Nat.not_lt_zero _), .inr ⟨c, rfl, h2.1 rfl⟩⟩
    | false =>
      refine ⟨n + 1, ?_, ?_, ?_⟩
      · show (select ts x cs).bind _ = _
        rw [h3]
        rfl
      · intro i d hi hd v hv m
        cases i with
        | zero =>
          have : c = d := Option.some.inj hd
          subst this
          exact absurd (h2.2 ⟨v, hv, m⟩) (by decide)
        | succ i => exact h4 i d (Nat.lt_of_succ_lt_succ hi) hd v hv m
      · rcases h5 with h5 | ⟨d, h5, h6⟩
        · exact .inl (by rw [h5]; rfl)
        · exact .inr ⟨d, h5, h6⟩

end Wn

/-- The text for the cases is C, and the case that runs is the first with a matching value. -/
def C274_statement : Prop := ∀ (ts : IntTy) (x : Int) (cs : List (List CaseVal)), InTy ts x → (∀ c ∈ cs, ∀ v ∈ c, Typed ts v) →
  (∀ c ∈ cs, ∀ v ∈ c, v.isC = true) ∧ ∃ n, select ts x cs = .ok n ∧ First x cs n

/-- `when u { is -1 {` for the largest `uint`; -/
theorem C274_witness : select .uint 18446744073709551615 [[.val .int (-1)]] = .ok 0
    ∧ ¬ Matches 18446744073709551615 (.val .int (-1)) := ⟨by decide +kernel, by intro h; cases h⟩

theorem C274_fails : ¬ C274_statement := fun h => by
  obtain ⟨n, h1, _, h3⟩ := (h .uint 18446744073709551615 [[.val .int (-1)]] (by simp only [InTy, loTy, hiTy]; omega) (by
    intro c hc v hv
    rw [List.mem_singleton.1 hc] at hv
    rw [List.mem_singleton.1 hv]
    show InTy .int (-1)
    simp only [InTy, loTy, hiTy]; omega)).2
  have : n = 0 := by
    rw [C274_witness.1] at h1
    exact (Outcome.ok.inj h1).symm
  subst this
  rcases h3 with h3 | ⟨c, hc, v, hv, m⟩
  · cases h3
  · have := Option.some.inj hc
    subst this
    rw [List.mem_singleton.1 hv] at m
    exact C274_witness.2 m

/-- `is range(10, 0, s)` with the variable `s = -2` never matches, while `-2` as a step does. -/
theorem C274_step_fails : Matches 8 (.range (some 10) 0 (.var (-2))) ∧ select .int 8 [[.range (some 10) 0 (.var (-2))]] = .ok 1
    ∧ select .int 8 [[.range (some 10) 0 (.neg 2)]] = .ok 0 :=
  ⟨⟨1, by decide, by decide⟩, by decide +kernel, by decide +kernel⟩

/-- A step of 0 is a division by zero, and differences may overflow. -/
theorem C274_ub_fails : select .int 3 [[.range (some 0) 9 (.var 0)]] = .ub
    ∧ select .int 2 [[.range (some (-9223372036854775807)) 9 (.lit 2)]] = .ub := by decide +kernel

/-- `range(n)` leaves a hole in the text. -/
theorem C274_text_fails (e : Int) (st : RangeLoop.Step) : (CaseVal.range none e st).isC = false := rfl

/-- For values of a type as signed as the subject's, or not negative, and ranges with a start and a step that is positive or written
with a minus. Missing: negative values for unsigned subjects, steps that are negative variables, differences that are no `int`. -/
theorem C274_partial (ts : IntTy) (x : Int) (cs : List (List CaseVal)) (hx : InTy ts x)
    (h : ∀ c ∈ cs, ∀ v ∈ c, Typed ts v ∧ Sound ts x v) :
    (∀ c ∈ cs, ∀ v ∈ c, v.isC = true) ∧ ∃ n, select ts x cs = .ok n ∧ First x cs n := by
  refine ⟨fun c hc v hv => ?_, select_ok hx cs h⟩
  cases v with
  | val t z => rfl
  | range start e st =>
    have := (h c hc _ hv).2.1
    cases start with
    | none => cases this
    | some s => rfl

/-- There is one such case. -/
theorem C274_unique (x : Int) (cs : List (List CaseVal)) (n m : Nat) (hn : First x cs n) (hm : First x cs m) : n = m := by
  have key : ∀ n m, First x cs n → First x cs m → ¬ n < m := by
    intro n m hn hm h
    rcases hn.2 with e | ⟨c, hc, v, hv, q⟩
    · rcases hm.2 with e' | ⟨c, hc, _⟩
      · omega
      · have := (List.getElem?_eq_some_iff.1 hc).1; omega
    · exact hm.1 n c h hc v hv q
  have := key n m hn hm
  have := key m n hm hn
  omega

example : select .int 7 [[.val .int 3, .range (some 0) 6 .none], [.range (some 1) 9 (.lit 3)], [.val .int 7]] = .ok 1 := by
  decide +kernel

/-! ### C275 -/

namespace Wn

/-- The values a subject can have: those of its enum. -/
def Possible (es : List Enum) (s : SubjectTy) (x : Int) : Prop :=
  match s with
  | .int => True
  | .enum n => ∃ d ∈ es, d.name = n ∧ ∃ w ∈ d.variants, w.2 = x

/-- The variant is one of the enum. -/
def names (n : Str) : StrictVal → Option Str
  | .member e v => if e = n then some v else none
  | .implicit v => some v
  | .int _ => none

end Wn

/-- With `#strict` and no error, every value of the subject is that of a case. -/
def C275_statement : Prop := ∀ (es : List Enum) (s : SubjectTy) (vs : List StrictVal), (es.map Enum.name).Nodup →
  (∀ d ∈ es, (d.variants.map Prod.fst).Nodup) → (∀ v ∈ vs, v.known es s = true) → strictOk es s vs = true →
  ∀ x, Possible es s x → ∃ v ∈ vs, v.hits es s x = true

namespace Wn
/-- `A = 10, B = 20`, and `C { A, B }` -/
def two : List Enum := [{ name := lit "E", variants := [(lit "A", 10), (lit "B", 20)] }, { name := lit "F", variants := [(lit "A", 0), (lit "B", 1)] }]
end Wn

/-- `is 0 { } is .B { }`: the number of the variant is taken for its value. -/
theorem C275_witness : strictOk two (.enum (lit "E")) [.int 0, .implicit (lit "B")] = true ∧ Possible two (.enum (lit "E")) 10
    ∧ ∀ v ∈ [StrictVal.int 0, .implicit (lit "B")], v.known two (.enum (lit "E")) = true ∧ v.hits two (.enum (lit "E")) 10 = false :=
  ⟨by decide +kernel, ⟨_, List.mem_cons_self, rfl, _, List.mem_cons_self, rfl⟩, by
    intro v hv
    rcases List.mem_cons.1 hv with rfl | hv
    · decide +kernel
    · rw [List.mem_singleton.1 hv]; decide +kernel⟩

theorem C275_fails : ¬ C275_statement := fun h => by
  obtain ⟨h1, h2, h3⟩ := C275_witness
  obtain ⟨v, hv, q⟩ := h two (.enum (lit "E")) _ (by decide +kernel) (by
    intro d hd
    rcases List.mem_cons.1 hd with rfl | hd
    · decide +kernel
    · rw [List.mem_singleton.1 hd]; decide +kernel) (fun v hv => (h3 v hv).1) h1 10 h2
  rw [(h3 v hv).2] at q
  cases q

/-- The variants of another enum count; and so do those of an enum for a subject of type `int`. -/
theorem C275_other_fails :
    (strictOk two (.enum (lit "E")) [.member (lit "F") (lit "A"), .member (lit "F") (lit "B")] = true
      ∧ StrictVal.hits two (.enum (lit "E")) 10 (.member (lit "F") (lit "A")) = false
      ∧ StrictVal.hits two (.enum (lit "E")) 10 (.member (lit "F") (lit "B")) = false)
    ∧ strictOk two .int [.member (lit "F") (lit "A"), .member (lit "F") (lit "B")] = true := by decide +kernel

theorem Wn.find_pair : ∀ {l : List (Str × Int)} {w : Str × Int}, (l.map Prod.fst).Nodup → w ∈ l → l.find? (fun u => u.1 == w.1) = some w
  | a :: l, w, hn, hw => by
    rw [List.map_cons, List.nodup_cons] at hn
    rcases List.mem_cons.1 hw with rfl | hw
    · rw [List.find?_cons, beq_iff_eq.2 rfl]
    · have : a.1 ≠ w.1 := fun e => hn.1 (e ▸ List.mem_map_of_mem hw)
      rw [List.find?_cons, beq_eq_false_iff_ne.2 this]
      exact find_pair hn.2 hw

theorem Wn.find_enum : ∀ {l : List Enum} {d : Enum}, (l.map Enum.name).Nodup → d ∈ l → enumOf l d.name = some d
  | a :: l, d, hn, hd => by
    rw [List.map_cons, List.nodup_cons] at hn
    unfold enumOf
    rcases List.mem_cons.1 hd with rfl | hd
    · rw [List.find?_cons, beq_iff_eq.2 rfl]
    · have : a.name ≠ d.name := fun e => hn.1 (e ▸ List.mem_map_of_mem hd)
      rw [List.find?_cons, beq_eq_false_iff_ne.2 this]
      exact find_enum hn.2 hd

/-- If all values are variants of the enum of the subject, no error means that every value of the subject has a case, and there is no
error if every variant is named. Missing: integers and variants of other enums as case values, and subjects that are integers. -/
theorem C275_partial (es : List Enum) (d : Enum) (vs : List StrictVal) (hn : (es.map Enum.name).Nodup) (hd : d ∈ es)
    (hv : (d.variants.map Prod.fst).Nodup) (h : ∀ v ∈ vs, (names d.name v).isSome) :
    (strictOk es (.enum d.name) vs = true → ∀ x, Possible es (.enum d.name) x → ∃ v ∈ vs, v.hits es (.enum d.name) x = true) ∧
    (vs ≠ [] → (strictOk es (.enum d.name) vs = true ↔ ∀ w ∈ d.variants, ∃ v ∈ vs, names d.name v = some w.1)) := by
  have he := find_enum hn hd
  have hen : vs ≠ [] → strictEnum es (.enum d.name) vs = some d.name := by
    intro h0
    cases vs with
    | nil => exact absurd rfl h0
    | cons v vs =>
      have := h v List.mem_cons_self
      unfold strictEnum
      cases v with
      | member e v =>
        by_cases q : e = d.name
        · subst q
          rw [List.findSome?_cons]
          simp only []
          rw [he]
          rfl
        · simp only [names, if_neg q] at this
          cases this
      | implicit v => rfl
      | int z => cases this
  have hcov : ∀ v ∈ vs, ∀ (n : Str) (i : Nat), v.covers n i = true ↔ names d.name v = some n := by
    intro v hm n i
    have := h v hm
    cases v with
    | member e v =>
      by_cases q : e = d.name
      · simp only [StrictVal.covers, names, if_pos q, beq_iff_eq, Option.some.injEq]
      · simp only [names, if_neg q] at this
        cases this
    | implicit v => simp only [StrictVal.covers, names, beq_iff_eq, Option.some.injEq]
    | int z => cases this
  have hiff : vs ≠ [] → (strictOk es (.enum d.name) vs = true ↔ ∀ w ∈ d.variants, ∃ v ∈ vs, names d.name v = some w.1) := by
    intro h0
    unfold strictOk
    rw [hen h0]
    simp only []
    rw [he]
    simp only [List.all_eq_true, List.any_eq_true]
    constructor
    · intro q w hw
      obtain ⟨i, hi⟩ := List.mem_iff_getElem?.1 hw
      obtain ⟨v, a, b⟩ := q (w, i) (List.mk_mem_zipIdx_iff_getElem?.2 hi)
      exact ⟨v, a, (hcov v a _ _).1 b⟩
    · intro q w hw
      obtain ⟨v, a, b⟩ := q w.1 (by
        obtain ⟨w, i⟩ := w
        exact List.mem_iff_getElem?.2 ⟨i, List.mk_mem_zipIdx_iff_getElem?.1 hw⟩)
      exact ⟨v, a, (hcov v a _ _).2 b⟩
  refine ⟨fun hok x hx => ?_, hiff⟩
  have h0 : vs ≠ [] := by
    rintro rfl
    cases hok
  obtain ⟨d', hd', en, w, hw, rfl⟩ := hx
  have : d' = d := Option.some.inj ((find_enum hn hd').symm.trans (en ▸ he))
  subst this
  obtain ⟨v, hm, q⟩ := (hiff h0).1 hok w hw
  have hval : valueOf es d'.name w.1 = some w.2 := by
    unfold valueOf
    rw [he]
    show (d'.variants.find? _).map _ = _
    rw [find_pair hv hw]
    rfl
  refine ⟨v, hm, ?_⟩
  cases v with
  | member e v =>
    by_cases r : e = d'.name
    · simp only [names, if_pos r, Option.some.injEq] at q
      subst q r
      show (valueOf es d'.name w.1 == some w.2) = true
      rw [hval, beq_iff_eq]
    · simp only [names, if_neg r] at q
      cases q
  | implicit v =>
    simp only [names, Option.some.injEq] at q
    subst q
    show (valueOf es d'.name w.1 == some w.2) = true
    rw [hval, beq_iff_eq]
  | int z => cases q

example : strictOk two (.enum (lit "E")) [.member (lit "E") (lit "A"), .implicit (lit "B")] = true
    ∧ strictOk two (.enum (lit "E")) [.implicit (lit "B")] = false := by decide +kernel

/-! ### C276 -/

namespace Wn

/-- Literals below 2⁶⁴. -/
def Small : LitVal → Prop
  | .int z => 0 ≤ z ∧ z < 2 ^ 64
  | .neg z => 0 ≤ z ∧ z < 2 ^ 64
  | _ => True

/-- Numbers and strings. -/
def Plain : LitVal → Prop
  | .int _ => True
  | .str _ => True
  | _ => False

theorem toI64_inj {a b : Int} (ha : 0 ≤ a ∧ a < 2 ^ 64) (hb : 0 ≤ b ∧ b < 2 ^ 64) (h : toI64 a = toI64 b) : a = b := by
  unfold toI64 at h
  rw [Int.bmod_def, Int.bmod_def] at h
  split at h <;> split at h <;> omega

theorem dup_iff {u v : LitVal} (hu : Small u) (hv : Small v) : u.dup v = true ↔ u = v ∧ Plain u := by
  cases u <;> cases v <;> simp only [LitVal.dup, Plain, Bool.false_eq_true, reduceCtorEq, false_and, and_false, beq_iff_eq,
    LitVal.int.injEq, LitVal.str.injEq, and_true]
  exact ⟨toI64_inj hu hv, fun h => by rw [h]⟩

theorem noDup_iff : ∀ (cs : List (List LitVal)) (before : List LitVal), noDup cs before = true ↔
    (∀ c ∈ cs, ∀ v ∈ c, ∀ p ∈ before, v.dup p = false) ∧
    (cs.Pairwise fun c d => ∀ p ∈ c, ∀ v ∈ d, v.dup p = false)
  | [], before => by simp [noDup]
  | c :: cs, before => by
    unfold noDup
    rw [Bool.and_eq_true_iff, noDup_iff cs (before ++ c)]
    simp only [List.all_eq_true, Bool.not_eq_true', List.mem_append, List.pairwise_cons, List.mem_cons, forall_eq_or_imp]
    constructor
    · rintro ⟨h1, h2, h3⟩
      exact ⟨⟨h1, fun d hd v hv p hp => h2 d hd v hv p (.inl hp)⟩, fun d hd p hp v hv => h2 d hd v hv p (.inr hp), h3⟩
    · rintro ⟨⟨h1, h2⟩, h3, h4⟩
      exact ⟨h1, fun d hd v hv p hp => hp.elim (h2 d hd v hv p) fun hp => h3 d hd p hp v hv, h4⟩

end Wn

/-- Two equal values of cases are reported, and nothing else is. -/
def C276_statement : Prop := ∀ cs : List (List LitVal), (∀ c ∈ cs, ∀ v ∈ c, Small v) → (noDup cs [] = true ↔ cs.flatten.Nodup)

/-- `is 1, 1`, `is -1` twice, `is 'a'` twice and `is .A` twice are accepted. -/
theorem C276_witness : noDup [[.int 1, .int 1]] [] = true ∧ noDup [[.neg 1], [.neg 1]] [] = true
    ∧ noDup [[.chr 97], [.chr 97]] [] = true ∧ noDup [[.variant (lit "E") (lit "A")], [.variant (lit "E") (lit "A")]] [] = true := by
  decide +kernel

theorem C276_fails : ¬ C276_statement := fun h => by
  have := (h [[.int 1, .int 1]] (by
    intro c hc v hv
    rw [List.mem_singleton.1 hc] at hv
    rcases List.mem_cons.1 hv with rfl | hv
    · exact ⟨by decide, by decide⟩
    · rw [List.mem_singleton.1 hv]; exact ⟨by decide, by decide⟩)).1 C276_witness.1
  revert this
  decide

/-- Equal numbers and equal strings of different cases are reported, and nothing else is. Missing: values of one case, negative
numbers, characters and variants. -/
theorem C276_partial (cs : List (List LitVal)) (h : ∀ c ∈ cs, ∀ v ∈ c, Small v) :
    noDup cs [] = true ↔ cs.Pairwise fun c d => ∀ u ∈ c, Plain u → u ∉ d := by
  rw [noDup_iff]
  simp only [List.not_mem_nil, false_imp_iff, implies_true, true_and]
  constructor
  · intro q
    refine q.imp_of_mem ?_
    intro c d hc hd r u hu hp hm
    exact absurd ((dup_iff (h d hd u hm) (h c hc u hu)).2 ⟨rfl, hp⟩) (by rw [r u hu u hm]; decide)
  · intro q
    refine q.imp_of_mem ?_
    intro c d hc hd r p hp v hv
    cases e : v.dup p with
    | false => rfl
    | true =>
      obtain ⟨rfl, hpl⟩ := (dup_iff (h d hd v hv) (h c hc p hp)).1 e
      exact absurd hv (r _ hp hpl)

example : noDup [[.int 1, .int 2], [.str (lit "a")], [.int 2]] [] = false := by decide +kernel

/-! ### C277 -/

/-- The names that an accepted pattern declares are those the body uses, are different from each other, and the enum written is that
of the subject. -/
def C277_statement : Prop := ∀ (subject : Str) (variants : List (Str × Nat)) (w : Option Str) (v : Str) (ns : List Str),
  patternOk variants w v ns = true → declared ns = ns.map Names.cName ∧ (declared ns).Nodup ∧ ∀ e, w = some e → e = subject

/-- `is .Circle(long)` declares `long` and uses `_gray_long`. -/
theorem C277_witness : patternOk [(lit "Circle", 1)] none (lit "Circle") [lit "long"] = true
    ∧ declared [lit "long"] = [lit "long"] ∧ Names.cName (lit "long") = lit "_gray_long" := by decide +kernel

theorem C277_fails : ¬ C277_statement := fun h => by
  have := (h [] _ _ _ _ C277_witness.1).1
  rw [C277_witness.2.1] at this
  revert this
  decide +kernel

/-- `is .Rect(x, x)`, and `is Other.Circle(x)` for a subject of another enum with a variant `Circle`. -/
theorem C277_other_fails : patternOk [(lit "Rect", 2)] none (lit "Rect") [lit "x", lit "x"] = true
    ∧ ¬ (declared [lit "x", lit "x"]).Nodup
    ∧ ∀ e, patternOk [(lit "Circle", 1)] (some e) (lit "Circle") [lit "x"] = true :=
  ⟨by decide +kernel, by decide +kernel, fun _ => by
    show patternOk [(lit "Circle", 1)] none (lit "Circle") [lit "x"] = true
    decide +kernel⟩

/-- The names are those of the body exactly if none is a word of C. Accepted patterns have a variant of the enum and a name for each
part of its payload, which is not the name of a type. Missing: words of C, equal names and the enum that is written. -/
theorem C277_partial (variants : List (Str × Nat)) (w : Option Str) (v : Str) (ns : List Str) :
    (declared ns = ns.map Names.cName ↔ ∀ n ∈ ns, n ∉ Names.cWords) ∧ ((declared ns).Nodup ↔ ns.Nodup) ∧
    ((variants.map Prod.fst).Nodup →
      (patternOk variants w v ns = true ↔ (v, ns.length) ∈ variants ∧ ∀ n ∈ ns, n ∉ Names.typeNames)) := by
  refine ⟨?_, .rfl, fun hn => ?_⟩
  · show ns = ns.map Names.cName ↔ _
    induction ns with
    | nil => simp
    | cons n ns ih =>
      rw [List.map_cons, List.cons.injEq, ih]
      simp only [List.mem_cons, forall_eq_or_imp]
      refine and_congr ⟨fun e hm => ?_, fun h => (Na.cName_plain h).symm⟩ .rfl
      rw [Na.cName_word hm] at e
      have := congrArg List.length e
      rw [List.length_append] at this
      have : (lit "_gray_").length = 6 := by decide
      omega
  · have ht : (ns.all fun n => !Names.search Names.typeNames n) = true ↔ ∀ n ∈ ns, n ∉ Names.typeNames := by
      rw [List.all_eq_true]
      refine forall_congr' fun n => imp_congr_right fun _ => ?_
      rw [← Na.search_iff Na.typeNames_ordered n]
      cases Names.search Names.typeNames n <;> simp
    unfold patternOk
    rw [Bool.and_eq_true_iff, ht]
    refine ⟨fun ⟨a, b⟩ => ⟨?_, a⟩, fun ⟨a, b⟩ => ⟨b, ?_⟩⟩
    · cases q : variants.find? fun w => w.1 == v with
      | none => rw [q] at b; cases b
      | some u =>
        rw [q] at b
        have h1 := List.mem_of_find?_eq_some q
        have h2 : u.1 = v := beq_iff_eq.1 (List.find?_some (p := fun w : Str × Nat => w.1 == v) q)
        have h3 : u.2 = ns.length := beq_iff_eq.1 b
        rw [← h2, ← h3]
        exact h1
    · have key : ∀ {l : List (Str × Nat)}, (l.map Prod.fst).Nodup → (v, ns.length) ∈ l →
          l.find? (fun w => w.1 == v) = some (v, ns.length) := by
        intro l
        induction l with
        | nil => intro _ h; cases h
        | cons x l ih =>
          intro hn hm
          rw [List.map_cons, List.nodup_cons] at hn
          rcases List.mem_cons.1 hm with rfl | hm
          · rw [List.find?_cons, beq_iff_eq.2 rfl]
          · have : x.1 ≠ v := fun e => hn.1 (e ▸ List.mem_map_of_mem hm)
            rw [List.find?_cons, beq_eq_false_iff_ne.2 this]
            exact ih hn.2 hm
      rw [key hn a]
      exact beq_iff_eq.2 rfl

example : patternOk [(lit "Circle", 1)] none (lit "Circle") [lit "r"] = true
    ∧ patternOk [(lit "Circle", 1)] none (lit "Circle") [lit "int"] = false := by decide +kernel

/-! ### C278 -/

/-- Accepted comparisons are C. -/
def C278_statement : Prop := ∀ (s v : VTy) (own : Bool), compat s v = true → validC s v own = true

/-- An `i128` and an integer literal. -/
theorem C278_witness : compat .i128 .int = true ∧ validC .i128 .int true = false := by decide

theorem C278_fails : ¬ C278_statement := fun h => by
  have := h .i128 .int true C278_witness.1
  rw [C278_witness.2] at this
  cases this

namespace Wn

def Wide (t : VTy) : Prop := t = .i128 ∨ t = .u128 ∨ t = .i256 ∨ t = .u256
def OneEnum (t : VTy) : Prop := t = .enumInt ∨ t = .enumString ∨ t = .enumTagged

instance (t : VTy) : Decidable (Wide t) := by unfold Wide; infer_instance
instance (t : VTy) : Decidable (OneEnum t) := by unfold OneEnum; infer_instance

/-- The accepted comparisons that are not C. -/
def Broken (s v : VTy) (own : Bool) : Prop :=
  (s ≠ v ∧ (Wide s ∨ Wide v) ∧ s ≠ .enumTagged)
  ∨ (s = .enumTagged ∧ Wide v)
  ∨ (s ≠ v ∧ OneEnum s ∧ OneEnum v ∧ s ≠ .enumTagged)
  ∨ (s = .enumTagged ∧ OneEnum v ∧ own = false)
  ∨ (s = .enumString ∧ (v = .int ∨ v = .uint ∨ v = .byte))
  ∨ ((s = .int ∨ s = .uint ∨ s = .byte) ∧ (v = .enumString ∨ v = .enumTagged))

instance (s v : VTy) (own : Bool) : Decidable (Broken s v own) := by unfold Broken; infer_instance

end Wn

/-- The comparisons that are accepted and not C: wide integers with other types, different sorts of enums, enums of strings or with
payloads with numbers, and variants of other enums for one with payloads. Missing: these. -/
theorem C278_partial (s v : VTy) (own : Bool) (h : compat s v = true) : validC s v own = false ↔ Broken s v own := by
  revert h
  cases s <;> cases v <;> cases own <;> decide

/-- Strings, numbers, characters and booleans of the same type are compared. -/
theorem C278_same (t : VTy) : compat t t = true ∧ validC t t true = true := by cases t <;> decide

/-! ### C279 -/

namespace Wn

def numbers : Parts → List Nat
  | .one e => [e]
  | .range s e none => [s, e]
  | .range s e (some t) => [s, e, t]

def noStep : Parts → Prop
  | .range _ _ (some _) => False
  | _ => True

end Wn

/-- The subject is evaluated once and first, then the expressions of the cases in the order in which they are written, each at most
once. -/
def C279_statement : Prop := ∀ cases : List (List (Parts × Reach)),
  (evaluated cases).Sublist (0 :: cases.flatten.flatMap fun q => numbers q.1)

/-- The start of a range with a step is evaluated again after its end. -/
theorem C279_witness : evaluated [[(.range 1 2 (some 3), .hit)]] = [0, 1, 2, 1, 3] := by decide

theorem C279_fails : ¬ C279_statement := fun h => by
  have := (h [[(.range 1 2 (some 3), .hit)]]).length_le
  revert this
  decide

theorem Wn.eval_sub (p : Parts) (r : Reach) (h : noStep p) : (p.evaluated r).Sublist (numbers p) := by
  match p, r with
  | .one e, r => exact List.Sublist.refl _
  | .range s e none, .first => exact .cons_cons _ (List.nil_sublist _)
  | .range s e none, .second => exact List.Sublist.refl _
  | .range s e none, .hit => exact List.Sublist.refl _
  | .range s e none, .last => exact List.Sublist.refl _
  | .range s e (some t), r => exact absurd h id

theorem Wn.all_sub : ∀ (ps : List (Parts × Reach)), (∀ q ∈ ps, noStep q.1) →
    (evaluatedAll ps).Sublist (ps.flatMap fun q => numbers q.1)
  | [], _ => List.Sublist.refl _
  | (p, r) :: ps, h => by
    have h1 := eval_sub p r (h _ List.mem_cons_self)
    have h2 := all_sub ps fun q hq => h q (List.mem_cons_of_mem _ hq)
    rw [List.flatMap_cons]
    cases r with
    | hit =>
      show (p.evaluated .hit).Sublist _
      exact h1.trans (List.sublist_append_left _ _)
    | first => exact h1.append h2
    | second => exact h1.append h2
    | last => exact h1.append h2

/-- Without steps. In all cases nothing after the value that matches is evaluated. Missing: ranges with a step, whose start is
evaluated twice. -/
theorem C279_partial (cases : List (List (Parts × Reach))) :
    ((∀ q ∈ cases.flatten, noStep q.1) → (evaluated cases).Sublist (0 :: cases.flatten.flatMap fun q => numbers q.1)) ∧
    (∀ pre p post, cases.flatten = pre ++ (p, .hit) :: post →
      ∀ n ∈ evaluated cases, n = 0 ∨ (∃ q ∈ pre, n ∈ numbers q.1) ∨ n ∈ numbers p) := by
  refine ⟨fun h => .cons_cons _ (all_sub _ h), ?_⟩
  have ev : ∀ (p : Parts) (r : Reach) (n : Nat), n ∈ p.evaluated r → n ∈ numbers p := by
    intro p r n
    match p, r with
    | .one e, r => exact id
    | .range s e none, .first => simp only [Parts.evaluated, numbers, List.mem_cons, List.not_mem_nil, or_false]; exact fun h => .inl h
    | .range s e (some t), .first => simp only [Parts.evaluated, numbers, List.mem_cons, List.not_mem_nil, or_false]; exact fun h => .inl h
    | .range s e none, .second | .range s e none, .hit | .range s e none, .last => exact id
    | .range s e (some t), .second => simp only [Parts.evaluated, numbers, List.mem_cons, List.not_mem_nil, or_false]; omega
    | .range s e (some t), .hit | .range s e (some t), .last =>
      simp only [Parts.evaluated, numbers, List.mem_cons, List.not_mem_nil, or_false]; omega
  have key : ∀ (pre : List (Parts × Reach)) (p : Parts) (post : List (Parts × Reach)), ∀ n ∈ evaluatedAll (pre ++ (p, .hit) :: post),
      (∃ q ∈ pre, n ∈ numbers q.1) ∨ n ∈ numbers p := by
    intro pre p post
    induction pre with
    | nil => exact fun n hn => .inr (ev p .hit n hn)
    | cons q pre ih =>
      obtain ⟨q, r⟩ := q
      have go : ∀ n, n ∈ q.evaluated r ++ evaluatedAll (pre ++ (p, .hit) :: post) →
          (∃ w ∈ (q, r) :: pre, n ∈ numbers w.1) ∨ n ∈ numbers p := by
        intro n hn
        rcases List.mem_append.1 hn with a | a
        · exact .inl ⟨_, List.mem_cons_self, ev q r n a⟩
        · rcases ih n a with ⟨w, b, c⟩ | b
          · exact .inl ⟨w, List.mem_cons_of_mem _ b, c⟩
          · exact .inr b
      intro n hn
      cases r with
      | hit => exact .inl ⟨_, List.mem_cons_self, ev q .hit n hn⟩
      | first => exact go n hn
      | second => exact go n hn
      | last => exact go n hn
  intro pre p post e n hn
  unfold evaluated at hn
  rw [e] at hn
  rcases List.mem_cons.1 hn with a | a
  · exact .inl a
  · exact .inr (key pre p post n a)

/-- The subject is evaluated once, in all cases. -/
theorem C279_subject (cases : List (List (Parts × Reach))) (h : ∀ q ∈ cases.flatten, 0 ∉ numbers q.1)
    (hs : ∀ q ∈ cases.flatten, noStep q.1) : ∃ l, evaluated cases = 0 :: l ∧ 0 ∉ l := by
  refine ⟨_, rfl, fun hm => ?_⟩
  obtain ⟨q, a, b⟩ := List.mem_flatMap.1 ((all_sub _ hs).subset hm)
  exact h q a b

example : evaluated [[(.one 1, .last), (.range 2 3 none, .hit)], [(.one 4, .hit)]] = [0, 1, 2, 3] := by decide

/-! ### C280 -/

/-- If no error is found in a block, every statement that is written to C is right. -/
def C280_statement : Prop := ∀ b : List Stmt, checkBlock b false = true → ∀ s ∈ emitBlock b, s ≠ .stmt false

/-- A wrong statement after a `return`. -/
theorem C280_witness : checkBlock [.ret, .stmt false] false = true := by decide

theorem C280_fails : ¬ C280_statement := fun h => h _ C280_witness (.stmt false) (by decide) rfl

/-- What is checked is what comes up to the first `return`. Missing: statements after a `return`. -/
theorem C280_partial (b : List Stmt) : checkBlock b false = true ↔ ∀ s ∈ b.takeWhile (fun s => decide (s ≠ .ret)), s ≠ .stmt false := by
  induction b with
  | nil => simp [checkBlock]
  | cons s b ih =>
    cases s with
    | ret =>
      rw [List.takeWhile_cons_of_neg (by decide)]
      constructor
      · intro _ s hs; cases hs
      · intro _
        show checkBlock b true = true
        cases b <;> rfl
    | stmt ok =>
      rw [List.takeWhile_cons_of_pos (by simp)]
      show (ok && checkBlock b false) = true ↔ _
      rw [Bool.and_eq_true_iff, ih]
      simp only [List.mem_cons, forall_eq_or_imp]
      refine and_congr ?_ .rfl
      cases ok <;> simp

/-- So a block without a `return`, or with one at its end, is right. -/
theorem C280_last (b : List Stmt) (h : .ret ∉ b.dropLast) (hc : checkBlock b false = true) : ∀ s ∈ emitBlock b, s ≠ .stmt false := by
  intro s hs
  have h1 := (C280_partial b).1 hc
  rcases List.eq_nil_or_concat b with rfl | ⟨c, t, rfl⟩
  · cases hs
  · rw [List.concat_eq_append, List.dropLast_concat] at h
    rw [List.concat_eq_append] at h1 hs
    rw [List.takeWhile_append_of_pos (p := fun s : Stmt => decide (s ≠ .ret)) fun x hx => decide_eq_true fun e : x = Stmt.ret => h (e ▸ hx)] at h1
    rcases List.mem_append.1 hs with a | a
    · exact h1 s (List.mem_append_left _ a)
    · rw [List.mem_singleton.1 a]
      intro e
      subst e
      exact h1 _ (List.mem_append_right _ (by decide)) rfl

example : checkBlock [.stmt true, .stmt false, .ret] false = false := by decide

end Verif.Props

import Verif.Props.Stmt

/-! C185 and C186: what the statement parser accepts. -/

namespace Verif.Props
open Verif Verif.Str Verif.Lexer Verif.Parser Verif.Stmt

/-- The end of the file is the last token. -/
def EofLast (ts : List Tok) : Prop := ∀ u t v, ts = u ++ t :: v → t.kind = .eof → v = []

/-- The readers of types and of other declarations read from the start of the tokens. -/
def ReadsOn (env : Env) : Prop :=
  (∀ ts t r, env.ty ts = some (t, r) → r <:+ ts) ∧ ∀ ts k t r, env.decl ts = some (k, t, r) → r <:+ ts

/-- Statements with the slips that the parser lets pass, or without them. Expressions, types, parameters and results are what
is read as such. -/
def readRules (env : Env) (lax : Bool) : Rules where
  X e w := ∃ n n' r, parse env.names n (w ++ r) = some (e, n', r)
  B e w := ∃ n n' r, parse env.names n (w ++ r) = some (e, n', r)
  T t w := ∃ r, env.ty (w ++ r) = some (t, r)
  P ps w := ∃ n n' r, paramList env n (w ++ r) = some (ps, n', r)
  Q rs w := ∃ r, resultPart env (w ++ r) = some (rs, r)
  S _ _ _ := True
  N b := env.reservedType b = false
  wide := true
  lax := lax

namespace St

theorem eof_suffix {a b : List Tok} (h : EofLast b) (hs : a <:+ b) : EofLast a := by
  obtain ⟨w, rfl⟩ := hs
  intro u t v e ht
  exact h (w ++ u) t v (by rw [e, List.append_assoc]) ht

theorem eof_tail {ts : List Tok} (h : EofLast ts) (he : kindAt ts = .eof) : ts.tail = [] := by
  cases ts with
  | nil => rfl
  | cons t r => exact h [] t r rfl he

theorem sym_cons {ts : List Tok} {s : String} (h : kindAt ts = sy s) : ∃ t, IsSym t s ∧ ts = t :: ts.tail := by
  cases ts with
  | nil => cases h
  | cons t r => exact ⟨t, h, rfl⟩

theorem kind_cons {ts : List Tok} (h : kindAt ts ≠ .eof) : ∃ t, t.kind = kindAt ts ∧ t.text = textAt ts ∧ ts = t :: ts.tail := by
  cases ts with
  | nil => exact absurd rfl h
  | cons t r => exact ⟨t, rfl, rfl, rfl⟩

theorem expect_some {s : String} {ts r : List Tok} (h : Stmt.expect s ts = some r) : ∃ t, IsSym t s ∧ ts = t :: r := by
  rw [Stmt.expect] at h
  split at h
  · rename_i hk
    obtain ⟨t, h1, h2⟩ := sym_cons hk
    cases h
    exact ⟨t, h1, h2⟩
  · cases h

variable {env : Env}

theorem x_of {n n' : Bool} {e : Expr} {ts r : List Tok} {b : Bool} (h : parse env.names n ts = some (e, n', r)) :
    ∃ w, ts = w ++ r ∧ (readRules env b).X e w ∧ (readRules env b).B e w := by
  obtain ⟨w, rfl⟩ := Ps.parse_suffix h
  exact ⟨w, rfl, ⟨n, n', r, h⟩, ⟨n, n', r, h⟩⟩

theorem values_of {b : Bool} : ∀ (f : Nat) {n n' : Bool} {acc es : List Expr} {ts r : List Tok},
    values env.names f n acc ts = some (es, n', r) →
    ∃ w es', ts = w ++ r ∧ es = acc.reverse ++ es' ∧ Vals (readRules env b).X (readRules env b).X es' w := by
  intro f
  induction f with
  | zero =>
    intro n n' acc es ts r h
    rw [values] at h
    cases h
  | succ f ih =>
    intro n n' acc es ts r h
    rw [values] at h
    simp only [Option.bind_eq_bind, Option.bind_eq_some_iff] at h
    obtain ⟨⟨e, n1, r1⟩, h1, h⟩ := h
    obtain ⟨w, rfl, hx, _⟩ := x_of (b := b) h1
    simp only at h
    split at h
    · rename_i hc
      obtain ⟨c, hc1, hc2⟩ := sym_cons hc
      obtain ⟨u, es', h3, h4, h5⟩ := ih h
      refine ⟨w ++ c :: u, e :: es', ?_, ?_, .cons hx hc1 h5⟩
      · rw [hc2, h3]; simp
      · rw [h4]; simp
    · cases h
      exact ⟨w, [e], rfl, by simp, .one hx⟩

theorem caseVals_of {b : Bool} : ∀ (f : Nat) {n n' : Bool} {acc vs : List WhenVal} {rg rg' : Bool} {ts r : List Tok},
    caseVals env.names f n acc rg ts = some ((vs, rg'), n', r) →
    ∃ w es, ts = w ++ r ∧ vs = acc.reverse ++ es.map .val ∧ Vals (readRules env b).X (readRules env b).B es w := by
  intro f
  induction f with
  | zero =>
    intro n n' acc vs rg rg' ts r h
    rw [caseVals] at h
    cases h
  | succ f ih =>
    intro n n' acc vs rg rg' ts r h
    rw [caseVals] at h
    simp only [Option.bind_eq_bind, Option.bind_eq_some_iff] at h
    obtain ⟨⟨e, n1, r1⟩, h1, h⟩ := h
    obtain ⟨w, rfl, hx, hy⟩ := x_of (b := b) h1
    simp only at h
    split at h
    · rename_i hc
      obtain ⟨c, hc1, hc2⟩ := sym_cons hc
      obtain ⟨u, es', h3, h4, h5⟩ := ih h
      refine ⟨w ++ c :: u, e :: es', ?_, ?_, .cons hx hc1 h5⟩
      · rw [hc2, h3]; simp
      · rw [h4]; simp
    · cases h
      exact ⟨w, [e], rfl, by simp, .one hy⟩

theorem bind_of : ∀ (f : Nat) {acc bs : List Str} {ts r : List Tok}, bindNames f acc ts = some (bs, r) →
    ∃ u c bs', ts = u ++ c :: r ∧ IsSym c ")" ∧ bs = acc.reverse ++ bs' ∧ (bs' = [] ∧ u = [] ∧ acc ≠ [] ∨ BindToks true bs' u) := by
  intro f
  induction f with
  | zero =>
    intro acc bs ts r h
    rw [bindNames] at h
    cases h
  | succ f ih =>
    intro acc bs ts r h
    rw [bindNames] at h
    split at h
    · rename_i hc
      obtain ⟨c, hc1, hc2⟩ := sym_cons hc
      split at h
      · cases h
      · rename_i ha
        cases h
        exact ⟨[], c, [], hc2, hc1, by simp, .inl ⟨rfl, rfl, ha⟩⟩
    · split at h
      · rename_i hi
        obtain ⟨t, ht1, ht2, ht3⟩ := kind_cons (by rw [hi]; nofun)
        rw [hi] at ht1
        by_cases hc : kindAt ts.tail = sy ","
        · rw [if_pos hc] at h
          obtain ⟨m, hm1, hm2⟩ := sym_cons hc
          obtain ⟨u, c, bs', h1, h2, h3, h4⟩ := ih h
          refine ⟨t :: m :: u, c, textAt ts :: bs', ?_, h2, ?_, .inr ?_⟩
          · rw [ht3, hm2, h1]; rfl
          · rw [h3]; simp
          · rw [← ht2]
            rcases h4 with ⟨rfl, rfl, _⟩ | h4
            · exact .comma rfl ht1 hm1
            · exact .cons ht1 hm1 h4
        · rw [if_neg hc] at h
          obtain ⟨u, c, bs', h1, h2, h3, h4⟩ := ih h
          refine ⟨t :: u, c, textAt ts :: bs', ?_, h2, ?_, .inr ?_⟩
          · rw [ht3, h1]; rfl
          · rw [h3]; simp
          · rw [← ht2]
            rcases h4 with ⟨rfl, rfl, _⟩ | h4
            · exact .one ht1
            · exact .join rfl ht1 h4
      · cases h

theorem binds {f : Nat} {bs : List Str} {ts r : List Tok} (h : bindNames f [] ts = some (bs, r)) :
    ∃ u c, ts = u ++ c :: r ∧ IsSym c ")" ∧ BindToks true bs u := by
  obtain ⟨u, c, bs', h1, h2, h3, h4⟩ := bind_of f h
  rw [List.reverse_nil, List.nil_append] at h3
  subst h3
  rcases h4 with h4 | h4
  · exact absurd rfl h4.2.2
  · exact ⟨u, c, h1, h2, h4⟩

theorem pat_of {ts r : List Tok} {p : WhenVal} {bs : List Str} (h : pattern ts = some (p, bs, r)) :
    ∃ w, ts = w ++ r ∧ PatToks true p bs w := by
  rw [pattern] at h
  split at h
  · rename_i hc
    obtain ⟨v, hv1, hv2, hv3⟩ := kind_cons (by rw [hc.1]; nofun)
    obtain ⟨o, ho1, ho2⟩ := sym_cons hc.2
    simp only [Option.map_eq_some_iff, Prod.exists] at h
    obtain ⟨bs', q, h1, h2⟩ := h
    cases h2
    obtain ⟨u, c, h3, h4, h5⟩ := binds h1
    refine ⟨v :: o :: (u ++ [c]), ?_, ?_⟩
    · rw [hv3, ho2, h3]; simp
    · rw [← hv2]
      exact .plain (hv1.trans hc.1) ho1 h4 h5
  · split at h
    · rename_i _ hc
      split at h
      · rename_i hd
        obtain ⟨x, hx1, hx2, hx3⟩ := kind_cons (ts := ts) (by rw [hc.1]; nofun)
        obtain ⟨d, hd1, hd2⟩ := sym_cons hc.2
        obtain ⟨v, hv1, hv2, hv3⟩ := kind_cons (ts := ts.tail.tail) (by rw [hd.1]; nofun)
        obtain ⟨o, ho1, ho2⟩ := sym_cons hd.2
        simp only [Option.map_eq_some_iff, Prod.exists] at h
        obtain ⟨bs', q, h1, h2⟩ := h
        cases h2
        obtain ⟨u, c, h3, h4, h5⟩ := binds h1
        refine ⟨x :: d :: v :: o :: (u ++ [c]), ?_, ?_⟩
        · rw [hx3, hd2, hv3, ho2, h3]; simp
        · rw [← hx2, ← hv2]
          exact .enum (hx1.trans hc.1) hd1 (hv1.trans hd.1) ho1 h4 h5
      · cases h
    · split at h
      · rename_i _ _ hc
        split at h
        · rename_i ho
          obtain ⟨d, hd1, hd2⟩ := sym_cons hc.1
          obtain ⟨v, hv1, hv2, hv3⟩ := kind_cons (ts := ts.tail) (by rw [hc.2]; nofun)
          obtain ⟨o, ho1, ho2⟩ := sym_cons ho
          simp only [Option.map_eq_some_iff, Prod.exists] at h
          obtain ⟨bs', q, h1, h2⟩ := h
          cases h2
          obtain ⟨u, c, h3, h4, h5⟩ := binds h1
          refine ⟨d :: v :: o :: (u ++ [c]), ?_, ?_⟩
          · rw [hd2, hv3, ho2, h3]; simp
          · rw [← hv2]
            exact .dot hd1 (hv1.trans hc.2) ho1 h4 h5
        · cases h
      · cases h

/-! Suffixes -/

theorem tl {a b : List Tok} (h : a <:+ b.tail) : a <:+ b := h.trans (List.tail_suffix b)

theorem expect_suffix {s : String} {ts r : List Tok} (h : Stmt.expect s ts = some r) : r <:+ ts := by
  obtain ⟨t, _, rfl⟩ := expect_some h
  exact List.suffix_cons t r

theorem param_suffix (he : ReadsOn env) {n n' : Bool} {ts r : List Tok} {p : Param} (h : param env n ts = some (p, n', r)) : r <:+ ts := by
  have key : ∀ q : List Tok, q <:+ ts → ∀ o : Option (Option Str × Bool × List Tok),
      (∀ t ip q', o = some (t, ip, q') → q' <:+ q) → ∀ (x : Str) (a : Bool),
      (match o with
        | none => none
        | some (t, ip, q) =>
          if kindAt q = sy "=" then (parse env.names n q.tail).bind fun y => some (⟨x, a, t, some y.1, ip⟩, y.2.1, y.2.2)
          else some (⟨x, a, t, none, ip⟩, n, q)) = some (p, n', r) → r <:+ ts := by
    intro q hq o ho x a h
    match o, ho, h with
    | none, _, h => cases h
    | some (t, ip, q'), ho, h =>
      have h1 := (ho t ip q' rfl).trans hq
      simp only at h
      split at h
      · rw [Option.bind_eq_some_iff] at h
        obtain ⟨⟨e, n1, r1⟩, h2, h3⟩ := h
        cases h3
        exact (tl (Ps.parse_suffix h2)).trans h1
      · cases h
        exact h1
  rw [param] at h
  have hr : (if kindAt ts = sy "&" then ts.tail else ts) <:+ ts := by
    split
    · exact List.tail_suffix _
    · exact List.suffix_rfl
  simp only at h
  generalize (if kindAt ts = sy "&" then ts.tail else ts) = r0 at h hr
  split at h
  · cases h
  · refine key _ ((List.tail_suffix _).trans hr) _ ?_ _ _ h
    intro t ip q' ho
    split at ho
    · simp only [Option.bind_eq_bind, Option.bind_eq_some_iff] at ho
      obtain ⟨q1, h1, q2, h2, h3⟩ := ho
      cases h3
      exact tl ((expect_suffix h2).trans (expect_suffix h1))
    · split at ho
      · simp only [Option.map_eq_some_iff, Prod.exists] at ho
        obtain ⟨t1, r1, h1, h2⟩ := ho
        cases h2
        exact he.1 _ _ _ h1
      · split at ho
        · cases ho
        · cases ho
          exact List.suffix_rfl

theorem paramLoop_suffix (he : ReadsOn env) : ∀ (f : Nat) {n n' : Bool} {acc ps : List Param} {ts r : List Tok},
    paramLoop env f n acc ts = some (ps, n', r) → r <:+ ts := by
  intro f
  induction f with
  | zero =>
    intro n n' acc ps ts r h
    rw [paramLoop] at h
    cases h
  | succ f ih =>
    intro n n' acc ps ts r h
    rw [paramLoop] at h
    simp only [Option.bind_eq_bind, Option.bind_eq_some_iff] at h
    obtain ⟨⟨p, n1, r1⟩, h1, h⟩ := h
    have h1' := param_suffix he h1
    simp only at h
    split at h
    · split at h
      · rw [Option.bind_eq_some_iff] at h
        obtain ⟨q, h2, h3⟩ := h
        cases h3
        exact (tl (tl (expect_suffix h2))).trans h1'
      · exact (tl (ih h)).trans h1'
    · split at h
      · cases h
        exact (List.tail_suffix _).trans h1'
      · cases h

theorem paramList_suffix (he : ReadsOn env) {n n' : Bool} {ps : List Param} {ts r : List Tok} (h : paramList env n ts = some (ps, n', r)) :
    r <:+ ts := by
  rw [paramList] at h
  split at h
  · cases h
    exact List.tail_suffix _
  · simp only [Option.bind_eq_bind, Option.bind_eq_some_iff] at h
    obtain ⟨⟨p, n1, r1⟩, h1, ps', h2, h⟩ := h
    simp only at h
    split at h
    · cases h
    · cases h
      exact paramLoop_suffix he _ h1

theorem sharedNames_suffix : ∀ (f : Nat) (acc : List Str) (ts : List Tok), (sharedNames f acc ts).2 <:+ ts := by
  intro f
  induction f with
  | zero =>
    intro acc ts
    rw [sharedNames]
    exact List.suffix_rfl
  | succ f ih =>
    intro acc ts
    rw [sharedNames]
    split
    · simp only
      split
      · exact tl (List.tail_suffix _)
      · exact tl (tl (ih _ _))
    · exact List.suffix_rfl

theorem sharedTypes_suffix : ∀ (xs : List Str) {acc rs : List (Option Str × Str)} {ts r : List Tok},
    sharedTypes xs acc ts = some (rs, r) → r <:+ ts := by
  intro xs
  induction xs with
  | nil =>
    intro acc rs ts r h
    rw [sharedTypes] at h
    cases h
    exact List.suffix_rfl
  | cons x xs ih =>
    intro acc rs ts r h
    rw [sharedTypes.eq_def] at h
    simp only at h
    split at h
    · cases h
    · split at h
      · cases h
        exact Ps.readType_suffix _
      · refine (ih h).trans ?_
        split
        · exact tl (List.tail_suffix _)
        · exact List.suffix_rfl

theorem results_suffix (he : ReadsOn env) : ∀ (f : Nat) {acc rs : List (Option Str × Str)} {ts r : List Tok},
    results env f acc ts = some (rs, r) → r <:+ ts := by
  intro f
  induction f with
  | zero =>
    intro acc rs ts r h
    rw [results] at h
    cases h
  | succ f ih =>
    intro acc rs ts r h
    rw [results] at h
    split at h
    · cases h
      exact List.tail_suffix _
    · have hk : ∀ {o : Option (List (Option Str × Str) × List Tok)}, (∀ a q, o = some (a, q) → q <:+ ts) →
          (o.bind fun x => results env f x.1 (if kindAt x.2 = sy "," then x.2.tail else x.2)) = some (rs, r) → r <:+ ts := by
        intro o ho h
        rw [Option.bind_eq_some_iff] at h
        obtain ⟨⟨a, q⟩, h1, h2⟩ := h
        refine ((ih h2).trans ?_).trans (ho a q h1)
        split
        · exact List.tail_suffix _
        · exact List.suffix_rfl
      have hm : ∀ {q a r1 : List Tok} {x : Option Str} {b}, (env.ty q).map (fun y => ((x, y.1) :: acc, y.2)) = some (b, r1) → r1 <:+ q := by
        intro q _ r1 x b h
        simp only [Option.map_eq_some_iff, Prod.exists] at h
        obtain ⟨t, r', h3, h4⟩ := h
        cases h4
        exact he.1 _ _ _ h3
      simp only at h
      split at h
      · split at h
        · exact hk (o := none) nofun h
        · exact hk (fun a q hq => tl (hm (a := []) hq)) h
      · split at h
        · have hn := sharedNames_suffix ts.length [textAt ts] ts.tail
          split at h
          · exact hk (fun a q hq => tl ((sharedTypes_suffix _ hq).trans hn)) h
          · refine hk (o := some (acc, _)) (fun a q hq => ?_) h
            cases hq
            exact tl hn
        · split at h
          · exact hk (o := none) nofun h
          · exact hk (fun a q hq => hm (a := []) hq) h

theorem resultPart_suffix (he : ReadsOn env) {rs : List (Option Str × Str)} {ts r : List Tok} (h : resultPart env ts = some (rs, r)) :
    r <:+ ts := by
  rw [resultPart] at h
  split at h
  · simp only at h
    split at h
    · cases h
    · split at h
      · exact tl (tl (results_suffix he _ h))
      · split at h
        · cases h
        · rename_i h1
          split at h
          · cases h
          · cases h
            exact tl (he.1 _ _ _ h1)
  · cases h
    exact List.suffix_rfl

/-! Declarations and simple statements -/

theorem alien_of {s : Stmt} {ts r : List Tok} (h : Core s = false) (hs : r <:+ ts) :
    ∃ w, ts = w ++ r ∧ Wr (readRules env true) (.stmt s) w := by
  obtain ⟨w, rfl⟩ := hs
  exact ⟨w, rfl, .alien rfl h⟩

theorem fallbacks_suffix {names : List Str} : ∀ (f : Nat) {n n' : Bool} {acc es : List Expr} {ts r : List Tok},
    fallbacks names f n acc ts = some (es, n', r) → r <:+ ts := by
  intro f
  induction f with
  | zero =>
    intro n n' acc ps ts r h
    rw [fallbacks] at h
    cases h
  | succ f ih =>
    intro n n' acc ps ts r h
    rw [fallbacks] at h
    split at h
    · cases h
      exact List.tail_suffix _
    · simp only [Option.bind_eq_bind, Option.bind_eq_some_iff] at h
      obtain ⟨⟨e, n1, r1⟩, h1, h⟩ := h
      have h1' := Ps.parse_suffix h1
      simp only at h
      split at h
      · exact (tl (ih h)).trans h1'
      · cases h
        exact h1'

/-- A declaration with a value, or with `or_return`. -/
theorem declValue_of {m : Bool} {x : Str} {t : Option Str} {n n' : Bool} {s : Stmt} {ts r : List Tok}
    (h : declValue env m x t n ts = some (s, n', r)) :
    Core s = false ∧ r <:+ ts ∨
      ∃ w v, ts = w ++ r ∧ s = .decl false m x t (some v) ∧ (readRules env true).X v w ∧ (x = lit "_" → ∃ g as, v = .call g as) := by
  rw [declValue] at h
  simp only [Option.bind_eq_bind, Option.bind_eq_some_iff] at h
  obtain ⟨⟨v, n1, r1⟩, h1, h⟩ := h
  simp only at h
  split at h
  · cases h
  · rename_i hc
    rw [orReturn] at h
    split at h
    · refine .inl ?_
      have h1' := Ps.parse_suffix h1
      simp only at h
      split at h
      · simp only [Option.bind_eq_bind, Option.bind_eq_some_iff] at h
        obtain ⟨⟨es, n2, r2⟩, h2, h⟩ := h
        cases h
        exact ⟨rfl, (tl (fallbacks_suffix _ h2)).trans h1'⟩
      · cases h
        exact ⟨rfl, (List.tail_suffix _).trans h1'⟩
    · cases h
      obtain ⟨w, rfl, hx, _⟩ := x_of (b := true) h1
      refine .inr ⟨w, v, rfl, rfl, hx, fun h => ?_⟩
      cases v with
      | call g as => exact ⟨g, as, rfl⟩
      | _ => exact absurd ⟨h, rfl⟩ hc

theorem multi_suffix (he : ReadsOn env) : ∀ (f : Nat) {acc vs : List (Str × Option Str)} {ts r : List Tok},
    multiVars env f acc ts = .vars vs r → r <:+ ts := by
  intro f
  induction f with
  | zero =>
    intro acc vs ts r h
    rw [multiVars] at h
    cases h
  | succ f ih =>
    intro acc vs ts r h
    rw [multiVars] at h
    split at h
    · split at h
      · cases h
      · split at h
        · cases h
        · rename_i t r1 h1
          split at h
          · cases h
          · have h2 : r1 <:+ ts.tail.tail := by
              rw [optType] at h1
              split at h1
              · simp only [Option.map_eq_some_iff, Prod.exists] at h1
                obtain ⟨t1, r2, h3, h4⟩ := h1
                cases h4
                exact he.1 _ _ _ h3
              · cases h1
                exact List.suffix_rfl
            exact (ih h).trans (tl (tl h2))
    · cases h
      exact List.suffix_rfl

theorem varDecl_of (he : ReadsOn env) {m : Bool} {n n' : Bool} {s : Stmt} {k : Tok} {ts r : List Tok}
    (hk : IsSym k (if m then "mut" else "const")) (h : varDecl env m n ts = some (s, n', r)) :
    ∃ w, k :: ts = w ++ r ∧ Wr (readRules env true) (.stmt s) w := by
  have hsuf : ∀ {q : List Tok}, r <:+ q → q <:+ ts → r <:+ k :: ts := fun a b => (a.trans b).trans (List.suffix_cons k ts)
  rw [varDecl] at h
  split at h
  · cases h
  · rename_i hn
    have hne : kindAt ts ≠ .eof := by
      intro hh
      rw [hh] at hn
      exact hn ⟨nofun, nofun⟩
    obtain ⟨x, hx1, hx2, hx3⟩ := kind_cons hne
    have hxk : x.kind = .ident ∨ IsSym x "_" := by
      rw [IsSym, hx1]
      by_cases hi : kindAt ts = .ident
      · exact .inl hi
      · refine .inr (Decidable.byContradiction fun hu => hn ⟨hi, hu⟩)
    split at h
    · cases h
    · split at h
      · cases h
      · rename_i t r1 ht
        have ht' : t = none ∧ r1 = ts.tail ∨ ∃ y w, t = some y ∧ ts.tail = w ++ r1 ∧ (readRules env true).T y w := by
          rw [optType] at ht
          split at ht
          · simp only [Option.map_eq_some_iff, Prod.exists] at ht
            obtain ⟨y, r2, h3, h4⟩ := ht
            cases h4
            obtain ⟨w, hw⟩ := he.1 _ _ _ h3
            exact .inr ⟨y, w, rfl, hw.symm, _, by rw [hw]; exact h3⟩
          · cases ht
            exact .inl ⟨rfl, rfl⟩
        have hr1 : r1 <:+ ts := by
          rcases ht' with ⟨_, rfl⟩ | ⟨y, w, _, hw, _⟩
          · exact List.tail_suffix _
          · exact tl ⟨w, hw.symm⟩
        split at h
        · cases h
        · split at h
          · cases h
          · split at h
            · split at h
              · rename_i vs r2 hm
                simp only [Option.bind_eq_bind, Option.bind_eq_some_iff] at h
                obtain ⟨r3, h3, ⟨e, n4, r4⟩, h4, h⟩ := h
                cases h
                refine alien_of rfl (hsuf ?_ hr1)
                exact ((Ps.parse_suffix h4).trans (expect_suffix h3)).trans (multi_suffix he _ hm)
              · cases h
            · split at h
              · rename_i hq
                obtain ⟨q, hq1, hq2⟩ := sym_cons hq
                rcases declValue_of h with ⟨h1, h2⟩ | ⟨u, v, h1, rfl, h3, _⟩
                · exact alien_of h1 (hsuf (tl h2) hr1)
                · rw [← hx2]
                  rcases ht' with ⟨rfl, rfl⟩ | ⟨y, w, rfl, hw, hy⟩
                  · refine ⟨k :: x :: q :: u, ?_, .decl hk (.inr ⟨rfl, hxk⟩) hq1 h3⟩
                    rw [hx3, hq2, h1]; rfl
                  · refine ⟨k :: x :: (w ++ q :: u), ?_, .typed hk (.inr ⟨rfl, hxk⟩) hy hq1 h3⟩
                    rw [hx3, hw, hq2, h1]; simp
              · cases h
                rw [← hx2]
                rcases ht' with ⟨rfl, rfl⟩ | ⟨y, w, rfl, hw, hy⟩
                · exact ⟨[k, x], congrArg _ hx3, .bare rfl hxk hk⟩
                · refine ⟨k :: x :: w, ?_, .empty hk (.inr ⟨rfl, hxk⟩) hy⟩
                  rw [hx3, hw]; rfl

theorem simple_of {n n' : Bool} {s : Stmt} {ts r : List Tok} (h : simple env n ts = some (s, n', r)) :
    ∃ w, ts = w ++ r ∧ Wr (readRules env true) (.stmt s) w := by
  rw [simple] at h
  split at h
  · cases h
  · simp only [Option.bind_eq_bind, Option.bind_eq_some_iff] at h
    obtain ⟨⟨e, n1, r1⟩, h1, h⟩ := h
    obtain ⟨w, rfl, hx, _⟩ := x_of (b := true) h1
    simp only at h
    split at h
    · rename_i ha
      rw [Option.bind_eq_some_iff] at h
      obtain ⟨⟨v, n2, r2⟩, h2, h⟩ := h
      cases h
      obtain ⟨u, h3, hv, _⟩ := x_of (b := true) h2
      obtain ⟨o, ho1, ho2, ho3⟩ := kind_cons (ts := r1) (by
        intro hh
        rw [hh] at ha
        exact absurd ha (by decide))
      have hm : o.kind ∈ assignOps := by
        rw [ho1]
        simp only [isAssign, List.any_eq_true, decide_eq_true_eq] at ha
        obtain ⟨s, hs, hk⟩ := ha
        rw [hk]
        exact List.mem_map.2 ⟨s, hs, rfl⟩
      refine ⟨w ++ o :: u, ?_, ?_⟩
      · rw [ho3, h3]; simp
      · rw [← ho1]
        exact .assign hx hm hv
    · cases h
      exact ⟨w, rfl, .expr hx⟩

theorem ret_of {k : Tok} {n n' : Bool} {s : Stmt} {ts r : List Tok} (hk : IsSym k "return") (h : retS env.names n ts = some (s, n', r)) :
    ∃ w, k :: ts = w ++ r ∧ Wr (readRules env true) (.stmt s) w := by
  rw [retS] at h
  split at h
  · cases h
    exact ⟨[k], rfl, .ret0 hk⟩
  · simp only [Option.map_eq_some_iff, Prod.exists] at h
    obtain ⟨es, n1, r1, h1, h2⟩ := h
    cases h2
    obtain ⟨w, es', h3, h4, h5⟩ := values_of (b := true) _ h1
    rw [List.reverse_nil, List.nil_append] at h4
    subst h4
    exact ⟨k :: w, by rw [h3]; rfl, .ret hk h5⟩

theorem coll_of {n n' : Bool} {e : Expr} {ts r : List Tok} (h : collection env.names n ts = some (e, n', r)) (hr : r ≠ []) :
    ∃ w, ts = w ++ r ∧ Coll true (readRules env true).B e w ∧ Coll true (readRules env true).X e w := by
  rw [collection] at h
  split at h
  · rename_i hc
    cases h
    obtain ⟨t, ht1, ht2, ht3⟩ := kind_cons (ts := ts) (by rw [hc.1]; nofun)
    refine ⟨[t], ht3, ?_, ?_⟩ <;> rw [← ht2] <;> exact .name (ht1.trans hc.1)
  · split at h
    · rename_i hc
      cases h
      obtain ⟨t, ht1, ht2, ht3⟩ := kind_cons (ts := ts) (by rw [hc.1]; nofun)
      obtain ⟨d, hd1, hd2⟩ := sym_cons hc.2
      cases hm : ts.tail.tail with
      | nil => rw [hm] at hr; exact absurd rfl hr
      | cons m q =>
        refine ⟨[t, d, m], by rw [ht3, hd2, hm]; rfl, ?_, ?_⟩ <;> rw [← ht2] <;> exact .member (ht1.trans hc.1) hd1
    · obtain ⟨w, rfl, hx, hb⟩ := x_of (b := true) h
      exact ⟨w, rfl, .other hb (.inl rfl), .other hx (.inl rfl)⟩

theorem sync_suffix (ts : List Tok) : sync env ts <:+ ts :=
  (List.dropWhile_suffix _).trans (List.dropWhile_suffix _)

theorem skipDoc_suffix (ts : List Tok) : skipDoc ts <:+ ts := by
  rw [skipDoc]
  split
  · exact (List.tail_suffix _).trans (List.dropWhile_suffix _)
  · exact List.suffix_rfl

/-! Soundness -/

/-- What is known of a part that has been read. -/
def Part (env : Env) (c : Cat) (ts r : List Tok) : Prop :=
  r <:+ ts ∧ (r ≠ [] → ∃ w, ts = w ++ r ∧ Wr (readRules env true) c w)

/-- The same of a part with its closing brace. -/
def Closed (env : Env) (c : Cat) (ts r : List Tok) : Prop :=
  r <:+ ts ∧ (r ≠ [] → ∃ w b, ts = w ++ b :: r ∧ IsSym b "}" ∧ Wr (readRules env true) c w)

def SoundStmt (env : Env) (f : Nat) : Prop :=
  ∀ {n ts s n' r}, stmt env f n ts = some (s, n', r) → EofLast ts → Part env (.stmt s) ts r

def SoundStmts (env : Env) (f : Nat) : Prop :=
  ∀ {n acc ts ss n' r}, stmts env f n acc ts = some (ss, n', r) → EofLast ts → ∃ ss', ss = acc.reverse ++ ss' ∧ Closed env (.stmts ss') ts r

def SoundIf (env : Env) (f : Nat) : Prop :=
  ∀ {n ts s n' r}, Stmt.ifS env f n ts = some (s, n', r) → EofLast ts → Part env (.ifs s) ts r

def SoundCases (env : Env) (f : Nat) : Prop :=
  ∀ {n acc d ts cs d' n' r}, Stmt.cases env f n acc d ts = some ((cs, d'), n', r) → EofLast ts →
    ∃ cs' dd, cs = acc.reverse ++ cs' ∧ d' = d.or dd ∧ (d = none ∨ dd = none) ∧ ¬ (cs = [] ∧ d' = none) ∧ Closed env (.cases cs' dd) ts r

theorem part_of {c : Cat} {w ts r : List Tok} (h : ts = w ++ r) (hw : Wr (readRules env true) c w) : Part env c ts r :=
  ⟨⟨w, h.symm⟩, fun _ => ⟨w, h, hw⟩⟩

theorem part_ex {c : Cat} {ts r : List Tok} (h : ∃ w, ts = w ++ r ∧ Wr (readRules env true) c w) : Part env c ts r := by
  obtain ⟨w, h1, h2⟩ := h
  exact part_of h1 h2

/-- A body. -/
theorem body_of {f : Nat} (hS : SoundStmts env f) {n n' : Bool} {b : List Stmt} {q r : List Tok}
    (h : stmts env f n [] q = some (b, n', r)) (hq : EofLast q) : Closed env (.stmts b) q r := by
  obtain ⟨ss', h1, h2⟩ := hS h hq
  rw [List.reverse_nil, List.nil_append] at h1
  rw [h1]
  exact h2

/-- A part that ends with a body. -/
theorem with_body {f : Nat} (hS : SoundStmts env f) {s : Stmt} {n n' : Bool} {b : List Stmt} {w ts q r : List Tok} {o : Tok}
    (h : stmts env f n [] q = some (b, n', r)) (hts : EofLast ts) (he : ts = w ++ o :: q)
    (hw : ∀ u c, IsSym c "}" → Wr (readRules env true) (.stmts b) u → Wr (readRules env true) (.stmt s) (w ++ o :: (u ++ [c]))) :
    Part env (.stmt s) ts r := by
  have hq : q <:+ ts := ⟨w ++ [o], by rw [he]; simp⟩
  obtain ⟨h1, h2⟩ := body_of hS h (eof_suffix hts hq)
  refine ⟨h1.trans hq, fun hr => ?_⟩
  obtain ⟨u, c, h3, h4, h5⟩ := h2 hr
  exact ⟨_, by rw [he, h3]; simp, hw u c h4 h5⟩

theorem head_body {f : Nat} (hS : SoundStmts env f) {mk : List Stmt → Stmt} {n n' : Bool} {b : List Stmt} {w ts q r : List Tok} {o : Tok}
    (h : stmts env f n [] q = some (b, n', r)) (hts : EofLast ts) (he : ts = w ++ o :: q) (ho : IsSym o "{")
    (hw : Head (readRules env true) mk w) : Part env (.stmt (mk b)) ts r :=
  with_body hS h hts he fun _ _ hc hu => .body hw ho hu hc

theorem private_marked (s : Stmt) : Marked s s.setPrivate := by
  cases s with
  | decl => exact .decl
  | func => exact .func
  | _ => exact .same

theorem strict_marked (s : Stmt) : Marked s s.setStrict := by
  cases s with
  | whenS => exact .when
  | _ => exact .same

theorem flags_marked (s : Stmt) : Marked s s.setFlags := by
  cases s with
  | other a k t =>
    rw [Stmt.setFlags]
    split
    · exact .other rfl rfl
    · exact .same
  | _ => exact .same

theorem json_marked {s t : Stmt} (h : s.setJson = some t) : Marked s t := by
  cases s with
  | other a k t =>
    rw [Stmt.setJson] at h
    split at h
    · cases h
      exact .other rfl rfl
    · cases h
  | _ => cases h

theorem attr_of {s t : Stmt} {k : Tok} {a q r ts : List Tok} (hts : ts = k :: (a ++ q)) (hk : k.kind ∈ attributes)
    (ha : ¬ IsSym k "#doc" → a = []) (h : Part env (.stmt s) q r) (ht : Marked s t) : Part env (.stmt t) ts r := by
  refine ⟨h.1.trans ⟨k :: a, by rw [hts]; simp⟩, fun hr => ?_⟩
  obtain ⟨w, h1, h2⟩ := h.2 hr
  exact ⟨k :: (a ++ w), by rw [hts, h1]; simp, .attr (.inl rfl) hk ha h2 ht⟩

theorem attr_mem {k : Tok} {s : String} (h : IsSym k s) (hs : s ∈ ["private", "#strict", "#flags", "#json", "#doc"]) :
    k.kind ∈ attributes := by
  have h : k.kind = _ := h
  rw [h]
  exact List.mem_map.2 ⟨s, hs, rfl⟩

theorem sound_for {f : Nat} (hS : SoundStmts env f) {n n' : Bool} {s : Stmt} {k : Tok} {par : Bool} {p : List Tok} {ts q r : List Tok}
    (hts : EofLast ts) (hk : IsSym k "for") (hp : par = false ∧ p = [] ∧ kindAt q ≠ sy "(" ∨ par = true ∧ ∃ o, p = [o] ∧ IsSym o "(")
    (he : ts = k :: (p ++ q))
    (h : (if (kindAt q = .ident ∨ kindAt q = sy "_") ∧ kindAt q.tail = sy "in" then
        if kindAt q.tail.tail = sy "range" then
          (parse env.names n q.tail.tail).bind fun x => (Stmt.expect "{" (dropIf par ")" x.2.2)).bind fun y =>
            (stmts env f x.2.1 [] y).bind fun z => some (.forS (textAt q) x.1 z.1, z.2.1, z.2.2)
        else none
      else (parse env.names n q).bind fun x => (Stmt.expect "{" (dropIf par ")" x.2.2)).bind fun y =>
            (stmts env f x.2.1 [] y).bind fun z => some (Stmt.whileS x.1 z.1, z.2.1, z.2.2)) = some (s, n', r)) :
    Part env (.stmt s) ts r := by
  have hd : ∀ {a b : List Tok} {o : Tok}, dropIf par ")" a = o :: b → IsSym o "{" →
      (a = o :: b) ∨ par = true ∧ ∃ c, IsSym c ")" ∧ a = c :: o :: b := by
    intro a b o h ho
    rw [dropIf] at h
    split at h
    · rename_i hc
      obtain ⟨c, hc1, hc2⟩ := sym_cons hc.2
      exact .inr ⟨hc.1, c, hc1, by rw [hc2, h]⟩
    · exact .inl h
  split at h
  · rename_i hin
    split at h
    · rename_i hr
      simp only [Option.bind_eq_some_iff] at h
      obtain ⟨⟨e, n1, r1⟩, h1, y, h2, ⟨b, n2, r2⟩, h3, h4⟩ := h
      cases h4
      simp only at h2 h3
      obtain ⟨o, ho1, ho2⟩ := expect_some h2
      obtain ⟨x, hx1, hx2, hx3⟩ := kind_cons (ts := q) (by
        rcases hin.1 with h | h <;> rw [h] <;> nofun)
      obtain ⟨i, hi1, hi2⟩ := sym_cons hin.2
      obtain ⟨w, hw, hX, hB⟩ := x_of (b := true) h1
      have hx : x.kind = .ident ∨ IsSym x "_" := by rw [IsSym, hx1]; exact hin.1
      rw [← hx2]
      rcases hd ho2 ho1 with h5 | ⟨h5, c, hc1, hc2⟩
      · rcases hp with ⟨_, rfl, _⟩ | ⟨_, p, rfl, hp⟩
        · refine head_body hS (o := o) (w := k :: x :: i :: w) h3 hts ?_ ho1 ?_
          · rw [he, hx3, hi2, hw, h5]; simp
          · by_cases hw' : w = []
            · subst hw'
              rw [List.nil_append] at hw
              rw [hw, h5] at hr
              exact absurd (ho1.symm.trans hr) (by decide)
            · rw [hw, kindAt_append hw'] at hr
              exact .range hk hx hi1 hB hr
        · refine head_body hS (o := o) (w := k :: p :: x :: i :: w) h3 hts ?_ ho1 (.rangeS rfl hk hp hx hi1 hB)
          rw [he, hx3, hi2, hw, h5]; simp
      · rcases hp with ⟨h6, _⟩ | ⟨_, p, rfl, hp⟩
        · rw [h6] at h5; cases h5
        · refine head_body hS (o := o) (w := k :: p :: x :: i :: (w ++ [c])) h3 hts ?_ ho1 ?_
          · rw [he, hx3, hi2, hw, hc2]; simp
          · by_cases hw' : w = []
            · subst hw'
              rw [List.nil_append] at hw
              rw [hw, hc2] at hr
              exact absurd (hc1.symm.trans hr) (by decide)
            · rw [hw, kindAt_append hw'] at hr
              exact .rangeP hk hp hx hi1 hX hr hc1
    · cases h
  · rename_i hin
    simp only [Option.bind_eq_some_iff] at h
    obtain ⟨⟨e, n1, r1⟩, h1, y, h2, ⟨b, n2, r2⟩, h3, h4⟩ := h
    cases h4
    simp only at h2 h3
    obtain ⟨o, ho1, ho2⟩ := expect_some h2
    obtain ⟨w, hw, hX, hB⟩ := x_of (b := true) h1
    have hn : kindAt w = .ident → kindAt w.tail ≠ .sym (lit "in") := by
      intro h5 h6
      match w, h5, h6 with
      | t :: u :: w', h5, h6 =>
        refine hin ⟨.inl ?_, ?_⟩
        · rw [hw]; exact h5
        · rw [hw]; exact h6
    rcases hd ho2 ho1 with h5 | ⟨h5, c, hc1, hc2⟩
    · rcases hp with ⟨_, rfl, hp⟩ | ⟨_, p, rfl, hp⟩
      · refine head_body hS (o := o) (w := k :: w) h3 hts ?_ ho1 (.cond hk hB ?_ hn)
        · rw [he, hw, h5]; simp
        · by_cases hw' : w = []
          · rw [hw']; nofun
          · rw [hw, kindAt_append hw'] at hp
            exact hp
      · refine head_body hS (o := o) (w := k :: p :: w) h3 hts ?_ ho1 (.condS rfl hk hp hB)
        rw [he, hw, h5]; simp
    · rcases hp with ⟨h6, _⟩ | ⟨_, p, rfl, hp⟩
      · rw [h6] at h5; cases h5
      · refine head_body hS (o := o) (w := k :: p :: (w ++ [c])) h3 hts ?_ ho1 (.condP hk hp hX hn hc1)
        rw [he, hw, hc2]; simp

theorem sound_each {f : Nat} (hS : SoundStmts env f) {n n' : Bool} {s : Stmt} {k : Tok} {par : Prop} [Decidable par] {p : List Tok}
    {ts q r : List Tok} (hts : EofLast ts) (hk : IsSym k "for_each") (hp : ¬ par ∧ p = [] ∨ par ∧ ∃ o, p = [o] ∧ IsSym o "(")
    (he : ts = k :: (p ++ q))
    (h : ((Stmt.expect "in" (if kindAt q.tail = sy "," then q.tail.tail else q).tail).bind fun i =>
      (collection env.names n i).bind fun x => (if par then Stmt.expect ")" x.2.2 else some x.2.2).bind fun y =>
        (Stmt.expect "{" y).bind fun z => (stmts env f x.2.1 [] z).bind fun b =>
          some (.forEach (if kindAt q.tail = sy "," then some (textAt q) else none)
            (textAt (if kindAt q.tail = sy "," then q.tail.tail else q)) x.1 b.1, b.2.1, b.2.2)) = some (s, n', r)) :
    Part env (.stmt s) ts r := by
  simp only [Option.bind_eq_some_iff] at h
  obtain ⟨i, h1, ⟨e, n1, r1⟩, h2, y, h3, z, h4, ⟨b, n2, r2⟩, h5, h6⟩ := h
  cases h6
  simp only at h3 h5
  obtain ⟨ti, hi1, hi2⟩ := expect_some h1
  obtain ⟨o, ho1, ho2⟩ := expect_some h4
  obtain ⟨v, x, ix, hv, hq, hx, hxt⟩ : ∃ (v : List Tok) (x : Tok) (ix : Option Str), Index true ix v ∧ q = v ++ x :: ti :: i ∧
      (if kindAt q.tail = sy "," then some (textAt q) else none) = ix ∧
      textAt (if kindAt q.tail = sy "," then q.tail.tail else q) = x.text := by
    by_cases hc : kindAt q.tail = sy ","
    · rw [if_pos hc, if_pos hc]
      rw [if_pos hc] at hi2
      obtain ⟨m, hm1, hm2⟩ := sym_cons hc
      match q, hm2, hi2 with
      | [], hm2, _ => cases hm2
      | [_], hm2, _ => cases hm2
      | [_, _], _, hi2 => cases hi2
      | j :: m' :: x :: rest, hm2, hi2 =>
        simp only [List.tail_cons] at hi2 hm2
        injection hm2 with hm2 _
        subst hm2
        exact ⟨[j, m'], x, _, .some (.inr rfl) hm1, by rw [hi2]; rfl, rfl, rfl⟩
    · rw [if_neg hc, if_neg hc]
      rw [if_neg hc] at hi2
      match q, hi2 with
      | [], hi2 => cases hi2
      | x :: rest, hi2 =>
        rw [List.tail_cons] at hi2
        exact ⟨[], x, _, .none, by rw [hi2]; rfl, rfl, rfl⟩
  rw [hx, hxt]
  rcases hp with ⟨hn, rfl⟩ | ⟨hpar, p, rfl, hp⟩
  · rw [if_neg hn] at h3
    cases h3
    obtain ⟨w, hw, hB, _⟩ := coll_of h2 (by rw [ho2]; nofun)
    refine head_body hS (o := o) (w := k :: (v ++ x :: ti :: w)) h5 hts ?_ ho1 (.each hk hv (.inr rfl) hi1 hB)
    rw [he, hq, hw, ho2]; simp
  · rw [if_pos hpar] at h3
    obtain ⟨c, hc1, hc2⟩ := expect_some h3
    obtain ⟨w, hw, _, hX⟩ := coll_of h2 (by rw [hc2]; nofun)
    refine head_body hS (o := o) (w := k :: p :: (v ++ x :: ti :: (w ++ [c]))) h5 hts ?_ ho1 (.eachP hk hp hv (.inr rfl) hi1 hX hc1)
    rw [he, hq, hw, hc2, ho2]; simp

theorem sound_func {f : Nat} (he : ReadsOn env) (hS : SoundStmts env f) {n n' : Bool} {s : Stmt} {k : Tok} {q r : List Tok}
    (hts : EofLast (k :: q)) (hk : IsSym k "do") (hi : kindAt q = .ident)
    (h : ((Stmt.expect "(" q.tail).bind fun a => (paramList env n a).bind fun x => (resultPart env x.2.2).bind fun y =>
      (Stmt.expect "{" y.2).bind fun z => (stmts env f x.2.1 [] z).bind fun b =>
        some (.func false (textAt q) x.1 y.1 b.1, b.2.1, b.2.2)) = some (s, n', r)) : Part env (.stmt s) (k :: q) r := by
  simp only [Option.bind_eq_some_iff] at h
  obtain ⟨a, h1, ⟨ps, n1, r1⟩, h2, ⟨rs, r2⟩, h3, z, h4, ⟨b, n2, r3⟩, h5, h6⟩ := h
  cases h6
  simp only at h3 h4 h5
  obtain ⟨o, ho1, ho2⟩ := expect_some h1
  obtain ⟨p, hp1, hp2⟩ := expect_some h4
  obtain ⟨x, hx1, hx2, hx3⟩ := kind_cons (ts := q) (by rw [hi]; nofun)
  obtain ⟨w, rfl⟩ := paramList_suffix he h2
  obtain ⟨v, rfl⟩ := resultPart_suffix he h3
  rw [← hx2]
  refine with_body hS (o := p) (w := k :: x :: o :: (w ++ v)) h5 hts ?_ fun u c hc hu => ?_
  · rw [hx3, ho2, hp2]; simp
  · have e : k :: x :: o :: (w ++ v) ++ p :: (u ++ [c]) = k :: x :: o :: (w ++ (v ++ p :: (u ++ [c]))) := by simp
    rw [e]
    exact .func hk (hx1.trans hi) ho1 ⟨n, n1, _, h2⟩ ⟨_, h3⟩ hp1 hu hc

theorem sound_stmt {f : Nat} (he : ReadsOn env) (hA : SoundStmt env f) (hS : SoundStmts env f) (hI : SoundIf env f)
    (hC : SoundCases env f) : SoundStmt env (f + 1) := by
  intro n ts s n' r h hts
  have htl : EofLast ts.tail := eof_suffix hts (List.tail_suffix _)
  have hat : ∀ {k : Tok} {a : String} {s' : Stmt}, IsSym k a → a ∈ ["private", "#strict", "#flags", "#json"] → ts = k :: ts.tail →
      Part env (.stmt s') ts.tail r → Marked s' s → Part env (.stmt s) ts r := by
    intro k a s' hk ha hts' hp hm
    refine attr_of (a := []) hts' (attr_mem hk ?_) (fun _ => rfl) hp hm
    revert ha
    simp only [List.mem_cons, List.not_mem_nil, or_false]
    rintro (h | h | h | h) <;> simp [h]
  rw [stmt] at h
  by_cases c : kindAt ts = sy "private"
  · rw [if_pos c] at h
    obtain ⟨k, hk1, hk2⟩ := sym_cons c
    simp only [Option.map_eq_some_iff, Prod.exists] at h
    obtain ⟨s', n1, r1, h1, h2⟩ := h
    cases h2
    exact hat hk1 (by decide) hk2 (hA h1 htl) (private_marked s')
  rw [if_neg c] at h
  clear c
  by_cases c : kindAt ts = sy "mut"
  · rw [if_pos c] at h
    obtain ⟨k, hk1, hk2⟩ := sym_cons c
    split at h
    · cases h
    · rw [hk2]
      exact part_ex (varDecl_of he (m := true) hk1 h)
  rw [if_neg c] at h
  clear c
  by_cases c : kindAt ts = sy "const"
  · rw [if_pos c] at h
    obtain ⟨k, hk1, hk2⟩ := sym_cons c
    split at h
    · cases h
    · split at h
      · simp only [Option.map_eq_some_iff, Prod.exists] at h
        obtain ⟨k', t', r1, h1, h2⟩ := h
        cases h2
        exact part_ex (alien_of rfl (he.2 _ _ _ _ h1))
      · rw [hk2]
        exact part_ex (varDecl_of he (m := false) hk1 h)
  rw [if_neg c] at h
  clear c
  by_cases c : kindAt ts = sy "do"
  · rw [if_pos c] at h
    obtain ⟨k, hk1, hk2⟩ := sym_cons c
    split at h
    · rename_i hi
      rw [hk2] at hts ⊢
      exact sound_func he hS hts hk1 hi h
    · cases h
  rw [if_neg c] at h
  clear c
  by_cases c : kindAt ts = sy "return"
  · rw [if_pos c] at h
    obtain ⟨k, hk1, hk2⟩ := sym_cons c
    rw [hk2]
    exact part_ex (ret_of hk1 h)
  rw [if_neg c] at h
  clear c
  by_cases c : kindAt ts = sy "import" ∨ kindAt ts = sy "using"
  · rw [if_pos c] at h
    simp only [Option.map_eq_some_iff, Prod.exists] at h
    obtain ⟨k', t', r1, h1, h2⟩ := h
    cases h2
    exact part_ex (alien_of rfl (he.2 _ _ _ _ h1))
  rw [if_neg c] at h
  clear c
  by_cases c : kindAt ts = sy "if"
  · rw [if_pos c] at h
    obtain ⟨k, hk1, hk2⟩ := sym_cons c
    obtain ⟨h1, h2⟩ := hI h htl
    refine ⟨tl h1, fun hr => ?_⟩
    obtain ⟨w, h3, h4⟩ := h2 hr
    exact ⟨k :: w, by rw [hk2, h3]; rfl, .ifS hk1 h4⟩
  rw [if_neg c] at h
  clear c
  by_cases c : kindAt ts = sy "for"
  · rw [if_pos c] at h
    obtain ⟨k, hk1, hk2⟩ := sym_cons c
    by_cases hp : kindAt ts.tail = sy "("
    · obtain ⟨o, ho1, ho2⟩ := sym_cons hp
      simp only [hp, if_true, decide_true] at h
      exact sound_for hS (par := true) (p := [o]) (q := ts.tail.tail) hts hk1 (.inr ⟨rfl, o, rfl, ho1⟩)
        (by rw [List.singleton_append, ← ho2]; exact hk2) h
    · simp only [hp, if_false, decide_false] at h
      exact sound_for hS (par := false) (p := []) (q := ts.tail) hts hk1 (.inl ⟨rfl, rfl, hp⟩) hk2 h
  rw [if_neg c] at h
  clear c
  by_cases c : kindAt ts = sy "for_each"
  · rw [if_pos c] at h
    obtain ⟨k, hk1, hk2⟩ := sym_cons c
    by_cases hp : kindAt ts.tail = sy "("
    · obtain ⟨o, ho1, ho2⟩ := sym_cons hp
      simp only [hp, if_true] at h
      exact sound_each hS (par := True) (p := [o]) (q := ts.tail.tail) hts hk1 (.inr ⟨trivial, o, rfl, ho1⟩)
        (by rw [List.singleton_append, ← ho2]; exact hk2) h
    · simp only [hp, if_false] at h
      exact sound_each hS (par := False) (p := []) (q := ts.tail) hts hk1 (.inl ⟨id, rfl⟩) hk2 h
  rw [if_neg c] at h
  clear c
  by_cases c : kindAt ts = sy "as_long_as"
  · rw [if_pos c] at h
    obtain ⟨k, hk1, hk2⟩ := sym_cons c
    simp only [Option.bind_eq_bind, Option.bind_eq_some_iff] at h
    obtain ⟨⟨e, n1, r1⟩, h1, q, h2, ⟨b, n2, r2⟩, h3, h4⟩ := h
    cases h4
    simp only at h2 h3
    obtain ⟨o, ho1, ho2⟩ := expect_some h2
    obtain ⟨w, hw, _, hB⟩ := x_of (b := true) h1
    exact head_body hS (o := o) (w := k :: w) h3 hts (by rw [hk2, hw, ho2]; rfl) ho1 (.whileL hk1 hB)
  rw [if_neg c] at h
  clear c
  by_cases c : kindAt ts = sy "loop"
  · rw [if_pos c] at h
    obtain ⟨k, hk1, hk2⟩ := sym_cons c
    simp only [Option.bind_eq_bind, Option.bind_eq_some_iff] at h
    obtain ⟨q, h2, ⟨b, n2, r2⟩, h3, h4⟩ := h
    cases h4
    obtain ⟨o, ho1, ho2⟩ := expect_some h2
    exact head_body hS (o := o) (w := [k]) h3 hts (by rw [hk2, ho2]; rfl) ho1 (.loop hk1)
  rw [if_neg c] at h
  clear c
  by_cases c : kindAt ts = sy "break"
  · rw [if_pos c] at h
    obtain ⟨k, hk1, hk2⟩ := sym_cons c
    cases h
    exact part_of (w := [k]) hk2 (.brk hk1)
  rw [if_neg c] at h
  clear c
  by_cases c : kindAt ts = sy "continue"
  · rw [if_pos c] at h
    obtain ⟨k, hk1, hk2⟩ := sym_cons c
    cases h
    exact part_of (w := [k]) hk2 (.cont hk1)
  rw [if_neg c] at h
  clear c
  by_cases c : kindAt ts = sy "when"
  · rw [if_pos c] at h
    obtain ⟨k, hk1, hk2⟩ := sym_cons c
    simp only [Option.bind_eq_bind, Option.bind_eq_some_iff] at h
    obtain ⟨⟨e, n1, r1⟩, h1, q, h2, ⟨⟨cs, d⟩, n2, r2⟩, h3, h4⟩ := h
    cases h4
    simp only at h2 h3
    obtain ⟨o, ho1, ho2⟩ := expect_some h2
    obtain ⟨w, hw, _, hB⟩ := x_of (b := true) h1
    have hq : q <:+ ts := ⟨k :: (w ++ [o]), by rw [hk2, hw, ho2]; simp⟩
    obtain ⟨cs', dd, h5, h6, _, h7, h8, h9⟩ := hC h3 (eof_suffix hts hq)
    rw [List.reverse_nil, List.nil_append] at h5
    rw [Option.none_or] at h6
    subst h5 h6
    refine ⟨h8.trans hq, fun hr => ?_⟩
    obtain ⟨u, b, hu1, hu2, hu3⟩ := h9 hr
    refine ⟨k :: (w ++ o :: (u ++ [b])), by rw [hk2, hw, ho2, hu1]; simp, .when hk1 hB ho1 hu3 hu2 ?_⟩
    by_cases hcs : cs = []
    · exact .inr fun hd => h7 ⟨hcs, hd⟩
    · exact .inl hcs
  rw [if_neg c] at h
  clear c
  by_cases c : kindAt ts = sy "#strict"
  · rw [if_pos c] at h
    obtain ⟨k, hk1, hk2⟩ := sym_cons c
    simp only [Option.map_eq_some_iff, Prod.exists] at h
    obtain ⟨s', n1, r1, h1, h2⟩ := h
    cases h2
    refine hat hk1 (by decide) hk2 (hA h1 htl) ?_
    split
    · exact strict_marked s'
    · exact .same
  rw [if_neg c] at h
  clear c
  by_cases c : kindAt ts = sy "#flags"
  · rw [if_pos c] at h
    obtain ⟨k, hk1, hk2⟩ := sym_cons c
    simp only [Option.map_eq_some_iff, Prod.exists] at h
    obtain ⟨s', n1, r1, h1, h2⟩ := h
    cases h2
    exact hat hk1 (by decide) hk2 (hA h1 htl) (flags_marked s')
  rw [if_neg c] at h
  clear c
  by_cases c : kindAt ts = sy "#json"
  · rw [if_pos c] at h
    obtain ⟨k, hk1, hk2⟩ := sym_cons c
    simp only [Option.bind_eq_bind, Option.bind_eq_some_iff] at h
    obtain ⟨⟨s', n1, r1⟩, h1, t', h2, h3⟩ := h
    cases h3
    exact hat hk1 (by decide) hk2 (hA h1 htl) (json_marked h2)
  rw [if_neg c] at h
  clear c
  by_cases c : kindAt ts = sy "#doc"
  · rw [if_pos c] at h
    obtain ⟨k, hk1, hk2⟩ := sym_cons c
    obtain ⟨a, ha⟩ := skipDoc_suffix ts.tail
    refine attr_of (a := a) (by rw [ha]; exact hk2) (attr_mem hk1 (by decide)) (fun hn => absurd hk1 hn)
      (hA h (eof_suffix htl (skipDoc_suffix _))) .same
  rw [if_neg c] at h
  clear c
  by_cases c : kindAt ts = sy "ensure"
  · rw [if_pos c] at h
    obtain ⟨k, hk1, hk2⟩ := sym_cons c
    simp only [Option.map_eq_some_iff, Prod.exists] at h
    obtain ⟨e, n1, r1, h1, h2⟩ := h
    cases h2
    obtain ⟨w, hw, hX, _⟩ := x_of (b := true) h1
    exact part_of (w := k :: w) (by rw [hk2, hw]; rfl) (.ensure hk1 hX)
  rw [if_neg c] at h
  clear c
  by_cases c : kindAt ts = sy "_"
  · rw [if_pos c] at h
    obtain ⟨k, hk1, hk2⟩ := sym_cons c
    split at h
    · rename_i hq
      obtain ⟨q, hq1, hq2⟩ := sym_cons hq
      rcases declValue_of h with ⟨h1, h2⟩ | ⟨u, v, h1, rfl, h3, h4⟩
      · exact part_ex (alien_of h1 (tl (tl h2)))
      · obtain ⟨g, as, rfl⟩ := h4 rfl
        exact part_of (w := k :: q :: u) (by rw [hk2, hq2, h1]; rfl) (.discard hk1 hq1 h3)
    · cases h
  rw [if_neg c] at h
  clear c
  by_cases c : kindAt ts = sy "module" ∨ kindAt ts = sy "#suppress"
  · rw [if_pos c] at h
    cases h
  rw [if_neg c] at h
  exact part_ex (simple_of h)

theorem sound_stmts {f : Nat} (hA : SoundStmt env f) (hS : SoundStmts env f) : SoundStmts env (f + 1) := by
  intro n acc ts ss n' r h hts
  rw [stmts] at h
  split at h
  · rename_i hc
    cases h
    refine ⟨[], by simp, List.tail_suffix _, fun hr => ?_⟩
    rcases hc with hc | hc
    · obtain ⟨c, hc1, hc2⟩ := sym_cons hc
      exact ⟨[], c, hc2, hc1, .nil⟩
    · exact absurd (eof_tail hts hc) hr
  · split at h
    · rename_i hq
      simp only [quiet, Bool.and_eq_true, decide_eq_true_eq] at hq
      obtain ⟨⟨h1, h2⟩, h3⟩ := hq
      obtain ⟨o, ho1, ho2⟩ := sym_cons h1
      obtain ⟨p, hp1, hp2⟩ := sym_cons h2
      have hs := sync_suffix (env := env) ts.tail.tail
      obtain ⟨ss', h4, h5, h6⟩ := hS h (eof_suffix hts (tl (tl hs)))
      refine ⟨ss', h4, h5.trans (tl (tl hs)), fun hr => ?_⟩
      obtain ⟨w, b, h7, h8, h9⟩ := h6 hr
      obtain ⟨j, hj⟩ := hs
      refine ⟨o :: p :: (j ++ w), b, ?_, h8, .drop rfl ho1 hp1 ?_ h9⟩
      · rw [ho2, hp2, ← hj, h7]; simp
      · cases j with
        | nil => nofun
        | cons t j =>
          rw [← hj] at h3
          exact h3
    · split at h
      · cases h
      · rename_i s n1 r1 h1
        obtain ⟨h2, h3⟩ := hA h1 hts
        obtain ⟨ss', h4, h5, h6⟩ := hS h (eof_suffix hts h2)
        refine ⟨s :: ss', by rw [h4]; simp, h5.trans h2, fun hr => ?_⟩
        obtain ⟨w, b, h7, h8, h9⟩ := h6 hr
        obtain ⟨u, hu1, hu2⟩ := h3 (by rw [h7]; simp)
        exact ⟨u ++ w, b, by rw [hu1, h7]; simp, h8, .cons hu2 h9 trivial⟩

theorem sound_if {f : Nat} (hS : SoundStmts env f) (hI : SoundIf env f) : SoundIf env (f + 1) := by
  intro n ts s n' r h hts
  rw [Stmt.ifS] at h
  simp only [Option.bind_eq_bind, Option.bind_eq_some_iff] at h
  obtain ⟨⟨e, n1, r1⟩, h1, q, h2, ⟨b, n2, r2⟩, h3, h4⟩ := h
  simp only at h2 h3 h4
  obtain ⟨o, ho1, ho2⟩ := expect_some h2
  obtain ⟨w, hw, _, hB⟩ := x_of (b := true) h1
  have hq : q <:+ ts := ⟨w ++ [o], by rw [hw, ho2]; simp⟩
  obtain ⟨h5, h6⟩ := body_of hS h3 (eof_suffix hts hq)
  have hr2 : r2 <:+ ts := h5.trans hq
  split at h4
  · rename_i hk
    obtain ⟨k, hk1, hk2⟩ := sym_cons hk
    rw [Option.bind_eq_some_iff] at h4
    obtain ⟨⟨a, n3, r3⟩, h7, h8⟩ := h4
    cases h8
    obtain ⟨h9, h10⟩ := hI h7 (eof_suffix hts ((List.tail_suffix _).trans hr2))
    refine ⟨(tl h9).trans hr2, fun hr => ?_⟩
    obtain ⟨v, hv1, hv2⟩ := h10 hr
    obtain ⟨u, c, hu1, hu2, hu3⟩ := h6 (by rw [hk2]; nofun)
    refine ⟨w ++ o :: (u ++ c :: k :: v), ?_, .ifOr hB ho1 hu3 hu2 hk1 hv2⟩
    rw [hw, ho2, hu1, hk2, hv1]; simp
  · split at h4
    · rename_i hk
      obtain ⟨k, hk1, hk2⟩ := sym_cons hk
      simp only [Option.bind_eq_some_iff] at h4
      obtain ⟨q2, h7, ⟨a, n3, r3⟩, h8, h9⟩ := h4
      cases h9
      obtain ⟨p, hp1, hp2⟩ := expect_some h7
      have hq2 : q2 <:+ ts := List.IsSuffix.trans ⟨[k, p], by rw [hk2, hp2]; rfl⟩ hr2
      obtain ⟨h10, h11⟩ := body_of hS h8 (eof_suffix hts hq2)
      refine ⟨h10.trans hq2, fun hr => ?_⟩
      obtain ⟨v, c', hv1, hv2, hv3⟩ := h11 hr
      obtain ⟨u, c, hu1, hu2, hu3⟩ := h6 (by rw [hk2]; nofun)
      refine ⟨w ++ o :: (u ++ c :: k :: p :: (v ++ [c'])), ?_, .ifElse hB ho1 hu3 hu2 hk1 hp1 hv3 hv2⟩
      rw [hw, ho2, hu1, hk2, hp2, hv1]; simp
    · cases h4
      refine ⟨hr2, fun hr => ?_⟩
      obtain ⟨u, c, hu1, hu2, hu3⟩ := h6 hr
      exact ⟨w ++ o :: (u ++ [c]), by rw [hw, ho2, hu1]; simp, .if1 hB ho1 hu3 hu2⟩

theorem sound_cases {f : Nat} (hS : SoundStmts env f) (hC : SoundCases env f) : SoundCases env (f + 1) := by
  intro n acc d ts cs d' n' r h hts
  rw [Stmt.cases] at h
  split at h
  · rename_i hc
    split at h
    · cases h
    · rename_i hn
      cases h
      refine ⟨[], none, by simp, by simp, .inr rfl, ?_, List.tail_suffix _, fun hr => ?_⟩
      · rintro ⟨h1, h2⟩
        exact hn ⟨by rw [List.reverse_eq_nil_iff] at h1; rw [h1]; rfl, by rw [h2]; rfl⟩
      · rcases hc with hc | hc
        · obtain ⟨c, hc1, hc2⟩ := sym_cons hc
          exact ⟨[], c, hc2, hc1, .noCase⟩
        · exact absurd (eof_tail hts hc) hr
  · rename_i hend
    split at h
    · rename_i hk
      obtain ⟨k, hk1, hk2⟩ := sym_cons hk
      simp only [Option.bind_eq_bind, Option.bind_eq_some_iff] at h
      obtain ⟨⟨vs, rg, r1⟩, h1, q, h2, ⟨b, n2, r2⟩, h3, h4⟩ := h
      simp only at h2 h3 h4
      obtain ⟨o, ho1, ho2⟩ := expect_some h2
      have hh : ∃ w, ts.tail = w ++ r1 ∧ ((∃ es, vs = es.map .val ∧ Vals (readRules env true).X (readRules env true).B es w) ∨
          ∃ p bs, vs = [p] ∧ rg = false ∧ PatToks true p bs w ∧ ∀ b ∈ bs, env.reservedType b = false) := by
        rw [caseHead] at h1
        split at h1
        · rename_i p bs r3 hp
          split at h1
          · cases h1
          · rename_i hres
            cases h1
            obtain ⟨w, hw1, hw2⟩ := pat_of hp
            refine ⟨w, hw1, .inr ⟨p, bs, rfl, rfl, hw2, fun b hb => ?_⟩⟩
            cases hb' : env.reservedType b with
            | false => rfl
            | true => exact absurd (List.any_eq_true.2 ⟨b, hb, hb'⟩) hres
        · simp only [Option.map_eq_some_iff, Prod.exists] at h1
          obtain ⟨vs', rg', n3, r3, h5, h6⟩ := h1
          cases h6
          obtain ⟨w, es, h7, h8, h9⟩ := caseVals_of (b := true) _ h5
          rw [List.reverse_nil, List.nil_append] at h8
          exact ⟨w, h7, .inl ⟨es, h8, h9⟩⟩
      obtain ⟨w, hw, hcase⟩ := hh
      have hq : q <:+ ts := ⟨k :: (w ++ [o]), by rw [hk2, hw, ho2]; simp⟩
      obtain ⟨h5, h6⟩ := body_of hS h3 (eof_suffix hts hq)
      have hr2 : r2 <:+ ts := h5.trans hq
      obtain ⟨cs', dd, h7, h8, h9, h10, h11, h12⟩ := hC h4 (eof_suffix hts hr2)
      refine ⟨(vs, rg, b) :: cs', dd, by rw [h7]; simp, h8, h9, h10, h11.trans hr2, fun hr => ?_⟩
      obtain ⟨v, c', hv1, hv2, hv3⟩ := h12 hr
      obtain ⟨u, c, hu1, hu2, hu3⟩ := h6 (by rw [hv1]; simp)
      refine ⟨k :: (w ++ o :: (u ++ c :: v)), c', ?_, hv2, ?_⟩
      · rw [hk2, hw, ho2, hu1, hv1]; simp
      · rcases hcase with ⟨es, rfl, he⟩ | ⟨p, bs, rfl, rfl, hp, hb⟩
        · exact .vals hk1 he (.inl rfl) ho1 hu3 hu2 hv3
        · exact .pat hk1 hp hb ho1 hu3 hu2 hv3
    · rename_i hk
      split at h
      · rename_i hk'
        obtain ⟨k, hk1, hk2⟩ := sym_cons hk'
        split at h
        · cases h
        · rename_i hd
          simp only [Option.bind_eq_bind, Option.bind_eq_some_iff] at h
          obtain ⟨q, h2, ⟨b, n2, r2⟩, h3, h4⟩ := h
          simp only at h4
          obtain ⟨o, ho1, ho2⟩ := expect_some h2
          have hq : q <:+ ts := ⟨[k, o], by rw [hk2, ho2]; rfl⟩
          obtain ⟨h5, h6⟩ := body_of hS h3 (eof_suffix hts hq)
          have hr2 : r2 <:+ ts := h5.trans hq
          obtain ⟨cs', dd, h7, h8, h9, h10, h11, h12⟩ := hC h4 (eof_suffix hts hr2)
          obtain rfl : dd = none := h9.resolve_left nofun
          have hd : d = none := by
            cases d with
            | none => rfl
            | some => exact absurd rfl hd
          subst hd
          refine ⟨cs', some b, h7, by rw [h8]; rfl, .inl rfl, h10, h11.trans hr2, fun hr => ?_⟩
          obtain ⟨v, c', hv1, hv2, hv3⟩ := h12 hr
          obtain ⟨u, c, hu1, hu2, hu3⟩ := h6 (by rw [hv1]; simp)
          refine ⟨k :: o :: (u ++ c :: v), c', ?_, hv2, .dflt hk1 ho1 hu3 hu2 hv3⟩
          rw [hk2, ho2, hu1, hv1]; simp
      · rename_i hk'
        obtain ⟨t, ht1, _, ht3⟩ := kind_cons (ts := ts) (fun hh => hend (.inr hh))
        obtain ⟨cs', dd, h7, h8, h9, h10, h11, h12⟩ := hC h (eof_suffix hts (List.tail_suffix _))
        refine ⟨cs', dd, h7, h8, h9, h10, tl h11, fun hr => ?_⟩
        obtain ⟨v, c', hv1, hv2, hv3⟩ := h12 hr
        refine ⟨t :: v, c', by rw [ht3, hv1]; rfl, hv2, .stray rfl ⟨?_, ?_, ?_⟩ hv3⟩
        · exact fun h => hk (ht1.symm.trans h)
        · exact fun h => hk' (ht1.symm.trans h)
        · exact fun h => hend (.inl (ht1.symm.trans h))

theorem sound (he : ReadsOn env) : ∀ f, SoundStmt env f ∧ SoundStmts env f ∧ SoundIf env f ∧ SoundCases env f := by
  intro f
  induction f with
  | zero =>
    refine ⟨?_, ?_, ?_, ?_⟩
    · intro _ _ _ _ _ h _
      rw [stmt] at h; cases h
    · intro _ _ _ _ _ _ h _
      rw [stmts] at h; cases h
    · intro _ _ _ _ _ h _
      rw [Stmt.ifS] at h; cases h
    · intro _ _ _ _ _ _ _ _ h _
      rw [Stmt.cases] at h; cases h
  | succ f ih =>
    obtain ⟨hA, hS, hI, hC⟩ := ih
    exact ⟨sound_stmt he hA hS hI hC, sound_stmts hA hS, sound_if hS hI, sound_cases hS hC⟩

end St

/-! ### C185: every block is closed -/

def count (s : String) (ts : List Tok) : Nat := ts.countP fun t => t.kind = .sym (lit s)

/-- C185, the claim: in a program that is accepted there are as many `{` as `}`. -/
def C185_statement : Prop :=
  ∀ (env : Env) (ts : List Tok) (ss : List Stmt), ReadsOn env → EofLast ts → parseProgram env ts = some ss → count "{" ts = count "}" ts

theorem plain_reads : ReadsOn plainEnv :=
  ⟨fun ts t r h => by cases h; exact List.tail_suffix _, fun ts k t r h => by cases h⟩

theorem eof_of {w : List Tok} {t : Tok} (h : ∀ x ∈ w, x.kind ≠ .eof) : EofLast (w ++ [t]) := by
  intro u x v e hx
  induction w generalizing u with
  | nil =>
    cases u with
    | nil => cases e; rfl
    | cons => simp at e
  | cons a w ih =>
    cases u with
    | nil =>
      injection e with e1 _
      subst e1
      exact absurd hx (h _ List.mem_cons_self)
    | cons b u =>
      injection e with _ e2
      exact ih (fun x hx => h x (List.mem_cons_of_mem _ hx)) u e2

/-- The tokens of a text, with the end of the file last. -/
theorem eof_check {ts : List Tok} (h : (ts.dropLast.all fun t => t.kind ≠ .eof) = true) : EofLast ts := by
  rcases List.eq_nil_or_concat ts with rfl | ⟨w, t, rfl⟩
  · intro u x v e
    cases u <;> cases e
  · rw [List.concat_eq_append] at h ⊢
    rw [List.dropLast_append_of_ne_nil (by simp), List.dropLast_singleton, List.append_nil] at h
    exact eof_of fun x hx => by
      have := List.all_eq_true.1 h x hx
      simpa using this

/-- C185: a function without its `}` at the end of the file. -/
theorem C185_witness : (parseProgram plainEnv ((lex (lit "do f() {\n loop {\n break")).getD [])).isSome = true ∧
    count "{" ((lex (lit "do f() {\n loop {\n break")).getD []) = 2 ∧ count "}" ((lex (lit "do f() {\n loop {\n break")).getD []) = 0 := by
  decide +kernel

theorem C185_fails : ¬ C185_statement := fun h => by
  obtain ⟨ss, hs⟩ := Option.isSome_iff_exists.1 C185_witness.1
  have := h plainEnv _ ss plain_reads (eof_check (by decide +kernel)) hs
  rw [C185_witness.2.1, C185_witness.2.2] at this
  cases this

/-- C185: a `when` without its `}`. -/
theorem C185_when : (parseProgram plainEnv ((lex (lit "do f() { when x { is 1 { } ")).getD [])).isSome = true := by decide +kernel

/-- C185: after a comma, a map literal takes the `}` of the block too: the second function is read as a part of the first. -/
theorem C185_map : (parseProgram plainEnv ((lex (lit "do f() { x = {1: 2,} } do g() { }")).getD [])).map List.length = some 1 ∧
    (parseProgram plainEnv ((lex (lit "do f() { x = {1: 2} } do g() { }")).getD [])).map List.length = some 2 := by decide +kernel

/-- C185: a block is closed by its own `}` if anything is left after it, and so is every block in it (see `Wr`). Missing: blocks
at the end of the file. The braces of literals are not looked at. -/
theorem C185_partial (env : Env) (he : ReadsOn env) (f : Nat) (n n' : Bool) (ts rest : List Tok) (ss : List Stmt) (ht : EofLast ts)
    (h : stmts env f n [] ts = some (ss, n', rest)) (hr : rest ≠ []) :
    ∃ w c, ts = w ++ c :: rest ∧ IsSym c "}" ∧ Wr (readRules env true) (.stmts ss) w :=
  (St.body_of (St.sound he f).2.1 h ht).2 hr

/-- C185 is not void: this block is read, and the end of the file is left. -/
example : (stmts plainEnv 40 false [] ((lex (lit "loop { when x { is 1 { break } } } return x }")).getD [])).map (fun r => (r.1.length, r.2.2.length)) =
    some (2, 1) := by decide +kernel

/-! ### C186: no token is ignored -/

/-- C186, the claim: the tokens of a block are a way to write its statements. -/
def C186_statement : Prop :=
  ∀ (env : Env) (f : Nat) (n n' : Bool) (ts rest : List Tok) (ss : List Stmt), ReadsOn env → EofLast ts →
    stmts env f n [] ts = some (ss, n', rest) → rest ≠ [] →
    ∃ w c, ts = w ++ c :: rest ∧ IsSym c "}" ∧ Wr (readRules env false) (.stmts ss) w

/-- C186: so it is, up to the slips in `Wr`, `Head`, `Index` and `BindToks`. Missing: without these slips (attributes with no
effect, tokens between the cases of `when` that belong to nothing, `for` with one parenthesis, tokens after `()`), and statements at
the end of the file. -/
theorem C186_partial (env : Env) (he : ReadsOn env) (f : Nat) (n n' : Bool) (ts rest : List Tok) (s : Stmt) (ht : EofLast ts)
    (h : stmt env f n ts = some (s, n', rest)) (hr : rest ≠ []) : ∃ w, ts = w ++ rest ∧ Wr (readRules env true) (.stmt s) w :=
  ((St.sound he f).1 h ht).2 hr

/-- C186: what is accepted and has no effect. -/
theorem C186_witness : ∀ s ∈ [lit "when x { 5 + is 1 { } ] otherwise }", lit "#strict x = 1", lit "private x = 1", lit "#flags loop { }",
    lit "() + 1 2 3", lit "for (a { }", lit "for (i in range(1, 2) { }", lit "for_each 5 in a { }",
    lit "when x { is V(a b,) { } }"], (parseProgram plainEnv ((lex s).getD [])).isSome = true := by decide +kernel

namespace St

local macro "skips" : tactic => `(tactic| repeat (refine (if_neg (by decide)).trans ?_))
local macro "here" : tactic => `(tactic| refine (if_pos (by decide)).trans ?_)

theorem parse_start {names : List Str} {n n' : Bool} {t : Tok} {r q : List Tok} {e : Expr} (h : parse names n (t :: r) = some (e, n', q)) :
    t.kind ≠ .sym (lit "private") := by
  intro ht
  have hk : kindAt (t :: r) = sy "private" := ht
  unfold parse at h
  rw [Ps.expr_step (by decide), show 4 * (t :: r).length + 3 = (4 * r.length + 6) + 1 by simp; omega, prefixE] at h
  rw [hk, if_neg (by decide), if_neg (by decide), if_neg (by decide), if_neg (by decide), if_neg (by decide), if_neg (by decide),
    if_neg (by decide), if_neg (by decide), if_neg (by decide)] at h
  cases h

theorem attributes_same (env : Env) (f : Nat) (n n' : Bool) (k : Tok) (ts rest : List Tok) (e v : Expr) (o : Kind)
    (hk : IsSym k "private" ∨ IsSym k "#flags" ∨ IsSym k "#strict")
    (h : stmt env f n ts = some (.assign o e v, n', rest)) : stmt env (f + 1) n (k :: ts) = some (.assign o e v, n', rest) := by
  rw [stmt]
  rcases hk with hk | hk | hk
  · simp only [show kindAt (k :: ts) = sy "private" from hk, List.tail_cons]
    rw [h]
    exact if_pos trivial
  · simp only [show kindAt (k :: ts) = sy "#flags" from hk, List.tail_cons]
    skips
    here
    rw [h]; rfl
  · simp only [show kindAt (k :: ts) = sy "#strict" from hk, List.tail_cons]
    skips
    here
    rw [h]
    exact congrArg some (Prod.ext (ite_self _) rfl)

theorem no_stmts {env : Env} {cat : Cat} {w : List Tok} (h : Wr (readRules env false) cat w) (hc : cat = .stmts []) : w = [] := by
  cases h with
  | nil => rfl
  | drop hl => cases hl
  | _ => cases hc

theorem no_private {env : Env} {cat : Cat} {w : List Tok} {e v : Expr} {o : Kind} (h : Wr (readRules env false) cat w)
    (hc : cat = .stmt (.assign o e v)) : kindAt w ≠ .sym (lit "private") := by
  have hsym : ∀ {t : Tok} {r : List Tok} {s : String}, IsSym t s → s ∈ ["if", "#doc"] → kindAt (t :: r) ≠ .sym (lit "private") := by
    intro t r s h hs
    have h : kindAt (t :: r) = .sym (lit s) := h
    rw [h]
    have key : ∀ s ∈ ["if", "#doc"], Kind.sym (lit s) ≠ .sym (lit "private") := by decide
    exact key s hs
  cases h with
  | @assign e v o w u hx ho hv =>
    cases w with
    | nil =>
      have key : ∀ k ∈ assignOps, k ≠ .sym (lit "private") := by decide +kernel
      exact key _ ho
    | cons t w =>
      obtain ⟨n, n', r, hx⟩ := hx
      exact parse_start hx
  | ifS hk => exact hsym hk (by decide)
  | body hh =>
    injection hc with hc
    cases hh <;> cases hc
  | attr hl hk ha h ht =>
    injection hc with hc
    subst hc
    rcases hl with hl | ⟨_, hl⟩
    · cases hl
    · rcases hl with hl | hl
      · cases ht with
        | same => exact absurd rfl hl
        | other _ h' => cases h'
      · exact hsym hl (by decide)
  | alien _ hs =>
    injection hc with hc
    subst hc
    cases hs
  | _ => cases hc

end St

/-- C186: `private`, `#flags` and `#strict` before an assignment (for instance) have no effect. -/
theorem C186_attributes (env : Env) (f : Nat) (n n' : Bool) (k : Tok) (ts rest : List Tok) (e v : Expr) (o : Kind)
    (hk : IsSym k "private" ∨ IsSym k "#flags" ∨ IsSym k "#strict")
    (h : stmt env f n ts = some (.assign o e v, n', rest)) : stmt env (f + 1) n (k :: ts) = some (.assign o e v, n', rest) :=
  St.attributes_same env f n n' k ts rest e v o hk h

theorem C186_fails : ¬ C186_statement := fun h => by
  have hx : ∀ t : Tok, t.kind = .ident ∨ t.kind = .int → Reads plainEnv.names AtEnd (.leaf t.kind t.text) [t] := fun t ht =>
    (C184_operators_partial [] 1 (.atom t.kind t.text) [t] (by omega) (.atom (by rcases ht with ht | ht <;> rw [ht] <;> decide +kernel))).1
  let k : Tok := ⟨.sym (lit "private"), lit "private", true, 0⟩
  let x : Tok := ⟨.ident, lit "x", true, 0⟩
  let q : Tok := ⟨.sym (lit "="), lit "=", true, 0⟩
  let v : Tok := ⟨.int, lit "1", true, 0⟩
  let c : Tok := ⟨.sym (lit "}"), lit "}", true, 0⟩
  let z : Tok := ⟨.eof, [], true, 0⟩
  have h1 : stmt plainEnv 1 false ([x] ++ q :: [v] ++ [c, z]) = some (.assign q.kind (.leaf x.kind x.text) (.leaf v.kind v.text), false, [c, z]) :=
    St.assign_ok (hx x (.inl rfl)) (by decide +kernel) (hx v (.inr rfl)) (St.stop_close rfl)
  have h2 := C186_attributes plainEnv 1 false false k _ _ _ _ _ (.inl rfl) h1
  have h3 : stmts plainEnv 3 false [] (k :: ([x] ++ q :: [v] ++ [c, z])) =
      some ([.assign q.kind (.leaf x.kind x.text) (.leaf v.kind v.text)], false, [z]) := by
    rw [stmts]
    refine (if_neg (by decide)).trans ((if_neg (by decide)).trans ?_)
    rw [h2]
    exact St.stmts_end rfl
  obtain ⟨w, c', h4, _, h6⟩ := h plainEnv 3 false false _ _ _ plain_reads (eof_check (by decide +kernel)) h3 nofun
  have h5 : kindAt w = .sym (lit "private") := by
    cases w with
    | nil =>
      injection h4 with _ h4
      exact absurd (congrArg List.length h4) (by decide)
    | cons a w =>
      injection h4 with h4 _
      subst h4
      rfl
  have h7 : ∀ (cat : Cat) (w : List Tok), Wr (readRules plainEnv false) cat w → (∃ e v o, cat = .stmts [.assign o e v]) →
      kindAt w ≠ .sym (lit "private") := by
    intro cat w h hc
    obtain ⟨e, v, o, hc⟩ := hc
    cases h with
    | cons h1 h2 _ =>
      injection hc with hc
      injection hc with hc1 hc2
      subst hc1 hc2
      rw [St.no_stmts h2 rfl, List.append_nil]
      exact St.no_private h1 rfl
    | drop hl => cases hl
    | _ => cases hc
  exact h7 _ _ h6 ⟨_, _, _, rfl⟩ h5

end Verif.Props

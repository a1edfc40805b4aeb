import Verif.Props.StmtSound
import Verif.Props.LexText

/-! C187 to C195: parameters, results, pieces of strings, declarations of several variables, and `or_return`. -/

namespace Verif.Props
open Verif Verif.Str Verif.Lexer Verif.Parser Verif.Stmt

/-! ### C187: results of functions -/

/-- These tokens are read as this type, before `,` and before `)`. -/
def TypeIn (env : Env) (t : Str) (w : List Tok) : Prop :=
  kindAt w ∈ typeStarts ∧ ∀ rest, kindAt rest = .sym (lit ",") ∨ kindAt rest = .sym (lit ")") → env.ty (w ++ rest) = some (t, rest)

/-- Names with commas between them. -/
inductive NameList : List Str → List Tok → Prop where
  | one {x : Tok} (h : x.kind = .ident) : NameList [x.text] [x]
  | cons {x c : Tok} {xs : List Str} {u : List Tok} (h : x.kind = .ident) (hc : IsSym c ",") (hs : NameList xs u) :
      NameList (x.text :: xs) (x :: c :: u)

/-- The name stands for a type. -/
def NamesType (env : Env) (x : Str) : Prop := x ∈ plainTypes ∨ typeName env.names x = true

/-- A type that does not look like a name. -/
def PlainType (env : Env) (w : List Tok) : Prop :=
  kindAt w ≠ .ident ∨ textAt w = lit "map" ∧ kindAt w.tail = .sym (lit "[") ∨
    textAt w = lit "func" ∧ kindAt w.tail = .sym (lit "(") ∨ kindAt w.tail = .sym (lit ".") ∨ ∃ x, w = [x] ∧ NamesType env x.text

/-- Results with one type: a type alone, or names (of which none is the name of a type) and a type. The last form is the one
that is not always read as written. -/
inductive ResGroup (env : Env) (full : Bool) : List (Option Str × Str) → List Tok → Prop where
  | plain {t : Str} {w : List Tok} (ht : TypeIn env t w) (hl : PlainType env w) : ResGroup env full [(none, t)] w
  | named {x : Tok} {t : Str} {w : List Tok} (hx : x.kind = .ident) (hm : x.text ≠ lit "map") (ht : TypeIn env t w) :
      ResGroup env full [(some x.text, t)] (x :: w)
  | shared {xs : List Str} {t : Tok} {u : List Tok} (hu : NameList xs u) (h2 : 2 ≤ xs.length) (hx : ∀ x ∈ xs, ¬ NamesType env x)
      (ht : t.kind = .ident) : ResGroup env full (xs.map fun x => (some x, t.text)) (u ++ [t])
  | any {xs : List Str} {t : Str} {u w : List Tok} (hf : full = true) (hu : NameList xs u) (hx : ∀ x ∈ xs, ¬ NamesType env x)
      (ht : TypeIn env t w) : ResGroup env full (xs.map fun x => (some x, t)) (u ++ w)

inductive ResGroups (env : Env) (full : Bool) : List (Option Str × Str) → List Tok → Prop where
  | one {rs : List (Option Str × Str)} {w : List Tok} (h : ResGroup env full rs w) : ResGroups env full rs w
  | cons {rs qs : List (Option Str × Str)} {w u : List Tok} {c : Tok} (h : ResGroup env full rs w) (hc : IsSym c ",")
      (hs : ResGroups env full qs u) : ResGroups env full (rs ++ qs) (w ++ c :: u)

namespace St

theorem kind_or {rest : List Tok} (h : kindAt rest = .sym (lit ",") ∨ kindAt rest = .sym (lit ")")) :
    kindAt rest ≠ .ident ∧ kindAt rest ≠ sy "?" ∧ kindAt rest ≠ sy "[" ∧ kindAt rest ≠ sy "^" ∧ kindAt rest ≠ sy "." ∧ kindAt rest ≠ sy "(" := by
  rcases h with h | h <;> rw [h] <;> decide

theorem types_ne {w : List Tok} (h : kindAt w ∈ typeStarts) : w ≠ [] := by
  rintro rfl
  exact absurd h (by decide)

theorem types_kind {w : List Tok} (h : kindAt w ∈ typeStarts) :
    (kindAt w = .ident ∨ kindAt w = sy "?" ∨ kindAt w = sy "[" ∨ kindAt w = sy "^") ∧ ¬ (kindAt w = sy ")" ∨ kindAt w = .eof) := by
  have key : ∀ k ∈ typeStarts, (k = .ident ∨ k = sy "?" ∨ k = sy "[" ∨ k = sy "^") ∧ ¬ (k = sy ")" ∨ k = .eof) := by decide
  exact key _ h

/-- One round of the loop. -/
theorem results_step {env : Env} {f : Nat} {acc acc' : List (Option Str × Str)} {ts r : List Tok}
    (h0 : ¬ (kindAt ts = sy ")" ∨ kindAt ts = .eof))
    (h : (if kindAt ts = .ident ∧ complexStart ts = false ∧
            (kindAt ts.tail = .ident ∨ kindAt ts.tail = sy "?" ∨ kindAt ts.tail = sy "[" ∨ kindAt ts.tail = sy "^") then
          if MAX_SHARED_RETURNS ≤ acc.length then none
          else (env.ty ts.tail).map fun (t, r) => ((some (textAt ts), t) :: acc, r)
        else if kindAt ts = .ident ∧ kindAt ts.tail = sy "," ∧ isType env ts = false then
          let (xs, r) := sharedNames ts.length [textAt ts] ts.tail
          if kindAt r = .ident then sharedTypes xs.reverse acc r else some (acc, r)
        else if MAX_SHARED_RETURNS ≤ acc.length then none
        else (env.ty ts).map fun (t, r) => ((none, t) :: acc, r)) = some (acc', r)) :
    results env (f + 1) acc ts = results env f acc' (if kindAt r = sy "," then r.tail else r) := by
  rw [results, if_neg h0]
  split
  · rename_i c
    rw [if_pos c] at h
    split at h
    · cases h
    · rename_i c2
      rw [if_neg c2, h]
      rfl
  · rename_i c
    rw [if_neg c] at h
    split
    · rename_i c1
      rw [if_pos c1] at h
      dsimp only at h ⊢
      split
      · rename_i c2
        rw [if_pos c2] at h
        rw [h]
        rfl
      · rename_i c2
        rw [if_neg c2] at h
        cases h
        rfl
    · rename_i c1
      rw [if_neg c1] at h
      split at h
      · cases h
      · rename_i c2
        rw [if_neg c2, h]
        rfl

theorem sharedNames_ok {ys : List Str} {u : List Tok} (h : NameList ys u) :
    ∀ (f : Nat) (acc : List Str) (c : Tok) (rest : List Tok), u.length < f → IsSym c "," → acc.length + ys.length ≤ 16 →
      kindAt rest ≠ sy "," → sharedNames f acc (c :: (u ++ rest)) = (ys.reverse ++ acc, rest) := by
  induction h with
  | @one x hx =>
    intro f acc c rest hf hc hl hr
    obtain ⟨f, rfl⟩ : ∃ g, f = g + 2 := ⟨f - 2, by simp at hf; omega⟩
    rw [sharedNames, if_pos (show kindAt (c :: ([x] ++ rest)) = sy "," from hc)]
    dsimp only [List.tail_cons, List.cons_append, List.nil_append]
    split
    · rfl
    · rw [sharedNames, if_neg hr]; rfl
  | @cons x c' xs u hx hc' hs ih =>
    intro f acc c rest hf hc hl hr
    obtain ⟨f, rfl⟩ : ∃ g, f = g + 1 := ⟨f - 1, by simp at hf; omega⟩
    rw [sharedNames, if_pos (show kindAt (c :: (x :: c' :: u ++ rest)) = sy "," from hc)]
    dsimp only [List.tail_cons, List.cons_append]
    have : 0 < xs.length := by cases hs <;> simp
    rw [if_neg (by simp only [List.length_cons] at hl ⊢; unfold MAX_SHARED_RETURNS; omega), ih f _ c' rest (by simp at hf; omega) hc'
      (by simp only [List.length_cons] at hl ⊢; omega) hr]
    show (xs.reverse ++ x.text :: acc, rest) = ((x.text :: xs).reverse ++ acc, rest)
    simp

theorem sharedTypes_ok {t : Tok} {rest : List Tok} (ht : t.kind = .ident) (hr : kindAt rest ≠ sy ".") :
    ∀ (xs : List Str) (acc : List (Option Str × Str)), xs ≠ [] → acc.length + xs.length ≤ 16 →
      sharedTypes xs acc (t :: rest) = some ((xs.map fun x => (some x, t.text)).reverse ++ acc, rest) := by
  have hrd : readType (t :: rest) = (t.text, rest) := by
    rw [readType, if_neg (show kindAt (t :: rest) ≠ _ by rw [show kindAt (t :: rest) = .ident from ht]; decide), List.tail_cons, if_neg hr]
    rfl
  intro xs
  induction xs with
  | nil => intro _ h; exact absurd rfl h
  | cons x xs ih =>
    intro acc _ hl
    simp only [List.length_cons] at hl
    cases xs with
    | nil => rw [sharedTypes, if_neg (by unfold MAX_SHARED_RETURNS; omega)]; simp [hrd]
    | cons y ys =>
      rw [sharedTypes, if_neg (by unfold MAX_SHARED_RETURNS; omega), if_neg (fun h => hr h.2), hrd,
        ih _ (by simp) (by simp only [List.length_cons] at hl ⊢; omega)]
      · simp
      · simp

theorem names_first {xs : List Str} {u : List Tok} (h : NameList xs u) (h2 : 2 ≤ xs.length) :
    ∃ x c ys v, xs = x.text :: ys ∧ u = x :: c :: v ∧ x.kind = .ident ∧ IsSym c "," ∧ NameList ys v := by
  cases h with
  | one => simp at h2
  | cons h hc hs => exact ⟨_, _, _, _, rfl, rfl, h, hc, hs⟩

theorem isType_of {env : Env} {x : Tok} {r : List Tok} (hr : kindAt r ≠ sy "[" ∧ kindAt r ≠ sy "(") :
    isType env (x :: r) = true ↔ x.kind = .ident ∧ NamesType env x.text := by
  unfold isType complexStart NamesType
  have h1 : kindAt (x :: r) = x.kind := rfl
  have h2 : textAt (x :: r) = x.text := rfl
  simp [h1, h2, hr.1, hr.2]

/-- A group is read as it is written. -/
theorem group_ok {env : Env} {rs : List (Option Str × Str)} {w : List Tok} (h : ResGroup env false rs w) (f : Nat)
    (acc : List (Option Str × Str)) (rest : List Tok) (hl : acc.length + rs.length ≤ 16)
    (hr : kindAt rest = .sym (lit ",") ∨ kindAt rest = .sym (lit ")")) :
    results env (f + 1) acc (w ++ rest) = results env f (rs.reverse ++ acc) (if kindAt rest = sy "," then rest.tail else rest) := by
  have hk := kind_or hr
  cases h with
  | @plain t w ht hlk =>
    have hne := types_ne ht.1
    have hka : kindAt (w ++ rest) = kindAt w := kindAt_append hne
    have hcap : ¬ MAX_SHARED_RETURNS ≤ acc.length := by simp only [List.length_cons, List.length_nil] at hl; unfold MAX_SHARED_RETURNS; omega
    refine results_step (by rw [hka]; exact (types_kind ht.1).2) ?_
    have n1 : ¬ (kindAt (w ++ rest) = .ident ∧ complexStart (w ++ rest) = false ∧
            (kindAt (w ++ rest).tail = .ident ∨ kindAt (w ++ rest).tail = sy "?" ∨ kindAt (w ++ rest).tail = sy "[" ∨
              kindAt (w ++ rest).tail = sy "^")) ∧
        ¬ (kindAt (w ++ rest) = .ident ∧ kindAt (w ++ rest).tail = sy "," ∧ isType env (w ++ rest) = false) := by
      obtain ⟨x, w, rfl⟩ := List.exists_cons_of_ne_nil hne
      have htx : textAt (x :: w ++ rest) = x.text := rfl
      have tail_of : ∀ {s : String}, kindAt (x :: w).tail = .sym (lit s) → kindAt (x :: w ++ rest).tail = .sym (lit s) := by
        intro s e
        rw [List.tail_cons] at e
        rw [List.cons_append, List.tail_cons, kindAt_append]
        · exact e
        · rintro rfl
          cases e
      rcases hlk with hlk | ⟨h1, h2⟩ | ⟨h1, h2⟩ | h2 | ⟨y, h1, h2⟩
      · exact ⟨fun e => hlk (hka.symm.trans e.1), fun e => hlk (hka.symm.trans e.1)⟩
      · have hc : complexStart (x :: w ++ rest) = true := by
          unfold complexStart
          rw [htx, show x.text = lit "map" from h1, tail_of h2]; decide
        exact ⟨fun e => by rw [hc] at e; exact absurd e.2.1 (by decide), fun e => by rw [tail_of h2] at e; exact absurd e.2.1 (by decide)⟩
      · have hc : complexStart (x :: w ++ rest) = true := by
          unfold complexStart
          rw [htx, show x.text = lit "func" from h1, tail_of h2]; decide
        exact ⟨fun e => by rw [hc] at e; exact absurd e.2.1 (by decide), fun e => by rw [tail_of h2] at e; exact absurd e.2.1 (by decide)⟩
      · exact ⟨fun e => by rw [tail_of h2] at e; exact absurd e.2.2 (by decide), fun e => by rw [tail_of h2] at e; exact absurd e.2.1 (by decide)⟩
      · cases h1
        refine ⟨fun e => ?_, fun e => ?_⟩
        · rcases e.2.2 with e | e | e | e
          · exact hk.1 e
          · exact hk.2.1 e
          · exact hk.2.2.1 e
          · exact hk.2.2.2.1 e
        · have := (isType_of (env := env) (x := x) (r := rest) ⟨hk.2.2.1, hk.2.2.2.2.2⟩).2 ⟨e.1, h2⟩
          exact absurd (this.symm.trans e.2.2) (by decide)
    rw [if_neg n1.1, if_neg n1.2, if_neg hcap, ht.2 rest hr]
    rfl
  | @named x t w hx hm ht =>
    have hne := types_ne ht.1
    have hcap : ¬ MAX_SHARED_RETURNS ≤ acc.length := by simp only [List.length_cons, List.length_nil] at hl; unfold MAX_SHARED_RETURNS; omega
    have hka : kindAt (w ++ rest) = kindAt w := kindAt_append hne
    have hkx : kindAt (x :: w ++ rest) = .ident := hx
    refine results_step (by rw [hkx]; decide) ?_
    have hp : kindAt (w ++ rest) ≠ sy "(" := by
      rw [hka]
      rcases (types_kind ht.1).1 with e | e | e | e <;> rw [e] <;> decide
    have hcs : complexStart (x :: w ++ rest) = false := by
      unfold complexStart
      simp [show textAt (x :: (w ++ rest)) = x.text from rfl, hm, hp]
    have htl := (types_kind ht.1).1
    rw [← hka] at htl
    rw [if_pos ⟨hkx, hcs, htl⟩, if_neg hcap]
    show (env.ty (w ++ rest)).map _ = _
    rw [ht.2 rest hr]
    rfl
  | @shared xs t u hu h2 hx ht =>
    obtain ⟨x, c, ys, v, rfl, rfl, hxk, hc, hs⟩ := names_first hu h2
    have hkx : kindAt (x :: c :: v ++ [t] ++ rest) = .ident := hxk
    have hct : kindAt (c :: (v ++ [t] ++ rest)) = .sym (lit ",") := hc
    simp only [List.length_map, List.length_cons] at hl
    have h1 : sharedNames (x :: c :: v ++ [t] ++ rest).length [x.text] (c :: (v ++ t :: rest)) = (ys.reverse ++ [x.text], t :: rest) := by
      refine sharedNames_ok hs _ _ _ _ (by simp; omega) hc (by simp; omega) ?_
      rw [show kindAt (t :: rest) = .ident from ht]; decide
    refine results_step (by rw [hkx]; decide) ?_
    have h3 : isType env (x :: c :: v ++ [t] ++ rest) = false := by
      have h3 : ¬ isType env (x :: (c :: (v ++ [t] ++ rest))) = true := by
        rw [isType_of (by rw [hct]; decide)]
        exact fun e => hx _ (by simp) e.2
      simpa using h3
    rw [if_neg (fun e => ?_), if_pos ⟨hkx, hc, h3⟩]
    · rw [show (x :: c :: v ++ [t] ++ rest).tail = c :: (v ++ t :: rest) by simp, show textAt (x :: c :: v ++ [t] ++ rest) = x.text from rfl, h1]
      refine (if_pos ht).trans ?_
      rw [show (ys.reverse ++ [x.text]).reverse = x.text :: ys by simp, sharedTypes_ok ht hk.2.2.2.2.1 _ _ (by simp) (by simp only [List.length_cons]; omega)]
    · have := e.2.2
      rw [show (x :: c :: v ++ [t] ++ rest).tail = c :: (v ++ [t] ++ rest) by simp, hct] at this
      exact absurd this (by decide)
  | any hf => cases hf

theorem group_len {env : Env} {full : Bool} {rs : List (Option Str × Str)} {w : List Tok} (h : ResGroup env full rs w) : w ≠ [] := by
  cases h with
  | plain ht => exact types_ne ht.1
  | named => simp
  | shared => simp
  | any hf hu hx ht => exact fun e => types_ne ht.1 (List.append_eq_nil_iff.1 e).2

theorem groups_ok {env : Env} {rs : List (Option Str × Str)} {w : List Tok} (h : ResGroups env false rs w) :
    ∀ (f : Nat) (acc : List (Option Str × Str)) (c : Tok) (rest : List Tok), w.length + 1 ≤ f → acc.length + rs.length ≤ 16 →
      IsSym c ")" → results env f acc (w ++ c :: rest) = some (acc.reverse ++ rs, rest) := by
  induction h with
  | @one rs w h =>
    intro f acc c rest hf hl hc
    have := List.length_pos_iff.2 (group_len h)
    obtain ⟨f, rfl⟩ : ∃ g, f = g + 2 := ⟨f - 2, by omega⟩
    have hc' : kindAt (c :: rest) = .sym (lit ")") := hc
    rw [group_ok h _ _ _ hl (.inr hc'), if_neg (by rw [hc']; decide), results]
    refine (if_pos (.inl hc)).trans ?_
    simp
  | @cons rs qs w u c' h hc' hs ih =>
    intro f acc c rest hf hl hc
    simp only [List.length_append, List.length_cons] at hf hl
    have := List.length_pos_iff.2 (group_len h)
    obtain ⟨f, rfl⟩ : ∃ g, f = g + 1 := ⟨f - 1, by omega⟩
    have hk : kindAt (c' :: (u ++ c :: rest)) = .sym (lit ",") := hc'
    rw [List.append_assoc, List.cons_append, group_ok h f acc _ (by omega) (.inl hk)]
    refine (congrArg (results env f _) (if_pos hc')).trans ?_
    rw [List.tail_cons, ih f _ c rest (by omega) (by simp; omega) hc]
    simp

end St

/-- C187, the claim: the results of a function have the names and types that are written. -/
def C187_statement : Prop :=
  ∀ (env : Env) (rs : List (Option Str × Str)) (w rest : List Tok) (c : Tok), ResGroups env true rs w → rs.length ≤ 16 → IsSym c ")" →
    results env (w.length + 1) [] (w ++ c :: rest) = some (rs, rest)

/-- C187: so it is, if several names share a type that is a name. Missing: names that share another type (they get lost, or
different types, see `C187_witness`). -/
theorem C187_partial (env : Env) (rs : List (Option Str × Str)) (w rest : List Tok) (c : Tok) (h : ResGroups env false rs w)
    (hl : rs.length ≤ 16) (hc : IsSym c ")") : results env (w.length + 1) [] (w ++ c :: rest) = some (rs, rest) :=
  St.groups_ok h _ [] c rest (by omega) (by simpa using hl) hc

/-- A reader of types that knows arrays of named types. -/
def arrayEnv : Env :=
  { plainEnv with ty := fun ts => if kindAt ts = sy "[" then some (lit "[" ++ textAt ts.tail ++ lit "]", ts.tail.tail.tail) else some (readType ts) }

/-- C187: `(x, y [int])` gives one result without a name; in `(x, y m.T)` the types are different; of `(a, b)` nothing is left. -/
theorem C187_witness :
    (results arrayEnv 20 [] ((lex (lit "x, y [int]) {")).getD [])).map (·.1) = some [(none, lit "[int]")] ∧
    (results arrayEnv 20 [] ((lex (lit "x, y m.T) {")).getD [])).map (·.1) =
      some [(some (lit "x"), lit "m_T"), (some (lit "y"), lit "T")] ∧
    (results arrayEnv 20 [] ((lex (lit "a, b) {")).getD [])).map (·.1) = some [] := by
  decide +kernel

theorem C187_fails : ¬ C187_statement := fun h => by
  let x : Tok := ⟨.ident, lit "x", true, 0⟩
  let y : Tok := ⟨.ident, lit "y", true, 0⟩
  let k : Tok := ⟨.sym (lit ","), lit ",", true, 0⟩
  let t : Tok := ⟨.sym (lit "?"), lit "?", true, 0⟩
  let c : Tok := ⟨.sym (lit ")"), lit ")", true, 0⟩
  have ht : TypeIn plainEnv (lit "?") [t] := ⟨by decide, fun rest _ => rfl⟩
  have hw : ResGroups plainEnv true [(some (lit "x"), lit "?"), (some (lit "y"), lit "?")] ([x, k, y] ++ [t]) :=
    .one (.any (xs := [lit "x", lit "y"]) rfl (.cons (x := x) rfl rfl (.one (x := y) rfl))
      (by unfold NamesType; decide +kernel) ht)
  have := h plainEnv _ _ [] c hw (by decide) rfl
  exact absurd this (by decide +kernel)

/-- C187 is not void: `x, y int, float, z ^T`, say. -/
example : ∃ rs w, ResGroups plainEnv false rs w ∧ rs.length = 4 := by
  let s : String → Tok := fun s => ⟨.sym (lit s), lit s, true, 0⟩
  let n : String → Tok := fun s => ⟨.ident, lit s, true, 0⟩
  refine ⟨_, _, .cons (.shared (xs := [lit "x", lit "y"]) (t := n "int") (.cons (x := n "x") (c := s ",") rfl rfl (.one (x := n "y") rfl)) (by decide)
    (by unfold NamesType; decide +kernel) rfl) (c := s ",") rfl
    (.cons (.plain (t := lit "float") (w := [n "float"]) ⟨by decide, fun _ _ => rfl⟩ (.inr (.inr (.inr (.inr ⟨_, rfl, .inl (by decide +kernel)⟩)))))
      (c := s ",") rfl (.one (.named (x := n "z") (t := lit "T") (w := [n "T"]) rfl (by decide) ⟨by decide, fun _ _ => rfl⟩))), rfl⟩

/-! ### C188: the parameters of functions -/

/-- What follows a parameter. -/
def AtItem (rest : List Tok) : Prop := kindAt rest = .sym (lit ",") ∨ kindAt rest = .sym (lit ")")

/-- The name of a parameter, and whether it is passed by reference. -/
inductive ParamName (env : Env) : Bool → Str → List Tok → Prop where
  | val {x : Tok} (hx : x.kind = .ident ∧ env.reservedParam x.text = false ∨ IsSym x "_") : ParamName env false x.text [x]
  | ref {a x : Tok} (ha : IsSym a "&") (hx : x.kind = .ident ∧ env.reservedParam x.text = false ∨ IsSym x "_") :
      ParamName env true x.text [a, x]

/-- A default value, if there is one. -/
inductive DefaultToks (env : Env) : Option Expr → List Tok → Prop where
  | none : DefaultToks env none []
  | some {k : Tok} {e : Expr} {w : List Tok} (hk : IsSym k "=") (he : Reads env.names AtEnd e w) : DefaultToks env (some e) (k :: w)

/-- These tokens are read as this type, in a list of parameters. -/
def TypeInList (env : Env) (t : Str) (w : List Tok) : Prop :=
  kindAt w ∈ typeStarts ∧ ∀ rest, AtItem rest ∨ kindAt rest = .sym (lit "=") → env.ty (w ++ rest) = some (t, rest)

/-- Parameters with one type and one default value, or a type parameter. -/
inductive ParamGroup (env : Env) : List Param → List Tok → Prop where
  | last {m : Bool} {x t : Str} {d : Option Expr} {w u v : List Tok} (hn : ParamName env m x w) (ht : TypeInList env t u)
      (hd : DefaultToks env d v) : ParamGroup env [⟨x, m, some t, d, false⟩] (w ++ (u ++ v))
  | more {m : Bool} {x : Str} {t : Option Str} {d : Option Expr} {p : Param} {ps : List Param} {w u : List Tok} {c : Tok}
      (hn : ParamName env m x w) (hc : IsSym c ",") (h : ParamGroup env (p :: ps) u) (hp : p.isType = false) :
      ParamGroup env (⟨x, m, p.type, p.default, false⟩ :: p :: ps) (w ++ c :: u)
  | type {m : Bool} {x : Str} {w : List Tok} {l q g : Tok} (hn : ParamName env m x w) (hl : IsSym l "<") (hq : IsSym q "?")
      (hg : IsSym g ">") : ParamGroup env [⟨x, m, some (lit "?"), none, true⟩] (w ++ [l, q, g])

inductive ParamGroups (env : Env) : List Param → List Tok → Prop where
  | one {ps : List Param} {w : List Tok} (h : ParamGroup env ps w) : ParamGroups env ps w
  | cons {ps qs : List Param} {w u : List Tok} {c : Tok} (h : ParamGroup env ps w) (hc : IsSym c ",")
      (hs : ParamGroups env qs u) : ParamGroups env (ps ++ qs) (w ++ c :: u)

namespace St

/-- A parameter as the loop reads it. -/
def RawReads (env : Env) (p : Param) (w : List Tok) : Prop :=
  ∀ rest, AtItem rest → param env false (w ++ rest) = some (p, false, rest)

/-- Parameters with commas between them, as the loop reads them. -/
inductive RawList (env : Env) : List Param → List Tok → Prop where
  | one {p : Param} {w : List Tok} (h : RawReads env p w) (h1 : kindAt w ≠ sy ")") (h2 : kindAt w.tail ≠ sy ")") (h3 : kindAt w ≠ .eof)
      (h4 : 2 ≤ w.length) : RawList env [p] w
  | cons {p : Param} {ps : List Param} {w u : List Tok} {c : Tok} (h : RawReads env p w) (h1 : kindAt w ≠ sy ")")
      (h2 : kindAt w.tail ≠ sy ")") (h3 : kindAt w ≠ .eof) (hc : IsSym c ",")
      (hs : RawList env ps u) : RawList env (p :: ps) (w ++ c :: u)

theorem item_end {rest : List Tok} (h : AtItem rest) : AtEnd rest := by
  refine ⟨Ps.ends_iff.2 ?_, ?_⟩
  · rcases h with h | h <;> rw [h] <;> decide +kernel
  · rcases h with h | h <;> rw [h] <;> decide

theorem name_ok {env : Env} {m : Bool} {x : Str} {w : List Tok} (h : ParamName env m x w) (r : List Tok) :
    decide (kindAt (w ++ r) = sy "&") = m ∧ textAt (if kindAt (w ++ r) = sy "&" then (w ++ r).tail else w ++ r) = x ∧
    (if kindAt (w ++ r) = sy "&" then (w ++ r).tail else w ++ r).tail = r ∧
    ¬ (kindAt (if kindAt (w ++ r) = sy "&" then (w ++ r).tail else w ++ r) ≠ .ident ∧
        kindAt (if kindAt (w ++ r) = sy "&" then (w ++ r).tail else w ++ r) ≠ sy "_" ∨
      kindAt (if kindAt (w ++ r) = sy "&" then (w ++ r).tail else w ++ r) = .ident ∧
        env.reservedParam (textAt (if kindAt (w ++ r) = sy "&" then (w ++ r).tail else w ++ r)) = true) := by
  cases h with
  | @val x hx =>
    have hk : kindAt ([x] ++ r) ≠ sy "&" := by
      rcases hx with hx | hx
      · rw [show kindAt ([x] ++ r) = .ident from hx.1]; decide
      · rw [show kindAt ([x] ++ r) = .sym (lit "_") from hx]; decide
    rw [if_neg hk]
    refine ⟨decide_eq_false hk, rfl, rfl, ?_⟩
    rcases hx with hx | hx
    · rw [show kindAt ([x] ++ r) = .ident from hx.1, show textAt ([x] ++ r) = x.text from rfl, hx.2]; decide
    · rw [show kindAt ([x] ++ r) = .sym (lit "_") from hx]; simp; decide
  | @ref a x ha hx =>
    have hk : kindAt ([a, x] ++ r) = sy "&" := ha
    rw [if_pos hk]
    refine ⟨decide_eq_true hk, rfl, rfl, ?_⟩
    rcases hx with hx | hx
    · rw [show kindAt ([a, x] ++ r).tail = .ident from hx.1, show textAt ([a, x] ++ r).tail = x.text from rfl, hx.2]; decide
    · rw [show kindAt ([a, x] ++ r).tail = .sym (lit "_") from hx]; simp; decide

/-- What `param` does after the name. -/
def paramRest (env : Env) (x : Str) (m : Bool) (n : Bool) (q : List Tok) : Option (Param × Bool × List Tok) :=
  match (if kindAt q = sy "<" then do
        let q ← expect "?" q.tail
        let q ← expect ">" q
        some (some (lit "?"), true, q)
      else if kindAt q = .ident ∨ kindAt q = sy "^" ∨ kindAt q = sy "[" ∨ kindAt q = sy "?" then
        (env.ty q).map fun (t, r) => (some t, false, r)
      else if kindAt q = sy "&" then none
      else some (none, false, q) : Option (Option Str × Bool × List Tok)) with
    | none => none
    | some (t, ip, q) =>
      if kindAt q = sy "=" then do
        let (e, n, q) ← parse env.names n q.tail
        some (⟨x, m, t, some e, ip⟩, n, q)
      else some (⟨x, m, t, none, ip⟩, n, q)

theorem param_name {env : Env} {m : Bool} {x : Str} {w : List Tok} (h : ParamName env m x w) (n : Bool) (r : List Tok) :
    param env n (w ++ r) = paramRest env x m n r := by
  obtain ⟨h1, h2, h3, h4⟩ := name_ok h r
  unfold param
  refine (if_neg h4).trans ?_
  simp only [h1, h2, h3]
  rfl

theorem rest_bare (env : Env) (x : Str) (m n : Bool) (rest : List Tok) (h : AtItem rest) :
    paramRest env x m n rest = some (⟨x, m, none, none, false⟩, n, rest) := by
  unfold paramRest
  rw [if_neg (by rcases h with h | h <;> rw [h] <;> decide), if_neg (by rcases h with h | h <;> rw [h] <;> decide),
    if_neg (by rcases h with h | h <;> rw [h] <;> decide)]
  dsimp only
  rw [if_neg (by rcases h with h | h <;> rw [h] <;> decide)]

theorem rest_typed {env : Env} {t : Str} {d : Option Expr} {u v : List Tok} (x : Str) (m : Bool) (ht : TypeInList env t u)
    (hd : DefaultToks env d v) (rest : List Tok) (h : AtItem rest) :
    paramRest env x m false (u ++ (v ++ rest)) = some (⟨x, m, some t, d, false⟩, false, rest) := by
  have hk : kindAt (u ++ (v ++ rest)) = kindAt u := kindAt_append (types_ne ht.1)
  have h1 : kindAt u ≠ sy "<" := by
    have key : ∀ k ∈ typeStarts, k ≠ sy "<" := by decide
    exact key _ ht.1
  have h2 : kindAt u = .ident ∨ kindAt u = sy "^" ∨ kindAt u = sy "[" ∨ kindAt u = sy "?" := by
    have key : ∀ k ∈ typeStarts, k = .ident ∨ k = sy "^" ∨ k = sy "[" ∨ k = sy "?" := by decide
    exact key _ ht.1
  unfold paramRest
  rw [← hk] at h1 h2
  rw [if_neg h1, if_pos h2]
  cases hd with
  | none =>
    rw [ht.2 ([] ++ rest) (.inl h)]
    refine (if_neg ?_).trans rfl
    show kindAt rest ≠ _
    rcases h with h | h <;> rw [h] <;> decide
  | @some k e w hk' he =>
    rw [ht.2 (k :: w ++ rest) (.inr hk')]
    refine (if_pos hk').trans ?_
    show (parse env.names false (w ++ rest)).bind _ = _
    rw [reads he (item_end h)]
    rfl

theorem rest_type {env : Env} (x : Str) (m n : Bool) {l q g : Tok} (hl : IsSym l "<") (hq : IsSym q "?") (hg : IsSym g ">")
    (rest : List Tok) (h : AtItem rest) :
    paramRest env x m n ([l, q, g] ++ rest) = some (⟨x, m, some (lit "?"), none, true⟩, n, rest) := by
  unfold paramRest
  rw [if_pos (show kindAt ([l, q, g] ++ rest) = sy "<" from hl)]
  have e1 : expect "?" ([l, q, g] ++ rest).tail = some (g :: rest) := if_pos hq
  have e2 : expect ">" (g :: rest) = some rest := if_pos hg
  simp only [e1, e2, Option.bind_eq_bind, Option.bind_some]
  rw [if_neg (by rcases h with h | h <;> rw [h] <;> decide)]

theorem name_starts {env : Env} {m : Bool} {x : Str} {w : List Tok} (h : ParamName env m x w) (r : List Tok) :
    kindAt (w ++ r) ≠ sy ")" ∧ kindAt (w ++ r) ≠ .eof ∧ (kindAt r ≠ sy ")" → kindAt (w ++ r).tail ≠ sy ")") ∧ 1 ≤ w.length := by
  cases h with
  | @val x hx =>
    refine ⟨?_, ?_, fun h => h, by simp⟩
    all_goals
      rcases hx with hx | hx
      · rw [show kindAt ([x] ++ r) = .ident from hx.1]; decide
      · rw [show kindAt ([x] ++ r) = .sym (lit "_") from hx]; decide
  | @ref a x ha hx =>
    refine ⟨by rw [show kindAt ([a, x] ++ r) = sy "&" from ha]; decide, by rw [show kindAt ([a, x] ++ r) = sy "&" from ha]; decide, fun _ => ?_, by simp⟩
    rcases hx with hx | hx
    · rw [show kindAt ([a, x] ++ r).tail = .ident from hx.1]; decide
    · rw [show kindAt ([a, x] ++ r).tail = .sym (lit "_") from hx]; decide

/-- A group as the loop reads it, before other parameters or not. -/
theorem raw_group {env : Env} {ps : List Param} {w : List Tok} (h : ParamGroup env ps w) :
    ∃ rs, RawList env rs w ∧ (∀ qs u c, IsSym c "," → RawList env qs u → RawList env (rs ++ qs) (w ++ c :: u)) ∧
      (∀ qs fs, backfill qs = some fs → backfill (rs ++ qs) = some (ps ++ fs)) ∧ ∀ p ∈ ps, p.type ≠ none := by
  induction h with
  | @last m x t d w u v hn ht hd =>
    have hr : RawReads env ⟨x, m, some t, d, false⟩ (w ++ (u ++ v)) := fun rest h => by
      rw [List.append_assoc, param_name hn, List.append_assoc, rest_typed x m ht hd rest h]
    have hu : kindAt (u ++ v) ≠ sy ")" := by
      rw [kindAt_append (types_ne ht.1)]; exact fun e => (types_kind ht.1).2 (.inl e)
    obtain ⟨s1, s2, s3, s4⟩ := name_starts hn (u ++ v)
    have := List.length_pos_iff.2 (types_ne ht.1)
    refine ⟨[⟨x, m, some t, d, false⟩], .one hr s1 (s3 hu) s2 (by simp; omega), fun qs u c hc hs => .cons hr s1 (s3 hu) s2 hc hs, fun qs fs h => ?_, by simp⟩
    show backfill (_ :: qs) = _
    rw [backfill, h]
    simp
  | @more m x t d p ps w u c hn hc h hp ih =>
    obtain ⟨rs, h1, h2, h3, h4⟩ := ih
    have hr : RawReads env ⟨x, m, none, none, false⟩ w := fun rest h => by
      rw [param_name hn, rest_bare _ _ _ _ _ h]
    obtain ⟨s1, s2, s3, s4⟩ := name_starts hn []
    simp only [List.append_nil] at s1 s2 s3
    have s3 := s3 (by decide)
    refine ⟨⟨x, m, none, none, false⟩ :: rs, .cons hr s1 s3 s2 hc h1, fun qs u' c' hc' hs => ?_, fun qs fs h => ?_, ?_⟩
    · rw [List.append_assoc, List.cons_append]
      exact .cons hr s1 s3 s2 hc (h2 qs u' c' hc' hs)
    · rw [List.cons_append, backfill, h3 qs fs h]
      obtain ⟨ty, hty⟩ := Option.ne_none_iff_exists'.1 (h4 p (by simp))
      simp [hty]
    · intro p' hp'
      rcases List.mem_cons.1 hp' with rfl | hp'
      · exact h4 p (by simp)
      · exact h4 p' hp'
  | @type m x w l q g hn hl hq hg =>
    have hr : RawReads env ⟨x, m, some (lit "?"), none, true⟩ (w ++ [l, q, g]) := fun rest h => by
      rw [List.append_assoc, param_name hn, rest_type x m _ hl hq hg rest h]
    obtain ⟨s1, s2, s3, s4⟩ := name_starts hn [l, q, g]
    have s3 := s3 (by rw [show kindAt [l, q, g] = sy "<" from hl]; decide)
    refine ⟨[⟨x, m, some (lit "?"), none, true⟩], .one hr s1 s3 s2 (by simp), fun qs u c hc hs => .cons hr s1 s3 s2 hc hs, fun qs fs h => ?_, by simp⟩
    show backfill (_ :: qs) = _
    rw [backfill, h]
    simp

theorem raw_groups {env : Env} {ps : List Param} {w : List Tok} (h : ParamGroups env ps w) :
    ∃ rs, RawList env rs w ∧ backfill rs = some ps := by
  induction h with
  | one h =>
    obtain ⟨rs, h1, _, h3, _⟩ := raw_group h
    have := h3 [] [] rfl
    simp only [List.append_nil] at this
    exact ⟨rs, h1, this⟩
  | cons h hc _ ih =>
    obtain ⟨qs, i1, i2⟩ := ih
    obtain ⟨rs, _, h2, h3, _⟩ := raw_group h
    exact ⟨rs ++ qs, h2 qs _ _ hc i1, h3 _ _ i2⟩

theorem raw_start {env : Env} {rs : List Param} {w : List Tok} (h : RawList env rs w) :
    w ≠ [] ∧ kindAt w ≠ sy ")" ∧ kindAt w ≠ .eof ∧ ∀ r, kindAt (w ++ r).tail ≠ sy ")" := by
  cases h with
  | @one p w h h1 h2 h3 h4 =>
    obtain ⟨a, b, w, rfl⟩ : ∃ a b v, w = a :: b :: v := by
      match w, h4 with
      | a :: b :: v, _ => exact ⟨a, b, v, rfl⟩
    exact ⟨by simp, h1, h3, fun r => h2⟩
  | @cons p ps w u c h h1 h2 h3 hc hs =>
    have hne : w ≠ [] := by rintro rfl; exact h3 rfl
    refine ⟨by simp, ?_, ?_, fun r => ?_⟩
    · rw [kindAt_append hne]; exact h1
    · rw [kindAt_append hne]; exact h3
    · obtain ⟨a, v, rfl⟩ := List.exists_cons_of_ne_nil hne
      cases v with
      | nil => rw [show kindAt ([a] ++ c :: u ++ r).tail = sy "," from hc]; decide
      | cons b v => exact h2

theorem raw_loop {env : Env} {rs : List Param} {w : List Tok} (h : RawList env rs w) :
    ∀ (f : Nat) (acc : List Param) (c : Tok) (rest : List Tok), w.length ≤ f → IsSym c ")" →
      paramLoop env f false acc (w ++ c :: rest) = some (acc.reverse ++ rs, false, rest) := by
  induction h with
  | @one p w h h1 h2 h3 h4 =>
    intro f acc c rest hf hc
    obtain ⟨f, rfl⟩ : ∃ g, f = g + 1 := ⟨f - 1, by omega⟩
    have hk : kindAt (c :: rest) = .sym (lit ")") := hc
    rw [paramLoop, h (c :: rest) (.inr hk)]
    refine (if_neg (by rw [hk]; decide)).trans ((if_pos hk).trans ?_)
    simp
  | @cons p ps w u c' h h1 h2 h3 hc' hs ih =>
    intro f acc c rest hf hc
    have hne : w ≠ [] := by rintro rfl; exact h3 rfl
    have := List.length_pos_iff.2 hne
    simp only [List.length_append, List.length_cons] at hf
    obtain ⟨f, rfl⟩ : ∃ g, f = g + 1 := ⟨f - 1, by omega⟩
    have hk : kindAt (c' :: (u ++ c :: rest)) = .sym (lit ",") := hc'
    obtain ⟨u1, u2, u3, u4⟩ := raw_start hs
    rw [paramLoop, List.append_assoc, List.cons_append, h _ (.inl hk)]
    refine (if_pos hk).trans ((if_neg ?_).trans ?_)
    · rw [List.tail_cons, kindAt_append u1]
      rintro (e | e | e)
      · exact u2 e
      · exact u4 _ e
      · exact u3 e
    · rw [List.tail_cons, ih f _ c rest (by omega) hc]
      simp

end St

/-- C188: the parameters of a function have the names, types and default values that are written; those that share a type share
its default value. -/
theorem C188_parameters (env : Env) (ps : List Param) (w rest : List Tok) (c : Tok) (h : ParamGroups env ps w) (hc : IsSym c ")")
    (hm : (∀ p ∈ ps, p.isType = true) ∨ ∀ p ∈ ps, p.isType = false) :
    paramList env false (w ++ c :: rest) = some (ps, false, rest) := by
  obtain ⟨rs, h1, h2⟩ := St.raw_groups h
  obtain ⟨u1, u2, _, _⟩ := St.raw_start h1
  rw [paramList, if_neg (by rw [St.kindAt_append u1]; exact u2), St.raw_loop h1 _ [] c rest (by simp; omega) hc]
  simp only [Option.bind_eq_bind, Option.bind_some, List.reverse_nil, List.nil_append, h2]
  refine if_neg ?_
  simp only [List.any_eq_true]
  rintro ⟨⟨p, hp, hp1⟩, q, hq, hq1⟩
  rcases hm with hm | hm
  · simp [hm q hq] at hq1
  · simp [hm p hp] at hp1

/-- C188 is not void: `&a, b int, T = x`, say. -/
example : ∃ ps w, ParamGroups plainEnv ps w ∧ ps.map (·.name) = [lit "a", lit "b", lit "c"] ∧
    ps.map (·.type) = [some (lit "int"), some (lit "int"), some (lit "T")] ∧ ps.map (·.mutable) = [true, false, false] := by
  let s : String → Tok := fun s => ⟨.sym (lit s), lit s, true, 0⟩
  let n : String → Tok := fun s => ⟨.ident, lit s, true, 0⟩
  exact ⟨_, _, .cons (c := s ",") (.more (c := s ",") (t := none) (d := none) (.ref (a := s "&") (x := n "a") rfl (.inl ⟨rfl, rfl⟩)) rfl
    (.last (.val (x := n "b") (.inl ⟨rfl, rfl⟩)) (t := lit "int") (u := [n "int"]) ⟨by decide, fun _ _ => rfl⟩ .none) rfl) rfl
    (.one (.last (.val (x := n "c") (.inl ⟨rfl, rfl⟩)) (t := lit "T") (u := [n "T"]) ⟨by decide, fun _ _ => rfl⟩ .none)), rfl, rfl, rfl⟩

/-! ### C189: no parameter is lost -/

/-- The type of a parameter, if there is one. -/
def TypeShape (env : Env) (p : Param) (w : List Tok) : Prop :=
  p.isType = false ∧ p.type = none ∧ w = [] ∨
    (p.isType = true ∧ p.type = some (lit "?") ∧ ∃ l q g, w = [l, q, g] ∧ IsSym l "<" ∧ IsSym q "?" ∧ IsSym g ">") ∨
    p.isType = false ∧ ∃ t rest, p.type = some t ∧ env.ty (w ++ rest) = some (t, rest)

/-- Its default value, if there is one. -/
def DefaultShape (env : Env) (p : Param) (w : List Tok) : Prop :=
  p.default = none ∧ w = [] ∨
    ∃ k v e n n' rest, w = k :: v ∧ IsSym k "=" ∧ p.default = some e ∧ parse env.names n (v ++ rest) = some (e, n', rest)

/-- The tokens of a parameter. -/
def ParamShape (env : Env) (p : Param) (w : List Tok) : Prop :=
  ∃ a x u v, w = a ++ x :: (u ++ v) ∧ (p.mutable = false ∧ a = [] ∨ p.mutable = true ∧ ∃ k, a = [k] ∧ IsSym k "&") ∧
    x.text = p.name ∧ (x.kind = .ident ∨ IsSym x "_") ∧ TypeShape env p u ∧ DefaultShape env p v

/-- Parameters with commas between them. -/
inductive ParamToks (env : Env) : List Param → List Tok → Prop where
  | one {p : Param} {w : List Tok} (h : ParamShape env p w) : ParamToks env [p] w
  | cons {p : Param} {ps : List Param} {w u : List Tok} {c : Tok} (h : ParamShape env p w) (hc : IsSym c ",")
      (hs : ParamToks env ps u) : ParamToks env (p :: ps) (w ++ c :: u)

namespace St

theorem of_kind {ts : List Tok} {k : Kind} (h : kindAt ts = k) (hk : k ≠ .eof) : ∃ t r, ts = t :: r ∧ t.kind = k := by
  cases ts with
  | nil => exact absurd h.symm hk
  | cons t r => exact ⟨t, r, rfl, h⟩

theorem rest_sound {env : Env} (he : ReadsOn env) {x : Str} {m n n' : Bool} {q r : List Tok} {p : Param}
    (h : paramRest env x m n q = some (p, n', r)) :
    p.name = x ∧ p.mutable = m ∧ ∃ u v, q = u ++ (v ++ r) ∧ TypeShape env p u ∧ DefaultShape env p v := by
  unfold paramRest at h
  generalize ht : (if kindAt q = sy "<" then do
        let q ← expect "?" q.tail
        let q ← expect ">" q
        some (some (lit "?"), true, q)
      else if kindAt q = .ident ∨ kindAt q = sy "^" ∨ kindAt q = sy "[" ∨ kindAt q = sy "?" then
        (env.ty q).map fun (t, r) => (some t, false, r)
      else if kindAt q = sy "&" then none
      else some (none, false, q) : Option (Option Str × Bool × List Tok)) = o at h
  cases o with
  | none => cases h
  | some o =>
    obtain ⟨t, ip, q'⟩ := o
    -- the type
    have hty : ∃ u, q = u ++ q' ∧ ∀ x m d, TypeShape env ⟨x, m, t, d, ip⟩ u := by
      by_cases c1 : kindAt q = sy "<"
      · rw [if_pos c1] at ht
        simp only [Option.bind_eq_bind, Option.bind_eq_some_iff] at ht
        obtain ⟨q1, h1, q2, h2, h3⟩ := ht
        cases h3
        obtain ⟨l, r1, rfl, hl⟩ := of_kind c1 (by decide)
        obtain ⟨a, h1a, h1b⟩ := expect_some h1
        obtain ⟨b, h2a, rfl⟩ := expect_some h2
        rw [List.tail_cons] at h1b
        subst h1b
        exact ⟨[l, a, b], rfl, fun x m d => .inr (.inl ⟨rfl, rfl, l, a, b, rfl, hl, h1a, h2a⟩)⟩
      · rw [if_neg c1] at ht
        by_cases c2 : kindAt q = .ident ∨ kindAt q = sy "^" ∨ kindAt q = sy "[" ∨ kindAt q = sy "?"
        · rw [if_pos c2] at ht
          obtain ⟨⟨ty, r1⟩, h1, h2⟩ := Option.map_eq_some_iff.1 ht
          cases h2
          obtain ⟨u, rfl⟩ := he.1 _ _ _ h1
          exact ⟨u, rfl, fun x m d => .inr (.inr ⟨rfl, ty, _, rfl, h1⟩)⟩
        · rw [if_neg c2] at ht
          split at ht
          · cases ht
          · cases ht
            exact ⟨[], rfl, fun x m d => .inl ⟨rfl, rfl, rfl⟩⟩
    obtain ⟨u, rfl, hu⟩ := hty
    dsimp only at h
    by_cases c : kindAt q' = sy "="
    · rw [if_pos c] at h
      simp only [Option.bind_eq_bind, Option.bind_eq_some_iff] at h
      obtain ⟨⟨e, n1, r1⟩, h1, h2⟩ := h
      cases h2
      obtain ⟨k, r2, rfl, hk⟩ := of_kind c (by decide)
      obtain ⟨v, hv⟩ := Ps.parse_suffix h1
      refine ⟨rfl, rfl, u, k :: v, ?_, hu _ _ _, .inr ⟨k, v, e, n, n1, r1, rfl, hk, rfl, ?_⟩⟩
      · rw [List.cons_append, hv]; rfl
      · rw [hv]; exact h1
    · rw [if_neg c] at h
      cases h
      exact ⟨rfl, rfl, u, [], rfl, hu _ _ _, .inl ⟨rfl, rfl⟩⟩

theorem param_eq (env : Env) (n : Bool) (ts q : List Tok) (hq : (if kindAt ts = sy "&" then ts.tail else ts) = q) :
    param env n ts = if kindAt q ≠ .ident ∧ kindAt q ≠ sy "_" ∨ kindAt q = .ident ∧ env.reservedParam (textAt q) = true then none
      else paramRest env (textAt q) (decide (kindAt ts = sy "&")) n q.tail := by
  subst hq
  rfl

theorem param_sound {env : Env} (he : ReadsOn env) {n n' : Bool} {ts r : List Tok} {p : Param} (h : param env n ts = some (p, n', r)) :
    ∃ w, ts = w ++ r ∧ ParamShape env p w := by
  generalize hq : (if kindAt ts = sy "&" then ts.tail else ts) = q
  rw [param_eq env n ts q hq] at h
  by_cases c : kindAt q ≠ .ident ∧ kindAt q ≠ sy "_" ∨ kindAt q = .ident ∧ env.reservedParam (textAt q) = true
  · rw [if_pos c] at h
    cases h
  · rw [if_neg c] at h
    have hx : kindAt q = .ident ∨ kindAt q = sy "_" := by
      by_cases h1 : kindAt q = .ident
      · exact .inl h1
      · by_cases h2 : kindAt q = sy "_"
        · exact .inr h2
        · exact absurd (.inl ⟨h1, h2⟩) c
    obtain ⟨x, q, rfl⟩ : ∃ x q', q = x :: q' := by
      cases q with
      | nil => rcases hx with hx | hx <;> cases hx
      | cons x q => exact ⟨x, q, rfl⟩
    have h' : paramRest env x.text (decide (kindAt ts = sy "&")) n q = some (p, n', r) := h
    obtain ⟨h1, h2, u, v, rfl, hu, hv⟩ := rest_sound he h'
    by_cases ca : kindAt ts = sy "&"
    · rw [if_pos ca] at hq
      obtain ⟨k, ts, rfl, hk⟩ := of_kind ca (by decide)
      rw [List.tail_cons] at hq
      subst hq
      exact ⟨[k] ++ x :: (u ++ v), by simp, [k], x, u, v, rfl, .inr ⟨h2.trans (decide_eq_true ca), k, rfl, hk⟩, h1.symm, hx, hu, hv⟩
    · rw [if_neg ca] at hq
      subst hq
      exact ⟨x :: (u ++ v), by simp, [], x, u, v, rfl, .inl ⟨h2.trans (decide_eq_false ca), rfl⟩, h1.symm, hx, hu, hv⟩

theorem loop_sound {env : Env} (he : ReadsOn env) : ∀ (f : Nat) (n n' : Bool) (acc ps : List Param) (ts r : List Tok),
    paramLoop env f n acc ts = some (ps, n', r) → ∃ rs w c, ps = acc.reverse ++ rs ∧ ts = w ++ c :: r ∧ IsSym c ")" ∧
      (ParamToks env rs w ∨ ∃ u k x, w = u ++ [k, x] ∧ IsSym k "," ∧ ParamToks env rs u) := by
  intro f
  induction f with
  | zero => intro _ _ _ _ _ _ h; cases h
  | succ f ih =>
    intro n n' acc ps ts r h
    rw [paramLoop] at h
    simp only [Option.bind_eq_bind, Option.bind_eq_some_iff] at h
    obtain ⟨⟨p, n1, r1⟩, h1, h2⟩ := h
    obtain ⟨w, rfl, hw⟩ := param_sound he h1
    simp only at h2
    by_cases c1 : kindAt r1 = sy ","
    · rw [if_pos c1] at h2
      obtain ⟨k, r2, rfl, hk⟩ := of_kind c1 (by decide)
      rw [List.tail_cons] at h2
      by_cases c2 : kindAt r2 = sy ")" ∨ kindAt r2.tail = sy ")" ∨ kindAt r2 = .eof
      · rw [if_pos c2] at h2
        simp only [Option.bind_eq_some_iff] at h2
        obtain ⟨q, h3, h4⟩ := h2
        cases h4
        obtain ⟨c, hc, h5⟩ := expect_some h3
        cases r2 with
        | nil => cases h5
        | cons x r2 =>
          rw [List.tail_cons] at h5
          subst h5
          exact ⟨[p], w ++ [k, x], c, by simp, by simp, hc, .inr ⟨w, k, x, rfl, hk, .one hw⟩⟩
      · rw [if_neg c2] at h2
        obtain ⟨rs, u, c, rfl, rfl, hc, hu⟩ := ih _ _ _ _ _ _ h2
        refine ⟨p :: rs, w ++ k :: u, c, by simp, by simp, hc, ?_⟩
        rcases hu with hu | ⟨v, k', x, rfl, hk', hu⟩
        · exact .inl (.cons hw hk hu)
        · exact .inr ⟨w ++ k :: v, k', x, by simp, hk', .cons hw hk hu⟩
    · rw [if_neg c1] at h2
      split at h2
      · rename_i c2
        cases h2
        obtain ⟨c, r2, rfl, hc⟩ := of_kind c2 (by decide)
        exact ⟨[p], w, c, by simp, rfl, hc, .inl (.one hw)⟩
      · cases h2

end St

/-- C189, the claim: every parameter of a list that is accepted is a parameter of the function. -/
def C189_statement : Prop :=
  ∀ (env : Env) (n n' : Bool) (ts r : List Tok) (ps : List Param), ReadsOn env → paramList env n ts = some (ps, n', r) → ps ≠ [] →
    ∃ rs w c, ts = w ++ c :: r ∧ IsSym c ")" ∧ ParamToks env rs w ∧ backfill rs = some ps

/-- C189: so it is, or the list ends with a comma and one more token, which is ignored. Missing: that this is refused. -/
theorem C189_partial (env : Env) (he : ReadsOn env) (n n' : Bool) (ts r : List Tok) (ps : List Param)
    (h : paramList env n ts = some (ps, n', r)) (hp : ps ≠ []) :
    ∃ rs w c, ts = w ++ c :: r ∧ IsSym c ")" ∧ backfill rs = some ps ∧
      (ParamToks env rs w ∨ ∃ u k x, w = u ++ [k, x] ∧ IsSym k "," ∧ ParamToks env rs u) := by
  rw [paramList] at h
  split at h
  · cases h
    exact absurd rfl hp
  · simp only [Option.bind_eq_bind, Option.bind_eq_some_iff] at h
    obtain ⟨⟨rs, n1, r1⟩, h1, qs, h2, h3⟩ := h
    simp only at h2 h3
    split at h3
    · cases h3
    · cases h3
      obtain ⟨rs', w, c, e, e2, hc, hw⟩ := St.loop_sound he _ _ _ _ _ _ _ h1
      cases e
      exact ⟨rs', w, c, e2, hc, h2, hw⟩

/-- C189: `do f(a int, b)`, `do f(a int, 5)` and `do f(a int, ))` have the parameter `a` only. -/
theorem C189_witness : ∀ s ∈ [lit "a int, b) {", lit "a int, 5) {", lit "a int, )) {"],
    (paramList plainEnv false ((lex s).getD [])).map (fun r => (r.1.map (·.name), r.2.2.map (·.text))) = some ([lit "a"], [lit "{", []]) := by
  decide +kernel

namespace St

theorem backfill_length : ∀ (rs ps : List Param), backfill rs = some ps → rs.length = ps.length
  | [], ps, h => by cases h; rfl
  | p :: rs, ps, h => by
    rw [backfill] at h
    simp only [Option.bind_eq_bind, Option.bind_eq_some_iff] at h
    obtain ⟨qs, h1, h2⟩ := h
    have hl := backfill_length rs qs h1
    split at h2 <;> split at h2
    · cases h2
    · cases h2; simp at hl ⊢; exact hl
    · cases h2
    · cases h2; simp at hl ⊢; exact hl

/-- Parameters without `&`, `<` and `=`, where a type is one token. -/
theorem short_param {p : Param} {w : List Tok} (h : ParamShape plainEnv p w)
    (hw : ∀ t ∈ w, t.kind ≠ sy "&" ∧ t.kind ≠ sy "<" ∧ t.kind ≠ sy "=") : w.length ≤ 2 := by
  obtain ⟨a, x, u, v, rfl, ha, _, _, hu, hv⟩ := h
  rcases ha with ⟨_, rfl⟩ | ⟨_, k, rfl, hk⟩
  · rcases hv with ⟨_, rfl⟩ | ⟨k, v, e, n, n', rest, rfl, hk, _⟩
    · rcases hu with ⟨_, _, rfl⟩ | ⟨_, _, l, q, g, rfl, hl, _⟩ | ⟨_, t, rest, _, ht⟩
      · simp
      · exact absurd hl (hw l (by simp)).2.1
      · have h1 : (u ++ rest).tail = rest := (Prod.ext_iff.1 (Option.some.inj ht)).2
        have := congrArg List.length h1
        simp at this ⊢
        omega
    · exact absurd hk (hw k (by simp)).2.2
  · exact absurd hk (hw k (by simp)).1

end St

theorem C189_fails : ¬ C189_statement := fun h => by
  let s : String → Tok := fun s => ⟨.sym (lit s), lit s, true, 0⟩
  let n : String → Tok := fun s => ⟨.ident, lit s, true, 0⟩
  have h1 : paramList plainEnv false [n "a", n "int", s ",", n "b", s ")"] = some ([⟨lit "a", false, some (lit "int"), none, false⟩], false, []) := rfl
  obtain ⟨rs, w, c, e, hc, hw, hb⟩ := h plainEnv _ _ _ _ _ plain_reads h1 (by simp)
  have hl := St.backfill_length _ _ hb
  have e1 : w = [n "a", n "int", s ",", n "b"] := by
    have := congrArg List.dropLast e
    simpa using this.symm
  cases hw with
  | one hp =>
    subst e1
    have := St.short_param hp (by decide)
    simp at this
  | cons _ _ hs => cases hs <;> simp at hl

/-! ### C190: the pieces of a string -/

/-- A text in which braces match; quotes and backslashes have no meaning. -/
inductive Balanced : Str → Prop where
  | nil : Balanced []
  | byte {c : Byte} {r : Str} (hc : c ≠ 123 ∧ c ≠ 125) (h : Balanced r) : Balanced (c :: r)
  | brace {a r : Str} (ha : Balanced a) (h : Balanced r) : Balanced (123 :: (a ++ 125 :: r))

/-- A text without `${`, where a backslash hides the next byte. -/
inductive TextRun : Str → Prop where
  | nil : TextRun []
  | byte {c : Byte} {r : Str} (hc : c ≠ 92) (h2 : ¬ [36, 123] <+: c :: r) (h : TextRun r) : TextRun (c :: r)
  | esc {c : Byte} {r : Str} (h : TextRun r) : TextRun (92 :: c :: r)

/-- The pieces of the text of a string literal. -/
inductive StrPieces : List Stmt.Part → Str → Prop where
  | nil : StrPieces [] []
  | text {t : Str} (hn : t ≠ []) (ht : TextRun t) : StrPieces [.text t] t
  | code {a r : Str} {ps : List Stmt.Part} (ha : Balanced a) (h : StrPieces ps r) : StrPieces (.code a :: ps) (36 :: 123 :: (a ++ 125 :: r))
  | both {t a r : Str} {ps : List Stmt.Part} (hn : t ≠ []) (ht : TextRun t) (ha : Balanced a) (h : StrPieces ps r) :
      StrPieces (.text t :: .code a :: ps) (t ++ 36 :: 123 :: (a ++ 125 :: r))

/-- Some byte of the text is not white space. -/
def NotBlank (a : Str) : Prop := ∃ c ∈ a, c ≠ 32 ∧ c ≠ 9 ∧ c ≠ 10 ∧ c ≠ 13

namespace St

theorem closing_balanced {a : Str} (h : Balanced a) : ∀ (n : Nat) (r : Str),
    closing (n + 1) (a ++ r) = (a ++ (closing (n + 1) r).1, (closing (n + 1) r).2) := by
  induction h with
  | nil => intro n r; rfl
  | @byte c a hc h ih =>
    intro n r
    rw [List.cons_append, closing]
    rw [show (if c = ch '{' then n + 2 else if c = ch '}' then n else n + 1) = n + 1 from (if_neg hc.1).trans (if_neg hc.2)]
    rw [if_neg (by omega), ih n r]
    rfl
  | @brace a b ha h iha ih =>
    intro n r
    have e : 123 :: (a ++ 125 :: b) ++ r = 123 :: (a ++ 125 :: (b ++ r)) := by simp
    rw [e, closing]
    rw [show (if (123 : Byte) = ch '{' then n + 2 else if (123 : Byte) = ch '}' then n else n + 1) = n + 2 from if_pos (by decide)]
    rw [if_neg (by omega), iha (n + 1), closing]
    rw [show (if (125 : Byte) = ch '{' then n + 1 + 2 else if (125 : Byte) = ch '}' then n + 1 else n + 1 + 1) = n + 1 from
      (if_neg (by decide)).trans (if_pos (by decide))]
    rw [if_neg (by omega), ih n r]
    simp

theorem closing_code {a : Str} (h : Balanced a) (r : Str) : closing 1 (a ++ 125 :: r) = (a, 125 :: r) := by
  have : closing 1 (125 :: r) = ([], 125 :: r) := by
    rw [closing]
    rw [show (if (125 : Byte) = ch '{' then 0 + 2 else if (125 : Byte) = ch '}' then 0 else 0 + 1) = 0 from
      (if_neg (by decide)).trans (if_pos (by decide))]
    rfl
  rw [closing_balanced h 0, this]
  simp

/-- What may follow a text: nothing, or `${`. -/
def AtCode (rest : Str) : Prop := rest = [] ∨ ∃ r, rest = 36 :: 123 :: r

theorem parts_text {t : Str} (h : TextRun t) (rest : Str) (hr : AtCode rest) : ∀ (f : Nat) (seg : Str), (t ++ rest).length < f →
    ∃ g, rest.length < g ∧ parts f seg (t ++ rest) = parts g (t.reverse ++ seg) rest := by
  induction h with
  | nil => intro f seg hf; exact ⟨f, hf, rfl⟩
  | @byte c t hc h2 h ih =>
    intro f seg hf
    simp only [List.cons_append, List.length_cons] at hf
    obtain ⟨f, rfl⟩ : ∃ g, f = g + 1 := ⟨f - 1, by omega⟩
    rw [List.cons_append, List.reverse_cons, List.append_assoc, List.singleton_append]
    obtain ⟨g, hg, e⟩ := ih f (c :: seg) (by omega)
    generalize hx : t ++ rest = x at *
    cases x with
    | nil =>
      obtain ⟨rfl, rfl⟩ := List.append_eq_nil_iff.1 hx
      refine ⟨1, by simp, ?_⟩
      rw [parts, parts]
      simp
    | cons d x =>
      refine ⟨g, hg, ?_⟩
      rw [parts, ← e]
      rw [if_neg (show c ≠ ch '\\' from hc), if_neg]
      rintro ⟨h3, h4⟩
      cases t with
      | nil =>
        rcases hr with rfl | ⟨r, rfl⟩
        · cases hx
        · have : d = 36 := by cases hx; rfl
          rw [this] at h4
          exact absurd h4 (by decide)
      | cons d' t =>
        cases hx
        exact h2 ⟨t, by rw [h3, h4]; rfl⟩
  | @esc c t h ih =>
    intro f seg hf
    simp only [List.cons_append, List.length_cons] at hf
    obtain ⟨f, rfl⟩ : ∃ g, f = g + 1 := ⟨f - 1, by omega⟩
    obtain ⟨g, hg, e⟩ := ih f (c :: 92 :: seg) (by omega)
    refine ⟨g, hg, ?_⟩
    rw [List.cons_append, List.cons_append, parts]
    rw [if_pos (by decide), e]
    simp

theorem blank_iff {a : Str} (h : NotBlank a) : ¬ a.all isWs = true := by
  obtain ⟨c, hc, h1, h2, h3, h4⟩ := h
  intro e
  have := List.all_eq_true.1 e c hc
  simp only [isWs, Bool.or_eq_true, beq_iff_eq] at this
  rcases this with ((h | h) | h) | h
  · exact h1 h
  · exact h2 h
  · exact h4 h
  · exact h3 h

theorem parts_code {a : Str} (ha : Balanced a) (hb : NotBlank a) (f : Nat) (seg r : Str) :
    parts (f + 1) seg (36 :: 123 :: (a ++ 125 :: r)) =
      (parts f [] r).map fun ps => (if seg = [] then [] else [Stmt.Part.text seg.reverse]) ++ .code a :: ps := by
  rw [parts]
  rw [if_neg (by decide), if_pos (by decide), closing_code ha]
  rw [if_neg (blank_iff hb)]
  cases h : parts f [] r <;> simp [h]

theorem parts_pieces {ps : List Stmt.Part} {s : Str} (h : StrPieces ps s) (hb : ∀ a, .code a ∈ ps → NotBlank a) :
    ∀ f, s.length < f → parts f [] s = some ps := by
  induction h with
  | nil =>
    intro f hf
    obtain ⟨f, rfl⟩ : ∃ g, f = g + 1 := ⟨f - 1, by omega⟩
    rfl
  | @text t hn ht =>
    intro f hf
    obtain ⟨g, hg, e⟩ := parts_text ht [] (.inl rfl) f [] (by simpa using hf)
    obtain ⟨g, rfl⟩ : ∃ g', g = g' + 1 := ⟨g - 1, by omega⟩
    simp only [List.append_nil] at e
    rw [e, parts]
    simp [hn]
  | @code a r ps ha h ih =>
    intro f hf
    simp only [List.length_cons, List.length_append] at hf
    obtain ⟨f, rfl⟩ : ∃ g, f = g + 1 := ⟨f - 1, by omega⟩
    rw [parts_code ha (hb a (by simp)), ih (fun b hm => hb b (by simp [hm])) f (by omega)]
    rfl
  | @both t a r ps hn ht ha h ih =>
    intro f hf
    obtain ⟨g, hg, e⟩ := parts_text ht _ (.inr ⟨_, rfl⟩) f [] hf
    simp only [List.length_cons, List.length_append] at hg
    obtain ⟨g, rfl⟩ : ∃ g', g = g' + 1 := ⟨g - 1, by omega⟩
    rw [e, parts_code ha (hb a (by simp)), ih (fun b hm => hb b (by simp [hm])) g (by omega)]
    simp [hn]

theorem hasInterp_text {t : Str} (h : TextRun t) (rest : Str) (hr : AtCode rest) : hasInterp (t ++ rest) = hasInterp rest := by
  induction h with
  | nil => rfl
  | @byte c t hc h2 h ih =>
    rw [List.cons_append, ← ih]
    generalize hx : t ++ rest = x at *
    cases x with
    | nil => rfl
    | cons d x =>
      rw [hasInterp, if_neg, if_neg (show c ≠ ch '\\' from hc)]
      rintro ⟨h3, h4⟩
      cases t with
      | nil =>
        rcases hr with rfl | ⟨r, rfl⟩
        · cases hx
        · have : d = 36 := by cases hx; rfl
          rw [this] at h4
          exact absurd h4 (by decide)
      | cons d' t =>
        cases hx
        exact h2 ⟨t, by rw [h3, h4]; rfl⟩
  | @esc c t h ih =>
    rw [List.cons_append, List.cons_append, hasInterp, if_neg, if_pos (by decide), ih]
    rintro ⟨h3, _⟩
    exact absurd h3 (by decide)

theorem hasInterp_code (r : Str) : hasInterp (36 :: 123 :: r) = true := by
  rw [hasInterp, if_pos (by decide)]

/-- Every text that the lexer takes as a string is made of pieces. -/
theorem inner_balanced {a : Str} (h : Inner a) : Balanced a := by
  induction h with
  | nil => exact .nil
  | byte hc _ ih => exact .byte hc.2 ih
  | @esc p r hp _ ih =>
    cases hp with
    | @simple c h =>
      have key : ∀ c ∈ lit "ntr\\\"'0abfv$", c ≠ 123 ∧ c ≠ 125 := by decide
      exact .byte (by decide) (.byte (key c h) ih)
    | @hex a b ha hb =>
      have key : ∀ n : Fin 256, isXDigit (BitVec.ofFin n : Byte) = true → (BitVec.ofFin n : Byte) ≠ 123 ∧ (BitVec.ofFin n : Byte) ≠ 125 := by
        decide +kernel
      exact .byte (by decide) (.byte (by decide) (.byte (key a.toFin ha) (.byte (key b.toFin hb) ih)))
  | brace _ _ ih1 ih2 => exact .brace ih1 ih2

/-- A text before pieces. -/
theorem pieces_cons {ps : List Stmt.Part} {s : Str} (h : StrPieces ps s) (p : Str) (hp : p ≠ [])
    (ht : ∀ t, TextRun t → t <+: s → TextRun (p ++ t)) : ∃ qs, StrPieces qs (p ++ s) := by
  cases h with
  | nil => exact ⟨_, by rw [List.append_nil]; exact .text hp (by simpa using ht [] .nil (List.prefix_refl _))⟩
  | text hn h => exact ⟨_, .text (by simp [hp]) (ht _ h (List.prefix_refl _))⟩
  | code ha h => exact ⟨_, .both hp (by simpa using ht [] .nil (List.nil_prefix)) ha h⟩
  | both hn h ha hs =>
    exact ⟨_, by rw [← List.append_assoc]; exact .both (by simp [hp]) (ht _ h (List.prefix_append _ _)) ha hs⟩

theorem content_pieces {s : Str} (h : Content s) : ∃ ps, StrPieces ps s := by
  induction h with
  | nil => exact ⟨_, .nil⟩
  | @byte c r hc h2 _ ih =>
    obtain ⟨ps, ih⟩ := ih
    refine pieces_cons ih [c] (by simp) fun t ht hp => .byte hc.1 (fun hq => h2 ?_) ht
    exact hq.trans (by obtain ⟨u, rfl⟩ := hp; exact ⟨u, by simp⟩)
  | @esc p r hp _ ih =>
    obtain ⟨ps, ih⟩ := ih
    cases hp with
    | simple h => exact pieces_cons ih _ (by simp) fun t ht _ => .esc ht
    | @hex a b ha hb =>
      have key : ∀ n : Fin 256, isXDigit (BitVec.ofFin n : Byte) = true → (BitVec.ofFin n : Byte) ≠ 92 ∧ (BitVec.ofFin n : Byte) ≠ 36 := by
        decide +kernel
      refine pieces_cons ih _ (by simp) fun t ht _ => .esc (.byte (key a.toFin ha).1 ?_ (.byte (key b.toFin hb).1 ?_ ht))
      · rintro ⟨u, hu⟩
        exact (key a.toFin ha).2 (by cases hu; rfl)
      · rintro ⟨u, hu⟩
        exact (key b.toFin hb).2 (by cases hu; rfl)
  | interp ha _ ih =>
    obtain ⟨ps, ih⟩ := ih
    exact ⟨_, .code (inner_balanced ha) ih⟩

end St

/-- C190: the text of a string is split into the pieces that are written. -/
theorem C190_pieces (ps : List Stmt.Part) (s : Str) (h : StrPieces ps s) (hb : ∀ a, .code a ∈ ps → NotBlank a) :
    interpolated s = some (if s = [] then [.text []] else ps) := by
  unfold interpolated
  cases h with
  | nil => rfl
  | @text t hn ht =>
    have := St.hasInterp_text ht [] (.inl rfl)
    rw [List.append_nil] at this
    rw [this, if_neg (by decide), if_neg hn]
  | code ha h =>
    rw [St.hasInterp_code, if_pos rfl, if_neg (by simp), St.parts_pieces (.code ha h) hb _ (by simp)]
  | both hn ht ha h =>
    rw [St.hasInterp_text ht _ (.inr ⟨_, rfl⟩), St.hasInterp_code, if_pos rfl, if_neg (by simp), St.parts_pieces (.both hn ht ha h) hb _ (by simp)]

/-- C190: every text that the lexer accepts between quotes is made of such pieces. -/
theorem C190_all (s : Str) (h : Content s) : ∃ ps, StrPieces ps s := St.content_pieces h

/-- C190: a string that is accepted has no blank code. -/
theorem C190_blank (a r : Str) (ha : Balanced a) (hb : ¬ NotBlank a) (t : Str) (ht : TextRun t) :
    interpolated (t ++ 36 :: 123 :: (a ++ 125 :: r)) = none := by
  unfold interpolated
  rw [St.hasInterp_text ht _ (.inr ⟨_, rfl⟩), St.hasInterp_code, if_pos rfl]
  obtain ⟨g, hg, e⟩ := St.parts_text ht (36 :: 123 :: (a ++ 125 :: r)) (.inr ⟨_, rfl⟩) _ [] (Nat.lt_succ_self _)
  obtain ⟨g, rfl⟩ : ∃ g', g = g' + 1 := ⟨g - 1, by omega⟩
  rw [e, parts]
  rw [if_neg (by decide), if_pos (by decide), St.closing_code ha]
  refine if_pos (List.all_eq_true.2 fun c hc => ?_)
  have : ∀ n : Fin 256, isWs (BitVec.ofFin n : Byte) = false → (BitVec.ofFin n : Byte) ≠ 32 ∧ (BitVec.ofFin n : Byte) ≠ 9 ∧
      (BitVec.ofFin n : Byte) ≠ 10 ∧ (BitVec.ofFin n : Byte) ≠ 13 := by decide +kernel
  cases hw : isWs c with
  | true => rfl
  | false => exact absurd ⟨c, hc, this c.toFin hw⟩ hb

example : interpolated (lit "a\\${${x[{1:2}]}}b${y}") =
    some [.text (lit "a\\${"), .code (lit "x[{1:2}]"), .text (lit "}b"), .code (lit "y")] := by decide +kernel

/-! ### C191: any expression can be interpolated -/

/-- C191, the claim: a text that is an expression can be put between `${` and `}`. -/
def C191_statement : Prop :=
  ∀ (names : List Str) (s : Str) (e : Expr), interpExpr names s = some e → interpolated (36 :: 123 :: (s ++ [125])) = some [.code s]

/-- C191: so it is, if braces match. Missing: braces in strings, characters and comments. -/
theorem C191_partial (s : Str) (h : Balanced s) (hb : NotBlank s) : interpolated (36 :: 123 :: (s ++ [125])) = some [.code s] := by
  have := C190_pieces [.code s] _ (.code h .nil) (by simp; exact hb)
  rw [this, if_neg (by simp)]

/-- C191: `'}'` and `"{"`. -/
theorem C191_witness : (interpExpr [] (lit "'}'")).isSome = true ∧ interpolated (lit "${'}'}") = some [.code (lit "'"), .text (lit "'}")] ∧
    (interpExpr [] (lit "\"{\"")).isSome = true ∧ interpolated (lit "${\"{\"}") = some [.code (lit "\"{\"}")] := by
  decide +kernel

theorem C191_fails : ¬ C191_statement := fun h => by
  obtain ⟨e, he⟩ := Option.isSome_iff_exists.1 C191_witness.1
  have := h [] _ e he
  rw [show 36 :: 123 :: (lit "'}'" ++ [125]) = lit "${'}'}" by decide, C191_witness.2.1] at this
  exact absurd this (by decide +kernel)

/-! ### C192: all of the code is used -/

/-- C192, the claim: the code of a piece is one expression. -/
def C192_statement : Prop :=
  ∀ (names : List Str) (s : Str) (e : Expr), interpExpr names s = some e →
    ∃ ts n' t, lex s = some ts ∧ parse names false ts = some (e, n', [t]) ∧ t.kind = .eof

/-- C192: the code is read as the expression that is written. Missing: that nothing may follow it. -/
theorem C192_partial (names : List Str) (s : Str) (e : Expr) (w : List Tok) (t : Tok) (hl : lex s = some (w ++ [t])) (ht : t.kind = .eof)
    (he : Reads names AtEnd e w) : interpExpr names s = some e := by
  have : AtEnd [t] := ⟨Ps.ends_iff.2 (by rw [show kindAt [t] = .eof from ht]; decide +kernel), by rw [show kindAt [t] = .eof from ht]; decide⟩
  obtain ⟨n', h1, _⟩ := he.2 false [t] this
  unfold interpExpr
  simp [hl, h1]

def isLeafX : Option Expr → Bool
  | some (.leaf .ident x) => x = lit "x"
  | _ => false

/-- C192: `"${x y}"` and `"${x, 1 +}"` give `x`. -/
theorem C192_witness : isLeafX (interpExpr [] (lit "x y")) = true ∧ isLeafX (interpExpr [] (lit "x, 1 +")) = true := by decide +kernel

theorem C192_fails : ¬ C192_statement := fun h => by
  have h1 := C192_witness.1
  generalize ho : interpExpr [] (lit "x y") = o at h1
  cases o with
  | none => cases h1
  | some e =>
    obtain ⟨ts, n', t, h2, h3, _⟩ := h [] _ e ho
    have h4 : (parse [] false ((lex (lit "x y")).getD [])).map (·.2.2.length) = some 2 := by decide +kernel
    rw [h2] at h4
    simp [h3] at h4

/-- C192 is not void. -/
example : (lex (lit "x + 1")).map List.length = some 4 ∧ (interpExpr [] (lit "x + 1")).isSome = true := by decide +kernel

/-! ### C193: a dollar sign before a name -/

/-- In this text a dollar sign stands before a name, outside of code; a backslash hides the next byte. -/
inductive Dollar : Str → Prop where
  | here {d : Byte} {r : Str} (h : d ∈ lit "abcdefghijklmnopqrstuvwxyzABCDEFGHIJKLMNOPQRSTUVWXYZ_") : Dollar (36 :: d :: r)
  | byte {c : Byte} {r : Str} (hc : c ≠ 92) (h2 : ¬ [36, 123] <+: c :: r) (h : Dollar r) : Dollar (c :: r)
  | esc {c : Byte} {r : Str} (h : Dollar r) : Dollar (92 :: c :: r)
  | code {a r : Str} (ha : Balanced a) (h : Dollar r) : Dollar (36 :: 123 :: (a ++ 125 :: r))

/-- C193, the claim: a dollar sign before a name, outside of code, is an error. -/
def C193_statement : Prop := ∀ s, Dollar s → stringOk s = false

namespace St

theorem letters : ∀ d ∈ lit "abcdefghijklmnopqrstuvwxyzABCDEFGHIJKLMNOPQRSTUVWXYZ_", isAlpha d = true ∨ d = ch '_' := by decide +kernel

theorem letters_conv (d : Byte) (h : isAlpha d = true ∨ d = ch '_') : d ∈ lit "abcdefghijklmnopqrstuvwxyzABCDEFGHIJKLMNOPQRSTUVWXYZ_" := by
  have key : ∀ n : Fin 256, isAlpha (BitVec.ofFin n : Byte) = true ∨ (BitVec.ofFin n : Byte) = ch '_' →
    (BitVec.ofFin n : Byte) ∈ lit "abcdefghijklmnopqrstuvwxyzABCDEFGHIJKLMNOPQRSTUVWXYZ_" := by decide +kernel
  exact key d.toFin h

theorem dollar_bare : ∀ s, Dollar s → hasInterp s = false → bareDollar s = true := by
  intro s h
  induction h with
  | @here d r h =>
    intro _
    rw [bareDollar, if_neg (by decide), if_pos ⟨by decide, letters d h⟩]
  | @byte c r hc h2 h ih =>
    intro hi
    cases r with
    | nil => cases h
    | cons d r =>
      rw [hasInterp] at hi
      split at hi
      · cases hi
      · rw [if_neg (show c ≠ ch '\\' from hc)] at hi
        rw [bareDollar, if_neg (show c ≠ ch '\\' from hc)]
        split
        · rfl
        · exact ih hi
  | @esc c r h ih =>
    intro hi
    rw [hasInterp, if_neg (by rintro ⟨h, _⟩; exact absurd h (by decide)), if_pos (by decide)] at hi
    rw [bareDollar, if_pos (by decide)]
    exact ih hi
  | code ha h ih =>
    intro hi
    rw [hasInterp_code] at hi
    cases hi

theorem bare_dollar : ∀ n s, List.length s ≤ n → bareDollar s = true → hasInterp s = false → Dollar s := by
  intro n
  induction n with
  | zero =>
    intro s hl h
    cases s with
    | nil => cases h
    | cons => simp at hl
  | succ n ih =>
    intro s hl h hi
    match s, h with
    | c :: d :: r, h =>
      rw [hasInterp] at hi
      rw [bareDollar] at h
      simp only [List.length_cons] at hl
      split at hi
      · cases hi
      · rename_i hd
        by_cases hc : c = ch '\\'
        · rw [if_pos hc] at h hi
          rw [hc]
          exact .esc (ih r (by omega) h hi)
        · rw [if_neg hc] at h hi
          by_cases hn : c = ch '$' ∧ (isAlpha d = true ∨ d = ch '_')
          · rw [hn.1]
            exact .here (letters_conv d hn.2)
          · rw [if_neg hn] at h
            refine .byte hc ?_ (ih _ (by simp; omega) h hi)
            rintro ⟨u, hu⟩
            cases hu
            exact hd (by decide)

end St

/-- C193: so it is, and nothing else is an error, in a string without code. Missing: strings with code (see `C193_witness`). -/
theorem C193_partial (s : Str) (h : hasInterp s = false) : stringOk s = false ↔ Dollar s := by
  unfold stringOk
  rw [h]
  constructor
  · intro hb
    exact St.bare_dollar _ s (Nat.le_refl _) (by simpa using hb) h
  · intro hd
    simp [St.dollar_bare s hd h]

/-- C193: `"$x"` is an error, `"$x ${y}"` is not. -/
theorem C193_witness : stringOk (lit "$x") = false ∧ stringOk (lit "$x ${y}") = true := by decide +kernel

theorem C193_fails : ¬ C193_statement := fun h =>
  absurd ((h (lit "$x ${y}") (.here (d := 120) (by decide))).symm.trans C193_witness.2) (by decide)

example : Dollar (lit "a\\$b$c") ∧ ¬ Dollar (lit "a\\$b") ∧ hasInterp (lit "a\\$b$c") = false := by
  refine ⟨(C193_partial _ (by decide)).1 (by decide +kernel), fun h => ?_, by decide⟩
  exact absurd ((C193_partial _ (by decide)).2 h) (by decide +kernel)

/-! ### C194: declarations of several variables -/

/-- The variables after the first, each with a comma, a name and, if it is written, a type. -/
inductive VarToks (env : Env) : List (Str × Option Str) → List Tok → Prop where
  | nil : VarToks env [] []
  | bare {c x : Tok} {vs : List (Str × Option Str)} {u : List Tok} (hc : IsSym c ",") (hx : x.kind = .ident ∨ IsSym x "_")
      (h : VarToks env vs u) : VarToks env ((x.text, none) :: vs) (c :: x :: u)
  | typed {c x : Tok} {t : Str} {vs : List (Str × Option Str)} {w u : List Tok} (hc : IsSym c ",") (hx : x.kind = .ident ∨ IsSym x "_")
      (ht : kindAt w ∈ typeStarts ∧ ∀ rest, kindAt rest = .sym (lit ",") ∨ kindAt rest = .sym (lit "=") → env.ty (w ++ rest) = some (t, rest))
      (h : VarToks env vs u) : VarToks env ((x.text, some t) :: vs) (c :: x :: (w ++ u))

/-- C194, the claim: a declaration of several variables is read as it is written, or is an error; nothing is written outside of
the arrays of names and types. -/
def C194_statement : Prop :=
  ∀ (env : Env) (v : Str × Option Str) (vs : List (Str × Option Str)) (w rest : List Tok), VarToks env vs w → kindAt rest = .sym (lit "=") →
    multiVars env (w.length + 1) [v] (w ++ rest) = .vars (v :: vs) rest ∨ multiVars env (w.length + 1) [v] (w ++ rest) = .error

namespace St

theorem vars_start {env : Env} {vs : List (Str × Option Str)} {w : List Tok} (h : VarToks env vs w) {rest : List Tok}
    (hr : kindAt rest = .sym (lit "=")) : kindAt (w ++ rest) = .sym (lit ",") ∨ kindAt (w ++ rest) = .sym (lit "=") := by
  cases h with
  | nil => exact .inr hr
  | bare hc => exact .inl hc
  | typed hc => exact .inl hc

theorem vars_ok {env : Env} {vs : List (Str × Option Str)} {w : List Tok} (h : VarToks env vs w) {rest : List Tok}
    (hr : kindAt rest = .sym (lit "=")) : ∀ (f : Nat) (acc : List (Str × Option Str)), w.length < f → acc.length ≤ 16 →
      multiVars env f acc (w ++ rest) = if acc.length + vs.length ≤ 16 then .vars (acc.reverse ++ vs) rest else .overrun 16 := by
  induction h with
  | nil =>
    intro f acc hf ha
    obtain ⟨f, rfl⟩ : ∃ g, f = g + 1 := ⟨f - 1, by omega⟩
    rw [multiVars, if_neg (by show ¬ kindAt rest = _; rw [hr]; decide), if_pos (by simpa using ha)]
    simp
  | @bare c x vs u hc hx h ih =>
    intro f acc hf ha
    simp only [List.length_cons] at hf
    obtain ⟨f, rfl⟩ : ∃ g, f = g + 1 := ⟨f - 1, by omega⟩
    rw [multiVars, if_pos (show kindAt (c :: x :: u ++ rest) = sy "," from hc)]
    by_cases h16 : MAX_MULTI_VARS ≤ acc.length
    · have : acc.length = 16 := by unfold MAX_MULTI_VARS at h16; omega
      rw [if_pos h16, if_neg (by simp; omega), this]
    · have ho : optType env (c :: x :: u ++ rest).tail.tail = some (none, u ++ rest) :=
        if_neg (by show ¬ beginsType (kindAt (u ++ rest)) = true; rcases vars_start h hr with e | e <;> rw [e] <;> decide)
      rw [if_neg h16, ho]
      unfold MAX_MULTI_VARS at h16 ⊢
      refine (if_neg (by omega)).trans ?_
      show multiVars env f ((x.text, none) :: acc) (u ++ rest) = _
      rw [ih f _ (by omega) (by simp; omega)]
      simp only [List.length_cons, List.reverse_cons, List.append_assoc, List.singleton_append]
      rw [show acc.length + 1 + vs.length = acc.length + (vs.length + 1) by omega]
  | @typed c x t vs w u hc hx ht h ih =>
    intro f acc hf ha
    simp only [List.length_cons, List.length_append] at hf
    obtain ⟨f, rfl⟩ : ∃ g, f = g + 1 := ⟨f - 1, by omega⟩
    rw [multiVars, if_pos (show kindAt (c :: x :: (w ++ u) ++ rest) = sy "," from hc)]
    by_cases h16 : MAX_MULTI_VARS ≤ acc.length
    · have : acc.length = 16 := by unfold MAX_MULTI_VARS at h16; omega
      rw [if_pos h16, if_neg (by simp; omega), this]
    · have ho : optType env (c :: x :: (w ++ u) ++ rest).tail.tail = some (some t, u ++ rest) := by
        have e : (c :: x :: (w ++ u) ++ rest).tail.tail = w ++ (u ++ rest) := by simp
        rw [e]
        unfold optType
        rw [if_pos, ht.2 _ (vars_start h hr)]
        · rfl
        · rw [kindAt_append (types_ne ht.1)]
          have key : ∀ k ∈ typeStarts, beginsType k = true := by decide
          exact key _ ht.1
      rw [if_neg h16, ho]
      unfold MAX_MULTI_VARS at h16 ⊢
      refine (if_neg (by omega)).trans ?_
      show multiVars env f ((x.text, some t) :: acc) (u ++ rest) = _
      rw [ih f _ (by omega) (by simp; omega)]
      simp only [List.length_cons, List.reverse_cons, List.append_assoc, List.singleton_append]
      rw [show acc.length + 1 + vs.length = acc.length + (vs.length + 1) by omega]

end St

/-- C194: up to 16 variables are read as they are written. Missing: more. -/
theorem C194_partial (env : Env) (v : Str × Option Str) (vs : List (Str × Option Str)) (w rest : List Tok) (h : VarToks env vs w)
    (hr : kindAt rest = .sym (lit "=")) (hl : vs.length ≤ 15) : multiVars env (w.length + 1) [v] (w ++ rest) = .vars (v :: vs) rest := by
  rw [St.vars_ok h hr _ _ (Nat.lt_succ_self _) (by simp), if_pos (by simp; omega)]
  rfl

/-- C194: with more, the first place after the end of the arrays is written. -/
theorem C194_overrun (env : Env) (v : Str × Option Str) (vs : List (Str × Option Str)) (w rest : List Tok) (h : VarToks env vs w)
    (hr : kindAt rest = .sym (lit "=")) (hl : 16 ≤ vs.length) : multiVars env (w.length + 1) [v] (w ++ rest) = .overrun 16 := by
  rw [St.vars_ok h hr _ _ (Nat.lt_succ_self _) (by simp), if_neg (by simp; omega)]

/-- Any number of variables can be written. -/
theorem vars_any (env : Env) : ∀ n, ∃ vs w, VarToks env vs w ∧ vs.length = n
  | 0 => ⟨[], [], .nil, rfl⟩
  | n + 1 => by
    obtain ⟨vs, w, h, hn⟩ := vars_any env n
    exact ⟨_, _, .bare (c := ⟨.sym (lit ","), lit ",", true, 0⟩) (x := ⟨.ident, lit "x", true, 0⟩) rfl (.inl rfl) h, by simp [hn]⟩

theorem C194_fails : ¬ C194_statement := fun h => by
  obtain ⟨vs, w, hw, hn⟩ := vars_any plainEnv 16
  have hr : kindAt [⟨.sym (lit "="), lit "=", true, 0⟩] = .sym (lit "=") := rfl
  have h1 := C194_overrun plainEnv ([], none) vs w _ hw hr (by omega)
  rcases h plainEnv ([], none) vs w _ hw hr with e | e <;> rw [h1] at e <;> cases e

/-! ### C195: float literals -/

/-- C195, the claim: underscores in a float literal have no meaning. -/
def C195_statement : Prop := ∀ s t r : Str, readNumber s = (.float, t, r) → floatText t = t.filter (· != 95)

/-- C195: so it is up to 127 other bytes. Missing: longer literals with underscores. -/
theorem C195_partial (s : Str) (h : (s.filter (· != 95)).length ≤ 127) : floatText s = s.filter (· != 95) := by
  unfold floatText
  split
  · exact List.take_of_length_le h
  · rename_i hc
    symm
    rw [List.filter_eq_self]
    intro c hm
    simp only [bne_iff_ne]
    rintro rfl
    exact hc (List.contains_iff_mem.2 hm)

def longFloat : Str := lit "1_" ++ List.replicate 130 48 ++ lit ".5"

/-- C195: of `1_000….5` the last digits are dropped, and with them the point. -/
theorem C195_witness : readNumber longFloat = (.float, longFloat, []) ∧ floatText longFloat = 49 :: List.replicate 126 48 := by
  decide +kernel

theorem C195_fails : ¬ C195_statement := fun h => by
  have h1 := h _ _ _ C195_witness.1
  rw [C195_witness.2] at h1
  exact absurd h1 (by decide +kernel)

example : floatText (lit "1_000.5") = lit "1000.5" := by decide

/-! ### C196: the values of `or_return` -/

/-- C196, the claim: the values after `or_return` are those that are written. -/
def C196_statement : Prop :=
  ∀ (names : List Str) (es : List Expr) (w rest : List Tok), Vals (Reads names AtEnd) (Reads names AtEnd) es w → AtEnd rest →
    kindAt rest ≠ .sym (lit ",") → fallbacks names (w.length + 17) false [] (w ++ rest) = some (es, false, rest)

namespace St

theorem fallbacks_ok {names : List Str} {es : List Expr} {w : List Tok} (h : Vals (Reads names AtEnd) (Reads names AtEnd) es w) :
    ∀ (f : Nat) (acc : List Expr) (rest : List Tok), w.length ≤ f → acc.length + es.length ≤ 16 → AtEnd rest → kindAt rest ≠ .sym (lit ",") →
      fallbacks names f false acc (w ++ rest) = some (acc.reverse ++ es, false, rest) := by
  induction h with
  | @one e w h =>
    intro f acc rest hf hl hr hc
    have := List.length_pos_iff.2 (reads_ne h)
    obtain ⟨f, rfl⟩ : ∃ g, f = g + 1 := ⟨f - 1, by omega⟩
    rw [fallbacks, if_neg (by simp only [List.length_cons] at hl; omega), reads h hr]
    refine (if_neg hc).trans ?_
    simp
  | @cons e es w u c h hc hs ih =>
    intro f acc rest hf hl hr hk
    have := List.length_pos_iff.2 (reads_ne h)
    rw [List.length_append, List.length_cons] at hf
    simp only [List.length_cons] at hl
    obtain ⟨f, rfl⟩ : ∃ g, f = g + 1 := ⟨f - 1, by omega⟩
    rw [fallbacks, if_neg (by omega), List.append_assoc, List.cons_append, reads h (atEnd_of hc (by decide))]
    refine (if_pos hc).trans ?_
    rw [List.tail_cons, ih f _ rest (by omega) (by simp only [List.length_cons]; omega) hr hk]
    simp

end St

/-- C196: so it is up to 16 values. Missing: more. -/
theorem C196_partial (names : List Str) (es : List Expr) (w rest : List Tok) (h : Vals (Reads names AtEnd) (Reads names AtEnd) es w)
    (hr : AtEnd rest) (hc : kindAt rest ≠ .sym (lit ",")) (hl : es.length ≤ 16) :
    fallbacks names (w.length + 17) false [] (w ++ rest) = some (es, false, rest) :=
  St.fallbacks_ok h _ [] rest (by omega) (by simpa using hl) hr hc

namespace St

theorem fallbacks_first {names : List Str} {es : List Expr} {w : List Tok} (h : Vals (Reads names AtEnd) (Reads names AtEnd) es w) :
    ∀ (f : Nat) (acc : List Expr) (rest : List Tok), w.length ≤ f → acc.length ≤ 16 → AtEnd rest → kindAt rest ≠ .sym (lit ",") →
      ∃ n r, fallbacks names f false acc (w ++ rest) = some ((acc.reverse ++ es).take 16, n, r) := by
  induction h with
  | @one e w h =>
    intro f acc rest hf hl hr hc
    have := List.length_pos_iff.2 (reads_ne h)
    obtain ⟨f, rfl⟩ : ∃ g, f = g + 1 := ⟨f - 1, by omega⟩
    by_cases hn : 16 ≤ acc.length
    · refine ⟨false, (w ++ rest).tail, ?_⟩
      rw [fallbacks, if_pos hn, List.take_append_of_le_length (by simpa using hn), List.take_of_length_le (by simpa using hl)]
    · refine ⟨false, rest, ?_⟩
      rw [fallbacks, if_neg hn, reads h hr]
      refine (if_neg hc).trans ?_
      rw [List.take_of_length_le (by simp only [List.length_append, List.length_reverse, List.length_singleton]; omega)]
      simp
  | @cons e es w u c h hc hs ih =>
    intro f acc rest hf hl hr hk
    have := List.length_pos_iff.2 (reads_ne h)
    rw [List.length_append, List.length_cons] at hf
    obtain ⟨f, rfl⟩ : ∃ g, f = g + 1 := ⟨f - 1, by omega⟩
    by_cases hn : 16 ≤ acc.length
    · refine ⟨false, (w ++ c :: u ++ rest).tail, ?_⟩
      rw [fallbacks, if_pos hn, List.take_append_of_le_length (by simpa using hn), List.take_of_length_le (by simpa using hl)]
    · obtain ⟨n, r, hi⟩ := ih f (e :: acc) rest (by omega) (by simp only [List.length_cons]; omega) hr hk
      refine ⟨n, r, ?_⟩
      rw [fallbacks, if_neg hn, List.append_assoc, List.cons_append, reads h (atEnd_of hc (by decide))]
      refine (if_pos hc).trans ?_
      rw [List.tail_cons, hi]
      simp

end St

/-- C196: of any number of values, those read are the first 16, in order. Missing: what is read after them. -/
theorem C196_first_partial (names : List Str) (es : List Expr) (w rest : List Tok) (h : Vals (Reads names AtEnd) (Reads names AtEnd) es w)
    (hr : AtEnd rest) (hc : kindAt rest ≠ .sym (lit ",")) :
    ∃ n r, fallbacks names (w.length + 17) false [] (w ++ rest) = some (es.take 16, n, r) :=
  St.fallbacks_first h _ [] rest (by omega) (by simp) hr hc

def manyOnes : Str := lit "1,1,1,1,1,1,1,1,1,1,1,1,1,1,1,1,x"

/-- C196: of 17 values, 16 are read, and the first token of the last is dropped. -/
theorem C196_witness : (fallbacks [] 60 false [] ((lex manyOnes).getD [])).map (fun r => (r.1.length, r.2.2.length)) = some (16, 1) ∧
    ((lex manyOnes).getD []).length = 34 := by decide +kernel

theorem ones_any (n : Nat) : ∃ es w, Vals (Reads [] AtEnd) (Reads [] AtEnd) es w ∧ es.length = n + 1 := by
  let t : Tok := ⟨.int, lit "1", true, 0⟩
  have h1 : Reads [] AtEnd (.leaf t.kind t.text) [t] :=
    (C184_operators_partial [] 1 (.atom t.kind t.text) [t] (by omega) (.atom (by decide +kernel))).1
  induction n with
  | zero => exact ⟨_, _, .one h1, rfl⟩
  | succ n ih =>
    obtain ⟨es, w, h, hn⟩ := ih
    exact ⟨_, _, .cons (c := ⟨.sym (lit ","), lit ",", true, 0⟩) h1 rfl h, by simp [hn]⟩

theorem fallbacks_le (names : List Str) : ∀ (f : Nat) (n n' : Bool) (acc es : List Expr) (ts r : List Tok), acc.length ≤ 16 →
    fallbacks names f n acc ts = some (es, n', r) → es.length ≤ 16 := by
  intro f
  induction f with
  | zero => intro _ _ _ _ _ _ _ h; cases h
  | succ f ih =>
    intro n n' acc es ts r ha h
    rw [fallbacks] at h
    split at h
    · cases h
      simpa using ha
    · simp only [Option.bind_eq_bind, Option.bind_eq_some_iff] at h
      obtain ⟨⟨e, n1, r1⟩, _, h2⟩ := h
      simp only at h2
      split at h2
      · exact ih _ _ _ _ _ _ (by simp only [List.length_cons]; omega) h2
      · cases h2
        simp only [List.length_reverse, List.length_cons]; omega

theorem C196_fails : ¬ C196_statement := fun h => by
  obtain ⟨es, w, hw, hn⟩ := ones_any 16
  let z : Tok := ⟨.eof, [], true, 0⟩
  have := h [] es w [z] hw ⟨Ps.ends_iff.2 (by decide +kernel), by decide⟩ (by decide)
  have := fallbacks_le _ _ _ _ _ _ _ _ (by simp) this
  omega

end Verif.Props

import Verif.Model.Names
import Verif.Props.Lexer

/-!
# Names in the generated C text: properties
-/

namespace Verif.Props
namespace Na
open Verif Verif.Str Verif.Names

/-! ### C265: the tables of names are searched exactly -/

/-- In the order `bsearch` needs. -/
def Ordered (tab : List Str) : Prop := tab.Pairwise fun a b => Lexer.strcmp a b = .lt

theorem Ordered.lt {tab : List Str} (h : Ordered tab) {i j : Nat} {a b : Str} (hij : i < j) (hi : tab[i]? = some a)
    (hj : tab[j]? = some b) : Lexer.strcmp a b = .lt := by
  obtain ⟨h1, e1⟩ := List.getElem?_eq_some_iff.1 hi
  obtain ⟨h2, e2⟩ := List.getElem?_eq_some_iff.1 hj
  have := List.pairwise_iff_getElem.1 h i j h1 h2 hij
  rw [e1, e2] at this
  exact this

theorem lt_irrefl (a : Str) : Lexer.strcmp a a ≠ .lt := by
  rw [Lx.strcmp_eq.2 rfl]; intro h; cases h

theorem bsearch_spec {tab : List Str} (ht : Ordered tab) (key : Str) : ∀ (f lo hi : Nat), hi - lo < f → hi ≤ tab.length →
    (bsearch tab key f lo hi = true ↔ ∃ i, lo ≤ i ∧ i < hi ∧ tab[i]? = some key)
  | 0, _, _, h, _ => absurd h (Nat.not_lt_zero _)
  | f + 1, lo, hi, h, hl => by
    rw [bsearch]
    by_cases hlt : lo < hi
    · rw [if_pos hlt]
      have hm : (lo + hi) / 2 < tab.length := by omega
      have he : tab[(lo + hi) / 2]? = some tab[(lo + hi) / 2] := List.getElem?_eq_getElem hm
      simp only [he]
      cases hc : Lexer.strcmp key tab[(lo + hi) / 2] with
      | eq =>
        simp only [true_iff]
        exact ⟨(lo + hi) / 2, by omega, by omega, by rw [Lx.strcmp_eq.1 hc]; exact he⟩
      | lt =>
        simp only
        rw [bsearch_spec ht key f lo ((lo + hi) / 2) (by omega) (by omega)]
        refine ⟨fun ⟨i, a, b, c⟩ => ⟨i, a, by omega, c⟩, fun ⟨i, a, b, c⟩ => ⟨i, a, ?_, c⟩⟩
        refine Nat.lt_of_not_le fun hge => ?_
        rcases Nat.lt_or_ge ((lo + hi) / 2) i with hlt' | hge'
        · exact lt_irrefl _ (Lx.strcmp_trans hc (ht.lt hlt' he c))
        · have : i = (lo + hi) / 2 := by omega
          subst this
          rw [he] at c
          rw [Option.some.inj c] at hc
          exact lt_irrefl _ hc
      | gt =>
        simp only
        rw [bsearch_spec ht key f ((lo + hi) / 2 + 1) hi (by omega) hl]
        have hc' := Lx.strcmp_gt.1 hc
        refine ⟨fun ⟨i, a, b, c⟩ => ⟨i, by omega, b, c⟩, fun ⟨i, a, b, c⟩ => ⟨i, ?_, b, c⟩⟩
        refine Nat.lt_of_not_le fun hge => ?_
        rcases Nat.lt_or_ge i ((lo + hi) / 2) with hlt' | hge'
        · exact lt_irrefl _ (Lx.strcmp_trans hc' (ht.lt hlt' c he))
        · have : i = (lo + hi) / 2 := by omega
          subst this
          rw [he] at c
          rw [Option.some.inj c] at hc'
          exact lt_irrefl _ hc'
    · rw [if_neg hlt]
      simp only [Bool.false_eq_true, false_iff]
      rintro ⟨i, a, b, _⟩
      omega

theorem search_iff {tab : List Str} (ht : Ordered tab) (key : Str) : search tab key = true ↔ key ∈ tab := by
  rw [search, bsearch_spec ht key _ _ _ (by omega) (Nat.le_refl _), List.mem_iff_getElem?]
  refine ⟨fun ⟨i, _, _, c⟩ => ⟨i, c⟩, fun ⟨i, c⟩ => ⟨i, Nat.zero_le _, ?_, c⟩⟩
  exact (List.getElem?_eq_some_iff.1 c).1

instance (tab : List Str) : Decidable (Ordered tab) := by unfold Ordered; infer_instance

theorem cWords_ordered : Ordered cWords := by decide +kernel
theorem typeNames_ordered : Ordered typeNames := by decide +kernel
theorem builtinNames_ordered : Ordered builtinNames := by decide +kernel
theorem moduleNames_ordered : Ordered moduleNames := by decide +kernel
theorem structNames_ordered : Ordered structNames := by decide +kernel

end Na
open Na Verif.Names Verif.Str

/-- C265. Whether a name is in one of the tables of C words, of types, of built-in functions, of modules and of structs of the standard
library is answered exactly, though the tables are searched by halves and only their order makes that right. -/
theorem C265_tables (n : Str) :
    (search cWords n = true ↔ n ∈ cWords) ∧ (search typeNames n = true ↔ n ∈ typeNames)
      ∧ (search builtinNames n = true ↔ n ∈ builtinNames) ∧ (search moduleNames n = true ↔ n ∈ moduleNames)
      ∧ (search structNames n = true ↔ n ∈ structNames) :=
  ⟨search_iff cWords_ordered n, search_iff typeNames_ordered n, search_iff builtinNames_ordered n, search_iff moduleNames_ordered n,
    search_iff structNames_ordered n⟩

example : search cWords (lit "while") = true ∧ search cWords (lit "NULL") = true ∧ search cWords (lit "whil") = false
    ∧ search typeNames (lit "i128") = true := by decide +kernel

/-- C265. A table out of order is not searched exactly: order is what matters. -/
theorem C265_order : search [lit "b", lit "a", lit "c"] (lit "b") = false := by decide +kernel

/-! ### C266: the C names of variables -/

namespace Na

/-- The keywords of C11 (ISO/IEC 9899:2011, 6.4.1). -/
def c11 : List Str :=
  ["auto", "break", "case", "char", "const", "continue", "default", "do", "double", "else", "enum", "extern", "float", "for", "goto",
   "if", "inline", "int", "long", "register", "restrict", "return", "short", "signed", "sizeof", "static", "struct", "switch", "typedef",
   "union", "unsigned", "void", "volatile", "while", "_Alignas", "_Alignof", "_Atomic", "_Bool", "_Complex", "_Generic", "_Imaginary",
   "_Noreturn", "_Static_assert", "_Thread_local"].map lit

/-- A name that may be declared with `mut`. -/
def MayDeclare (n : Str) : Prop :=
  isIdent n = true ∧ notReserved n = true ∧ (n.head? = some 95 ∨ notBuiltin n = true)

instance (n : Str) : Decidable (MayDeclare n) := by unfold MayDeclare; infer_instance

theorem isCWord_iff (n : Str) : isCWord n = true ↔ n ∈ cWords := search_iff cWords_ordered n

theorem cName_word {n : Str} (h : n ∈ cWords) : cName n = lit "_gray_" ++ n := by
  unfold cName
  rw [if_pos ((isCWord_iff n).2 h)]
  have hl : cWords.all (fun w => decide ((lit "_gray_" ++ w).take 255 = lit "_gray_" ++ w)) = true := by decide +kernel
  exact of_decide_eq_true (List.all_eq_true.1 hl n h)

theorem cName_plain {n : Str} (h : n ∉ cWords) : cName n = n := by
  unfold cName
  rw [if_neg (fun e => h ((isCWord_iff n).1 e))]

theorem cName_inj {n m : Str} (hn : n.head? ≠ some 95) (hm : m.head? ≠ some 95) (h : cName n = cName m) : n = m := by
  by_cases h1 : n ∈ cWords <;> by_cases h2 : m ∈ cWords
  · rw [cName_word h1, cName_word h2] at h
    exact List.append_cancel_left h
  · rw [cName_word h1, cName_plain h2] at h
    exact absurd (by rw [← h]; rfl) hm
  · rw [cName_plain h1, cName_word h2] at h
    exact absurd (by rw [h]; rfl) hn
  · rw [cName_plain h1, cName_plain h2] at h
    exact h

end Na

/-- C266. Variables with different names get different C names, none of them a keyword of C. -/
def C266_statement : Prop :=
  ∀ n m : Str, MayDeclare n → MayDeclare m → cName n ∉ c11 ∧ (cName n = cName m → n = m)

theorem C266_witness : MayDeclare (lit "_Bool") ∧ cName (lit "_Bool") ∈ c11
    ∧ MayDeclare (lit "auto") ∧ MayDeclare (lit "_gray_auto") ∧ cName (lit "auto") = cName (lit "_gray_auto") := by decide +kernel

theorem C266_fails : ¬ C266_statement := fun h =>
  (h (lit "_Bool") (lit "_Bool") C266_witness.1 C266_witness.1).1 C266_witness.2.1

/-- C266. The other way to fail: two variables become one. -/
theorem C266_clash_fails : ¬ ∀ n m : Str, MayDeclare n → MayDeclare m → cName n = cName m → n = m := fun h => by
  have := h _ _ C266_witness.2.2.1 C266_witness.2.2.2.1 C266_witness.2.2.2.2
  revert this
  decide +kernel

/-- C266, for names that do not begin with `_`. Missing: names that do, of which `_Bool` and the like are keywords, and `_gray_auto` and
the like are the C names of others. -/
theorem C266_partial (n m : Str) (hn : n.head? ≠ some 95) (hm : m.head? ≠ some 95) :
    cName n ∉ c11 ∧ (cName n = cName m → n = m) := by
  refine ⟨fun h => ?_, cName_inj hn hm⟩
  by_cases h1 : n ∈ cWords
  · rw [cName_word h1] at h
    have hl : cWords.all (fun w => !c11.contains (lit "_gray_" ++ w)) = true := by decide +kernel
    have := List.all_eq_true.1 hl n h1
    rw [List.contains_iff_mem.2 h] at this
    cases this
  · rw [cName_plain h1] at h
    have hl : c11.all (fun w => decide (w.head? = some 95) || cWords.contains w) = true := by decide +kernel
    rcases Bool.or_eq_true_iff.1 (List.all_eq_true.1 hl n h) with e | e
    · exact hn (of_decide_eq_true e)
    · exact h1 (List.contains_iff_mem.1 e)

example : cName (lit "long") = lit "_gray_long" ∧ cName (lit "count") = lit "count" := by decide +kernel

/-! ### C267: what the names mean -/

namespace Na

/-- The names of the runtime and of C that the text uses. -/
def rtNames : List Str :=
  ["int64_t", "free", "GrayArena", "GrayScopeMark", "gray_default_arena", "gray_arena_create", "gray_arena_destroy", "gray_scope_save",
   "gray_scope_restore", "gray_enter_func", "gray_exit_func", "gray_add_check", "gray_panic_code_at"].map lit

/-- A name that is no name of the generated text. -/
def Clean (n : Str) : Prop := n.head? ≠ some 95 ∧ n ∉ rtNames

instance (n : Str) : Decidable (Clean n) := by unfold Clean; infer_instance

def names (e : List Var) : List Str := e.map Var.name

/-- Blocks with clean names only, where no variable is mentioned in its own initial value or bounds; at the top level of the block the
names `avoid` are not declared. -/
def Fine : List Str → Block → Prop
  | _, .nil => True
  | avoid, .decl x e r => Clean x.name ∧ x.name ∉ names e ∧ x.name ∉ avoid ∧ Fine avoid r
  | avoid, .assign _ _ r => Fine avoid r
  | avoid, .setField _ _ r => Fine avoid r
  | avoid, .ifs _ t f r => Fine [] t ∧ Fine [] f ∧ Fine avoid r
  | avoid, .whl _ b r => Fine [] b ∧ Fine avoid r
  | avoid, .forr i a b body r => Clean i.name ∧ i.name ∉ names a ∧ i.name ∉ names b ∧ Fine [] body ∧ Fine avoid r

/-- A name that no clean variable gets. -/
def Tmp (t : Str) : Prop := t.head? = some 95 ∧ ∀ m, Clean m → cName m ≠ t

theorem tmp_of {t : Str} (h1 : t.head? = some 95) (h2 : (cWords.map (lit "_gray_" ++ ·)).contains t = false) : Tmp t := by
  refine ⟨h1, fun m hm e => ?_⟩
  by_cases hw : m ∈ cWords
  · rw [cName_word hw] at e
    rw [List.contains_iff_mem.2 (List.mem_map.2 ⟨m, hw, e⟩)] at h2
    cases h2
  · rw [cName_plain hw] at e
    exact hm.1 (by rw [e]; exact h1)

theorem tmp_at {t : Str} (i : Nat) (h1 : t.head? = some 95) (h2 : t[i]? ≠ (lit "_gray_")[i]?) (hi : i < 6) : Tmp t := by
  refine ⟨h1, fun m hm e => ?_⟩
  by_cases hw : m ∈ cWords
  · rw [cName_word hw] at e
    refine h2 ?_
    rw [← e, List.getElem?_append_left (show i < (lit "_gray_").length from hi)]
  · rw [cName_plain hw] at e
    exact hm.1 (by rw [e]; exact h1)

theorem tmp_outer : Tmp (lit "_gray_outer_arena") := tmp_of (by decide +kernel) (by decide +kernel)
theorem tmp_dp : Tmp (lit "_dp") := tmp_of (by decide +kernel) (by decide +kernel)
theorem tmp_mark : Tmp (lit "_scope_mark") := tmp_of (by decide +kernel) (by decide +kernel)
theorem tmp_if (k : Nat) : Tmp (numbered "_if_arena_" k) := tmp_at 1 rfl (fun h => by
  have : some (105 : Byte) = some 103 := h
  revert this; decide) (by decide)
theorem tmp_ifs (k : Nat) : Tmp (numbered "_if_saved_" k) := tmp_at 1 rfl (fun h => by
  have : some (105 : Byte) = some 103 := h
  revert this; decide) (by decide)
theorem tmp_it (k : Nat) : Tmp (numbered "_iter_arena_" k) := tmp_at 1 rfl (fun h => by
  have : some (105 : Byte) = some 103 := h
  revert this; decide) (by decide)
theorem tmp_its (k : Nat) : Tmp (numbered "_saved_arena_" k) := tmp_at 1 rfl (fun h => by
  have : some (115 : Byte) = some 103 := h
  revert this; decide) (by decide)

theorem ne_at {s t : Str} (i : Nat) {a b : Byte} (hs : s[i]? = some a) (ht : t[i]? = some b) (h : a ≠ b) : s ≠ t := fun e => by
  rw [e, ht] at hs
  exact h (Option.some.inj hs).symm

theorem cName_rt {m n : Str} (hm : Clean m) (hn : n ∈ rtNames) : cName m ≠ n := fun e => by
  by_cases hw : m ∈ cWords
  · rw [cName_word hw] at e
    have hl : rtNames.all (fun w => decide (w.head? ≠ some 95)) = true := by decide +kernel
    exact of_decide_eq_true (List.all_eq_true.1 hl n hn) (by rw [← e]; rfl)
  · rw [cName_plain hw] at e
    exact hm.2 (e ▸ hn)

theorem tmp_rt {t n : Str} (ht : Tmp t) (hn : n ∈ rtNames) : t ≠ n := fun e => by
  have hl : rtNames.all (fun w => decide (w.head? ≠ some 95)) = true := by decide +kernel
  exact of_decide_eq_true (List.all_eq_true.1 hl n hn) (e ▸ ht.1)

theorem find_cons (e : Str × Ref) (top : List (Str × Ref)) (S : Stack) (n : Str) :
    find ((e :: top) :: S) n = if e.1 = n then e.2 else find (top :: S) n := by
  unfold find
  rw [List.flatten_cons, List.flatten_cons, List.cons_append, List.find?_cons]
  by_cases h : e.1 = n
  · rw [if_pos h, beq_iff_eq.2 h]
  · rw [if_neg h, beq_eq_false_iff_ne.2 h]

theorem find_hit (n : Str) (r : Ref) (top : List (Str × Ref)) (S : Stack) : find (((n, r) :: top) :: S) n = r := by
  rw [find_cons, if_pos rfl]

theorem find_miss {m n : Str} (r : Ref) (top : List (Str × Ref)) (S : Stack) (h : m ≠ n) :
    find (((m, r) :: top) :: S) n = find (top :: S) n := by
  rw [find_cons, if_neg h]

theorem find_nil (S : Stack) (n : Str) : find ([] :: S) n = find S n := by
  unfold find; rw [List.flatten_cons, List.nil_append]

theorem find_skip : ∀ {new : List (Str × Ref)} (top : List (Str × Ref)) (S : Stack) {n : Str}, (∀ e ∈ new, e.1 ≠ n) →
    find ((new ++ top) :: S) n = find (top :: S) n
  | [], _, _, _, _ => rfl
  | e :: new, top, S, n, h => by
    rw [List.cons_append, find_cons, if_neg (h e (List.mem_cons_self ..))]
    exact find_skip top S fun x hx => h x (List.mem_cons_of_mem _ hx)

theorem run_append : ∀ (a b : List Ev) (st : Stack), run st (a ++ b) = (run st a).bind fun s => run s b
  | [], _, _ => by rw [List.nil_append, run]; rfl
  | .opn :: a, b, st => by rw [List.cons_append, run, run, run_append a b]
  | .cls :: a, b, st => by rw [List.cons_append, run, run, run_append a b]
  | .decl n x :: a, b, [] => by rw [List.cons_append, run, run]; rfl
  | .decl n x :: a, b, top :: st => by
    rw [List.cons_append, run, run]
    by_cases h : (top.any fun e => e.1 == n) = true
    · rw [if_pos h, if_pos h]; rfl
    · rw [if_neg h, if_neg h, run_append a b]
  | .use n x :: a, b, st => by
    have e1 : ∀ r, run st (.use n x :: r) = if find st n = x then run st r else none := fun r => by cases st <;> rfl
    rw [List.cons_append, e1, e1]
    by_cases h : find st n = x
    · rw [if_pos h, if_pos h, run_append a b]
    · rw [if_neg h, if_neg h]; rfl

theorem run_trans {st st' : Stack} {a b : List Ev} (h : run st a = some st') : run st (a ++ b) = run st' b := by
  rw [run_append, h]; rfl

theorem run_use {st : Stack} {n : Str} {x : Ref} {r : List Ev} (h : find st n = x) : run st (.use n x :: r) = run st r := by
  have e1 : run st (.use n x :: r) = if find st n = x then run st r else none := by cases st <;> rfl
  rw [e1, if_pos h]

theorem run_decl {top : List (Str × Ref)} {S : Stack} {n : Str} {x : Ref} {r : List Ev} (h : ∀ e ∈ top, e.1 ≠ n) :
    run (top :: S) (.decl n x :: r) = run (((n, x) :: top) :: S) r := by
  rw [run, if_neg]
  intro e
  obtain ⟨y, hy, hn⟩ := List.any_eq_true.1 e
  exact h y hy (eq_of_beq hn)

theorem run_opn (S : Stack) (r : List Ev) : run S (.opn :: r) = run ([] :: S) r := by rw [run]

theorem run_cls (top : List (Str × Ref)) (S : Stack) (r : List Ev) : run (top :: S) (.cls :: r) = run S r := by rw [run]; rfl

/-- The invariant: `nd` are the names of variables in the present scope. -/
structure Inv (env : List Var) (nd : List Str) (top : List (Str × Ref)) (S : Stack) : Prop where
  clean : ∀ v ∈ env, Clean v.name
  res : ∀ n v, meant env n = some v → find (top :: S) (cName n) = .user v.id
  tops : ∀ e ∈ top, Tmp e.1 ∨ ∃ m ∈ nd, Clean m ∧ cName m = e.1
  rt : ∀ n ∈ rtNames, find (top :: S) n = .ext

theorem meant_name {env : List Var} {n : Str} {v : Var} (h : meant env n = some v) : v ∈ env ∧ v.name = n :=
  ⟨List.mem_of_find?_eq_some h, eq_of_beq (List.find?_some (p := fun v : Var => v.name == n) h)⟩

theorem Inv.opn {env : List Var} {nd : List Str} {top : List (Str × Ref)} {S : Stack} (h : Inv env nd top S) :
    Inv env [] [] (top :: S) where
  clean := h.clean
  res n v hv := by rw [find_nil]; exact h.res n v hv
  tops := fun _ he => by cases he
  rt n hn := by rw [find_nil]; exact h.rt n hn

theorem Inv.tmp {env : List Var} {nd : List Str} {top : List (Str × Ref)} {S : Stack} (h : Inv env nd top S) {t : Str} (ht : Tmp t) :
    Inv env nd ((t, .temp) :: top) S where
  clean := h.clean
  res n v hv := by
    obtain ⟨h1, h2⟩ := meant_name hv
    rw [find_miss _ _ _ (fun e => ht.2 n (h2 ▸ h.clean v h1) e.symm)]
    exact h.res n v hv
  tops e he := by
    rcases List.mem_cons.1 he with rfl | he
    · exact .inl ht
    · exact h.tops e he
  rt n hn := by rw [find_miss _ _ _ (tmp_rt ht hn)]; exact h.rt n hn

theorem Inv.decl {env : List Var} {nd : List Str} {top : List (Str × Ref)} {S : Stack} (h : Inv env nd top S) {x : Var}
    (hx : Clean x.name) : Inv (x :: env) (x.name :: nd) ((cName x.name, .user x.id) :: top) S where
  clean v hv := by
    rcases List.mem_cons.1 hv with rfl | hv
    · exact hx
    · exact h.clean v hv
  res n v hv := by
    unfold meant at hv
    rw [List.find?_cons] at hv
    by_cases e : x.name = n
    · rw [beq_iff_eq.2 e] at hv
      cases hv
      rw [e, find_hit]
    · rw [beq_eq_false_iff_ne.2 e] at hv
      obtain ⟨h1, h2⟩ := meant_name hv
      rw [find_miss _ _ _ (fun e' => e (cName_inj hx.1 (h2 ▸ (h.clean v h1).1) e'))]
      exact h.res n v hv
  tops e he := by
    rcases List.mem_cons.1 he with rfl | he
    · exact .inr ⟨x.name, List.mem_cons_self .., hx, rfl⟩
    · rcases h.tops e he with h | ⟨m, a, b, c⟩
      · exact .inl h
      · exact .inr ⟨m, List.mem_cons_of_mem _ a, b, c⟩
  rt n hn := by rw [find_miss _ _ _ (cName_rt hx hn)]; exact h.rt n hn

/-- A variable under declaration is no obstacle for an expression that does not mention it. -/
theorem run_uses {st : Stack} : ∀ (e : List Var), (∀ v ∈ e, find st (cName v.name) = .user v.id) →
    ∀ r, run st ((e.map fun v => Ev.use (cName v.name) (.user v.id)) ++ r) = run st r
  | [], _, _ => rfl
  | v :: e, h, r => by
    rw [List.map_cons, List.cons_append, run_use (h v (List.mem_cons_self ..))]
    exact run_uses e (fun x hx => h x (List.mem_cons_of_mem _ hx)) r

theorem run_expr {st : Stack} (e : List Var) (hr : find st (lit "gray_add_check") = .ext)
    (h : ∀ v ∈ e, find st (cName v.name) = .user v.id) (r : List Ev) : run st (emitE e ++ r) = run st r := by
  unfold emitE
  by_cases hl : 2 ≤ e.length
  · rw [if_pos hl, List.append_assoc, List.singleton_append, ext, run_use hr]
    exact run_uses e h r
  · rw [if_neg hl, List.nil_append]
    exact run_uses e h r

theorem mem_rt (s : String) (h : rtNames.contains (lit s) = true) : lit s ∈ rtNames := List.contains_iff_mem.1 h

theorem Inv.ext {env : List Var} {nd : List Str} {top : List (Str × Ref)} {S : Stack} (h : Inv env nd top S) (s : String)
    (hs : rtNames.contains (lit s) = true) (r : List Ev) : run (top :: S) (Names.ext s :: r) = run (top :: S) r :=
  run_use (h.rt _ (mem_rt s hs))

theorem Inv.expr {env : List Var} {nd : List Str} {top : List (Str × Ref)} {S : Stack} (h : Inv env nd top S) {e : List Var}
    (he : okExpr env e) (r : List Ev) : run (top :: S) (emitE e ++ r) = run (top :: S) r :=
  run_expr e (h.rt _ (mem_rt _ (by decide +kernel))) (fun v hv => h.res _ v (he v hv)) r

/-- The same with one more variable on top. -/
theorem Inv.expr' {env : List Var} {nd : List Str} {top : List (Str × Ref)} {S : Stack} (h : Inv env nd top S) {e : List Var}
    (he : okExpr env e) {x : Var} (hx : Clean x.name) (hn : x.name ∉ names e) (r : List Ev) :
    run (((cName x.name, .user x.id) :: top) :: S) (emitE e ++ r) = run (((cName x.name, .user x.id) :: top) :: S) r := by
  refine run_expr e ((h.decl hx).rt _ (mem_rt _ (by decide +kernel))) (fun v hv => ?_) r
  have hc := h.clean v (meant_name (he v hv)).1
  rw [find_miss _ _ _ (fun e' => hn (by rw [cName_inj hx.1 hc.1 e']; exact List.mem_map_of_mem hv))]
  exact h.res _ v (he v hv)

/-- After the start of a block with an arena. -/
theorem run_start {env : List Var} {S : Stack} (h : Inv env [] [] S) (d : Nat) {a s : Str} (ha : Tmp a) (hs : Tmp s) (has : a ≠ s)
    (hao : lit "_gray_outer_arena" ≠ a) (hso : lit "_gray_outer_arena" ≠ s) :
    ∃ top, (∀ r, run ([] :: S) (outer d ++ (arenaIn a s ++ r)) = run (top :: S) r) ∧ Inv env [] top S
      ∧ find (top :: S) a = .temp ∧ find (top :: S) s = .temp := by
  have key : ∀ top0, Inv env [] top0 S → (∀ e ∈ top0, e.1 ≠ a) → (∀ e ∈ top0, e.1 ≠ s) →
      (∀ r, run (top0 :: S) (arenaIn a s ++ r) = run (((s, .temp) :: (a, .temp) :: top0) :: S) r)
        ∧ Inv env [] ((s, .temp) :: (a, .temp) :: top0) S := by
    intro top0 h0 h1 h2
    have i1 := h0.tmp ha
    have i2 := i1.tmp hs
    refine ⟨fun r => ?_, i2⟩
    unfold arenaIn
    simp only [List.cons_append, List.nil_append]
    rw [h0.ext _ (by decide +kernel), run_decl h1, i1.ext _ (by decide +kernel), i1.ext _ (by decide +kernel), run_decl,
      i2.ext _ (by decide +kernel), i2.ext _ (by decide +kernel), run_use]
    · rw [find_miss _ _ _ has.symm, find_hit]
    · intro e he
      rcases List.mem_cons.1 he with rfl | he
      · exact has
      · exact h2 e he
  by_cases hd : d = 0
  · have i0 := h.tmp tmp_outer
    obtain ⟨k1, k2⟩ := key _ i0 (fun e he => by
        rcases List.mem_cons.1 he with rfl | he
        · exact hao
        · cases he) (fun e he => by
        rcases List.mem_cons.1 he with rfl | he
        · exact hso
        · cases he)
    refine ⟨_, fun r => ?_, k2, ?_, find_hit ..⟩
    · unfold outer
      rw [if_pos hd]
      simp only [List.cons_append, List.nil_append]
      rw [h.ext _ (by decide +kernel), run_decl (fun _ he => by cases he), i0.ext _ (by decide +kernel), k1]
    · rw [find_miss _ _ _ has.symm, find_hit]
  · obtain ⟨k1, k2⟩ := key [] h (fun _ he => by cases he) (fun _ he => by cases he)
    refine ⟨_, fun r => ?_, k2, ?_, find_hit ..⟩
    · unfold outer
      rw [if_neg hd, List.nil_append, k1]
    · rw [find_miss _ _ _ has.symm, find_hit]

/-- Only names of clean variables. -/
def OnlyClean (new : List (Str × Ref)) : Prop := ∀ e ∈ new, ∃ m, Clean m ∧ cName m = e.1

/-- The end of a block with an arena. -/
theorem run_end {env : List Var} {top : List (Str × Ref)} {S : Stack} (h : Inv env [] top S) {a s : Str} (ha : Tmp a) (hs : Tmp s)
    (fa : find (top :: S) a = .temp) (fs : find (top :: S) s = .temp) {new : List (Str × Ref)} (hn : OnlyClean new) (r : List Ev) :
    run ((new ++ top) :: S) (arenaOut a s ++ r) = run ((new ++ top) :: S) r := by
  have f1 : ∀ t, Tmp t → find (top :: S) t = .temp → find ((new ++ top) :: S) t = .temp := fun t ht hf => by
    rw [find_skip _ _ (fun e he => ?_)]
    · exact hf
    · obtain ⟨m, hm, e'⟩ := hn e he
      exact e' ▸ ht.2 m hm
  have f2 : ∀ n ∈ rtNames, find ((new ++ top) :: S) n = .ext := fun n hr => by
    rw [find_skip _ _ (fun e he => ?_)]
    · exact h.rt n hr
    · obtain ⟨m, hm, e'⟩ := hn e he
      exact e' ▸ cName_rt hm hr
  unfold arenaOut
  simp only [List.cons_append, List.nil_append]
  rw [ext, ext, ext, run_use (f2 _ (mem_rt _ (by decide +kernel))), run_use (f1 s hs fs), run_use (f2 _ (mem_rt _ (by decide +kernel))),
    run_use (f1 a ha fa), run_use (f2 _ (mem_rt _ (by decide +kernel))), run_use (f1 a ha fa)]

theorem block_ok : ∀ (b : Block) (env : List Var) (seen avoid : List Str) (top : List (Str × Ref)) (S : Stack) (k d : Nat),
    Res env seen b → Fine avoid b → Inv env (seen ++ avoid) top S →
    ∃ new, run (top :: S) (emitB b k d).1 = some ((new ++ top) :: S) ∧ OnlyClean new
  | .nil, env, seen, avoid, top, S, k, d, _, _, _ => ⟨[], rfl, fun _ he => by cases he⟩
  | .decl x e r, env, seen, avoid, top, S, k, d, hr, hf, hi => by
    obtain ⟨he, hx, _, _, _, hr⟩ := hr
    obtain ⟨hc, hself, hav, hf⟩ := hf
    have i1 : Inv (x :: env) (x.name :: seen ++ avoid) ((cName x.name, .user x.id) :: top) S := hi.decl hc
    obtain ⟨new, h1, h2⟩ := block_ok r (x :: env) (x.name :: seen) avoid _ S k d hr hf i1
    refine ⟨new ++ [(cName x.name, .user x.id)], ?_, fun y hy => ?_⟩
    · rw [emitB]
      simp only [List.cons_append]
      rw [hi.ext _ (by decide +kernel), run_decl, hi.expr' he hc hself, h1, List.append_assoc]
      · rfl
      · intro y hy e'
        rcases hi.tops y hy with ht | ⟨m, hm, hmc, hme⟩
        · exact ht.2 _ hc e'.symm
        · have : m = x.name := cName_inj hmc.1 hc.1 (hme.trans e')
          rcases List.mem_append.1 (this ▸ hm) with q | q
          · exact hx q
          · exact hav q
    · rcases List.mem_append.1 hy with q | q
      · exact h2 y q
      · rw [List.mem_singleton.1 q]; exact ⟨x.name, hc, rfl⟩
  | .assign x e r, env, seen, avoid, top, S, k, d, hr, hf, hi => by
    obtain ⟨he, hr⟩ := hr
    obtain ⟨new, h1, h2⟩ := block_ok r env seen avoid top S k d hr hf hi
    refine ⟨new, ?_, h2⟩
    rw [emitB]
    simp only [List.cons_append]
    rw [run_use (hi.res _ x (he x (List.mem_cons_self ..))), hi.expr (fun v hv => he v (List.mem_cons_of_mem _ hv)), h1]
  | .setField p e r, env, seen, avoid, top, S, k, d, hr, hf, hi => by
    obtain ⟨he, hr⟩ := hr
    obtain ⟨new, h1, h2⟩ := block_ok r env seen avoid top S k d hr hf hi
    refine ⟨new, ?_, h2⟩
    have i1 := hi.opn
    have i2 := i1.tmp tmp_dp
    have hp : okExpr env [p] := fun v hv => by rw [List.mem_singleton.1 hv]; exact he p (List.mem_cons_self ..)
    rw [emitB]
    simp only [List.cons_append, List.append_assoc, List.nil_append]
    rw [run_opn, i1.expr hp, run_decl (fun _ he => by cases he), run_use (find_hit ..), i2.ext _ (by decide +kernel),
      run_use (find_hit ..), i2.expr (fun v hv => he v (List.mem_cons_of_mem _ hv)), run_cls, h1]
  | .ifs c t f r, env, seen, avoid, top, S, k, d, hr, hf, hi => by
    obtain ⟨he, hrt, hrf, hr⟩ := hr
    obtain ⟨hft, hff, hf⟩ := hf
    have i1 := hi.opn
    obtain ⟨tp, s1, s2, s3, s4⟩ := run_start i1 d (tmp_if k) (tmp_ifs k) (ne_at 4 rfl rfl (by decide))
      (ne_at (t := numbered "_if_arena_" k) 1 (a := 103) (b := 105) rfl rfl (by decide))
      (ne_at (t := numbered "_if_saved_" k) 1 (a := 103) (b := 105) rfl rfl (by decide))
    have i2 := s2.opn
    obtain ⟨n1, a1, _⟩ := block_ok t env [] [] [] (tp :: top :: S) (k + 1) (d + 1) hrt hft i2
    obtain ⟨n2, a2, _⟩ := block_ok f env [] [] [] (tp :: top :: S) (emitB t (k + 1) (d + 1)).2 (d + 1) hrf hff i2
    obtain ⟨new, h1, h2⟩ := block_ok r env seen avoid top S (emitB f (emitB t (k + 1) (d + 1)).2 (d + 1)).2 d hr hf hi
    refine ⟨new, ?_, h2⟩
    rw [emitB]
    simp only [List.cons_append, List.append_assoc, List.nil_append]
    rw [run_opn, s1, s2.expr he, run_opn, run_trans a1, run_cls, run_opn, run_trans a2, run_cls]
    have := run_end s2 (tmp_if k) (tmp_ifs k) s3 s4 (new := []) (fun _ he => by cases he)
    rw [List.nil_append] at this
    rw [this, run_cls, h1]
  | .whl c b r, env, seen, avoid, top, S, k, d, hr, hf, hi => by
    obtain ⟨he, hrb, hr⟩ := hr
    obtain ⟨hfb, hf⟩ := hf
    have i1 := hi.opn
    obtain ⟨tp, s1, s2, s3, s4⟩ := run_start i1 d (tmp_it d) (tmp_its d) (ne_at 1 (a := 105) (b := 115) rfl rfl (by decide))
      (ne_at (t := numbered "_iter_arena_" d) 1 (a := 103) (b := 105) rfl rfl (by decide))
      (ne_at (t := numbered "_saved_arena_" d) 1 (a := 103) (b := 115) rfl rfl (by decide))
    obtain ⟨n1, a1, a2⟩ := block_ok b env [] [] tp (top :: S) k (d + 1) hrb hfb s2
    obtain ⟨new, h1, h2⟩ := block_ok r env seen avoid top S (emitB b k (d + 1)).2 d hr hf hi
    refine ⟨new, ?_, h2⟩
    rw [emitB]
    simp only [List.cons_append, List.append_assoc, List.nil_append]
    rw [hi.expr he, run_opn, s1, run_trans a1, run_end s2 (tmp_it d) (tmp_its d) s3 s4 a2, run_cls, h1]
  | .forr i a b body r, env, seen, avoid, top, S, k, d, hr, hf, hi => by
    obtain ⟨hea, heb, _, hrb, hr⟩ := hr
    obtain ⟨hc, hsa, hsb, hfb, hf⟩ := hf
    have i1 := hi.opn
    have i2 := i1.decl hc
    have i3 := i2.opn
    obtain ⟨tp, s1, s2, s3, s4⟩ := run_start i3 d (tmp_it d) (tmp_its d) (ne_at 1 (a := 105) (b := 115) rfl rfl (by decide))
      (ne_at (t := numbered "_iter_arena_" d) 1 (a := 103) (b := 105) rfl rfl (by decide))
      (ne_at (t := numbered "_saved_arena_" d) 1 (a := 103) (b := 115) rfl rfl (by decide))
    obtain ⟨n1, a1, a2⟩ := block_ok body (i :: env) [] [] tp _ k (d + 1) hrb hfb s2
    obtain ⟨new, h1, h2⟩ := block_ok r env seen avoid top S (emitB body k (d + 1)).2 d hr hf hi
    refine ⟨new, ?_, h2⟩
    rw [emitB]
    simp only [List.cons_append, List.append_assoc, List.nil_append]
    rw [run_opn, i1.ext _ (by decide +kernel), run_decl (fun _ he => by cases he), i1.expr' hea hc hsa, run_use (find_hit ..),
      i1.expr' heb hc hsb, run_use (find_hit ..), run_opn, s1, run_trans a1, run_end s2 (tmp_it d) (tmp_its d) s3 s4 a2, run_cls, run_cls,
      h1]

theorem params_ok : ∀ (ps : List Var) (env : List Var) (nd : List Str) (top : List (Str × Ref)) (S : Stack),
    Inv env nd top S → (∀ e ∈ top, ∀ p ∈ ps, cName p.name ≠ e.1) → (∀ p ∈ ps, Clean p.name) → (ps.map Var.name).Nodup →
    ∃ top', (∀ r, run (top :: S) (ps.flatMap (fun p => [ext "int64_t", .decl (cName p.name) (.user p.id)]) ++ r) = run (top' :: S) r)
      ∧ Inv (ps.reverse ++ env) (names ps.reverse ++ nd) top' S ∧ ∀ e ∈ top', e ∈ top ∨ ∃ m, Clean m ∧ cName m = e.1
  | [], env, nd, top, S, hi, _, _, _ => ⟨top, fun _ => rfl, hi, fun _ he => .inl he⟩
  | p :: ps, env, nd, top, S, hi, h1, h2, h3 => by
    have hp := h2 p (List.mem_cons_self ..)
    rw [List.map_cons, List.nodup_cons] at h3
    obtain ⟨top', a, b, c⟩ := params_ok ps (p :: env) (p.name :: nd) ((cName p.name, .user p.id) :: top) S (hi.decl hp)
      (fun e he q hq => by
        rcases List.mem_cons.1 he with rfl | he
        · intro e'
          have := cName_inj (h2 q (List.mem_cons_of_mem _ hq)).1 hp.1 e'
          exact h3.1 (this ▸ List.mem_map_of_mem hq)
        · exact h1 e he q (List.mem_cons_of_mem _ hq))
      (fun q hq => h2 q (List.mem_cons_of_mem _ hq)) h3.2
    refine ⟨top', fun r => ?_, ?_, fun e he => ?_⟩
    · rw [List.flatMap_cons]
      simp only [List.cons_append, List.nil_append]
      rw [hi.ext _ (by decide +kernel), run_decl (fun e he e' => h1 e he p (List.mem_cons_self ..) e'.symm), a]
    · have e1 : (p :: ps).reverse ++ env = ps.reverse ++ (p :: env) := by
        rw [List.reverse_cons, List.append_assoc]; rfl
      have e2 : names (p :: ps).reverse ++ nd = names ps.reverse ++ (p.name :: nd) := by
        rw [List.reverse_cons]; unfold names; rw [List.map_append, List.append_assoc]; rfl
      rw [e1, e2]
      exact b
    · rcases c e he with q | q
      · rcases List.mem_cons.1 q with rfl | q
        · exact .inr ⟨p.name, hp, rfl⟩
        · exact .inl q
      · exact .inr q

end Na

/-- C267. In the C text of a function without errors of names every name means what it means in the source, and none is declared twice in
a scope. -/
def C267_statement : Prop := ∀ (f : Func) (k : Nat), f.Ok → (run [] (emitF f k)).isSome

namespace Na

/-- `mut x int = 1; if x { mut x int = x }` -/
def own : Func := ⟨[], .decl ⟨lit "x", 0⟩ [] (.ifs [⟨lit "x", 0⟩] (.decl ⟨lit "x", 1⟩ [⟨lit "x", 0⟩] .nil) .nil .nil)⟩

/-- `for i in range(i, n)` with a parameter `i` -/
def ownLoop : Func := ⟨[⟨lit "i", 0⟩, ⟨lit "n", 1⟩], .forr ⟨lit "i", 2⟩ [⟨lit "i", 0⟩] [⟨lit "n", 1⟩] .nil .nil⟩

/-- `p.next = _dp` -/
def capture : Func := ⟨[⟨lit "p", 0⟩, ⟨lit "_dp", 1⟩], .setField ⟨lit "p", 0⟩ [⟨lit "_dp", 1⟩] .nil⟩

/-- A parameter declared again. -/
def again : Func := ⟨[⟨lit "n", 0⟩], .decl ⟨lit "n", 1⟩ [] .nil⟩

/-- A loop variable called `free`. -/
def freed : Func := ⟨[], .forr ⟨lit "free", 0⟩ [] [] .nil .nil⟩

/-- A parameter named after a type of C. -/
def typed : Func := ⟨[⟨lit "int64_t", 0⟩, ⟨lit "n", 1⟩], .nil⟩

theorem okE {env e : List Var} (h : (e.all fun v => decide (meant env v.name = some v)) = true) : okExpr env e :=
  fun v hv => of_decide_eq_true (List.all_eq_true.1 h v hv)

theorem own_ok : own.Ok := by
  refine ⟨by decide +kernel, (fun _ h => by cases h), ?_⟩
  refine ⟨okE (by decide +kernel), by decide +kernel, by decide +kernel, by decide +kernel, by decide +kernel, ?_⟩
  refine ⟨okE (by decide +kernel), ?_, trivial, trivial⟩
  exact ⟨okE (by decide +kernel), by decide +kernel, by decide +kernel, by decide +kernel, by decide +kernel, trivial⟩

theorem ownLoop_ok : ownLoop.Ok := by
  refine ⟨by decide +kernel, by decide +kernel, ?_⟩
  exact ⟨okE (by decide +kernel), okE (by decide +kernel), by decide +kernel, trivial, trivial⟩

theorem capture_ok : capture.Ok := by
  refine ⟨by decide +kernel, by decide +kernel, ?_⟩
  exact ⟨okE (by decide +kernel), trivial⟩

theorem again_ok : again.Ok := by
  refine ⟨by decide +kernel, by decide +kernel, ?_⟩
  exact ⟨okE (by decide +kernel), by decide +kernel, by decide +kernel, by decide +kernel, by decide +kernel, trivial⟩

theorem freed_ok : freed.Ok := by
  refine ⟨by decide +kernel, (fun _ h => by cases h), ?_⟩
  exact ⟨okE (by decide +kernel), okE (by decide +kernel), by decide +kernel, trivial, trivial⟩

theorem typed_ok : typed.Ok := ⟨by decide +kernel, by decide +kernel, trivial⟩

end Na

theorem C267_witness :
    (own.Ok ∧ run [] (emitF own 0) = none) ∧ (ownLoop.Ok ∧ run [] (emitF ownLoop 0) = none) ∧ (capture.Ok ∧ run [] (emitF capture 0) = none)
      ∧ (again.Ok ∧ run [] (emitF again 0) = none) ∧ (freed.Ok ∧ run [] (emitF freed 0) = none)
      ∧ (typed.Ok ∧ run [] (emitF typed 0) = none) :=
  ⟨⟨own_ok, by decide +kernel⟩, ⟨ownLoop_ok, by decide +kernel⟩, ⟨capture_ok, by decide +kernel⟩, ⟨again_ok, by decide +kernel⟩,
    ⟨freed_ok, by decide +kernel⟩, ⟨typed_ok, by decide +kernel⟩⟩

theorem C267_fails : ¬ C267_statement := fun h => by
  have := h own 0 C267_witness.1.1
  rw [C267_witness.1.2] at this
  cases this

/-- C267, for functions whose variables do not begin with `_` and are not named after what the text uses, where no declaration mentions a
variable of its own name, and no parameter is declared again at the top level of the body. Missing: the others, of which there are
witnesses that fail. -/
theorem C267_partial (f : Func) (k : Nat) (h : f.Ok) (hp : ∀ p ∈ f.params, Clean p.name) (hb : Fine (names f.params) f.body) :
    run [] (emitF f k) = some [] := by
  obtain ⟨h1, h2, h3⟩ := h
  have i0 : Inv [] [] [] [] := ⟨(fun _ h => by cases h), (fun _ _ h => by cases h), (fun _ h => by cases h), fun n _ => rfl⟩
  obtain ⟨top, a, b, c⟩ := params_ok f.params [] [] [] [] i0 (fun _ h => by cases h) hp h1
  rw [List.append_nil, List.append_nil] at b
  have b' : Inv f.params.reverse (names f.params) top [] := ⟨b.clean, b.res, fun e he => (b.tops e he).imp_right fun ⟨m, h, r⟩ =>
    ⟨m, by
      unfold names at h ⊢
      rw [List.map_reverse] at h
      exact List.mem_reverse.1 h, r⟩, b.rt⟩
  have i1 := b'.tmp tmp_mark
  obtain ⟨new, c1, c2⟩ := block_ok f.body f.params.reverse [] (names f.params) _ [] k 0 h3 hb i1
  have f2 : ∀ n ∈ rtNames, find [new ++ (lit "_scope_mark", .temp) :: top] n = .ext := fun n hr => by
    rw [find_skip _ _ (fun e he => ?_)]
    · exact i1.rt n hr
    · obtain ⟨m, hm, e'⟩ := c2 e he
      exact e' ▸ cName_rt hm hr
  unfold emitF
  simp only [List.cons_append, List.append_assoc, List.nil_append]
  rw [run_opn, a, b'.ext _ (by decide +kernel), run_decl, i1.ext _ (by decide +kernel), i1.ext _ (by decide +kernel),
    i1.ext _ (by decide +kernel), run_trans c1]
  · rw [ext, ext, ext, run_use (f2 _ (mem_rt _ (by decide +kernel))), run_use (f2 _ (mem_rt _ (by decide +kernel))), run_use,
      run_use (f2 _ (mem_rt _ (by decide +kernel))), run_cls]
    · rfl
    · rw [find_skip _ _ (fun e he => ?_)]
      · exact find_hit ..
      · obtain ⟨m, hm, e'⟩ := c2 e he
        exact e' ▸ tmp_mark.2 m hm
  · intro e he e'
    rcases c e he with q | ⟨m, hm, hme⟩
    · cases q
    · exact tmp_mark.2 m hm (hme.trans e')

namespace Na

/-- A variable in a block hides one outside, in a branch, a loop and a `for`. -/
def hides : Func := ⟨[⟨lit "n", 0⟩, ⟨lit "long", 1⟩],
  .decl ⟨lit "x", 2⟩ [⟨lit "n", 0⟩, ⟨lit "long", 1⟩]
    (.ifs [⟨lit "x", 2⟩] (.decl ⟨lit "x", 3⟩ [⟨lit "n", 0⟩] (.assign ⟨lit "x", 3⟩ [⟨lit "x", 3⟩] .nil)) (.decl ⟨lit "n", 4⟩ [⟨lit "x", 2⟩] .nil)
      (.forr ⟨lit "i", 5⟩ [] [⟨lit "x", 2⟩]
        (.whl [⟨lit "i", 5⟩] (.decl ⟨lit "i", 6⟩ [⟨lit "x", 2⟩] .nil) .nil)
        (.setField ⟨lit "x", 2⟩ [⟨lit "n", 0⟩] .nil)))⟩

theorem hides_ok : hides.Ok := by
  refine ⟨by decide +kernel, by decide +kernel, ?_⟩
  refine ⟨okE (by decide +kernel), by decide +kernel, by decide +kernel, by decide +kernel, by decide +kernel, ?_⟩
  refine ⟨okE (by decide +kernel), ⟨okE (by decide +kernel), by decide +kernel, by decide +kernel, by decide +kernel, by decide +kernel,
    okE (by decide +kernel), trivial⟩, ⟨okE (by decide +kernel), by decide +kernel, by decide +kernel, by decide +kernel,
    by decide +kernel, trivial⟩, ?_⟩
  exact ⟨okE (by decide +kernel), okE (by decide +kernel), by decide +kernel, ⟨okE (by decide +kernel), ⟨okE (by decide +kernel),
    by decide +kernel, by decide +kernel, by decide +kernel, by decide +kernel, trivial⟩, trivial⟩, okE (by decide +kernel), trivial⟩

theorem hides_fine : Fine (names hides.params) hides.body := by
  refine ⟨by decide +kernel, by decide +kernel, by decide +kernel, ⟨by decide +kernel, by decide +kernel, by decide +kernel, trivial⟩,
    ⟨by decide +kernel, by decide +kernel, by decide +kernel, trivial⟩, by decide +kernel, by decide +kernel, by decide +kernel, ?_, ?_⟩
  · exact ⟨⟨by decide +kernel, by decide +kernel, by decide +kernel, trivial⟩, trivial⟩
  · exact trivial

end Na

example : run [] (emitF hides 7) = some [] := C267_partial hides 7 hides_ok (by decide +kernel) hides_fine

/-! ### C268: the buffers of C names -/

namespace Na

/-- The number of names that need a buffer. -/
def words (ns : List Str) : Nat := (ns.filter fun n => decide (n ∈ cWords)).length

theorem san_plain {n : Str} (h : n ∉ cWords) (r : Ring) : san r n = (.name n, r) := by
  unfold san
  rw [if_neg (fun e => h ((isCWord_iff n).1 e))]

theorem san_word {n : Str} (h : n ∈ cWords) (r : Ring) :
    san r n = (.buf (r.slot % 4), ⟨r.bufs.set (r.slot % 4) (cName n), r.slot + 1⟩) := by
  have e : cName n = (lit "_gray_" ++ n).take 255 := by unfold cName; rw [if_pos ((isCWord_iff n).2 h)]
  unfold san
  rw [if_pos ((isCWord_iff n).2 h), e]

theorem san_len (r : Ring) (n : Str) : (san r n).2.bufs.length = r.bufs.length := by
  by_cases h : n ∈ cWords
  · rw [san_word h]; exact List.length_set ..
  · rw [san_plain h]

theorem sanAll_len : ∀ (ns : List Str) (r : Ring), (sanAll r ns).2.bufs.length = r.bufs.length
  | [], _ => rfl
  | n :: ns, r => by rw [sanAll]; simp only; rw [sanAll_len ns, san_len]

theorem san_read {r : Ring} (hr : r.bufs.length = 4) (n : Str) : read (san r n).2 (san r n).1 = cName n := by
  by_cases h : n ∈ cWords
  · rw [san_word h]
    have : r.slot % 4 < r.bufs.length := by omega
    show (r.bufs.set (r.slot % 4) (cName n)).getD (r.slot % 4) [] = cName n
    rw [List.getD_eq_getElem?_getD, List.getElem?_set_self this]; rfl
  · rw [san_plain h, cName_plain h]; rfl

/-- A buffer is kept while fewer names than buffers come after it. -/
theorem sanAll_keep (i : Nat) : ∀ (ns : List Str) (r : Ring), (∀ j, j < words ns → (r.slot + j) % 4 ≠ i) →
    (sanAll r ns).2.bufs[i]? = r.bufs[i]? ∧ (sanAll r ns).2.slot = r.slot + words ns
  | [], _, _ => ⟨rfl, rfl⟩
  | n :: ns, r, h => by
    rw [sanAll]
    simp only
    by_cases hn : n ∈ cWords
    · have hw : words (n :: ns) = words ns + 1 := by
        unfold words; rw [List.filter_cons_of_pos (by simpa using hn)]; rfl
      rw [san_word hn]
      simp only
      obtain ⟨a, b⟩ := sanAll_keep i ns ⟨r.bufs.set (r.slot % 4) (cName n), r.slot + 1⟩ fun j hj => by
        have := h (j + 1) (by omega)
        show (r.slot + 1 + j) % 4 ≠ i
        rw [Nat.add_assoc, Nat.add_comm 1 j]
        exact this
      refine ⟨?_, ?_⟩
      · rw [a]
        exact List.getElem?_set_ne (h 0 (by omega))
      · rw [b, hw]
        show r.slot + 1 + words ns = _
        omega
    · have hw : words (n :: ns) = words ns := by
        unfold words; rw [List.filter_cons_of_neg (by simpa using hn)]
      rw [san_plain hn]
      simp only
      rw [hw] at h ⊢
      exact sanAll_keep i ns r h

end Na

/-- C268. In the head of a loop `for v in range(a, b)` the variable has the same name where it is declared, compared and counted. -/
def C268_statement : Prop :=
  ∀ (r : Ring) (v : Str) (a b : List Str), r.bufs.length = 4 → header r v a b = (cName v, cName v, cName v)

/-- `for long in range(0, short + auto + register + double)` counts `_gray_double` up. -/
theorem C268_witness :
    header ⟨[[], [], [], []], 0⟩ (lit "long") [] [lit "short", lit "auto", lit "register", lit "double"]
      = (lit "_gray_long", lit "_gray_long", lit "_gray_double") := by decide +kernel

theorem C268_fails : ¬ C268_statement := fun h => by
  have := h ⟨[[], [], [], []], 0⟩ (lit "long") [] [lit "short", lit "auto", lit "register", lit "double"] rfl
  rw [C268_witness] at this
  revert this
  decide +kernel

/-- C268, if the variable is not named like a word of C, or fewer than four names in the bounds are. Missing: four or more. -/
theorem C268_partial (r : Ring) (v : Str) (a b : List Str) (hr : r.bufs.length = 4) (h : v ∉ cWords ∨ words a + words b < 4) :
    header r v a b = (cName v, cName v, cName v) := by
  unfold header
  simp only
  by_cases hv : v ∈ cWords
  · have hc : words a + words b < 4 := h.resolve_left fun e => e hv
    have h1 := san_read hr v
    rw [san_word hv] at h1 ⊢
    simp only at h1 ⊢
    obtain ⟨a1, a2⟩ := sanAll_keep (r.slot % 4) a ⟨r.bufs.set (r.slot % 4) (cName v), r.slot + 1⟩ fun j hj => by
      show (r.slot + 1 + j) % 4 ≠ _
      omega
    obtain ⟨b1, _⟩ := sanAll_keep (r.slot % 4) b (sanAll ⟨r.bufs.set (r.slot % 4) (cName v), r.slot + 1⟩ a).2 fun j hj => by
      rw [a2]
      show (r.slot + 1 + words a + j) % 4 ≠ _
      omega
    have e : ∀ q : Ring, read q (.buf (r.slot % 4)) = q.bufs[r.slot % 4]?.getD [] := fun q => List.getD_eq_getElem?_getD
    rw [e] at h1 ⊢
    rw [e, e, b1, a1, h1]
  · rw [san_plain hv, cName_plain hv]
    rfl

/-- C268. The names in an expression, which are written at once, are right. -/
theorem C268_at_once : ∀ (ns : List Str) (r : Ring), r.bufs.length = 4 → (sanAll r ns).1 = ns.map cName
  | [], _, _ => rfl
  | n :: ns, r, h => by
    rw [sanAll, List.map_cons]
    simp only
    rw [san_read h, C268_at_once ns _ (by rw [san_len, h])]

example : header ⟨[[], [], [], []], 7⟩ (lit "long") [lit "short"] [lit "auto", lit "n", lit "double"]
    = (lit "_gray_long", lit "_gray_long", lit "_gray_long") :=
  C268_partial _ _ _ _ rfl (.inr (by decide +kernel))

/-! ### C269: references -/

namespace Na

/-- In a function, an occurrence is one of a reference only after one of that name has been declared, or of an `&` parameter. -/
def Declared (muts : List Str) : List Str → List Step → Prop
  | _, [] => True
  | here, .declRef n :: r => Declared muts (n :: here) r
  | here, .use n b :: r => (b = true → n ∈ muts ∨ n ∈ here) ∧ (b = false → n ∉ muts) ∧ Declared muts here r

/-- The names that are declared as references. -/
def refNames (f : List Step) : List Str := f.filterMap fun s => match s with | .declRef n => some n | .use _ _ => none

theorem labels_spec (muts : List Str) (B : Str → Prop) : ∀ (f : List Step) (here refs : List Str), Declared muts here f →
    (∀ n ∈ here, n ∈ refs) → (∀ n b, Step.use n b ∈ f → b = false → B n) → (∀ n ∈ refs, ¬ B n) → (∀ n ∈ refNames f, ¬ B n) →
    (∀ o n b, (o, n, b) ∈ (labels [] muts f refs).1 → o = if b then .deref (cName n) else .plain (cName n))
      ∧ (labels [] muts f refs).2 = refs ++ refNames f
  | [], _, refs, _, _, _, _, _ => ⟨(fun _ _ _ h => by cases h), (List.append_nil refs).symm⟩
  | .declRef n :: r, here, refs, h, h1, h2, h3, h4 => by
    have e : refNames (.declRef n :: r) = n :: refNames r := rfl
    rw [e] at h4 ⊢
    rw [labels]
    have := labels_spec muts B r (n :: here) (refs ++ [n]) h
      (fun m hm => by
        rcases List.mem_cons.1 hm with rfl | hm
        · exact List.mem_append_right _ (List.mem_singleton.2 rfl)
        · exact List.mem_append_left _ (h1 m hm))
      (fun m b hm => h2 m b (List.mem_cons_of_mem _ hm))
      (fun m hm => by
        rcases List.mem_append.1 hm with q | q
        · exact h3 m q
        · rw [List.mem_singleton.1 q]; exact h4 n (List.mem_cons_self ..))
      (fun m hm => h4 m (List.mem_cons_of_mem _ hm))
    rw [List.append_assoc] at this
    exact this
  | .use n b :: r, here, refs, h, h1, h2, h3, h4 => by
    obtain ⟨ha, hb, hc⟩ := h
    have e : refNames (.use n b :: r) = refNames r := rfl
    rw [e] at h4 ⊢
    obtain ⟨i1, i2⟩ := labels_spec muts B r here refs hc h1 (fun m b hm => h2 m b (List.mem_cons_of_mem _ hm)) h3 h4
    rw [labels]
    refine ⟨fun o m b' hm => ?_, i2⟩
    rcases List.mem_cons.1 hm with q | q
    · have q1 : o = emitLabel [] muts refs n := congrArg Prod.fst q
      have q2 : m = n := congrArg (fun x => x.2.1) q
      have q3 : b' = b := congrArg (fun x => x.2.2) q
      subst q2 q3
      rw [q1]
      unfold emitLabel
      rw [List.findSome?_nil]
      simp only
      cases b'
      · rw [if_neg (fun e => hb rfl (List.contains_iff_mem.1 e)), if_neg, if_neg (by decide)]
        intro e
        exact h3 m (List.contains_iff_mem.1 e) (h2 m false (List.mem_cons_self ..) rfl)
      · rcases ha rfl with q | q
        · rw [if_pos (List.contains_iff_mem.2 q)]; rfl
        · have := List.contains_iff_mem.2 (h1 m q)
          rw [if_pos this]
          split <;> rfl
    · exact i1 o m b' q

end Na

/-- C269. A variable is read through a pointer exactly if it is a reference or an `&` parameter. -/
def C269_statement : Prop :=
  ∀ fs : List (List Str × List Step), (∀ f ∈ fs, Declared f.1 [] f.2) →
    ∀ o n b, (o, n, b) ∈ allLabels [] fs [] → o = if b then .deref (cName n) else .plain (cName n)

/-- A reference `r` in one function, an integer `r` in the next. -/
theorem C269_witness :
    allLabels [] [([], [.declRef (lit "r"), .use (lit "r") true]), ([], [.use (lit "r") false])] []
      = [(.deref (lit "r"), lit "r", true), (.deref (lit "r"), lit "r", false)] := by decide +kernel

theorem C269_fails : ¬ C269_statement := fun h => by
  have := h [([], [.declRef (lit "r"), .use (lit "r") true]), ([], [.use (lit "r") false])]
    (fun f hf => by
      rcases List.mem_cons.1 hf with rfl | hf
      · exact ⟨fun _ => .inr (List.mem_cons_self ..), (fun e => by cases e), trivial⟩
      · rw [List.mem_singleton.1 hf]
        exact ⟨(fun e => by cases e), (fun _ h => by cases h), trivial⟩)
    (.deref (lit "r")) (lit "r") false (by rw [C269_witness]; exact List.mem_cons_of_mem _ (List.mem_cons_self ..))
  revert this
  decide +kernel

/-- C269, if no name is that of a reference in one place of the program and of another variable in another. Missing: the others. -/
theorem C269_partial (fs : List (List Str × List Step)) (h : ∀ f ∈ fs, Declared f.1 [] f.2)
    (hd : ∀ f ∈ fs, ∀ n ∈ refNames f.2, ∀ g ∈ fs, Step.use n false ∉ g.2) :
    ∀ o n b, (o, n, b) ∈ allLabels [] fs [] → o = if b then .deref (cName n) else .plain (cName n) := by
  have key : ∀ (B : Str → Prop) (gs : List (List Str × List Step)) (refs : List Str), (∀ f ∈ gs, Declared f.1 [] f.2) →
      (∀ g ∈ gs, ∀ n, Step.use n false ∈ g.2 → B n) → (∀ n ∈ refs, ¬ B n) → (∀ g ∈ gs, ∀ n ∈ refNames g.2, ¬ B n) →
      ∀ o n b, (o, n, b) ∈ allLabels [] gs refs → o = if b then .deref (cName n) else .plain (cName n) := by
    intro B gs
    induction gs with
    | nil => intro refs _ _ _ _ o n b hm; cases hm
    | cons g gs ih =>
      intro refs a1 a2 a3 a4 o n b hm
      obtain ⟨muts, f⟩ := g
      obtain ⟨i1, i2⟩ := labels_spec muts B f [] refs (a1 _ (List.mem_cons_self ..)) (fun _ h => by cases h)
        (fun m b hm e => a2 _ (List.mem_cons_self ..) m (e ▸ hm)) a3 (a4 _ (List.mem_cons_self ..))
      rw [allLabels] at hm
      rcases List.mem_append.1 hm with q | q
      · exact i1 o n b q
      · refine ih _ (fun f hf => a1 f (List.mem_cons_of_mem _ hf)) (fun f hf => a2 f (List.mem_cons_of_mem _ hf)) ?_
          (fun f hf => a4 f (List.mem_cons_of_mem _ hf)) o n b q
        rw [i2]
        intro m hm
        rcases List.mem_append.1 hm with q | q
        · exact a3 m q
        · exact a4 _ (List.mem_cons_self ..) m q
  exact key (fun n => ∃ g ∈ fs, Step.use n false ∈ g.2) fs [] h (fun g hg n hn => ⟨g, hg, hn⟩) (fun _ h => by cases h)
    (fun f hf n hn ⟨g, hg, hu⟩ => hd f hf n hn g hg hu)

/-! ### C270: constants of modules in use -/

/-- C270. A variable of a function is written as that variable. -/
def C270_statement : Prop :=
  ∀ (us : List Str) (n : Str), MayDeclare n → emitLabel us [] [] n = .plain (cName n)

theorem C270_witness : MayDeclare (lit "E") ∧ emitLabel [lit "math"] [] [] (lit "E") = .const (lit "2.71828182845904523536") := by
  decide +kernel

theorem C270_fails : ¬ C270_statement := fun h => by
  have := h [lit "math"] (lit "E") C270_witness.1
  rw [C270_witness.2] at this
  cases this

/-- C270, exactly: a variable is written as a constant if and only if a module in use has a constant of its name. Missing: those are
wrong, as a variable of the function is meant. -/
theorem C270_partial (us muts refs : List Str) (n : Str) :
    ((∃ v, emitLabel us muts refs n = .const v) ↔ ∃ m ∈ us, ∃ v, (n, m, v) ∈ consts)
      ∧ ((∀ m ∈ us, ∀ v, (n, m, v) ∉ consts) → emitLabel us [] [] n = .plain (cName n)) := by
  have key : ∀ m, (consts.find? fun c => c.1 == n && c.2.1 == m) = none ↔ ∀ v, (n, m, v) ∉ consts := fun m => by
    rw [List.find?_eq_none]
    refine ⟨fun h v hv => h _ hv (by simp), fun h c hc e => ?_⟩
    obtain ⟨e1, e2⟩ := Bool.and_eq_true_iff.1 e
    have e1 := eq_of_beq e1
    have e2 := eq_of_beq e2
    subst e1 e2
    exact h c.2.2 hc
  have none_iff : us.findSome? (fun m => (consts.find? fun c => c.1 == n && c.2.1 == m).map fun c => c.2.2) = none
      ↔ ∀ m ∈ us, ∀ v, (n, m, v) ∉ consts := by
    rw [List.findSome?_eq_none_iff]
    exact ⟨fun h m hm => (key m).1 (Option.map_eq_none_iff.1 (h m hm)), fun h m hm => Option.map_eq_none_iff.2 ((key m).2 (h m hm))⟩
  refine ⟨?_, fun h => ?_⟩
  · unfold emitLabel
    cases hx : us.findSome? (fun m => (consts.find? fun c => c.1 == n && c.2.1 == m).map fun c => c.2.2) with
    | none =>
      simp only
      refine ⟨fun ⟨v, hv⟩ => ?_, fun ⟨m, hm, v, hv⟩ => absurd hv (none_iff.1 hx m hm v)⟩
      split at hv
      · cases hv
      · split at hv <;> cases hv
    | some v =>
      simp only
      refine ⟨fun _ => ?_, fun _ => ⟨v, rfl⟩⟩
      refine Classical.byContradiction fun hc => ?_
      rw [none_iff.2 (fun m hm v hv => hc ⟨m, hm, v, hv⟩)] at hx
      cases hx
  · unfold emitLabel
    rw [none_iff.2 h]
    rfl

example : emitLabel [lit "io"] [] [] (lit "E") = .plain (lit "E") := by decide +kernel

/-! ### C271: C types of structs and enums -/

namespace Na

/-- The name under which a declared struct or enum is defined in C (9644-9650, 9678). -/
def defined (enums : List Str) (t : Str) : Str := (if enums.contains t then lit "GrayEnum_" else lit "GrayStruct_") ++ t

end Na

/-- C271. A declared struct or enum is written as it is defined, also where the key and the value of a map are written together. -/
def C271_statement : Prop :=
  ∀ (structs enums : List Str) (f : Nat) (t : Str), 0 < f → t ∈ structs ∨ t ∈ enums → isIdent t = true → notBuiltin t = true →
    search structNames t = false →
    (cType structs enums f t).text = defined enums t
      ∧ ∀ u ∈ structs, (mapTypes structs enums f t u) = ((cType structs enums f t).text, (cType structs enums f u).text)

/-- An enum `color` is used as `color` and defined as `GrayEnum_color`; the map from `Color` to `Point` has keys of the size of `Point`. -/
theorem C271_witness :
    ((cType [] [lit "color"] 9 (lit "color")).text = lit "color" ∧ defined [lit "color"] (lit "color") = lit "GrayEnum_color")
      ∧ mapTypes [lit "Point"] [lit "Color"] 9 (lit "Color") (lit "Point") = (lit "GrayStruct_Point", lit "GrayStruct_Point") := by
  decide +kernel

theorem C271_fails : ¬ C271_statement := fun h => by
  have := (h [] [lit "color"] 9 (lit "color") (by decide) (.inr (List.mem_cons_self ..)) (by decide +kernel) (by decide +kernel)
    (by decide +kernel)).1
  rw [C271_witness.1.1, C271_witness.1.2] at this
  revert this
  decide +kernel

/-- C271. The map alone refutes it too. -/
theorem C271_map_fails : ¬ ∀ (structs enums : List Str) (k v : Str), k ∈ enums → v ∈ structs →
    (mapTypes structs enums 9 k v).1 = (cType structs enums 9 k).text := fun h => by
  have := h [lit "Point"] [lit "Color"] (lit "Color") (lit "Point") (List.mem_cons_self ..) (List.mem_cons_self ..)
  rw [C271_witness.2] at this
  revert this
  decide +kernel

/-- C271, for names with a capital, that are no types of the language, up to 244 bytes, and for maps of which not both are structs or
enums. Missing: the others. -/
theorem C271_partial (structs enums : List Str) (f : Nat) (t : Str) (hd : t ∈ structs ∨ t ∈ enums) (hu : upper t.head? = true)
    (hb : ∀ b ∈ builtinTypes, b.1 ≠ t) (hl : t.length ≤ 244) :
    (cType structs enums (f + 1) t).text = defined enums t
      ∧ ∀ k v, (∃ s, cType structs enums f k = .own s) ∨ (∃ s, cType structs enums f v = .own s) →
        mapTypes structs enums f k v = ((cType structs enums f k).text, (cType structs enums f v).text) := by
  constructor
  · have hn : (builtinTypes.find? fun b => b.1 == t) = none := by
      rw [List.find?_eq_none]
      exact fun b hb' e => hb b hb' (eq_of_beq e)
    obtain ⟨c, r, rfl⟩ : ∃ c r, t = c :: r := by
      cases t with
      | nil => cases hu
      | cons c r => exact ⟨c, r, rfl⟩
    have hc : isUpper c = true := hu
    have bytes : ∀ n : Fin 256, isUpper (BitVec.ofFin n : Byte) = true → (BitVec.ofFin n : Byte) ≠ 94 ∧ (BitVec.ofFin n : Byte) ≠ 91
        ∧ (BitVec.ofFin n : Byte) ≠ 102 ∧ (BitVec.ofFin n : Byte) ≠ 109 := by decide +kernel
    obtain ⟨n94, n91, n102, n109⟩ := bytes c.toFin hc
    have pre : ∀ (p : Str) (x : Byte), p.head? = some x → c ≠ x → p.isPrefixOf (c :: r) = false := fun p x hp hx => by
      cases p with
      | nil => cases hp
      | cons y ys =>
        have : y = x := Option.some.inj hp
        subst this
        rw [List.isPrefixOf]
        rw [beq_eq_false_iff_ne.2 (fun e => hx e.symm)]
        rfl
    rw [cType, hn]
    simp only
    rw [if_neg (by rw [pre _ 102 rfl n102]; decide), if_neg (fun e : (c :: r).head? = some 94 => n94 (Option.some.inj e)),
      if_neg (fun e : (c :: r).head? = some 91 => n91 (Option.some.inj e)),
      if_neg (by rw [pre _ 109 rfl n109]; decide), if_pos (Bool.or_eq_true_iff.2 (.inl hu))]
    have hk : (structs.contains (c :: r) || enums.contains (c :: r)) = true := by
      rcases hd with h | h
      · exact Bool.or_eq_true_iff.2 (.inl (List.contains_iff_mem.2 h))
      · exact Bool.or_eq_true_iff.2 (.inr (List.contains_iff_mem.2 h))
    rw [hk]
    simp only [Bool.not_true, Bool.and_false, Bool.false_and]
    rw [if_neg (by decide)]
    have lens : ∀ p : Str, p.length ≤ 11 → (p ++ c :: r).take 255 = p ++ c :: r := fun p hp =>
      List.take_of_length_le (by rw [List.length_append]; omega)
    unfold defined
    by_cases he : enums.contains (c :: r) = true
    · rw [if_pos he, if_pos he]; exact lens (lit "GrayEnum_") (by decide)
    · rw [if_neg he, if_neg he]; exact lens (lit "GrayStruct_") (by decide)
  · rintro k v (⟨s, hs⟩ | ⟨s, hs⟩)
    · unfold mapTypes; rw [hs]
    · unfold mapTypes; rw [hs]; cases cType structs enums f k <;> rfl

example : (cType [lit "Point"] [lit "Color"] 1 (lit "Point")).text = lit "GrayStruct_Point"
    ∧ mapTypes [lit "Point"] [lit "Color"] 1 (lit "string") (lit "Point") = (lit "GrayString", lit "GrayStruct_Point") := by
  decide +kernel

end Verif.Props

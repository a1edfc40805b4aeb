import Verif.Model.Merge

/-!
# Importing files

Claims C173-C183: what the renaming of imported declarations has to preserve, and which files are imported.
-/

namespace Verif.Props
open Verif Verif.Str Verif.Cli Verif.Merge

/-! ## C173: names in an imported module -/

/-- What a name refers to: a local name (by its place in the list of the names in scope, innermost first), or one outside functions. -/
inductive NRef where
  | loc (i : Nat)
  | top (x : Str)
  deriving DecidableEq, Repr

def resolveN : List Str → Nat → Str → NRef
  | [], _, x => .top x
  | y :: sc, i, x => if x = y then .loc i else resolveN sc (i + 1) x

/-- The references in a piece of code, in order. -/
def codeRefs (sc : List Str) : Code → List NRef
  | .done => []
  | .label x => [resolveN sc 0 x]
  | .funcRef x => [resolveN sc 0 x]
  | .typed _ e => codeRefs sc e
  | .seq a b => codeRefs sc a ++ codeRefs sc b
  | .decl x _ v r => codeRefs sc v ++ codeRefs (x :: sc) r
  | .bind x e b => codeRefs sc e ++ codeRefs (x :: sc) b

/-- The references of a function: those in default values are outside its scope. -/
def funRefs (f : Fun) : List NRef := codeRefs [] f.defaults ++ codeRefs f.params f.body

/-- The names declared in the files of a module. -/
def declaredNames (md : Module) : List Str := md.files.flatten.filterMap Decl.name?

/-- A reference from inside a module, seen from outside. -/
def moved (md : Module) : NRef → NRef
  | .loc i => .loc i
  | .top x => if x ∈ declaredNames md then .top (md.name ++ lit "_" ++ x) else .top x

/-- **C173.** In an imported function every name refers to what it referred to in its file: local names to the same local names, names
of the module to the renamed declarations. -/
def C173_statement : Prop :=
  ∀ (md : Module) (f g : Fun), md.siblings = [] → .func f ∈ md.files.flatten → mergeDecl md.name md.names (.func f) = .func g →
    funRefs g = (funRefs f).map (moved md)

/-- `const count int = 5` and `do f() -> int { mut count int = 1; return count }`: the imported `f` returns 5. -/
def countFun : Fun := ⟨lit "f", [], [lit "int"], .done, .decl (lit "count") (lit "int") .done (.label (lit "count"))⟩
def countModule : Module := ⟨lit "lib", [[.var (lit "count") false (lit "int") .done, .func countFun]], []⟩

/-- The imported function. -/
def countMerged : Fun := ⟨lit "lib_f", [], [lit "int"], .done, .decl (lit "count") (lit "int") .done (.label (lit "lib_count"))⟩

theorem C173_witness : mergeDecl (lit "lib") countModule.names (.func countFun) = .func countMerged ∧
    funRefs countFun = [.loc 0] ∧ funRefs countMerged = [.top (lit "lib_count")] := by
  decide +kernel

theorem C173_fails : ¬ C173_statement := by
  intro h
  have := h countModule countFun _ rfl (List.mem_cons_of_mem _ List.mem_cons_self) C173_witness.1
  rw [C173_witness.2.1, C173_witness.2.2] at this
  exact absurd this (by simp [moved])

/-- Default values are not renamed: `do f(n int = LIMIT)` refers to a constant `LIMIT` of the entry file after the import. -/
theorem C173_default_witness : ∀ (mod : Str) (m : Names) (f g : Fun), mergeDecl mod m (.func f) = .func g → g.defaults = f.defaults := by
  intro mod m f g h
  cases h; rfl

/-- `()f` is not renamed. -/
theorem C173_funcRef_witness (m : Names) (x : Str) : rewriteLabels m (.funcRef x) = .funcRef x := rfl

/-- The names bound in a piece of code. -/
def boundIn : Code → List Str
  | .done => []
  | .label _ => []
  | .funcRef _ => []
  | .typed _ e => boundIn e
  | .seq a b => boundIn a ++ boundIn b
  | .decl x _ v r => x :: (boundIn v ++ boundIn r)
  | .bind x e b => x :: (boundIn e ++ boundIn b)

def noFuncRef : Code → Prop
  | .done => True
  | .label _ => True
  | .funcRef _ => False
  | .typed _ e => noFuncRef e
  | .seq a b => noFuncRef a ∧ noFuncRef b
  | .decl _ _ v r => noFuncRef v ∧ noFuncRef r
  | .bind _ e b => noFuncRef e ∧ noFuncRef b

namespace Mg

theorem cut_of_le {s : Str} (h : s.length ≤ 255) : cut s = s := List.take_of_length_le h

theorem ren_pos : ∀ {m : Names} {x y : Str}, (x, y) ∈ m → (∀ z, (x, z) ∈ m → z = y) → ren m x = y
  | [], _, _, h, _ => absurd h List.not_mem_nil
  | (o, n) :: m, x, y, h, hu => by
    unfold ren
    by_cases e : o = x
    · rw [List.find?_cons_of_pos (by simpa using e)]
      exact hu n (e ▸ List.mem_cons_self)
    · rw [List.find?_cons_of_neg (by simpa using e)]
      have h' : (x, y) ∈ m := by
        rcases List.mem_cons.mp h with h | h
        · exact absurd (congrArg Prod.fst h).symm e
        · exact h
      exact ren_pos h' fun z hz => hu z (List.mem_cons_of_mem _ hz)

theorem ren_neg {m : Names} {x : Str} (h : hasName m x = false) : ren m x = x := by
  unfold ren
  have : m.find? (fun p => p.1 == x) = none := by
    rw [List.find?_eq_none]
    intro p hp e
    unfold hasName at h
    rw [List.any_eq_false] at h
    exact h p hp e
  rw [this]; rfl

theorem names_single {md : Module} (h : md.siblings = []) : md.names = baseNames md.name md.files.flatten := by
  unfold Module.names
  rw [h]; rfl

theorem base_pos {md : Module} (hs : md.siblings = []) (h256 : (declaredNames md).length ≤ 256) {x : Str} (hx : x ∈ declaredNames md)
    (hl : (md.name ++ lit "_" ++ x).length ≤ 255) : ren md.names x = md.name ++ lit "_" ++ x := by
  rw [names_single hs]
  unfold baseNames
  have e : List.take 256 (md.files.flatten.filterMap Decl.name?) = declaredNames md := List.take_of_length_le h256
  rw [e]
  have hp : prefixed md.name x = md.name ++ lit "_" ++ x := cut_of_le hl
  rw [← hp]
  apply ren_pos (m := (declaredNames md).map fun n => (n, prefixed md.name n)) (List.mem_map.mpr ⟨x, hx, rfl⟩)
  intro z hz
  obtain ⟨y, _, e⟩ := List.mem_map.mp hz
  cases e; rfl

theorem base_neg {md : Module} (hs : md.siblings = []) {x : Str} (hx : x ∉ declaredNames md) : ren md.names x = x := by
  rw [names_single hs]
  apply ren_neg
  unfold hasName
  rw [List.any_eq_false]
  intro p hp e
  obtain ⟨y, hy, rfl⟩ := List.mem_map.mp hp
  have : y = x := by simpa using e
  exact hx (this ▸ List.mem_of_mem_take hy)

theorem resolve_top : ∀ {sc : List Str} {x : Str}, x ∉ sc → ∀ i, resolveN sc i x = .top x
  | [], _, _, _ => rfl
  | y :: sc, x, h, i => by
    show (if x = y then _ else _) = _
    have e : ¬ x = y := fun e => h (e ▸ List.mem_cons_self)
    rw [if_neg e]
    exact resolve_top (fun hm => h (List.mem_cons_of_mem _ hm)) _

theorem resolve_same (md : Module) : ∀ {sc : List Str} {x : Str}, x ∉ declaredNames md → ∀ i, moved md (resolveN sc i x) = resolveN sc i x
  | [], x, h, _ => by
    show (if x ∈ declaredNames md then _ else _) = _
    rw [if_neg h]; rfl
  | y :: sc, x, h, i => by
    show moved md (if x = y then _ else _) = (if x = y then _ else _)
    by_cases e : x = y
    · rw [if_pos e]; rfl
    · rw [if_neg e]; exact resolve_same md h _

/-- Names in scope that neither are declared in the module nor look like a renamed one. -/
def Clean (md : Module) (sc : List Str) : Prop := ∀ x ∈ sc, x ∉ declaredNames md ∧ ∀ y ∈ declaredNames md, x ≠ md.name ++ lit "_" ++ y

theorem refs_rewrite {md : Module} (hs : md.siblings = []) (h256 : (declaredNames md).length ≤ 256)
    (hl : ∀ x ∈ declaredNames md, (md.name ++ lit "_" ++ x).length ≤ 255) : ∀ (c : Code) (sc : List Str), Clean md sc → Clean md (boundIn c) →
    noFuncRef c → codeRefs sc (rewriteLabels md.names c) = (codeRefs sc c).map (moved md)
  | .done, _, _, _, _ => rfl
  | .label x, sc, h, _, _ => by
    show [resolveN sc 0 (ren md.names x)] = [moved md (resolveN sc 0 x)]
    by_cases hx : x ∈ declaredNames md
    · rw [base_pos hs h256 hx (hl x hx), resolve_top (fun hm => (h x hm).1 hx), resolve_top (fun hm => (h _ hm).2 x hx rfl)]
      show _ = [if x ∈ declaredNames md then _ else _]
      rw [if_pos hx]
    · rw [base_neg hs hx, resolve_same md hx]
  | .funcRef x, _, _, _, h => h.elim
  | .typed t e, sc, h, hb, hf => refs_rewrite hs h256 hl e sc h hb hf
  | .seq a b, sc, h, hb, hf => by
    show codeRefs sc (rewriteLabels md.names a) ++ codeRefs sc (rewriteLabels md.names b) = (codeRefs sc a ++ codeRefs sc b).map _
    rw [refs_rewrite hs h256 hl a sc h (fun x hx => hb x (List.mem_append_left _ hx)) hf.1,
      refs_rewrite hs h256 hl b sc h (fun x hx => hb x (List.mem_append_right _ hx)) hf.2, List.map_append]
  | .decl x t v r, sc, h, hb, hf => by
    have hx := hb x List.mem_cons_self
    have h' : Clean md (x :: sc) := by
      intro y hy
      rcases List.mem_cons.mp hy with rfl | hy
      · exact hx
      · exact h y hy
    show codeRefs sc (rewriteLabels md.names v) ++ codeRefs (x :: sc) (rewriteLabels md.names r) = (codeRefs sc v ++ codeRefs (x :: sc) r).map _
    rw [refs_rewrite hs h256 hl v sc h (fun y hy => hb y (List.mem_cons_of_mem _ (List.mem_append_left _ hy))) hf.1,
      refs_rewrite hs h256 hl r (x :: sc) h' (fun y hy => hb y (List.mem_cons_of_mem _ (List.mem_append_right _ hy))) hf.2, List.map_append]
  | .bind x v r, sc, h, hb, hf => by
    have hx := hb x List.mem_cons_self
    have h' : Clean md (x :: sc) := by
      intro y hy
      rcases List.mem_cons.mp hy with rfl | hy
      · exact hx
      · exact h y hy
    show codeRefs sc (rewriteLabels md.names v) ++ codeRefs (x :: sc) (rewriteLabels md.names r) = (codeRefs sc v ++ codeRefs (x :: sc) r).map _
    rw [refs_rewrite hs h256 hl v sc h (fun y hy => hb y (List.mem_cons_of_mem _ (List.mem_append_left _ hy))) hf.1,
      refs_rewrite hs h256 hl r (x :: sc) h' (fun y hy => hb y (List.mem_cons_of_mem _ (List.mem_append_right _ hy))) hf.2, List.map_append]

end Mg

/-- **C173 (partial).** It holds if no local name is one of the module, or looks like a renamed one, if the function has neither default
values nor function references, and if the module declares at most 256 names that fit in 255 bytes with the module's name. -/
theorem C173_partial (md : Module) (f g : Fun) (hs : md.siblings = []) (h256 : (declaredNames md).length ≤ 256)
    (hl : ∀ x ∈ declaredNames md, (md.name ++ lit "_" ++ x).length ≤ 255)
    (hc : ∀ x ∈ f.params ++ boundIn f.body, x ∉ declaredNames md ∧ ∀ y ∈ declaredNames md, x ≠ md.name ++ lit "_" ++ y)
    (hd : f.defaults = .done) (hr : noFuncRef f.body) (hm : mergeDecl md.name md.names (.func f) = .func g) :
    funRefs g = (funRefs f).map (moved md) := by
  have hg : g = { mergeFun md.names f with name := prefixed md.name f.name } := by
    have : Decl.func { mergeFun md.names f with name := prefixed md.name f.name } = .func g := hm
    cases this; rfl
  subst hg
  show codeRefs [] f.defaults ++ codeRefs f.params (rewriteLabels md.names f.body) = _
  unfold funRefs
  rw [hd, List.map_append, Mg.refs_rewrite hs h256 hl f.body f.params (fun x hx => hc x (List.mem_append_left _ hx))
    (fun x hx => hc x (List.mem_append_right _ hx)) hr]
  rfl

example : funRefs (mergeFun countModule.names ⟨lit "g", [lit "n"], [], .done, .seq (.label (lit "n")) (.seq (.label (lit "count")) (.label (lit "len")))⟩) =
    [.loc 0, .top (lit "lib_count"), .top (lit "len")] := by decide +kernel

/-! ## C174: names in the entry file -/

/-- **C174.** Importing a module does not change what the names in a function of the entry file refer to, if all of them are
declaredNames there. -/
def C174_statement : Prop :=
  ∀ (prog : List Stmt) (md : Module) (f : Fun), (true, .func f) ∈ prog →
    (∀ x, .top x ∈ funRefs f → ∃ s ∈ prog, s.1 = true ∧ s.2.name? = some x) →
    ∃ g, (true, .func g) ∈ importModule prog md ∧ g.name = f.name ∧ funRefs g = funRefs f

/-- Both files declare `helper`; the entry file's call becomes a call of the module's function. -/
def helperProg : List Stmt :=
  [(true, .imp), (true, .func ⟨lit "helper", [], [], .done, .done⟩), (true, .func ⟨lit "main", [], [], .done, .label (lit "helper")⟩)]
def helperModule : Module := ⟨lit "lib", [[.func ⟨lit "helper", [], [], .done, .done⟩]], []⟩

theorem C174_witness : importModule helperProg helperModule =
    [(true, .imp), (false, .func ⟨lit "lib_helper", [], [], .done, .done⟩), (true, .func ⟨lit "helper", [], [], .done, .done⟩),
     (true, .func ⟨lit "main", [], [], .done, .label (lit "lib_helper")⟩)] := by decide +kernel

theorem C174_fails : ¬ C174_statement := by
  intro h
  obtain ⟨g, hg, hn, hr⟩ := h helperProg helperModule ⟨lit "main", [], [], .done, .label (lit "helper")⟩ (by decide) (by
    intro x hx
    have : x = lit "helper" := by
      have : NRef.top x ∈ [NRef.top (lit "helper")] := hx
      simpa using this
    subst this
    exact ⟨_, List.mem_cons_of_mem _ List.mem_cons_self, rfl, rfl⟩)
  rw [C174_witness] at hg
  simp only [List.mem_cons, Prod.mk.injEq, reduceCtorEq, and_false, Bool.true_eq_false, false_and, List.not_mem_nil, or_false, false_or, true_and,
    Decl.func.injEq] at hg
  rcases hg with rfl | rfl
  · exact absurd hn (by decide)
  · exact absurd hr (by decide)

/-- All labels of a piece of code. -/
def labelsOf : Code → List Str
  | .done => []
  | .label x => [x]
  | .funcRef _ => []
  | .typed _ e => labelsOf e
  | .seq a b => labelsOf a ++ labelsOf b
  | .decl _ _ v r => labelsOf v ++ labelsOf r
  | .bind _ e b => labelsOf e ++ labelsOf b

namespace Mg

theorem refs_unchanged (m : Names) : ∀ (c : Code) (sc : List Str), (∀ x ∈ labelsOf c, hasName m x = false) →
    codeRefs sc (rewriteLabels m c) = codeRefs sc c
  | .done, _, _ => rfl
  | .label x, sc, h => by
    show [resolveN sc 0 (ren m x)] = [resolveN sc 0 x]
    rw [ren_neg (h x List.mem_cons_self)]
  | .funcRef _, _, _ => rfl
  | .typed _ e, sc, h => refs_unchanged m e sc h
  | .seq a b, sc, h => by
    show codeRefs sc (rewriteLabels m a) ++ codeRefs sc (rewriteLabels m b) = _
    rw [refs_unchanged m a sc fun x hx => h x (List.mem_append_left _ hx), refs_unchanged m b sc fun x hx => h x (List.mem_append_right _ hx)]
    rfl
  | .decl x t a b, sc, h => by
    show codeRefs sc (rewriteLabels m a) ++ codeRefs (x :: sc) (rewriteLabels m b) = _
    rw [refs_unchanged m a sc fun x hx => h x (List.mem_append_left _ hx), refs_unchanged m b _ fun x hx => h x (List.mem_append_right _ hx)]
    rfl
  | .bind x a b, sc, h => by
    show codeRefs sc (rewriteLabels m a) ++ codeRefs (x :: sc) (rewriteLabels m b) = _
    rw [refs_unchanged m a sc fun x hx => h x (List.mem_append_left _ hx), refs_unchanged m b _ fun x hx => h x (List.mem_append_right _ hx)]
    rfl

theorem mem_insert {l : List Stmt} {k : Nat} {s t : Stmt} : t ∈ l.take k ++ [s] ++ l.drop k ↔ t = s ∨ t ∈ l := by
  simp only [List.mem_append, List.mem_singleton]
  constructor
  · rintro ((h | h) | h)
    · exact .inr (List.mem_of_mem_take h)
    · exact .inl h
    · exact .inr (List.mem_of_mem_drop h)
  · rintro (h | h)
    · exact .inl (.inr h)
    · rw [← List.take_append_drop k l] at h
      rcases List.mem_append.mp h with h | h
      · exact .inl (.inl h)
      · exact .inr h

theorem mem_foldVar {mod : Str} {m : Names} {t : Stmt} : ∀ (ds : List Decl) {p : List Stmt}, t ∈ p →
    t ∈ ds.foldl (fun p d => insertVar p (false, mergeDecl mod m d)) p
  | [], _, h => h
  | _ :: ds, _, h => mem_foldVar ds (mem_insert.mpr (.inr h))

theorem mem_foldOther {mod : Str} {m : Names} {t : Stmt} : ∀ (ds : List Decl) {p : List Stmt}, t ∈ p →
    t ∈ ds.foldl (fun p d => insertOther p (false, mergeDecl mod m d)) p
  | [], _, h => h
  | _ :: ds, _, h => mem_foldOther ds (mem_insert.mpr (.inr h))

theorem mem_foldFile {mod : Str} {m : Names} {t : Stmt} : ∀ (fs : List (List Decl)) {p : List Stmt}, t ∈ p → t ∈ fs.foldl (mergeFile mod m) p
  | [], _, h => h
  | f :: fs, _, h => mem_foldFile fs (mem_foldOther _ (mem_foldVar _ h))

end Mg

/-- **C174 (partial).** It holds for functions in which no label is a name of the module. Missing: names that the module declares as
well. -/
theorem C174_partial (prog : List Stmt) (md : Module) (f : Fun) (hf : (true, .func f) ∈ prog)
    (hl : ∀ x ∈ labelsOf f.body, hasName md.names x = false) :
    ∃ g, (true, .func g) ∈ importModule prog md ∧ g.name = f.name ∧ funRefs g = funRefs f := by
  refine ⟨{ f with types := f.types.map (ren md.names), body := rewriteLabels md.names f.body },
    List.mem_map.mpr ⟨_, Mg.mem_foldFile md.files hf, rfl⟩, rfl, ?_⟩
  · show codeRefs [] f.defaults ++ codeRefs f.params (rewriteLabels md.names f.body) = _
    rw [Mg.refs_unchanged md.names f.body f.params hl]
    rfl

/-! ## C175: types in declarations -/

/-- Types as they are written. -/
inductive MTy where
  | name (s : Str)
  | arr (t : MTy)
  | sized (t : MTy) (n : Str)
  | ptr (t : MTy)
  | map (k v : MTy)
  | fn (a r : MTy)
  deriving DecidableEq

namespace MTy

def text : MTy → Str
  | .name s => s
  | .arr t => lit "[" ++ t.text ++ lit "]"
  | .sized t n => lit "[" ++ t.text ++ lit "," ++ n ++ lit "]"
  | .ptr t => lit "^" ++ t.text
  | .map k v => lit "map[" ++ k.text ++ lit ":" ++ v.text ++ lit "]"
  | .fn a r => lit "func(" ++ a.text ++ lit ")->" ++ r.text

/-- The new name of a name; the first entry counts. -/
def look (x : Str) : List (Str × Str) → Str
  | [] => x
  | (o, n) :: m => if o = x then n else look x m

def subst (m : List (Str × Str)) : MTy → MTy
  | .name s => .name (look s m)
  | .arr t => .arr (t.subst m)
  | .sized t n => .sized (t.subst m) n
  | .ptr t => .ptr (t.subst m)
  | .map k v => .map (k.subst m) (v.subst m)
  | .fn a r => .fn (a.subst m) (r.subst m)

/-- A name: letters, digits and underscores. -/
def IsName (s : Str) : Prop := s ≠ [] ∧ ∀ c ∈ s, isAlnum c = true ∨ c = 95

def Ok : MTy → Prop
  | .name s => IsName s
  | .arr t => t.Ok
  | .sized t n => t.Ok ∧ IsName n
  | .ptr t => t.Ok
  | .map k v => k.Ok ∧ v.Ok
  | .fn a r => a.Ok ∧ r.Ok

def NoFn : MTy → Prop
  | .name _ => True
  | .arr t => t.NoFn
  | .sized t _ => t.NoFn
  | .ptr t => t.NoFn
  | .map k v => k.NoFn ∧ v.NoFn
  | .fn _ _ => False

end MTy

/-- **C175.** In the types of an imported declaration every name of the module is renamed, and nothing else. -/
def C175_statement : Prop := ∀ (m : List (Str × Str)) (t : MTy), t.Ok → rewriteType m t.text = (t.subst m).text

/-- Function types are left alone. -/
theorem C175_witness : rewriteType [(lit "Node", lit "lib_Node")] (MTy.fn (.name (lit "Node")) (.name (lit "int"))).text = lit "func(Node)->int" := by
  decide +kernel

theorem C175_fails : ¬ C175_statement := by
  intro h
  have := h [(lit "Node", lit "lib_Node")] (.fn (.name (lit "Node")) (.name (lit "int"))) (by unfold MTy.Ok MTy.Ok MTy.IsName; decide +kernel)
  rw [C175_witness] at this
  exact absurd this (by decide +kernel)

namespace Mg
open MTy

theorem ren_look (x : Str) : ∀ m : List (Str × Str), ren m x = look x m
  | [] => rfl
  | (o, n) :: m => by
    show _ = if o = x then n else look x m
    by_cases e : o = x
    · rw [if_pos e]
      unfold ren
      rw [List.find?_cons_of_pos (by simpa using e)]; rfl
    · rw [if_neg e, ← ren_look x m]
      unfold ren
      rw [List.find?_cons_of_neg (by simpa using e)]

theorem name_bytes : ∀ n : Fin 256, (isAlnum (BitVec.ofFin n : Byte) = true ∨ (BitVec.ofFin n : Byte) = 95) →
    (BitVec.ofFin n : Byte) ≠ 91 ∧ (BitVec.ofFin n : Byte) ≠ 93 ∧ (BitVec.ofFin n : Byte) ≠ 94 ∧ (BitVec.ofFin n : Byte) ≠ 44 ∧ (BitVec.ofFin n : Byte) ≠ 58 := by
  decide +kernel

theorem name_byte {s : Str} (h : IsName s) {c : Byte} (hc : c ∈ s) : c ≠ 91 ∧ c ≠ 93 ∧ c ≠ 94 ∧ c ≠ 44 ∧ c ≠ 58 := name_bytes c.toFin (h.2 c hc)

/-- The two separators. -/
def Sep (b : Byte) : Prop := b = 44 ∨ b = 58

/-- Prepend to the first part. -/
def pre (s : Str) (o : Option (Str × Str)) : Option (Str × Str) := o.map fun p => (s ++ p.1, p.2)

theorem pre_pre (a b : Str) (o : Option (Str × Str)) : pre a (pre b o) = pre (a ++ b) o := by
  cases o with
  | none => rfl
  | some p => simp [pre]

theorem split_open (b : Byte) (d : Int) (r : Str) : splitTop b d (91 :: r) = pre [91] (splitTop b (d + 1) r) := if_pos rfl
theorem split_close (b : Byte) (d : Int) (r : Str) : splitTop b d (93 :: r) = pre [93] (splitTop b (d - 1) r) :=
  (if_neg (by decide)).trans (if_pos rfl)

theorem split_other (b : Byte) (d : Int) (c : Byte) (r : Str) (h1 : c ≠ 91) (h2 : c ≠ 93) (h3 : c ≠ b ∨ d ≠ 0) :
    splitTop b d (c :: r) = pre [c] (splitTop b d r) := by
  have h4 : ¬ (c = b ∧ d = 0) := fun h => h3.elim (fun g => g h.1) (fun g => g h.2)
  exact (if_neg h1).trans ((if_neg h2).trans (if_neg h4))

theorem split_here {b : Byte} (hb : Sep b) (r : Str) : splitTop b 0 (b :: r) = some ([], r) := by
  have h1 : b ≠ 91 := by rcases hb with rfl | rfl <;> decide
  have h2 : b ≠ 93 := by rcases hb with rfl | rfl <;> decide
  exact (if_neg h1).trans ((if_neg h2).trans (if_pos ⟨rfl, rfl⟩))

theorem split_name {b : Byte} (hb : Sep b) (d : Int) (r : Str) : ∀ (s : Str), (∀ c ∈ s, c ≠ 91 ∧ c ≠ 93 ∧ c ≠ 44 ∧ c ≠ 58) →
    splitTop b d (s ++ r) = pre s (splitTop b d r)
  | [], _ => by cases h : splitTop b d r <;> simp [pre, h]
  | c :: s, h => by
    obtain ⟨h1, h2, h3, h4⟩ := h c List.mem_cons_self
    have : c ≠ b := by rcases hb with rfl | rfl <;> assumption
    show splitTop b d (c :: (s ++ r)) = _
    rw [split_other b d c _ h1 h2 (.inl this), split_name hb d r s fun c hc => h c (List.mem_cons_of_mem _ hc), pre_pre]
    rfl

theorem lits : lit "[" = [91] ∧ lit "]" = [93] ∧ lit "," = [44] ∧ lit "^" = [94] ∧ lit ":" = [58] ∧ lit "map[" = [109, 97, 112, 91] := by decide

theorem split_text {b : Byte} (hb : Sep b) : ∀ (t : MTy) (d : Int) (r : Str), 0 ≤ d → t.Ok → t.NoFn → splitTop b d (t.text ++ r) = pre t.text (splitTop b d r)
  | .name s, d, r, _, h, _ => split_name hb d r s fun c hc => ⟨(name_byte h hc).1, (name_byte h hc).2.1, (name_byte h hc).2.2.2⟩
  | .arr t, d, r, hd, h, hn => by
    have e : (MTy.arr t).text ++ r = 91 :: (t.text ++ 93 :: r) := by
      show (lit "[" ++ t.text ++ lit "]") ++ r = _
      simp [lits.1, lits.2.1]
    rw [e, split_open, split_text hb t (d + 1) _ (by omega) h hn, split_close, pre_pre, pre_pre, show d + 1 - 1 = d by omega]
    show pre ([91] ++ t.text ++ [93]) _ = pre (lit "[" ++ t.text ++ lit "]") _
    rw [lits.1, lits.2.1]
  | .sized t n, d, r, hd, h, hn => by
    have e : (MTy.sized t n).text ++ r = 91 :: (t.text ++ 44 :: (n ++ 93 :: r)) := by
      show (lit "[" ++ t.text ++ lit "," ++ n ++ lit "]") ++ r = _
      simp [lits.1, lits.2.1, lits.2.2.1]
    rw [e, split_open, split_text hb t (d + 1) _ (by omega) h.1 hn, split_other b _ 44 _ (by decide) (by decide) (.inr (by omega)),
      split_name hb _ _ n (fun c hc => ⟨(name_byte h.2 hc).1, (name_byte h.2 hc).2.1, (name_byte h.2 hc).2.2.2⟩), split_close, pre_pre, pre_pre, pre_pre,
      pre_pre, show d + 1 - 1 = d by omega]
    show pre _ _ = pre (lit "[" ++ t.text ++ lit "," ++ n ++ lit "]") _
    rw [lits.1, lits.2.1, lits.2.2.1]
  | .ptr t, d, r, hd, h, hn => by
    have e : (MTy.ptr t).text ++ r = 94 :: (t.text ++ r) := by
      show (lit "^" ++ t.text) ++ r = _
      simp [lits.2.2.2.1]
    rw [e, split_other b d 94 _ (by decide) (by decide) (.inl (by rcases hb with rfl | rfl <;> decide)), split_text hb t d r hd h hn, pre_pre]
    show pre _ _ = pre (lit "^" ++ t.text) _
    rw [lits.2.2.2.1]
  | .map k v, d, r, hd, h, hn => by
    have e : (MTy.map k v).text ++ r = [109, 97, 112] ++ 91 :: (k.text ++ 58 :: (v.text ++ 93 :: r)) := by
      show (lit "map[" ++ k.text ++ lit ":" ++ v.text ++ lit "]") ++ r = _
      simp [lits.2.1, lits.2.2.2.2.1, lits.2.2.2.2.2]
    rw [e, split_name hb d _ [109, 97, 112] (by decide), split_open, split_text hb k (d + 1) _ (by omega) h.1 hn.1,
      split_other b _ 58 _ (by decide) (by decide) (.inr (by omega)), split_text hb v (d + 1) _ (by omega) h.2 hn.2, split_close, pre_pre, pre_pre, pre_pre,
      pre_pre, pre_pre, show d + 1 - 1 = d by omega]
    show pre _ _ = pre (lit "map[" ++ k.text ++ lit ":" ++ v.text ++ lit "]") _
    rw [lits.2.1, lits.2.2.2.2.1, lits.2.2.2.2.2]
    simp
  | .fn _ _, _, _, _, _, hn => hn.elim

theorem split_end {b : Byte} (hb : Sep b) {t : MTy} (h : t.Ok) (hn : t.NoFn) : splitTop b 0 t.text = none := by
  have := split_text hb t 0 [] (by omega) h hn
  rw [List.append_nil] at this
  rw [this]; rfl

theorem split_at {b : Byte} (hb : Sep b) {t : MTy} (h : t.Ok) (hn : t.NoFn) (r : Str) : splitTop b 0 (t.text ++ b :: r) = some (t.text, r) := by
  rw [split_text hb t 0 _ (by omega) h hn, split_here hb]
  simp [pre]

theorem text_ne : ∀ {t : MTy}, t.Ok → t.text ≠ []
  | .name s, h => h.1
  | .arr t, _ => by show lit "[" ++ _ ++ _ ≠ []; simp [lits.1]
  | .sized t n, _ => by show lit "[" ++ _ ++ _ ++ _ ++ _ ≠ []; simp [lits.1]
  | .ptr t, _ => by show lit "^" ++ _ ≠ []; simp [lits.2.2.2.1]
  | .map k v, _ => by show lit "map[" ++ _ ++ _ ++ _ ++ _ ≠ []; simp [lits.2.2.2.2.2]
  | .fn a r, _ => by
    show lit "func(" ++ _ ++ _ ++ _ ≠ []
    have : lit "func(" = [102, 117, 110, 99, 40] := by decide
    simp [this]

/-- What the renaming returns: the new text, and "unchanged" only if it is. -/
def Good (r : Bool × Str) (t : MTy) (m : List (Str × Str)) : Prop := r.2 = (t.subst m).text ∧ (r.1 = false → (t.subst m).text = t.text)

theorem good_bracket {rw' : Str → Bool × Str} {t : MTy} {m : List (Str × Str)} (h : t.Ok) (hn : t.NoFn)
    (hr : Good (rw' t.text) t m) (hl : ((MTy.arr t).subst m).text.length ≤ 255) : Good (bracket rw' (MTy.arr t).text) (.arr t) m := by
  have e : (MTy.arr t).text = 91 :: (t.text ++ [93]) := by
    show lit "[" ++ t.text ++ lit "]" = _
    simp [lits.1, lits.2.1]
  have ed : ((MTy.arr t).text).tail.dropLast = t.text := by rw [e]; simp
  have : bracket rw' (MTy.arr t).text = (true, cut ([91] ++ (rw' t.text).2 ++ [93])) := by
    unfold bracket
    rw [ed, split_end (.inl rfl) h hn]
  rw [this]
  refine ⟨?_, fun h => absurd h (by simp)⟩
  have e2 : [91] ++ (rw' t.text).2 ++ [93] = ((MTy.arr t).subst m).text := by
    rw [hr.1]
    show _ = lit "[" ++ (t.subst m).text ++ lit "]"
    rw [lits.1, lits.2.1]
  show cut _ = _
  rw [e2, cut_of_le hl]

theorem good_sized {rw' : Str → Bool × Str} {t : MTy} {n : Str} {m : List (Str × Str)} (h : t.Ok) (hn : t.NoFn)
    (hr : Good (rw' t.text) t m) (hl : ((MTy.sized t n).subst m).text.length ≤ 255) : Good (bracket rw' (MTy.sized t n).text) (.sized t n) m := by
  have e : (MTy.sized t n).text = 91 :: ((t.text ++ 44 :: n) ++ [93]) := by
    show lit "[" ++ t.text ++ lit "," ++ n ++ lit "]" = _
    simp [lits.1, lits.2.1, lits.2.2.1]
  have ed : ((MTy.sized t n).text).tail.dropLast = t.text ++ 44 :: n := by rw [e, List.tail_cons, List.dropLast_concat]
  have : bracket rw' (MTy.sized t n).text = (true, cut ([91] ++ (rw' t.text).2 ++ [44] ++ n ++ [93])) := by
    unfold bracket
    rw [ed, split_at (.inl rfl) h hn]
    exact if_neg (text_ne h)
  rw [this]
  refine ⟨?_, fun h => absurd h (by simp)⟩
  have e2 : [91] ++ (rw' t.text).2 ++ [44] ++ n ++ [93] = ((MTy.sized t n).subst m).text := by
    rw [hr.1]
    show _ = lit "[" ++ (t.subst m).text ++ lit "," ++ n ++ lit "]"
    rw [lits.1, lits.2.1, lits.2.2.1]
  show cut _ = _
  rw [e2, cut_of_le hl]

theorem good_map {rw' : Str → Bool × Str} {k v : MTy} {m : List (Str × Str)} (h : (MTy.map k v).Ok) (hn : (MTy.map k v).NoFn)
    (hk : Good (rw' k.text) k m) (hv : Good (rw' v.text) v m) (hl : ((MTy.map k v).subst m).text.length ≤ 255) :
    Good (mapType rw' (MTy.map k v).text) (.map k v) m := by
  have e : (MTy.map k v).text = [109, 97, 112, 91] ++ ((k.text ++ 58 :: v.text) ++ [93]) := by
    show lit "map[" ++ k.text ++ lit ":" ++ v.text ++ lit "]" = _
    simp [lits.2.1, lits.2.2.2.2.1, lits.2.2.2.2.2]
  have ed : (((MTy.map k v).text).drop 4).dropLast = k.text ++ 58 :: v.text := by
    rw [e, List.drop_left' (by rfl), List.dropLast_concat]
  have : mapType rw' (MTy.map k v).text = if (rw' k.text).1 = false ∧ (rw' v.text).1 = false then (false, (MTy.map k v).text)
      else (true, cut (lit "map[" ++ (rw' k.text).2 ++ [58] ++ (rw' v.text).2 ++ [93])) := by
    unfold mapType
    rw [ed, split_at (.inr rfl) h.1 hn.1]
  rw [this]
  have e2 : lit "map[" ++ (rw' k.text).2 ++ [58] ++ (rw' v.text).2 ++ [93] = ((MTy.map k v).subst m).text := by
    rw [hk.1, hv.1]
    show _ = lit "map[" ++ (k.subst m).text ++ lit ":" ++ (v.subst m).text ++ lit "]"
    rw [lits.2.1, lits.2.2.2.2.1]
  by_cases hc : (rw' k.text).1 = false ∧ (rw' v.text).1 = false
  · rw [if_pos hc]
    have : ((MTy.map k v).subst m).text = (MTy.map k v).text := by
      show lit "map[" ++ (k.subst m).text ++ lit ":" ++ (v.subst m).text ++ lit "]" = lit "map[" ++ k.text ++ lit ":" ++ v.text ++ lit "]"
      rw [hk.2 hc.1, hv.2 hc.2]
    exact ⟨this.symm, fun _ => this⟩
  · rw [if_neg hc]
    refine ⟨?_, fun h => absurd h (by simp)⟩
    show cut _ = _
    rw [e2, cut_of_le hl]

theorem rewriteT_arr (m : Names) (n : Nat) (t : Str) (h1 : t.head? = some 91) (h2 : t.getLast? = some 93) :
    rewriteT m (n + 1) t = bracket (rewriteT m n) t := if_pos ⟨h1, h2⟩

theorem rewriteT_ptr (m : Names) (n : Nat) (t : Str) :
    rewriteT m (n + 1) (94 :: t) = if (rewriteT m n t).1 = false then (false, 94 :: t) else (true, cut ([94] ++ (rewriteT m n t).2)) := by
  have h1 : ¬ ((94 :: t : Str).head? = some 91 ∧ (94 :: t : Str).getLast? = some 93) := fun h => absurd (Option.some.inj h.1) (by decide)
  exact (if_neg h1).trans (if_pos rfl)

theorem rewriteT_map (m : Names) (n : Nat) (t : Str) (h1 : t.head? = some 109) (h2 : t.length > 5 ∧ (lit "map[").isPrefixOf t ∧ t.getLast? = some 93) :
    rewriteT m (n + 1) t = mapType (rewriteT m n) t := by
  have g1 : ¬ (t.head? = some 91 ∧ t.getLast? = some 93) := fun h => by rw [h1] at h; exact absurd h.1 (by decide)
  have g2 : ¬ t.head? = some 94 := fun h => by rw [h1] at h; exact absurd h (by decide)
  exact (if_neg g1).trans ((if_neg g2).trans (if_pos h2))

theorem rewriteT_name (m : Names) (n : Nat) {s : Str} (h : IsName s) : rewriteT m (n + 1) s = (hasName m s, ren m s) := by
  have hh : ∀ c, s.head? = some c → c ∈ s := fun c hc => List.mem_of_head? hc
  have g1 : ¬ (s.head? = some 91 ∧ s.getLast? = some 93) := fun g => (name_byte h (hh _ g.1)).1 rfl
  have g2 : ¬ s.head? = some 94 := fun g => (name_byte h (hh _ g)).2.2.1 rfl
  have g3 : ¬ (s.length > 5 ∧ (lit "map[").isPrefixOf s ∧ s.getLast? = some 93) := fun g => (name_byte h (List.mem_of_getLast? g.2.2)).2.1 rfl
  exact (if_neg g1).trans ((if_neg g2).trans (if_neg g3))

theorem good_rewrite (m : List (Str × Str)) : ∀ (t : MTy) (n : Nat), t.text.length ≤ n → t.Ok → t.NoFn → (t.subst m).text.length ≤ 255 → Good (rewriteT m n t.text) t m
  | t, 0, hlen, h, _, _ => absurd (List.length_eq_zero_iff.mp (Nat.le_zero.mp hlen)) (text_ne h)
  | .name s, n + 1, _, h, _, _ => by
    show Good (rewriteT m (n + 1) s) _ m
    rw [rewriteT_name m n h]
    refine ⟨ren_look s m, fun hf => ?_⟩
    show look s m = s
    rw [← ren_look, ren_neg hf]
  | .arr t, n + 1, hlen, h, hn, hl => by
    have e : (MTy.arr t).text = lit "[" ++ t.text ++ lit "]" := rfl
    have e2 : ((MTy.arr t).subst m).text = lit "[" ++ (t.subst m).text ++ lit "]" := rfl
    rw [e, lits.1, lits.2.1] at hlen
    have hl2 := hl
    rw [e2, lits.1, lits.2.1] at hl2
    simp only [List.length_append, List.length_cons, List.length_nil] at hlen hl2
    rw [rewriteT_arr m n _ (by rw [e, lits.1]; rfl) (by rw [e, lits.2.1, List.getLast?_append]; rfl)]
    exact good_bracket h hn (good_rewrite m t n (by omega) h hn (by omega)) hl
  | .sized t s, n + 1, hlen, h, hn, hl => by
    have e : (MTy.sized t s).text = lit "[" ++ t.text ++ lit "," ++ s ++ lit "]" := rfl
    have e2 : ((MTy.sized t s).subst m).text = lit "[" ++ (t.subst m).text ++ lit "," ++ s ++ lit "]" := rfl
    rw [e, lits.1, lits.2.1, lits.2.2.1] at hlen
    have hl2 := hl
    rw [e2, lits.1, lits.2.1, lits.2.2.1] at hl2
    simp only [List.length_append, List.length_cons, List.length_nil] at hlen hl2
    rw [rewriteT_arr m n _ (by rw [e, lits.1]; rfl) (by rw [e, lits.2.1, List.getLast?_append]; rfl)]
    exact good_sized h.1 hn (good_rewrite m t n (by omega) h.1 hn (by omega)) hl
  | .ptr t, n + 1, hlen, h, hn, hl => by
    have e : (MTy.ptr t).text = 94 :: t.text := by show lit "^" ++ t.text = _; rw [lits.2.2.2.1]; rfl
    have e2 : ((MTy.ptr t).subst m).text = 94 :: (t.subst m).text := by show lit "^" ++ (t.subst m).text = _; rw [lits.2.2.2.1]; rfl
    rw [e] at hlen
    have hl2 := hl
    rw [e2] at hl2
    simp only [List.length_cons] at hlen hl2
    have ih := good_rewrite m t n (by omega) h hn (by omega)
    rw [e, rewriteT_ptr]
    by_cases hc : (rewriteT m n t.text).1 = false
    · rw [if_pos hc]
      have : ((MTy.ptr t).subst m).text = (MTy.ptr t).text := by rw [e, e2, ih.2 hc]
      exact ⟨by rw [this, e], fun _ => this⟩
    · rw [if_neg hc]
      refine ⟨?_, fun h => absurd h (by simp)⟩
      show cut ([94] ++ _) = _
      rw [ih.1, e2]
      exact cut_of_le (by simp only [List.length_cons, List.singleton_append]; omega)
  | .map k v, n + 1, hlen, h, hn, hl => by
    have e : (MTy.map k v).text = lit "map[" ++ k.text ++ lit ":" ++ v.text ++ lit "]" := rfl
    have e2 : ((MTy.map k v).subst m).text = lit "map[" ++ (k.subst m).text ++ lit ":" ++ (v.subst m).text ++ lit "]" := rfl
    have hlen2 := hlen
    rw [e, lits.2.1, lits.2.2.2.2.1, lits.2.2.2.2.2] at hlen2
    have hl2 := hl
    rw [e2, lits.2.1, lits.2.2.2.2.1, lits.2.2.2.2.2] at hl2
    simp only [List.length_append, List.length_cons, List.length_nil] at hlen2 hl2
    have kp : k.text.length ≥ 1 := List.length_pos_iff.mpr (text_ne h.1)
    have vp : v.text.length ≥ 1 := List.length_pos_iff.mpr (text_ne h.2)
    rw [rewriteT_map m n _ (by rw [e, lits.2.2.2.2.2]; rfl) ⟨by
      rw [e, lits.2.1, lits.2.2.2.2.1, lits.2.2.2.2.2]; simp only [List.length_append, List.length_cons, List.length_nil]; omega,
      List.isPrefixOf_iff_prefix.mpr ⟨_, by rw [e]; simp only [List.append_assoc]; rfl⟩, by rw [e, lits.2.1, List.getLast?_append]; rfl⟩]
    exact good_map h hn (good_rewrite m k n (by omega) h.1 hn.1 (by omega)) (good_rewrite m v n (by omega) h.2 hn.2 (by omega)) hl
  | .fn _ _, _ + 1, _, _, hn, _ => hn.elim

end Mg

/-- **C175 (partial).** It holds for types without function types whose new text has at most 255 bytes. -/
theorem C175_partial (m : List (Str × Str)) (t : MTy) (h : t.Ok) (hn : t.NoFn) (hl : (t.subst m).text.length ≤ 255) :
    rewriteType m t.text = (t.subst m).text := (Mg.good_rewrite m t _ (Nat.le_refl _) h hn hl).1

example : rewriteType [(lit "Node", lit "lib_Node")] (lit "map[string:[[Node,3]]]") = lit "map[string:[[lib_Node,3]]]" := by decide +kernel

/-! ## C176: types in function bodies -/

/-- **C176.** In the body of an imported function types are renamed as in its parameters. -/
def C176_statement : Prop :=
  ∀ (m : List (Str × Str)) (x : Str) (t : MTy), t.Ok →
    rewriteLabels m (.decl x t.text .done .done) = .decl x (t.subst m).text .done .done

/-- `mut nodes [Node]` keeps a type that does not exist any more. -/
theorem C176_witness : rewriteLabels [(lit "Node", lit "lib_Node")] (.decl (lit "nodes") (lit "[Node]") .done .done) =
    .decl (lit "nodes") (lit "[Node]") .done .done := by decide +kernel

theorem C176_fails : ¬ C176_statement := by
  intro h
  have := h [(lit "Node", lit "lib_Node")] (lit "nodes") (.arr (.name (lit "Node"))) (by unfold MTy.Ok MTy.Ok MTy.IsName; decide +kernel)
  have e : (MTy.arr (.name (lit "Node"))).text = lit "[Node]" := by decide
  rw [e, C176_witness] at this
  exact absurd this (by decide +kernel)

/-- **C176 (partial).** It holds for names. -/
theorem C176_partial (m : List (Str × Str)) (x s : Str) :
    rewriteLabels m (.decl x (MTy.name s).text .done .done) = .decl x ((MTy.name s).subst m).text .done .done ∧
    rewriteLabels m (.typed (MTy.name s).text .done) = .typed ((MTy.name s).subst m).text .done := by
  constructor
  · show Code.decl x (ren m s) .done .done = Code.decl x (MTy.look s m) .done .done
    rw [Mg.ren_look]
  · show Code.typed (ren m s) .done = Code.typed (MTy.look s m) .done
    rw [Mg.ren_look]

/-! ## C177: renamed declarations are distinct -/

/-- **C177.** Declarations of different modules, or of different names, get different names. -/
def C177_statement : Prop := ∀ mod mod' n n' : Str, MTy.IsName mod → MTy.IsName mod' → MTy.IsName n → MTy.IsName n' → (mod, n) ≠ (mod', n') →
  prefixed mod n ≠ prefixed mod' n'

/-- `net.http_get` and `net_http.get`. -/
theorem C177_witness : prefixed (lit "net") (lit "http_get") = lit "net_http_get" ∧ prefixed (lit "net_http") (lit "get") = lit "net_http_get" := by
  decide +kernel

theorem C177_fails : ¬ C177_statement := by
  intro h
  refine h (lit "net") (lit "net_http") (lit "http_get") (lit "get") ?_ ?_ ?_ ?_ (by decide) (C177_witness.1.trans C177_witness.2.symm) <;>
  · unfold MTy.IsName; decide +kernel

/-- **C177 (partial).** It holds within a module, and for modules without an underscore in their names, if everything fits in 255
bytes. -/
theorem C177_partial (mod mod' n n' : Str) (h : (mod, n) ≠ (mod', n')) (hm : mod = mod' ∨ 95 ∉ mod ∧ 95 ∉ mod')
    (hl : mod.length + n.length < 255) (hl' : mod'.length + n'.length < 255) : prefixed mod n ≠ prefixed mod' n' := by
  unfold prefixed
  rw [Mg.cut_of_le (by simp only [List.length_append, List.length_cons, List.length_nil]; omega),
    Mg.cut_of_le (by simp only [List.length_append, List.length_cons, List.length_nil]; omega)]
  intro e
  rcases hm with rfl | ⟨h1, h2⟩
  · have e := List.append_cancel_left e
    exact h (by rw [e])
  · have key : ∀ (a b s t : Str), 95 ∉ a → 95 ∉ b → a ++ 95 :: s = b ++ 95 :: t → a = b ∧ s = t := by
      intro a
      induction a with
      | nil =>
        intro b s t _ hb e
        cases b with
        | nil => exact ⟨rfl, by simpa using e⟩
        | cons c b =>
          have : (95 : Byte) = c := (List.cons.inj e).1
          exact absurd (this ▸ List.mem_cons_self) hb
      | cons c a ih =>
        intro b s t ha hb e
        cases b with
        | nil =>
          have : c = (95 : Byte) := (List.cons.inj e).1
          exact absurd (this ▸ List.mem_cons_self) ha
        | cons d b =>
          obtain ⟨h1, h2⟩ := List.cons.inj e
          obtain ⟨h3, h4⟩ := ih b s t (fun h => ha (List.mem_cons_of_mem _ h)) (fun h => hb (List.mem_cons_of_mem _ h)) h2
          exact ⟨by rw [h1, h3], h4⟩
    have e' : mod ++ 95 :: n = mod' ++ 95 :: n' := by simpa [List.append_assoc] using e
    obtain ⟨h3, h4⟩ := key mod mod' n n' h1 h2 e'
    exact h (by rw [h3, h4])

/-! ## C178: the order of declarations -/

/-- **C178.** Constants and variables of an imported file are declared in the order in which they are written. -/
def C178_statement : Prop :=
  ∀ (prog : List Stmt) (mod : Str) (file : List Decl) (d d' : Decl), d.isVar = true → d'.isVar = true → [d, d'].Sublist file →
    let md : Module := ⟨mod, [file], []⟩
    [(false, mergeDecl mod md.names d), (false, mergeDecl mod md.names d')].Sublist (importModule prog md)

/-- `const A int = 1; const B int = A`. -/
def orderFile : List Decl := [.var (lit "A") false (lit "int") .done, .var (lit "B") false (lit "int") (.label (lit "A"))]

/-- `lib_B` comes first, and refers to a constant that is declared after it. -/
theorem C178_witness : importModule [(true, .imp)] ⟨lit "lib", [orderFile], []⟩ =
    [(true, .imp), (false, .var (lit "lib_B") false (lit "int") (.label (lit "lib_A"))), (false, .var (lit "lib_A") false (lit "int") .done)] := by
  decide +kernel

theorem C178_fails : ¬ C178_statement := by
  intro h
  have : [(false, mergeDecl (lit "lib") (Module.names ⟨lit "lib", [orderFile], []⟩) (.var (lit "A") false (lit "int") .done)),
      (false, mergeDecl (lit "lib") (Module.names ⟨lit "lib", [orderFile], []⟩) (.var (lit "B") false (lit "int") (.label (lit "A"))))].Sublist
      (importModule [(true, .imp)] ⟨lit "lib", [orderFile], []⟩) := h [(true, .imp)] (lit "lib") orderFile _ _ rfl rfl (List.Sublist.refl orderFile)
  rw [C178_witness] at this
  revert this
  decide +kernel

namespace Mg

theorem filter_insert {l : List Stmt} {k : Nat} {s : Stmt} (h : s.1 = false) : (l.take k ++ [s] ++ l.drop k).filter (·.1) = l.filter (·.1) := by
  rw [List.filter_append, List.filter_append, List.filter_cons_of_neg (by rw [h]; decide)]
  show ((l.take k).filter _ ++ []) ++ (l.drop k).filter _ = _
  rw [List.append_nil, ← List.filter_append, List.take_append_drop]

theorem filter_foldVar (mod : Str) (m : Names) : ∀ (ds : List Decl) (p : List Stmt),
    (ds.foldl (fun p d => insertVar p (false, mergeDecl mod m d)) p).filter (·.1) = p.filter (·.1)
  | [], _ => rfl
  | d :: ds, p => (filter_foldVar mod m ds _).trans (filter_insert rfl)

theorem filter_foldOther (mod : Str) (m : Names) : ∀ (ds : List Decl) (p : List Stmt),
    (ds.foldl (fun p d => insertOther p (false, mergeDecl mod m d)) p).filter (·.1) = p.filter (·.1)
  | [], _ => rfl
  | d :: ds, p => (filter_foldOther mod m ds _).trans (filter_insert rfl)

theorem filter_foldFile (mod : Str) (m : Names) : ∀ (fs : List (List Decl)) (p : List Stmt),
    (fs.foldl (mergeFile mod m) p).filter (·.1) = p.filter (·.1)
  | [], _ => rfl
  | f :: fs, p => (filter_foldFile mod m fs _).trans ((filter_foldOther mod m _ _).trans (filter_foldVar mod m _ _))

theorem own_filter (m : Names) : ∀ p : List Stmt,
    (p.map fun s => if s.1 then (true, rewriteOwn m s.2) else s).filter (·.1) = (p.filter (·.1)).map fun s => (true, rewriteOwn m s.2)
  | [] => rfl
  | (true, d) :: p => by
    show (true, rewriteOwn m d) :: (p.map _).filter (·.1) = (true, rewriteOwn m d) :: (p.filter (·.1)).map _
    rw [own_filter m p]
  | (false, d) :: p => own_filter m p

theorem takeWhile_app {α} {f : α → Bool} {l r : List α} (hl : ∀ x ∈ l, f x = true) (hr : ∀ x, r.head? = some x → f x = false) :
    (l ++ r).takeWhile f = l := by
  rw [List.takeWhile_append_of_pos hl]
  cases r with
  | nil => simp
  | cons x r => rw [List.takeWhile_cons_of_neg (by simp [hr x rfl]), List.append_nil]

theorem insert_at {f : Stmt → Bool} {l r : List Stmt} (s : Stmt) (hl : ∀ x ∈ l, f x = true) (hr : ∀ x, r.head? = some x → f x = false) :
    (l ++ r).take ((l ++ r).takeWhile f).length ++ [s] ++ (l ++ r).drop ((l ++ r).takeWhile f).length = l ++ s :: r := by
  rw [takeWhile_app hl hr, List.take_left', List.drop_left'] <;> simp

theorem merge_isVar {mod : Str} {m : Names} {d : Decl} : (mergeDecl mod m d).isVar = d.isVar := by cases d <;> rfl
theorem merge_isHead {mod : Str} {m : Names} {d : Decl} : (mergeDecl mod m d).isHead = d.isHead := by cases d <;> rfl

theorem var_notHead {d : Decl} (h : d.isVar = true) : d.isHead = false := by cases d <;> first | rfl | exact absurd h (by decide)

theorem fold_vars (mod : Str) (m : Names) (hd : List Stmt) (hh : ∀ s ∈ hd, s.2.isHead = true) : ∀ (ds : List Decl) (r : List Stmt),
    (∀ d ∈ ds, d.isVar = true) → (∀ s, r.head? = some s → s.2.isHead = false) →
    ds.foldl (fun p d => insertVar p (false, mergeDecl mod m d)) (hd ++ r) = hd ++ ((ds.map fun d => (false, mergeDecl mod m d)).reverse ++ r)
  | [], _, _, _ => by simp
  | d :: ds, r, hv, hr => by
    have e : insertVar (hd ++ r) (false, mergeDecl mod m d) = hd ++ (false, mergeDecl mod m d) :: r := insert_at _ hh hr
    rw [List.foldl_cons, e, fold_vars mod m hd hh ds _ (fun d h => hv d (List.mem_cons_of_mem _ h)) (by
      intro s hs
      have : (false, mergeDecl mod m d) = s := Option.some.inj hs
      rw [← this]
      exact merge_isHead.trans (var_notHead (hv d List.mem_cons_self)))]
    simp

theorem fold_others (mod : Str) (m : Names) (hd : List Stmt) (hh : ∀ s ∈ hd, (s.2.isHead || s.2.isVar) = true) : ∀ (ds : List Decl) (r : List Stmt),
    (∀ d ∈ ds, (d.isHead || d.isVar) = false) → (∀ s, r.head? = some s → (s.2.isHead || s.2.isVar) = false) →
    ds.foldl (fun p d => insertOther p (false, mergeDecl mod m d)) (hd ++ r) = hd ++ ((ds.map fun d => (false, mergeDecl mod m d)).reverse ++ r)
  | [], _, _, _ => by simp
  | d :: ds, r, hv, hr => by
    have e : insertOther (hd ++ r) (false, mergeDecl mod m d) = hd ++ (false, mergeDecl mod m d) :: r := insert_at (f := fun s => s.2.isHead || s.2.isVar) _ hh hr
    rw [List.foldl_cons, e, fold_others mod m hd hh ds _ (fun d h => hv d (List.mem_cons_of_mem _ h)) (by
      intro s hs
      have : (false, mergeDecl mod m d) = s := Option.some.inj hs
      rw [← this]
      show ((mergeDecl mod m d).isHead || (mergeDecl mod m d).isVar) = false
      rw [merge_isHead, merge_isVar]
      exact hv d List.mem_cons_self)]
    simp

end Mg

/-- **C178 (partial).** The declarations of the entry file keep their order. Those of an imported file are inserted in exactly the
reverse order: its variables before the variables of the program, its functions and types before the functions and types of the
program. -/
theorem C178_partial :
    (∀ (prog : List Stmt) (md : Module), (importModule prog md).filter (·.1) = (prog.filter (·.1)).map fun s => (true, rewriteOwn md.names s.2)) ∧
    (∀ (mod : Str) (m : Names) (file : List Decl) (heads vars rest : List Stmt), (∀ d ∈ file, d ≠ .using) →
      (∀ s ∈ heads, s.2.isHead = true) → (∀ s ∈ vars, s.2.isVar = true) → (∀ s, rest.head? = some s → s.2.isHead = false ∧ s.2.isVar = false) →
      mergeFile mod m (heads ++ vars ++ rest) file =
        heads ++ ((file.filter Decl.isVar).map fun d => (false, mergeDecl mod m d)).reverse ++ vars ++
          ((file.filter fun d => !d.isImp && !d.isVar).map fun d => (false, mergeDecl mod m d)).reverse ++ rest) := by
  constructor
  · intro prog md
    exact (Mg.own_filter md.names _).trans (by rw [Mg.filter_foldFile])
  · intro mod m file heads vars rest hu hh hv hr
    show (file.filter fun d => !d.isImp && !d.isVar).foldl (fun p d => insertOther p (false, mergeDecl mod m d))
      ((file.filter Decl.isVar).foldl (fun p d => insertVar p (false, mergeDecl mod m d)) (heads ++ vars ++ rest)) = _
    rw [List.append_assoc, Mg.fold_vars mod m heads hh _ (vars ++ rest) (fun d hd => (List.mem_filter.mp hd).2) (by
      intro s hs
      cases vars with
      | nil => exact (hr s hs).1
      | cons v vars =>
        have : v = s := Option.some.inj hs
        rw [← this]
        exact Mg.var_notHead (hv v List.mem_cons_self))]
    rw [show heads ++ (((file.filter Decl.isVar).map fun d => (false, mergeDecl mod m d)).reverse ++ (vars ++ rest)) =
      (heads ++ ((file.filter Decl.isVar).map fun d => (false, mergeDecl mod m d)).reverse ++ vars) ++ rest by simp]
    rw [Mg.fold_others mod m _ (by
      intro s hs
      rcases List.mem_append.mp hs with hs | hs
      · rcases List.mem_append.mp hs with hs | hs
        · simp [hh s hs]
        · obtain ⟨d, hd, rfl⟩ := List.mem_map.mp (List.mem_reverse.mp hs)
          simp [Mg.merge_isVar, (List.mem_filter.mp hd).2]
      · simp [hv s hs]) _ rest (by
      intro d hd
      obtain ⟨h1, h2⟩ := List.mem_filter.mp hd
      cases d <;> first | rfl | exact absurd h2 (by decide) | exact absurd rfl (hu _ h1) | (simp [Decl.isVar] at h2)) (by
      intro s hs
      simp [(hr s hs).1, (hr s hs).2])]
    simp

example : ([(.var (lit "A") false (lit "int") .done), .func ⟨lit "f", [], [], .done, .done⟩] : List Decl).filter Decl.isVar = [.var (lit "A") false (lit "int") .done] := by
  decide +kernel

/-! ## C179: the set of imported files -/

/-- All marks in order. -/
def markAll (f : Files) : List (Str × Option Str) → Option Files
  | [] => some f
  | x :: l => (f.mark x.1 x.2).bind fun f => markAll f l

/-- **C179.** A file counts as imported exactly if it was marked, and belongs to the module for which it was marked first. -/
def C179_statement : Prop :=
  ∀ l : List (Str × Option Str), ∃ f, markAll Files.empty l = some f ∧
    ∀ p, f.has p = some (l.any fun x => x.1 == p) ∧ f.owner p = some ((l.find? fun x => x.1 == p).bind (·.2))

namespace Mg

/-- The content of a cell. -/
def cell (cs : List (Option (Str × Option Str))) (i : Nat) : Option (Str × Option Str) := cs[i]?.join

theorem probe_stop {cs : List (Option (Str × Option Str))} {p : Str} {n i : Nat} (h : (cell cs i).all (fun e => e.1 == p) = true) : probe cs p (n + 1) i = some i :=
  if_pos h

theorem probe_next {cs : List (Option (Str × Option Str))} {p : Str} {n i : Nat} (h : ¬ (cell cs i).all (fun e => e.1 == p) = true) :
    probe cs p (n + 1) i = probe cs p n ((i + 1) % 512) := if_neg h

theorem probe_spec {cs : List (Option (Str × Option Str))} {p : Str} {s : Nat} : ∀ n j e, n + j = 512 → j ≤ e → e < 512 → cell cs ((s + e) % 512) = none →
    ∃ k, j ≤ k ∧ k < 512 ∧ probe cs p n ((s + j) % 512) = some ((s + k) % 512) ∧ (cell cs ((s + k) % 512)).all (fun e => e.1 == p) = true ∧
      ∀ i, j ≤ i → i < k → ¬ (cell cs ((s + i) % 512)).all (fun e => e.1 == p) = true
  | 0, j, e, h1, h2, h3, _ => by omega
  | n + 1, j, e, h1, h2, h3, h4 => by
    by_cases hs : (cell cs ((s + j) % 512)).all (fun e => e.1 == p) = true
    · exact ⟨j, Nat.le_refl _, by omega, probe_stop hs, hs, fun i h h' => absurd h' (by omega)⟩
    · have hne : j ≠ e := by
        intro he
        rw [he, h4] at hs
        exact hs rfl
      obtain ⟨k, g1, g2, g3, g4, g5⟩ := probe_spec (cs := cs) (p := p) (s := s) n (j + 1) e (by omega) (by omega) h3 h4
      refine ⟨k, by omega, g2, ?_, g4, fun i h h' => ?_⟩
      · rw [probe_next hs, ← g3]
        congr 1
        omega
      · by_cases hi : i = j
        · rw [hi]; exact hs
        · exact g5 i (by omega) h'

/-- What the table stores after the marks `l`. -/
structure Stores (f : Files) (l : List (Str × Option Str)) : Prop where
  len : f.cells.length = 512
  cnt : f.cells.countP Option.isSome = f.count
  le : f.count ≤ l.length
  sound : ∀ i e, cell f.cells i = some e → l.find? (fun x => x.1 == e.1) = some e
  complete : ∀ e, l.find? (fun x => x.1 == e.1) = some e → ∃ k, k < 512 ∧ cell f.cells ((slotOf e.1 + k) % 512) = some e ∧
    ∀ i, i < k → ∃ e', cell f.cells ((slotOf e.1 + i) % 512) = some e' ∧ e'.1 ≠ e.1

theorem exists_none {α} : ∀ {l : List (Option α)}, l.countP Option.isSome < l.length → ∃ i, i < l.length ∧ l[i]? = some none
  | [], h => absurd h (by simp)
  | none :: l, _ => ⟨0, by simp, rfl⟩
  | some a :: l, h => by
    rw [List.countP_cons_of_pos (by rfl), List.length_cons] at h
    obtain ⟨i, h1, h2⟩ := exists_none (l := l) (by omega)
    exact ⟨i + 1, by rw [List.length_cons]; omega, by simpa using h2⟩

theorem stores_probe {f : Files} {l : List (Str × Option Str)} (h : Stores f l) (hc : f.count ≤ 256) (p : Str) :
    ∃ k, k < 512 ∧ probe f.cells p 512 (slotOf p) = some ((slotOf p + k) % 512) ∧ cell f.cells ((slotOf p + k) % 512) = l.find? (fun x => x.1 == p) ∧
      ∀ i, i < k → ∃ e', cell f.cells ((slotOf p + i) % 512) = some e' ∧ e'.1 ≠ p := by
  have hs : slotOf p < 512 := Nat.mod_lt _ (by decide)
  obtain ⟨i, hi, hn⟩ := exists_none (l := f.cells) (by rw [h.cnt, h.len]; omega)
  rw [h.len] at hi
  obtain ⟨k, _, h2, h3, h4, h5⟩ := probe_spec (cs := f.cells) (p := p) (s := slotOf p) 512 0 ((i + 512 - slotOf p) % 512) rfl (Nat.zero_le _) (Nat.mod_lt _ (by decide))
    (by
      have : (slotOf p + (i + 512 - slotOf p) % 512) % 512 = i := by omega
      rw [this]
      unfold cell
      rw [hn]; rfl)
  have h5 : ∀ i, i < k → ∃ e', cell f.cells ((slotOf p + i) % 512) = some e' ∧ e'.1 ≠ p := by
    intro i hi
    have := h5 i (Nat.zero_le _) hi
    cases hc : cell f.cells ((slotOf p + i) % 512) with
    | none => rw [hc] at this; exact absurd rfl this
    | some e =>
      rw [hc] at this
      exact ⟨e, rfl, fun he => this (by simpa using he)⟩
  refine ⟨k, h2, ?_, ?_, h5⟩
  · rw [← h3]
    congr 1
    omega
  · cases hc : cell f.cells ((slotOf p + k) % 512) with
    | some e =>
      rw [hc] at h4
      have he : e.1 = p := by simpa using h4
      have := h.sound _ _ hc
      rw [he] at this
      exact this.symm
    | none =>
      cases hf : l.find? (fun x => x.1 == p) with
      | none => rfl
      | some e =>
        have he : e.1 = p := by simpa using List.find?_some hf
        obtain ⟨k', g1, g2, g3⟩ := h.complete e (by rw [he]; exact hf)
        rw [he] at g2 g3
        rcases Nat.lt_trichotomy k k' with hlt | rfl | hgt
        · obtain ⟨e', g4, _⟩ := g3 k hlt
          rw [hc] at g4; exact absurd g4 (by simp)
        · rw [hc] at g2; exact absurd g2 (by simp)
        · obtain ⟨e', g4, g5⟩ := h5 k' hgt
          rw [g2] at g4
          exact absurd (by rw [← Option.some.inj g4]; exact he) g5

theorem stores_empty : Stores Files.empty [] where
  len := List.length_replicate
  cnt := by
    show (List.replicate 512 none).countP _ = 0
    rw [List.countP_replicate]; rfl
  le := Nat.le_refl _
  sound := by
    intro i e h
    have : cell (List.replicate 512 none) i = some e := h
    unfold cell at this
    rw [List.getElem?_replicate] at this
    split at this <;> exact absurd this (by simp)
  complete := fun e h => absurd h (by simp)

theorem cell_set {cs : List (Option (Str × Option Str))} {i j : Nat} {a : Option (Str × Option Str)} (hi : i < cs.length) :
    cell (cs.set i a) j = if i = j then a else cell cs j := by
  unfold cell
  rw [List.getElem?_set]
  by_cases h : i = j
  · subst h; simp [hi]
  · simp [h]

theorem stores_mark {f : Files} {l : List (Str × Option Str)} (h : Stores f l) (hc : f.count < 256) (x : Str × Option Str) :
    ∃ g, f.mark x.1 x.2 = some g ∧ Stores g (l ++ [x]) := by
  obtain ⟨k, h2, h3, h4, h5⟩ := stores_probe h (by omega) x.1
  have em : f.mark x.1 x.2 = some (if (cell f.cells ((slotOf x.1 + k) % 512)).isSome then f else
      ⟨f.cells.set ((slotOf x.1 + k) % 512) (some x), f.count + 1⟩) := by
    unfold Files.mark
    rw [if_neg (by omega), h3]
    rfl
  rw [em]
  refine ⟨_, rfl, ?_⟩
  have fa : ∀ q, (l ++ [x]).find? (fun y => y.1 == q) = (l.find? (fun y => y.1 == q)).or (if x.1 == q then some x else none) := by
    intro q
    rw [List.find?_append]
    congr 1
    by_cases hq : (x.1 == q) = true
    · rw [List.find?_cons_of_pos (p := fun y : Str × Option Str => y.1 == q) hq, if_pos hq]
    · rw [List.find?_cons_of_neg (p := fun y : Str × Option Str => y.1 == q) hq, if_neg hq]; rfl
  cases hf : l.find? (fun y => y.1 == x.1) with
  | some e =>
    rw [h4, hf]
    have fa' : ∀ q, (l ++ [x]).find? (fun y => y.1 == q) = l.find? (fun y => y.1 == q) := by
      intro q
      rw [fa q]
      by_cases hq : (x.1 == q) = true
      · have hq' : x.1 = q := by simpa using hq
        rw [← hq', hf]; rfl
      · rw [if_neg hq, Option.or_none]
    show Stores f (l ++ [x])
    exact ⟨h.len, h.cnt, by rw [List.length_append]; have := h.le; omega, fun i e he => by rw [fa']; exact h.sound i e he,
      fun e he => h.complete e (by rw [← fa']; exact he)⟩
  | none =>
    rw [h4, hf]
    have hlt : (slotOf x.1 + k) % 512 < f.cells.length := by rw [h.len]; exact Nat.mod_lt _ (by decide)
    have hcell : cell f.cells ((slotOf x.1 + k) % 512) = none := by rw [h4, hf]
    show Stores ⟨f.cells.set ((slotOf x.1 + k) % 512) (some x), f.count + 1⟩ (l ++ [x])
    refine ⟨by simpa using h.len, ?_, by rw [List.length_append]; have := h.le; simp only [List.length_cons, List.length_nil]; omega, ?_, ?_⟩
    · show (f.cells.set _ _).countP _ = f.count + 1
      rw [List.countP_set hlt, h.cnt]
      have : f.cells[(slotOf x.1 + k) % 512] = none := by
        unfold cell at hcell
        rw [List.getElem?_eq_getElem hlt] at hcell
        exact hcell
      rw [this]
      simp
    · intro i e he
      have he : cell (f.cells.set ((slotOf x.1 + k) % 512) (some x)) i = some e := he
      rw [cell_set hlt] at he
      by_cases hi : (slotOf x.1 + k) % 512 = i
      · rw [if_pos hi] at he
        have : x = e := Option.some.inj he
        subst this
        rw [fa, hf, if_pos (by simp)]; rfl
      · rw [if_neg hi] at he
        rw [fa, h.sound i e he]; rfl
    · intro e he
      have keep : ∀ i e', cell f.cells i = some e' → cell (f.cells.set ((slotOf x.1 + k) % 512) (some x)) i = some e' := by
        intro i e' h'
        rw [cell_set hlt, if_neg (by intro hi; rw [hi, h'] at hcell; exact absurd hcell (by simp)), h']
      rw [fa] at he
      cases hl : l.find? (fun y => y.1 == e.1) with
      | some e2 =>
        rw [hl] at he
        have : e2 = e := Option.some.inj he
        subst this
        obtain ⟨k', g1, g2, g3⟩ := h.complete e2 hl
        exact ⟨k', g1, keep _ _ g2, fun i hi => by
          obtain ⟨e', g4, g5⟩ := g3 i hi
          exact ⟨e', keep _ _ g4, g5⟩⟩
      | none =>
        rw [hl] at he
        by_cases hq : (x.1 == e.1) = true
        · rw [if_pos hq] at he
          have : x = e := Option.some.inj he
          subst this
          refine ⟨k, h2, ?_, fun i hi => ?_⟩
          · show cell (f.cells.set _ _) _ = _
            rw [cell_set hlt, if_pos rfl]
          · obtain ⟨e', g4, g5⟩ := h5 i hi
            exact ⟨e', keep _ _ g4, g5⟩
        · rw [if_neg hq] at he; exact absurd he (by simp)

theorem stores_all : ∀ (l : List (Str × Option Str)) {f : Files} {d : List (Str × Option Str)}, Stores f d → d.length + l.length ≤ 256 →
    ∃ g, markAll f l = some g ∧ Stores g (d ++ l)
  | [], f, d, h, _ => ⟨f, rfl, by rw [List.append_nil]; exact h⟩
  | x :: l, f, d, h, hl => by
    rw [List.length_cons] at hl
    obtain ⟨g, h1, h2⟩ := stores_mark h (by have := h.le; omega) x
    obtain ⟨g', h3, h4⟩ := stores_all l h2 (by rw [List.length_append, List.length_singleton]; omega)
    refine ⟨g', ?_, by rw [List.append_assoc] at h4; exact h4⟩
    show (f.mark x.1 x.2).bind _ = _
    rw [h1]; exact h3

theorem any_find {l : List (Str × Option Str)} {p : Str} : (l.find? fun x => x.1 == p).isSome = l.any fun x => x.1 == p := by
  rw [Bool.eq_iff_iff, List.find?_isSome, List.any_eq_true]

theorem stores_has {f : Files} {l : List (Str × Option Str)} (h : Stores f l) (hc : f.count ≤ 256) (p : Str) :
    f.has p = some (l.any fun x => x.1 == p) ∧ f.owner p = some ((l.find? fun x => x.1 == p).bind (·.2)) := by
  obtain ⟨k, _, h3, h4, _⟩ := stores_probe h hc p
  constructor
  · unfold Files.has
    rw [h3, ← any_find, ← h4]; rfl
  · unfold Files.owner
    rw [h3, ← h4]; rfl

end Mg

/-- **C179 (partial).** It holds for up to 256 marks. -/
theorem C179_partial (l : List (Str × Option Str)) (hl : l.length ≤ 256) : ∃ f, markAll Files.empty l = some f ∧
    ∀ p, f.has p = some (l.any fun x => x.1 == p) ∧ f.owner p = some ((l.find? fun x => x.1 == p).bind (·.2)) := by
  obtain ⟨f, h1, h2⟩ := Mg.stores_all l Mg.stores_empty (by simpa using hl)
  exact ⟨f, h1, Mg.stores_has h2 (by have := h2.le; simp only [List.nil_append] at this; omega)⟩

namespace Mg

/-- Distinct paths. -/
def paths : Nat → List (Str × Option Str)
  | 0 => []
  | n + 1 => paths n ++ [(List.replicate n 97, none)]

theorem paths_len : ∀ n, (paths n).length = n
  | 0 => rfl
  | n + 1 => by show (paths n ++ [_]).length = _; rw [List.length_append, paths_len n]; rfl

theorem paths_mem : ∀ {n x}, x ∈ paths n → x.1.length < n
  | 0, _, h => absurd h (by simp [paths])
  | n + 1, x, h => by
    rcases List.mem_append.mp h with h | h
    · have := paths_mem h; omega
    · rw [List.mem_singleton.mp h]; simp

theorem paths_new (n : Nat) : ((paths n).any fun x => x.1 == List.replicate n 97) = false := by
  rw [List.any_eq_false]
  intro x hx he
  have := paths_mem hx
  have he : x.1 = List.replicate n 97 := by simpa using he
  rw [he, List.length_replicate] at this
  omega

theorem markAll_append : ∀ (l : List (Str × Option Str)) (f : Files) (x : Str × Option Str), markAll f (l ++ [x]) = (markAll f l).bind fun g => g.mark x.1 x.2
  | [], f, x => by
    show (f.mark x.1 x.2).bind some = f.mark x.1 x.2
    cases f.mark x.1 x.2 <;> rfl
  | y :: l, f, x => by
    show (f.mark y.1 y.2).bind _ = ((f.mark y.1 y.2).bind _).bind _
    cases h : f.mark y.1 y.2 with
    | none => rfl
    | some g => exact markAll_append l g x

/-- Distinct marks are counted. -/
theorem paths_count : ∀ n, n ≤ 256 → ∃ f, markAll Files.empty (paths n) = some f ∧ Stores f (paths n) ∧ f.count = n
  | 0, _ => ⟨_, rfl, stores_empty, rfl⟩
  | n + 1, hn => by
    obtain ⟨f, h1, h2, h3⟩ := paths_count n (by omega)
    have hf : (paths n).find? (fun y => y.1 == List.replicate n 97) = none := by
      rw [List.find?_eq_none]
      intro x hx
      have := paths_mem hx
      intro he
      have he : x.1 = List.replicate n 97 := by simpa using he
      rw [he, List.length_replicate] at this
      omega
    obtain ⟨g, h4, h5⟩ := stores_mark h2 (by omega) (List.replicate n 97, none)
    refine ⟨g, ?_, h5, ?_⟩
    · show markAll _ (paths n ++ [_]) = _
      rw [markAll_append, h1]; exact h4
    · obtain ⟨k, g2, g3, g4, _⟩ := stores_probe h2 (by omega) (List.replicate n 97)
      have em : f.mark (List.replicate n 97) none = some (if (cell f.cells ((slotOf (List.replicate n 97) + k) % 512)).isSome then f else
          ⟨f.cells.set ((slotOf (List.replicate n 97) + k) % 512) (some (List.replicate n 97, none)), f.count + 1⟩) := by
        unfold Files.mark
        rw [if_neg (by omega), g3]
        rfl
      rw [g4, hf] at em
      have h4 : f.mark (List.replicate n 97) none = some g := h4
      rw [em] at h4
      rw [← Option.some.inj h4, ← h3]
      rfl

end Mg

/-- After 256 files a further one is not remembered. -/
theorem C179_witness : ∃ f, markAll Files.empty (Mg.paths 257) = some f ∧ f.has (List.replicate 256 97) = some false := by
  obtain ⟨f, h1, h2, h3⟩ := Mg.paths_count 256 (Nat.le_refl _)
  refine ⟨f, ?_, ?_⟩
  · show markAll _ (Mg.paths 256 ++ [_]) = _
    rw [Mg.markAll_append, h1]
    exact if_pos (by omega)
  · rw [(Mg.stores_has h2 (by omega) _).1, Mg.paths_new]

theorem C179_fails : ¬ C179_statement := by
  intro h
  obtain ⟨f, h1, h2⟩ := h (Mg.paths 257)
  obtain ⟨g, h3, h4⟩ := C179_witness
  rw [h1] at h3
  rw [← Option.some.inj h3, (h2 _).1] at h4
  have key : ∀ n, ((Mg.paths (n + 1)).any fun x => x.1 == List.replicate n 97) = true := fun n =>
    List.any_eq_true.mpr ⟨(List.replicate n 97, none), List.mem_append_right _ List.mem_cons_self, beq_self_eq_true _⟩
  have := key 256
  rw [this] at h4
  exact absurd (Option.some.inj h4) (by decide)

/-! ## C180: names of modules -/

namespace Mg

theorem moduleName_plain {path rel b : Str} (hr : stripDot path = rel) (hb : baseName rel = b) (hn : b ≠ []) :
    moduleName path = if b.length > 5 ∧ (lit ".gray").isSuffixOf b then b.take (b.length - 5) else cut b := by
  subst hr hb
  unfold moduleName
  have e : (if baseName (stripDot path) = [] ∧ (stripDot path).length > 1 then baseName (stripDot path).dropLast else baseName (stripDot path)) =
    baseName (stripDot path) := if_neg fun h => hn h.1
  simp only [e]

theorem moduleName_slash {path rel b : Str} (hr : stripDot path = rel) (h0 : baseName rel = []) (hl : rel.length > 1) (hb : baseName rel.dropLast = b) :
    moduleName path = if b.length > 5 ∧ (lit ".gray").isSuffixOf b then b.take (b.length - 5) else cut b := by
  subst hr hb
  unfold moduleName
  have e : (if baseName (stripDot path) = [] ∧ (stripDot path).length > 1 then baseName (stripDot path).dropLast else baseName (stripDot path)) =
    baseName (stripDot path).dropLast := if_pos ⟨h0, hl⟩
  simp only [e]

end Mg

/-- **C180.** The name of a module is the name of the file without `.gray`, or the name of the directory; directories before it, a
`./` in front and a slash at the end do not matter. -/
theorem C180_moduleName (d y : Str) (hd : d = [] ∨ d.getLast? = some 47) (hy : y ≠ []) (hs : 47 ∉ y) (hdot : y ≠ lit ".")
    (hg : (lit ".gray").isSuffixOf y = false) (hl : y.length ≤ 255) :
    moduleName (d ++ y ++ lit ".gray") = y ∧ moduleName (d ++ y) = y ∧ moduleName (d ++ y ++ lit "/") = y := by
  have base : ∀ (d z : Str), (d = [] ∨ d.getLast? = some 47) → 47 ∉ z → baseName (d ++ z) = z := by
    intro d z hd hz
    unfold baseName
    rw [List.reverse_append, List.takeWhile_append_of_pos (by
      intro c hc
      have : c ∈ z := List.mem_reverse.mp hc
      have hne : c ≠ 47 := fun e => hz (e ▸ this)
      simpa using hne)]
    rcases hd with rfl | hd
    · simp
    · have : d.reverse.head? = some 47 := by rw [List.head?_reverse]; exact hd
      cases hr : d.reverse with
      | nil => simp
      | cons c r =>
        rw [hr] at this
        have : c = 47 := Option.some.inj this
        rw [this, List.takeWhile_cons_of_neg (by decide)]
        simp
  have strip : ∀ z : Str, (∃ w, z = y ++ w) → ∃ d', (d' = [] ∨ d'.getLast? = some 47) ∧ stripDot (d ++ z) = d' ++ z := by
    intro z hz
    unfold stripDot
    by_cases hp : (lit "./").isPrefixOf (d ++ z) = true
    · rw [if_pos hp]
      obtain ⟨w, hw⟩ := List.isPrefixOf_iff_prefix.mp hp
      have el : lit "./" = [46, 47] := by decide
      rw [el] at hw
      cases d with
      | nil =>
        obtain ⟨v, rfl⟩ := hz
        cases y with
        | nil => exact absurd rfl hy
        | cons a y =>
          cases y with
          | nil =>
            have h1 : (46 : Byte) = a := (List.cons.inj hw).1
            exact absurd (by rw [← h1]; decide) hdot
          | cons b y =>
            have h2 : (47 : Byte) = b := (List.cons.inj (List.cons.inj hw).2).1
            exact absurd (by rw [← h2]; simp) hs
      | cons a d =>
        cases d with
        | nil =>
          have h1 : (46 : Byte) = a := (List.cons.inj hw).1
          rcases hd with hd | hd
          · exact absurd hd (by simp)
          · have : a = (47 : Byte) := by simpa using hd
            rw [← h1] at this
            exact absurd this (by decide)
        | cons b d =>
          refine ⟨d, ?_, rfl⟩
          cases d with
          | nil => exact .inl rfl
          | cons c d =>
            rcases hd with hd | hd
            · exact absurd hd (by simp)
            · exact .inr (by simpa using hd)
    · rw [if_neg hp]
      exact ⟨d, hd, rfl⟩
  have eg : lit ".gray" = [46, 103, 114, 97, 121] := by decide
  have hns : ¬ (y.length > 5 ∧ (lit ".gray").isSuffixOf y) := fun h => by rw [hg] at h; exact absurd h.2 (by decide)
  refine ⟨?_, ?_, ?_⟩
  · obtain ⟨d', hd', e⟩ := strip (y ++ lit ".gray") ⟨_, rfl⟩
    rw [← List.append_assoc] at e
    have hb : baseName (d' ++ (y ++ lit ".gray")) = y ++ lit ".gray" := base d' _ hd' (by
      rw [eg]; intro h; rcases List.mem_append.mp h with h | h
      · exact hs h
      · exact absurd h (by decide))
    have hpos : y.length ≥ 1 := List.length_pos_iff.mpr hy
    rw [Mg.moduleName_plain e hb (by rw [eg]; simp), if_pos ⟨by rw [eg, List.length_append]; simp only [List.length_cons, List.length_nil]; omega, List.isSuffixOf_iff_suffix.mpr ⟨y, rfl⟩⟩,
      List.take_left' (by rw [eg, List.length_append]; simp)]
  · obtain ⟨d', hd', e⟩ := strip y ⟨[], by simp⟩
    have hb := base d' y hd' hs
    rw [Mg.moduleName_plain e hb hy, if_neg hns, Mg.cut_of_le hl]
  · obtain ⟨d', hd', e⟩ := strip (y ++ lit "/") ⟨_, rfl⟩
    rw [← List.append_assoc] at e
    have es : lit "/" = [47] := by decide
    have h0 : baseName (d' ++ (y ++ lit "/")) = [] := by
      have := base (d' ++ (y ++ lit "/")) [] (.inr (by rw [es, List.getLast?_append, List.getLast?_append]; rfl)) (by simp)
      rw [List.append_nil] at this
      exact this
    have hdl : (d' ++ (y ++ lit "/")).dropLast = d' ++ y := by rw [es, ← List.append_assoc, List.dropLast_concat]
    have hb := base d' y hd' hs
    have hpos : y.length ≥ 1 := List.length_pos_iff.mpr hy
    rw [Mg.moduleName_slash (b := y) e h0 (by rw [es]; simp only [List.length_append, List.length_cons, List.length_nil]; omega) (by rw [hdl]; exact hb),
      if_neg hns, Mg.cut_of_le hl]

example : moduleName (lit "./models/user.gray") = lit "user" ∧ moduleName (lit "./models/") = lit "models" := by decide +kernel

/-! ## C181: which file a path means -/

/-- **C181.** A path means the same file in every file of the program: it is relative to the directory of the entry file. -/
def C181_statement : Prop := ∀ entry source path : Str, importPath entry (some (dirOf source)) path = importPath entry none path

/-- `models/user.gray` imports `./shared.gray`. -/
theorem C181_witness : importPath (lit "app/main.gray") none (lit "./shared.gray") = lit "app/shared.gray" ∧
    importPath (lit "app/main.gray") (some (dirOf (lit "app/models/user.gray"))) (lit "./shared.gray") = lit "app/models/shared.gray" := by
  decide +kernel

theorem C181_fails : ¬ C181_statement := by
  intro h
  have := h (lit "app/main.gray") (lit "app/models/user.gray") (lit "./shared.gray")
  rw [C181_witness.1, C181_witness.2] at this
  exact absurd this (by decide)

/-- **C181 (partial).** It holds for the files in the directory of the entry file; for the entry file itself the path is the one of
its directory followed by the path as written, up to 2047 bytes. -/
theorem C181_partial (entry source path : Str) :
    (dirOf source = dirOf entry → importPath entry (some (dirOf source)) path = importPath entry none path) ∧
    (∀ dir file rel : Str, 47 ∉ file → (dir ++ lit "/").length + rel.length ≤ 2047 → (lit "./").isPrefixOf rel = false →
      importPath (dir ++ lit "/" ++ file) none (lit "./" ++ rel) = dir ++ lit "/" ++ rel ∧
      importPath (dir ++ lit "/" ++ file) none rel = dir ++ lit "/" ++ rel) := by
  constructor
  · intro h
    show ((some (dirOf source)).getD _ ++ _).take 2047 = (Option.getD none (dirOf entry) ++ _).take 2047
    show (dirOf source ++ _).take 2047 = (dirOf entry ++ _).take 2047
    rw [h]
  · intro dir file rel hf hl hp
    have es : lit "/" = [47] := by decide
    have hdir : dirOf (dir ++ lit "/" ++ file) = dir ++ lit "/" := by
      unfold dirOf
      have hb : baseName (dir ++ lit "/" ++ file) = file := by
        unfold baseName
        rw [List.reverse_append, List.takeWhile_append_of_pos (by
          intro c hc
          have hne : c ≠ 47 := fun e => hf (e ▸ List.mem_reverse.mp hc)
          simpa using hne), es, show List.reverse (dir ++ [47]) = [47] ++ dir.reverse by simp, show [47] ++ dir.reverse = (47 : Byte) :: dir.reverse from rfl, List.takeWhile_cons_of_neg (by decide)]
        simp
      rw [if_pos (by rw [es]; simp), hb]
      exact List.take_left' (by simp only [List.length_append]; omega)
    have h1 : stripDot (lit "./" ++ rel) = rel := by
      unfold stripDot
      rw [if_pos (List.isPrefixOf_iff_prefix.mpr ⟨_, rfl⟩), show lit "./" = [46, 47] by decide]
      rfl
    have h2 : stripDot rel = rel := if_neg (by rw [hp]; decide)
    constructor
    · show (dirOf _ ++ stripDot _).take 2047 = _
      rw [hdir, h1]
      exact List.take_of_length_le (by rw [List.length_append]; omega)
    · show (dirOf _ ++ stripDot _).take 2047 = _
      rw [hdir, h2]
      exact List.take_of_length_le (by rw [List.length_append]; omega)

/-! ## C182: the files of a directory -/

/-- Byte by byte, a prefix comes first. -/
def PathLe : Str → Str → Prop
  | [], _ => True
  | _ :: _, [] => False
  | a :: s, b :: t => a.toNat < b.toNat ∨ a = b ∧ PathLe s t

/-- **C182.** The import of a directory takes all its source files, each once, in alphabetical order. -/
def C182_statement : Prop := ∀ (dir : Str) (entries : List Str), entries.Nodup →
  ∃ l : List Str, l.Perm (entries.filter fun n => decide (n.head? ≠ some 46) && (lit ".gray").isSuffixOf n) ∧
    scanDir dir entries = l.map (fun n => dir ++ lit "/" ++ n) ∧ (scanDir dir entries).Pairwise PathLe

namespace Mg

theorem le_before : ∀ {a b : Str}, leStr a b = true → PathLe a b
  | [], _, _ => trivial
  | _ :: _, [], h => absurd h (by simp [leStr])
  | a :: s, b :: t, h => by
    have h : (if a = b then leStr s t else decide (a < b)) = true := h
    by_cases e : a = b
    · rw [if_pos e] at h
      exact .inr ⟨e, le_before h⟩
    · rw [if_neg e] at h
      exact .inl (BitVec.lt_def.mp (of_decide_eq_true h))

theorem le_total : ∀ {a b : Str}, leStr a b = false → PathLe b a
  | [], _, h => absurd h (by simp [leStr])
  | _ :: _, [], _ => trivial
  | a :: s, b :: t, h => by
    have h : (if a = b then leStr s t else decide (a < b)) = false := h
    by_cases e : a = b
    · rw [if_pos e] at h
      exact .inr ⟨e.symm, le_total h⟩
    · rw [if_neg e] at h
      have h1 : ¬ a < b := of_decide_eq_false h
      have h2 : ¬ a.toNat < b.toNat := fun g => h1 (BitVec.lt_def.mpr g)
      have h3 : a.toNat ≠ b.toNat := fun g => e (BitVec.eq_of_toNat_eq g)
      exact .inl (by omega)

theorem before_trans : ∀ {a b c : Str}, PathLe a b → PathLe b c → PathLe a c
  | [], _, _, _, _ => trivial
  | _ :: _, [], _, h, _ => h.elim
  | _ :: _, _ :: _, [], _, h => h.elim
  | a :: s, b :: t, c :: u, h1, h2 => by
    rcases h1 with h1 | ⟨rfl, h1⟩
    · rcases h2 with h2 | ⟨rfl, h2⟩
      · exact .inl (by omega)
      · exact .inl h1
    · rcases h2 with h2 | ⟨rfl, h2⟩
      · exact .inl h2
      · exact .inr ⟨rfl, before_trans h1 h2⟩

theorem insert_perm (p : Str) : ∀ l : List Str, (insertPath p l).Perm (p :: l)
  | [] => .refl _
  | q :: l => by
    show (if leStr p q then p :: q :: l else q :: insertPath p l).Perm _
    by_cases h : leStr p q = true
    · rw [if_pos h]
    · rw [if_neg h]
      exact ((insert_perm p l).cons q).trans (.swap p q l)

theorem insert_sorted (p : Str) : ∀ {l : List Str}, l.Pairwise PathLe → (insertPath p l).Pairwise PathLe
  | [], _ => List.pairwise_singleton _ _
  | q :: l, h => by
    show (if leStr p q then p :: q :: l else q :: insertPath p l).Pairwise _
    obtain ⟨h1, h2⟩ := List.pairwise_cons.mp h
    by_cases hc : leStr p q = true
    · rw [if_pos hc]
      refine List.pairwise_cons.mpr ⟨fun r hr => ?_, h⟩
      rcases List.mem_cons.mp hr with rfl | hr
      · exact le_before hc
      · exact before_trans (le_before hc) (h1 r hr)
    · rw [if_neg hc]
      refine List.pairwise_cons.mpr ⟨fun r hr => ?_, insert_sorted p h2⟩
      rcases List.mem_cons.mp ((insert_perm p l).mem_iff.mp hr) with rfl | hr
      · exact le_total (by simpa using hc)
      · exact h1 r hr

theorem sort_perm : ∀ l : List Str, (sortPaths l).Perm l
  | [] => .refl _
  | p :: l => (insert_perm p (sortPaths l)).trans ((sort_perm l).cons p)

theorem sort_sorted : ∀ l : List Str, (sortPaths l).Pairwise PathLe
  | [] => .nil
  | p :: l => insert_sorted p (sort_sorted l)

/-- A permutation of an image is the image of a permutation. -/
theorem perm_map {α β} (f : α → β) : ∀ {l' : List β} {l : List α}, l'.Perm (l.map f) → ∃ k : List α, k.Perm l ∧ l' = k.map f := by
  intro l' l h
  generalize hm : l.map f = m at h
  induction h generalizing l with
  | nil => exact ⟨l, .refl _, hm.symm⟩
  | @cons x a b _ ih =>
    cases l with
    | nil => exact absurd hm (by simp)
    | cons y l =>
      obtain ⟨h1, h2⟩ := List.cons.inj hm
      obtain ⟨k, h3, h4⟩ := ih h2
      exact ⟨y :: k, h3.cons y, by rw [h4, ← h1]; rfl⟩
  | swap x y a =>
    match l, hm with
    | p :: q :: l, hm =>
      obtain ⟨h1, h2⟩ := List.cons.inj hm
      obtain ⟨h3, h4⟩ := List.cons.inj h2
      exact ⟨q :: p :: l, .swap p q l, by rw [← h1, ← h3, ← h4]; rfl⟩
  | trans _ _ ih1 ih2 =>
    obtain ⟨k, h1, h2⟩ := ih2 hm
    obtain ⟨k', h3, h4⟩ := ih1 h2.symm
    exact ⟨k', h3.trans h1, h4⟩

/-- Names `a.gray`, `aa.gray`, … -/
def nameN : Nat → List Str
  | 0 => []
  | n + 1 => (List.replicate (n + 1) 97 ++ lit ".gray") :: nameN n

theorem nameN_len : ∀ n, (nameN n).length = n
  | 0 => rfl
  | n + 1 => congrArg (· + 1) (nameN_len n)

theorem nameN_mem : ∀ {n x}, x ∈ nameN n → ∃ k, k ≤ n ∧ k ≥ 1 ∧ x = List.replicate k 97 ++ lit ".gray"
  | 0, _, h => absurd h (by simp [nameN])
  | n + 1, x, h => by
    rcases List.mem_cons.mp h with h | h
    · exact ⟨n + 1, by omega, by omega, h⟩
    · obtain ⟨k, h1, h2, h3⟩ := nameN_mem h
      exact ⟨k, by omega, h2, h3⟩

theorem nameN_nodup : ∀ n, (nameN n).Nodup
  | 0 => List.nodup_nil
  | n + 1 => by
    refine List.nodup_cons.mpr ⟨fun h => ?_, nameN_nodup n⟩
    obtain ⟨k, h1, _, h3⟩ := nameN_mem h
    have := congrArg List.length h3
    simp only [List.length_append, List.length_replicate] at this
    omega

theorem nameN_source (n : Nat) : (nameN n).filter (fun n => decide (n.head? ≠ some 46) && (lit ".gray").isSuffixOf n) = nameN n := by
  rw [List.filter_eq_self]
  intro x hx
  obtain ⟨k, _, h2, rfl⟩ := nameN_mem hx
  have : (List.replicate k (97 : Byte) ++ lit ".gray").head? = some 97 := by
    cases k with
    | zero => omega
    | succ k => rfl
  rw [this, List.isSuffixOf_iff_suffix.mpr ⟨_, rfl⟩]
  rfl

end Mg

/-- Of 257 files one is left out. -/
theorem C182_witness (dir : Str) : (scanDir dir (Mg.nameN 257)).length ≤ 256 := by
  unfold scanDir
  rw [(Mg.sort_perm _).length_eq, List.length_map]
  exact List.length_take_le _ _

theorem C182_fails : ¬ C182_statement := by
  intro h
  obtain ⟨l, h1, h2, _⟩ := h (lit "lib") (Mg.nameN 257) (Mg.nameN_nodup 257)
  rw [Mg.nameN_source] at h1
  have h3 := C182_witness (lit "lib")
  rw [h2, List.length_map, h1.length_eq, Mg.nameN_len] at h3
  exact absurd h3 (by decide)

/-- **C182 (partial).** It holds for up to 256 source files with paths of up to 2047 bytes, none of which is named just `.gray` (that
is a hidden file). -/
theorem C182_partial (dir : Str) (entries : List Str)
    (hn : (entries.filter fun n => decide (n.head? ≠ some 46) && (lit ".gray").isSuffixOf n).length ≤ 256)
    (hl : ∀ n ∈ entries, dir.length + n.length ≤ 2046) :
    ∃ l : List Str, l.Perm (entries.filter fun n => decide (n.head? ≠ some 46) && (lit ".gray").isSuffixOf n) ∧
      scanDir dir entries = l.map (fun n => dir ++ lit "/" ++ n) ∧ (scanDir dir entries).Pairwise PathLe := by
  have ef : (entries.filter fun n => n.head? != some 46 && (decide (n.length ≥ 6) && (lit ".gray").isSuffixOf n)) =
      entries.filter fun n => decide (n.head? ≠ some 46) && (lit ".gray").isSuffixOf n := by
    refine List.filter_congr fun n _ => ?_
    rw [Bool.eq_iff_iff]
    simp only [Bool.and_eq_true, bne_iff_ne, decide_eq_true_eq]
    constructor
    · rintro ⟨h1, _, h2⟩; exact ⟨h1, h2⟩
    · rintro ⟨h1, h2⟩
      refine ⟨h1, ?_, h2⟩
      obtain ⟨s, rfl⟩ := List.isSuffixOf_iff_suffix.mp h2
      have eg : lit ".gray" = [46, 103, 114, 97, 121] := by decide
      cases s with
      | nil => exact absurd (by rw [eg]; rfl) h1
      | cons c s => rw [eg]; simp
  have e : scanDir dir entries = sortPaths ((entries.filter fun n => decide (n.head? ≠ some 46) && (lit ".gray").isSuffixOf n).map
      fun n => dir ++ lit "/" ++ n) := by
    unfold scanDir
    rw [ef]
    simp only []
    rw [List.take_of_length_le hn]
    congr 1
    refine List.map_congr_left fun n hm => ?_
    have := hl n (List.mem_filter.mp hm).1
    rw [show lit "/" = [47] by decide]
    exact List.take_of_length_le (by simp only [List.length_append, List.length_cons, List.length_nil]; omega)
  rw [e]
  obtain ⟨k, h1, h2⟩ := Mg.perm_map _ (Mg.sort_perm _)
  exact ⟨k, h1, h2, Mg.sort_sorted _⟩

example : scanDir (lit "d") [lit "b.gray", lit ".h.gray", lit "a.gray", lit "x.txt"] = [lit "d/a.gray", lit "d/b.gray"] := by decide +kernel

/-! ## C183: every import is usable -/

/-- **C183.** If the imports are accepted, the declarations of each imported file are there under the name it was imported with. -/
def C183_statement : Prop :=
  ∀ (main : Str) (decls : Str → List Str) (imports : List (Str × Str)),
    let q := importAll main (imports.map fun i => ⟨i.1, i.2, decls i.2⟩)
    q.error = false → ∀ i ∈ imports, ∀ d ∈ decls i.2, prefixed i.1 d ∈ q.merged

/-- `import a"./lib.gray"` in one file and `import b"./lib.gray"` in another. -/
theorem C183_witness : importAll (lit "main.gray") [⟨lit "a", lit "lib.gray", [lit "f"]⟩, ⟨lit "b", lit "lib.gray", [lit "f"]⟩] =
    ⟨[(lit "a", lit "lib.gray"), (lit "b", lit "lib.gray")], [lit "lib.gray", lit "main.gray"], [lit "a_f"], false⟩ := by decide +kernel

theorem C183_fails : ¬ C183_statement := by
  intro h
  have h2 := h (lit "main.gray") (fun _ => [lit "f"]) [(lit "a", lit "lib.gray"), (lit "b", lit "lib.gray")]
  have h3 : (importAll (lit "main.gray") [⟨lit "a", lit "lib.gray", [lit "f"]⟩, ⟨lit "b", lit "lib.gray", [lit "f"]⟩]).error = false →
    ∀ i ∈ [(lit "a", lit "lib.gray"), (lit "b", lit "lib.gray")], ∀ d ∈ [lit "f"], prefixed i.1 d ∈
      (importAll (lit "main.gray") [⟨lit "a", lit "lib.gray", [lit "f"]⟩, ⟨lit "b", lit "lib.gray", [lit "f"]⟩]).merged := h2
  rw [C183_witness] at h3
  exact absurd (h3 rfl (lit "b", lit "lib.gray") (by decide) (lit "f") (by decide)) (by decide +kernel)

namespace Mg

/-- What has been merged so far. -/
structure Usable (main : Str) (decls : Str → List Str) (all : List (Str × Str)) (q : Queue) : Prop where
  seen : ∀ s ∈ q.seen, ∀ d ∈ decls s.2, prefixed s.1 d ∈ q.merged
  files : ∀ p ∈ q.files, p = main ∨ ∃ n, (n, p) ∈ all ∧ ∀ d ∈ decls p, prefixed n d ∈ q.merged

theorem item_error {q : Queue} {it : Item} (h : q.error = true) : (importItem q it).error = true := by
  unfold importItem
  split
  · split
    · exact h
    · rfl
  · dsimp only
    split <;> exact h

theorem item_merged {q : Queue} {it : Item} {x : Str} (h : x ∈ q.merged) : x ∈ (importItem q it).merged := by
  unfold importItem
  split
  · split <;> exact h
  · dsimp only
    split
    · exact h
    · exact List.mem_append_left _ h

theorem all_error : ∀ (l : List Item) {q : Queue}, q.error = true → (l.foldl importItem q).error = true
  | [], _, h => h
  | _ :: l, _, h => all_error l (item_error h)

theorem all_merged : ∀ (l : List Item) {q : Queue} {x : Str}, x ∈ q.merged → x ∈ (l.foldl importItem q).merged
  | [], _, _, h => h
  | _ :: l, _, _, h => all_merged l (item_merged h)

theorem item_usable {main : Str} {decls : Str → List Str} {all : List (Str × Str)} {q : Queue} {i : Str × Str} (hi : i ∈ all)
    (hm : i.2 ≠ main) (hf : ∀ a ∈ all, a.2 = i.2 → a.1 = i.1) (h : Usable main decls all q)
    (he : (importItem q ⟨i.1, i.2, decls i.2⟩).error = false) :
    Usable main decls all (importItem q ⟨i.1, i.2, decls i.2⟩) ∧ ∀ d ∈ decls i.2, prefixed i.1 d ∈ (importItem q ⟨i.1, i.2, decls i.2⟩).merged := by
  cases hs : q.seen.find? (fun s => s.1 == i.1) with
  | some s =>
    have hs1 : s.1 = i.1 := by simpa using List.find?_some hs
    have hmem : s ∈ q.seen := List.mem_of_find?_eq_some hs
    have e : importItem q ⟨i.1, i.2, decls i.2⟩ = if s.2 = i.2 then q else { q with error := true } := by
      unfold importItem
      simp only [hs]
    by_cases hp : s.2 = i.2
    · rw [if_pos hp] at e
      rw [e]
      refine ⟨h, fun d hd => ?_⟩
      rw [← hs1]
      exact h.seen s hmem d (by rw [hp]; exact hd)
    · rw [if_neg hp] at e
      rw [e] at he
      exact absurd he (by simp)
  | none =>
    have e : importItem q ⟨i.1, i.2, decls i.2⟩ = if i.2 ∈ q.files then { q with seen := if q.seen.length < 256 then q.seen ++ [(i.1, i.2)] else q.seen }
        else ⟨if q.seen.length < 256 then q.seen ++ [(i.1, i.2)] else q.seen, i.2 :: q.files, q.merged ++ (decls i.2).map (prefixed i.1), q.error⟩ := by
      unfold importItem
      simp only [hs]
    have seen : ∀ s ∈ (if q.seen.length < 256 then q.seen ++ [(i.1, i.2)] else q.seen), s ∈ q.seen ∨ s = i := by
      intro s hs
      by_cases hl : q.seen.length < 256
      · rw [if_pos hl] at hs
        rcases List.mem_append.mp hs with hs | hs
        · exact .inl hs
        · exact .inr (List.mem_singleton.mp hs)
      · rw [if_neg hl] at hs
        exact .inl hs
    by_cases hp : i.2 ∈ q.files
    · rw [if_pos hp] at e
      rw [e]
      have here : ∀ d ∈ decls i.2, prefixed i.1 d ∈ q.merged := by
        rcases h.files i.2 hp with hq | ⟨n, h1, h2⟩
        · exact absurd hq hm
        · have : n = i.1 := hf (n, i.2) h1 rfl
          rw [← this]; exact h2
      refine ⟨⟨fun s hs => ?_, h.files⟩, here⟩
      rcases seen s hs with hs | rfl
      · exact h.seen s hs
      · exact here
    · rw [if_neg hp] at e
      rw [e]
      have here : ∀ d ∈ decls i.2, prefixed i.1 d ∈ q.merged ++ (decls i.2).map (prefixed i.1) := fun d hd =>
        List.mem_append_right _ (List.mem_map.mpr ⟨d, hd, rfl⟩)
      refine ⟨⟨fun s hs => ?_, fun p hp' => ?_⟩, here⟩
      · rcases seen s hs with hs | rfl
        · exact fun d hd => List.mem_append_left _ (h.seen s hs d hd)
        · exact here
      · rcases List.mem_cons.mp hp' with rfl | hp'
        · exact .inr ⟨i.1, hi, here⟩
        · rcases h.files p hp' with h1 | ⟨n, h1, h2⟩
          · exact .inl h1
          · exact .inr ⟨n, h1, fun d hd => List.mem_append_left _ (h2 d hd)⟩

theorem all_usable {main : Str} {decls : Str → List Str} {all : List (Str × Str)} (hm : ∀ a ∈ all, a.2 ≠ main)
    (hf : ∀ a ∈ all, ∀ b ∈ all, a.2 = b.2 → a.1 = b.1) : ∀ (l : List (Str × Str)) {q : Queue}, (∀ a ∈ l, a ∈ all) → Usable main decls all q →
    ((l.map fun i => (⟨i.1, i.2, decls i.2⟩ : Item)).foldl importItem q).error = false →
    ∀ i ∈ l, ∀ d ∈ decls i.2, prefixed i.1 d ∈ ((l.map fun i => (⟨i.1, i.2, decls i.2⟩ : Item)).foldl importItem q).merged
  | [], _, _, _, _, _, hi => absurd hi (by simp)
  | a :: l, q, hl, h, he, i, hi => by
    have he' : (importItem q ⟨a.1, a.2, decls a.2⟩).error = false := by
      cases hc : (importItem q ⟨a.1, a.2, decls a.2⟩).error with
      | false => rfl
      | true =>
        have := all_error (l.map fun i => (⟨i.1, i.2, decls i.2⟩ : Item)) hc
        have he : (List.foldl importItem (importItem q ⟨a.1, a.2, decls a.2⟩) (l.map fun i => (⟨i.1, i.2, decls i.2⟩ : Item))).error = false := he
        rw [this] at he
        exact absurd he (by decide)
    have ha := hl a List.mem_cons_self
    obtain ⟨h1, h2⟩ := item_usable ha (hm a ha) (fun b hb e => hf b hb a ha e) h he'
    rcases List.mem_cons.mp hi with rfl | hi
    · intro d hd
      rw [List.map_cons, List.foldl_cons]
      exact all_merged _ (h2 d hd)
    · exact all_usable hm hf l (fun b hb => hl b (List.mem_cons_of_mem _ hb)) h1 he i hi

end Mg

/-- **C183 (partial).** It holds if no file is imported under two names and the entry file is not imported. -/
theorem C183_partial (main : Str) (decls : Str → List Str) (imports : List (Str × Str)) (hm : ∀ a ∈ imports, a.2 ≠ main)
    (hf : ∀ a ∈ imports, ∀ b ∈ imports, a.2 = b.2 → a.1 = b.1)
    (he : (importAll main (imports.map fun i => ⟨i.1, i.2, decls i.2⟩)).error = false) :
    ∀ i ∈ imports, ∀ d ∈ decls i.2, prefixed i.1 d ∈ (importAll main (imports.map fun i => ⟨i.1, i.2, decls i.2⟩)).merged :=
  Mg.all_usable hm hf imports (fun _ h => h)
    ⟨fun s hs => absurd hs (by simp), fun p hp => .inl (List.mem_singleton.mp hp)⟩ he

example : (importAll (lit "main.gray") [⟨lit "a", lit "a.gray", [lit "f"]⟩, ⟨lit "b", lit "b.gray", [lit "g"]⟩]).error = false := by decide +kernel

end Verif.Props

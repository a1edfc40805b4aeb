import Verif.Props.CallForms

/-!
# Names of functions, calls through variables and modules
-/

namespace Verif.Props
open Verif Verif.Str Verif.Calls

/-! ## C286 -/

/-- **C286.** Functions may have any names, as long as no two functions have the same full name: for functions of modules this includes the module, for functions of
structs the struct. -/
def C286_statement : Prop := ∀ p : Prog, (p.allFuncs.map (·.name)).Nodup → p.declsOk = true

namespace Us

/-- The imported module `lib` has a function `helper`, and so has the main file. (The functions of imported modules come first.) -/
def helpers : Prog where
  decls := [.func ⟨lit "lib_helper", lit "lib", false, []⟩, .func ⟨lit "helper", lit "m", false, []⟩]
  imports := [(lit "lib", false)]
  aliases := []
  usings := []

end Us

set_option maxRecDepth 100000 in
/-- "function 'helper' already declared" -/
theorem C286_witness : (Us.helpers.allFuncs.map (·.name)).Nodup ∧ Us.helpers.declsOk = false := by decide +kernel

/-- **C286 is false.** -/
theorem C286_fails : ¬ C286_statement := fun h => by
  have := h Us.helpers C286_witness.1
  rw [C286_witness.2] at this
  cases this

namespace Us

/-- The functions of a declaration, as the code generator names them. -/
def funs : Decl → List Fn
  | .func f => [f]
  | .struct s _ fns => fns.map fun f => { f with name := sub s f.name }

theorem allFuncs_eq (p : Prog) : p.allFuncs = p.decls.flatMap funs := by
  unfold Prog.allFuncs
  congr 1

theorem entries_mem {im : List (Str × Bool)} {d : Decl} {e : Str × Fn} (h : e ∈ entries im d) :
    e.2 ∈ funs d ∧ (e.1 = e.2.name ∨ afterUnderscore e.2.name = some e.1) := by
  cases d with
  | func f =>
    rcases List.mem_cons.1 h with q | q
    · rw [q]; exact ⟨List.mem_cons_self, Or.inl rfl⟩
    · obtain ⟨k, hk, hq⟩ := Option.map_eq_some_iff.1 (Option.mem_toList.1 q)
      rw [← hq]; exact ⟨List.mem_cons_self, Or.inr (second_after hk)⟩
  | struct s fs fns =>
    obtain ⟨f, hf, hq⟩ := List.mem_map.1 h
    rw [← hq]
    exact ⟨List.mem_map.2 ⟨f, hf, rfl⟩, Or.inl rfl⟩

theorem dup_true {im : List (Str × Bool)} : ∀ {ds : List Decl} {reg : List (Str × Fn)}, dupFrom im reg ds = true →
    ∃ pre f post, ds = pre ++ .func f :: post ∧ ∃ e, (e ∈ reg ∨ ∃ d ∈ pre, e ∈ entries im d) ∧ e.1 = f.name
  | [], _, h => by cases h
  | d :: ds, reg, h => by
    have h' := Bool.or_eq_true_iff.1 (show (declared reg d || dupFrom im (reg ++ entries im d) ds) = true from h)
    rcases h' with q | q
    · cases d with
      | struct s fs fns => cases q
      | func f =>
        obtain ⟨e, he, q⟩ := List.any_eq_true.1 q
        exact ⟨[], f, ds, rfl, e, Or.inl he, beq_iff_eq.1 q⟩
    · obtain ⟨pre, f, post, e1, e, he, e2⟩ := dup_true q
      refine ⟨d :: pre, f, post, by rw [e1]; rfl, e, ?_, e2⟩
      rcases he with he | ⟨d', hd, he⟩
      · rcases List.mem_append.1 he with he | he
        · exact Or.inl he
        · exact Or.inr ⟨d, List.mem_cons_self, he⟩
      · exact Or.inr ⟨d', List.mem_cons_of_mem _ hd, he⟩

/-- Names of functions of one struct. -/
theorem nodup_struct {ds : List Decl} (h : ((ds.flatMap funs).map (·.name)).Nodup) {s : Str} {fs : List Str} {fns : List Fn} (hd : .struct s fs fns ∈ ds) :
    (fns.map (·.name)).Nodup := by
  obtain ⟨a, b, e⟩ := List.append_of_mem hd
  rw [e, List.flatMap_append, List.flatMap_cons, List.map_append, List.map_append] at h
  have h1 := (List.nodup_append.1 (List.nodup_append.1 h).2.1).1
  have h2 : (funs (.struct s fs fns)).map (·.name) = (fns.map (·.name)).map (sub s) := by
    show (fns.map fun f => ({ f with name := sub s f.name } : Fn)).map (·.name) = _
    rw [List.map_map, List.map_map]; rfl
  rw [h2] at h1
  exact (List.pairwise_map.1 h1).imp fun hab q => hab (congrArg _ q)

end Us

namespace Us

theorem after_iff {s r : Str} : afterUnderscore s = some r ↔ ∃ a, (95 : Byte) ∉ a ∧ s = a ++ 95 :: r := by
  induction s with
  | nil =>
    refine Iff.intro (fun h => by simp [afterUnderscore] at h) ?_
    rintro ⟨a, _, h⟩
    simp at h
  | cons c s ih =>
    unfold afterUnderscore
    by_cases hc : c = 95
    · rw [if_pos hc]
      constructor
      · intro h
        exact ⟨[], List.not_mem_nil, by rw [hc, Option.some.inj h]; rfl⟩
      · rintro ⟨a, ha, h⟩
        cases a with
        | nil => rw [(List.cons.inj h).2]
        | cons b a => exact absurd (List.mem_cons.2 (Or.inl (hc.symm.trans (List.cons.inj h).1))) ha
    · rw [if_neg hc, ih]
      constructor
      · rintro ⟨a, ha, h⟩
        exact ⟨c :: a, fun hm => (List.mem_cons.1 hm).elim (fun q => hc q.symm) ha, by rw [h]; rfl⟩
      · rintro ⟨a, ha, h⟩
        cases a with
        | nil => exact absurd (List.cons.inj h).1 hc
        | cons b a => exact ⟨a, fun hm => ha (List.mem_cons_of_mem _ hm), (List.cons.inj h).2⟩

end Us

/-- **C286, what holds**: if, besides, no function is called like the rest of another's name after the first underscore. Missing: functions with such names. -/
theorem C286_partial (p : Prog) (h : (p.allFuncs.map (·.name)).Nodup)
    (hs : ∀ f ∈ p.allFuncs, ∀ g ∈ p.allFuncs, ¬ ∃ a, (95 : Byte) ∉ a ∧ f.name = a ++ 95 :: g.name) : p.declsOk = true := by
  replace hs : ∀ f ∈ p.allFuncs, ∀ g ∈ p.allFuncs, afterUnderscore f.name ≠ some g.name := fun f hf g hg q => hs f hf g hg (Us.after_iff.1 q)
  unfold Prog.declsOk
  rw [Us.allFuncs_eq] at h hs
  refine Bool.and_eq_true_iff.2 ⟨?_, List.all_eq_true.2 fun d hd => ?_⟩
  · cases q : dupFrom p.imports [] p.decls with
    | false => rfl
    | true =>
      obtain ⟨pre, f, post, e1, e, he, e2⟩ := Us.dup_true q
      rcases he with he | ⟨d, hd, he⟩
      · cases he
      · obtain ⟨h1, h2⟩ := Us.entries_mem he
        have m1 : e.2 ∈ pre.flatMap Us.funs := List.mem_flatMap.2 ⟨d, hd, h1⟩
        rw [e1, List.flatMap_append, List.flatMap_cons] at h hs
        rcases h2 with h2 | h2
        · rw [List.map_append] at h
          have := (List.nodup_append.1 h).2.2 _ (List.mem_map.2 ⟨_, m1, rfl⟩) f.name
            (List.mem_map.2 ⟨f, List.mem_append.2 (Or.inl List.mem_cons_self), rfl⟩)
          exact absurd (h2.symm.trans e2) this
        · exact absurd (h2.trans (congrArg some e2))
            (hs _ (List.mem_append.2 (Or.inl m1)) f (List.mem_append.2 (Or.inr (List.mem_append.2 (Or.inl List.mem_cons_self)))))
  · cases d with
    | func f => rfl
    | struct s fs fns => exact decide_eq_true (Us.nodup_struct h hd)

/-- The hypotheses hold for the functions of a module, of a struct and of the main file. -/
example : (Us.geo.allFuncs.map (·.name)).Nodup ∧ ∀ f ∈ Us.geo.allFuncs, ∀ g ∈ Us.geo.allFuncs, ¬ ∃ a, (95 : Byte) ∉ a ∧ f.name = a ++ 95 :: g.name := by
  have h : (Us.geo.allFuncs.map (·.name)).Nodup ∧ ∀ f ∈ Us.geo.allFuncs, ∀ g ∈ Us.geo.allFuncs, afterUnderscore f.name ≠ some g.name := by
    decide +kernel
  exact ⟨h.1, fun f hf g hg q => h.2 f hf g hg (Us.after_iff.2 q)⟩

/-! ## C287 -/

/-- A variable of a struct type is before the dot: nothing else has its name, and the struct has the function but no such field. -/
structure Us.Instance (p : Prog) (vs : Vars) (x m s : Str) (f : Fn) : Prop where
  var : vs.get x = some (.struct s)
  notImport : ∀ i ∈ p.imports, i.1 ≠ x
  notAlias : p.real x = x
  notLib : x ∉ Names.moduleNames
  notStruct : p.isStruct x = false
  noField : p.hasFnField s m = false
  mem : f ∈ p.allFuncs
  name : f.name = sub s m
  self : selfFn s f = true
  notPriv : f.priv = false
  unique : ∀ g ∈ p.allFuncs, (g.name = sub s m → g = f) ∧ afterUnderscore g.name ≠ some (sub s m)

/-- **C287.** A call `x.m(…)`, where `x` is a variable with a struct type that has a function `m`, calls this function with `x` as the first argument. -/
def C287_statement : Prop :=
  ∀ (p : Prog) (inside : Option Str) (vs : Vars) (x m s : Str) (k : Nat) (f : Fn), p.declsOk = true → Us.Instance p vs x m s f → f.counts (k + 1) = true →
    p.checkMember inside vs x m k = (.ok (.fn (sub s m)) true, s, true)

namespace Us

def move : Fn := ⟨lit "Player_move", lit "m", false, [param "Player"]⟩

/-- A struct with a function `move`, and another function `p_move`. -/
def players : Prog where
  decls := [.struct (lit "Player") [] [⟨lit "move", lit "m", false, [param "Player"]⟩], .func ⟨lit "p_move", lit "m", false, [param "int"]⟩]
  imports := []
  aliases := []
  usings := []

end Us

set_option maxRecDepth 100000 in
/-- `p.move()` for a variable `p` is a call of `p_move`, which is not checked, and gets `0`. -/
theorem C287_witness : Us.players.declsOk = true ∧ Us.move.counts 1 = true ∧
    Us.players.checkMember none [(lit "p", .struct (lit "Player"))] (lit "p") (lit "move") 0 = (.ok (.fn (lit "p_move")) false, lit "p", false) ∧
    Us.players.emitMember [(lit "p", .struct (lit "Player"))] (lit "p") (lit "move") = some (.fn (lit "p_move")) := by decide +kernel

set_option maxRecDepth 100000 in
theorem Us.players_instance : Us.Instance Us.players [(lit "p", .struct (lit "Player"))] (lit "p") (lit "move") (lit "Player") Us.move where
  var := by decide +kernel
  notImport := by decide +kernel
  notAlias := by decide +kernel
  notLib := by decide +kernel
  notStruct := by decide +kernel
  noField := by decide +kernel
  mem := by decide +kernel
  name := by decide +kernel
  self := by decide +kernel
  notPriv := by decide +kernel
  unique := by decide +kernel

/-- **C287 is false.** -/
theorem C287_fails : ¬ C287_statement := fun h => by
  have w := C287_witness
  have := h _ none _ _ _ _ 0 _ w.1 Us.players_instance w.2.1
  rw [w.2.2.1] at this
  have := congrArg (fun q => q.2.2) this
  cases this

/-- **C287, what holds**: if there is no function `x_m`, and none whose name ends with `_x_m` after the first underscore; and the code generator calls the same
function then, if the struct is not called like a library module or an alias. Missing: functions with such names. -/
theorem C287_partial (p : Prog) (inside : Option Str) (vs : Vars) (x m s : Str) (k : Nat) (f : Fn) (hi : Us.Instance p vs x m s f)
    (hk : f.counts (k + 1) = true) (hx : ∀ g ∈ p.allFuncs, g.name ≠ sub x m ∧ afterUnderscore g.name ≠ some (sub x m)) :
    p.checkMember inside vs x m k = (.ok (.fn (sub s m)) true, s, true) ∧
      (p.real s = s → s ∉ Names.moduleNames → p.emitMember vs s m = some (.fn (sub s m))) := by
  have hstd : p.stdImport x = false := by
    unfold Prog.stdImport
    rw [List.find?_eq_none.2 fun i hi' q => hi.notImport i hi' (beq_iff_eq.1 q)]
    rfl
  have hlib : Names.moduleNames.contains x = false := by
    cases q : Names.moduleNames.contains x with
    | false => rfl
    | true => exact absurd (List.contains_iff_mem.1 q) hi.notLib
  have hfind : p.findFunc (sub s m) = some f := by
    cases q : p.findFunc (sub s m) with
    | none =>
      have := (Us.find_none_iff p _).1 (Us.findFunc_none q) f hi.mem
      exact absurd hi.name this
    | some g =>
      obtain ⟨hm, r | r⟩ := Us.findFunc_some q
      · rw [(hi.unique g hm).1 r.symm]
      · exact absurd r (hi.unique g hm).2
  constructor
  · unfold Prog.checkMember
    dsimp only
    rw [hstd, hi.notAlias, hlib, hi.notStruct, Us.findFunc_none_iff (fun g hg => (hx g hg).1) fun g hg => (hx g hg).2, hi.var]
    dsimp only
    rw [hi.noField, hfind]
    dsimp only
    rw [hi.self, hi.notPriv, hk, hi.name]
    rfl
  · intro hr hl
    unfold Prog.emitMember
    dsimp only
    rw [hr]
    have : inTable funcToMod s m = false := by
      cases q : inTable funcToMod s m with
      | false => rfl
      | true => exact absurd (Us.table_module q) hl
    rw [this]
    obtain ⟨g, hg, hn⟩ := Us.find_of_mem hi.mem hi.name
    rw [hg]
    dsimp only
    rw [hn]
    rfl

/-! ## C288 -/

/-- **C288.** A call `x.m(…)` is compiled as a call of the function against which it has been checked. -/
def C288_statement : Prop :=
  ∀ (p : Prog) (inside : Option Str) (vs : Vars) (x m : Str) (k : Nat) (full y : Str) (c b : Bool), p.declsOk = true →
    p.checkMember inside vs x m k = (.ok (.fn full) c, y, b) → p.emitMember vs y m = some (.fn full)

namespace Us

/-- An own module `server` with a function `listen`. -/
def server : Prog where
  decls := [.func ⟨lit "server_listen", lit "server", false, [param "int", param "int"]⟩]
  imports := [(lit "server", false)]
  aliases := []
  usings := []

end Us

set_option maxRecDepth 100000 in
/-- The checker takes care of it, the code generator does not: the library's function is called. -/
theorem C288_witness : Us.server.declsOk = true ∧
    Us.server.checkMember none [] (lit "server") (lit "listen") 2 = (.ok (.fn (lit "server_listen")) false, lit "server", false) ∧
    Us.server.emitMember [] (lit "server") (lit "listen") = some (.lib (lit "server") (lit "listen")) := by decide +kernel

/-- **C288 is false.** -/
theorem C288_fails : ¬ C288_statement := fun h => by
  have w := C288_witness
  have := h _ _ _ _ _ _ _ _ _ _ w.1 w.2.1
  rw [w.2.2] at this
  cases this

/-- **C288, what holds**: if what is before the dot (after the checker's rewriting) is not called like a library module, structs are not called like an alias, and
no function is called like another one's rest after the underscore. Missing: the rest. -/
theorem C288_partial (p : Prog) (inside : Option Str) (vs : Vars) (x m : Str) (k : Nat) (full y : Str) (c b : Bool)
    (hl : p.real y ∉ Names.moduleNames) (ha : ∀ s, vs.get x = some (.struct s) → p.real s = s)
    (hs : ∀ f ∈ p.allFuncs, ∀ s : Str, afterUnderscore f.name ≠ some (sub s m))
    (h : p.checkMember inside vs x m k = (.ok (.fn full) c, y, b)) : p.emitMember vs y m = some (.fn full) := by
  have key : ∀ {r : Str} {f : Fn}, p.findFunc (sub r m) = some f → p.real y = r → f.name = full → p.emitMember vs y m = some (.fn full) := by
    intro r f hf hr hn
    obtain ⟨hm, q | q⟩ := Us.findFunc_some hf
    · obtain ⟨g, hg, hgn⟩ := Us.find_of_mem hm q.symm
      unfold Prog.emitMember
      dsimp only
      have : inTable funcToMod (p.real y) m = false := by
        cases q : inTable funcToMod (p.real y) m with
        | false => rfl
        | true => exact absurd (Us.table_module q) hl
      rw [this, hr, hg]
      dsimp only
      rw [hgn, q, hn]
      rfl
    · exact absurd q (hs f hm r)
  have pick : ∀ {cond : Bool} {f : Fn} {c' b' : Bool} {y' : Str},
      ((if cond then Chk.err else .ok (.fn f.name) c'), y', b') = (Chk.ok (.fn full) c, y, b) → f.name = full ∧ y' = y := by
    intro cond f c' b' y' e
    have e1 := congrArg Prod.fst e
    refine ⟨?_, congrArg (fun q => q.2.1) e⟩
    dsimp only at e1
    split at e1
    · cases e1
    · cases e1; rfl
  unfold Prog.checkMember at h
  dsimp only at h
  split at h
  · split at h <;> cases h
  split at h
  · cases h
  split at h
  · split at h
    · cases h
    · rename_i f hf
      obtain ⟨e1, e2⟩ := pick h
      exact key hf (by rw [← e2]) e1
  · split at h
    · rename_i f hf
      obtain ⟨e1, e2⟩ := pick h
      exact key hf (by rw [← e2]) e1
    · split at h
      · rename_i s hv
        split at h
        · cases h
        · split at h
          · cases h
          · rename_i f hf
            split at h
            · obtain ⟨e1, e2⟩ := pick h
              exact key hf (by rw [← e2]; exact ha s hv) e1
            · obtain ⟨e1, e2⟩ := pick h
              exact key hf (by rw [← e2]; exact ha s hv) e1
      · cases h

/-! ## C289 -/

/-- **C289.** In an accepted program different functions have different names in C. -/
def C289_statement : Prop := ∀ p : Prog, p.declsOk = true → (p.allFuncs.map fun f => cFn f.name).Nodup

namespace Us

/-- `struct Node` with a function `tree_size`, and `struct Node_tree` with a function `size`. -/
def nodes : Prog where
  decls := [.struct (lit "Node") [] [⟨lit "tree_size", lit "m", false, []⟩], .struct (lit "Node_tree") [] [⟨lit "size", lit "m", false, []⟩]]
  imports := []
  aliases := []
  usings := []

end Us

set_option maxRecDepth 100000 in
theorem C289_witness : Us.nodes.declsOk = true ∧
    (Us.nodes.allFuncs.map fun f => cFn f.name) = [lit "gray_fn_Node_tree_size", lit "gray_fn_Node_tree_size"] := by decide +kernel

/-- **C289 is false.** -/
theorem C289_fails : ¬ C289_statement := fun h => by
  have := h Us.nodes C289_witness.1
  rw [C289_witness.2] at this
  exact absurd this (by decide)

namespace Us

theorem sub_inj : ∀ {s s' f f' : Str}, (95 : Byte) ∉ s → (95 : Byte) ∉ s' → sub s f = sub s' f' → s = s' ∧ f = f'
  | [], [], f, f', _, _, h => ⟨rfl, (List.cons.inj h).2⟩
  | [], c :: s', f, f', _, h2, h => absurd (List.cons.inj h).1 fun e => h2 (e ▸ List.mem_cons_self)
  | c :: s, [], f, f', h1, _, h => absurd (List.cons.inj h).1 fun e => h1 (e ▸ List.mem_cons_self)
  | c :: s, c' :: s', f, f', h1, h2, h => by
    obtain ⟨e, h⟩ := List.cons.inj (show c :: sub s f = c' :: sub s' f' from h)
    obtain ⟨e1, e2⟩ := sub_inj (fun q => h1 (List.mem_cons_of_mem _ q)) (fun q => h2 (List.mem_cons_of_mem _ q)) h
    rw [e, e1]; exact ⟨rfl, e2⟩

theorem dup_false {im : List (Str × Bool)} : ∀ {ds : List Decl} {reg : List (Str × Fn)}, dupFrom im reg ds = false →
    ∀ f, Decl.func f ∈ ds → ∀ e ∈ reg, e.1 ≠ f.name
  | [], _, _, f, hf, _, _ => by cases hf
  | d :: ds, reg, h, f, hf, e, he => by
    have h' := Bool.or_eq_false_iff.1 (show (declared reg d || dupFrom im (reg ++ entries im d) ds) = false from h)
    rcases List.mem_cons.1 hf with q | q
    · subst q
      intro e2
      have := List.any_eq_false.1 h'.1 e he
      exact this (beq_iff_eq.2 e2)
    · exact dup_false h'.2 f q e (List.mem_append.2 (Or.inl he))

/-- Names of structs, in order. -/
def structNames (ds : List Decl) : List Str := ds.filterMap fun d => match d with
  | .struct s _ _ => some s
  | .func _ => none

theorem mem_structNames {ds : List Decl} {s : Str} {fs : List Str} {fns : List Fn} (h : .struct s fs fns ∈ ds) : s ∈ structNames ds :=
  List.mem_filterMap.2 ⟨_, h, rfl⟩

theorem nodup_all {im : List (Str × Bool)} : ∀ {ds : List Decl} {reg : List (Str × Fn)}, dupFrom im reg ds = false → (structNames ds).Nodup →
    (∀ s ∈ structNames ds, (95 : Byte) ∉ s) → (∀ f, Decl.func f ∈ ds → ∀ s ∈ structNames ds, ∀ r, f.name ≠ sub s r) →
    (∀ s fs fns, Decl.struct s fs fns ∈ ds → (fns.map (·.name)).Nodup) → ((ds.flatMap funs).map (·.name)).Nodup
  | [], _, _, _, _, _, _ => List.nodup_nil
  | d :: ds, reg, h, h1, h2, h3, h4 => by
    have h' := (Bool.or_eq_false_iff.1 (show (declared reg d || dupFrom im (reg ++ entries im d) ds) = false from h)).2
    have sub1 : ∀ s ∈ structNames ds, s ∈ structNames (d :: ds) := by
      intro s hs
      obtain ⟨d', hd, e⟩ := List.mem_filterMap.1 hs
      exact List.mem_filterMap.2 ⟨d', List.mem_cons_of_mem _ hd, e⟩
    have nd : (structNames ds).Nodup := by
      unfold structNames at h1 ⊢
      rw [List.filterMap_cons] at h1
      split at h1
      · exact h1
      · exact (List.nodup_cons.1 h1).2
    have ih := nodup_all h' nd (fun s hs => h2 s (sub1 s hs)) (fun f hf s hs => h3 f (List.mem_cons_of_mem _ hf) s (sub1 s hs))
      (fun s fs fns hd => h4 s fs fns (List.mem_cons_of_mem _ hd))
    rw [List.flatMap_cons, List.map_append]
    refine List.nodup_append.2 ⟨?_, ih, ?_⟩
    · cases d with
      | func f => exact List.nodup_cons.2 ⟨fun q => (by cases q), List.nodup_nil⟩
      | struct s fs fns =>
        have e : (funs (.struct s fs fns)).map (·.name) = (fns.map (·.name)).map (sub s) := by
          show (fns.map fun f => ({ f with name := sub s f.name } : Fn)).map (·.name) = _
          rw [List.map_map, List.map_map]; rfl
        rw [e]
        refine List.Pairwise.map _ (fun a b hab q => hab ?_) (h4 s fs fns List.mem_cons_self)
        exact (List.cons.inj (List.append_cancel_left q)).2
    · intro a ha b hb
      obtain ⟨g, hg, eb⟩ := List.mem_map.1 hb
      obtain ⟨d', hd', hg⟩ := List.mem_flatMap.1 hg
      obtain ⟨f, hf, ea⟩ := List.mem_map.1 ha
      subst ea eb
      cases d with
      | func f' =>
        cases List.mem_singleton.1 hf
        cases d' with
        | func g' =>
          cases List.mem_singleton.1 hg
          exact dup_false h' g hd' (f.name, f) (List.mem_append.2 (Or.inr List.mem_cons_self))
        | struct s' fs' fns' =>
          obtain ⟨g0, _, e⟩ := List.mem_map.1 hg
          subst e
          exact h3 f List.mem_cons_self s' (sub1 s' (mem_structNames hd')) g0.name
      | struct s fs fns =>
        obtain ⟨f0, hf0, e⟩ := List.mem_map.1 hf
        subst e
        cases d' with
        | func g' =>
          cases List.mem_singleton.1 hg
          exact fun e => h3 g (List.mem_cons_of_mem _ hd') s (mem_structNames (ds := _ :: ds) List.mem_cons_self) f0.name e.symm
        | struct s' fs' fns' =>
          obtain ⟨g0, _, e⟩ := List.mem_map.1 hg
          subst e
          intro q
          have e2 := (sub_inj (h2 s (mem_structNames (ds := _ :: ds) List.mem_cons_self)) (h2 s' (sub1 s' (mem_structNames hd'))) q).1
          have : s ∉ structNames ds := (List.nodup_cons.1 (show (s :: structNames ds).Nodup from h1)).1
          exact this (e2 ▸ mem_structNames hd')

end Us

/-- **C289, what holds**: if the names of structs differ, none has an underscore, and no function outside of structs is called like a struct with an underscore behind
it. Missing: the rest. -/
theorem C289_partial (p : Prog) (h : p.declsOk = true) (hn : (Us.structNames p.decls).Nodup) (hu : ∀ s ∈ Us.structNames p.decls, (95 : Byte) ∉ s)
    (hf : ∀ f, Decl.func f ∈ p.decls → ∀ s ∈ Us.structNames p.decls, ∀ r, f.name ≠ sub s r) : (p.allFuncs.map fun f => cFn f.name).Nodup := by
  obtain ⟨h1, h2⟩ := Bool.and_eq_true_iff.1 h
  have h1 : dupFrom p.imports [] p.decls = false := by
    cases q : dupFrom p.imports [] p.decls with
    | false => rfl
    | true => rw [q] at h1; cases h1
  have := Us.nodup_all h1 hn hu hf fun s fs fns hd => of_decide_eq_true (List.all_eq_true.1 h2 _ hd)
  rw [← Us.allFuncs_eq] at this
  rw [show (p.allFuncs.map fun f => cFn f.name) = (p.allFuncs.map (·.name)).map cFn by rw [List.map_map]; rfl]
  exact List.Pairwise.map _ (fun a b hab q => hab (List.append_cancel_left q)) this

set_option maxRecDepth 100000 in
/-- The hypotheses hold for the struct `Cart` with its function. -/
example : Us.cart.declsOk = true ∧ (Us.structNames Us.cart.decls).Nodup ∧ ∀ s ∈ Us.structNames Us.cart.decls, (95 : Byte) ∉ s := by decide +kernel

/-! ## C290 -/

/-- **C290.** The checker reports the calls of functions that do not exist. -/
def C290_statement : Prop :=
  ∀ (p : Prog) (inside : Option Str) (vs : Vars) (x m : Str) (k : Nat), p.declsOk = true → (p.checkMember inside vs x m k).1 ≠ .silent

set_option maxRecDepth 100000 in
/-- `geo.aera(3, 4)` is accepted, and so is a call through a name that is nothing at all; the C text calls a function that does not exist. -/
theorem C290_witness : Us.geo.declsOk = true ∧ (Us.geo.checkMember none [] (lit "geo") (lit "aera") 2).1 = .silent ∧
    Us.geo.emitMember [] (lit "geo") (lit "aera") = none ∧ (Us.geo.checkMember none [] (lit "nothing") (lit "area") 2).1 = .silent := by decide +kernel

/-- **C290 is false.** -/
theorem C290_fails : ¬ C290_statement := fun h => h _ none [] _ _ 2 C290_witness.1 C290_witness.2.1

/-- **C290, what holds**: calls without a dot are reported or have a function; and a call with a dot that is neither reported nor has a function has none in the C
text either, so that the C compiler stops, if what is before the dot is not called like a library module. Missing: the report. -/
theorem C290_partial (p : Prog) : (∀ (file : Str) (vs : Vars) (n : Str) (k : Nat), p.checkCall file vs n k ≠ .silent) ∧
    ∀ (inside : Option Str) (vs : Vars) (x m : Str) (k : Nat), p.real x ∉ Names.moduleNames → (p.checkMember inside vs x m k).1 = .silent →
      p.emitMember vs x m = none := by
  constructor
  · intro file vs n k h
    unfold Prog.checkCall at h
    split at h
    · cases h
    split at h
    · split at h <;> cases h
    · split at h
      · cases h
      · cases h
      · split at h
        · rename_i r hr
          obtain ⟨m, _, e⟩ := Option.map_eq_some_iff.1 hr
          rw [← e] at h; cases h
        · cases q : (p.visible file).findSome? (p.viaUsing n) with
          | none => rw [q] at h; cases h
          | some r =>
            rw [q] at h
            obtain ⟨m, _, e⟩ := List.exists_of_findSome?_eq_some q
            unfold Prog.viaUsing at e
            split at e
            · cases e; cases h
            · obtain ⟨f, _, e⟩ := Option.map_eq_some_iff.1 e
              split at e <;> (subst e; cases h)
  · intro inside vs x m k hl h
    have ht : inTable funcToMod (p.real x) m = false := by
      cases q : inTable funcToMod (p.real x) m with
      | false => rfl
      | true => exact absurd (Us.table_module q) hl
    unfold Prog.emitMember
    dsimp only
    rw [ht]
    unfold Prog.checkMember at h
    dsimp only at h
    split at h
    · dsimp only at h; split at h <;> cases h
    split at h
    · cases h
    split at h
    · split at h
      · cases h
      · dsimp only at h; split at h <;> cases h
    · split at h
      · dsimp only at h; split at h <;> cases h
      · rename_i hf
        rw [Us.findFunc_none hf]
        dsimp only
        split at h
        · rename_i s hv
          split at h
          · cases h
          · rename_i hff
            split at h
            · rename_i hs
              rw [if_neg (by decide), if_neg hff, Us.findFunc_none hs]
              rfl
            · split at h
              · dsimp only at h; split at h <;> cases h
              · dsimp only at h; split at h <;> cases h
        · rw [if_neg (by decide)]

end Verif.Props

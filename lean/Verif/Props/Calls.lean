import Verif.Model.Calls

/-!
# Which function a call calls
-/

namespace Verif.Props.Us
open Verif Verif.Str Verif.Calls

/-! ### Lists -/

theorem find_none_iff (p : Prog) (n : Str) : p.findFunction n = none ↔ ∀ f ∈ p.allFuncs, f.name ≠ n := by
  unfold Prog.findFunction
  rw [List.find?_eq_none]
  exact ⟨fun h f hf q => h f hf (beq_iff_eq.2 q), fun h f hf q => h f hf (beq_iff_eq.1 q)⟩

theorem find_some {p : Prog} {n : Str} {f : Fn} (h : p.findFunction n = some f) : f ∈ p.allFuncs ∧ f.name = n :=
  ⟨List.mem_of_find?_eq_some h, beq_iff_eq.1 (List.find?_some (p := fun f : Fn => f.name == n) h)⟩

theorem find_of_mem {p : Prog} {n : Str} {f : Fn} (h : f ∈ p.allFuncs) (e : f.name = n) : ∃ g, p.findFunction n = some g ∧ g.name = n := by
  cases q : p.findFunction n with
  | none => exact absurd e ((find_none_iff p n).1 q f h)
  | some g => exact ⟨g, rfl, (find_some q).2⟩

theorem second_after {im : List (Str × Bool)} {n k : Str} (h : second im n = some k) : afterUnderscore n = some k := by
  unfold second at h
  split at h
  · cases h
  · rename_i r hr
    split at h
    · cases h
    · split at h
      · cases h; exact hr
      · cases h
  · cases h

/-- An entry of the registry is a function of the program, under its name or under the rest of its name. -/
theorem registry_mem {p : Prog} {e : Str × Fn} (h : e ∈ p.registry) :
    e.2 ∈ p.allFuncs ∧ (e.1 = e.2.name ∨ afterUnderscore e.2.name = some e.1) := by
  obtain ⟨d, hd, he⟩ := List.mem_flatMap.1 h
  cases d with
  | func f =>
    have hm : f ∈ p.allFuncs := List.mem_flatMap.2 ⟨_, hd, List.mem_cons_self⟩
    rcases List.mem_cons.1 he with q | q
    · rw [q]; exact ⟨hm, Or.inl rfl⟩
    · obtain ⟨k, hk, hq⟩ := Option.map_eq_some_iff.1 (Option.mem_toList.1 q)
      rw [← hq]; exact ⟨hm, Or.inr (second_after hk)⟩
  | struct s fs fns =>
    obtain ⟨f, hf, hq⟩ := List.mem_map.1 he
    rw [← hq]
    exact ⟨List.mem_flatMap.2 ⟨_, hd, List.mem_map.2 ⟨f, hf, rfl⟩⟩, Or.inl rfl⟩

/-- Every function is in the registry under its name. -/
theorem registry_of {p : Prog} {f : Fn} (h : f ∈ p.allFuncs) : (f.name, f) ∈ p.registry := by
  obtain ⟨d, hd, he⟩ := List.mem_flatMap.1 h
  cases d with
  | func g =>
    cases List.mem_singleton.1 he
    exact List.mem_flatMap.2 ⟨_, hd, List.mem_cons_self⟩
  | struct s fs fns =>
    obtain ⟨g, hg, hq⟩ := List.mem_map.1 he
    rw [← hq]
    exact List.mem_flatMap.2 ⟨_, hd, List.mem_map.2 ⟨g, hg, rfl⟩⟩

theorem findFunc_some {p : Prog} {n : Str} {f : Fn} (h : p.findFunc n = some f) :
    f ∈ p.allFuncs ∧ (n = f.name ∨ afterUnderscore f.name = some n) := by
  obtain ⟨e, he, hq⟩ := Option.map_eq_some_iff.1 h
  have h1 := registry_mem (List.mem_of_find?_eq_some he)
  have h2 : e.1 = n := beq_iff_eq.1 (List.find?_some (p := fun e : Str × Fn => e.1 == n) he)
  rw [← hq, ← h2]; exact h1

theorem findFunc_none {p : Prog} {n : Str} (h : p.findFunc n = none) : p.findFunction n = none := by
  rw [find_none_iff]
  intro f hf e
  have := List.find?_eq_none.1 (Option.map_eq_none_iff.1 h) _ (registry_of hf)
  exact this (beq_iff_eq.2 e)

theorem findFunc_none_iff {p : Prog} {n : Str} (h1 : ∀ f ∈ p.allFuncs, f.name ≠ n) (h2 : ∀ f ∈ p.allFuncs, afterUnderscore f.name ≠ some n) :
    p.findFunc n = none := by
  cases q : p.findFunc n with
  | none => rfl
  | some f =>
    obtain ⟨m, r | r⟩ := findFunc_some q
    · exact absurd r.symm (h1 f m)
    · exact absurd r (h2 f m)

/-! ### The tables -/

/-- Names for which the two tables differ. -/
def odd : List Str :=
  ["write", "temp_file", "append_bytes", "write_bytes", "temp_dir", "set_timeout", "from_bool", "from_float", "is_numeric", "to_float", "to_int",
   "to_uint", "is_integer", "from_int", "from_uint", "to_bool", "spawn_arg", "format", "keys", "values"].map lit

def pairs (t : List (Str × List Str)) : List (Str × Str) := t.flatMap fun g => g.2.map fun f => (g.1, f)

theorem inTable_iff {t : List (Str × List Str)} {m f : Str} : inTable t m f = true ↔ (m, f) ∈ pairs t := by
  constructor
  · intro h
    obtain ⟨g, hg, q⟩ := List.any_eq_true.1 h
    obtain ⟨q1, q2⟩ := Bool.and_eq_true_iff.1 q
    rw [← beq_iff_eq.1 q1]
    exact List.mem_flatMap.2 ⟨g, hg, List.mem_map.2 ⟨f, List.contains_iff_mem.1 q2, rfl⟩⟩
  · intro h
    obtain ⟨g, hg, q⟩ := List.mem_flatMap.1 h
    obtain ⟨f', hf, q⟩ := List.mem_map.1 q
    cases q
    exact List.any_eq_true.2 ⟨g, hg, Bool.and_eq_true_iff.2 ⟨beq_iff_eq.2 rfl, List.contains_iff_mem.2 hf⟩⟩

set_option maxRecDepth 100000 in
theorem tables1 : ((pairs usingFuncs).all fun e => odd.contains e.2 || inTable funcToMod e.1 e.2) = true := by decide +kernel

set_option maxRecDepth 100000 in
theorem tables2 : ((pairs special).all fun e => inTable funcToMod e.1 e.2 && (pairs funcToMod).all fun d => d.2 != e.2 || d.1 == e.1) = true := by decide +kernel

set_option maxRecDepth 100000 in
theorem tables3 : ((pairs funcToMod).all fun e => odd.contains e.2 || inTable usingFuncs e.1 e.2 || inTable special e.1 e.2) = true := by decide +kernel

set_option maxRecDepth 100000 in
theorem tables4 : ((pairs special).all fun e => (pairs usingFuncs).all fun d => d.2 != e.2) = true := by decide +kernel

set_option maxRecDepth 100000 in
theorem tables5 : ((pairs funcToMod).all fun e => Names.moduleNames.contains e.1) = true := by decide +kernel

/-! ### Tables as functions -/

theorem table_special {m n : Str} (h : inTable special m n = true) (m' : Str) : inTable funcToMod m' n = true ↔ m' = m := by
  have h1 := List.all_eq_true.1 tables2 _ (inTable_iff.1 h)
  obtain ⟨h2, h3⟩ := Bool.and_eq_true_iff.1 h1
  constructor
  · intro q
    rcases Bool.or_eq_true_iff.1 (List.all_eq_true.1 h3 _ (inTable_iff.1 q)) with r | r
    · exact absurd rfl (bne_iff_ne.1 r)
    · exact beq_iff_eq.1 r
  · intro q; rw [q]; exact h2

theorem table_agree {n : Str} (hodd : n ∉ odd) (hs : ∀ m, inTable special m n = false) (m : Str) :
    inTable usingFuncs m n = inTable funcToMod m n := by
  cases q : inTable usingFuncs m n with
  | true =>
    rcases Bool.or_eq_true_iff.1 (List.all_eq_true.1 tables1 _ (inTable_iff.1 q)) with r | r
    · exact absurd (List.contains_iff_mem.1 r) hodd
    · exact r.symm
  | false =>
    cases q' : inTable funcToMod m n with
    | false => rfl
    | true =>
      rcases Bool.or_eq_true_iff.1 (List.all_eq_true.1 tables3 _ (inTable_iff.1 q')) with r | r
      · rcases Bool.or_eq_true_iff.1 r with r | r
        · exact absurd (List.contains_iff_mem.1 r) hodd
        · rw [q] at r; cases r
      · rw [hs m] at r; cases r

theorem table_module {m n : Str} (h : inTable funcToMod m n = true) : m ∈ Names.moduleNames :=
  List.contains_iff_mem.1 (List.all_eq_true.1 tables5 _ (inTable_iff.1 h))

end Verif.Props.Us

namespace Verif.Props
open Verif Verif.Str Verif.Calls

/-! ## C281 -/

/-- **C281.** An unqualified call is compiled as a call of the function against which it has been checked. -/
def C281_statement : Prop :=
  ∀ (p : Prog) (file : Str) (vs : Vars) (n : Str) (k : Nat) (t : Target) (c : Bool), p.declsOk = true → p.checkCall file vs n k = .ok t c → p.emitCall n = t

namespace Us

def param (t : String) : Param := ⟨lit t, false⟩

/-- `using math`, and an own function `max`. -/
def ownMax : Prog where
  decls := [.func ⟨lit "max", lit "m", false, [param "int", param "int"]⟩]
  imports := [(lit "math", true)]
  aliases := []
  usings := [(lit "math", lit "m")]

/-- The same with the `using` in another file. -/
def otherMax : Prog := { ownMax with usings := [(lit "math", lit "lib")] }

/-- A struct with a function `total`, and no `using`. -/
def cart : Prog where
  decls := [.struct (lit "Cart") [] [⟨lit "total", lit "m", false, [param "Cart"]⟩]]
  imports := []
  aliases := []
  usings := []

end Us

set_option maxRecDepth 100000 in
/-- The own function is checked, the library's is called. -/
theorem C281_witness : Us.ownMax.declsOk = true ∧ Us.ownMax.checkCall (lit "m") [] (lit "max") 2 = .ok (.fn (lit "max")) true ∧
    Us.ownMax.emitCall (lit "max") = .lib (lit "math") (lit "max") := by decide +kernel

set_option maxRecDepth 100000 in
/-- The same if only another file uses the library. -/
theorem C281_witness_file : Us.otherMax.declsOk = true ∧ Us.otherMax.checkCall (lit "m") [] (lit "max") 2 = .ok (.fn (lit "max")) true ∧
    Us.otherMax.emitCall (lit "max") = .lib (lit "math") (lit "max") := by decide +kernel

set_option maxRecDepth 100000 in
/-- A call of the function in the variable `total` becomes a call of the struct's function `total`. -/
theorem C281_witness_var : Us.cart.declsOk = true ∧ Us.cart.checkCall (lit "m") [(lit "total", .func)] (lit "total") 1 = .ok .var true ∧
    Us.cart.emitCall (lit "total") = .fn (lit "Cart_total") := by decide +kernel

/-- **C281 is false.** -/
theorem C281_fails : ¬ C281_statement := by
  intro h
  have w := C281_witness
  have := h _ _ _ _ _ _ _ w.1 w.2.1
  rw [w.2.2] at this
  cases this

namespace Us

/-- No function of the program is called like a function of a module that is used, and `n` is not what comes after the first underscore of another name. -/
structure Clear (p : Prog) (n : Str) : Prop where
  after : ∀ f ∈ p.allFuncs, afterUnderscore f.name ≠ some n
  mods : ∀ u ∈ p.usings, ∀ f ∈ p.allFuncs, f.name ≠ sub (p.real u.1) n ∧ afterUnderscore f.name ≠ some (sub (p.real u.1) n)

theorem emitUsing_lib {p : Prog} {n : Str} (hc : Clear p n) {u : Str × Str} (hu : u ∈ p.usings) :
    p.emitUsing n u = if inTable funcToMod (p.real u.1) n then some (.lib (p.real u.1) n) else none := by
  unfold Prog.emitUsing
  dsimp only
  split
  · rfl
  · rw [(find_none_iff _ _).2 fun f hf => (hc.mods u hu f hf).1]; rfl

theorem viaUsing_lib {p : Prog} {n : Str} (hc : Clear p n) {u : Str × Str} (hu : u ∈ p.usings) :
    p.viaUsing n (p.real u.1) = if inTable usingFuncs (p.real u.1) n then some (.ok (.lib (p.real u.1) n) false) else none := by
  unfold Prog.viaUsing
  split
  · rfl
  · rw [findFunc_none_iff (fun f hf => (hc.mods u hu f hf).1) fun f hf => (hc.mods u hu f hf).2]; rfl

theorem findSome_none {α β : Type} {l : List α} {f : α → Option β} (h : ∀ a ∈ l, f a = none) : l.findSome? f = none :=
  List.findSome?_eq_none_iff.2 h

theorem visible_all {p : Prog} {file : Str} (h : ∀ u ∈ p.usings, u.2 = file) : p.visible file = p.usings.map fun u => p.real u.1 := by
  unfold Prog.visible
  rw [List.filter_eq_self.2 fun u hu => beq_iff_eq.2 (h u hu)]

/-- The first module of a list with `n`. -/
theorem emit_first {p : Prog} {n : Str} (hc : Clear p n) : ∀ {l : List (Str × Str)}, (∀ u ∈ l, u ∈ p.usings) →
    l.findSome? (p.emitUsing n) = ((l.map fun u => p.real u.1).find? fun m => inTable funcToMod m n).map fun m => .lib m n
  | [], _ => rfl
  | u :: l, h => by
    rw [List.findSome?_cons, List.map_cons, emitUsing_lib hc (h u List.mem_cons_self)]
    cases q : inTable funcToMod (p.real u.1) n with
    | true => rw [List.find?_cons_of_pos (p := fun m => inTable funcToMod m n) q]; rfl
    | false =>
      rw [List.find?_cons_of_neg (p := fun m => inTable funcToMod m n) (by rw [q]; decide)]
      exact emit_first hc fun v hv => h v (List.mem_cons_of_mem _ hv)

theorem via_first {p : Prog} {n : Str} (hc : Clear p n) : ∀ {l : List (Str × Str)}, (∀ u ∈ l, u ∈ p.usings) →
    (l.map fun u => p.real u.1).findSome? (p.viaUsing n) =
      ((l.map fun u => p.real u.1).find? fun m => inTable usingFuncs m n).map fun m => .ok (.lib m n) false
  | [], _ => rfl
  | u :: l, h => by
    rw [List.map_cons, List.findSome?_cons, viaUsing_lib hc (h u List.mem_cons_self)]
    cases q : inTable usingFuncs (p.real u.1) n with
    | true => rw [List.find?_cons_of_pos (p := fun m => inTable usingFuncs m n) q]; rfl
    | false =>
      rw [List.find?_cons_of_neg (p := fun m => inTable usingFuncs m n) (by rw [q]; decide)]
      exact via_first hc fun v hv => h v (List.mem_cons_of_mem _ hv)

theorem find_congr {α : Type} {f g : α → Bool} {l : List α} (h : ∀ a, f a = g a) : l.find? f = l.find? g := by
  rw [show f = g from funext h]

end Us

/-- **C281, what holds**: if all `using` are in the call's own file; if `n` is not a name for which the two tables differ; if no function of the program is in the
way (`Clear`); and if a function or variable that is called `n` is not called like a library function of a module that is used, then the call is compiled as it
has been checked. Missing: the rest. -/
theorem C281_partial (p : Prog) (file : Str) (vs : Vars) (n : Str) (k : Nat) (t : Target) (c : Bool)
    (hfile : ∀ u ∈ p.usings, u.2 = file) (hodd : n ∉ Us.odd) (hc : Us.Clear p n)
    (hown : ((∃ f ∈ p.allFuncs, f.name = n) ∨ vs.get n ≠ none) → ∀ u ∈ p.usings, inTable funcToMod (p.real u.1) n = false)
    (h : p.checkCall file vs n k = .ok t c) : p.emitCall n = t := by
  have hnone : ((∃ f ∈ p.allFuncs, f.name = n) ∨ vs.get n ≠ none) → p.usings.findSome? (p.emitUsing n) = none := fun q =>
    Us.findSome_none fun u hu => by rw [Us.emitUsing_lib hc hu, hown q u hu]; rfl
  have hafter : p.allFuncs.find? (fun f => afterUnderscore f.name == some n) = none :=
    List.find?_eq_none.2 fun f hf q => hc.after f hf (beq_iff_eq.1 q)
  unfold Prog.checkCall at h
  unfold Prog.emitCall
  split at h
  · rename_i hb; rw [if_pos hb]; cases h; rfl
  rename_i hb
  rw [if_neg hb]
  split at h
  · -- own function
    rename_i f hf
    obtain ⟨hm, q | q⟩ := Us.findFunc_some hf
    · split at h
      · cases h
        rw [hnone (Or.inl ⟨f, hm, q.symm⟩)]
        obtain ⟨g, hg, hgn⟩ := Us.find_of_mem hm q.symm
        dsimp only
        rw [hg]
        dsimp only
        rw [hgn, q]
      · cases h
    · exact absurd q (hc.after f hm)
  · rename_i hf
    split at h
    · -- variable
      rename_i hv
      cases h
      rw [hnone (Or.inr (by rw [hv]; exact fun q => by cases q))]
      dsimp only
      rw [Us.findFunc_none hf]
      dsimp only
      rw [hafter]
    · cases h
    · rename_i hv
      rw [Us.emit_first hc fun u hu => hu]
      have hvis := Us.visible_all hfile
      split at h
      · rename_i r hr
        unfold Prog.viaSpecial at hr
        rw [hvis] at hr
        obtain ⟨m, hm, q⟩ := Option.map_eq_some_iff.1 hr
        have hs : inTable special m n = true := List.find?_some (p := fun m => inTable special m n) hm
        have e : ∀ m', inTable special m' n = inTable funcToMod m' n := by
          intro m'
          have a := Us.table_special hs m'
          cases q1 : inTable special m' n with
          | true => exact ((Us.table_special q1 m').2 rfl).symm
          | false =>
            cases q2 : inTable funcToMod m' n with
            | false => rfl
            | true => rw [a.1 q2, hs] at q1; cases q1
        rw [← Us.find_congr e, hm]
        dsimp only [Option.map_some]
        rw [← q] at h
        cases h; rfl
      · rename_i hr
        unfold Prog.viaSpecial at hr
        rw [hvis] at hr h
        rw [Us.via_first hc fun u hu => hu] at h
        cases hfind : (p.usings.map fun u => p.real u.1).find? fun m => inTable usingFuncs m n with
        | none => rw [hfind] at h; cases h
        | some m =>
          rw [hfind] at h
          have hm : inTable usingFuncs m n = true := List.find?_some (p := fun m => inTable usingFuncs m n) hfind
          have hs : ∀ m', inTable special m' n = false := by
            intro m'
            cases q : inTable special m' n with
            | false => rfl
            | true =>
              have := List.all_eq_true.1 (List.all_eq_true.1 Us.tables4 _ (Us.inTable_iff.1 q)) _ (Us.inTable_iff.1 hm)
              exact absurd rfl (bne_iff_ne.1 this)
          rw [← Us.find_congr (Us.table_agree hodd hs), hfind]
          cases h; rfl

set_option maxRecDepth 100000 in
/-- The hypotheses hold, e.g. for the own function `most` besides `using math`. -/
example : (∀ u ∈ Us.ownMax.usings, u.2 = lit "m") ∧ lit "sqrt" ∉ Us.odd ∧ Us.Clear Us.ownMax (lit "sqrt") ∧
    Us.ownMax.checkCall (lit "m") [] (lit "sqrt") 1 = .ok (.lib (lit "math") (lit "sqrt")) false :=
  ⟨by decide +kernel, by decide +kernel, ⟨by decide +kernel, by decide +kernel⟩, by decide +kernel⟩

/-! ## C282 -/

/-- A program without one `using`. -/
def Us.without (p : Prog) (l1 l2 : List (Str × Str)) : Prog := { p with usings := l1 ++ l2 }

/-- **C282.** A `using` has no effect on the calls in other files. -/
def C282_statement : Prop :=
  ∀ (p : Prog) (l1 l2 : List (Str × Str)) (u : Str × Str) (file : Str) (vs : Vars) (n : Str) (k : Nat) (t : Target) (c : Bool),
    p.usings = l1 ++ u :: l2 → u.2 ≠ file → p.checkCall file vs n k = .ok t c → p.emitCall n = (Us.without p l1 l2).emitCall n

set_option maxRecDepth 100000 in
/-- `using math` in an imported file: the calls of the own `max` in the main file change. -/
theorem C282_witness : Us.otherMax.checkCall (lit "m") [] (lit "max") 2 = .ok (.fn (lit "max")) true ∧
    Us.otherMax.emitCall (lit "max") = .lib (lit "math") (lit "max") ∧ (Us.without Us.otherMax [] []).emitCall (lit "max") = .fn (lit "max") := by decide +kernel

/-- **C282 is false.** -/
theorem C282_fails : ¬ C282_statement := by
  intro h
  have w := C282_witness
  have := h Us.otherMax [] [] (lit "math", lit "lib") (lit "m") _ _ _ _ _ rfl (by decide) w.1
  rw [w.2.1, w.2.2] at this
  cases this

/-- **C282, what holds**: for the checker. Missing: the code generator. -/
theorem C282_partial (p : Prog) (l1 l2 : List (Str × Str)) (u : Str × Str) (file : Str) (vs : Vars) (n : Str) (k : Nat)
    (hu : p.usings = l1 ++ u :: l2) (hf : u.2 ≠ file) : p.checkCall file vs n k = (Us.without p l1 l2).checkCall file vs n k := by
  have hv : p.visible file = (Us.without p l1 l2).visible file := by
    unfold Prog.visible Us.without
    dsimp only
    rw [hu, List.filter_append, List.filter_append, List.filter_cons_of_neg (by rw [beq_eq_false_iff_ne.2 hf]; decide)]
    rfl
  unfold Prog.checkCall Prog.viaSpecial
  rw [hv]
  rfl

/-! ## C283 -/

/-- **C283.** The code generator knows every library function that the checker accepts without its module's name. -/
def C283_statement : Prop := ∀ m f : Str, (inTable usingFuncs m f = true ∨ inTable special m f = true) → inTable funcToMod m f = true

/-- `using strconv`, then `to_int("5")`. -/
def Us.conv : Prog where
  decls := []
  imports := [(lit "strconv", true)]
  aliases := []
  usings := [(lit "strconv", lit "m")]

set_option maxRecDepth 100000 in
/-- The call is accepted, and compiled as a call of a variable that does not exist. -/
theorem C283_witness : Us.conv.checkCall (lit "m") [] (lit "to_int") 1 = .ok (.lib (lit "strconv") (lit "to_int")) false ∧
    Us.conv.emitCall (lit "to_int") = .var ∧ inTable usingFuncs (lit "strconv") (lit "to_int") = true ∧
    inTable funcToMod (lit "strconv") (lit "to_int") = false := by decide +kernel

/-- **C283 is false.** -/
theorem C283_fails : ¬ C283_statement := by
  intro h
  have w := C283_witness
  have := h (lit "strconv") (lit "to_int") (Or.inl w.2.2.1)
  rw [w.2.2.2] at this
  cases this

/-- The functions that are accepted and not known. -/
def Us.unknown : List (Str × Str) :=
  [("csv", "write"), ("io", "temp_file"), ("io", "append_bytes"), ("io", "write_bytes"), ("io", "temp_dir"), ("net", "set_timeout"),
   ("strconv", "from_bool"), ("strconv", "from_float"), ("strconv", "is_numeric"), ("strconv", "to_float"), ("strconv", "to_int"), ("strconv", "to_uint"),
   ("strconv", "is_integer"), ("strconv", "from_int"), ("strconv", "from_uint"), ("strconv", "to_bool"), ("threads", "spawn_arg")].map
    fun e => (lit e.1, lit e.2)

set_option maxRecDepth 100000 in
theorem Us.unknown_list : ((Us.pairs usingFuncs).all fun e => inTable funcToMod e.1 e.2 == !Us.unknown.contains e) = true := by decide +kernel

/-- **C283, what holds**: all but the seventeen functions `unknown`, and none of these. Missing: those. -/
theorem C283_partial (m f : Str) (h : inTable usingFuncs m f = true ∨ inTable special m f = true) : inTable funcToMod m f = true ↔ (m, f) ∉ Us.unknown := by
  rcases h with h | h
  · have := beq_iff_eq.1 (List.all_eq_true.1 Us.unknown_list _ (Us.inTable_iff.1 h))
    dsimp only at this
    rw [this]
    cases q : Us.unknown.contains (m, f) with
    | true => exact ⟨fun e => (by cases e), fun e => absurd (List.contains_iff_mem.1 q) e⟩
    | false => exact ⟨fun _ e => (by rw [List.contains_iff_mem.2 e] at q; cases q), fun _ => rfl⟩
  · constructor
    · intro _ e
      have e1 : (Us.unknown.all fun e => inTable usingFuncs e.1 e.2) = true := by decide +kernel
      have := List.all_eq_true.1 (List.all_eq_true.1 Us.tables4 _ (Us.inTable_iff.1 h)) _ (Us.inTable_iff.1 (List.all_eq_true.1 e1 _ e))
      exact absurd rfl (bne_iff_ne.1 this)
    · intro _; exact (Us.table_special h m).2 rfl

end Verif.Props

import Verif.Props.Calls

/-!
# Private functions, numbers of arguments, names of functions
-/

namespace Verif.Props
open Verif Verif.Str Verif.Calls

/-! ## C284 -/

/-- **C284.** A private function can only be called in its own file. -/
def C284_statement : Prop :=
  ∀ (p : Prog) (file : Str) (vs : Vars) (n : Str) (k : Nat) (f : Fn) (c : Bool), p.declsOk = true → f ∈ p.allFuncs → f.priv = true →
    p.checkCall file vs n k = .ok (.fn f.name) c → f.file = file

namespace Us

def hidden : Fn := ⟨lit "lib_secret", lit "lib", true, []⟩

/-- An imported module with a private function. -/
def lib : Prog where
  decls := [.func hidden]
  imports := [(lit "lib", false)]
  aliases := []
  usings := []

end Us

set_option maxRecDepth 100000 in
/-- `secret()` in the main file is accepted, without `using`. (Merging turns it into `lib_secret()`, which is accepted as well.) `lib.secret()` is rejected. -/
theorem C284_witness : Us.lib.declsOk = true ∧ Us.lib.checkCall (lit "m") [] (lit "secret") 0 = .ok (.fn (lit "lib_secret")) true ∧
    Us.lib.checkCall (lit "m") [] (lit "lib_secret") 0 = .ok (.fn (lit "lib_secret")) true ∧
    (Us.lib.checkMember none [] (lit "lib") (lit "secret") 0).1 = .err := by decide +kernel

/-- **C284 is false.** -/
theorem C284_fails : ¬ C284_statement := fun h =>
  absurd (h Us.lib (lit "m") [] (lit "secret") 0 Us.hidden true C284_witness.1 List.mem_cons_self rfl C284_witness.2.1) (by decide)

/-- **C284, what holds**: calls `x.m(…)` of functions that are private are accepted in functions of the same struct only. Missing: calls without a dot. -/
theorem C284_partial (p : Prog) (inside : Option Str) (vs : Vars) (x m : Str) (k : Nat) (full y : Str) (c b : Bool)
    (h : p.checkMember inside vs x m k = (.ok (.fn full) c, y, b)) :
    ∃ f ∈ p.allFuncs, f.name = full ∧ (f.priv = true → ∃ s, inside = some s ∧ (full = sub s m ∨ afterUnderscore full = some (sub s m))) := by
  have key : ∀ {s : Str} {f : Fn} {g : Bool} {r : Chk} (cc : Bool), p.findFunc (sub s m) = some f →
      (if (f.priv && inside != some s) || g then Chk.err else .ok (.fn f.name) cc) = r → r = .ok (.fn full) c →
      ∃ f ∈ p.allFuncs, f.name = full ∧ (f.priv = true → ∃ s, inside = some s ∧ (full = sub s m ∨ afterUnderscore full = some (sub s m))) := by
    intro s f g r cc hf e1 e2
    rw [e2] at e1
    split at e1
    · cases e1
    · rename_i hn
      have e3 : f.name = full := by cases e1; rfl
      obtain ⟨hm, q⟩ := Us.findFunc_some hf
      refine ⟨f, hm, e3, fun hp => ⟨s, ?_, ?_⟩⟩
      · refine Classical.byContradiction fun e => hn ?_
        exact Bool.or_eq_true_iff.2 (Or.inl (Bool.and_eq_true_iff.2 ⟨hp, bne_iff_ne.2 e⟩))
      · rw [← e3]; exact q.imp Eq.symm id
  have h1 := congrArg Prod.fst h
  dsimp only at h1
  unfold Prog.checkMember at h1
  dsimp only at h1
  split at h1
  · dsimp only at h1; split at h1 <;> cases h1
  split at h1
  · cases h1
  split at h1
  · split at h1
    · cases h1
    · rename_i f hf
      exact key true hf rfl h1
  · split at h1
    · rename_i f hf
      dsimp only at h1
      split at h1
      · cases h1
      · rename_i hp
        obtain ⟨hm, q⟩ := Us.findFunc_some hf
        refine ⟨f, hm, ?_, fun e => absurd e hp⟩
        cases h1; rfl
    · split at h1
      · split at h1
        · cases h1
        · split at h1
          · cases h1
          · rename_i f hf
            split at h1
            · exact key true hf rfl h1
            · exact key true hf rfl h1
      · cases h1

/-! ## C285 -/

/-- **C285.** In an accepted call `x.m(…)` every parameter has an argument of the call or its default value, and there are no further arguments. -/
def C285_statement : Prop :=
  ∀ (p : Prog) (inside : Option Str) (vs : Vars) (x m : Str) (k : Nat) (f : Fn) (y : Str) (c b : Bool), p.declsOk = true → f ∈ p.allFuncs →
    p.checkMember inside vs x m k = (.ok (.fn f.name) c, y, b) →
    Passed.zero ∉ f.passed (k + b.toNat) ∧ (f.passed (k + b.toNat)).length = f.params.length

namespace Us

def area : Fn := ⟨lit "geo_area", lit "geo", false, [param "int", param "int"]⟩

/-- An imported module with a function of two parameters. -/
def geo : Prog where
  decls := [.func area]
  imports := [(lit "geo", false)]
  aliases := []
  usings := []

end Us

set_option maxRecDepth 100000 in
/-- `geo.area(3)` is accepted; the second argument is `0`. `geo.area(3, 4, 5)` is accepted too. -/
theorem C285_witness : Us.geo.declsOk = true ∧
    Us.geo.checkMember none [] (lit "geo") (lit "area") 1 = (.ok (.fn (lit "geo_area")) false, lit "geo", false) ∧ Us.area.passed 1 = [.arg 0, .zero] ∧
    Us.geo.checkMember none [] (lit "geo") (lit "area") 3 = (.ok (.fn (lit "geo_area")) false, lit "geo", false) ∧
    Us.area.passed 3 = [.arg 0, .arg 1, .arg 2] := by decide +kernel

/-- **C285 is false.** -/
theorem C285_fails : ¬ C285_statement := fun h => by
  have w := C285_witness
  have := (h Us.geo none [] (lit "geo") (lit "area") 1 Us.area _ _ _ w.1 List.mem_cons_self w.2.1).1
  rw [show (1 + Bool.toNat false) = 1 from rfl, w.2.2.1] at this
  exact this (List.mem_cons_of_mem _ List.mem_cons_self)

namespace Us

/-- The parameters with default values are the last ones. -/
def DefaultsLast (l : List Param) : Prop := ∃ a b, l = a ++ b ∧ (∀ q ∈ a, q.dflt = false) ∧ ∀ q ∈ b, q.dflt = true

theorem pass_length (k : Nat) : ∀ (l : List Param) (i : Nat), i ≤ k → k ≤ i + l.length → (passFrom k i l).length = l.length
  | [], i, h1, h2 => by
    have : k - i = 0 := by rw [List.length_nil] at h2; omega
    show ((List.range' i (k - i)).map Passed.arg).length = 0
    rw [this]; rfl
  | q :: l, i, h1, h2 => by
    show (passFrom k (i + 1) l).length + 1 = l.length + 1
    rw [List.length_cons] at h2
    by_cases e : i < k
    · rw [pass_length k l (i + 1) e (by omega)]
    · rw [pass_over k l (i + 1) (by omega)]
where
  pass_over (k : Nat) : ∀ (l : List Param) (i : Nat), k ≤ i → (passFrom k i l).length = l.length
    | [], i, h => by
      show ((List.range' i (k - i)).map Passed.arg).length = 0
      rw [show k - i = 0 by omega]; rfl
    | q :: l, i, h => by
      show (passFrom k (i + 1) l).length + 1 = l.length + 1
      rw [pass_over k l (i + 1) (by omega)]

theorem pass_zero (k : Nat) : ∀ (l : List Param) (i : Nat), (∀ (j : Nat) (q : Param), l[j]? = some q → k ≤ i + j → q.dflt = true) → Passed.zero ∉ passFrom k i l
  | [], i, _ => fun h => by
    obtain ⟨a, _, e⟩ := List.mem_map.1 h
    cases e
  | q :: l, i, hq => fun h => by
    rcases List.mem_cons.1 h with e | e
    · split at e
      · cases e
      · rename_i hk
        rw [if_pos (hq 0 q rfl (by omega))] at e
        cases e
    · exact pass_zero k l (i + 1) (fun j r hj hk => hq (j + 1) r hj (by omega)) e

theorem pass_ok {f : Fn} {k : Nat} (hd : DefaultsLast f.params) (hk : f.counts k = true) :
    Passed.zero ∉ f.passed k ∧ (f.passed k).length = f.params.length := by
  obtain ⟨h1, h2⟩ := Bool.and_eq_true_iff.1 hk
  have h1 := of_decide_eq_true h1
  have h2 := of_decide_eq_true h2
  obtain ⟨a, b, e, ha, hb⟩ := hd
  have hl : f.least = a.length := by
    unfold Fn.least
    rw [e, List.filter_append, List.filter_eq_self.2 fun q hq => by rw [ha q hq]; rfl,
      List.filter_eq_nil_iff.2 fun q hq => by rw [hb q hq]; decide, List.append_nil]
  refine ⟨pass_zero k f.params 0 fun j q hj hk => ?_, pass_length k f.params 0 (Nat.zero_le _) (by omega)⟩
  rw [e, List.getElem?_append_right (by omega)] at hj
  exact hb q (List.mem_of_getElem? hj)

end Us

/-- **C285, what holds**: for functions of structs (called through the struct or a variable), if the parameters with default values are the last ones. Missing:
functions of modules. -/
theorem C285_partial (p : Prog) (inside : Option Str) (vs : Vars) (x m : Str) (k : Nat) (full y : Str) (b : Bool)
    (hd : ∀ f ∈ p.allFuncs, Us.DefaultsLast f.params) (h : p.checkMember inside vs x m k = (.ok (.fn full) true, y, b)) :
    ∃ f ∈ p.allFuncs, f.name = full ∧ Passed.zero ∉ f.passed (k + b.toNat) ∧ (f.passed (k + b.toNat)).length = f.params.length := by
  have key : ∀ {s : Str} {f : Fn} {r : Chk} {g : Bool} {y' : Str} (b' : Bool), p.findFunc (sub s m) = some f →
      ((if g || !f.counts (k + b'.toNat) then Chk.err else .ok (.fn f.name) true), y', b') = (Chk.ok (.fn full) true, y, b) →
      ∃ f ∈ p.allFuncs, f.name = full ∧ Passed.zero ∉ f.passed (k + b.toNat) ∧ (f.passed (k + b.toNat)).length = f.params.length := by
    intro s f r g y' b' hf e
    have e1 := congrArg Prod.fst e
    have e2 : b' = b := congrArg (fun q => q.2.2) e
    dsimp only at e1
    split at e1
    · cases e1
    · rename_i hn
      have hm := (Us.findFunc_some hf).1
      have hk : f.counts (k + b'.toNat) = true := by
        cases q : f.counts (k + b'.toNat) with
        | true => rfl
        | false => exact absurd (Bool.or_eq_true_iff.2 (Or.inr (by rw [q]; rfl))) hn
      refine ⟨f, hm, ?_, ?_⟩
      · cases e1; rfl
      · rw [← e2]; exact Us.pass_ok (hd f hm) hk
  unfold Prog.checkMember at h
  dsimp only at h
  split at h
  · split at h <;> cases h
  split at h
  · cases h
  split at h
  · split at h
    · cases h
    · rename_i f hf
      exact key (r := .err) false hf h
  · split at h
    · split at h <;> cases h
    · split at h
      · split at h
        · cases h
        · split at h
          · cases h
          · rename_i f hf
            split at h
            · exact key (r := .err) true hf h
            · exact key (r := .err) false hf h
      · cases h

/-- The same for calls without a dot that are checked against a function. -/
theorem C285_direct (p : Prog) (file : Str) (vs : Vars) (n : Str) (k : Nat) (full : Str) (hd : ∀ f ∈ p.allFuncs, Us.DefaultsLast f.params)
    (h : p.checkCall file vs n k = .ok (.fn full) true) :
    ∃ f ∈ p.allFuncs, f.name = full ∧ Passed.zero ∉ f.passed k ∧ (f.passed k).length = f.params.length := by
  unfold Prog.checkCall at h
  split at h
  · cases h
  split at h
  · rename_i f hf
    split at h
    · rename_i hk
      have hm := (Us.findFunc_some hf).1
      exact ⟨f, hm, (by cases h; rfl), Us.pass_ok (hd f hm) hk⟩
    · cases h
  · split at h
    · cases h
    · cases h
    · split at h
      · rename_i r hr
        obtain ⟨m, _, e⟩ := Option.map_eq_some_iff.1 hr
        rw [← e] at h; cases h
      · cases q : (p.visible file).findSome? (p.viaUsing n) with
        | none => rw [q] at h; cases h
        | some r =>
          rw [q] at h
          obtain ⟨m, _, e⟩ := List.exists_of_findSome?_eq_some q
          unfold Prog.viaUsing at e
          split at e
          · cases e; cases h
          · obtain ⟨f, _, e⟩ := Option.map_eq_some_iff.1 e
            split at e <;> (subst e; cases h)

/-- Such a call. -/
example : Us.DefaultsLast Us.area.params ∧ Us.geo.checkCall (lit "m") [] (lit "area") 2 = .ok (.fn (lit "geo_area")) true ∧
    Us.geo.checkCall (lit "m") [] (lit "area") 1 = .err :=
  ⟨⟨Us.area.params, [], rfl, by decide, by decide⟩, by decide +kernel, by decide +kernel⟩

end Verif.Props

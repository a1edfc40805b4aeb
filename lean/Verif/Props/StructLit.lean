import Verif.Model.StructLit
/-
Struct literals and `new` (claims C311 to C317).
-/
namespace Verif.Props

open Verif Verif.StructLit

namespace Sl

variable {α : Type}

/-- The default values that a literal uses, written independently of the emitter. -/
def omitted (fs : List (Field α)) (given : List (String × α)) : List (String × α) :=
  fs.filterMap fun f => if f.name ∈ given.map Prod.fst then none else f.dflt.map fun v => (f.name, v)

theorem any_iff (given : List (String × α)) (n : String) : given.any (fun g => g.1 == n) = true ↔ n ∈ given.map Prod.fst := by
  rw [List.any_eq_true]
  constructor
  · rintro ⟨g, hg, h⟩
    exact List.mem_map.2 ⟨g, hg, beq_iff_eq.1 h⟩
  · intro h
    obtain ⟨g, hg, h⟩ := List.mem_map.1 h
    exact ⟨g, hg, beq_iff_eq.2 h⟩

theorem emitGiven_append (l l' : List (String × α)) : ∀ first, (l ≠ [] ∨ first = false) →
    emitGiven first l ++ emitGiven false l' = emitGiven first (l ++ l') := by
  induction l with
  | nil =>
    intro first h
    rcases h with h | rfl
    · exact absurd rfl h
    · rfl
  | cons p l ih =>
    intro first _
    obtain ⟨n, v⟩ := p
    show (_ ++ Tok.item n v :: emitGiven false l) ++ emitGiven false l' = _ ++ Tok.item n v :: emitGiven false (l ++ l')
    rw [← ih false (Or.inr rfl), List.append_assoc, List.cons_append]

theorem emitDefaults_comma (given : List (String × α)) : ∀ (fs : List (Field α)) (i : Nat), (0 < given.length ∨ 0 < i) →
    emitDefaults given i fs = emitGiven false (omitted fs given)
  | [], _, _ => rfl
  | f :: fs, i, h => by
    have ih := emitDefaults_comma given fs (i + 1) (Or.inr (Nat.succ_pos i))
    simp only [emitDefaults, ih, if_pos h, omitted, List.filterMap_cons]
    cases hd : f.dflt with
    | none =>
      simp only [Option.map_none, ite_self, List.nil_append]
    | some v =>
      by_cases hm : f.name ∈ given.map Prod.fst
      · simp only [if_pos hm, if_pos ((any_iff given f.name).2 hm), List.nil_append]
      · have : ¬ given.any (fun g => g.1 == f.name) = true := fun q => hm ((any_iff given f.name).1 q)
        simp only [if_neg hm, if_neg this, Option.map_some]
        rfl

theorem read_emit : ∀ (l : List (String × α)), readInit (emitGiven true l) = some l ∧
    ∀ n v, readInit (Tok.item n v :: emitGiven false l) = some ((n, v) :: l)
  | [] => ⟨rfl, fun _ _ => rfl⟩
  | (m, w) :: l => by
    have ih := (read_emit l).2
    refine ⟨ih m w, fun n v => ?_⟩
    show (readInit (Tok.item m w :: emitGiven false l)).map _ = _
    rw [ih m w]
    rfl

/-- The literal's list begins with a comma. -/
def Spoilt (fs : List (Field α)) (given : List (String × α)) : Prop :=
  given = [] ∧ (∀ f r, fs = f :: r → f.dflt = none) ∧ omitted fs given ≠ []

theorem emitLit_read (fs : List (Field α)) (given : List (String × α)) :
    (Spoilt fs given → readInit (emitLit fs given) = none) ∧
    (¬ Spoilt fs given → readInit (emitLit fs given) = some (given ++ omitted fs given)) := by
  unfold emitLit
  cases given with
  | cons g gs =>
    rw [emitDefaults_comma _ fs 0 (Or.inl (by simp)), emitGiven_append _ _ true (Or.inl (by simp))]
    exact ⟨fun h => (by cases h.1), fun _ => (read_emit _).1⟩
  | nil =>
    cases fs with
    | nil => exact ⟨fun h => absurd rfl h.2.2, fun _ => rfl⟩
    | cons f fs =>
      have h1 := emitDefaults_comma ([] : List (String × α)) fs 1 (Or.inr Nat.one_pos)
      cases hd : f.dflt with
      | some v =>
        refine ⟨fun h => ?_, fun _ => ?_⟩
        · have := h.2.1 f fs rfl
          rw [hd] at this; cases this
        · have e1 : emitDefaults ([] : List (String × α)) 0 (f :: fs) = Tok.item f.name v :: emitGiven false (omitted fs []) := by
            simp only [emitDefaults, hd, h1]
            rfl
          have e2 : omitted (f :: fs) ([] : List (String × α)) = (f.name, v) :: omitted fs [] := by
            simp only [omitted, List.filterMap_cons, hd, List.map_nil, List.not_mem_nil, if_false, Option.map_some]
          rw [e1, e2]
          exact (read_emit (omitted fs [])).2 f.name v
      | none =>
        have e1 : emitDefaults ([] : List (String × α)) 0 (f :: fs) = emitGiven false (omitted fs []) := by
          simp only [emitDefaults, hd, h1, List.nil_append]
        have e2 : omitted (f :: fs) ([] : List (String × α)) = omitted fs [] := by
          simp only [omitted, List.filterMap_cons, hd, Option.map_none, ite_self]
        rw [e1, e2]
        refine ⟨fun h => ?_, fun h => ?_⟩
        · have h3 : omitted fs ([] : List (String × α)) ≠ [] := by rw [← e2]; exact h.2.2
          cases ho : omitted fs ([] : List (String × α)) with
          | nil => exact absurd ho h3
          | cons p l => rfl
        · have h3 : omitted fs ([] : List (String × α)) = [] := by
            cases ho : omitted fs ([] : List (String × α)) with
            | nil => rfl
            | cons p l =>
              refine absurd ⟨rfl, fun f' r e => ?_, ?_⟩ h
              · cases e; exact hd
              · rw [e2, ho]; intro q; cases q
          rw [h3]
          rfl

/-- What is emitted of the fields given. -/
def values (given : List (String × Ty × α)) : List (String × α) := given.map fun g => (g.1, g.2.2)

def intT : Ty := ⟨.int, none, "", ""⟩

end Sl

open Sl

/-! ### C311: the C text of a literal -/

/-- C311: a literal without errors gives an initialiser list that C can read. -/
def C311_statement : Prop :=
  ∀ (fs : List (Field Int)) (given : List (String × Ty × Int)), litErrors fs given = [] → (readInit (emitLit fs (values given))).isSome = true

/-- `struct { a int, b int = 5 }` and the literal `S{}`: `{, .b = 5}` -/
theorem C311_witness :
    emitLit [⟨"a", intT, none⟩, ⟨"b", intT, some 5⟩] ([] : List (String × Int)) = [.comma, .item "b" 5] ∧
    readInit (emitLit [⟨"a", intT, none⟩, ⟨"b", intT, some 5⟩] ([] : List (String × Int))) = none := ⟨rfl, rfl⟩

theorem C311_fails : ¬ C311_statement := fun h => by
  have := h [⟨"a", intT, none⟩, ⟨"b", intT, some 5⟩] [] rfl
  rw [show values ([] : List (String × Ty × Int)) = [] from rfl, C311_witness.2] at this
  cases this

/-- C311 exactly: the list is spoilt if and only if the literal is empty, the first field has no default value and some other
has one. Otherwise C reads the fields given and then the default values of the others. -/
theorem C311_partial {α : Type} (fs : List (Field α)) (given : List (String × α)) :
    (Spoilt fs given → readInit (emitLit fs given) = none) ∧
    (¬ Spoilt fs given → readInit (emitLit fs given) = some (given ++ omitted fs given)) := emitLit_read fs given

example : readInit (emitLit [⟨"a", intT, some 1⟩, ⟨"b", intT, none⟩, ⟨"c", intT, some 3⟩] [("b", (7 : Int))]) =
    some [("b", 7), ("a", 1), ("c", 3)] := rfl

/-! ### C312: the fields -/

namespace Sl

variable {α : Type}

theorem dups_spec : ∀ (l before : List String), dups before l = [] → l.Nodup ∧ ∀ x ∈ l, x ∉ before
  | [], _, _ => ⟨List.nodup_nil, fun _ h => by cases h⟩
  | n :: l, before, h => by
    rw [dups, List.append_eq_nil_iff] at h
    have h0 : n ∉ before := fun q => by rw [if_pos q] at h; cases h.1
    obtain ⟨h1, h2⟩ := dups_spec l (n :: before) h.2
    refine ⟨List.nodup_cons.2 ⟨fun q => h2 n q List.mem_cons_self, h1⟩, fun x hx => ?_⟩
    rcases List.mem_cons.1 hx with rfl | hx
    · exact h0
    · exact fun q => h2 x hx (List.mem_cons_of_mem _ q)

theorem member_of_mem {l : List (String × α)} (hn : (l.map Prod.fst).Nodup) {n : String} {v : α} (h : (n, v) ∈ l) : member l n = some v := by
  unfold member
  cases hf : l.reverse.find? (fun p => p.1 == n) with
  | none =>
    have := List.find?_eq_none.1 hf (n, v) (List.mem_reverse.2 h)
    exact absurd (beq_self_eq_true n) this
  | some p =>
    have h1 : p ∈ l := List.mem_reverse.1 (List.mem_of_find?_eq_some hf)
    have h2 : p.1 = n := beq_iff_eq.1 (List.find?_some (p := fun p : String × α => p.1 == n) hf)
    have : p = (n, v) := by
      clear hf
      induction l with
      | nil => cases h
      | cons q l ih =>
        rw [List.map_cons, List.nodup_cons] at hn
        rcases List.mem_cons.1 h with rfl | h
        · rcases List.mem_cons.1 h1 with rfl | h1
          · rfl
          · exact absurd (List.mem_map.2 ⟨p, h1, h2⟩) hn.1
        · rcases List.mem_cons.1 h1 with h1 | h1
          · exact absurd (List.mem_map.2 ⟨(n, v), h, (h1 ▸ h2.symm : (n, v).1 = q.1)⟩) hn.1
          · exact ih hn.2 h h1
    rw [this]; rfl

theorem member_none {l : List (String × α)} {n : String} (h : n ∉ l.map Prod.fst) : member l n = none := by
  unfold member
  cases hf : l.reverse.find? (fun p => p.1 == n) with
  | none => rfl
  | some p =>
    have h1 : p ∈ l := List.mem_reverse.1 (List.mem_of_find?_eq_some hf)
    have h2 : p.1 = n := beq_iff_eq.1 (List.find?_some (p := fun p : String × α => p.1 == n) hf)
    exact absurd (List.mem_map.2 ⟨p, h1, h2⟩) h

theorem mem_omitted {fs : List (Field α)} {given : List (String × α)} {p : String × α} :
    p ∈ omitted fs given ↔ ∃ f ∈ fs, f.name = p.1 ∧ f.dflt = some p.2 ∧ f.name ∉ given.map Prod.fst := by
  rw [omitted, List.mem_filterMap]
  constructor
  · rintro ⟨f, hf, h⟩
    split at h
    · cases h
    · rename_i hn
      obtain ⟨v, hv, rfl⟩ := Option.map_eq_some_iff.1 h
      exact ⟨f, hf, rfl, hv, hn⟩
  · rintro ⟨f, hf, h1, h2, h3⟩
    refine ⟨f, hf, ?_⟩
    rw [if_neg h3, h2, h1]
    rfl

theorem omitted_nodup : ∀ {fs : List (Field α)} {given : List (String × α)}, (fs.map Field.name).Nodup → ((omitted fs given).map Prod.fst).Nodup
  | [], _, _ => List.nodup_nil
  | f :: fs, given, h => by
    rw [List.map_cons, List.nodup_cons] at h
    have ih := omitted_nodup (given := given) h.2
    rw [omitted, List.filterMap_cons]
    split
    · exact ih
    · rename_i p hp
      rw [List.map_cons, List.nodup_cons]
      refine ⟨fun hm => ?_, ih⟩
      obtain ⟨q, hq, hqp⟩ := List.mem_map.1 hm
      obtain ⟨f', hf', h1, _, _⟩ := mem_omitted.1 hq
      split at hp
      · cases hp
      · obtain ⟨v, _, rfl⟩ := Option.map_eq_some_iff.1 hp
        exact h.1 (List.mem_map.2 ⟨f', hf', h1.trans hqp⟩)

theorem field_eq : ∀ {fs : List (Field α)}, (fs.map Field.name).Nodup → ∀ {f g : Field α}, f ∈ fs → g ∈ fs → f.name = g.name → f = g
  | [], _, _, _, hf, _, _ => by cases hf
  | x :: fs, hn, f, g, hf, hg, h => by
    rw [List.map_cons, List.nodup_cons] at hn
    rcases List.mem_cons.1 hf with e1 | hf
    · rcases List.mem_cons.1 hg with e2 | hg
      · rw [e1, e2]
      · exact absurd (List.mem_map.2 ⟨g, hg, (e1 ▸ h.symm : g.name = x.name)⟩) hn.1
    · rcases List.mem_cons.1 hg with e2 | hg
      · exact absurd (List.mem_map.2 ⟨f, hf, (e2 ▸ h : f.name = x.name)⟩) hn.1
      · exact field_eq hn.2 hf hg h

end Sl

/-- C312: in a literal without errors, whose list C can read, a field has the value given, or else the default value, or else
zeros. Names of fields differ, and C keeps them apart. -/
theorem C312_fields {α : Type} (fs : List (Field α)) (given : List (String × Ty × α)) (l : List (String × α))
    (hok : litErrors fs given = []) (hfs : (fs.map Field.name).Nodup) (hl : readInit (emitLit fs (values given)) = some l)
    (f : Field α) (hf : f ∈ fs) :
    (∀ t v, (f.name, t, v) ∈ given → member l f.name = some v) ∧
    (f.name ∉ given.map Prod.fst → member l f.name = f.dflt) := by
  have hns : ¬ Spoilt fs (values given) := fun h => by
    rw [(emitLit_read fs (values given)).1 h] at hl
    cases hl
  rw [(emitLit_read fs (values given)).2 hns] at hl
  have hl : l = values given ++ omitted fs (values given) := (Option.some.inj hl).symm
  have hv : (values given).map Prod.fst = given.map Prod.fst := by
    rw [values, List.map_map]; rfl
  have hg : (given.map Prod.fst).Nodup := (dups_spec _ [] (List.append_eq_nil_iff.1 hok).1).1
  have hn : (l.map Prod.fst).Nodup := by
    rw [hl, List.map_append, List.nodup_append]
    refine ⟨hv ▸ hg, omitted_nodup hfs, fun a ha b hb hab => ?_⟩
    obtain ⟨p, hp, rfl⟩ := List.mem_map.1 hb
    obtain ⟨f', _, h1, _, h3⟩ := mem_omitted.1 hp
    rw [h1, ← hab] at h3
    exact h3 ha
  constructor
  · intro t v h
    refine member_of_mem hn ?_
    rw [hl]
    exact List.mem_append_left _ (List.mem_map.2 ⟨(f.name, t, v), h, rfl⟩)
  · intro h
    cases hd : f.dflt with
    | some v =>
      refine member_of_mem hn ?_
      rw [hl]
      exact List.mem_append_right _ (mem_omitted.2 ⟨f, hf, rfl, hd, by rw [hv]; exact h⟩)
    | none =>
      refine member_none fun hm => ?_
      rw [hl, List.map_append] at hm
      rcases List.mem_append.1 hm with hm | hm
      · rw [hv] at hm; exact h hm
      · obtain ⟨p, hp, h0⟩ := List.mem_map.1 hm
        obtain ⟨f', hf', h1, h2, _⟩ := mem_omitted.1 hp
        have : f' = f := by
          exact field_eq hfs hf' hf (h1.trans h0)
        rw [this, hd] at h2
        cases h2

/-- C312, the checks: a field given twice, and a field that the struct does not have, are reported. -/
theorem C312_checks {α : Type} (fs : List (Field α)) (given : List (String × Ty × α)) :
    litErrors fs given = [] → (given.map Prod.fst).Nodup ∧ ∀ g ∈ given, ∃ f ∈ fs, f.name = g.1 ∧ accepts f.ty g.2.1 = true := by
  intro h
  obtain ⟨h1, h2⟩ := List.append_eq_nil_iff.1 h
  refine ⟨(dups_spec _ [] h1).1, ?_⟩
  clear h h1
  induction given with
  | nil => intro g hg; cases hg
  | cons p given ih =>
    obtain ⟨n, t, v⟩ := p
    rw [fieldErrors, List.append_eq_nil_iff] at h2
    intro g hg
    rcases List.mem_cons.1 hg with rfl | hg
    · cases hf : fs.find? (fun f => f.name == n) with
      | none => rw [hf] at h2; cases h2.1
      | some f =>
        rw [hf] at h2
        refine ⟨f, List.mem_of_find?_eq_some hf, beq_iff_eq.1 (List.find?_some (p := fun f : Field α => f.name == n) hf), ?_⟩
        have := h2.1
        dsimp only at this
        split at this
        · assumption
        · cases this
    · exact ih h2.2 g hg

example : litErrors [⟨"a", intT, some 1⟩, ⟨"b", intT, (none : Option Int)⟩] [("b", intT, 7), ("b", intT, 8), ("c", intT, 9)] = ["E2015", "E3010"] := by
  decide +kernel
example : member [("b", 7), ("a", (1 : Int))] "a" = some 1 := by decide +kernel

/-! ### C313: types of the values -/

namespace Sl

/-- What an enum is for C. -/
inductive Shape where
  | numbers | strings | payloads

def wide : List String := ["i128", "i256", "u128", "u256"]

/-- The kinds of whole numbers. -/
def IsWhole (k : Kind) : Prop := k = .int ∨ k = .uint ∨ k = .byte

theorem isInt_iff (k : Kind) : isInt k = true ↔ IsWhole k := by cases k <;> simp [isInt, IsWhole]

/-- Types whose values are numbers for C. -/
def IsNum (shape : Option String → Shape) (t : Ty) : Prop :=
  (IsWhole t.kind ∧ ∀ n, t.name = some n → n ∉ wide) ∨ t.kind = .float ∨ t.kind = .bool ∨ t.kind = .char ∨
  (t.kind = .enm ∧ shape t.name = .numbers)

/-- A value of the type `v` can be in a field of the type `e`. -/
def Fits (shape : Option String → Shape) (e v : Ty) : Prop :=
  e = v ∨ (IsNum shape e ∧ IsNum shape v) ∨ (v.kind = .nil ∧ (e.kind = .pointer ∨ e.kind = .error))

/-- Types as `type_from_name` makes them, of the kinds with one type, or one for each name. -/
def Canonical (t : Ty) : Prop :=
  (t.kind = .void ∨ t.kind = .string ∨ t.kind = .error ∨ t.kind = .nil → t = ⟨t.kind, none, "", ""⟩) ∧
  (t.kind = .struct ∨ t.kind = .pointer → ∃ n, t = ⟨t.kind, some n, "", ""⟩)

/-- The kinds whose types the check does not tell apart. -/
def Coarse (shape : Option String → Shape) (t : Ty) : Prop :=
  t.kind = .array ∨ t.kind = .map ∨ t.kind = .function ∨ (t.kind = .enm ∧ shape t.name ≠ .numbers) ∨
  (IsWhole t.kind ∧ ∃ n, t.name = some n ∧ n ∈ wide)

theorem num_or_coarse (shape : Option String → Shape) (t : Ty)
    (h : IsWhole t.kind ∨ t.kind = .float ∨ t.kind = .bool ∨ t.kind = .char ∨ t.kind = .enm) : IsNum shape t ∨ Coarse shape t := by
  rcases h with h | h | h | h | h
  · by_cases hw : ∃ n, t.name = some n ∧ n ∈ wide
    · exact Or.inr (Or.inr (Or.inr (Or.inr (Or.inr ⟨h, hw⟩))))
    · exact Or.inl (Or.inl ⟨h, fun n hn hm => hw ⟨n, hn, hm⟩⟩)
  · exact Or.inl (Or.inr (Or.inl h))
  · exact Or.inl (Or.inr (Or.inr (Or.inl h)))
  · exact Or.inl (Or.inr (Or.inr (Or.inr (Or.inl h))))
  · cases hs : shape t.name with
    | numbers => exact Or.inl (Or.inr (Or.inr (Or.inr (Or.inr ⟨h, hs⟩))))
    | strings => exact Or.inr (Or.inr (Or.inr (Or.inr (Or.inl ⟨h, by rw [hs]; intro q; cases q⟩))))
    | payloads => exact Or.inr (Or.inr (Or.inr (Or.inr (Or.inl ⟨h, by rw [hs]; intro q; cases q⟩))))

/-- The pairs of kinds that pass. -/
theorem accepts_kinds : ∀ (a b : Kind) (x y : Option String) (p q r s : String), accepts ⟨a, x, p, q⟩ ⟨b, y, r, s⟩ = true →
    a = .unknown ∨ b = .unknown ∨ a = b ∨ (IsWhole a ∧ b = .enm) ∨ (a = .enm ∧ IsWhole b) ∨ (a = .struct ∧ IsWhole b) ∨
    (IsWhole a ∧ b = .struct) ∨ (a = .float ∧ IsWhole b) ∨ (b = .nil ∧ (a = .pointer ∨ a = .error)) := by
  intro a b x y p q r s
  cases a <;> cases b <;> simp [accepts, isInt, IsWhole]

theorem accepts_names {e v : Ty} (h : accepts e v = true) (hk : e.kind = v.kind) (hc : e.kind = .struct ∨ e.kind = .pointer) :
    namesDiffer e v = false := by
  obtain ⟨a, x, p, q⟩ := e
  obtain ⟨b, y, r, s⟩ := v
  dsimp only at hk hc
  subst hk
  rcases hc with rfl | rfl
  · simpa [accepts, isInt] using h
  · simpa [accepts, isInt] using h

end Sl

/-- C313: an accepted value has the type of the field, or one that becomes it. -/
def C313_statement : Prop := ∀ (shape : Option String → Shape) (e v : Ty), e.kind ≠ .unknown → v.kind ≠ .unknown → accepts e v = true → Fits shape e v

theorem C313_witness :
    -- an array of strings for an array of numbers
    accepts ⟨.array, none, "int", ""⟩ ⟨.array, none, "string", ""⟩ = true ∧
    accepts ⟨.map, some "map[string:int]", "string", "int"⟩ ⟨.map, some "map[int:string]", "int", "string"⟩ = true ∧
    -- a number for a struct, and a struct for a number
    accepts ⟨.struct, some "P", "", ""⟩ intT = true ∧ accepts intT ⟨.struct, some "P", "", ""⟩ = true ∧
    -- a number for an enum of strings
    accepts ⟨.enm, some "E", "", ""⟩ intT = true ∧
    -- an `int` for an `i128`
    accepts ⟨.int, some "i128", "", ""⟩ intT = true := by decide +kernel

theorem C313_fails : ¬ C313_statement := by
  intro h
  have := h (fun _ => .numbers) ⟨.array, none, "int", ""⟩ ⟨.array, none, "string", ""⟩ (by decide) (by decide) C313_witness.1
  rcases this with h | ⟨h, _⟩ | ⟨h, _⟩
  · exact absurd (congrArg Ty.elem h) (by decide)
  · rcases h with ⟨h | h | h, _⟩ | h | h | h | ⟨h, _⟩ <;> cases h
  · cases h

/-- C313, but for arrays, maps, functions, enums that are not of numbers and wide integers, and for structs and integers mixed. -/
theorem C313_partial (shape : Option String → Shape) (e v : Ty) (he : e.kind ≠ .unknown) (hv : v.kind ≠ .unknown)
    (ce : Canonical e) (cv : Canonical v) (ge : ¬ Coarse shape e) (gv : ¬ Coarse shape v)
    (hm : ¬ (e.kind = .struct ∧ IsWhole v.kind)) (hm' : ¬ (IsWhole e.kind ∧ v.kind = .struct))
    (h : accepts e v = true) : Fits shape e v := by
  have num : ∀ t : Ty, ¬ Coarse shape t → (IsWhole t.kind ∨ t.kind = .float ∨ t.kind = .bool ∨ t.kind = .char ∨ t.kind = .enm) → IsNum shape t :=
    fun t hc ht => (num_or_coarse shape t ht).resolve_right hc
  rcases accepts_kinds e.kind v.kind e.name v.name e.elem e.val v.elem v.val h with q | q | q | q | q | q | q | q | q
  · exact absurd q he
  · exact absurd q hv
  · by_cases hn : IsWhole e.kind ∨ e.kind = .float ∨ e.kind = .bool ∨ e.kind = .char ∨ e.kind = .enm
    · exact Or.inr (Or.inl ⟨num e ge hn, num v gv (q ▸ hn)⟩)
    · by_cases h1 : e.kind = .void ∨ e.kind = .string ∨ e.kind = .error ∨ e.kind = .nil
      · left
        rw [ce.1 h1, cv.1 (q ▸ h1), q]
      · by_cases h2 : e.kind = .struct ∨ e.kind = .pointer
        · have hd := accepts_names h q h2
          obtain ⟨n, hn⟩ := ce.2 h2
          obtain ⟨m, hm⟩ := cv.2 (q ▸ h2)
          have e1 : e.name = some n := by rw [hn]
          have e2 : v.name = some m := by rw [hm]
          rw [namesDiffer, e1, e2] at hd
          have hd : (n != m) = false := hd
          have hd : n = m := by
            by_cases hnm : n = m
            · exact hnm
            · rw [bne_iff_ne.2 hnm] at hd; cases hd
          left
          rw [hn, hm, q, hd]
        · exfalso
          have h3 : ¬ (e.kind = .array ∨ e.kind = .map ∨ e.kind = .function) := by
            rintro (h | h | h)
            · exact ge (Or.inl h)
            · exact ge (Or.inr (Or.inl h))
            · exact ge (Or.inr (Or.inr (Or.inl h)))
          revert hn h1 h2 h3 he
          cases e.kind <;> simp [IsWhole]
  · exact Or.inr (Or.inl ⟨num e ge (Or.inl q.1), num v gv (Or.inr (Or.inr (Or.inr (Or.inr q.2))))⟩)
  · exact Or.inr (Or.inl ⟨num e ge (Or.inr (Or.inr (Or.inr (Or.inr q.1)))), num v gv (Or.inl q.2)⟩)
  · exact absurd q hm
  · exact absurd q hm'
  · exact Or.inr (Or.inl ⟨num e ge (Or.inr (Or.inl q.1)), num v gv (Or.inl q.2)⟩)
  · exact Or.inr (Or.inr q)

/-- A value of the very type of the field is accepted, and so are integers for floats and numbers, and nil for pointers and errors. -/
theorem C313_accepts (e v : Ty) :
    accepts e e = true ∧ (e.kind = .float → IsWhole v.kind → accepts e v = true) ∧
    (v.kind = .nil → (e.kind = .pointer ∨ e.kind = .error) → accepts e v = true) := by
  have hn : namesDiffer e e = false := by
    unfold namesDiffer
    cases e.name with
    | none => rfl
    | some x => exact bne_self_eq_false x
  refine ⟨?_, ?_, ?_⟩
  · simp [accepts, hn]
  · intro h1 h2
    simp [accepts, h1, (isInt_iff _).2 h2]
  · rintro h1 (h2 | h2) <;> simp [accepts, h1, h2]

example : accepts ⟨.float, none, "", ""⟩ intT = true ∧ accepts intT ⟨.float, none, "", ""⟩ = false ∧
    accepts ⟨.struct, some "P", "", ""⟩ ⟨.struct, some "Q", "", ""⟩ = false := by decide +kernel

/-! ### C314: integers -/

/-- C314: a number can be written for a field of an integer type if and only if it is in the range of the type. -/
def C314_statement : Prop :=
  ∀ t ∈ [int8, int64, uint8, uint64], ∀ z : Int, litAccepted t = true ↔ t.lo ≤ z ∧ z ≤ t.hi

theorem C314_witness : litAccepted uint8 = false ∧ litAccepted int8 = true ∧ stored int8 300 = 44 := by decide +kernel

theorem C314_fails : ¬ C314_statement := by
  intro h
  have := (h int8 List.mem_cons_self 300).1 C314_witness.2.1
  revert this
  decide

/-- What holds of C314: every number is accepted for a signed type and none for an unsigned one; what is stored is the number
exactly if it is in the range, and is in the range in any case. -/
theorem C314_partial (t : IntTy) (hk : t.kind = .int ∨ t.kind = .uint ∨ t.kind = .byte) (hr : t.lo ≤ t.hi) :
    (litAccepted t = true ↔ t.kind = .int) ∧
    (∀ z, stored t z = z ↔ t.lo ≤ z ∧ z ≤ t.hi) ∧ (∀ z, t.lo ≤ stored t z ∧ stored t z ≤ t.hi) := by
  have hpos : 0 < t.hi - t.lo + 1 := by omega
  refine ⟨?_, fun z => ?_, fun z => ?_⟩
  · unfold litAccepted
    rcases hk with h | h | h <;> rw [h] <;> decide +kernel
  · have h1 := Int.emod_nonneg (z - t.lo) (Int.ne_of_gt hpos)
    have h2 := Int.emod_lt_of_pos (z - t.lo) hpos
    unfold stored
    constructor
    · intro h; omega
    · intro h
      rw [Int.emod_eq_of_lt (by omega) (by omega)]
      omega
  · have h1 := Int.emod_nonneg (z - t.lo) (Int.ne_of_gt hpos)
    have h2 := Int.emod_lt_of_pos (z - t.lo) hpos
    unfold stored
    omega

example : stored int64 5 = 5 ∧ stored uint8 (-1) = 255 := by decide +kernel

/-! ### C315: arrays that are left out -/

/-- C315: an array field that a literal leaves out is an empty array: what is put in is there. -/
def C315_statement : Prop :=
  ∀ v : List (BitVec 8), v ≠ [] →
    (appendRaw zeroArr v >>= fun a => getRaw a v.length 0) = .ok v ∧ (insertRaw zeroArr 0 v >>= fun a => getRaw a v.length 0) = .ok v

theorem C315_witness :
    insertRaw zeroArr 0 [7, 0, 0, 0, 0, 0, 0, 0] = .ok ⟨0, 1, 4, []⟩ ∧ getRaw ⟨0, 1, 4, []⟩ 8 0 = .ub := by decide +kernel

theorem C315_fails : ¬ C315_statement := by
  intro h
  have := (h [7, 0, 0, 0, 0, 0, 0, 0] (by decide)).2
  rw [C315_witness.1, Outcome.bind_ok] at this
  have := C315_witness.2.symm.trans this
  cases this

namespace Sl

theorem append_zero (v : List (BitVec 8)) (hv : v ≠ []) :
    appendRaw zeroArr v = .ok ⟨v.length, 1, 4, v ++ List.replicate (3 * v.length) 0⟩ := by
  have hl : (List.replicate (4 * v.length) (0 : BitVec 8)).length = 4 * v.length := List.length_replicate
  have h1 : appendRaw zeroArr v = pushRaw ⟨v.length, 0, 0, []⟩ v := rfl
  have h2 : grow ⟨v.length, 0, 0, []⟩ = ⟨v.length, 0, 4, List.replicate (4 * v.length) 0⟩ := by
    simp [grow]
  have h3 : store (List.replicate (4 * v.length) 0) 0 v.length v = .ok (v ++ List.replicate (3 * v.length) 0) := by
    rw [store, if_pos ⟨by rw [hl]; omega, Nat.le_refl _⟩, List.take_zero, List.nil_append, List.take_length, Nat.zero_add, List.drop_replicate,
      show 4 * v.length - v.length = 3 * v.length by omega]
  rw [h1, pushRaw, h2]
  simp only [Nat.zero_mul, h3, Outcome.bind_ok]

theorem insert_new (v : List (BitVec 8)) :
    insertRaw (newArr v.length) 0 v = .ok ⟨v.length, 1, 4, v ++ List.replicate (3 * v.length) 0⟩ := by
  have hl : (List.replicate (4 * v.length) (0 : BitVec 8)).length = 4 * v.length := List.length_replicate
  have h2 : grow (newArr v.length) = ⟨v.length, 0, 4, List.replicate (4 * v.length) 0⟩ := by
    simp [grow, newArr]
  have h3 : store (List.replicate (4 * v.length) 0) 0 v.length v = .ok (v ++ List.replicate (3 * v.length) 0) := by
    rw [store, if_pos ⟨by rw [hl]; omega, Nat.le_refl _⟩, List.take_zero, List.nil_append, List.take_length, Nat.zero_add, List.drop_replicate,
      show 4 * v.length - v.length = 3 * v.length by omega]
  have h4 : store (List.replicate (4 * v.length) 0) (1 * v.length) 0 [] = .ok (List.replicate (4 * v.length) 0) := by
    rw [store, if_pos ⟨by rw [hl]; omega, Nat.le_refl _⟩, List.take_zero, List.append_nil, Nat.add_zero, List.take_append_drop]
  have h5 : ¬ (newArr v.length).len < 0 := Nat.not_lt_zero _
  rw [insertRaw, if_neg h5, h2]
  simp only [Nat.zero_mul, Nat.sub_self, List.take_zero, Nat.zero_add, h4, Outcome.bind_ok, h3]

theorem get_first (v r : List (BitVec 8)) : getRaw ⟨v.length, 1, 4, v ++ r⟩ v.length 0 = .ok v := by
  rw [getRaw, if_neg (Nat.not_succ_le_zero 0), if_pos (by dsimp only; rw [List.length_append]; omega)]
  simp

end Sl

/-- What holds of C315: appending gives the array that appending to a new one gives, so that there is no difference from then on;
and in an array made by `new` both work. -/
theorem C315_partial (v : List (BitVec 8)) (hv : v ≠ []) :
    appendRaw zeroArr v = insertRaw (newArr v.length) 0 v ∧
    (appendRaw zeroArr v >>= fun a => getRaw a v.length 0) = .ok v ∧
    (insertRaw (newArr v.length) 0 v >>= fun a => getRaw a v.length 0) = .ok v := by
  refine ⟨(append_zero v hv).trans (insert_new v).symm, ?_, ?_⟩
  · rw [append_zero v hv, Outcome.bind_ok]; exact get_first v _
  · rw [insert_new v, Outcome.bind_ok]; exact get_first v _

namespace Sl

/-- The array holds these values of `w` bytes each. -/
structure Rep (a : Raw) (w : Nat) (vs : List (List (BitVec 8))) : Prop where
  esz : a.esz = w
  len : a.len = vs.length
  cap : a.len ≤ a.cap
  size : a.data.length = a.cap * w
  vals : a.data.take (a.len * w) = vs.flatten
  each : ∀ v ∈ vs, v.length = w

theorem flatten_length {w : Nat} {vs : List (List (BitVec 8))} (h : ∀ v ∈ vs, v.length = w) : vs.flatten.length = vs.length * w := by
  induction vs with
  | nil => simp
  | cons v vs ih =>
    rw [List.flatten_cons, List.length_append, ih (fun x hx => h x (List.mem_cons_of_mem _ hx)), h v (List.mem_cons_self ..),
      List.length_cons, Nat.succ_mul, Nat.add_comm]

theorem grow_rep {a : Raw} {w : Nat} {vs : List (List (BitVec 8))} (h : Rep a w vs) : Rep (grow a) w vs ∧ (grow a).len < (grow a).cap := by
  unfold grow
  by_cases hc : a.cap ≤ a.len
  · rw [if_pos hc]
    dsimp only
    have hlt : a.len < (if a.cap < 4 then 4 else a.cap * 2) := by
      have := h.cap
      split <;> omega
    generalize (if a.cap < 4 then 4 else a.cap * 2) = cap at hlt
    have hle : a.len * w ≤ cap * w := Nat.mul_le_mul_right w (by omega)
    have hfl : vs.flatten.length = a.len * w := by rw [flatten_length h.each, h.len]
    refine ⟨⟨h.esz, h.len, by dsimp only; omega, ?_, ?_, h.each⟩, hlt⟩
    · dsimp only
      rw [h.esz, h.vals, List.length_append, List.length_replicate, hfl]
      omega
    · dsimp only
      rw [h.esz, h.vals, ← hfl, List.take_left]
  · rw [if_neg hc]
    exact ⟨h, by omega⟩

theorem split_data {a : Raw} {w : Nat} {vs : List (List (BitVec 8))} (h : Rep a w vs) :
    ∃ r, a.data = vs.flatten ++ r ∧ r.length = (a.cap - a.len) * w := by
  refine ⟨a.data.drop (a.len * w), ?_, ?_⟩
  · rw [← h.vals, List.take_append_drop]
  · rw [List.length_drop, h.size, Nat.sub_mul]

theorem store_mid (A B C v : List (BitVec 8)) {p n : Nat} (hp : p = A.length) (hn : n = B.length) (hv : n ≤ v.length) :
    store (A ++ B ++ C) p n v = .ok (A ++ v.take n ++ C) := by
  subst hp; subst hn
  have hl : (A ++ B ++ C).length = A.length + B.length + C.length := by simp only [List.length_append]
  rw [store, if_pos ⟨by omega, hv⟩]
  have h1 : (A ++ B ++ C).take A.length = A := by rw [List.append_assoc, List.take_left]
  have h2 : (A ++ B ++ C).drop (A.length + B.length) = C := by rw [← List.length_append, List.drop_left]
  rw [h1, h2]

/-- Room for one more value behind the values -/
theorem split_room {a : Raw} {w : Nat} {vs : List (List (BitVec 8))} (h : Rep a w vs) (hlt : a.len < a.cap) :
    ∃ r1 r2, a.data = vs.flatten ++ r1 ++ r2 ∧ r1.length = w := by
  obtain ⟨r, hr, hrl⟩ := split_data h
  have hrw : w ≤ r.length := by
    rw [hrl]
    calc w = 1 * w := (Nat.one_mul w).symm
      _ ≤ _ := Nat.mul_le_mul_right w (by omega)
  exact ⟨r.take w, r.drop w, by rw [List.append_assoc, List.take_append_drop, hr], by rw [List.length_take]; omega⟩

/-- The array after a value was put in. -/
theorem put_rep {g : Raw} {w : Nat} {vs ws : List (List (BitVec 8))} (hg : Rep g w vs) (hlt : g.len < g.cap) {d r2 : List (BitVec 8)}
    (hd : d = ws.flatten ++ r2) (hl : d.length = g.data.length) (hn : ws.length = vs.length + 1) (he : ∀ v ∈ ws, v.length = w) :
    Rep ⟨g.esz, g.len + 1, g.cap, d⟩ w ws := by
  refine ⟨hg.esz, ?_, hlt, ?_, ?_, he⟩
  · dsimp only; rw [hg.len, hn]
  · dsimp only; rw [hl, hg.size]
  · dsimp only
    have : (g.len + 1) * w = ws.flatten.length := by rw [flatten_length he, hn, hg.len]
    rw [this, hd, List.take_left]

theorem push_rep {a : Raw} {w : Nat} {vs : List (List (BitVec 8))} (h : Rep a w vs) {v : List (BitVec 8)} (hv : v.length = w) :
    ∃ b, pushRaw a v = .ok b ∧ Rep b w (vs ++ [v]) := by
  obtain ⟨hg, hlt⟩ := grow_rep h
  obtain ⟨r1, r2, hr, h1⟩ := split_room hg hlt
  have hs : store (grow a).data ((grow a).len * (grow a).esz) (grow a).esz v = .ok (vs.flatten ++ v ++ r2) := by
    rw [hr, hg.esz, store_mid vs.flatten r1 r2 v (by rw [flatten_length h.each, hg.len]) h1.symm (by omega), ← hv, List.take_length]
  refine ⟨⟨(grow a).esz, (grow a).len + 1, (grow a).cap, vs.flatten ++ v ++ r2⟩, ?_, ?_⟩
  · unfold pushRaw
    dsimp only
    rw [hs]
    rfl
  · refine put_rep hg hlt (ws := vs ++ [v]) (r2 := r2) (by simp) (by rw [hr]; simp [hv, h1]) (by simp) ?_
    intro x hx
    rcases List.mem_append.1 hx with q | q
    · exact h.each x q
    · rw [List.mem_singleton.1 q]; exact hv

theorem insert_rep {a : Raw} {w : Nat} {vs : List (List (BitVec 8))} (h : Rep a w vs) {v : List (BitVec 8)} (hv : v.length = w)
    {i : Nat} (hi : i ≤ vs.length) : ∃ b, insertRaw a i v = .ok b ∧ Rep b w (vs.take i ++ v :: vs.drop i) := by
  obtain ⟨hg, hlt⟩ := grow_rep h
  obtain ⟨r1, r2, hr, h1⟩ := split_room hg hlt
  have hP : ((vs.take i).flatten).length = i * w := by
    rw [flatten_length (fun x hx => h.each x (List.mem_of_mem_take hx)), List.length_take, Nat.min_eq_left hi]
  have hQ : ((vs.drop i).flatten).length = (vs.length - i) * w := by
    rw [flatten_length (fun x hx => h.each x (List.mem_of_mem_drop hx)), List.length_drop]
  have hPQ : vs.flatten = (vs.take i).flatten ++ (vs.drop i).flatten := by
    rw [← List.flatten_append, List.take_append_drop]
  have hws : (vs.take i ++ v :: vs.drop i).flatten = (vs.take i).flatten ++ (v ++ (vs.drop i).flatten) := by
    rw [List.flatten_append, List.flatten_cons]
  have hr0 := hr
  rw [hPQ] at hr0
  generalize (vs.take i).flatten = P at *
  generalize (vs.drop i).flatten = Q at *
  have hX : ((Q ++ r1).take w).length = w := by rw [List.length_take, List.length_append]; omega
  have hY : ((Q ++ r1).drop w).length = Q.length := by rw [List.length_drop, List.length_append]; omega
  have hXY : (Q ++ r1).take w ++ (Q ++ r1).drop w = Q ++ r1 := List.take_append_drop ..
  generalize (Q ++ r1).take w = X at *
  generalize (Q ++ r1).drop w = Y at *
  have hdata : (grow a).data = (P ++ X) ++ Y ++ r2 := by
    rw [hr0, List.append_assoc P Q r1, ← hXY, ← List.append_assoc P X Y]
  have ht : ((grow a).data.drop (i * w)).take ((vs.length - i) * w) = Q := by
    rw [hr0, ← hP, ← hQ, List.append_assoc, List.append_assoc, List.drop_left, List.take_left]
  have hs1 : store (grow a).data ((i + 1) * w) ((vs.length - i) * w) Q = .ok ((P ++ X) ++ Q ++ r2) := by
    rw [hdata, store_mid (P ++ X) Y r2 Q (by rw [List.length_append, hP, hX, Nat.succ_mul]) (by rw [hY, hQ]) (by omega), ← hQ, List.take_length]
  have hs2 : store ((P ++ X) ++ Q ++ r2) (i * w) w v = .ok (P ++ v ++ (Q ++ r2)) := by
    rw [List.append_assoc (P ++ X), store_mid P X (Q ++ r2) v hP.symm hX.symm (by omega), ← hv, List.take_length]
  refine ⟨⟨(grow a).esz, (grow a).len + 1, (grow a).cap, P ++ v ++ (Q ++ r2)⟩, ?_, ?_⟩
  · unfold insertRaw
    rw [if_neg (by rw [h.len]; omega)]
    dsimp only
    rw [hg.esz, hg.len, ht, hs1, Outcome.bind_ok, hs2]
    rfl
  · refine put_rep hg hlt (ws := vs.take i ++ v :: vs.drop i) (r2 := r2) (by rw [hws]; simp) (by rw [hr0]; simp [hv, h1]; omega) ?_ ?_
    · rw [List.length_append, List.length_cons, List.length_take, List.length_drop]; omega
    · intro x hx
      rcases List.mem_append.1 hx with q | q
      · exact h.each x (List.mem_of_mem_take q)
      · rcases List.mem_cons.1 q with e | e
        · rw [e]; exact hv
        · exact h.each x (List.mem_of_mem_drop e)

theorem get_rep {a : Raw} {w : Nat} {vs : List (List (BitVec 8))} (h : Rep a w vs) {i : Nat} (hi : i < vs.length) :
    getRaw a w i = .ok vs[i] := by
  obtain ⟨r, hr, _⟩ := split_data h
  have hP : ((vs.take i).flatten).length = i * w := by
    rw [flatten_length (fun x hx => h.each x (List.mem_of_mem_take hx)), List.length_take, Nat.min_eq_left (by omega)]
  have hv := h.each vs[i] (List.getElem_mem hi)
  have hsp : vs.flatten = (vs.take i).flatten ++ (vs[i] ++ (vs.drop (i + 1)).flatten) := by
    rw [← List.flatten_cons, ← List.drop_eq_getElem_cons hi, ← List.flatten_append, List.take_append_drop]
  rw [hsp] at hr
  unfold getRaw
  rw [if_neg (by rw [h.len]; omega), h.esz, hr, if_pos (by simp only [List.length_append, hP, hv]; omega), ← hP, List.append_assoc,
    List.append_assoc, List.drop_left]
  conv => lhs; rw [← hv]
  rw [List.take_left]

theorem new_rep (w : Nat) : Rep (newArr w) w [] :=
  ⟨rfl, rfl, Nat.zero_le _, List.length_replicate, by show List.take (0 * w) _ = _; rw [Nat.zero_mul]; rfl, fun _ h => nomatch h⟩

/-- Appending some values in turn -/
def appendAll (a : Raw) : List (List (BitVec 8)) → Outcome Raw
  | [] => .ok a
  | v :: vs => appendRaw a v >>= fun b => appendAll b vs

theorem appendAll_rep {w : Nat} (hw : 0 < w) (ws : List (List (BitVec 8))) : ∀ {a vs}, Rep a w vs → (∀ v ∈ ws, v.length = w) →
    ∃ b, appendAll a ws = .ok b ∧ Rep b w (vs ++ ws) := by
  induction ws with
  | nil => intro a vs h _; exact ⟨a, rfl, by rw [List.append_nil]; exact h⟩
  | cons v ws ih =>
    intro a vs h he
    have ha : appendRaw a v = pushRaw a v := by
      unfold appendRaw
      rw [if_neg (by rw [h.esz]; omega)]
    obtain ⟨b, hb, hr⟩ := push_rep h (he v (List.mem_cons_self ..))
    obtain ⟨c, hc, hr'⟩ := ih hr (fun x hx => he x (List.mem_cons_of_mem _ hx))
    refine ⟨c, ?_, by rw [List.append_assoc] at hr'; exact hr'⟩
    show (appendRaw a v >>= fun b => appendAll b ws) = _
    rw [ha, hb, Outcome.bind_ok, hc]

end Sl

/-- Of an array that was left out: any values appended in turn are all there, in order. -/
theorem C315_append_partial (w : Nat) (hw : 0 < w) (ws : List (List (BitVec 8))) (he : ∀ v ∈ ws, v.length = w) :
    ∃ b, appendAll zeroArr ws = .ok b ∧ b.len = ws.length ∧ ∀ i (hi : i < ws.length), getRaw b w i = .ok ws[i] := by
  have key : ∀ b, Rep b w ws → b.len = ws.length ∧ ∀ i (hi : i < ws.length), getRaw b w i = .ok ws[i] :=
    fun b hb => ⟨hb.len, fun i hi => get_rep hb hi⟩
  cases ws with
  | nil => exact ⟨zeroArr, rfl, rfl, fun i hi => absurd hi (Nat.not_lt_zero _)⟩
  | cons v vs =>
    have hv := he v (List.mem_cons_self ..)
    have hne : v ≠ [] := by intro q; rw [q] at hv; simp at hv; omega
    obtain ⟨b, hb, hr⟩ := insert_rep (new_rep w) hv (i := 0) (Nat.zero_le _)
    have hz : appendRaw zeroArr v = .ok b := by
      rw [(C315_partial v hne).1, hv, hb]
    obtain ⟨c, hc, hr'⟩ := appendAll_rep hw vs hr (fun x hx => he x (List.mem_cons_of_mem _ hx))
    refine ⟨c, ?_, key c (by simpa using hr')⟩
    show (appendRaw zeroArr v >>= fun b => appendAll b vs) = _
    rw [hz, Outcome.bind_ok, hc]

/-- Of an array that holds values: one inserted at any place is there, and the others keep their order. -/
theorem C315_insert_partial (w : Nat) (hw : 0 < w) (vs : List (List (BitVec 8))) (he : ∀ v ∈ vs, v.length = w) (hne : vs ≠ [])
    (v : List (BitVec 8)) (hv : v.length = w) (i : Nat) (hi : i ≤ vs.length) :
    ∃ a b, appendAll zeroArr vs = .ok a ∧ insertRaw a i v = .ok b ∧
      ∀ j (hj : j < (vs.take i ++ v :: vs.drop i).length), getRaw b w j = .ok (vs.take i ++ v :: vs.drop i)[j] := by
  cases vs with
  | nil => exact absurd rfl hne
  | cons x xs =>
    have hx := he x (List.mem_cons_self ..)
    have hxn : x ≠ [] := by intro q; rw [q] at hx; simp at hx; omega
    obtain ⟨b, hb, hr⟩ := insert_rep (new_rep w) hx (i := 0) (Nat.zero_le _)
    have hz : appendRaw zeroArr x = .ok b := by rw [(C315_partial x hxn).1, hx, hb]
    obtain ⟨c, hc, hr'⟩ := appendAll_rep hw xs hr (fun y hy => he y (List.mem_cons_of_mem _ hy))
    have hr2 : Rep c w (x :: xs) := by simpa using hr'
    obtain ⟨d, hd, hrd⟩ := insert_rep hr2 hv hi
    refine ⟨c, d, ?_, hd, fun j hj => get_rep hrd hj⟩
    show (appendRaw zeroArr x >>= fun b => appendAll b xs) = _
    rw [hz, Outcome.bind_ok, hc]

example : appendRaw zeroArr [1, 2] = .ok ⟨2, 1, 4, [1, 2, 0, 0, 0, 0, 0, 0]⟩ := by decide +kernel

/-! ### C316: maps that are left out -/

namespace Sl

/-- A value of zeros of the type holds a map without slots. -/
inductive HasMap (e : Nat → List (FT × Bool)) : FT → Prop
  | map : HasMap e .map
  | struct {n f} : f ∈ e n → HasMap e f.1 → HasMap e (.struct n)

end Sl

/-- C316: the maps in a struct made by a literal or `new` can be used: none of them is without slots. -/
def C316_statement : Prop :=
  ∀ (e : Nat → List (FT × Bool)) (t : FT) (d : Bool),
    (litField false d = .zero → ¬ HasMap e t) ∧ (newField t d = .zero → ¬ HasMap e t)

/-- In a map without slots every search, of any key, divides by zero; so does the first insertion. -/
theorem C316_witness {K V : Type} (ops : Map.KeyOps K) (k : K) (v : V) :
    mapGet ops (zeroMap : Map.GrayMap K V) k = .ub ∧ mapHas ops (zeroMap : Map.GrayMap K V) k = .ub ∧
    mapSet ops zeroMap k v = .ub ∧
    litField false false = .zero ∧ (HasMap (fun _ => [(.map, false)]) .map) ∧
    newField (.struct 0) false = .zero ∧ HasMap (fun _ => [(.map, false)]) (.struct 0) :=
  ⟨rfl, rfl, rfl, rfl, .map, rfl, .struct List.mem_cons_self .map⟩

theorem C316_fails : ¬ C316_statement := fun h =>
  (h (fun _ => [(.map, false)]) .map false).1 rfl .map

/-- C316 exactly: in a literal the maps without slots are in the fields that are neither given nor have a default value; in `new` they
are in the fields that are structs and have no default value. Maps that are made have slots. -/
theorem C316_partial (e : Nat → List (FT × Bool)) (t : FT) (given d : Bool) :
    (litField given d = .zero ↔ given = false ∧ d = false) ∧
    ((newField t d = .zero ∧ HasMap e t) ↔ d = false ∧ ∃ n, t = .struct n ∧ ∃ f ∈ e n, HasMap e f.1) ∧
    (∀ (K V : Type), (Map.new 8 : Map.GrayMap K V).capacity ≠ 0) := by
  refine ⟨?_, ⟨?_, ?_⟩, fun K V => ?_⟩
  · cases given <;> cases d <;> decide
  · rintro ⟨h1, h2⟩
    cases d with
    | true => cases h1
    | false =>
      refine ⟨rfl, ?_⟩
      cases h2 with
      | map => cases h1
      | @struct n f hf h => exact ⟨n, rfl, f, hf, h⟩
  · rintro ⟨rfl, n, rfl, f, hf, h⟩
    exact ⟨rfl, .struct hf h⟩
  · show (List.replicate _ _).length ≠ 0
    rw [List.length_replicate]
    decide

/-! ### C317: default values -/

/-- C317: a default value that the field does not accept is reported. -/
def C317_statement : Prop :=
  ∀ (json inFunc : Bool) (fs : List (Field Ty)), (∃ f ∈ fs, ∃ d, f.dflt = some d ∧ accepts f.ty d = false) → declErrors json inFunc fs ≠ []

/-- `struct { n int = "text" }` -/
theorem C317_witness :
    accepts intT ⟨.string, none, "", ""⟩ = false ∧
    declErrors false false [⟨"n", intT, some (⟨.string, none, "", ""⟩ : Ty)⟩] = [] := by decide +kernel

theorem C317_fails : ¬ C317_statement := fun h =>
  h false false _ ⟨_, List.mem_cons_self, _, rfl, C317_witness.1⟩ C317_witness.2

/-- What holds of C317: a `#json` struct may have no default value at all. For others the type checker does not look at them. -/
theorem C317_partial {α : Type} (inFunc : Bool) (fs : List (Field α)) :
    (declErrors true inFunc fs = [] → ∀ f ∈ fs, f.dflt = none) ∧ declErrors false false fs = [] := by
  refine ⟨fun h f hf => ?_, rfl⟩
  have h := (List.append_eq_nil_iff.1 h).2
  rw [if_pos rfl] at h
  have := (List.append_eq_nil_iff.1 (List.flatMap_eq_nil_iff.1 h f hf)).2
  cases hd : f.dflt with
  | none => rfl
  | some d => rw [hd] at this; cases this

end Verif.Props

import Verif.Model.Target
import Verif.Props.IntOps
/-
Targets of assignments, `++`, `addr` and `ref`, and paths as values (claims C291 to C298).
-/
namespace Verif.Props

open Verif.Target

namespace Tg

/-! ### Specification -/

/-- The path `t` names the place `l`, which has type `T`. -/
inductive Names {L : Type} (v : Env) (m : Mem L) : Tgt → Ty → L → Prop
  | var {x T} : v.var x = some (.plain, T) → Names v m (.var x) T (m.varAt x)
  | bound {x b T l} : v.var x = some (b, T) → b ≠ .plain → m.ptrAt (m.varAt x) = some l →
      Names v m (.var x) T l
  | call {T} : Names v m (.call T) T m.callAt
  | field {o f s T l} : Names v m o (.struct s) l → v.field s f = some T →
      Names v m (.field o f) T (m.fieldAt l f)
  | auto {o f s T l p} : Names v m o (.ptr (.struct s)) l → m.ptrAt l = some p → v.field s f = some T →
      Names v m (.field o f) T (m.fieldAt p f)
  | err {o f l p} : Names v m o .err l → m.ptrAt l = some p → v.errField f = true →
      Names v m (.field o f) .str (m.fieldAt p f)
  | elem {o i T l p} : Names v m o (.arr T) l → m.elemAt l i = .ok p → Names v m (.idx o i) T p
  | entry {o k T l p} : Names v m o (.map T) l → m.entryAt l k = some p → Names v m (.idx o k) T p
  | char {o i l p} : Names v m o .str l → m.charAt l i = .ok p → Names v m (.idx o i) .num p
  | deref {o T l p} : Names v m o (.ptr T) l → m.ptrAt l = some p → Names v m (.deref o) T p

/-- An assignment to `t` is to write `d`. -/
inductive Writes {L : Type} (v : Env) (m : Mem L) : Tgt → Dest L → Prop
  | elem {o i T l} : Names v m o (.arr T) l → Writes v m (.idx o i) (.elem l i)
  | entry {o k T l} : Names v m o (.map T) l → Writes v m (.idx o k) (.entry l k)
  | field {o f T l} : Names v m (.field o f) T l → Writes v m (.field o f) (.place l)
  | var {x T l} : Names v m (.var x) T l → Writes v m (.var x) (.place l)
  | deref {o T l} : Names v m (.deref o) T l → Writes v m (.deref o) (.place l)

/-! ### Paths and types -/

theorem names_type {L : Type} {v : Env} {m : Mem L} {t : Tgt} {T : Ty} {l : L} (h : Names v m t T l) :
    typeOf v t = some T := by
  induction h with
  | var h => simp only [typeOf, h, Option.map_some]
  | bound h => simp only [typeOf, h, Option.map_some]
  | call => rfl
  | field _ h ih => simp only [typeOf, ih, h]
  | auto _ _ h ih => simp only [typeOf, ih, fieldOf, h]
  | err _ _ h ih => simp only [typeOf, ih, h, if_true]
  | elem _ _ ih => simp only [typeOf, ih]
  | entry _ _ ih => simp only [typeOf, ih]
  | char _ _ ih => simp only [typeOf, ih]
  | deref _ _ ih => simp only [typeOf, ih]

/-- A `ref` is emitted as `(*x)`. -/
theorem isRef_emit {v : Env} {o : Tgt} (h : isRef v o = true) :
    ∃ x T, o = .var x ∧ v.var x = some (.ref, T) ∧ emit v o = .star x := by
  cases o with
  | var x =>
    simp only [isRef] at h
    cases hv : v.var x with
    | none => rw [hv] at h; cases h
    | some p =>
      rw [hv] at h
      obtain ⟨b, T⟩ := p
      have hb : b = .ref := by simpa using h
      subst hb
      exact ⟨x, T, rfl, hv, by simp only [emit, hv]⟩
  | _ => cases h

/-- The emitted C has the type of the type table, if it is C at all and the path is one the table knows. -/
theorem check_ref {v : Env} {o : Tgt} (h : isRef v o = true) :
    ∃ T, typeOf v o = some T ∧ check v (emit v o) = some (T, true) := by
  obtain ⟨x, T, rfl, hv, he⟩ := isRef_emit h
  exact ⟨T, by simp only [typeOf, hv, Option.map_some], by simp only [he, check, hv]⟩

/-- What the emission of a member is, by the type of the object. -/
theorem emit_field_struct {v : Env} {o : Tgt} {f s : Nat} (h : typeOf v o = some (.struct s)) :
    emit v (.field o f) = .dot (emit v o) f := by
  rw [emit]
  split
  · rfl
  · rw [h]

theorem emit_field_ptr {v : Env} {o : Tgt} {f : Nat} {T : Ty} (h : typeOf v o = some (.ptr T))
    (hr : isRef v o = false) : emit v (.field o f) = .nilArrow (emit v o) f := by
  rw [emit, hr, h]
  rfl

theorem emit_field_err {v : Env} {o : Tgt} {f : Nat} (h : typeOf v o = some .err)
    (hr : isRef v o = false) : emit v (.field o f) = .arrow (emit v o) f := by
  rw [emit, hr, h]
  rfl

/-- A member of a `ref` to something else than a struct is not C. -/
theorem ref_bad {v : Env} {o : Tgt} {f : Nat} {T : Ty} (h : typeOf v o = some T) (hT : ∀ s, T ≠ .struct s)
    (hr : isRef v o = true) : check v (emit v (.field o f)) = none := by
  rw [emit, hr]
  obtain ⟨T', h1, h2⟩ := check_ref hr
  have e : T' = T := Option.some.inj (h1.symm.trans h)
  subst e
  simp only [if_true, check, h2]
  cases T' with
  | struct s => exact absurd rfl (hT s)
  | _ => rfl

theorem run_dot {L : Type} {m : Mem L} {e : C} {f : Nat} {l : L} (h : run m e = .ok l) :
    run m (.dot e f) = .ok (m.fieldAt l f) := by
  simp only [run, h, andThen]

theorem run_nilArrow {L : Type} {m : Mem L} {e : C} {f : Nat} {l p : L} (h : run m e = .ok l)
    (hp : m.ptrAt l = some p) : run m (.nilArrow e f) = .ok (m.fieldAt p f) := by
  simp only [run, h, andThen, guarded, hp]

theorem run_arrow {L : Type} {m : Mem L} {e : C} {f : Nat} {l p : L} (h : run m e = .ok l)
    (hp : m.ptrAt l = some p) : run m (.arrow e f) = .ok (m.fieldAt p f) := by
  simp only [run, h, andThen, bare, hp]

theorem run_nilStar {L : Type} {m : Mem L} {e : C} {l p : L} (h : run m e = .ok l)
    (hp : m.ptrAt l = some p) : run m (.nilStar e) = .ok p := by
  simp only [run, h, andThen, guarded, hp]

/-! What is checked for a compound expression is checked for its parts. -/

theorem some_dot {v : Env} {e : C} {f : Nat} (h : (check v (.dot e f)).isSome = true) :
    (check v e).isSome = true := by
  cases hc : check v e with
  | none => simp only [check, hc] at h; cases h
  | some p => rfl

theorem some_arrow {v : Env} {e : C} {f : Nat} (h : (check v (.arrow e f)).isSome = true) :
    (check v e).isSome = true := by
  cases hc : check v e with
  | none => simp only [check, hc] at h; cases h
  | some p => rfl

theorem some_nilArrow {v : Env} {e : C} {f : Nat} (h : (check v (.nilArrow e f)).isSome = true) :
    (check v e).isSome = true := by
  cases hc : check v e with
  | none => simp only [check, hc] at h; cases h
  | some p => rfl

theorem some_nilStar {v : Env} {e : C} (h : (check v (.nilStar e)).isSome = true) :
    (check v e).isSome = true := by
  cases hc : check v e with
  | none => simp only [check, hc] at h; cases h
  | some p => rfl

theorem some_aget {v : Env} {e : C} {i : Nat} (h : (check v (.aget e i)).isSome = true) :
    (check v e).isSome = true := by
  cases hc : check v e with
  | none => simp only [check, hc] at h; cases h
  | some p => rfl

theorem some_agetNil {v : Env} {e : C} {f i : Nat} (h : (check v (.agetNil e f i)).isSome = true) :
    (check v e).isSome = true := by
  cases hc : check v e with
  | none => simp only [check, hc] at h; cases h
  | some p => rfl

theorem some_agetTmp {v : Env} {e : C} {i : Nat} (h : (check v (.agetTmp e i)).isSome = true) :
    (check v e).isSome = true := by
  cases hc : check v e with
  | none => simp only [check, hc] at h; cases h
  | some p => rfl

theorem some_mget {v : Env} {e : C} {i : Nat} (h : (check v (.mget e i)).isSome = true) :
    (check v e).isSome = true := by
  cases hc : check v e with
  | none => simp only [check, hc] at h; cases h
  | some p => rfl

theorem some_mgetTmp {v : Env} {e : C} {i : Nat} (h : (check v (.mgetTmp e i)).isSome = true) :
    (check v e).isSome = true := by
  cases hc : check v e with
  | none => simp only [check, hc] at h; cases h
  | some p => rfl

theorem some_sget {v : Env} {e : C} {i : Nat} (h : (check v (.sget e i)).isSome = true) :
    (check v e).isSome = true := by
  cases hc : check v e with
  | none => simp only [check, hc] at h; cases h
  | some p => rfl

/-! ### The emission of an index, by the type of what is indexed -/

/-- The pointer and the field, where an array is a field behind a pointer. -/
def behind (v : Env) : Tgt → Option (Tgt × Nat)
  | .field o f => if isPtr (typeOf v o) then some (o, f) else (derefOf o).map fun q => (q, f)
  | _ => none

theorem emit_arr {v : Env} {o : Tgt} {i : Nat} {T : Ty} (h : typeOf v o = some (.arr T)) :
    emit v (.idx o i) = match behind v o with
      | some (q, f) => .agetNil (emit v q) f i
      | none => if isCall o then .agetTmp (emit v o) i else .aget (emit v o) i := by
  cases o with
  | field o f =>
    cases o with
    | deref q =>
      simp only [emit, h, behind, derefOf, Option.map_some]
      split <;> simp only [emit]
    | _ =>
      simp only [emit, h, behind, derefOf, Option.map_none]
      split <;> simp only [emit, isCall, Bool.false_eq_true, if_false]
  | _ => simp only [emit, h, behind]

theorem emit_map {v : Env} {o : Tgt} {i : Nat} {T : Ty} (h : typeOf v o = some (.map T)) :
    emit v (.idx o i) = if isCall o || isIdx o || (behind v o).isSome then .mgetTmp (emit v o) i
      else .mget (emit v o) i := by
  cases o with
  | field o f =>
    cases o with
    | deref q =>
      have hb : (behind v (.field (.deref q) f)).isSome = true := by
        simp only [behind, derefOf, Option.map_some]
        split <;> rfl
      rw [hb]
      simp only [emit, h, Bool.or_true, if_true]
    | _ =>
      simp only [emit, h, behind, derefOf, Option.map_none, isCall, isIdx]
      split <;> rfl
  | _ =>
    simp only [emit, h, behind, isCall, isIdx, Option.isSome_none, Bool.or_false, Bool.or_true]

theorem emit_str {v : Env} {o : Tgt} {i : Nat} (h : typeOf v o = some .str) :
    emit v (.idx o i) = .sget (emit v o) i := by
  cases o with
  | field o f => cases o <;> simp only [emit, h]
  | _ => simp only [emit, h]

/-! ### Where emitted paths lead -/

theorem behind_lt {v : Env} {o q : Tgt} {f : Nat} (h : behind v o = some (q, f)) : sizeOf q < sizeOf o := by
  cases o with
  | field o g =>
    simp only [behind] at h
    split at h
    · cases h
      simp only [Tgt.field.sizeOf_spec]; omega
    · cases o with
      | deref p =>
        cases h
        simp only [Tgt.field.sizeOf_spec, Tgt.deref.sizeOf_spec]; omega
      | _ => cases h
  | _ => cases h

theorem names_behind {L : Type} {v : Env} {m : Mem L} {o q : Tgt} {f : Nat} {T : Ty} {l : L}
    (h : Names v m o T l) (hT : T ≠ .str) (hb : behind v o = some (q, f)) :
    ∃ s l0 p, Names v m q (.ptr (.struct s)) l0 ∧ m.ptrAt l0 = some p ∧ v.field s f = some T ∧
      l = m.fieldAt p f := by
  cases h with
  | @field o g s _ l0 h1 h2 =>
    simp only [behind, names_type h1, isPtr, Bool.false_eq_true, if_false] at hb
    cases h1 with
    | @deref o' _ l1 _ h3 h4 =>
      cases hb
      exact ⟨s, l1, l0, h3, h4, h2, rfl⟩
    | _ => cases hb
  | @auto o g s _ l0 p h1 h2 h3 =>
    simp only [behind, names_type h1, isPtr, if_true] at hb
    cases hb
    exact ⟨s, l0, p, h1, h2, h3, rfl⟩
  | err => exact absurd rfl hT
  | _ => cases hb

theorem names_run_aux {L : Type} {v : Env} {m : Mem L} (n : Nat) : ∀ (t : Tgt) (T : Ty) (l : L),
    sizeOf t < n → Names v m t T l → (check v (emit v t)).isSome = true → run m (emit v t) = .ok l := by
  induction n with
  | zero => intro t T l h; omega
  | succ n ih =>
  intro t T l hn h hc
  have sf : ∀ o f, sizeOf (Tgt.field o f) = 1 + sizeOf o + f := fun o f => by simp
  have si : ∀ o f, sizeOf (Tgt.idx o f) = 1 + sizeOf o + f := fun o f => by simp
  have sd : ∀ o, sizeOf (Tgt.deref o) = 1 + sizeOf o := fun o => by simp
  cases h with
  | var h => simp only [emit, h, run]
  | @bound x b _ _ h hb hp =>
    cases b with
    | plain => exact absurd rfl hb
    | ref => simp only [emit, h, run, bare, hp]
    | inout => simp only [emit, h, run, bare, hp]
  | call => rfl
  | @field o f s _ l0 h1 h2 =>
    rw [emit_field_struct (names_type h1)] at hc ⊢
    exact run_dot (ih o _ _ (by simp only [sf, si, sd] at hn; omega) h1 (some_dot hc))
  | @auto o f s _ l0 p h1 h2 h3 =>
    cases hr : isRef v o with
    | true => rw [ref_bad (names_type h1) (by intro s h; cases h) hr] at hc; cases hc
    | false =>
      rw [emit_field_ptr (names_type h1) hr] at hc ⊢
      exact run_nilArrow (ih o _ _ (by simp only [sf, si, sd] at hn; omega) h1 (some_nilArrow hc)) h2
  | @err o f l0 p h1 h2 h3 =>
    cases hr : isRef v o with
    | true => rw [ref_bad (names_type h1) (by intro s h; cases h) hr] at hc; cases hc
    | false =>
      rw [emit_field_err (names_type h1) hr] at hc ⊢
      exact run_arrow (ih o _ _ (by simp only [sf, si, sd] at hn; omega) h1 (some_arrow hc)) h2
  | @elem o i _ l0 p h1 h2 =>
    rw [emit_arr (names_type h1)] at hc ⊢
    cases hb : behind v o with
    | some qf =>
      obtain ⟨q, f⟩ := qf
      rw [hb] at hc
      obtain ⟨s, l1, p1, h3, h4, h5, rfl⟩ := names_behind h1 (by intro h; cases h) hb
      have hlt := behind_lt hb
      simp only [run, ih q _ _ (by simp only [sf, si, sd] at hn; omega) h3 (some_agetNil hc), andThen, guarded, h4, h2]
    | none =>
      rw [hb] at hc
      simp only at hc ⊢
      split
      · rename_i hi
        rw [if_pos hi] at hc
        simp only [run, ih o _ _ (by simp only [sf, si, sd] at hn; omega) h1 (some_agetTmp hc), andThen, h2]
      · rename_i hi
        rw [if_neg hi] at hc
        simp only [run, ih o _ _ (by simp only [sf, si, sd] at hn; omega) h1 (some_aget hc), andThen, h2]
  | @entry o k _ l0 p h1 h2 =>
    rw [emit_map (names_type h1)] at hc ⊢
    split
    · rename_i hi
      rw [if_pos hi] at hc
      simp only [run, ih o _ _ (by simp only [sf, si, sd] at hn; omega) h1 (some_mgetTmp hc), andThen, present, h2]
    · rename_i hi
      rw [if_neg hi] at hc
      simp only [run, ih o _ _ (by simp only [sf, si, sd] at hn; omega) h1 (some_mget hc), andThen, present, h2]
  | @char o i l0 p h1 h2 =>
    rw [emit_str (names_type h1)] at hc ⊢
    simp only [run, ih o _ _ (by simp only [sf, si, sd] at hn; omega) h1 (some_sget hc), andThen, h2]
  | @deref o _ l0 p h1 h2 =>
    exact run_nilStar (ih o _ _ (by simp only [sf, si, sd] at hn; omega) h1 (some_nilStar hc)) h2
/-- The emitted C text of a path, if the C compiler takes it, leads to the place that the path names. -/
theorem names_run {L : Type} {v : Env} {m : Mem L} {t : Tgt} {T : Ty} {l : L} (h : Names v m t T l)
    (hc : (check v (emit v t)).isSome = true) : run m (emit v t) = .ok l :=
  names_run_aux (sizeOf t + 1) t T l (Nat.lt_succ_self _) h hc

/-! ### Types of emitted paths -/

theorem typeOf_field_ptr {v : Env} {o : Tgt} {f : Nat} {T : Ty} (h : typeOf v (.field o f) = some T) :
    (∃ s, typeOf v o = some (.struct s) ∧ v.field s f = some T) ∨
    (∃ s, typeOf v o = some (.ptr (.struct s)) ∧ v.field s f = some T) ∨
    (typeOf v o = some .err ∧ v.errField f = true ∧ T = .str) := by
  simp only [typeOf] at h
  split at h
  · rename_i s e; exact Or.inl ⟨s, e, h⟩
  · rename_i t e
    cases t with
    | struct s => exact Or.inr (Or.inl ⟨s, e, h⟩)
    | _ => cases h
  · rename_i e
    split at h
    · rename_i q; exact Or.inr (Or.inr ⟨e, q, (Option.some.inj h).symm⟩)
    · cases h
  · cases h

theorem type_behind {v : Env} {o q : Tgt} {f : Nat} {T : Ty} (h : typeOf v o = some T) (hT : T ≠ .str)
    (hb : behind v o = some (q, f)) :
    ∃ s, typeOf v q = some (.ptr (.struct s)) ∧ v.field s f = some T := by
  cases o with
  | field o g =>
    simp only [behind] at hb
    rcases typeOf_field_ptr h with ⟨s, h1, h2⟩ | ⟨s, h1, h2⟩ | ⟨h1, h2, h3⟩
    · simp only [h1, isPtr, Bool.false_eq_true, if_false] at hb
      cases o with
      | deref p =>
        cases hb
        simp only [typeOf] at h1
        split at h1
        · rename_i t e
          cases h1
          exact ⟨s, e, h2⟩
        · cases h1
      | _ => cases hb
    · simp only [h1, isPtr, if_true] at hb
      cases hb
      exact ⟨s, h1, h2⟩
    · exact absurd h3 hT
  | _ => cases hb

/-- The C type of the emitted text is that of the type table. -/
theorem check_type_aux {v : Env} (n : Nat) : ∀ (t : Tgt) (T T' : Ty) (b : Bool), sizeOf t < n →
    typeOf v t = some T → check v (emit v t) = some (T', b) → T' = T := by
  induction n with
  | zero => intro t T T' b h; omega
  | succ n ih =>
  intro t T T' b hn h hc
  have sf : ∀ o f, sizeOf (Tgt.field o f) = 1 + sizeOf o + f := fun o f => by simp
  have si : ∀ o f, sizeOf (Tgt.idx o f) = 1 + sizeOf o + f := fun o f => by simp
  have sd : ∀ o, sizeOf (Tgt.deref o) = 1 + sizeOf o := fun o => by simp
  cases t with
  | var x =>
    simp only [typeOf] at h
    cases hv : v.var x with
    | none => rw [hv] at h; cases h
    | some p =>
      obtain ⟨bd, U⟩ := p
      rw [hv] at h
      have hU : U = T := Option.some.inj h
      subst hU
      cases bd <;> simp only [emit, hv, check] at hc <;>
        exact (congrArg Prod.fst (Option.some.inj hc)).symm
  | call U =>
    have hU : U = T := Option.some.inj h
    subst hU
    exact (congrArg Prod.fst (Option.some.inj hc)).symm
  | field o f =>
    have ho : sizeOf o < n := by simp only [sf] at hn; omega
    rcases typeOf_field_ptr h with ⟨s, h1, h2⟩ | ⟨s, h1, h2⟩ | ⟨h1, h2, h3⟩
    · rw [emit_field_struct h1] at hc
      simp only [check] at hc
      split at hc
      · rename_i s' l' e
        have := ih o _ _ _ ho h1 e
        cases this
        rw [h2] at hc
        exact (congrArg Prod.fst (Option.some.inj hc)).symm
      · cases hc
    · cases hr : isRef v o with
      | true => rw [ref_bad h1 (by intro s h; cases h) hr] at hc; cases hc
      | false =>
        rw [emit_field_ptr h1 hr] at hc
        simp only [check] at hc
        split at hc
        · rename_i s' l' e
          have := ih o _ _ _ ho h1 e
          cases this
          rw [h2] at hc
          exact (congrArg Prod.fst (Option.some.inj hc)).symm
        · cases hc
    · cases hr : isRef v o with
      | true => rw [ref_bad h1 (by intro s h; cases h) hr] at hc; cases hc
      | false =>
        rw [emit_field_err h1 hr] at hc
        simp only [check] at hc
        split at hc
        · rw [if_pos h2] at hc
          exact (congrArg Prod.fst (Option.some.inj hc)).symm.trans h3.symm
        · cases hc
  | idx o i =>
    have ho : sizeOf o < n := by simp only [si] at hn; omega
    simp only [typeOf] at h
    split at h
    · rename_i U h1
      cases h
      rw [emit_arr h1] at hc
      cases hb : behind v o with
      | some qf =>
        obtain ⟨q, f⟩ := qf
        rw [hb] at hc
        obtain ⟨s, h2, h3⟩ := type_behind h1 (by intro h; cases h) hb
        have hlt := behind_lt hb
        simp only [check] at hc
        split at hc
        · rename_i s' l' e
          have := ih q _ _ _ (by omega) h2 e
          cases this
          simp only [h3] at hc
          exact (congrArg Prod.fst (Option.some.inj hc)).symm
        · cases hc
      | none =>
        rw [hb] at hc
        simp only at hc
        split at hc
        · simp only [check] at hc
          split at hc
          · rename_i U' l' e
            have := ih o _ _ _ ho h1 e
            cases this
            exact (congrArg Prod.fst (Option.some.inj hc)).symm
          · cases hc
        · simp only [check] at hc
          split at hc
          · rename_i U' e
            have := ih o _ _ _ ho h1 e
            cases this
            exact (congrArg Prod.fst (Option.some.inj hc)).symm
          · cases hc
    · rename_i U h1
      cases h
      rw [emit_map h1] at hc
      split at hc
      · simp only [check] at hc
        split at hc
        · rename_i U' l' e
          have := ih o _ _ _ ho h1 e
          cases this
          exact (congrArg Prod.fst (Option.some.inj hc)).symm
        · cases hc
      · simp only [check] at hc
        split at hc
        · rename_i U' e
          have := ih o _ _ _ ho h1 e
          cases this
          exact (congrArg Prod.fst (Option.some.inj hc)).symm
        · cases hc
    · rename_i h1
      cases h
      rw [emit_str h1] at hc
      simp only [check] at hc
      split at hc
      · exact (congrArg Prod.fst (Option.some.inj hc)).symm
      · cases hc
    · cases h
  | deref o =>
    have ho : sizeOf o < n := by simp only [sd] at hn; omega
    simp only [typeOf] at h
    split at h
    · rename_i U h1
      cases h
      simp only [emit, check] at hc
      split at hc
      · rename_i U' l' e
        have := ih o _ _ _ ho h1 e
        cases this
        exact (congrArg Prod.fst (Option.some.inj hc)).symm
      · cases hc
    · cases h

theorem check_type {v : Env} {t : Tgt} {T T' : Ty} {b : Bool} (h : typeOf v t = some T)
    (hc : check v (emit v t) = some (T', b)) : T' = T :=
  check_type_aux (sizeOf t + 1) t T T' b (Nat.lt_succ_self _) h hc

/-! ### Statements by the type of what is indexed -/

theorem assign_arr {v : Env} {o : Tgt} {i : Nat} {T : Ty} (h : typeOf v o = some (.arr T)) :
    emitAssign v (.idx o i) = match behind v o with
      | some (q, f) => .asetNil (emit v q) f i
      | none => .aset (emit v o) i := by
  cases o with
  | field o f =>
    simp only [emitAssign, emitMemberIdx, h, behind]
    split
    · rfl
    · cases o <;> rfl
  | _ => simp only [emitAssign, h, behind]

/-- The pointer and the field, where a map is a field of a pointer. -/
def field0 (v : Env) : Tgt → Option (Tgt × Nat)
  | .field o f => if isPtr (typeOf v o) then some (o, f) else none
  | _ => none

theorem assign_map {v : Env} {o : Tgt} {i : Nat} {T : Ty} (h : typeOf v o = some (.map T)) :
    emitAssign v (.idx o i) = match field0 v o with
      | some (q, f) => .msetNil (emit v q) f i
      | none => .mset (emit v o) i := by
  cases o with
  | field o f =>
    simp only [emitAssign, emitMemberIdx, h, field0]
    split <;> rfl
  | _ => simp only [emitAssign, h, field0]

theorem field0_behind {v : Env} {o : Tgt} {p : Tgt × Nat} (h : field0 v o = some p) : behind v o = some p := by
  cases o with
  | field o f =>
    simp only [field0] at h
    split at h
    · rename_i hp
      simp only [behind, hp, if_true, h]
    · cases h
  | _ => cases h

theorem walk_append {v : Env} {f : Nat} : ∀ (path : List Nat) (T U : Ty),
    walk v T (path ++ [f]) = some U → ∃ T1, walk v T path = some T1 ∧ fieldOf v T1 f = some U
  | [], T, U, h => by
    simp only [List.nil_append, walk] at h
    split at h
    · rename_i w e; exact ⟨T, rfl, e.trans h⟩
    · cases h
  | g :: r, T, U, h => by
    simp only [List.cons_append, walk] at h ⊢
    split at h
    · exact walk_append r _ _ h
    · cases h

/-- The walk to the nearest pointer finds one, and the fields from there lead to the place. -/
theorem chain_names {L : Type} {v : Env} {m : Mem L} : ∀ (n : Nat) (t r : Tgt) (path : List Nat) (T : Ty)
    (l : L), Names v m t T l → chain v n t = some (r, path) →
    ∃ U l0, Names v m r (.ptr U) l0 ∧ (∀ T', walk v U path = some T' →
      T' = T ∧ ∃ p, m.ptrAt l0 = some p ∧ l = path.foldl m.fieldAt p)
  | 0, t, r, path, T, l, _, hc => by cases t <;> cases hc
  | n + 1, .var _, r, path, T, l, _, hc => by cases hc
  | n + 1, .call _, r, path, T, l, _, hc => by cases hc
  | n + 1, .idx _ _, r, path, T, l, _, hc => by cases hc
  | n + 1, .deref _, r, path, T, l, _, hc => by cases hc
  | n + 1, .field o f, r, path, T, l, h, hc => by
    simp only [chain] at hc
    split at hc
    · rename_i hp
      cases hc
      have hp1 := (Bool.and_eq_true_iff.1 hp).1
      cases h with
      | field h1 h2 => rw [names_type h1] at hp1; cases hp1
      | @auto _ _ s _ l0 p h1 h2 h3 =>
        refine ⟨.struct s, l0, h1, fun T' hw => ?_⟩
        simp only [walk, fieldOf, h3] at hw
        exact ⟨(Option.some.inj hw).symm, p, h2, rfl⟩
      | err h1 => rw [names_type h1] at hp1; cases hp1
    · cases hq : chain v n o with
      | none => rw [hq] at hc; cases hc
      | some rp =>
        rw [hq] at hc
        obtain ⟨r', path'⟩ := rp
        have e := Option.some.inj hc
        have e1 : r' = r := congrArg Prod.fst e
        have e2 : path' ++ [f] = path := congrArg Prod.snd e
        subst e1 e2
        cases h with
        | @field _ _ s _ l1 h1 h2 =>
          obtain ⟨U, l0, h3, h4⟩ := chain_names n o _ _ _ _ h1 hq
          refine ⟨U, l0, h3, fun T' hw => ?_⟩
          obtain ⟨T1, w1, w2⟩ := walk_append _ _ _ hw
          obtain ⟨e3, p, h5, h6⟩ := h4 T1 w1
          subst e3
          simp only [fieldOf, h2] at w2
          exact ⟨(Option.some.inj w2).symm, p, h5, by rw [List.foldl_append, ← h6]; rfl⟩
        | @auto _ _ s _ l1 p h1 h2 h3 =>
          obtain ⟨U, l0, h4, h5⟩ := chain_names n o _ _ _ _ h1 hq
          refine ⟨U, l0, h4, fun T' hw => ?_⟩
          obtain ⟨T1, w1, w2⟩ := walk_append _ _ _ hw
          obtain ⟨e3, _⟩ := h5 T1 w1
          subst e3
          cases w2
        | @err _ _ l1 p h1 h2 h3 =>
          obtain ⟨U, l0, h4, h5⟩ := chain_names n o _ _ _ _ h1 hq
          refine ⟨U, l0, h4, fun T' hw => ?_⟩
          obtain ⟨T1, w1, w2⟩ := walk_append _ _ _ hw
          obtain ⟨e3, _⟩ := h5 T1 w1
          subst e3
          cases w2

theorem any_isSome {α : Type} {o : Option α} {q : α → Bool} (h : o.any q = true) : o.isSome = true := by
  cases o with
  | none => cases h
  | some a => rfl

end Tg

open Tg
open Verif.IntOps (IntTy AOp Op conv common cTy kind promote storeVar cArith cDiv compoundVar)

/-! ### C293: a write goes to the place named -/

/-- If the C compiler takes the statement and the target names a place, then that place is written. -/
theorem C293_write {L : Type} (v : Env) (m : Mem L) (t : Tgt) (d : Dest L)
    (hc : checkStmt v (emitAssign v t) = true) (h : Writes v m t d) :
    runStmt m (emitAssign v t) = .ok d := by
  cases h with
  | @elem o i T l h1 =>
    rw [assign_arr (names_type h1)] at hc ⊢
    cases hb : behind v o with
    | some qf =>
      obtain ⟨q, f⟩ := qf
      rw [hb] at hc
      obtain ⟨s, l0, p, h2, h3, h4, rfl⟩ := names_behind h1 (by intro h; cases h) hb
      have hs : (check v (emit v q)).isSome = true := by
        simp only [checkStmt] at hc
        split at hc
        · rename_i e; rw [e]; rfl
        · cases hc
      simp only [runStmt, names_run h2 hs, andThen, guarded, h3]
    | none =>
      rw [hb] at hc
      have hs : (check v (emit v o)).isSome = true := by
        simp only [checkStmt] at hc
        split at hc
        · rename_i e; rw [e]; rfl
        · cases hc
      simp only [runStmt, names_run h1 hs, andThen]
  | @entry o k T l h1 =>
    rw [assign_map (names_type h1)] at hc ⊢
    cases hb : field0 v o with
    | some qf =>
      obtain ⟨q, f⟩ := qf
      rw [hb] at hc
      obtain ⟨s, l0, p, h2, h3, h4, rfl⟩ := names_behind h1 (by intro h; cases h) (field0_behind hb)
      have hs : (check v (emit v q)).isSome = true := by
        simp only [checkStmt] at hc
        split at hc
        · rename_i e; rw [e]; rfl
        · cases hc
      simp only [runStmt, names_run h2 hs, andThen, guarded, h3]
    | none =>
      rw [hb] at hc
      have hs : (check v (emit v o)).isSome = true := by
        simp only [checkStmt] at hc
        split at hc
        · rename_i e; rw [e]; rfl
        · cases hc
      simp only [runStmt, names_run h1 hs, andThen]
  | @field o f T l h1 =>
    simp only [emitAssign, emitMember] at hc ⊢
    cases hd : derefOf o with
    | some q =>
      rw [hd] at hc
      have ho : o = .deref q := by
        cases o with
        | deref p => exact congrArg Tgt.deref (Option.some.inj hd)
        | _ => cases hd
      subst ho
      simp only [checkStmt] at hc
      split at hc
      · rename_i U b e
        have hs : (check v (emit v q)).isSome = true := by rw [e]; rfl
        cases h1 with
        | @field _ _ s _ l0 h2 h3 =>
          cases h2 with
          | @deref _ _ l1 _ h4 h5 =>
            simp only [runStmt, names_run h4 hs, andThen, guarded, h5, List.foldl_cons, List.foldl_nil]
        | @auto _ _ s _ l0 p h2 h3 h4 =>
          cases h2 with
          | @deref _ _ l1 _ h5 h6 =>
            cases check_type (names_type h5) e
            cases hc
        | @err _ _ l0 p h2 h3 h4 =>
          cases h2 with
          | @deref _ _ l1 _ h5 h6 =>
            cases check_type (names_type h5) e
            cases hc
      · cases hc
    | none =>
      rw [hd] at hc
      simp only at hc ⊢
      cases hq : chain v 32 (.field o f) with
      | some rp =>
        obtain ⟨r, path⟩ := rp
        rw [hq] at hc
        obtain ⟨U, l0, h2, h3⟩ := chain_names 32 _ _ _ _ _ h1 hq
        simp only [checkStmt] at hc
        split at hc
        · rename_i U' b e
          have hs : (check v (emit v r)).isSome = true := by rw [e]; rfl
          cases check_type (names_type h2) e
          obtain ⟨T', hw⟩ := Option.isSome_iff_exists.1 hc
          obtain ⟨_, p, h4, h5⟩ := h3 T' hw
          simp only [runStmt, names_run h2 hs, andThen, guarded, h4, h5]
        · cases hc
      | none =>
        rw [hq] at hc
        simp only [runStmt, names_run h1 (any_isSome hc), andThen]
  | @var x T l h1 =>
    simp only [emitAssign] at hc ⊢
    simp only [runStmt, names_run h1 (any_isSome hc), andThen]
  | @deref o T l h1 =>
    simp only [emitAssign] at hc ⊢
    cases h1 with
    | @deref _ _ l0 _ h2 h3 =>
      simp only [runStmt, names_run h2 (any_isSome hc), andThen, guarded, h3]

/-- The same for `addr` and `ref`: if the C compiler takes them, the pointer is the place named. -/
theorem C293_addr {L : Type} (v : Env) (m : Mem L) (t : Tgt) (T : Ty) (l : L) (h : Names v m t T l) :
    (checkAddr v (emitAddr v t) = true → runAddr m (emitAddr v t) = .ok l) ∧
    (checkAddr v (emitRef v t) = true → runAddr m (emitRef v t) = .ok l) := by
  refine ⟨fun hc => ?_, fun hc => names_run h (any_isSome hc)⟩
  have other : emitAddr v t = .amp (emit v t) → runAddr m (emitAddr v t) = .ok l := by
    intro e
    rw [e] at hc ⊢
    exact names_run h (any_isSome hc)
  cases t with
  | field o f =>
    simp only [emitAddr] at hc other ⊢
    cases hd : derefOf o with
    | some q =>
      rw [hd] at hc
      have ho : o = .deref q := by
        cases o with
        | deref p => exact congrArg Tgt.deref (Option.some.inj hd)
        | _ => cases hd
      subst ho
      simp only [checkAddr] at hc
      split at hc
      · rename_i U b e
        have hs : (check v (emit v q)).isSome = true := by rw [e]; rfl
        cases h with
        | field h2 h3 =>
          cases h2 with
          | deref h4 h5 => simp only [runAddr, names_run h4 hs, andThen, guarded, h5]
        | auto h2 h3 h4 =>
          cases h2 with
          | deref h5 h6 => cases check_type (names_type h5) e; cases hc
        | err h2 h3 h4 =>
          cases h2 with
          | deref h5 h6 => cases check_type (names_type h5) e; cases hc
      · cases hc
    | none =>
      rw [hd] at hc other
      simp only at hc other ⊢
      cases hp : isPtr (typeOf v o) with
      | true =>
        rw [hp] at hc
        simp only [if_true] at hc ⊢
        have hs : (check v (emit v o)).isSome = true := by
          simp only [checkAddr] at hc
          split at hc
          · rename_i e; rw [e]; rfl
          · cases hc
        cases h with
        | field h1 h2 => rw [names_type h1] at hp; cases hp
        | auto h1 h2 h3 => simp only [runAddr, names_run h1 hs, andThen, guarded, h2]
        | err h1 h2 h3 => rw [names_type h1] at hp; cases hp
      | false =>
        rw [hp] at other
        exact other rfl
  | _ => exact other rfl

namespace Tg

/-! ### Which paths are C -/

/-- Paths whose value is read out of a copy. -/
def copied (v : Env) : Tgt → Bool
  | .call _ => true
  | .idx _ _ => true
  | .field (.deref _) _ => true
  | .field o _ => isPtr (typeOf v o)
  | _ => false

/-- The path `t` of type `T` has a C text that compiles; `b`: the text is an lvalue. -/
inductive Valid (v : Env) : Tgt → Ty → Bool → Prop
  | var {x b T} : v.var x = some (b, T) → Valid v (.var x) T true
  | call {T} : Valid v (.call T) T false
  | field {o f s T b} : Valid v o (.struct s) b → v.field s f = some T → Valid v (.field o f) T b
  | auto {o f s T b} : Valid v o (.ptr (.struct s)) b → isRef v o = false → v.field s f = some T →
      Valid v (.field o f) T false
  | err {o f b} : Valid v o .err b → isRef v o = false → v.errField f = true → Valid v (.field o f) .str true
  | deref {o T b} : Valid v o (.ptr T) b → Valid v (.deref o) T false
  | elem {o i T} : Valid v o (.arr T) true → Valid v (.idx o i) T true
  | elemCall {i T} : Valid v (.idx (.call (.arr T)) i) T false
  | elemPtr {q f i s T b} : Valid v q (.ptr (.struct s)) b → v.field s f = some (.arr T) →
      Valid v (.idx (.field q f) i) T false
  | elemDeref {q f i s T b} : Valid v q (.ptr (.struct s)) b → v.field s f = some (.arr T) →
      Valid v (.idx (.field (.deref q) f) i) T false
  | entry {o k T} : Valid v o (.map T) true → Valid v (.idx o k) T false
  | entryCopy {o k T b} : Valid v o (.map T) b → copied v o = true → Valid v (.idx o k) T false
  | char {o i b} : Valid v o .str b → Valid v (.idx o i) .num false

theorem valid_type {v : Env} {t : Tgt} {T : Ty} {b : Bool} (h : Valid v t T b) : typeOf v t = some T := by
  induction h with
  | var h => simp only [typeOf, h, Option.map_some]
  | call => rfl
  | field _ h ih => simp only [typeOf, ih, h]
  | auto _ _ h ih => simp only [typeOf, ih, fieldOf, h]
  | err _ _ h ih => simp only [typeOf, ih, h, if_true]
  | deref _ ih => simp only [typeOf, ih]
  | elem _ ih => simp only [typeOf, ih]
  | elemCall => rfl
  | elemPtr _ h ih => simp only [typeOf, ih, fieldOf, h]
  | elemDeref _ h ih => simp only [typeOf, ih, h]
  | entry _ ih => simp only [typeOf, ih]
  | entryCopy _ _ ih => simp only [typeOf, ih]
  | char _ ih => simp only [typeOf, ih]

/-- No lvalue of an array or map type lies behind a pointer. -/
theorem valid_behind {v : Env} {o : Tgt} {T : Ty} (h : Valid v o T true) (hT : T ≠ .str) : behind v o = none := by
  generalize hb : true = b at h
  cases h with
  | @field o f s _ _ h1 h2 =>
    subst hb
    simp only [behind, valid_type h1, isPtr, Bool.false_eq_true, if_false]
    cases o with
    | deref q => cases h1
    | _ => rfl
  | err => exact absurd rfl hT
  | _ => first | rfl | cases hb

theorem valid_call {v : Env} {o : Tgt} {T : Ty} (h : Valid v o T true) : isCall o = false := by
  cases o with
  | call t => cases h
  | _ => rfl

theorem emit_map_copied {v : Env} {o : Tgt} {i : Nat} {T : Ty} (h : typeOf v o = some (.map T)) :
    emit v (.idx o i) = if copied v o then .mgetTmp (emit v o) i else .mget (emit v o) i := by
  cases o with
  | field o f => cases o <;> simp only [emit, h, copied, if_true] <;> rfl
  | _ => simp only [emit, h, copied, isCall, isIdx, Bool.or_self, Bool.true_or, Bool.or_true, if_true,
      Bool.false_eq_true, if_false]

/-- Valid paths compile. -/
theorem valid_check {v : Env} {t : Tgt} {T : Ty} {b : Bool} (h : Valid v t T b) :
    check v (emit v t) = some (T, b) := by
  induction h with
  | @var x b T h =>
    cases b <;> simp only [emit, h, check]
  | call => rfl
  | field h1 h2 ih => simp only [emit_field_struct (valid_type h1), check, ih, h2, Option.map_some]
  | auto h1 hr h2 ih => simp only [emit_field_ptr (valid_type h1) hr, check, ih, h2, Option.map_some]
  | err h1 hr h2 ih => simp only [emit_field_err (valid_type h1) hr, check, ih, h2, if_true]
  | deref h ih => simp only [emit, check, ih]
  | elem h ih =>
    rw [emit_arr (valid_type h), valid_behind h (by intro h; cases h)]
    simp only [valid_call h, Bool.false_eq_true, if_false, check, ih]
  | elemCall => rfl
  | @elemPtr q f i s T b h1 h2 ih =>
    have ht : typeOf v (.field q f) = some (.arr T) := by simp only [typeOf, valid_type h1, fieldOf, h2]
    have hb : behind v (.field q f) = some (q, f) := by
      simp only [behind, valid_type h1, isPtr, if_true]
    rw [emit_arr ht, hb]
    simp only [check, ih, h2]
  | @elemDeref q f i s T b h1 h2 ih =>
    have hd : typeOf v (.deref q) = some (.struct s) := by simp only [typeOf, valid_type h1]
    have ht : typeOf v (.field (.deref q) f) = some (.arr T) := by simp only [typeOf, valid_type h1, h2]
    have hb : behind v (.field (.deref q) f) = some (q, f) := by
      simp only [behind, hd, isPtr, Bool.false_eq_true, if_false]
      rfl
    rw [emit_arr ht, hb]
    simp only [check, ih, h2]
  | entry h ih =>
    rw [emit_map_copied (valid_type h)]
    split <;> simp only [check, ih]
  | entryCopy h hc ih =>
    rw [emit_map_copied (valid_type h), if_pos hc]
    simp only [check, ih]
  | char h ih =>
    rw [emit_str (valid_type h)]
    simp only [check, ih]

theorem behind_some {v : Env} {o q : Tgt} {f : Nat} (h : behind v o = some (q, f)) :
    o = .field q f ∨ o = .field (.deref q) f := by
  cases o with
  | field o g =>
    simp only [behind] at h
    split at h
    · cases h; exact Or.inl rfl
    · cases o with
      | deref p => cases h; exact Or.inr rfl
      | _ => cases h
  | _ => cases h

/-- What compiles is a valid path. -/
theorem check_valid_aux {v : Env} (n : Nat) : ∀ (t : Tgt) (T : Ty) (b : Bool), sizeOf t < n →
    check v (emit v t) = some (T, b) → Valid v t T b := by
  induction n with
  | zero => intro t T b h; omega
  | succ n ih =>
  intro t T b hn hc
  have sf : ∀ o f, sizeOf (Tgt.field o f) = 1 + sizeOf o + f := fun o f => by simp
  have si : ∀ o f, sizeOf (Tgt.idx o f) = 1 + sizeOf o + f := fun o f => by simp
  have sd : ∀ o, sizeOf (Tgt.deref o) = 1 + sizeOf o := fun o => by simp
  cases t with
  | var x =>
    cases hv : v.var x with
    | none => simp only [emit, hv, check] at hc; cases hc
    | some p =>
      obtain ⟨bd, U⟩ := p
      cases bd <;> simp only [emit, hv, check] at hc <;> cases hc <;> exact .var hv
  | call U => cases hc; exact .call
  | field o f =>
    have ho : sizeOf o < n := by simp only [sf] at hn; omega
    have dot : check v (.dot (emit v o) f) = some (T, b) → Valid v (.field o f) T b := by
      intro hc
      simp only [check] at hc
      split at hc
      · rename_i s l e
        cases hf : v.field s f with
        | none => rw [hf] at hc; cases hc
        | some U =>
          rw [hf] at hc
          cases hc
          exact .field (ih o _ _ ho e) hf
      · cases hc
    rw [emit] at hc
    cases hr : isRef v o with
    | true => rw [hr] at hc; exact dot hc
    | false =>
      rw [hr] at hc
      simp only [Bool.false_eq_true, if_false] at hc
      split at hc
      · simp only [check] at hc
        split at hc
        · rename_i s l e
          cases hf : v.field s f with
          | none => rw [hf] at hc; cases hc
          | some U =>
            rw [hf] at hc
            cases hc
            exact .auto (ih o _ _ ho e) hr hf
        · cases hc
      · simp only [check] at hc
        split at hc
        · rename_i l e
          split at hc
          · rename_i hf; cases hc; exact .err (ih o _ _ ho e) hr hf
          · cases hc
        · cases hc
      · exact dot hc
  | idx o i =>
    have ho : sizeOf o < n := by simp only [si] at hn; omega
    cases ht : typeOf v o with
    | none =>
      have : emit v (.idx o i) = .sub (emit v o) i := by
        cases o with
        | field o f => cases o <;> simp only [emit, ht]
        | _ => simp only [emit, ht]
      rw [this] at hc; cases hc
    | some U =>
      have bad : (∀ T, U ≠ .arr T) → (∀ T, U ≠ .map T) → U ≠ .str → emit v (.idx o i) = .sub (emit v o) i := by
        intro h1 h2 h3
        cases U with
        | arr T => exact absurd rfl (h1 T)
        | map T => exact absurd rfl (h2 T)
        | str => exact absurd rfl h3
        | _ =>
          cases o with
          | field o f => cases o <;> simp only [emit, ht]
          | _ => simp only [emit, ht]
      cases U with
      | arr U =>
        rw [emit_arr ht] at hc
        cases hb : behind v o with
        | some qf =>
          obtain ⟨q, f⟩ := qf
          rw [hb] at hc
          have hlt := behind_lt hb
          simp only [check] at hc
          split at hc
          · rename_i s l e
            split at hc
            · rename_i hf
              cases hc
              rcases behind_some hb with rfl | rfl
              · exact .elemPtr (ih q _ _ (by omega) e) hf
              · exact .elemDeref (ih q _ _ (by omega) e) hf
            · cases hc
          · cases hc
        | none =>
          rw [hb] at hc
          simp only at hc
          split at hc
          · rename_i hcall
            cases o with
            | call W =>
              cases ht
              cases hc
              exact .elemCall
            | _ => cases hcall
          · simp only [check] at hc
            split at hc
            · rename_i e; cases hc; exact .elem (ih o _ _ ho e)
            · cases hc
      | map U =>
        rw [emit_map_copied ht] at hc
        split at hc
        · rename_i hcp
          simp only [check] at hc
          split at hc
          · rename_i e; cases hc; exact .entryCopy (ih o _ _ ho e) hcp
          · cases hc
        · simp only [check] at hc
          split at hc
          · rename_i e; cases hc; exact .entry (ih o _ _ ho e)
          · cases hc
      | str =>
        rw [emit_str ht] at hc
        simp only [check] at hc
        split at hc
        · rename_i e; cases hc; exact .char (ih o _ _ ho e)
        · cases hc
      | _ =>
        rw [bad (by intro _ h; cases h) (by intro _ h; cases h) (by intro h; cases h)] at hc
        cases hc
  | deref o =>
    have ho : sizeOf o < n := by simp only [sd] at hn; omega
    simp only [emit, check] at hc
    split at hc
    · rename_i e; cases hc; exact .deref (ih o _ _ ho e)
    · cases hc

theorem check_valid {v : Env} {t : Tgt} {T : Ty} {b : Bool} : check v (emit v t) = some (T, b) ↔ Valid v t T b :=
  ⟨check_valid_aux (sizeOf t + 1) t T b (Nat.lt_succ_self _), valid_check⟩

/-! ### Which targets are C -/

/-- From the pointer `r` to a struct `s` the path `t` takes `n` fields and ends at type `T`. -/
inductive Through (v : Env) (r : Tgt) (s : Nat) : Nat → Tgt → Ty → Prop
  | one {f T} : typeOf v r = some (.ptr (.struct s)) → isRef v r = false → v.field s f = some T →
      Through v r s 1 (.field r f) T
  | more {n o f u T} : Through v r s n o (.struct u) → v.field u f = some T → Through v r s (n + 1) (.field o f) T

/-- None of the last `n` fields of a path is a field of a pointer. -/
def Clear (v : Env) : Nat → Tgt → Prop
  | n + 1, .field o _ => (isPtr (typeOf v o) && !isRef v o) = false ∧ Clear v n o
  | _, _ => True

/-- Targets whose assignment compiles. -/
inductive Assignable (v : Env) : Tgt → Prop
  | var {x b T} : v.var x = some (b, T) → Assignable v (.var x)
  | deref {q T b} : Valid v q (.ptr T) b → Assignable v (.deref q)
  | elem {o i T} : Valid v o (.arr T) true → Assignable v (.idx o i)
  | elemPtr {q f i s T b} : Valid v q (.ptr (.struct s)) b → v.field s f = some (.arr T) →
      Assignable v (.idx (.field q f) i)
  | elemDeref {q f i s T b} : Valid v q (.ptr (.struct s)) b → v.field s f = some (.arr T) →
      Assignable v (.idx (.field (.deref q) f) i)
  | entry {o k T} : Valid v o (.map T) true → Assignable v (.idx o k)
  | entryPtr {q f k s T b} : Valid v q (.ptr (.struct s)) b → v.field s f = some (.map T) →
      Assignable v (.idx (.field q f) k)
  | derefField {q f s T b} : Valid v q (.ptr (.struct s)) b → v.field s f = some T →
      Assignable v (.field (.deref q) f)
  | through {r s n o f T b} : Through v r s n (.field o f) T → n ≤ 32 → Valid v r (.ptr (.struct s)) b →
      (∀ q, o ≠ .deref q) → Assignable v (.field o f)
  | plain {o f T} : Valid v (.field o f) T true → Clear v 32 (.field o f) → (∀ q, o ≠ .deref q) →
      Assignable v (.field o f)

theorem through_type {v : Env} {r : Tgt} {s n : Nat} {t : Tgt} {T : Ty} (h : Through v r s n t T) :
    typeOf v t = some T := by
  induction h with
  | one h1 _ h2 => simp only [typeOf, h1, fieldOf, h2]
  | more _ h ih => simp only [typeOf, ih, h]

theorem walk_snoc {v : Env} {f : Nat} : ∀ (path : List Nat) (T U W : Ty), walk v T path = some U →
    fieldOf v U f = some W → walk v T (path ++ [f]) = some W
  | [], T, U, W, h, hf => by
    cases h
    simp only [List.nil_append, walk, hf]
  | g :: r, T, U, W, h, hf => by
    simp only [List.cons_append, walk] at h ⊢
    split at h
    · exact walk_snoc r _ _ _ h hf
    · cases h

theorem through_chain {v : Env} {r : Tgt} {s n : Nat} {t : Tgt} {T : Ty} (h : Through v r s n t T) :
    ∀ k, n ≤ k → ∃ path, chain v k t = some (r, path) ∧ walk v (.struct s) path = some T := by
  induction h with
  | @one f T h1 hr h2 =>
    intro k hk
    obtain ⟨k, rfl⟩ : ∃ k', k = k' + 1 := ⟨k - 1, by omega⟩
    refine ⟨[f], ?_, by simp only [walk, fieldOf, h2]⟩
    simp only [chain, h1, isPtr, hr, Bool.not_false, Bool.and_self, if_true]
  | @more n o f u T h1 h2 ih =>
    intro k hk
    obtain ⟨k, rfl⟩ : ∃ k', k = k' + 1 := ⟨k - 1, by omega⟩
    obtain ⟨path, h3, h4⟩ := ih k (by omega)
    refine ⟨path ++ [f], ?_, walk_snoc _ _ _ _ h4 h2⟩
    simp only [chain, through_type h1, isPtr, Bool.false_and, Bool.false_eq_true, if_false, h3, Option.map_some]

theorem chain_through {v : Env} : ∀ (k : Nat) (t r : Tgt) (path : List Nat) (U T : Ty),
    chain v k t = some (r, path) → typeOf v r = some (.ptr U) → walk v U path = some T →
    ∃ s n, U = .struct s ∧ n ≤ k ∧ Through v r s n t T
  | 0, t, r, path, U, T, hc, _, _ => by cases t <;> cases hc
  | n + 1, .var _, r, path, U, T, hc, _, _ => by cases hc
  | n + 1, .call _, r, path, U, T, hc, _, _ => by cases hc
  | n + 1, .idx _ _, r, path, U, T, hc, _, _ => by cases hc
  | n + 1, .deref _, r, path, U, T, hc, _, _ => by cases hc
  | k + 1, .field o f, r, path, U, T, hc, ht, hw => by
    simp only [chain] at hc
    split at hc
    · rename_i hp
      cases hc
      obtain ⟨_, hr⟩ := Bool.and_eq_true_iff.1 hp
      simp only [walk] at hw
      split at hw
      · rename_i e
        cases U with
        | struct s =>
          cases hw
          exact ⟨s, 1, rfl, by omega, .one ht (by simpa using hr) e⟩
        | _ => cases e
      · cases hw
    · cases hq : chain v k o with
      | none => rw [hq] at hc; cases hc
      | some rp =>
        rw [hq] at hc
        obtain ⟨r', path'⟩ := rp
        have e := Option.some.inj hc
        have e1 : r' = r := congrArg Prod.fst e
        have e2 : path' ++ [f] = path := congrArg Prod.snd e
        subst e1 e2
        obtain ⟨T1, w1, w2⟩ := walk_append _ _ _ hw
        obtain ⟨s, n, h1, h2, h3⟩ := chain_through k o _ _ _ _ hq ht w1
        cases T1 with
        | struct u => exact ⟨s, n + 1, h1, by omega, .more h3 w2⟩
        | _ => cases w2

theorem chain_clear {v : Env} : ∀ (k : Nat) (t : Tgt), chain v k t = none ↔ Clear v k t
  | 0, t => by cases t <;> exact ⟨fun _ => trivial, fun _ => rfl⟩
  | n + 1, .var _ => ⟨fun _ => trivial, fun _ => rfl⟩
  | n + 1, .call _ => ⟨fun _ => trivial, fun _ => rfl⟩
  | n + 1, .idx _ _ => ⟨fun _ => trivial, fun _ => rfl⟩
  | n + 1, .deref _ => ⟨fun _ => trivial, fun _ => rfl⟩
  | k + 1, .field o f => by
    have ih := chain_clear (v := v) k o
    cases hp : isPtr (typeOf v o) && !isRef v o with
    | true =>
      simp only [chain, hp, if_true, Clear]
      exact ⟨fun h => (by cases h), fun h => (by cases h.1)⟩
    | false =>
      simp only [chain, hp, Bool.false_eq_true, if_false, Clear, Option.map_eq_none_iff, true_and]
      exact ih

theorem any_lvalue {v : Env} {e : C} (h : (check v e).any (fun p => p.2) = true) :
    ∃ T, check v e = some (T, true) := by
  cases hc : check v e with
  | none => rw [hc] at h; cases h
  | some p =>
    obtain ⟨T, b⟩ := p
    rw [hc] at h
    have hb : b = true := h
    exact ⟨T, by rw [hb]⟩

theorem derefOf_some {o q : Tgt} (h : derefOf o = some q) : o = .deref q := by
  cases o with
  | deref p => exact congrArg Tgt.deref (Option.some.inj h)
  | _ => cases h

theorem derefOf_none {o : Tgt} (h : ∀ q, o ≠ .deref q) : derefOf o = none := by
  cases o with
  | deref q => exact absurd rfl (h q)
  | _ => rfl

theorem field0_some {v : Env} {o q : Tgt} {f : Nat} (h : field0 v o = some (q, f)) : o = .field q f := by
  cases o with
  | field o g =>
    simp only [field0] at h
    split at h
    · cases h; rfl
    · cases h
  | _ => cases h

theorem valid_field0 {v : Env} {o : Tgt} {T : Ty} (h : Valid v o T true) (hT : T ≠ .str) : field0 v o = none := by
  cases hf : field0 v o with
  | none => rfl
  | some p => exact absurd (valid_behind h hT) (by rw [field0_behind hf]; intro h; cases h)

/-- Exactly the targets of the grammar compile. -/
theorem assignable_iff {v : Env} {t : Tgt} : checkStmt v (emitAssign v t) = true ↔ Assignable v t := by
  constructor
  · intro hc
    cases t with
    | var x =>
      obtain ⟨T, hT⟩ := any_lvalue hc
      cases check_valid.1 hT with
      | var h => exact .var h
    | call U => cases hc
    | deref q =>
      simp only [emitAssign, checkStmt] at hc
      cases hq : check v (emit v q) with
      | none => rw [hq] at hc; cases hc
      | some p =>
        obtain ⟨U, b⟩ := p
        rw [hq] at hc
        cases U with
        | ptr T => exact .deref (check_valid.1 hq)
        | _ => cases hc
    | field o f =>
      simp only [emitAssign, emitMember] at hc
      cases hd : derefOf o with
      | some q =>
        cases derefOf_some hd
        rw [hd] at hc
        simp only [checkStmt] at hc
        split at hc
        · rename_i U b e
          obtain ⟨T, hT⟩ := Option.isSome_iff_exists.1 hc
          simp only [walk] at hT
          split at hT
          · rename_i w
            cases U with
            | struct s => exact .derefField (check_valid.1 e) w
            | _ => cases w
          · cases hT
        · cases hc
      | none =>
        have hn : ∀ q, o ≠ .deref q := by intro q e; subst e; cases hd
        rw [hd] at hc
        simp only at hc
        cases hq : chain v 32 (.field o f) with
        | some rp =>
          obtain ⟨r, path⟩ := rp
          rw [hq] at hc
          simp only [checkStmt] at hc
          split at hc
          · rename_i U b e
            obtain ⟨T, hT⟩ := Option.isSome_iff_exists.1 hc
            have hv := check_valid.1 e
            obtain ⟨s, n, rfl, h1, h2⟩ := chain_through 32 _ _ _ _ _ hq (valid_type hv) hT
            exact .through h2 h1 hv hn
          · cases hc
        | none =>
          rw [hq] at hc
          obtain ⟨T, hT⟩ := any_lvalue hc
          exact .plain (check_valid.1 hT) ((chain_clear 32 _).1 hq) hn
    | idx o i =>
      have bad : emitAssign v (.idx o i) = .plain (emit v (.idx o i)) → (∀ T, typeOf v o ≠ some (.arr T)) →
          Assignable v (.idx o i) := by
        intro e h1
        rw [e] at hc
        obtain ⟨T, hT⟩ := any_lvalue hc
        generalize hb : true = b at hT
        cases check_valid.1 hT with
        | elem h => exact absurd (valid_type h) (h1 _)
        | _ => cases hb
      cases ht : typeOf v o with
      | none =>
        refine bad ?_ (by intro T h; rw [ht] at h; cases h)
        cases o <;> simp only [emitAssign, emitMemberIdx, ht]
      | some U =>
        cases U with
        | arr T =>
          rw [assign_arr ht] at hc
          cases hb : behind v o with
          | some qf =>
            obtain ⟨q, f⟩ := qf
            rw [hb] at hc
            simp only [checkStmt] at hc
            split at hc
            · rename_i U b e
              split at hc
              · rename_i T' w
                cases U with
                | struct s =>
                  rcases behind_some hb with rfl | rfl
                  · exact .elemPtr (check_valid.1 e) w
                  · exact .elemDeref (check_valid.1 e) w
                | _ => cases w
              · cases hc
            · cases hc
          | none =>
            rw [hb] at hc
            simp only [checkStmt] at hc
            split at hc
            · rename_i e; exact .elem (check_valid.1 e)
            · cases hc
        | map T =>
          rw [assign_map ht] at hc
          cases hb : field0 v o with
          | some qf =>
            obtain ⟨q, f⟩ := qf
            rw [hb] at hc
            cases field0_some hb
            simp only [checkStmt] at hc
            split at hc
            · rename_i U b e
              split at hc
              · rename_i T' w
                cases U with
                | struct s => exact .entryPtr (check_valid.1 e) w
                | _ => cases w
              · cases hc
            · cases hc
          | none =>
            rw [hb] at hc
            simp only [checkStmt] at hc
            split at hc
            · rename_i e; exact .entry (check_valid.1 e)
            · cases hc
        | _ =>
          refine bad ?_ (by intro T h; rw [ht] at h; cases h)
          cases o <;> simp only [emitAssign, emitMemberIdx, ht]
  · intro h
    cases h with
    | var h => simp only [emitAssign, checkStmt, valid_check (.var h), Option.any_some]
    | deref h => simp only [emitAssign, checkStmt, valid_check h, Option.any_some, isPtr]
    | elem h =>
      rw [assign_arr (valid_type h), valid_behind h (by intro h; cases h)]
      simp only [checkStmt, valid_check h]
    | @elemPtr q f i s T b h1 h2 =>
      have ht : typeOf v (.field q f) = some (.arr T) := by simp only [typeOf, valid_type h1, fieldOf, h2]
      have hb : behind v (.field q f) = some (q, f) := by
        simp only [behind, valid_type h1, isPtr, if_true]
      rw [assign_arr ht, hb]
      simp only [checkStmt, valid_check h1, fieldOf, h2]
    | @elemDeref q f i s T b h1 h2 =>
      have hd : typeOf v (.deref q) = some (.struct s) := by simp only [typeOf, valid_type h1]
      have ht : typeOf v (.field (.deref q) f) = some (.arr T) := by simp only [typeOf, valid_type h1, h2]
      have hb : behind v (.field (.deref q) f) = some (q, f) := by
        simp only [behind, hd, isPtr, Bool.false_eq_true, if_false]
        rfl
      rw [assign_arr ht, hb]
      simp only [checkStmt, valid_check h1, fieldOf, h2]
    | entry h =>
      rw [assign_map (valid_type h), valid_field0 h (by intro h; cases h)]
      simp only [checkStmt, valid_check h]
    | @entryPtr q f k s T b h1 h2 =>
      have ht : typeOf v (.field q f) = some (.map T) := by simp only [typeOf, valid_type h1, fieldOf, h2]
      have hb : field0 v (.field q f) = some (q, f) := by
        simp only [field0, valid_type h1, isPtr, if_true]
      rw [assign_map ht, hb]
      simp only [checkStmt, valid_check h1, fieldOf, h2]
    | derefField h1 h2 =>
      simp only [emitAssign, emitMember, derefOf, checkStmt, valid_check h1, walk, fieldOf, h2, Option.isSome_some]
    | through h1 h2 h3 h4 =>
      obtain ⟨path, h5, h6⟩ := through_chain h1 32 h2
      simp only [emitAssign, emitMember, derefOf_none h4, h5, checkStmt, valid_check h3, h6, Option.isSome_some]
    | plain h1 h2 h3 =>
      simp only [emitAssign, emitMember, derefOf_none h3, (chain_clear 32 _).2 h2, checkStmt, valid_check h1,
        Option.any_some]

end Tg

/-! ### C291: accepted targets compile -/

namespace Tg

/-- Structs: 0 has a number, a struct 1, an array of structs 1, a map and an array; 1 has a number. -/
def fields0 : Nat → Nat → Option Ty
  | 0, 0 => some .num
  | 0, 1 => some (.struct 1)
  | 0, 2 => some (.arr (.struct 1))
  | 0, 3 => some (.map .num)
  | 0, 4 => some (.arr .num)
  | 0, 5 => some .err
  | 1, 0 => some .num
  | _, _ => none

/-- Variables: a pointer, a struct, a map of structs, of maps and of arrays, an error, a pointer to an
array, a reference, a parameter with `&`; the name 9 begins with v, 7 is `message`. -/
def vars0 : Nat → Option (Bound × Ty)
  | 0 => some (.plain, .ptr (.struct 0))
  | 1 => some (.plain, .struct 0)
  | 2 => some (.plain, .map (.struct 1))
  | 3 => some (.plain, .map (.map .num))
  | 4 => some (.plain, .map (.arr .num))
  | 5 => some (.plain, .err)
  | 6 => some (.plain, .ptr (.arr .num))
  | 7 => some (.ref, .struct 0)
  | 8 => some (.inout, .struct 0)
  | 9 => some (.plain, .arr (.struct 1))
  | 10 => some (.plain, .map .num)
  | _ => none

def env0 : Env := { var := vars0, field := fields0, errField := fun f => f == 7, startsV := fun f => f == 9 }

/-- Nested structs: field 0 of struct `s` is a struct `s + 1`; variable 0 is a pointer to struct 0. -/
def envDeep : Env :=
  { var := fun _ => some (.plain, .ptr (.struct 0)), field := fun s _ => some (.struct (s + 1)),
    errField := fun _ => false, startsV := fun _ => false }

/-- `p.a.a.a…` with `n` fields. -/
def deep : Nat → Tgt
  | 0 => .var 0
  | n + 1 => .field (deep n) 0

end Tg

/-- C291: the C compiler takes the assignment to every target the checker takes. -/
def C291_statement : Prop :=
  ∀ (v : Env) (t : Tgt), acceptsAssign v t = true → checkStmt v (emitAssign v t) = true

/-- Among those it refuses: `m[k].x = 1`, `m[a][b] = 1` for a map of maps and for a map of arrays,
`p^.a.x = 1`, `p^[0] = 1`, `p^.m[k] = 1`, `p.items[0].x = 1`, `f().x = 1`, `p^.unknown = 1`, `s.vname = 1`,
and a field 33 fields away from a pointer. -/
theorem C291_witness :
    let bad := fun (v : Env) (t : Tgt) => acceptsAssign v t && !checkStmt v (emitAssign v t)
    bad env0 (.field (.idx (.var 2) 0) 0) = true ∧
    bad env0 (.idx (.idx (.var 3) 0) 0) = true ∧
    bad env0 (.idx (.idx (.var 4) 0) 0) = true ∧
    bad env0 (.field (.field (.deref (.var 0)) 1) 0) = true ∧
    bad env0 (.idx (.deref (.var 6)) 0) = true ∧
    bad env0 (.idx (.field (.deref (.var 0)) 3) 0) = true ∧
    bad env0 (.field (.idx (.field (.var 0) 2) 0) 0) = true ∧
    bad env0 (.field (.call (.struct 0)) 0) = true ∧
    bad env0 (.field (.deref (.var 0)) 77) = true ∧
    bad env0 (.field (.var 1) 9) = true ∧
    bad envDeep (deep 33) = true := by
  decide +kernel

theorem C291_fails : ¬ C291_statement := by
  intro h
  have := h env0 (.field (.idx (.var 2) 0) 0) (by decide)
  revert this
  decide

/-- C291, exactly: the assignments that compile are those to the targets of `Assignable`. Missing: the
checker takes others as well. -/
theorem C291_partial (v : Env) (t : Tgt) : checkStmt v (emitAssign v t) = true ↔ Assignable v t := assignable_iff

/-- Variables, elements, entries and fields reached from a variable without pointers and without map
entries, one dereference, one element or entry of a field of a pointer, and up to 32 fields from a
pointer: these compile. -/
example : Assignable env0 (.field (.field (.var 1) 1) 0) ∧ Assignable env0 (.field (.idx (.var 9) 3) 0) ∧
    Assignable env0 (.idx (.field (.var 0) 4) 0) ∧ Assignable env0 (.idx (.field (.var 8) 3) 0) ∧
    Assignable env0 (.field (.field (.var 0) 1) 0) ∧ Assignable envDeep (deep 32) ∧
    Assignable env0 (.deref (.var 6)) ∧ Assignable env0 (.field (.var 7) 0) := by
  refine ⟨?_, ?_, ?_, ?_, ?_, ?_, ?_, ?_⟩ <;> exact assignable_iff.1 (by decide +kernel)

/-- Never: a field of a struct in a map, an element or entry of an array or map in a map. -/
theorem C291_entries_partial (v : Env) (o : Tgt) (k i f s : Nat) (T : Ty) :
    (typeOf v o = some (.map (.struct s)) → checkStmt v (emitAssign v (.field (.idx o k) f)) = false) ∧
    (typeOf v o = some (.map (.arr T)) → checkStmt v (emitAssign v (.idx (.idx o k) i)) = false) ∧
    (typeOf v o = some (.map (.map T)) → checkStmt v (emitAssign v (.idx (.idx o k) i)) = false) := by
  have no : ∀ {U W}, typeOf v o = some (.map U) → ¬ Valid v (.idx o k) W true := by
    intro U W h hv
    generalize hb : true = b at hv
    cases hv with
    | elem h' => have := (valid_type h').symm.trans h; cases this
    | _ => cases hb
  have idx : ∀ {U}, typeOf v o = some (.map U) → ¬ Assignable v (.idx (.idx o k) i) := by
    intro U h ha
    cases ha with
    | elem h' => exact no h h'
    | entry h' => exact no h h'
  refine ⟨fun h => ?_, fun h => ?_, fun h => ?_⟩
  · refine Bool.eq_false_iff.2 fun hc => ?_
    have ht : typeOf v (.idx o k) = some (.struct s) := by simp only [typeOf, h]
    cases assignable_iff.1 hc with
    | through h1 h2 h3 h4 =>
      cases h1 with
      | one h5 => have := h5.symm.trans ht; cases this
      | more h5 => cases h5
    | plain h1 =>
      generalize hb : true = b at h1
      cases h1 with
      | field h5 => subst hb; exact no h h5
      | auto => cases hb
      | err h5 => have := (valid_type h5).symm.trans ht; cases this
  · exact Bool.eq_false_iff.2 fun hc => idx h (assignable_iff.1 hc)
  · exact Bool.eq_false_iff.2 fun hc => idx h (assignable_iff.1 hc)

/-- Never: an element or entry of `p^`, an entry of a map in `p^`, a field of a struct in `p^`, and a field of
a struct in an array behind a pointer. -/
theorem C291_pointers_partial (v : Env) (q : Tgt) (i f g s u : Nat) (T : Ty) :
    checkStmt v (emitAssign v (.idx (.deref q) i)) = false ∧
    (typeOf v (.deref q) = some (.struct s) → v.field s f = some (.map T) →
      checkStmt v (emitAssign v (.idx (.field (.deref q) f) i)) = false) ∧
    (typeOf v (.deref q) = some (.struct s) → v.field s f = some (.struct u) →
      checkStmt v (emitAssign v (.field (.field (.deref q) f) g)) = false) ∧
    (typeOf v q = some (.ptr (.struct s)) → v.field s f = some (.arr (.struct u)) →
      checkStmt v (emitAssign v (.field (.idx (.field q f) i) g)) = false) := by
  have nd : ∀ {W}, ¬ Valid v (.deref q) W true := by
    intro W h
    cases h
  have nf : ∀ {W}, typeOf v (.deref q) = some (.struct s) → W ≠ .str → ¬ Valid v (.field (.deref q) f) W true := by
    intro W ht hW h
    generalize hb : true = b at h
    cases h with
    | field h' => subst hb; exact nd h'
    | auto => cases hb
    | err h' => exact hW rfl
  refine ⟨?_, fun h1 h2 => ?_, fun h1 h2 => ?_, fun h1 h2 => ?_⟩ <;>
    refine Bool.eq_false_iff.2 fun hc => ?_ <;> have ha := assignable_iff.1 hc
  · cases ha with
    | elem h' => exact nd h'
    | entry h' => exact nd h'
  · have ht : typeOf v (.field (.deref q) f) = some (.map T) := by
      rw [typeOf, h1]; exact h2
    cases ha with
    | elem h' => exact nf h1 (by intro h; cases h) h'
    | elemPtr h' => have := (valid_type h').symm.trans h1; cases this
    | elemDeref h' h'' =>
      have e : typeOf v (.field (.deref q) f) = some (.arr _) := valid_type (.field (.deref h') h'')
      have := e.symm.trans ht
      cases this
    | entry h' => exact nf h1 (by intro h; cases h) h'
    | entryPtr h' => have := (valid_type h').symm.trans h1; cases this
  · have ht : typeOf v (.field (.deref q) f) = some (.struct u) := by
      rw [typeOf, h1]; exact h2
    cases ha with
    | through h3 h4 h5 h6 =>
      cases h3 with
      | one h7 => have := h7.symm.trans ht; cases this
      | more h7 =>
        cases h7 with
        | one h8 => have := h8.symm.trans h1; cases this
        | more h8 => cases h8
    | plain h3 =>
      generalize hb : true = b at h3
      cases h3 with
      | field h5 => subst hb; exact nf h1 (by intro h; cases h) h5
      | auto => cases hb
      | err h5 => have := (valid_type h5).symm.trans ht; cases this
  · have hq : typeOf v (.field q f) = some (.arr (.struct u)) := by
      rw [typeOf, h1]; exact h2
    have ht : typeOf v (.idx (.field q f) i) = some (.struct u) := by
      rw [typeOf, hq]
    cases ha with
    | through h3 h4 h5 h6 =>
      cases h3 with
      | one h7 => have := h7.symm.trans ht; cases this
      | more h7 => cases h7
    | plain h3 =>
      generalize hb : true = b at h3
      cases h3 with
      | field h5 =>
        generalize hb' : b = b' at h5
        cases h5 with
        | elem h6 =>
          generalize hb'' : true = b'' at h6
          cases h6 with
          | field h7 => have := (valid_type h7).symm.trans h1; cases this
          | _ => cases hb''
        | _ => subst hb'; cases hb
      | auto => cases hb
      | err h5 => have := (valid_type h5).symm.trans ht; cases this

/-! ### C292: nil -/

namespace Tg

/-- References are bound, and indexing an array or a string is checked. -/
structure Sound {L : Type} (v : Env) (m : Mem L) : Prop where
  bound : ∀ x b T, v.var x = some (b, T) → b ≠ .plain → m.ptrAt (m.varAt x) ≠ none
  elem : ∀ l i, m.elemAt l i ≠ .ub
  char : ∀ l i, m.charAt l i ≠ .ub

/-- No field of an `Error` is taken. -/
def noErr (v : Env) : Tgt → Prop
  | .var _ => True
  | .call _ => True
  | .field o _ => typeOf v o ≠ some .err ∧ noErr v o
  | .idx o _ => noErr v o
  | .deref o => noErr v o

/-- Following the path dereferences nil. -/
inductive NilAt {L : Type} (v : Env) (m : Mem L) : Tgt → Prop
  | auto {o f T l} : Names v m o (.ptr T) l → m.ptrAt l = none → NilAt v m (.field o f)
  | deref {o T l} : Names v m o (.ptr T) l → m.ptrAt l = none → NilAt v m (.deref o)
  | inField {o f} : NilAt v m o → NilAt v m (.field o f)
  | inIdx {o i} : NilAt v m o → NilAt v m (.idx o i)
  | inDeref {o} : NilAt v m o → NilAt v m (.deref o)

theorem andThen_ne {α β : Type} {o : Outcome α} {g : α → Outcome β} (h1 : o ≠ .ub) (h2 : ∀ a, g a ≠ .ub) :
    andThen o g ≠ .ub := by
  cases o with
  | ok a => exact h2 a
  | panic c => intro h; cases h
  | ub => exact absurd rfl h1

theorem guarded_ne {L : Type} (m : Mem L) (l : L) : guarded m l ≠ .ub := by
  unfold guarded
  split <;> (intro h; cases h)

theorem present_ne {L : Type} (m : Mem L) (l : L) (k : Nat) : present m l k ≠ .ub := by
  unfold present
  split <;> (intro h; cases h)

theorem ok_ne {α : Type} {a : α} : Outcome.ok a ≠ .ub := by intro h; cases h

theorem valid_ne {L : Type} {v : Env} {m : Mem L} (hm : Sound v m) {t : Tgt} {T : Ty} {b : Bool}
    (h : Valid v t T b) : noErr v t → run m (emit v t) ≠ .ub := by
  induction h with
  | @var x b T h =>
    intro _
    cases b with
    | plain => simp only [emit, h, run]; exact ok_ne
    | ref =>
      simp only [emit, h, run, bare]
      cases hp : m.ptrAt (m.varAt x) with
      | none => exact absurd hp (hm.bound x _ _ h (by intro h; cases h))
      | some p => exact ok_ne
    | inout =>
      simp only [emit, h, run, bare]
      cases hp : m.ptrAt (m.varAt x) with
      | none => exact absurd hp (hm.bound x _ _ h (by intro h; cases h))
      | some p => exact ok_ne
  | call => intro _; exact ok_ne
  | field h1 h2 ih =>
    intro hn
    rw [emit_field_struct (valid_type h1)]
    exact andThen_ne (ih hn.2) fun _ => ok_ne
  | auto h1 hr h2 ih =>
    intro hn
    rw [emit_field_ptr (valid_type h1) hr]
    exact andThen_ne (ih hn.2) fun _ => andThen_ne (guarded_ne m _) fun _ => ok_ne
  | err h1 hr h2 ih => intro hn; exact absurd (valid_type h1) hn.1
  | deref h ih =>
    intro hn
    simp only [emit]
    exact andThen_ne (ih hn) fun _ => guarded_ne m _
  | elem h ih =>
    intro hn
    rw [emit_arr (valid_type h), valid_behind h (by intro h; cases h)]
    simp only [valid_call h, Bool.false_eq_true, if_false]
    exact andThen_ne (ih hn) fun _ => hm.elem _ _
  | elemCall => intro _; exact andThen_ne ok_ne fun _ => hm.elem _ _
  | @elemPtr q f i s T b h1 h2 ih =>
    intro hn
    have ht : typeOf v (.field q f) = some (.arr T) := by simp only [typeOf, valid_type h1, fieldOf, h2]
    have hb : behind v (.field q f) = some (q, f) := by
      simp only [behind, valid_type h1, isPtr, if_true]
    rw [emit_arr ht, hb]
    exact andThen_ne (ih hn.2) fun _ => andThen_ne (guarded_ne m _) fun _ => hm.elem _ _
  | @elemDeref q f i s T b h1 h2 ih =>
    intro hn
    have hd : typeOf v (.deref q) = some (.struct s) := by simp only [typeOf, valid_type h1]
    have ht : typeOf v (.field (.deref q) f) = some (.arr T) := by simp only [typeOf, valid_type h1, h2]
    have hb : behind v (.field (.deref q) f) = some (q, f) := by
      simp only [behind, hd, isPtr, Bool.false_eq_true, if_false]
      rfl
    rw [emit_arr ht, hb]
    exact andThen_ne (ih hn.2) fun _ => andThen_ne (guarded_ne m _) fun _ => hm.elem _ _
  | entry h ih =>
    intro hn
    rw [emit_map_copied (valid_type h)]
    split <;> exact andThen_ne (ih hn) fun _ => present_ne m _ _
  | entryCopy h hc ih =>
    intro hn
    rw [emit_map_copied (valid_type h), if_pos hc]
    exact andThen_ne (ih hn) fun _ => present_ne m _ _
  | char h ih =>
    intro hn
    rw [emit_str (valid_type h)]
    exact andThen_ne (ih hn) fun _ => hm.char _ _

/-- The pointer a chain of fields begins at is free of error fields, too. -/
theorem through_noErr {v : Env} {r : Tgt} {s n : Nat} {t : Tgt} {T : Ty} (h : Through v r s n t T) :
    noErr v t → noErr v r := by
  induction h with
  | one => exact fun h => h.2
  | more _ _ ih => exact fun h => ih h.2

theorem panicked {α β : Type} {o : Outcome α} {g : α → Outcome β} {c : String} (h : o = .panic c) :
    andThen o g = .panic c := by
  rw [h]
  rfl

theorem run_nil {L : Type} {v : Env} {m : Mem L} {o : Tgt} {T U : Ty} {l : L} {b : Bool} {β : Type}
    (h : Names v m o T l) (hv : Valid v o U b) (hp : m.ptrAt l = none) (g : L → Outcome β) :
    andThen (run m (emit v o)) (fun l => andThen (guarded m l) g) = .panic "P0080" := by
  rw [names_run h (by rw [valid_check hv]; rfl)]
  simp only [andThen, guarded, hp]

theorem nil_run {L : Type} {v : Env} {m : Mem L} {t : Tgt} {T : Ty} {b : Bool}
    (h : Valid v t T b) : NilAt v m t → run m (emit v t) = .panic "P0080" := by
  induction h with
  | var => intro hn; cases hn
  | call => intro hn; cases hn
  | field h1 h2 ih =>
    intro hn
    rw [emit_field_struct (valid_type h1)]
    cases hn with
    | auto h3 => have := (names_type h3).symm.trans (valid_type h1); cases this
    | inField h3 => exact panicked (ih h3)
  | auto h1 hr h2 ih =>
    intro hn
    rw [emit_field_ptr (valid_type h1) hr]
    cases hn with
    | auto h3 h4 => exact run_nil h3 h1 h4 _
    | inField h3 => exact panicked (ih h3)
  | err h1 hr h2 ih =>
    intro hn
    rw [emit_field_err (valid_type h1) hr]
    cases hn with
    | auto h3 => have := (names_type h3).symm.trans (valid_type h1); cases this
    | inField h3 => exact panicked (ih h3)
  | deref h ih =>
    intro hn
    simp only [emit]
    cases hn with
    | deref h3 h4 =>
      simp only [run]
      rw [names_run h3 (by rw [valid_check h]; rfl)]
      simp only [andThen, guarded, h4]
    | inDeref h3 => exact panicked (ih h3)
  | elem h ih =>
    intro hn
    rw [emit_arr (valid_type h), valid_behind h (by intro h; cases h)]
    simp only [valid_call h, Bool.false_eq_true, if_false]
    cases hn with
    | inIdx h3 => exact panicked (ih h3)
  | elemCall =>
    intro hn
    cases hn with
    | inIdx h3 => cases h3
  | @elemPtr q f i s T b h1 h2 ih =>
    intro hn
    have ht : typeOf v (.field q f) = some (.arr T) := by simp only [typeOf, valid_type h1, fieldOf, h2]
    have hb : behind v (.field q f) = some (q, f) := by
      simp only [behind, valid_type h1, isPtr, if_true]
    rw [emit_arr ht, hb]
    cases hn with
    | inIdx h3 =>
      cases h3 with
      | auto h4 h5 => exact run_nil h4 h1 h5 _
      | inField h4 => exact panicked (ih h4)
  | @elemDeref q f i s T b h1 h2 ih =>
    intro hn
    have hd : typeOf v (.deref q) = some (.struct s) := by simp only [typeOf, valid_type h1]
    have ht : typeOf v (.field (.deref q) f) = some (.arr T) := by simp only [typeOf, valid_type h1, h2]
    have hb : behind v (.field (.deref q) f) = some (q, f) := by
      simp only [behind, hd, isPtr, Bool.false_eq_true, if_false]
      rfl
    rw [emit_arr ht, hb]
    cases hn with
    | inIdx h3 =>
      cases h3 with
      | auto h4 h5 => have := (names_type h4).symm.trans hd; cases this
      | inField h4 =>
        cases h4 with
        | deref h5 h6 => exact run_nil h5 h1 h6 _
        | inDeref h5 => exact panicked (ih h5)
  | entry h ih =>
    intro hn
    rw [emit_map_copied (valid_type h)]
    cases hn with
    | inIdx h3 => split <;> exact panicked (ih h3)
  | entryCopy h hc ih =>
    intro hn
    rw [emit_map_copied (valid_type h), if_pos hc]
    cases hn with
    | inIdx h3 => exact panicked (ih h3)
  | char h ih =>
    intro hn
    rw [emit_str (valid_type h)]
    cases hn with
    | inIdx h3 => exact panicked (ih h3)

theorem through_nil {L : Type} {v : Env} {m : Mem L} {r : Tgt} {s n : Nat} {t : Tgt} {T : Ty}
    (h : Through v r s n t T) : NilAt v m t →
      (∃ U l, Names v m r (.ptr U) l ∧ m.ptrAt l = none) ∨ NilAt v m r := by
  induction h with
  | one =>
    intro hn
    cases hn with
    | auto h3 h4 => exact Or.inl ⟨_, _, h3, h4⟩
    | inField h3 => exact Or.inr h3
  | more h1 h2 ih =>
    intro hn
    cases hn with
    | auto h3 h4 => have := (names_type h3).symm.trans (through_type h1); cases this
    | inField h3 => exact ih h3

end Tg

/-- C292: no accepted program dereferences nil without a check. -/
def C292_statement : Prop :=
  ∀ (v : Env) (m : Mem Nat) (t : Tgt), Sound v m → accepts v t = true → (check v (emit v t)).isSome = true →
    run m (emit v t) ≠ .ub

/-- A memory in which everything is nil, apart from what is bound. -/
def Tg.nilMem : Mem Nat :=
  { varAt := fun x => x, callAt := 100, fieldAt := fun l f => 10 * l + f, ptrAt := fun l => if l = 7 ∨ l = 8 then some l else none,
    elemAt := fun l i => .ok (l + i), entryAt := fun _ _ => none, charAt := fun l i => .ok (l + i) }

/-- It fails for `e.message` when `e` is nil. -/
theorem C292_witness : accepts env0 (.field (.var 5) 7) = true ∧
    check env0 (emit env0 (.field (.var 5) 7)) = some (.str, true) ∧
    run nilMem (emit env0 (.field (.var 5) 7)) = .ub := by
  decide

theorem Tg.nilMem_sound : Sound env0 nilMem := by
  refine ⟨?_, fun l i h => (by cases h), fun l i h => (by cases h)⟩
  intro x b T h hb
  match x with
  | 7 => decide
  | 8 => decide
  | 0 | 1 | 2 | 3 | 4 | 5 | 6 | 9 | 10 => cases h; exact absurd rfl hb
  | n + 11 => cases h

theorem C292_fails : ¬ C292_statement := by
  intro h
  exact h env0 nilMem (.field (.var 5) 7) nilMem_sound (by decide) (by decide) (by decide)

/-- C292 for paths without a field of an `Error`, read or assigned to. Missing: fields of errors. -/
theorem C292_partial {L : Type} (v : Env) (m : Mem L) (hm : Sound v m) (t : Tgt) (hn : noErr v t) :
    ((check v (emit v t)).isSome = true → run m (emit v t) ≠ .ub) ∧
    (checkStmt v (emitAssign v t) = true → runStmt m (emitAssign v t) ≠ .ub) := by
  constructor
  · intro hc
    obtain ⟨⟨T, b⟩, hp⟩ := Option.isSome_iff_exists.1 hc
    exact valid_ne hm (check_valid.1 hp) hn
  · intro hc
    cases assignable_iff.1 hc with
    | var h => exact andThen_ne (valid_ne hm (.var h) hn) fun _ => ok_ne
    | deref h => exact andThen_ne (valid_ne hm h hn) fun _ => andThen_ne (guarded_ne m _) fun _ => ok_ne
    | elem h =>
      rw [assign_arr (valid_type h), valid_behind h (by intro h; cases h)]
      exact andThen_ne (valid_ne hm h hn) fun _ => ok_ne
    | @elemPtr q f i s T b h1 h2 =>
      have ht : typeOf v (.field q f) = some (.arr T) := by simp only [typeOf, valid_type h1, fieldOf, h2]
      have hb : behind v (.field q f) = some (q, f) := by
        simp only [behind, valid_type h1, isPtr, if_true]
      rw [assign_arr ht, hb]
      exact andThen_ne (valid_ne hm h1 hn.2) fun _ => andThen_ne (guarded_ne m _) fun _ => ok_ne
    | @elemDeref q f i s T b h1 h2 =>
      have hd : typeOf v (.deref q) = some (.struct s) := by simp only [typeOf, valid_type h1]
      have ht : typeOf v (.field (.deref q) f) = some (.arr T) := by simp only [typeOf, valid_type h1, h2]
      have hb : behind v (.field (.deref q) f) = some (q, f) := by
        simp only [behind, hd, isPtr, Bool.false_eq_true, if_false]
        rfl
      rw [assign_arr ht, hb]
      exact andThen_ne (valid_ne hm h1 hn.2) fun _ => andThen_ne (guarded_ne m _) fun _ => ok_ne
    | entry h =>
      rw [assign_map (valid_type h), valid_field0 h (by intro h; cases h)]
      exact andThen_ne (valid_ne hm h hn) fun _ => ok_ne
    | @entryPtr q f k s T b h1 h2 =>
      have ht : typeOf v (.field q f) = some (.map T) := by simp only [typeOf, valid_type h1, fieldOf, h2]
      have hb : field0 v (.field q f) = some (q, f) := by
        simp only [field0, valid_type h1, isPtr, if_true]
      rw [assign_map ht, hb]
      exact andThen_ne (valid_ne hm h1 hn.2) fun _ => andThen_ne (guarded_ne m _) fun _ => ok_ne
    | derefField h1 h2 =>
      simp only [emitAssign, emitMember, derefOf]
      exact andThen_ne (valid_ne hm h1 hn.2) fun _ => andThen_ne (guarded_ne m _) fun _ => ok_ne
    | through h1 h2 h3 h4 =>
      obtain ⟨path, h5, h6⟩ := through_chain h1 32 h2
      simp only [emitAssign, emitMember, derefOf_none h4, h5]
      exact andThen_ne (valid_ne hm h3 (through_noErr h1 hn)) fun _ => andThen_ne (guarded_ne m _) fun _ => ok_ne
    | plain h1 h2 h3 =>
      simp only [emitAssign, emitMember, derefOf_none h3, (chain_clear 32 _).2 h2]
      exact andThen_ne (valid_ne hm h1 hn) fun _ => ok_ne

example : Sound env0 nilMem ∧ noErr env0 (.field (.field (.var 0) 1) 0) ∧
    runStmt nilMem (emitAssign env0 (.field (.field (.var 0) 1) 0)) = .panic "P0080" :=
  ⟨nilMem_sound, ⟨by decide, by decide, trivial⟩, by decide⟩

/-- Where nil is dereferenced the program stops with `P0080`, reading or writing. -/
theorem C292_stop_partial {L : Type} (v : Env) (m : Mem L) (t : Tgt) (hn : NilAt v m t) :
    ((check v (emit v t)).isSome = true → run m (emit v t) = .panic "P0080") ∧
    (checkStmt v (emitAssign v t) = true → runStmt m (emitAssign v t) = .panic "P0080") := by
  constructor
  · intro hc
    obtain ⟨⟨T, b⟩, hp⟩ := Option.isSome_iff_exists.1 hc
    exact nil_run (check_valid.1 hp) hn
  · intro hc
    cases assignable_iff.1 hc with
    | var h => cases hn
    | deref h =>
      cases hn with
      | deref h3 h4 => exact run_nil h3 h h4 _
      | inDeref h3 => exact panicked (nil_run h h3)
    | elem h =>
      rw [assign_arr (valid_type h), valid_behind h (by intro h; cases h)]
      cases hn with
      | inIdx h3 => exact panicked (nil_run h h3)
    | @elemPtr q f i s T b h1 h2 =>
      have ht : typeOf v (.field q f) = some (.arr T) := by simp only [typeOf, valid_type h1, fieldOf, h2]
      have hb : behind v (.field q f) = some (q, f) := by
        simp only [behind, valid_type h1, isPtr, if_true]
      rw [assign_arr ht, hb]
      cases hn with
      | inIdx h3 =>
        cases h3 with
        | auto h4 h5 => exact run_nil h4 h1 h5 _
        | inField h4 => exact panicked (nil_run h1 h4)
    | @elemDeref q f i s T b h1 h2 =>
      have hd : typeOf v (.deref q) = some (.struct s) := by simp only [typeOf, valid_type h1]
      have ht : typeOf v (.field (.deref q) f) = some (.arr T) := by simp only [typeOf, valid_type h1, h2]
      have hb : behind v (.field (.deref q) f) = some (q, f) := by
        simp only [behind, hd, isPtr, Bool.false_eq_true, if_false]
        rfl
      rw [assign_arr ht, hb]
      cases hn with
      | inIdx h3 =>
        cases h3 with
        | auto h4 h5 => have := (names_type h4).symm.trans hd; cases this
        | inField h4 =>
          cases h4 with
          | deref h5 h6 => exact run_nil h5 h1 h6 _
          | inDeref h5 => exact panicked (nil_run h1 h5)
    | entry h =>
      rw [assign_map (valid_type h), valid_field0 h (by intro h; cases h)]
      cases hn with
      | inIdx h3 => exact panicked (nil_run h h3)
    | @entryPtr q f k s T b h1 h2 =>
      have ht : typeOf v (.field q f) = some (.map T) := by simp only [typeOf, valid_type h1, fieldOf, h2]
      have hb : field0 v (.field q f) = some (q, f) := by
        simp only [field0, valid_type h1, isPtr, if_true]
      rw [assign_map ht, hb]
      cases hn with
      | inIdx h3 =>
        cases h3 with
        | auto h4 h5 => exact run_nil h4 h1 h5 _
        | inField h4 => exact panicked (nil_run h1 h4)
    | derefField h1 h2 =>
      simp only [emitAssign, emitMember, derefOf]
      cases hn with
      | auto h4 h5 =>
        have := (names_type h4).symm.trans (valid_type (.deref h1))
        cases this
      | inField h4 =>
        cases h4 with
        | deref h5 h6 => exact run_nil h5 h1 h6 _
        | inDeref h5 => exact panicked (nil_run h1 h5)
    | through h1 h2 h3 h4 =>
      obtain ⟨path, h5, h6⟩ := through_chain h1 32 h2
      simp only [emitAssign, emitMember, derefOf_none h4, h5]
      rcases through_nil h1 hn with ⟨U, l, h7, h8⟩ | h7
      · exact run_nil h7 h3 h8 _
      · exact panicked (nil_run h3 h7)
    | plain h1 h2 h3 =>
      simp only [emitAssign, emitMember, derefOf_none h3, (chain_clear 32 _).2 h2]
      exact panicked (nil_run h1 hn)

example : NilAt env0 nilMem (.field (.field (.var 0) 1) 0) := .inField (.auto (.var rfl) (by decide))

/-! ### C294: compound assignment through pointers -/

/-- C294: `op=` gives what the operator of an expression gives, whatever the target. -/
def C294_statement : Prop :=
  ∀ (st : Stmt) (op : AOp) (t : IntTy) (x w : Int), t ≠ .char → InTy t x → InTy t w →
    storeOp st op t t x w = plainOp op t x w

/-- It fails for `p^ += 1` at the largest int (undefined), for an `i8` of 127 behind a pointer (-128),
for `p.n /= 0` (undefined), and for `p.items[0] /= 2` (stores 2). -/
theorem C294_witness (e : C) (f i : Nat) (path : List Nat) :
    storeOp (.viaStar e) (.arith .add) .int .int (2 ^ 63 - 1) 1 = some .ub ∧
    storeOp (.viaDp e path) (.arith .add) .i8 .i8 127 1 = some (.ok (-128)) ∧
    storeOp (.viaDp e path) .div .int .int 10 0 = some .ub ∧
    storeOp (.asetNil e f i) .div .int .int 10 2 = some (.ok 2) ∧
    plainOp (.arith .add) .int (2 ^ 63 - 1) 1 = some (.panic "P0004") ∧
    plainOp (.arith .add) .i8 127 1 = some (.panic "P0011") ∧
    plainOp .div .int 10 0 = some (.panic "P0078") ∧ plainOp .div .int 10 2 = some (.ok 5) := by
  refine ⟨congrArg some (by decide : rawOp (.arith .add) .int .int (2 ^ 63 - 1) 1 = .ub),
    congrArg some (by decide : rawOp (.arith .add) .i8 .i8 127 1 = .ok (-128)),
    congrArg some (by decide : rawOp .div .int .int 10 0 = .ub),
    congrArg some (by decide : ptrElemOp .div .int .int 10 2 = .ok 2), ?_, ?_, ?_, ?_⟩ <;> decide

theorem C294_fails : ¬ C294_statement := by
  intro h
  have := h (.viaDp (.id 0) [0]) (.arith .add) .i8 127 1 (by decide) (by simp only [InTy, loTy, hiTy]; omega)
    (by simp only [InTy, loTy, hiTy]; omega)
  rw [(C294_witness (.id 0) 0 0 [0]).2.1, (C294_witness (.id 0) 0 0 [0]).2.2.2.2.2.1] at this
  cases this

namespace Tg

theorem conv_common {t : IntTy} {z : Int} (h : InTy t z) : conv (common (cTy t) (cTy t)) z = z := by
  obtain ⟨h1, h2⟩ := h
  cases t <;> simp only [loTy, hiTy] at h1 h2 <;>
    first
    | (change conv (32, true) z = z; exact conv_signed (by decide) (by norm_num; omega) (by norm_num; omega))
    | (change conv (64, true) z = z; exact conv_signed (by decide) (by norm_num; omega) (by norm_num; omega))
    | (change conv (32, false) z = z; exact conv_unsigned (by omega) (by norm_num; omega))
    | (change conv (64, false) z = z; exact conv_unsigned (by omega) (by norm_num; omega))

theorem arith_fits (o : Op) (t : IntTy) (x w : Int) (hx : InTy t x) (hw : InTy t w) (hf : InTy t (meaning o x w)) :
    storeVar t (cArith o t t x w) = .ok (meaning o x w) := by
  have hr : (common (cTy t) (cTy t)).2 = true →
      ¬ (meaning o x w < -2 ^ ((common (cTy t) (cTy t)).1 - 1) ∨ meaning o x w ≥ 2 ^ ((common (cTy t) (cTy t)).1 - 1)) := by
    obtain ⟨h1, h2⟩ := hf
    cases t <;> simp only [loTy, hiTy] at h1 h2 <;> intro hs <;>
      first
      | exact absurd hs (by decide)
      | (change ¬ (meaning o x w < -2 ^ (32 - 1) ∨ meaning o x w ≥ 2 ^ (32 - 1)); norm_num; omega)
      | (change ¬ (meaning o x w < -2 ^ (64 - 1) ∨ meaning o x w ≥ 2 ^ (64 - 1)); norm_num; omega)
  simp only [cArith, conv_common hx, conv_common hw, exact_meaning]
  split
  · rename_i hs
    rw [if_neg (hr hs)]
    simp only [storeVar, conv_cTy hf]
  · simp only [conv_common hf, storeVar, conv_cTy hf]

end Tg

/-- C294 where it holds: the statements without a pointer, on everything but elements and entries; and `+=`,
`-=` and `*=` through pointers whenever the exact result fits. Missing: overflow through pointers. -/
theorem C294_partial (op : AOp) (o : Op) (t : IntTy) (ht : t ≠ .char) (x w : Int) (hx : InTy t x) (hw : InTy t w)
    (l e : C) (f i : Nat) (path : List Nat) :
    storeOp (.plain l) op t t x w = plainOp op t x w ∧
    (InTy t (meaning o x w) →
      storeOp (.viaStar e) (.arith o) t t x w = some (.ok (meaning o x w)) ∧
      storeOp (.viaDp e path) (.arith o) t t x w = some (.ok (meaning o x w)) ∧
      storeOp (.asetNil e f i) (.arith o) t t x w = some (.ok (meaning o x w))) := by
  refine ⟨C65_variable op t ht x w hx hw, fun hf => ?_⟩
  have h := arith_fits o t x w hx hw hf
  exact ⟨congrArg some h, congrArg some h, congrArg some h⟩

/-- Division through pointers: whenever `/` and `%` have a result, `/=` and `%=` through a pointer store it. -/
theorem C294_division_partial (isMod : Bool) (t : IntTy) (ht : t ≠ .char) (x w z : Int) (hx : InTy t x)
    (hw : InTy t w) (e : C) (path : List Nat)
    (h : plainOp (if isMod then .mod else .div) t x w = some (.ok z)) :
    storeOp (.viaStar e) (if isMod then .mod else .div) t t x w = some (.ok z) ∧
    storeOp (.viaDp e path) (if isMod then .mod else .div) t t x w = some (.ok z) := by
  rw [← C65_variable _ t ht x w hx hw] at h
  have hk : kind t ≠ .kChar := by cases t <;> simp [kind] at ht ⊢
  have key : storeVar t (cDiv isMod t t x w) = .ok z := by
    cases isMod
    · simp only [Bool.false_eq_true, if_false, compoundVar, if_neg hk] at h
      split at h <;> (split at h <;> try cases h) <;> try (split at h <;> try cases h)
      all_goals exact Option.some.inj h
    · simp only [if_true, compoundVar, if_neg hk] at h
      split at h <;> (split at h <;> try cases h) <;> try (split at h <;> try cases h)
      all_goals exact Option.some.inj h
  cases isMod
  · exact ⟨congrArg some key, congrArg some key⟩
  · exact ⟨congrArg some key, congrArg some key⟩

example : storeOp (.viaStar (.id 0)) .mod .i32 .i32 17 5 = some (.ok 2) := by decide

/-! ### C295: addresses -/

/-- C295: every accepted `addr` and `ref` compiles. -/
def C295_statement : Prop :=
  ∀ (v : Env) (t : Tgt), acceptsAddr v t = true →
    checkAddr v (emitAddr v t) = true ∧ checkAddr v (emitRef v t) = true

/-- It fails for `addr(p^)`, `addr(p.a.x)`, `addr(p.items[0])` and `ref(p.n)`. -/
theorem C295_witness :
    (acceptsAddr env0 (.deref (.var 0)) && !checkAddr env0 (emitAddr env0 (.deref (.var 0)))) = true ∧
    (acceptsAddr env0 (.field (.field (.var 0) 1) 0) &&
      !checkAddr env0 (emitAddr env0 (.field (.field (.var 0) 1) 0))) = true ∧
    (acceptsAddr env0 (.idx (.field (.var 0) 4) 0) &&
      !checkAddr env0 (emitAddr env0 (.idx (.field (.var 0) 4) 0))) = true ∧
    (acceptsAddr env0 (.field (.var 0) 0) && !checkAddr env0 (emitRef env0 (.field (.var 0) 0))) = true := by
  decide

theorem C295_fails : ¬ C295_statement := by
  intro h
  have := (h env0 (.deref (.var 0)) (by decide)).1
  revert this
  decide

/-- C295, exactly: `ref` compiles for lvalues, `addr` for lvalues and for a field of a pointer or of `p^`. -/
theorem C295_partial (v : Env) (t : Tgt) :
    (checkAddr v (emitRef v t) = true ↔ ∃ T, Valid v t T true) ∧
    ((∃ T, Valid v t T true) → (∀ o f, t = .field o f → isPtr (typeOf v o) = false ∧ ∀ q, o ≠ .deref q) →
      checkAddr v (emitAddr v t) = true) ∧
    (∀ o f s T b, Valid v o (.ptr (.struct s)) b → v.field s f = some T →
      (t = .field o f → (∀ q, o ≠ .deref q) → checkAddr v (emitAddr v t) = true) ∧
      (t = .field (.deref o) f → checkAddr v (emitAddr v t) = true)) := by
  refine ⟨⟨fun h => ?_, fun ⟨T, h⟩ => ?_⟩, fun ⟨T, h⟩ hp => ?_, fun o f s T b h1 h2 => ⟨fun e hd => ?_, fun e => ?_⟩⟩
  · obtain ⟨T, hT⟩ := any_lvalue h
    exact ⟨T, check_valid.1 hT⟩
  · simp only [emitRef, checkAddr, valid_check h, Option.any_some]
  · have amp : checkAddr v (.amp (emit v t)) = true := by
      simp only [checkAddr, valid_check h, Option.any_some]
    cases t with
    | field o f =>
      simp only [emitAddr, (hp o f rfl).1, derefOf_none (hp o f rfl).2, Bool.false_eq_true, if_false]
      exact amp
    | _ => exact amp
  · subst e
    simp only [emitAddr, derefOf_none hd, valid_type h1, isPtr, if_true, checkAddr, valid_check h1, fieldOf, h2,
      Option.isSome_some]
  · subst e
    simp only [emitAddr, derefOf, checkAddr, valid_check h1, fieldOf, h2, Option.isSome_some]

/-! ### C296: unknown fields -/

/-- C296: a path the checker takes has a type. -/
def C296_statement : Prop := ∀ (v : Env) (t : Tgt), accepts v t = true → (typeOf v t).isSome = true

/-- It fails for `s.vx` (a name beginning with v), `p^.x`, `a[0].x` and `f().x`, where there is no such
field. -/
theorem C296_witness :
    (accepts env0 (.field (.var 1) 9) && (typeOf env0 (.field (.var 1) 9)).isNone) = true ∧
    (accepts env0 (.field (.deref (.var 0)) 77) && (typeOf env0 (.field (.deref (.var 0)) 77)).isNone) = true ∧
    (accepts env0 (.field (.idx (.var 9) 0) 77) && (typeOf env0 (.field (.idx (.var 9) 0) 77)).isNone) = true ∧
    (accepts env0 (.field (.call (.struct 0)) 77) &&
      (typeOf env0 (.field (.call (.struct 0)) 77)).isNone) = true := by
  decide

theorem C296_fails : ¬ C296_statement := by
  intro h
  have := h env0 (.field (.var 1) 9) (by decide)
  revert this
  decide

/-- Every field is taken from a variable or a field, and its name does not begin with v. -/
def Tg.tame (v : Env) : Tgt → Prop
  | .var _ => True
  | .call _ => True
  | .field (.var _) f => v.startsV f = false
  | .field (.field o g) f => v.startsV f = false ∧ Tg.tame v (.field o g)
  | .field _ _ => False
  | .idx o _ => Tg.tame v o
  | .deref o => Tg.tame v o

/-- C296 for paths whose fields are taken from variables and fields, with names that do not begin with v. -/
theorem C296_partial (v : Env) : ∀ (t : Tgt), tame v t → accepts v t = true → (typeOf v t).isSome = true
  | .var x, _, h => by
    simp only [typeOf, Option.isSome_map]
    simpa only [accepts] using h
  | .call _, _, _ => rfl
  | .field (.var x) f, ht, h => by
    simp only [accepts] at h
    simp only [tame] at ht
    cases hv : v.var x with
    | none => rw [hv] at h; cases h
    | some p =>
      obtain ⟨b, T⟩ := p
      rw [hv] at h
      simp only [typeOf, hv, Option.map_some]
      cases b <;> cases T <;> simp only [varField, ht, Bool.or_false, Bool.false_eq_true] at h <;>
        first
        | exact h
        | (simp only [fieldOf] at h; first | exact h | cases h)
        | (simp only [h, if_true]; rfl)
        | cases h
  | .field (.field o g) f, ht, h => by
    simp only [accepts] at h
    obtain ⟨h1, h2⟩ := Bool.and_eq_true_iff.1 h
    have ih := C296_partial v (.field o g) ht.2 h1
    obtain ⟨T, hT⟩ := Option.isSome_iff_exists.1 ih
    rw [hT] at h2
    rw [typeOf, hT]
    cases T <;> simp only [memberField, ht.1, Bool.or_false, Bool.false_eq_true] at h2 <;>
      first | exact h2 | cases h2
  | .idx o _, ht, h => by
    simp only [accepts] at h
    obtain ⟨h1, h2⟩ := Bool.and_eq_true_iff.1 h
    obtain ⟨T, hT⟩ := Option.isSome_iff_exists.1 (C296_partial v o ht h1)
    rw [hT] at h2
    rw [typeOf, hT]
    cases T <;> first | rfl | cases h2
  | .deref o, ht, h => by
    simp only [accepts] at h
    obtain ⟨h1, h2⟩ := Bool.and_eq_true_iff.1 h
    obtain ⟨T, hT⟩ := Option.isSome_iff_exists.1 (C296_partial v o ht h1)
    rw [hT] at h2
    rw [typeOf, hT]
    cases T <;> first | rfl | cases h2
  | .field (.call _) _, ht, _ => ht.elim
  | .field (.idx _ _) _, ht, _ => ht.elim
  | .field (.deref _) _, ht, _ => ht.elim

example : tame env0 (.idx (.field (.field (.var 0) 1) 0) 3) := ⟨rfl, rfl⟩
example : accepts env0 (.field (.var 1) 77) = false := rfl

/-! ### C297: `++` and `--` -/

/-- C297: `++` and `--` compile on every operand the checker takes. -/
def C297_statement : Prop := ∀ (v : Env) (t : Tgt), acceptsStep v t = true → checkStep v t = true

/-- They do not for `p.n++`, `m[k]++`, `p.items[0]++`, `p^.n++` and `m[k].n++`. -/
theorem C297_witness :
    let bad := fun t => acceptsStep env0 t && !checkStep env0 t
    bad (.field (.var 0) 0) = true ∧ bad (.idx (.var 10) 0) = true ∧ bad (.idx (.field (.var 0) 4) 0) = true ∧
    bad (.field (.deref (.var 0)) 0) = true ∧ bad (.field (.idx (.var 2) 0) 0) = true := by
  decide

theorem C297_fails : ¬ C297_statement := by
  intro h
  have := h env0 (.field (.var 0) 0) (by decide)
  revert this
  decide

/-- C297, exactly: on lvalues. Missing: what is behind a pointer or in a map. -/
theorem C297_partial (v : Env) (t : Tgt) : checkStep v t = true ↔ ∃ T, Valid v t T true := by
  constructor
  · intro h
    obtain ⟨T, hT⟩ := any_lvalue h
    exact ⟨T, check_valid.1 hT⟩
  · rintro ⟨T, h⟩
    simp only [checkStep, valid_check h, Option.any_some]

example : checkStep env0 (.field (.idx (.field (.var 1) 2) 0) 0) = true := by decide

/-! ### C298: paths as values -/

/-- C298: an accepted path with a type can be read. -/
def C298_statement : Prop :=
  ∀ (v : Env) (t : Tgt), accepts v t = true → (typeOf v t).isSome = true → (check v (emit v t)).isSome = true

/-- It cannot for `m[a][0]` of a map of arrays, `p^[0]`, `p.a…` behind a `ref` to a pointer, and
`f().items[0]`. -/
theorem C298_witness :
    let bad := fun t => accepts env0 t && (typeOf env0 t).isSome && (check env0 (emit env0 t)).isNone
    bad (.idx (.idx (.var 4) 0) 0) = true ∧ bad (.idx (.deref (.var 6)) 0) = true ∧
    bad (.idx (.field (.call (.struct 0)) 4) 0) = true ∧ bad (.idx (.field (.call (.struct 0)) 3) 0) = true := by
  decide

theorem C298_fails : ¬ C298_statement := by
  intro h
  have := h env0 (.idx (.idx (.var 4) 0) 0) (by decide) (by decide)
  revert this
  decide

/-- C298, exactly: the paths that compile are those of `Valid`, with that type. Missing: elements of arrays
in maps, behind `p^` and in results. -/
theorem C298_partial (v : Env) (t : Tgt) (T : Ty) (b : Bool) :
    check v (emit v t) = some (T, b) ↔ Valid v t T b := check_valid

/-- Chains of fields and dereferences always compile, when they have a type and no `ref` to a pointer
or an error is involved. -/
theorem C298_fields_partial (v : Env) (hv : ∀ x T, v.var x = some (.ref, T) → ∃ s, T = .struct s) :
    ∀ (t : Tgt), (∀ o i, t ≠ .idx o i) → (∀ o f, t = .field o f → ∃ T b, Valid v o T b) →
      (∀ o, t = .deref o → ∃ T b, Valid v o T b) → (typeOf v t).isSome = true → ∃ T b, Valid v t T b := by
  intro t hi hf hd ht
  obtain ⟨T, hT⟩ := Option.isSome_iff_exists.1 ht
  cases t with
  | var x =>
    simp only [typeOf] at hT
    cases hx : v.var x with
    | none => rw [hx] at hT; cases hT
    | some p => exact ⟨_, _, .var hx⟩
  | call U => exact ⟨_, _, .call⟩
  | idx o i => exact absurd rfl (hi o i)
  | deref o =>
    obtain ⟨U, b, h⟩ := hd o rfl
    rw [typeOf, valid_type h] at hT
    cases U with
    | ptr W => exact ⟨_, _, .deref h⟩
    | _ => cases hT
  | field o f =>
    obtain ⟨U, b, h⟩ := hf o f rfl
    have nref : (∀ s, U ≠ .struct s) → isRef v o = false := by
      intro hU
      refine Bool.eq_false_iff.2 fun hr => ?_
      obtain ⟨x, W, rfl, h1, _⟩ := isRef_emit hr
      obtain ⟨s, rfl⟩ := hv x W h1
      have := (valid_type h).symm.trans (valid_type (.var h1))
      exact hU s (Option.some.inj this)
    rcases typeOf_field_ptr hT with ⟨s, h1, h2⟩ | ⟨s, h1, h2⟩ | ⟨h1, h2, h3⟩
    · cases Option.some.inj ((valid_type h).symm.trans h1)
      exact ⟨_, _, .field h h2⟩
    · cases Option.some.inj ((valid_type h).symm.trans h1)
      exact ⟨_, _, .auto h (nref (by intro s h; cases h)) h2⟩
    · cases Option.some.inj ((valid_type h).symm.trans h1)
      exact ⟨_, _, .err h (nref (by intro s h; cases h)) h2⟩

/-- C293 at work: a field of a struct behind a pointer, an element of an array behind a pointer. -/
def Tg.fullMem : Mem Nat :=
  { varAt := fun x => x, callAt := 100, fieldAt := fun l f => 10 * l + f, ptrAt := fun l => some (l + 50),
    elemAt := fun l i => .ok (1000 * l + i), entryAt := fun l k => some (l + k), charAt := fun l i => .ok (l + i) }

example : ∃ l, Writes env0 fullMem (.field (.field (.var 0) 1) 0) (.place l) ∧ l = 5010 ∧
    runStmt fullMem (emitAssign env0 (.field (.field (.var 0) 1) 0)) = .ok (.place 5010) :=
  ⟨_, .field (.field (s := 1) (.auto (s := 0) (.var rfl) rfl rfl) rfl), rfl, by decide⟩

example : ∃ l, Writes env0 fullMem (.idx (.field (.deref (.var 0)) 4) 2) (.elem l 2) ∧ l = 504 ∧
    checkStmt env0 (emitAssign env0 (.idx (.field (.deref (.var 0)) 4) 2)) = true :=
  ⟨_, .elem (T := .num) (.field (s := 0) (.deref (.var rfl) rfl) rfl), rfl, by decide⟩

example : ∃ l, Names env0 fullMem (.field (.var 0) 0) .num l ∧ l = 500 ∧
    checkAddr env0 (emitAddr env0 (.field (.var 0) 0)) = true :=
  ⟨_, .auto (s := 0) (.var rfl) rfl rfl, rfl, by decide⟩

end Verif.Props

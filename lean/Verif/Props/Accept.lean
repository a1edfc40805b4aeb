import Verif.Model.Accept

/-!
# C234 and C235: what the checker accepts has the C types it is read at
-/

namespace Verif.Props

open Verif.Accept

namespace Acc

/-- The elements, at all levels, are stored at the C types at which the place reads them. -/
def Agree (W : World) : Ty → Ty → Prop
  | .arr a, .arr b => elemC W a = elemC W b ∧ Agree W a b
  | .map k v, .map k' v' => mapC W k = mapC W k' ∧ mapC W v = mapC W v' ∧ Agree W v v'
  | _, _ => True

theorem agree_refl (W : World) : ∀ t : Ty, Agree W t t
  | .arr a => ⟨rfl, agree_refl W a⟩
  | .map _ v => ⟨rfl, rfl, agree_refl W v⟩
  | .int _ | .float _ | .bool | .char | .string | .error | .nil | .struct _ | .enum _ | .ptr _ | .func _ => trivial

/-- Neither `byte` nor wide. -/
def plain : IntName → Bool
  | .byte | .i128 | .i256 | .u128 | .u256 => false
  | _ => true

/-- Different integer types only if neither is `byte` or wide. -/
def NoMix (a b : Ty) : Prop := ∀ m n, a = .int m → b = .int n → m = n ∨ plain m ∧ plain n

/-- A struct and an enum do not share a name. -/
def Apart (a b : Ty) : Prop := ∀ s t, (a = .struct s ∧ b = .enum t) ∨ (a = .enum s ∧ b = .struct t) → s ≠ t

theorem sameStruct_eq {W : World} (hi : Function.Injective W.structDisplay) {s t : Name} (h : sameStruct W s t = true) : s = t := by
  simp only [sameStruct, Bool.decide_or, Bool.or_eq_true, decide_eq_true_eq] at h
  exact h.elim id fun h => hi h

theorem sameEnum_eq {W : World} (hi : Function.Injective W.enumDisplay) {s t : Name} (h : sameEnum W s t = true) : s = t := by
  simp only [sameEnum, Bool.decide_or, Bool.or_eq_true, decide_eq_true_eq] at h
  exact h.elim id fun h => hi h

theorem sameElem_eq {W : World} (hi : Function.Injective W.structDisplay) {a b : Ty} (ha : Apart a b) (h : sameElem W a b = true) : a = b := by
  unfold sameElem at h
  rw [Bool.or_eq_true] at h
  rcases h with h | h
  · exact of_decide_eq_true h
  · cases a <;> cases b <;> first | (cases h; done) | skip
    · exact congrArg _ (sameStruct_eq hi h)
    · exact absurd (sameStruct_eq hi h) (ha _ _ (Or.inl ⟨rfl, rfl⟩))
    · exact absurd (sameStruct_eq hi h) (ha _ _ (Or.inr ⟨rfl, rfl⟩))
    · exact congrArg _ (sameStruct_eq hi h)

theorem isInt_of {a : Ty} (h : isInt (elemKind a) = true) : ∃ n, a = .int n := by
  cases a <;> first | exact ⟨_, rfl⟩ | (cases h; done)

theorem float_of {a : Ty} (h : elemKind a = .float) : ∃ n, a = .float n := by
  cases a <;> first | exact ⟨_, rfl⟩ | (cases h; done) | (rename_i n; cases n <;> cases h)

theorem ints_of {a b : Ty} (h : (isInt (elemKind a) && isInt (elemKind b)) = true) : ∃ m n, a = .int m ∧ b = .int n := by
  rw [Bool.and_eq_true] at h
  obtain ⟨m, hm⟩ := isInt_of h.1
  obtain ⟨n, hn⟩ := isInt_of h.2
  exact ⟨m, n, hm, hn⟩

theorem elemC_plain (W : World) {n : IntName} (h : plain n = true) : elemC W (.int n) = .int 8 true := by
  cases n <;> first | rfl | cases h

theorem mapC_plain (W : World) {n : IntName} (h : plain n = true) : mapC W (.int n) = .int 8 true := by
  cases n <;> first | rfl | cases h

theorem ints_agree (W : World) {a b : Ty} (hm : NoMix a b) (h : (isInt (elemKind a) && isInt (elemKind b)) = true) :
    elemC W a = elemC W b ∧ mapC W a = mapC W b ∧ Agree W a b := by
  obtain ⟨m, n, rfl, rfl⟩ := ints_of h
  rcases hm m n rfl rfl with rfl | ⟨h1, h2⟩
  · exact ⟨rfl, rfl, trivial⟩
  · exact ⟨by rw [elemC_plain W h1, elemC_plain W h2], by rw [mapC_plain W h1, mapC_plain W h2], trivial⟩

theorem floats_agree (W : World) {a b : Ty} (h1 : elemKind a = .float) (h2 : elemKind b = .float) : mapC W a = mapC W b := by
  obtain ⟨m, rfl⟩ := float_of h1
  obtain ⟨n, rfl⟩ := float_of h2
  rfl

theorem apart_symm {a b : Ty} (h : Apart a b) : Apart b a := fun s t hst hc => by
  rcases hst with ⟨rfl, rfl⟩ | ⟨rfl, rfl⟩
  · exact h t s (Or.inr ⟨rfl, rfl⟩) hc.symm
  · exact h t s (Or.inl ⟨rfl, rfl⟩) hc.symm

theorem accept_arr {W : World} {p : Place} {d v : Ty} (h : accept W p d v = true) : arrOk W p d v = true := by
  simp only [accept, Bool.and_eq_true] at h; exact h.1.2

theorem accept_map {W : World} {p : Place} {d v : Ty} (h : accept W p d v = true) : mapOk p d v = true := by
  simp only [accept, Bool.and_eq_true] at h; exact h.2

theorem accept_name {W : World} {p : Place} {d v : Ty} (h : accept W p d v = true) : nameOk W p d v = true := by
  simp only [accept, Bool.and_eq_true] at h; exact h.1.1.2

theorem accept_kind {W : World} {p : Place} {d v : Ty} (h : accept W p d v = true) : kindOk W p d v = true := by
  simp only [accept, Bool.and_eq_true] at h; exact h.1.1.1

/-- One of the places at which elements are compared. -/
def compares : Place → Bool
  | .decl _ | .arg | .ret => true
  | _ => false

end Acc

open Acc

/-- C234, the claim: an array or a map that is accepted for a place has its elements, at all levels, at the C types at which
the place reads them. -/
def C234_statement : Prop := ∀ (W : World) (p : Place) (d v : Ty), p ≠ .decl true → accept W p d v = true → Agree W d v

/-- C234: it holds for arrays and maps as arguments and first values of `return`, if different structs have different names, no struct
shares the name of an enum, and `byte` and wide integers are not mixed with other integers. -/
theorem C234_call_partial (W : World) (hi : Function.Injective W.structDisplay) (p : Place) (hp : p = .arg ∨ p = .ret) (d v : Ty)
    (hm : ∀ a b, d = .arr a → v = .arr b → NoMix a b ∧ Apart a b) (h : accept W p d v = true) : Agree W d v := by
  cases d with
  | arr a =>
    cases v with
    | arr b =>
      obtain ⟨h1, h2⟩ := hm a b rfl rfl
      have hk : (sameElem W b a || (isInt (elemKind a) && isInt (elemKind b))) = true := by
        rcases hp with rfl | rfl <;> exact accept_arr h
      rw [Bool.or_eq_true] at hk
      rcases hk with hk | hk
      · rw [sameElem_eq hi (apart_symm h2) hk]; exact ⟨rfl, agree_refl W a⟩
      · obtain ⟨e1, -, e3⟩ := ints_agree W h1 hk
        exact ⟨e1, e3⟩
    | _ => exact trivial
  | map k e =>
    cases v with
    | map k' e' =>
      have hk : (decide (k = k') && decide (e = e')) = true := by rcases hp with rfl | rfl <;> exact accept_map h
      rw [Bool.and_eq_true, decide_eq_true_eq, decide_eq_true_eq] at hk
      obtain ⟨rfl, rfl⟩ := hk
      exact ⟨rfl, rfl, agree_refl W e⟩
    | _ => exact trivial
  | _ => exact trivial

/-- C234: it holds for declarations under the same conditions, if moreover integers are not taken for floats, structs not for integers,
and the elements are not functions. -/
theorem C234_decl_partial (W : World) (hi : Function.Injective W.structDisplay) (d v : Ty)
    (hm : ∀ a b, d = .arr a → v = .arr b → NoMix a b ∧ Apart a b ∧ kind a ≠ .function ∧ (isInt (elemKind a) → elemKind b ≠ .struct) ∧
      (elemKind a = .float → isInt (elemKind b) = false))
    (hk : ∀ k e k' e', d = .map k e → v = .map k' e' → NoMix k k' ∧ NoMix e e' ∧ (elemKind k = .float → isInt (elemKind k') = false))
    (h : accept W (.decl false) d v = true) : Agree W d v := by
  cases d with
  | arr a =>
    cases v with
    | arr b =>
      obtain ⟨h1, h2, h3, h4, h5⟩ := hm a b rfl rfl
      have hk := accept_arr h
      simp only [arrOk, Bool.or_eq_true] at hk
      rcases hk with (((hk | hk) | hk) | hk) | hk
      · rw [sameElem_eq hi h2 hk]; exact ⟨rfl, agree_refl W b⟩
      · cases a <;> first | (cases hk; done) | exact absurd rfl h3
      · obtain ⟨e1, -, e3⟩ := ints_agree W h1 hk
        exact ⟨e1, e3⟩
      · rw [Bool.and_eq_true, decide_eq_true_eq] at hk
        exact absurd hk.2 (h4 hk.1)
      · rw [Bool.and_eq_true, decide_eq_true_eq] at hk
        rw [h5 hk.1] at hk
        cases hk.2
    | _ => exact trivial
  | map k e =>
    cases v with
    | map k' e' =>
      obtain ⟨h1, h2, h3⟩ := hk k e k' e' rfl rfl
      have hx := accept_map h
      simp only [mapOk, Bool.and_eq_true, Bool.or_eq_true, Bool.false_and, Bool.false_eq_true, or_false, decide_eq_true_eq] at hx
      obtain ⟨hkk, hvv⟩ := hx
      have e1 : mapC W k = mapC W k' := by
        rcases hkk with ((rfl | hkk) | hkk) | hkk
        · rfl
        · exact (ints_agree W h1 (by rw [Bool.and_eq_true]; exact hkk)).2.1
        · exact floats_agree W hkk.1 hkk.2
        · rw [h3 hkk.1] at hkk; cases hkk.2
      rcases hvv with rfl | hvv
      · exact ⟨e1, rfl, agree_refl W e⟩
      · obtain ⟨-, e2, e3⟩ := ints_agree W h2 (by rw [Bool.and_eq_true]; exact hvv)
        exact ⟨e1, e2, e3⟩
    | _ => exact trivial
  | _ => exact trivial

/-- C234: in assignments, fields, elements and values of `return` after the first, any array is accepted for any array, and any map for
any map. -/
theorem C234_unchecked (W : World) (p : Place) (hp : compares p = false) (a b c e : Ty) :
    accept W p (.arr a) (.arr b) = true ∧ accept W p (.map a b) (.map c e) = true := by
  cases p <;> first | (cases hp; done) | exact ⟨rfl, rfl⟩

/-- C234: `[int]` with an array of bytes, in declarations, arguments and returns. -/
theorem C234_witness_byte (W : World) (p : Place) (hp : compares p = true) :
    accept W p (.arr (.int .int)) (.arr (.int .byte)) = true ∧ accept W p (.arr (.int .byte)) (.arr (.int .int)) = true ∧
      elemC W (.int .int) ≠ elemC W (.int .byte) := by
  have h : sameElem W (.int .byte) (.int .int) = false ∧ sameElem W (.int .int) (.int .byte) = false := ⟨rfl, rfl⟩
  refine ⟨?_, ?_, by simp [elemC]⟩ <;> cases p <;> first | (cases hp; done) | rfl

/-- C234: `mut xs [int] = {1, 2}` and `mut ys [float] = xs`. -/
theorem C234_witness_float (W : World) : accept W (.decl false) (.arr (.float .float)) (.arr (.int .int)) = true ∧
    elemC W (.float .float) ≠ elemC W (.int .int) := ⟨rfl, by simp [elemC]⟩

/-- C234: an array of structs for an array of integers. -/
theorem C234_witness_struct (W : World) (s : Name) : accept W (.decl false) (.arr (.int .int)) (.arr (.struct s)) = true ∧
    elemC W (.int .int) ≠ elemC W (.struct s) := ⟨rfl, by simp [elemC, cTy]⟩

theorem C234_fails : ¬ C234_statement := fun h => by
  have := h {} .assign (.arr .string) (.arr (.int .int)) (by simp) (C234_unchecked {} .assign rfl _ _ .bool .bool).1
  exact absurd this.1 (by simp [elemC, cTy])

/-! ### C235 -/

namespace Acc

def arith : CTy → Bool
  | .int _ _ | .float _ | .bool => true
  | _ => false

/-- C takes a value of the second type for a variable of the first: C11 6.5.16.1. -/
def CAssign (d v : CTy) : Prop :=
  (arith d = true ∧ arith v = true) ∨ d = v ∨ (d = .voidPtr ∧ ((∃ t, v = .ptr t) ∨ v = .errorPtr)) ∨ (v = .voidPtr ∧ ((∃ t, d = .ptr t) ∨ d = .errorPtr))

def wide : Ty → Bool
  | .int .i128 | .int .i256 | .int .u128 | .int .u256 => true
  | _ => false

/-- The places of which kinds and names are both checked. -/
def checked : Place → Bool
  | .elem | .ret2 | .deep => false
  | _ => true

theorem arith_int (W : World) {n : IntName} (h : wide (.int n) = false) : arith (cTy W (.int n)) = true := by
  cases n <;> first | rfl | cases h

theorem arith_enum {W : World} (hs : ∀ e, W.stringEnum e = false) (e : Name) : arith (cTy W (.enum e)) = true := by
  simp [cTy, hs e, arith]

theorem arith_float (W : World) (n : FloatName) : arith (cTy W (.float n)) = true := by cases n <;> rfl

end Acc

/-- C235, the claim: if the checker takes a value for a place, C takes its C type for that of the place. -/
def C235_statement : Prop := ∀ (W : World) (p : Place) (d v : Ty), wide d = false → wide v = false → accept W p d v = true → CAssign (cTy W d) (cTy W v)

/-- C235: it holds in declarations, assignments, arguments, first values of `return`, and fields, if no enum holds strings, different
structs have different names, a struct is only given for a struct, and `nil` only for a pointer or an error. -/
theorem C235_partial (W : World) (hs : ∀ e, W.stringEnum e = false) (hi : Function.Injective W.structDisplay) (p : Place)
    (hp : checked p = true) (d v : Ty) (hd : wide d = false) (hv : wide v = false) (hst : kind d = .struct ↔ kind v = .struct)
    (hal : ∀ s t, d = .struct s → v = .struct t → structAlias s t = false)
    (hnil : v = .nil → d = .nil ∨ kind d = .pointer ∨ kind d = .error) (h : accept W p d v = true) : CAssign (cTy W d) (cTy W v) := by
  have hk := accept_kind h
  have hn := accept_name h
  cases d <;> cases v <;>
    first
    | exact Or.inr (Or.inl rfl)
    | (refine Or.inl ⟨?_, ?_⟩ <;> first | exact arith_int W hd | exact arith_int W hv | exact arith_enum hs _ | exact arith_float W _ | rfl)
    | (exact Or.inr (Or.inr (Or.inr ⟨rfl, Or.inl ⟨_, rfl⟩⟩)))
    | (exact Or.inr (Or.inr (Or.inr ⟨rfl, Or.inr rfl⟩)))
    | (exfalso; have := hnil rfl; simp [kind] at this; done)
    | (exfalso; have := hst.1 rfl; simp [kind] at this; done)
    | (exfalso; have := hst.2 rfl; simp [kind] at this; done)
    | (exfalso; cases p <;> first | (cases hp; done) | (simp [kindOk, kind, isInt, intMix, enumToInt, intToFloat, nilable, hs] at hk; done))
    | (exfalso; rename_i n; cases n <;> first
        | (have := hnil rfl; simp [kind, intKind] at this; done)
        | (have := hst.2 rfl; simp [kind, intKind] at this; done)
        | (have := hst.1 rfl; simp [kind, intKind] at this; done)
        | (cases p <;> first | (cases hp; done) | (simp [kindOk, kind, intKind, isInt, intMix, enumToInt, intToFloat, nilable, hs] at hk; done)))
    | (exfalso; rename_i n m; cases n <;> first
        | (have := hst.1 rfl; simp [kind, intKind] at this; done)
        | (have := hst.2 rfl; simp [kind, intKind] at this; done)
        | (cases p <;> first | (cases hp; done) | (simp [kindOk, kind, intKind, isInt, intMix, enumToInt, intToFloat, nilable, hs] at hk; done)))
    | (exfalso; rename_i n k v; cases n <;> (cases p <;> first | (cases hp; done) | (simp [kindOk, kind, intKind, isInt, intMix, enumToInt, intToFloat, nilable, hs] at hk; done)))
    | (exfalso; rename_i k v n; cases n <;> (cases p <;> first | (cases hp; done) | (simp [kindOk, kind, intKind, isInt, intMix, enumToInt, intToFloat, nilable, hs] at hk; done)))
    | (exfalso; rename_i m n; cases n <;> first
        | (have := hst.2 rfl; simp [kind, intKind] at this; done)
        | (cases p <;> first | (cases hp; done) | (simp [kindOk, kind, intKind, isInt, intMix, enumToInt, intToFloat, nilable, hs] at hk; done)))
    | skip
  · rename_i s t
    have : s = t := by
      cases p <;> first | (cases hp; done) | skip
      · have hn' : (decide (s = t) || structAlias s t) = true := hn
        rw [hal s t rfl rfl, Bool.or_false] at hn'
        exact of_decide_eq_true hn'
      · exact of_decide_eq_true hn
      · exact (sameStruct_eq hi hn).symm
      · exact of_decide_eq_true hn
      · exact of_decide_eq_true hn
      · exact of_decide_eq_true hn
    subst this
    exact Or.inr (Or.inl rfl)
  · rename_i a b
    have : a = b := by
      cases p <;> first | (cases hp; done) | exact of_decide_eq_true hn | skip
      simp only [nameOk, Bool.or_eq_true, decide_eq_true_eq] at hn
      rcases hn with hn | hn
      · exact hn
      · cases a <;> cases b <;> first | (cases hn; done) | exact congrArg _ (sameStruct_eq hi hn).symm
    subst this
    exact Or.inr (Or.inl rfl)

/-- C235: an integer is accepted for a struct in assignments, arguments and struct literals. -/
theorem C235_witness_struct (W : World) (s : Name) (p : Place) (hp : p = .assign ∨ p = .arg ∨ p = .field) :
    accept W p (.struct s) (.int .int) = true ∧ ¬ CAssign (cTy W (.struct s)) (cTy W (.int .int)) := by
  refine ⟨?_, ?_⟩
  · rcases hp with rfl | rfl | rfl <;> rfl
  · rintro (h | h | h | h) <;> simp [cTy, cInt, arith] at h

/-- C235: a struct is accepted for an integer field of a struct literal. -/
theorem C235_witness_field (W : World) (s : Name) : accept W .field (.int .int) (.struct s) = true ∧ ¬ CAssign (cTy W (.int .int)) (cTy W (.struct s)) := by
  refine ⟨rfl, ?_⟩
  rintro (h | h | h | h) <;> simp [cTy, cInt, arith] at h

/-- C235: `return nil` is accepted for every type of result. -/
theorem C235_witness_nil (W : World) (d : Ty) : accept W .ret d .nil = true := by
  have : kindOk W .ret d .nil = true := by simp [kindOk, kind]
  unfold accept
  rw [this]
  cases d <;> rfl

/-- C235: an enum of strings is accepted for an integer in all places. -/
theorem C235_witness_enum (W : World) (e : Name) (he : W.stringEnum e = true) (p : Place) :
    accept W p (.int .int) (.enum e) = true ∧ ¬ CAssign (cTy W (.int .int)) (cTy W (.enum e)) := by
  refine ⟨by cases p <;> rfl, ?_⟩
  rintro (h | h | h | h) <;> simp [cTy, cInt, arith, he] at h

/-- C235: the second value of a `return` and the value for an entry of a map may have any type. -/
theorem C235_unchecked (W : World) (p : Place) (hp : p = .ret2 ∨ p = .deep) (d v : Ty) : accept W p d v = true := by
  rcases hp with rfl | rfl <;> cases d <;> cases v <;> rfl

/-- C235: two structs with one display name, as in two modules with a struct `Point` each, are one type for arguments. -/
theorem C235_witness_display (W : World) (s t : Name) (h : W.structDisplay s = W.structDisplay t) (hne : s ≠ t) :
    accept W .arg (.struct s) (.struct t) = true ∧ ¬ CAssign (cTy W (.struct s)) (cTy W (.struct t)) := by
  refine ⟨?_, ?_⟩
  · simp [accept, kindOk, nameOk, arrOk, mapOk, sameStruct, h, kind]
  · rintro (h | h | h | h) <;> simp [cTy, arith, hne] at h

theorem C235_fails : ¬ C235_statement := fun h => (C235_witness_field {} []).2 (h {} .field _ _ rfl rfl (C235_witness_field {} []).1)

/-- The rules do refuse: a string for an integer, in all places where kinds are compared. -/
example (W : World) (p : Place) (hp : checked p = true) : accept W p (.int .int) .string = false := by cases p <;> first | (cases hp; done) | rfl
example : accept {} .arg (.arr (.int .int)) (.arr .string) = false ∧ accept {} .arg (.arr (.int .int)) (.arr (.int .i8)) = true := by decide
example : Agree {} (.arr (.int .int)) (.arr (.int .u8)) := ⟨rfl, trivial⟩
example : accept {} .assign (.ptr (.int .int)) .nil = true ∧ CAssign (cTy {} (.ptr (.int .int))) (cTy {} .nil) :=
  ⟨rfl, Or.inr (Or.inr (Or.inr ⟨rfl, Or.inl ⟨_, rfl⟩⟩))⟩

end Verif.Props

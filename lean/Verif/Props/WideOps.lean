import Verif.Model.WideOps
/-!
C224–C227: wide integers in expressions.
-/
namespace Verif.Props
open Verif.WideOps
namespace Wo

/-- What the checker, the compiler's list and the C declarations know of the variables is the same. -/
def Agree (Γ : Name → Ty) (R : Reg) (Δ : Name → CTy) : Prop :=
  ∀ x, Δ x = (Γ x).c ∧ lookup R x = match Γ x with
    | .wide w => some w
    | _ => none

theorem Agree.wide {Γ R Δ} (h : Agree Γ R Δ) {x w} (hx : Γ x = .wide w) : lookup R x = some w ∧ Δ x = .wide w := by
  have := h x
  rw [hx] at this
  exact ⟨this.2, this.1⟩

theorem Agree.of_lookup {Γ R Δ} (h : Agree Γ R Δ) {x w} (hx : lookup R x = some w) : Γ x = .wide w := by
  have h2 := (h x).2
  rw [hx] at h2
  cases e : Γ x <;> simp only [e] at h2 <;> cases h2
  rfl

theorem Agree.narrow {Γ R Δ} (h : Agree Γ R Δ) {x} (hx : lookup R x = none) : (Γ x).c = .scalar ∧ Δ x = .scalar := by
  have h2 := (h x).2
  have h1 := (h x).1
  rw [hx] at h2
  cases e : Γ x <;> simp only [e] at h2 h1 <;> first | (cases h2; done) | exact ⟨rfl, h1⟩

theorem Agree.cons {Γ R Δ} (h : Agree Γ R Δ) {x w} (hx : Γ x = .wide w) : Agree Γ ((x, w) :: R) Δ := by
  intro y
  refine ⟨(h y).1, ?_⟩
  by_cases e : x = y
  · subst e
    simp only [lookup, if_true, hx]
  · simp only [lookup, if_neg e]
    exact (h y).2

/-! ### Which expressions are fine -/

section
variable (Γ : Name → Ty)

/-- Expressions without wide integers. -/
inductive Narrow : Expr → Prop
  | lit (n) : Narrow (.lit n)
  | var (x) : Γ x = .int ∨ Γ x = .uint ∨ Γ x = .bool → Narrow (.var x)
  | other (t k) : t.c = .scalar → Narrow (.other t k)
  | deref (t k) : t.c = .scalar → Narrow (.deref t k)
  | neg (e) : Narrow e → Narrow (.neg e)
  | bin (op l r) : Narrow l → Narrow r → Narrow (.bin op l r)

mutual
/-- Expressions the compiler knows to be of a wide type. -/
inductive Known : W → Expr → Prop
  | var {w x} : Γ x = .wide w → Known w (.var x)
  | deref {w k} : Known w (.deref (.wide w) k)
  | ctor {w e} : Narrow Γ e → Known w (.ctor w e)
  | ctorWide {w} (v) {e} : hasConv w v = true → Known v e → Known w (.ctor w e)
  | cast {w e} : Narrow Γ e → Known w (.cast w e)
  | neg {w e} : w.signed = true → Known w e → Known w (.neg e)
  | left {w op l r} : op.arith = true → Known w l → Operand w r → Known w (.bin op l r)
  | right {w op l r} : op.arith = true → Simple w l → Known w r → Known w (.bin op l r)
/-- Operands that have to be converted or that the compiler does not know to be wide. -/
inductive Simple : W → Expr → Prop
  | lit {w n} : Simple w (.lit n)
  | neg {w n} : w.signed = true → Simple w (.neg (.lit n))
  | int {w x} : w.signed = true → Γ x = .int → Simple w (.var x)
  | uint {w x} : w.signed = false → Γ x = .uint → Simple w (.var x)
  | other {w k} : Simple w (.other (.wide w) k)
/-- What may stand beside an expression of a wide type. -/
inductive Operand : W → Expr → Prop
  | known {w e} : Known w e → Operand w e
  | simple {w e} : Simple w e → Operand w e
end

end

section
variable {Γ : Name → Ty} {R : Reg} {Δ : Name → CTy}

theorem narrow_resolve (ha : Agree Γ R Δ) {e} (h : Narrow Γ e) : resolve R e = none := by
  induction h with
  | lit n => rfl
  | var x hx =>
    have := (ha x).2
    rcases hx with hx | hx | hx <;> simp only [hx] at this <;> exact this
  | other t k ht => rfl
  | deref t k ht => cases t <;> first | rfl | cases ht
  | neg e _ ih => exact ih
  | bin op l r _ _ ihl ihr => simp only [resolve, ihl, ihr]

theorem narrow_ctype (ha : Agree Γ R Δ) {e} (h : Narrow Γ e) : ctype Δ (emit Γ R e) = some .scalar := by
  induction h with
  | lit n => rfl
  | var x hx =>
    have := (ha x).1
    rcases hx with hx | hx | hx <;> simp only [hx] at this <;> simp only [emit, ctype, this, Ty.c]
  | other t k ht => simp only [emit, ctype, ht]
  | deref t k ht => simp only [emit, ctype, ht]
  | neg e he ih =>
    simp only [emit, narrow_resolve ha he, ctype, ih, if_true]
  | bin op l r hl hr ihl ihr =>
    simp only [emit, narrow_resolve ha hl, narrow_resolve ha hr]
    cases op.hasFn <;> simp [ctype, ihl, ihr]

theorem narrow_typeOf {e t} (h : Narrow Γ e) (ht : typeOf Γ e = some t) : t.c = .scalar := by
  induction h generalizing t with
  | lit n => cases ht; rfl
  | var x hx =>
    cases ht
    rcases hx with hx | hx | hx <;> rw [hx] <;> rfl
  | other t' k h' => cases ht; exact h'
  | deref t' k h' => cases ht; exact h'
  | neg e he ih =>
    simp only [typeOf] at ht
    split at ht
    · cases ht; rfl
    · rename_i w hw
      have := ih hw
      cases this
    · cases ht
  | bin op l r hl hr ihl ihr =>
    simp only [typeOf] at ht
    split at ht
    · rename_i a b ea eb
      by_cases c1 : refuses op a b = true
      · rw [if_pos c1] at ht; cases ht
      · rw [if_neg c1] at ht
        by_cases c2 : ((decide (op = .div) || decide (op = .mod)) && decide (r = .lit 0)) = true
        · rw [if_pos c2] at ht; cases ht
        · rw [if_neg c2] at ht
          by_cases c3 : op.cmp = true
          · rw [if_pos c3] at ht; cases ht; rfl
          · rw [if_neg c3] at ht; cases ht; exact ihl ea
    · cases ht

theorem narrow_castSource (ha : Agree Γ R Δ) {e} (h : Narrow Γ e) : castSource Γ R e = none := by
  unfold castSource
  cases ht : typeOf Γ e with
  | none => exact narrow_resolve ha h
  | some t =>
    have := narrow_typeOf h ht
    cases t with
    | wide w => cases this
    | _ => exact narrow_resolve ha h

theorem hasFn_of_arith {op : Op} (h : op.arith = true) : op.hasFn = true := by
  unfold Op.hasFn; rw [h]; rfl

theorem cmp_of_arith {op : Op} (h : op.arith = true) : op.cmp = false := by
  cases op <;> first | rfl | cases h

/-- An operand that is not known to be wide. -/
theorem simple_operand (ha : Agree Γ R Δ) {w e} (h : Simple Γ w e) (t : Option Ty)
    (ht : t = none ∨ t = typeOf Γ e) :
    ctype Δ (operand R w e t (emit Γ R e)) = some (.wide w) ∧
    (resolve R e = none) := by
  cases h with
  | @lit _ n =>
    refine ⟨?_, rfl⟩
    unfold operand
    by_cases c : n < 2 ^ 63
    · simp only [if_pos c, ctype, and_self, if_true]
    · simp only [if_neg c, ctype]
  | @neg _ n hs =>
    refine ⟨?_, rfl⟩
    unfold operand
    by_cases c : n < 2 ^ 63
    · simp [if_pos c, ctype, hs]
    · simp only [if_neg c, ctype]
  | @int _ x hs hx =>
    have h2 := (ha x).2
    have h1 := (ha x).1
    simp only [hx, Ty.c] at h2 h1
    refine ⟨?_, h2⟩
    unfold operand
    simp only [h2]
    rcases ht with rfl | rfl
    · simp [ctype, emit, h1]
    · simp [ctype, emit, h1, typeOf, hx, hs]
  | @uint _ x hs hx =>
    have h2 := (ha x).2
    have h1 := (ha x).1
    simp only [hx, Ty.c] at h2 h1
    refine ⟨?_, h2⟩
    unfold operand
    simp only [h2]
    rcases ht with rfl | rfl
    · simp [ctype, emit, h1]
    · simp [ctype, emit, h1, typeOf, hx, hs]
  | other => exact ⟨by simp [operand, emit, ctype, Ty.c], rfl⟩

/-- An expression that is emitted as it is. -/
theorem operand_known (ha : Agree Γ R Δ) {w e} (h : Known Γ w e) (t : Option Ty) :
    operand R w e t (emit Γ R e) = emit Γ R e := by
  cases h with
  | var hx =>
    unfold operand
    simp only [(ha.wide hx).1, if_true]
  | neg hs he =>
    cases he <;> rfl
  | _ => rfl

theorem known_ok (ha : Agree Γ R Δ) : ∀ {w e}, Known Γ w e →
    resolve R e = some w ∧ ctype Δ (emit Γ R e) = some (.wide w) := by
  intro w e
  induction e generalizing w with
  | lit n => intro h; cases h
  | var x => intro h; cases h with
    | var hx => exact ⟨(ha.wide hx).1, by simp only [emit, ctype, (ha.wide hx).2]⟩
  | other t k => intro h; cases h
  | deref t k => intro h; cases h with
    | deref => exact ⟨rfl, rfl⟩
  | ctor v e ih => intro h; cases h with
    | ctor hn =>
      refine ⟨rfl, ?_⟩
      simp only [emit, narrow_resolve ha hn, ctype, narrow_ctype ha hn, and_self, if_true]
    | ctorWide v hc hk =>
      obtain ⟨h1, h2⟩ := ih hk
      refine ⟨rfl, ?_⟩
      simp only [emit, h1, ctype, h2, hc, and_self, if_true]
  | cast v e ih => intro h; cases h with
    | cast hn =>
      refine ⟨rfl, ?_⟩
      simp only [emit, narrow_castSource ha hn, ctype, narrow_ctype ha hn, and_self, if_true]
  | neg e ih => intro h; cases h with
    | neg hs hk =>
      obtain ⟨h1, h2⟩ := ih hk
      refine ⟨h1, ?_⟩
      simp only [emit, h1, hs, if_true, ctype, h2, and_self]
  | bin op l r ihl ihr => intro h; cases h with
    | left ho hl hr =>
      obtain ⟨h1, h2⟩ := ihl hl
      refine ⟨by simp only [resolve, h1], ?_⟩
      have e2 : ctype Δ (operand R w r (typeOf Γ r) (emit Γ R r)) = some (.wide w) := by
        cases hr with
        | known hr => rw [operand_known ha hr]; exact (ihr hr).2
        | simple hr => exact (simple_operand ha hr _ (.inr rfl)).1
      simp only [emit, hasFn_of_arith ho, if_true, h1, ctype, operand_known ha hl, h2, e2, and_self,
        cmp_of_arith ho, Bool.false_eq_true, if_false]
    | right ho hl hr =>
      obtain ⟨h1, h2⟩ := ihr hr
      have h3 := simple_operand ha hl (typeOf Γ l) (.inr rfl)
      refine ⟨by simp only [resolve, h3.2, h1], ?_⟩
      simp only [emit, hasFn_of_arith ho, if_true, h1, h3.2, ctype, operand_known ha hr, h2, h3.1, and_self,
        cmp_of_arith ho, Bool.false_eq_true, if_false]

theorem operand_ok (ha : Agree Γ R Δ) {w e} (h : Operand Γ w e) (t : Option Ty)
    (ht : t = none ∨ t = typeOf Γ e) :
    ctype Δ (operand R w e t (emit Γ R e)) = some (.wide w) := by
  cases h with
  | known h => rw [operand_known ha h]; exact (known_ok ha h).2
  | simple h => exact (simple_operand ha h t ht).1

end

/-- Statements whose values are fine. -/
inductive Fine (Γ : Name → Ty) : Stmt → Prop
  | lit (x w n) : Γ x = .wide w → Fine Γ (.decl x w (.lit n))
  | negLit (x w n) : Γ x = .wide w → w.signed = true → Fine Γ (.decl x w (.neg (.lit n)))
  | declOp (x w op l r) : Γ x = .wide w → op.arith = true → Operand Γ w l → Operand Γ w r →
      Fine Γ (.decl x w (.bin op l r))
  | decl (x w e) : Γ x = .wide w → Known Γ w e → Fine Γ (.decl x w e)
  | declNarrow (x w y) : Γ x = .wide w → Γ y = .int ∨ Γ y = .uint → Fine Γ (.decl x w (.var y))
  | assign (x w e) : Γ x = .wide w → Known Γ w e → Fine Γ (.assign x w e)
  | compound (op x w e) : op.arith = true → Γ x = .wide w → Operand Γ w e → Fine Γ (.compound op x w e)

theorem fine_ok {Γ R Δ} (ha : Agree Γ R Δ) {s} (h : Fine Γ s) : validC Γ R Δ s := by
  cases h with
  | lit x w n hx =>
    unfold validC stored declValue Stmt.wide
    by_cases c : n < 2 ^ 63
    · simp only [if_pos c, ctype, and_self, if_true]
    · simp only [if_neg c, ctype]
  | negLit x w n hx hs =>
    unfold validC stored declValue Stmt.wide
    by_cases c : n < 2 ^ 63
    · simp [if_pos c, ctype, hs]
    · simp only [if_neg c, ctype]
  | declOp x w op l r hx ho hl hr =>
    have ha' := ha.cons hx
    unfold validC stored declValue Stmt.wide
    simp only [ho, if_true, ctype, operand_ok ha' hl none (.inl rfl), operand_ok ha' hr none (.inl rfl),
      hasFn_of_arith ho, and_self, cmp_of_arith ho, Bool.false_eq_true, if_false]
  | decl x w e hx hk =>
    have ha' := ha.cons hx
    obtain ⟨h1, h2⟩ := known_ok ha' hk
    unfold validC stored Stmt.wide
    cases hk with
    | neg hs he =>
      unfold declValue
      cases he <;> (simp only []; rw [if_neg (by rw [h1]; simp)]; exact h2)
    | left ho hl hr =>
      have e1 := operand_ok ha' (Operand.known hl) none (.inl rfl)
      have e2 := operand_ok ha' hr none (.inl rfl)
      simp only [declValue, ho, if_true, ctype, e1, e2, hasFn_of_arith ho, and_self, cmp_of_arith ho,
        Bool.false_eq_true, if_false]
    | right ho hl hr =>
      have e1 := operand_ok ha' (Operand.simple hl) none (.inl rfl)
      have e2 := operand_ok ha' (Operand.known hr) none (.inl rfl)
      simp only [declValue, ho, if_true, ctype, e1, e2, hasFn_of_arith ho, and_self, cmp_of_arith ho,
        Bool.false_eq_true, if_false]
    | _ =>
      unfold declValue
      simp only []
      rw [if_neg (by rw [h1]; simp)]
      exact h2
  | declNarrow x w y hx hy =>
    have ha' := ha.cons hx
    have hn : Narrow Γ (.var y) := .var y (by rcases hy with h | h; exact .inl h; exact .inr (.inl h))
    unfold validC stored declValue Stmt.wide
    simp only [narrow_resolve ha' hn, if_true, ctype, narrow_ctype ha' hn, and_self]
  | assign x w e hx hk => exact (known_ok ha hk).2
  | compound op x w e ho hx he =>
    unfold validC stored Stmt.wide
    simp only [ctype, operand_ok ha he none (.inl rfl), (ha.wide hx).2, hasFn_of_arith ho, and_self, if_true,
      cmp_of_arith ho, Bool.false_eq_true, if_false]

end Wo

open Wo

/-- C224: every statement on wide integers that the type checker accepts is emitted as valid C. -/
def C224_statement : Prop :=
  ∀ (Γ : Name → Ty) (R : Reg) (Δ : Name → CTy) (s : Stmt), Agree Γ R Δ → accepts Γ s = true → validC Γ R Δ s

namespace Wo

/-- Variables 0, 1: `i128`; 2: `i256`; 3: `u128`; 4: `int`; 5: `uint`. -/
def Γ0 : Name → Ty
  | 0 | 1 => .wide .i128
  | 2 => .wide .i256
  | 3 => .wide .u128
  | 5 => .uint
  | _ => .int

def R0 : Reg := [(0, .i128), (1, .i128), (2, .i256), (3, .u128)]

theorem agree0 : Agree Γ0 R0 (fun x => (Γ0 x).c) := by
  intro x
  refine ⟨rfl, ?_⟩
  match x with
  | 0 | 1 | 2 | 3 | 4 | 5 => rfl
  | x + 6 =>
    show lookup R0 (x + 6) = none
    simp [R0, lookup]

end Wo

/-- `a = 5` for an `i128`; `mut w i256 = a`; `mut x i128 = a + (1 + 2)`; `mut x i128 = s.f + (s.f - s.f)`;
`mut x u128 = -5`; `a = a + u` with a `uint`; `mut x i128 = i128(a)`; `a = s.f + s.f`. -/
def C224_witness : List Stmt :=
  [ .assign 0 .i128 (.lit 5),
    .decl 2 .i256 (.var 0),
    .decl 0 .i128 (.bin .add (.var 1) (.bin .add (.lit 1) (.lit 2))),
    .decl 0 .i128 (.bin .add (.other (.wide .i128) 0) (.bin .sub (.other (.wide .i128) 1) (.other (.wide .i128) 2))),
    .decl 3 .u128 (.neg (.lit 5)),
    .assign 0 .i128 (.bin .add (.var 0) (.var 5)),
    .decl 0 .i128 (.ctor .i128 (.var 1)),
    .assign 0 .i128 (.bin .add (.other (.wide .i128) 0) (.other (.wide .i128) 1)) ]

theorem C224_witness_all : ∀ s ∈ C224_witness,
    accepts Γ0 s = true ∧ ¬ validC Γ0 R0 (fun x => (Γ0 x).c) s := by decide

/-- C224: the conversions between wide types that the runtime has: between the signs of 128 bits, and between the sizes of one sign. -/
theorem C224_conversions (w v : W) : hasConv w v = true ↔
    (w, v) ∈ [(W.u128, W.i128), (.i128, .u128), (.i256, .i128), (.u256, .u128), (.i128, .i256), (.u128, .u256)] := by
  cases w <;> cases v <;> decide

theorem C224_fails : ¬ C224_statement := by
  intro h
  have w := C224_witness_all (.assign 0 .i128 (.lit 5)) (by simp [C224_witness])
  exact w.2 (h _ _ _ _ agree0 w.1)

/-- What holds: operations between expressions of one wide type, integer literals, variables of 64 bits of the
same signedness, fields, elements and results of calls are valid, to any depth, if at every operation one side is
known to the compiler to be wide, or the operation is the value of a declaration; the other side of the coin is
that no literal can be assigned to a wide variable, and that no constructor takes a value of its own type. Missing:
the rest of what the type checker accepts. -/
theorem C224_partial (Γ : Name → Ty) (R : Reg) (Δ : Name → CTy) (ha : Agree Γ R Δ) :
    (∀ s, Fine Γ s → validC Γ R Δ s) ∧
    (∀ x w n, ¬ validC Γ R Δ (.assign x w (.lit n))) ∧
    (∀ x y w, Γ x = .wide w → Γ y = .wide w → ¬ validC Γ R Δ (.decl x w (.ctor w (.var y)))) ∧
    (∀ x w v, Γ x = .wide w → ∀ y, Γ y = .wide v → v ≠ w → ¬ validC Γ R Δ (.decl x w (.var y))) ∧
    (∀ x w op t k t' k', ¬ validC Γ R Δ (.assign x w (.bin op (.other t k) (.other t' k')))) ∧
    (∀ x w a op m n, Γ a = .wide w → op.arith = true →
      ¬ validC Γ R Δ (.assign x w (.bin op (.var a) (.bin .add (.lit m) (.lit n))))) := by
  refine ⟨fun s h => fine_ok ha h, ?_, ?_, ?_, ?_, ?_⟩
  · intro x w n h
    unfold validC stored at h
    cases h
  · intro x y w hx hy h
    have ha' := ha.cons hx
    unfold validC stored declValue Stmt.wide at h
    simp only [resolve, reduceCtorEq, if_false, emit, (ha'.wide hy).1, ctype] at h
    have : hasConv w w = false := by cases w <;> rfl
    simp [this] at h
  · intro x w v hx y hy hne h
    have ha' := ha.cons hx
    unfold validC stored declValue Stmt.wide at h
    simp only [resolve, (ha'.wide hy).1, reduceCtorEq, if_false, emit, ctype, (ha'.wide hy).2] at h
    cases h
    exact hne rfl
  · intro x w op t k t' k' h
    unfold validC stored Stmt.wide at h
    simp only [emit, resolve] at h
    have : ctype Δ (.op64 (unsigned64 Γ (.other t k) (.other t' k')) op (.mem t k) (.mem t' k')) = some (.wide w) := by
      cases hf : op.hasFn <;> simpa [hf] using h
    cases t <;> cases t' <;> simp [ctype, Ty.c] at this
  · intro x w a op m n hw ho h
    unfold validC stored Stmt.wide at h
    simp only [emit, hasFn_of_arith ho, if_true, resolve, (ha.wide hw).1, operand] at h
    simp [ctype, Op.hasFn, Op.arith, Op.cmp] at h

/-- The chapter of the standard on wide integers has only such statements. -/
example : Fine Γ0 (.decl 0 .i128 (.bin .add (.var 1) (.bin .mul (.lit 3) (.ctor .i128 (.var 4))))) :=
  .declOp _ _ _ _ _ rfl rfl (.known (.var rfl))
    (.known (.right rfl .lit (.ctor (.var _ (.inl rfl)))))

end Verif.Props

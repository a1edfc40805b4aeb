import Verif.Props.WideOps
/-!
C225: the values wide operations work on. C226: names of other functions. C227: the type checker and the C text
about the type of an expression.
-/
namespace Verif.Props
open Verif.WideOps
namespace Wo

/-! ### The meaning of expressions -/

/-- The wider of two types of operands. -/
def join : Option W → Option W → Option W
  | some a, some b => some (if a.rank < b.rank then b else a)
  | some a, none => some a
  | none, b => b

/-- The wide type an expression has in the language, if any. -/
def wideOf (Γ : Name → Ty) : Expr → Option W
  | .lit _ => none
  | .var x => match Γ x with
    | .wide w => some w
    | _ => none
  | .other (.wide w) _ => some w
  | .other _ _ => none
  | .deref (.wide w) _ => some w
  | .deref _ _ => none
  | .ctor w _ => some w
  | .cast w _ => some w
  | .neg e => wideOf Γ e
  | .bin op l r => if op.cmp then none else join (wideOf Γ l) (wideOf Γ r)

/-- The value of an expression in the language: operands keep their values, operations on wide integers are those
of the wider type; a conversion keeps the number or is an error. -/
def val (rt : Rt) (Γ : Name → Ty) (σ : Name → Int) (μ : Ty → Nat → Int) : Expr → Option Int
  | .lit n => some n
  | .var x => some (σ x)
  | .other t k => some (μ t k)
  | .deref t k => some (μ t k)
  | .ctor w e => match val rt Γ σ μ e with
    | some a => match wideOf Γ e with
      | some v => if v = w then some a else rt.conv w v a
      | none => if w.signed = true ∨ 0 ≤ a then some a else none
    | none => none
  | .cast w e => match val rt Γ σ μ e with
    | some a => match wideOf Γ e with
      | some v => if v = w then some a else rt.conv w v a
      | none => if w.signed = true ∨ 0 ≤ a then some a else none
    | none => none
  | .neg (.lit n) => some (-n)
  | .neg e => match val rt Γ σ μ e with
    | some a => match wideOf Γ e with
      | some w => rt.neg w a
      | none => rt.neg64 a
    | none => none
  | .bin op l r => match val rt Γ σ μ l, val rt Γ σ μ r with
    | some a, some b => match join (wideOf Γ l) (wideOf Γ r) with
      | some w => rt.op w op a b
      | none => rt.op64 (unsigned64 Γ l r) op a b
    | _, _ => none

/-- The value a statement stores: an operation that is the value of a declaration is done in the type declared. -/
def stmtVal (rt : Rt) (Γ : Name → Ty) (σ : Name → Int) (μ : Ty → Nat → Int) : Stmt → Option Int
  | .decl _ w e => match e with
    | .bin op l r => match val rt Γ σ μ l, val rt Γ σ μ r with
      | some a, some b => rt.op w op a b
      | _, _ => none
    | e => val rt Γ σ μ e
  | .assign _ _ e => val rt Γ σ μ e
  | .compound op x w e => match val rt Γ σ μ e with
    | some b => rt.op w op (σ x) b
    | none => none

/-- The numbers of a wide type. -/
def W.has (w : W) (v : Int) : Prop :=
  match w with
  | .i128 => -2 ^ 127 ≤ v ∧ v < 2 ^ 127
  | .u128 => 0 ≤ v ∧ v < 2 ^ 128
  | .i256 => -2 ^ 255 ≤ v ∧ v < 2 ^ 255
  | .u256 => 0 ≤ v ∧ v < 2 ^ 256

/-- What is used of the runtime: decimal texts and widening conversions keep the number, as does the negation of
a literal. -/
structure Ok (rt : Rt) : Prop where
  dec : ∀ w v, W.has w v → rt.dec w v = some v
  widenI : ∀ v, rt.conv .i256 .i128 v = some v
  widenU : ∀ v, rt.conv .u256 .u128 v = some v
  neg64 : ∀ n : Nat, n < 2 ^ 63 → rt.neg64 n = some (-(n : Int))

/-- The variables hold numbers of their types. -/
def Held (Γ : Name → Ty) (σ : Name → Int) : Prop :=
  ∀ x, match Γ x with
    | .int => -2 ^ 63 ≤ σ x ∧ σ x < 2 ^ 63
    | .uint => 0 ≤ σ x ∧ σ x < 2 ^ 64
    | .bool => σ x = 0 ∨ σ x = 1
    | .wide w => W.has w (σ x)

end Wo
open Wo

/-- C225: what an accepted statement on wide integers stores, if it is valid C, is the value of the expression. -/
def C225_statement : Prop :=
  ∀ (rt : Rt) (Γ : Name → Ty) (R : Reg) (Δ : Name → CTy) (σ : Name → Int) (μ : Ty → Nat → Int) (s : Stmt),
    Ok rt → Agree Γ R Δ → Held Γ σ → accepts Γ s = true → validC Γ R Δ s →
    ceval rt σ μ (stored Γ R s) = stmtVal rt Γ σ μ s

namespace Wo

/-- A runtime with exact operations. -/
def exact : Rt where
  op _ o a b := match o with
    | .add => some (a + b)
    | .sub => some (a - b)
    | .mul => some (a * b)
    | .div => if b = 0 then none else some (a.tdiv b)
    | .mod => if b = 0 then none else some (a.tmod b)
    | .eq => some (if a = b then 1 else 0)
    | .ne => some (if a = b then 0 else 1)
    | .lt => some (if a < b then 1 else 0)
    | .gt => some (if b < a then 1 else 0)
    | .le => some (if a ≤ b then 1 else 0)
    | .ge => some (if b ≤ a then 1 else 0)
    | _ => none
  neg _ a := some (-a)
  conv _ _ a := some a
  dec _ a := some a
  op64 _ _ a b := some (a + b)
  neg64 a := some (-a)

theorem exact_ok : Ok exact := ⟨fun _ _ _ => rfl, fun _ => rfl, fun _ => rfl, fun _ _ => rfl⟩

/-- `b` is 10, `n` is -3. -/
def σ0 : Name → Int
  | 3 => 10
  | 4 => -3
  | 5 => 2 ^ 63
  | _ => 0

theorem held0 : Held Γ0 σ0 := by
  intro x
  match x with
  | 0 | 1 | 2 | 3 | 4 | 5 => simp [Γ0, σ0, W.has]
  | x + 6 => simp [Γ0, σ0]

end Wo

/-- `mut x u128 = b + n` with `b` 10 and `n` -3 stores 2^64 + 7, and `a += u` for an `i128` 0 and a `uint`
2^63 stores -2^63. -/
theorem C225_witness :
    (accepts Γ0 (.decl 3 .u128 (.bin .add (.var 3) (.var 4))) = true ∧
     validC Γ0 R0 (fun x => (Γ0 x).c) (.decl 3 .u128 (.bin .add (.var 3) (.var 4))) ∧
     ceval exact σ0 (fun _ _ => 0) (stored Γ0 R0 (.decl 3 .u128 (.bin .add (.var 3) (.var 4)))) =
       some (2 ^ 64 + 7) ∧
     stmtVal exact Γ0 σ0 (fun _ _ => 0) (.decl 3 .u128 (.bin .add (.var 3) (.var 4))) = some 7) ∧
    (accepts Γ0 (.compound .add 0 .i128 (.var 5)) = true ∧
     validC Γ0 R0 (fun x => (Γ0 x).c) (.compound .add 0 .i128 (.var 5)) ∧
     ceval exact σ0 (fun _ _ => 0) (stored Γ0 R0 (.compound .add 0 .i128 (.var 5))) = some (-2 ^ 63) ∧
     stmtVal exact Γ0 σ0 (fun _ _ => 0) (.compound .add 0 .i128 (.var 5)) = some (2 ^ 63)) := by decide

theorem C225_fails : ¬ C225_statement := by
  intro h
  obtain ⟨⟨h1, h2, h3, h4⟩, _⟩ := C225_witness
  have := h exact Γ0 R0 _ σ0 (fun _ _ => 0) _ exact_ok agree0 held0 h1 h2
  rw [h3, h4] at this
  cases this

namespace Wo

/-! ### Where no conversion loses anything -/

/-- A number of 64 bits that the constructor of a wide type keeps. -/
def Keeps (w : W) (v : Int) : Prop :=
  if w.signed then -2 ^ 63 ≤ v ∧ v < 2 ^ 63 else 0 ≤ v ∧ v < 2 ^ 64

/-- The operands that are not emitted as they are. -/
def Special : Expr → Prop
  | .lit _ => True
  | .neg (.lit _) => True
  | .var _ => True
  | _ => False

section
variable (rt : Rt) (Γ : Name → Ty) (R : Reg) (σ : Name → Int) (μ : Ty → Nat → Int)

/-- An operand of an operation in a wide type is kept by its conversion. -/
def OperandSafe (w : W) : Expr → Prop
  | .lit n => W.has w n
  | .neg (.lit n) => W.has w (-n)
  | .var x => wideOf Γ (.var x) = none → Keeps w (σ x)
  | _ => True

/-- Every cast is between types the runtime can convert. -/
def Casts : Expr → Prop
  | .ctor _ e => Casts e
  | .cast w e => Casts e ∧ (match wideOf Γ e with
      | some v => v = w ∨ hasConv w v = true
      | none => resolve R e = none)
  | .neg e => Casts e
  | .bin _ l r => Casts l ∧ Casts r
  | _ => True

/-- No conversion in an expression loses anything: what is converted from 64 bits is kept, and literals are numbers
of their types. -/
def Safe : Expr → Prop
  | .lit n => n < 2 ^ 64
  | .var _ => True
  | .other _ _ => True
  | .deref _ _ => True
  | .ctor w e => Safe e ∧ (wideOf Γ e = none → ∀ a, val rt Γ σ μ e = some a → Keeps w a)
  | .cast w e => Safe e ∧ (wideOf Γ e = none → ∀ a, val rt Γ σ μ e = some a → Keeps w a)
  | .neg e => Safe e ∧ ∀ n, e = .lit n → n < 2 ^ 63
  | .bin _ l r => (join (wideOf Γ l) (wideOf Γ r) = none → Safe l ∧ Safe r) ∧
      ∀ w, join (wideOf Γ l) (wideOf Γ r) = some w →
        (OperandSafe Γ σ w l ∧ (¬ Special l → Safe l)) ∧ (OperandSafe Γ σ w r ∧ (¬ Special r → Safe r))

end

section
variable {rt : Rt} {Γ : Name → Ty} {R : Reg} {Δ : Name → CTy} {σ : Name → Int} {μ : Ty → Nat → Int}

theorem keeps_make {w v} (h : Keeps w v) :
    (if (!w.signed) = true then toU64 v else toI64 v) = v ∧ (w.signed = true ∨ 0 ≤ v) := by
  unfold Keeps at h
  cases hs : w.signed with
  | true =>
    rw [hs] at h
    simp only [if_true] at h
    simp only [Bool.not_true, Bool.false_eq_true, if_false, true_or, and_true]
    unfold toI64
    omega
  | false =>
    rw [hs] at h
    simp only [Bool.false_eq_true, if_false] at h
    simp only [Bool.not_false, if_true]
    unfold toU64
    omega

/-- The C type that belongs to a wide type, if any. -/
def cty : Option W → CTy
  | some w => .wide w
  | none => .scalar

theorem wideOf_var (ha : Agree Γ R Δ) (x) : wideOf Γ (.var x) = lookup R x := by
  rw [(ha x).2]; rfl

theorem ctype_make {u w c τ} (h : ctype Δ (.make u w c) = some τ) :
    u = (!w.signed) ∧ ctype Δ c = some .scalar ∧ τ = .wide w := by
  simp only [ctype] at h
  by_cases cc : u = (!w.signed) ∧ ctype Δ c = some .scalar
  · rw [if_pos cc] at h; cases h; exact ⟨cc.1, cc.2, rfl⟩
  · rw [if_neg cc] at h; cases h

theorem ctype_conv {w v c τ} (h : ctype Δ (.conv w v c) = some τ) :
    hasConv w v = true ∧ ctype Δ c = some (.wide v) ∧ τ = .wide w := by
  simp only [ctype] at h
  by_cases cc : hasConv w v = true ∧ ctype Δ c = some (.wide v)
  · rw [if_pos cc] at h; cases h; exact ⟨cc.1, cc.2, rfl⟩
  · rw [if_neg cc] at h; cases h

theorem ctype_neg {w c τ} (h : ctype Δ (.neg w c) = some τ) :
    w.signed = true ∧ ctype Δ c = some (.wide w) ∧ τ = .wide w := by
  simp only [ctype] at h
  by_cases cc : w.signed = true ∧ ctype Δ c = some (.wide w)
  · rw [if_pos cc] at h; cases h; exact ⟨cc.1, cc.2, rfl⟩
  · rw [if_neg cc] at h; cases h

theorem ctype_neg64 {c τ} (h : ctype Δ (.neg64 c) = some τ) : ctype Δ c = some .scalar ∧ τ = .scalar := by
  simp only [ctype] at h
  by_cases cc : ctype Δ c = some .scalar
  · rw [if_pos cc] at h; cases h; exact ⟨cc, rfl⟩
  · rw [if_neg cc] at h; cases h

theorem ctype_op {w o a b τ} (h : ctype Δ (.op w o a b) = some τ) :
    ctype Δ a = some (.wide w) ∧ ctype Δ b = some (.wide w) ∧ τ = if o.cmp then .scalar else .wide w := by
  simp only [ctype] at h
  by_cases cc : o.hasFn = true ∧ ctype Δ a = some (.wide w) ∧ ctype Δ b = some (.wide w)
  · rw [if_pos cc] at h; cases h; exact ⟨cc.2.1, cc.2.2, rfl⟩
  · rw [if_neg cc] at h; cases h

theorem ctype_op64 {u o a b τ} (h : ctype Δ (.op64 u o a b) = some τ) :
    ctype Δ a = some .scalar ∧ ctype Δ b = some .scalar ∧ τ = .scalar := by
  simp only [ctype] at h
  by_cases cc : ctype Δ a = some .scalar ∧ ctype Δ b = some .scalar
  · rw [if_pos cc] at h; cases h; exact ⟨cc.1, cc.2, rfl⟩
  · rw [if_neg cc] at h; cases h

theorem operand_plain {w e t c} (h : ¬ Special e) : operand R w e t c = c := by
  unfold operand
  split <;> first | rfl | exact absurd trivial h

theorem val_neg (e : Expr) (h : ∀ n, e ≠ .lit n) : val rt Γ σ μ (.neg e) = match val rt Γ σ μ e with
    | some a => match wideOf Γ e with
      | some w => rt.neg w a
      | none => rt.neg64 a
    | none => none := by
  cases e <;> first | rfl | exact absurd rfl (h _)

/-- The type of an operand of an operation in a wide type. -/
theorem operand_type (ha : Agree Γ R Δ) {w e t}
    (ih : ∀ τ, ctype Δ (emit Γ R e) = some τ → τ = cty (wideOf Γ e))
    (hv : ctype Δ (operand R w e t (emit Γ R e)) = some (.wide w)) :
    wideOf Γ e = none ∧ resolve R e = none ∨ wideOf Γ e = some w ∨
      (∃ v, wideOf Γ e = some v ∧ resolve R e = some v ∧ v.rank < w.rank) := by
  by_cases sp : Special e
  · match e, sp with
    | .lit n, _ => exact .inl ⟨rfl, rfl⟩
    | .neg (.lit n), _ => exact .inl ⟨rfl, rfl⟩
    | .var x, _ =>
      rw [wideOf_var ha x]
      simp only [operand] at hv ⊢
      cases hl : lookup R x with
      | none => exact .inl ⟨rfl, hl⟩
      | some v =>
        rw [hl] at hv
        simp only at hv
        by_cases c1 : v = w
        · exact .inr (.inl (by rw [c1]))
        · simp only [if_neg c1] at hv
          by_cases c2 : w = .i256 ∧ v = .i128
          · exact .inr (.inr ⟨v, rfl, hl, by rw [c2.1, c2.2]; decide⟩)
          · simp only [if_neg c2] at hv
            by_cases c3 : w = .u256 ∧ v = .u128
            · exact .inr (.inr ⟨v, rfl, hl, by rw [c3.1, c3.2]; decide⟩)
            · simp only [if_neg c3, emit, ctype, (ha.wide (ha.of_lookup hl)).2] at hv
              cases hv
              exact absurd rfl c1
  · rw [operand_plain sp] at hv
    have h1 := ih _ hv
    refine .inr (.inl ?_)
    cases hw : wideOf Γ e with
    | none => rw [hw] at h1; cases h1
    | some v => rw [hw] at h1; cases h1; rfl

/-- An operation in the type of one of its operands. -/
theorem op_join (ha : Agree Γ R Δ) {w l r tl tr}
    (ihl : ∀ τ, ctype Δ (emit Γ R l) = some τ → τ = cty (wideOf Γ l))
    (ihr : ∀ τ, ctype Δ (emit Γ R r) = some τ → τ = cty (wideOf Γ r))
    (hl : ctype Δ (operand R w l tl (emit Γ R l)) = some (.wide w))
    (hr : ctype Δ (operand R w r tr (emit Γ R r)) = some (.wide w))
    (hw : (match resolve R l with | some w => some w | none => resolve R r) = some w) :
    join (wideOf Γ l) (wideOf Γ r) = some w := by
  rcases operand_type ha ihl hl with ⟨h1, h2⟩ | h1 | ⟨v, h1, h2, h3⟩
  · rw [h2] at hw
    simp only at hw
    rcases operand_type ha ihr hr with ⟨h4, h5⟩ | h4 | ⟨v, h4, h5, h6⟩
    · rw [h5] at hw; cases hw
    · rw [h1, h4]; rfl
    · rw [h5] at hw; cases hw; omega
  · rcases operand_type ha ihr hr with ⟨h4, h5⟩ | h4 | ⟨v, h4, h5, h6⟩
    · rw [h1, h4]; rfl
    · rw [h1, h4]; simp [join]
    · rw [h1, h4]
      simp only [join]
      rw [if_neg (by omega)]
  · rw [h2] at hw; cases hw; omega

theorem emit_bin {op l r} (c : op.hasFn = true) : emit Γ R (.bin op l r) = match resolve R (.bin op l r) with
    | some w => .op w op (operand R w l (typeOf Γ l) (emit Γ R l)) (operand R w r (typeOf Γ r) (emit Γ R r))
    | none => .op64 (unsigned64 Γ l r) op (emit Γ R l) (emit Γ R r) := by
  simp only [emit, if_pos c]
  rfl

theorem emit_bin64 {op l r} (c : ¬ op.hasFn = true) :
    emit Γ R (.bin op l r) = .op64 (unsigned64 Γ l r) op (emit Γ R l) (emit Γ R r) := by
  simp only [emit, if_neg c]

/-- What the compiler knows of the type of an expression whose C text is valid. -/
def Known3 (Γ : Name → Ty) (R : Reg) (τ : CTy) (e : Expr) : Prop :=
  τ = cty (wideOf Γ e) ∧ (∀ v, typeOf Γ e = some (.wide v) → wideOf Γ e = some v) ∧
  (∀ v, wideOf Γ e = some v → resolve R e = some v ∨ typeOf Γ e = some (.wide v))

theorem typeOf_left {op l r v} (h : typeOf Γ (.bin op l r) = some (.wide v)) :
    typeOf Γ l = some (.wide v) ∧ op.cmp = false := by
  simp only [typeOf] at h
  cases ha : typeOf Γ l with
  | none => simp [ha] at h
  | some a =>
    cases hb : typeOf Γ r with
    | none => simp [ha, hb] at h
    | some b =>
      simp only [ha, hb] at h
      by_cases c1 : refuses op a b = true
      · rw [if_pos c1] at h; cases h
      · rw [if_neg c1] at h
        by_cases c2 : ((decide (op = .div) || decide (op = .mod)) && decide (r = .lit 0)) = true
        · rw [if_pos c2] at h; cases h
        · rw [if_neg c2] at h
          by_cases c3 : op.cmp = true
          · rw [if_pos c3] at h; cases h
          · rw [if_neg c3] at h; cases h
            exact ⟨rfl, by simpa using c3⟩

/-- The types of C are those of the language. -/
theorem emit_type (ha : Agree Γ R Δ) : ∀ e τ, ctype Δ (emit Γ R e) = some τ → Casts Γ R e → Known3 Γ R τ e := by
  intro e
  induction e with
  | lit n => intro τ h _; cases h; exact ⟨rfl, (fun v h => by cases h), (fun v h => by cases h)⟩
  | var x =>
    intro τ h _
    cases h
    unfold Known3
    have h2 := (ha x).2
    rw [(ha x).1]
    simp only [wideOf, typeOf, resolve, Option.some.injEq]
    cases e : Γ x with
    | wide w => simp only [e] at h2; simp [Ty.c, cty, h2]
    | _ => simp [Ty.c, cty]
  | other t k => intro τ h _; cases h; cases t <;> simp [Known3, wideOf, typeOf, cty, Ty.c]
  | deref t k => intro τ h _; cases h; cases t <;> simp [Known3, wideOf, typeOf, cty, Ty.c]
  | ctor w e ih =>
    intro τ h hc
    have hτ : τ = .wide w := by
      simp only [emit] at h
      cases hr : resolve R e with
      | some v => rw [hr] at h; exact (ctype_conv h).2.2
      | none => rw [hr] at h; exact (ctype_make h).2.2
    refine ⟨hτ, ?_, fun v hv => .inl hv⟩
    intro v hv
    simp only [typeOf] at hv
    cases he : typeOf Γ e with
    | none => simp [he] at hv
    | some t =>
      simp only [he] at hv
      cases hs : w.signed <;> simp [hs] at hv
  | cast w e ih =>
    intro τ h hc
    obtain ⟨hc1, hc2⟩ := hc
    have hτ : τ = .wide w := by
      simp only [emit] at h
      cases hr : castSource Γ R e with
      | none => rw [hr] at h; exact (ctype_make h).2.2
      | some v =>
        rw [hr] at h
        simp only at h
        by_cases c : hasConv w v = true
        · rw [if_pos c] at h; exact (ctype_conv h).2.2
        · rw [if_neg c] at h
          obtain ⟨h1, h2, h3⟩ := ih _ h hc1
          have hv : wideOf Γ e = some v := by
            unfold castSource at hr
            split at hr
            · rename_i v' ht
              cases hr
              exact h2 _ ht
            · rename_i hn
              cases hw : wideOf Γ e with
              | none => simp only [hw] at hc2; rw [hc2] at hr; cases hr
              | some v' =>
                rcases h3 _ hw with h4 | h4
                · rw [h4] at hr; exact hr
                · exact absurd h4 (hn _)
          rw [hv] at hc2 h1
          simp only [c, or_false, Bool.false_eq_true] at hc2
          rw [h1, hc2]
          rfl
    refine ⟨hτ, ?_, fun v hv => .inl hv⟩
    intro v hv
    simp only [typeOf] at hv
    cases he : typeOf Γ e with
    | none => simp [he] at hv
    | some t =>
      simp only [he] at hv
      cases hv
      rfl
  | neg e ih =>
    intro τ h hc
    simp only [emit] at h
    have ty : ∀ v, typeOf Γ (.neg e) = some (.wide v) → typeOf Γ e = some (.wide v) := by
      intro v hv
      simp only [typeOf] at hv
      split at hv
      · cases hv
      · rename_i w hw
        split at hv
        · cases hv; exact hw
        · cases hv
      · cases hv
    have scal : ctype Δ (.neg64 (emit Γ R e)) = some τ → Known3 Γ R τ (.neg e) := by
      intro h
      obtain ⟨h1, h2⟩ := ctype_neg64 h
      obtain ⟨k1, k2, k3⟩ := ih _ h1 hc
      have hn : wideOf Γ e = none := by
        cases hw : wideOf Γ e with
        | none => rfl
        | some v => rw [hw] at k1; cases k1
      refine ⟨by rw [h2]; exact k1, fun v hv => k2 v (ty v hv), ?_⟩
      intro v hv
      simp only [wideOf] at hv
      rw [hn] at hv
      cases hv
    cases hr : resolve R e with
    | none => rw [hr] at h; exact scal h
    | some w =>
      rw [hr] at h
      simp only at h
      by_cases c : w.signed = true
      · rw [if_pos c] at h
        obtain ⟨h1, h2, h3⟩ := ctype_neg h
        obtain ⟨k1, k2, k3⟩ := ih _ h2 hc
        refine ⟨by rw [h3]; exact k1, fun v hv => k2 v (ty v hv), ?_⟩
        intro v hv
        simp only [wideOf] at hv
        rw [hv] at k1
        cases k1
        exact .inl hr
      · rw [if_neg c] at h; exact scal h
  | bin op l r ihl ihr =>
    intro τ h hc
    have il := fun τ h => (ihl τ h hc.1).1
    have ir := fun τ h => (ihr τ h hc.2).1
    have scal : ∀ u, ctype Δ (.op64 u op (emit Γ R l) (emit Γ R r)) = some τ → Known3 Γ R τ (.bin op l r) := by
      intro u h
      obtain ⟨h1, h2, h3⟩ := ctype_op64 h
      have e1 := il _ h1
      have e2 := ir _ h2
      have hl : wideOf Γ l = none := by
        cases hl : wideOf Γ l with
        | some w => rw [hl] at e1; cases e1
        | none => rfl
      have hr : wideOf Γ r = none := by
        cases hr : wideOf Γ r with
        | some w => rw [hr] at e2; cases e2
        | none => rfl
      have hn : wideOf Γ (.bin op l r) = none := by
        simp only [wideOf, hl, hr]
        cases op.cmp <;> rfl
      refine ⟨by rw [hn, h3]; rfl, ?_, by rw [hn]; intro v h; cases h⟩
      intro v hv
      have := (ihl _ h1 hc.1).2.1 v (typeOf_left hv).1
      rw [hl] at this
      cases this
    by_cases c : op.hasFn = true
    · rw [emit_bin c] at h
      cases hw : resolve R (.bin op l r) with
      | none => rw [hw] at h; exact scal _ h
      | some w =>
        rw [hw] at h
        obtain ⟨h1, h2, h3⟩ := ctype_op h
        have hj := op_join ha il ir h1 h2 hw
        refine ⟨?_, ?_, ?_⟩
        · rw [h3]
          simp only [wideOf, hj]
          cases op.cmp <;> rfl
        · intro v hv
          obtain ⟨t1, t2⟩ := typeOf_left hv
          simp only [wideOf, t2, Bool.false_eq_true, if_false, hj]
          have : resolve R l = some v ∨ wideOf Γ l = some v := by
            by_cases sp : Special l
            · match l, sp, t1 with
              | .lit n, _, t1 => cases t1
              | .neg (.lit n), _, t1 => cases t1
              | .var x, _, t1 => exact .inl (ha.wide (by simpa [typeOf] using t1)).1
            · rw [operand_plain sp] at h1
              exact .inr ((ihl _ h1 hc.1).2.1 v t1)
          rcases this with e | e
          · simp only [resolve, e] at hw; exact hw.symm
          · rcases operand_type ha il h1 with ⟨k1, _⟩ | k1 | ⟨v', k1, k2, k3⟩
            · rw [k1] at e; cases e
            · rw [k1] at e; cases e; rfl
            · simp only [resolve, k2] at hw; cases hw; omega
        · intro v hv
          left
          simp only [wideOf, hj] at hv
          cases hcmp : op.cmp with
          | true => simp [hcmp] at hv
          | false =>
            simp only [hcmp, Bool.false_eq_true, if_false] at hv
            cases hv
            exact hw
    · rw [emit_bin64 c] at h
      exact scal _ h

/-- A cast emitted as its operand is one to the type of the operand. -/
theorem cast_same (ha : Agree Γ R Δ) {w e v τ} (hc : Casts Γ R (.cast w e)) (hr : castSource Γ R e = some v)
    (h : ctype Δ (emit Γ R e) = some τ) (c : ¬ hasConv w v = true) : wideOf Γ e = some w ∧ v = w := by
  obtain ⟨hc1, hc2⟩ := hc
  obtain ⟨h1, h2, h3⟩ := emit_type ha _ _ h hc1
  have hv : wideOf Γ e = some v := by
    unfold castSource at hr
    split at hr
    · rename_i v' ht
      cases hr
      exact h2 _ ht
    · rename_i hn
      cases hw : wideOf Γ e with
      | none => simp only [hw] at hc2; rw [hc2] at hr; cases hr
      | some v' =>
        rcases h3 _ hw with h4 | h4
        · rw [h4] at hr; exact hr
        · exact absurd h4 (hn _)
  rw [hv] at hc2
  simp only [c, or_false, Bool.false_eq_true] at hc2
  exact ⟨by rw [hv, hc2], hc2⟩

theorem hasConv_ne {w v : W} (h : hasConv w v = true) : v ≠ w := by
  intro e; subst e; cases v <;> cases h

theorem cty_scalar {o : Option W} (h : CTy.scalar = cty o) : o = none := by
  cases o with
  | none => rfl
  | some _ => cases h

theorem cty_wide {o : Option W} {w} (h : CTy.wide w = cty o) : o = some w := by
  cases o with
  | none => cases h
  | some _ => cases h; rfl

/-- The value of an operand. -/
theorem operand_exact (hk : Ok rt) (ha : Agree Γ R Δ) {w e t} (hs : OperandSafe Γ σ w e)
    (ih : ¬ Special e → ceval rt σ μ (emit Γ R e) = val rt Γ σ μ e)
    (hv : ctype Δ (operand R w e t (emit Γ R e)) = some (.wide w)) :
    ceval rt σ μ (operand R w e t (emit Γ R e)) = val rt Γ σ μ e := by
  by_cases sp : Special e
  · match e, sp with
    | .lit n, _ =>
      simp only [operand]
      by_cases c : n < 2 ^ 63
      · rw [if_pos c]
        have : Keeps w n := by unfold Keeps; split <;> omega
        simp only [ceval, (keeps_make this).1]
        rfl
      · rw [if_neg c]; exact hk.dec w _ hs
    | .neg (.lit n), _ =>
      simp only [operand]
      by_cases c : n < 2 ^ 63
      · rw [if_pos c]
        simp only [ceval, val, Bool.false_eq_true, if_false]
        congr 1
        unfold toI64
        omega
      · rw [if_neg c]; exact hk.dec w _ hs
    | .var x, _ =>
      simp only [operand] at hv ⊢
      cases hl : lookup R x with
      | none =>
        rw [hl] at hv
        simp only at hv ⊢
        obtain ⟨h1, _, _⟩ := ctype_make hv
        rw [h1]
        simp only [emit, ceval, (keeps_make (hs (by rw [wideOf_var ha, hl]))).1]
        rfl
      | some v =>
        simp only
        by_cases c1 : v = w
        · rw [if_pos c1]; rfl
        · rw [if_neg c1]
          by_cases c2 : w = .i256 ∧ v = .i128
          · rw [if_pos c2]; exact hk.widenI _
          · rw [if_neg c2]
            by_cases c3 : w = .u256 ∧ v = .u128
            · rw [if_pos c3]; exact hk.widenU _
            · rw [if_neg c3]; rfl
  · rw [operand_plain sp]; exact ih sp

/-- The value of an expression. -/
theorem emit_exact (hk : Ok rt) (ha : Agree Γ R Δ) : ∀ e τ, ctype Δ (emit Γ R e) = some τ → Casts Γ R e →
    Safe rt Γ σ μ e → ceval rt σ μ (emit Γ R e) = val rt Γ σ μ e := by
  intro e
  induction e with
  | lit n =>
    intro τ h _ hs
    have hs : n < 2 ^ 64 := hs
    have e : min (n : Int) (2 ^ 64 - 1) = n := by omega
    simp only [emit, ceval, val]
    rw [e]
  | var x => intro τ h _ _; rfl
  | other t k => intro τ h _ _; rfl
  | deref t k => intro τ h _ _; rfl
  | ctor w e ih =>
    intro τ h hc hs
    simp only [emit] at h ⊢
    simp only [val]
    cases hr : resolve R e with
    | some v =>
      rw [hr] at h
      obtain ⟨h1, h2, _⟩ := ctype_conv h
      have hw := cty_wide (emit_type ha _ _ h2 hc).1
      simp only [ceval, ih _ h2 hc hs.1, hw]
      cases val rt Γ σ μ e with
      | none => rfl
      | some a => simp only [if_neg (hasConv_ne h1)]
    | none =>
      rw [hr] at h
      obtain ⟨h1, h2, _⟩ := ctype_make h
      have hw := cty_scalar (emit_type ha _ _ h2 hc).1
      have hkeep := hs.2 hw
      simp only [ceval, ih _ h2 hc hs.1, hw]
      cases hv : val rt Γ σ μ e with
      | none => rfl
      | some a =>
        have k := keeps_make (hkeep a hv)
        simp only [k.1, if_pos k.2]
  | cast w e ih =>
    intro τ h hc hs
    simp only [emit] at h ⊢
    simp only [val]
    cases hr : castSource Γ R e with
    | some v =>
      rw [hr] at h
      simp only at h ⊢
      by_cases c : hasConv w v = true
      · rw [if_pos c] at h ⊢
        obtain ⟨h1, h2, _⟩ := ctype_conv h
        have hw := cty_wide (emit_type ha _ _ h2 hc.1).1
        simp only [ceval, ih _ h2 hc.1 hs.1, hw]
        cases val rt Γ σ μ e with
        | none => rfl
        | some a => simp only [if_neg (hasConv_ne h1)]
      · rw [if_neg c] at h ⊢
        obtain ⟨hw, _⟩ := cast_same ha hc hr h c
        simp only [ih _ h hc.1 hs.1, hw, if_true]
        cases val rt Γ σ μ e <;> rfl
    | none =>
      rw [hr] at h
      obtain ⟨h1, h2, _⟩ := ctype_make h
      have hw := cty_scalar (emit_type ha _ _ h2 hc.1).1
      have hkeep := hs.2 hw
      simp only [ceval, ih _ h2 hc.1 hs.1, hw]
      cases hv : val rt Γ σ μ e with
      | none => rfl
      | some a =>
        have k := keeps_make (hkeep a hv)
        simp only [k.1, if_pos k.2]
  | neg e ih =>
    intro τ h hc hs
    by_cases hlit : ∃ n, e = .lit n
    · obtain ⟨n, rfl⟩ := hlit
      have hn := hs.2 n rfl
      have e : min (n : Int) (2 ^ 64 - 1) = n := by omega
      simp only [emit, resolve, ceval, val]
      rw [e]
      exact hk.neg64 n hn
    · rw [val_neg e (fun n hn => hlit ⟨n, hn⟩)]
      simp only [emit] at h ⊢
      have scal : ctype Δ (.neg64 (emit Γ R e)) = some τ → ceval rt σ μ (.neg64 (emit Γ R e)) =
          match val rt Γ σ μ e with
          | some a => match wideOf Γ e with
            | some w => rt.neg w a
            | none => rt.neg64 a
          | none => none := by
        intro h
        obtain ⟨h1, _⟩ := ctype_neg64 h
        have hw := cty_scalar (emit_type ha _ _ h1 hc).1
        simp only [ceval, ih _ h1 hc hs.1, hw]
        cases val rt Γ σ μ e <;> rfl
      cases hr : resolve R e with
      | none => rw [hr] at h; exact scal h
      | some w =>
        rw [hr] at h
        simp only at h ⊢
        by_cases c : w.signed = true
        · rw [if_pos c] at h ⊢
          obtain ⟨_, h1, _⟩ := ctype_neg h
          have hw := cty_wide (emit_type ha _ _ h1 hc).1
          simp only [ceval, ih _ h1 hc hs.1, hw]
          cases val rt Γ σ μ e <;> rfl
        · rw [if_neg c] at h ⊢; exact scal h
  | bin op l r ihl ihr =>
    intro τ h hc hs
    have il := fun τ h => (emit_type ha l τ h hc.1).1
    have ir := fun τ h => (emit_type ha r τ h hc.2).1
    have scal : ∀ u, u = unsigned64 Γ l r → ctype Δ (.op64 u op (emit Γ R l) (emit Γ R r)) = some τ →
        ceval rt σ μ (.op64 u op (emit Γ R l) (emit Γ R r)) = val rt Γ σ μ (.bin op l r) := by
      intro u hu h
      subst hu
      obtain ⟨h1, h2, h3⟩ := ctype_op64 h
      have e1 := cty_scalar (il _ h1)
      have e2 := cty_scalar (ir _ h2)
      have hj : join (wideOf Γ l) (wideOf Γ r) = none := by rw [e1, e2]; rfl
      obtain ⟨s1, s2⟩ := hs.1 hj
      simp only [ceval, val, hj, ihl _ h1 hc.1 s1, ihr _ h2 hc.2 s2]
      cases val rt Γ σ μ l <;> cases val rt Γ σ μ r <;> rfl
    by_cases c : op.hasFn = true
    · rw [emit_bin c] at h ⊢
      cases hw : resolve R (.bin op l r) with
      | none => rw [hw] at h; exact scal _ rfl h
      | some w =>
        rw [hw] at h
        obtain ⟨h1, h2, h3⟩ := ctype_op h
        have hj := op_join ha il ir h1 h2 hw
        obtain ⟨⟨s1, s2⟩, s3, s4⟩ := hs.2 w hj
        have vl : ceval rt σ μ (operand R w l (typeOf Γ l) (emit Γ R l)) = val rt Γ σ μ l :=
          operand_exact hk ha s1 (fun sp => ihl _ (by rw [operand_plain sp] at h1; exact h1) hc.1 (s2 sp)) h1
        have vr : ceval rt σ μ (operand R w r (typeOf Γ r) (emit Γ R r)) = val rt Γ σ μ r :=
          operand_exact hk ha s3 (fun sp => ihr _ (by rw [operand_plain sp] at h2; exact h2) hc.2 (s4 sp)) h2
        simp only [ceval, val, hj, vl, vr]
        cases val rt Γ σ μ l <;> cases val rt Γ σ μ r <;> rfl
    · rw [emit_bin64 c] at h ⊢
      exact scal _ rfl h

end

/-- An operand of an operation in a type is fine. -/
def Good (rt : Rt) (Γ : Name → Ty) (R : Reg) (σ : Name → Int) (μ : Ty → Nat → Int) (w : W) (e : Expr) : Prop :=
  OperandSafe Γ σ w e ∧ (¬ Special e → Casts Γ R e ∧ Safe rt Γ σ μ e)

/-- No conversion in a statement loses anything. -/
def StmtSafe (rt : Rt) (Γ : Name → Ty) (R : Reg) (σ : Name → Int) (μ : Ty → Nat → Int) : Stmt → Prop
  | .decl x w e => match e with
    | .bin _ l r => Good rt Γ ((x, w) :: R) σ μ w l ∧ Good rt Γ ((x, w) :: R) σ μ w r
    | e => Good rt Γ ((x, w) :: R) σ μ w e ∧
        (¬ Special e → wideOf Γ e = none → ∀ a, val rt Γ σ μ e = some a → Keeps w a)
  | .assign _ _ e => Casts Γ R e ∧ Safe rt Γ σ μ e
  | .compound _ _ w e => Good rt Γ R σ μ w e

section
variable {rt : Rt} {Γ : Name → Ty} {R : Reg} {Δ : Name → CTy} {σ : Name → Int} {μ : Ty → Nat → Int}

theorem good_exact (hk : Ok rt) (ha : Agree Γ R Δ) {w e t} (hs : Good rt Γ R σ μ w e)
    (hv : ctype Δ (operand R w e t (emit Γ R e)) = some (.wide w)) :
    ceval rt σ μ (operand R w e t (emit Γ R e)) = val rt Γ σ μ e :=
  operand_exact hk ha hs.1
    (fun sp => emit_exact hk ha _ _ (by rw [operand_plain sp] at hv; exact hv) (hs.2 sp).1 (hs.2 sp).2) hv

/-- A declared value that is not an operation, a literal or a variable. -/
theorem decl_plain (hk : Ok rt) (ha : Agree Γ R Δ) {w e} (sp : ¬ Special e) (hs : Good rt Γ R σ μ w e)
    (hkeep : wideOf Γ e = none → ∀ a, val rt Γ σ μ e = some a → Keeps w a)
    (hv : ctype Δ (if resolve R e = none then .make (!w.signed) w (emit Γ R e) else emit Γ R e) = some (.wide w)) :
    ceval rt σ μ (if resolve R e = none then .make (!w.signed) w (emit Γ R e) else emit Γ R e) =
      val rt Γ σ μ e := by
  obtain ⟨hc, hsafe⟩ := hs.2 sp
  by_cases c : resolve R e = none
  · rw [if_pos c] at hv ⊢
    obtain ⟨_, h2, _⟩ := ctype_make hv
    have hw := cty_scalar (emit_type ha _ _ h2 hc).1
    simp only [ceval, emit_exact hk ha _ _ h2 hc hsafe]
    cases hx : val rt Γ σ μ e with
    | none => rfl
    | some a => simp only [(keeps_make (hkeep hw a hx)).1]
  · rw [if_neg c] at hv ⊢
    exact emit_exact hk ha _ _ hv hc hsafe

end
end Wo

/-- What holds of C225: the value stored is that of the expression if every number converted from 64 bits is one that
the conversion to the type of the operation keeps, literals are numbers of their types and casts are between types
with a conversion. Missing: a negative `int` in the declaration of an unsigned variable and a `uint` of 2^63 or more
in a compound assignment to a signed one; the last part says what these operands are worth. -/
theorem C225_partial (rt : Rt) (Γ : Name → Ty) (R : Reg) (Δ : Name → CTy) (σ : Name → Int) (μ : Ty → Nat → Int)
    (hk : Ok rt) (ha : Agree Γ R Δ) :
    (∀ s, accepts Γ s = true → validC Γ R Δ s → StmtSafe rt Γ R σ μ s →
      ceval rt σ μ (stored Γ R s) = stmtVal rt Γ σ μ s) ∧
    (∀ e τ, ctype Δ (emit Γ R e) = some τ → Casts Γ R e → Safe rt Γ σ μ e →
      ceval rt σ μ (emit Γ R e) = val rt Γ σ μ e) ∧
    (∀ w x, lookup R x = none → ceval rt σ μ (operand R w (.var x) none (emit Γ R (.var x))) =
      some (if w.signed then toI64 (σ x) else toU64 (σ x))) := by
  refine ⟨?_, emit_exact hk ha, ?_⟩
  · intro s hacc hv hs
    cases s with
    | assign x w e => exact emit_exact hk ha _ _ hv hs.1 hs.2
    | compound op x w e =>
      obtain ⟨_, h2, _⟩ := ctype_op hv
      have := good_exact hk ha hs h2
      simp only [stored, ceval, stmtVal, this]
      cases val rt Γ σ μ e <;> rfl
    | decl x w e =>
      have hx : Γ x = .wide w := by
        simp only [accepts, Bool.and_eq_true, decide_eq_true_eq] at hacc
        exact hacc.1
      have ha' : Agree Γ ((x, w) :: R) Δ := ha.cons hx
      have hv' : ctype Δ (declValue Γ ((x, w) :: R) w e) = some (.wide w) := hv
      match e, hs with
      | .bin op l r, hs =>
        by_cases c : op.arith = true
        · simp only [declValue, if_pos c] at hv'
          obtain ⟨h1, h2, _⟩ := ctype_op hv'
          have e1 := good_exact hk ha' hs.1 h1
          have e2 := good_exact hk ha' hs.2 h2
          simp only [stored, declValue, if_pos c, ceval, stmtVal, e1, e2]
          cases val rt Γ σ μ l <;> cases val rt Γ σ μ r <;> rfl
        · simp only [declValue, if_neg c] at hv'
          exfalso
          by_cases c2 : op.hasFn = true
          · rw [emit_bin c2] at hv'
            have hcmp : op.cmp = true := by
              cases op <;> first | rfl | exact absurd rfl c | cases c2
            cases hr : resolve ((x, w) :: R) (.bin op l r) with
            | none =>
              rw [hr] at hv'
              cases (ctype_op64 hv').2.2
            | some v =>
              rw [hr] at hv'
              have := (ctype_op hv').2.2
              rw [hcmp] at this
              cases this
          · rw [emit_bin64 c2] at hv'
            cases (ctype_op64 hv').2.2
      | .lit n, hs => exact good_exact (t := none) (e := .lit n) hk ha' hs.1 hv'
      | .neg (.lit n), hs => exact good_exact (t := none) (e := .neg (.lit n)) hk ha' hs.1 hv'
      | .var y, hs =>
        simp only [declValue] at hv'
        by_cases c : resolve ((x, w) :: R) (.var y) = none
        · rw [if_pos c] at hv'
          simp only [stored, declValue, if_pos c, ceval, stmtVal, emit]
          have hw : wideOf Γ (.var y) = none := by rw [wideOf_var ha']; exact c
          rw [(keeps_make (hs.1.1 hw)).1]
          rfl
        · simp only [stored, declValue, if_neg c, ceval, stmtVal, emit]
          rfl
      | .other t k, hs => exact decl_plain (e := .other t k) hk ha' not_false hs.1 (hs.2 not_false) hv'
      | .deref t k, hs => exact decl_plain (e := .deref t k) hk ha' not_false hs.1 (hs.2 not_false) hv'
      | .ctor v e, hs => exact decl_plain (e := .ctor v e) hk ha' not_false hs.1 (hs.2 not_false) hv'
      | .cast v e, hs => exact decl_plain (e := .cast v e) hk ha' not_false hs.1 (hs.2 not_false) hv'
      | .neg (.var y), hs => exact decl_plain (e := .neg (.var y)) hk ha' not_false hs.1 (hs.2 not_false) hv'
      | .neg (.other t k), hs => exact decl_plain (e := .neg (.other t k)) hk ha' not_false hs.1 (hs.2 not_false) hv'
      | .neg (.deref t k), hs => exact decl_plain (e := .neg (.deref t k)) hk ha' not_false hs.1 (hs.2 not_false) hv'
      | .neg (.ctor v e), hs => exact decl_plain (e := .neg (.ctor v e)) hk ha' not_false hs.1 (hs.2 not_false) hv'
      | .neg (.cast v e), hs => exact decl_plain (e := .neg (.cast v e)) hk ha' not_false hs.1 (hs.2 not_false) hv'
      | .neg (.neg e), hs => exact decl_plain (e := .neg (.neg e)) hk ha' not_false hs.1 (hs.2 not_false) hv'
      | .neg (.bin o l r), hs => exact decl_plain (e := .neg (.bin o l r)) hk ha' not_false hs.1 (hs.2 not_false) hv'
  · intro w x hl
    simp only [operand, hl, emit, ceval]
    cases w.signed <;> rfl

/-- `mut x u128 = b + 5 * b` is such a statement. -/
example : accepts Γ0 (.decl 3 .u128 (.bin .add (.var 3) (.bin .mul (.var 3) (.lit 5)))) = true ∧
    validC Γ0 R0 (fun x => (Γ0 x).c) (.decl 3 .u128 (.bin .add (.var 3) (.bin .mul (.var 3) (.lit 5)))) ∧
    StmtSafe exact Γ0 R0 σ0 (fun _ _ => 0) (.decl 3 .u128 (.bin .add (.var 3) (.bin .mul (.var 3) (.lit 5)))) := by
  refine ⟨by decide, by decide, ⟨by simp [OperandSafe, wideOf, Γ0], by simp [Special]⟩, ⟨trivial, ?_⟩⟩
  intro _
  refine ⟨⟨trivial, trivial⟩, by simp [wideOf, Γ0, join], ?_⟩
  intro w hw
  simp only [wideOf, Γ0, join] at hw
  cases hw
  exact ⟨⟨by simp [OperandSafe, wideOf, Γ0], by simp [Special]⟩, by simp [OperandSafe, W.has], by simp [Special]⟩

/-! ### C226 -/
namespace Wo

/-- The variables of an expression. -/
def vars : Expr → List Name
  | .var x => [x]
  | .ctor _ e => vars e
  | .cast _ e => vars e
  | .neg e => vars e
  | .bin _ l r => vars l ++ vars r
  | _ => []

/-- The value of a statement. -/
def body : Stmt → Expr
  | .decl _ _ e => e
  | .assign _ _ e => e
  | .compound _ _ _ e => e

theorem resolve_congr {R R' : Reg} : ∀ e, (∀ x ∈ vars e, lookup R x = lookup R' x) → resolve R e = resolve R' e := by
  intro e
  induction e with
  | var x => intro h; exact h x (List.mem_singleton.mpr rfl)
  | neg e ih => intro h; exact ih h
  | bin op l r ihl ihr =>
    intro h
    simp only [resolve]
    rw [ihl fun x hx => h x (List.mem_append_left _ hx), ihr fun x hx => h x (List.mem_append_right _ hx)]
  | deref t k => intro _; cases t <;> rfl
  | _ => intro _; rfl

theorem castSource_congr {Γ : Name → Ty} {R R' : Reg} {e} (h : ∀ x ∈ vars e, lookup R x = lookup R' x) :
    castSource Γ R e = castSource Γ R' e := by
  unfold castSource
  rw [resolve_congr e h]

theorem operand_congr {R R' : Reg} {w e t c} (h : ∀ x ∈ vars e, lookup R x = lookup R' x) :
    operand R w e t c = operand R' w e t c := by
  by_cases sp : Special e
  · match e, sp with
    | .lit n, _ => rfl
    | .neg (.lit n), _ => rfl
    | .var x, _ =>
      simp only [operand]
      rw [h x (List.mem_singleton.mpr rfl)]
  · rw [operand_plain sp, operand_plain sp]

theorem emit_congr {Γ : Name → Ty} {R R' : Reg} : ∀ e, (∀ x ∈ vars e, lookup R x = lookup R' x) →
    emit Γ R e = emit Γ R' e := by
  intro e
  induction e with
  | ctor w e ih => intro h; simp only [emit]; rw [resolve_congr e h, ih h]
  | cast w e ih => intro h; simp only [emit]; rw [castSource_congr (e := e) h, ih h]
  | neg e ih => intro h; simp only [emit]; rw [resolve_congr e h, ih h]
  | bin op l r ihl ihr =>
    intro h
    have hl : ∀ x ∈ vars l, lookup R x = lookup R' x := fun x hx => h x (List.mem_append_left _ hx)
    have hr : ∀ x ∈ vars r, lookup R x = lookup R' x := fun x hx => h x (List.mem_append_right _ hx)
    by_cases c : op.hasFn = true
    · rw [emit_bin c, emit_bin c, resolve_congr _ h, ihl hl, ihr hr]
      cases resolve R' (.bin op l r) with
      | none => rfl
      | some w => simp only [operand_congr hl, operand_congr hr]
    · rw [emit_bin64 c, emit_bin64 c, ihl hl, ihr hr]
  | _ => intro _; rfl

theorem declValue_congr {Γ : Name → Ty} {R R' : Reg} {w e} (h : ∀ x ∈ vars e, lookup R x = lookup R' x) :
    declValue Γ R w e = declValue Γ R' w e := by
  unfold declValue
  split
  · rfl
  · rfl
  · rename_i op l r
    have hl : ∀ x ∈ vars l, lookup R x = lookup R' x := fun x hx => h x (List.mem_append_left _ hx)
    have hr : ∀ x ∈ vars r, lookup R x = lookup R' x := fun x hx => h x (List.mem_append_right _ hx)
    rw [emit_congr l hl, emit_congr r hr, operand_congr hl, operand_congr hr, emit_congr _ h]
  · rw [resolve_congr _ h, emit_congr _ h]

theorem lookup_append (R R' : Reg) (x : Name) : lookup (R ++ R') x = match lookup R x with
    | some w => some w
    | none => lookup R' x := by
  induction R with
  | nil => rfl
  | cons p R ih =>
    obtain ⟨y, w⟩ := p
    simp only [List.cons_append, lookup]
    by_cases c : y = x
    · rw [if_pos c, if_pos c]
    · rw [if_neg c, if_neg c]; exact ih

theorem registered_snoc (fs : List Fn) (f : Fn) : registered (fs ++ [f]) = registered [f] ++ registered fs := by
  induction fs with
  | nil => simp [registered]
  | cons g fs ih => simp only [List.cons_append, registered] at ih ⊢; rw [ih]; simp

end Wo

/-- C226: what is emitted for a statement of a function does not depend on the functions before it. -/
def C226_statement : Prop :=
  ∀ (before : List Fn) (f : Fn) (Γ : Name → Ty) (Δ : Name → CTy) (s : Stmt),
    Agree Γ (registered [f]) Δ → accepts Γ s = true →
    stored Γ (registered (before ++ [f])) s = stored Γ (registered [f]) s

namespace Wo

/-- The function with the statement: `a` is an `i128`, everything else an `int`. -/
def Γ1 : Name → Ty
  | 0 => .wide .i128
  | _ => .int

theorem agree1 : Agree Γ1 (registered [⟨[], [(0, .i128)]⟩]) (fun x => (Γ1 x).c) := by
  intro x
  refine ⟨rfl, ?_⟩
  match x with
  | 0 => rfl
  | x + 1 => simp [registered, lookup, Γ1]

end Wo

/-- After a function with a variable `n i128`, `mut a i128 = a + n` in a function whose `n` is an `int` is not valid
C; without that function it is. A `n u128` in the function before makes `mut a i128 = a * -n` invalid as well. -/
theorem C226_witness :
    (accepts Γ1 (.decl 0 .i128 (.bin .add (.var 0) (.var 1))) = true ∧
     validC Γ1 (registered [⟨[], [(0, .i128)]⟩]) (fun x => (Γ1 x).c) (.decl 0 .i128 (.bin .add (.var 0) (.var 1))) ∧
     ¬ validC Γ1 (registered [⟨[(1, .i128)], []⟩, ⟨[], [(0, .i128)]⟩]) (fun x => (Γ1 x).c)
       (.decl 0 .i128 (.bin .add (.var 0) (.var 1)))) ∧
    ctype (fun x => (Γ1 x).c) (emit Γ1 (registered []) (.bin .add (.var 1) (.lit 1))) = some .scalar ∧
    ctype (fun x => (Γ1 x).c) (emit Γ1 (registered [⟨[], [(1, .u256)]⟩]) (.bin .add (.var 1) (.lit 1))) = none := by
  decide

theorem C226_fails : ¬ C226_statement := by
  intro h
  obtain ⟨⟨h1, h2, h3⟩, _⟩ := C226_witness
  have := h [⟨[(1, .i128)], []⟩] ⟨[], [(0, .i128)]⟩ Γ1 _ _ agree1 h1
  apply h3
  unfold validC
  rw [show [(⟨[(1, W.i128)], []⟩ : Fn), ⟨[], [(0, .i128)]⟩] = [⟨[(1, .i128)], []⟩] ++ [⟨[], [(0, .i128)]⟩] from rfl, this]
  exact h2

/-- What holds of C226: a statement is emitted as if the functions before were not there if no variable in it that is
not wide has the name of a wide one of those functions. Missing: such variables. -/
theorem C226_partial (before : List Fn) (f : Fn) (Γ : Name → Ty) (Δ : Name → CTy) (ha : Agree Γ (registered [f]) Δ) :
    (∀ s, (∀ x ∈ vars (body s), (Γ x).c = .scalar → lookup (registered before) x = none) →
      stored Γ (registered (before ++ [f])) s = stored Γ (registered [f]) s) ∧
    (∀ e, (∀ x ∈ vars e, (Γ x).c = .scalar → lookup (registered before) x = none) →
      emit Γ (registered (before ++ [f])) e = emit Γ (registered [f]) e) ∧
    (∀ x w, lookup (registered [f]) x = none → lookup (registered before) x = some w →
      resolve (registered (before ++ [f])) (.var x) = some w) := by
  have key : ∀ e, (∀ x ∈ vars e, (Γ x).c = .scalar → lookup (registered before) x = none) →
      ∀ x ∈ vars e, lookup (registered (before ++ [f])) x = lookup (registered [f]) x := by
    intro e h x hx
    rw [registered_snoc, lookup_append]
    cases hl : lookup (registered [f]) x with
    | some w => rfl
    | none => exact h x hx (ha.narrow hl).1
  refine ⟨?_, fun e h => emit_congr e (key e h), ?_⟩
  · intro s h
    cases s with
    | decl x w e =>
      refine declValue_congr ?_
      intro y hy
      simp only [lookup]
      rw [key e h y hy]
    | assign x w e => exact emit_congr e (key e h)
    | compound op x w e =>
      simp only [stored]
      rw [operand_congr (key e h), emit_congr e (key e h)]
  · intro x w h1 h2
    simp only [resolve]
    rw [registered_snoc, lookup_append, h1, h2]

example : ∀ x ∈ vars (.bin .add (.var 0) (.var 1)), (Γ1 x).c = .scalar →
    lookup (registered [⟨[(2, .i128)], [(0, .u256)]⟩]) x = none := by decide

/-! ### C227 -/

/-- C227: the type the checker gives to an expression is that of its C text. -/
def C227_statement : Prop :=
  ∀ (Γ : Name → Ty) (R : Reg) (Δ : Name → CTy) (e : Expr) (t : Ty) (τ : CTy),
    Agree Γ R Δ → typeOf Γ e = some t → ctype Δ (emit Γ R e) = some τ → τ = t.c

/-- `i128(5)` is an `int` for the checker and a structure in C, and so is `1 + a` for an `i128` `a`. -/
theorem C227_witness :
    (typeOf Γ0 (.ctor .i128 (.lit 5)) = some .int ∧
     ctype (fun x => (Γ0 x).c) (emit Γ0 R0 (.ctor .i128 (.lit 5))) = some (.wide .i128)) ∧
    (typeOf Γ0 (.bin .add (.lit 1) (.var 0)) = some .int ∧
     ctype (fun x => (Γ0 x).c) (emit Γ0 R0 (.bin .add (.lit 1) (.var 0))) = some (.wide .i128)) ∧
    (typeOf Γ0 (.cast .u256 (.var 0)) = some (.wide .u256) ∧
     ctype (fun x => (Γ0 x).c) (emit Γ0 R0 (.cast .u256 (.var 0))) = some (.wide .i128)) := by decide

theorem C227_fails : ¬ C227_statement := by
  intro h
  obtain ⟨⟨h1, h2⟩, _⟩ := C227_witness
  cases h _ _ _ _ _ _ agree0 h1 h2

namespace Wo

/-- No constructors, and the left operand of an operation is as wide as the right one; bit operators have no wide right
operand. -/
def Plain (Γ : Name → Ty) : Expr → Prop
  | .ctor _ _ => False
  | .cast _ e => Plain Γ e
  | .neg e => Plain Γ e
  | .bin op l r => Plain Γ l ∧ Plain Γ r ∧ (op.cmp = false → wideOf Γ l = none ∨ op.hasFn = false → wideOf Γ r = none)
  | _ => True

theorem meets_rank {a b : W} (h : meets a b = true) : ¬ a.rank < b.rank := by
  cases a <;> cases b <;> first | decide | cases h

theorem plain_type {Γ : Name → Ty} : ∀ e t, typeOf Γ e = some t → Plain Γ e →
    t.c = cty (wideOf Γ e) := by
  intro e
  induction e with
  | lit n => intro t h _; cases h; rfl
  | var x => intro t h _; cases h; simp only [wideOf]; cases Γ x <;> rfl
  | other s k => intro t h _; cases h; cases s <;> rfl
  | deref s k => intro t h _; cases h; cases s <;> rfl
  | ctor w e ih => intro t h hp; exact hp.elim
  | cast w e ih =>
    intro t h _
    simp only [typeOf] at h
    split at h
    · cases h; rfl
    · cases h
  | neg e ih =>
    intro t h hp
    simp only [typeOf] at h
    split at h
    · rename_i ht; cases h; exact ih _ ht hp
    · rename_i w ht
      split at h
      · cases h; exact ih _ ht hp
      · cases h
    · cases h
  | bin op l r ihl ihr =>
    intro t h hp
    obtain ⟨p1, p2, p3⟩ := hp
    simp only [typeOf] at h
    cases ha : typeOf Γ l with
    | none => simp [ha] at h
    | some a =>
      cases hb : typeOf Γ r with
      | none => simp [ha, hb] at h
      | some b =>
        have el := ihl _ ha p1
        have er := ihr _ hb p2
        simp only [ha, hb] at h
        by_cases c1 : refuses op a b = true
        · rw [if_pos c1] at h; cases h
        · rw [if_neg c1] at h
          by_cases c2 : ((decide (op = .div) || decide (op = .mod)) && decide (r = .lit 0)) = true
          · rw [if_pos c2] at h; cases h
          · rw [if_neg c2] at h
            by_cases c3 : op.cmp = true
            · rw [if_pos c3] at h; cases h
              simp only [wideOf, if_pos c3]
              rfl
            · rw [if_neg c3] at h; cases h
              have c3' : op.cmp = false := by simpa using c3
              simp only [wideOf, if_neg c3]
              cases hl : wideOf Γ l with
              | none =>
                rw [p3 c3' (.inl hl)]
                rw [hl] at el
                exact el
              | some w =>
                rw [hl] at el
                rw [el]
                cases hr : wideOf Γ r with
                | none => rfl
                | some v =>
                  rw [hr] at er
                  have ea : t = .wide w := by cases t <;> cases el; rfl
                  have eb : b = .wide v := by cases b <;> cases er; rfl
                  by_cases c4 : op.hasFn = true
                  · have : meets w v = true := by
                      subst ea; subst eb
                      simp only [refuses, c4, Bool.true_and, Bool.or_eq_true, Bool.not_eq_true', not_or] at c1
                      simpa using c1.2
                    simp only [join]
                    rw [if_neg (meets_rank this)]
                  · rw [p3 c3' (.inr (by simpa using c4))] at hr
                    cases hr

end Wo

/-- What holds of C227: the types agree for expressions with casts between types that can be converted, without
constructors and without a 64-bit left operand of an operation on wide integers; and if the checker finds a wide
type, the C text has it. Missing: constructors, which the checker takes to be `int` or `uint`; `1 + a`. -/
theorem C227_partial (Γ : Name → Ty) (R : Reg) (Δ : Name → CTy) (ha : Agree Γ R Δ) (e : Expr) (τ : CTy)
    (h : ctype Δ (emit Γ R e) = some τ) (hc : Casts Γ R e) :
    (∀ t, typeOf Γ e = some t → Plain Γ e → τ = t.c) ∧ (∀ w, typeOf Γ e = some (.wide w) → τ = .wide w) ∧
    τ = cty (wideOf Γ e) := by
  obtain ⟨h1, h2, h3⟩ := emit_type ha e τ h hc
  refine ⟨?_, ?_, h1⟩
  · intro t ht hp
    rw [h1]
    exact (plain_type e t ht hp).symm
  · intro w hw
    rw [h1, h2 w hw]
    rfl

example : ∃ τ, ctype (fun x => (Γ0 x).c) (emit Γ0 R0 (.bin .mul (.var 0) (.lit 3))) = some τ ∧
    Casts Γ0 R0 (.bin .mul (.var 0) (.lit 3)) ∧ Plain Γ0 (.bin .mul (.var 0) (.lit 3)) :=
  ⟨.wide .i128, by decide, ⟨trivial, trivial⟩, trivial, trivial, by simp [wideOf]⟩

end Verif.Props

import Verif.Props.Emit

/-! Claim C201: the text of an accepted expression is an expression that a C compiler accepts. -/

namespace Verif.Props
open Verif Verif.Str Verif.Emit
open Em

namespace Em

/-- Types of C expressions; the arithmetic types (C11 6.2.5:18) are not told apart. -/
inductive CT where
  | num | string | array | map
  | ptr (t : CT)
  deriving DecidableEq, Repr

def ct : Kind → CT
  | .str => .string
  | .arr => .array
  | .map => .map
  | _ => .num

/-- The declarations in sight: variables, the types of the literals, functions with their parameters and result. -/
structure Ctx where
  var : Str → Option CT
  lit : Nat → CT
  fn : Str → Option (List CT × CT)

def Ctx.put (Γ : Ctx) (x : Str) (t : Option CT) : Ctx := { Γ with var := fun y => if y = x then t else Γ.var y }

/-- C11 6.5.5-6.5.14: the operands of a binary operator are arithmetic; pointers can be compared with `==` and `!=`. -/
def binTy : Op → CT → CT → Option CT
  | _, .num, .num => some .num
  | .ne, .ptr _, .ptr _ => some .num
  | .eq, .ptr _, .ptr _ => some .num
  | _, _, _ => none

/-- The parameters of the functions of the runtime. -/
def callTy (Γ : Ctx) : Fn → List CT → Option CT
  | .user f, ts => (Γ.fn f).bind fun (ps, r) => if ps = ts then some r else none
  | .negCheck, [.num] => some .num
  | .check _, [.num, .num] => some .num
  | .stringEq, [.string, .string] => some .num
  | .contains, [.ptr .array, _] => some .num
  | .contains, [.string, .num] => none
  | .contains, [.string, .string] => some .num
  | .hasKey, [.ptr .map, .ptr _] => some .num
  | .memchr, [.ptr .num, .num, .num] => some (.ptr .num)
  | _, _ => none

/-- C11 6.5.3.2: the operand of `&` is a variable. -/
def lvalue : CE → Bool
  | .id _ => true
  | _ => false

/-- C11 6.5.3.3, 6.5.3.2. -/
def preTy (p : Pre) (lv : Bool) (t : CT) : Option CT :=
  match p with
  | .addr => if lv then some (.ptr t) else none
  | _ => if t = .num then some .num else none

/-- Fields of `GrayString` (runtime.h). -/
def dotTy (f : Str) (t : CT) : Option CT :=
  if t = .string ∧ f = Str.lit "data" then some (.ptr .num)
  else if t = .string ∧ f = Str.lit "len" then some .num
  else none

/-- The type of a C expression, if it has one. -/
def cty : Ctx → CE → Option CT
  | Γ, .id x => Γ.var x
  | Γ, .num n => some (Γ.lit n)
  | Γ, .call0 f => callTy Γ f []
  | Γ, .call1 f a => do
    let s ← cty Γ a
    callTy Γ f [s]
  | Γ, .call2 f a b => do
    let s ← cty Γ a
    let t ← cty Γ b
    callTy Γ f [s, t]
  | Γ, .call3 f a b c => do
    let s ← cty Γ a
    let t ← cty Γ b
    let u ← cty Γ c
    callTy Γ f [s, t, u]
  | Γ, .bin o l r => do
    let s ← cty Γ l
    let t ← cty Γ r
    binTy o s t
  | Γ, .pre p e => (cty Γ e).bind (preTy p (lvalue e))
  | Γ, .cast e => (cty Γ e).bind fun t => if t = .num then some .num else none
  | Γ, .dot e f => (cty Γ e).bind (dotTy f)
  | Γ, .letIn auto x i b => do
    let t ← cty (if auto then Γ else Γ.put x none) i
    cty (Γ.put x (some t)) b

/-- The declarations are those the type checker has for the names of the expression. -/
def Agrees (Γ : Ctx) : Ex → Prop
  | .var x k => Γ.var x = some (ct k)
  | .lit n k => Γ.lit n = ct k
  | .call0 f k => Γ.fn f = some ([], ct k)
  | .call2 f a b k => Agrees Γ a ∧ Agrees Γ b ∧ Γ.fn f = some ([ct (kind a), ct (kind b)], ct k)
  | .neg e | .not e | .bnot e => Agrees Γ e
  | .inf _ l r => Agrees Γ l ∧ Agrees Γ r
  | .mem _ l r => Agrees Γ l ∧ Agrees Γ r
  | .range _ l s e => Agrees Γ l ∧ Agrees Γ s ∧ Agrees Γ e

def isVar : Ex → Bool
  | .var .. => true
  | _ => false

/-- Containers are not ordered or joined by `&&` and `||`, and only variables are searched. -/
def compiles : Ex → Bool
  | .var .. | .lit .. | .call0 .. => true
  | .call2 _ a b _ => compiles a && compiles b
  | .neg e | .not e | .bnot e => compiles e
  | .inf o l r => compiles l && compiles r &&
    (!(o.isLogic || o = .lt || o = .gt || o = .le || o = .ge) || (ct (kind l) = .num && ct (kind r) = .num))
  | .mem _ l r => compiles l && compiles r && (kind r = .str || isVar r)
  | .range _ l s e => compiles l && compiles s && compiles e

theorem Agrees.put {Γ : Ctx} {e x t} (h : Agrees Γ e) (hx : x ∉ vars e) : Agrees (Γ.put x t) e := by
  induction e with
  | var y k =>
    have : y ≠ x := fun h1 => hx (by simp [vars, h1])
    show (if y = x then t else Γ.var y) = _
    rw [if_neg this]
    exact h
  | lit n k => exact h
  | call0 f k => exact h
  | call2 f a b k iha ihb =>
    simp only [vars, List.mem_append, not_or] at hx
    exact ⟨iha h.1 hx.1, ihb h.2.1 hx.2, h.2.2⟩
  | neg e ih | not e ih | bnot e ih => exact ih h hx
  | inf o l r ihl ihr =>
    simp only [vars, List.mem_append, not_or] at hx
    exact ⟨ihl h.1 hx.1, ihr h.2 hx.2⟩
  | mem n l r ihl ihr =>
    simp only [vars, List.mem_append, not_or] at hx
    exact ⟨ihl h.1 hx.1, ihr h.2 hx.2⟩
  | range n l s e ihl ihs ihe =>
    simp only [vars, List.mem_append, not_or] at hx
    exact ⟨ihl h.1 hx.1, ihs h.2.1 hx.2.1, ihe h.2.2 hx.2.2⟩

/-- What the induction says. -/
def ty? (e : Ex) : Option CT := if compiles e then some (ct (kind e)) else none

theorem binTy_num {o : Op} (h : o ≠ .ne) (h' : o ≠ .eq) (s t : CT) : binTy o s t = if s = .num ∧ t = .num then some .num else none := by
  cases o <;> cases s <;> cases t <;> first | rfl | exact absurd rfl h | exact absurd rfl h' | (simp [binTy])

theorem cty_castOn (Γ : Ctx) (p : Option Op) (c : CE) (hc : cty Γ c = some .num ∨ cty Γ c = none)
    (hp : ∀ q, p = some q → ∃ a b, c = .bin q a b ∧ q ≠ .ne ∧ q ≠ .eq) : cty Γ (castOn p c) = cty Γ c := by
  cases p with
  | none =>
    show (cty Γ c).bind _ = _
    rcases hc with h | h <;> rw [h] <;> rfl
  | some q =>
    obtain ⟨a, b, rfl, h1, h2⟩ := hp q rfl
    show (do let s ← (cty Γ a).bind _; let t ← cty Γ b; binTy q s t) = (do let s ← cty Γ a; let t ← cty Γ b; binTy q s t)
    cases ha : cty Γ a with
    | none => rfl
    | some s =>
      by_cases hs : s = .num
      · subst hs
        rfl
      · cases hb : cty Γ b <;> simp [hs, binTy_num h1 h2]

theorem cty_divOn (Γ : Ctx) (p : Option Op) (c : CE) (hd : Γ.var dv = some .num) (hc : cty Γ c = some .num ∨ cty Γ c = none)
    (hp : ∀ q, p = some q → ∃ a b, c = .bin q a b ∧ (q = .add ∨ q = .sub ∨ q = .mul)) : cty Γ (divOn .div p c) = cty Γ c := by
  have hd : cty Γ (.id dv) = some .num := hd
  have hdiv : ∀ c, cty Γ (.bin .div c (.id dv)) = (cty Γ c).bind fun s => if s = .num then some .num else none := by
    intro c
    show (do let s ← cty Γ c; let t ← cty Γ (.id dv); binTy .div s t) = _
    rw [hd]
    cases cty Γ c with
    | none => rfl
    | some s => simp [binTy_num]
  cases p with
  | none =>
    have : divOn .div none c = .bin .div (.cast c) (.id dv) := rfl
    rw [this, hdiv]
    show ((cty Γ c).bind _).bind _ = _
    rcases hc with h | h <;> rw [h] <;> rfl
  | some q =>
    obtain ⟨a, b, rfl, h1⟩ := hp q rfl
    have hb : ∀ q x y, cty Γ (.bin q x y) = (do let s ← cty Γ x; let t ← cty Γ y; binTy q s t) := fun _ _ _ => rfl
    have hcst : ∀ x, cty Γ (.cast x) = (cty Γ x).bind fun t => if t = .num then some .num else none := fun _ => rfl
    have key : ∀ q, q = .add ∨ q = .sub → cty Γ (.bin q (.cast a) (.bin .div b (.id dv))) = cty Γ (.bin q a b) := by
      intro q hq
      have n1 : q ≠ .ne := by rcases hq with rfl | rfl <;> decide
      have n2 : q ≠ .eq := by rcases hq with rfl | rfl <;> decide
      rw [hb q a b, hb q, hcst, hdiv]
      cases cty Γ a with
      | none => rfl
      | some s =>
        by_cases hs : s = .num
        · subst hs
          cases cty Γ b with
          | none => rfl
          | some t =>
            by_cases ht : t = .num
            · subst ht
              rfl
            · simp [ht, binTy_num n1 n2]
        · cases cty Γ b <;> simp [hs, binTy_num n1 n2]
    rcases h1 with rfl | rfl | rfl
    · exact key _ (.inl rfl)
    · exact key _ (.inr rfl)
    · have : divOn .div (some .mul) (.bin .mul a b) = .bin .div (.bin .mul (.cast a) b) (.id dv) := rfl
      rw [this, hdiv]
      have := cty_castOn Γ (some .mul) (.bin .mul a b) hc (fun q hq => by cases hq; exact ⟨a, b, rfl, by decide, by decide⟩)
      have this : cty Γ (.bin .mul (.cast a) b) = _ := this
      rw [this]
      rcases hc with h | h <;> rw [h] <;> rfl

theorem raw_binTy : ∀ o kl kr, okInf o kl kr = true → shape o kl kr = .raw →
    binTy o (ct kl) (ct kr) =
      (if (!(o.isLogic || o = .lt || o = .gt || o = .le || o = .ge) || (ct kl = .num && ct kr = .num)) = true then some .num else none) ∧
    ct (infKind o kl kr) = .num := by
  intro o kl kr
  cases o <;> cases kl <;> cases kr <;> decide

/-- Everything that is not written as operands and operator has numbers or strings as operands. -/
theorem shape_ct : ∀ o kl kr, okInf o kl kr = true → shape o kl kr ≠ .raw →
    (!(o.isLogic || o = .lt || o = .gt || o = .le || o = .ge) || (ct kl = .num && ct kr = .num)) = true ∧ ct (infKind o kl kr) = .num ∧
    (if shape o kl kr = .strEq ∨ shape o kl kr = .strNe then ct kl = .string ∧ ct kr = .string else ct kl = .num ∧ ct kr = .num) := by
  intro o kl kr
  cases o <;> cases kl <;> cases kr <;> decide

theorem ct_num {k : Kind} (h : numeric k = true) : ct k = .num := by cases k <;> first | rfl | cases h

theorem ct_intish {k : Kind} (h : intish k = true) : ct k = .num := by cases k <;> first | rfl | cases h

theorem typed (e : Ex) (ha : accepted e = true) (hc : noCapture e) (Γ : Ctx) (hn : Γ.var null = some (.ptr .num)) (hg : Agrees Γ e) :
    cty Γ (ctree e) = ty? e := by
  induction e generalizing Γ with
  | var x k => exact hg
  | lit n k => exact congrArg some hg
  | call0 f k =>
    show (Γ.fn f).bind _ = _
    rw [show Γ.fn f = some ([], ct k) from hg]
    rfl
  | call2 f a b k iha ihb =>
    simp only [accepted, Bool.and_eq_true] at ha
    obtain ⟨ga, gb, gf⟩ := hg
    show (do let s ← cty Γ (ctree a); let t ← cty Γ (ctree b); callTy Γ (.user f) [s, t]) = _
    rw [iha ha.1 hc.1 Γ hn ga, ihb ha.2 hc.2 Γ hn gb]
    cases h1 : compiles a <;> cases h2 : compiles b <;> simp [ty?, h1, h2, compiles, kind, callTy, gf]
  | neg e ih =>
    simp only [accepted, Bool.and_eq_true] at ha
    have h := ih ha.1.1 hc Γ hn hg
    have hk := ct_num ha.1.2
    rw [ctree]
    have e2 : ty? (.neg e) = ty? e := rfl
    rw [e2]
    split_ifs
    · show (do let s ← cty Γ (ctree e); callTy Γ .negCheck [s]) = _
      rw [h]
      unfold ty?
      split_ifs <;> simp [hk, callTy]
    · show (cty Γ (ctree e)).bind (preTy .minus (lvalue (ctree e))) = _
      rw [h]
      unfold ty?
      split_ifs <;> simp [hk, preTy]
  | not e ih =>
    simp only [accepted, Bool.and_eq_true, decide_eq_true_eq] at ha
    show (cty Γ (ctree e)).bind (preTy .bang (lvalue (ctree e))) = _
    rw [ih ha.1 hc Γ hn hg]
    have e2 : ty? (.not e) = if compiles e then some .num else none := rfl
    rw [e2]
    unfold ty?
    split_ifs <;> simp [ha.2, preTy, ct]
  | bnot e ih =>
    simp only [accepted, Bool.and_eq_true] at ha
    have hk := ct_intish ha.2
    have h : cty Γ (.pre .tilde (ctree e)) = ty? e := by
      show (cty Γ (ctree e)).bind (preTy .tilde (lvalue (ctree e))) = _
      rw [ih ha.1 hc Γ hn hg]
      unfold ty?
      split_ifs <;> simp [hk, preTy]
    have e2 : ty? (.bnot e) = ty? e := rfl
    rw [ctree, e2]
    split_ifs
    · show (cty Γ (.pre .tilde (ctree e))).bind _ = _
      rw [h]
      unfold ty?
      split_ifs <;> simp [hk]
    · exact h
  | inf o l r ihl ihr =>
    obtain ⟨al, ar, ok⟩ := acc_inf ha
    obtain ⟨cl, cr, cs, cd⟩ := hc
    obtain ⟨gl, gr⟩ := hg
    have hl := fun Γ hn gl => ihl al cl Γ hn gl
    have hr := fun Γ hn gr => ihr ar cr Γ hn gr
    obtain ⟨k0, k1, k2, k3, k4, k5, k7, k8, k6⟩ := shape_kinds _ _ _ ok
    have hb : ∀ Γ q x y, cty Γ (.bin q x y) = (do let s ← cty Γ x; let t ← cty Γ y; binTy q s t) := fun _ _ _ _ => rfl
    have hput : ∀ x t, x ≠ null → (Γ.put x t).var null = some (.ptr .num) := fun x t hx => by
      show (if null = x then t else Γ.var null) = _
      rw [if_neg (fun h => hx h.symm)]
      exact hn
    have hself : ∀ (Γ : Ctx) x t, cty (Γ.put x t) (.id x) = t := fun Γ x t => by
      show (if x = x then t else Γ.var x) = t
      rw [if_pos rfl]
    rw [ctree]
    by_cases hs : shape o (kind l) (kind r) = .raw
    · obtain ⟨b1, b2⟩ := raw_binTy _ _ _ ok hs
      rw [hs, shapeTree, hb, hl Γ hn gl, hr Γ hn gr]
      simp only [ty?, compiles, kind, b2]
      cases compiles l <;> cases compiles r <;> simp [b1]
    · obtain ⟨b1, b2, b3⟩ := shape_ct _ _ _ ok hs
      have hty : ty? (.inf o l r) = if compiles l && compiles r then some .num else none := by
        simp only [ty?, compiles, kind, b2, b1, Bool.and_true]
      rw [hty]
      -- operands that are numbers
      have num2 : ∀ Γ (q : Op) x y, q ≠ .ne → q ≠ .eq → cty Γ x = ty? l → cty Γ y = some .num → ct (kind l) = .num →
          cty Γ (.bin q x y) = if compiles l then some .num else none := by
        intro Γ q x y h1 h2 h3 h4 h5
        rw [hb, h3, h4]
        unfold ty?
        split_ifs <;> simp [binTy_num h1 h2, h5]
      cases hsh : shape o (kind l) (kind r) with
      | none => exact absurd hsh k0
      | raw => exact absurd hsh hs
      | strEq =>
        rw [hsh] at b3
        obtain ⟨b3, b4⟩ := b3
        show (do let s ← cty Γ (ctree l); let t ← cty Γ (ctree r); callTy Γ .stringEq [s, t]) = _
        rw [hl Γ hn gl, hr Γ hn gr]
        cases h1 : compiles l <;> cases h2 : compiles r <;> simp [ty?, h1, h2, callTy, b3, b4]
      | strNe =>
        rw [hsh] at b3
        obtain ⟨b3, b4⟩ := b3
        show (do let s ← cty Γ (ctree l); let t ← cty Γ (ctree r); callTy Γ .stringEq [s, t]).bind (preTy .bang false) = _
        rw [hl Γ hn gl, hr Γ hn gr]
        cases h1 : compiles l <;> cases h2 : compiles r <;> simp [ty?, h1, h2, callTy, b3, b4, preTy]
      | check =>
        rw [hsh] at b3
        obtain ⟨b3, b4⟩ := b3
        show (do let s ← cty Γ (ctree l); let t ← cty Γ (ctree r); callTy Γ (.check o) [s, t]) = _
        rw [hl Γ hn gl, hr Γ hn gr]
        cases h1 : compiles l <;> cases h2 : compiles r <;> simp [ty?, h1, h2, callTy, b3, b4]
      | bit =>
        rw [hsh] at b3
        obtain ⟨b3, b4⟩ := b3
        have ho := (k1 hsh).2.2
        have n1 : o ≠ .ne := by rintro rfl; cases ho
        have n2 : o ≠ .eq := by rintro rfl; cases ho
        rw [shapeTree, hb, hl Γ hn gl, hr Γ hn gr]
        cases h1 : compiles l <;> cases h2 : compiles r <;> simp [ty?, h1, h2, b3, b4, binTy_num n1 n2]
      | shift =>
        rw [hsh] at b3
        obtain ⟨b3, b4⟩ := b3
        have ho := (k2 hsh).1
        have n1 : o ≠ .ne := by rintro rfl; cases ho
        have n2 : o ≠ .eq := by rintro rfl; cases ho
        obtain ⟨sl, sr⟩ := cs ho
        show (do
          let t ← (cty (Γ.put sa none) (ctree r)).bind fun t => if t = CT.num then some CT.num else none
          cty (Γ.put sa (some t)) (.bin o (if isIntLit l then .cast (ctree l) else ctree l) (.cast (.id sa)))) = _
        rw [hr _ (hput sa none (by decide)) (gr.put sr)]
        have hx : cty (Γ.put sa (some .num)) (if isIntLit l then .cast (ctree l) else ctree l) = ty? l := by
          have := hl _ (hput sa (some .num) (by decide)) (gl.put sl)
          split_ifs
          · show (cty _ (ctree l)).bind _ = _
            rw [this]
            unfold ty?
            split_ifs <;> simp [b3]
          · exact this
        have hy : cty (Γ.put sa (some .num)) (.cast (.id sa)) = some .num := by
          show (cty _ (.id sa)).bind _ = _
          rw [hself]
          rfl
        have := num2 _ o _ _ n1 n2 hx hy b3
        cases h2 : compiles r
        · simp [ty?, h2]
        · simp only [ty?, h2, if_true, b4, Option.bind_some, Option.bind_eq_bind, Bool.and_true]
          exact this
      | fdiv =>
        rw [hsh] at b3
        obtain ⟨b3, b4⟩ := b3
        obtain ⟨i1, i2, rfl⟩ := k6 hsh
        have hk := (fdiv_float _ _ _ hsh)
        have hdv := cd rfl
        show (do
          let t ← cty (Γ.put dv none) (castOn (rawOf r) (ctree r))
          cty (Γ.put dv (some t)) (divOn .div (rawOf l) (ctree l))) = _
        have opts : ∀ (x : Ex), ct (kind x) = .num → ty? x = some .num ∨ ty? x = none := by
          intro x hx
          unfold ty?
          split_ifs
          · exact .inl (by rw [hx])
          · exact .inr rfl
        have rawx : ∀ (x : Ex), accepted x = true → numeric (kind x) = true → ∀ q, rawOf x = some q →
            ∃ a b, ctree x = .bin q a b ∧ (q = .add ∨ q = .sub ∨ q = .mul) := by
          intro x hx hnum q hq
          obtain ⟨ta, a, tb, b, -, e2, -, -⟩ := (written x hx).raw q hq
          refine ⟨a, b, e2, ?_⟩
          rcases raw_of hx hq with h1 | ⟨-, h1⟩
          · rw [h1] at hnum
            cases hnum
          · exact h1
        have hrr := hr _ (hput dv none (by decide)) (gr.put (hdv.2 hk.2))
        rw [cty_castOn _ _ _ (by rw [hrr]; exact opts r b4) (fun q hq => by
          obtain ⟨a, b, h1, h2⟩ := rawx r ar i2 q hq
          exact ⟨a, b, h1, by rcases h2 with rfl | rfl | rfl <;> decide, by rcases h2 with rfl | rfl | rfl <;> decide⟩), hrr]
        have hll := hl _ (hput dv (some .num) (by decide)) (gl.put hdv.1)
        have := cty_divOn (Γ.put dv (some .num)) (rawOf l) (ctree l) (hself Γ dv _) (by rw [hll]; exact opts l b3) (rawx l al i1)
        rw [hll] at this
        cases h2 : compiles r
        · simp [ty?, h2]
        · simp only [ty?, h2, if_true, b4, Option.bind_some, Option.bind_eq_bind, Bool.and_true]
          rw [this, ty?, b3]
      | idiv =>
        rw [hsh] at b3
        obtain ⟨b3, b4⟩ := b3
        have ho := (k4 hsh).2.2
        have n1 : o ≠ .ne := by rintro rfl; cases ho
        have n2 : o ≠ .eq := by rintro rfl; cases ho
        have hdv := cd ho
        show (do
          let t ← cty Γ (ctree r)
          let u ← cty (Γ.put dv (some t)) (ctree l)
          cty ((Γ.put dv (some t)).put dn (some u)) (.bin o (.id dn) (.id dv))) = _
        rw [hr Γ hn gr]
        have hll := hl _ (hput dv (some .num) (by decide)) (gl.put hdv.1)
        have hfin : cty ((Γ.put dv (some .num)).put dn (some .num)) (.bin o (.id dn) (.id dv)) = some .num := by
          have e1 : cty ((Γ.put dv (some .num)).put dn (some .num)) (.id dv) = some .num := by
            show (if dv = dn then some CT.num else (Γ.put dv (some .num)).var dv) = _
            rw [if_neg (by decide)]
            exact hself Γ dv _
          rw [hb, hself, e1]
          simp [binTy_num n1 n2]
        cases h2 : compiles r
        · simp [ty?, h2]
        · simp only [ty?, h2, if_true, b4, Option.bind_some, Option.bind_eq_bind, Bool.and_true]
          rw [hll, ty?]
          split_ifs
          · rw [b3]
            exact hfin
          · rfl
      | udiv =>
        rw [hsh] at b3
        obtain ⟨b3, b4⟩ := b3
        have ho := (k3 hsh).2.2
        have n1 : o ≠ .ne := by rintro rfl; cases ho
        have n2 : o ≠ .eq := by rintro rfl; cases ho
        have hdv := cd ho
        show (do
          let t ← cty Γ (ctree r)
          cty (Γ.put dv (some t)) (.bin o (ctree l) (.id dv))) = _
        rw [hr Γ hn gr]
        have hll := hl _ (hput dv (some .num) (by decide)) (gl.put hdv.1)
        have := num2 _ o _ _ n1 n2 hll (hself Γ dv _) b3
        cases h2 : compiles r
        · simp [ty?, h2]
        · simp only [ty?, h2, if_true, b4, Option.bind_some, Option.bind_eq_bind, Bool.and_true]
          exact this
  | mem n l r ihl ihr =>
    simp only [accepted, Bool.and_eq_true] at ha
    obtain ⟨⟨al, ar⟩, ok⟩ := ha
    obtain ⟨cl, cr, cm⟩ := hc
    obtain ⟨gl, gr⟩ := hg
    have hl := fun Γ hn gl => ihl al cl Γ hn gl
    have hr := fun Γ hn gr => ihr ar cr Γ hn gr
    have hneg : ∀ c, (cty Γ c = some .num ∨ cty Γ c = none) → cty Γ (neg? n c) = cty Γ c := by
      intro c hcc
      cases n
      · rfl
      · show (cty Γ c).bind _ = _
        rcases hcc with h | h <;> rw [h] <;> rfl
    have key : cty Γ (memTree (kind l) (kind r) (ctree l) (ctree r)) = ty? (.mem n l r) := by
      have hsome : ∀ Γ, cty Γ (.pre .addr (ctree r)) = (cty Γ (ctree r)).bind fun t => if isVar r then some (.ptr t) else none := by
        intro Γ
        have hv : lvalue (ctree r) = isVar r := by
          cases r with
          | inf o a b =>
            rw [ctree]
            cases shape o (kind a) (kind b) <;> rfl
          | neg e => rw [ctree]; split_ifs <;> rfl
          | bnot e => rw [ctree]; split_ifs <;> rfl
          | mem m a b =>
            rw [ctree, neg?, memTree]
            split_ifs <;> rfl
          | range m => cases m <;> rfl
          | _ => rfl
        show (cty Γ (ctree r)).bind (preTy .addr (lvalue (ctree r))) = _
        rw [hv]
        rfl
      have hty : ty? (.mem n l r) = if compiles l && compiles r && (kind r = .str || isVar r) then some .num else none := rfl
      rw [hty]
      unfold memTree
      unfold okMem at ok
      by_cases hm : kind r = .map
      · obtain ⟨c1, c2⟩ := cm hm
        rw [if_pos hm]
        have hput : ∀ t, (Γ.put ik t).var null = some (.ptr .num) := fun t => hn
        show (do
          let t ← cty (Γ.put ik none) (ctree l)
          let s ← cty (Γ.put ik (some t)) (.pre .addr (ctree r))
          let u ← (cty (Γ.put ik (some t)) (.id ik)).bind (preTy .addr true)
          callTy (Γ.put ik (some t)) .hasKey [s, u]) = _
        rw [hl _ (hput _) (gl.put c1)]
        cases h1 : compiles l
        · simp [ty?, h1]
        · simp only [ty?, h1, if_true, Option.bind_some, Option.bind_eq_bind, hsome, hr _ (hput _) (gr.put c2)]
          have hi : ∀ t : CT, cty (Γ.put ik (some t)) (.id ik) = some t := fun t => by
            show (if ik = ik then some t else Γ.var ik) = _
            rw [if_pos rfl]
          simp only [hi]
          cases h2 : compiles r <;> cases h3 : isVar r <;> simp [hm, ct, callTy, preTy]
      · rw [if_neg hm]
        by_cases hs : kind r = .str
        · rw [if_pos hs] at ok
          rw [if_pos hs]
          by_cases hk : kind l = .char
          · rw [if_pos hk]
            rw [show ∀ a b c d, cty Γ (.bin .ne (.call3 .memchr a b c) d) = (do
              let s ← (do let s ← cty Γ a; let t ← cty Γ b; let u ← cty Γ c; callTy Γ .memchr [s, t, u])
              let t ← cty Γ d
              binTy .ne s t) from fun _ _ _ _ => rfl]
            rw [show cty Γ (.id null) = some (.ptr .num) from hn]
            rw [show ∀ f, cty Γ (.dot (ctree r) f) = (cty Γ (ctree r)).bind (dotTy f) from fun _ => rfl]
            rw [show cty Γ (.cast (.dot (ctree r) (lit "len"))) = ((cty Γ (ctree r)).bind (dotTy (lit "len"))).bind
              (fun t => if t = .num then some .num else none) from rfl]
            rw [hl Γ hn gl, hr Γ hn gr]
            have d1 : dotTy (lit "data") .string = some (.ptr .num) := by decide
            have d2 : dotTy (lit "len") .string = some .num := by decide
            cases h1 : compiles l <;> cases h2 : compiles r <;> simp [ty?, h1, h2, hk, hs, ct, d1, d2, callTy, binTy]
          · rw [if_neg hk]
            have hk : kind l = .str := by simpa [hk] using ok
            show (do let s ← cty Γ (ctree r); let t ← cty Γ (ctree l); callTy Γ .contains [s, t]) = _
            rw [hl Γ hn gl, hr Γ hn gr]
            cases h1 : compiles l <;> cases h2 : compiles r <;> simp [ty?, h1, h2, hk, hs, ct, callTy]
        · rw [if_neg hs] at ok
          have hk : kind r = .arr := by simpa [hm] using ok
          rw [if_neg hs]
          show (do let s ← cty Γ (.pre .addr (ctree r)); let t ← cty Γ (ctree l); callTy Γ .contains [s, t]) = _
          rw [hsome, hl Γ hn gl, hr Γ hn gr]
          cases h1 : compiles l <;> cases h2 : compiles r <;> cases h3 : isVar r <;> simp [ty?, h1, h2, hk, ct, callTy]
    rw [ctree, hneg _ ?_, key]
    rw [key]
    unfold ty?
    split_ifs
    · exact .inl rfl
    · exact .inr rfl
  | range n l s e ihl ihs ihe =>
    simp only [accepted, Bool.and_eq_true] at ha
    obtain ⟨⟨⟨⟨⟨al, as⟩, ae⟩, kl⟩, ks⟩, ke⟩ := ha
    obtain ⟨cl, cs, ce⟩ := hc
    obtain ⟨gl, gs, ge⟩ := hg
    have hk : ∀ {k}, intKind k = true → ct k = .num := fun {k} h => ct_intish (by simp [intish, h])
    have key : cty Γ (.bin .and (.bin .ge (ctree l) (ctree s)) (.bin .lt (ctree l) (ctree e))) = ty? (.range n l s e) := by
      have hb : ∀ Γ q x y, cty Γ (.bin q x y) = (do let s ← cty Γ x; let t ← cty Γ y; binTy q s t) := fun _ _ _ _ => rfl
      rw [hb, hb, hb, ihl al cl Γ hn gl, ihs as cs Γ hn gs, ihe ae ce Γ hn ge]
      have hty : ty? (.range n l s e) = if compiles l && compiles s && compiles e then some .num else none := rfl
      rw [hty]
      cases h1 : compiles l <;> cases h2 : compiles s <;> cases h3 : compiles e <;>
        simp [ty?, h1, h2, h3, hk kl, hk ks, hk ke, binTy]
    rw [ctree]
    cases n
    · exact key
    · show (cty Γ _).bind (preTy .bang false) = _
      rw [key]
      unfold ty?
      split_ifs <;> simp [kind, ct, preTy]

/-- A C compiler accepts the text of `e`, with the declarations `Γ`. -/
def Compiles (Γ : Ctx) (e : Ex) : Prop := ∃ c, G (.ex 1) (emit e) c ∧ (cty Γ c).isSome = true

theorem compiles_iff {Γ e} (ha : accepted e = true) : Compiles Γ e ↔ (cty Γ (ctree e)).isSome = true := by
  constructor
  · rintro ⟨c, hg, h⟩
    rwa [G_unique hg (written e ha).any] at h
  · exact fun h => ⟨_, (written e ha).any, h⟩

/-- Two arrays and a function. -/
def arrays : Ctx where
  var x := if x = null then some (.ptr .num) else some .array
  lit _ := .num
  fn _ := some ([], .array)

end Em
open Em

/-- C201: an expression that passes the type checker is written as an expression that the C compiler accepts, with the type it has in the source. -/
def C201_statement : Prop := ∀ Γ e, accepted e = true → noCapture e → Γ.var null = some (.ptr .num) → Agrees Γ e → Compiles Γ e

/-- For arrays `a` and `b`, `a && b` is written `a && b` with operands that are structs, and so is `a < 1`; `1 in f()` takes the address of the result
of a call. -/
theorem C201_witness :
    let arr := fun x : Str => Ex.var x .arr
    ∀ e ∈ [Ex.inf .and (arr (lit "a")) (arr (lit "b")), .inf .lt (arr (lit "a")) (.lit 1 .int), .mem false (.lit 1 .int) (.call0 (lit "f") .arr)],
      accepted e = true ∧ noCapture e ∧ Agrees arrays e ∧ ¬ Compiles arrays e := by
  intro arr e he
  simp only [List.mem_cons, List.not_mem_nil, or_false] at he
  have no : ∀ e, accepted e = true → (cty arrays (ctree e)).isSome = false → ¬ Compiles arrays e := fun e h1 h2 h => by
    rw [compiles_iff h1, h2] at h
    cases h
  have va : arrays.var (lit "a") = some .array := by decide
  have vb : arrays.var (lit "b") = some .array := by decide
  rcases he with rfl | rfl | rfl
  · exact ⟨by decide, ⟨trivial, trivial, fun h => (by cases h), fun h => (by cases h)⟩, ⟨va, vb⟩, no _ (by decide) (by decide)⟩
  · exact ⟨by decide, ⟨trivial, trivial, fun h => (by cases h), fun h => (by cases h)⟩, ⟨va, rfl⟩, no _ (by decide) (by decide)⟩
  · exact ⟨by decide, ⟨trivial, trivial, fun h => by cases h⟩, ⟨rfl, rfl⟩, no _ (by decide) (by decide)⟩

theorem C201_fails : ¬ C201_statement := fun h => by
  obtain ⟨h1, h2, h3, h4⟩ := C201_witness (.inf .and (.var (lit "a") .arr) (.var (lit "b") .arr)) (by simp)
  exact h4 (h _ _ h1 h2 (by rfl) h3)

/-- What holds: the C compiler accepts the text if and only if no container is ordered or joined by `&&` or `||` and only variables are searched with `in`,
and then it has the type of the source. Missing: those expressions, which the type checker lets pass. -/
theorem C201_partial (Γ : Ctx) (e : Ex) (ha : accepted e = true) (hc : noCapture e) (hn : Γ.var null = some (.ptr .num)) (hg : Agrees Γ e) :
    (Compiles Γ e ↔ compiles e = true) ∧
    ∀ c t, G (.ex 1) (emit e) c → cty Γ c = some t → t = ct (kind e) := by
  have h := typed e ha hc Γ hn hg
  constructor
  · rw [compiles_iff ha, h, ty?]
    split_ifs with h1 <;> simp [h1]
  · intro c t hcg ht
    rw [G_unique hcg (written e ha).any, h, ty?] at ht
    split_ifs at ht
    cases ht
    rfl

example : Compiles arrays (.mem true (.lit 1 .int) (.var (lit "a") .arr)) :=
  ((C201_partial arrays (.mem true (.lit 1 .int) (.var (lit "a") .arr)) (by decide) (by simp [noCapture, kind]) (by rfl)
    ⟨by rfl, by simp [Agrees, arrays, ct]; decide⟩).1).2 (by decide)

end Verif.Props

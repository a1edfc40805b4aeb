import Verif.Model.ConstFold
import Verif.Props.LiteralRange

/-!
# C153, C154, C155: integer constants
-/

namespace Verif.Props
open Verif.Spec Verif.IntLiteral Verif.IntOps Verif.ConstFold
open Verif.LiteralRange (signed rangeError tryLiteral inC)
open Verif.Str (Str)

/-! ## Specification -/

/-- The exact result of an operation, where it has one. -/
inductive OpVal : BinOp → Int → Int → Int → Prop where
  | add (a b : Int) : OpVal .add a b (a + b)
  | sub (a b : Int) : OpVal .sub a b (a - b)
  | mul (a b : Int) : OpVal .mul a b (a * b)
  | div (a b : Int) : b ≠ 0 → OpVal .div a b (a.tdiv b)
  | mod (a b : Int) : b ≠ 0 → OpVal .mod a b (a.tmod b)

/-- `v` is the exact value of the expression when names stand for the values given by `look`. -/
inductive Val (look : Str → Option Int) : CExpr → Int → Prop where
  | lit {t : List Nat} {n : Nat} : IsLiteral t n → Val look (.lit t) n
  | neg {t : List Nat} {n : Nat} : IsLiteral t n → Val look (.neg t) (-n)
  | name {n : Str} {v : Int} : look n = some v → Val look (.name n) v
  | bin {op : BinOp} {l r : CExpr} {a b v : Int} : Val look l a → Val look r b → OpVal op a b v → Val look (.bin op l r) v

/-- The value of a name among the constants declared so far. -/
def lookEnv (env : CEnv) (n : Str) : Option Int := (env.find? (fun p => p.1 = n)).map (·.2.2)

/-- The constants and their exact values: each expression is evaluated with the constants before it. -/
inductive Means : CEnv → List Decl → CEnv → Prop where
  | nil (env : CEnv) : Means env [] env
  | cons {env env' : CEnv} {d : Decl} {ds : List Decl} {v : Int} : Val (lookEnv env) d.e v →
      Means (env ++ [(d.name, d.ty, v)]) ds env' → Means env (d :: ds) env'

/-- C153: constants outside functions that are accepted have exactly the values written, which lie in their types. -/
def C153_statement : Prop :=
  ∀ (ds : List Decl) (vals : CEnv), (ds.map (·.name)).Nodup → Means [] ds vals → check [] ds = .accept →
    cRun [] ds = .values vals ∧ ∀ p ∈ vals, InTy p.2.1 p.2.2

/-- The type of the C expression is 64 bits wide. -/
def has64 : CExpr → Bool
  | .lit t => decide (signed t > 2147483647)
  | .neg _ => true
  | .name _ => true
  | .bin _ l r => has64 l || has64 r

/-- Literals below 2^63, not negated, and no operation between two operands that C takes for 32-bit numbers. -/
def Wide : CExpr → Prop
  | .lit t => ∃ n, IsLiteral t n ∧ n < 2 ^ 63
  | .neg _ => False
  | .name _ => True
  | .bin _ l r => (has64 l ∨ has64 r) ∧ Wide l ∧ Wide r

namespace Cf

theorem signed_small {t : List Nat} {n : Nat} (h : IsLiteral t n) (hn : n < 2 ^ 63) : signed t = n := by
  rw [signed_eq h, if_pos (by omega)]; omega

theorem not_over {t : List Nat} {n : Nat} (h : IsLiteral t n) (hn : n < 2 ^ 63) :
    (parse t).overflow = false ∧ (parse t).overflowU64 = false := by
  rw [C62_parse_exact t n h]
  exact ⟨decide_eq_false (by omega), decide_eq_false (by omega)⟩

theorem literal_unique {t : List Nat} {n m : Nat} (h : IsLiteral t n) (h' : IsLiteral t m) (hn : n < 2 ^ 63) : m = n := by
  have h1 := C62_parse_exact t n h
  have h2 := C62_parse_exact t m h'
  rw [h1, Parsed.mk.injEq] at h2
  obtain ⟨e1, e2, _⟩ := h2
  have hm : m < 2 ^ 63 := by
    have : decide (2 ^ 63 ≤ n) = false := decide_eq_false (by omega)
    rw [this] at e2
    have := of_decide_eq_false e2.symm
    omega
  have := congrArg BitVec.toNat e1
  rw [BitVec.toNat_ofNat, BitVec.toNat_ofNat] at this
  omega

/-- The table the checker holds for the constants `env`. -/
def tableOf (env : CEnv) : Table := env.map fun p => (p.1, p.2.2)

theorem find_tableOf (env : CEnv) (n : Str) : find (tableOf env) n = lookEnv env n := by
  unfold find tableOf lookEnv
  induction env with
  | nil => rfl
  | cons p env ih =>
    by_cases h : p.1 = n
    · rw [List.map_cons, List.find?_cons_of_pos (by simpa using h), List.find?_cons_of_pos (by simpa using h)]; rfl
    · rw [List.map_cons, List.find?_cons_of_neg (by simpa using h), List.find?_cons_of_neg (by simpa using h)]; exact ih

def In64 (z : Int) : Prop := minI64 ≤ z ∧ z ≤ maxI64

theorem foldBin_value {op : BinOp} {x y : Fold} {v : Int} (h : foldBin op x y = .value v) :
    ∃ a b, x = .value a ∧ y = .value b ∧ foldOp op a b = .value v := by
  cases x <;> cases y <;> first | exact ⟨_, _, rfl, rfl, h⟩ | cases h

theorem fit_value {z v : Int} (h : Fold.fit z = .value v) : v = z ∧ In64 z := by
  unfold Fold.fit at h
  split at h
  · cases h
  · cases h; exact ⟨rfl, by unfold In64; omega⟩

theorem raw_value {z v : Int} (h : Fold.raw z = .value v) : v = z ∧ In64 z := by
  unfold Fold.raw at h
  split at h
  · cases h
  · cases h; exact ⟨rfl, by unfold In64; omega⟩

/-- The quotient an operation needs, in the sense of C. -/
def quot (op : BinOp) (a b : Int) : Int :=
  match op with
  | .add => a + b
  | .sub => a - b
  | .mul => a * b
  | _ => a.tdiv b

theorem tmod_bound (a b : Int) (ha : In64 a) : In64 (a.tmod b) := by
  unfold In64 minI64 maxI64 at *
  rcases Int.le_total 0 a with h | h
  · have h1 := Int.tmod_nonneg b h
    have h2 : a.tmod b ≤ a := by
      have := Int.tmod_def a b
      have hd : 0 ≤ b * a.tdiv b := by
        rcases Int.le_total 0 b with hb | hb
        · exact Int.mul_nonneg hb (Int.tdiv_nonneg h hb)
        · exact Int.mul_nonneg_of_nonpos_of_nonpos hb (Int.tdiv_nonpos_of_nonneg_of_nonpos h hb)
      omega
    omega
  · have h1 : (a.tmod b) = -((-a).tmod b) := by rw [Int.neg_tmod]; omega
    have h0 : 0 ≤ -a := by omega
    have h2 := Int.tmod_nonneg b h0
    have h3 : (-a).tmod b ≤ -a := by
      have := Int.tmod_def (-a) b
      have hd : 0 ≤ b * (-a).tdiv b := by
        rcases Int.le_total 0 b with hb | hb
        · exact Int.mul_nonneg hb (Int.tdiv_nonneg h0 hb)
        · exact Int.mul_nonneg_of_nonpos_of_nonpos hb (Int.tdiv_nonpos_of_nonneg_of_nonpos h0 hb)
      omega
    omega

theorem tdiv_bound (a b : Int) (ha : In64 a) (h : ¬ (a = minI64 ∧ b = -1)) : In64 (a.tdiv b) := by
  unfold In64 minI64 maxI64 at *
  have habs : (a.tdiv b).natAbs = a.natAbs / b.natAbs := Int.natAbs_tdiv a b
  by_cases hb : b.natAbs ≤ 1
  · have : b = 0 ∨ b = 1 ∨ b = -1 := by omega
    rcases this with rfl | rfl | rfl
    · rw [Int.tdiv_zero]; omega
    · rw [Int.tdiv_one]; omega
    · rw [Int.tdiv_neg, Int.tdiv_one]; omega
  · have h1 : a.natAbs / b.natAbs ≤ a.natAbs / 2 := Nat.div_le_div_left (by omega) (by omega)
    omega

/-- A folded operation gives the exact result, and every value C computes on the way fits in 64 bits. -/
theorem foldOp_value {op : BinOp} {a b v : Int} (ha : In64 a) (h : foldOp op a b = .value v) :
    OpVal op a b v ∧ In64 v ∧ In64 (quot op a b) ∧ (op = .div ∨ op = .mod → b ≠ 0) := by
  cases op with
  | add => obtain ⟨rfl, h2⟩ := fit_value h; exact ⟨.add a b, h2, h2, by simp⟩
  | sub => obtain ⟨rfl, h2⟩ := fit_value h; exact ⟨.sub a b, h2, h2, by simp⟩
  | mul => obtain ⟨rfl, h2⟩ := fit_value h; exact ⟨.mul a b, h2, h2, by simp⟩
  | div =>
    have h : (if b ≠ 0 then Fold.raw (a.tdiv b) else .unknown) = .value v := h
    by_cases hb : b ≠ 0
    · rw [if_pos hb] at h
      obtain ⟨rfl, h2⟩ := raw_value h; exact ⟨.div a b hb, h2, h2, fun _ => hb⟩
    · rw [if_neg hb] at h; cases h
  | mod =>
    have h : (if b ≠ 0 then (if a = minI64 ∧ b = -1 then Fold.ub else .value (a.tmod b)) else .unknown) = .value v := h
    by_cases hb : b ≠ 0
    · rw [if_pos hb] at h
      by_cases hm : a = minI64 ∧ b = -1
      · rw [if_pos hm] at h; cases h
      · rw [if_neg hm] at h; cases h
        exact ⟨.mod a b hb, tmod_bound a b ha, tdiv_bound a b ha hm, fun _ => hb⟩
    · rw [if_neg hb] at h; cases h

theorem foldOp_opVal {op : BinOp} {a b v : Int} (h : foldOp op a b = .value v) : OpVal op a b v := by
  cases op with
  | add => obtain ⟨rfl, _⟩ := fit_value h; exact .add a b
  | sub => obtain ⟨rfl, _⟩ := fit_value h; exact .sub a b
  | mul => obtain ⟨rfl, _⟩ := fit_value h; exact .mul a b
  | div =>
    have h : (if b ≠ 0 then Fold.raw (a.tdiv b) else .unknown) = .value v := h
    by_cases hb : b ≠ 0
    · rw [if_pos hb] at h
      obtain ⟨rfl, _⟩ := raw_value h; exact .div a b hb
    · rw [if_neg hb] at h; cases h
  | mod =>
    have h : (if b ≠ 0 then (if a = minI64 ∧ b = -1 then Fold.ub else .value (a.tmod b)) else .unknown) = .value v := h
    by_cases hb : b ≠ 0
    · rw [if_pos hb] at h
      by_cases hm : a = minI64 ∧ b = -1
      · rw [if_pos hm] at h; cases h
      · rw [if_neg hm] at h; cases h; exact .mod a b hb
    · rw [if_neg hb] at h; cases h

theorem opVal_unique {op : BinOp} {a b v w : Int} (h : OpVal op a b v) (h' : OpVal op a b w) : v = w := by
  cases h <;> cases h' <;> rfl

/-- Folding never fails to find a value that exists, unless by overflow. -/
theorem foldOp_total {op : BinOp} {a b v : Int} (h : OpVal op a b v) : foldOp op a b ≠ .unknown := by
  cases h with
  | add => show Fold.fit _ ≠ _; unfold Fold.fit; split <;> simp
  | sub => show Fold.fit _ ≠ _; unfold Fold.fit; split <;> simp
  | mul => show Fold.fit _ ≠ _; unfold Fold.fit; split <;> simp
  | div _ _ hb =>
    show (if b ≠ 0 then Fold.raw (a.tdiv b) else .unknown) ≠ _
    rw [if_pos hb]; unfold Fold.raw; split <;> simp
  | mod _ _ hb =>
    show (if b ≠ 0 then (if a = minI64 ∧ b = -1 then Fold.ub else .value (a.tmod b)) else .unknown) ≠ _
    rw [if_pos hb]; split <;> simp

/-- All constants so far have values of 64 bits. -/
def Env64 (env : CEnv) : Prop := ∀ p ∈ env, In64 p.2.2 ∧ (p.2.1 = .int ∨ p.2.1 = .i64)

theorem lookEnv_mem {env : CEnv} {n : Str} {v : Int} (h : lookEnv env n = some v) :
    ∃ p ∈ env, env.find? (fun p => p.1 = n) = some p ∧ p.2.2 = v := by
  unfold lookEnv at h
  cases hf : env.find? (fun p => p.1 = n) with
  | none => rw [hf] at h; cases h
  | some p =>
    rw [hf] at h
    exact ⟨p, List.mem_of_find?_eq_some hf, rfl, by simpa using h⟩

theorem conv64 {z : Int} (h : In64 z) : conv (64, true) z = z := by
  unfold In64 minI64 maxI64 at h
  show (if (true = true) then z.bmod (2 ^ 64) else _) = z
  rw [if_pos rfl]
  apply Int.bmod_eq_of_le <;> omega

/-- Folding and the C initialiser agree with the exact value. -/
theorem fold_init {env : CEnv} (henv : Env64 env) : ∀ (e : CExpr) (v : Int), Wide e → Val (lookEnv env) e v →
    fold (tableOf env) e ≠ .unknown ∧ ∀ w, fold (tableOf env) e = .value w →
      w = v ∧ In64 v ∧ cInit env e = .const ⟨if has64 e then 64 else 32, true, v⟩ := by
  intro e
  induction e with
  | lit t =>
    rintro v ⟨n, hn, hlt⟩ hv
    cases hv with
    | lit hn' =>
      have hu := literal_unique hn hn' hlt; rw [hu]; clear hu hn'
      have h1 := signed_small hn hlt
      have h2 := not_over hn hlt
      refine ⟨?_, ?_⟩
      · show (if _ then Fold.overflow else _) ≠ _
        rw [h2.2]; simp
      · intro w hw
        have hw : (if (parse t).overflowU64 then Fold.overflow else .value (signed t)) = .value w := hw
        rw [h2.2] at hw
        simp only [Bool.false_eq_true, if_false, Fold.value.injEq] at hw
        refine ⟨by omega, by unfold In64 minI64 maxI64; omega, ?_⟩
        show CRes.const (cLit t) = _
        unfold cLit
        simp only [h2.1, Bool.false_eq_true, if_false, h1, has64]
        by_cases hs : (n : Int) ≤ 2147483647
        · rw [if_pos hs, if_neg (by simpa using hs)]
        · rw [if_neg hs, if_pos (by simpa using (by omega : (2147483647 : Int) < n))]
  | neg t => intro v hw; exact hw.elim
  | name n =>
    intro v _ hv
    cases hv with
    | name hl =>
      have hf : find (tableOf env) n = some v := by rw [find_tableOf, hl]
      have hfold : fold (tableOf env) (.name n) = .value v := by
        show (match find (tableOf env) n with | some v => Fold.value v | none => .unknown) = _
        rw [hf]
      refine ⟨by rw [hfold]; simp, ?_⟩
      intro w hw
      rw [hfold] at hw; cases hw
      obtain ⟨p, hp, hfind, rfl⟩ := lookEnv_mem hl
      refine ⟨rfl, (henv p hp).1, ?_⟩
      show (match env.find? (fun p => p.1 = n) with
        | some (_, t, v) => CRes.const ⟨(cTy t).1, (cTy t).2, v⟩ | none => .notConst) = _
      rw [hfind]
      obtain ⟨pn, pt, pv⟩ := p
      rcases (henv _ hp).2 with h | h <;> cases h <;> rfl
  | bin op l r ihl ihr =>
    rintro v ⟨hw, hwl, hwr⟩ hv
    cases hv with
    | bin hl hr hop =>
      rename_i a b
      obtain ⟨nl, hl'⟩ := ihl a hwl hl
      obtain ⟨nr, hr'⟩ := ihr b hwr hr
      refine ⟨?_, ?_⟩
      · show foldBin op (fold _ l) (fold _ r) ≠ _
        cases hfl : fold (tableOf env) l <;> cases hfr : fold (tableOf env) r <;>
          first
          | exact absurd hfl nl
          | exact absurd hfr nr
          | (intro h; cases h; done)
          | skip
        have := (hl' _ hfl).1; have := (hr' _ hfr).1; subst_vars
        exact foldOp_total hop
      · intro w h
        obtain ⟨a', b', ha, hb, hab⟩ := foldBin_value h
        obtain ⟨rfl, ha64, hcl⟩ := hl' _ ha
        obtain ⟨rfl, hb64, hcr⟩ := hr' _ hb
        obtain ⟨h1, h2, h3, h4⟩ := foldOp_value ha64 hab
        have := opVal_unique hop h1; subst this
        refine ⟨rfl, h2, ?_⟩
        show cBin op (cInit env l) (cInit env r) = _
        rw [hcl, hcr]
        have hcommon : common (if has64 l then 64 else 32, true) (if has64 r then 64 else 32, true) = (64, true) := by
          cases hx : has64 l <;> cases hy : has64 r
          · rw [hx, hy] at hw; simp at hw
          all_goals rfl
        have hhas : has64 (.bin op l r) = true := by
          show (has64 l || has64 r) = true
          rcases hw with h | h <;> simp [h]
        rw [hhas]
        show cOp (common _ _) op (conv (common _ _) _) (conv (common _ _) _) = _
        rw [hcommon, conv64 ha64, conv64 hb64]
        unfold In64 minI64 maxI64 at h3
        have hzero : ¬ ((op = .div ∨ op = .mod) ∧ b' = 0) := fun h => h4 h.1 h.2
        unfold cOp
        rw [if_neg hzero]
        cases hop <;>
          · simp only [quot] at h3
            simp only [if_true]
            rw [if_neg (by omega)]

theorem and_accept {x y : Verdict} (h : x.and y = .accept) : x = .accept ∧ y = .accept := by
  cases x <;> cases y <;> first | exact ⟨rfl, rfl⟩ | cases h

theorem run_values (ds : List Decl) : ∀ (env vals : CEnv), Env64 env → (∀ d ∈ ds, (d.ty = .int ∨ d.ty = .i64) ∧ Wide d.e) →
    Means env ds vals → check (tableOf env) ds = .accept → cRun env ds = .values vals ∧ Env64 vals := by
  induction ds with
  | nil => intro env vals he _ hm _; cases hm; exact ⟨rfl, he⟩
  | cons d ds ih =>
    intro env vals he hds hm hc
    cases hm with
    | cons hv hm =>
      rename_i v
      obtain ⟨hty, hw⟩ := hds d (List.mem_cons_self ..)
      obtain ⟨h1, h2⟩ := and_accept hc
      have h1 := (and_accept h1).1
      have htr : tracked d.ty = true := by rcases hty with h | h <;> rw [h] <;> rfl
      obtain ⟨f1, f2⟩ := fold_init he d.e v hw hv
      unfold foldCheck at h1
      rw [if_pos htr] at h1
      have hfold : fold (tableOf env) d.e = .value v := by
        cases hf : fold (tableOf env) d.e with
        | value w => rw [(f2 w hf).1]
        | unknown => exact absurd hf f1
        | overflow => rw [hf] at h1; cases h1
        | ub => rw [hf] at h1; cases h1
      obtain ⟨_, hv64, hci⟩ := f2 v hfold
      have hconv : conv (cTy d.ty) v = v := by rcases hty with h | h <;> rw [h] <;> exact conv64 hv64
      have hreg : register (tableOf env) d = tableOf (env ++ [(d.name, d.ty, v)]) := by
        unfold register
        rw [if_pos htr, hfold]
        simp [tableOf]
      rw [hreg] at h2
      have he' : Env64 (env ++ [(d.name, d.ty, v)]) := by
        intro p hp
        rcases List.mem_append.mp hp with hp | hp
        · exact he p hp
        · rw [List.mem_singleton.mp hp]; exact ⟨hv64, hty⟩
      obtain ⟨r1, r2⟩ := ih _ _ he' (fun d hd => hds d (List.mem_cons_of_mem _ hd)) hm h2
      refine ⟨?_, r2⟩
      show (match cInit env d.e with
        | .const c => cRun (env ++ [(d.name, d.ty, conv (cTy d.ty) c.v)]) ds | .notConst => .error | .ub => .ub) = _
      rw [hci]
      simp only [hconv]
      exact r1

end Cf

/-- C153 holds for constants of type `int` or `i64` whose expressions have no negated literals, no literal from 2^63 on, and no operation
between two operands C takes for 32-bit numbers (literals below 2^31 and operations among them).  Missing: those, and all other types
(next theorems). -/
theorem C153_partial (ds : List Decl) (vals : CEnv) (hds : ∀ d ∈ ds, (d.ty = .int ∨ d.ty = .i64) ∧ Wide d.e)
    (hm : Means [] ds vals) (hc : check [] ds = .accept) :
    cRun [] ds = .values vals ∧ ∀ p ∈ vals, InTy p.2.1 p.2.2 := by
  obtain ⟨h1, h2⟩ := Cf.run_values ds [] vals (fun _ h => by cases h) hds hm hc
  refine ⟨h1, fun p hp => ?_⟩
  obtain ⟨h3, h4⟩ := h2 p hp
  unfold Cf.In64 minI64 maxI64 at h3
  rcases h4 with h | h <;> rw [h] <;> exact ⟨by simp only [loTy]; omega, by simp only [hiTy]; omega⟩

namespace Cf

/-- Text of a number. -/
def num (s : String) : List Nat := s.toList.map Char.toNat
def A : Str := [65]
def B : Str := [66]

/-- `const A int = 86400 * 1000000000` -/
def pDay : List Decl := [⟨A, .int, .bin .mul (.lit (num "86400")) (.lit (num "1000000000"))⟩]
/-- `const A int = -1` -/
def pNeg : List Decl := [⟨A, .int, .neg (num "1")⟩]
/-- `const A i8 = 100`, `const B i8 = A + A` -/
def pI8 : List Decl := [⟨A, .i8, .lit (num "100")⟩, ⟨B, .i8, .bin .add (.name A) (.name A)⟩]
/-- `const A uint = 18446744073709551615`, `const B uint = A + 1` -/
def pUint : List Decl := [⟨A, .uint, .lit (num "18446744073709551615")⟩, ⟨B, .uint, .bin .add (.name A) (.lit (num "1"))⟩]
/-- `const A int = 0`, `const B int = 5 / A` -/
def pZero : List Decl := [⟨A, .int, .lit (num "0")⟩, ⟨B, .int, .bin .div (.lit (num "5")) (.name A)⟩]
/-- `const A uint = 9223372036854775807`, `const B uint = A + 1` -/
def pHigh : List Decl := [⟨A, .uint, .lit (num "9223372036854775807")⟩, ⟨B, .uint, .bin .add (.name A) (.lit (num "1"))⟩]
/-- `const A int = -9223372036854775808 / -1` -/
def pMin : List Decl := [⟨A, .int, .bin .div (.neg (num "9223372036854775808")) (.neg (num "1"))⟩]
/-- `const A int = 10`, `const B int = A * 3 + A % 4` -/
def pGood : List Decl := [⟨A, .int, .lit (num "10")⟩,
  ⟨B, .int, .bin .add (.bin .mul (.name A) (.lit (num "3"))) (.bin .mod (.name A) (.lit (num "4")))⟩]

theorem lit_dec (s : String) (n : Nat) (h1 : DigitsOf 10 (num s)) (h2 : n = spelled 10 (num s)) : IsLiteral (num s) n :=
  ⟨[], 10, num s, rfl, h1, h2, Or.inl ⟨rfl, rfl⟩⟩

theorem l1 : IsLiteral (num "1") 1 := lit_dec _ _ (by unfold DigitsOf; decide) (by decide)

end Cf

open Cf in
/-- Literals are written into the C program as plain numbers, so `86400 * 1000000000` is computed in C's `int`. -/
theorem C153_int_witness : Means [] pDay [(A, .int, 86400000000000)] ∧ check [] pDay = .accept ∧ cRun [] pDay = .ub := by
  refine ⟨.cons (v := 86400000000000) (.bin (a := (86400 : Nat)) (b := (1000000000 : Nat)) (.lit ?_) (.lit ?_) (.mul _ _)) (.nil _), ?_, ?_⟩
  · exact lit_dec _ _ (by unfold DigitsOf; decide) (by decide)
  · exact lit_dec _ _ (by unfold DigitsOf; decide) (by decide)
  · decide +kernel
  · decide +kernel

open Cf in
/-- A negated literal becomes a call, which no C compiler takes as the initialiser of a global. -/
theorem C153_neg_witness : Means [] pNeg [(A, .int, -1)] ∧ check [] pNeg = .accept ∧ cRun [] pNeg = .error := by
  refine ⟨.cons (v := -1) (.neg (n := 1) l1) (.nil _), ?_, ?_⟩ <;> decide +kernel

open Cf in
/-- `const B i8 = A + A` with `A = 100` is accepted, and `B` is -56. -/
theorem C153_i8_witness : Means [] pI8 [(A, .i8, 100), (B, .i8, 200)] ∧ check [] pI8 = .accept ∧
    cRun [] pI8 = .values [(A, .i8, 100), (B, .i8, -56)] := by
  refine ⟨.cons (v := 100) (.lit (n := 100) ?_) (.cons (v := 200) (.bin (a := 100) (b := 100) (.name ?_) (.name ?_) (.add _ _)) (.nil _)), ?_, ?_⟩
  · exact lit_dec _ _ (by unfold DigitsOf; decide) (by decide)
  · decide
  · decide
  · decide +kernel
  · decide +kernel

open Cf in
/-- `const B uint = A + 1` with `A` the largest `uint` is accepted, and `B` is 0. -/
theorem C153_uint_witness : Means [] pUint [(A, .uint, 18446744073709551615), (B, .uint, 18446744073709551616)] ∧
    check [] pUint = .accept ∧ cRun [] pUint = .values [(A, .uint, 18446744073709551615), (B, .uint, 0)] := by
  refine ⟨.cons (v := 18446744073709551615) (.lit (n := 18446744073709551615) ?_)
    (.cons (v := 18446744073709551616) (.bin (a := 18446744073709551615) (b := (1 : Nat)) (.name ?_) (.lit l1) (.add _ _)) (.nil _)), ?_, ?_⟩
  · exact lit_dec _ _ (by unfold DigitsOf; decide) (by decide)
  · decide
  · decide +kernel
  · decide +kernel

theorem C153_fails : ¬ C153_statement := by
  intro h
  have := h Cf.pDay _ (by decide) C153_int_witness.1 C153_int_witness.2.1
  rw [C153_int_witness.2.2] at this
  cases this.1

/-- A divisor that is a constant zero is not found, and the C program divides by zero. -/
theorem C153_zero : check [] Cf.pZero = .accept ∧ cRun [] Cf.pZero = .ub := by constructor <;> decide +kernel

/-- C153: the meaning of C's operations that the generated program is judged by: signed ones are undefined exactly if the result
(for a remainder, the quotient) leaves the type; unsigned ones give the result modulo `2 ^ w`. -/
theorem C153_c_signed (w : Nat) (op : BinOp) (a b : Int) (h : ¬ ((op = .div ∨ op = .mod) ∧ b = 0)) :
    cOp (w, true) op a b = .ub ↔
      ¬ (-(2 ^ (w - 1)) ≤ (match op with | .add => a + b | .sub => a - b | .mul => a * b | _ => a.tdiv b) ∧
        (match op with | .add => a + b | .sub => a - b | .mul => a * b | _ => a.tdiv b) < 2 ^ (w - 1)) := by
  unfold cOp
  rw [if_neg h]
  dsimp only
  rw [if_pos rfl]
  generalize (2 : Int) ^ (w - 1) = m
  cases op <;>
    · dsimp only
      split
      · rename_i hq
        simp only [true_iff]
        omega
      · rename_i hq
        constructor
        · intro e; cases e
        · intro e; exact absurd (by omega) hq

theorem C153_c_unsigned (w : Nat) (a b : Int) :
    cOp (w, false) .add a b = .const ⟨w, false, (a + b) % 2 ^ w⟩ ∧ cOp (w, false) .sub a b = .const ⟨w, false, (a - b) % 2 ^ w⟩ ∧
      cOp (w, false) .mul a b = .const ⟨w, false, (a * b) % 2 ^ w⟩ := by
  refine ⟨?_, ?_, ?_⟩ <;>
    · unfold cOp
      rw [if_neg (by rintro ⟨h | h, _⟩ <;> cases h)]
      dsimp only
      rw [if_neg (by decide)]

/-- The compiler itself divides -2^63 by -1. -/
theorem C153_compiler_ub : check [] Cf.pMin = .ub := by decide +kernel

/-- A program to which `C153_partial` applies. -/
example : check [] Cf.pGood = .accept ∧ cRun [] Cf.pGood = .values [(Cf.A, .int, 10), (Cf.B, .int, 32)] := by
  constructor <;> decide +kernel
example : ∀ d ∈ Cf.pGood, (d.ty = .int ∨ d.ty = .i64) ∧ Wide d.e := by
  have h : ∀ s n, IsLiteral (Cf.num s) n → n < 2 ^ 63 → Wide (.lit (Cf.num s)) := fun _ n h1 h2 => ⟨n, h1, h2⟩
  intro d hd
  simp only [Cf.pGood, List.mem_cons, List.not_mem_nil, or_false] at hd
  rcases hd with rfl | rfl
  · exact ⟨Or.inl rfl, h _ 10 (Cf.lit_dec _ _ (by unfold DigitsOf; decide) (by decide)) (by decide)⟩
  · refine ⟨Or.inl rfl, Or.inl rfl, ⟨Or.inl rfl, trivial, h _ 3 (Cf.lit_dec _ _ (by unfold DigitsOf; decide) (by decide)) (by decide)⟩,
      Or.inl rfl, trivial, h _ 4 (Cf.lit_dec _ _ (by unfold DigitsOf; decide) (by decide)) (by decide)⟩

/-! ## C154: what is rejected -/

/-- All values the expression passes through are values of the type; for a remainder also the quotient. -/
inductive Within (t : IntTy) (look : Str → Option Int) : CExpr → Int → Prop where
  | lit {x : List Nat} {n : Nat} : IsLiteral x n → InTy t n → Within t look (.lit x) n
  | neg {x : List Nat} {n : Nat} : IsLiteral x n → InTy t (-n) → Within t look (.neg x) (-n)
  | name {n : Str} {v : Int} : look n = some v → InTy t v → Within t look (.name n) v
  | bin {op : BinOp} {l r : CExpr} {a b v : Int} : Within t look l a → Within t look r b → OpVal op a b v → InTy t v →
      InTy t (Cf.quot op a b) → Within t look (.bin op l r) v

/-- Constants of one type all of whose operations stay within the type. -/
inductive AllWithin (t : IntTy) : CEnv → List Decl → Prop where
  | nil (env : CEnv) : AllWithin t env []
  | cons {env : CEnv} {d : Decl} {ds : List Decl} {v : Int} : d.ty = t → Within t (lookEnv env) d.e v →
      AllWithin t (env ++ [(d.name, t, v)]) ds → AllWithin t env (d :: ds)

/-- C154: constants whose expressions stay within their type are accepted. -/
def C154_statement : Prop :=
  ∀ (t : IntTy) (ds : List Decl), t ≠ .char → (ds.map (·.name)).Nodup → AllWithin t [] ds → check [] ds = .accept

open Cf in
/-- `const B uint = A + 1` with `A = 2^63 - 1` is rejected (E5039), although 2^63 is a `uint`. -/
theorem C154_witness : AllWithin .uint [] pHigh ∧ check [] pHigh = .reject := by
  refine ⟨.cons (v := 9223372036854775807) rfl (.lit (n := 9223372036854775807) ?_ ?_) (.cons (v := 9223372036854775808) rfl
    (.bin (a := 9223372036854775807) (b := (1 : Nat)) (.name ?_ ?_) (.lit l1 ?_) (.add _ _) ?_ ?_) (.nil _)), ?_⟩
  · exact lit_dec _ _ (by unfold DigitsOf; decide) (by decide)
  · unfold InTy; decide
  · decide
  · unfold InTy; decide
  · unfold InTy; decide
  · unfold InTy; decide
  · unfold InTy; decide
  · decide +kernel

theorem C154_fails : ¬ C154_statement := by
  intro h
  have := h .uint Cf.pHigh (by decide) (by decide) C154_witness.1
  rw [C154_witness.2] at this
  cases this

/-- `const A int = -9223372036854775808` makes the compiler negate -2^63. -/
theorem C154_min : check [] [⟨Cf.A, .int, .neg (Cf.num "9223372036854775808")⟩] = .ub := by decide +kernel

/-- No negated literal from 2^63 on. -/
def NegSmall : CExpr → Prop
  | .neg t => ∀ n, IsLiteral t n → n < 2 ^ 63
  | .bin _ l r => NegSmall l ∧ NegSmall r
  | _ => True

namespace Cf

theorem in64_of {t : IntTy} (ht : hiTy t ≤ maxI64) {z : Int} (h : InTy t z) : In64 z := by
  obtain ⟨h1, h2⟩ := h
  unfold In64 minI64
  refine ⟨?_, Int.le_trans h2 ht⟩
  cases t <;> simp only [loTy] at h1 <;> omega

theorem foldOp_within {t : IntTy} (ht : hiTy t ≤ maxI64) {op : BinOp} {a b v : Int} (h : OpVal op a b v) (hv : InTy t v)
    (hq : InTy t (quot op a b)) : foldOp op a b = .value v := by
  have h1 := in64_of ht hv
  have h2 := in64_of ht hq
  unfold In64 at h1 h2
  cases h with
  | add => exact if_neg (by omega)
  | sub => exact if_neg (by omega)
  | mul => exact if_neg (by omega)
  | div _ _ hb =>
    show (if b ≠ 0 then Fold.raw (a.tdiv b) else .unknown) = _
    rw [if_pos hb]; exact if_neg (by omega)
  | mod _ _ hb =>
    show (if b ≠ 0 then (if a = minI64 ∧ b = -1 then Fold.ub else .value (a.tmod b)) else .unknown) = _
    rw [if_pos hb, if_neg]
    rintro ⟨rfl, rfl⟩
    revert h2; decide

theorem fold_within {t : IntTy} (ht : hiTy t ≤ maxI64) {env : CEnv} {e : CExpr} {v : Int} (hn : NegSmall e)
    (h : Within t (lookEnv env) e v) : fold (tableOf env) e = .value v := by
  induction h with
  | lit hl hi =>
    rename_i x n
    have h1 := (in64_of ht hi).2
    have hlt : n < 2 ^ 63 := by unfold maxI64 at h1; omega
    show (if (parse x).overflowU64 then Fold.overflow else .value (signed x)) = _
    rw [(not_over hl hlt).2, signed_small hl hlt]; rfl
  | neg hl hi =>
    rename_i x n
    have hlt : n < 2 ^ 63 := hn n hl
    show (if (parse x).overflowU64 then Fold.overflow else .raw (-(signed x))) = _
    rw [(not_over hl hlt).2, signed_small hl hlt]
    show (if -(n : Int) < minI64 ∨ -(n : Int) > maxI64 then Fold.ub else .value (-(n : Int))) = _
    exact if_neg (by unfold minI64 maxI64; omega)
  | name hl hi =>
    rename_i n v
    show (match find (tableOf env) n with | some v => Fold.value v | none => .unknown) = _
    rw [find_tableOf, hl]
  | bin hl hr hop hv hq ihl ihr =>
    show foldBin _ (fold _ _) (fold _ _) = _
    rw [ihl hn.1, ihr hn.2]
    exact foldOp_within ht hop hv hq

theorem plain_within {t : IntTy} (ht : hiTy t ≤ maxI64) {env : CEnv} {e : CExpr} {v : Int} (hn : NegSmall e)
    (h : Within t (lookEnv env) e v) : tryLiteral e.plain = none ∨ tryLiteral e.plain = some (.ok v) := by
  induction h with
  | lit hl hi =>
    rename_i x n
    have h1 := (in64_of ht hi).2
    have hlt : n < 2 ^ 63 := by unfold maxI64 at h1; omega
    right
    show some (Outcome.ok (signed x)) = _
    rw [signed_small hl hlt]
  | neg hl hi =>
    rename_i x n
    have hlt : n < 2 ^ 63 := hn n hl
    right
    show some (inC (-(signed x))) = _
    rw [signed_small hl hlt]
    exact congrArg some (if_neg (by unfold minI64 maxI64; omega))
  | name hl hi => exact Or.inl rfl
  | bin hl hr hop hv hq ihl ihr =>
    rename_i op l r a b v
    have h1 := in64_of ht hv
    unfold In64 at h1
    have hinc : inC v = .ok v := if_neg (by omega)
    rcases ihl hn.1 with h2 | h2
    · left; cases op <;> simp only [CExpr.plain, tryLiteral, h2]
    · rcases ihr hn.2 with h3 | h3
      · left; cases op <;> simp only [CExpr.plain, tryLiteral, h2, h3]
      · cases hop with
        | add => right; simp only [CExpr.plain, tryLiteral, h2, h3, hinc]
        | sub => right; simp only [CExpr.plain, tryLiteral, h2, h3, hinc]
        | mul => right; simp only [CExpr.plain, tryLiteral, h2, h3, hinc]
        | div _ _ hb => right; simp only [CExpr.plain, tryLiteral, h2, h3, if_neg hb, hinc]
        | mod => left; simp only [CExpr.plain, tryLiteral, h2, h3]

theorem zero_within {t : IntTy} (ht : hiTy t ≤ maxI64) {env : CEnv} {e : CExpr} {v : Int} (hn : NegSmall e)
    (h : Within t (lookEnv env) e v) : zeroCheck e = .accept := by
  induction h with
  | lit _ _ => rfl
  | neg _ _ => rfl
  | name _ _ => rfl
  | bin hl hr hop hv hq ihl ihr =>
    rename_i op l r a b v
    have hp := plain_within ht hn.2 hr
    have hb : op = .div ∨ op = .mod → b ≠ 0 := by
      cases hop <;> first | (intro h; rcases h with h | h <;> cases h; done) | (intro _; assumption)
    have h1 := ihl hn.1
    have h2 := ihr hn.2
    cases op <;> simp only [zeroCheck, h1, h2, Verdict.and]
    all_goals
      rcases hp with hp | hp <;> rw [hp]
      all_goals first | rfl | skip
      simp only [if_neg (hb (by simp)), Verdict.and]

theorem range_within {t : IntTy} (htc : t ≠ .char) (ht : hiTy t ≤ maxI64) {env : CEnv} {e : CExpr} {v : Int} (hn : NegSmall e)
    (h : Within t (lookEnv env) e v) : rangeCheck t e = .accept := by
  have hv : InTy t v := by cases h <;> assumption
  have hre : rangeError t v = false := by
    obtain ⟨h1, h2⟩ := hv
    cases t <;> simp only [loTy, hiTy] at h1 h2 <;> simp [rangeError] <;> omega
  have hp := plain_within ht hn h
  cases h with
  | lit hl hi =>
    rename_i x n
    show (if LiteralRange.declAccepts t x then Verdict.accept else .reject) = _
    rw [(C70_declaration t htc x n hl).mpr hi.2]; rfl
  | neg hl hi =>
    rename_i x n
    show (match tryLiteral (CExpr.neg x).plain with
      | some (.ok v) => if rangeError t v then Verdict.reject else .accept | some .ub => .ub | _ => .accept) = _
    rcases hp with hp | hp <;> rw [hp]
    simp [hre]
  | name hl hi => rfl
  | bin hl hr hop hv hq =>
    rename_i op l r a b
    show (match tryLiteral (CExpr.bin op l r).plain with
      | some (.ok v) => if rangeError t v then Verdict.reject else .accept | some .ub => .ub | _ => .accept) = _
    rcases hp with hp | hp <;> rw [hp]
    simp [hre]

/-- A type whose constants are not folded. -/
theorem untracked {t : IntTy} (htc : t ≠ .char) (ht : hiTy t ≤ maxI64) (htr : ¬ tracked t = true) {env : CEnv} {ds : List Decl}
    (hn : ∀ d ∈ ds, NegSmall d.e) (h : AllWithin t env ds) : ∀ tbl, check tbl ds = .accept := by
  induction h with
  | nil => intro _; rfl
  | cons hty hw _ ih =>
    rename_i env d ds v _
    intro tbl
    have hnd := hn d (List.mem_cons_self ..)
    have h1 : foldCheck tbl d = .accept := by unfold foldCheck; rw [hty, if_neg htr]
    have h2 := zero_within ht hnd hw
    have h3 : rangeCheck d.ty d.e = .accept := by rw [hty]; exact range_within htc ht hnd hw
    show Verdict.and ((foldCheck _ d).and ((zeroCheck d.e).and (rangeCheck d.ty d.e))) (check (register _ d) ds) = _
    rw [h1, h2, h3, ih (fun d hd => hn d (List.mem_cons_of_mem _ hd))]
    rfl

end Cf

/-- C154 holds for all types but `uint` and `u64`, without negated literals from 2^63 on.  Missing: `uint` and `u64` (`C154_witness`),
-2^63 (`C154_min`). -/
theorem C154_partial (t : IntTy) (ht : t ≠ .char ∧ t ≠ .uint ∧ t ≠ .u64) (ds : List Decl) (hn : ∀ d ∈ ds, NegSmall d.e)
    (h : AllWithin t [] ds) : check [] ds = .accept := by
  have hhi : hiTy t ≤ maxI64 := by
    obtain ⟨h1, h2, h3⟩ := ht
    cases t <;> simp [hiTy, maxI64] at h1 h2 h3 ⊢
  by_cases htr : tracked t = true
  case neg => exact Cf.untracked ht.1 hhi htr hn h []
  suffices H : ∀ env, AllWithin t env ds → check (Cf.tableOf env) ds = .accept from H [] h
  clear h
  induction ds with
  | nil => intro env _; rfl
  | cons d ds ih =>
    intro env h
    cases h with
    | cons hty hw hrest =>
      rename_i v
      have hnd := hn d (List.mem_cons_self ..)
      have hf := Cf.fold_within hhi hnd hw
      have h1 : foldCheck (Cf.tableOf env) d = .accept := by
        unfold foldCheck; rw [hty, if_pos htr, hf]
      have h2 := Cf.zero_within hhi hnd hw
      have h3 : rangeCheck d.ty d.e = .accept := by rw [hty]; exact Cf.range_within ht.1 hhi hnd hw
      have hreg : register (Cf.tableOf env) d = Cf.tableOf (env ++ [(d.name, t, v)]) := by
        unfold register; rw [hty, if_pos htr, hf]; simp [Cf.tableOf]
      show Verdict.and ((foldCheck _ d).and ((zeroCheck d.e).and (rangeCheck d.ty d.e))) (check (register _ d) ds) = _
      rw [h1, h2, h3, hreg, ih (fun d hd => hn d (List.mem_cons_of_mem _ hd)) _ hrest]
      rfl

/-! ## C155: constants as array sizes -/

/-- A block: the names declared in it, latest first; `none` for what is no integer constant. -/
abbrev Block := List (Str × Option Int)

/-- The declaration a name refers to: the latest in the innermost block that has one. -/
def inScope (blocks : List Block) (n : Str) : Option (Option Int) := (blocks.flatten.find? (fun p => p.1 = n)).map (·.2)

/-- The constant a name refers to. -/
def constOf (blocks : List Block) (n : Str) : Option Int := (inScope blocks n).join

/-- The sizes named in a program and what they are, by the block structure. -/
inductive SizesAre : List Block → List Ev → List Size → Prop where
  | nil (bs : List Block) : SizesAre bs [] []
  | enter {bs : List Block} {es : List Ev} {r : List Size} : SizesAre ([] :: bs) es r → SizesAre bs (.enter :: es) r
  | leave {b : Block} {bs : List Block} {es : List Ev} {r : List Size} : SizesAre bs es r → SizesAre (b :: bs) (.leave :: es) r
  | const {b : Block} {bs : List Block} {d : Decl} {v : Int} {es : List Ev} {r : List Size} :
      Val (constOf (b :: bs)) d.e v → SizesAre (((d.name, some v) :: b) :: bs) es r → SizesAre (b :: bs) (.const d :: es) r
  | var {b : Block} {bs : List Block} {n : Str} {es : List Ev} {r : List Size} :
      SizesAre (((n, none) :: b) :: bs) es r → SizesAre (b :: bs) (.var n :: es) r
  | size {bs : List Block} {n : Str} {v : Int} {es : List Ev} {r : List Size} :
      constOf bs n = some v → 0 < v → SizesAre bs es r → SizesAre bs (.size n :: es) (.ok v :: r)
  | small {bs : List Block} {n : Str} {v : Int} {es : List Ev} {r : List Size} :
      constOf bs n = some v → v ≤ 0 → SizesAre bs es r → SizesAre bs (.size n :: es) (.notPositive :: r)
  | bad {bs : List Block} {n : Str} {es : List Ev} {r : List Size} :
      constOf bs n = none → SizesAre bs es r → SizesAre bs (.size n :: es) (.notConst :: r)

/-- C155: the size of an array named by a constant is the value of the constant the name refers to, and any
other size is rejected: a name that refers to no constant as such, a constant that is not positive as such. -/
def C155_statement : Prop := ∀ (es : List Ev) (r : List Size), SizesAre [[]] es r → sizes [] es = r

namespace Cf

def cN (k : String) : Ev := .const ⟨A, .int, .lit (num k)⟩

/-- Two functions, each with a constant `A` of its own: 2 in the first, 5 in the second, where it is used as a size. -/
def eTwo : List Ev := [.enter, cN "2", .leave, .enter, cN "5", .size A, .leave]
/-- A size that names a constant of another function. -/
def eGone : List Ev := [.enter, cN "2", .leave, .enter, .size A, .leave]
/-- A variable that hides a constant. -/
def eVar : List Ev := [cN "2", .enter, .var A, .size A, .leave]
/-- A size of 2^32 + 1. -/
def eBig : List Ev := [cN "4294967297", .size A]

theorem lit_of (k : String) (n : Nat) (h1 : DigitsOf 10 (num k)) (h2 : n = spelled 10 (num k)) (look : Str → Option Int) :
    Val look (.lit (num k)) n := .lit (lit_dec k n h1 h2)

end Cf

open Cf in
/-- The constant of the first function is taken. -/
theorem C155_witness : SizesAre [[]] eTwo [.ok 5] ∧ sizes [] eTwo = [.ok 2] := by
  refine ⟨.enter (.const (v := (2 : Nat)) (lit_of "2" 2 (by unfold DigitsOf; decide) (by decide) _) (.leave (.enter
    (.const (v := (5 : Nat)) (lit_of "5" 5 (by unfold DigitsOf; decide) (by decide) _) (.size (by decide) (by decide) (.leave (.nil _))))))), ?_⟩
  decide +kernel

open Cf in
/-- A size may name a constant that is not in scope. -/
theorem C155_gone_witness : SizesAre [[]] eGone [.notConst] ∧ sizes [] eGone = [.ok 2] := by
  refine ⟨.enter (.const (v := (2 : Nat)) (lit_of "2" 2 (by unfold DigitsOf; decide) (by decide) _) (.leave (.enter
    (.bad (by decide) (.leave (.nil _)))))), ?_⟩
  decide +kernel

open Cf in
/-- A size may name a variable if there is a constant of that name elsewhere. -/
theorem C155_var_witness : SizesAre [[]] eVar [.notConst] ∧ sizes [] eVar = [.ok 2] := by
  refine ⟨.const (v := (2 : Nat)) (lit_of "2" 2 (by unfold DigitsOf; decide) (by decide) _) (.enter (.var
    (.bad (by decide) (.leave (.nil _))))), ?_⟩
  decide +kernel

open Cf in
/-- A size of 2^32 + 1 becomes 1. -/
theorem C155_big_witness : SizesAre [[]] eBig [.ok 4294967297] ∧ sizes [] eBig = [.ok 1] := by
  refine ⟨.const (v := (4294967297 : Nat)) (lit_of "4294967297" 4294967297 (by unfold DigitsOf; decide) (by decide) _)
    (.size (by decide) (by decide) (.nil _)), ?_⟩
  decide +kernel

theorem C155_fails : ¬ C155_statement := by
  intro h
  have := h _ _ C155_witness.1
  rw [C155_witness.2] at this
  revert this; decide

/-- The names a program declares. -/
def declared : List Ev → List Str
  | [] => []
  | .const d :: es => d.name :: declared es
  | .var n :: es => n :: declared es
  | _ :: es => declared es

/-- No literal from 2^63 on. -/
def Small : CExpr → Prop
  | .lit t => ∀ n, IsLiteral t n → n < 2 ^ 63
  | .neg t => ∀ n, IsLiteral t n → n < 2 ^ 63
  | .name _ => True
  | .bin _ l r => Small l ∧ Small r

/-- Every constant is of a type that is folded, its literals are below 2^63, and folding it gives a value. -/
def Folds : Table → List Ev → Prop
  | _, [] => True
  | tbl, .const d :: es => tracked d.ty = true ∧ Small d.e ∧ (∃ v, fold tbl d.e = .value v) ∧ Folds (register tbl d) es
  | tbl, _ :: es => Folds tbl es

namespace Cf

theorem fold_val {tbl : Table} {look : Str → Option Int} (hl : ∀ n v, look n = some v → find tbl n = some v) :
    ∀ (e : CExpr) (v w : Int), Small e → Val look e v → fold tbl e = .value w → w = v := by
  intro e
  induction e with
  | lit x =>
    intro v w hs hv hw
    cases hv with
    | lit hn =>
      rename_i n
      have hlt := hs n hn
      have hw : (if (parse x).overflowU64 then Fold.overflow else .value (signed x)) = .value w := hw
      rw [(not_over hn hlt).2, signed_small hn hlt] at hw
      simpa using hw.symm
  | neg x =>
    intro v w hs hv hw
    cases hv with
    | neg hn =>
      rename_i n
      have hlt := hs n hn
      have hw : (if (parse x).overflowU64 then Fold.overflow else .raw (-(signed x))) = .value w := hw
      rw [(not_over hn hlt).2, signed_small hn hlt] at hw
      exact (raw_value hw).1
  | name n =>
    intro v w _ hv hw
    cases hv with
    | name hn =>
      have hw : (match find tbl n with | some v => Fold.value v | none => .unknown) = .value w := hw
      rw [hl _ _ hn] at hw
      simpa using hw.symm
  | bin op l r ihl ihr =>
    intro v w hs hv hw
    cases hv with
    | bin h1 h2 hop =>
      obtain ⟨a, b, ha, hb, hab⟩ := foldBin_value hw
      have := ihl _ _ hs.1 h1 ha; subst this
      have := ihr _ _ hs.2 h2 hb; subst this
      exact opVal_unique (foldOp_opVal hab) hop

theorem find_append {tbl : Table} {n m : Str} {v w : Int} (h : find tbl n = some v) : find (tbl ++ [(m, w)]) n = some v := by
  unfold find at h ⊢
  rw [List.find?_append]
  cases hf : tbl.find? (fun p => p.1 = n) with
  | none => rw [hf] at h; cases h
  | some p => rw [hf] at h; exact h

theorem find_new {tbl : Table} {n : Str} {w : Int} (h : ∀ p ∈ tbl, p.1 ≠ n) : find (tbl ++ [(n, w)]) n = some w := by
  unfold find
  rw [List.find?_append]
  have : tbl.find? (fun p => p.1 = n) = none := by
    rw [List.find?_eq_none]; intro p hp; simpa using h p hp
  rw [this]; simp

theorem constOf_mem {bs : List Block} {n : Str} {v : Int} (h : constOf bs n = some v) : ∃ b ∈ bs, (n, some v) ∈ b := by
  unfold constOf inScope at h
  cases hf : bs.flatten.find? (fun p => p.1 = n) with
  | none => rw [hf] at h; cases h
  | some p =>
    rw [hf] at h
    obtain ⟨m, o⟩ := p
    have h : o = some v := h
    have h1 := List.find?_some hf
    have h2 := List.mem_of_find?_eq_some hf
    simp only [decide_eq_true_eq] at h1
    subst h1; subst h
    obtain ⟨b, hb, hm⟩ := List.mem_flatten.mp h2
    exact ⟨b, hb, hm⟩

theorem toInt32_small {v : Int} (h0 : 0 < v) (h : v < 2 ^ 31) : toInt32 v = v := by
  unfold toInt32
  rw [Int.bmod_def]
  have : v % ((2 ^ 32 : Nat) : Int) = v := Int.emod_eq_of_lt (by omega) (by omega)
  rw [this]
  exact if_pos (by omega)

end Cf

/-- C155 holds for a program that declares no name twice, names only constants in scope as sizes, has sizes below 2^31, and whose constants all fold.  Missing: names declared twice, also in functions that have nothing to do with each other
(`C155_witness`), names out of scope (`C155_gone_witness`), variables that hide constants (`C155_var_witness`), sizes from 2^31 on
(`C155_big_witness`). -/
theorem C155_partial (es : List Ev) (r : List Size) (hd : (declared es).Nodup) (hf : Folds [] es)
    (hr : ∀ o ∈ r, o ≠ .notConst ∧ ∀ v, o = .ok v → v < 2 ^ 31) (h : SizesAre [[]] es r) : sizes [] es = r := by
  suffices H : ∀ (bs : List Block) (tbl : Table), (∀ b ∈ bs, ∀ n v, (n, some v) ∈ b → find tbl n = some v) →
      (∀ p ∈ tbl, p.1 ∉ declared es) → Folds tbl es → SizesAre bs es r → sizes tbl es = r from
    H [[]] [] (by simp) (by simp) hf h
  clear hf h
  intro bs tbl hinv hfresh hf h
  induction h generalizing tbl with
  | nil => rfl
  | enter _ ih =>
    exact ih hd hr tbl (by
      intro b hb
      rcases List.mem_cons.mp hb with rfl | hb
      · simp
      · exact hinv b hb) hfresh hf
  | leave _ ih => exact ih hd hr tbl (fun b hb => hinv b (List.mem_cons_of_mem _ hb)) hfresh hf
  | const hv _ ih =>
    rename_i b bs d v es r _
    obtain ⟨ht, hs, ⟨w, hw⟩, hf⟩ := hf
    have hwv : w = v := Cf.fold_val (fun n v hn => by
      obtain ⟨b', hb', hm⟩ := Cf.constOf_mem hn
      exact hinv b' hb' n v hm) d.e v w hs hv hw
    subst hwv
    have hreg : register tbl d = tbl ++ [(d.name, w)] := by unfold register; rw [if_pos ht, hw]
    have hd' := List.nodup_cons.mp hd
    have hnew : ∀ p ∈ tbl, p.1 ≠ d.name := fun p hp e => hfresh p hp (e ▸ List.mem_cons_self ..)
    refine ih hd'.2 hr (register tbl d) ?_ ?_ hf
    · rw [hreg]
      intro b' hb' n v hm
      rcases List.mem_cons.mp hb' with rfl | hb'
      · rcases List.mem_cons.mp hm with e | hm
        · cases e; exact Cf.find_new hnew
        · exact Cf.find_append (hinv b (List.mem_cons_self ..) n v hm)
      · exact Cf.find_append (hinv b' (List.mem_cons_of_mem _ hb') n v hm)
    · rw [hreg]
      intro p hp
      rcases List.mem_append.mp hp with hp | hp
      · exact fun hm => hfresh p hp (List.mem_cons_of_mem _ hm)
      · rw [List.mem_singleton.mp hp]; exact hd'.1
  | var _ ih =>
    rename_i b bs n es r _
    have hd' := List.nodup_cons.mp hd
    refine ih hd'.2 hr tbl ?_ (fun p hp hm => hfresh p hp (List.mem_cons_of_mem _ hm)) hf
    intro b' hb' m v hm
    rcases List.mem_cons.mp hb' with rfl | hb'
    · rcases List.mem_cons.mp hm with e | hm
      · cases e
      · exact hinv b (List.mem_cons_self ..) m v hm
    · exact hinv b' (List.mem_cons_of_mem _ hb') m v hm
  | size hc h0 _ ih =>
    rename_i bs n v es r _
    obtain ⟨b, hb, hm⟩ := Cf.constOf_mem hc
    have hlt := (hr _ (List.mem_cons_self ..)).2 v rfl
    have h1 : resolveSize tbl n = .ok v := by
      unfold resolveSize
      rw [hinv b hb n v hm]
      show (if v ≤ 0 then Size.notPositive else .ok (toInt32 v)) = _
      rw [if_neg (by omega), Cf.toInt32_small h0 hlt]
    show resolveSize tbl n :: sizes tbl es = _
    rw [h1, ih hd (fun o ho => hr o (List.mem_cons_of_mem _ ho)) tbl hinv hfresh hf]
  | small hc h0 _ ih =>
    rename_i bs n v es r _
    obtain ⟨b, hb, hm⟩ := Cf.constOf_mem hc
    have h1 : resolveSize tbl n = .notPositive := by
      unfold resolveSize
      rw [hinv b hb n v hm]
      exact if_pos h0
    show resolveSize tbl n :: sizes tbl es = _
    rw [h1, ih hd (fun o ho => hr o (List.mem_cons_of_mem _ ho)) tbl hinv hfresh hf]
  | bad _ _ _ => exact absurd rfl (hr _ (List.mem_cons_self ..)).1

/-- A program to which `C155_partial` applies: `const A int = 2; do f() { const B int = A * 2; … [int, B] … [int, A] }`. -/
example : (declared [Cf.cN "2", .enter, .const ⟨Cf.B, .int, .bin .mul (.name Cf.A) (.lit (Cf.num "2"))⟩, .size Cf.B, .size Cf.A, .leave]).Nodup ∧
    sizes [] [Cf.cN "2", .enter, .const ⟨Cf.B, .int, .bin .mul (.name Cf.A) (.lit (Cf.num "2"))⟩, .size Cf.B, .size Cf.A, .leave] =
      [.ok 4, .ok 2] := by constructor <;> decide +kernel

end Verif.Props

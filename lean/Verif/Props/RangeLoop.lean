import Verif.Model.RangeLoop
import Verif.Props.IntOps
import Mathlib.Tactic.IntervalCases
/-
C18: range loops. C71: membership in a range.
-/
namespace Verif.Props
open Verif.IntOps Verif.RangeLoop

/-- `a` comes strictly before the end `b` in the direction of `s` (specification). -/
def Before (s a b : Int) : Prop := if 0 < s then a < b else b < a

instance (s a b : Int) : Decidable (Before s a b) := by unfold Before; infer_instance

/-- `vs` is start, start + s, start + 2s, ... up to but not including `e` (specification). -/
def IsRange (start e s : Int) (vs : List Int) : Prop :=
  (∀ k : Nat, ∀ h : k < vs.length, vs[k] = start + k * s) ∧
  (∀ k : Nat, k < vs.length ↔ ∀ j : Nat, j ≤ k → Before s (start + j * s) e)

/-- The step a written step stands for. -/
def stepValue : Step → Int
  | .none => 1
  | .lit v => v
  | .neg x => -x
  | .var s => s

/-- Forms in which the direction is chosen by the sign of the step. -/
def SignDirected : Step → Prop
  | .neg x => 0 < x
  | _ => True

/-- A value of type `int`. -/
def I64 (z : Int) : Prop := -2 ^ 63 ≤ z ∧ z < 2 ^ 63

instance (z : Int) : Decidable (I64 z) := by unfold I64; infer_instance

theorem check_add (i s : Int) : check .add i s = if I64 (i + s) then .ok (i + s) else .panic "P0004" := by
  unfold check
  show (if i + s < minI64 ∨ i + s > maxI64 then Outcome.panic "P0004" else Outcome.ok (i + s)) = _
  have h1 : minI64 = -2 ^ 63 := rfl
  have h2 : maxI64 = 2 ^ 63 - 1 := rfl
  by_cases h : I64 (i + s)
  · rw [if_pos h, if_neg (by unfold I64 at h; omega)]
  · rw [if_neg h, if_pos (by unfold I64 at h; omega)]

theorem emitCmp_int (c : Cmp) {i e : Int} (hi : I64 i) (he : I64 e) : emitCmp c .int .int i e = c.holds i e := by
  have h := C64_cmp_partial c .int .int i e (by constructor <;> simp only [loTy, hiTy] <;> unfold I64 at hi <;> omega)
    (by constructor <;> simp only [loTy, hiTy] <;> unfold I64 at he <;> omega) (Or.inl ⟨trivial, trivial⟩)
  rw [← holds_iff] at h
  cases h1 : emitCmp c .int .int i e <;> cases h2 : c.holds i e <;> simp_all

theorem test_eq (st : Step) {e i : Int} (hi : I64 i) (he : I64 e) (hd : SignDirected st) (hz : zeroStep st = false) :
    test st .int e i = decide (Before (stepValue st) i e) := by
  cases st with
  | none =>
    unfold test Before
    simp [emitCmp_int _ hi he, Cmp.holds, stepValue]
  | lit v =>
    unfold test Before
    simp only [zeroStep, beq_eq_false_iff_ne, ne_eq] at hz
    simp only [stepValue, emitCmp_int _ hi he]
    by_cases h : 0 < v
    · rw [if_neg (by omega)]; simp [Cmp.holds, h]
    · rw [if_pos (by omega)]; simp [Cmp.holds, h]
  | neg x =>
    simp only [SignDirected] at hd
    have : ¬ (0 < -x) := by omega
    have hB : Before (-x) i e ↔ e < i := by unfold Before; rw [if_neg this]
    show emitCmp .gt .int .int i e = decide (Before (-x) i e)
    rw [emitCmp_int _ hi he]
    exact decide_eq_decide.2 hB.symm
  | var s =>
    unfold test Before
    simp only [stepValue]
    rw [toI64_of_range he.1 he.2]
    by_cases h : 0 < s
    · simp [h]
    · simp [h]

theorem next_eq (st : Step) {e i : Int} (hi : I64 i) (he : I64 e) (hx : I64 (stepValue st))
    (hb : Before (stepValue st) i e) : next st i = check .add i (stepValue st) := by
  unfold I64 at *
  cases st with
  | none =>
    simp only [Before, stepValue] at hb
    have : i < e := hb
    show (if i + 1 > maxI64 then Outcome.ub else Outcome.ok (i + 1)) = check .add i 1
    have h2 : maxI64 = 2 ^ 63 - 1 := rfl
    rw [check_add, if_neg (by omega), if_pos (by unfold I64; omega)]
  | lit v => rfl
  | neg x =>
    simp only [stepValue] at hx ⊢
    unfold next negCheck minI64 maxI64
    simp only
    rw [if_neg (by omega)]
    simp [Outcome.bind]
  | var s => rfl

/-- Outcome of the loop after its values: normal unless the last increment leaves `int`. -/
def endsWith (start s : Int) (vs : List Int) : Outcome Unit :=
  if vs = [] then .ok () else if I64 (start + vs.length * s) then .ok () else .panic "P0004"

theorem isRange_cons {i e s : Int} {vs : List Int} (hb : Before s i e) (h : IsRange (i + s) e s vs) :
    IsRange i e s (i :: vs) := by
  obtain ⟨h1, h2⟩ := h
  constructor
  · intro k hk
    cases k with
    | zero => simp
    | succ k =>
      simp only [List.getElem_cons_succ]
      rw [h1 k (by simpa using hk)]
      push_cast; ring
  · intro k
    cases k with
    | zero =>
      simp only [List.length_cons, Nat.zero_lt_succ, true_iff]
      intro j hj
      have : j = 0 := by omega
      subst this
      simpa using hb
    | succ k =>
      rw [List.length_cons, Nat.succ_lt_succ_iff, h2 k]
      constructor
      · intro h j hj
        cases j with
        | zero => simpa using hb
        | succ j =>
          have := h j (by omega)
          have e1 : i + ((j + 1 : Nat) : Int) * s = i + s + j * s := by push_cast; ring
          rw [e1]; exact this
      · intro h j hj
        have := h (j + 1) (by omega)
        have e1 : i + ((j + 1 : Nat) : Int) * s = i + s + j * s := by push_cast; ring
        rw [e1] at this; exact this

theorem isRange_nil {i e s : Int} (hb : ¬ Before s i e) : IsRange i e s [] := by
  constructor
  · intro k hk; simp at hk
  · intro k
    simp only [List.length_nil, Nat.not_lt_zero, false_iff]
    intro h
    apply hb
    simpa using h 0 (by omega)

/-- The values already visited determine what a run does. -/
theorem run_exact (st : Step) (e : Int) (he : I64 e) (hd : SignDirected st) (hz : zeroStep st = false)
    (hx : I64 (stepValue st)) (hs : stepValue st ≠ 0) :
    ∀ (n : Nat) (i : Int), I64 i → (if 0 < stepValue st then e - i else i - e) ≤ n →
      ∃ vs, IsRange i e (stepValue st) vs ∧ Run st .int e i vs (endsWith i (stepValue st) vs) := by
  intro n
  induction n with
  | zero =>
    intro i hi hn
    have hb : ¬ Before (stepValue st) i e := by
      unfold Before
      by_cases h : 0 < stepValue st
      · rw [if_pos h] at *; omega
      · rw [if_neg h] at *; omega
    refine ⟨[], isRange_nil hb, ?_⟩
    simp only [endsWith, if_true]
    exact .stop (by rw [test_eq st hi he hd hz]; simpa using hb)
  | succ n ih =>
    intro i hi hn
    by_cases hb : Before (stepValue st) i e
    · have ht : test st .int e i = true := by rw [test_eq st hi he hd hz]; simpa using hb
      have hnx := next_eq st hi he hx hb
      by_cases hf : I64 (i + stepValue st)
      · have hok : next st i = .ok (i + stepValue st) := by
          rw [hnx, check_add, if_pos hf]
        obtain ⟨vs, h1, h2⟩ := ih (i + stepValue st) hf (by
          by_cases h : 0 < stepValue st
          · rw [if_pos h] at *; omega
          · rw [if_neg h] at *; omega)
        refine ⟨i :: vs, isRange_cons hb h1, ?_⟩
        have e1 : endsWith i (stepValue st) (i :: vs) = endsWith (i + stepValue st) (stepValue st) vs := by
          unfold endsWith
          have e2 : i + (((i :: vs).length : Nat) : Int) * stepValue st
              = i + stepValue st + (vs.length : Int) * stepValue st := by
            simp only [List.length_cons]; push_cast; ring
          rw [e2]
          simp only [reduceCtorEq, if_false]
          by_cases hv : vs = []
          · subst hv; simp [hf]
          · rw [if_neg hv]
        rw [e1]
        exact .step ht hok h2
      · refine ⟨[i], isRange_cons hb (isRange_nil ?_), ?_⟩
        · intro hb2
          unfold I64 at *
          unfold Before at *
          by_cases h : 0 < stepValue st
          · rw [if_pos h] at *; omega
          · rw [if_neg h] at *; omega
        · have : endsWith i (stepValue st) [i] = .panic "P0004" := by
            unfold endsWith; simp [hf]
          rw [this]
          refine .panic ht ?_
          rw [hnx, check_add, if_neg hf]
    · refine ⟨[], isRange_nil hb, ?_⟩
      simp only [endsWith, if_true]
      exact .stop (by rw [test_eq st hi he hd hz]; simpa using hb)

/-- C18: for `int` bounds, a nonzero step and a form whose direction follows the sign of the step,
the loop visits exactly start, start + step, ... before end, in order, and terminates; it ends
normally, except that P0004 is raised after the last value when the value following it does not
fit `int`. -/
theorem C18_visits_partial (st : Step) (start e : Int) (hs : I64 start) (he : I64 e)
    (hx : I64 (stepValue st)) (hd : SignDirected st) (h0 : stepValue st ≠ 0) :
    ∃ vs, IsRange start e (stepValue st) vs ∧ Exec st .int start e vs (endsWith start (stepValue st) vs) := by
  have hz : zeroStep st = false := by cases st <;> simp_all [zeroStep, stepValue]
  have := run_exact st e he hd hz hx h0 (if 0 < stepValue st then e - start else start - e).toNat start hs (by omega)
  unfold Exec
  rw [hz]
  simpa using this

/-- C18: the run is unique, so `C18_visits_partial` describes every execution. -/
theorem C18_deterministic (st : Step) (te : IntTy) (start e : Int) (vs vs' : List Int) (o o' : Outcome Unit)
    (h : Exec st te start e vs o) (h' : Exec st te start e vs' o') : vs = vs' ∧ o = o' := by
  unfold Exec at h h'
  by_cases hz : zeroStep st = true
  · rw [if_pos hz] at h h'
    exact ⟨h.1.trans h'.1.symm, h.2.trans h'.2.symm⟩
  · rw [if_neg hz] at h h'
    clear hz
    induction h generalizing vs' o' with
    | stop ht => cases h' <;> simp_all
    | step ht hn hr ih =>
      cases h' with
      | stop ht' => simp_all
      | step ht' hn' hr' =>
        rw [hn] at hn'
        cases hn'
        obtain ⟨e1, e2⟩ := ih _ _ hr'
        exact ⟨by rw [e1], e2⟩
      | panic ht' hn' => rw [hn] at hn'; cases hn'
      | ub ht' hn' => rw [hn] at hn'; cases hn'
    | panic ht hn =>
      cases h' with
      | stop ht' => simp_all
      | step ht' hn' hr' => rw [hn] at hn'; cases hn'
      | panic ht' hn' => rw [hn] at hn'; cases hn'; exact ⟨rfl, rfl⟩
      | ub ht' hn' => rw [hn] at hn'; cases hn'
    | ub ht hn =>
      cases h' with
      | stop ht' => simp_all
      | step ht' hn' hr' => rw [hn] at hn'; cases hn'
      | panic ht' hn' => rw [hn] at hn'; cases hn'
      | ub ht' hn' => exact ⟨rfl, rfl⟩

/-- C18: without a step, or with step 1 or -1, the loop always ends normally. -/
theorem C18_unit_step (st : Step) (start e : Int) (hs : I64 start) (he : I64 e)
    (hu : st = .none ∨ stepValue st = 1 ∨ stepValue st = -1) (hd : SignDirected st) :
    ∃ vs, IsRange start e (stepValue st) vs ∧ Exec st .int start e vs (.ok ()) := by
  have hv : stepValue st = 1 ∨ stepValue st = -1 := by
    rcases hu with rfl | h
    · left; rfl
    · exact h
  obtain ⟨vs, h1, h2⟩ := C18_visits_partial st start e hs he (by unfold I64; omega) hd (by omega)
  refine ⟨vs, h1, ?_⟩
  have : endsWith start (stepValue st) vs = .ok () := by
    unfold endsWith
    by_cases hn : vs = []
    · rw [if_pos hn]
    · rw [if_neg hn, if_pos]
      have hlen : 0 < vs.length := List.length_pos_iff.2 hn
      have hl := (h1.2 (vs.length - 1)).1 (by omega) (vs.length - 1) (by omega)
      have hc : ((vs.length - 1 : Nat) : Int) = vs.length - 1 := by omega
      rw [hc] at hl
      unfold I64 Before at *
      rcases hv with h | h <;> rw [h] at hl ⊢ <;> norm_num at hl <;> omega
  rw [← this]; exact h2

/-- C18: a zero step panics with P0090 before the body runs, when it is a literal or a variable. -/
theorem C18_zero_step (st : Step) (h : st = .lit 0 ∨ st = .var 0) (te : IntTy) (start e : Int) (vs : List Int)
    (o : Outcome Unit) : Exec st te start e vs o ↔ vs = [] ∧ o = .panic "P0090" := by
  rcases h with rfl | rfl <;> rfl

/-- `range(0, 7, 3)` visits 0, 3, 6. -/
example : Exec (.lit 3) .int 0 7 [0, 3, 6] (.ok ()) := by
  show Run _ _ _ _ _ _
  refine .step (by decide) (by decide : next (.lit 3) 0 = .ok 3) ?_
  refine .step (by decide) (by decide : next (.lit 3) 3 = .ok 6) ?_
  refine .step (by decide) (by decide : next (.lit 3) 6 = .ok 9) ?_
  exact .stop (by decide)

/-- Full claim: for `int` bounds and any nonzero step the loop ends normally after exactly the
documented values. -/
def C18_statement : Prop :=
  ∀ (st : Step) (start e : Int), I64 start → I64 e → I64 (stepValue st) → stepValue st ≠ 0 →
    ∃ vs, IsRange start e (stepValue st) vs ∧ Exec st .int start e vs (.ok ())

/-- It fails near the limits: `range(2^63-2, 2^63-1, 2)` panics after its only value. -/
theorem C18_overflow_witness (vs : List Int) (o : Outcome Unit)
    (h : Exec (.lit 2) .int (2 ^ 63 - 2) (2 ^ 63 - 1) vs o) : vs = [2 ^ 63 - 2] ∧ o = .panic "P0004" := by
  refine C18_deterministic _ _ _ _ _ _ _ _ h ?_
  show Run _ _ _ _ _ _
  exact .panic (by decide) (by decide)

theorem C18_fails : ¬ C18_statement := by
  intro h
  obtain ⟨vs, -, h2⟩ := h (.lit 2) (2 ^ 63 - 2) (2 ^ 63 - 1) (by decide) (by decide) (by decide) (by decide)
  have := (C18_overflow_witness vs _ h2).2
  cases this

/-- A step `-x` with `x = 0` is not caught: the loop runs forever. -/
theorem C18_negated_zero_diverges (start e : Int) (hs : I64 start) (he : I64 e) (hgt : e < start) :
    ¬ ∃ vs o, Exec (.neg 0) .int start e vs o := by
  rintro ⟨vs, o, h⟩
  have h : Run (.neg 0) .int e start vs o := h
  have ht : test (.neg 0) .int e start = true := by
    show emitCmp .gt .int .int start e = true
    rw [emitCmp_int _ hs he]; simpa [Cmp.holds] using hgt
  have hn : next (.neg 0) start = .ok start := by
    show check .add start 0 = .ok start
    rw [check_add, Int.add_zero, if_pos hs]
  rename_i h0
  clear h0
  induction h with
  | stop h' => rw [ht] at h'; cases h'
  | step h' hj hr ih =>
    rw [hn] at hj
    cases hj
    exact ih hs hgt ht hn
  | panic h' hj => rw [hn] at hj; cases hj
  | ub h' hj => rw [hn] at hj; cases hj

/-- A step `-x` with negative `x` is a positive step, but the loop tests `i > end`: an upward range
is skipped entirely. -/
theorem C18_negated_negative_skips (x start e : Int) (hs : I64 start) (he : I64 e) (hle : start ≤ e) :
    Exec (.neg x) .int start e [] (.ok ()) := by
  show Run _ _ _ _ _ _
  refine .stop ?_
  show emitCmp .gt .int .int start e = false
  rw [emitCmp_int _ hs he]
  simpa [Cmp.holds] using hle

/-- With a `uint` end and a negative start the comparison is unsigned: `range(-5, n)` is skipped for
every `uint` n up to 2^64-5. -/
theorem C18_uint_end_skips (e : Int) (h0 : 0 ≤ e) (h1 : e ≤ 2 ^ 64 - 5) :
    Exec .none .uint (-5) e [] (.ok ()) := by
  show Run _ _ _ _ _ _
  refine .stop ?_
  show Cmp.holds .lt (conv (64, false) (-5)) (conv (64, false) e) = false
  have : conv (64, false) (-5) = 2 ^ 64 - 5 := by decide
  rw [this, conv_unsigned h0 (by omega)]
  simpa [Cmp.holds] using h1

/-! ### C71 -/

/-- Full claim: `x in range(start, end, step)` is true exactly for the values the loop visits. -/
def C71_statement : Prop :=
  ∀ (start e s x : Int) (vs : List Int), I64 start → I64 e → I64 s → I64 x → s ≠ 0 → IsRange start e s vs →
    inRange start e (some s) x = .ok (decide (x ∈ vs))

theorem isRange_mem_pos {start e s x : Int} {vs : List Int} (hs : 0 < s) (h : IsRange start e s vs) :
    x ∈ vs ↔ start ≤ x ∧ x < e ∧ s ∣ x - start := by
  obtain ⟨h1, h2⟩ := h
  constructor
  · intro hx
    obtain ⟨k, hk, rfl⟩ := List.mem_iff_getElem.1 hx
    rw [h1 k hk]
    have hb := (h2 k).1 hk k le_rfl
    unfold Before at hb
    rw [if_pos hs] at hb
    have : 0 ≤ (k : Int) * s := by positivity
    exact ⟨by omega, hb, ⟨k, by ring⟩⟩
  · rintro ⟨h3, h4, ⟨d, hd⟩⟩
    have hd0 : 0 ≤ d := by
      by_contra hn
      have : s * d < 0 := mul_neg_of_pos_of_neg hs (by omega)
      omega
    obtain ⟨k, rfl⟩ := Int.eq_ofNat_of_zero_le hd0
    have hk : k < vs.length := by
      rw [h2 k]
      intro j hj
      unfold Before
      rw [if_pos hs]
      have : (j : Int) * s ≤ k * s := by
        apply mul_le_mul_of_nonneg_right _ hs.le
        exact_mod_cast hj
      have e1 : s * (k : Int) = k * s := mul_comm _ _
      omega
    rw [List.mem_iff_getElem]
    refine ⟨k, hk, ?_⟩
    rw [h1 k hk]
    have e1 : s * (k : Int) = k * s := mul_comm _ _
    omega

/-- It holds for positive steps when `x - start` fits `int`. Missing: negative steps, a zero step
and overflow of `x - start`. -/
theorem C71_positive_partial (start e s x : Int) (vs : List Int) (hs : 0 < s) (hx : x - start < 2 ^ 63)
    (h : IsRange start e s vs) : inRange start e (some s) x = .ok (decide (x ∈ vs)) := by
  have hm := isRange_mem_pos (x := x) hs h
  unfold inRange
  by_cases h1 : x ≥ start ∧ x < e
  · rw [if_pos h1]
    simp only
    unfold minI64 maxI64
    rw [if_neg (by omega)]
    congr 1
    rw [Bool.eq_iff_iff]
    simp only [beq_iff_eq, decide_eq_true_eq, hm]
    rw [Int.tmod_eq_emod_of_nonneg (by omega), Int.dvd_iff_emod_eq_zero]
    constructor
    · intro h; exact ⟨h1.1, h1.2, h⟩
    · intro h; exact h.2.2
  · rw [if_neg h1]
    congr 1
    symm
    simp only [decide_eq_false_iff_not, hm]
    rintro ⟨a, b, -⟩
    exact h1 ⟨a, b⟩

/-- Without a step. -/
theorem C71_no_step (start e x : Int) (vs : List Int) (h : IsRange start e 1 vs) :
    inRange start e none x = .ok (decide (x ∈ vs)) := by
  have hm := isRange_mem_pos (x := x) (by norm_num) h
  unfold inRange
  by_cases h1 : x ≥ start ∧ x < e
  · rw [if_pos h1]
    show Outcome.ok true = _
    congr 1
    symm
    rw [decide_eq_true_eq, hm]
    exact ⟨h1.1, h1.2, one_dvd _⟩
  · rw [if_neg h1]
    congr 1
    symm
    rw [decide_eq_false_iff_not, hm]
    rintro ⟨a, b, -⟩
    exact h1 ⟨a, b⟩

/-- `range(10, 0, -1)` visits 5, but `5 in range(10, 0, -1)` is false; a zero step, and a distance of
2^63 or more, are undefined in C. -/
theorem C71_witness : IsRange 10 0 (-1) [10, 9, 8, 7, 6, 5, 4, 3, 2, 1] ∧
    inRange 10 0 (some (-1)) 5 = .ok false ∧ inRange 0 10 (some 0) 5 = .ub ∧
    inRange (-2 ^ 63) 10 (some 2) 1 = .ub := by
  refine ⟨?_, by decide, by decide, by decide⟩
  constructor
  · intro k hk
    simp only [List.length_cons, List.length_nil] at hk
    interval_cases k <;> rfl
  · intro k
    simp only [List.length_cons, List.length_nil, Before]
    norm_num
    constructor
    · intro h j hj; omega
    · intro h
      have := h k le_rfl
      omega

theorem C71_fails : ¬ C71_statement := by
  intro h
  have := h 10 0 (-1) 5 _ (by decide) (by decide) (by decide) (by decide) (by decide) C71_witness.1
  rw [C71_witness.2.1] at this
  revert this
  decide

end Verif.Props

import Verif.Model.Emit
import Mathlib.Tactic.SplitIfs

/-! Claims C197-C200: what a C compiler reads in the text of an expression. -/

namespace Verif.Props
open Verif Verif.Str Verif.Emit

namespace Em

/-! ## The grammar of C expressions (C11 6.5, with the statement expressions and `__auto_type` of GCC) -/

/-- What is read. -/
inductive CE where
  | id (x : Str)
  | num (n : Nat)
  | call0 (f : Fn)
  | call1 (f : Fn) (a : CE)
  | call2 (f : Fn) (a b : CE)
  | call3 (f : Fn) (a b c : CE)
  | bin (o : Op) (l r : CE)
  | pre (p : Pre) (e : CE)
  | cast (e : CE)
  | dot (e : CE) (f : Str)
  /-- A declaration `T x = init;` (or `__auto_type x = init;`) and what follows it in its block. -/
  | letIn (auto : Bool) (x : Str) (init body : CE)
  deriving DecidableEq, Repr

/-- The precedence of the binary operators, C11 6.5.5 to 6.5.14. -/
def level : Op → Nat
  | .mul | .div | .mod => 10
  | .add | .sub => 9
  | .shl | .shr => 8
  | .lt | .gt | .le | .ge => 7
  | .eq | .ne => 6
  | .band => 5
  | .bxor => 4
  | .bor => 3
  | .and => 2
  | .or => 1

/-- `ex 1` to `ex 10` are the levels of the binary operators, `ex 11` the unary and cast expressions, `ex 12` the postfix
expressions; `body` is the inside of a statement expression. -/
inductive Nt where
  | ex (n : Nat)
  | body

inductive G : Nt → List Tok → CE → Prop
  | id (x) : G (.ex 12) [.id x] (.id x)
  | num (n) : G (.ex 12) [.num n] (.num n)
  | paren {ts c} : G (.ex 1) ts c → G (.ex 12) (.lp :: (ts ++ [.rp])) c
  | call0 (f) : G (.ex 12) [.fn f, .lp, .rp] (.call0 f)
  | call1 (f) {ta a} : G (.ex 1) ta a → G (.ex 12) (.fn f :: .lp :: (ta ++ [.rp])) (.call1 f a)
  | call2 (f) {ta a tb b} : G (.ex 1) ta a → G (.ex 1) tb b → G (.ex 12) (.fn f :: .lp :: (ta ++ .comma :: (tb ++ [.rp]))) (.call2 f a b)
  | call3 (f) {ta a tb b tc c} : G (.ex 1) ta a → G (.ex 1) tb b → G (.ex 1) tc c →
      G (.ex 12) (.fn f :: .lp :: (ta ++ .comma :: (tb ++ .comma :: (tc ++ [.rp])))) (.call3 f a b c)
  | dot (f) {ts c} : G (.ex 12) ts c → G (.ex 12) (ts ++ [.dot f]) (.dot c f)
  | stmt {ts c} : G .body ts c → G (.ex 12) (.ope :: (ts ++ [.cls])) c
  | pre (p) {ts c} : G (.ex 11) ts c → G (.ex 11) (.pre p :: ts) (.pre p c)
  | cast {ts c} : G (.ex 11) ts c → G (.ex 11) (.cast :: ts) (.cast c)
  | up {n ts c} : 1 ≤ n → n ≤ 11 → G (.ex (n + 1)) ts c → G (.ex n) ts c
  | bin (o) {tl l tr r} : G (.ex (level o)) tl l → G (.ex (level o + 1)) tr r → G (.ex (level o)) (tl ++ .op o :: tr) (.bin o l r)
  | last {ts c} : G (.ex 1) ts c → G .body (ts ++ [.semi]) c
  | decl (x) {ts c rest b} : G (.ex 1) ts c → G .body rest b → G .body (.decl x :: (ts ++ .semi :: rest)) (.letIn false x c b)
  | auto (x) {ts c rest b} : G (.ex 1) ts c → G .body rest b → G .body (.auto x :: (ts ++ .semi :: rest)) (.letIn true x c b)
  | guard {rest b} : G .body rest b → G .body (.guard :: rest) b

/-! ## A reader for this grammar -/

inductive Task where
  | ex (n : Nat) (ts : List Tok)
  | loop (n : Nat) (c : CE) (ts : List Tok)
  | body (ts : List Tok)

def dots (c : CE) : List Tok → CE × List Tok
  | .dot f :: r => dots (.dot c f) r
  | ts => (c, ts)

def run : Nat → Task → Option (CE × List Tok)
  | 0, _ => none
  | k + 1, .ex n ts =>
    if n ≤ 10 then do
      let (c, r) ← run k (.ex (n + 1) ts)
      run k (.loop n c r)
    else if n = 11 then
      match ts with
      | .pre p :: r => do
        let (c, r) ← run k (.ex 11 r)
        some (.pre p c, r)
      | .cast :: r => do
        let (c, r) ← run k (.ex 11 r)
        some (.cast c, r)
      | _ => run k (.ex 12 ts)
    else
      match ts with
      | .id x :: r => some (dots (.id x) r)
      | .num n :: r => some (dots (.num n) r)
      | .lp :: r => do
        let (c, r) ← run k (.ex 1 r)
        match r with
        | .rp :: r => some (dots c r)
        | _ => none
      | .fn f :: .lp :: .rp :: r => some (dots (.call0 f) r)
      | .fn f :: .lp :: r => do
        let (a, r) ← run k (.ex 1 r)
        match r with
        | .rp :: r => some (dots (.call1 f a) r)
        | .comma :: r => do
          let (b, r) ← run k (.ex 1 r)
          match r with
          | .rp :: r => some (dots (.call2 f a b) r)
          | .comma :: r => do
            let (c, r) ← run k (.ex 1 r)
            match r with
            | .rp :: r => some (dots (.call3 f a b c) r)
            | _ => none
          | _ => none
        | _ => none
      | .ope :: r => do
        let (c, r) ← run k (.body r)
        match r with
        | .cls :: r => some (dots c r)
        | _ => none
      | _ => none
  | k + 1, .loop n c ts =>
    match ts with
    | .op o :: r =>
      if level o = n then do
        let (d, r) ← run k (.ex (n + 1) r)
        run k (.loop n (.bin o c d) r)
      else some (c, .op o :: r)
    | ts => some (c, ts)
  | k + 1, .body ts =>
    match ts with
    | .decl x :: r => do
      let (c, r) ← run k (.ex 1 r)
      match r with
      | .semi :: r => do
        let (b, r) ← run k (.body r)
        some (.letIn false x c b, r)
      | _ => none
    | .auto x :: r => do
      let (c, r) ← run k (.ex 1 r)
      match r with
      | .semi :: r => do
        let (b, r) ← run k (.body r)
        some (.letIn true x c b, r)
      | _ => none
    | .guard :: r => run k (.body r)
    | ts => do
      let (c, r) ← run k (.ex 1 ts)
      match r with
      | .semi :: r => some (c, r)
      | _ => none

def Runs (t : Task) (res : CE × List Tok) : Prop := ∃ N, ∀ k, N ≤ k → run k t = some res

/-- Nothing that follows an expression of level `n` belongs to an operand of it. -/
def QuietAt (n : Nat) (rest : List Tok) : Prop :=
  ∀ h t, rest = h :: t → (∀ f, h ≠ .dot f) ∧ ∀ o, h = .op o → level o ≤ n

theorem QuietAt.mono {n m rest} (h : QuietAt n rest) (hm : n ≤ m) : QuietAt m rest :=
  fun a t e => ⟨(h a t e).1, fun o ho => Nat.le_trans ((h a t e).2 o ho) hm⟩

theorem dots_quiet {n rest} (h : QuietAt n rest) (c : CE) : dots c rest = (c, rest) := by
  cases rest with
  | nil => rfl
  | cons a t =>
    cases a <;> first | rfl | exact absurd rfl ((h _ t rfl).1 _)

/-- Tokens that begin an expression. -/
def starter : Tok → Bool
  | .id _ | .num _ | .fn _ | .lp | .pre _ | .cast | .ope => true
  | _ => false

def starter12 : Tok → Bool
  | .id _ | .num _ | .fn _ | .lp | .ope => true
  | _ => false

theorem G_starts {nt ts c} (h : G nt ts c) :
    match nt with
    | .ex n => ∃ a t, ts = a :: t ∧ starter a = true ∧ (n = 12 → starter12 a = true)
    | .body => True := by
  induction h with
  | id | num | paren | call0 | call1 | call2 | call3 | stmt => exact ⟨_, _, rfl, rfl, fun _ => rfl⟩
  | dot f _ ih =>
    obtain ⟨a, t, e, h1, h2⟩ := ih
    exact ⟨a, t ++ _, by rw [e]; rfl, h1, h2⟩
  | pre | cast => exact ⟨_, _, rfl, rfl, fun h => absurd h (by decide)⟩
  | up h1 h2 _ ih =>
    obtain ⟨a, t, e, h3, h4⟩ := ih
    exact ⟨a, t, e, h3, fun h => by omega⟩
  | bin o _ _ ih _ =>
    obtain ⟨a, t, e, h3, h4⟩ := ih
    exact ⟨a, t ++ _, by rw [e]; rfl, h3, h4⟩
  | last | decl | auto | guard => trivial

theorem level_pos (o : Op) : 1 ≤ level o ∧ level o ≤ 10 := by cases o <;> decide

/-- What a derivation says about the reader. -/
def Gives : Nt → List Tok → CE → Prop
  | .ex n, ts, c =>
    if n ≤ 10 then ∀ rest res, QuietAt n rest → Runs (.loop n c rest) res → Runs (.ex n (ts ++ rest)) res
    else if n = 11 then ∀ rest, QuietAt 11 rest → Runs (.ex 11 (ts ++ rest)) (c, rest)
    else ∀ rest, Runs (.ex n (ts ++ rest)) (dots c rest)
  | .body, ts, c => ∀ rest, Runs (.body (ts ++ rest)) (c, rest)

theorem loop_stop {n c rest} (h : QuietAt (n - 1) rest) (hn : 1 ≤ n) : Runs (.loop n c rest) (c, rest) := by
  refine ⟨1, fun k hk => ?_⟩
  obtain ⟨k, rfl⟩ : ∃ j, k = j + 1 := ⟨k - 1, by omega⟩
  cases rest with
  | nil => rfl
  | cons a t =>
    cases a <;> try rfl
    rename_i o
    have := (h _ t rfl).2 o rfl
    rw [run]
    simp only
    rw [if_neg (by omega)]

theorem one {ts c} (h : Gives (.ex 1) ts c) (a : Tok) (rest : List Tok) (ha : (∀ f, a ≠ .dot f) ∧ ∀ o, a ≠ .op o) :
    Runs (.ex 1 (ts ++ a :: rest)) (c, a :: rest) := by
  have h1 : ∀ n, QuietAt n (a :: rest) := by
    intro n x t e
    cases e
    exact ⟨ha.1, fun o ho => absurd ho (ha.2 o)⟩
  rw [Gives, if_pos (by omega)] at h
  exact h _ _ (h1 1) (loop_stop (h1 0) (by omega))

theorem succ_of {N k : Nat} (h : N + 1 ≤ k) : ∃ j, k = j + 1 ∧ N ≤ j := ⟨k - 1, by omega, by omega⟩

theorem run_up {k n ts} (h : n ≤ 10) :
    run (k + 1) (.ex n ts) = (run k (.ex (n + 1) ts)).bind fun p => run k (.loop n p.1 p.2) := by
  rw [run.eq_def]
  simp only [if_pos h]
  rfl

theorem run_postfix {k x t} (hx : starter12 x = true) : run (k + 1) (.ex 11 (x :: t)) = run k (.ex 12 (x :: t)) := by
  cases x <;> first | (cases hx; done) | rfl

theorem run_last {k x t c r} (hx : starter x = true) (h : run k (.ex 1 (x :: t)) = some (c, .semi :: r)) :
    run (k + 1) (.body (x :: t)) = some (c, r) := by
  cases x <;> first
    | (cases hx; done)
    | (rw [run]
       · simp only [h, Option.bind_eq_bind, Option.bind_some]
       all_goals simp)

theorem reads {nt ts c} (h : G nt ts c) : Gives nt ts c := by
  induction h with
  | id x =>
    rw [Gives, if_neg (by omega), if_neg (by omega)]
    intro rest
    refine ⟨1, fun k hk => ?_⟩
    obtain ⟨k, rfl, -⟩ := succ_of hk
    rfl
  | num n =>
    rw [Gives, if_neg (by omega), if_neg (by omega)]
    intro rest
    refine ⟨1, fun k hk => ?_⟩
    obtain ⟨k, rfl, -⟩ := succ_of hk
    rfl
  | call0 f =>
    rw [Gives, if_neg (by omega), if_neg (by omega)]
    intro rest
    refine ⟨1, fun k hk => ?_⟩
    obtain ⟨k, rfl, -⟩ := succ_of hk
    rfl
  | @paren ts c _ ih =>
    rw [Gives, if_neg (by omega), if_neg (by omega)]
    intro rest
    obtain ⟨N, hN⟩ := one ih .rp rest ⟨by simp, by simp⟩
    refine ⟨N + 1, fun k hk => ?_⟩
    obtain ⟨k, rfl, hj⟩ := succ_of hk
    have e : .lp :: (ts ++ [.rp]) ++ rest = .lp :: (ts ++ .rp :: rest) := by simp
    rw [e, run, if_neg (by omega), if_neg (by omega)]
    simp only [hN k hj, Option.bind_eq_bind, Option.bind_some]
  | @call1 f ta a hg ih =>
    rw [Gives, if_neg (by omega), if_neg (by omega)]
    intro rest
    obtain ⟨N, hN⟩ := one ih .rp rest ⟨by simp, by simp⟩
    refine ⟨N + 1, fun k hk => ?_⟩
    obtain ⟨k, rfl, hj⟩ := succ_of hk
    obtain ⟨x, t, rfl, hx, -⟩ := G_starts hg
    have e : .fn f :: .lp :: (x :: t ++ [.rp]) ++ rest = .fn f :: .lp :: (x :: t ++ .rp :: rest) := by simp
    rw [e, run, if_neg (by omega), if_neg (by omega)]
    have h2 := hN k hj
    · cases x <;> first | (cases hx; done) | simp only [List.cons_append] at h2 ⊢ <;> simp only [h2, Option.bind_eq_bind, Option.bind_some]
    · intro r hr
      cases hr
      cases hx
  | @call2 f ta a tb b hg _ ih ih2 =>
    rw [Gives, if_neg (by omega), if_neg (by omega)]
    intro rest
    obtain ⟨N, hN⟩ := one ih .comma (tb ++ .rp :: rest) ⟨by simp, by simp⟩
    obtain ⟨M, hM⟩ := one ih2 .rp rest ⟨by simp, by simp⟩
    refine ⟨max N M + 1, fun k hk => ?_⟩
    obtain ⟨k, rfl, hj⟩ := succ_of hk
    obtain ⟨x, t, rfl, hx, -⟩ := G_starts hg
    have e : .fn f :: .lp :: (x :: t ++ .comma :: (tb ++ [.rp])) ++ rest = .fn f :: .lp :: (x :: t ++ .comma :: (tb ++ .rp :: rest)) := by
      simp
    rw [e, run, if_neg (by omega), if_neg (by omega)]
    have h2 := hN k (by omega)
    have h3 := hM k (by omega)
    · cases x <;> first | (cases hx; done) | simp only [List.cons_append] at h2 ⊢ <;> simp only [h2, h3, Option.bind_eq_bind, Option.bind_some]
    · intro r hr
      cases hr
      cases hx
  | @call3 f ta a tb b tc c hg _ _ ih ih2 ih3 =>
    rw [Gives, if_neg (by omega), if_neg (by omega)]
    intro rest
    obtain ⟨N, hN⟩ := one ih .comma (tb ++ .comma :: (tc ++ .rp :: rest)) ⟨by simp, by simp⟩
    obtain ⟨M, hM⟩ := one ih2 .comma (tc ++ .rp :: rest) ⟨by simp, by simp⟩
    obtain ⟨P, hP⟩ := one ih3 .rp rest ⟨by simp, by simp⟩
    refine ⟨max N (max M P) + 1, fun k hk => ?_⟩
    obtain ⟨k, rfl, hj⟩ := succ_of hk
    obtain ⟨x, t, rfl, hx, -⟩ := G_starts hg
    have e : .fn f :: .lp :: (x :: t ++ .comma :: (tb ++ .comma :: (tc ++ [.rp]))) ++ rest =
        .fn f :: .lp :: (x :: t ++ .comma :: (tb ++ .comma :: (tc ++ .rp :: rest))) := by
      simp
    rw [e, run, if_neg (by omega), if_neg (by omega)]
    have h2 := hN k (by omega)
    have h3 := hM k (by omega)
    have h4 := hP k (by omega)
    · cases x <;> first | (cases hx; done) | simp only [List.cons_append] at h2 ⊢ <;> simp only [h2, h3, h4, Option.bind_eq_bind, Option.bind_some]
    · intro r hr
      cases hr
      cases hx
  | @dot f ts c _ ih =>
    rw [Gives, if_neg (by omega), if_neg (by omega)] at ih ⊢
    intro rest
    have e : ts ++ [.dot f] ++ rest = ts ++ .dot f :: rest := by simp
    rw [e]
    exact ih (.dot f :: rest)
  | @stmt ts c _ ih =>
    rw [Gives, if_neg (by omega), if_neg (by omega)]
    intro rest
    obtain ⟨N, hN⟩ := ih (.cls :: rest)
    refine ⟨N + 1, fun k hk => ?_⟩
    obtain ⟨k, rfl, hj⟩ := succ_of hk
    have e : .ope :: (ts ++ [.cls]) ++ rest = .ope :: (ts ++ .cls :: rest) := by simp
    rw [e, run, if_neg (by omega), if_neg (by omega)]
    simp only [hN k hj, Option.bind_eq_bind, Option.bind_some]
  | @pre p ts c _ ih =>
    rw [Gives, if_neg (by omega), if_pos rfl] at ih ⊢
    intro rest hr
    obtain ⟨N, hN⟩ := ih rest hr
    refine ⟨N + 1, fun k hk => ?_⟩
    obtain ⟨k, rfl, hj⟩ := succ_of hk
    rw [List.cons_append, run, if_neg (by omega), if_pos rfl]
    simp only [hN k hj, Option.bind_eq_bind, Option.bind_some]
  | @cast ts c _ ih =>
    rw [Gives, if_neg (by omega), if_pos rfl] at ih ⊢
    intro rest hr
    obtain ⟨N, hN⟩ := ih rest hr
    refine ⟨N + 1, fun k hk => ?_⟩
    obtain ⟨k, rfl, hj⟩ := succ_of hk
    rw [List.cons_append, run, if_neg (by omega), if_pos rfl]
    simp only [hN k hj, Option.bind_eq_bind, Option.bind_some]
  | @up n ts c h1 h2 hg ih =>
    by_cases hn : n = 11
    · subst hn
      rw [Gives, if_neg (by omega), if_pos rfl]
      rw [Gives, if_neg (by omega), if_neg (by omega)] at ih
      intro rest hr
      obtain ⟨N, hN⟩ := ih rest
      refine ⟨N + 1, fun k hk => ?_⟩
      obtain ⟨k, rfl, hj⟩ := succ_of hk
      obtain ⟨x, t, rfl, -, hx⟩ := G_starts hg
      have h3 := hN k hj
      rw [dots_quiet hr] at h3
      rw [List.cons_append, run_postfix (hx rfl)]
      exact h3
    · have key : ∀ rest, QuietAt n rest → Runs (.ex (n + 1) (ts ++ rest)) (c, rest) := by
        intro rest hr
        by_cases h10 : n = 10
        · subst h10
          rw [Gives, if_neg (by omega), if_pos rfl] at ih
          exact ih rest (hr.mono (by omega))
        · rw [Gives, if_pos (by omega)] at ih
          exact ih rest _ (hr.mono (by omega)) (loop_stop hr (by omega))
      rw [Gives, if_pos (by omega)]
      intro rest res hr hl
      obtain ⟨N, hN⟩ := key rest hr
      obtain ⟨M, hM⟩ := hl
      refine ⟨max N M + 1, fun k hk => ?_⟩
      obtain ⟨k, rfl, hj⟩ := succ_of hk
      rw [run_up (by omega)]
      simp only [hN k (by omega), hM k (by omega), Option.bind_eq_bind, Option.bind_some]
  | @bin o tl l tr r _ _ ihl ihr =>
    have hlv := level_pos o
    have key : ∀ rest, QuietAt (level o) rest → Runs (.ex (level o + 1) (tr ++ rest)) (r, rest) := by
      intro rest hq
      by_cases h10 : level o = 10
      · rw [h10] at ihr hq ⊢
        rw [Gives, if_neg (by omega), if_pos rfl] at ihr
        exact ihr rest (hq.mono (by omega))
      · rw [Gives, if_pos (by omega)] at ihr
        exact ihr rest _ (hq.mono (by omega)) (loop_stop hq (by omega))
    rw [Gives, if_pos hlv.2] at ihl ⊢
    intro rest res hq hl
    have e : tl ++ .op o :: tr ++ rest = tl ++ .op o :: (tr ++ rest) := by simp
    rw [e]
    refine ihl _ _ ?_ ?_
    · intro a t ea
      cases ea
      exact ⟨by simp, fun p hp => by cases hp; exact Nat.le_refl _⟩
    · obtain ⟨N, hN⟩ := key rest hq
      obtain ⟨M, hM⟩ := hl
      refine ⟨max N M + 1, fun k hk => ?_⟩
      obtain ⟨k, rfl, hj⟩ := succ_of hk
      rw [run]
      simp only [if_pos, hN k (by omega), hM k (by omega), Option.bind_eq_bind, Option.bind_some]
  | @last ts c hg ih =>
    intro rest
    obtain ⟨N, hN⟩ := one ih .semi rest ⟨by simp, by simp⟩
    refine ⟨N + 1, fun k hk => ?_⟩
    obtain ⟨k, rfl, hj⟩ := succ_of hk
    obtain ⟨x, t, rfl, hx, -⟩ := G_starts hg
    have e : x :: t ++ [.semi] ++ rest = x :: t ++ .semi :: rest := by simp
    have h2 := hN k hj
    rw [e]
    exact run_last hx h2
  | @decl x ts c rs b _ _ ih ihb =>
    intro rest
    obtain ⟨N, hN⟩ := one ih .semi (rs ++ rest) ⟨by simp, by simp⟩
    obtain ⟨M, hM⟩ := ihb rest
    refine ⟨max N M + 1, fun k hk => ?_⟩
    obtain ⟨k, rfl, hj⟩ := succ_of hk
    have e : .decl x :: (ts ++ .semi :: rs) ++ rest = .decl x :: (ts ++ .semi :: (rs ++ rest)) := by simp
    rw [e, run]
    simp only [hN k (by omega), hM k (by omega), Option.bind_eq_bind, Option.bind_some]
  | @auto x ts c rs b _ _ ih ihb =>
    intro rest
    obtain ⟨N, hN⟩ := one ih .semi (rs ++ rest) ⟨by simp, by simp⟩
    obtain ⟨M, hM⟩ := ihb rest
    refine ⟨max N M + 1, fun k hk => ?_⟩
    obtain ⟨k, rfl, hj⟩ := succ_of hk
    have e : .auto x :: (ts ++ .semi :: rs) ++ rest = .auto x :: (ts ++ .semi :: (rs ++ rest)) := by simp
    rw [e, run]
    simp only [hN k (by omega), hM k (by omega), Option.bind_eq_bind, Option.bind_some]
  | @guard rs b _ ih =>
    intro rest
    obtain ⟨N, hN⟩ := ih rest
    refine ⟨N + 1, fun k hk => ?_⟩
    obtain ⟨k, rfl, hj⟩ := succ_of hk
    rw [List.cons_append, run]
    exact hN k hj

/-- The grammar is unambiguous. -/
theorem G_unique {ts c d} (h : G (.ex 1) ts c) (h' : G (.ex 1) ts d) : c = d := by
  have q : ∀ n, QuietAt n [] := fun n a t e => by cases e
  have key : ∀ {c}, G (.ex 1) ts c → Runs (.ex 1 (ts ++ [])) (c, []) := by
    intro c h
    have := reads h
    rw [Gives, if_pos (by omega)] at this
    exact this _ _ (q 1) (loop_stop (q 0) (by omega))
  obtain ⟨N, hN⟩ := key h
  obtain ⟨M, hM⟩ := key h'
  have h1 := hN (max N M) (by omega)
  have h2 := hM (max N M) (by omega)
  rw [h1] at h2
  cases h2
  rfl

/-! ## What the text of an expression is read as -/

/-- The ways in which an infix expression is written. -/
inductive Shape where
  | none | strEq | strNe | bit | shift | fdiv | idiv | udiv | check | raw
  deriving DecidableEq

def shape (o : Op) (kl kr : Kind) : Shape :=
  if (kl = .str ∨ kr = .str) ∧ o = .add then .none
  else if (kl = .str ∨ kr = .str) ∧ o = .eq then .strEq
  else if (kl = .str ∨ kr = .str) ∧ o = .ne then .strNe
  else if o.isBit then .bit
  else if o.isShift then .shift
  else if o.isDiv then
    if kl = .float ∨ kr = .float then .fdiv
    else if kl = .int ∨ kr = .int then .idiv
    else .udiv
  else if o.isArith && intish kl && intish kr then .check
  else .raw

def shapeText (o : Op) (l r : Ex) (tl tr : List Tok) : Shape → List Tok
  | .none => []
  | .strEq => .fn .stringEq :: .lp :: (tl ++ .comma :: (tr ++ [.rp]))
  | .strNe => .pre .bang :: .fn .stringEq :: .lp :: (tl ++ .comma :: (tr ++ [.rp]))
  | .bit => .lp :: ((tl ++ .op o :: tr) ++ [.rp])
  | .shift => .ope :: ((.decl sa :: ((.cast :: .lp :: (tr ++ [.rp])) ++ .semi :: (.guard ::
      (((.lp :: (((if isIntLit l then [.cast] else []) ++ tl) ++ [.rp])) ++ .op o :: [.cast, .id sa]) ++ [.semi])))) ++ [.cls])
  | .fdiv => .ope :: ((.decl dv :: ((.cast :: tr) ++ .semi :: (.guard :: ((.cast :: tl ++ .op o :: [.id dv]) ++ [.semi])))) ++ [.cls])
  | .idiv => .ope :: ((.auto dv :: (tr ++ .semi :: (.guard :: (.auto dn :: (tl ++ .semi :: (.guard ::
      (([.id dn] ++ .op o :: [.id dv]) ++ [.semi]))))))) ++ [.cls])
  | .udiv => .ope :: ((.auto dv :: (tr ++ .semi :: (.guard :: ((tl ++ .op o :: [.id dv]) ++ [.semi])))) ++ [.cls])
  | .check => .fn (.check o) :: .lp :: (tl ++ .comma :: (tr ++ [.rp]))
  | .raw => wrap l tl ++ .op o :: wrap r tr

theorem emitInf_eq (o : Op) (l r : Ex) (tl tr : List Tok) :
    emitInf o l r tl tr = shapeText o l r tl tr (shape o (kind l) (kind r)) := by
  unfold emitInf shape
  simp only
  split_ifs <;> simp [shapeText, *]

/-- The operator of an expression that is written as its operands and the operator. -/
def rawOf : Ex → Option Op
  | .inf o l r => if shape o (kind l) (kind r) = .raw then some o else none
  | _ => none

def castOn : Option Op → CE → CE
  | some _, .bin o a b => .bin o (.cast a) b
  | _, c => .cast c

def divOn (o : Op) : Option Op → CE → CE
  | some .mul, .bin _ a b => .bin o (.bin .mul (.cast a) b) (.id dv)
  | some p, .bin _ a b => .bin p (.cast a) (.bin o b (.id dv))
  | _, c => .bin o (.cast c) (.id dv)

def shapeTree (o : Op) (l r : Ex) (cl cr : CE) : Shape → CE
  | .none => .num 0
  | .strEq => .call2 .stringEq cl cr
  | .strNe => .pre .bang (.call2 .stringEq cl cr)
  | .bit | .raw => .bin o cl cr
  | .shift => .letIn false sa (.cast cr) (.bin o (if isIntLit l then .cast cl else cl) (.cast (.id sa)))
  | .fdiv => .letIn false dv (castOn (rawOf r) cr) (divOn o (rawOf l) cl)
  | .idiv => .letIn true dv cr (.letIn true dn cl (.bin o (.id dn) (.id dv)))
  | .udiv => .letIn true dv cr (.bin o cl (.id dv))
  | .check => .call2 (.check o) cl cr

def neg? (n : Bool) (c : CE) : CE := if n then .pre .bang c else c

def memTree (kl kr : Kind) (cl cr : CE) : CE :=
  if kr = .map then .letIn false ik cl (.call2 .hasKey (.pre .addr cr) (.pre .addr (.id ik)))
  else if kr = .str then
    if kl = .char then .bin .ne (.call3 .memchr (.dot cr (lit "data")) cl (.cast (.dot cr (lit "len")))) (.id null)
    else .call2 .contains cr cl
  else .call2 .contains (.pre .addr cr) cl

def ctree : Ex → CE
  | .var x _ => .id x
  | .lit n _ => .num n
  | .call0 f _ => .call0 (.user f)
  | .call2 f a b _ => .call2 (.user f) (ctree a) (ctree b)
  | .neg e => if kind e = .int then .call1 .negCheck (ctree e) else .pre .minus (ctree e)
  | .not e => .pre .bang (ctree e)
  | .bnot e => if kind e = .byte then .cast (.pre .tilde (ctree e)) else .pre .tilde (ctree e)
  | .inf o l r => shapeTree o l r (ctree l) (ctree r) (shape o (kind l) (kind r))
  | .mem n l r => neg? n (memTree (kind l) (kind r) (ctree l) (ctree r))
  | .range n l s e => neg? n (.bin .and (.bin .ge (ctree l) (ctree s)) (.bin .lt (ctree l) (ctree e)))

/-- The level at which an expression is written. -/
def lev : Ex → Nat
  | .inf o l r =>
    if shape o (kind l) (kind r) = .raw then level o else if shape o (kind l) (kind r) = .strNe then 11 else 12
  | .mem n _ _ => if n then 11 else 12
  | .range n _ _ _ => if n then 11 else 12
  | _ => 12

theorem lev_pos (e : Ex) : 1 ≤ lev e ∧ lev e ≤ 12 := by
  cases e with
  | inf o l r =>
    have := level_pos o
    simp only [lev]
    split_ifs <;> omega
  | mem n => cases n <;> simp [lev]
  | range n => cases n <;> simp [lev]
  | _ => simp [lev]

theorem lower {m ts c} (h : G (.ex m) ts c) (hm : m ≤ 12) : ∀ n, 1 ≤ n → n ≤ m → G (.ex n) ts c := by
  intro n h1 h2
  obtain ⟨d, rfl⟩ : ∃ d, m = n + d := ⟨m - n, by omega⟩
  induction d generalizing n with
  | zero => exact h
  | succ d ih =>
    have e : n + (d + 1) = n + 1 + d := by omega
    rw [e] at h hm
    exact G.up h1 (by omega) (ih (n + 1) (by omega) h hm (by omega))

theorem rawOf_none {e : Ex} (h : rawOf e = none) : 11 ≤ lev e := by
  cases e with
  | inf o l r =>
    have h1 : shape o (kind l) (kind r) ≠ .raw := by
      intro h1
      simp only [rawOf, if_pos h1] at h
      cases h
    simp only [lev, if_neg h1]
    split_ifs <;> decide
  | mem n => cases n <;> simp [lev]
  | range n => cases n <;> simp [lev]
  | _ => simp [lev]

theorem raw_kind : ∀ o kl kr, okInf o kl kr = true → shape o kl kr = .raw →
    infKind o kl kr = .bool ∨ infKind o kl kr = .float ∧ (o = .add ∨ o = .sub ∨ o = .mul) := by
  intro o kl kr
  cases o <;> cases kl <;> cases kr <;> decide

theorem shape_kinds : ∀ o kl kr, okInf o kl kr = true →
    shape o kl kr ≠ .none ∧
    (shape o kl kr = .bit → intish kl = true ∧ intish kr = true ∧ o.isBit = true) ∧
    (shape o kl kr = .shift → o.isShift = true ∧ intish kl = true ∧ intish kr = true) ∧
    (shape o kl kr = .udiv → intish kl = true ∧ intish kr = true ∧ o.isDiv = true) ∧
    (shape o kl kr = .idiv → intish kl = true ∧ intish kr = true ∧ o.isDiv = true) ∧
    (shape o kl kr = .check → o.isArith = true) ∧
    (shape o kl kr = .strEq → o = .eq) ∧
    (shape o kl kr = .strNe → o = .ne) ∧
    (shape o kl kr = .fdiv → numeric kl = true ∧ numeric kr = true ∧ o = .div) := by
  intro o kl kr
  cases o <;> cases kl <;> cases kr <;> decide

theorem inf_kind : ∀ o kl kr, okInf o kl kr = true → infKind o kl kr ≠ .str ∧ infKind o kl kr ≠ .arr ∧ infKind o kl kr ≠ .map := by
  intro o kl kr
  cases o <;> cases kl <;> cases kr <;> decide

theorem acc_inf {o l r} (h : accepted (.inf o l r) = true) :
    accepted l = true ∧ accepted r = true ∧ okInf o (kind l) (kind r) = true := by
  simpa [accepted, and_assoc] using h

/-- An accepted expression that is written as operands and operator has the kind `bool`, or `float` for a sum, difference or product. -/
theorem raw_of {e p} (ha : accepted e = true) (h : rawOf e = some p) :
    kind e = .bool ∨ kind e = .float ∧ (p = .add ∨ p = .sub ∨ p = .mul) := by
  cases e <;> try cases h
  rename_i o l r
  simp only [rawOf] at h
  split_ifs at h with h1
  cases h
  exact raw_kind _ _ _ (acc_inf ha).2.2 h1

theorem int_lev {e} (ha : accepted e = true) (h : intish (kind e) = true) : rawOf e = none := by
  cases hr : rawOf e with
  | none => rfl
  | some p =>
    rcases raw_of ha hr with h1 | ⟨h1, -⟩ <;> rw [h1] at h <;> cases h

theorem acc_bool {e} (k : Kind) (h : kind e = k) (hk : k = .str ∨ k = .arr ∨ k = .map) (ha : accepted e = true) : lev e = 12 := by
  cases e with
  | inf o l r =>
    have := inf_kind _ _ _ (acc_inf ha).2.2
    simp only [kind] at h
    rw [h] at this
    rcases hk with rfl | rfl | rfl <;> simp at this
  | neg e => rfl
  | mem => rcases hk with rfl | rfl | rfl <;> cases h
  | range => rcases hk with rfl | rfl | rfl <;> cases h
  | _ => rfl

/-- What the induction carries. -/
structure Written (e : Ex) : Prop where
  at_level : G (.ex (lev e)) (emit e) (ctree e)
  raw : ∀ p, rawOf e = some p → ∃ ta a tb b, emit e = ta ++ .op p :: tb ∧ ctree e = .bin p a b ∧ G (.ex 11) ta a ∧ G (.ex 11) tb b

theorem Written.any {e} (h : Written e) : G (.ex 1) (emit e) (ctree e) :=
  lower h.at_level (lev_pos e).2 1 (by omega) (lev_pos e).1

theorem Written.unary {e} (h : Written e) (hr : rawOf e = none) : G (.ex 11) (emit e) (ctree e) :=
  lower h.at_level (lev_pos e).2 11 (by omega) (rawOf_none hr)

theorem Written.wrapped {e} (h : Written e) : G (.ex 11) (wrap e (emit e)) (ctree e) := by
  unfold wrap
  split_ifs with hi
  · exact .up (by omega) (by omega) (.paren h.any)
  · refine h.unary ?_
    cases e <;> first | rfl | exact absurd rfl hi

theorem Written.casted {e} (h : Written e) (ha : accepted e = true) : G (.ex 1) (.cast :: emit e) (castOn (rawOf e) (ctree e)) := by
  cases hr : rawOf e with
  | none => exact lower (.cast (h.unary hr)) (by omega) 1 (by omega) (by omega)
  | some p =>
    obtain ⟨ta, a, tb, b, e1, e2, ga, gb⟩ := h.raw p hr
    have hp := level_pos p
    rw [e1, e2, castOn, ← List.cons_append]
    exact lower (.bin p (lower (.cast ga) (by omega) _ (by omega) (by omega)) (lower gb (by omega) _ (by omega) (by omega)))
      (by omega) 1 (by omega) (by omega)

theorem Written.over {e} (h : Written e) (ha : accepted e = true) (hn : numeric (kind e) = true) :
    G (.ex 1) (.cast :: emit e ++ .op .div :: [.id dv]) (divOn .div (rawOf e) (ctree e)) := by
  have gd : G (.ex 11) [.id dv] (.id dv) := .up (by omega) (by omega) (.id _)
  cases hr : rawOf e with
  | none =>
    have hd : divOn .div none (ctree e) = .bin .div (.cast (ctree e)) (.id dv) := rfl
    rw [hd]
    exact lower (m := 10) (.bin .div (lower (.cast (h.unary hr)) (by omega) 10 (by omega) (by omega)) gd)
      (by omega) 1 (by omega) (by omega)
  | some p =>
    obtain ⟨ta, a, tb, b, e1, e2, ga, gb⟩ := h.raw p hr
    have hk := raw_of ha hr
    rw [e1, e2]
    have hk : p = .add ∨ p = .sub ∨ p = .mul := by
      rcases hk with h1 | ⟨-, h1⟩
      · rw [h1] at hn
        cases hn
      · exact h1
    have gab : ∀ p, G (.ex (level p)) (.cast :: ta ++ .op p :: tb) (.bin p (.cast a) b) := fun p => by
      have hp := level_pos p
      exact .bin p (lower (.cast ga) (by omega) _ (by omega) (by omega)) (lower gb (by omega) _ (by omega) (by omega))
    have gbd : G (.ex 10) (tb ++ .op .div :: [.id dv]) (.bin .div b (.id dv)) :=
      .bin .div (lower gb (by omega) 10 (by omega) (by omega)) gd
    rcases hk with rfl | rfl | rfl
    · have hx : G (.ex 9) (.cast :: ta ++ .op .add :: (tb ++ .op .div :: [.id dv])) (.bin .add (.cast a) (.bin .div b (.id dv))) :=
        .bin .add (lower (.cast ga) (by omega) 9 (by omega) (by omega)) gbd
      have := lower hx (by omega) 1 (by omega) (by omega)
      simpa [divOn] using this
    · have hx : G (.ex 9) (.cast :: ta ++ .op .sub :: (tb ++ .op .div :: [.id dv])) (.bin .sub (.cast a) (.bin .div b (.id dv))) :=
        .bin .sub (lower (.cast ga) (by omega) 9 (by omega) (by omega)) gbd
      have := lower hx (by omega) 1 (by omega) (by omega)
      simpa [divOn] using this
    · have hx : G (.ex 10) ((.cast :: ta ++ .op .mul :: tb) ++ .op .div :: [.id dv]) (.bin .div (.bin .mul (.cast a) b) (.id dv)) :=
        .bin .div (gab .mul) gd
      have := lower hx (by omega) 1 (by omega) (by omega)
      simpa [divOn] using this

theorem bit_level {o : Op} (h : o.isBit = true) : level o ≤ 9 := by cases o <;> first | (cases h; done) | decide

theorem written_inf (o : Op) {l r : Ex} (ha : accepted (.inf o l r) = true) (hl : Written l) (hr : Written r) : Written (.inf o l r) := by
  obtain ⟨al, ar, ok⟩ := acc_inf ha
  obtain ⟨k0, k1, k2, k3, k4, k5, -, -, k6⟩ := shape_kinds _ _ _ ok
  have he : emit (.inf o l r) = shapeText o l r (emit l) (emit r) (shape o (kind l) (kind r)) := by
    rw [emit]
    exact emitInf_eq ..
  have hp := level_pos o
  have gd : ∀ x, G (.ex 11) [.id x] (.id x) := fun x => .up (by omega) (by omega) (.id x)
  refine ⟨?_, ?_⟩
  · rw [he, ctree, lev]
    cases hs : shape o (kind l) (kind r) with
    | none => exact absurd hs k0
    | strEq => exact .call2 _ hl.any hr.any
    | strNe => exact .pre .bang (.up (by omega) (by omega) (.call2 _ hl.any hr.any))
    | bit =>
      obtain ⟨i1, i2, hb⟩ := k1 hs
      have hb := bit_level hb
      have := G.bin o (lower (hl.unary (int_lev al i1)) (by omega) _ (by omega) (by omega))
        (lower (hr.unary (int_lev ar i2)) (by omega) _ (by omega) (by omega))
      exact .paren (lower this (by omega) 1 (by omega) (by omega))
    | shift =>
      obtain ⟨ho, i1, i2⟩ := k2 hs
      refine .stmt (.decl sa (lower (.cast (.up (by omega) (by omega) (.paren hr.any))) (by omega) 1 (by omega) (by omega)) (.guard (.last ?_)))
      have g1 : G (.ex 1) ((if isIntLit l then [.cast] else []) ++ emit l) (if isIntLit l then .cast (ctree l) else ctree l) := by
        split_ifs
        · exact lower (.cast (hl.unary (int_lev al i1))) (by omega) 1 (by omega) (by omega)
        · exact hl.any
      have := G.bin o (lower (.paren g1) (by omega) _ (by omega) (by omega)) (lower (.cast (gd sa)) (by omega) _ (by omega) (by omega))
      exact lower this (by omega) 1 (by omega) (by omega)
    | fdiv =>
      obtain ⟨i1, i2, rfl⟩ := k6 hs
      exact .stmt (.decl dv (hr.casted ar) (.guard (.last (hl.over al i1))))
    | idiv =>
      have := G.bin o (lower (gd dn) (by omega) _ (by omega) (by omega)) (lower (gd dv) (by omega) _ (by omega) (by omega))
      exact .stmt (.auto dv hr.any (.guard (.auto dn hl.any (.guard (.last (lower this (by omega) 1 (by omega) (by omega)))))))
    | udiv =>
      obtain ⟨i1, i2, ho⟩ := k3 hs
      have := G.bin o (lower (hl.unary (int_lev al i1)) (by omega) _ (by omega) (by omega))
        (lower (gd dv) (by omega) _ (by omega) (by omega))
      exact .stmt (.auto dv hr.any (.guard (.last (lower this (by omega) 1 (by omega) (by omega)))))
    | check => exact .call2 _ hl.any hr.any
    | raw =>
      rw [if_pos rfl]
      exact .bin o (lower hl.wrapped (by omega) _ (by omega) (by omega)) (lower hr.wrapped (by omega) _ (by omega) (by omega))
  · intro p h
    rw [rawOf] at h
    split_ifs at h with hs
    cases h
    refine ⟨wrap l (emit l), ctree l, wrap r (emit r), ctree r, ?_, ?_, hl.wrapped, hr.wrapped⟩
    · rw [he, hs, shapeText]
    · rw [ctree, hs, shapeTree]

theorem written_neg (n : Bool) {ts c} (h : G (.ex 12) ts c) : G (.ex (if n then 11 else 12)) ((if n then [.pre .bang] else []) ++ ts) (neg? n c) := by
  cases n
  · exact h
  · exact .pre .bang (.up (by omega) (by omega) h)

theorem written (e : Ex) (ha : accepted e = true) : Written e := by
  induction e with
  | var x k => exact ⟨.id x, fun p h => by cases h⟩
  | lit n k => exact ⟨.num n, fun p h => by cases h⟩
  | call0 f k => exact ⟨.call0 _, fun p h => by cases h⟩
  | call2 f a b k iha ihb =>
    simp only [accepted, Bool.and_eq_true] at ha
    refine ⟨?_, fun p h => by cases h⟩
    have := G.call2 (.user f) (iha ha.1).any (ihb ha.2).any
    simpa [emit, ctree, lev] using this
  | neg e ih =>
    simp only [accepted, Bool.and_eq_true] at ha
    have h := ih ha.1.1
    refine ⟨?_, fun p h => by cases h⟩
    rw [emit, ctree, lev]
    · split_ifs
      · have := G.call1 .negCheck h.any
        simpa using this
      · have := G.paren (lower (.pre .minus h.wrapped) (by omega) 1 (by omega) (by omega))
        simpa using this
    all_goals simp
  | not e ih =>
    simp only [accepted, Bool.and_eq_true] at ha
    have h := ih ha.1
    refine ⟨?_, fun p h => by cases h⟩
    have := G.paren (lower (.pre .bang h.wrapped) (by omega) 1 (by omega) (by omega))
    simpa [emit, ctree, lev] using this
  | bnot e ih =>
    simp only [accepted, Bool.and_eq_true] at ha
    have h := ih ha.1
    refine ⟨?_, fun p h => by cases h⟩
    have h1 : G (.ex 11) (.pre .tilde :: .lp :: (emit e ++ [.rp])) (.pre .tilde (ctree e)) := .pre .tilde (.up (by omega) (by omega) (.paren h.any))
    rw [emit, ctree, lev]
    · split_ifs
      · have := G.paren (lower (.cast (.up (by omega) (by omega) (.paren (lower h1 (by omega) 1 (by omega) (by omega))))) (by omega) 1 (by omega) (by omega))
        simpa using this
      · have := G.paren (lower h1 (by omega) 1 (by omega) (by omega))
        simpa using this
    all_goals simp
  | inf o l r ihl ihr => exact written_inf o ha (ihl (acc_inf ha).1) (ihr (acc_inf ha).2.1)
  | mem n l r ihl ihr =>
    simp only [accepted, Bool.and_eq_true] at ha
    obtain ⟨⟨al, ar⟩, ok⟩ := ha
    have hl := (ihl al).any
    have kr : kind r = .str ∨ kind r = .arr ∨ kind r = .map := by
      unfold okMem at ok
      split_ifs at ok with h1
      · exact .inl h1
      · exact .inr (by simpa using ok)
    have hr : G (.ex 12) (emit r) (ctree r) := by
      have := (ihr ar).at_level
      rwa [acc_bool _ rfl kr ar] at this
    have hr1 := lower hr (by omega) 1 (by omega) (by omega)
    have hra : G (.ex 1) (.pre .addr :: emit r) (.pre .addr (ctree r)) :=
      lower (.pre .addr (.up (by omega) (by omega) hr)) (by omega) 1 (by omega) (by omega)
    refine ⟨?_, fun p h => by cases h⟩
    have key : ∀ ts, G (.ex 12) ts (memTree (kind l) (kind r) (ctree l) (ctree r)) →
        emit (.mem n l r) = (if n then [.pre .bang] else []) ++ ts → G (.ex (lev (.mem n l r))) (emit (.mem n l r)) (ctree (.mem n l r)) := by
      intro ts h e
      rw [e]
      exact written_neg n h
    unfold memTree at key
    rcases kr with kr | kr | kr <;> rw [kr] at key
    · by_cases kl : kind l = .char
      · simp only [kl, if_true, if_neg (show ¬ Kind.str = .map by decide)] at key
        have h1 := G.call3 .memchr (lower (.dot (lit "data") hr) (by omega) 1 (by omega) (by omega)) hl
          (lower (.cast (.up (by omega) (by omega) (.dot (lit "len") hr))) (by omega) 1 (by omega) (by omega))
        have h2 := G.bin .ne (lower h1 (by omega) (level .ne) (by decide) (by decide))
          (lower (.id null) (by omega) (level .ne + 1) (by decide) (by decide))
        refine key _ (.paren (lower h2 (by decide) 1 (by omega) (by decide))) ?_
        simp [emit, emitMem, kr, kl]
      · simp only [if_true, if_neg kl, if_neg (show ¬ Kind.str = .map by decide)] at key
        refine key _ (.call2 .contains hr1 hl) ?_
        simp [emit, emitMem, kr, kl]
    · simp only [if_neg (show ¬ Kind.arr = .map by decide), if_neg (show ¬ Kind.arr = .str by decide)] at key
      refine key _ (.call2 .contains hra hl) ?_
      simp [emit, emitMem, kr]
    · simp only [if_true] at key
      refine key _ (.stmt (.decl ik hl (.last (lower (.call2 .hasKey hra
        (lower (.pre .addr (.up (by omega) (by omega) (.id ik))) (by omega) 1 (by omega) (by omega))) (by omega) 1 (by omega) (by omega))))) ?_
      simp [emit, emitMem, kr]
  | range n l s e ihl ihs ihe =>
    simp only [accepted, Bool.and_eq_true] at ha
    obtain ⟨⟨⟨⟨⟨al, as⟩, ae⟩, kl⟩, ks⟩, ke⟩ := ha
    have int : ∀ {x}, accepted x = true → intKind (kind x) = true → Written x → G (.ex 11) (emit x) (ctree x) :=
      fun h1 h2 h3 => h3.unary (int_lev h1 (by simp [intish, h2]))
    have gl := int al kl (ihl al)
    have gs := int as ks (ihs as)
    have ge := int ae ke (ihe ae)
    have h1 := G.bin .ge (lower gl (by omega) (level .ge) (by decide) (by decide)) (lower gs (by omega) (level .ge + 1) (by decide) (by decide))
    have h2 := G.bin .lt (lower gl (by omega) (level .lt) (by decide) (by decide)) (lower ge (by omega) (level .lt + 1) (by decide) (by decide))
    have h3 := G.bin .and (lower h1 (by decide) (level .and) (by decide) (by decide)) (lower h2 (by decide) (level .and + 1) (by decide) (by decide))
    have h4 := G.paren (lower h3 (by decide) 1 (by omega) (by decide))
    refine ⟨?_, fun p h => by cases h⟩
    cases n
    · simpa [emit, ctree, lev, neg?] using h4
    · have h5 := G.pre .bang (.up (by omega) (by omega) (.paren (lower h4 (by omega) 1 (by omega) (by omega))))
      simpa [emit, ctree, lev, neg?] using h5

/-! ## What a C expression means -/

/-- Expressions as the language sees them: operators applied to operands. -/
inductive Tree where
  | var (x : Str)
  | lit (n : Nat)
  | call0 (f : Str)
  | call2 (f : Str) (a b : Tree)
  | un (p : Pre) (e : Tree)
  | inf (o : Op) (l r : Tree)
  | mem (l r : Tree)
  | field (e : Tree) (f : Str)
  deriving DecidableEq, Repr

def unIf (n : Bool) (t : Tree) : Tree := if n then .un .bang t else t

/-- What a source expression says. `s != t` is `!(s == t)` for strings, `l not_in r` is `!(l in r)`, and `l in range(s, e)` is
`l >= s && l < e` (STANDARD 12.5). -/
def mean : Ex → Tree
  | .var x _ => .var x
  | .lit n _ => .lit n
  | .call0 f _ => .call0 f
  | .call2 f a b _ => .call2 f (mean a) (mean b)
  | .neg e => .un .minus (mean e)
  | .not e => .un .bang (mean e)
  | .bnot e => .un .tilde (mean e)
  | .inf o l r =>
    if o = .ne ∧ (kind l = .str ∨ kind r = .str) then .un .bang (.inf .eq (mean l) (mean r)) else .inf o (mean l) (mean r)
  | .mem n l r => unIf n (.mem (mean l) (mean r))
  | .range n l s e => unIf n (.inf .and (.inf .ge (mean l) (mean s)) (.inf .lt (mean l) (mean e)))

/-- The local variables of the enclosing statement expressions, with what they hold: `some none` for one that has
not been given a value yet. -/
abbrev Env := Str → Option (Option Tree)

def Env.set (env : Env) (x : Str) (v : Option Tree) : Env := fun y => if y = x then some v else env y

def target : Tree → Tree
  | .un .addr t => t
  | t => t

/-- The declared name is in scope in its own initialiser (C11 6.2.1:7), except with `__auto_type`. -/
def Env.enter (env : Env) (auto : Bool) (x : Str) : Env := if auto then env else env.set x none

/-- The meaning of a C expression: casts between number types and the checks of the runtime are passed over, a local variable
stands for its initialiser. -/
def resolve : Env → CE → Option Tree
  | env, .id x => match env x with
    | some v => v
    | none => some (.var x)
  | _, .num n => some (.lit n)
  | _, .call0 f => match f with
    | .user f => some (.call0 f)
    | _ => none
  | env, .call1 f a => match f, resolve env a with
    | .negCheck, some t => some (.un .minus t)
    | _, _ => none
  | env, .call2 f a b => match f, resolve env a, resolve env b with
    | .user f, some s, some t => some (.call2 f s t)
    | .check o, some s, some t => some (.inf o s t)
    | .stringEq, some s, some t => some (.inf .eq s t)
    | .contains, some s, some t => some (.mem t (target s))
    | .hasKey, some (.un .addr s), some (.un .addr t) => some (.mem t s)
    | _, _, _ => none
  | env, .call3 f a b c => match f, resolve env a, resolve env b, resolve env c with
    | .memchr, some (.field s f), some t, some (.field s' g) =>
      if s = s' ∧ f = lit "data" ∧ g = lit "len" then some (.mem t s) else none
    | _, _, _, _ => none
  | env, .bin o l r =>
    if o = .ne ∧ r = .id null then resolve env l
    else match resolve env l, resolve env r with
      | some s, some t => some (.inf o s t)
      | _, _ => none
  | env, .pre p e => (resolve env e).map (.un p)
  | env, .cast e => resolve env e
  | env, .dot e f => (resolve env e).map (.field · f)
  | env, .letIn auto x i b => resolve (env.set x (resolve (env.enter auto x) i)) b

/-- The C compiler reads the text of `e`, and it means `t`. -/
def ReadsAs (e : Ex) (t : Tree) : Prop := ∃ c, G (.ex 1) (emit e) c ∧ resolve (fun _ => none) c = some t

/-- The variables of an expression. -/
def vars : Ex → List Str
  | .var x _ => [x]
  | .lit .. | .call0 .. => []
  | .call2 _ a b _ => vars a ++ vars b
  | .neg e | .not e | .bnot e => vars e
  | .inf _ l r => vars l ++ vars r
  | .mem _ l r => vars l ++ vars r
  | .range _ l s e => vars l ++ (vars s ++ vars e)

/-- No operand mentions the temporary that holds another one: `_dv` in a division, `_sa` in a shift, `_ik` in a search of a map. -/
def noCapture : Ex → Prop
  | .var .. | .lit .. | .call0 .. => True
  | .call2 _ a b _ => noCapture a ∧ noCapture b
  | .neg e | .not e | .bnot e => noCapture e
  | .inf o l r => noCapture l ∧ noCapture r ∧
    (o.isShift = true → sa ∉ vars l ∧ sa ∉ vars r) ∧
    (o.isDiv = true → dv ∉ vars l ∧ (kind l = .float ∨ kind r = .float → dv ∉ vars r))
  | .mem _ l r => noCapture l ∧ noCapture r ∧ (kind r = .map → ik ∉ vars l ∧ ik ∉ vars r)
  | .range _ l s e => noCapture l ∧ noCapture s ∧ noCapture e

/-- A sum or difference of floats. -/
def floatSum : Ex → Bool
  | .inf o l r => (o = .add || o = .sub) && infKind o (kind l) (kind r) = .float
  | _ => false

/-- No sum or difference of floats is divided. -/
def goodDiv : Ex → Bool
  | .var .. | .lit .. | .call0 .. => true
  | .call2 _ a b _ => goodDiv a && goodDiv b
  | .neg e | .not e | .bnot e => goodDiv e
  | .inf o l r => goodDiv l && goodDiv r && !(o = .div && floatSum l)
  | .mem _ l r => goodDiv l && goodDiv r
  | .range _ l s e => goodDiv l && goodDiv s && goodDiv e

/-- A division as it is read: of the last term only, if its left operand is a sum. -/
def regroup (sum : Bool) (t : Tree) (o : Op) (v : Tree) : Tree :=
  match sum, t with
  | true, .inf p a b => .inf p a (.inf o b v)
  | _, t => .inf o t v

/-- What an expression is read as. -/
def got : Ex → Tree
  | .var x _ => .var x
  | .lit n _ => .lit n
  | .call0 f _ => .call0 f
  | .call2 f a b _ => .call2 f (got a) (got b)
  | .neg e => .un .minus (got e)
  | .not e => .un .bang (got e)
  | .bnot e => .un .tilde (got e)
  | .inf o l r =>
    if o = .ne ∧ (kind l = .str ∨ kind r = .str) then .un .bang (.inf .eq (got l) (got r))
    else regroup (o = .div && floatSum l) (got l) o (got r)
  | .mem n l r => unIf n (.mem (got l) (got r))
  | .range n l s e => unIf n (.inf .and (.inf .ge (got l) (got s)) (.inf .lt (got l) (got e)))

/-! ## Resolving the trees -/

theorem resolve_bin {env o l r s t} (hl : resolve env l = some s) (hr : resolve env r = some t) (hn : ¬ (o = .ne ∧ r = .id null)) :
    resolve env (.bin o l r) = some (.inf o s t) := by
  rw [resolve, if_neg hn, hl, hr]

theorem resolve_neg {env a s} (h : resolve env a = some s) : resolve env (.call1 .negCheck a) = some (.un .minus s) := by
  rw [resolve.eq_def]
  simp only [h]

theorem resolve_two {env a b s t} (ha : resolve env a = some s) (hb : resolve env b = some t) :
    (∀ f, resolve env (.call2 (.user f) a b) = some (.call2 f s t)) ∧
    (∀ o, resolve env (.call2 (.check o) a b) = some (.inf o s t)) ∧
    resolve env (.call2 .stringEq a b) = some (.inf .eq s t) ∧
    resolve env (.call2 .contains a b) = some (.mem t (target s)) := by
  refine ⟨fun f => ?_, fun o => ?_, ?_, ?_⟩ <;> rw [resolve.eq_def] <;> simp only [ha, hb]

theorem resolve_hasKey {env a b s t} (ha : resolve env a = some (.un .addr s)) (hb : resolve env b = some (.un .addr t)) :
    resolve env (.call2 .hasKey a b) = some (.mem t s) := by
  rw [resolve.eq_def]
  simp only [ha, hb]

theorem resolve_pre {env e t} (p : Pre) (h : resolve env e = some t) : resolve env (.pre p e) = some (.un p t) := by
  rw [resolve, h]
  rfl

theorem resolve_dot {env e t} (f : Str) (h : resolve env e = some t) : resolve env (.dot e f) = some (.field t f) := by
  rw [resolve, h]
  rfl

theorem resolve_memchr {env a b c s t} (ha : resolve env a = some (.field s (lit "data"))) (hb : resolve env b = some t)
    (hc : resolve env c = some (.field s (lit "len"))) : resolve env (.call3 .memchr a b c) = some (.mem t s) := by
  rw [resolve.eq_def]
  simp [ha, hb, hc]

theorem bin_resolve {env o l r u} (h : resolve env (.bin o l r) = some u) (hn : ¬ (o = .ne ∧ r = .id null)) :
    ∃ s t, resolve env l = some s ∧ resolve env r = some t ∧ u = .inf o s t := by
  rw [resolve, if_neg hn] at h
  cases h1 : resolve env l with
  | none => simp [h1] at h
  | some s =>
    cases h2 : resolve env r with
    | none => simp [h1, h2] at h
    | some t =>
      simp only [h1, h2, Option.some.injEq] at h
      exact ⟨s, t, rfl, rfl, h.symm⟩

theorem resolve_castOn (env : Env) (p : Option Op) (c : CE) : resolve env (castOn p c) = resolve env c := by
  cases p with
  | none => rfl
  | some p => cases c <;> rfl

/-- No variable of `e` is hidden. -/
def Clear (env : Env) (e : Ex) : Prop := ∀ x ∈ vars e, env x = none

theorem Clear.set {env : Env} {e x v} (h : Clear env e) (hx : x ∉ vars e) : Clear (env.set x v) e := by
  intro y hy
  have : y ≠ x := fun h1 => hx (h1 ▸ hy)
  simp only [Env.set, if_neg this]
  exact h y hy

theorem set_same (env : Env) (x v) : resolve (env.set x v) (.id x) = v := by
  rw [resolve]
  simp [Env.set]

theorem target_got (e : Ex) : target (got e) = got e := by
  cases e with
  | inf o l r =>
    rw [got]
    split_ifs
    · rfl
    · unfold regroup
      split <;> rfl
  | mem n => cases n <;> rfl
  | range n => cases n <;> rfl
  | _ => rfl

theorem ctree_null {e : Ex} (h : null ∉ vars e) (ha : accepted e = true) : ctree e ≠ .id null := by
  cases e with
  | var x k =>
    intro h1
    simp only [ctree, CE.id.injEq] at h1
    exact h (by simp [vars, h1])
  | inf o l r =>
    have := (shape_kinds _ _ _ (acc_inf ha).2.2).1
    rw [ctree]
    cases shape o (kind l) (kind r) <;> simp [shapeTree]
  | neg e => rw [ctree]; split_ifs <;> simp
  | bnot e => rw [ctree]; split_ifs <;> simp
  | mem n l r =>
    rw [ctree, neg?, memTree]
    split_ifs <;> simp
  | range n l r => cases n <;> simp [ctree, neg?]
  | _ => simp [ctree]

theorem floatSum_raw {e : Ex} (ha : accepted e = true) : floatSum e = true ↔ rawOf e = some .add ∨ rawOf e = some .sub := by
  cases e with
  | inf o l r =>
    have key : ∀ o kl kr, okInf o kl kr = true →
        (((o = .add || o = .sub) && infKind o kl kr = .float) = true ↔ shape o kl kr = .raw ∧ (o = .add ∨ o = .sub)) := by
      intro o kl kr
      cases o <;> cases kl <;> cases kr <;> decide
    have := key _ _ _ (acc_inf ha).2.2
    rw [floatSum, this, rawOf]
    split_ifs with h <;> simp [h]
  | _ => simp [floatSum, rawOf]

theorem div_shape : ∀ o kl kr, okInf o kl kr = true → o.isDiv = true → (kl = .float ∨ kr = .float) → shape o kl kr = .fdiv := by
  intro o kl kr
  cases o <;> cases kl <;> cases kr <;> decide

theorem str_shape : ∀ o kl kr, okInf o kl kr = true → ((o = .ne ∧ (kl = .str ∨ kr = .str)) ↔ shape o kl kr = .strNe) := by
  intro o kl kr
  cases o <;> cases kl <;> cases kr <;> decide

theorem fdiv_float : ∀ o kl kr, shape o kl kr = .fdiv → o.isDiv = true ∧ (kl = .float ∨ kr = .float) := by
  intro o kl kr
  cases o <;> cases kl <;> cases kr <;> decide

theorem sum_kind {e : Ex} (h : floatSum e = true) : kind e = .float := by
  cases e <;> first | (cases h; done) | (simp only [floatSum, Bool.and_eq_true, decide_eq_true_eq] at h; exact h.2)

theorem float_div_shape : ∀ o kl kr, okInf o kl kr = true → o = .div → kl = .float → shape o kl kr = .fdiv := by
  intro o kl kr
  cases o <;> cases kl <;> cases kr <;> decide

theorem regroup_plain (t : Tree) (o : Op) (v : Tree) : regroup false t o v = .inf o t v := rfl

theorem raw_ops {e : Ex} {p} (h : rawOf e = some p) : ∃ l r, e = .inf p l r := by
  cases e <;> try cases h
  rename_i o l r
  rw [rawOf] at h
  split_ifs at h
  cases h
  exact ⟨l, r, rfl⟩

/-- A division of floats, given what the left operand and the temporary hold. -/
theorem resolve_divOn {env : Env} {l : Ex} {t v : Tree} (ha : accepted l = true) (hn : numeric (kind l) = true)
    (h : resolve env (ctree l) = some t) (hv : env dv = some (some v)) :
    resolve env (divOn .div (rawOf l) (ctree l)) = some (regroup (floatSum l) t .div v) := by
  have hd : resolve env (.id dv) = some v := by rw [resolve, hv]
  have nn : ∀ {o : Op} {c : CE}, o ≠ .ne → ¬ (o = .ne ∧ c = .id null) := fun h1 h2 => h1 h2.1
  have nd : ∀ {o : Op}, ¬ (o = .ne ∧ CE.id dv = .id null) := by
    rintro o ⟨-, h2⟩
    exact absurd h2 (by decide)
  have hs := floatSum_raw ha
  cases hr : rawOf l with
  | none =>
    have : floatSum l = false := by
      cases h1 : floatSum l
      · rfl
      · rw [hs, hr] at h1
        simp at h1
    rw [this, regroup_plain]
    exact resolve_bin (l := .cast (ctree l)) h hd nd
  | some p =>
    obtain ⟨ta, a, tb, b, -, e2, -, -⟩ := (written l ha).raw p hr
    have hp : p = .add ∨ p = .sub ∨ p = .mul := by
      rcases raw_of ha hr with h1 | ⟨-, h1⟩
      · rw [h1] at hn
        cases hn
      · exact h1
    rw [e2] at h ⊢
    have hne : p ≠ .ne := by rcases hp with rfl | rfl | rfl <;> decide
    obtain ⟨s, u, h1, h2, rfl⟩ := bin_resolve h (nn hne)
    rcases hp with rfl | rfl | rfl
    · rw [hs.2 (.inl hr)]
      exact resolve_bin (l := .cast a) h1 (resolve_bin h2 hd nd) (nn (by decide))
    · rw [hs.2 (.inr hr)]
      exact resolve_bin (l := .cast a) h1 (resolve_bin h2 hd nd) (nn (by decide))
    · have : floatSum l = false := by
        cases h1 : floatSum l
        · rfl
        · rw [hs, hr] at h1
          simp at h1
      rw [this]
      exact resolve_bin (resolve_bin (l := .cast a) h1 h2 (nn (by decide))) hd nd

theorem resolve_neg? {env : Env} {n c t} (h : resolve env c = some t) : resolve env (neg? n c) = some (unIf n t) := by
  cases n
  · exact h
  · show resolve env (.pre .bang c) = _
    rw [resolve, h]
    rfl

theorem resolved (e : Ex) (ha : accepted e = true) (hc : noCapture e) (hz : null ∉ vars e) (env : Env) (he : Clear env e) :
    resolve env (ctree e) = some (got e) := by
  induction e generalizing env with
  | var x k =>
    rw [ctree, resolve, he x (by simp [vars])]
    rfl
  | lit n k => rfl
  | call0 f k => rfl
  | call2 f a b k iha ihb =>
    simp only [accepted, Bool.and_eq_true] at ha
    simp only [vars, List.mem_append, not_or] at hz
    exact (resolve_two (iha ha.1 hc.1 hz.1 env (fun x hx => he x (by simp [vars, hx])))
      (ihb ha.2 hc.2 hz.2 env (fun x hx => he x (by simp [vars, hx])))).1 f
  | neg e ih =>
    simp only [accepted, Bool.and_eq_true] at ha
    have := ih ha.1.1 hc hz env he
    rw [ctree]
    split_ifs
    · exact resolve_neg this
    · exact resolve_pre .minus this
  | not e ih =>
    simp only [accepted, Bool.and_eq_true] at ha
    rw [ctree, resolve, ih ha.1 hc hz env he]
    rfl
  | bnot e ih =>
    simp only [accepted, Bool.and_eq_true] at ha
    have := ih ha.1 hc hz env he
    rw [ctree]
    split_ifs
    · rw [resolve, resolve, this]
      rfl
    · rw [resolve, this]
      rfl
  | inf o l r ihl ihr =>
    obtain ⟨al, ar, ok⟩ := acc_inf ha
    obtain ⟨cl, cr, cs, cd⟩ := hc
    simp only [vars, List.mem_append, not_or] at hz
    have el : Clear env l := fun x hx => he x (by simp [vars, hx])
    have er : Clear env r := fun x hx => he x (by simp [vars, hx])
    have hl := ihl al cl hz.1
    have hr := ihr ar cr hz.2
    obtain ⟨k0, k1, k2, k3, k4, k5, k7, k8, k6⟩ := shape_kinds _ _ _ ok
    have ss := str_shape _ _ _ ok
    have nz : ¬ (o = .ne ∧ ctree r = .id null) := fun h => ctree_null hz.2 ar h.2
    rw [ctree, got]
    by_cases hd : o = .div ∧ floatSum l = true
    · have hs := float_div_shape _ _ _ ok hd.1 (sum_kind hd.2)
      rw [hs, if_neg (fun h => by rw [ss.1 h] at hs; cases hs)]
      obtain ⟨i1, i2, rfl⟩ := k6 hs
      have hk := (fdiv_float _ _ _ hs)
      have hdv := cd rfl
      simp only [shapeTree, resolve, resolve_castOn, Env.enter, Bool.false_eq_true, if_false]
      rw [hr _ (er.set (hdv.2 hk.2))]
      rw [resolve_divOn al i1 (hl _ (el.set hdv.1)) (by simp [Env.set]; rfl)]
      simp
    · have hb : (decide (o = .div) && floatSum l) = false := by
        by_cases h1 : o = .div
        · simp only [h1, decide_true, Bool.true_and]
          cases h2 : floatSum l
          · rfl
          · exact absurd ⟨h1, h2⟩ hd
        · simp [h1]
      rw [hb, regroup_plain]
      cases hs : shape o (kind l) (kind r) with
      | none => exact absurd hs k0
      | strEq =>
        rw [if_neg (fun h => by rw [ss.1 h] at hs; cases hs), shapeTree, k7 hs]
        exact (resolve_two (hl _ el) (hr _ er)).2.2.1
      | strNe =>
        rw [if_pos (ss.2 hs), shapeTree]
        exact resolve_pre .bang (resolve_two (hl _ el) (hr _ er)).2.2.1
      | bit =>
        rw [if_neg (fun h => by rw [ss.1 h] at hs; cases hs)]
        exact resolve_bin (hl _ el) (hr _ er) nz
      | raw =>
        rw [if_neg (fun h => by rw [ss.1 h] at hs; cases hs)]
        exact resolve_bin (hl _ el) (hr _ er) nz
      | check =>
        rw [if_neg (fun h => by rw [ss.1 h] at hs; cases hs), shapeTree]
        exact (resolve_two (hl _ el) (hr _ er)).2.1 o
      | shift =>
        obtain ⟨sl, sr⟩ := cs (k2 hs).1
        rw [if_neg (fun h => by rw [ss.1 h] at hs; cases hs), shapeTree, resolve]
        refine resolve_bin ?_ ?_ (fun h => absurd h.2 (by simp))
        · have := fun v => hl (env.set sa v) (el.set sl)
          split_ifs
          · rw [resolve]
            exact this _
          · exact this _
        · rw [resolve, set_same, resolve]
          exact hr _ (er.set sr)
      | fdiv =>
        obtain ⟨i1, i2, rfl⟩ := k6 hs
        have hk := (fdiv_float _ _ _ hs)
        have hdv := cd rfl
        rw [if_neg (fun h => by rw [ss.1 h] at hs; cases hs)]
        simp only [shapeTree, resolve, resolve_castOn, Env.enter, Bool.false_eq_true, if_false]
        rw [hr _ (er.set (hdv.2 hk.2))]
        rw [resolve_divOn al i1 (hl _ (el.set hdv.1)) (by simp [Env.set]; rfl)]
        have : floatSum l = false := by simpa using hb
        rw [this, regroup_plain]
      | idiv =>
        have ho := (k4 hs).2.2
        have hdv := cd ho
        rw [if_neg (fun h => by rw [ss.1 h] at hs; cases hs), shapeTree, resolve, resolve]
        have e1 : ∀ v w, resolve ((env.set dv v).set dn w) (.id dv) = v := by
          intro v w
          rw [resolve]
          simp [Env.set, show dv ≠ dn by decide]
        refine resolve_bin ?_ ?_ (fun h => absurd h.2 (by decide))
        · rw [set_same]
          exact hl _ (el.set hdv.1)
        · rw [e1]
          exact hr _ er
      | udiv =>
        have ho := (k3 hs).2.2
        have hdv := cd ho
        rw [if_neg (fun h => by rw [ss.1 h] at hs; cases hs), shapeTree, resolve]
        refine resolve_bin (hl _ (el.set hdv.1)) ?_ (fun h => absurd h.2 (by decide))
        rw [set_same]
        exact hr _ er
  | mem n l r ihl ihr =>
    simp only [accepted, Bool.and_eq_true] at ha
    obtain ⟨⟨al, ar⟩, ok⟩ := ha
    obtain ⟨cl, cr, cm⟩ := hc
    simp only [vars, List.mem_append, not_or] at hz
    have el : Clear env l := fun x hx => he x (by simp [vars, hx])
    have er : Clear env r := fun x hx => he x (by simp [vars, hx])
    have hl := ihl al cl hz.1
    have hr := ihr ar cr hz.2
    rw [ctree, got]
    refine resolve_neg? ?_
    unfold memTree
    split_ifs with h1 h2 h3
    · obtain ⟨c1, c2⟩ := cm h1
      rw [resolve]
      refine resolve_hasKey (resolve_pre .addr (hr _ (er.set c2))) (resolve_pre .addr ?_)
      rw [set_same]
      exact hl _ (el.set c1)
    · rw [resolve, if_pos ⟨rfl, rfl⟩]
      exact resolve_memchr (resolve_dot _ (hr _ er)) (hl _ el) (resolve_dot _ (hr _ er))
    · have := (resolve_two (hr _ er) (hl _ el)).2.2.2
      rwa [target_got] at this
    · exact (resolve_two (resolve_pre .addr (hr _ er)) (hl _ el)).2.2.2
  | range n l s e ihl ihs ihe =>
    simp only [accepted, Bool.and_eq_true] at ha
    obtain ⟨⟨⟨⟨⟨al, as⟩, ae⟩, kl⟩, ks⟩, ke⟩ := ha
    obtain ⟨cl, cs, ce⟩ := hc
    simp only [vars, List.mem_append, not_or] at hz
    have hl := ihl al cl hz.1 env (fun x hx => he x (by simp [vars, hx]))
    have hs := ihs as cs hz.2.1 env (fun x hx => he x (by simp [vars, hx]))
    have hee := ihe ae ce hz.2.2 env (fun x hx => he x (by simp [vars, hx]))
    rw [ctree, got]
    refine resolve_neg? ?_
    have nn : ∀ {o : Op} {c : CE}, o ≠ .ne → ¬ (o = .ne ∧ c = .id null) := fun h1 h2 => h1 h2.1
    exact resolve_bin (resolve_bin hl hs (nn (by decide))) (resolve_bin hl hee (nn (by decide))) (nn (by decide))

theorem unIf_inj {n : Bool} {s t : Tree} : unIf n s = unIf n t ↔ s = t := by
  cases n <;> simp [unIf]

theorem got_mean (e : Ex) : got e = mean e ↔ goodDiv e = true := by
  induction e with
  | var | lit | call0 => simp [got, mean, goodDiv]
  | call2 f a b k iha ihb => simp [got, mean, goodDiv, iha, ihb]
  | neg e ih | not e ih | bnot e ih => simp [got, mean, goodDiv, ih]
  | inf o l r ihl ihr =>
    rw [got, mean, goodDiv]
    by_cases hd : o = .div ∧ floatSum l = true
    · obtain ⟨rfl, h2⟩ := hd
      simp only [h2]
      rw [if_neg (by simp), if_neg (by simp)]
      cases l <;> try cases h2
      rename_i p a b
      simp only [floatSum, Bool.and_eq_true, Bool.or_eq_true, decide_eq_true_eq] at h2
      have hp : p ≠ .div := by rcases h2.1 with rfl | rfl <;> decide
      have hq : ¬ (p = .ne ∧ (kind a = .str ∨ kind b = .str)) := by
        rintro ⟨rfl, -⟩
        simp at h2
      rw [got, if_neg hq]
      have : (decide (p = .div) && floatSum a) = false := by simp [hp]
      rw [this]
      simp [regroup, hp]
    · have hb : (decide (o = .div) && floatSum l) = false := by
        by_cases h1 : o = .div
        · cases h2 : floatSum l
          · simp
          · exact absurd ⟨h1, h2⟩ hd
        · simp [h1]
      rw [hb, regroup_plain]
      split_ifs <;> simp [ihl, ihr]
  | mem n l r ihl ihr => simp [got, mean, goodDiv, ihl, ihr, unIf_inj]
  | range n l s e ihl ihs ihe =>
    simp only [got, mean, goodDiv, unIf_inj, Tree.inf.injEq, true_and, Bool.and_eq_true, ← ihl, ← ihs, ← ihe]
    constructor
    · rintro ⟨⟨a, b⟩, -, c⟩
      exact ⟨⟨a, b⟩, c⟩
    · rintro ⟨⟨a, b⟩, c⟩
      exact ⟨⟨a, b⟩, a, c⟩

/-- An expression is read in one way only. -/
theorem readsAs_iff {e : Ex} (ha : accepted e = true) (t : Tree) : ReadsAs e t ↔ resolve (fun _ => none) (ctree e) = some t := by
  constructor
  · rintro ⟨c, hg, h⟩
    rwa [G_unique hg (written e ha).any] at h
  · exact fun h => ⟨_, (written e ha).any, h⟩

/-! ## The calls made during an evaluation -/

def callOf : Fn → List Str
  | .user f => [f]
  | _ => []

/-- `Ord truth env c tr`: a C compiler may evaluate `c` with the calls `tr`, where `truth` gives the value of the conditions.
The operands of an operator and the arguments of a call are evaluated in any order (C11 6.5:3, 6.5.2.2:10), except those of `&&` and `||`
(6.5.13:4, 6.5.14:4); declarations in a block are evaluated in the order of the text. -/
inductive Ord (truth : Tree → Bool) : Env → CE → List Str → Prop
  | id {env} (x) : Ord truth env (.id x) []
  | num {env} (n) : Ord truth env (.num n) []
  | call0 {env} (f) : Ord truth env (.call0 f) (callOf f)
  | call1 {env} (f) {a ta} : Ord truth env a ta → Ord truth env (.call1 f a) (ta ++ callOf f)
  | call2 {env} (f) {a b ta tb} {p : List (List Str)} : Ord truth env a ta → Ord truth env b tb → p.Perm [ta, tb] →
      Ord truth env (.call2 f a b) (p.flatten ++ callOf f)
  | call3 {env} (f) {a b c ta tb tc} {p : List (List Str)} : Ord truth env a ta → Ord truth env b tb → Ord truth env c tc → p.Perm [ta, tb, tc] →
      Ord truth env (.call3 f a b c) (p.flatten ++ callOf f)
  | bin {env} {o : Op} {l r tl tr} {p : List (List Str)} : o.isLogic = false → Ord truth env l tl → Ord truth env r tr → p.Perm [tl, tr] →
      Ord truth env (.bin o l r) p.flatten
  | both {env} {o : Op} {l r tl tr t} : o.isLogic = true → Ord truth env l tl → resolve env l = some t → truth t = (o == .and) →
      Ord truth env r tr → Ord truth env (.bin o l r) (tl ++ tr)
  | first {env} {o : Op} {l r tl t} : o.isLogic = true → Ord truth env l tl → resolve env l = some t → truth t = (o == .or) →
      Ord truth env (.bin o l r) tl
  | pre {env} (p) {e t} : Ord truth env e t → Ord truth env (.pre p e) t
  | cast {env} {e t} : Ord truth env e t → Ord truth env (.cast e) t
  | dot {env} (f) {e t} : Ord truth env e t → Ord truth env (.dot e f) t
  | letIn {env} (auto x) {i b ti tb} : Ord truth (env.enter auto x) i ti →
      Ord truth (env.set x (resolve (env.enter auto x) i)) b tb → Ord truth env (.letIn auto x i b) (ti ++ tb)

/-- The calls of a source expression, operands from left to right and each once; the right operand of `&&` and `||` only if needed. -/
def calls (truth : Tree → Bool) : Ex → List Str
  | .var .. | .lit .. => []
  | .call0 f _ => [f]
  | .call2 f a b _ => calls truth a ++ calls truth b ++ [f]
  | .neg e | .not e | .bnot e => calls truth e
  | .inf o l r =>
    if o.isLogic ∧ truth (mean l) = (o == .or) then calls truth l else calls truth l ++ calls truth r
  | .mem _ l r => calls truth l ++ calls truth r
  | .range _ l s e => calls truth l ++ (calls truth s ++ calls truth e)

/-- Without calls. -/
def callFree : Ex → Bool
  | .var .. | .lit .. => true
  | .call0 .. | .call2 .. => false
  | .neg e | .not e | .bnot e => callFree e
  | .inf _ l r => callFree l && callFree r
  | .mem _ l r => callFree l && callFree r
  | .range _ l s e => callFree l && callFree s && callFree e

/-- Nothing with a call in it stands where the text is written twice or skipped: left of `in range(…)`, at the end of the range, or
right of `in` for a character in a string. -/
def single : Ex → Bool
  | .var .. | .lit .. | .call0 .. => true
  | .call2 _ a b _ => single a && single b
  | .neg e | .not e | .bnot e => single e
  | .inf _ l r => single l && single r
  | .mem _ l r => single l && single r && (!(kind l = .char && kind r = .str) || callFree r)
  | .range _ l s e => single s && callFree l && callFree e

/-- Of two operands that are not joined by `&&` or `||` at most one has calls. -/
def calm : Ex → Bool
  | .var .. | .lit .. | .call0 .. => true
  | .call2 _ a b _ => calm a && calm b && (callFree a || callFree b)
  | .neg e | .not e | .bnot e => calm e
  | .inf o l r => calm l && calm r && (o.isLogic || callFree l || callFree r)
  | .mem _ l r => calm l && calm r && (callFree l || callFree r)
  | .range _ _ s _ => calm s

theorem calls_free (truth : Tree → Bool) {e : Ex} (h : callFree e = true) : calls truth e = [] := by
  induction e with
  | var | lit => rfl
  | call0 | call2 => cases h
  | neg e ih | not e ih | bnot e ih => exact ih h
  | inf o l r ihl ihr =>
    simp only [callFree, Bool.and_eq_true] at h
    rw [calls, ihl h.1, ihr h.2]
    split_ifs <;> rfl
  | mem n l r ihl ihr =>
    simp only [callFree, Bool.and_eq_true] at h
    rw [calls, ihl h.1, ihr h.2]
    rfl
  | range n l s e ihl ihs ihe =>
    simp only [callFree, Bool.and_eq_true] at h
    rw [calls, ihl h.1.1, ihs h.1.2, ihe h.2]
    rfl

theorem single_free {e : Ex} (h : callFree e = true) : single e = true := by
  induction e with
  | var | lit => rfl
  | call0 | call2 => cases h
  | neg e ih | not e ih | bnot e ih => exact ih h
  | inf o l r ihl ihr =>
    simp only [callFree, Bool.and_eq_true] at h
    simp [single, ihl h.1, ihr h.2]
  | mem n l r ihl ihr =>
    simp only [callFree, Bool.and_eq_true] at h
    simp [single, ihl h.1, ihr h.2, h.2]
  | range n l s e ihl ihs ihe =>
    simp only [callFree, Bool.and_eq_true] at h
    simp [single, ihs h.1.2, h.1.1, h.2]

/-- Two lists in either order. -/
theorem two_perm {α} {p : List (List α)} {a b : List α} (h : p.Perm [a, b]) : p.flatten = a ++ b ∨ p.flatten = b ++ a := by
  have hl := h.length_eq
  match p, hl with
  | [x, y], _ =>
    have hx : x = a ∨ x = b := by
      have := h.subset (show x ∈ [x, y] by simp)
      simpa using this
    rcases hx with rfl | rfl
    · have := (List.perm_cons x).1 h
      have := List.perm_singleton.1 this
      cases this
      exact .inl (by simp)
    · have h2 : List.Perm [x, y] [x, a] := h.trans (List.Perm.swap ..)
      have := (List.perm_cons x).1 h2
      have := List.perm_singleton.1 this
      cases this
      exact .inr (by simp)

theorem perm_empty {α} {p : List (List α)} {l : List (List α)} (h : p.Perm l) (hl : ∀ x ∈ l, x = []) : p.flatten = [] := by
  rw [List.flatten_eq_nil_iff]
  exact fun x hx => hl x (h.subset hx)

theorem perm_middle {α} {p : List (List α)} {t : List α} (h : p.Perm [[], t, []]) : p.flatten = t := by
  have h1 := h.filter (fun l => !l.isEmpty)
  rw [← List.flatten_filter_not_isEmpty]
  cases t with
  | nil =>
    have h1 : (p.filter fun l => !l.isEmpty).Perm [] := h1
    rw [List.perm_nil.1 h1]
    rfl
  | cons a t =>
    have h1 : (p.filter fun l => !l.isEmpty).Perm [a :: t] := h1
    rw [List.perm_singleton.1 h1]
    simp

/-- What an evaluation of `e` does, compared to the source. -/
def Same (truth : Tree → Bool) (e : Ex) (tr : List Str) : Prop :=
  tr.Perm (calls truth e) ∧ (calm e = true → tr = calls truth e)

theorem Same.free {truth e tr} (h : Same truth e tr) (hf : callFree e = true) : tr = [] := by
  have := h.1
  rw [calls_free truth hf] at this
  exact List.perm_nil.1 this

/-- Two operands in either order. -/
theorem Same.two {truth l r tl tr t} (hl : Same truth l tl) (hr : Same truth r tr) (ht : t = tl ++ tr ∨ t = tr ++ tl) :
    t.Perm (calls truth l ++ calls truth r) ∧
    (calm l = true → calm r = true → (callFree l || callFree r) = true → t = calls truth l ++ calls truth r) := by
  refine ⟨?_, fun cl cr cf => ?_⟩
  · rcases ht with rfl | rfl
    · exact hl.1.append hr.1
    · exact List.perm_append_comm.trans (hl.1.append hr.1)
  · rw [← hl.2 cl, ← hr.2 cr]
    rw [Bool.or_eq_true] at cf
    rcases cf with cf | cf
    · have := hl.free cf
      subst this
      simpa using ht
    · have := hr.free cf
      subst this
      simpa using ht

theorem ord_castOn {truth env p c tr} (h : Ord truth env (castOn p c) tr) : Ord truth env c tr := by
  have hc : ∀ {env c tr}, Ord truth env (.cast c) tr → Ord truth env c tr := fun h => by cases h; assumption
  have rc : ∀ {env c}, resolve env (.cast c) = resolve env c := rfl
  cases p with
  | none => exact hc h
  | some p =>
    cases c <;> try exact hc h
    rename_i o a b
    rw [castOn] at h
    cases h with
    | bin ho h1 h2 hp => exact .bin ho (hc h1) h2 hp
    | both ho h1 h2 h3 h4 => exact .both ho (hc h1) h2 h3 h4
    | first ho h1 h2 h3 => exact .first ho (hc h1) h2 h3

theorem ord_id {truth env x tr} (h : Ord truth env (.id x) tr) : tr = [] := by cases h; rfl

theorem ord_cast {truth env c tr} (h : Ord truth env (.cast c) tr) : Ord truth env c tr := by cases h; assumption

theorem ord_pre {truth env p c tr} (h : Ord truth env (.pre p c) tr) : Ord truth env c tr := by cases h; assumption

theorem ord_dot {truth env f c tr} (h : Ord truth env (.dot c f) tr) : Ord truth env c tr := by cases h; assumption

theorem ord_bin {truth env o l r t} (ho : o.isLogic = false) (h : Ord truth env (.bin o l r) t) :
    ∃ tl tr, Ord truth env l tl ∧ Ord truth env r tr ∧ (t = tl ++ tr ∨ t = tr ++ tl) := by
  cases h with
  | bin _ h1 h2 hp => exact ⟨_, _, h1, h2, two_perm hp⟩
  | both h1 => rw [ho] at h1; cases h1
  | first h1 => rw [ho] at h1; cases h1

theorem ord_call2 {truth env f a b t} (h : Ord truth env (.call2 f a b) t) :
    ∃ ta tb u, Ord truth env a ta ∧ Ord truth env b tb ∧ t = u ++ callOf f ∧ (u = ta ++ tb ∨ u = tb ++ ta) := by
  cases h with
  | call2 _ h1 h2 hp => exact ⟨_, _, _, h1, h2, rfl, two_perm hp⟩

theorem ord_letIn {truth env auto x i b t} (h : Ord truth env (.letIn auto x i b) t) :
    ∃ ti tb, Ord truth (env.enter auto x) i ti ∧ Ord truth (env.set x (resolve (env.enter auto x) i)) b tb ∧ t = ti ++ tb := by
  cases h with
  | letIn _ _ h1 h2 => exact ⟨_, _, h1, h2, rfl⟩

/-- The left operand of a division of floats, if no sum is divided. -/
theorem ord_divOn {truth env l tr} (ha : accepted l = true) (hn : numeric (kind l) = true) (hs : floatSum l = false)
    (h : Ord truth env (divOn .div (rawOf l) (ctree l)) tr) : Ord truth env (ctree l) tr := by
  have hf := floatSum_raw ha
  cases hr : rawOf l with
  | none =>
    rw [hr] at h
    obtain ⟨tl, td, h1, h2, h3⟩ := ord_bin (by rfl) (show Ord truth env (.bin .div (.cast (ctree l)) (.id dv)) tr from h)
    rw [ord_id h2] at h3
    have := ord_cast h1
    rcases h3 with rfl | rfl <;> simpa using this
  | some p =>
    obtain ⟨ta, a, tb, b, -, e2, -, -⟩ := (written l ha).raw p hr
    have hp : p = .mul := by
      rcases raw_of ha hr with h1 | ⟨-, h1 | h1 | h1⟩
      · rw [h1] at hn
        cases hn
      · rw [hf.2 (.inl (h1 ▸ hr))] at hs
        cases hs
      · rw [hf.2 (.inr (h1 ▸ hr))] at hs
        cases hs
      · exact h1
    subst hp
    rw [hr, e2] at h
    rw [e2]
    obtain ⟨tl, td, h1, h2, h3⟩ := ord_bin (by rfl) (show Ord truth env (.bin .div (.bin .mul (.cast a) b) (.id dv)) tr from h)
    rw [ord_id h2] at h3
    cases h1 with
    | bin ho i1 i2 hp =>
      have := Ord.bin ho (ord_cast i1) i2 hp
      rcases h3 with rfl | rfl <;> simpa using this
    | both ho => cases ho
    | first ho => cases ho

theorem logic_raw : ∀ o kl kr, okInf o kl kr = true → o.isLogic = true → shape o kl kr = .raw := by
  intro o kl kr
  cases o <;> cases kl <;> cases kr <;> decide

theorem ord_neg? {truth env n c tr} (h : Ord truth env (neg? n c) tr) : Ord truth env c tr := by
  cases n
  · exact h
  · exact ord_pre h

theorem fold_two {truth : Tree → Bool} {o : Op} {l r : Ex} {tl tr t} (ho : o.isLogic = false) (hl : Same truth l tl) (hr : Same truth r tr)
    (ht : t = tl ++ tr ∨ t = tr ++ tl) : Same truth (.inf o l r) t := by
  obtain ⟨h1, h2⟩ := hl.two hr ht
  have hc : calls truth (.inf o l r) = calls truth l ++ calls truth r := by
    rw [calls, if_neg]
    rw [ho]
    simp
  refine ⟨by rwa [hc], fun h => ?_⟩
  simp only [calm, ho, Bool.false_or, Bool.and_eq_true] at h
  rw [hc]
  exact h2 h.1.1 h.1.2 h.2

theorem ordered (truth : Tree → Bool) (e : Ex) (ha : accepted e = true) (hc : noCapture e) (hz : null ∉ vars e) (hg : goodDiv e = true)
    (hs : single e = true) (env : Env) (he : Clear env e) (tr : List Str) (h : Ord truth env (ctree e) tr) : Same truth e tr := by
  induction e generalizing env tr with
  | var x k => cases h; exact ⟨List.Perm.refl _, fun _ => rfl⟩
  | lit n k => cases h; exact ⟨List.Perm.refl _, fun _ => rfl⟩
  | call0 f k => cases h; exact ⟨List.Perm.refl _, fun _ => rfl⟩
  | call2 f a b k iha ihb =>
    simp only [accepted, Bool.and_eq_true] at ha
    simp only [goodDiv, Bool.and_eq_true] at hg
    simp only [single, Bool.and_eq_true] at hs
    simp only [vars, List.mem_append, not_or] at hz
    obtain ⟨ta, tb, u, h1, h2, rfl, hu⟩ := ord_call2 h
    have sa := iha ha.1 hc.1 hz.1 hg.1 hs.1 env (fun x hx => he x (by simp [vars, hx])) _ h1
    have sb := ihb ha.2 hc.2 hz.2 hg.2 hs.2 env (fun x hx => he x (by simp [vars, hx])) _ h2
    obtain ⟨p1, p2⟩ := sa.two sb hu
    refine ⟨p1.append (List.Perm.refl [f]), fun hcalm => ?_⟩
    simp only [calm, Bool.and_eq_true] at hcalm
    rw [p2 hcalm.1.1 hcalm.1.2 hcalm.2]
    rfl
  | neg e ih =>
    simp only [accepted, Bool.and_eq_true] at ha
    refine ih ha.1.1 hc hz hg hs env he tr ?_
    rw [ctree] at h
    split_ifs at h
    · cases h with
      | call1 _ h1 => simpa [callOf] using h1
    · exact ord_pre h
  | not e ih =>
    simp only [accepted, Bool.and_eq_true] at ha
    exact ih ha.1 hc hz hg hs env he tr (ord_pre h)
  | bnot e ih =>
    simp only [accepted, Bool.and_eq_true] at ha
    refine ih ha.1 hc hz hg hs env he tr ?_
    rw [ctree] at h
    split_ifs at h
    · exact ord_pre (ord_cast h)
    · exact ord_pre h
  | inf o l r ihl ihr =>
    obtain ⟨al, ar, ok⟩ := acc_inf ha
    obtain ⟨cl, cr, cs, cd⟩ := hc
    simp only [goodDiv, Bool.and_eq_true] at hg
    simp only [single, Bool.and_eq_true] at hs
    simp only [vars, List.mem_append, not_or] at hz
    have el : Clear env l := fun x hx => he x (by simp [vars, hx])
    have er : Clear env r := fun x hx => he x (by simp [vars, hx])
    have hl := ihl al cl hz.1 hg.1.1 hs.1
    have hr := ihr ar cr hz.2 hg.1.2 hs.2
    obtain ⟨k0, k1, k2, k3, k4, k5, k7, k8, k6⟩ := shape_kinds _ _ _ ok
    rw [ctree] at h
    by_cases ho : o.isLogic = true
    · have hsh := logic_raw _ _ _ ok ho
      rw [hsh, shapeTree] at h
      have hm : resolve env (ctree l) = some (mean l) := by
        rw [resolved l al cl hz.1 env el, (got_mean l).2 hg.1.1]
      have hx : ∀ b : Bool, b = (o == .and) → ¬ b = (o == .or) := by
        cases o <;> first | (cases ho; done) | decide
      cases h with
      | bin h1 => rw [ho] at h1; cases h1
      | both _ h1 h2 h3 h4 =>
        rw [hm] at h2
        cases h2
        have hcl : calls truth (.inf o l r) = calls truth l ++ calls truth r := by
          rw [calls, if_neg (fun hh => hx _ h3 hh.2)]
        have s1 := hl env el _ h1
        have s2 := hr env er _ h4
        refine ⟨?_, fun hcalm => ?_⟩
        · rw [hcl]
          exact s1.1.append s2.1
        · simp only [calm, Bool.and_eq_true] at hcalm
          rw [hcl, s1.2 hcalm.1.1, s2.2 hcalm.1.2]
      | first _ h1 h2 h3 =>
        rw [hm] at h2
        cases h2
        have hcl : calls truth (.inf o l r) = calls truth l := by
          rw [calls, if_pos ⟨ho, h3⟩]
        have s1 := hl env el _ h1
        refine ⟨?_, fun hcalm => ?_⟩
        · rw [hcl]
          exact s1.1
        · simp only [calm, Bool.and_eq_true] at hcalm
          rw [hcl, s1.2 hcalm.1.1]
    · have ho : o.isLogic = false := by simpa using ho
      cases hsh : shape o (kind l) (kind r) with
      | none => exact absurd hsh k0
      | strEq =>
        rw [hsh, shapeTree] at h
        obtain ⟨ta, tb, u, h1, h2, rfl, hu⟩ := ord_call2 h
        exact fold_two ho (hl env el _ h1) (hr env er _ h2) (by simpa [callOf] using hu)
      | strNe =>
        rw [hsh, shapeTree] at h
        obtain ⟨ta, tb, u, h1, h2, rfl, hu⟩ := ord_call2 (ord_pre h)
        exact fold_two ho (hl env el _ h1) (hr env er _ h2) (by simpa [callOf] using hu)
      | bit =>
        rw [hsh, shapeTree] at h
        obtain ⟨tl, tr', h1, h2, h3⟩ := ord_bin ho h
        exact fold_two ho (hl env el _ h1) (hr env er _ h2) h3
      | raw =>
        rw [hsh, shapeTree] at h
        obtain ⟨tl, tr', h1, h2, h3⟩ := ord_bin ho h
        exact fold_two ho (hl env el _ h1) (hr env er _ h2) h3
      | check =>
        rw [hsh, shapeTree] at h
        obtain ⟨ta, tb, u, h1, h2, rfl, hu⟩ := ord_call2 h
        exact fold_two ho (hl env el _ h1) (hr env er _ h2) (by simpa [callOf] using hu)
      | shift =>
        obtain ⟨sl, sr⟩ := cs (k2 hsh).1
        rw [hsh, shapeTree] at h
        obtain ⟨ti, tb, h1, h2, rfl⟩ := ord_letIn h
        obtain ⟨tl, td, h3, h4, h5⟩ := ord_bin ho h2
        rw [ord_id (ord_cast h4)] at h5
        have h5 : tb = tl := by rcases h5 with rfl | rfl <;> simp
        subst h5
        have h3 : Ord truth (env.set sa (resolve (env.enter false sa) (.cast (ctree r)))) (ctree l) tb := by
          split_ifs at h3
          · exact ord_cast h3
          · exact h3
        exact fold_two ho (hl _ (el.set sl) _ h3) (hr _ (er.set sr) _ (ord_cast h1)) (.inr rfl)
      | fdiv =>
        obtain ⟨i1, i2, rfl⟩ := k6 hsh
        have hk := (fdiv_float _ _ _ hsh)
        have hdv := cd rfl
        rw [hsh, shapeTree] at h
        obtain ⟨ti, tb, h1, h2, rfl⟩ := ord_letIn h
        have hsum : floatSum l = false := by simpa using hg.2
        exact fold_two ho (hl _ (el.set hdv.1) _ (ord_divOn al i1 hsum h2)) (hr _ (er.set (hdv.2 hk.2)) _ (ord_castOn h1)) (.inr rfl)
      | idiv =>
        have hdv := cd (k4 hsh).2.2
        rw [hsh, shapeTree] at h
        obtain ⟨ti, tb, h1, h2, rfl⟩ := ord_letIn h
        obtain ⟨tl, td, h3, h4, rfl⟩ := ord_letIn h2
        obtain ⟨t1, t2, h5, h6, h7⟩ := ord_bin ho h4
        rw [ord_id h5, ord_id h6] at h7
        have h7 : td = [] := by simpa using h7
        subst h7
        exact fold_two ho (hl _ (el.set hdv.1) _ h3) (hr env er _ h1) (by simp)
      | udiv =>
        have hdv := cd (k3 hsh).2.2
        rw [hsh, shapeTree] at h
        obtain ⟨ti, tb, h1, h2, rfl⟩ := ord_letIn h
        obtain ⟨tl, td, h3, h4, h5⟩ := ord_bin ho h2
        rw [ord_id h4] at h5
        have h5 : tb = tl := by rcases h5 with rfl | rfl <;> simp
        subst h5
        exact fold_two ho (hl _ (el.set hdv.1) _ h3) (hr env er _ h1) (.inr rfl)
  | mem n l r ihl ihr =>
    simp only [accepted, Bool.and_eq_true] at ha
    obtain ⟨⟨al, ar⟩, ok⟩ := ha
    obtain ⟨cl, cr, cm⟩ := hc
    simp only [goodDiv, Bool.and_eq_true] at hg
    simp only [single, Bool.and_eq_true] at hs
    simp only [vars, List.mem_append, not_or] at hz
    have el : Clear env l := fun x hx => he x (by simp [vars, hx])
    have er : Clear env r := fun x hx => he x (by simp [vars, hx])
    have hl := ihl al cl hz.1 hg.1 hs.1.1
    have hr := ihr ar cr hz.2 hg.2 hs.1.2
    have fin : ∀ {tl tr' t}, Same truth l tl → Same truth r tr' → t = tl ++ tr' ∨ t = tr' ++ tl → Same truth (.mem n l r) t := by
      intro tl tr' t h1 h2 h3
      obtain ⟨p1, p2⟩ := h1.two h2 h3
      refine ⟨p1, fun hcalm => ?_⟩
      simp only [calm, Bool.and_eq_true] at hcalm
      exact p2 hcalm.1.1 hcalm.1.2 hcalm.2
    rw [ctree] at h
    have h := ord_neg? h
    unfold memTree at h
    split_ifs at h with h1 h2 h3
    · obtain ⟨c1, c2⟩ := cm h1
      obtain ⟨ti, tb, i1, i2, rfl⟩ := ord_letIn h
      obtain ⟨ta, tb', u, j1, j2, rfl, hu⟩ := ord_call2 i2
      rw [ord_id (ord_pre j2)] at hu
      have hu : u = ta := by rcases hu with rfl | rfl <;> simp
      subst hu
      exact fin (hl _ (el.set c1) _ i1) (hr _ (er.set c2) _ (ord_pre j1)) (by simp [callOf])
    · obtain ⟨t1, t2, i1, i2, i3⟩ := ord_bin (by rfl) h
      rw [ord_id i2] at i3
      have i3 : tr = t1 := by rcases i3 with rfl | rfl <;> simp
      subst i3
      have hfree : callFree r = true := by simpa [h2, h3] using hs.2
      cases i1 with
      | call3 _ j1 j2 j3 hp =>
        have s1 := (hr _ er _ (ord_dot j1)).free hfree
        have s2 := (hr _ er _ (ord_dot (ord_cast j3))).free hfree
        subst s1 s2
        have hp2 := perm_middle hp
        rw [hp2]
        have := hr _ er
        refine fin (tr' := []) (hl _ el _ j2) ?_ (by simp [callOf])
        refine ⟨?_, fun _ => ?_⟩ <;> rw [calls_free truth hfree]
    · obtain ⟨ta, tb, u, j1, j2, rfl, hu⟩ := ord_call2 h
      exact fin (hl _ el _ j2) (hr _ er _ j1) (by simpa [callOf, or_comm] using hu)
    · obtain ⟨ta, tb, u, j1, j2, rfl, hu⟩ := ord_call2 h
      exact fin (hl _ el _ j2) (hr _ er _ (ord_pre j1)) (by simpa [callOf, or_comm] using hu)
  | range n l s e ihl ihs ihe =>
    simp only [accepted, Bool.and_eq_true] at ha
    obtain ⟨⟨⟨⟨⟨al, as⟩, ae⟩, kl⟩, ks⟩, ke⟩ := ha
    obtain ⟨cl, cs, ce⟩ := hc
    simp only [goodDiv, Bool.and_eq_true] at hg
    simp only [single, Bool.and_eq_true] at hs
    simp only [vars, List.mem_append, not_or] at hz
    have el : Clear env l := fun x hx => he x (by simp [vars, hx])
    have es : Clear env s := fun x hx => he x (by simp [vars, hx])
    have ee : Clear env e := fun x hx => he x (by simp [vars, hx])
    have fl : ∀ {t}, Ord truth env (ctree l) t → t = [] := fun h1 =>
      (ihl al cl hz.1 hg.1.1 (single_free hs.1.2) env el _ h1).free hs.1.2
    have fe : ∀ {t}, Ord truth env (ctree e) t → t = [] := fun h1 =>
      (ihe ae ce hz.2.2 hg.2 (single_free hs.2) env ee _ h1).free hs.2
    have hss := ihs as cs hz.2.1 hg.1.2 hs.1.1 env es
    have key : ∀ {t}, Ord truth env (.bin .ge (ctree l) (ctree s)) t → Same truth s t := by
      intro t h1
      obtain ⟨t1, t2, i1, i2, i3⟩ := ord_bin (by rfl) h1
      rw [fl i1] at i3
      have : t = t2 := by rcases i3 with rfl | rfl <;> simp
      subst this
      exact hss _ i2
    have key2 : ∀ {t}, Ord truth env (.bin .lt (ctree l) (ctree e)) t → t = [] := by
      intro t h1
      obtain ⟨t1, t2, i1, i2, i3⟩ := ord_bin (by rfl) h1
      rw [fl i1, fe i2] at i3
      simpa using i3
    have hcl : calls truth (.range n l s e) = calls truth s := by
      rw [calls, calls_free truth hs.1.2, calls_free truth hs.2]
      simp
    have fin : ∀ {t}, Same truth s t → Same truth (.range n l s e) t := by
      intro t h1
      refine ⟨?_, fun hcalm => ?_⟩
      · rw [hcl]
        exact h1.1
      · rw [hcl]
        exact h1.2 hcalm
    rw [ctree] at h
    have h := ord_neg? h
    cases h with
    | bin h1 => cases h1
    | both _ h1 _ _ h2 =>
      rw [key2 h2, List.append_nil]
      exact fin (key h1)
    | first _ h1 _ _ => exact fin (key h1)

/-- A C compiler may evaluate the text of `e` with the calls `tr`. -/
def Evaluates (truth : Tree → Bool) (e : Ex) (tr : List Str) : Prop :=
  ∃ c, G (.ex 1) (emit e) c ∧ Ord truth (fun _ => none) c tr

theorem evaluates_iff {truth e} (ha : accepted e = true) (tr : List Str) : Evaluates truth e tr ↔ Ord truth (fun _ => none) (ctree e) tr := by
  constructor
  · rintro ⟨c, hg, h⟩
    rwa [G_unique hg (written e ha).any] at h
  · exact fun h => ⟨_, (written e ha).any, h⟩

def a : Ex := .var (lit "a") .float
def b : Ex := .var (lit "b") .float
def c : Ex := .var (lit "c") .float
def f : Ex := .call0 (lit "f") .int
def g : Ex := .call0 (lit "g") .int
def one' : Ex := .lit 1 .int

end Em
open Em

/-! ## C197: operators group as in the source -/

/-- C197: the C text of an accepted expression is read with the operators applied to the operands they have in the source. -/
def C197_statement : Prop := ∀ e, accepted e = true → noCapture e → null ∉ vars e → ReadsAs e (mean e)

/-- `(a + b) / c` for floats is written `({ double _dv = (double)c; …; (double)a + b / _dv; })` (codegen.c:2000-2006), which is
`a + (b / c)`. -/
theorem C197_witness :
    let e := Ex.inf .div (.inf .add a b) c
    accepted e = true ∧ noCapture e ∧ null ∉ vars e ∧ ¬ ReadsAs e (mean e) ∧
      ReadsAs e (.inf .add (.var (lit "a")) (.inf .div (.var (lit "b")) (.var (lit "c")))) := by
  have ha : accepted (Ex.inf .div (.inf .add a b) c) = true := by decide
  refine ⟨ha, ?_, by decide, ?_, ?_⟩
  · simp [noCapture, a, b, c, Op.isShift, Op.isDiv, vars]
    decide
  · rw [readsAs_iff ha]
    decide +kernel
  · rw [readsAs_iff ha]
    decide +kernel

theorem C197_fails : ¬ C197_statement := fun h => by
  obtain ⟨h1, h2, h3, h4, -⟩ := C197_witness
  exact h4 (h _ h1 h2 h3)

/-- What holds: the text is always read, in one way, and as the source says if and only if nowhere a sum or a difference of
floats is divided. Missing: the divisions of such sums. -/
theorem C197_partial (e : Ex) (ha : accepted e = true) (hc : noCapture e) (hz : null ∉ vars e) :
    (ReadsAs e (mean e) ↔ goodDiv e = true) ∧ (∃ t, ReadsAs e t) ∧ ∀ s t, ReadsAs e s → ReadsAs e t → s = t := by
  have h := resolved e ha hc hz (fun _ => none) (fun _ _ => rfl)
  refine ⟨?_, ⟨got e, ?_⟩, ?_⟩
  · rw [readsAs_iff ha, h, Option.some.injEq]
    exact got_mean e
  · rw [readsAs_iff ha, h]
  · intro s t h1 h2
    rw [readsAs_iff ha] at h1 h2
    rw [h1] at h2
    exact Option.some.inj h2

/-- The grouping that is read for a division of a sum of floats: only the last term is divided. -/
theorem C197_sum {p : Op} (hp : p = .add ∨ p = .sub) (l r d : Ex) (ha : accepted (.inf .div (.inf p l r) d) = true)
    (hk : kind (.inf p l r) = .float) (hc : noCapture (.inf .div (.inf p l r) d)) (hz : null ∉ vars (.inf .div (.inf p l r) d)) :
    ReadsAs (.inf .div (.inf p l r) d) (.inf p (got l) (.inf .div (got r) (got d))) := by
  rw [readsAs_iff ha, resolved _ ha hc hz (fun _ => none) (fun _ _ => rfl)]
  rcases hp with rfl | rfl <;> simp only [kind] at hk <;> simp [got, floatSum, hk, regroup]

example : ReadsAs (.inf .mul (.inf .add a b) c) (.inf .mul (.inf .add (.var (lit "a")) (.var (lit "b"))) (.var (lit "c"))) := by
  rw [readsAs_iff (by decide)]
  decide +kernel

/-! ## C198: temporaries of the generated code -/

/-- C198: the temporaries of the generated code do not get in the way of the variables of the program. -/
def C198_statement : Prop := ∀ e, accepted e = true → goodDiv e = true → null ∉ vars e → ReadsAs e (mean e)

/-- With a variable `_dv`, `_dv / x` is written `({ __auto_type _dv = x; …; __auto_type _dn = _dv; …; _dn / _dv; })`, which is `x / x`,
and `1 << _sa` shifts by an uninitialised variable. `check_reserved_name` (typechecker.c:7271) refuses only the names that begin with
`gray_` and `Gray`. -/
theorem C198_witness :
    (let e := Ex.inf .div (.var dv .int) (.var (lit "x") .int)
     accepted e = true ∧ goodDiv e = true ∧ null ∉ vars e ∧ ¬ ReadsAs e (mean e) ∧
      ReadsAs e (.inf .div (.var (lit "x")) (.var (lit "x")))) ∧
    (let e := Ex.inf .shl one' (.var sa .int)
     accepted e = true ∧ goodDiv e = true ∧ ∀ t, ¬ ReadsAs e t) := by
  refine ⟨⟨by decide, by decide, by decide, ?_, ?_⟩, by decide, by decide, fun t => ?_⟩ <;> rw [readsAs_iff (by decide)]
  · decide +kernel
  · decide +kernel
  · have : resolve (fun _ => none) (ctree (.inf .shl one' (.var sa .int))) = none := by decide +kernel
    rw [this]
    simp

theorem C198_fails : ¬ C198_statement := fun h => by
  obtain ⟨⟨h1, h2, h3, h4, -⟩, -⟩ := C198_witness
  exact h4 (h _ h1 h2 h3)

/-- What holds: no variable is confused in an expression whose divisions do not mention `_dv`, whose shifts do not mention `_sa` and whose
searches of maps do not mention `_ik`. Missing: expressions that do. -/
theorem C198_partial (e : Ex) (ha : accepted e = true) (hg : goodDiv e = true) (hz : null ∉ vars e) (hc : noCapture e) :
    ReadsAs e (mean e) := (C197_partial e ha hc hz).1.2 hg

/-- The variable `_dn` is never confused, nor is a name that is not one of the three. -/
theorem C198_others (e : Ex) (ha : accepted e = true) (hg : goodDiv e = true) (hz : null ∉ vars e)
    (hv : dv ∉ vars e) (hs : sa ∉ vars e) (hi : ik ∉ vars e) : ReadsAs e (mean e) := by
  refine C198_partial e ha hg hz ?_
  clear hg ha hz
  induction e with
  | var | lit | call0 => trivial
  | call2 _ _ _ _ iha ihb =>
    simp only [vars, List.mem_append, not_or] at hv hs hi
    exact ⟨iha hv.1 hs.1 hi.1, ihb hv.2 hs.2 hi.2⟩
  | neg e ih | not e ih | bnot e ih => exact ih hv hs hi
  | inf o l r ihl ihr =>
    simp only [vars, List.mem_append, not_or] at hv hs hi
    exact ⟨ihl hv.1 hs.1 hi.1, ihr hv.2 hs.2 hi.2, fun _ => hs, fun _ => ⟨hv.1, fun _ => hv.2⟩⟩
  | mem n l r ihl ihr =>
    simp only [vars, List.mem_append, not_or] at hv hs hi
    exact ⟨ihl hv.1 hs.1 hi.1, ihr hv.2 hs.2 hi.2, fun _ => hi⟩
  | range n l s e ihl ihs ihe =>
    simp only [vars, List.mem_append, not_or] at hv hs hi
    exact ⟨ihl hv.1 hs.1 hi.1, ihs hv.2.1 hs.2.1 hi.2.1, ihe hv.2.2 hs.2.2 hi.2.2⟩

example : ReadsAs (.inf .div (.var dn .int) (.var (lit "x") .int)) (.inf .div (.var dn) (.var (lit "x"))) :=
  C198_others (.inf .div (.var dn .int) (.var (lit "x") .int)) (by decide) (by decide) (by decide) (by decide) (by decide) (by decide)

/-! ## C199: operands are evaluated from left to right -/

/-- C199: the calls of an expression are made from left to right (STANDARD 12.3). -/
def C199_statement : Prop := ∀ truth e, accepted e = true → noCapture e → null ∉ vars e → goodDiv e = true → single e = true →
  ∀ tr, Evaluates truth e tr → tr = calls truth e

/-- `f() / g()` calls `g` first, whatever the C compiler does; with `f() + g()` it may. -/
theorem C199_witness (truth : Tree → Bool) :
    accepted (.inf .div f g) = true ∧ calls truth (.inf .div f g) = [lit "f", lit "g"] ∧
    (∀ tr, Evaluates truth (.inf .div f g) tr ↔ tr = [lit "g", lit "f"]) ∧
    (∀ tr, Evaluates truth (.inf .add f g) tr ↔ tr = [lit "f", lit "g"] ∨ tr = [lit "g", lit "f"]) := by
  refine ⟨by decide, rfl, fun tr => ?_, fun tr => ?_⟩ <;> rw [evaluates_iff (by decide)]
  · have e : ctree (.inf .div f g) = .letIn true dv (.call0 (.user (lit "g"))) (.letIn true dn (.call0 (.user (lit "f")))
        (.bin .div (.id dn) (.id dv))) := by decide
    rw [e]
    constructor
    · intro h
      obtain ⟨ti, tb, h1, h2, rfl⟩ := ord_letIn h
      obtain ⟨tl, td, h3, h4, rfl⟩ := ord_letIn h2
      obtain ⟨t1, t2, h5, h6, h7⟩ := ord_bin (by rfl) h4
      rw [ord_id h5, ord_id h6] at h7
      cases h1
      cases h3
      rcases h7 with rfl | rfl <;> rfl
    · rintro rfl
      exact .letIn true dv (.call0 _) (.letIn (tb := []) true dn (.call0 _)
        (.bin (p := [[], []]) (by rfl) (.id _) (.id _) (List.Perm.refl _)))
  · have e : ctree (.inf .add f g) = .call2 (.check .add) (.call0 (.user (lit "f"))) (.call0 (.user (lit "g"))) := by decide
    rw [e]
    constructor
    · intro h
      obtain ⟨ta, tb, u, h1, h2, rfl, hu⟩ := ord_call2 h
      cases h1
      cases h2
      rcases hu with rfl | rfl
      · exact .inl rfl
      · exact .inr rfl
    · rintro (rfl | rfl)
      · exact .call2 (p := [[lit "f"], [lit "g"]]) _ (.call0 _) (.call0 _) (List.Perm.refl _)
      · exact .call2 (p := [[lit "g"], [lit "f"]]) _ (.call0 _) (.call0 _) (List.Perm.swap ..)

theorem C199_fails : ¬ C199_statement := fun h => by
  obtain ⟨h1, -, h3, -⟩ := C199_witness (fun _ => true)
  have := h (fun _ => true) (.inf .div f g) h1 (by simp [noCapture, f, g, vars, Op.isDiv, Op.isShift]) (by decide) (by decide) (by decide) _
    ((h3 _).2 rfl)
  exact absurd this (by decide)

/-- What holds: the calls are made in the order of the source if of two operands that are not joined by `&&` or `||` at most one has calls
in it, whatever order the C compiler takes. Missing: two operands with calls. -/
theorem C199_partial (truth : Tree → Bool) (e : Ex) (ha : accepted e = true) (hc : noCapture e) (hz : null ∉ vars e)
    (hg : goodDiv e = true) (hs : single e = true) (hm : calm e = true) (tr : List Str) (h : Evaluates truth e tr) :
    tr = calls truth e :=
  (ordered truth e ha hc hz hg hs _ (fun _ _ => rfl) tr ((evaluates_iff ha tr).1 h)).2 hm

/-- A division or a shift of integers always makes the calls of its right operand first. -/
theorem C199_right_first (truth : Tree → Bool) (o : Op) (l r : Ex) (ho : (o.isDiv || o.isShift) = true)
    (ha : accepted (.inf o l r) = true) (hc : noCapture (.inf o l r)) (hz : null ∉ vars (.inf o l r))
    (hg : goodDiv (.inf o l r) = true) (hs : single (.inf o l r) = true) (hl : calm l = true) (hr : calm r = true)
    (tr : List Str) (h : Evaluates truth (.inf o l r) tr) : tr = calls truth r ++ calls truth l := by
  have h := (evaluates_iff ha tr).1 h
  obtain ⟨al, ar, ok⟩ := acc_inf ha
  obtain ⟨cl, cr, cs, cd⟩ := hc
  simp only [goodDiv, Bool.and_eq_true] at hg
  simp only [single, Bool.and_eq_true] at hs
  simp only [vars, List.mem_append, not_or] at hz
  have sl : ∀ env, Clear env l → ∀ t, Ord truth env (ctree l) t → t = calls truth l := fun env he t ht =>
    (ordered truth l al cl hz.1 hg.1.1 hs.1 env he t ht).2 hl
  have sr : ∀ env, Clear env r → ∀ t, Ord truth env (ctree r) t → t = calls truth r := fun env he t ht =>
    (ordered truth r ar cr hz.2 hg.1.2 hs.2 env he t ht).2 hr
  have c0 : ∀ e, Clear (fun _ => none) e := fun _ _ _ => rfl
  have hlog : o.isLogic = false := by cases o <;> first | rfl | cases ho
  have hshape : ∀ o kl kr, okInf o kl kr = true → (o.isDiv || o.isShift) = true →
      shape o kl kr = .shift ∧ o.isShift = true ∨ shape o kl kr = .fdiv ∨ shape o kl kr = .idiv ∧ o.isDiv = true ∨ shape o kl kr = .udiv ∧ o.isDiv = true := by
    intro o kl kr
    cases o <;> cases kl <;> cases kr <;> decide
  obtain ⟨-, -, -, -, -, -, -, -, k6⟩ := shape_kinds _ _ _ ok
  rw [ctree] at h
  rcases hshape _ _ _ ok ho with ⟨h1, h2⟩ | h1 | ⟨h1, h2⟩ | ⟨h1, h2⟩ <;> rw [h1, shapeTree] at h <;>
    obtain ⟨ti, tb, i1, i2, rfl⟩ := ord_letIn h
  · obtain ⟨j1, j2⟩ := cs h2
    obtain ⟨tl, td, h3, h4, h5⟩ := ord_bin hlog i2
    rw [ord_id (ord_cast h4)] at h5
    have h5 : tb = tl := by rcases h5 with rfl | rfl <;> simp
    subst h5
    rw [sr _ ((c0 r).set j2) _ (ord_cast i1)]
    congr 1
    split_ifs at h3
    · exact sl _ ((c0 l).set j1) _ (ord_cast h3)
    · exact sl _ ((c0 l).set j1) _ h3
  · obtain ⟨m1, m2, rfl⟩ := k6 h1
    have hk := (fdiv_float _ _ _ h1)
    have hdv := cd rfl
    have hsum : floatSum l = false := by simpa using hg.2
    rw [sr _ ((c0 r).set (hdv.2 hk.2)) _ (ord_castOn i1), sl _ ((c0 l).set hdv.1) _ (ord_divOn al m1 hsum i2)]
  · have hdv := cd h2
    obtain ⟨tl, td, h3, h4, rfl⟩ := ord_letIn i2
    obtain ⟨t1, t2, h5, h6, h7⟩ := ord_bin hlog h4
    rw [ord_id h5, ord_id h6] at h7
    have h7 : td = [] := by simpa using h7
    subst h7
    rw [sr _ (c0 r) _ i1, sl _ ((c0 l).set hdv.1) _ h3]
    simp
  · have hdv := cd h2
    obtain ⟨tl, td, h3, h4, h5⟩ := ord_bin hlog i2
    rw [ord_id h4] at h5
    have h5 : tb = tl := by rcases h5 with rfl | rfl <;> simp
    subst h5
    rw [sr _ (c0 r) _ i1, sl _ ((c0 l).set hdv.1) _ h3]

/-! ## C200: operands are evaluated once -/

/-- C200: an operand is evaluated once: the calls that are made are those of the source, in some order. -/
def C200_statement : Prop := ∀ truth e, accepted e = true → noCapture e → null ∉ vars e → goodDiv e = true →
  ∀ tr, Evaluates truth e tr → tr.Perm (calls truth e)

/-- `f() in range(1, 2)` calls `f` twice if it is at least 1, and `c in s()` calls `s` twice (codegen.c:1870-1900). -/
theorem C200_witness :
    (let e := Ex.range false f one' (.lit 2 .int)
     accepted e = true ∧ Evaluates (fun _ => true) e [lit "f", lit "f"] ∧ calls (fun _ => true) e = [lit "f"]) ∧
    (let e := Ex.mem false (.var (lit "c") .char) (.call0 (lit "s") .str)
     accepted e = true ∧ Evaluates (fun _ => true) e [lit "s", lit "s"] ∧ calls (fun _ => true) e = [lit "s"]) := by
  refine ⟨⟨by decide, ?_, rfl⟩, by decide, ?_, rfl⟩
  · rw [evaluates_iff (by decide)]
    have e : ctree (.range false f one' (.lit 2 .int)) = .bin .and (.bin .ge (.call0 (.user (lit "f"))) (.num 1))
        (.bin .lt (.call0 (.user (lit "f"))) (.num 2)) := by decide
    rw [e]
    exact .both (tl := [lit "f"]) (tr := [lit "f"]) (by rfl)
      (.bin (p := [[lit "f"], []]) (by rfl) (.call0 _) (.num _) (List.Perm.refl _)) (t := .inf .ge (.call0 (lit "f")) (.lit 1)) (by decide +kernel) rfl
      (.bin (p := [[lit "f"], []]) (by rfl) (.call0 _) (.num _) (List.Perm.refl _))
  · rw [evaluates_iff (by decide)]
    have e : ctree (.mem false (.var (lit "c") .char) (.call0 (lit "s") .str)) = .bin .ne (.call3 .memchr
        (.dot (.call0 (.user (lit "s"))) (lit "data")) (.id (lit "c")) (.cast (.dot (.call0 (.user (lit "s"))) (lit "len")))) (.id null) := by
      decide
    rw [e]
    exact .bin (p := [[lit "s", lit "s"], []]) (by rfl)
      (.call3 (p := [[lit "s"], [], [lit "s"]]) _ (.dot _ (.call0 _)) (.id _) (.cast (.dot _ (.call0 _))) (List.Perm.refl _)) (.id _) (List.Perm.refl _)

theorem C200_fails : ¬ C200_statement := fun h => by
  obtain ⟨⟨h1, h2, h3⟩, -⟩ := C200_witness
  have := h _ _ h1 (by simp [noCapture, f, one']) (by decide) (by decide) _ h2
  rw [h3] at this
  exact absurd this.length_eq (by decide)

/-- What holds: the calls that are made are those of the source, each once, in some order, if nothing with a call in it stands
left of `in range(…)`, at the end of such a range, or right of `in` for a character in a string. Missing: calls in those places. -/
theorem C200_partial (truth : Tree → Bool) (e : Ex) (ha : accepted e = true) (hc : noCapture e) (hz : null ∉ vars e)
    (hg : goodDiv e = true) (hs : single e = true) (tr : List Str) (h : Evaluates truth e tr) : tr.Perm (calls truth e) :=
  (ordered truth e ha hc hz hg hs _ (fun _ _ => rfl) tr ((evaluates_iff ha tr).1 h)).1

example : ∃ e : Ex, accepted e = true ∧ goodDiv e = true ∧ single e = true ∧ calm e = true ∧
    Evaluates (fun _ => false) e [lit "f"] ∧ calls (fun _ => false) e = [lit "f"] := by
  refine ⟨.inf .and (.inf .lt f one') (.inf .lt g one'), by decide, by decide, by decide, by decide, ?_, by decide⟩
  rw [evaluates_iff (by decide)]
  have e : ctree (.inf .and (.inf .lt f one') (.inf .lt g one')) = .bin .and (.bin .lt (.call0 (.user (lit "f"))) (.num 1))
      (.bin .lt (.call0 (.user (lit "g"))) (.num 1)) := by decide
  rw [e]
  exact .first (by rfl) (.bin (p := [[lit "f"], []]) (by rfl) (.call0 _) (.num _) (List.Perm.refl _))
    (t := .inf .lt (.call0 (lit "f")) (.lit 1)) (by decide +kernel) rfl

end Verif.Props

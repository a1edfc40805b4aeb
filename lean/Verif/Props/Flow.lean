import Verif.Model.Flow

/-!
# Early exits, `ensure`, missing returns

C133: `ensure`.  C134: early exits release exactly the arenas of the scopes left.  C135: a function accepted
by the check for missing returns does not reach its end without a value.
-/

namespace Verif.Props

open Verif.Flow

namespace Fl

/-! ## The C code does what the program means -/

/-- The C state for scopes `sc` and state `t`. -/
structure Core (sc : List Nat) (t : T) (s : S) : Prop where
  trace : s.trace = t.trace
  alive : s.alive = sc
  dflt : s.dflt = sc.headD 0
  next : s.next = t.next
  depth : s.depth = t.depth

/-- The variables of the scopes `st` hold the arenas `sc`, each with the next one outwards as saved arena. -/
def Links (env : List (Name × (Nat × Nat))) : List Name → List Nat → Prop
  | [], sc => sc ≠ []
  | x :: st, a :: sc => env.lookup x = some (a, sc.headD 0) ∧ Links env st sc
  | _ :: _, [] => False

/-- Names given before the counters reached `d` and `i`. -/
def old (d i : Nat) : Name → Prop
  | .iff j => j < i
  | .iter e => e < d
  | .func => True

def Keeps (d i : Nat) (env env' : List (Name × (Nat × Nat))) : Prop :=
  ∀ x, old d i x → env'.lookup x = env.lookup x

/-- The stack with the function's own arena. -/
def full (F : Fn) (st : List Name) : List Name := if F.private then st ++ [.func] else st

structure Inv (F : Fn) (st : List Name) (d i : Nat) (sc : List Nat) (s : S) : Prop where
  links : Links s.env (full F st) sc
  names : ∀ x ∈ st, old d i x
  mark : F.refs = false → F.valued = false → s.mark = some ((sc.drop st.length).headD 0)

theorem Keeps.refl (d i : Nat) (env) : Keeps d i env env := fun _ _ => rfl

theorem Keeps.trans {d i : Nat} {e1 e2 e3} (h1 : Keeps d i e1 e2) (h2 : Keeps d i e2 e3) : Keeps d i e1 e3 :=
  fun x hx => (h2 x hx).trans (h1 x hx)

theorem old_mono {d i d' i' : Nat} (hd : d ≤ d') (hi : i ≤ i') : ∀ {x}, old d i x → old d' i' x
  | .iff _, h => Nat.lt_of_lt_of_le h hi
  | .iter _, h => Nat.lt_of_lt_of_le h hd
  | .func, _ => trivial

theorem Keeps.mono {d i d' i' : Nat} {e e'} (hd : d ≤ d') (hi : i ≤ i') (h : Keeps d' i' e e') : Keeps d i e e' :=
  fun x hx => h x (old_mono hd hi hx)

theorem links_keep {d i : Nat} {e e'} (hk : Keeps d i e e') :
    ∀ {st : List Name} {sc : List Nat}, (∀ x ∈ st, old d i x) → Links e st sc → Links e' st sc
  | [], _, _, h => h
  | _ :: _, [], _, h => h.elim
  | x :: st, a :: sc, hn, h =>
    ⟨(hk x (hn x (by simp))).trans h.1, links_keep hk (fun y hy => hn y (by simp [hy])) h.2⟩

theorem links_ne {e} : ∀ {st : List Name} {sc : List Nat}, Links e st sc → sc ≠ []
  | [], _, h => h
  | _ :: _, [], h => h.elim
  | _ :: _, _ :: _, _ => by simp

theorem links_drop {e} {r : List Name} :
    ∀ {st : List Name} {sc : List Nat}, Links e (st ++ r) sc → Links e r (sc.drop st.length)
  | [], _, h => by simpa using h
  | _ :: _, [], h => h.elim
  | _ :: st, _ :: sc, h => by simpa using links_drop (st := st) h.2

theorem full_names {F : Fn} {st : List Name} {d i : Nat} (h : ∀ x ∈ st, old d i x) : ∀ x ∈ full F st, old d i x := by
  intro x hx
  unfold full at hx
  split at hx
  · rcases List.mem_append.1 hx with h1 | h1
    · exact h x h1
    · rw [List.mem_singleton.1 h1]; trivial
  · exact h x hx

theorem full_append (F : Fn) (st : List Name) : ∃ r, full F st = st ++ r := by
  unfold full
  split
  · exact ⟨_, rfl⟩
  · exact ⟨[], by simp⟩

theorem Inv.keep {F : Fn} {st d i sc} {s s' : S} (h : Inv F st d i sc s) (hk : Keeps d i s.env s'.env)
    (hm : s'.mark = s.mark) : Inv F st d i sc s' :=
  ⟨links_keep hk (full_names h.names) h.links, h.names, fun a b => hm.trans (h.mark a b)⟩

theorem Inv.mono {F : Fn} {st d i i' sc} {s : S} (h : Inv F st d i sc s) (hi : i ≤ i') : Inv F st d i' sc s :=
  ⟨h.links, fun x hx => old_mono (Nat.le_refl _) hi (h.names x hx), h.mark⟩

theorem headD_mem {sc : List Nat} (h : sc ≠ []) : sc.headD 0 ∈ sc := by
  cases sc with
  | nil => exact absurd rfl h
  | cons a r => simp

/-- `unwind` releases the arenas of the stack. -/
theorem unwind_ok (W : World) (k : CallC) (n : Nat) {r : List Name} :
    ∀ (st : List Name) (sc : List Nat) (s : S), Links s.env (st ++ r) sc → s.alive = sc → s.dflt = sc.headD 0 →
      stepC W k n (unwind st) s
        = some (.ok .next { s with alive := sc.drop st.length, dflt := (sc.drop st.length).headD 0 })
  | [], sc, s, _, ha, hd => by
    cases s
    simp only at ha hd
    subst ha hd
    rfl
  | x :: st, [], s, h, _, _ => h.elim
  | x :: st, a :: sc, s, h, ha, hd => by
    have hm : a ∈ s.alive := by rw [ha]; simp
    have h1 : s.env.lookup x = some (a, sc.headD 0) := h.1
    simp only [unwind, seqs, stepC, andThen, h1]
    rw [if_pos hm]
    have := unwind_ok W k n st sc { s with alive := s.alive.erase a, dflt := sc.headD 0 } h.2
      (by rw [ha]; simp) rfl
    simp only [this, List.length_cons, List.drop_succ_cons]

/-- Number of scopes left by `break`. -/
def loopLen : List Name → Nat
  | [] => 0
  | .iter _ :: _ => 1
  | _ :: st => loopLen st + 1

theorem unwindLoop_ok (W : World) (k : CallC) (n : Nat) {r : List Name} :
    ∀ (st : List Name) (sc : List Nat) (s : S), Links s.env (st ++ r) sc → s.alive = sc → s.dflt = sc.headD 0 →
      stepC W k n (unwindLoop st) s
        = some (.ok .next { s with alive := sc.drop (loopLen st), dflt := (sc.drop (loopLen st)).headD 0 })
  | [], sc, s, _, ha, hd => by
    cases s
    simp only at ha hd
    subst ha hd
    rfl
  | x :: st, [], s, h, _, _ => h.elim
  | .iter d :: st, a :: sc, s, h, ha, hd => by
    have hm : a ∈ s.alive := by rw [ha]; simp
    have h1 : s.env.lookup (.iter d) = some (a, sc.headD 0) := h.1
    simp only [unwindLoop, seqs, stepC, andThen, h1, loopLen]
    rw [if_pos hm, ha]
    simp
  | .iff d :: st, a :: sc, s, h, ha, hd => by
    have hm : a ∈ s.alive := by rw [ha]; simp
    have h1 : s.env.lookup (.iff d) = some (a, sc.headD 0) := h.1
    simp only [unwindLoop, seqs, stepC, andThen, h1]
    rw [if_pos hm]
    have := unwindLoop_ok W k n st sc { s with alive := s.alive.erase a, dflt := sc.headD 0 } h.2
      (by rw [ha]; simp) rfl
    simp only [this, loopLen, List.drop_succ_cons]
  | .func :: st, a :: sc, s, h, ha, hd => by
    have hm : a ∈ s.alive := by rw [ha]; simp
    have h1 : s.env.lookup .func = some (a, sc.headD 0) := h.1
    simp only [unwindLoop, seqs, stepC, andThen, h1]
    rw [if_pos hm]
    have := unwindLoop_ok W k n st sc { s with alive := s.alive.erase a, dflt := sc.headD 0 } h.2
      (by rw [ha]; simp) rfl
    simp only [this, loopLen, List.drop_succ_cons]

/-- The scopes after a statement in `sc`. -/
def scAt (F : Fn) (st : List Name) (sc : List Nat) : Out → List Nat
  | .next => sc
  | .brk => sc.drop (loopLen st)
  | .cont => sc.drop (loopLen st)
  | .ret => sc.drop (full F st).length

/-- What the C code may do where the program does `r`. -/
def Post (F : Fn) (st : List Name) (d i : Nat) (sc : List Nat) (s : S) : Option (Res T) → Option (Res S) → Prop
  | none, none => True
  | some .panic, some .panic => True
  | some (.ok o t), some (.ok o' s') =>
    o' = o ∧ s'.mark = s.mark ∧
      Core (scAt F st sc o) (if o = .ret then { t with depth := t.depth - 1 } else t) s' ∧
      (o ≠ .ret → Keeps d i s.env s'.env)
  | _, _ => False

/-- What the C code of an expression may do where the program does `r`. -/
def ExprOk (sc : List Nat) (s : S) (r : Option (Res T)) (r' : Option (Res S)) : Prop :=
  match r, r' with
  | none, none => True
  | some .panic, some .panic => True
  | some (.ok .next t'), some (.ok .next s') => Core sc t' s' ∧ s'.env = s.env ∧ s'.mark = s.mark
  | _, _ => False

/-- Calls do the same on both sides and leave the variables alone. -/
def CallOk (k : CallS) (k' : CallC) : Prop :=
  ∀ f sc t s, sc ≠ [] → Core sc t s → ExprOk sc s (k f sc t) (k' f s)

theorem exprOk_then {sc s} {r : Option (Res T)} {r' : Option (Res S)} (h : ExprOk sc s r r')
    {g : T → Option (Res T)} {g' : S → Option (Res S)}
    (hg : ∀ t' s', Core sc t' s' → s'.env = s.env → s'.mark = s.mark → ExprOk sc s (g t') (g' s')) :
    ExprOk sc s (andThen r g) (andThen r' g') := by
  unfold ExprOk at h
  split at h
  · simp [andThen, ExprOk]
  · simp [andThen, ExprOk]
  · exact hg _ _ h.1 h.2.1 h.2.2
  · exact h.elim

theorem exprOk_weaken {sc s s1} {r : Option (Res T)} {r' : Option (Res S)} (h : ExprOk sc s1 r r')
    (h1 : s1.env = s.env) (h2 : s1.mark = s.mark) : ExprOk sc s r r' := by
  unfold ExprOk at h ⊢
  split at h
  · trivial
  · trivial
  · exact ⟨h.1, h.2.1.trans h1, h.2.2.trans h2⟩
  · exact h.elim

theorem evalE_ok {k : CallS} {k' : CallC} (hk : CallOk k k') {sc : List Nat} (hsc : sc ≠ []) :
    ∀ (e : Expr) (t : T) (s : S), Core sc t s → ExprOk sc s (evalS k sc e t) (evalC k' e s)
  | [], t, s, h => ⟨h, rfl, rfl⟩
  | .op n :: e, t, s, h => by
    unfold evalS evalC
    rw [evalE, evalE]
    refine exprOk_then (?_ : ExprOk sc s _ _) ?_
    · unfold opS opC
      rw [if_pos (by rw [h.dflt, h.alive]; exact headD_mem hsc)]
      refine ⟨⟨?_, h.alive, h.dflt, h.next, h.depth⟩, rfl, rfl⟩
      simp only [h.trace, h.alive, h.dflt]
    · intro t' s' hc he hm
      exact exprOk_weaken (evalE_ok hk hsc e t' s' hc) he hm
  | .call f :: e, t, s, h => by
    unfold evalS evalC
    rw [evalE, evalE]
    refine exprOk_then (?_ : ExprOk sc s _ _) ?_
    · exact hk f sc t s hsc h
    · intro t' s' hc he hm
      exact exprOk_weaken (evalE_ok hk hsc e t' s' hc) he hm

theorem evalAll_ok {k : CallS} {k' : CallC} (hk : CallOk k k') (W : World) (n : Nat) {sc : List Nat} (hsc : sc ≠ []) :
    ∀ (es : List Expr) (t : T) (s : S), Core sc t s →
      ExprOk sc s (evalAll (evalS k sc) es t) (stepC W k' n (cleanup es) s)
  | [], t, s, h => ⟨h, rfl, rfl⟩
  | e :: es, t, s, h => by
    rw [evalAll]
    show ExprOk sc s _ (andThen (evalC k' e s) (stepC W k' n (cleanup es)))
    refine exprOk_then (evalE_ok hk hsc e t s h) ?_
    intro t' s' hc he hm
    exact exprOk_weaken (evalAll_ok hk W n hsc es t' s' hc) he hm

/-- An expression in a statement. -/
theorem post_then {F st d i sc s} {r : Option (Res T)} {r' : Option (Res S)} (h : ExprOk sc s r r')
    {g : T → Option (Res T)} {g' : S → Option (Res S)}
    (hg : ∀ t' s', Core sc t' s' → s'.env = s.env → s'.mark = s.mark → Post F st d i sc s (g t') (g' s')) :
    Post F st d i sc s (andThen r g) (andThen r' g') := by
  unfold ExprOk at h
  split at h
  · simp [andThen, Post]
  · simp [andThen, Post]
  · exact hg _ _ h.1 h.2.1 h.2.2
  · exact h.elim

/-- One statement after another. -/
theorem post_seq {F st d i i' sc s} {r : Option (Res T)} {r' : Option (Res S)} (h : Post F st d i sc s r r')
    (hi : i ≤ i')
    {g : T → Option (Res T)} {g' : S → Option (Res S)}
    (hg : ∀ t' s', Core sc t' s' → Keeps d i s.env s'.env → s'.mark = s.mark → Post F st d i' sc s' (g t') (g' s')) :
    Post F st d i sc s (andThen r g) (andThen r' g') := by
  match r, r', h with
  | none, none, _ => simp [andThen, Post]
  | some .panic, some .panic, _ => simp [andThen, Post]
  | some (.ok o t), some (.ok o' s'), h =>
    obtain ⟨rfl, hm, hc, hk⟩ := h
    cases o' with
    | next =>
      have := hg t s' (by simpa [scAt] using hc) (hk (by simp)) hm
      simp only [andThen]
      match hr : g t, hr' : g' s' with
      | none, none => trivial
      | some .panic, some .panic => trivial
      | some (.ok o2 t2), some (.ok o2' s2) =>
        rw [hr, hr'] at this
        obtain ⟨rfl, hm2, hc2, hk2⟩ := this
        exact ⟨rfl, hm2.trans hm, hc2, fun ho => (hk (by simp)).trans ((hk2 ho).mono (Nat.le_refl _) hi)⟩
      | none, some _ => rw [hr, hr'] at this; exact this.elim
      | some .fault, _ => rw [hr, hr'] at this; cases h' : g' s' <;> simp_all [Post]
      | some .panic, none => rw [hr, hr'] at this; exact this.elim
      | some .panic, some .fault => rw [hr, hr'] at this; exact this.elim
      | some .panic, some (.ok _ _) => rw [hr, hr'] at this; exact this.elim
      | some (.ok _ _), none => rw [hr, hr'] at this; exact this.elim
      | some (.ok _ _), some .fault => rw [hr, hr'] at this; exact this.elim
      | some (.ok _ _), some .panic => rw [hr, hr'] at this; exact this.elim
    | brk => exact ⟨rfl, hm, hc, hk⟩
    | cont => exact ⟨rfl, hm, hc, hk⟩
    | ret => exact ⟨rfl, hm, hc, hk⟩
  | none, some _, h => exact h.elim
  | some .fault, none, h => exact h.elim
  | some .fault, some _, h => exact h.elim
  | some .panic, none, h => exact h.elim
  | some .panic, some .fault, h => exact h.elim
  | some .panic, some (.ok _ _), h => exact h.elim
  | some (.ok _ _), none, h => exact h.elim
  | some (.ok _ _), some .fault, h => exact h.elim
  | some (.ok _ _), some .panic, h => exact h.elim

theorem emit_mono (F : Fn) (es : List Expr) : ∀ (s : Stmt) (st : List Name) (d i : Nat), i ≤ (emit F es s st d i).2
  | .skip, _, _, _ => Nat.le_refl _
  | .seq a b, st, d, i => Nat.le_trans (emit_mono F es a st d i) (emit_mono F es b st d _)
  | .act _, _, _, _ => Nat.le_refl _
  | .ensure _, _, _, _ => Nat.le_refl _
  | .ret _, _, _, _ => Nat.le_refl _
  | .brk, _, _, _ => Nat.le_refl _
  | .cont, _, _, _ => Nat.le_refl _
  | .ifS a, st, d, i => Nat.le_trans (Nat.le_succ i) (emit_mono F es a _ (d + 1) (i + 1))
  | .arm _ _ a b, st, d, i => Nat.le_trans (emit_mono F es a st d i) (emit_mono F es b st d _)
  | .loop _ b, st, d, i => emit_mono F es b _ (d + 1) i

theorem full_cons (F : Fn) (x : Name) (st : List Name) : full F (x :: st) = x :: full F st := by
  unfold full
  split <;> simp

/-- The end of a scope. -/
theorem close_ok (W : World) (k : CallC) (n : Nat) {x : Name} {a : Nat} {sc : List Nat} {t : T} {s : S}
    (hc : Core (a :: sc) t s) (hx : s.env.lookup x = some (a, sc.headD 0)) :
    ∃ s', stepC W k n (seqs [.setDefault x, .destroy x]) s = some (.ok .next s') ∧ Core sc t s' ∧ s'.env = s.env ∧
      s'.mark = s.mark := by
  have hm : a ∈ s.alive := by rw [hc.alive]; simp
  refine ⟨{ s with alive := s.alive.erase a, dflt := sc.headD 0 }, ?_, ⟨hc.trace, ?_, rfl, hc.next, hc.depth⟩, rfl, rfl⟩
  · simp only [seqs, stepC, andThen, hx]
    rw [if_pos hm]
  · show s.alive.erase a = sc
    rw [hc.alive]; simp

theorem Inv.open {F : Fn} {st d i sc} {s : S} (h : Inv F st d i sc s) {x : Name} {d' i' : Nat} (hd : d ≤ d') (hi : i ≤ i')
    (hx : old d' i' x) (hn : ¬ old d i x) (a : Nat) {s' : S} (he : s'.env = (x, (a, sc.headD 0)) :: s.env)
    (hm : s'.mark = s.mark) : Inv F (x :: st) d' i' (a :: sc) s' := by
  have hk : Keeps d i s.env s'.env := by
    intro y hy
    rw [he, List.lookup_cons]
    have : (y == x) = false := by
      apply beq_false_of_ne
      rintro rfl
      exact hn hy
    rw [this]
  refine ⟨?_, ?_, fun h1 h2 => ?_⟩
  · rw [full_cons]
    refine ⟨?_, links_keep hk (full_names h.names) h.links⟩
    rw [he, List.lookup_cons]
    simp
  · intro y hy
    rcases List.mem_cons.1 hy with rfl | hy
    · exact hx
    · exact old_mono hd hi (h.names y hy)
  · rw [hm, h.mark h1 h2]
    simp

theorem keeps_open {d i : Nat} {env} {x : Name} (hn : ¬ old d i x) (v : Nat × Nat) : Keeps d i env ((x, v) :: env) := by
  intro y hy
  rw [List.lookup_cons]
  have : (y == x) = false := by
    apply beq_false_of_ne
    rintro rfl
    exact hn hy
  rw [this]

/-- The code behind a computed value. -/
theorem exit_ok (W : World) (k : CallC) (n : Nat) {F : Fn} {st d i sc} {t : T} {s : S} (h : Inv F st d i sc s)
    (hc : Core sc t s) :
    Post F st d i sc s (some (.ok .ret t)) (stepC W k n (exitCode F st) s) := by
  obtain ⟨r, hr⟩ := full_append F st
  have hl := h.links
  rw [hr] at hl
  have hu := unwind_ok W k n (r := r) st sc s hl hc.alive hc.dflt
  by_cases h1 : F.refs = true
  · have hf : full F st = st := by simp [full, Fn.private, h1]
    simp only [exitCode, h1, if_true, seqs, stepC]
    rw [hu]
    refine ⟨rfl, rfl, ⟨hc.trace, ?_, ?_, hc.next, ?_⟩, fun h => absurd rfl h⟩
    · simp [scAt, hf]
    · simp [scAt, hf]
    · simp [hc.depth]
  · have h1 : F.refs = false := by simpa using h1
    by_cases h2 : F.valued = true
    · have hf : full F st = st ++ [.func] := by simp [full, Fn.private, h1, h2]
      have hl' := h.links
      rw [hf] at hl'
      have hd := links_drop hl'
      obtain ⟨a, base, hab⟩ : ∃ a base, sc.drop st.length = a :: base := by
        cases hs : sc.drop st.length with
        | nil => rw [hs] at hd; exact hd.elim
        | cons a b => exact ⟨a, b, rfl⟩
      rw [hab] at hd
      have hb : base ≠ [] := hd.2
      have hbase : sc.drop (full F st).length = base := by
        rw [hf, List.length_append, List.length_singleton, ← List.drop_drop, hab]
        rfl
      have hmem : base.headD 0 ∈ s.alive := by
        rw [hc.alive]
        have : base.headD 0 ∈ sc.drop st.length := by rw [hab]; exact List.mem_cons_of_mem _ (headD_mem hb)
        exact List.mem_of_mem_drop this
      have hdm : s.dflt ∈ s.alive := by rw [hc.alive, hc.dflt]; exact headD_mem (links_ne h.links)
      simp only [exitCode, h1, h2, if_true, seqs, stepC]
      rw [if_neg (by simp)]
      simp only [seqs, stepC, hd.1]
      rw [if_pos ⟨hmem, hdm⟩]
      simp only [andThen, hu, hd.1]
      rw [hab, if_pos (by simp)]
      refine ⟨rfl, rfl, ⟨hc.trace, ?_, ?_, hc.next, ?_⟩, fun h => absurd rfl h⟩
      · simp [scAt, hbase]
      · simp only [scAt, hbase]
      · simp [hc.depth]
    · have h2 : F.valued = false := by simpa using h2
      have hf : full F st = st := by simp [full, Fn.private, h1, h2]
      have hm := h.mark h1 h2
      have hb : sc.drop st.length ≠ [] := by
        have := links_drop hl
        have hr0 : r = [] := by
          have := hr
          rw [hf] at this
          simpa using this
        rw [hr0] at this
        exact this
      simp only [exitCode, h1, h2, seqs]
      rw [if_neg (by simp), if_neg (by simp)]
      simp only [seqs, stepC]
      rw [hu]
      simp only [andThen]
      rw [if_pos ⟨hm, headD_mem hb⟩]
      refine ⟨rfl, rfl, ⟨hc.trace, ?_, ?_, hc.next, ?_⟩, fun h => absurd rfl h⟩
      · simp [scAt, hf]
      · simp [scAt, hf]
      · simp [hc.depth]

/-- What a round of a loop may do in C. -/
def RoundR (F : Fn) (st : List Name) (d i : Nat) (sc : List Nat) (s : S) : Option (Res T) → Option (Res S) → Prop
  | none, none => True
  | some .panic, some .panic => True
  | some (.ok .ret t'), some (.ok .ret s') =>
    s'.mark = s.mark ∧ Core (sc.drop (full F st).length) { t' with depth := t'.depth - 1 } s'
  | some (.ok o t'), some (.ok o' s') => o' = o ∧ s'.mark = s.mark ∧ Core sc t' s' ∧ Keeps d i s.env s'.env
  | _, _ => False

/-- A round of a loop, as the program means it and in C. -/
theorem loop_ok {F : Fn} {st d i sc} {one : T → Option (Res T)} {one' : S → Option (Res S)} {s0 : S}
    (h : ∀ t s, Core sc t s → Keeps d i s0.env s.env → s.mark = s0.mark →
      RoundR F st d i sc s (one t) (one' s)) :
    ∀ (n : Nat) (t : T) (s : S), Core sc t s → Keeps d i s0.env s.env → s.mark = s0.mark →
      Post F st d i sc s0 (loopN one n t) (loopN one' n s)
  | 0, _, _, _, _, _ => trivial
  | n + 1, t, s, hc, hk, hm => by
    have := h t s hc hk hm
    rw [loopN, loopN]
    match hr : one t, hr' : one' s with
    | none, none => trivial
    | some .panic, some .panic => trivial
    | some (.ok o t'), some (.ok o' s') =>
      rw [hr, hr'] at this
      cases o with
      | next =>
        cases o' <;> simp [RoundR] at this
        obtain ⟨h2, h3, h4⟩ := this
        exact loop_ok h n t' s' h3 (hk.trans h4) (h2.trans hm)
      | cont =>
        cases o' <;> simp [RoundR] at this
        obtain ⟨h2, h3, h4⟩ := this
        exact loop_ok h n t' s' h3 (hk.trans h4) (h2.trans hm)
      | brk =>
        cases o' <;> simp [RoundR] at this
        obtain ⟨h2, h3, h4⟩ := this
        exact ⟨rfl, h2.trans hm, h3, fun _ => hk.trans h4⟩
      | ret =>
        cases o' <;> simp [RoundR] at this
        exact ⟨rfl, this.1.trans hm, this.2, fun h => absurd rfl h⟩
    | none, some _ => rw [hr, hr'] at this; exact this.elim
    | some .fault, none => rw [hr, hr'] at this; exact this.elim
    | some .fault, some _ => rw [hr, hr'] at this; exact this.elim
    | some .panic, none => rw [hr, hr'] at this; exact this.elim
    | some .panic, some .fault => rw [hr, hr'] at this; exact this.elim
    | some .panic, some (.ok _ _) => rw [hr, hr'] at this; exact this.elim
    | some (.ok o _), none => rw [hr, hr'] at this; cases o <;> exact this.elim
    | some (.ok o _), some .fault => rw [hr, hr'] at this; cases o <;> exact this.elim
    | some (.ok o _), some .panic => rw [hr, hr'] at this; cases o <;> exact this.elim

theorem loopLen_le : ∀ st : List Name, loopLen st ≤ st.length
  | [] => Nat.le_refl _
  | .iter _ :: _ => by simp [loopLen]
  | .iff _ :: st => by simpa [loopLen] using loopLen_le st
  | .func :: st => by simpa [loopLen] using loopLen_le st

/-- What the code of a whole scope `x` may do. -/
def CloseR (F : Fn) (x : Name) (st : List Name) (d i a : Nat) (sc : List Nat) (s : S) :
    Option (Res T) → Option (Res S) → Prop
  | none, none => True
  | some .panic, some .panic => True
  | some (.ok .ret t'), some (.ok .ret s') =>
    s'.mark = s.mark ∧ Core (sc.drop (full F st).length) { t' with depth := t'.depth - 1 } s'
  | some (.ok .next t'), some (.ok .next s') => s'.mark = s.mark ∧ Core sc t' s' ∧ Keeps d i s.env s'.env
  | some (.ok o t'), some (.ok o' s') =>
    o' = o ∧ s'.mark = s.mark ∧ Core ((a :: sc).drop (loopLen (x :: st))) t' s' ∧ Keeps d i s.env s'.env
  | _, _ => False

/-- A scope closed at its end: `if` and the rounds of a loop. -/
theorem close_next {W : World} {k : CallC} {n : Nat} {F : Fn} {x : Name} {st : List Name} {d i d' i' a : Nat}
    {sc : List Nat} {s s1 : S} (hd : d ≤ d') (hi : i ≤ i') (hx : old d' i' x) (hn : ¬ old d i x)
    (he : s1.env = (x, (a, sc.headD 0)) :: s.env) (hm : s1.mark = s.mark)
    {r : Option (Res T)} {r' : Option (Res S)} (h : Post F (x :: st) d' i' (a :: sc) s1 r r') :
    CloseR F x st d i a sc s r (andThen r' (stepC W k n (seqs [.setDefault x, .destroy x]))) := by
  have hk0 : Keeps d i s.env s1.env := by rw [he]; exact keeps_open hn _
  match r, r', h with
  | none, none, _ => simp [andThen, CloseR]
  | some .panic, some .panic, _ => simp [andThen, CloseR]
  | some (.ok o t), some (.ok o' s'), h =>
    obtain ⟨rfl, hm2, hc, hk⟩ := h
    cases o' with
    | next =>
      have hk := hk (by simp)
      have hl : s'.env.lookup x = some (a, sc.headD 0) := by
        rw [hk x hx, he, List.lookup_cons]
        simp
      obtain ⟨s2, e1, e2, e3, e4⟩ := close_ok W k n (x := x) (a := a) (sc := sc) (t := t) (s := s')
        (by simpa [scAt] using hc) hl
      simp only [andThen, e1]
      refine ⟨e4.trans (hm2.trans hm), e2, ?_⟩
      rw [e3]
      exact hk0.trans (hk.mono hd hi)
    | brk =>
      simp only [andThen]
      exact ⟨rfl, hm2.trans hm, hc, hk0.trans ((hk (by simp)).mono hd hi)⟩
    | cont =>
      simp only [andThen]
      exact ⟨rfl, hm2.trans hm, hc, hk0.trans ((hk (by simp)).mono hd hi)⟩
    | ret =>
      simp only [andThen]
      refine ⟨hm2.trans hm, ?_⟩
      have := hc
      simp only [scAt, full_cons, List.length_cons, List.drop_succ_cons] at this
      simpa using this
  | none, some _, h => exact h.elim
  | some .fault, none, h => exact h.elim
  | some .fault, some _, h => exact h.elim
  | some .panic, none, h => exact h.elim
  | some .panic, some .fault, h => exact h.elim
  | some .panic, some (.ok _ _), h => exact h.elim
  | some (.ok _ _), none, h => exact h.elim
  | some (.ok _ _), some .fault, h => exact h.elim
  | some (.ok _ _), some .panic, h => exact h.elim

theorem post_env {F st d i sc} {s s1 : S} (he : s1.env = s.env) (hm : s1.mark = s.mark)
    {r : Option (Res T)} {r' : Option (Res S)} (h : Post F st d i sc s1 r r') : Post F st d i sc s r r' := by
  match r, r', h with
  | none, none, _ => trivial
  | some .panic, some .panic, _ => trivial
  | some (.ok o t), some (.ok o' s'), h => exact ⟨h.1, h.2.1.trans hm, h.2.2.1, fun ho => he ▸ h.2.2.2 ho⟩
  | none, some _, h => exact h.elim
  | some .fault, none, h => exact h.elim
  | some .fault, some _, h => exact h.elim
  | some .panic, none, h => exact h.elim
  | some .panic, some .fault, h => exact h.elim
  | some .panic, some (.ok _ _), h => exact h.elim
  | some (.ok _ _), none, h => exact h.elim
  | some (.ok _ _), some .fault, h => exact h.elim
  | some (.ok _ _), some .panic, h => exact h.elim

theorem andThen_assoc {σ : Type} (r : Option (Res σ)) (f g : σ → Option (Res σ)) :
    andThen (andThen r f) g = andThen r fun x => andThen (f x) g := by
  match r with
  | none => rfl
  | some .fault => rfl
  | some .panic => rfl
  | some (.ok .next _) => rfl
  | some (.ok .brk _) => rfl
  | some (.ok .cont _) => rfl
  | some (.ok .ret _) => rfl

theorem seq_assoc (W : World) (k : CallC) (n : Nat) (a b c : Code) (s : S) :
    stepC W k n (.seq (.seq a b) c) s = stepC W k n (.seq a (.seq b c)) s := by
  simp only [stepC, andThen_assoc]

/-- Every statement: the C code does what the program means, with exactly the arenas of the scopes around
alive. -/
theorem sim (W : World) {k : CallS} {k' : CallC} (hk : CallOk k k') (n : Nat) (F : Fn) (es : List Expr) :
    ∀ (a : Stmt) (lp : Bool) (st : List Name) (d i : Nat) (sc : List Nat) (t : T) (s : S),
      okS F.valued lp a = true → Inv F st d i sc s → Core sc t s →
      Post F st d i sc s (stepS W es k n a sc t) (stepC W k' n (emit F es a st d i).1 s)
  | .skip, _, st, d, i, sc, t, s, _, _, hc => ⟨rfl, rfl, hc, fun _ => Keeps.refl _ _ _⟩
  | .ensure _, _, st, d, i, sc, t, s, _, _, hc => ⟨rfl, rfl, hc, fun _ => Keeps.refl _ _ _⟩
  | .seq a b, lp, st, d, i, sc, t, s, ho, hv, hc => by
    rw [okS, Bool.and_eq_true] at ho
    rw [stepS, emit, stepC]
    refine post_seq (sim W hk n F es a lp st d i sc t s ho.1 hv hc) (emit_mono F es a st d i) ?_
    intro t' s' hc' hk' hm'
    exact sim W hk n F es b lp st d _ sc t' s' ho.2 ((hv.keep hk' hm').mono (emit_mono F es a st d i)) hc'
  | .act e, lp, st, d, i, sc, t, s, _, hv, hc => by
    rw [stepS, emit, stepC]
    have := evalE_ok hk (links_ne hv.links) e t s hc
    have h2 := post_then (F := F) (st := st) (d := d) (i := i) (sc := sc) (s := s) this
      (g := fun t => some (.ok .next t)) (g' := fun s => some (.ok .next s))
      (fun t' s' h1 h2 h3 => ⟨rfl, h3, h1, fun _ => by rw [h2]; exact Keeps.refl _ _ _⟩)
    have e1 : ∀ {σ : Type} (r : Option (Res σ)), andThen r (fun t => some (.ok .next t)) = r := by
      intro σ r
      match r with
      | none => rfl
      | some .fault => rfl
      | some .panic => rfl
      | some (.ok .next _) => rfl
      | some (.ok .brk _) => rfl
      | some (.ok .cont _) => rfl
      | some (.ok .ret _) => rfl
    rwa [e1, e1] at h2
  | .ret e, lp, st, d, i, sc, t, s, ho, hv, hc => by
    have he : (if F.valued = true then e else []) = e := by
      rw [okS, Bool.or_eq_true, decide_eq_true_eq] at ho
      rcases ho with h | h
      · rw [if_pos h]
      · rw [h]; simp
    rw [stepS, emit, he]
    simp only [seqs, stepC]
    refine post_then (evalAll_ok hk W n (links_ne hv.links) es t s hc) ?_
    intro t1 s1 hc1 he1 hm1
    refine post_env he1 hm1 ?_
    refine post_then (evalE_ok hk (links_ne hv.links) e t1 s1 hc1) ?_
    intro t2 s2 hc2 he2 hm2
    refine post_env he2 hm2 ?_
    have hv2 : Inv F st d i sc s2 := hv.keep (by rw [he2, he1]; exact Keeps.refl _ _ _) (hm2.trans hm1)
    have := exit_ok W k' n hv2 hc2
    revert this
    match stepC W k' n (exitCode F st) s2 with
    | none => exact id
    | some .fault => exact id
    | some .panic => exact id
    | some (.ok .next _) => exact fun h => by simp [Post] at h
    | some (.ok .brk _) => exact id
    | some (.ok .cont _) => exact id
    | some (.ok .ret _) => exact id
  | .brk, lp, st, d, i, sc, t, s, ho, hv, hc => by
    obtain ⟨r, hr⟩ := full_append F st
    have hl := hv.links
    rw [hr] at hl
    rw [stepS, emit]
    simp only [stepC]
    rw [unwindLoop_ok W k' n st sc s hl hc.alive hc.dflt]
    exact ⟨rfl, rfl, ⟨hc.trace, rfl, rfl, hc.next, hc.depth⟩, fun _ => Keeps.refl _ _ _⟩
  | .cont, lp, st, d, i, sc, t, s, ho, hv, hc => by
    obtain ⟨r, hr⟩ := full_append F st
    have hl := hv.links
    rw [hr] at hl
    rw [stepS, emit]
    simp only [stepC]
    rw [unwindLoop_ok W k' n st sc s hl hc.alive hc.dflt]
    exact ⟨rfl, rfl, ⟨hc.trace, rfl, rfl, hc.next, hc.depth⟩, fun _ => Keeps.refl _ _ _⟩
  | .ifS a, lp, st, d, i, sc, t, s, ho, hv, hc => by
    rw [okS] at ho
    rw [stepS, emit]
    have hn : ¬ old d i (.iff i) := fun h => absurd h (Nat.lt_irrefl i)
    have hx : old (d + 1) (i + 1) (.iff i) := Nat.lt_succ_self i
    let s1 : S := { s with
      alive := s.next :: s.alive, dflt := s.next, next := s.next + 1, env := (.iff i, (s.next, s.dflt)) :: s.env }
    have he : s1.env = (.iff i, (t.next, sc.headD 0)) :: s.env := by
      show (Name.iff i, (s.next, s.dflt)) :: s.env = _
      rw [hc.next, hc.dflt]
    have hv1 : Inv F (.iff i :: st) (d + 1) (i + 1) (t.next :: sc) s1 :=
      hv.open (Nat.le_succ d) (Nat.le_succ i) hx hn t.next he rfl
    have hc1 : Core (t.next :: sc) { t with next := t.next + 1 } s1 :=
      ⟨hc.trace, by show s.next :: s.alive = _; rw [hc.next, hc.alive], by show s.next = _; simp [hc.next],
        by show s.next + 1 = _; rw [hc.next], hc.depth⟩
    have := sim W hk n F es a lp (.iff i :: st) (d + 1) (i + 1) (t.next :: sc) _ s1 ho hv1 hc1
    have := close_next (W := W) (k := k') (n := n) (Nat.le_succ d) (Nat.le_succ i) hx hn he rfl this
    show Post F st d i sc s _ (andThen (stepC W k' n _ s1) (stepC W k' n (seqs [.setDefault (.iff i), .destroy (.iff i)])))
    revert this
    match stepS W es k n a (t.next :: sc) { t with next := t.next + 1 },
      andThen (stepC W k' n (emit F es a (.iff i :: st) (d + 1) (i + 1)).1 s1)
        (stepC W k' n (seqs [.setDefault (.iff i), .destroy (.iff i)])) with
    | none, none => exact id
    | some .panic, some .panic => exact id
    | some (.ok o t'), some (.ok o' s') =>
      intro h
      cases o with
      | next =>
        cases o' <;> simp [CloseR] at h
        exact ⟨rfl, h.1, h.2.1, fun _ => h.2.2⟩
      | ret =>
        cases o' <;> simp [CloseR] at h
        exact ⟨rfl, h.1, h.2, fun h => absurd rfl h⟩
      | brk =>
        cases o' <;> simp [CloseR] at h
        exact ⟨rfl, h.1, by simpa [scAt, loopLen] using h.2.1, fun _ => h.2.2⟩
      | cont =>
        cases o' <;> simp [CloseR] at h
        exact ⟨rfl, h.1, by simpa [scAt, loopLen] using h.2.1, fun _ => h.2.2⟩
    | none, some _ => exact id
    | some .fault, none => exact id
    | some .fault, some _ => exact id
    | some .panic, none => exact id
    | some .panic, some .fault => exact id
    | some .panic, some (.ok _ _) => exact id
    | some (.ok o _), none => cases o <;> exact id
    | some (.ok o _), some .fault => cases o <;> exact id
    | some (.ok o _), some .panic => cases o <;> exact id
  | .arm c e a b, lp, st, d, i, sc, t, s, ho, hv, hc => by
    rw [okS, Bool.and_eq_true] at ho
    rw [stepS, emit, stepC]
    refine post_then (evalE_ok hk (links_ne hv.links) e t s hc) ?_
    intro t1 s1 hc1 he1 hm1
    refine post_env he1 hm1 ?_
    have hv1 : Inv F st d i sc s1 := hv.keep (by rw [he1]; exact Keeps.refl _ _ _) hm1
    rw [hc1.trace]
    by_cases hw : W c (labels t1.trace) = true
    · rw [if_pos hw, if_pos hw]
      exact sim W hk n F es a lp st d i sc t1 s1 ho.1 hv1 hc1
    · rw [if_neg hw, if_neg hw]
      have := sim W hk n F es b lp st d _ sc t1 s1 ho.2 (hv1.mono (emit_mono F es a st d i)) hc1
      revert this
      match stepS W es k n b sc t1, stepC W k' n (emit F es b st d (emit F es a st d i).2).1 s1 with
      | none, none => exact id
      | some .panic, some .panic => exact id
      | some (.ok o t'), some (.ok o' s') =>
        exact fun h => ⟨h.1, h.2.1, h.2.2.1, fun h1 => (h.2.2.2 h1).mono (Nat.le_refl _) (emit_mono F es a st d i)⟩
      | none, some _ => exact id
      | some .fault, none => exact id
      | some .fault, some _ => exact id
      | some .panic, none => exact id
      | some .panic, some .fault => exact id
      | some .panic, some (.ok _ _) => exact id
      | some (.ok _ _), none => exact id
      | some (.ok _ _), some .fault => exact id
      | some (.ok _ _), some .panic => exact id
  | .loop c b, lp, st, d, i, sc, t, s, ho, hv, hc => by
    rw [okS] at ho
    rw [stepS, emit, stepC]
    refine loop_ok (s0 := s) ?_ n t s hc (Keeps.refl _ _ _) rfl
    intro t0 s0 hc0 hk0 hm0
    have hv0 : Inv F st d i sc s0 := hv.keep hk0 hm0
    have hn : ¬ old d i (.iter d) := fun h => absurd h (Nat.lt_irrefl d)
    have hx : old (d + 1) i (.iter d) := Nat.lt_succ_self d
    have round : ∀ t1 s1, Core sc t1 s1 → s1.env = s0.env → s1.mark = s0.mark →
        RoundR F st d i sc s0 (stepS W es k n b (t1.next :: sc) { t1 with next := t1.next + 1 })
          (stepC W k' n (seqs [.create (.iter d), (emit F es b (.iter d :: st) (d + 1) i).1, .setDefault (.iter d),
            .destroy (.iter d)]) s1) := by
      intro t1 s1 hc1 he1 hm1
      have hv1 : Inv F st d i sc s1 := hv0.keep (by rw [he1]; exact Keeps.refl _ _ _) hm1
      let s2 : S := { s1 with
        alive := s1.next :: s1.alive, dflt := s1.next, next := s1.next + 1,
        env := (.iter d, (s1.next, s1.dflt)) :: s1.env }
      have he : s2.env = (.iter d, (t1.next, sc.headD 0)) :: s1.env := by
        show (Name.iter d, (s1.next, s1.dflt)) :: s1.env = _
        rw [hc1.next, hc1.dflt]
      have hv2 : Inv F (.iter d :: st) (d + 1) i (t1.next :: sc) s2 :=
        hv1.open (Nat.le_succ d) (Nat.le_refl i) hx hn t1.next he rfl
      have hc2 : Core (t1.next :: sc) { t1 with next := t1.next + 1 } s2 :=
        ⟨hc1.trace, by show s1.next :: s1.alive = _; rw [hc1.next, hc1.alive], by show s1.next = _; simp [hc1.next],
          by show s1.next + 1 = _; rw [hc1.next], hc1.depth⟩
      have := sim W hk n F es b true (.iter d :: st) (d + 1) i (t1.next :: sc) _ s2 ho hv2 hc2
      have := close_next (W := W) (k := k') (n := n) (Nat.le_succ d) (Nat.le_refl i) hx hn he rfl this
      have hcode : stepC W k' n (seqs [.create (.iter d), (emit F es b (.iter d :: st) (d + 1) i).1, .setDefault (.iter d),
            .destroy (.iter d)]) s1
          = andThen (stepC W k' n (emit F es b (.iter d :: st) (d + 1) i).1 s2)
              (stepC W k' n (seqs [.setDefault (.iter d), .destroy (.iter d)])) := rfl
      rw [hcode]
      revert this
      match stepS W es k n b (t1.next :: sc) { t1 with next := t1.next + 1 },
        andThen (stepC W k' n (emit F es b (.iter d :: st) (d + 1) i).1 s2)
          (stepC W k' n (seqs [.setDefault (.iter d), .destroy (.iter d)])) with
      | none, none => exact id
      | some .panic, some .panic => exact id
      | some (.ok o t'), some (.ok o' s') =>
        intro h
        cases o <;> cases o' <;> simp [CloseR, loopLen] at h <;> simp [RoundR, h, hm1] <;> rw [← he1] <;> simp [h]
      | none, some _ => exact id
      | some .fault, none => exact id
      | some .fault, some _ => exact id
      | some .panic, none => exact id
      | some .panic, some .fault => exact id
      | some .panic, some (.ok _ _) => exact id
      | some (.ok o _), none => cases o <;> exact id
      | some (.ok o _), some .fault => cases o <;> exact id
      | some (.ok o _), some .panic => cases o <;> exact id
    cases c with
    | none => exact round t0 s0 hc0 rfl rfl
    | some ce =>
      obtain ⟨c, e⟩ := ce
      have hE := evalE_ok hk (links_ne hv.links) e t0 s0 hc0
      revert hE
      simp only
      match evalS k sc e t0, evalC k' e s0 with
      | none, none => exact fun _ => trivial
      | some .panic, some .panic => exact fun _ => trivial
      | some (.ok o t1), some (.ok o' s1) =>
        intro h
        cases o <;> cases o' <;> simp [ExprOk] at h
        obtain ⟨h1, h2, h3⟩ := h
        simp only [andThen, h1.trace]
        by_cases hw : W c (labels t1.trace) = true
        · rw [if_pos hw, if_pos hw]
          exact round t1 s1 h1 h2 h3
        · rw [if_neg hw, if_neg hw]
          exact ⟨rfl, h3, h1, by rw [h2]; exact Keeps.refl _ _ _⟩
      | none, some _ => exact fun h => h.elim
      | some .fault, none => exact fun h => h.elim
      | some .fault, some _ => exact fun h => h.elim
      | some .panic, none => exact fun h => h.elim
      | some .panic, some .fault => exact fun h => h.elim
      | some .panic, some (.ok _ _) => exact fun h => h.elim
      | some (.ok o _), none => cases o <;> exact fun h => h.elim
      | some (.ok o _), some .fault => cases o <;> exact fun h => h.elim
      | some (.ok o _), some .panic => cases o <;> exact fun h => h.elim

/-! ### Functions -/

/-- Calls end without early exit. -/
def Plain {σ : Type} (r : Option (Res σ)) : Prop := ∀ o t, r = some (.ok o t) → o = .next

/-- A statement outside loops ends normally or returns. -/
def NoBrk {σ : Type} (r : Option (Res σ)) : Prop := ∀ o t, r = some (.ok o t) → o = .next ∨ o = .ret

theorem Plain.noBrk {σ : Type} {r : Option (Res σ)} (h : Plain r) : NoBrk r := fun o t e => .inl (h o t e)

theorem noBrk_then {σ : Type} {r : Option (Res σ)} {g : σ → Option (Res σ)} (h : NoBrk r) (hg : ∀ t, NoBrk (g t)) :
    NoBrk (andThen r g) := by
  intro o t e
  match r, h, e with
  | none, _, e => simp [andThen] at e
  | some .fault, _, e => simp [andThen] at e
  | some .panic, _, e => simp [andThen] at e
  | some (.ok .next t1), _, e => exact hg t1 o t e
  | some (.ok .brk t1), h, _ => rcases h .brk t1 rfl with h | h <;> cases h
  | some (.ok .cont t1), h, _ => rcases h .cont t1 rfl with h | h <;> cases h
  | some (.ok .ret t1), _, e =>
    simp only [andThen, Option.some.injEq, Res.ok.injEq] at e
    exact .inr e.1.symm

theorem plain_then {σ : Type} {r : Option (Res σ)} {g : σ → Option (Res σ)} (h : Plain r) (hg : ∀ t, Plain (g t)) :
    Plain (andThen r g) := by
  intro o t e
  match r, h, e with
  | none, _, e => simp [andThen] at e
  | some .fault, _, e => simp [andThen] at e
  | some .panic, _, e => simp [andThen] at e
  | some (.ok .next t1), _, e => exact hg t1 o t e
  | some (.ok .brk t1), h, _ => cases h .brk t1 rfl
  | some (.ok .cont t1), h, _ => cases h .cont t1 rfl
  | some (.ok .ret t1), h, _ => cases h .ret t1 rfl

theorem evalE_plain {σ : Type} {op call : Nat → σ → Option (Res σ)} (ho : ∀ n t, Plain (op n t))
    (hk : ∀ f t, Plain (call f t)) : ∀ (e : Expr) (t : σ), Plain (evalE op call e t)
  | [], t => by
    intro o t' h
    simp only [evalE, Option.some.injEq, Res.ok.injEq] at h
    exact h.1.symm
  | .op n :: e, t => plain_then (ho n t) (evalE_plain ho hk e)
  | .call f :: e, t => plain_then (hk f t) (evalE_plain ho hk e)

theorem evalAll_plain {σ : Type} {ev : Expr → σ → Option (Res σ)} (h : ∀ e t, Plain (ev e t)) :
    ∀ (es : List Expr) (t : σ), Plain (evalAll ev es t)
  | [], t => by
    intro o t' h
    simp only [evalAll, Option.some.injEq, Res.ok.injEq] at h
    exact h.1.symm
  | e :: es, t => plain_then (h e t) (evalAll_plain h es)

theorem loopN_noBrk {σ : Type} (one : σ → Option (Res σ)) : ∀ (n : Nat) (t : σ), NoBrk (loopN one n t)
  | 0, t => fun o t' h => by simp [loopN] at h
  | n + 1, t => by
    intro o t' h
    rw [loopN] at h
    match hr : one t with
    | none => rw [hr] at h; cases h
    | some .fault => rw [hr] at h; cases h
    | some .panic => rw [hr] at h; cases h
    | some (.ok .next t1) => rw [hr] at h; exact loopN_noBrk one n t1 o t' h
    | some (.ok .cont t1) => rw [hr] at h; exact loopN_noBrk one n t1 o t' h
    | some (.ok .brk t1) =>
      rw [hr] at h
      simp only [Option.some.injEq, Res.ok.injEq] at h
      exact .inl h.1.symm
    | some (.ok .ret t1) =>
      rw [hr] at h
      simp only [Option.some.injEq, Res.ok.injEq] at h
      exact .inr h.1.symm

theorem evalS_plain {k : CallS} (hk : ∀ f sc t, Plain (k f sc t)) (sc : List Nat) (e : Expr) (t : T) :
    Plain (evalS k sc e t) :=
  evalE_plain (fun n t o t' h => by
    simp only [opS, Option.some.injEq, Res.ok.injEq] at h
    exact h.1.symm) (fun f t => hk f sc t) e t

theorem ok_noBrk {σ : Type} (t : σ) : NoBrk (some (.ok .next t)) := by
  intro o t' h
  simp only [Option.some.injEq, Res.ok.injEq] at h
  exact .inl h.1.symm

theorem stepS_noBrk (W : World) (es : List Expr) {k : CallS} (hk : ∀ f sc t, Plain (k f sc t)) (n : Nat) (v : Bool) :
    ∀ (a : Stmt) (sc : List Nat) (t : T), okS v false a = true → NoBrk (stepS W es k n a sc t)
  | .skip, _, t, _ => ok_noBrk t
  | .ensure _, _, t, _ => ok_noBrk t
  | .seq a b, sc, t, h => by
    rw [okS, Bool.and_eq_true] at h
    exact noBrk_then (stepS_noBrk W es hk n v a sc t h.1) (fun t => stepS_noBrk W es hk n v b sc t h.2)
  | .act e, sc, t, _ => (evalS_plain hk sc e t).noBrk
  | .ret e, sc, t, _ => by
    refine noBrk_then (evalAll_plain (evalS_plain hk sc) es t).noBrk fun t => ?_
    refine noBrk_then (evalS_plain hk sc e t).noBrk fun t => ?_
    intro o t' h
    simp only [Option.some.injEq, Res.ok.injEq] at h
    exact .inr h.1.symm
  | .brk, _, _, h => by simp [okS] at h
  | .cont, _, _, h => by simp [okS] at h
  | .ifS a, sc, t, h => stepS_noBrk W es hk n v a _ _ (by simpa [okS] using h)
  | .arm c e a b, sc, t, h => by
    rw [okS, Bool.and_eq_true] at h
    refine noBrk_then (evalS_plain hk sc e t).noBrk fun t => ?_
    split
    · exact stepS_noBrk W es hk n v a sc t h.1
    · exact stepS_noBrk W es hk n v b sc t h.2
  | .loop c b, sc, t, _ => loopN_noBrk _ n t

theorem endCall_plain {σ : Type} (g : σ → σ) (r : Option (Res σ)) : Plain (endCall g r) := by
  intro o t h
  match r with
  | none => cases h
  | some .fault => cases h
  | some .panic => cases h
  | some (.ok .brk _) => cases h
  | some (.ok .cont _) => cases h
  | some (.ok .next _) => simp only [endCall, Option.some.injEq, Res.ok.injEq] at h; exact h.1.symm
  | some (.ok .ret _) => simp only [endCall, Option.some.injEq, Res.ok.injEq] at h; exact h.1.symm

theorem plain_ite {σ : Type} {c : Prop} [Decidable c] {a b : Option (Res σ)} (ha : Plain a) (hb : Plain b) :
    Plain (if c then a else b) := by
  split
  · exact ha
  · exact hb

theorem callS_plain (W : World) (P : Prog) (k : CallS) (n : Nat) (f : Nat) (sc : List Nat) (t : T) :
    Plain (callS W P k n f sc t) := by
  exact plain_ite (fun o t' h => by cases h) (endCall_plain _ _)

/-- Body and `ensure` calls. -/
theorem body_ok (W : World) {k : CallS} {k' : CallC} (hk : CallOk k k') (n : Nat) (F : Fn) (es : List Expr) (i : Nat)
    {sc : List Nat} {t : T} {s : S} (ho : F.ok = true) (hv : Inv F [] 0 i sc s) (hc : Core sc t s) :
    Post F [] 0 i sc s (andThen (stepS W es k n F.body sc t) (evalAll (evalS k sc) es))
      (andThen (stepC W k' n (emit F es F.body [] 0 i).1 s) (stepC W k' n (cleanup es))) := by
  refine post_seq (i' := i) (sim W hk n F es F.body false [] 0 i sc t s ho hv hc) (Nat.le_refl _) ?_
  intro t' s' hc' hk' hm'
  have h := post_then (F := F) (st := []) (d := 0) (i := i) (sc := sc) (s := s')
    (evalAll_ok hk W n (links_ne hv.links) es t' s' hc')
    (g := fun t => some (.ok .next t)) (g' := fun s => some (.ok .next s))
    (fun t2 s2 h1 h2 h3 => ⟨rfl, h3, h1, fun _ => by rw [h2]; exact Keeps.refl _ _ _⟩)
  have e1 : ∀ {σ : Type} (r : Option (Res σ)), andThen r (fun t => some (.ok .next t)) = r := by
    intro σ r
    match r with
    | none => rfl
    | some .fault => rfl
    | some .panic => rfl
    | some (.ok .next _) => rfl
    | some (.ok .brk _) => rfl
    | some (.ok .cont _) => rfl
    | some (.ok .ret _) => rfl
  rwa [e1, e1] at h

theorem fn_ok (W : World) (P : Prog) (ctr : Nat → Nat) {k : CallS} {k' : CallC} (hk : CallOk k k')
    (hp : ∀ f sc t, Plain (k f sc t)) (hP : ∀ f, (P f).ok = true) (n : Nat) :
    CallOk (callS W P k n) (callC W P ctr k' n) := by
  intro f sc t s hsc hc
  have hF := hP f
  let F := P f
  let es := (collect F.body).reverse
  -- the body and the code after it, from the state after `enter`
  have main : ∀ (sc1 : List Nat) (t1 : T) (s1 : S) (tail : Code), Inv F [] 0 (ctr f) sc1 s1 → Core sc1 t1 s1 →
      (sc1.drop (full F []).length = sc) →
      (∀ t2 s2, Core sc1 t2 s2 → Inv F [] 0 (ctr f) sc1 s2 →
        ∃ s3, stepC W k' n tail s2 = some (.ok .next s3) ∧ Core sc { t2 with depth := t2.depth - 1 } s3) →
      ExprOk sc s
        (endCall (fun t => { t with depth := t.depth - 1 })
          (andThen (stepS W es k n F.body sc1 t1) (evalAll (evalS k sc1) es)))
        (endCall (fun s' => { s' with env := s.env, mark := s.mark })
          (andThen (stepC W k' n (emit F es F.body [] 0 (ctr f)).1 s1) (stepC W k' n (.seq (cleanup es) tail)))) := by
    intro sc1 t1 s1 tail hv1 hc1 hdrop htail
    have hb := body_ok W hk n F es (ctr f) hF hv1 hc1
    have hnb : NoBrk (andThen (stepS W es k n F.body sc1 t1) (evalAll (evalS k sc1) es)) :=
      noBrk_then (stepS_noBrk W es hp n F.valued F.body sc1 t1 hF)
        (fun t => (evalAll_plain (evalS_plain hp sc1) es t).noBrk)
    have hassoc : andThen (stepC W k' n (emit F es F.body [] 0 (ctr f)).1 s1) (stepC W k' n (.seq (cleanup es) tail))
        = andThen (andThen (stepC W k' n (emit F es F.body [] 0 (ctr f)).1 s1) (stepC W k' n (cleanup es)))
            (stepC W k' n tail) := by
      rw [andThen_assoc]
      rfl
    rw [hassoc]
    revert hb hnb
    match andThen (stepS W es k n F.body sc1 t1) (evalAll (evalS k sc1) es),
      andThen (stepC W k' n (emit F es F.body [] 0 (ctr f)).1 s1) (stepC W k' n (cleanup es)) with
    | none, none => exact fun _ _ => trivial
    | some .panic, some .panic => exact fun _ _ => trivial
    | some (.ok o t'), some (.ok o' s') =>
      intro hb hnb
      obtain ⟨rfl, hm, hc', hkeep⟩ := hb
      rcases hnb _ _ rfl with rfl | rfl
      · have hc' : Core sc1 t' s' := by simpa [scAt] using hc'
        obtain ⟨s3, e3, hc3⟩ := htail t' s' hc' (hv1.keep (hkeep (by simp)) hm)
        simp only [andThen, e3, endCall]
        exact ⟨⟨hc3.trace, hc3.alive, hc3.dflt, hc3.next, hc3.depth⟩, rfl, rfl⟩
      · simp only [andThen, endCall]
        have hc' : Core sc { t' with depth := t'.depth - 1 } s' := by simpa [scAt, hdrop] using hc'
        exact ⟨⟨hc'.trace, hc'.alive, hc'.dflt, hc'.next, hc'.depth⟩, rfl, rfl⟩
    | none, some _ => exact fun h => h.elim
    | some .fault, none => exact fun h => h.elim
    | some .fault, some _ => exact fun h => h.elim
    | some .panic, none => exact fun h => h.elim
    | some .panic, some .fault => exact fun h => h.elim
    | some .panic, some (.ok _ _) => exact fun h => h.elim
    | some (.ok o _), none => exact fun h => h.elim
    | some (.ok o _), some .fault => exact fun h => h.elim
    | some (.ok o _), some .panic => exact fun h => h.elim
  by_cases h1 : F.refs = true
  · -- in the caller's arena
    have hpv : F.private = false := by simp [Fn.private, h1]
    have hfull : full F [] = [] := by simp [full, hpv]
    have hcode : emitFn F (ctr f) = seqs [.enter, (emit F es F.body [] 0 (ctr f)).1, cleanup es, .leave] := by
      simp [emitFn, h1, es]
    unfold callS callC
    simp only [show P f = F from rfl, hcode, hpv, Bool.false_eq_true, if_false]
    by_cases hd : maxDepth < t.depth + 1
    · rw [if_pos hd]
      simp only [seqs, stepC, hc.depth, if_pos hd, andThen]
      trivial
    · rw [if_neg hd]
      simp only [seqs, stepC, hc.depth, if_neg hd]
      exact main sc { t with depth := t.depth + 1 } _ (.seq .leave .skip)
        ⟨by rw [hfull]; exact hsc, by simp, fun h => by rw [h1] at h; cases h⟩
        ⟨hc.trace, hc.alive, hc.dflt, hc.next, rfl⟩ (by simp [hfull])
        (fun t2 s2 hc2 _ => ⟨_, rfl, hc2.trace, hc2.alive, hc2.dflt, hc2.next, by simp [hc2.depth]⟩)
  · have h1 : F.refs = false := by simpa using h1
    by_cases h2 : F.valued = true
    · -- a private arena
      have hpv : F.private = true := by simp [Fn.private, h1, h2]
      have hfull : full F [] = [.func] := by simp [full, hpv]
      have hcode : emitFn F (ctr f) = seqs [.create .func, .enter, (emit F es F.body [] 0 (ctr f)).1, cleanup es,
          .setDefault .func, .destroy .func, .leave] := by
        simp [emitFn, h1, h2, es]
      unfold callS callC
      simp only [show P f = F from rfl, hcode, hpv, if_true]
      by_cases hd : maxDepth < t.depth + 1
      · rw [if_pos hd]
        simp only [seqs, stepC, hc.depth, andThen, if_pos hd]
        trivial
      · rw [if_neg hd]
        simp only [seqs, stepC, hc.depth, andThen, if_neg hd]
        refine main (t.next :: sc) { t with next := t.next + 1, depth := t.depth + 1 } _
          (seqs [.setDefault .func, .destroy .func, .leave]) ⟨?_, by simp, fun _ h => by rw [h2] at h; cases h⟩
          ⟨hc.trace, by simp [hc.next, hc.alive], by simp [hc.next], by simp [hc.next], rfl⟩ (by simp [hfull]) ?_
        · rw [hfull]
          exact ⟨by simp [hc.next, hc.dflt], hsc⟩
        · intro t2 s2 hc2 hv2
          have hl := hv2.links
          rw [hfull] at hl
          have hm : t.next ∈ s2.alive := by rw [hc2.alive]; simp
          simp only [seqs, stepC, andThen, hl.1, if_pos hm]
          refine ⟨_, rfl, hc2.trace, ?_, rfl, hc2.next, ?_⟩
          · simp [hc2.alive]
          · simp [hc2.depth]
    · -- a watermark
      have h2 : F.valued = false := by simpa using h2
      have hpv : F.private = false := by simp [Fn.private, h2]
      have hfull : full F [] = [] := by simp [full, hpv]
      have hcode : emitFn F (ctr f) = seqs [.save, .enter, (emit F es F.body [] 0 (ctr f)).1, cleanup es, .restore,
          .leave] := by
        simp [emitFn, h1, h2, es]
      unfold callS callC
      simp only [show P f = F from rfl, hcode, hpv, Bool.false_eq_true, if_false]
      by_cases hd : maxDepth < t.depth + 1
      · rw [if_pos hd]
        simp only [seqs, stepC, hc.depth, andThen, if_pos hd]
        trivial
      · rw [if_neg hd]
        simp only [seqs, stepC, hc.depth, andThen, if_neg hd]
        refine main sc { t with depth := t.depth + 1 } _ (seqs [.restore, .leave])
          ⟨by rw [hfull]; exact hsc, by simp, fun _ _ => by simp [hc.dflt]⟩
          ⟨hc.trace, hc.alive, hc.dflt, hc.next, rfl⟩ (by simp [hfull]) ?_
        intro t2 s2 hc2 hv2
        have hm := hv2.mark h1 h2
        have hcond : s2.mark = some s2.dflt ∧ s2.dflt ∈ s2.alive := by
          rw [hm, hc2.dflt, hc2.alive]
          exact ⟨by simp, headD_mem hsc⟩
        simp only [seqs, stepC, andThen, if_pos hcond]
        exact ⟨_, rfl, hc2.trace, hc2.alive, hc2.dflt, hc2.next, by simp [hc2.depth]⟩

theorem runS_plain (W : World) (P : Prog) : ∀ (n : Nat) (f : Nat) (sc : List Nat) (t : T), Plain (runS W P n f sc t)
  | 0, _, _, _ => fun o t' h => by simp [runS] at h
  | n + 1, f, sc, t => callS_plain W P _ n f sc t

theorem run_ok (W : World) (P : Prog) (ctr : Nat → Nat) (hP : ∀ f, (P f).ok = true) :
    ∀ n, CallOk (runS W P n) (runC W P ctr n)
  | 0 => fun f sc t s _ _ => trivial
  | n + 1 => fn_ok W P ctr (run_ok W P ctr hP n) (runS_plain W P n) hP n

/-! ### What a call leaves behind -/

/-- Nothing but operations done in scopes inside `sc`. -/
def Ext (sc : List Nat) (t t' : T) : Prop :=
  t'.depth = t.depth ∧ ∃ new, t'.trace = new ++ t.trace ∧ ∀ e ∈ new, sc <:+ e.alive ∧ e.alive.head? = some e.dflt

theorem Ext.refl (sc : List Nat) (t : T) : Ext sc t t := ⟨rfl, [], rfl, by simp⟩

theorem Ext.trans {sc : List Nat} {t1 t2 t3 : T} (h1 : Ext sc t1 t2) (h2 : Ext sc t2 t3) : Ext sc t1 t3 := by
  obtain ⟨d1, n1, e1, a1⟩ := h1
  obtain ⟨d2, n2, e2, a2⟩ := h2
  refine ⟨d2.trans d1, n2 ++ n1, by rw [e2, e1, List.append_assoc], fun e he => ?_⟩
  rcases List.mem_append.1 he with h | h
  · exact a2 e h
  · exact a1 e h

theorem Ext.open {a : Nat} {sc : List Nat} {t t' : T} (h : Ext (a :: sc) { t with next := t.next + 1 } t') : Ext sc t t' :=
  ⟨h.1, h.2.imp fun _ h => ⟨h.1, fun e he => ⟨(List.suffix_cons a sc).trans (h.2 e he).1, (h.2 e he).2⟩⟩⟩

def Good (sc : List Nat) (t : T) (r : Option (Res T)) : Prop := ∀ o t', r = some (.ok o t') → Ext sc t t'

theorem good_then {sc : List Nat} {t : T} {r : Option (Res T)} {g : T → Option (Res T)} (h : Good sc t r)
    (hg : ∀ t1, Ext sc t t1 → Good sc t1 (g t1)) : Good sc t (andThen r g) := by
  intro o t' e
  match r, h, e with
  | none, _, e => simp [andThen] at e
  | some .fault, _, e => simp [andThen] at e
  | some .panic, _, e => simp [andThen] at e
  | some (.ok .next t1), h, e => exact (h _ t1 rfl).trans (hg t1 (h _ t1 rfl) o t' e)
  | some (.ok .brk t1), h, e => exact h _ _ e
  | some (.ok .cont t1), h, e => exact h _ _ e
  | some (.ok .ret t1), h, e => exact h _ _ e

theorem good_ok (sc : List Nat) (t : T) (o : Out) : Good sc t (some (.ok o t)) := by
  intro o' t' e
  simp only [Option.some.injEq, Res.ok.injEq] at e
  rw [← e.2]
  exact Ext.refl sc t

theorem good_evalS {k : CallS} (hk : ∀ f sc t, sc ≠ [] → Good sc t (k f sc t)) {sc : List Nat} (hsc : sc ≠ []) :
    ∀ (e : Expr) (t : T), Good sc t (evalS k sc e t)
  | [], t => good_ok sc t .next
  | .op n :: e, t => by
    refine good_then (?_ : Good sc t (opS sc n t)) fun t1 _ => good_evalS hk hsc e t1
    intro o t' h
    simp only [opS, Option.some.injEq, Res.ok.injEq] at h
    rw [← h.2]
    refine ⟨rfl, [⟨n, sc, sc.headD 0⟩], rfl, ?_⟩
    intro e he
    rw [List.mem_singleton.1 he]
    refine ⟨List.suffix_refl sc, ?_⟩
    cases sc with
    | nil => exact absurd rfl hsc
    | cons a r => rfl
  | .call f :: e, t => good_then (hk f sc t hsc) fun t1 _ => good_evalS hk hsc e t1

theorem good_evalAll {k : CallS} (hk : ∀ f sc t, sc ≠ [] → Good sc t (k f sc t)) {sc : List Nat} (hsc : sc ≠ []) :
    ∀ (es : List Expr) (t : T), Good sc t (evalAll (evalS k sc) es t)
  | [], t => good_ok sc t .next
  | e :: es, t => good_then (good_evalS hk hsc e t) fun t1 _ => good_evalAll hk hsc es t1

theorem good_loop {sc : List Nat} {one : T → Option (Res T)} (h : ∀ t, Good sc t (one t)) :
    ∀ (n : Nat) (t : T), Good sc t (loopN one n t)
  | 0, t => fun o t' e => by simp [loopN] at e
  | n + 1, t => by
    intro o t' e
    rw [loopN] at e
    have := h t
    match hr : one t with
    | none => rw [hr] at e; cases e
    | some .fault => rw [hr] at e; cases e
    | some .panic => rw [hr] at e; cases e
    | some (.ok .next t1) => rw [hr] at e; exact (this _ _ hr).trans (good_loop h n t1 o t' e)
    | some (.ok .cont t1) => rw [hr] at e; exact (this _ _ hr).trans (good_loop h n t1 o t' e)
    | some (.ok .brk t1) =>
      rw [hr] at e
      simp only [Option.some.injEq, Res.ok.injEq] at e
      rw [← e.2]
      exact this _ _ hr
    | some (.ok .ret t1) =>
      rw [hr] at e
      simp only [Option.some.injEq, Res.ok.injEq] at e
      rw [← e.2]
      exact this _ _ hr

theorem good_stepS (W : World) (es : List Expr) {k : CallS} (hk : ∀ f sc t, sc ≠ [] → Good sc t (k f sc t)) (n : Nat) :
    ∀ (a : Stmt) (sc : List Nat) (t : T), sc ≠ [] → Good sc t (stepS W es k n a sc t)
  | .skip, sc, t, _ => good_ok sc t .next
  | .ensure _, sc, t, _ => good_ok sc t .next
  | .brk, sc, t, _ => good_ok sc t .brk
  | .cont, sc, t, _ => good_ok sc t .cont
  | .seq a b, sc, t, h => good_then (good_stepS W es hk n a sc t h) fun t1 _ => good_stepS W es hk n b sc t1 h
  | .act e, sc, t, h => good_evalS hk h e t
  | .ret e, sc, t, h =>
    good_then (good_evalAll hk h es t) fun t1 _ => good_then (good_evalS hk h e t1) fun t2 _ => good_ok sc t2 .ret
  | .ifS a, sc, t, _ => fun o t' e => (good_stepS W es hk n a _ _ (by simp) o t' e).open
  | .arm c e a b, sc, t, h => by
    refine good_then (good_evalS hk h e t) fun t1 _ => ?_
    split
    · exact good_stepS W es hk n a sc t1 h
    · exact good_stepS W es hk n b sc t1 h
  | .loop c b, sc, t, h => by
    refine good_loop ?_ n t
    intro t1
    have round : ∀ t1, Good sc t1 (stepS W es k n b (t1.next :: sc) { t1 with next := t1.next + 1 }) :=
      fun t1 o t' e => (good_stepS W es hk n b _ _ (by simp) o t' e).open
    cases c with
    | none => exact round t1
    | some ce =>
      refine good_then (good_evalS hk h ce.2 t1) fun t2 _ => ?_
      split
      · exact round t2
      · exact good_ok sc t2 .brk

theorem good_ite {sc : List Nat} {t : T} {c : Prop} [Decidable c] {a b : Option (Res T)} (ha : Good sc t a)
    (hb : Good sc t b) : Good sc t (if c then a else b) := by
  split
  · exact ha
  · exact hb

theorem good_end {sc sc' : List Nat} {t : T} {r : Option (Res T)} (n : Nat)
    (h : Good sc' { t with next := n, depth := t.depth + 1 } r) (hs : sc <:+ sc') :
    Good sc t (endCall (fun t => { t with depth := t.depth - 1 }) r) := by
  intro o t' e
  have key : ∀ o1 t1, r = some (.ok o1 t1) → t' = { t1 with depth := t1.depth - 1 } → Ext sc t t' := by
    intro o1 t1 hr ht
    obtain ⟨hd, new, hn, ha⟩ := h o1 t1 hr
    refine ⟨?_, new, ?_, fun e he => ⟨hs.trans (ha e he).1, (ha e he).2⟩⟩
    · rw [ht]; simp [hd]
    · rw [ht]; exact hn
  match r, e with
  | none, e => cases e
  | some .fault, e => cases e
  | some .panic, e => cases e
  | some (.ok .next t1), e =>
    simp only [endCall, Option.some.injEq, Res.ok.injEq] at e
    exact key _ _ rfl e.2.symm
  | some (.ok .ret t1), e =>
    simp only [endCall, Option.some.injEq, Res.ok.injEq] at e
    exact key _ _ rfl e.2.symm
  | some (.ok .brk t1), e => cases e
  | some (.ok .cont t1), e => cases e

theorem good_callS (W : World) (P : Prog) {k : CallS} (hk : ∀ f sc t, sc ≠ [] → Good sc t (k f sc t)) (n f : Nat)
    (sc : List Nat) (t : T) (h : sc ≠ []) : Good sc t (callS W P k n f sc t) := by
  have key : ∀ sc' t', sc' ≠ [] → Good sc' t' (andThen (stepS W (collect (P f).body).reverse k n (P f).body sc' t')
      (evalAll (evalS k sc') (collect (P f).body).reverse)) :=
    fun sc' t' h' => good_then (good_stepS W _ hk n _ sc' t' h') fun t1 _ => good_evalAll hk h' _ t1
  cases hp : (P f).private
  · simp only [callS, hp, Bool.false_eq_true, if_false]
    exact good_ite (fun o t' e => by cases e) (good_end (sc' := sc) t.next (key sc _ h) (List.suffix_refl sc))
  · simp only [callS, hp, if_true]
    exact good_ite (fun o t' e => by cases e)
      (good_end (sc' := t.next :: sc) (t.next + 1) (key _ _ (by simp)) (List.suffix_cons _ _))

theorem good_runS (W : World) (P : Prog) : ∀ (n f : Nat) (sc : List Nat) (t : T), sc ≠ [] → Good sc t (runS W P n f sc t)
  | 0, _, _, _, _ => fun o t' e => by simp [runS] at e
  | n + 1, f, sc, t, h => good_callS W P (good_runS W P n) n f sc t h

/-- The C state for a state of the program. -/
def toC (s : S) : Res T → Res S
  | .fault => .fault
  | .panic => .panic
  | .ok o t => .ok o { s with trace := t.trace, next := t.next, depth := t.depth }

end Fl

open Fl

/-! ## C134: early exits -/

/-- **C134.** A call of a function of the emitted C does what the program means, where every `if`, every
round of a loop and every call of a function with a private arena is a scope with an arena of its own: at
every operation exactly the arenas of the scopes around it are alive and the innermost one is current (they
are part of what is recorded), whatever scopes were left before by `return`, `break` and `continue`. -/
theorem C134_meaning (W : World) (P : Prog) (ctr : Nat → Nat) (hP : ∀ f, (P f).ok = true) (n f : Nat) (s : S)
    (hne : s.alive ≠ []) (hd : s.dflt = s.alive.headD 0) :
    runC W P ctr n f s = (runS W P n f s.alive ⟨s.trace, s.next, s.depth⟩).map (toC s) := by
  have h := run_ok W P ctr hP n f s.alive ⟨s.trace, s.next, s.depth⟩ s hne ⟨rfl, rfl, hd, rfl, rfl⟩
  revert h
  match runS W P n f s.alive ⟨s.trace, s.next, s.depth⟩, runC W P ctr n f s with
  | none, none => exact fun _ => rfl
  | some .panic, some .panic => exact fun _ => rfl
  | some (.ok o t), some (.ok o' s') =>
    intro h
    cases o <;> cases o' <;> simp [ExprOk] at h
    obtain ⟨h1, h2, h3⟩ := h
    simp only [Option.map, toC]
    cases s'
    simp only at h2 h3
    have e1 := h1.trace
    have e2 := h1.alive
    have e3 := h1.dflt
    have e4 := h1.next
    have e5 := h1.depth
    simp only at e1 e2 e3 e4 e5
    subst h2 h3 e1 e2 e4 e5
    rw [e3, hd]
  | none, some _ => exact fun h => h.elim
  | some .fault, none => exact fun h => h.elim
  | some .fault, some _ => exact fun h => h.elim
  | some .panic, none => exact fun h => h.elim
  | some .panic, some .fault => exact fun h => h.elim
  | some .panic, some (.ok _ _) => exact fun h => h.elim
  | some (.ok o _), none => cases o <;> exact fun h => h.elim
  | some (.ok o _), some .fault => cases o <;> exact fun h => h.elim
  | some (.ok o _), some .panic => cases o <;> exact fun h => h.elim

/-- **C134.** No destroyed arena is used or destroyed again. -/
theorem C134_no_fault (W : World) (P : Prog) (ctr : Nat → Nat) (hP : ∀ f, (P f).ok = true) (n f : Nat) (s : S)
    (hne : s.alive ≠ []) (hd : s.dflt = s.alive.headD 0) : runC W P ctr n f s ≠ some .fault := by
  have h := run_ok W P ctr hP n f s.alive ⟨s.trace, s.next, s.depth⟩ s hne ⟨rfl, rfl, hd, rfl, rfl⟩
  intro e
  rw [e] at h
  revert h
  match runS W P n f s.alive ⟨s.trace, s.next, s.depth⟩ with
  | none => exact id
  | some .fault => exact id
  | some .panic => exact id
  | some (.ok .next _) => exact id
  | some (.ok .brk _) => exact id
  | some (.ok .cont _) => exact id
  | some (.ok .ret _) => exact id

/-- **C134.** After a call the arenas alive, the current arena and the call depth are those before it: no
arena is leaked or lost on any way out.  And all the time the arenas of the caller were alive, and the
current arena was. -/
theorem C134_restored (W : World) (P : Prog) (ctr : Nat → Nat) (hP : ∀ f, (P f).ok = true) (n f : Nat) (s s' : S)
    (o : Out) (hne : s.alive ≠ []) (hd : s.dflt = s.alive.headD 0) (h : runC W P ctr n f s = some (.ok o s')) :
    o = .next ∧ s'.alive = s.alive ∧ s'.dflt = s.dflt ∧ s'.depth = s.depth ∧
      ∃ new, s'.trace = new ++ s.trace ∧ ∀ e ∈ new, s.alive <:+ e.alive ∧ e.alive.head? = some e.dflt := by
  rw [C134_meaning W P ctr hP n f s hne hd] at h
  have hg := good_runS W P n f s.alive ⟨s.trace, s.next, s.depth⟩ hne
  have hp := runS_plain W P n f s.alive ⟨s.trace, s.next, s.depth⟩
  match hr : runS W P n f s.alive ⟨s.trace, s.next, s.depth⟩ with
  | none => rw [hr] at h; cases h
  | some .fault => rw [hr] at h; cases h
  | some .panic => rw [hr] at h; cases h
  | some (.ok o1 t1) =>
    rw [hr] at h
    simp only [Option.map, toC, Option.some.injEq, Res.ok.injEq] at h
    obtain ⟨rfl, rfl⟩ := h
    obtain ⟨h1, new, h2, h3⟩ := hg _ _ hr
    exact ⟨hp _ _ hr, rfl, rfl, h1, new, h2, h3⟩

/-- A loop in a function with a private arena, left from inside an `if` by `break` in the second round, then
`return` from inside an `if`. -/
private def exP : Prog := fun _ =>
  { valued := true, refs := false, body :=
      .seq (.loop none (.seq (.act [.op 1]) (.seq (.ifS (.arm 0 [] .brk .skip)) .skip)))
        (.seq (.ifS (.arm 1 [] (.ret [.op 2]) .skip)) .skip) }

private def exW : World := fun c tr => c == 1 || tr.length == 2

example : (∀ f, (exP f).ok = true) ∧
    (runC exW exP (fun _ => 0) 5 0 ⟨[], [0], 0, 1, 0, [], none⟩).map (fun r => match r with
      | .ok _ s => (s.trace, s.alive, s.dflt) | _ => ([], [], 0))
    = some ([⟨2, [6, 1, 0], 6⟩, ⟨1, [4, 1, 0], 4⟩, ⟨1, [2, 1, 0], 2⟩], [0], 0) := by
  refine ⟨fun f => rfl, ?_⟩
  decide +kernel

/-! ## C135: missing returns -/

namespace Fl

/-- A `break` of the loop around. -/
def hasBrk : Stmt → Bool
  | .brk => true
  | .seq a b => hasBrk a || hasBrk b
  | .ifS a => hasBrk a
  | .arm _ _ a b => hasBrk a || hasBrk b
  | _ => false

/-- No `break` in a `loop` the check relies on. -/
def clean : Stmt → Bool
  | .seq a b => clean a && clean b
  | .ifS a => clean a
  | .arm _ _ a b => clean a && clean b
  | .loop none b => !hasBrk b
  | _ => true

theorem then_ne {σ : Type} {r : Option (Res σ)} {g : σ → Option (Res σ)} {o : Out} (ho : o ≠ .next)
    (h : ∀ t, r ≠ some (.ok o t)) (hg : ∀ t t', g t ≠ some (.ok o t')) (t : σ) : andThen r g ≠ some (.ok o t) := by
  intro e
  match r, h, e with
  | none, _, e => cases e
  | some .fault, _, e => cases e
  | some .panic, _, e => cases e
  | some (.ok .next t1), _, e => exact hg t1 t e
  | some (.ok .brk t1), h, e => exact h t e
  | some (.ok .cont t1), h, e => exact h t e
  | some (.ok .ret t1), h, e => exact h t e

theorem plain_ne {σ : Type} {r : Option (Res σ)} (h : Plain r) {o : Out} (ho : o ≠ .next) (t : σ) : r ≠ some (.ok o t) :=
  fun e => ho (h o t e)

theorem stepS_no_brk (W : World) (es : List Expr) {k : CallS} (hk : ∀ f sc t, Plain (k f sc t)) (n : Nat) :
    ∀ (a : Stmt) (sc : List Nat) (t t' : T), hasBrk a = false → stepS W es k n a sc t ≠ some (.ok .brk t')
  | .skip, _, _, _, _ => by simp [stepS]
  | .ensure _, _, _, _, _ => by simp [stepS]
  | .brk, _, _, _, h => by simp [hasBrk] at h
  | .cont, _, _, _, _ => by simp [stepS]
  | .seq a b, sc, t, t', h => by
    rw [hasBrk, Bool.or_eq_false_iff] at h
    exact then_ne (by simp) (fun t' => stepS_no_brk W es hk n a sc t t' h.1)
      (fun t1 t' => stepS_no_brk W es hk n b sc t1 t' h.2) t'
  | .act e, sc, t, t', _ => plain_ne (evalS_plain hk sc e t) (by simp) t'
  | .ret e, sc, t, t', _ =>
    then_ne (by simp) (plain_ne (evalAll_plain (evalS_plain hk sc) es t) (by simp))
      (fun t1 t2 => then_ne (by simp) (plain_ne (evalS_plain hk sc e t1) (by simp)) (by simp) t2) t'
  | .ifS a, sc, t, t', h => stepS_no_brk W es hk n a _ _ t' (by simpa [hasBrk] using h)
  | .arm c e a b, sc, t, t', h => by
    rw [hasBrk, Bool.or_eq_false_iff] at h
    refine then_ne (by simp) (plain_ne (evalS_plain hk sc e t) (by simp)) (fun t1 t2 => ?_) t'
    split
    · exact stepS_no_brk W es hk n a sc t1 t2 h.1
    · exact stepS_no_brk W es hk n b sc t1 t2 h.2
  | .loop c b, sc, t, t', _ => fun e => by
    rcases loopN_noBrk _ n t _ _ e with h | h <;> cases h

theorem then_not_next {σ : Type} {r : Option (Res σ)} {g : σ → Option (Res σ)}
    (h : (∀ t, r ≠ some (.ok .next t)) ∨ ∀ t t', g t ≠ some (.ok .next t')) (t : σ) :
    andThen r g ≠ some (.ok .next t) := by
  intro e
  match r, h, e with
  | none, _, e => cases e
  | some .fault, _, e => cases e
  | some .panic, _, e => cases e
  | some (.ok .next t1), h, e =>
    rcases h with h | h
    · exact h t1 rfl
    · exact h t1 t e
  | some (.ok .brk t1), h, e => cases e
  | some (.ok .cont t1), h, e => cases e
  | some (.ok .ret t1), h, e => cases e

theorem loopN_not_next {σ : Type} {one : σ → Option (Res σ)} (h : ∀ t t', one t ≠ some (.ok .brk t')) :
    ∀ (n : Nat) (t t' : σ), loopN one n t ≠ some (.ok .next t')
  | 0, _, _ => by simp [loopN]
  | n + 1, t, t' => by
    intro e
    rw [loopN] at e
    match hr : one t with
    | none => rw [hr] at e; cases e
    | some .fault => rw [hr] at e; cases e
    | some .panic => rw [hr] at e; cases e
    | some (.ok .next t1) => rw [hr] at e; exact loopN_not_next h n t1 t' e
    | some (.ok .cont t1) => rw [hr] at e; exact loopN_not_next h n t1 t' e
    | some (.ok .brk t1) => exact h t t1 hr
    | some (.ok .ret t1) => rw [hr] at e; cases e

theorem allPaths_ok (W : World) (es : List Expr) {k : CallS} (hk : ∀ f sc t, Plain (k f sc t)) (n : Nat) :
    ∀ (a : Stmt) (sc : List Nat) (t t' : T), allPaths a = true → clean a = true →
      stepS W es k n a sc t ≠ some (.ok .next t')
  | .skip, _, _, _, h, _ => by simp [allPaths] at h
  | .ensure _, _, _, _, h, _ => by simp [allPaths] at h
  | .brk, _, _, _, h, _ => by simp [allPaths] at h
  | .cont, _, _, _, h, _ => by simp [allPaths] at h
  | .act e, sc, t, t', h, _ => by simp [allPaths] at h
  | .ret e, sc, t, t', _, _ => then_not_next (.inr fun _ => then_not_next (.inr fun _ _ => by simp)) t'
  | .seq a b, sc, t, t', h, hc => by
    rw [clean, Bool.and_eq_true] at hc
    rw [allPaths, Bool.or_eq_true] at h
    refine then_not_next ?_ t'
    rcases h with h | h
    · left
      cases a <;> simp [isRet] at h
      exact fun t1 => then_not_next (.inr fun _ => then_not_next (.inr fun _ _ => by simp)) t1
    · split at h
      · exact .inl fun t1 => allPaths_ok W es hk n a sc t t1 h hc.1
      · exact .inr fun t1 t2 => allPaths_ok W es hk n b sc t1 t2 h hc.2
  | .ifS a, sc, t, t', h, hc => allPaths_ok W es hk n a _ _ t' (by simpa [allPaths] using h) (by simpa [clean] using hc)
  | .arm c e a b, sc, t, t', h, hc => by
    rw [clean, Bool.and_eq_true] at hc
    rw [allPaths, Bool.and_eq_true] at h
    refine then_not_next (.inr fun t1 t2 => ?_) t'
    split
    · exact allPaths_ok W es hk n a sc t1 t2 h.1 hc.1
    · exact allPaths_ok W es hk n b sc t1 t2 h.2 hc.2
  | .loop none b, sc, t, t', _, hc =>
    loopN_not_next (fun t1 t2 => stepS_no_brk W es hk n b _ _ t2 (by simpa [clean] using hc)) n t t'
  | .loop (some _) b, sc, t, t', h, _ => by simp [allPaths] at h

end Fl

/-- A function with a return type accepted by the compiler does not reach the end of its body without a
`return`. -/
def C135_statement : Prop :=
  ∀ (W : World) (P : Prog) (n f : Nat) (sc : List Nat) (t t' : T), (∀ g, (P g).ok = true ∧ returnsOk (P g) = true) →
    (P f).valued = true → stepS W (collect (P f).body).reverse (runS W P n) n (P f).body sc t ≠ some (.ok .next t')

/-- `do find() -> int { loop { if found() { return 1 } break } }`: the loop counts as returning because there
is a `return` in it, but it can be left by `break`. -/
def C135_find : Fn :=
  { valued := true, refs := false, body :=
      .seq (.loop none (.seq (.ifS (.arm 0 [.op 1] (.ret []) .skip)) (.seq .brk .skip))) .skip }

theorem C135_witness : C135_find.ok = true ∧ returnsOk C135_find = true ∧
    stepS (fun _ _ => false) [] (fun _ _ _ => none) 2 C135_find.body [0] ⟨[], 1, 0⟩
      = some (.ok .next ⟨[⟨1, [2, 1, 0], 2⟩], 3, 0⟩) := by decide +kernel

/-- `do area(w int) -> (result int) { mut result = w * w }`: with a named return value nothing is checked,
and no `return` is added at the end. -/
def C135_named : Fn := { valued := true, refs := false, named := true, body := .seq (.act [.op 1]) .skip }

theorem C135_named_witness : C135_named.ok = true ∧ returnsOk C135_named = true ∧
    stepS (fun _ _ => false) [] (fun _ _ _ => none) 2 C135_named.body [0] ⟨[], 1, 0⟩
      = some (.ok .next ⟨[⟨1, [0], 0⟩], 1, 0⟩) := by decide +kernel

theorem C135_fails : ¬ C135_statement := fun h =>
  h (fun _ _ => false) (fun _ => C135_find) 2 0 [0] ⟨[], 1, 0⟩ ⟨[⟨1, [2, 1, 0], 2⟩], 3, 0⟩
    (fun _ => ⟨rfl, rfl⟩) rfl (by decide +kernel)

/-- **C135**, for functions without named return values in which no `loop` that the check relies on has a
`break` of its own.  Missing: named return values and such loops. -/
theorem C135_partial (W : World) (P : Prog) (n f : Nat) (sc : List Nat) (t t' : T) (h : returnsOk (P f) = true)
    (hv : (P f).valued = true) (hn : (P f).named = false) (hc : clean (P f).body = true) :
    stepS W (collect (P f).body).reverse (runS W P n) n (P f).body sc t ≠ some (.ok .next t') := by
  rw [returnsOk, hv, hn] at h
  simp only [Bool.not_true, Bool.or_self, Bool.false_or, Bool.and_eq_true] at h
  exact allPaths_ok W _ (runS_plain W P n) n _ sc t t' h.2 hc

example : clean (.seq (.loop none (.seq (.ifS (.arm 0 [.op 1] (.ret []) .skip)) .skip)) .skip) = true ∧
    allPaths (.seq (.loop none (.seq (.ifS (.arm 0 [.op 1] (.ret []) .skip)) .skip)) .skip) = true := by decide

/-! ## C133: `ensure` -/

namespace Fl

/-- No `ensure` but at the top level of the body (E3070). -/
def noEns : Stmt → Bool
  | .ensure _ => false
  | .seq a b => noEns a && noEns b
  | .ifS a => noEns a
  | .arm _ _ a b => noEns a && noEns b
  | .loop _ b => noEns b
  | _ => true

def topEns : Stmt → Bool
  | .seq (.ensure _) b => topEns b
  | .seq a b => noEns a && topEns b
  | .skip => true
  | _ => false

/-- First the `ensure` statements, then the others. -/
def leading : Stmt → Bool
  | .seq (.ensure _) b => leading b
  | s => noEns s

/-- No `return` has a value that does anything. -/
def silent : Stmt → Bool
  | .ret e => e = []
  | .seq a b => silent a && silent b
  | .ifS a => silent a
  | .arm _ _ a b => silent a && silent b
  | .loop _ b => silent b
  | _ => true

/-- What the documentation can tell of a result. -/
def seen (p : List Expr) : Res S → Res D
  | .fault => .fault
  | .panic => .panic
  | .ok o s => .ok o ⟨labels s.trace, s.depth, p⟩

def er (p : List Expr) : Res T → Res D
  | .fault => .fault
  | .panic => .panic
  | .ok o t => .ok o ⟨labels t.trace, t.depth, p⟩

def dd (p : List Expr) (t : T) : D := ⟨labels t.trace, t.depth, p⟩

theorem er_then {p : List Expr} {r : Option (Res T)} {g : T → Option (Res T)} {g' : D → Option (Res D)}
    (hg : ∀ t, g' (dd p t) = (g t).map (er p)) : andThen (r.map (er p)) g' = (andThen r g).map (er p) := by
  match r with
  | none => rfl
  | some .fault => rfl
  | some .panic => rfl
  | some (.ok .next t) => exact hg t
  | some (.ok .brk _) => rfl
  | some (.ok .cont _) => rfl
  | some (.ok .ret _) => rfl

/-- Calls look the same. -/
def Same (k : CallS) (k' : CallD) : Prop := ∀ f sc t p, k' f (dd p t) = (k f sc t).map (er p)

theorem same_eval {k : CallS} {k' : CallD} (h : Same k k') (sc : List Nat) (p : List Expr) :
    ∀ (e : Expr) (t : T), evalD k' e (dd p t) = (evalS k sc e t).map (er p)
  | [], t => rfl
  | .op n :: e, t => by
    show andThen (opD n (dd p t)) (evalD k' e) = (andThen (opS sc n t) (evalS k sc e)).map (er p)
    rw [← er_then (same_eval h sc p e)]
    rfl
  | .call f :: e, t => by
    show andThen (k' f (dd p t)) (evalD k' e) = (andThen (k f sc t) (evalS k sc e)).map (er p)
    rw [← er_then (same_eval h sc p e), h f sc t p]

theorem same_all {k : CallS} {k' : CallD} (h : Same k k') (sc : List Nat) (p : List Expr) :
    ∀ (es : List Expr) (t : T), evalAll (evalD k') es (dd p t) = (evalAll (evalS k sc) es t).map (er p)
  | [], t => rfl
  | e :: es, t => by
    rw [evalAll, evalAll, ← er_then (same_all h sc p es), same_eval h sc p e t]

/-- The calls at the end of a function left by `return`. -/
def finish (k : CallD) (es : List Expr) : Option (Res D) → Option (Res D)
  | some (.ok .ret t) => andThen (evalAll (evalD k) es t) fun t => some (.ok .ret t)
  | r => r

theorem finish_then {k : CallD} {es : List Expr} (r : Option (Res D)) (g : D → Option (Res D)) (hp : ∀ e t, Plain (evalD k e t)) :
    andThen (finish k es r) (fun t => finish k es (g t)) = finish k es (andThen r g) := by
  match r with
  | none => rfl
  | some .fault => rfl
  | some .panic => rfl
  | some (.ok .next t) => rfl
  | some (.ok .brk _) => rfl
  | some (.ok .cont _) => rfl
  | some (.ok .ret t) =>
    have := evalAll_plain hp es t
    show andThen (andThen (evalAll (evalD k) es t) _) _ = andThen (evalAll (evalD k) es t) _
    rw [andThen_assoc]
    rfl

theorem finish_plain {k : CallD} {es : List Expr} {r : Option (Res D)} (h : Plain r) : finish k es r = r := by
  match r, h with
  | none, _ => rfl
  | some .fault, _ => rfl
  | some .panic, _ => rfl
  | some (.ok .next _), _ => rfl
  | some (.ok .brk _), _ => rfl
  | some (.ok .cont _), _ => rfl
  | some (.ok .ret t), h => cases h .ret t rfl

theorem evalD_plain {k : CallD} (hk : ∀ f t, Plain (k f t)) (e : Expr) (t : D) : Plain (evalD k e t) :=
  evalE_plain (fun n t o t' h => by
    simp only [opD, Option.some.injEq, Res.ok.injEq] at h
    exact h.1.symm) hk e t

theorem same_loop {k : CallD} {es : List Expr} (hp : ∀ e t, Plain (evalD k e t)) {p : List Expr}
    {one : T → Option (Res T)} {one' : D → Option (Res D)}
    (h : ∀ t, finish k es (one' (dd p t)) = (one t).map (er p)) :
    ∀ (n : Nat) (t : T), finish k es (loopN one' n (dd p t)) = (loopN one n t).map (er p)
  | 0, _ => rfl
  | n + 1, t => by
    have := h t
    rw [loopN, loopN]
    match hr : one' (dd p t), hs : one t with
    | none, none => rfl
    | none, some x => rw [hr, hs] at this; cases this
    | some .fault, r =>
      rw [hr, hs] at this
      match r, this with
      | some .fault, _ => rfl
      | some .panic, h => cases h
      | some (.ok _ _), h => cases h
      | none, h => cases h
    | some .panic, r =>
      rw [hr, hs] at this
      match r, this with
      | some .panic, _ => rfl
      | some .fault, h => cases h
      | some (.ok _ _), h => cases h
      | none, h => cases h
    | some (.ok .next d), r =>
      rw [hr, hs] at this
      match r, this with
      | some (.ok o t1), h' =>
        simp only [finish, Option.map, er, Option.some.injEq, Res.ok.injEq] at h'
        obtain ⟨rfl, rfl⟩ := h'
        exact same_loop hp h n t1
      | some .fault, h => cases h
      | some .panic, h => cases h
      | none, h => cases h
    | some (.ok .cont d), r =>
      rw [hr, hs] at this
      match r, this with
      | some (.ok o t1), h' =>
        simp only [finish, Option.map, er, Option.some.injEq, Res.ok.injEq] at h'
        obtain ⟨rfl, rfl⟩ := h'
        exact same_loop hp h n t1
      | some .fault, h => cases h
      | some .panic, h => cases h
      | none, h => cases h
    | some (.ok .brk d), r =>
      rw [hr, hs] at this
      match r, this with
      | some (.ok o t1), h =>
        simp only [finish, Option.map, er, Option.some.injEq, Res.ok.injEq] at h
        obtain ⟨rfl, rfl⟩ := h
        rfl
      | some .fault, h => cases h
      | some .panic, h => cases h
      | none, h => cases h
    | some (.ok .ret d), r =>
      rw [hr, hs] at this
      have hpl := evalAll_plain hp es d
      show finish k es (some (.ok .ret d)) = _
      rw [this]
      match r with
      | none => rfl
      | some .fault => rfl
      | some .panic => rfl
      | some (.ok .ret _) => rfl
      | some (.ok .next t1) =>
        exfalso
        simp only [finish] at this
        match hx : evalAll (evalD k) es d with
        | none => rw [hx] at this; cases this
        | some .fault => rw [hx] at this; cases this
        | some .panic => rw [hx] at this; cases this
        | some (.ok o d1) =>
          have ho := hpl o d1 hx
          subst ho
          rw [hx] at this
          simp [andThen, er] at this
      | some (.ok .brk t1) =>
        exfalso
        simp only [finish] at this
        match hx : evalAll (evalD k) es d with
        | none => rw [hx] at this; cases this
        | some .fault => rw [hx] at this; cases this
        | some .panic => rw [hx] at this; cases this
        | some (.ok o d1) =>
          have ho := hpl o d1 hx
          subst ho
          rw [hx] at this
          simp [andThen, er] at this
      | some (.ok .cont t1) =>
        exfalso
        simp only [finish] at this
        match hx : evalAll (evalD k) es d with
        | none => rw [hx] at this; cases this
        | some .fault => rw [hx] at this; cases this
        | some .panic => rw [hx] at this; cases this
        | some (.ok o d1) =>
          have ho := hpl o d1 hx
          subst ho
          rw [hx] at this
          simp [andThen, er] at this

theorem same_step (W : World) {k : CallS} {k' : CallD} (hk : Same k k') (hp : ∀ f t, Plain (k' f t)) (n : Nat)
    (es p : List Expr) : ∀ (a : Stmt) (sc : List Nat) (t : T), noEns a = true → (es = [] ∨ silent a = true) →
      finish k' es (stepD W k' n a (dd p t)) = (stepS W es k n a sc t).map (er p)
  | .skip, _, _, _, _ => rfl
  | .ensure _, _, _, h, _ => by simp [noEns] at h
  | .brk, _, _, _, _ => rfl
  | .cont, _, _, _, _ => rfl
  | .seq a b, sc, t, h, hs => by
    rw [noEns, Bool.and_eq_true] at h
    have hs1 : es = [] ∨ silent a = true := hs.imp id fun h => by
      rw [silent, Bool.and_eq_true] at h
      exact h.1
    have hs2 : es = [] ∨ silent b = true := hs.imp id fun h => by
      rw [silent, Bool.and_eq_true] at h
      exact h.2
    rw [stepD, ← finish_then _ _ (evalD_plain hp), same_step W hk hp n es p a sc t h.1 hs1]
    exact er_then fun t1 => same_step W hk hp n es p b sc t1 h.2 hs2
  | .act e, sc, t, _, _ => by
    rw [stepD, finish_plain (evalD_plain hp e _), same_eval hk sc p e t]
    rfl
  | .ret e, sc, t, _, hs => by
    have h0 : ∀ t1, andThen (evalD k' e (dd p t1)) (fun t => some (.ok .ret t))
        = (andThen (evalS k sc e t1) fun t => some (.ok .ret t)).map (er p) := fun t1 => by
      rw [same_eval hk sc p e t1]
      exact er_then fun t => rfl
    rcases hs with rfl | hs
    · rw [stepD, h0 t]
      show finish k' [] ((andThen (evalS k sc e t) fun t => some (.ok .ret t)).map (er p))
        = (andThen (evalAll (evalS k sc) [] t) _).map (er p)
      rw [evalAll]
      show _ = (andThen (evalS k sc e t) fun t => some (.ok .ret t)).map (er p)
      match (andThen (evalS k sc e t) fun t => some (Res.ok .ret t)).map (er p) with
      | none => rfl
      | some .fault => rfl
      | some .panic => rfl
      | some (.ok .next _) => rfl
      | some (.ok .brk _) => rfl
      | some (.ok .cont _) => rfl
      | some (.ok .ret _) => rfl
    · simp only [silent, decide_eq_true_eq] at hs
      subst hs
      show andThen (evalAll (evalD k') es (dd p t)) _ = (andThen (evalAll (evalS k sc) es t) _).map (er p)
      rw [same_all hk sc p es t]
      exact er_then fun t => rfl
  | .ifS a, sc, t, h, hs =>
    same_step W hk hp n es p a (t.next :: sc) { t with next := t.next + 1 } (by simpa [noEns] using h) (by simpa [silent] using hs)
  | .arm c e a b, sc, t, h, hs => by
    rw [noEns, Bool.and_eq_true] at h
    have hs1 : es = [] ∨ silent a = true := hs.imp id fun h => by
      rw [silent, Bool.and_eq_true] at h
      exact h.1
    have hs2 : es = [] ∨ silent b = true := hs.imp id fun h => by
      rw [silent, Bool.and_eq_true] at h
      exact h.2
    rw [stepD, ← finish_then _ _ (evalD_plain hp), finish_plain (evalD_plain hp e _), same_eval hk sc p e t]
    refine er_then fun t1 => ?_
    show finish k' es (if W c (labels t1.trace) then _ else _) = Option.map (er p) (if W c (labels t1.trace) then _ else _)
    split
    · exact same_step W hk hp n es p a sc t1 h.1 hs1
    · exact same_step W hk hp n es p b sc t1 h.2 hs2
  | .loop c b, sc, t, h, hs => by
    have round : ∀ t1, finish k' es (stepD W k' n b (dd p t1))
        = (stepS W es k n b (t1.next :: sc) { t1 with next := t1.next + 1 }).map (er p) := fun t1 =>
      same_step W hk hp n es p b (t1.next :: sc) { t1 with next := t1.next + 1 } (by simpa [noEns] using h) (by simpa [silent] using hs)
    refine same_loop (evalD_plain hp) (fun t1 => ?_) n t
    cases c with
    | none => exact round t1
    | some ce =>
      show finish k' es (andThen (evalD k' ce.2 (dd p t1)) _) = _
      rw [← finish_then _ _ (evalD_plain hp), finish_plain (evalD_plain hp ce.2 _), same_eval hk sc p ce.2 t1]
      refine er_then fun t2 => ?_
      show finish k' es (if W ce.1 (labels t2.trace) then _ else _) = Option.map (er p) (if W ce.1 (labels t2.trace) then _ else _)
      split
      · exact round t2
      · rfl

/-! Pending calls are only added by `ensure`. -/

def Pend (d : D) (r : Option (Res D)) : Prop := ∀ o d', r = some (.ok o d') → d'.pending = d.pending

theorem pend_ok (d : D) (o : Out) : Pend d (some (.ok o d)) := by
  intro o' d' e
  simp only [Option.some.injEq, Res.ok.injEq] at e
  rw [← e.2]

theorem pend_then {d : D} {r : Option (Res D)} {g : D → Option (Res D)} (h : Pend d r) (hg : ∀ d1, Pend d1 (g d1)) :
    Pend d (andThen r g) := by
  intro o d' e
  match r, h, e with
  | none, _, e => cases e
  | some .fault, _, e => cases e
  | some .panic, _, e => cases e
  | some (.ok .next d1), h, e => exact (hg d1 o d' e).trans (h _ _ rfl)
  | some (.ok .brk _), h, e => exact h _ _ e
  | some (.ok .cont _), h, e => exact h _ _ e
  | some (.ok .ret _), h, e => exact h _ _ e

theorem pend_eval {k : CallD} (hk : ∀ f d, Pend d (k f d)) : ∀ (e : Expr) (d : D), Pend d (evalD k e d)
  | [], d => pend_ok d .next
  | .op n :: e, d => by
    refine pend_then (?_ : Pend d (opD n d)) (pend_eval hk e)
    intro o d' h
    simp only [opD, Option.some.injEq, Res.ok.injEq] at h
    rw [← h.2]
  | .call f :: e, d => pend_then (hk f d) (pend_eval hk e)

theorem pend_loop {one : D → Option (Res D)} (h : ∀ d, Pend d (one d)) : ∀ (n : Nat) (d : D), Pend d (loopN one n d)
  | 0, _ => fun o d' e => by simp [loopN] at e
  | n + 1, d => by
    intro o d' e
    rw [loopN] at e
    have := h d
    match hr : one d with
    | none => rw [hr] at e; cases e
    | some .fault => rw [hr] at e; cases e
    | some .panic => rw [hr] at e; cases e
    | some (.ok .next t1) => rw [hr] at e; exact (pend_loop h n t1 o d' e).trans (this _ _ hr)
    | some (.ok .cont t1) => rw [hr] at e; exact (pend_loop h n t1 o d' e).trans (this _ _ hr)
    | some (.ok .brk t1) =>
      rw [hr] at e
      simp only [Option.some.injEq, Res.ok.injEq] at e
      rw [← e.2]
      exact this _ _ hr
    | some (.ok .ret t1) =>
      rw [hr] at e
      simp only [Option.some.injEq, Res.ok.injEq] at e
      rw [← e.2]
      exact this _ _ hr

theorem pend_step (W : World) {k : CallD} (hk : ∀ f d, Pend d (k f d)) (n : Nat) :
    ∀ (a : Stmt) (d : D), noEns a = true → Pend d (stepD W k n a d)
  | .skip, d, _ => pend_ok d .next
  | .ensure _, _, h => by simp [noEns] at h
  | .brk, d, _ => pend_ok d .brk
  | .cont, d, _ => pend_ok d .cont
  | .seq a b, d, h => by
    rw [noEns, Bool.and_eq_true] at h
    exact pend_then (pend_step W hk n a d h.1) fun d1 => pend_step W hk n b d1 h.2
  | .act e, d, _ => pend_eval hk e d
  | .ret e, d, _ => pend_then (pend_eval hk e d) fun d1 => pend_ok d1 .ret
  | .ifS a, d, h => pend_step W hk n a d (by simpa [noEns] using h)
  | .arm c e a b, d, h => by
    rw [noEns, Bool.and_eq_true] at h
    refine pend_then (pend_eval hk e d) fun d1 => ?_
    split
    · exact pend_step W hk n a d1 h.1
    · exact pend_step W hk n b d1 h.2
  | .loop c b, d, h => by
    have hb : noEns b = true := by simpa [noEns] using h
    refine pend_loop (fun d1 => ?_) n d
    cases c with
    | none => exact pend_step W hk n b d1 hb
    | some ce =>
      refine pend_then (pend_eval hk ce.2 d1) fun d2 => ?_
      split
      · exact pend_step W hk n b d2 hb
      · exact pend_ok d2 .brk

theorem endCall_next {σ : Type} {g : σ → σ} {r : Option (Res σ)} : Plain (endCall g r) := by
  intro o t e
  match r, e with
  | none, e => cases e
  | some .fault, e => cases e
  | some .panic, e => cases e
  | some (.ok .next _), e => cases e; rfl
  | some (.ok .ret _), e => cases e; rfl
  | some (.ok .brk _), e => cases e
  | some (.ok .cont _), e => cases e

theorem then_plain {σ : Type} {r : Option (Res σ)} {g : σ → Option (Res σ)} (h : Plain r) (hg : ∀ t, Plain (g t)) :
    Plain (andThen r g) := by
  intro o t e
  match r, h, e with
  | none, _, e => cases e
  | some .fault, _, e => cases e
  | some .panic, _, e => cases e
  | some (.ok .next d1), h, e => exact hg d1 o t e
  | some (.ok .brk _), h, e => exact h _ _ e
  | some (.ok .cont _), h, e => exact h _ _ e
  | some (.ok .ret _), h, e => exact h _ _ e

/-- A result of a call: nothing, or the state with the pending calls there were. -/
def Whole (d : D) (r : Option (Res D)) : Prop := ∀ o d', r = some (.ok o d') → o = .next ∧ d'.pending = d.pending

theorem whole_then {d d0 : D} {r : Option (Res D)} {g : D → Option (Res D)} (h : Plain r) (hg : ∀ d1, Whole d (g d1)) :
    Whole d (andThen r g) := by
  intro o d' e
  match r, h, e with
  | none, _, e => cases e
  | some .fault, _, e => cases e
  | some .panic, _, e => cases e
  | some (.ok .next d1), h, e => exact hg d1 o d' e
  | some (.ok .brk d1), h, _ => cases h _ _ rfl
  | some (.ok .cont d1), h, _ => cases h _ _ rfl
  | some (.ok .ret d1), h, _ => cases h _ _ rfl

theorem runD_whole (W : World) (P : Prog) : ∀ (n f : Nat) (d : D), Whole d (runD W P n f d)
  | 0, _, _ => fun o d' e => by simp [runD] at e
  | n + 1, f, d => by
    have ih := runD_whole W P n
    have hp : ∀ f d, Plain (runD W P n f d) := fun f d o d' e => (ih f d o d' e).1
    rw [runD, callD]
    split
    · intro o d' e
      cases e
    · refine whole_then (d0 := d) endCall_next fun d1 => whole_then (d0 := d) (evalAll_plain (evalD_plain hp) _ _) fun d2 => ?_
      intro o d' e
      simp only [Option.some.injEq, Res.ok.injEq] at e
      rw [← e.1, ← e.2]
      exact ⟨rfl, rfl⟩

theorem collect_none : ∀ (a : Stmt), noEns a = true → collect a = []
  | .ensure _, h => by simp [noEns] at h
  | .seq a b, h => by
    rw [noEns, Bool.and_eq_true] at h
    cases a with
    | ensure e => simp [noEns] at h
    | _ => simpa [collect] using collect_none b h.2
  | .skip, _ => rfl
  | .brk, _ => rfl
  | .cont, _ => rfl
  | .act _, _ => rfl
  | .ret _, _ => rfl
  | .ifS _, _ => rfl
  | .arm _ _ _ _, _ => rfl
  | .loop _ _, _ => rfl

theorem lead (W : World) : ∀ (a : Stmt), leading a = true → ∃ rest, noEns rest = true ∧ (silent a = true → silent rest = true) ∧
    (∀ k n q t, stepD W k n a (dd q t) = stepD W k n rest (dd ((collect a).reverse ++ q) t)) ∧
    ∀ es k n sc t, stepS W es k n a sc t = stepS W es k n rest sc t := by
  intro a h
  fun_induction leading a with
  | case1 e b ih =>
    obtain ⟨rest, h1, h2, h3, h4⟩ := ih h
    refine ⟨rest, h1, fun hs => h2 ?_, fun k n q t => ?_, fun es k n sc t => ?_⟩
    · rw [silent, Bool.and_eq_true] at hs
      exact hs.2
    · show stepD W k n b (dd (e :: q) t) = _
      rw [h3]
      simp [collect]
    · exact h4 es k n sc t
  | case2 s _ => exact ⟨s, h, id, fun k n q t => by rw [collect_none s h]; rfl, fun _ _ _ _ _ => rfl⟩

/-- The calls at the end. -/
theorem same_end {k : CallS} {k' : CallD} (hk : Same k k') (hp : ∀ f t, Plain (k' f t)) (es q : List Expr) (sc : List Nat)
    {r : Option (Res T)} {r' : Option (Res D)} (h : finish k' es r' = r.map (er es))
    (hq : ∀ o d, r' = some (.ok o d) → d.pending = es) :
    (andThen (endCall id r') fun t' => andThen (evalAll (evalD k') t'.pending t') fun t'' =>
      some (.ok .next { t'' with depth := t''.depth - 1, pending := q }))
    = (endCall (fun t => { t with depth := t.depth - 1 }) (andThen r (evalAll (evalS k sc) es))).map (er q) := by
  match r', hq with
  | none, _ =>
    match r, h with
    | none, _ => rfl
  | some .fault, _ =>
    match r, h with
    | some .fault, _ => rfl
    | some (.ok _ _), h => cases h
    | some .panic, h => cases h
  | some .panic, _ =>
    match r, h with
    | some .panic, _ => rfl
    | some (.ok _ _), h => cases h
    | some .fault, h => cases h
  | some (.ok .brk d), _ =>
    match r, h with
    | some (.ok o t), h =>
      simp only [finish, Option.map, er, Option.some.injEq, Res.ok.injEq] at h
      obtain ⟨rfl, rfl⟩ := h
      rfl
    | some .panic, h => cases h
    | some .fault, h => cases h
  | some (.ok .cont d), _ =>
    match r, h with
    | some (.ok o t), h =>
      simp only [finish, Option.map, er, Option.some.injEq, Res.ok.injEq] at h
      obtain ⟨rfl, rfl⟩ := h
      rfl
    | some .panic, h => cases h
    | some .fault, h => cases h
  | some (.ok .next d), hq =>
    match r, h with
    | some (.ok o t), h =>
      simp only [finish, Option.map, er, Option.some.injEq, Res.ok.injEq] at h
      obtain ⟨rfl, rfl⟩ := h
      show andThen (evalAll (evalD k') es (dd es t)) _ = (endCall _ (evalAll (evalS k sc) es t)).map (er q)
      have hpl := evalAll_plain (evalD_plain hp) es (dd es t)
      have hx := same_all hk sc es es t
      rw [hx] at hpl ⊢
      match evalAll (evalS k sc) es t, hpl with
      | none, _ => rfl
      | some .fault, _ => rfl
      | some .panic, _ => rfl
      | some (.ok .next _), _ => rfl
      | some (.ok .brk _), h => cases h _ _ rfl
      | some (.ok .cont _), h => cases h _ _ rfl
      | some (.ok .ret _), h => cases h _ _ rfl
    | some .panic, h => cases h
    | some .fault, h => cases h
  | some (.ok .ret d), hq =>
    have hd : d.pending = es := hq _ _ rfl
    show andThen (evalAll (evalD k') d.pending d) _ = _
    rw [hd]
    have hpl := evalAll_plain (evalD_plain hp) es d
    simp only [finish] at h
    match hx : evalAll (evalD k') es d, hpl with
    | none, _ =>
      rw [hx] at h
      match r, h with
      | none, _ => rfl
    | some .fault, _ =>
      rw [hx] at h
      match r, h with
      | some .fault, _ => rfl
      | some (.ok _ _), h => cases h
      | some .panic, h => cases h
    | some .panic, _ =>
      rw [hx] at h
      match r, h with
      | some .panic, _ => rfl
      | some (.ok _ _), h => cases h
      | some .fault, h => cases h
    | some (.ok .next d1), _ =>
      rw [hx] at h
      match r, h with
      | some .panic, h => cases h
      | some (.ok o t), h =>
        simp only [andThen, Option.map, er, Option.some.injEq, Res.ok.injEq] at h
        obtain ⟨rfl, rfl⟩ := h
        rfl
      | some .fault, h => cases h
    | some (.ok .brk _), h' => cases h' _ _ rfl
    | some (.ok .cont _), h' => cases h' _ _ rfl
    | some (.ok .ret _), h' => cases h' _ _ rfl

/-- Functions `ensure` works in: no `ensure`, or all at the start and no `return` with a value that does
anything. -/
def tidy (F : Fn) : Bool := leading F.body && (collect F.body == [] || silent F.body)

theorem same_run (W : World) (P : Prog) (hP : ∀ f, tidy (P f) = true) : ∀ n, Same (runS W P n) (runD W P n)
  | 0 => fun _ _ _ _ => rfl
  | n + 1 => by
    intro f sc t p
    have ih := same_run W P hP n
    have hw := runD_whole W P n
    have hp : ∀ f d, Plain (runD W P n f d) := fun f d o d' e => (hw f d o d' e).1
    have ht := hP f
    rw [tidy, Bool.and_eq_true] at ht
    obtain ⟨rest, h1, h2, h3, h4⟩ := lead W _ ht.1
    have hs : (collect (P f).body).reverse = [] ∨ silent rest = true := by
      rcases Bool.or_eq_true _ _ ▸ ht.2 with h | h
      · exact .inl (by simpa using h)
      · exact .inr (h2 h)
    have key : ∀ (sc' : List Nat) (t' : T), t'.trace = t.trace → t'.depth = t.depth →
        runD W P (n + 1) f (dd p t) = (if maxDepth < t'.depth + 1 then some .panic else
          endCall (fun t => { t with depth := t.depth - 1 })
            (andThen (stepS W (collect (P f).body).reverse (runS W P n) n (P f).body sc' { t' with depth := t'.depth + 1 })
              (evalAll (evalS (runS W P n) sc') (collect (P f).body).reverse))).map (er p) := by
      intro sc' t' htr hdp
      rw [runD, callD]
      show (if maxDepth < t.depth + 1 then _ else _) = _
      rw [← hdp]
      by_cases hm : maxDepth < t'.depth + 1
      · rw [if_pos hm, if_pos hm]
        rfl
      · rw [if_neg hm, if_neg hm]
        have e0 : ({ dd p t with depth := t'.depth + 1, pending := [] } : D) = dd [] { t' with depth := t'.depth + 1 } := by
          simp [dd, htr]
        have h3' := h3 (runD W P n) n [] { t' with depth := t'.depth + 1 }
        rw [List.append_nil] at h3'
        refine same_end ih hp _ p sc' ?_ ?_
        · rw [h4, ← same_step W ih hp n _ _ rest sc' _ h1 hs, ← h3', ← e0]
          simp [dd, hdp]
        · intro o d he
          have e1 : ({ dd p t with depth := (dd p t).depth + 1, pending := [] } : D) = dd [] { t' with depth := t'.depth + 1 } := by
            simp [dd, htr, hdp]
          rw [e1, h3'] at he
          exact pend_step W (fun f d o d' e => (hw f d o d' e).2) n rest _ h1 o d he
    cases hpr : (P f).private
    · have := key sc t rfl rfl
      rw [this, runS]
      simp [callS, hpr]
    · have := key (t.next :: sc) { t with next := t.next + 1 } rfl rfl
      rw [this, runS]
      simp [callS, hpr]

end Fl

/-- The calls named by `ensure` statements reached in a call of a function are made when it exits, the last
first, and those not reached are not made. -/
def C133_statement : Prop :=
  ∀ (W : World) (P : Prog) (ctr : Nat → Nat) (n f : Nat) (s : S) (p : List Expr),
    (∀ g, (P g).ok = true ∧ topEns (P g).body = true) → s.alive ≠ [] → s.dflt = s.alive.headD 0 →
      (runC W P ctr n f s).map (seen p) = runD W P n f ⟨labels s.trace, s.depth, p⟩

/-- `do load() { if missing() { return } mut f = open() ensure close(f) }`: the file that was never opened is
closed. -/
def C133_load : Fn :=
  { valued := false, refs := false, body :=
      .seq (.ifS (.arm 0 [.op 1] (.ret []) .skip)) (.seq (.act [.op 2]) (.seq (.ensure [.op 3]) .skip)) }

theorem C133_witness : C133_load.ok = true ∧ topEns C133_load.body = true ∧
    (runC (fun _ _ => true) (fun _ => C133_load) (fun _ => 0) 1 0 ⟨[], [0], 0, 1, 0, [], none⟩).map (seen [])
      = some (.ok .next ⟨[3, 1], 0, []⟩) ∧
    runD (fun _ _ => true) (fun _ => C133_load) 1 0 ⟨[], 0, []⟩ = some (.ok .next ⟨[1], 0, []⟩) := by decide +kernel

/-- `do total() -> int { mut f = open() ensure close(f) return size(f) }`: closed before it is used. -/
def C133_total : Fn :=
  { valued := true, refs := false, body := .seq (.act [.op 1]) (.seq (.ensure [.op 2]) (.seq (.ret [.op 3]) .skip)) }

theorem C133_return_witness : C133_total.ok = true ∧ topEns C133_total.body = true ∧
    (runC (fun _ _ => true) (fun _ => C133_total) (fun _ => 0) 1 0 ⟨[], [0], 0, 1, 0, [], none⟩).map (seen [])
      = some (.ok .next ⟨[3, 2, 1], 0, []⟩) ∧
    runD (fun _ _ => true) (fun _ => C133_total) 1 0 ⟨[], 0, []⟩ = some (.ok .next ⟨[2, 3, 1], 0, []⟩) := by decide +kernel

theorem C133_fails : ¬ C133_statement := by
  intro h
  have := h (fun _ _ => true) (fun _ => C133_load) (fun _ => 0) 1 0 ⟨[], [0], 0, 1, 0, [], none⟩ []
    (fun _ => ⟨rfl, rfl⟩) (by simp) rfl
  rw [C133_witness.2.2.1] at this
  exact absurd (this.trans C133_witness.2.2.2) (by decide)

/-- **C133**, for programs in which every function has either no `ensure`, or all of them before its other
statements and no `return` with a value that does anything (a constant or a variable is fine).  Missing:
`ensure` after other statements, and values of `return`s that call functions. -/
theorem C133_partial (W : World) (P : Prog) (ctr : Nat → Nat) (n f : Nat) (s : S) (p : List Expr)
    (hP : ∀ g, (P g).ok = true) (ht : ∀ g, tidy (P g) = true) (hne : s.alive ≠ []) (hd : s.dflt = s.alive.headD 0) :
    (runC W P ctr n f s).map (seen p) = runD W P n f ⟨labels s.trace, s.depth, p⟩ := by
  rw [C134_meaning W P ctr hP n f s hne hd]
  have h := same_run W P ht n f s.alive ⟨s.trace, s.next, s.depth⟩ p
  refine Eq.trans ?_ h.symm
  match runS W P n f s.alive ⟨s.trace, s.next, s.depth⟩ with
  | none => rfl
  | some .fault => rfl
  | some .panic => rfl
  | some (.ok _ _) => rfl

/-- Two `ensure`s, left by `return` from inside a loop. -/
private def ensP : Prog := fun _ =>
  { valued := false, refs := false, body :=
      .seq (.ensure [.op 1]) (.seq (.ensure [.op 2])
        (.seq (.loop none (.seq (.act [.op 3]) (.seq (.ret []) .skip))) .skip)) }

example : (∀ g, tidy (ensP g) = true) ∧ (∀ g, (ensP g).ok = true) ∧
    (runC (fun _ _ => true) ensP (fun _ => 0) 3 0 ⟨[], [0], 0, 1, 0, [], none⟩).map (seen [])
      = some (.ok .next ⟨[1, 2, 3], 0, []⟩) := ⟨fun _ => rfl, fun _ => rfl, by decide +kernel⟩

end Verif.Props

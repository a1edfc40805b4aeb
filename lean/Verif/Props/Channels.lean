import Verif.Lemmas.Channels

/-! C40, C41, C110, C111, C112: channels. -/
namespace Verif.Props
open Verif.Channels

/-! ### C40 -/

/-- In every reachable state the values taken are a prefix of the values pushed, at most `cap` are
buffered, and the indices are in range. -/
theorem C40_fifo {c : Int} {n : Nat} {s : St} (h : Reach c n s) :
    s.recv <+: s.sent ∧ s.sent.length ≤ s.recv.length + s.cap ∧
      s.count + s.recv.length = s.sent.length ∧ s.head < s.cap ∧ s.tail < s.cap := by
  obtain ⟨a, b, d, e, q, h1, h2, -⟩ := (inv_reach h).rep
  rw [h1]
  refine ⟨List.prefix_append _ _, ?_, ?_, b, d⟩
  · rw [List.length_append]; omega
  · rw [List.length_append]; omega

/-- While nobody holds the mutex, the buffer from `head` on holds exactly the values pushed and not yet
taken, in order. -/
theorem C40_contents {c : Int} {n : Nat} {s : St} (h : Reach c n s) (ho : s.owner = none) :
    s.sent = s.recv ++ (List.range s.count).map fun k => s.buf ((s.head + k) % s.cap) := by
  have hi := (inv_reach h).rep
  rw [ho] at hi
  obtain ⟨a, b, d, e, q, h1, h2, h3, h4⟩ := hi
  rw [h1]
  congr 1
  apply List.ext_getElem
  · simp [h2]
  · intro k hk hk'
    rw [List.getElem_map, List.getElem_range, h4 k hk]

/-- The capacity is what was asked for, at least one. -/
theorem C40_capacity {c : Int} {n : Nat} {s : St} (h : Reach c n s) : (s.cap : Int) = max 1 c := by
  have h0 : s.cap = openCap c := by
    induction h with
    | init => rfl
    | step i a _ hs ih =>
      rw [← ih]
      unfold step at hs
      split at hs
      · cases hs
      · rename_i p _
        cases a with
        | start op => simp only at hs; split at hs <;> cases hs; rfl
        | spur => simp only at hs; split at hs <;> cases hs <;> rfl
        | sig who =>
          simp only [signal] at hs
          cases who <;> simp only at hs <;> (repeat' split at hs) <;> cases hs <;> rfl
        | run =>
          cases p <;> simp only [runPc, St.acquire, St.drop] at hs <;> (repeat' split at hs) <;>
            first | cases hs <;> done | (injection hs with hs; subst hs; rfl)
  rw [h0]
  unfold openCap
  split <;> omega

/-- Once the channel is closed, no value is pushed any more. -/
theorem C40_closed {c : Int} {n : Nat} {s s' : St} {i : Nat} {a : Act} (h : Reach c n s)
    (hc : s.closed = true) (hs : step s i a = some s') : s'.sent = s.sent ∧ s'.closed = true := by
  have hi := inv_reach h
  unfold step at hs
  cases hp : s.thr[i]? with
  | none => rw [hp] at hs; cases hs
  | some p =>
    rw [hp] at hs
    cases a with
    | start op => simp only at hs; split at hs <;> cases hs; exact ⟨rfl, hc⟩
    | spur => simp only at hs; split at hs <;> cases hs <;> exact ⟨rfl, hc⟩
    | sig who =>
      simp only [signal] at hs
      cases who <;> simp only at hs <;> (repeat' split at hs) <;> cases hs <;> exact ⟨rfl, hc⟩
    | run =>
      cases p
      case sCount v =>
        exfalso
        have hr := hi.rep
        rw [(opc_in hi.mx hp rfl).2] at hr
        obtain ⟨a, b, d, e, q, h1, h2, h3, h4, h5, h6, h7⟩ := hr
        rw [hc] at h6
        cases h6
      all_goals
        simp only [runPc, St.acquire, St.drop] at hs
        (repeat' split at hs) <;>
          first | cases hs <;> done | (injection hs with hs; subst hs; first | exact ⟨rfl, hc⟩ | exact ⟨rfl, rfl⟩)

/-! ### C41 -/

/-- If a receiver sleeps though there is a value or the channel is closed, a receiver has been woken,
or the holder of the mutex is in the middle of an operation. -/
theorem C41_receivers {c : Int} {n : Nat} {s : St} (h : Reach c n s) (i : Nat) (hw : s.thr[i]? = some .rWait)
    (he : 0 < s.count ∨ s.closed = true) :
    (∃ j : Nat, s.thr[j]? = some .rWoken) ∨ ∃ j p, s.owner = some j ∧ s.thr[j]? = some p ∧
      (p = .sSig ∨ p = .cB1 ∨ p = .cB2 ∨ rAct p = true) := by
  have hi := inv_reach h
  have hpos : 0 < s.thr.countP isRWait := List.countP_pos_iff.2 ⟨_, List.mem_of_getElem? hw, rfl⟩
  have own : ∀ p, opc s.thr s.owner = some p → ∃ j, s.owner = some j ∧ s.thr[j]? = some p := by
    intro p hp
    cases ho : s.owner with
    | none => rw [ho] at hp; cases hp
    | some j => rw [ho] at hp; exact ⟨j, rfl, hp⟩
  rcases he with he | he
  · have := hi.wk.wr hpos
    by_cases hs : opc s.thr s.owner = some .sSig
    · obtain ⟨j, h1, h2⟩ := own _ hs
      exact Or.inr ⟨j, _, h1, h2, Or.inl rfl⟩
    · rw [if_neg hs] at this
      have hA : 0 < s.thr.countP rAct := by omega
      obtain ⟨p, hp, hr⟩ := List.countP_pos_iff.1 hA
      obtain ⟨j, hj, hj'⟩ := List.mem_iff_getElem.1 hp
      have hj2 : s.thr[j]? = some p := by rw [List.getElem?_eq_getElem hj, hj']
      by_cases hin : inside p = true
      · exact Or.inr ⟨j, p, (hi.mx.1 j p hj2).1 hin, hj2, Or.inr (Or.inr (Or.inr hr))⟩
      · have : p = .rWoken := by cases p <;> first | rfl | (exfalso; exact hin rfl) | cases hr
        subst this
        exact Or.inl ⟨j, hj2⟩
  · rcases hi.wk.cr he hpos with e | e
    · obtain ⟨j, h1, h2⟩ := own _ e
      exact Or.inr ⟨j, _, h1, h2, Or.inr (Or.inl rfl)⟩
    · obtain ⟨j, h1, h2⟩ := own _ e
      exact Or.inr ⟨j, _, h1, h2, Or.inr (Or.inr (Or.inl rfl))⟩

/-- If a sender sleeps though there is room or the channel is closed, a sender has been woken, or the
holder of the mutex is in the middle of an operation. -/
theorem C41_senders {c : Int} {n : Nat} {s : St} (h : Reach c n s) (i : Nat) (v : Int)
    (hw : s.thr[i]? = some (.sWait v)) (he : s.count < s.cap ∨ s.closed = true) :
    (∃ (j : Nat) (w : Int), s.thr[j]? = some (.sWoken w)) ∨ ∃ j p, s.owner = some j ∧ s.thr[j]? = some p ∧
      (p = .rSig ∨ p = .cB1 ∨ sAct p = true) := by
  have hi := inv_reach h
  have hpos : 0 < s.thr.countP isSWait := List.countP_pos_iff.2 ⟨_, List.mem_of_getElem? hw, rfl⟩
  have own : ∀ p, opc s.thr s.owner = some p → ∃ j, s.owner = some j ∧ s.thr[j]? = some p := by
    intro p hp
    cases ho : s.owner with
    | none => rw [ho] at hp; cases hp
    | some j => rw [ho] at hp; exact ⟨j, rfl, hp⟩
  rcases he with he | he
  · have := hi.wk.ws hpos
    by_cases hs : opc s.thr s.owner = some .rSig
    · obtain ⟨j, h1, h2⟩ := own _ hs
      exact Or.inr ⟨j, _, h1, h2, Or.inl rfl⟩
    · rw [if_neg hs] at this
      have hA : 0 < s.thr.countP sAct := by omega
      obtain ⟨p, hp, hr⟩ := List.countP_pos_iff.1 hA
      obtain ⟨j, hj, hj'⟩ := List.mem_iff_getElem.1 hp
      have hj2 : s.thr[j]? = some p := by rw [List.getElem?_eq_getElem hj, hj']
      by_cases hin : inside p = true
      · exact Or.inr ⟨j, p, (hi.mx.1 j p hj2).1 hin, hj2, Or.inr (Or.inr hr)⟩
      · have : ∃ w, p = .sWoken w := by
          cases p <;> first | exact ⟨_, rfl⟩ | (exfalso; exact hin rfl) | cases hr
        obtain ⟨w, rfl⟩ := this
        exact Or.inl ⟨j, w, hj2⟩
  · obtain ⟨j, h1, h2⟩ := own _ (hi.wk.cs he hpos)
    exact Or.inr ⟨j, _, h1, h2, Or.inr (Or.inl rfl)⟩

/-- Nothing is left to do but starting new operations (and spurious wake-ups). -/
def Quiet (s : St) : Prop := ∀ i a s', step s i a = some s' → (∃ op, a = .start op) ∨ a = .spur

theorem sig_enabled (s : St) (i : Nat) (asleep : Pc → Bool) (wake : Pc → Pc) :
    ∃ who s', signal s i asleep wake who = some s' := by
  by_cases h : s.thr.any asleep = true
  · obtain ⟨p, hp, ha⟩ := List.any_eq_true.1 h
    obtain ⟨j, hj, hj'⟩ := List.mem_iff_getElem.1 hp
    refine ⟨some j, (s.goto j (wake p)).goto i .unl, ?_⟩
    unfold signal
    simp only [List.getElem?_eq_getElem hj, hj']
    rw [if_pos ha]
  · refine ⟨none, s.goto i .unl, ?_⟩
    unfold signal
    simp only
    rw [if_neg h]

theorem run_enabled (s : St) (i : Nat) (p : Pc) (hp : s.thr[i]? = some p)
    (hn : p ≠ .idle) (h1 : isRWait p = false) (h2 : isSWait p = false)
    (ho : inside p = false → s.owner = none) : ¬ Quiet s := by
  intro hq
  have key : ∀ s', runPc s i p = some s' → False := by
    intro s' hs
    have := hq i .run s' (by unfold step; rw [hp]; exact hs)
    rcases this with ⟨op, h⟩ | h <;> cases h
  cases p with
  | idle => exact hn rfl
  | sWait v => cases h2
  | rWait => cases h1
  | sSig =>
    obtain ⟨who, s', hs⟩ := sig_enabled s i isRWait wakeR
    have := hq i (.sig who) s' (by unfold step; rw [hp]; exact hs)
    rcases this with ⟨op, h⟩ | h <;> cases h
  | rSig =>
    obtain ⟨who, s', hs⟩ := sig_enabled s i isSWait wakeS
    have := hq i (.sig who) s' (by unfold step; rw [hp]; exact hs)
    rcases this with ⟨op, h⟩ | h <;> cases h
  | sCheck t v =>
    simp only [runPc] at key
    split at key <;> exact key _ rfl
  | sTest t v =>
    simp only [runPc] at key
    (repeat' split at key) <;> exact key _ rfl
  | rTest t =>
    simp only [runPc] at key
    (repeat' split at key) <;> exact key _ rfl
  | sLock t v => exact key _ (by rw [runPc, St.acquire, if_pos (ho rfl)])
  | sWoken v => exact key _ (by rw [runPc, St.acquire, if_pos (ho rfl)])
  | rLock t => exact key _ (by rw [runPc, St.acquire, if_pos (ho rfl)])
  | rWoken => exact key _ (by rw [runPc, St.acquire, if_pos (ho rfl)])
  | cLock => exact key _ (by rw [runPc, St.acquire, if_pos (ho rfl)])
  | sGoWait v => exact key _ rfl
  | sWrite v => exact key _ rfl
  | sTail v => exact key _ rfl
  | sCount v => exact key _ rfl
  | rGoWait => exact key _ rfl
  | rRead => exact key _ rfl
  | rHead v => exact key _ rfl
  | rCount v => exact key _ rfl
  | cSet => exact key _ rfl
  | cB1 => exact key _ rfl
  | cB2 => exact key _ rfl
  | unl => exact key _ rfl

/-- When nothing is left to do, a thread sleeps only if its operation really cannot go on: a receiver
because the channel is open and empty, a sender because it is open and full. -/
theorem C41_quiet {c : Int} {n : Nat} {s : St} (h : Reach c n s) (hq : Quiet s) (i : Nat) (p : Pc)
    (hp : s.thr[i]? = some p) :
    p = .idle ∨ (p = .rWait ∧ s.count = 0 ∧ s.closed = false) ∨
      (∃ v, p = .sWait v ∧ s.count = s.cap ∧ s.closed = false) := by
  have hi := inv_reach h
  have hown : s.owner = none := by
    cases ho : s.owner with
    | none => rfl
    | some j =>
      have hj := hi.mx.2 j ho
      have hj2 : s.thr[j]? = some s.thr[j] := List.getElem?_eq_getElem hj
      have hin := (hi.mx.1 j _ hj2).2 ho
      refine absurd hq (run_enabled s j _ hj2 ?_ ?_ ?_ ?_)
      · intro e; rw [e] at hin; cases hin
      · revert hin; cases s.thr[j] <;> simp [inside, isRWait]
      · revert hin; cases s.thr[j] <;> simp [inside, isSWait]
      · intro e; rw [e] at hin; cases hin
  have hall : ∀ (j : Nat) (q : Pc), s.thr[j]? = some q → q = .idle ∨ isRWait q = true ∨ isSWait q = true := by
    intro j q hj
    by_contra hx
    push Not at hx
    exact run_enabled s j q hj hx.1 (by simpa using hx.2.1) (by simpa using hx.2.2) (fun _ => hown) hq
  have hzero : ∀ f : Pc → Bool, f .idle = false → f .rWait = false → (∀ v, f (.sWait v) = false) →
      s.thr.countP f = 0 := by
    intro f f1 f2 f3
    rw [List.countP_eq_zero]
    intro q hm hf
    obtain ⟨j, hj, hj'⟩ := List.mem_iff_getElem.1 hm
    have := hall j q (by rw [List.getElem?_eq_getElem hj, hj'])
    revert hf
    cases q <;> simp_all [isRWait, isSWait]
  have hA := hzero rAct rfl rfl (fun _ => rfl)
  have hS := hzero sAct rfl rfl (fun _ => rfl)
  have hw := hi.wk
  rw [hown] at hw
  obtain ⟨w1, w2, w3, w4⟩ := hw
  rw [hA] at w1
  rw [hS] at w2
  simp only [opc, Option.bind_none, reduceCtorEq, if_false, Nat.add_zero, or_false] at w1 w2 w3 w4
  have hle := hi.rep.2.2.2.1
  rcases hall i p hp with e | e | e
  · exact Or.inl e
  · have hpos : 0 < s.thr.countP isRWait := List.countP_pos_iff.2 ⟨_, List.mem_of_getElem? hp, e⟩
    refine Or.inr (Or.inl ⟨(by cases p <;> first | rfl | cases e), by have := w1 hpos; omega, ?_⟩)
    by_contra hc
    exact w3 (by simpa using hc) hpos
  · have hpos : 0 < s.thr.countP isSWait := List.countP_pos_iff.2 ⟨_, List.mem_of_getElem? hp, e⟩
    have hv : ∃ v, p = .sWait v := by cases p <;> first | exact ⟨_, rfl⟩ | cases e
    obtain ⟨v, hv⟩ := hv
    refine Or.inr (Or.inr ⟨v, hv, by have := w2 hpos; omega, ?_⟩)
    by_contra hc
    exact w4 (by simpa using hc) hpos

/-- A sender and a receiver are never both stuck. -/
theorem C41_no_deadlock {c : Int} {n : Nat} {s : St} (h : Reach c n s) (hq : Quiet s) (i j : Nat) (v : Int) :
    ¬ (s.thr[i]? = some .rWait ∧ s.thr[j]? = some (.sWait v)) := by
  rintro ⟨h1, h2⟩
  have r := C41_quiet h hq i _ h1
  have t := C41_quiet h hq j _ h2
  simp only [reduceCtorEq, Pc.sWait.injEq, false_or, true_and, or_false, exists_eq_left', false_and,
    exists_false] at r t
  have := (inv_reach h).rep.1
  omega

/-- Steps other than starting operations and spurious wake-ups. -/
inductive Runs : St → Nat → St → Prop where
  | nil (s : St) : Runs s 0 s
  | cons {s s' s'' : St} {k : Nat} (i : Nat) (a : Act) (h1 : ∀ op, a ≠ .start op) (h2 : a ≠ .spur) :
      step s i a = some s' → Runs s' k s'' → Runs s (k + 1) s''

/-- How many steps a thread may still make or cause, among `n` threads. -/
def weight (n : Nat) : Pc → Nat
  | .idle => 0
  | .unl => 1
  | .sSig | .rSig => 5
  | .sCount _ | .rCount _ => 6
  | .sTail _ | .rHead _ => 7
  | .sWrite _ | .rRead => 8
  | .sWait _ | .rWait => 8
  | .sGoWait _ | .rGoWait => 9
  | .sTest _ _ | .rTest _ => 10
  | .sWoken _ | .rWoken | .sLock _ _ | .rLock _ => 11
  | .sCheck _ _ => 12
  | .cB2 => 3 * n + 2
  | .cB1 => 6 * n + 3
  | .cSet => 6 * n + 4
  | .cLock => 6 * n + 5

def total (s : St) : Nat := (s.thr.map (weight s.thr.length)).sum

theorem sum_set (f : Pc → Nat) (l : List Pc) (i : Nat) (p q : Pc) (h : l[i]? = some p) :
    ((l.set i q).map f).sum + f p = (l.map f).sum + f q := by
  induction l generalizing i with
  | nil => simp at h
  | cons a r ih =>
    cases i with
    | zero =>
      simp only [List.getElem?_cons_zero, Option.some.injEq] at h
      subst h
      simp; omega
    | succ i =>
      have := ih i (by simpa using h)
      rw [List.set_cons_succ, List.map_cons, List.map_cons, List.sum_cons, List.sum_cons]
      omega

theorem sum_wake (f : Pc → Nat) (w : Pc → Pc) (hw : ∀ p, f (w p) ≤ f p + 3) (l : List Pc) :
    ((l.map w).map f).sum ≤ (l.map f).sum + 3 * l.length := by
  induction l with
  | nil => simp
  | cons a r ih =>
    simp only [List.map_cons, List.sum_cons, List.length_cons]
    have := hw a
    omega

theorem total_goto {s : St} {i : Nat} {p : Pc} (q : Pc) (hp : s.thr[i]? = some p) :
    total (s.goto i q) + weight s.thr.length p = total s + weight s.thr.length q := by
  unfold total St.goto
  simp only [List.length_set]
  exact sum_set _ _ _ _ _ hp

theorem total_step {s s' : St} {i : Nat} {a : Act} (h1 : ∀ op, a ≠ .start op) (h2 : a ≠ .spur)
    (hs : step s i a = some s') : total s' < total s := by
  unfold step at hs
  cases hp : s.thr[i]? with
  | none => rw [hp] at hs; cases hs
  | some p =>
    rw [hp] at hs
    have low : ∀ q, weight s.thr.length q < weight s.thr.length p → total (s.goto i q) < total s := by
      intro q hq
      have := total_goto q hp
      omega
    cases a with
    | start op => exact absurd rfl (h1 op)
    | spur => exact absurd rfl h2
    | sig who =>
      have key : ∀ asleep wake, p = .sSig ∨ p = .rSig → (∀ q, asleep q = true → weight s.thr.length (wake q) ≤ weight s.thr.length q + 3) →
          (asleep p = false) → signal s i asleep wake who = some s' → total s' < total s := by
        intro asleep wake hps hw hap hsig
        have hwp : weight s.thr.length p = 5 := by rcases hps with e | e <;> rw [e] <;> rfl
        unfold signal at hsig
        cases who with
        | none =>
          simp only at hsig
          split at hsig
          · cases hsig
          · injection hsig with hsig
            subst hsig
            exact low _ (by rw [hwp]; simp [weight])
        | some j =>
          simp only at hsig
          cases hj : s.thr[j]? with
          | none => rw [hj] at hsig; cases hsig
          | some q =>
            rw [hj] at hsig
            simp only at hsig
            split at hsig
            · rename_i hq
              injection hsig with hsig
              subst hsig
              have hij : j ≠ i := by
                rintro rfl
                rw [hp] at hj
                injection hj with hj
                rw [hj, hq] at hap
                cases hap
              have hp1 : (s.goto j (wake q)).thr[i]? = some p := by
                show (s.thr.set j (wake q))[i]? = some p
                rw [get_set _ _ _ _ (lt_of_get hj), if_neg hij]; exact hp
              have e1 := total_goto (wake q) hj
              have e2 := total_goto .unl hp1
              have hl : (s.goto j (wake q)).thr.length = s.thr.length := List.length_set
              rw [hl, hwp] at e2
              have := hw q hq
              have : weight s.thr.length .unl = 1 := rfl
              omega
            · cases hsig
      simp only at hs
      split at hs
      · rename_i e
        exact key isRWait wakeR (Or.inl e) (by intro q hq; cases q <;> first | (cases hq; done) | exact Nat.le_refl _)
          (by rw [e]; rfl) hs
      · split at hs
        · rename_i e
          exact key isSWait wakeS (Or.inr e) (by intro q hq; cases q <;> first | (cases hq; done) | exact Nat.le_refl _)
            (by rw [e]; rfl) hs
        · cases hs
    | run =>
      have acq : ∀ q, s.acquire i q = some s' → weight s.thr.length q < weight s.thr.length p → total s' < total s := by
        intro q hq hl
        unfold St.acquire at hq
        split at hq
        · injection hq with hq
          subst hq
          exact low q hl
        · cases hq
      have bro : ∀ (q : Pc) (w : Pc → Pc), (∀ x, weight s.thr.length (w x) ≤ weight s.thr.length x + 3) →
          weight s.thr.length q + 3 * s.thr.length < weight s.thr.length p →
          total { s with thr := (s.thr.set i q).map w } < total s := by
        intro q w hw hl
        have e1 := sum_set (weight s.thr.length) s.thr i p q hp
        have e2 := sum_wake (weight s.thr.length) w hw (s.thr.set i q)
        unfold total
        simp only [List.length_map, List.length_set] at e2 ⊢
        omega
      cases p with
      | idle => cases hs
      | sWait v => cases hs
      | rWait => cases hs
      | sSig => cases hs
      | rSig => cases hs
      | sCheck t v =>
        simp only [runPc] at hs
        split at hs
        · injection hs with hs
          subst hs
          have := low .idle (by simp [weight])
          cases t <;> exact this
        · injection hs with hs
          subst hs
          exact low _ (by simp [weight])
      | sTest t v =>
        simp only [runPc] at hs
        have hu := low .unl (by simp [weight])
        cases t
        · (repeat' split at hs) <;> (injection hs with hs; subst hs) <;> first | exact hu | exact low _ (by simp [weight])
        · (repeat' split at hs) <;> (injection hs with hs; subst hs) <;> first | exact hu | exact low _ (by simp [weight])
      | rTest t =>
        simp only [runPc] at hs
        (repeat' split at hs) <;> (injection hs with hs; subst hs; exact low _ (by simp [weight]))
      | sLock t v => exact acq _ hs (by simp [weight])
      | sWoken v => exact acq _ hs (by simp [weight])
      | rLock t => exact acq _ hs (by simp [weight])
      | rWoken => exact acq _ hs (by simp [weight])
      | cLock => exact acq _ hs (by simp [weight])
      | sGoWait v => injection hs with hs; subst hs; exact low (.sWait v) (by simp [weight])
      | sWrite v => injection hs with hs; subst hs; exact low (.sTail v) (by simp [weight])
      | sTail v => injection hs with hs; subst hs; exact low (.sCount v) (by simp [weight])
      | sCount v => injection hs with hs; subst hs; exact low .sSig (by simp [weight])
      | rGoWait => injection hs with hs; subst hs; exact low .rWait (by simp [weight])
      | rRead => injection hs with hs; subst hs; exact low (.rHead _) (by simp [weight])
      | rHead v => injection hs with hs; subst hs; exact low (.rCount v) (by simp [weight])
      | rCount v => injection hs with hs; subst hs; exact low .rSig (by simp [weight])
      | cSet => injection hs with hs; subst hs; exact low .cB1 (by simp [weight])
      | cB1 =>
        injection hs with hs
        subst hs
        refine bro .cB2 wakeS ?_ (by simp [weight]; omega)
        intro x
        cases x <;> simp [wakeS, weight]
      | cB2 =>
        injection hs with hs
        subst hs
        refine bro .unl wakeR ?_ (by simp [weight]; omega)
        intro x
        cases x <;> simp [wakeR, weight]
      | unl => injection hs with hs; subst hs; exact low .idle (by simp [weight])

/-- The operations under way come to an end: without new operations and spurious wake-ups only a
bounded number of steps can be made, whatever the scheduler does. -/
theorem C41_ends (s : St) : ∃ N, ∀ k s', Runs s k s' → k ≤ N := by
  refine ⟨total s, fun k s' h => ?_⟩
  induction h with
  | nil s => exact Nat.zero_le _
  | cons i a h1 h2 hs _ ih =>
    have := total_step h1 h2 hs
    omega

/-- A state with a sleeping receiver can be reached. -/
example : ∃ s, Reach 1 1 s ∧ s.thr = [.rWait] := by
  refine ⟨_, .step 0 .run (.step 0 .run (.step 0 .run (.step 0 (.start .receive) .init rfl) rfl) rfl) rfl, ?_⟩
  rfl

/-- A value can be sent and received. -/
example : ∃ s, Reach 1 1 s ∧ s.sent = [7] ∧ s.recv = [7] := by
  refine ⟨_, .step 0 .run (.step 0 .run (.step 0 .run (.step 0 .run (.step 0 .run (.step 0 (.start .receive)
    (.step 0 .run (.step 0 (.sig none) (.step 0 .run (.step 0 .run (.step 0 .run (.step 0 .run (.step 0 .run
    (.step 0 .run (.step 0 (.start (.send 7)) .init rfl) rfl) rfl) rfl) rfl) rfl) rfl) rfl) rfl) rfl) rfl) rfl)
    rfl) rfl) rfl, ?_⟩
  exact ⟨rfl, rfl⟩

/-! ### C110 -/

/-- The shared fields. -/
inductive Field where
  | buffer | count | head | tail | closed
  deriving DecidableEq

/-- What the next step of a thread reads (`false`) and writes (`true`). -/
def access : Pc → List (Field × Bool)
  | .sCheck _ _ => [(.closed, false)]
  | .sTest _ _ | .rTest _ => [(.count, false), (.closed, false)]
  | .sWrite _ => [(.tail, false), (.buffer, true)]
  | .sTail _ => [(.tail, true)]
  | .sCount _ | .rCount _ => [(.count, true)]
  | .rRead => [(.head, false), (.buffer, false)]
  | .rHead _ => [(.head, true)]
  | .cSet => [(.closed, true)]
  | _ => []

/-- Threads `i` and `j` are both about to access the field, one of them to write it. -/
def Race (s : St) (i j : Nat) (f : Field) : Prop :=
  ∃ p q w1 w2, i ≠ j ∧ s.thr[i]? = some p ∧ s.thr[j]? = some q ∧ (f, w1) ∈ access p ∧ (f, w2) ∈ access q ∧
    (w1 = true ∨ w2 = true)

/-- C110 as claimed: there is no data race. -/
def C110_statement : Prop := ∀ c n s i j f, Reach c n s → ¬ Race s i j f

/-- `send` reads `closed` without the mutex while `close` writes it. -/
theorem C110_witness : ∃ s, Reach 1 2 s ∧ Race s 0 1 .closed :=
  ⟨_, .step 1 .run (.step 1 (.start .close) (.step 0 (.start (.send 5)) .init rfl) rfl) rfl,
    .sCheck false 5, .cSet, false, true, by decide, rfl, rfl, by decide, by decide, Or.inr rfl⟩

theorem C110_fails : ¬ C110_statement := by
  intro h
  obtain ⟨s, hs, hr⟩ := C110_witness
  exact h _ _ _ _ _ _ hs hr

/-- That is the only race: the other fields are accessed under the mutex only, and `closed` is written
under the mutex only. -/
theorem C110_partial {c : Int} {n : Nat} {s : St} {i j : Nat} {f : Field} (h : Reach c n s) (hr : Race s i j f) :
    f = .closed ∧ ((∃ t v, s.thr[i]? = some (.sCheck t v) ∧ s.thr[j]? = some .cSet) ∨
      (∃ t v, s.thr[j]? = some (.sCheck t v) ∧ s.thr[i]? = some .cSet)) := by
  obtain ⟨p, q, w1, w2, hij, hp, hq, a1, a2, hw⟩ := hr
  have hi := (inv_reach h).mx
  have key : ∀ p f w, (f, w) ∈ access p → inside p = true ∨ (∃ t v, p = .sCheck t v) := by
    intro p f w ha
    cases p <;> first | exact Or.inl rfl | exact Or.inr ⟨_, _, rfl⟩ | cases ha
  have set : ∀ p, (Field.closed, true) ∈ access p → p = .cSet := by
    intro p ha
    cases p <;> first | rfl | (simp [access] at ha)
  rcases key p f w1 a1 with hp1 | ⟨t, v, rfl⟩
  · rcases key q f w2 a2 with hq1 | ⟨t, v, rfl⟩
    · have e1 := (hi.1 i p hp).1 hp1
      have e2 := (hi.1 j q hq).1 hq1
      rw [e1] at e2
      injection e2 with e2
      exact absurd e2 hij
    · simp only [access, List.mem_singleton, Prod.mk.injEq] at a2
      obtain ⟨rfl, rfl⟩ := a2
      simp only [Bool.false_eq_true, or_false] at hw
      subst hw
      exact ⟨rfl, Or.inr ⟨t, v, hq, by rw [hp, set p a1]⟩⟩
  · simp only [access, List.mem_singleton, Prod.mk.injEq] at a1
    obtain ⟨rfl, rfl⟩ := a1
    simp only [Bool.false_eq_true, false_or] at hw
    subst hw
    exact ⟨rfl, Or.inl ⟨t, v, hp, by rw [hq, set q a2]⟩⟩

/-! ### C111 -/

/-- C111 as claimed: the memory asked for holds as many values as the capacity says. -/
def C111_statement : Prop := ∀ c : Int, -2 ^ 63 ≤ c → c < 2 ^ 63 → openBytes c = 8 * openCap c

/-- For 2^61 values nothing is asked for; the first send then writes outside of it. -/
theorem C111_witness : openCap (2 ^ 61) = 2 ^ 61 ∧ openBytes (2 ^ 61) = 0 := by decide +kernel

theorem C111_fails : ¬ C111_statement := by
  intro h
  have := h (2 ^ 61) (by decide) (by decide)
  rw [C111_witness.1, C111_witness.2] at this
  revert this
  decide

theorem C111_partial (c : Int) (h : c < 2 ^ 61) : openBytes c = 8 * openCap c := by
  unfold openBytes
  rw [Nat.mod_eq_of_lt]
  unfold openCap
  split <;> omega

example : openBytes 10 = 80 ∧ openBytes (-3) = 8 := by decide +kernel

/-! ### C112 -/

/-- C112 as claimed: a send that returns has put its value into the channel. -/
def C112_statement : Prop := ∀ c n s, Reach c n s → s.lost = []

/-- Sending on a closed channel returns as if nothing had happened. -/
theorem C112_witness : ∃ s, Reach 1 1 s ∧ s.lost = [5] :=
  ⟨_, .step 0 .run (.step 0 (.start (.send 5)) (.step 0 .run (.step 0 .run (.step 0 .run (.step 0 .run
    (.step 0 .run (.step 0 (.start .close) .init rfl) rfl) rfl) rfl) rfl) rfl) rfl) rfl, rfl⟩

theorem C112_fails : ¬ C112_statement := by
  intro h
  obtain ⟨s, hs, hl⟩ := C112_witness
  rw [h _ _ _ hs] at hl
  cases hl

/-- Values are dropped only once the channel is closed. -/
theorem C112_partial {c : Int} {n : Nat} {s : St} (h : Reach c n s) (hc : s.closed = false) : s.lost = [] := by
  by_contra hl
  have := (inv_reach h).lost hl
  rw [hc] at this
  cases this

end Verif.Props

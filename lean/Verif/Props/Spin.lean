import Verif.Model.Spin

/-!
# C240 and C241: the spin locks
-/

namespace Verif.Props

open Verif.Spin

namespace SpX

open Verif.Spin.X86

/-- Only stores to data. -/
def Data (b : List (Nat × Val)) : Prop := ∀ e ∈ b, e.1 ≠ 0

/-- Nothing, or stores to data and then the lock given back. -/
def Rel (b : List (Nat × Val)) : Prop := b = [] ∨ ∃ d, b = d ++ [(0, 0)] ∧ Data d

/-- The thread has got the lock. -/
def Got (t : Thread) : Prop :=
  match t.place with
  | .critical => True
  | .inside .lock 2 => t.eax = 0
  | .inside .lock 3 => t.zf = true
  | .inside .lock 4 => True
  | .inside .trylock 2 => t.eax = 0
  | .inside .trylock 3 => t.zf = true
  | .inside .trylock 4 => t.eax.setWidth 8 = (1 : BitVec 8)
  | .inside .trylock 5 => t.eax.setWidth 8 = (1 : BitVec 8)
  | .inside .unlock 0 => True
  | .inside .unlock 1 => True
  | _ => False

def Shape (t : Thread) : Prop :=
  match t.place with
  | .idle => Rel t.buf
  | .critical => Data t.buf
  | .inside .lock 0 => Rel t.buf
  | .inside .lock 1 => Rel t.buf ∧ t.eax = 1
  | .inside .lock n => t.buf = [] ∧ n < 9
  | .inside .trylock 0 => Rel t.buf
  | .inside .trylock 1 => Rel t.buf ∧ t.eax = 1
  | .inside .trylock 2 => t.buf = []
  | .inside .trylock 3 => t.buf = []
  | .inside .trylock 4 => t.buf = [] ∧ (t.eax.setWidth 8 = (0 : BitVec 8) ∨ t.eax.setWidth 8 = (1 : BitVec 8))
  | .inside .trylock 5 => t.buf = [] ∧ (t.eax.setWidth 8 = (0 : BitVec 8) ∨ t.eax.setWidth 8 = (1 : BitVec 8))
  | .inside .unlock 0 => Data t.buf
  | .inside .unlock 1 => t.buf = []
  | .inside .unlock 2 => Rel t.buf
  | .inside _ _ => False

/-- The thread has the lock, or has not yet quite given it back. -/
def Owns (t : Thread) : Prop := Got t ∨ ∃ v, (0, v) ∈ t.buf

/-- Nothing that others could see. -/
def Quiet (m m' : Mem) (t t' : Thread) : Prop := m' = m ∧ Shape t' ∧ (Owns t' ↔ Owns t) ∧ ∀ a, a ≠ 0 → view m t' a = view m t a

/-- The lock is taken. -/
def Takes (m m' : Mem) (t t' : Thread) : Prop := m 0 = 0 ∧ m' = poke m 0 1 ∧ ¬ Owns t ∧ t'.buf = [] ∧ Got t' ∧ Shape t'

theorem owns_nil {t : Thread} (h : t.buf = []) : Owns t ↔ Got t := by simp [Owns, h]

theorem quiet {m : Mem} {t t' : Thread} (hs : Shape t') (hb : t'.buf = t.buf) (hg : Got t' ↔ Got t) : Quiet m m t t' :=
  ⟨rfl, hs, by simp [Owns, hb, hg], fun a _ => by simp [view, hb]⟩

theorem quiet' {m m' : Mem} {t t' : Thread} (hm : m' = m) (hs : Shape t') (hb : t'.buf = t.buf) (hg : Got t' ↔ Got t) : Quiet m m' t t' := by
  subst hm; exact quiet hs hb hg

theorem poke_same {m : Mem} {v : Val} (h : m 0 = v) : poke m 0 v = m := by
  funext x
  unfold poke
  split
  · rename_i e; rw [e, h]
  · rfl

theorem sete_low (e : Val) (b : Bool) : ((e >>> 8) <<< 8 ||| (if b then 1 else 0) : Val).setWidth 8 = if b then (1 : BitVec 8) else 0 := by
  apply BitVec.eq_of_getLsbD_eq
  intro i hi
  cases b <;> simp [hi]

theorem movzb_low (e : Val) : ((e.setWidth 8).setWidth 32).setWidth 8 = e.setWidth 8 := by
  apply BitVec.eq_of_getLsbD_eq
  intro i hi
  have : i < 32 := by omega
  simp [hi, this]

theorem exec_cases {f : Fn} {pc : Nat} {m m' : Mem} {t t' : Thread} (hs : Shape t) (hp : t.place = .inside f pc) (hm : m 0 = 0 ∨ m 0 = 1)
    (h : exec f pc m t = some (m', t')) : Quiet m m' t t' ∨ Takes m m' t t' := by
  obtain ⟨p, e, z, b⟩ := t
  simp only at hp
  subst hp
  cases f with
  | lock =>
    rcases pc with _ | _ | _ | _ | _ | _ | _ | _ | _ | pc
    · simp [exec, code] at h
      obtain ⟨rfl, rfl⟩ := h
      exact Or.inl (quiet ⟨hs, rfl⟩ rfl (by simp [Got]))
    · obtain ⟨hr, he⟩ := hs
      simp only at he
      subst he
      by_cases hb : b = []
      · subst hb
        simp [exec, code] at h
        obtain ⟨rfl, rfl⟩ := h
        rcases hm with hm | hm
        · exact Or.inr ⟨hm, rfl, by simp [Owns, Got], rfl, by simp [Got, hm], ⟨rfl, by omega⟩⟩
        · exact Or.inl (quiet' (poke_same hm) ⟨rfl, by omega⟩ rfl (by simp [Got, hm]))
      · simp [exec, code, hb] at h
    · simp [exec, code] at h
      obtain ⟨rfl, rfl⟩ := h
      exact Or.inl (quiet ⟨hs.1, by omega⟩ rfl (by simp [Got]))
    · cases z
      · simp [exec, code] at h
        obtain ⟨rfl, rfl⟩ := h
        exact Or.inl (quiet ⟨hs.1, by omega⟩ rfl (by simp [Got]))
      · simp [exec, code] at h
        obtain ⟨rfl, rfl⟩ := h
        exact Or.inl (quiet ⟨hs.1, by omega⟩ rfl (by simp [Got]))
    · simp [exec, code] at h
      obtain ⟨rfl, rfl⟩ := h
      have hb : b = [] := hs.1
      subst hb
      exact Or.inl (quiet (by simp [Shape, back, Data]) rfl (by simp [Got, back]))
    · simp [exec, code] at h
      obtain ⟨rfl, rfl⟩ := h
      exact Or.inl (quiet ⟨hs.1, by omega⟩ rfl (by simp [Got]))
    · simp [exec, code] at h
      obtain ⟨rfl, rfl⟩ := h
      exact Or.inl (quiet ⟨hs.1, by omega⟩ rfl (by simp [Got]))
    · cases z
      · simp [exec, code] at h
        obtain ⟨rfl, rfl⟩ := h
        exact Or.inl (quiet ⟨hs.1, by omega⟩ rfl (by simp [Got]))
      · simp [exec, code] at h
        obtain ⟨rfl, rfl⟩ := h
        exact Or.inl (quiet ⟨hs.1, by omega⟩ rfl (by simp [Got]))
    · simp [exec, code] at h
      obtain ⟨rfl, rfl⟩ := h
      exact Or.inl (quiet (Or.inl hs.1) rfl (by simp [Got]))
    · simp [exec, code] at h
  | trylock =>
    rcases pc with _ | _ | _ | _ | _ | _ | pc
    · simp [exec, code] at h
      obtain ⟨rfl, rfl⟩ := h
      exact Or.inl (quiet ⟨hs, rfl⟩ rfl (by simp [Got]))
    · obtain ⟨hr, he⟩ := hs
      simp only at he
      subst he
      by_cases hb : b = []
      · subst hb
        simp [exec, code] at h
        obtain ⟨rfl, rfl⟩ := h
        rcases hm with hm | hm
        · exact Or.inr ⟨hm, rfl, by simp [Owns, Got], rfl, by simp [Got, hm], rfl⟩
        · exact Or.inl (quiet' (poke_same hm) rfl rfl (by simp [Got, hm]))
      · simp [exec, code, hb] at h
    · simp [exec, code] at h
      obtain ⟨rfl, rfl⟩ := h
      exact Or.inl (quiet hs rfl (by simp [Got]))
    · simp only [exec, code, List.getElem?_cons_succ, List.getElem?_cons_zero, Option.some.injEq, Prod.mk.injEq] at h
      obtain ⟨rfl, rfl⟩ := h
      refine Or.inl (quiet ⟨hs, ?_⟩ rfl ?_)
      · simp only [sete_low]; cases z <;> simp
      · simp only [Got, sete_low]; cases z <;> simp
    · simp only [exec, code, List.getElem?_cons_succ, List.getElem?_cons_zero, Option.some.injEq, Prod.mk.injEq] at h
      obtain ⟨rfl, rfl⟩ := h
      refine Or.inl (quiet ⟨hs.1, ?_⟩ rfl ?_)
      · simp only [movzb_low]; exact hs.2
      · simp only [Got, movzb_low]
    · simp only [exec, code, List.getElem?_cons_succ, List.getElem?_cons_zero, Option.some.injEq, Prod.mk.injEq] at h
      obtain ⟨rfl, rfl⟩ := h
      obtain ⟨hb, he⟩ := hs
      simp only at hb he
      subst hb
      rcases he with he | he
      · exact Or.inl (quiet (by simp [Shape, back, he, Rel]) rfl (by simp [Got, back, he]))
      · exact Or.inl (quiet (by simp [Shape, back, he, Data]) rfl (by simp [Got, back, he]))
    · simp [exec, code] at h
  | unlock =>
    rcases pc with _ | _ | _ | pc
    · by_cases hb : b = []
      · subst hb
        simp [exec, code] at h
        obtain ⟨rfl, rfl⟩ := h
        exact Or.inl (quiet rfl rfl (by simp [Got]))
      · simp [exec, code, hb] at h
    · simp [exec, code] at h
      obtain ⟨rfl, rfl⟩ := h
      have hb : b = [] := hs
      subst hb
      refine Or.inl ⟨rfl, Or.inr ⟨[], rfl, fun e he => by simp at he⟩, by simp [Owns, Got], fun a ha => by simp [view, poke, ha]⟩
    · simp [exec, code] at h
      obtain ⟨rfl, rfl⟩ := h
      exact Or.inl (quiet hs rfl (by simp [Got, back]))
    · simp [exec, code] at h

structure Inv (s : State) : Prop where
  bit : s.mem 0 = 0 ∨ s.mem 0 = 1
  shape : ∀ i, Shape (s.thread i)
  one : ∀ i j, Owns (s.thread i) → Owns (s.thread j) → i = j
  taken : ∀ i, Owns (s.thread i) → s.mem 0 = 1
  held : s.mem 0 = 1 → ∃ i, Owns (s.thread i)
  seen : ∀ i, Owns (s.thread i) → ∀ a, a ≠ 0 → view s.mem (s.thread i) a = s.last a
  rest : (∀ i, ¬ Owns (s.thread i)) → ∀ a, a ≠ 0 → s.mem a = s.last a

theorem inv_start {s : State} (h : Start s) : Inv s := by
  obtain ⟨h0, h1, h2⟩ := h
  have hno : ∀ i, ¬ Owns (s.thread i) := fun i => by
    rw [owns_nil (h2 i).2]; simp [Got, (h2 i).1]
  refine ⟨Or.inl h0, fun i => ?_, fun i _ h => absurd h (hno i), fun i h => absurd h (hno i), fun h => (by rw [h0] at h; exact absurd h (by decide)),
    fun i h => absurd h (hno i), fun _ a _ => by rw [h1]⟩
  simp [Shape, (h2 i).1, (h2 i).2, Rel]

theorem inv_quiet {s : State} (hi : Inv s) {i : Nat} {m : Mem} {t : Thread} (hq : Quiet s.mem m (s.thread i) t) : Inv (s.set i m t) := by
  obtain ⟨rfl, h1, h2, h3⟩ := hq
  have ho : ∀ j, Owns ((s.set i s.mem t).thread j) ↔ Owns (s.thread j) := fun j => by
    by_cases e : j = i
    · subst e; simpa [State.set] using h2
    · simp [State.set, e]
  refine ⟨hi.bit, fun j => ?_, fun j k hj hk => hi.one j k ((ho j).1 hj) ((ho k).1 hk), fun j hj => hi.taken j ((ho j).1 hj), fun h => ?_, fun j hj a ha => ?_,
    fun hn a ha => hi.rest (fun j hj => hn j ((ho j).2 hj)) a ha⟩
  · by_cases e : j = i
    · subst e; simpa [State.set] using h1
    · simpa [State.set, e] using hi.shape j
  · obtain ⟨j, hj⟩ := hi.held h
    exact ⟨j, (ho j).2 hj⟩
  · have := hi.seen j ((ho j).1 hj) a ha
    by_cases e : j = i
    · subst e
      show view s.mem (if j = j then t else s.thread j) a = s.last a
      rw [if_pos rfl, h3 a ha]; exact this
    · show view s.mem (if j = i then t else s.thread j) a = s.last a
      rw [if_neg e]; exact this

theorem inv_takes {s : State} (hi : Inv s) {i : Nat} {m : Mem} {t : Thread} (hq : Takes s.mem m (s.thread i) t) : Inv (s.set i m t) := by
  obtain ⟨h0, rfl, h1, h2, h3, h4⟩ := hq
  have hno : ∀ j, ¬ Owns (s.thread j) := fun j hj => by
    have := hi.taken j hj
    rw [h0] at this
    exact absurd this (by decide)
  have ho : ∀ j, Owns ((s.set i (poke s.mem 0 1) t).thread j) → j = i := fun j hj => by
    apply Decidable.byContradiction
    intro e
    have hj' : Owns (s.thread j) := by simpa [State.set, e] using hj
    exact hno j hj'
  have hti : (s.set i (poke s.mem 0 1) t).thread i = t := by simp [State.set]
  refine ⟨Or.inr (by simp [State.set, poke]), fun j => ?_, fun j k hj hk => by rw [ho j hj, ho k hk], fun j hj => by simp [State.set, poke], fun _ => ⟨i, Or.inl (by rw [hti]; exact h3)⟩,
    fun j hj a ha => ?_,
    fun hn => absurd (Or.inl (by rw [hti]; exact h3)) (hn i)⟩
  · by_cases e : j = i
    · subst e; rw [hti]; exact h4
    · simpa [State.set, e] using hi.shape j
  · rw [ho j hj, hti]
    show view (poke s.mem 0 1) t a = s.last a
    rw [← hi.rest hno a ha]
    simp [view, h2, poke, ha]

theorem shape_split {t : Thread} (hs : Shape t) : Data t.buf ∨ (∃ d, t.buf = d ++ [(0, 0)] ∧ Data d ∧ ¬ Got t) := by
  have hn : ∀ {b : List (Nat × Val)}, b = [] → Data b := fun h e he => by rw [h] at he; simp at he
  have hr : ∀ {b : List (Nat × Val)}, ¬ Got t → Rel b → Data b ∨ (∃ d, b = d ++ [(0, 0)] ∧ Data d ∧ ¬ Got t) := by
    intro b hg h
    rcases h with h | ⟨d, h, hd⟩
    · exact Or.inl (hn h)
    · exact Or.inr ⟨d, h, hd, hg⟩
  obtain ⟨p, e, z, b⟩ := t
  cases p with
  | idle => exact hr (by simp [Got]) hs
  | critical => exact Or.inl hs
  | inside f pc =>
    cases f with
    | lock =>
      rcases pc with _ | _ | pc
      · exact hr (by simp [Got]) hs
      · exact hr (by simp [Got]) hs.1
      · exact Or.inl (hn hs.1)
    | trylock =>
      rcases pc with _ | _ | _ | _ | _ | _ | pc
      · exact hr (by simp [Got]) hs
      · exact hr (by simp [Got]) hs.1
      · exact Or.inl (hn hs)
      · exact Or.inl (hn hs)
      · exact Or.inl (hn hs.1)
      · exact Or.inl (hn hs.1)
      · exact hs.elim
    | unlock =>
      rcases pc with _ | _ | _ | pc
      · exact Or.inl hs
      · exact Or.inl (hn hs)
      · exact hr (by simp [Got]) hs
      · exact hs.elim

/-- The buffer of a thread that does not have the lock is empty. -/
theorem not_owns {t : Thread} (hs : Shape t) (ho : ¬ Owns t) : t.buf = [] := by
  have h1 : ¬ Got t := fun h => ho (Or.inl h)
  have h2 : ∀ v, (0, v) ∉ t.buf := fun v h => ho (Or.inr ⟨v, h⟩)
  have hr : Rel t.buf → t.buf = [] := by
    rintro (h | ⟨d, h, -⟩)
    · exact h
    · exact absurd (by rw [h]; simp) (h2 0)
  obtain ⟨p, e, z, b⟩ := t
  cases p with
  | idle => exact hr hs
  | critical => exact absurd trivial h1
  | inside f pc =>
    cases f with
    | lock =>
      rcases pc with _ | _ | pc
      · exact hr hs
      · exact hr hs.1
      · exact hs.1
    | trylock =>
      rcases pc with _ | _ | _ | _ | _ | _ | pc
      · exact hr hs
      · exact hr hs.1
      · exact hs
      · exact hs
      · exact hs.1
      · exact hs.1
      · exact hs.elim
    | unlock =>
      rcases pc with _ | _ | _ | pc
      · exact absurd trivial h1
      · exact absurd trivial h1
      · exact hr hs
      · exact hs.elim

/-- The shape after the oldest store has gone. -/
theorem shape_tail {t : Thread} (hs : Shape t) {e : Nat × Val} {r : List (Nat × Val)} (hb : t.buf = e :: r) : Shape { t with buf := r } := by
  have hd : Data t.buf → Data r := fun h x hx => h x (by rw [hb]; simp [hx])
  have hr : Rel t.buf → Rel r := by
    rintro (h | ⟨d, h, hd⟩)
    · rw [hb] at h; cases h
    · rw [hb] at h
      cases d with
      | nil => simp at h; exact Or.inl h.2
      | cons x d =>
        simp at h
        exact Or.inr ⟨d, h.2, fun y hy => hd y (by simp [hy])⟩
  obtain ⟨p, ee, z, b⟩ := t
  simp only at hb
  cases p with
  | idle => exact hr hs
  | critical => exact hd hs
  | inside f pc =>
    cases f with
    | lock =>
      rcases pc with _ | _ | pc
      · exact hr hs
      · exact ⟨hr hs.1, hs.2⟩
      · have := hs.1; simp only at this; rw [hb] at this; cases this
    | trylock =>
      rcases pc with _ | _ | _ | _ | _ | _ | pc
      · exact hr hs
      · exact ⟨hr hs.1, hs.2⟩
      · have : b = [] := hs; rw [hb] at this; cases this
      · have : b = [] := hs; rw [hb] at this; cases this
      · have : b = [] := hs.1; rw [hb] at this; cases this
      · have : b = [] := hs.1; rw [hb] at this; cases this
      · exact hs.elim
    | unlock =>
      rcases pc with _ | _ | _ | pc
      · exact hd hs
      · have : b = [] := hs; rw [hb] at this; cases this
      · exact hr hs
      · exact hs.elim

theorem inv_flush {s : State} (hi : Inv s) {i a : Nat} {v : Val} {r : List (Nat × Val)} (hb : (s.thread i).buf = (a, v) :: r) :
    Inv (s.set i (poke s.mem a v) { s.thread i with buf := r }) := by
  have ho : Owns (s.thread i) := by
    apply Classical.byContradiction
    intro hn
    have := not_owns (hi.shape i) hn
    rw [hb] at this
    cases this
  have hsh : Shape { s.thread i with buf := r } := shape_tail (hi.shape i) hb
  have hti : (s.set i (poke s.mem a v) { s.thread i with buf := r }).thread i = { s.thread i with buf := r } := by simp [State.set]
  have htj : ∀ j, j ≠ i → (s.set i (poke s.mem a v) { s.thread i with buf := r }).thread j = s.thread j := fun j e => by simp [State.set, e]
  have hoj : ∀ j, j ≠ i → ¬ Owns ((s.set i (poke s.mem a v) { s.thread i with buf := r }).thread j) := fun j e hj => by
    rw [htj j e] at hj
    exact e (hi.one j i hj ho)
  have hv : ∀ x, view (poke s.mem a v) { s.thread i with buf := r } x = view s.mem (s.thread i) x := fun x => by simp [view, hb]
  have hshape : ∀ j, Shape ((s.set i (poke s.mem a v) { s.thread i with buf := r }).thread j) := fun j => by
    by_cases e : j = i
    · subst e; rw [hti]; exact hsh
    · rw [htj j e]; exact hi.shape j
  have hone : ∀ j, Owns ((s.set i (poke s.mem a v) { s.thread i with buf := r }).thread j) → j = i := fun j hj => by
    apply Decidable.byContradiction
    intro e
    exact hoj j e hj
  by_cases ha : a = 0
  · -- the lock is given back
    subst ha
    rcases shape_split (hi.shape i) with hd | ⟨d, hd, hd', hg⟩
    · exact absurd rfl (hd (0, v) (by rw [hb]; simp))
    · rw [hb] at hd
      cases d with
      | cons x d =>
        simp at hd
        exact absurd (by rw [← hd.1]) (hd' x (by simp))
      | nil =>
        simp at hd
        obtain ⟨rfl, rfl⟩ := hd
        have hn : ∀ j, ¬ Owns ((s.set i (poke s.mem 0 0) { s.thread i with buf := [] }).thread j) := fun j hj => by
          have := hone j hj
          subst this
          have hj' : Owns { s.thread j with buf := [] } := Eq.mp (congrArg Owns hti) hj
          exact hg ((owns_nil (t := { s.thread j with buf := [] }) rfl).1 hj')
        refine ⟨Or.inl (by simp [State.set, poke]), hshape, fun j k hj => absurd hj (hn j), fun j hj => absurd hj (hn j), fun h => absurd h (by simp [State.set, poke]),
          fun j hj => absurd hj (hn j), ?_⟩
        intro _ x hx
        have := hi.seen i ho x hx
        show poke s.mem 0 0 x = s.last x
        rw [← this, ← hv x]
        simp [view]
  · have hoi : Owns { s.thread i with buf := r } := by
      rcases ho with h | ⟨w, h⟩
      · exact Or.inl h
      · refine Or.inr ⟨w, ?_⟩
        rw [hb] at h
        simp at h
        rcases h with ⟨h, -⟩ | h
        · exact absurd h.symm ha
        · exact h
    have h0 : (poke s.mem a v) 0 = s.mem 0 := by simp [poke, Ne.symm ha]
    refine ⟨by show poke s.mem a v 0 = 0 ∨ poke s.mem a v 0 = 1; rw [h0]; exact hi.bit, hshape, fun j k hj hk => by rw [hone j hj, hone k hk], fun j hj => ?_, fun _ => ⟨i, by rw [hti]; exact hoi⟩, fun j hj x hx => ?_, fun hn => ?_⟩
    · show poke s.mem a v 0 = 1
      rw [h0]; exact hi.taken i ho
    · rw [hone j hj, hti]
      show view (poke s.mem a v) _ x = s.last x
      rw [hv x]; exact hi.seen i ho x hx
    · exact absurd (by rw [hti]; exact hoi) (hn i)

theorem inv_step {s s' : State} (hi : Inv s) (h : Step s s') : Inv s' := by
  cases h with
  | @call i f h hf =>
    apply inv_quiet hi
    have := hi.shape i
    generalize s.thread i = t at *
    obtain ⟨p, e, z, b⟩ := t
    simp only at h
    subst h
    cases f with
    | lock => exact quiet this rfl (by simp [Got])
    | trylock => exact quiet this rfl (by simp [Got])
    | unlock => exact absurd rfl hf
  | @free i h =>
    apply inv_quiet hi
    have := hi.shape i
    generalize s.thread i = t at *
    obtain ⟨p, e, z, b⟩ := t
    simp only at h
    subst h
    exact quiet this rfl (by simp [Got])
  | @write i a v h ha =>
    have hs := hi.shape i
    have hg : Got (s.thread i) := by simp [Got, h]
    have hg' : Got { s.thread i with buf := (s.thread i).buf ++ [(a, v)] } := hg
    have hd : Data (s.thread i).buf := by simpa [Shape, h] using hs
    have ho : ∀ j, Owns (if j = i then { s.thread i with buf := (s.thread i).buf ++ [(a, v)] } else s.thread j) → j = i := fun j hj => by
      apply Decidable.byContradiction
      intro e
      rw [if_neg e] at hj
      exact e (hi.one j i hj (Or.inl hg))
    refine ⟨hi.bit, fun j => ?_, fun j k hj hk => by rw [ho j hj, ho k hk], fun j hj => hi.taken i (Or.inl hg),
      fun _ => ⟨i, Or.inl (by show Got (if i = i then _ else _); rw [if_pos rfl]; exact hg')⟩, fun j hj x hx => ?_, fun hn => ?_⟩
    · by_cases e : j = i
      · subst e
        show Shape (if j = j then _ else _)
        rw [if_pos rfl]
        simp only [Shape, h]
        intro x hx
        simp at hx
        rcases hx with hx | rfl
        · exact hd x hx
        · exact ha
      · show Shape (if j = i then _ else _)
        rw [if_neg e]; exact hi.shape j
    · have e := ho j hj
      subst e
      show view s.mem (if j = j then _ else _) x = poke s.last a v x
      rw [if_pos rfl]
      have := hi.seen j (Or.inl hg) x hx
      simp only [view, List.foldl_append, List.foldl_cons, List.foldl_nil, poke]
      split
      · rfl
      · exact this
    · exact absurd (Or.inl (by show Got (if i = i then _ else _); rw [if_pos rfl]; exact hg')) (hn i)
  | @exec i f pc m t h he =>
    rcases exec_cases (hi.shape i) h hi.bit he with hq | hq
    · exact inv_quiet hi hq
    · exact inv_takes hi hq
  | @flush i a v r h => exact inv_flush hi h

theorem inv_reach {s s' : State} (h0 : Start s) (h : Reach s s') : Inv s' := by
  induction h with
  | start => exact inv_start h0
  | step _ h2 ih => exact inv_step ih h2

/-- A thread inside one of the functions goes on, or one of its stores reaches memory. -/
theorem can_go_on {t : Thread} (hs : Shape t) {f : Fn} {pc : Nat} (hp : t.place = .inside f pc) (m : Mem) :
    (exec f pc m t).isSome ∨ t.buf ≠ [] := by
  obtain ⟨p, e, z, b⟩ := t
  simp only at hp
  subst hp
  by_cases hb : b = []
  · left
    subst hb
    cases f with
    | lock =>
      have hpc : pc < 9 := by
        rcases pc with _ | _ | pc
        · omega
        · omega
        · exact hs.2
      rcases pc with _ | _ | _ | _ | _ | _ | _ | _ | _ | pc <;> first | rfl | omega
    | trylock => rcases pc with _ | _ | _ | _ | _ | _ | pc <;> first | rfl | exact hs.elim
    | unlock => rcases pc with _ | _ | _ | pc <;> first | rfl | exact hs.elim
  · exact Or.inr hb

/-- Instructions of one thread while all others wait. -/
def solo : Nat → Mem × Thread → Option (Mem × Thread)
  | 0, x => some x
  | n + 1, x =>
    match x.2.place with
    | .inside f pc => (exec f pc x.1 x.2).bind (solo n)
    | _ => some x

end SpX

namespace SpA

open Verif.Spin.Arm

def Got (t : Thread) : Prop :=
  match t.place with
  | .critical => True
  | .inside .lock 4 => t.w3 = 0
  | .inside .lock 5 => True
  | .inside .lock 6 => True
  | .inside .trylock 4 => t.w3 = 0
  | .inside .trylock 5 => True
  | .inside .trylock 6 => True
  | .inside .trylock 7 => True
  | .inside .unlock 0 => True
  | .inside .unlock 1 => True
  | _ => False

/-- `v` is what the lock holds. -/
def Shape (v : Val) (t : Thread) : Prop :=
  match t.place with
  | .idle => True
  | .critical => True
  | .inside .lock 1 => t.mon = true → t.w1 = v
  | .inside .lock 2 => t.mon = true → v = 0
  | .inside .lock 3 => t.w2 = 1 ∧ (t.mon = true → v = 0)
  | .inside .lock n => n < 11
  | .inside .trylock 1 => t.mon = true → t.w1 = v
  | .inside .trylock 2 => t.mon = true → v = 0
  | .inside .trylock 3 => t.w2 = 1 ∧ (t.mon = true → v = 0)
  | .inside .trylock 7 => t.w0 = 1
  | .inside .trylock 10 => t.w0 = 0
  | .inside .trylock n => n < 11
  | .inside .unlock n => n < 3

def Quiet (m m' : Mem) (t t' : Thread) (w : Bool) : Prop := m' = m ∧ w = false ∧ Shape (m 0) t' ∧ (Got t' ↔ Got t)

def Takes (m m' : Mem) (t t' : Thread) (w : Bool) : Prop := m 0 = 0 ∧ m' = poke m 0 1 ∧ w = true ∧ ¬ Got t ∧ Got t' ∧ Shape 1 t'

def Gives (m m' : Mem) (t t' : Thread) (w : Bool) : Prop := m' = poke m 0 0 ∧ w = true ∧ Got t ∧ ¬ Got t' ∧ Shape 0 t'

theorem exec_cases {ok : Bool} {f : Fn} {pc : Nat} {m m' : Mem} {t t' : Thread} {w : Bool} (hs : Shape (m 0) t) (hp : t.place = .inside f pc)
    (h : exec ok f pc m t = some (m', t', w)) : Quiet m m' t t' w ∨ Takes m m' t t' w ∨ Gives m m' t t' w := by
  obtain ⟨p, w0, w1, w2, w3, mon⟩ := t
  simp only at hp
  subst hp
  cases f with
  | lock =>
    rcases pc with _ | _ | _ | _ | _ | _ | _ | _ | _ | _ | _ | pc
    · simp [exec, code] at h
      obtain ⟨rfl, rfl, rfl⟩ := h
      exact Or.inl ⟨rfl, rfl, fun _ => rfl, by simp [Got]⟩
    · by_cases hw : w1 = 0
      · simp [exec, code, hw] at h
        obtain ⟨rfl, rfl, rfl⟩ := h
        exact Or.inl ⟨rfl, rfl, fun hm => by have := hs hm; simp only at this; rw [← this]; exact hw, by simp [Got]⟩
      · have hw' : ¬ w1 = 0#32 := hw
        simp [exec, code, hw'] at h
        obtain ⟨rfl, rfl, rfl⟩ := h
        exact Or.inl ⟨rfl, rfl, by simp [Shape], by simp [Got]⟩
    · simp [exec, code] at h
      obtain ⟨rfl, rfl, rfl⟩ := h
      exact Or.inl ⟨rfl, rfl, ⟨rfl, hs⟩, by simp [Got]⟩
    · obtain ⟨h2, h3⟩ := hs
      simp only at h2 h3
      subst h2
      by_cases hm : (mon && ok) = true
      · simp only [exec, code, List.getElem?_cons_succ, List.getElem?_cons_zero, hm, if_true, Option.some.injEq, Prod.mk.injEq] at h
        obtain ⟨rfl, rfl, rfl⟩ := h
        exact Or.inr (Or.inl ⟨h3 (Bool.and_eq_true_iff.1 hm).1, rfl, rfl, by simp [Got], by simp [Got], by simp [Shape]⟩)
      · simp only [exec, code, List.getElem?_cons_succ, List.getElem?_cons_zero, hm, Option.some.injEq, Prod.mk.injEq] at h
        obtain ⟨rfl, rfl, rfl⟩ := h
        exact Or.inl ⟨rfl, rfl, by simp [Shape], by simp [Got]⟩
    · by_cases hw : w3 = 0
      · subst hw
        simp [exec, code] at h
        obtain ⟨rfl, rfl, rfl⟩ := h
        exact Or.inl ⟨rfl, rfl, by simp [Shape], by simp [Got]⟩
      · have hw' : ¬ w3 = 0#32 := hw
        simp [exec, code, hw'] at h
        obtain ⟨rfl, rfl, rfl⟩ := h
        exact Or.inl ⟨rfl, rfl, by simp [Shape], by simp [Got, hw']⟩
    · simp [exec, code] at h
      obtain ⟨rfl, rfl, rfl⟩ := h
      exact Or.inl ⟨rfl, rfl, by simp [Shape], by simp [Got]⟩
    · simp [exec, code] at h
      obtain ⟨rfl, rfl, rfl⟩ := h
      exact Or.inl ⟨rfl, rfl, by simp [Shape, back], by simp [Got, back]⟩
    · simp [exec, code] at h
      obtain ⟨rfl, rfl, rfl⟩ := h
      exact Or.inl ⟨rfl, rfl, by simp [Shape], by simp [Got]⟩
    · simp [exec, code] at h
      obtain ⟨rfl, rfl, rfl⟩ := h
      exact Or.inl ⟨rfl, rfl, by simp [Shape], by simp [Got]⟩
    · by_cases hw : w1 = 0
      · subst hw
        simp [exec, code] at h
        obtain ⟨rfl, rfl, rfl⟩ := h
        exact Or.inl ⟨rfl, rfl, by simp [Shape], by simp [Got]⟩
      · have hw' : ¬ w1 = 0#32 := hw
        simp [exec, code, hw'] at h
        obtain ⟨rfl, rfl, rfl⟩ := h
        exact Or.inl ⟨rfl, rfl, by simp [Shape], by simp [Got]⟩
    · simp [exec, code] at h
      obtain ⟨rfl, rfl, rfl⟩ := h
      exact Or.inl ⟨rfl, rfl, by simp [Shape], by simp [Got]⟩
    · simp [exec, code] at h
  | trylock =>
    rcases pc with _ | _ | _ | _ | _ | _ | _ | _ | _ | _ | _ | pc
    · simp [exec, code] at h
      obtain ⟨rfl, rfl, rfl⟩ := h
      exact Or.inl ⟨rfl, rfl, fun _ => rfl, by simp [Got]⟩
    · by_cases hw : w1 = 0
      · simp [exec, code, hw] at h
        obtain ⟨rfl, rfl, rfl⟩ := h
        exact Or.inl ⟨rfl, rfl, fun hm => by have := hs hm; simp only at this; rw [← this]; exact hw, by simp [Got]⟩
      · have hw' : ¬ w1 = 0#32 := hw
        simp [exec, code, hw'] at h
        obtain ⟨rfl, rfl, rfl⟩ := h
        exact Or.inl ⟨rfl, rfl, by simp [Shape], by simp [Got]⟩
    · simp [exec, code] at h
      obtain ⟨rfl, rfl, rfl⟩ := h
      exact Or.inl ⟨rfl, rfl, ⟨rfl, hs⟩, by simp [Got]⟩
    · obtain ⟨h2, h3⟩ := hs
      simp only at h2 h3
      subst h2
      by_cases hm : (mon && ok) = true
      · simp only [exec, code, List.getElem?_cons_succ, List.getElem?_cons_zero, hm, if_true, Option.some.injEq, Prod.mk.injEq] at h
        obtain ⟨rfl, rfl, rfl⟩ := h
        exact Or.inr (Or.inl ⟨h3 (Bool.and_eq_true_iff.1 hm).1, rfl, rfl, by simp [Got], by simp [Got], by simp [Shape]⟩)
      · simp only [exec, code, List.getElem?_cons_succ, List.getElem?_cons_zero, hm, Option.some.injEq, Prod.mk.injEq] at h
        obtain ⟨rfl, rfl, rfl⟩ := h
        exact Or.inl ⟨rfl, rfl, by simp [Shape], by simp [Got]⟩
    · by_cases hw : w3 = 0
      · subst hw
        simp [exec, code] at h
        obtain ⟨rfl, rfl, rfl⟩ := h
        exact Or.inl ⟨rfl, rfl, by simp [Shape], by simp [Got]⟩
      · have hw' : ¬ w3 = 0#32 := hw
        simp [exec, code, hw'] at h
        obtain ⟨rfl, rfl, rfl⟩ := h
        exact Or.inl ⟨rfl, rfl, by simp [Shape], by simp [Got, hw']⟩
    · simp [exec, code] at h
      obtain ⟨rfl, rfl, rfl⟩ := h
      exact Or.inl ⟨rfl, rfl, by simp [Shape], by simp [Got]⟩
    · simp [exec, code] at h
      obtain ⟨rfl, rfl, rfl⟩ := h
      exact Or.inl ⟨rfl, rfl, rfl, by simp [Got]⟩
    · have h0 : w0 = 1 := hs
      subst h0
      simp only [exec, code, List.getElem?_cons_succ, List.getElem?_cons_zero, Option.some.injEq, Prod.mk.injEq] at h
      obtain ⟨rfl, rfl, rfl⟩ := h
      have hb : back .trylock 1#32 = .critical := by decide
      exact Or.inl ⟨rfl, rfl, by simp [Shape, hb], by simp [Got, hb]⟩
    · simp [exec, code] at h
      obtain ⟨rfl, rfl, rfl⟩ := h
      exact Or.inl ⟨rfl, rfl, by simp [Shape], by simp [Got]⟩
    · simp [exec, code] at h
      obtain ⟨rfl, rfl, rfl⟩ := h
      exact Or.inl ⟨rfl, rfl, rfl, by simp [Got]⟩
    · have h0 : w0 = 0 := hs
      subst h0
      simp only [exec, code, List.getElem?_cons_succ, List.getElem?_cons_zero, Option.some.injEq, Prod.mk.injEq] at h
      obtain ⟨rfl, rfl, rfl⟩ := h
      have hb : back .trylock 0#32 = .idle := by decide
      exact Or.inl ⟨rfl, rfl, by simp [Shape, hb], by simp [Got, hb]⟩
    · simp [exec, code] at h
  | unlock =>
    rcases pc with _ | _ | _ | pc
    · simp [exec, code] at h
      obtain ⟨rfl, rfl, rfl⟩ := h
      exact Or.inl ⟨rfl, rfl, by simp [Shape], by simp [Got]⟩
    · simp [exec, code] at h
      obtain ⟨rfl, rfl, rfl⟩ := h
      exact Or.inr (Or.inr ⟨rfl, rfl, by simp [Got], by simp [Got], by simp [Shape]⟩)
    · simp [exec, code] at h
      obtain ⟨rfl, rfl, rfl⟩ := h
      exact Or.inl ⟨rfl, rfl, by simp [Shape, back], by simp [Got, back]⟩
    · simp [exec, code] at h

structure Inv (s : State) : Prop where
  bit : s.mem 0 = 0 ∨ s.mem 0 = 1
  shape : ∀ i, Shape (s.mem 0) (s.thread i)
  one : ∀ i j, Got (s.thread i) → Got (s.thread j) → i = j
  taken : ∀ i, Got (s.thread i) → s.mem 0 = 1
  held : s.mem 0 = 1 → ∃ i, Got (s.thread i)
  data : ∀ a, a ≠ 0 → s.mem a = s.last a

theorem inv_start {s : State} (h : Start s) : Inv s := by
  obtain ⟨h0, h1, h2⟩ := h
  have hno : ∀ i, ¬ Got (s.thread i) := fun i => by simp [Got, h2 i]
  exact ⟨Or.inl h0, fun i => by simp [Shape, h2 i], fun i _ h => absurd h (hno i), fun i h => absurd h (hno i),
    fun h => (by rw [h0] at h; exact absurd h (by decide)), fun a _ => by rw [h1]⟩

theorem shape_clear {v v' : Val} {t : Thread} (h : Shape v t) : Shape v' { t with mon := false } := by
  obtain ⟨p, w0, w1, w2, w3, mon⟩ := t
  unfold Shape at *
  simp only at *
  split <;> simp_all

theorem got_clear {t : Thread} : Got { t with mon := false } ↔ Got t := Iff.rfl

theorem inv_quiet {s : State} (hi : Inv s) {i : Nat} {m : Mem} {t : Thread} {w : Bool} (hq : Quiet s.mem m (s.thread i) t w) : Inv (s.set i m t w) := by
  obtain ⟨rfl, rfl, h1, h2⟩ := hq
  have ho : ∀ j, Got ((s.set i s.mem t false).thread j) ↔ Got (s.thread j) := fun j => by
    by_cases e : j = i
    · subst e; simpa [State.set] using h2
    · simp [State.set, e]
  refine ⟨hi.bit, fun j => ?_, fun j k hj hk => hi.one j k ((ho j).1 hj) ((ho k).1 hk), fun j hj => hi.taken j ((ho j).1 hj), fun h => ?_, hi.data⟩
  · by_cases e : j = i
    · subst e; simpa [State.set] using h1
    · simpa [State.set, e] using hi.shape j
  · obtain ⟨j, hj⟩ := hi.held h
    exact ⟨j, (ho j).2 hj⟩

theorem inv_takes {s : State} (hi : Inv s) {i : Nat} {m : Mem} {t : Thread} {w : Bool} (hq : Takes s.mem m (s.thread i) t w) : Inv (s.set i m t w) := by
  obtain ⟨h0, rfl, rfl, h1, h3, h4⟩ := hq
  have hno : ∀ j, ¬ Got (s.thread j) := fun j hj => by
    have := hi.taken j hj
    rw [h0] at this
    exact absurd this (by decide)
  have ho : ∀ j, Got ((s.set i (poke s.mem 0 1) t true).thread j) → j = i := fun j hj => by
    apply Decidable.byContradiction
    intro e
    have hj' : Got { s.thread j with mon := false } := by simpa [State.set, e] using hj
    exact hno j hj'
  have hti : (s.set i (poke s.mem 0 1) t true).thread i = t := by simp [State.set]
  have hm : (s.set i (poke s.mem 0 1) t true).mem 0 = 1 := by simp [State.set, poke]
  refine ⟨Or.inr hm, fun j => ?_, fun j k hj hk => by rw [ho j hj, ho k hk], fun j hj => hm, fun _ => ⟨i, by rw [hti]; exact h3⟩, fun a ha => ?_⟩
  · rw [hm]
    by_cases e : j = i
    · subst e; rw [hti]; exact h4
    · simpa [State.set, e] using shape_clear (hi.shape j)
  · rw [show (s.set i (poke s.mem 0 1) t true).last = s.last from rfl, ← hi.data a ha]
    simp [State.set, poke, ha]

theorem inv_gives {s : State} (hi : Inv s) {i : Nat} {m : Mem} {t : Thread} {w : Bool} (hq : Gives s.mem m (s.thread i) t w) : Inv (s.set i m t w) := by
  obtain ⟨rfl, rfl, h1, h3, h4⟩ := hq
  have hti : (s.set i (poke s.mem 0 0) t true).thread i = t := by simp [State.set]
  have hno : ∀ j, ¬ Got ((s.set i (poke s.mem 0 0) t true).thread j) := fun j hj => by
    by_cases e : j = i
    · subst e; rw [hti] at hj; exact h3 hj
    · have hj' : Got { s.thread j with mon := false } := by simpa [State.set, e] using hj
      exact e (hi.one j i hj' h1)
  have hm : (s.set i (poke s.mem 0 0) t true).mem 0 = 0 := by simp [State.set, poke]
  refine ⟨Or.inl hm, fun j => ?_, fun j k hj => absurd hj (hno j), fun j hj => absurd hj (hno j),
    fun h => (by rw [hm] at h; exact absurd h (by decide)), fun a ha => ?_⟩
  · rw [hm]
    by_cases e : j = i
    · subst e; rw [hti]; exact h4
    · simpa [State.set, e] using shape_clear (hi.shape j)
  · rw [show (s.set i (poke s.mem 0 0) t true).last = s.last from rfl, ← hi.data a ha]
    simp [State.set, poke, ha]

theorem inv_step {s s' : State} (hi : Inv s) (h : Step s s') : Inv s' := by
  cases h with
  | @call i f h hf =>
    apply inv_quiet hi
    refine ⟨rfl, rfl, ?_, ?_⟩
    · cases f <;> first | (simp [Shape]; done) | exact absurd rfl hf
    · cases f <;> first | (simp [Got, h]; done) | exact absurd rfl hf
  | @free i h =>
    apply inv_quiet hi
    exact ⟨rfl, rfl, by simp [Shape], by simp [Got, h]⟩
  | @write i a v h ha =>
    have ht : ∀ j, (if j = i then s.thread i else if false = true then { s.thread j with mon := false } else s.thread j) = s.thread j := fun j => by
      by_cases e : j = i
      · simp [e]
      · simp [e]
    have hm : poke s.mem a v 0 = s.mem 0 := by simp [poke, Ne.symm ha]
    refine ⟨?_, fun j => ?_, fun j k hj hk => ?_, fun j hj => ?_, fun h' => ?_, fun x hx => ?_⟩
    · show poke s.mem a v 0 = 0 ∨ poke s.mem a v 0 = 1; rw [hm]; exact hi.bit
    · show Shape (poke s.mem a v 0) (if j = i then _ else _); rw [ht j, hm]; exact hi.shape j
    · exact hi.one j k (Eq.mp (congrArg Got (ht j)) hj) (Eq.mp (congrArg Got (ht k)) hk)
    · show poke s.mem a v 0 = 1; rw [hm]; exact hi.taken j (Eq.mp (congrArg Got (ht j)) hj)
    · have h'' : s.mem 0 = 1 := by rw [← hm]; exact h'
      obtain ⟨j, hj⟩ := hi.held h''
      exact ⟨j, Eq.mpr (congrArg Got (ht j)) hj⟩
    · show poke s.mem a v x = poke s.last a v x
      unfold poke
      split
      · rfl
      · exact hi.data x hx
  | @exec i ok f pc m t w h he =>
    rcases exec_cases (hi.shape i) h he with hq | hq | hq
    · exact inv_quiet hi hq
    · exact inv_takes hi hq
    · exact inv_gives hi hq

theorem inv_reach {s s' : State} (h0 : Start s) (h : Reach s s') : Inv s' := by
  induction h with
  | start => exact inv_start h0
  | step _ h2 ih => exact inv_step ih h2

/-- Instructions of one thread while all others wait; no exclusive store fails if `ok`. -/
def solo (ok : Bool) : Nat → Mem × Thread → Option (Mem × Thread)
  | 0, x => some x
  | n + 1, x =>
    match x.2.place with
    | .inside f pc => (exec ok f pc x.1 x.2).bind fun y => solo ok n (y.1, y.2.1)
    | _ => some x

end SpA

/-- C240: on x86-64 at most one thread has the lock. -/
theorem C240_exclusive {s₀ s : X86.State} (h0 : X86.Start s₀) (h : X86.Reach s₀ s) {i j : Nat} (hi : (s.thread i).place = .critical)
    (hj : (s.thread j).place = .critical) : i = j :=
  (SpX.inv_reach h0 h).one i j (Or.inl (by simp [SpX.Got, hi])) (Or.inl (by simp [SpX.Got, hj]))

/-- C240: a thread that has the lock reads what was written last, by whichever thread. -/
theorem C240_reads_last {s₀ s : X86.State} (h0 : X86.Start s₀) (h : X86.Reach s₀ s) {i : Nat} (hi : (s.thread i).place = .critical) {a : Nat}
    (ha : a ≠ 0) : X86.view s.mem (s.thread i) a = s.last a :=
  (SpX.inv_reach h0 h).seen i (Or.inl (by simp [SpX.Got, hi])) a ha

/-- C240: the lock is never lost: when all threads are outside and no store waits, it is free. -/
theorem C240_free {s₀ s : X86.State} (h0 : X86.Start s₀) (h : X86.Reach s₀ s) (hn : ∀ i, (s.thread i).place = .idle ∧ (s.thread i).buf = []) :
    s.mem 0 = 0 := by
  have hv := SpX.inv_reach h0 h
  rcases hv.bit with hb | hb
  · exact hb
  · obtain ⟨i, hi⟩ := hv.held hb
    rw [SpX.owns_nil (hn i).2] at hi
    simp [SpX.Got, (hn i).1] at hi

/-- C240: a thread inside one of the functions is never stuck. -/
theorem C240_not_stuck {s₀ s : X86.State} (h0 : X86.Start s₀) (h : X86.Reach s₀ s) {i : Nat} {f : Fn} {pc : Nat}
    (hi : (s.thread i).place = .inside f pc) : ∃ s', X86.Step s s' := by
  rcases SpX.can_go_on ((SpX.inv_reach h0 h).shape i) hi s.mem with h1 | h1
  · obtain ⟨⟨m, t⟩, h1⟩ := Option.isSome_iff_exists.1 h1
    exact ⟨_, .exec hi h1⟩
  · cases hb : (s.thread i).buf with
    | nil => exact absurd hb h1
    | cons e r => exact ⟨_, .flush (a := e.1) (v := e.2) hb⟩

/-- C240: a thread that finds the lock free and is not disturbed gets it, with either function. -/
theorem C240_gets_it (f : Fn) (hf : f ≠ .unlock) (m : Mem) (hm : m 0 = 0) (t : X86.Thread) (hp : t.place = .inside f 0) (hb : t.buf = []) :
    ∃ t', SpX.solo 6 (m, t) = some (poke m 0 1, t') ∧ t'.place = .critical := by
  obtain ⟨p, e, z, b⟩ := t
  simp only at hp hb
  subst hp hb
  cases f with
  | lock => simp [SpX.solo, X86.exec, X86.code, hm, X86.back]
  | trylock => simp [SpX.solo, X86.exec, X86.code, hm, X86.back]
  | unlock => exact absurd rfl hf

/-- C240: `trylock` of a lock that is taken goes back without it. -/
theorem C240_taken (m : Mem) (hm : m 0 = 1) (t : X86.Thread) (hp : t.place = .inside .trylock 0) (hb : t.buf = []) :
    ∃ t', SpX.solo 6 (m, t) = some (m, t') ∧ t'.place = .idle := by
  obtain ⟨p, e, z, b⟩ := t
  simp only at hp hb
  subst hp hb
  have := SpX.poke_same hm
  simp [SpX.solo, X86.exec, X86.code, hm, X86.back]
  exact ⟨_, ⟨this, rfl⟩, rfl⟩

/-- C241: on ARM64 at most one thread has the lock. -/
theorem C241_exclusive {s₀ s : Arm.State} (h0 : Arm.Start s₀) (h : Arm.Reach s₀ s) {i j : Nat} (hi : (s.thread i).place = .critical)
    (hj : (s.thread j).place = .critical) : i = j :=
  (SpA.inv_reach h0 h).one i j (by simp [SpA.Got, hi]) (by simp [SpA.Got, hj])

/-- C241: the lock is never lost. -/
theorem C241_free {s₀ s : Arm.State} (h0 : Arm.Start s₀) (h : Arm.Reach s₀ s) (hn : ∀ i, (s.thread i).place = .idle) : s.mem 0 = 0 := by
  have hv := SpA.inv_reach h0 h
  rcases hv.bit with hb | hb
  · exact hb
  · obtain ⟨i, hi⟩ := hv.held hb
    simp [SpA.Got, hn i] at hi

/-- C241: a thread that finds the lock free and is not disturbed gets it, unless an exclusive store fails. -/
theorem C241_gets_it (f : Fn) (hf : f ≠ .unlock) (m : Mem) (hm : m 0 = 0) (t : Arm.Thread) (hp : t.place = .inside f 0) :
    ∃ t', SpA.solo true 8 (m, t) = some (poke m 0 1, t') ∧ t'.place = .critical := by
  obtain ⟨p, w0, w1, w2, w3, mon⟩ := t
  simp only at hp
  subst hp
  cases f with
  | lock => simp [SpA.solo, Arm.exec, Arm.code, hm, Arm.back]
  | trylock => simp [SpA.solo, Arm.exec, Arm.code, hm, Arm.back]
  | unlock => exact absurd rfl hf

/-- C241: if it fails, `trylock` goes back without a lock that was free, and leaves it free. -/
theorem C241_spurious (m : Mem) (hm : m 0 = 0) (t : Arm.Thread) (hp : t.place = .inside .trylock 0) :
    ∃ t', SpA.solo false 8 (m, t) = some (m, t') ∧ t'.place = .idle := by
  obtain ⟨p, w0, w1, w2, w3, mon⟩ := t
  simp only at hp
  subst hp
  simp [SpA.solo, Arm.exec, Arm.code, hm, Arm.back]

/-- There is a start. -/
example : ∃ s, X86.Start s := ⟨⟨fun _ => 0, fun _ => ⟨.idle, 0, false, []⟩, fun _ => 0⟩, rfl, rfl, fun _ => ⟨rfl, rfl⟩⟩
example : ∃ s, Arm.Start s := ⟨⟨fun _ => 0, fun _ => ⟨.idle, 0, 0, 0, 0, false⟩, fun _ => 0⟩, rfl, rfl, fun _ => rfl⟩

end Verif.Props
